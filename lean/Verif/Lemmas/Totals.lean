import Verif.Lemmas.Progress
import Verif.Lemmas.Fresh
import Verif.Lemmas.Sums

/-
Only the sums of the rates over each subgroup enter a step (used by C85).
-/

set_option linter.unusedSectionVars false

namespace Verif.TE

open Verif.Np

variable {K : Type} [Field K] [LinearOrder K] [IsStrictOrderedRing K]

theorem bind_congr_ok {α β : Type} {x : Except Err α} {f g : α → Except Err β} (h : ∀ a, x = .ok a → f a = g a) :
    (x >>= f) = (x >>= g) := by
  cases x with
  | error e => rfl
  | ok a => exact h a rfl

/-- the names of the processes of each group; without subgroups there is one group with all of them -/
def groupNames (fns : List (String × GammaFn K)) (sg : Option (List (List String))) : List (List String) :=
  match sg with
  | none => [fns.map Prod.fst]
  | some rows => rows

/-- what the function of one name gives at the `i`-th point, 0 when there is no such function -/
def fnAt (fns : List (String × GammaFn K)) (d : Dist K) (p : FnParams K) (i : Nat) (name : String) : K :=
  match fns.lookup name with
  | some f => (f d p).getD i 0
  | none => 0

/-- what the functions of a group give together at the `i`-th point -/
def totalAt (fns : List (String × GammaFn K)) (d : Dist K) (p : FnParams K) (i : Nat) (names : List String) : K :=
  (names.map (fnAt fns d p i)).sum

/-- group by group the functions add up to the same rates -/
def SameTotals (sg sg' : Option (List (List String))) (fns fns' : List (String × GammaFn K)) : Prop :=
  List.Forall₂ (fun ns ns' => ∀ d p i, i < p.gamma.length → totalAt fns d p i ns = totalAt fns' d p i ns')
    (groupNames fns sg) (groupNames fns' sg')

/-- group by group the recorded rates add up to the same values -/
def Alike (gs gs' : List (List String)) (n : Nat) (r r' : Rates1 K) : Prop :=
  List.Forall₂ (fun ns ns' => ∀ j, j < n → (ns.map (rateAt r j)).sum = (ns'.map (rateAt r' j)).sum) gs gs'

theorem keys_of_forall₂ {α β : Type} {P : String × α → β → Prop} {fns : List (String × α)} {r : List (String × β)}
    (h : List.Forall₂ (fun f p => p.1 = f.1 ∧ P f p.2) fns r) : r.map Prod.fst = fns.map Prod.fst := by
  induction h with
  | nil => rfl
  | cons h _ ih => simp only [List.map_cons, ih, h.1]

theorem lookup_cases {α β : Type} {P : String × α → β → Prop} {fns : List (String × α)} {r : List (String × β)}
    (h : List.Forall₂ (fun f p => p.1 = f.1 ∧ P f p.2) fns r) (x : String) :
    (fns.lookup x = none ∧ r.lookup x = none) ∨ ∃ f v, (x, f) ∈ fns ∧ fns.lookup x = some f ∧ r.lookup x = some v ∧ P (x, f) v := by
  induction h with
  | nil => exact Or.inl ⟨rfl, rfl⟩
  | @cons f p fns r h _ ih =>
    obtain ⟨k, v⟩ := p
    obtain ⟨k', a⟩ := f
    obtain ⟨rfl, hp⟩ := h
    by_cases hx : x = k
    · subst hx
      exact Or.inr ⟨a, v, by simp, by simp, by simp, hp⟩
    · have hb : (x == k) = false := by simpa using hx
      simp only [List.lookup_cons, hb]
      rcases ih with h | ⟨f, v, h0, h1, h2, h3⟩
      · exact Or.inl h
      · exact Or.inr ⟨f, v, List.mem_cons_of_mem _ h0, h1, h2, h3⟩

theorem ext_of_getD {l l' : List K} {n : Nat} (h : l.length = n) (h' : l'.length = n)
    (hj : ∀ j, j < n → l.getD j 0 = l'.getD j 0) : l = l' := by
  refine List.ext_getElem (by rw [h, h']) fun i h1 h2 => ?_
  have := hj i (by omega)
  rwa [List.getD_eq_getElem _ _ h1, List.getD_eq_getElem _ _ h2] at this

theorem ext_rows {G G' : List (List K)} {n : Nat} (hl : G.length = G'.length) (h : ∀ r ∈ G, r.length = n)
    (h' : ∀ r ∈ G', r.length = n)
    (hj : ∀ k (h1 : k < G.length) (h2 : k < G'.length), ∀ j, j < n → G[k].getD j 0 = G'[k].getD j 0) : G = G' := by
  refine List.ext_getElem hl fun i h1 h2 => ?_
  exact ext_of_getD (h _ (List.getElem_mem h1)) (h' _ (List.getElem_mem h2)) (hj i h1 h2)

/-- the sums of a dictionary of rates, row by row -/
theorem groupSums1_rows {fns : List (String × GammaFn K)} (hk : (fns.map Prod.fst).Nodup) {n : Nat} {r : Rates1 K}
    (hkeys : r.map Prod.fst = fns.map Prod.fst) (hlen : ∀ p ∈ r, p.2.length = n) (hfin : ∀ p ∈ r, Fin1 p.2)
    (sg : Option (List (List String))) :
    ∃ G, (sumRates1 r n sg).mapM finiteRow = .ok G ∧ (∀ u ∈ G, u.length = n) ∧
      G.length = (groupNames fns sg).length ∧
      ∀ k (h1 : k < G.length) (h2 : k < (groupNames fns sg).length), ∀ j, j < n →
        G[k].getD j 0 = ((groupNames fns sg)[k].map (rateAt r j)).sum := by
  obtain ⟨G, hG⟩ := mapM_ok_exists (f := finiteRow) (l := sumRates1 r n sg)
    fun b hb => finiteRow_ok (sumRates1_fin hfin _ b hb)
  have hlG : ∀ u ∈ G, u.length = n :=
    mapM_forall_mem hG fun a ha b hb => (finiteRow_length hb).trans (sumRates1_len hlen sg a ha)
  refine ⟨G, hG, hlG, ?_⟩
  cases sg with
  | none =>
    obtain ⟨v, rfl, hv⟩ := sumRates1_none hlen (by rw [hkeys]; exact hk) hG
    refine ⟨rfl, fun k h1 h2 j hj => ?_⟩
    have : k = 0 := by simpa using h1
    subst this
    simp only [groupNames, List.getElem_cons_zero]
    rw [hv j hj, hkeys]
  | some rows =>
    obtain ⟨h1, h2⟩ := sumRates1_some hlen hG
    exact ⟨h1, fun k a b j hj => h2 k b a j hj⟩

theorem groupSums1 {fns fns' : List (String × GammaFn K)} (hk : (fns.map Prod.fst).Nodup)
    (hk' : (fns'.map Prod.fst).Nodup) {n : Nat} {r r' : Rates1 K}
    (hkeys : r.map Prod.fst = fns.map Prod.fst) (hlen : ∀ p ∈ r, p.2.length = n) (hfin : ∀ p ∈ r, Fin1 p.2)
    (hkeys' : r'.map Prod.fst = fns'.map Prod.fst) (hlen' : ∀ p ∈ r', p.2.length = n) (hfin' : ∀ p ∈ r', Fin1 p.2)
    {sg sg' : Option (List (List String))} (h : Alike (groupNames fns sg) (groupNames fns' sg') n r r') :
    ∃ G, (sumRates1 r n sg).mapM finiteRow = .ok G ∧ (sumRates1 r' n sg').mapM finiteRow = .ok G := by
  obtain ⟨G, hG, a1, a2, a3⟩ := groupSums1_rows hk hkeys hlen hfin sg
  obtain ⟨G', hG', b1, b2, b3⟩ := groupSums1_rows hk' hkeys' hlen' hfin' sg'
  have hl := h.length_eq
  refine ⟨G, hG, ?_⟩
  rw [hG']
  refine congrArg Except.ok (ext_rows (by omega) b1 a1 fun k h1 h2 j hj => ?_)
  rw [b3 k h1 (by omega) j hj, a3 k h2 (by omega) j hj]
  exact ((List.forall₂_iff_get.1 h).2 k (by omega) (by omega) j hj).symm

theorem lowerRow_keys (r : Rates2 K) : (lowerRow r).map Prod.fst = r.map Prod.fst := by
  simp [lowerRow, Function.comp_def]

theorem upperRow_keys (r : Rates2 K) : (upperRow r).map Prod.fst = r.map Prod.fst := by
  simp [upperRow, Function.comp_def]

theorem finite_both {l l' : List (Bins (NV K))} {G G' : List (Bins K)} (h : l.mapM finiteBins = .ok G)
    (h' : l'.mapM finiteBins = .ok G') {A B : List (List K)}
    (h1 : (l.map (·.lb)).mapM finiteRow = .ok A) (h1' : (l'.map (·.lb)).mapM finiteRow = .ok A)
    (h2 : (l.map (·.ub)).mapM finiteRow = .ok B) (h2' : (l'.map (·.ub)).mapM finiteRow = .ok B) : G = G' := by
  obtain ⟨a, b⟩ := mapM_finiteBins h
  obtain ⟨a', b'⟩ := mapM_finiteBins h'
  rw [h1] at a; rw [h1'] at a'; rw [h2] at b; rw [h2'] at b'
  have e1 : G.map (·.lb) = G'.map (·.lb) := (Except.ok.inj a).symm.trans (Except.ok.inj a')
  have e2 : G.map (·.ub) = G'.map (·.ub) := (Except.ok.inj b).symm.trans (Except.ok.inj b')
  refine List.ext_getElem (by simpa using congrArg List.length e1) fun i h1 h2 => ?_
  have f1 : (G.map (·.lb))[i]? = (G'.map (·.lb))[i]? := by rw [e1]
  have f2 : (G.map (·.ub))[i]? = (G'.map (·.ub))[i]? := by rw [e2]
  simp only [List.getElem?_map, List.getElem?_eq_getElem h1, List.getElem?_eq_getElem h2, Option.map_some,
    Option.some.injEq] at f1 f2
  generalize G[i] = a at f1 f2
  generalize G'[i] = b at f1 f2
  cases a; cases b
  simp only at f1 f2
  rw [f1, f2]

theorem groupSums2 {fns fns' : List (String × GammaFn K)} (hk : (fns.map Prod.fst).Nodup)
    (hk' : (fns'.map Prod.fst).Nodup) {n : Nat} {r r' : Rates2 K} (hr : RatesGood2 fns n r)
    (hr' : RatesGood2 fns' n r') {sg sg' : Option (List (List String))}
    (hlo : Alike (groupNames fns sg) (groupNames fns' sg') n (lowerRow r) (lowerRow r'))
    (hup : Alike (groupNames fns sg) (groupNames fns' sg') n (upperRow r) (upperRow r')) :
    ∃ G, (sumRates2 r n sg).mapM finiteBins = .ok G ∧ (sumRates2 r' n sg').mapM finiteBins = .ok G := by
  have low : ∀ {fns : List (String × GammaFn K)} {r : Rates2 K}, RatesGood2 fns n r →
      (lowerRow r).map Prod.fst = fns.map Prod.fst ∧ (∀ p ∈ lowerRow r, p.2.length = n) ∧
        (∀ p ∈ lowerRow r, Fin1 p.2) := by
    intro fns r hr
    refine ⟨(lowerRow_keys r).trans (keys_of_forall₂ hr), ?_, ?_⟩
    · intro p hp
      obtain ⟨q, hq, rfl⟩ := List.mem_map.1 hp
      exact (hr.len q hq).1
    · intro p hp
      obtain ⟨q, hq, rfl⟩ := List.mem_map.1 hp
      exact (hr.fin q hq).1
  have upp : ∀ {fns : List (String × GammaFn K)} {r : Rates2 K}, RatesGood2 fns n r →
      (upperRow r).map Prod.fst = fns.map Prod.fst ∧ (∀ p ∈ upperRow r, p.2.length = n) ∧
        (∀ p ∈ upperRow r, Fin1 p.2) := by
    intro fns r hr
    refine ⟨(upperRow_keys r).trans (keys_of_forall₂ hr), ?_, ?_⟩
    · intro p hp
      obtain ⟨q, hq, rfl⟩ := List.mem_map.1 hp
      exact (hr.len q hq).2
    · intro p hp
      obtain ⟨q, hq, rfl⟩ := List.mem_map.1 hp
      exact (hr.fin q hq).2
  obtain ⟨a1, a2, a3⟩ := low hr
  obtain ⟨b1, b2, b3⟩ := low hr'
  obtain ⟨c1, c2, c3⟩ := upp hr
  obtain ⟨d1, d2, d3⟩ := upp hr'
  obtain ⟨A, hA, hA'⟩ := groupSums1 hk hk' a1 a2 a3 b1 b2 b3 hlo
  obtain ⟨B, hB, hB'⟩ := groupSums1 hk hk' c1 c2 c3 d1 d2 d3 hup
  obtain ⟨G, hG⟩ := mapM_ok_exists (f := finiteBins) (l := sumRates2 r n sg)
    fun b hb => finiteBins_ok (sumRates2_fin hr.fin _ b hb)
  obtain ⟨G', hG'⟩ := mapM_ok_exists (f := finiteBins) (l := sumRates2 r' n sg')
    fun b hb => finiteBins_ok (sumRates2_fin hr'.fin _ b hb)
  rw [← sumRates2_lb] at hA hA'
  rw [← sumRates2_ub] at hB hB'
  have := finite_both hG hG' hA hA' hB hB'
  subst this
  exact ⟨G, hG, hG'⟩

/-! ### where the rates come from -/

/-- the number of selected elements before the `j`-th -/
def rank (mask : List Bool) (j : Nat) : Nat := countMask (mask.take j)

theorem rank_lt {mask : List Bool} {j : Nat} (hj : j < mask.length) (hm : mask[j] = true) :
    rank mask j < countMask mask := by
  unfold rank countMask
  have h1 : mask = mask.take j ++ mask[j] :: mask.drop (j + 1) := by
    rw [← List.drop_eq_getElem_cons hj, List.take_append_drop]
  conv_rhs => rw [h1]
  simp [hm]

theorem scatter_getD {α : Type} (d : α) : ∀ (mask : List Bool) (new old : List α), mask.length = old.length →
    new.length = countMask mask → ∀ j (hj : j < mask.length),
    (scatter mask new old).getD j d = if mask[j] then new.getD (rank mask j) d else old.getD j d := by
  intro mask
  induction mask with
  | nil => intro new old _ _ j hj; exact absurd hj (by simp)
  | cons c mask ih =>
    intro new old ho hn j hj
    cases old with
    | nil => simp at ho
    | cons o old =>
      cases c with
      | true =>
        cases new with
        | nil => simp [countMask] at hn
        | cons x new =>
          have hn' : new.length = countMask mask := by simpa [countMask] using hn
          cases j with
          | zero => simp [scatter, rank, countMask]
          | succ j =>
            have := ih new old (by simpa using ho) hn' j (by simpa using hj)
            simp only [scatter, List.getD_cons_succ, List.getElem_cons_succ, this]
            simp [rank, countMask]
      | false =>
        have hn' : new.length = countMask mask := by simpa [countMask] using hn
        cases j with
        | zero => cases new <;> simp [scatter]
        | succ j =>
          have := ih new old (by simpa using ho) hn' j (by simpa using hj)
          cases new <;> simp only [scatter, List.getD_cons_succ, List.getElem_cons_succ, this] <;>
            simp [rank, countMask]

theorem nvAt_some (l : List K) (j : Nat) : nvAt (l.map some) j = l.getD j 0 := by
  unfold nvAt
  rw [List.getD_map_none]
  simp
where
  List.getD_map_none : (l.map some).getD j none = l[j]? := by
    rw [List.getD_eq_getElem?_getD, List.getElem?_map]
    cases l[j]? <;> rfl

theorem nvAt_scatter {mask : List Bool} {new : List K} {old : List (NV K)} (ho : mask.length = old.length)
    (hn : new.length = countMask mask) {j : Nat} (hj : j < mask.length) :
    nvAt (scatter mask (new.map some) old) j = if mask[j] then new.getD (rank mask j) 0 else nvAt old j := by
  have := scatter_getD (none : NV K) mask (new.map some) old ho (by simpa using hn) j hj
  unfold nvAt
  rw [this]
  split
  · exact nvAt_some new _
  · rfl

theorem nvAt_pull {l : List (Option Nat)} {v : List (NV K)} {j : Nat} (hj : j < l.length) :
    nvAt (pull l v none) j = match l[j] with
      | none => 0
      | some i => nvAt v i := by
  unfold nvAt
  rw [pull_getD _ _ _ _ hj]
  cases l[j] <;> rfl

theorem forall₂_and_mem {α β : Type} {R : α → β → Prop} {l : List α} {r : List β} (h : List.Forall₂ R l r) :
    List.Forall₂ (fun a b => a ∈ l ∧ R a b) l r := by
  induction h with
  | nil => exact .nil
  | cons h _ ih =>
    exact .cons ⟨by simp, h⟩ (ih.imp fun a b hab => ⟨List.mem_cons_of_mem _ hab.1, hab.2⟩)

theorem recalc1_sum {dist : Dist K} {g : List K} {fns : List (String × GammaFn K)} {dens : List K}
    {sub : List (List K)} {prev r : Rates1 K} {mask : List Bool} {n : Nat} (hm : mask.length = n)
    (hprev : ∀ f ∈ fns, ∃ v, prev.lookup f.1 = some v ∧ v.length = n)
    (hkeys : prev.map Prod.fst = fns.map Prod.fst)
    (h : recalcRates1 dist g fns dens sub prev mask = .ok r) :
    ∃ p, params1 g dens sub mask = .ok p ∧ ∀ j (hj : j < mask.length) (x : String),
      rateAt r j x = if mask[j] then fnAt fns dist p (rank mask j) x else rateAt prev j x := by
  unfold recalcRates1 at h
  obtain ⟨p, hp, h⟩ := bind_ok_iff.1 h
  refine ⟨p, hp, fun j hj x => ?_⟩
  have hF : List.Forall₂ (fun f q => q.1 = f.1 ∧ ∃ old new, prev.lookup f.1 = some old ∧ old.length = n ∧
      new = f.2 dist p ∧ new.length = countMask mask ∧ q.2 = scatter mask (new.map some) old) fns r := by
    refine forall₂_left h fun f hf q hq => ?_
    obtain ⟨old, h1, hq⟩ := bind_ok_iff.1 hq
    obtain ⟨new, h2, hq⟩ := bind_ok_iff.1 hq
    cases pure_ok_iff.1 hq
    obtain ⟨h3, h4⟩ := reshape1_spec h2
    obtain ⟨v, hv, hvl⟩ := hprev f hf
    have hold := dictGet_ok.1 h1
    have : v = old := Option.some.inj (hv.symm.trans hold)
    subst this
    exact ⟨rfl, v, new, hold, hvl, h3, h4, rfl⟩
  rcases lookup_cases (P := fun (f : String × GammaFn K) v => ∃ old new, prev.lookup f.1 = some old ∧ old.length = n ∧
      new = f.2 dist p ∧ new.length = countMask mask ∧ v = scatter mask (new.map some) old) hF x with
    ⟨h1, h2⟩ | ⟨f, v, -, h1, h2, old, new, h3, h4, h5, h6, rfl⟩
  · have h3 : prev.lookup x = none := by
      rw [List.lookup_eq_none_iff] at h1 ⊢
      intro q hq
      have : q.1 ∈ fns.map Prod.fst := by rw [← hkeys]; exact List.mem_map_of_mem hq
      obtain ⟨f, hf, he⟩ := List.mem_map.1 this
      rw [← he]
      exact h1 f hf
    simp only [rateAt, fnAt, h1, h2, h3, ite_self]
  · simp only [rateAt, fnAt, h1, h2, h3]
    rw [nvAt_scatter (by omega) h6 hj, h5]

theorem remap1_sum {r r' : Rates1 K} {l : List (Option Nat)} {n : Nat} (hlen : ∀ p ∈ r, p.2.length = n)
    (hl : InRange n l) (h : remapRates1 (l.map enc) r = .ok r') :
    r'.map Prod.fst = r.map Prod.fst ∧ (∀ p ∈ r', p.2.length = l.length) ∧
      ∀ j (hj : j < l.length) (x : String), rateAt r' j x = match l[j] with
        | none => 0
        | some i => rateAt r i x := by
  unfold remapRates1 at h
  have hF : List.Forall₂ (fun f q => q.1 = f.1 ∧ q.2 = pull l f.2 none) r r' := by
    refine forall₂_left h fun f hf q hq => ?_
    obtain ⟨v, h1, hq⟩ := bind_ok_iff.1 hq
    cases pure_ok_iff.1 hq
    exact ⟨rfl, remap_enc_ok (by rw [hlen f hf]; exact hl) h1⟩
  refine ⟨keys_of_forall₂ (P := fun f v => v = pull l f.2 none) hF, ?_, fun j hj x => ?_⟩
  · intro p hp
    obtain ⟨f, -, hq⟩ := List.forall₂_mem_right hF hp
    rw [hq.2]
    simp [pull]
  · rcases lookup_cases (P := fun f v => v = pull l f.2 none) hF x with ⟨h1, h2⟩ | ⟨f, v, -, h1, h2, rfl⟩
    · simp only [rateAt, h1, h2]
      cases l[j] <;> rfl
    · simp only [rateAt, h1, h2]
      rw [nvAt_pull hj]
where
  List.forall₂_mem_right {α β : Type} {R : α → β → Prop} {l : List α} {r : List β} (h : List.Forall₂ R l r) {b : β}
      (hb : b ∈ r) : ∃ a ∈ l, R a b := by
    induction h with
    | nil => exact absurd hb (by simp)
    | cons h _ ih =>
      rcases List.mem_cons.1 hb with rfl | hb
      · exact ⟨_, by simp, h⟩
      · obtain ⟨a, ha, hr⟩ := ih hb
        exact ⟨a, List.mem_cons_of_mem _ ha, hr⟩

theorem remapRates2_rows {r r' : Rates2 K} {m : List Int} (h : remapRates2 m r = .ok r') :
    remapRates1 m (lowerRow r) = .ok (lowerRow r') ∧ remapRates1 m (upperRow r) = .ok (upperRow r') := by
  unfold remapRates2 at h
  have hF : List.Forall₂ (fun (f q : String × Bins (NV K)) => q.1 = f.1 ∧
      remap m f.2.lb (some none) = .ok q.2.lb ∧ remap m f.2.ub (some none) = .ok q.2.ub) r r' := by
    refine forall₂_left h fun f hf q hq => ?_
    obtain ⟨v, h1, hq⟩ := bind_ok_iff.1 hq
    cases pure_ok_iff.1 hq
    obtain ⟨a, h2, h1⟩ := bind_ok_iff.1 h1
    obtain ⟨b, h3, h1⟩ := bind_ok_iff.1 h1
    cases pure_ok_iff.1 h1
    exact ⟨rfl, h2, h3⟩
  unfold remapRates1 lowerRow upperRow
  constructor
  · refine mapM_ok_iff.2 (List.forall₂_map_left_iff.2 (List.forall₂_map_right_iff.2 (hF.imp fun f q hq => ?_)))
    show (_ >>= _) = _
    rw [hq.2.1, hq.1]
    rfl
  · refine mapM_ok_iff.2 (List.forall₂_map_left_iff.2 (List.forall₂_map_right_iff.2 (hF.imp fun f q hq => ?_)))
    show (_ >>= _) = _
    rw [hq.2.2, hq.1]
    rfl

theorem reshape2_getD {n : Nat} {l : List K} {b : Bins K} (h : reshape2 n l = .ok b) :
    b.lb.length = n ∧ b.ub.length = n ∧
      ∀ j, j < n → b.lb.getD j 0 = l.getD (2 * j) 0 ∧ b.ub.getD j 0 = l.getD (2 * j + 1) 0 := by
  obtain ⟨h1, -, -⟩ := reshape2_spec h
  refine ⟨h1.1, h1.2, fun j hj => ?_⟩
  unfold reshape2 at h
  split at h
  · next hl =>
    cases h
    exact deinterlace_getD l j n hl hj
  · exact absurd h (by simp)

theorem recalc2_sum {dist : Dist K} {b : Bins K} {fns : List (String × GammaFn K)} {dens : List K}
    {sub : List (List K)} {prev r : Rates2 K} {mask : List Bool} {n : Nat} (hm : mask.length = n)
    (hprev : ∀ f ∈ fns, ∃ v, prev.lookup f.1 = some v ∧ v.Len n)
    (hkeys : prev.map Prod.fst = fns.map Prod.fst)
    (h : recalcRates2 dist b fns dens sub prev mask = .ok r) :
    ∃ p, params2 b dens sub mask = .ok p ∧ ∀ j (hj : j < mask.length) (x : String),
      (rateAt (lowerRow r) j x
        = if mask[j] then fnAt fns dist p (2 * rank mask j) x else rateAt (lowerRow prev) j x) ∧
      (rateAt (upperRow r) j x
        = if mask[j] then fnAt fns dist p (2 * rank mask j + 1) x else rateAt (upperRow prev) j x) := by
  unfold recalcRates2 at h
  obtain ⟨p, hp, h⟩ := bind_ok_iff.1 h
  refine ⟨p, hp, fun j hj x => ?_⟩
  have hF : List.Forall₂ (fun f q => q.1 = f.1 ∧ ∃ (old : Bins (NV K)) (new : Bins K), prev.lookup f.1 = some old ∧
      old.Len n ∧ reshape2 (countMask mask) (f.2 dist p) = .ok new ∧
      q.2 = ⟨scatter mask (new.lb.map some) old.lb, scatter mask (new.ub.map some) old.ub⟩) fns r := by
    refine forall₂_left h fun f hf q hq => ?_
    obtain ⟨old, h1, hq⟩ := bind_ok_iff.1 hq
    obtain ⟨new, h2, hq⟩ := bind_ok_iff.1 hq
    cases pure_ok_iff.1 hq
    obtain ⟨v, hv, hvl⟩ := hprev f hf
    have hold := dictGet_ok.1 h1
    have : v = old := Option.some.inj (hv.symm.trans hold)
    subst this
    exact ⟨rfl, v, new, hold, hvl, h2, rfl⟩
  have el : ∀ q : Rates2 K, (lowerRow q).lookup x = (q.lookup x).map (·.lb) := fun q => lookup_map _ q x
  have eu : ∀ q : Rates2 K, (upperRow q).lookup x = (q.lookup x).map (·.ub) := fun q => lookup_map _ q x
  rcases lookup_cases (P := fun (f : String × GammaFn K) (v : Bins (NV K)) => ∃ (old : Bins (NV K)) (new : Bins K),
      prev.lookup f.1 = some old ∧ old.Len n ∧ reshape2 (countMask mask) (f.2 dist p) = .ok new ∧
      v = ⟨scatter mask (new.lb.map some) old.lb, scatter mask (new.ub.map some) old.ub⟩) hF x with
    ⟨h1, h2⟩ | ⟨f, v, -, h1, h2, old, new, h3, h4, h5, rfl⟩
  · have h3 : prev.lookup x = none := by
      rw [List.lookup_eq_none_iff] at h1 ⊢
      intro q hq
      have : q.1 ∈ fns.map Prod.fst := by rw [← hkeys]; exact List.mem_map_of_mem hq
      obtain ⟨f, hf, he⟩ := List.mem_map.1 this
      rw [← he]
      exact h1 f hf
    simp only [rateAt, fnAt, el, eu, h1, h2, h3, Option.map_none, ite_self, and_self]
  · simp only [rateAt, fnAt, el, eu, h1, h2, h3, Option.map_some]
    obtain ⟨c1, c2, c3⟩ := reshape2_getD h5
    rw [nvAt_scatter (by rw [hm]; exact h4.1.symm) c1 hj, nvAt_scatter (by rw [hm]; exact h4.2.symm) c2 hj]
    constructor
    · split
      · next ht => exact (c3 _ (rank_lt hj ht)).1
      · rfl
    · split
      · next ht => exact (c3 _ (rank_lt hj ht)).2
      · rfl

theorem newRates1_rateAt {dist : Dist K} {g : List K} {fns : List (String × GammaFn K)} {dens : List K}
    {sub : List (List K)} {r : Rates1 K} (h : newRates1 dist g fns dens sub = .ok r) :
    ∃ p, params1 g dens sub (List.replicate g.length true) = .ok p ∧ ∀ j (x : String),
      rateAt r j x = fnAt fns dist p j x := by
  unfold newRates1 at h
  obtain ⟨p, hp, h⟩ := bind_ok_iff.1 h
  refine ⟨p, hp, fun j x => ?_⟩
  have hF : List.Forall₂ (fun f q => q.1 = f.1 ∧ q.2 = (f.2 dist p).map some) fns r := by
    refine forall₂_left h fun f hf q hq => ?_
    obtain ⟨new, h2, hq⟩ := bind_ok_iff.1 hq
    cases pure_ok_iff.1 hq
    obtain ⟨h3, h4⟩ := reshape1_spec h2
    exact ⟨rfl, by rw [h3]⟩
  rcases lookup_cases (P := fun (f : String × GammaFn K) v => v = (f.2 dist p).map some) hF x with
    ⟨h1, h2⟩ | ⟨f, v, -, h1, h2, rfl⟩
  · simp only [rateAt, fnAt, h1, h2]
  · simp only [rateAt, fnAt, h1, h2]
    exact nvAt_some _ _

theorem newRates2_rateAt {dist : Dist K} {b : Bins K} {fns : List (String × GammaFn K)} {dens : List K}
    {sub : List (List K)} {r : Rates2 K} (h : newRates2 dist b fns dens sub = .ok r) :
    ∃ p, params2 b dens sub (List.replicate b.lb.length true) = .ok p ∧ ∀ j, j < b.lb.length → ∀ x : String,
      rateAt (lowerRow r) j x = fnAt fns dist p (2 * j) x ∧
      rateAt (upperRow r) j x = fnAt fns dist p (2 * j + 1) x := by
  unfold newRates2 at h
  obtain ⟨p, hp, h⟩ := bind_ok_iff.1 h
  refine ⟨p, hp, fun j hj x => ?_⟩
  have hF : List.Forall₂ (fun f q => q.1 = f.1 ∧ ∃ new : Bins K, reshape2 b.lb.length (f.2 dist p) = .ok new ∧
      q.2 = ⟨new.lb.map some, new.ub.map some⟩) fns r := by
    refine forall₂_left h fun f hf q hq => ?_
    obtain ⟨new, h2, hq⟩ := bind_ok_iff.1 hq
    cases pure_ok_iff.1 hq
    exact ⟨rfl, new, h2, rfl⟩
  have el : ∀ q : Rates2 K, (lowerRow q).lookup x = (q.lookup x).map (·.lb) := fun q => lookup_map _ q x
  have eu : ∀ q : Rates2 K, (upperRow q).lookup x = (q.lookup x).map (·.ub) := fun q => lookup_map _ q x
  rcases lookup_cases (P := fun (f : String × GammaFn K) (v : Bins (NV K)) => ∃ new : Bins K,
      reshape2 b.lb.length (f.2 dist p) = .ok new ∧ v = ⟨new.lb.map some, new.ub.map some⟩) hF x with
    ⟨h1, h2⟩ | ⟨f, v, -, h1, h2, new, h3, rfl⟩
  · simp only [rateAt, fnAt, el, eu, h1, h2, Option.map_none, and_self]
  · simp only [rateAt, fnAt, el, eu, h1, h2, Option.map_some, nvAt_some]
    exact (reshape2_getD h3).2.2 j hj

/-! ### alike rates stay alike -/

variable {sg sg' : Option (List (List String))} {fns fns' : List (String × GammaFn K)}

theorem params1_gamma {g dens : List K} {sub : List (List K)} {mask : List Bool} {p : FnParams K}
    (h : params1 g dens sub mask = .ok p) (hm : mask.length = g.length) : p.gamma.length = countMask mask := by
  unfold params1 at h
  obtain ⟨s, -, h⟩ := bind_ok_iff.1 h
  cases pure_ok_iff.1 h
  exact select_length hm

theorem params2_gamma {b : Bins K} {dens : List K} {sub : List (List K)} {mask : List Bool} {p : FnParams K}
    (h : params2 b dens sub mask = .ok p) (hm : b.Len mask.length) : p.gamma.length = 2 * countMask mask := by
  unfold params2 at h
  obtain ⟨s, -, h⟩ := bind_ok_iff.1 h
  cases pure_ok_iff.1 h
  exact interlace_length ⟨select_length hm.1.symm, select_length hm.2.symm⟩

theorem countMask_true (n : Nat) : countMask (List.replicate n true) = n := by
  simp [countMask]

theorem alike_new1 (h : SameTotals sg sg' fns fns') {dist : Dist K} {g dens : List K} {sub : List (List K)}
    {r r' : Rates1 K} (hr : newRates1 dist g fns dens sub = .ok r) (hr' : newRates1 dist g fns' dens sub = .ok r') :
    Alike (groupNames fns sg) (groupNames fns' sg') g.length r r' := by
  obtain ⟨p, hp, h1⟩ := newRates1_rateAt hr
  obtain ⟨p', hp', h2⟩ := newRates1_rateAt hr'
  cases hp.symm.trans hp'
  refine h.imp fun ns ns' hs j hj => ?_
  have e1 : rateAt r j = fnAt fns dist p j := funext (h1 j)
  have e2 : rateAt r' j = fnAt fns' dist p j := funext (h2 j)
  rw [e1, e2]
  refine hs dist p j ?_
  rw [params1_gamma hp (by simp), countMask_true]
  exact hj

theorem alike_new2 (h : SameTotals sg sg' fns fns') {dist : Dist K} {b : Bins K} (hb : b.ub.length = b.lb.length)
    {dens : List K} {sub : List (List K)}
    {r r' : Rates2 K} (hr : newRates2 dist b fns dens sub = .ok r) (hr' : newRates2 dist b fns' dens sub = .ok r') :
    Alike (groupNames fns sg) (groupNames fns' sg') b.lb.length (lowerRow r) (lowerRow r') ∧
      Alike (groupNames fns sg) (groupNames fns' sg') b.lb.length (upperRow r) (upperRow r') := by
  obtain ⟨p, hp, h1⟩ := newRates2_rateAt hr
  obtain ⟨p', hp', h2⟩ := newRates2_rateAt hr'
  cases hp.symm.trans hp'
  have hg : p.gamma.length = 2 * b.lb.length := by
    rw [params2_gamma hp ⟨by simp, by simp [hb]⟩, countMask_true]
  constructor
  · refine h.imp fun ns ns' hs j hj => ?_
    have e1 : rateAt (lowerRow r) j = fnAt fns dist p (2 * j) := funext fun x => (h1 j hj x).1
    have e2 : rateAt (lowerRow r') j = fnAt fns' dist p (2 * j) := funext fun x => (h2 j hj x).1
    rw [e1, e2]
    exact hs dist p _ (by omega)
  · refine h.imp fun ns ns' hs j hj => ?_
    have e1 : rateAt (upperRow r) j = fnAt fns dist p (2 * j + 1) := funext fun x => (h1 j hj x).2
    have e2 : rateAt (upperRow r') j = fnAt fns' dist p (2 * j + 1) := funext fun x => (h2 j hj x).2
    rw [e1, e2]
    exact hs dist p _ (by omega)

theorem alike_pull {gs gs' : List (List String)} {n : Nat} {r r' q q' : Rates1 K} {l : List (Option Nat)}
    (hl : InRange n l) (h : Alike gs gs' n r r') (hlen : ∀ p ∈ r, p.2.length = n) (hlen' : ∀ p ∈ r', p.2.length = n)
    (hq : remapRates1 (l.map enc) r = .ok q) (hq' : remapRates1 (l.map enc) r' = .ok q') :
    Alike gs gs' l.length q q' := by
  obtain ⟨-, -, h1⟩ := remap1_sum hlen hl hq
  obtain ⟨-, -, h2⟩ := remap1_sum hlen' hl hq'
  refine h.imp fun ns ns' hs j hj => ?_
  have e1 : rateAt q j = fun x => match l[j] with
    | none => 0
    | some i => rateAt r i x := funext fun x => h1 j hj x
  have e2 : rateAt q' j = fun x => match l[j] with
    | none => 0
    | some i => rateAt r' i x := funext fun x => h2 j hj x
  rw [e1, e2]
  cases hj' : l[j] with
  | none => simp
  | some i => exact hs i (hl i (hj' ▸ List.getElem_mem hj))

theorem alike_recalc1 (h : SameTotals sg sg' fns fns') {dist : Dist K} {g dens : List K} {sub : List (List K)}
    {mask : List Bool} (hm : mask.length = g.length) {prev prev' r r' : Rates1 K}
    (hprev : ∀ f ∈ fns, ∃ v, prev.lookup f.1 = some v ∧ v.length = mask.length)
    (hprev' : ∀ f ∈ fns', ∃ v, prev'.lookup f.1 = some v ∧ v.length = mask.length)
    (hkeys : prev.map Prod.fst = fns.map Prod.fst) (hkeys' : prev'.map Prod.fst = fns'.map Prod.fst)
    (ha : Alike (groupNames fns sg) (groupNames fns' sg') mask.length prev prev')
    (hr : recalcRates1 dist g fns dens sub prev mask = .ok r)
    (hr' : recalcRates1 dist g fns' dens sub prev' mask = .ok r') :
    Alike (groupNames fns sg) (groupNames fns' sg') mask.length r r' := by
  obtain ⟨p, hp, h1⟩ := recalc1_sum rfl hprev hkeys hr
  obtain ⟨p', hp', h2⟩ := recalc1_sum rfl hprev' hkeys' hr'
  cases hp.symm.trans hp'
  have hg := params1_gamma hp hm
  unfold SameTotals at h
  unfold Alike at ha ⊢
  refine List.forall₂_iff_get.2 ⟨h.length_eq, fun k k1 k2 j hj => ?_⟩
  have hs := (List.forall₂_iff_get.1 h).2 k k1 k2
  have hold := (List.forall₂_iff_get.1 ha).2 k k1 k2 j hj
  have e1 : rateAt r j = fun x => if mask[j] then fnAt fns dist p (rank mask j) x else rateAt prev j x :=
    funext fun x => h1 j hj x
  have e2 : rateAt r' j = fun x => if mask[j] then fnAt fns' dist p (rank mask j) x else rateAt prev' j x :=
    funext fun x => h2 j hj x
  rw [e1, e2]
  cases hmj : mask[j] with
  | true =>
    simp only [if_true]
    exact hs dist p _ (by rw [hg]; exact rank_lt hj hmj)
  | false =>
    simp only [Bool.false_eq_true, if_false]
    exact hold

theorem alike_recalc2 (h : SameTotals sg sg' fns fns') {dist : Dist K} {b : Bins K} {dens : List K}
    {sub : List (List K)} {mask : List Bool} (hb : b.Len mask.length) {prev prev' r r' : Rates2 K}
    (hprev : ∀ f ∈ fns, ∃ v, prev.lookup f.1 = some v ∧ v.Len mask.length)
    (hprev' : ∀ f ∈ fns', ∃ v, prev'.lookup f.1 = some v ∧ v.Len mask.length)
    (hkeys : prev.map Prod.fst = fns.map Prod.fst) (hkeys' : prev'.map Prod.fst = fns'.map Prod.fst)
    (ha : Alike (groupNames fns sg) (groupNames fns' sg') mask.length (lowerRow prev) (lowerRow prev'))
    (hu : Alike (groupNames fns sg) (groupNames fns' sg') mask.length (upperRow prev) (upperRow prev'))
    (hr : recalcRates2 dist b fns dens sub prev mask = .ok r)
    (hr' : recalcRates2 dist b fns' dens sub prev' mask = .ok r') :
    Alike (groupNames fns sg) (groupNames fns' sg') mask.length (lowerRow r) (lowerRow r') ∧
      Alike (groupNames fns sg) (groupNames fns' sg') mask.length (upperRow r) (upperRow r') := by
  obtain ⟨p, hp, h1⟩ := recalc2_sum rfl hprev hkeys hr
  obtain ⟨p', hp', h2⟩ := recalc2_sum rfl hprev' hkeys' hr'
  cases hp.symm.trans hp'
  have hg := params2_gamma hp hb
  unfold SameTotals at h
  unfold Alike at ha hu ⊢
  constructor
  · refine List.forall₂_iff_get.2 ⟨h.length_eq, fun k k1 k2 j hj => ?_⟩
    have hs := (List.forall₂_iff_get.1 h).2 k k1 k2
    have hold := (List.forall₂_iff_get.1 ha).2 k k1 k2 j hj
    have e1 : rateAt (lowerRow r) j = fun x =>
        if mask[j] then fnAt fns dist p (2 * rank mask j) x else rateAt (lowerRow prev) j x :=
      funext fun x => (h1 j hj x).1
    have e2 : rateAt (lowerRow r') j = fun x =>
        if mask[j] then fnAt fns' dist p (2 * rank mask j) x else rateAt (lowerRow prev') j x :=
      funext fun x => (h2 j hj x).1
    rw [e1, e2]
    cases hmj : mask[j] with
    | true =>
      simp only [if_true]
      have := rank_lt hj hmj
      exact hs dist p _ (by omega)
    | false =>
      simp only [Bool.false_eq_true, if_false]
      exact hold
  · refine List.forall₂_iff_get.2 ⟨h.length_eq, fun k k1 k2 j hj => ?_⟩
    have hs := (List.forall₂_iff_get.1 h).2 k k1 k2
    have hold := (List.forall₂_iff_get.1 hu).2 k k1 k2 j hj
    have e1 : rateAt (upperRow r) j = fun x =>
        if mask[j] then fnAt fns dist p (2 * rank mask j + 1) x else rateAt (upperRow prev) j x :=
      funext fun x => (h1 j hj x).2
    have e2 : rateAt (upperRow r') j = fun x =>
        if mask[j] then fnAt fns' dist p (2 * rank mask j + 1) x else rateAt (upperRow prev') j x :=
      funext fun x => (h2 j hj x).2
    rw [e1, e2]
    cases hmj : mask[j] with
    | true =>
      simp only [if_true]
      have := rank_lt hj hmj
      exact hs dist p _ (by omega)
    | false =>
      simp only [Bool.false_eq_true, if_false]
      exact hold

/-! ### the simulation -/

/-- two configurations that differ at most in how the rates are split into processes -/
structure SameProcesses (cfg cfg' : Cfg K) : Prop where
  rest : cfg' = { cfg with
    enFns := cfg'.enFns
    relFns := cfg'.relFns
    absFns := cfg'.absFns
    subgroups := cfg'.subgroups
    initialFractions := cfg'.initialFractions }
  start : initialSub cfg' = initialSub cfg
  en : SameTotals cfg.subgroups cfg'.subgroups cfg.enFns cfg'.enFns
  rel : SameTotals cfg.subgroups cfg'.subgroups cfg.relFns cfg'.relFns
  abs : SameTotals cfg.subgroups cfg'.subgroups cfg.absFns cfg'.absFns

structure ShapedAll (cfg : Cfg K) : Prop where
  en : Shaped cfg.enFns
  rel : Shaped cfg.relFns
  abs : Shaped cfg.absFns

variable {cfg cfg' : Cfg K}

/-- the same state but for the split of the rates -/
structure Sim (cfg cfg' : Cfg K) (s s' : State K) : Prop where
  bins : s'.bins = s.bins
  dens : s'.dens = s.dens
  sub : s'.sub = s.sub
  left : s'.timeLeft = s.timeLeft
  elapsed : s'.elapsed = s.elapsed
  dist : s'.dist = s.dist
  lower : Alike (groupNames cfg.enFns cfg.subgroups) (groupNames cfg'.enFns cfg'.subgroups) s.bins.lb.length
    (lowerRow s.en) (lowerRow s'.en)
  upper : Alike (groupNames cfg.enFns cfg.subgroups) (groupNames cfg'.enFns cfg'.subgroups) s.bins.lb.length
    (upperRow s.en) (upperRow s'.en)
  rel : Alike (groupNames cfg.relFns cfg.subgroups) (groupNames cfg'.relFns cfg'.subgroups) s.bins.lb.length
    s.rel s'.rel
  abs : Alike (groupNames cfg.absFns cfg.subgroups) (groupNames cfg'.absFns cfg'.subgroups) s.bins.lb.length
    s.abs s'.abs

theorem groupRates_sim (wf : cfg.WF) (wf' : cfg'.WF) {s s' : State K} (hI : Inv cfg s) (hI' : Inv cfg' s')
    (hS : Sim cfg cfg' s s') : groupRates cfg' s' = groupRates cfg s := by
  have hen := hI'.en
  have hrel := hI'.rel
  have habs := hI'.abs
  rw [hS.bins] at hen hrel habs
  obtain ⟨A, a1, a2⟩ := groupSums2 wf.keysEn wf'.keysEn hI.en hen hS.lower hS.upper
  obtain ⟨B, b1, b2⟩ := groupSums1 wf.keysRel wf'.keysRel (keys_of_forall₂ hI.rel) hI.rel.len hI.rel.fin
    (keys_of_forall₂ hrel) hrel.len hrel.fin hS.rel
  obtain ⟨C, c1, c2⟩ := groupSums1 wf.keysAbs wf'.keysAbs (keys_of_forall₂ hI.abs) hI.abs.len hI.abs.fin
    (keys_of_forall₂ habs) habs.len habs.fin hS.abs
  unfold groupRates
  rw [hS.bins]
  simp only [a1, a2, b1, b2, c1, c2]

theorem applyStages12_sim (h : SameProcesses cfg cfg') (wf : cfg.WF) (wf' : cfg'.WF) (hf : Shaped cfg.enFns)
    (hf' : Shaped cfg'.enFns) {n : Nat} {en : Bins K} {dens : List K} {sub : List (List K)} {enRates : List (Bins K)}
    {injRates : List (List K)} {t : K} (he : en.Len n) (hd : dens.length = n) (hsne : sub ≠ [])
    (hs : ∀ r ∈ sub, r.length = n) (hr : ∀ b ∈ enRates, b.Len n) (hi : ∀ r ∈ injRates, r.length = n) :
    applyStages12 cfg' en dens sub enRates injRates t = applyStages12 cfg en dens sub enRates injRates t := by
  have e1 : applyTimeEval cfg' = applyTimeEval cfg := (congrArg applyTimeEval h.rest).trans rfl
  have e2 : cfg'.num = cfg.num := (congrArg Cfg.num h.rest).trans rfl
  have e3 : cfg'.heun = cfg.heun := (congrArg Cfg.heun h.rest).trans rfl
  have hi' : ∀ r ∈ injRates.map (·.map (· * t)), r.length = n := by
    intro r hr'
    obtain ⟨r', h', rfl⟩ := List.mem_map.1 hr'
    simpa using hi r' h'
  have hr' : ∀ rates : List (Bins K), (∀ b ∈ rates, b.Len n) → ∀ b ∈ rates.map (scaleBins t), b.Len n := by
    intro rates h b hb
    obtain ⟨b', h', rfl⟩ := List.mem_map.1 hb
    exact scaleBins_len (h b' h')
  unfold applyStages12
  rw [e1, e2, e3]
  refine bind_congr_ok fun p h1 => ?_
  obtain ⟨gm1, d1, sub1⟩ := p
  have ev := applyTimeEval_spec wf.lawful wf.mec2 he hd hs (hr' _ hr) hi' h1
  refine bind_congr_ok fun dist1 h2 => ?_
  dsimp only
  split
  · have hs1 : sub1 ≠ [] := by
      intro h
      have := ev.slen
      rw [h] at this
      exact hsne (List.length_eq_zero_iff.1 this.symm)
    obtain ⟨r, h3⟩ := newRates2_ok (dist := dist1) hf ev.len ev.tlen hs1 ev.rowlen
    obtain ⟨r', h3'⟩ := newRates2_ok (dist := dist1) hf' ev.len ev.tlen hs1 ev.rowlen
    obtain ⟨a1, a2⟩ := alike_new2 h.en (by rw [ev.len.1, ev.len.2]) h3 h3'
    obtain ⟨G, g1, g2⟩ := groupSums2 wf.keysEn wf'.keysEn (newRates2_spec h3) (newRates2_spec h3') a1 a2
    rw [h3, h3']
    change (List.mapM finiteBins (sumRates2 r' gm1.lb.length cfg'.subgroups) >>= _)
      = (List.mapM finiteBins (sumRates2 r gm1.lb.length cfg.subgroups) >>= _)
    rw [g1, g2]
  · rfl

theorem applyTimeChanges_sim (h : SameProcesses cfg cfg') (wf : cfg.WF) (wf' : cfg'.WF) (hf : Shaped cfg.enFns)
    (hf' : Shaped cfg'.enFns) {n : Nat} {en : Bins K} {dens : List K} {sub : List (List K)} {enRates : List (Bins K)}
    {injRates : List (List K)} {t : K} (he : en.Len n) (hd : dens.length = n) (hsne : sub ≠ [])
    (hs : ∀ r ∈ sub, r.length = n) (hr : ∀ b ∈ enRates, b.Len n) (hi : ∀ r ∈ injRates, r.length = n) :
    applyTimeChanges cfg' en dens sub enRates injRates t = applyTimeChanges cfg en dens sub enRates injRates t := by
  have e1 : sortAndMergeBins cfg' = sortAndMergeBins cfg := (congrArg sortAndMergeBins h.rest).trans rfl
  have e2 : applyBounds cfg' = applyBounds cfg := (congrArg applyBounds h.rest).trans rfl
  unfold applyTimeChanges
  rw [applyStages12_sim h wf wf' hf hf' he hd hsne hs hr hi, e1, e2]

/-- both fail alike, or both succeed with related results -/
def Both {α : Type} (R : α → α → Prop) (x y : Except Err α) : Prop :=
  (∃ e, x = .error e ∧ y = .error e) ∨ ∃ a b, x = .ok a ∧ y = .ok b ∧ R a b

theorem both_bind {α β : Type} {R : β → β → Prop} {x : Except Err α} {f g : α → Except Err β}
    (h : ∀ a, x = .ok a → Both R (f a) (g a)) : Both R (x >>= f) (x >>= g) := by
  cases x with
  | error e => exact Or.inl ⟨e, rfl, rfl⟩
  | ok a => exact h a rfl

theorem refresh_sim (h : SameProcesses cfg cfg') (wf : cfg.WF) (wf' : cfg'.WF) (hf : ShapedAll cfg)
    (hf' : ShapedAll cfg') {s s' : State K} (hI : Inv cfg s) (hI' : Inv cfg' s') (hS : Sim cfg cfg' s s')
    (hne : s.bins.lb ≠ []) {t : K} {o : StepOut K} {left : List (WithTop K)} {mask : List Bool}
    {l : List (Option Nat)} (hmap : o.mapping = l.map enc)
    (hM : Mapped s.bins.lb.length o.dist s.sub.length o.bins o.dens o.sub l) (hm : mask.length = l.length)
    (hnew : ∀ j (h : j < l.length) (h' : j < mask.length), l[j] = none → mask[j] = true) :
    Both (Sim cfg cfg') (refresh cfg s t o left mask) (refresh cfg' s' t o left mask) := by
  have hM' : Mapped s'.bins.lb.length o.dist s'.sub.length o.bins o.dens o.sub l := by
    rw [hS.bins, hS.sub]; exact hM
  have hne' : s'.bins.lb ≠ [] := by rw [hS.bins]; exact hne
  obtain ⟨s1, e1⟩ := refresh_ok wf hf.en hf.rel hf.abs hI hne (t := t) (left := left) hmap hM hm hnew
  obtain ⟨s2, e2⟩ := refresh_ok wf' hf'.en hf'.rel hf'.abs hI' hne' (t := t) (left := left) hmap hM' hm hnew
  refine Or.inr ⟨s1, s2, e1, e2, ?_⟩
  obtain ⟨pe, pa, pr, p1, p2, p3, p4, p5, p6, p7, p8, p9, p10, p11, p12⟩ := refresh_parts e1
  obtain ⟨qe, qa, qr, q1, q2, q3, q4, q5, q6, q7, q8, q9, q10, q11, q12⟩ := refresh_parts e2
  rw [hmap] at p1 p2 p3 q1 q2 q3
  obtain ⟨u1, u2, -⟩ := updateBinUb_spec ⟨hM.lblen, hM.ublen⟩ hm
  have hlen : s1.bins.lb.length = mask.length := by rw [p7, u1, hM.lblen, hm]
  have hen' := hI'.en
  have hrel' := hI'.rel
  have habs' := hI'.abs
  rw [hS.bins] at hen' hrel' habs'
  have lowlen : ∀ {r : Rates2 K} {m : Nat}, (∀ p ∈ r, p.2.Len m) → ∀ p ∈ lowerRow r, p.2.length = m := by
    intro r m hr p hp
    obtain ⟨q, hq, rfl⟩ := List.mem_map.1 hp
    exact (hr q hq).1
  have upplen : ∀ {r : Rates2 K} {m : Nat}, (∀ p ∈ r, p.2.Len m) → ∀ p ∈ upperRow r, p.2.length = m := by
    intro r m hr p hp
    obtain ⟨q, hq, rfl⟩ := List.mem_map.1 hp
    exact (hr q hq).2
  have g1 := remapRates2_good hI.en hM.range hnew p1
  have g1' := remapRates2_good hen' hM.range hnew q1
  have g2 := remapRates1_good hI.abs hM.range hnew p2
  have g2' := remapRates1_good habs' hM.range hnew q2
  have g3 := remapRates1_good hI.rel hM.range hnew p3
  have g3' := remapRates1_good hrel' hM.range hnew q3
  have al := alike_pull hM.range hS.lower (lowlen hI.en.len) (lowlen hen'.len) (remapRates2_rows p1).1
    (remapRates2_rows q1).1
  have au := alike_pull hM.range hS.upper (upplen hI.en.len) (upplen hen'.len) (remapRates2_rows p1).2
    (remapRates2_rows q1).2
  have aa := alike_pull hM.range hS.abs hI.abs.len habs'.len p2 q2
  have ar := alike_pull hM.range hS.rel hI.rel.len hrel'.len p3 q3
  rw [← hm] at al au aa ar
  have k1 := lookup_len2 wf.keysEn g1
  have k1' := lookup_len2 wf'.keysEn g1'
  have k2 := lookup_len1 wf.keysAbs g2
  have k2' := lookup_len1 wf'.keysAbs g2'
  have k3 := lookup_len1 wf.keysRel g3
  have k3' := lookup_len1 wf'.keysRel g3'
  rw [← hm] at k1 k1' k2 k2' k3 k3'
  obtain ⟨c1, c2⟩ := alike_recalc2 h.en ⟨by rw [u1, hM.lblen, hm], by rw [u2, hm]⟩ k1 k1'
    (keys_of_forall₂ (P := fun f v => GoodOff l.length mask f.2 v.lb ∧ GoodOff l.length mask f.2 v.ub) g1)
    (keys_of_forall₂ (P := fun f v => GoodOff l.length mask f.2 v.lb ∧ GoodOff l.length mask f.2 v.ub) g1') al au p4 q4
  have c3 := alike_recalc1 h.abs (by rw [hM.lblen, hm]) k2 k2'
    (keys_of_forall₂ (P := fun f v => GoodOff l.length mask f.2 v) g2)
    (keys_of_forall₂ (P := fun f v => GoodOff l.length mask f.2 v) g2') aa p5 q5
  have c4 := alike_recalc1 h.rel (by rw [hM.lblen, hm]) k3 k3'
    (keys_of_forall₂ (P := fun f v => GoodOff l.length mask f.2 v) g3)
    (keys_of_forall₂ (P := fun f v => GoodOff l.length mask f.2 v) g3') ar p6 q6
  exact
    { bins := by rw [p7, q7]
      dens := by rw [p8, q8]
      sub := by rw [p9, q9]
      left := by rw [p10, q10]
      elapsed := by rw [p11, q11, hS.elapsed]
      dist := by rw [p12, q12]
      lower := by rw [hlen]; exact c1
      upper := by rw [hlen]; exact c2
      rel := by rw [hlen]; exact c4
      abs := by rw [hlen]; exact c3 }

theorem step_sim (h : SameProcesses cfg cfg') (wf : cfg.WF) (wf' : cfg'.WF) (hf : ShapedAll cfg)
    (hf' : ShapedAll cfg') {s s' : State K} (hI : Inv cfg s) (hI' : Inv cfg' s') (hS : Sim cfg cfg' s s')
    (hL : Live cfg s) (hg : s.elapsed < cfg.totalTime) :
    Both (Sim cfg cfg') (step cfg s) (step cfg' s') := by
  have hn : s.bins.lb.length ≠ 0 := fun h => hL.ne (List.length_eq_zero_iff.1 h)
  obtain ⟨enG, relG, absG, h1, l1, l2, l3⟩ := groupRates_ok hI
  obtain ⟨g1, g2, g3⟩ := groupRates_len rfl hI.en.len hI.rel.len hI.abs.len h1
  have hlen : s.bins.Len s.bins.lb.length := ⟨rfl, hI.ublen⟩
  have e1 : chooseStep cfg' s' enG relG absG = chooseStep cfg s enG relG absG := by
    have : chooseStep cfg' s' enG relG absG = chooseStep cfg s' enG relG absG :=
      (congrArg (fun c => chooseStep c s' enG relG absG) h.rest).trans rfl
    rw [this]
    unfold chooseStep
    rw [hS.left, hS.bins, hS.dens, hS.sub]
  have e2 : truncStep cfg' = truncStep cfg := (congrArg truncStep h.rest).trans rfl
  have e3 : recalcMask cfg' = recalcMask cfg := (congrArg recalcMask h.rest).trans rfl
  have e4 : toErg cfg' = toErg cfg := (congrArg toErg h.rest).trans rfl
  unfold step
  rw [groupRates_sim wf wf' hI hI' hS, h1]
  refine both_bind fun a ha => ?_
  cases ha
  dsimp only
  rw [hS.dens, hS.sub, e1, e2, e3, e4, hS.bins, hS.elapsed]
  refine both_bind fun inj h2 => ?_
  have hinj := totalInjection_len hI.denslen hI.sublen g2 g3 h2
  refine both_bind fun p h3 => ?_
  obtain ⟨t0, left⟩ := p
  obtain ⟨c1, c2, c3⟩ := chooseStep_spec wf hI ⟨g1, g2, g3⟩ h3
  dsimp only
  rw [applyTimeChanges_sim h wf wf' hf.en hf'.en (toErg_len hlen) hI.denslen hI.subne hI.sublen g1 hinj]
  refine both_bind fun o h4 => ?_
  obtain ⟨l, hmap, hM, -⟩ := applyTimeChanges_spec wf (toErg_len hlen) hI.denslen hI.subne hI.sublen g1 hinj h4
  refine both_bind fun p h5 => ?_
  obtain ⟨left', mask⟩ := p
  obtain ⟨m1, m2, -, -⟩ := recalcMask_spec hmap hM.range hM.ublen hM.dlen (fun ho => by
    obtain ⟨a, b⟩ := c3 ho
    exact ⟨a, fun x hx => le_trans (truncStep_le_t _ _ _) (b x hx),
      truncStep_pos (c2 (wf.optAuto ho)) hg⟩) h5
  have hnew : ∀ j (h : j < l.length) (h' : j < mask.length), l[j] = none → mask[j] = true := by
    intro j hj hj' hn
    refine m2 j hj' (hM.new j hj ?_)
    rw [List.getD_eq_getElem _ _ hj, hn]
  exact refresh_sim h wf wf' hf hf' hI hI' hS hL.ne hmap hM m1 hnew

theorem initState_sim (h : SameProcesses cfg cfg') (dist : Dist K) (wf : cfg.WF)
    (hf : ShapedAll cfg) (hf' : ShapedAll cfg') :
    Both (Sim cfg cfg') (initState cfg dist) (initState cfg' dist) := by
  have e1 : cfg'.initialGamma = cfg.initialGamma := (congrArg Cfg.initialGamma h.rest).trans rfl
  unfold initState
  rw [h.start, e1]
  refine both_bind fun sub h0 => ?_
  obtain ⟨s1, s2, -⟩ := initialSub_spec wf h0
  have hd : (cfg.initialGamma.map dist.eval).length = cfg.initialGamma.length := by simp
  have hb : (updateBinUb ⟨cfg.initialGamma, cfg.initialGamma.map fun _ => (0 : K)⟩
      (List.replicate cfg.initialGamma.length true)).Len cfg.initialGamma.length := by
    obtain ⟨a, b, -⟩ := updateBinUb_spec (b := ⟨cfg.initialGamma, cfg.initialGamma.map fun _ => (0 : K)⟩)
      (mask := List.replicate cfg.initialGamma.length true) (n := cfg.initialGamma.length) ⟨rfl, by simp⟩ (by simp)
    exact ⟨by rw [a], b⟩
  obtain ⟨A, a1⟩ := newRates2_ok (dist := dist) hf.en hb hd s1 s2
  obtain ⟨A', a2⟩ := newRates2_ok (dist := dist) hf'.en hb hd s1 s2
  obtain ⟨B, b1⟩ := newRates1_ok (dist := dist) hf.rel rfl hd s1 s2
  obtain ⟨B', b2⟩ := newRates1_ok (dist := dist) hf'.rel rfl hd s1 s2
  obtain ⟨C, c1⟩ := newRates1_ok (dist := dist) hf.abs rfl hd s1 s2
  obtain ⟨C', c2⟩ := newRates1_ok (dist := dist) hf'.abs rfl hd s1 s2
  refine Or.inr ⟨⟨updateBinUb ⟨cfg.initialGamma, cfg.initialGamma.map fun _ => (0 : K)⟩
      (List.replicate cfg.initialGamma.length true), cfg.initialGamma.map dist.eval, sub, A, B, C,
      cfg.initialGamma.map fun _ => 0, 0, dist⟩, ⟨updateBinUb ⟨cfg.initialGamma, cfg.initialGamma.map fun _ => (0 : K)⟩
      (List.replicate cfg.initialGamma.length true), cfg.initialGamma.map dist.eval, sub, A', B', C',
      cfg.initialGamma.map fun _ => 0, 0, dist⟩, ?_, ?_, ?_⟩
  · rw [a1]; show (_ >>= _) = _; rw [b1]; show (_ >>= _) = _; rw [c1]; rfl
  · rw [a2]; show (_ >>= _) = _; rw [b2]; show (_ >>= _) = _; rw [c2]; rfl
  · obtain ⟨d1, d2⟩ := alike_new2 h.en (by rw [hb.1, hb.2]) a1 a2
    rw [hb.1] at d1 d2
    exact
      { bins := rfl
        dens := rfl
        sub := rfl
        left := rfl
        elapsed := rfl
        dist := rfl
        lower := d1
        upper := d2
        rel := alike_new1 h.rel b1 b2
        abs := alike_new1 h.abs c1 c2 }

end Verif.TE
