import Verif.Lemmas.NoChange
import Verif.Lemmas.MergeCover
import Verif.Props.TEMappings

/- Which exceptions a step of a well-formed configuration can raise: index bookkeeping does not fail. -/

namespace Verif.TE

open Verif.Np

set_option linter.unusedSectionVars false

variable {K : Type} [Field K] [LinearOrder K] [IsStrictOrderedRing K]

/-- every exception satisfies `P` -/
def Only {α : Type} (P : Err → Prop) (x : Except Err α) : Prop := ∀ e, x = .error e → P e

theorem only_ok {α : Type} {P : Err → Prop} (a : α) : Only P (.ok a : Except Err α) := by
  intro e h; simp at h

theorem only_of_ok {α : Type} {P : Err → Prop} {x : Except Err α} {a : α} (h : x = .ok a) : Only P x := by
  rw [h]; exact only_ok a

theorem only_pure {α : Type} {P : Err → Prop} (a : α) : Only P (pure a : Except Err α) := only_ok a

theorem only_error {α : Type} {P : Err → Prop} {e : Err} (h : P e) : Only P (.error e : Except Err α) := by
  intro e' h'
  simp only [Except.error.injEq] at h'
  exact h' ▸ h

theorem only_bind {α β : Type} {P : Err → Prop} {x : Except Err α} {f : α → Except Err β} (hx : Only P x)
    (hf : ∀ a, x = .ok a → Only P (f a)) : Only P (x >>= f) := by
  cases x with
  | error e => exact only_error (hx e rfl)
  | ok a => exact hf a rfl

theorem only_mapM {α β : Type} {P : Err → Prop} {f : α → Except Err β} {l : List α}
    (h : ∀ a ∈ l, Only P (f a)) : Only P (l.mapM f) := by
  induction l with
  | nil => exact only_pure _
  | cons a l ih =>
    rw [List.mapM_cons]
    refine only_bind (h a (by simp)) (fun b _ => ?_)
    exact only_bind (ih (fun c hc => h c (by simp [hc]))) (fun c _ => only_pure _)

theorem only_foldlM {α β : Type} {P : Err → Prop} {f : β → α → Except Err β} {l : List α}
    (h : ∀ b, ∀ a ∈ l, Only P (f b a)) (b : β) : Only P (l.foldlM f b) := by
  induction l generalizing b with
  | nil => exact only_pure _
  | cons a l ih =>
    rw [List.foldlM_cons]
    exact only_bind (h b a (by simp)) (fun b' _ => ih (fun b a ha => h b a (by simp [ha])) b')

theorem only_mono {α : Type} {P Q : Err → Prop} {x : Except Err α} (h : Only P x) (hPQ : ∀ e, P e → Q e) :
    Only Q x := fun e he => hPQ e (h e he)

/-- the exceptions that say something about the rates or the particles -/
def Physical : Err → Prop
  | .negativeGamma | .negativeWidth | .nonFiniteDensity | .negativeDensity | .escapeAtZeroDensity | .collapse
  | .interpError => True
  | _ => False

/-! ### grouped rates -/

theorem mapM_ok_exists {α β : Type} {f : α → Except Err β} {l : List α} (h : ∀ a ∈ l, ∃ b, f a = .ok b) :
    ∃ r, l.mapM f = .ok r := by
  induction l with
  | nil => exact ⟨[], rfl⟩
  | cons a l ih =>
    obtain ⟨b, hb⟩ := h a (by simp)
    obtain ⟨r, hr⟩ := ih (fun c hc => h c (by simp [hc]))
    exact ⟨b :: r, by rw [List.mapM_cons, hb, hr]; rfl⟩

/-- no NaN in a row -/
def Fin1 (l : List (NV K)) : Prop := ∀ x ∈ l, x ≠ none
def Fin2 (b : Bins (NV K)) : Prop := Fin1 b.lb ∧ Fin1 b.ub

theorem finiteRow_ok {l : List (NV K)} (h : Fin1 l) : ∃ r, finiteRow l = .ok r := by
  refine mapM_ok_exists fun x hx => ?_
  cases x with
  | none => exact absurd rfl (h none hx)
  | some v => exact ⟨v, rfl⟩

theorem finiteBins_ok {b : Bins (NV K)} (h : Fin2 b) : ∃ r, finiteBins b = .ok r := by
  obtain ⟨r1, h1⟩ := finiteRow_ok h.1
  obtain ⟨r2, h2⟩ := finiteRow_ok h.2
  exact ⟨⟨r1, r2⟩, by unfold finiteBins; rw [h1, h2]; rfl⟩

theorem addRow_fin {a b : List (NV K)} (ha : Fin1 a) (hb : Fin1 b) : Fin1 (addRow a b) :=
  forall_mem_zipWith ha hb (by
    intro x y hx hy
    cases x with
    | none => exact absurd rfl hx
    | some x => cases y with
      | none => exact absurd rfl hy
      | some y => simp [addNV])

theorem zerosNV_fin (n : Nat) : Fin1 (zerosNV n : List (NV K)) := by
  intro x hx
  rw [List.eq_of_mem_replicate hx]
  simp

theorem foldl_addRow_fin (ls : List (List (NV K))) (h : ∀ l ∈ ls, Fin1 l) (a : List (NV K)) (ha : Fin1 a) :
    Fin1 (ls.foldl addRow a) := by
  induction ls generalizing a with
  | nil => exact ha
  | cons x ls ih => exact ih (fun l hl => h l (by simp [hl])) _ (addRow_fin ha (h x (by simp)))

theorem foldl_addBins_fin (ls : List (Bins (NV K))) (h : ∀ l ∈ ls, Fin2 l) (a : Bins (NV K)) (ha : Fin2 a) :
    Fin2 (ls.foldl addBins a) := by
  induction ls generalizing a with
  | nil => exact ha
  | cons x ls ih =>
    exact ih (fun l hl => h l (by simp [hl])) _
      ⟨addRow_fin ha.1 (h x (by simp)).1, addRow_fin ha.2 (h x (by simp)).2⟩

theorem sumRates1_fin {r : Rates1 K} {n : Nat} (h : ∀ p ∈ r, Fin1 p.2) (sg : Option (List (List String))) :
    ∀ l ∈ sumRates1 r n sg, Fin1 l := by
  unfold sumRates1
  cases sg with
  | none =>
    intro l hl
    simp only [List.mem_singleton] at hl
    subst hl
    exact foldl_addRow_fin _ (by
      intro l hl
      obtain ⟨p, hp, rfl⟩ := List.mem_map.1 hl
      exact h p hp) _ (zerosNV_fin n)
  | some rows =>
    intro l hl
    obtain ⟨row, -, rfl⟩ := List.mem_map.1 hl
    split
    · exact foldl_addRow_fin _ (by
        intro l hl
        obtain ⟨k, -, hk⟩ := List.mem_filterMap.1 hl
        exact h _ (lookup_mem hk)) _ (zerosNV_fin n)
    · exact zerosNV_fin n

theorem sumRates2_fin {r : Rates2 K} {n : Nat} (h : ∀ p ∈ r, Fin2 p.2) (sg : Option (List (List String))) :
    ∀ l ∈ sumRates2 r n sg, Fin2 l := by
  unfold sumRates2
  cases sg with
  | none =>
    intro l hl
    simp only [List.mem_singleton] at hl
    subst hl
    exact foldl_addBins_fin _ (by
      intro l hl
      obtain ⟨p, hp, rfl⟩ := List.mem_map.1 hl
      exact h p hp) _ ⟨zerosNV_fin n, zerosNV_fin n⟩
  | some rows =>
    intro l hl
    obtain ⟨row, -, rfl⟩ := List.mem_map.1 hl
    split
    · exact foldl_addBins_fin _ (by
        intro l hl
        obtain ⟨k, -, hk⟩ := List.mem_filterMap.1 hl
        exact h _ (lookup_mem hk)) _ ⟨zerosNV_fin n, zerosNV_fin n⟩
    · exact ⟨zerosNV_fin n, zerosNV_fin n⟩

theorem Good1.fin {n : Nat} {f : GammaFn K} {v : List (NV K)} (h : Good1 n f v) : Fin1 v := by
  intro x hx
  obtain ⟨y, rfl, -⟩ := h.2 x hx
  simp

theorem RatesGood1.fin {fns : List (String × GammaFn K)} {n : Nat} {r : Rates1 K} (h : RatesGood1 fns n r) :
    ∀ p ∈ r, Fin1 p.2 := by
  intro p hp
  obtain ⟨f, -, -, hf⟩ := forall₂_right h p hp
  exact hf.fin

theorem RatesGood2.fin {fns : List (String × GammaFn K)} {n : Nat} {r : Rates2 K} (h : RatesGood2 fns n r) :
    ∀ p ∈ r, Fin2 p.2 := by
  intro p hp
  obtain ⟨f, -, -, hf⟩ := forall₂_right h p hp
  exact ⟨hf.1.fin, hf.2.fin⟩

/-- number of subgroups -/
def nGroups (cfg : Cfg K) : Nat := match cfg.subgroups with
  | none => 1
  | some rows => rows.length

theorem sumRates1_length (r : Rates1 K) (n : Nat) (cfg : Cfg K) :
    (sumRates1 r n cfg.subgroups).length = nGroups cfg := by
  unfold sumRates1 nGroups
  cases cfg.subgroups <;> simp

theorem sumRates2_length (r : Rates2 K) (n : Nat) (cfg : Cfg K) :
    (sumRates2 r n cfg.subgroups).length = nGroups cfg := by
  unfold sumRates2 nGroups
  cases cfg.subgroups <;> simp

theorem groupRates_ok {cfg : Cfg K} {s : State K} (hI : Inv cfg s) :
    ∃ enG relG absG, groupRates cfg s = .ok (enG, relG, absG) ∧ enG.length = nGroups cfg ∧
      relG.length = nGroups cfg ∧ absG.length = nGroups cfg := by
  obtain ⟨enG, h1⟩ := mapM_ok_exists (f := finiteBins) (l := sumRates2 s.en s.bins.lb.length cfg.subgroups)
    fun b hb => finiteBins_ok (sumRates2_fin hI.en.fin _ b hb)
  obtain ⟨relG, h2⟩ := mapM_ok_exists (f := finiteRow) (l := sumRates1 s.rel s.bins.lb.length cfg.subgroups)
    fun b hb => finiteRow_ok (sumRates1_fin hI.rel.fin _ b hb)
  obtain ⟨absG, h3⟩ := mapM_ok_exists (f := finiteRow) (l := sumRates1 s.abs s.bins.lb.length cfg.subgroups)
    fun b hb => finiteRow_ok (sumRates1_fin hI.abs.fin _ b hb)
  refine ⟨enG, relG, absG, ?_, ?_, ?_, ?_⟩
  · unfold groupRates
    dsimp only
    rw [h1, h2, h3]
    rfl
  · rw [mapM_ok_length h1, sumRates2_length]
  · rw [mapM_ok_length h2, sumRates1_length]
  · rw [mapM_ok_length h3, sumRates1_length]

theorem bcastRows_same {α β γ : Type} (f : α → β → γ) {a : List α} {b : List β} (h : a.length = b.length) :
    bcastRows f a b = .ok (List.zipWith f a b) := by
  unfold bcastRows
  rw [if_pos h]

theorem totalInjection_ok {dens : List K} {sub relG absG : List (List K)} (h1 : relG.length = sub.length)
    (h2 : absG.length = sub.length) :
    ∃ inj, totalInjection dens sub relG absG = .ok inj ∧ inj.length = sub.length := by
  unfold totalInjection densitiesGrouped
  rw [bcastRows_same _ (by simp [h1])]
  simp only [bind, Except.bind]
  rw [bcastRows_same _ (by simp [h1, h2])]
  exact ⟨_, rfl, by simp [h1, h2]⟩

/-! ### the choice of the step -/

theorem minTime_ok {l : List (WithTop K)} (h : l ≠ []) : ∃ t, minTime l = .ok t := by
  unfold minTime
  cases hm : l.min? with
  | none => exact absurd (List.min?_eq_none_iff.1 hm) h
  | some t => exact ⟨t, rfl⟩

theorem calcMaxTimePerBin_only {cfg : Cfg K} {en : Bins K} {dens : List K} {sub : List (List K)}
    {enG : List (Bins K)} {relG absG : List (List K)} (h : sub.length ≤ enG.length) :
    Only Physical (calcMaxTimePerBin cfg en dens sub enG relG absG) := by
  unfold calcMaxTimePerBin
  rw [if_neg (by omega)]
  refine only_foldlM (fun b a _ => ?_) _
  unfold maxTimesStep
  split
  · exact only_error trivial
  · exact only_ok _

theorem chooseStep_only {cfg : Cfg K} {s : State K} (hI : Inv cfg s) (hne : s.bins.lb ≠ [])
    {enG : List (Bins K)} {relG absG : List (List K)} (hL : StepLen s enG relG absG)
    (h : s.sub.length ≤ enG.length) : Only Physical (chooseStep cfg s enG relG absG) := by
  have hlen : s.bins.Len s.bins.lb.length := ⟨rfl, hI.ublen⟩
  have h0 : 0 < s.bins.lb.length := List.length_pos_of_ne_nil hne
  unfold chooseStep
  split
  · exact only_pure _
  · refine only_bind (calcMaxTimePerBin_only h) (fun mt hmt => ?_)
    have hl := (calcMaxTimePerBin_spec (toErg_len hlen) hI.denslen hI.sublen hL.en hL.rel hL.abs hmt).1
    split
    · next ho =>
      dsimp only
      obtain ⟨t, ht⟩ := minTime_ok (l := List.zipWith (fun l m => if l = 0 then m else l) s.timeLeft mt) (by
        intro hnil
        have := congrArg List.length hnil
        simp only [List.length_zipWith, hI.leftlen ho, hl, List.length_nil, min_self] at this
        omega)
      rw [ht]
      exact only_ok _
    · obtain ⟨t, ht⟩ := minTime_ok (l := mt) (by
        rintro rfl
        simp at hl
        omega)
      rw [ht]
      exact only_ok _

/-! ### moving the particles -/

theorem evalGroup_only {cfg : Cfg K} {en chg : Bins K} {dens frac : List K} :
    Only Physical (evalGroup cfg en dens frac chg) := by
  unfold evalGroup recalcGammaBins
  refine only_bind ?_ (fun _ _ => only_pure _)
  unfold recalcEnergyBins
  dsimp only
  split
  · exact only_error trivial
  · split
    · exact only_error trivial
    · split
      · exact only_error trivial
      · exact only_ok _

theorem addInjection_only {p : Bins K × List K} {inj : List K} : Only Physical (addInjection p inj) := by
  unfold addInjection
  dsimp only
  split
  · exact only_error trivial
  · exact only_ok _

theorem mkDist_only {num : Numerics K} {g v : List K} : Only Physical (mkDist num g v) := by
  unfold mkDist
  dsimp only
  split
  · exact only_ok _
  · exact only_error trivial

theorem regrid_only {cfg : Cfg K} {gm : Bins K} {p : Bins K × List K} : Only Physical (regrid cfg gm p) := by
  unfold regrid
  split
  · exact only_ok _
  · exact only_bind mkDist_only (fun _ _ => only_pure _)

theorem applyTimeEval_only {cfg : Cfg K} {en : Bins K} {dens : List K} {sub : List (List K)}
    {chg : List (Bins K)} {inj : List (List K)} (hs : sub ≠ []) (hc : sub.length ≤ chg.length)
    (hi : sub.length ≤ inj.length) : Only Physical (applyTimeEval cfg en dens sub chg inj) := by
  unfold applyTimeEval
  rw [if_neg (by simp; omega)]
  refine only_bind (only_mapM fun _ _ => evalGroup_only) (fun m1 h1 => ?_)
  refine only_bind (only_mapM fun _ _ => addInjection_only) (fun m2 h2 => ?_)
  have l1 := mapM_ok_length h1
  have l2 := mapM_ok_length h2
  have h0 : 0 < sub.length := List.length_pos_of_ne_nil hs
  cases m2 with
  | nil =>
    simp only [List.length_zip, List.length_nil] at l1 l2
    omega
  | cons first rest =>
    exact only_bind (only_mapM fun _ _ => regrid_only) (fun _ _ => only_pure _)

theorem updateDistribution_only {num : Numerics K} (hl : num.Lawful) {b : Bins K} {dens : List K}
    (hub : b.ub.length = b.lb.length) (hd : dens.length = b.lb.length) :
    Only Physical (updateDistribution num b dens) := by
  obtain ⟨r, hr⟩ := sortAndMergeDuplicates_ok hl b dens none hub hd
  unfold updateDistribution
  rw [hr]
  refine only_bind (only_ok _) (fun a ha => ?_)
  dsimp only
  split
  · exact only_pure _
  · split
    · exact only_error trivial
    · exact mkDist_only

/-- every rate function returns one value per energy it is given -/
def Shaped (fns : List (String × GammaFn K)) : Prop := ∀ f ∈ fns, ∀ d p, (f.2 d p).length = p.gamma.length

theorem newRates1_ok {n : Nat} {dist : Dist K} {g : List K} {fns : List (String × GammaFn K)}
    {dens : List K} {sub : List (List K)} (hf : Shaped fns) (hg : g.length = n)
    (hd : dens.length = n) (hs : sub ≠ []) (hlen : ∀ r ∈ sub, r.length = n) :
    ∃ r, newRates1 dist g fns dens sub = .ok r := by
  unfold newRates1
  rw [hg, params1_true hg hd hs hlen]
  simp only [bind, Except.bind]
  refine mapM_ok_exists fun f h => ?_
  unfold reshape1
  rw [if_pos (by rw [hf f h]; exact hg)]
  exact ⟨_, rfl⟩

theorem newRates2_ok {n : Nat} {dist : Dist K} {b : Bins K} {fns : List (String × GammaFn K)}
    {dens : List K} {sub : List (List K)} (hf : Shaped fns) (hb : b.Len n)
    (hd : dens.length = n) (hs : sub ≠ []) (hlen : ∀ r ∈ sub, r.length = n) :
    ∃ r, newRates2 dist b fns dens sub = .ok r := by
  unfold newRates2
  rw [hb.1, params2_true hb hd hs hlen]
  simp only [bind, Except.bind]
  refine mapM_ok_exists fun f h => ?_
  unfold reshape2
  rw [if_pos (by rw [hf f h]; exact interlace_length hb)]
  exact ⟨_, rfl⟩

theorem applyStages12_only {cfg : Cfg K} (hl : cfg.num.Lawful) (hm : 0 < cfg.mec2) (hf : Shaped cfg.enFns) {n : Nat}
    {en : Bins K} {dens : List K} {sub : List (List K)} {enRates : List (Bins K)}
    {injRates : List (List K)} {t : K} (he : en.Len n) (hd : dens.length = n) (hsne : sub ≠ [])
    (hs : ∀ r ∈ sub, r.length = n) (hr : ∀ b ∈ enRates, b.Len n) (hi : ∀ r ∈ injRates, r.length = n)
    (hc : sub.length = enRates.length) (hil : sub.length ≤ injRates.length) (hg : sub.length = nGroups cfg) :
    Only Physical (applyStages12 cfg en dens sub enRates injRates t) := by
  have hi' : ∀ r ∈ injRates.map (·.map (· * t)), r.length = n := by
    intro r hr'
    obtain ⟨r', h', rfl⟩ := List.mem_map.1 hr'
    simpa using hi r' h'
  have hr' : ∀ rates : List (Bins K), (∀ b ∈ rates, b.Len n) → ∀ b ∈ rates.map (scaleBins t), b.Len n := by
    intro rates h b hb
    obtain ⟨b', h', rfl⟩ := List.mem_map.1 hb
    exact scaleBins_len (h b' h')
  unfold applyStages12
  refine only_bind (applyTimeEval_only hsne (by simp [hc]) (by simpa using hil)) ?_
  rintro ⟨gm1, d1, sub1⟩ h1
  have ev := applyTimeEval_spec hl hm he hd hs (hr' _ hr) hi' h1
  dsimp only
  refine only_bind (updateDistribution_only hl (by rw [ev.len.1, ev.len.2]) (by rw [ev.tlen, ev.len.1])) ?_
  intro dist1 h2
  split
  · have hs1 : sub1 ≠ [] := by
      intro h
      have := ev.slen
      rw [h] at this
      exact hsne (List.length_eq_zero_iff.1 this.symm)
    obtain ⟨r, h3⟩ := newRates2_ok (dist := dist1) hf ev.len ev.tlen hs1 ev.rowlen
    rw [h3]
    have hrg := newRates2_spec h3
    obtain ⟨rec, h4⟩ := mapM_ok_exists (f := finiteBins) (l := sumRates2 r gm1.lb.length cfg.subgroups)
      fun b hb => finiteBins_ok (sumRates2_fin hrg.fin _ b hb)
    refine only_bind (only_ok _) (fun _ e => ?_)
    cases e
    rw [h4]
    refine only_bind (only_ok _) (fun _ e => ?_)
    cases e
    have hrl : rec.length = nGroups cfg := by rw [mapM_ok_length h4, sumRates2_length]
    have hrec : ∀ b ∈ rec, b.Len n := by
      refine mapM_forall_mem h4 (fun a ha b hb => finiteBins_len ?_ hb)
      have := sumRates2_len hrg.len cfg.subgroups a ha
      rwa [ev.len.1] at this
    have havg : ∀ b ∈ List.zipWith averageBins enRates rec, b.Len n :=
      forall_mem_zipWith hr hrec fun _ _ => averageBins_len
    refine only_bind (applyTimeEval_only hs1 ?_ ?_) ?_
    · simp only [List.length_map, List.length_zipWith]
      rw [ev.slen, hrl, ← hg, ← hc]
      simp
    · rw [ev.slen]; simpa using hil
    · rintro ⟨gm2, d2, sub2⟩ h5
      have ev2 := applyTimeEval_spec hl hm he hd ev.rowlen (hr' _ havg) hi' h5
      dsimp only
      exact only_bind (updateDistribution_only hl (by rw [ev2.len.1, ev2.len.2]) (by rw [ev2.tlen, ev2.len.1]))
        (fun _ _ => only_pure _)
  · exact only_pure _

/-! ### sorting, merging, bounds -/

theorem sortAndMergeBins_only {cfg : Cfg K} (hl : cfg.num.Lawful) {b : Bins K} {dens : List K} {dist : Dist K}
    (hub : b.ub.length = b.lb.length) (hd : dens.length = b.lb.length) (hpos : ∀ v ∈ b.lb, 0 < v)
    (hnn : ∀ v ∈ dens, 0 ≤ v) :
    Only (fun e => e = .indexError ∧ cfg.mergeCloser ≠ none ∧
      ∀ x ∈ b.lb, ∀ y ∈ b.lb, cfg.num.log10 x = cfg.num.log10 y) (sortAndMergeBins cfg b dens dist) := by
  obtain ⟨⟨b1, d1, m1⟩, h1⟩ := sortAndMergeDuplicates_ok hl b dens (some dist) hub hd
  obtain ⟨⟨b1', d1', m1'⟩, h1'⟩ := sortAndMergeDuplicates_ok hl b dens none hub hd
  obtain ⟨rfl, -, -, -⟩ := sortMerge_two h1' h1
  obtain ⟨c1, -⟩ := sortAndMergeDuplicates_cover hl b dens hub hd hpos hnn h1'
  obtain ⟨idx, rfl, hM, -⟩ := sortAndMergeDuplicates_spec hl b dens _ hub hd hpos h1
  unfold sortAndMergeBins
  rw [h1]
  refine only_bind (only_ok _) (fun a ha => ?_)
  cases ha
  dsimp only
  split
  · exact only_pure _
  · next thr hthr =>
    have hub1 : b1'.ub.length = b1'.lb.length := by rw [hM.len_ub, hM.len_lb]
    have hd1 : d1.length = b1'.lb.length := by rw [hM.len_d, hM.len_lb]
    obtain ⟨t1, t2⟩ := C16_total (num := cfg.num) thr dist hub1 hd1
    rcases Nat.lt_or_ge b1'.lb.length 2 with h2 | h2
    · rw [t2 h2]
      refine only_error ⟨rfl, by simp [hthr], ?_⟩
      have key : ∀ x ∈ b.lb, cfg.num.log10 x = cfg.num.log10 (b1'.lb.getD 0 0) := by
        intro x hx
        obtain ⟨i, hi, rfl⟩ := List.mem_iff_getElem.1 hx
        obtain ⟨p, hp, e, -⟩ := c1 i hi
        have : p = 0 := by omega
        subst this
        rw [e, List.getD_eq_getElem _ _ hi]
      intro x hx y hy
      rw [key x hx, key y hy]
    · obtain ⟨⟨b2, d2, m2⟩, hr⟩ := t1 h2
      rw [hr]
      refine only_bind (only_ok _) (fun a ha => ?_)
      cases ha
      obtain ⟨close, fx, fy, -, -, -, rfl, -⟩ := removeTooCloseBins_spec hl hub1 hd1 (hM.pos hpos) hM.sorted hr
      dsimp only
      rw [toInts_eq, toInts_eq, combineMapping_enc _ _ (inRange_some (by
        intro i hi
        rw [List.length_map, ← hM.len_lb]
        exact (mem_setdiffRange.1 hi).1)) (Or.inr none_not_mem_some)]
      exact only_ok _

theorem sortAndMergeBins_ne {cfg : Cfg K} (hl : cfg.num.Lawful) {b : Bins K} {dens : List K} {dist : Dist K}
    (hub : b.ub.length = b.lb.length) (hd : dens.length = b.lb.length) (hpos : ∀ v ∈ b.lb, 0 < v)
    (hnn : ∀ v ∈ dens, 0 ≤ v) (hne : b.lb ≠ []) {b' : Bins K} {d' : List K} {m : List Int}
    (e : sortAndMergeBins cfg b dens dist = .ok (b', d', m)) : b'.lb ≠ [] := by
  obtain ⟨⟨b1, d1, m1⟩, h1⟩ := sortAndMergeDuplicates_ok hl b dens (some dist) hub hd
  obtain ⟨⟨b1', d1', m1'⟩, h1'⟩ := sortAndMergeDuplicates_ok hl b dens none hub hd
  obtain ⟨rfl, -, -, -⟩ := sortMerge_two h1' h1
  obtain ⟨c1, -⟩ := sortAndMergeDuplicates_cover hl b dens hub hd hpos hnn h1'
  obtain ⟨idx, rfl, hM, -⟩ := sortAndMergeDuplicates_spec hl b dens _ hub hd hpos h1
  have hne1 : b1'.lb ≠ [] := by
    obtain ⟨p, hp, -⟩ := c1 0 (List.length_pos_of_ne_nil hne)
    intro h
    rw [h] at hp
    simp at hp
  unfold sortAndMergeBins at e
  obtain ⟨⟨b2, d2, m2⟩, k1, e⟩ := bind_ok_iff.1 e
  rw [h1] at k1
  cases k1
  dsimp only at e
  split at e
  · rw [pure_ok_iff] at e
    cases e
    exact hne1
  · obtain ⟨⟨b3, d3, m3⟩, k2, e⟩ := bind_ok_iff.1 e
    have hub1 : b1'.ub.length = b1'.lb.length := by rw [hM.len_ub, hM.len_lb]
    have hd1 : d1.length = b1'.lb.length := by rw [hM.len_d, hM.len_lb]
    obtain ⟨close, fx, fy, -, hcl, h2, -, e3, -⟩ :=
      removeTooCloseBins_spec hl hub1 hd1 (hM.pos hpos) hM.sorted k2
    obtain ⟨m4, -, e⟩ := bind_ok_iff.1 e
    rw [pure_ok_iff] at e
    cases e
    rw [e3]
    intro h
    have h0 : 0 ∈ setdiffRange b1'.lb.length close :=
      mem_setdiffRange.2 ⟨by omega, fun h => by have := ((hcl 0).1 h).1; omega⟩
    rw [List.map_eq_nil_iff] at h
    rw [h] at h0
    simp at h0

theorem get_zero_ok {α : Type} {v : List α} (h : v ≠ []) : ∃ x, Np.get v 0 = .ok x := by
  have h0 : 0 < v.length := List.length_pos_of_ne_nil h
  exact ⟨v[0], by simpa using get_ofNat h0⟩

theorem addBoundaryBins_ok {num : Numerics K} {creep lo hi : K} {b : Bins K} {rate : List K} (hb : b.lb ≠ [])
    (hr : rate ≠ []) : ∃ r, addBoundaryBins num creep lo hi b rate = .ok r := by
  obtain ⟨x0, h0⟩ := get_zero_ok hb
  obtain ⟨r0, hr0⟩ := get_zero_ok hr
  have key : ∀ (b : Bins K) (m : List Int) (first : K), ∃ q, addLowerBin num creep lo first b m rate = .ok q := by
    intro b m first
    unfold addLowerBin
    split
    · rw [hr0]; exact ⟨_, rfl⟩
    · exact ⟨_, rfl⟩
  have key2 : ∀ (b : Bins K) (m : List Int) (last : K), ∃ q, addUpperBin num creep hi last b m rate = .ok q := by
    intro b m last
    unfold addUpperBin
    split
    · rw [get_neg_one hr]; exact ⟨_, rfl⟩
    · exact ⟨_, rfl⟩
  unfold addBoundaryBins
  rw [h0, get_neg_one hb]
  simp only [bind, Except.bind]
  obtain ⟨⟨b1, m1⟩, h1⟩ := key b (arange b.lb.length) x0
  rw [h1]
  exact key2 b1 m1 _

theorem removeBeyondBounds_ok {lo hi : K} {b : Bins K} (hub : b.ub.length = b.lb.length) :
    ∃ r, removeBeyondBounds lo hi b = .ok r := by
  unfold removeBeyondBounds
  dsimp only
  split
  · have hr : ∀ i ∈ nonzero (b.lb.map fun g => decide (lo ≤ g ∧ g ≤ hi / (1 + binSizeFactor))), i < b.lb.length := by
      intro i hi
      obtain ⟨h, -⟩ := mem_nonzero.1 hi
      simpa using h
    have g1 := @gather_nat K ⟨0⟩ b.lb _ hr
    have g2 := @gather_nat K ⟨0⟩ b.ub _ (by rw [hub]; exact hr)
    unfold toInts
    rw [g1, g2]
    exact ⟨_, rfl⟩
  · exact ⟨_, rfl⟩

theorem applyBounds_only {cfg : Cfg K} {n : Nat} {D : Dist K} {subLen : Nat}
    {b : Bins K} {d : List K} {s : List (List K)} {l : List (Option Nat)}
    {rates : List (Bins K)} (h : Mapped n D subLen b d s l) (hr : rates ≠ []) (hrl : ∀ r ∈ rates, r.lb ≠ []) :
    Only (fun e => e = .indexError ∧ ∃ lo hi, cfg.gammaBounds = some (lo, hi) ∧
      ∀ x ∈ b.lb, ¬ (lo ≤ x ∧ x ≤ hi / (1 + binSizeFactor))) (applyBounds cfg b d s (l.map enc) rates) := by
  unfold applyBounds
  cases hgb : cfg.gammaBounds with
  | none => exact only_pure _
  | some p =>
    obtain ⟨lo, hi⟩ := p
    dsimp only
    obtain ⟨⟨b4, m4⟩, h4⟩ := removeBeyondBounds_ok (lo := lo) (hi := hi) (b := b) (by rw [h.ublen, h.lblen])
    obtain ⟨idx, rfl, hp, hri, hm, hlb4, hub4⟩ := removeBeyondBounds_spec (by rw [h.ublen, h.lblen]) h4
    rw [h4]
    refine only_bind (only_ok _) (fun a ha => ?_)
    cases ha
    rw [h.lblen] at hri hm
    have hri' : InRange l.length (idx.map some) := inRange_some hri
    have hb4 : b4 = ⟨idx.map (b.lb.getD · 0), idx.map (b.ub.getD · 0)⟩ := by
      cases b4; simp_all
    have h4' := h.pullStep hp hri
    rw [← hb4] at h4'
    simp only [toInts_eq]
    rw [remap_enc_none d 0 _ (by rw [h.dlen]; exact hri') none_not_mem_some,
      remapSubgroups_enc s _ l.length h.sne h.rowlen hri' (Or.inr none_not_mem_some),
      combineMapping_enc l _ hri' (Or.inr none_not_mem_some)]
    obtain ⟨r0, hr0⟩ := get_zero_ok hr
    have hr0m : r0 ∈ rates := by
      obtain ⟨j, -, hj, rfl⟩ := get_ok hr0
      exact List.getElem_mem hj
    rw [hr0]
    simp only [bind, Except.bind]
    by_cases hne : b4.lb = []
    · have herr : addBoundaryBins cfg.num cfg.maxBinCreep lo hi b4 r0.lb = .error .indexError := by
        unfold addBoundaryBins
        rw [hne]
        rfl
      rw [herr]
      refine only_error ⟨rfl, lo, hi, rfl, ?_⟩
      intro x hx hin
      obtain ⟨i, hi', rfl⟩ := List.mem_iff_getElem.1 hx
      rw [h.lblen] at hi'
      have := (hm i hi').2 (by rw [List.getD_eq_getElem _ _ (by rw [h.lblen]; exact hi')]; exact hin)
      rw [hlb4, List.map_eq_nil_iff] at hne
      rw [hne] at this
      simp at this
    · obtain ⟨⟨b5, m5⟩, h5⟩ := addBoundaryBins_ok (num := cfg.num) (creep := cfg.maxBinCreep) (lo := lo) (hi := hi)
        hne (hrl r0 hr0m)
      obtain ⟨hb, pre, post, -, -, -, -, rfl⟩ := addBoundaryBins_spec h5
      rw [h5]
      dsimp only
      set d4 := pull (idx.map some) d 0 with hd4
      set s4 := pullSub (idx.map some) s with hs4
      set l4 := comp l (idx.map some) with hl4
      have hn4 : b4.lb.length = l4.length := h4'.lblen
      have hne4 : l4.length ≠ 0 := by
        rw [← hn4]; intro e0; exact hb (List.length_eq_zero_iff.1 e0)
      rw [hn4]
      have hbr : InRange l4.length _ := boundary_inRange pre post
      rw [remap_enc d4 0 _ (by rw [h4'.dlen]; exact hbr)
        (Or.inl (fun e0 => by have := h4'.dlen; rw [e0] at this; simp at this; omega)),
        remapSubgroups_enc s4 _ l4.length h4'.sne h4'.rowlen hbr (Or.inl hne4),
        combineMapping_enc l4 _ hbr (Or.inl (fun e0 => hne4 (by simp [e0])))]
      exact only_ok _

theorem applyBounds_ne {cfg : Cfg K} {b : Bins K} {d : List K} {s : List (List K)} {m : List Int}
    {rates : List (Bins K)} (hne : b.lb ≠ []) {b' : Bins K} {d' : List K} {s' : List (List K)} {m' : List Int}
    (e : applyBounds cfg b d s m rates = .ok (b', d', s', m')) : b'.lb ≠ [] := by
  unfold applyBounds at e
  split at e
  · rw [pure_ok_iff] at e
    cases e
    exact hne
  · obtain ⟨⟨b4, m4⟩, -, e⟩ := bind_ok_iff.1 e
    obtain ⟨d4, -, e⟩ := bind_ok_iff.1 e
    obtain ⟨s4, -, e⟩ := bind_ok_iff.1 e
    obtain ⟨mm4, -, e⟩ := bind_ok_iff.1 e
    obtain ⟨r0, -, e⟩ := bind_ok_iff.1 e
    obtain ⟨⟨b5, m5⟩, h5, e⟩ := bind_ok_iff.1 e
    obtain ⟨d5, -, e⟩ := bind_ok_iff.1 e
    obtain ⟨s5, -, e⟩ := bind_ok_iff.1 e
    obtain ⟨mm5, -, e⟩ := bind_ok_iff.1 e
    rw [pure_ok_iff] at e
    cases e
    obtain ⟨hb, pre, post, -, -, e1, -⟩ := addBoundaryBins_spec h5
    rw [e1]
    intro h
    simp only [List.append_eq_nil_iff] at h
    exact hb h.1.2

/-! ### recomputed rates, the whole step -/

theorem remapSubgroups_mask_ok {mask : List Bool} {n : Nat} {sub : List (List K)} (hm : mask.length = n)
    (hs : sub ≠ []) (hlen : ∀ r ∈ sub, r.length = n) :
    ∃ s, remapSubgroups (maskToMapping mask) sub = .ok s := by
  have e : maskToMapping mask = ((select mask (List.range mask.length)).map some).map enc := by
    unfold maskToMapping arange
    rw [select_map, List.map_map]
    rfl
  rw [e, remapSubgroups_enc sub _ n hs hlen (inRange_some (by
    intro i hi
    rw [← hm]
    exact List.mem_range.1 (select_mem hi))) (Or.inr none_not_mem_some)]
  exact ⟨_, rfl⟩

theorem recalcRates1_ok {n : Nat} {dist : Dist K} {g : List K} {fns : List (String × GammaFn K)}
    {dens : List K} {sub : List (List K)} {prev : Rates1 K} {mask : List Bool} (hf : Shaped fns) (hg : g.length = n)
    (hm : mask.length = n) (hs : sub ≠ []) (hlen : ∀ r ∈ sub, r.length = n)
    (hprev : ∀ f ∈ fns, ∃ v, prev.lookup f.1 = some v ∧ v.length = n) :
    ∃ r, recalcRates1 dist g fns dens sub prev mask = .ok r := by
  obtain ⟨s, h1⟩ := remapSubgroups_mask_ok hm hs hlen
  unfold recalcRates1 params1
  rw [h1]
  refine mapM_ok_exists (fun f hf' => ?_)
  obtain ⟨v, hv, -⟩ := hprev f hf'
  have hl : (f.2 dist ⟨select mask g, select mask dens, s⟩).length = countMask mask := by
    rw [hf f hf']
    exact select_length (by rw [hm, hg])
  unfold dictGet reshape1
  rw [hv]
  dsimp only [bind, Except.bind]
  rw [if_pos hl]
  exact ⟨_, rfl⟩

theorem recalcRates2_ok {n : Nat} {dist : Dist K} {b : Bins K} {fns : List (String × GammaFn K)}
    {dens : List K} {sub : List (List K)} {prev : Rates2 K} {mask : List Bool} (hf : Shaped fns) (hb : b.Len n)
    (hm : mask.length = n) (hs : sub ≠ []) (hlen : ∀ r ∈ sub, r.length = n)
    (hprev : ∀ f ∈ fns, ∃ v, prev.lookup f.1 = some v ∧ v.Len n) :
    ∃ r, recalcRates2 dist b fns dens sub prev mask = .ok r := by
  obtain ⟨s, h1⟩ := remapSubgroups_mask_ok hm hs hlen
  unfold recalcRates2 params2
  rw [h1]
  refine mapM_ok_exists (fun f hf' => ?_)
  obtain ⟨v, hv, -⟩ := hprev f hf'
  have hl : (f.2 dist ⟨interlace ⟨select mask b.lb, select mask b.ub⟩, select mask dens, s⟩).length
      = 2 * countMask mask := by
    rw [hf f hf']
    exact interlace_length ⟨select_length (by rw [hm, hb.1]), select_length (by rw [hm, hb.2])⟩
  unfold dictGet reshape2
  rw [hv]
  dsimp only [bind, Except.bind]
  rw [if_pos hl]
  exact ⟨_, rfl⟩

theorem recalcMask_ok {cfg : Cfg K} {left : List (WithTop K)} {t : K} {o : StepOut K} {l : List (Option Nat)}
    {n : Nat} (hl : o.mapping = l.map enc) (hr : InRange n l) (hn : n ≠ 0)
    (hleft : cfg.optimize = true → left.length = n) : ∃ r, recalcMask cfg left t o = .ok r := by
  unfold recalcMask
  by_cases ho : cfg.optimize = true
  · rw [if_pos ho, hl, remap_enc _ _ _ (by rw [List.length_map, hleft ho]; exact hr) (Or.inl (by
      intro h
      have := hleft ho
      rw [List.map_eq_nil_iff] at h
      rw [h] at this
      exact hn this.symm))]
    exact ⟨_, rfl⟩
  · rw [if_neg ho]
    exact ⟨_, rfl⟩

/-- the errors of one step that are due to all bins disappearing -/
def Emptied (cfg : Cfg K) : Err → Prop
  | .indexError => cfg.gammaBounds ≠ none ∨ cfg.mergeCloser ≠ none
  | _ => False

/-- the errors a step of a sensible configuration can end with -/
def StepErr (cfg : Cfg K) (e : Err) : Prop := Physical e ∨ Emptied cfg e

theorem rates_length {cfg : Cfg K} {n : Nat}
    {en : Bins K} {dens : List K} {sub : List (List K)} {enRates : List (Bins K)}
    {injRates : List (List K)} {t : K} {gm : Bins K} {d : List K} {s : List (List K)} {dist : Dist K}
    {rates : List (Bins K)} (hr : enRates.length = n) (hg : n = nGroups cfg)
    (e : applyStages12 cfg en dens sub enRates injRates t = .ok (gm, d, s, dist, rates)) : rates.length = n := by
  unfold applyStages12 at e
  obtain ⟨⟨gm1, d1, sub1⟩, h1, e⟩ := bind_ok_iff.1 e
  obtain ⟨dist1, h2, e⟩ := bind_ok_iff.1 e
  dsimp only at e
  split at e
  · obtain ⟨r1, h3, e⟩ := bind_ok_iff.1 e
    obtain ⟨fin, h4, e⟩ := bind_ok_iff.1 e
    obtain ⟨⟨a1, a2, a3⟩, h5, e⟩ := bind_ok_iff.1 e
    obtain ⟨a4, h6, e⟩ := bind_ok_iff.1 e
    rw [pure_ok_iff] at e
    cases e
    have hl4 := mapM_ok_length h4
    rw [sumRates2_length] at hl4
    simp [hr, hl4, hg]
  · rw [pure_ok_iff] at e
    cases e
    exact hr

theorem applyTimeChanges_only {cfg : Cfg K} (wf : cfg.WF) (hf : Shaped cfg.enFns) {n : Nat}
    {en : Bins K} {dens : List K} {sub : List (List K)} {enRates : List (Bins K)}
    {injRates : List (List K)} {t : K} (he : en.Len n) (hd : dens.length = n) (hsne : sub ≠ [])
    (hs : ∀ r ∈ sub, r.length = n) (hr : ∀ b ∈ enRates, b.Len n) (hi : ∀ r ∈ injRates, r.length = n)
    (hc : sub.length = enRates.length) (hil : sub.length ≤ injRates.length) (hg : sub.length = nGroups cfg)
    (hn : n ≠ 0) :
    Only (StepErr cfg) (applyTimeChanges cfg en dens sub enRates injRates t) := by
  unfold applyTimeChanges
  refine only_bind (only_mono (applyStages12_only wf.lawful wf.mec2 hf he hd hsne hs hr hi hc hil hg)
    fun e h => Or.inl h) ?_
  rintro ⟨gm, d, s, dist, rates⟩ h1
  dsimp only
  obtain ⟨sub0, chg, ev, hsl, hsr, -, hud, hrl, -, -⟩ :=
    applyStages12_spec wf.lawful wf.mec2 he hd hs hr hi h1
  have hrlen := rates_length (n := sub.length) hc.symm hg h1
  have hDnn := updateDistribution_nonneg wf.lawful hud
  have hsne' : s ≠ [] := by
    rintro rfl
    have := ev.slen
    rw [hsl] at this
    simp at this
    exact hsne (List.length_eq_zero_iff.1 this.symm)
  have hgpos : ∀ v ∈ gm.lb, 0 < v := (forall_mem_iff_getD 0).2 (by rw [ev.len.1]; exact ev.pos)
  have hub : gm.ub.length = gm.lb.length := by rw [ev.len.1, ev.len.2]
  have hdl : d.length = gm.lb.length := by rw [ev.len.1, ev.tlen]
  refine only_bind (only_mono (sortAndMergeBins_only wf.lawful hub hdl hgpos ev.tnn)
    fun e h => Or.inr (by rw [h.1]; exact Or.inr h.2.1)) ?_
  rintro ⟨b3, d3, m3⟩ h3
  obtain ⟨idx, rfl, hmg⟩ := sortAndMergeBins_spec wf.lawful hub hdl hgpos h3
  have hag := sortAndMergeBins_agree wf.lawful hub hdl hgpos ev.tnn hud h3
  have hr3 : ∀ i ∈ idx, i < n := fun i hi' => by rw [← ev.len.1]; exact hmg.range i hi'
  dsimp only
  rw [toInts_eq, remapSubgroups_enc s _ n hsne' ev.rowlen (inRange_some hr3)
    (Or.inr none_not_mem_some)]
  refine only_bind (only_ok _) ?_
  intro s3 h4
  cases h4
  have hM := hmg.mapped ev.len ev.tlen ev.pos ev.width ev.tnn hDnn hsne' hag
  refine only_bind (only_mono (applyBounds_only hM ?_ ?_) fun e h => Or.inr ?_) (fun _ _ => only_pure _)
  · intro h
    rw [h] at hrlen
    exact hsne (List.length_eq_zero_iff.1 hrlen.symm)
  · intro r hr' h
    have := (hrl r hr').1
    rw [h] at this
    exact hn this.symm
  · obtain ⟨rfl, lo, hi, hb, -⟩ := h
    exact Or.inl (by simp [hb])

theorem applyTimeChanges_ne {cfg : Cfg K} (wf : cfg.WF) {n : Nat}
    {en : Bins K} {dens : List K} {sub : List (List K)} {enRates : List (Bins K)}
    {injRates : List (List K)} {t : K} (he : en.Len n) (hd : dens.length = n)
    (hs : ∀ r ∈ sub, r.length = n) (hr : ∀ b ∈ enRates, b.Len n) (hi : ∀ r ∈ injRates, r.length = n)
    (hn : n ≠ 0) {o : StepOut K} (e : applyTimeChanges cfg en dens sub enRates injRates t = .ok o) :
    o.bins.lb ≠ [] := by
  unfold applyTimeChanges at e
  obtain ⟨⟨gm, d, s, dist, rates⟩, h1, e⟩ := bind_ok_iff.1 e
  obtain ⟨⟨b3, d3, m3⟩, h3, e⟩ := bind_ok_iff.1 e
  obtain ⟨s3, h4, e⟩ := bind_ok_iff.1 e
  obtain ⟨⟨b5, d5, s5, m5⟩, h5, e⟩ := bind_ok_iff.1 e
  dsimp only at e h3 h4 h5
  rw [pure_ok_iff] at e
  subst e
  obtain ⟨sub0, chg, ev, -⟩ := applyStages12_spec wf.lawful wf.mec2 he hd hs hr hi h1
  have hgpos : ∀ v ∈ gm.lb, 0 < v := (forall_mem_iff_getD 0).2 (by rw [ev.len.1]; exact ev.pos)
  have hub : gm.ub.length = gm.lb.length := by rw [ev.len.1, ev.len.2]
  have hdl : d.length = gm.lb.length := by rw [ev.len.1, ev.tlen]
  refine applyBounds_ne (sortAndMergeBins_ne wf.lawful hub hdl hgpos ev.tnn ?_ h3) h5
  intro h
  have := ev.len.1
  rw [h] at this
  exact hn this.symm

theorem refresh_ok {cfg : Cfg K} (wf : cfg.WF) (he : Shaped cfg.enFns) (hr : Shaped cfg.relFns)
    (ha : Shaped cfg.absFns) {s : State K} (hI : Inv cfg s) (hne : s.bins.lb ≠ []) {t : K} {o : StepOut K}
    {left : List (WithTop K)} {mask : List Bool} {l : List (Option Nat)} (hmap : o.mapping = l.map enc)
    (hM : Mapped s.bins.lb.length o.dist s.sub.length o.bins o.dens o.sub l) (hm : mask.length = l.length)
    (hnew : ∀ j (h : j < l.length) (h' : j < mask.length), l[j] = none → mask[j] = true) :
    ∃ s', refresh cfg s t o left mask = .ok s' := by
  have hn : s.bins.lb.length ≠ 0 := fun h => hne (List.length_eq_zero_iff.1 h)
  have r1 := remapRates2_enc hI.en.len hM.range (Or.inl hn)
  have r2 := remapRates1_enc hI.abs.len hM.range (Or.inl hn)
  have r3 := remapRates1_enc hI.rel.len hM.range (Or.inl hn)
  obtain ⟨u1, u2, -⟩ := updateBinUb_spec ⟨hM.lblen, hM.ublen⟩ hm
  obtain ⟨q1, k1⟩ := recalcRates2_ok (dist := o.dist) (b := updateBinUb o.bins mask) (dens := o.dens) he
    ⟨by rw [u1, hM.lblen], u2⟩ hm hM.sne hM.rowlen (lookup_len2 wf.keysEn (remapRates2_good hI.en hM.range hnew r1))
  obtain ⟨q2, k2⟩ := recalcRates1_ok (dist := o.dist) (g := (updateBinUb o.bins mask).lb) (dens := o.dens) ha
    (by rw [u1, hM.lblen]) hm hM.sne hM.rowlen (lookup_len1 wf.keysAbs (remapRates1_good hI.abs hM.range hnew r2))
  obtain ⟨q3, k3⟩ := recalcRates1_ok (dist := o.dist) (g := (updateBinUb o.bins mask).lb) (dens := o.dens) hr
    (by rw [u1, hM.lblen]) hm hM.sne hM.rowlen (lookup_len1 wf.keysRel (remapRates1_good hI.rel hM.range hnew r3))
  unfold refresh
  rw [hmap, r1, r2, r3]
  dsimp only [bind, Except.bind]
  rw [k1]
  dsimp only
  rw [k2]
  dsimp only
  rw [k3]
  exact ⟨_, rfl⟩

/-- the part of the invariant `step_only` needs on top of `Inv` -/
structure Live (cfg : Cfg K) (s : State K) : Prop where
  ne : s.bins.lb ≠ []
  groups : s.sub.length = nGroups cfg

theorem step_only {cfg : Cfg K} (wf : cfg.WF) (he : Shaped cfg.enFns) (hr : Shaped cfg.relFns)
    (ha : Shaped cfg.absFns) {s : State K} (hI : Inv cfg s) (hL : Live cfg s) (hg : s.elapsed < cfg.totalTime) :
    Only (StepErr cfg) (step cfg s) := by
  have hn : s.bins.lb.length ≠ 0 := fun h => hL.ne (List.length_eq_zero_iff.1 h)
  obtain ⟨enG, relG, absG, h1, l1, l2, l3⟩ := groupRates_ok hI
  obtain ⟨g1, g2, g3⟩ := groupRates_len rfl hI.en.len hI.rel.len hI.abs.len h1
  have hlen : s.bins.Len s.bins.lb.length := ⟨rfl, hI.ublen⟩
  obtain ⟨inj, h2, l4⟩ := totalInjection_ok (dens := s.dens) (sub := s.sub) (relG := relG) (absG := absG)
    (by rw [l2, hL.groups]) (by rw [l3, hL.groups])
  have hinj := totalInjection_len hI.denslen hI.sublen g2 g3 h2
  unfold step
  rw [h1]
  refine only_bind (only_ok _) ?_
  intro a ha'
  cases ha'
  dsimp only
  rw [h2]
  refine only_bind (only_ok _) ?_
  intro a ha'
  cases ha'
  refine only_bind (only_mono (chooseStep_only hI hL.ne ⟨g1, g2, g3⟩ (by rw [l1, hL.groups])) fun e h => Or.inl h) ?_
  rintro ⟨t0, left⟩ h3
  obtain ⟨c1, c2, c3⟩ := chooseStep_spec wf hI ⟨g1, g2, g3⟩ h3
  dsimp only
  refine only_bind (applyTimeChanges_only wf he (toErg_len hlen) hI.denslen hI.subne hI.sublen g1 hinj
    (by rw [l1, hL.groups]) (le_of_eq l4.symm) hL.groups hn) ?_
  intro o h4
  obtain ⟨l, hmap, hM, -⟩ := applyTimeChanges_spec wf (toErg_len hlen) hI.denslen hI.subne hI.sublen g1 hinj h4
  obtain ⟨⟨left', mask⟩, h5⟩ := recalcMask_ok (cfg := cfg) (left := left) (t := truncStep cfg s.elapsed t0)
    hmap hM.range hn (fun ho => (c3 ho).1)
  obtain ⟨m1, m2, -, -⟩ := recalcMask_spec hmap hM.range hM.ublen hM.dlen (fun ho => by
    obtain ⟨a, b⟩ := c3 ho
    exact ⟨a, fun x hx => le_trans (truncStep_le_t _ _ _) (b x hx),
      truncStep_pos (c2 (wf.optAuto ho)) hg⟩) h5
  have hnew : ∀ j (h : j < l.length) (h' : j < mask.length), l[j] = none → mask[j] = true := by
    intro j hj hj' hn
    refine m2 j hj' (hM.new j hj ?_)
    rw [List.getD_eq_getElem _ _ hj, hn]
  rw [h5]
  refine only_bind (only_ok _) ?_
  intro a ha'
  cases ha'
  obtain ⟨s', h6⟩ := refresh_ok wf he hr ha hI hL.ne (t := truncStep cfg s.elapsed t0) (left := left') hmap hM m1 hnew
  exact only_of_ok h6

theorem step_live {cfg : Cfg K} (wf : cfg.WF) {s s' : State K} (hI : Inv cfg s) (hL : Live cfg s)
    (hg : s.elapsed < cfg.totalTime) (h : step cfg s = .ok s') : Live cfg s' := by
  have hn : s.bins.lb.length ≠ 0 := fun h => hL.ne (List.length_eq_zero_iff.1 h)
  obtain ⟨enG, relG, absG, inj, t0, left, o, l, left', mask, h1, h2, h3, h4, h5, h6, hS, hinj, hmap, hM, m1, -⟩ :=
    step_mapped wf hI hg h
  have hlen : s.bins.Len s.bins.lb.length := ⟨rfl, hI.ublen⟩
  have hne := applyTimeChanges_ne wf (toErg_len hlen) hI.denslen hI.sublen hS.en hinj hn h4
  obtain ⟨pe, pa, pr, -, -, -, -, -, -, e1, -⟩ := refresh_parts h6
  obtain ⟨u1, -⟩ := updateBinUb_spec ⟨hM.lblen, hM.ublen⟩ m1
  exact ⟨by rw [e1, u1]; exact hne, by rw [(step_inv wf hI hg h).2.2, hL.groups]⟩

/-- a configuration with something to evolve: a nonempty grid, at least one group, and initial fractions with
one row per group -/
structure Cfg.Sensible (cfg : Cfg K) : Prop where
  gamma : cfg.initialGamma ≠ []
  groups : cfg.subgroups ≠ some []
  rows : ∀ g f, cfg.subgroups = some g → cfg.initialFractions = some f → f.length = g.length

theorem initState_live {cfg : Cfg K} (wf : cfg.WF) (hs : cfg.Sensible) (he : Shaped cfg.enFns)
    (hr : Shaped cfg.relFns) (ha : Shaped cfg.absFns) (dist : Dist K) :
    ∃ s, initState cfg dist = .ok s ∧ Live cfg s := by
  have hsub : ∃ sub, initialSub cfg = .ok sub ∧ sub ≠ [] ∧ (∀ r ∈ sub, r.length = cfg.initialGamma.length) ∧
      sub.length = nGroups cfg := by
    unfold initialSub nGroups
    have h1 := hs.groups
    have h2 := hs.rows
    have h3 := wf.fractions
    revert h1 h2 h3
    cases cfg.subgroups with
    | none =>
      intro _ _ _
      exact ⟨_, rfl, by simp, by simp, rfl⟩
    | some rows =>
      cases cfg.initialFractions with
      | some f =>
        intro _ h2 h3
        exact ⟨f, rfl, (h3 f rfl).1, (h3 f rfl).2, h2 rows f rfl rfl⟩
      | none =>
        intro h1 _ _
        cases rows with
        | nil => exact absurd rfl h1
        | cons r rs =>
          refine ⟨_, rfl, by simp, ?_, by simp⟩
          intro x hx
          rcases List.mem_cons.1 hx with rfl | hx
          · simp
          · obtain ⟨_, _, rfl⟩ := List.mem_map.1 hx
            simp
  obtain ⟨sub, h1, h2, h3, h4⟩ := hsub
  have hb : (⟨cfg.initialGamma, cfg.initialGamma.map fun _ => 0⟩ : Bins K).Len cfg.initialGamma.length :=
    ⟨rfl, by simp⟩
  obtain ⟨u1, u2, -⟩ := updateBinUb_spec hb (mask := List.replicate cfg.initialGamma.length true) (by simp)
  obtain ⟨en, e1⟩ := newRates2_ok (dist := dist)
    (b := updateBinUb ⟨cfg.initialGamma, cfg.initialGamma.map fun _ => 0⟩ (List.replicate cfg.initialGamma.length true))
    (dens := cfg.initialGamma.map dist.eval) he ⟨by rw [u1], u2⟩ (by simp) h2 h3
  obtain ⟨rel, e2⟩ := newRates1_ok (dist := dist) (g := cfg.initialGamma) (dens := cfg.initialGamma.map dist.eval) hr
    rfl (by simp) h2 h3
  obtain ⟨abs, e3⟩ := newRates1_ok (dist := dist) (g := cfg.initialGamma) (dens := cfg.initialGamma.map dist.eval) ha
    rfl (by simp) h2 h3
  unfold initState
  rw [h1]
  dsimp only [bind, Except.bind]
  rw [e1]
  dsimp only
  rw [e2]
  dsimp only
  rw [e3]
  exact ⟨_, rfl, by dsimp only; rw [u1]; exact hs.gamma, h4⟩

theorem reach_live {cfg : Cfg K} (wf : cfg.WF) (hs : cfg.Sensible) (he : Shaped cfg.enFns)
    (hr : Shaped cfg.relFns) (ha : Shaped cfg.absFns) {dist : Dist K} (hnn : ∀ x, 0 ≤ dist.eval x) {s : State K}
    (h : Reach cfg dist s) : Live cfg s := by
  induction h with
  | init h0 =>
    obtain ⟨s0, h1, hL⟩ := initState_live wf hs he hr ha dist
    rw [h0] at h1
    cases h1
    exact hL
  | step hr' hlt h1 ih => exact step_live wf (reach_inv wf hnn hr').1 ih hlt h1

end Verif.TE
