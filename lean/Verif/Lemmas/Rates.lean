import Verif.Lemmas.TimeEval

/- Rates: lengths, absence of NaN, provenance. -/

namespace Verif.TE

open Verif.Np

set_option linter.unusedSectionVars false

variable {K : Type} [Field K] [LinearOrder K]

/-- `y` is a value returned by the user's function -/
def Prov (f : GammaFn K) (y : K) : Prop := ∃ d p, y ∈ f d p

/-- a reported rate entry: a number, returned by the function -/
def EntryOK (f : GammaFn K) (x : NV K) : Prop := ∃ y, x = some y ∧ Prov f y

def Good1 (n : Nat) (f : GammaFn K) (v : List (NV K)) : Prop :=
  v.length = n ∧ ∀ x ∈ v, EntryOK f x

def Good2 (n : Nat) (f : GammaFn K) (b : Bins (NV K)) : Prop := Good1 n f b.lb ∧ Good1 n f b.ub

def RatesGood1 (fns : List (String × GammaFn K)) (n : Nat) (r : Rates1 K) : Prop :=
  List.Forall₂ (fun f p => p.1 = f.1 ∧ Good1 n f.2 p.2) fns r

def RatesGood2 (fns : List (String × GammaFn K)) (n : Nat) (r : Rates2 K) : Prop :=
  List.Forall₂ (fun f p => p.1 = f.1 ∧ Good2 n f.2 p.2) fns r

/-- as `Good1`, but only where the mask is off -/
def GoodOff (n : Nat) (mask : List Bool) (f : GammaFn K) (v : List (NV K)) : Prop :=
  v.length = n ∧ ∀ j (h : j < v.length) (h' : j < mask.length), mask[j] = false → EntryOK f v[j]

theorem lookup_forall₂ {α β : Type} {P : String × α → β → Prop} {fns : List (String × α)}
    {r : List (String × β)} (h : List.Forall₂ (fun f p => p.1 = f.1 ∧ P f p.2) fns r)
    (hnd : (fns.map Prod.fst).Nodup) : ∀ f ∈ fns, ∃ v, r.lookup f.1 = some v ∧ P f v := by
  induction h with
  | nil => simp
  | @cons a b l1 l2 hab _ ih =>
    simp only [List.map_cons, List.nodup_cons] at hnd
    intro f hf
    obtain ⟨bk, bv⟩ := b
    simp only at hab
    rcases List.mem_cons.1 hf with rfl | hf
    · refine ⟨bv, ?_, hab.2⟩
      rw [hab.1]; simp [List.lookup]
    · obtain ⟨v, hv, hp⟩ := ih hnd.2 f hf
      refine ⟨v, ?_, hp⟩
      have hne : f.1 ≠ a.1 := by
        intro e
        exact hnd.1 (e ▸ List.mem_map_of_mem hf)
      rw [hab.1, List.lookup_cons, hv, beq_eq_false_iff_ne.2 hne]

theorem forall₂_left {α β : Type} {f : α → Except Err β} {Q : α → β → Prop} {l : List α} {r : List β}
    (h : l.mapM f = .ok r) (hq : ∀ a ∈ l, ∀ b, f a = .ok b → Q a b) : List.Forall₂ Q l r := by
  have := mapM_ok_iff.1 h
  rw [List.forall₂_iff_get] at this ⊢
  refine ⟨this.1, fun i h1 h2 => hq _ (List.getElem_mem _) _ (this.2 i h1 h2)⟩

theorem deinterlace_mem {l : List K} {x : K} :
    (x ∈ (deinterlace l).1 → x ∈ l) ∧ (x ∈ (deinterlace l).2 → x ∈ l) := by
  induction l using deinterlace.induct with
  | case1 a b r ih =>
    simp only [deinterlace, List.mem_cons]
    constructor
    · rintro (h | h)
      · exact Or.inl h
      · exact Or.inr (Or.inr (ih.1 h))
    · rintro (h | h)
      · exact Or.inr (Or.inl h)
      · exact Or.inr (Or.inr (ih.2 h))
  | case2 l h => 
    rw [deinterlace]
    · simp
    · exact h

theorem deinterlace_length {l : List K} {n : Nat} (h : l.length = 2 * n) :
    (deinterlace l).1.length = n ∧ (deinterlace l).2.length = n := by
  induction n generalizing l with
  | zero =>
    have : l = [] := List.length_eq_zero_iff.1 (by omega)
    subst this; simp [deinterlace]
  | succ n ih =>
    match l, h with
    | a :: b :: r, h =>
      simp only [List.length_cons] at h
      have := ih (l := r) (by omega)
      simp [deinterlace, this]
    | [a], h => simp at h; omega
    | [], h => simp at h

theorem reshape2_spec {n : Nat} {l : List K} {b : Bins K} (h : reshape2 n l = .ok b) :
    b.Len n ∧ (∀ x ∈ b.lb, x ∈ l) ∧ (∀ x ∈ b.ub, x ∈ l) := by
  unfold reshape2 at h
  split at h
  · next hl =>
    simp only [Except.ok.injEq] at h
    subst h
    exact ⟨deinterlace_length hl, fun x => deinterlace_mem.1, fun x => deinterlace_mem.2⟩
  · simp at h

theorem reshape1_spec {n : Nat} {l b : List K} (h : reshape1 n l = .ok b) : b = l ∧ b.length = n := by
  unfold reshape1 at h
  split at h
  · next hl =>
    simp only [Except.ok.injEq] at h
    subst h; exact ⟨rfl, hl⟩
  · simp at h

theorem dictGet_ok {α : Type} {d : List (String × α)} {k : String} {v : α} :
    dictGet d k = .ok v ↔ d.lookup k = some v := by
  unfold dictGet
  cases d.lookup k <;> simp

/-- updated row: the recalculated entries come from the function, the others were fine before -/
theorem scatter_good {n : Nat} {mask : List Bool} {f : GammaFn K} {old : List (NV K)} {new : List K}
    (hm : mask.length = n) (ho : GoodOff n mask f old) (hn : new.length = countMask mask)
    (hp : ∀ x ∈ new, Prov f x) : Good1 n f (scatter mask (new.map some) old) := by
  have hl : (scatter mask (new.map some) old).length = mask.length :=
    scatter_length (by rw [hm, ho.1]) (by simpa [countMask] using hn)
  refine ⟨by rw [hl, hm], ?_⟩
  intro x hx
  obtain ⟨j, hj, rfl⟩ := List.mem_iff_getElem.1 hx
  obtain ⟨h1, h2⟩ := scatter_getElem (new := new.map some) (by rw [hm, ho.1])
    (by simpa [countMask] using hn) j hj (by omega) (by rw [ho.1]; omega)
  cases hb : mask[j]'(by omega) with
  | true =>
    obtain ⟨y, hy, e⟩ := List.mem_map.1 (h1 hb)
    exact ⟨y, e.symm, hp y hy⟩
  | false =>
    rw [h2 hb]
    exact ho.2 j (by rw [ho.1]; omega) (by omega) hb

theorem recalcRates1_spec {dist : Dist K} {g : List K} {fns : List (String × GammaFn K)}
    {dens : List K} {sub : List (List K)} {prev r : Rates1 K} {mask : List Bool} {n : Nat}
    (hnd : (fns.map Prod.fst).Nodup) (hm : mask.length = n)
    (hprev : List.Forall₂ (fun f p => p.1 = f.1 ∧ GoodOff n mask f.2 p.2) fns prev)
    (h : recalcRates1 dist g fns dens sub prev mask = .ok r) : RatesGood1 fns n r := by
  unfold recalcRates1 at h
  obtain ⟨p, -, h⟩ := bind_ok_iff.1 h
  refine forall₂_left h ?_
  intro f hf b hb
  obtain ⟨old, ho, hb⟩ := bind_ok_iff.1 hb
  obtain ⟨new, hn, hb⟩ := bind_ok_iff.1 hb
  rw [pure_ok_iff] at hb
  subst hb
  obtain ⟨v, hv, hg⟩ := lookup_forall₂ hprev hnd f hf
  rw [dictGet_ok, hv] at ho
  simp only [Option.some.injEq] at ho
  subst ho
  obtain ⟨rfl, hnl⟩ := reshape1_spec hn
  exact ⟨rfl, scatter_good hm hg hnl (fun x hx => ⟨dist, p, hx⟩)⟩

theorem recalcRates2_spec {dist : Dist K} {b : Bins K} {fns : List (String × GammaFn K)}
    {dens : List K} {sub : List (List K)} {prev r : Rates2 K} {mask : List Bool} {n : Nat}
    (hnd : (fns.map Prod.fst).Nodup) (hm : mask.length = n)
    (hprev : List.Forall₂ (fun f p => p.1 = f.1 ∧ (GoodOff n mask f.2 p.2.lb ∧
      GoodOff n mask f.2 p.2.ub)) fns prev)
    (h : recalcRates2 dist b fns dens sub prev mask = .ok r) : RatesGood2 fns n r := by
  unfold recalcRates2 at h
  obtain ⟨p, -, h⟩ := bind_ok_iff.1 h
  refine forall₂_left h ?_
  intro f hf c hb
  obtain ⟨old, ho, hb⟩ := bind_ok_iff.1 hb
  obtain ⟨new, hn, hb⟩ := bind_ok_iff.1 hb
  rw [pure_ok_iff] at hb
  subst hb
  obtain ⟨v, hv, hg⟩ := lookup_forall₂ (P := fun f (v : Bins (NV K)) => GoodOff n mask f.2 v.lb ∧
      GoodOff n mask f.2 v.ub) hprev hnd f hf
  rw [dictGet_ok, hv] at ho
  simp only [Option.some.injEq] at ho
  subst ho
  obtain ⟨hnl, h1, h2⟩ := reshape2_spec hn
  exact ⟨rfl, scatter_good hm hg.1 hnl.1 (fun x hx => ⟨dist, p, h1 x hx⟩),
    scatter_good hm hg.2 hnl.2 (fun x hx => ⟨dist, p, h2 x hx⟩)⟩

theorem newRates1_spec {dist : Dist K} {g : List K} {fns : List (String × GammaFn K)}
    {dens : List K} {sub : List (List K)} {r : Rates1 K}
    (h : newRates1 dist g fns dens sub = .ok r) : RatesGood1 fns g.length r := by
  unfold newRates1 at h
  obtain ⟨p, -, h⟩ := bind_ok_iff.1 h
  refine forall₂_left h ?_
  intro f hf b hb
  obtain ⟨new, hn, hb⟩ := bind_ok_iff.1 hb
  rw [pure_ok_iff] at hb
  subst hb
  obtain ⟨rfl, hnl⟩ := reshape1_spec hn
  refine ⟨rfl, by simp [hnl], ?_⟩
  intro x hx
  obtain ⟨y, hy, e⟩ := List.mem_map.1 hx
  exact ⟨y, e.symm, dist, p, hy⟩

theorem newRates2_spec {dist : Dist K} {b : Bins K} {fns : List (String × GammaFn K)}
    {dens : List K} {sub : List (List K)} {r : Rates2 K}
    (h : newRates2 dist b fns dens sub = .ok r) : RatesGood2 fns b.lb.length r := by
  unfold newRates2 at h
  obtain ⟨p, -, h⟩ := bind_ok_iff.1 h
  refine forall₂_left h ?_
  intro f hf c hb
  obtain ⟨new, hn, hb⟩ := bind_ok_iff.1 hb
  rw [pure_ok_iff] at hb
  subst hb
  obtain ⟨hnl, h1, h2⟩ := reshape2_spec hn
  refine ⟨rfl, ⟨by simp [hnl.1], ?_⟩, ⟨by simp [hnl.2], ?_⟩⟩
  · intro x hx
    obtain ⟨y, hy, e⟩ := List.mem_map.1 hx
    exact ⟨y, e.symm, dist, p, h1 y hy⟩
  · intro x hx
    obtain ⟨y, hy, e⟩ := List.mem_map.1 hx
    exact ⟨y, e.symm, dist, p, h2 y hy⟩

/-! ### re-mapping -/

theorem remapRates1_enc {r : Rates1 K} {l : List (Option Nat)} {n : Nat}
    (hr : ∀ p ∈ r, p.2.length = n) (h : InRange n l) (hne : n ≠ 0 ∨ none ∉ l) :
    remapRates1 (l.map enc) r = .ok (r.map fun p => (p.1, pull l p.2 none)) := by
  unfold remapRates1
  apply mapM_ok_of
  intro p hp
  rw [remap_enc p.2 none l (by rw [hr p hp]; exact h) ?_]
  · rfl
  · rcases hne with h | h
    · left; intro e; have := hr p hp; simp [e] at this; omega
    · exact Or.inr h

theorem remapRates2_enc {r : Rates2 K} {l : List (Option Nat)} {n : Nat}
    (hr : ∀ p ∈ r, p.2.Len n) (h : InRange n l) (hne : n ≠ 0 ∨ none ∉ l) :
    remapRates2 (l.map enc) r
      = .ok (r.map fun p => (p.1, ⟨pull l p.2.lb none, pull l p.2.ub none⟩)) := by
  unfold remapRates2
  apply mapM_ok_of
  intro p hp
  unfold remapBins
  rw [remap_enc p.2.lb none l (by rw [(hr p hp).1]; exact h) ?_,
    remap_enc p.2.ub none l (by rw [(hr p hp).2]; exact h) ?_]
  · rfl
  · rcases hne with h | h
    · left; intro e; have := (hr p hp).2; simp [e] at this; omega
    · exact Or.inr h
  · rcases hne with h | h
    · left; intro e; have := (hr p hp).1; simp [e] at this; omega
    · exact Or.inr h

theorem RatesGood1.len {fns : List (String × GammaFn K)} {n : Nat} {r : Rates1 K}
    (h : RatesGood1 fns n r) : ∀ p ∈ r, p.2.length = n := by
  unfold RatesGood1 at h
  induction h with
  | nil => simp
  | cons hab _ ih =>
    intro p hp
    rcases List.mem_cons.1 hp with rfl | hp
    · exact hab.2.1
    · exact ih p hp

theorem RatesGood2.len {fns : List (String × GammaFn K)} {n : Nat} {r : Rates2 K}
    (h : RatesGood2 fns n r) : ∀ p ∈ r, p.2.Len n := by
  unfold RatesGood2 at h
  induction h with
  | nil => simp
  | cons hab _ ih =>
    intro p hp
    rcases List.mem_cons.1 hp with rfl | hp
    · exact ⟨hab.2.1.1, hab.2.2.1⟩
    · exact ih p hp

/-- re-mapped good rates are good except at new bins, which are masked -/
theorem pull_goodOff {f : GammaFn K} {n : Nat} {v : List (NV K)} {l : List (Option Nat)}
    {mask : List Bool} (hv : Good1 n f v) (h : InRange n l)
    (hnew : ∀ j (h : j < l.length) (h' : j < mask.length), l[j] = none → mask[j] = true) :
    GoodOff l.length mask f (pull l v none) := by
  refine ⟨by simp, ?_⟩
  intro j hj hj' hm
  have hj2 : j < l.length := by simpa using hj
  rw [pull_getElem]
  cases hlj : l[j] with
  | none => rw [hnew j hj2 hj' hlj] at hm; simp at hm
  | some i =>
    have hi : i < v.length := by rw [hv.1]; exact h i (hlj ▸ List.getElem_mem hj2)
    simp only
    rw [List.getD_eq_getElem _ _ hi]
    exact hv.2 _ (List.getElem_mem hi)

theorem forall₂_map_right {α β γ : Type} {R : α → β → Prop} {S : α → γ → Prop} {g : β → γ} {l : List α}
    {r : List β} (h : List.Forall₂ R l r) (hs : ∀ a b, R a b → S a (g b)) :
    List.Forall₂ S l (r.map g) := by
  induction h with
  | nil => simp
  | cons hab _ ih => exact List.Forall₂.cons (hs _ _ hab) ih

theorem finiteRow_length {l : List (NV K)} {r : List K} (h : finiteRow l = .ok r) :
    r.length = l.length := mapM_ok_length h

theorem finiteBins_len {b : Bins (NV K)} {r : Bins K} {n : Nat} (hb : b.Len n)
    (h : finiteBins b = .ok r) : r.Len n := by
  unfold finiteBins at h
  obtain ⟨x, hx, h⟩ := bind_ok_iff.1 h
  obtain ⟨y, hy, h⟩ := bind_ok_iff.1 h
  rw [pure_ok_iff] at h
  subst h
  exact ⟨by simp only; rw [finiteRow_length hx, hb.1], by simp only; rw [finiteRow_length hy, hb.2]⟩

/-! ### sums -/

theorem foldl_addRow_length {n : Nat} (ls : List (List (NV K))) (h : ∀ l ∈ ls, l.length = n)
    (a : List (NV K)) (ha : a.length = n) : (ls.foldl addRow a).length = n := by
  induction ls generalizing a with
  | nil => simpa using ha
  | cons x ls ih =>
    simp only [List.foldl_cons]
    exact ih (fun l hl => h l (by simp [hl])) _ (by simp [addRow, ha, h x (by simp)])

theorem foldl_addBins_len {n : Nat} (ls : List (Bins (NV K))) (h : ∀ l ∈ ls, l.Len n)
    (a : Bins (NV K)) (ha : a.Len n) : (ls.foldl addBins a).Len n := by
  induction ls generalizing a with
  | nil => simpa using ha
  | cons x ls ih =>
    simp only [List.foldl_cons]
    refine ih (fun l hl => h l (by simp [hl])) _ ⟨?_, ?_⟩
    · simp [addBins, addRow, ha.1, (h x (by simp)).1]
    · simp [addBins, addRow, ha.2, (h x (by simp)).2]

theorem lookup_mem {α : Type} {r : List (String × α)} {k : String} {v : α} (h : r.lookup k = some v) :
    (k, v) ∈ r := by
  induction r with
  | nil => simp at h
  | cons p r ih =>
    obtain ⟨pk, pv⟩ := p
    rw [List.lookup_cons] at h
    by_cases hk : k = pk
    · subst hk; simp at h; simp [h]
    · rw [beq_eq_false_iff_ne.2 hk] at h
      exact List.mem_cons_of_mem _ (ih h)

theorem sumRates1_len {r : Rates1 K} {n : Nat} (h : ∀ p ∈ r, p.2.length = n)
    (sg : Option (List (List String))) : ∀ l ∈ sumRates1 r n sg, l.length = n := by
  intro l hl
  unfold sumRates1 at hl
  cases sg with
  | none =>
    simp only [List.mem_singleton] at hl
    subst hl
    exact foldl_addRow_length _ (by
      intro l hl
      obtain ⟨p, hp, rfl⟩ := List.mem_map.1 hl
      exact h p hp) _ (by simp [zerosNV])
  | some rows =>
    simp only [List.mem_map] at hl
    obtain ⟨row, -, rfl⟩ := hl
    split
    · exact foldl_addRow_length _ (by
        intro l hl
        obtain ⟨k, -, hk⟩ := List.mem_filterMap.1 hl
        exact h _ (lookup_mem hk)) _ (by simp [zerosNV])
    · simp [zerosNV]

theorem sumRates2_len {r : Rates2 K} {n : Nat} (h : ∀ p ∈ r, p.2.Len n)
    (sg : Option (List (List String))) : ∀ l ∈ sumRates2 r n sg, l.Len n := by
  intro l hl
  have hz : (⟨zerosNV n, zerosNV n⟩ : Bins (NV K)).Len n := ⟨by simp [zerosNV], by simp [zerosNV]⟩
  unfold sumRates2 at hl
  cases sg with
  | none =>
    simp only [List.mem_singleton] at hl
    subst hl
    exact foldl_addBins_len _ (by
      intro l hl
      obtain ⟨p, hp, rfl⟩ := List.mem_map.1 hl
      exact h p hp) _ hz
  | some rows =>
    simp only [List.mem_map] at hl
    obtain ⟨row, -, rfl⟩ := hl
    split
    · exact foldl_addBins_len _ (by
        intro l hl
        obtain ⟨k, -, hk⟩ := List.mem_filterMap.1 hl
        exact h _ (lookup_mem hk)) _ hz
    · exact hz

theorem mapM_forall_mem {α β : Type} {f : α → Except Err β} {P : β → Prop} {l : List α} {r : List β}
    (h : l.mapM f = .ok r) (hp : ∀ a ∈ l, ∀ b, f a = .ok b → P b) : ∀ b ∈ r, P b := by
  intro b hb
  obtain ⟨j, hj, rfl⟩ := List.mem_iff_getElem.1 hb
  have hl := mapM_ok_length h
  exact hp _ (List.getElem_mem (by omega)) _ (mapM_ok_getElem h j (by omega) hj)

end Verif.TE
