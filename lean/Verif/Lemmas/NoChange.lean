import Verif.Lemmas.Fresh

/- A step with zero rates changes nothing. -/

namespace Verif.TE

open Verif.Np

set_option linter.unusedSectionVars false

variable {K : Type} [Field K] [LinearOrder K] [IsStrictOrderedRing K]

def Zero1 (l : List K) : Prop := ∀ x ∈ l, x = 0
def Zero2 (b : Bins K) : Prop := Zero1 b.lb ∧ Zero1 b.ub
def ZeroNV (l : List (NV K)) : Prop := ∀ x ∈ l, x = some 0
def ZeroNV2 (b : Bins (NV K)) : Prop := ZeroNV b.lb ∧ ZeroNV b.ub

theorem Zero1.getD {l : List K} (h : Zero1 l) (j : Nat) : l.getD j 0 = 0 := by
  rcases Nat.lt_or_ge j l.length with hj | hj
  · exact h _ (getD_mem hj)
  · simp [List.getD, hj]

theorem forall_mem_zipWith {α β γ : Type} {f : α → β → γ} {a : List α} {b : List β}
    {P : α → Prop} {Q : β → Prop} {R : γ → Prop} (ha : ∀ x ∈ a, P x) (hb : ∀ x ∈ b, Q x)
    (hf : ∀ x y, P x → Q y → R (f x y)) : ∀ x ∈ List.zipWith f a b, R x := by
  intro x hx
  obtain ⟨k, hk, rfl⟩ := List.mem_iff_getElem.1 hx
  rw [List.getElem_zipWith]
  exact hf _ _ (ha _ (List.getElem_mem _)) (hb _ (List.getElem_mem _))

theorem addRow_zero {a b : List (NV K)} (ha : ZeroNV a) (hb : ZeroNV b) : ZeroNV (addRow a b) :=
  forall_mem_zipWith ha hb (by rintro _ _ rfl rfl; simp [addNV])

theorem zerosNV_zero (n : Nat) : ZeroNV (zerosNV n : List (NV K)) := by
  intro x hx; exact List.eq_of_mem_replicate hx

theorem foldl_addRow_zero (ls : List (List (NV K))) (h : ∀ l ∈ ls, ZeroNV l)
    (a : List (NV K)) (ha : ZeroNV a) : ZeroNV (ls.foldl addRow a) := by
  induction ls generalizing a with
  | nil => simpa using ha
  | cons x ls ih =>
    exact ih (fun l hl => h l (by simp [hl])) _ (addRow_zero ha (h x (by simp)))

theorem foldl_addBins_zero (ls : List (Bins (NV K))) (h : ∀ l ∈ ls, ZeroNV2 l)
    (a : Bins (NV K)) (ha : ZeroNV2 a) : ZeroNV2 (ls.foldl addBins a) := by
  induction ls generalizing a with
  | nil => simpa using ha
  | cons x ls ih =>
    exact ih (fun l hl => h l (by simp [hl])) _
      ⟨addRow_zero ha.1 (h x (by simp)).1, addRow_zero ha.2 (h x (by simp)).2⟩

theorem sumRates1_zero {r : Rates1 K} {n : Nat} (h : ∀ p ∈ r, ZeroNV p.2)
    (sg : Option (List (List String))) : ∀ l ∈ sumRates1 r n sg, ZeroNV l := by
  intro l hl
  unfold sumRates1 at hl
  cases sg with
  | none =>
    simp only [List.mem_singleton] at hl
    subst hl
    refine foldl_addRow_zero _ ?_ _ (zerosNV_zero n)
    intro l hl
    obtain ⟨p, hp, rfl⟩ := List.mem_map.1 hl
    exact h p hp
  | some rows =>
    simp only [List.mem_map] at hl
    obtain ⟨row, -, rfl⟩ := hl
    split
    · refine foldl_addRow_zero _ ?_ _ (zerosNV_zero n)
      intro l hl
      obtain ⟨k, -, hk⟩ := List.mem_filterMap.1 hl
      exact h _ (lookup_mem hk)
    · exact zerosNV_zero n

theorem sumRates2_zero {r : Rates2 K} {n : Nat} (h : ∀ p ∈ r, ZeroNV2 p.2)
    (sg : Option (List (List String))) : ∀ l ∈ sumRates2 r n sg, ZeroNV2 l := by
  intro l hl
  have hz : ZeroNV2 (⟨zerosNV n, zerosNV n⟩ : Bins (NV K)) := ⟨zerosNV_zero n, zerosNV_zero n⟩
  unfold sumRates2 at hl
  cases sg with
  | none =>
    simp only [List.mem_singleton] at hl
    subst hl
    refine foldl_addBins_zero _ ?_ _ hz
    intro l hl
    obtain ⟨p, hp, rfl⟩ := List.mem_map.1 hl
    exact h p hp
  | some rows =>
    simp only [List.mem_map] at hl
    obtain ⟨row, -, rfl⟩ := hl
    split
    · refine foldl_addBins_zero _ ?_ _ hz
      intro l hl
      obtain ⟨k, -, hk⟩ := List.mem_filterMap.1 hl
      exact h _ (lookup_mem hk)
    · exact hz

theorem finiteRow_zero {l : List (NV K)} {r : List K} (hl : ZeroNV l) (h : finiteRow l = .ok r) :
    Zero1 r := by
  unfold finiteRow at h
  refine mapM_forall_mem h ?_
  intro a ha b hb
  rw [hl a ha] at hb
  simpa using hb.symm

theorem finiteBins_zero {b : Bins (NV K)} {r : Bins K} (hb : ZeroNV2 b) (h : finiteBins b = .ok r) :
    Zero2 r := by
  unfold finiteBins at h
  obtain ⟨x, hx, h⟩ := bind_ok_iff.1 h
  obtain ⟨y, hy, h⟩ := bind_ok_iff.1 h
  rw [pure_ok_iff] at h
  subst h
  exact ⟨finiteRow_zero hb.1 hx, finiteRow_zero hb.2 hy⟩

/-- a function that only returns zeros -/
def ZeroFn (f : GammaFn K) : Prop := ∀ d p, ∀ y ∈ f d p, y = 0

theorem Good1.zero {n : Nat} {f : GammaFn K} {v : List (NV K)} (hf : ZeroFn f) (h : Good1 n f v) :
    ZeroNV v := by
  intro x hx
  obtain ⟨y, rfl, d, p, hy⟩ := h.2 x hx
  rw [hf d p y hy]

theorem forall₂_right {α β : Type} {R : α → β → Prop} {l : List α} {r : List β}
    (h : List.Forall₂ R l r) : ∀ b ∈ r, ∃ a ∈ l, R a b := by
  induction h with
  | nil => simp
  | cons hab _ ih =>
    intro b hb
    rcases List.mem_cons.1 hb with rfl | hb
    · exact ⟨_, by simp, hab⟩
    · obtain ⟨a, ha, hr⟩ := ih b hb
      exact ⟨a, by simp [ha], hr⟩

theorem RatesGood1.zero {fns : List (String × GammaFn K)} {n : Nat} {r : Rates1 K}
    (hf : ∀ f ∈ fns, ZeroFn f.2) (h : RatesGood1 fns n r) : ∀ p ∈ r, ZeroNV p.2 := by
  intro p hp
  obtain ⟨f, hfm, -, hg⟩ := forall₂_right h p hp
  exact hg.zero (hf f hfm)

theorem RatesGood2.zero {fns : List (String × GammaFn K)} {n : Nat} {r : Rates2 K}
    (hf : ∀ f ∈ fns, ZeroFn f.2) (h : RatesGood2 fns n r) : ∀ p ∈ r, ZeroNV2 p.2 := by
  intro p hp
  obtain ⟨f, hfm, -, hg⟩ := forall₂_right h p hp
  exact ⟨hg.1.zero (hf f hfm), hg.2.zero (hf f hfm)⟩

theorem totalInjection_zero {dens : List K} {sub relG absG inj : List (List K)}
    (hr : ∀ r ∈ relG, Zero1 r) (ha : ∀ r ∈ absG, Zero1 r)
    (h : totalInjection dens sub relG absG = .ok inj) : ∀ r ∈ inj, Zero1 r := by
  unfold totalInjection at h
  obtain ⟨x, hx, h⟩ := bind_ok_iff.1 h
  have hx' : ∀ r ∈ x, Zero1 r :=
    bcastRows_forall (P := fun _ => True) hx (fun _ _ => trivial) hr (fun a b _ hb =>
      forall_mem_zipWith (P := fun _ => True) (fun _ _ => trivial) hb (by rintro x _ - rfl; simp))
  exact bcastRows_forall h hx' ha (fun a b h1 h2 =>
    forall_mem_zipWith h1 h2 (by rintro _ _ rfl rfl; simp))

theorem scaleBins_zero {t : K} {b : Bins K} (h : Zero2 b) : Zero2 (scaleBins t b) := by
  constructor
  · intro x hx
    obtain ⟨y, hy, rfl⟩ := List.mem_map.1 hx
    rw [h.1 y hy, zero_mul]
  · intro x hx
    obtain ⟨y, hy, rfl⟩ := List.mem_map.1 hx
    rw [h.2 y hy, zero_mul]

theorem averageBins_zero {a b : Bins K} (ha : Zero2 a) (hb : Zero2 b) : Zero2 (averageBins a b) :=
  ⟨forall_mem_zipWith ha.1 hb.1 (by rintro _ _ rfl rfl; simp),
    forall_mem_zipWith ha.2 hb.2 (by rintro _ _ rfl rfl; simp)⟩

theorem ext_getD {l r : List K} {n : Nat} (h1 : l.length = n) (h2 : r.length = n)
    (h : ∀ j, j < n → l.getD j 0 = r.getD j 0) : l = r := by
  apply List.ext_getElem (by omega)
  intro j a b
  have := h j (by omega)
  rwa [List.getD_eq_getElem _ _ a, List.getD_eq_getElem _ _ b] at this

theorem sum_map_mul (l : List K) (c : K) : (l.map (c * ·)).sum = c * l.sum := by
  induction l with
  | nil => simp
  | cons x l ih => simp [ih, mul_add]

/-- zero changes, zero injection: the state is reproduced -/
theorem EvalOut.zero {cfg : Cfg K} (hm : 0 < cfg.mec2) {n : Nat} {b : Bins K} {dens : List K}
    {sub : List (List K)} {chg : List (Bins K)} {inj : List (List K)} {gm : Bins K} {total : List K}
    {sub' : List (List K)} (hb : b.Len n) (hd : dens.length = n) (hs : ∀ r ∈ sub, r.length = n)
    (hw : ∀ j, j < n → b.lb.getD j 0 < b.ub.getD j 0)
    (hsum : ∀ j, j < n → (sub.map (·.getD j 0)).sum = 1)
    (hc : ∀ c ∈ chg, Zero2 c) (hi : ∀ r ∈ inj, Zero1 r)
    (h : EvalOut cfg n (toErg cfg b) dens sub chg inj gm total sub') :
    gm = b ∧ total = dens ∧ sub' = sub := by
  obtain ⟨moved, ND, hml, hNl, hgo, h0, heq, hNrow, htot, hsub⟩ := h.groups
  have hcl := h.chgLen
  have hil := h.injLen
  have hne := h.subne
  have e1 : ∀ j, j < n → (toErg cfg b).lb.getD j 0 = b.lb.getD j 0 * cfg.mec2 := fun j hj =>
    getD_map' _ 0 0 (by rw [hb.1]; exact hj)
  have e2 : ∀ j, j < n → (toErg cfg b).ub.getD j 0 = b.ub.getD j 0 * cfg.mec2 := fun j hj =>
    getD_map' _ 0 0 (by rw [hb.2]; exact hj)
  have hm' : cfg.mec2 ≠ 0 := ne_of_gt hm
  have hgrp : ∀ k (h1 : k < moved.length) (h2 : k < sub.length),
      moved[k].1 = b ∧ moved[k].2 = mulRow dens sub[k] := by
    intro k h1 h2
    have g := hgo k h2 (by omega) (by omega) h1
    have z := hc _ (List.getElem_mem (show k < chg.length by omega))
    have z' := hi _ (List.getElem_mem (show k < inj.length by omega))
    have a1 : moved[k].1.lb = b.lb := ext_getD g.len.1 hb.1 (fun j hj => by
      rw [g.lb j hj, e1 j hj, z.1.getD, add_zero, mul_div_cancel_right₀ _ hm'])
    have a2 : moved[k].1.ub = b.ub := ext_getD g.len.2 hb.2 (fun j hj => by
      rw [g.ub j hj, e2 j hj, z.2.getD, add_zero, mul_div_cancel_right₀ _ hm'])
    refine ⟨?_, ?_⟩
    · calc moved[k].1 = ⟨moved[k].1.lb, moved[k].1.ub⟩ := rfl
        _ = b := by rw [a1, a2]
    · refine ext_getD g.dlen (by simp [mulRow, hd, hs _ (List.getElem_mem h2)]) (fun j hj => ?_)
      rw [g.dens j hj, z.1.getD, z.2.getD, z'.getD, add_zero, add_zero, add_zero,
        div_self, mul_one, mulRow, getD_zipWith _ 0 0 0 (by omega)
        (by rw [hs _ (List.getElem_mem h2)]; exact hj)]
      rw [e1 j hj, e2 j hj, ← sub_mul]
      exact mul_ne_zero (by have := hw j hj; intro h; linarith) hm'
  have hgm : gm = b := by
    rw [← h0 (by omega)]
    exact (hgrp 0 (by omega) hne).1
  have hND : ∀ k (h1 : k < ND.length) (h2 : k < sub.length), ND[k] = mulRow dens sub[k] := by
    intro k h1 h2
    rw [heq k (by omega) h1 (by rw [hgm]; exact (hgrp k (by omega) h2).1)]
    exact (hgrp k (by omega) h2).2
  have hNDj : ∀ j, j < n → ND.map (·.getD j 0) = (sub.map (·.getD j 0)).map (dens.getD j 0 * ·) := by
    intro j hj
    apply List.ext_getElem (by simp [hNl])
    intro k h1 h2
    simp only [List.length_map] at h1 h2
    simp only [List.getElem_map]
    rw [hND k h1 h2, mulRow, getD_zipWith _ 0 0 0 (by omega)
        (by rw [hs _ (List.getElem_mem h2)]; exact hj)]
  have htd : ∀ j, j < n → total.getD j 0 = dens.getD j 0 := by
    intro j hj
    rw [htot j hj, hNDj j hj, sum_map_mul, hsum j hj, mul_one]
  refine ⟨hgm, ext_getD h.tlen hd htd, ?_⟩
  apply List.ext_getElem h.slen
  intro k h1 h2
  refine ext_getD (h.rowlen _ (List.getElem_mem h1)) (hs _ (List.getElem_mem h2)) (fun j hj => ?_)
  rw [hsub k h2 (by omega) h1 j hj, htd j hj, hND k (by omega) h2, mulRow,
    getD_zipWith _ 0 0 0 (by omega) (by rw [hs _ (List.getElem_mem h2)]; exact hj)]
  split
  · next hz => rw [mul_div_cancel_left₀ _ hz]
  · rfl

/-! ### sorting, merging, bounds -/

theorem argsort_eq_range {num : Numerics K} (hl : num.Lawful) {x : List K} (hs : x.Pairwise (· < ·)) :
    num.argsort x = List.range x.length := by
  have hp := hl.argsort_perm x
  have h1 : (num.argsort x).Pairwise (· ≤ ·) := by
    have := hl.argsort_sorted x
    rw [List.pairwise_map] at this
    refine this.imp_of_mem ?_
    intro a b ha hb hab
    by_contra hn
    have hal : a < x.length := by simpa using hp.mem_iff.1 ha
    exact absurd (getD_strictMono hs (not_le.1 hn) hal) (not_lt.2 hab)
  have h2 : (List.range x.length).Pairwise (· ≤ ·) :=
    List.pairwise_lt_range.imp (fun h => le_of_lt h)
  exact hp.eq_of_pairwise (fun a b _ _ h h' => le_antisymm h h') h1 h2

theorem nonzero_eq_nil {m : List Bool} (h : ∀ b ∈ m, b = false) : nonzero m = [] := by
  rw [List.eq_nil_iff_forall_not_mem]
  intro i hi
  obtain ⟨hlt, e⟩ := mem_nonzero.1 hi
  rw [h _ (List.getElem_mem hlt)] at e
  simp at e

theorem sorted_of_log {num : Numerics K} (hl : num.Lawful) {x : List K} (hpos : ∀ v ∈ x, 0 < v)
    (hs : (x.map num.log10).Pairwise (· < ·)) : x.Pairwise (· < ·) := by
  rw [List.pairwise_map] at hs
  refine hs.imp_of_mem ?_
  intro a b ha hb hab
  by_contra hn
  exact absurd (hl.log10_mono (hpos b hb) (not_lt.1 hn)) (not_le.2 hab)

theorem sortAndMergeDuplicates_id {num : Numerics K} (hl : num.Lawful) {b : Bins K} {dens : List K}
    (dist : Option (Dist K)) (hub : b.ub.length = b.lb.length) (hd : dens.length = b.lb.length)
    (hpos : ∀ v ∈ b.lb, 0 < v) (hs : (b.lb.map num.log10).Pairwise (· < ·)) :
    sortAndMergeDuplicates num b dens dist = .ok (b, dens, toInts (List.range b.lb.length)) := by
  have hso := sorted_of_log hl hpos hs
  unfold sortAndMergeDuplicates
  dsimp only
  rw [argsort_gather hl b.lb b.lb rfl, argsort_gather hl b.lb b.ub hub,
    argsort_gather hl b.lb dens hd, argsort_eq_range hl hso]
  simp only [bind, Except.bind]
  rw [map_getD_range b.lb 0]
  have h1 : (List.range b.lb.length).map (b.ub.getD · 0) = b.ub := by
    rw [← hub]; exact map_getD_range b.ub 0
  have h2 : (List.range b.lb.length).map (dens.getD · 0) = dens := by
    rw [← hd]; exact map_getD_range dens 0
  rw [h1, h2]
  have hz : nonzero (adjacent (fun a c => decide (a = c)) (b.lb.map num.log10)) = [] := by
    apply nonzero_eq_nil
    intro c hc
    obtain ⟨j, hj, rfl⟩ := List.mem_iff_getElem.1 hc
    rw [adjacent_getElem]
    rw [adjacent_length] at hj
    have := List.pairwise_iff_getElem.1 hs j (j + 1) (by omega) (by omega) (by omega)
    simpa using ne_of_lt this
  rw [hz]
  simp [pure, Except.pure]

theorem removeTooCloseBins_id {num : Numerics K} (hl : num.Lawful) {thr : K} {b : Bins K}
    {dens : List K} {dist : Dist K} (hub : b.ub.length = b.lb.length)
    (hd : dens.length = b.lb.length) (hpos : ∀ v ∈ b.lb, 0 < v) (hsort : b.lb.Pairwise (· < ·))
    (hap : ∀ j, j + 1 < b.lb.length →
      thr ≤ num.log10 (b.lb.getD (j + 1) 0) - num.log10 (b.lb.getD j 0))
    {b' : Bins K} {d' : List K} {m : List Int}
    (e : removeTooCloseBins num thr b dens dist = .ok (b', d', m)) :
    b' = b ∧ d' = dens ∧ m = toInts (List.range b.lb.length) := by
  obtain ⟨close, fx, fy, -, hcm, -, hm, hlb, hdd, hubb, hf⟩ :=
    removeTooCloseBins_spec hl hub hd hpos hsort e
  have hc : close = [] := by
    rw [List.eq_nil_iff_forall_not_mem]
    intro j hj
    obtain ⟨h1, h2, h3⟩ := (hcm j).1 hj
    have := hap (j - 1) (by omega)
    rw [show j - 1 + 1 = j by omega] at this
    exact absurd h3 (not_lt.2 this)
  subst hc
  rw [setdiffRange_nil] at hm hlb hdd hubb
  have hf' : ∀ i, i < b.lb.length → fx i = b.lb.getD i 0 ∧ fy i = dens.getD i 0 := by
    intro i hi
    obtain ⟨e, h1, h2, h3, -, -, -, h4, -⟩ := hf i hi (by simp)
    refine h4 ?_
    by_contra hn
    have := h3 (i + 1) (by omega) (by omega)
    simp at this
  refine ⟨?_, ?_, hm⟩
  · calc b' = ⟨b'.lb, b'.ub⟩ := rfl
      _ = ⟨b.lb, b.ub⟩ := by
        congr 1
        · rw [hlb]
          refine ext_getD (n := b.lb.length) (by simp) rfl (fun j hj => ?_)
          rw [getD_map_lt (by simpa using hj)]
          simpa using (hf' j hj).1
        · rw [hubb]
          refine ext_getD (n := b.lb.length) (by simp) hub (fun j hj => ?_)
          rw [getD_map_lt (by simpa using hj)]
          simp
  · rw [hdd]
    refine ext_getD (n := b.lb.length) (by simp) hd (fun j hj => ?_)
    rw [getD_map_lt (by simpa using hj)]
    simpa using (hf' j hj).2

/-- grid with nothing to merge -/
structure Apart (cfg : Cfg K) (g : List K) : Prop where
  pos : ∀ v ∈ g, 0 < v
  distinct : (g.map cfg.num.log10).Pairwise (· < ·)
  apart : ∀ thr, cfg.mergeCloser = some thr → ∀ j, j + 1 < g.length →
    thr ≤ cfg.num.log10 (g.getD (j + 1) 0) - cfg.num.log10 (g.getD j 0)

theorem comp_range (n : Nat) : comp ((List.range n).map some) ((List.range n).map some)
    = (List.range n).map some := by
  unfold comp
  have := pull_range ((List.range n).map some) (none : Option Nat)
  rw [List.length_map, List.length_range] at this
  exact this

theorem combineMapping_range (n : Nat) : combineMapping (toInts (List.range n)) (toInts (List.range n))
    = .ok (toInts (List.range n)) := by
  rw [toInts_eq, combineMapping_enc _ _ (by
    rw [List.length_map, List.length_range]; exact inRange_some (by simp)) (Or.inr none_not_mem_some),
    comp_range]

theorem sortAndMergeBins_id {cfg : Cfg K} (hl : cfg.num.Lawful) {b : Bins K} {dens : List K}
    {dist : Dist K} (hub : b.ub.length = b.lb.length) (hd : dens.length = b.lb.length)
    (ha : Apart cfg b.lb) {b' : Bins K} {d' : List K} {m : List Int}
    (e : sortAndMergeBins cfg b dens dist = .ok (b', d', m)) :
    b' = b ∧ d' = dens ∧ m = toInts (List.range b.lb.length) := by
  unfold sortAndMergeBins at e
  rw [sortAndMergeDuplicates_id hl _ hub hd ha.pos ha.distinct] at e
  simp only [bind, Except.bind] at e
  cases hmc : cfg.mergeCloser with
  | none =>
    simp only [hmc, pure, Except.pure, Except.ok.injEq, Prod.mk.injEq] at e
    obtain ⟨rfl, rfl, rfl⟩ := e
    exact ⟨rfl, rfl, rfl⟩
  | some thr =>
    simp only [hmc] at e
    obtain ⟨⟨b2, d2, m2⟩, h1, e⟩ := bind_ok_iff.1 e
    obtain ⟨rfl, rfl, rfl⟩ := removeTooCloseBins_id hl hub hd ha.pos
      (sorted_of_log hl ha.pos ha.distinct) (ha.apart thr hmc) h1
    obtain ⟨m3, h2, e⟩ := bind_ok_iff.1 e
    dsimp only at h2 e
    rw [combineMapping_range] at h2
    simp only [Except.ok.injEq] at h2
    subst h2
    rw [pure_ok_iff] at e
    simp only [Prod.mk.injEq] at e
    obtain ⟨rfl, rfl, rfl⟩ := e
    exact ⟨rfl, rfl, rfl⟩

theorem arange_toInts (n : Nat) : arange n = toInts (List.range n) := rfl

theorem remap_arange {α : Type} (v : List α) (d : α) :
    remap (arange v.length) v (some d) = .ok v := by
  rw [arange_eq, remap_enc v d _ (inRange_some (by simp)) (Or.inr none_not_mem_some), pull_range]

theorem remap_arange_none {α : Type} (v : List α) (d : α) :
    remap (arange v.length) v none = .ok v := by
  rw [arange_eq, remap_enc_none v d _ (inRange_some (by simp)) none_not_mem_some, pull_range]

theorem removeBeyondBounds_id {lo hi : K} {b : Bins K}
    (hin : ∀ x ∈ b.lb, lo ≤ x ∧ x ≤ hi / (1 + binSizeFactor)) :
    removeBeyondBounds lo hi b = .ok (b, arange b.lb.length) := by
  unfold removeBeyondBounds
  have : nonzero (b.lb.map fun g => decide (lo ≤ g ∧ g ≤ hi / (1 + binSizeFactor)))
      = List.range b.lb.length := by
    unfold nonzero
    rw [List.length_map, List.filter_eq_self]
    intro i hi'
    rw [List.mem_range] at hi'
    have := hin _ (List.getElem_mem hi')
    simp [hi', this.1, this.2]
  dsimp only
  rw [this]
  simp [toInts, pure, Except.pure]

theorem addBoundaryBins_id {num : Numerics K} {creep lo hi : K} {b : Bins K} {rate : List K}
    (hz : Zero1 rate) {b' : Bins K} {m : List Int}
    (e : addBoundaryBins num creep lo hi b rate = .ok (b', m)) : b' = b ∧ m = arange b.lb.length := by
  unfold addBoundaryBins at e
  obtain ⟨first, -, e⟩ := bind_ok_iff.1 e
  obtain ⟨last, -, e⟩ := bind_ok_iff.1 e
  obtain ⟨⟨b1, m1⟩, h1, e⟩ := bind_ok_iff.1 e
  have hg : ∀ i x, Np.get rate i = .ok x → x = 0 := by
    intro i x hx
    obtain ⟨j, -, hj, rfl⟩ := get_ok hx
    exact hz _ (List.getElem_mem hj)
  have hlow : b1 = b ∧ m1 = arange b.lb.length := by
    unfold addLowerBin at h1
    split at h1
    · obtain ⟨r, hr, h1⟩ := bind_ok_iff.1 h1
      rw [hg _ _ hr] at h1
      simp [pure, Except.pure] at h1
      exact ⟨h1.1.symm, h1.2.symm⟩
    · simp [pure, Except.pure] at h1
      exact ⟨h1.1.symm, h1.2.symm⟩
  obtain ⟨rfl, rfl⟩ := hlow
  dsimp only at e
  unfold addUpperBin at e
  split at e
  · obtain ⟨r, hr, e⟩ := bind_ok_iff.1 e
    rw [hg _ _ hr] at e
    simp [pure, Except.pure] at e
    exact ⟨e.1.symm, e.2.symm⟩
  · simp [pure, Except.pure] at e
    exact ⟨e.1.symm, e.2.symm⟩

theorem applyBounds_id {cfg : Cfg K} {b : Bins K} {d : List K} {s : List (List K)}
    {rates : List (Bins K)} (hz : ∀ r ∈ rates, Zero2 r) (hd : d.length = b.lb.length)
    (hs : s ≠ []) (hsl : ∀ r ∈ s, r.length = b.lb.length)
    (hin : ∀ lo hi, cfg.gammaBounds = some (lo, hi) → ∀ x ∈ b.lb, lo ≤ x ∧ x ≤ hi / (1 + binSizeFactor))
    {b' : Bins K} {d' : List K} {s' : List (List K)} {m' : List Int}
    (e : applyBounds cfg b d s (toInts (List.range b.lb.length)) rates = .ok (b', d', s', m')) :
    b' = b ∧ d' = d ∧ s' = s ∧ m' = toInts (List.range b.lb.length) := by
  unfold applyBounds at e
  cases hgb : cfg.gammaBounds with
  | none =>
    simp only [hgb, pure, Except.pure, Except.ok.injEq, Prod.mk.injEq] at e
    obtain ⟨rfl, rfl, rfl, rfl⟩ := e
    exact ⟨rfl, rfl, rfl, rfl⟩
  | some p =>
    obtain ⟨lo, hi⟩ := p
    simp only [hgb] at e
    rw [removeBeyondBounds_id (hin lo hi hgb)] at e
    have r1 : remap (arange b.lb.length) d none = .ok d := by rw [← hd]; exact remap_arange_none d 0
    have r2 : remap (arange b.lb.length) d (some 0) = .ok d := by rw [← hd]; exact remap_arange d 0
    simp only [bind, Except.bind, r1, remapSubgroups_arange hs hsl] at e
    rw [arange_toInts, combineMapping_range] at e
    simp only at e
    obtain ⟨r0, h1, e⟩ := bind_ok_iff.1 e
    obtain ⟨⟨b5, m5⟩, h2, e⟩ := bind_ok_iff.1 e
    have hr0 : Zero2 r0 := by
      obtain ⟨j, -, hj, rfl⟩ := get_ok h1
      exact hz _ (List.getElem_mem hj)
    obtain ⟨rfl, rfl⟩ := addBoundaryBins_id hr0.1 h2
    simp only [r2, remapSubgroups_arange hs hsl] at e
    rw [arange_toInts, combineMapping_range] at e
    simp only [pure, Except.pure, Except.ok.injEq, Prod.mk.injEq] at e
    obtain ⟨rfl, rfl, rfl, rfl⟩ := e
    exact ⟨rfl, rfl, rfl, rfl⟩

/-! ### the step -/

theorem applyStages12_zero {cfg : Cfg K} (hl : cfg.num.Lawful) (hm : 0 < cfg.mec2) {n : Nat}
    {b : Bins K} {dens : List K} {sub : List (List K)} {enRates : List (Bins K)}
    {injRates : List (List K)} {t : K} (hb : b.Len n) (hd : dens.length = n)
    (hs : ∀ r ∈ sub, r.length = n) (hr : ∀ b ∈ enRates, b.Len n) (hi : ∀ r ∈ injRates, r.length = n)
    (hw : ∀ j, j < n → b.lb.getD j 0 < b.ub.getD j 0)
    (hsum : ∀ j, j < n → (sub.map (·.getD j 0)).sum = 1)
    (hfn : ∀ f ∈ cfg.enFns, ZeroFn f.2)
    (hz : ∀ c ∈ enRates, Zero2 c) (hzi : ∀ r ∈ injRates, Zero1 r)
    {gm : Bins K} {d : List K} {s : List (List K)} {dist : Dist K} {rates : List (Bins K)}
    (e : applyStages12 cfg (toErg cfg b) dens sub enRates injRates t = .ok (gm, d, s, dist, rates)) :
    gm = b ∧ d = dens ∧ s = sub ∧ ∀ r ∈ rates, Zero2 r := by
  unfold applyStages12 at e
  obtain ⟨⟨gm1, d1, sub1⟩, h1, e⟩ := bind_ok_iff.1 e
  obtain ⟨dist1, h2, e⟩ := bind_ok_iff.1 e
  dsimp only at e h1 h2
  have hinj : ∀ r ∈ injRates.map (·.map (· * t)), r.length = n := by
    intro r hr'
    obtain ⟨r', hr'', rfl⟩ := List.mem_map.1 hr'
    simp [hi r' hr'']
  have hinjz : ∀ r ∈ injRates.map (·.map (· * t)), Zero1 r := by
    intro r hr' x hx
    obtain ⟨r', hr'', rfl⟩ := List.mem_map.1 hr'
    obtain ⟨y, hy, rfl⟩ := List.mem_map.1 hx
    rw [hzi r' hr'' y hy, zero_mul]
  have hscale : ∀ rs : List (Bins K), (∀ c ∈ rs, Zero2 c) → ∀ c ∈ rs.map (scaleBins t), Zero2 c := by
    intro rs h c hc
    obtain ⟨c', hc', rfl⟩ := List.mem_map.1 hc
    exact scaleBins_zero (h c' hc')
  have hslen : ∀ rs : List (Bins K), (∀ c ∈ rs, c.Len n) → ∀ c ∈ rs.map (scaleBins t), c.Len n := by
    intro rs h c hc
    obtain ⟨c', hc', rfl⟩ := List.mem_map.1 hc
    exact scaleBins_len (h c' hc')
  have ev1 := applyTimeEval_spec hl hm (toErg_len hb) hd hs (hslen _ hr) hinj h1
  have z1 := ev1.zero hm hb hd hs hw hsum (hscale _ hz) hinjz
  split at e
  · next hh =>
    obtain ⟨r, h3, e⟩ := bind_ok_iff.1 e
    obtain ⟨rec, h4, e⟩ := bind_ok_iff.1 e
    obtain ⟨⟨gm2, d2, sub2⟩, h5, e⟩ := bind_ok_iff.1 e
    obtain ⟨dist2, h6, e⟩ := bind_ok_iff.1 e
    dsimp only at e h5 h6
    rw [pure_ok_iff] at e
    simp only [Prod.mk.injEq] at e
    obtain ⟨rfl, rfl, rfl, rfl, rfl⟩ := e
    obtain ⟨rfl, rfl, rfl⟩ := z1
    have hr2 := newRates2_spec h3
    have hr2l := hr2.len
    rw [hb.1] at hr2l h4
    have hrec : ∀ b ∈ rec, b.Len n :=
      mapM_forall_mem h4 (fun a ha b hb => finiteBins_len (sumRates2_len hr2l cfg.subgroups a ha) hb)
    have hrecz : ∀ b ∈ rec, Zero2 b :=
      mapM_forall_mem h4 (fun a ha b hb =>
        finiteBins_zero (sumRates2_zero (hr2.zero hfn) cfg.subgroups a ha) hb)
    have havg : ∀ b ∈ List.zipWith averageBins enRates rec, b.Len n :=
      forall_mem_zipWith hr hrec (fun _ _ => averageBins_len)
    have havgz : ∀ b ∈ List.zipWith averageBins enRates rec, Zero2 b :=
      forall_mem_zipWith hz hrecz (fun _ _ => averageBins_zero)
    have ev2 := applyTimeEval_spec hl hm (toErg_len hb) hd hs (hslen _ havg) hinj h5
    obtain ⟨rfl, rfl, rfl⟩ := ev2.zero hm hb hd hs hw hsum (hscale _ havgz) hinjz
    exact ⟨rfl, rfl, rfl, havgz⟩
  · rw [pure_ok_iff] at e
    simp only [Prod.mk.injEq] at e
    obtain ⟨rfl, rfl, rfl, rfl, rfl⟩ := e
    exact ⟨z1.1, z1.2.1, z1.2.2, hz⟩

/-- bins of the standard width -/
def Std (b : Bins K) : Prop := b.ub = b.lb.map (· * (1 + binSizeFactor))

theorem step_zero {cfg : Cfg K} (wf : cfg.WF) {s s' : State K} (hI : Inv cfg s) (hS : InvSub s)
    (hstd : Std s.bins) (hap : Apart cfg s.bins.lb)
    (hin : ∀ lo hi, cfg.gammaBounds = some (lo, hi) → ∀ x ∈ s.bins.lb,
      lo ≤ x ∧ x ≤ hi / (1 + binSizeFactor))
    (hen : ∀ f ∈ cfg.enFns, ZeroFn f.2) (hrel : ∀ f ∈ cfg.relFns, ZeroFn f.2)
    (habs : ∀ f ∈ cfg.absFns, ZeroFn f.2)
    (hg : s.elapsed < cfg.totalTime) (h : step cfg s = .ok s') :
    s'.bins = s.bins ∧ s'.dens = s.dens ∧ s'.sub = s.sub := by
  obtain ⟨enG, relG, absG, inj, t0, left, o, l, left', mask, h1, h2, h3, h4, h5, h6, hL, hinj, hmap, hM,
    hmlen, -, -⟩ := step_mapped wf hI hg h
  have hlen : s.bins.Len s.bins.lb.length := ⟨rfl, hI.ublen⟩
  have hGz : (∀ b ∈ enG, Zero2 b) ∧ (∀ r ∈ relG, Zero1 r) ∧ (∀ r ∈ absG, Zero1 r) := by
    unfold groupRates at h1
    obtain ⟨e1, g1, h1⟩ := bind_ok_iff.1 h1
    obtain ⟨e2, g2, h1⟩ := bind_ok_iff.1 h1
    obtain ⟨e3, g3, h1⟩ := bind_ok_iff.1 h1
    rw [pure_ok_iff] at h1
    simp only [Prod.mk.injEq] at h1
    obtain ⟨rfl, rfl, rfl⟩ := h1
    exact ⟨mapM_forall_mem g1 (fun a ha b hb =>
        finiteBins_zero (sumRates2_zero (hI.en.zero hen) cfg.subgroups a ha) hb),
      mapM_forall_mem g2 (fun a ha b hb =>
        finiteRow_zero (sumRates1_zero (hI.rel.zero hrel) cfg.subgroups a ha) hb),
      mapM_forall_mem g3 (fun a ha b hb =>
        finiteRow_zero (sumRates1_zero (hI.abs.zero habs) cfg.subgroups a ha) hb)⟩
  have hinjz := totalInjection_zero hGz.2.1 hGz.2.2 h2
  have ho : o.bins = s.bins ∧ o.dens = s.dens ∧ o.sub = s.sub := by
    unfold applyTimeChanges at h4
    obtain ⟨⟨gm, d, sb, dist, rates⟩, k1, h4⟩ := bind_ok_iff.1 h4
    obtain ⟨⟨b3, d3, m3⟩, k2, h4⟩ := bind_ok_iff.1 h4
    obtain ⟨s3, k3, h4⟩ := bind_ok_iff.1 h4
    obtain ⟨⟨b5, d5, s5, m5⟩, k4, h4⟩ := bind_ok_iff.1 h4
    dsimp only at k2 k3 k4 h4
    rw [pure_ok_iff] at h4
    subst h4
    obtain ⟨rfl, rfl, rfl, hrz⟩ := applyStages12_zero wf.lawful wf.mec2 hlen hI.denslen hI.sublen hL.en
      hinj hI.width hS.sum hen hGz.1 hinjz k1
    obtain ⟨rfl, rfl, rfl⟩ := sortAndMergeBins_id wf.lawful hI.ublen hI.denslen hap k2
    rw [← arange_toInts, remapSubgroups_arange hI.subne hI.sublen] at k3
    simp only [Except.ok.injEq] at k3
    subst k3
    obtain ⟨rfl, rfl, rfl, -⟩ := applyBounds_id hrz hI.denslen hI.subne hI.sublen hin k4
    exact ⟨rfl, rfl, rfl⟩
  obtain ⟨pe, pa, pr, -, -, -, -, -, -, e1, e2, e3, -, -, -⟩ := refresh_parts h6
  obtain ⟨o1, o2, o3⟩ := ho
  refine ⟨?_, by rw [e2, o2], by rw [e3, o3]⟩
  have hll : l.length = s.bins.lb.length := by rw [← hM.lblen, o1]
  rw [e1, o1]
  obtain ⟨u1, u2, u3⟩ := updateBinUb_spec (b := s.bins) hlen (by rw [hmlen, hll])
  have : (updateBinUb s.bins mask).ub = s.bins.ub := by
    refine ext_getD u2 hI.ublen (fun j hj => ?_)
    rw [u3 j (by omega)]
    split
    · rw [hstd, getD_map' _ 0 0 hj]
    · rfl
  calc updateBinUb s.bins mask = ⟨(updateBinUb s.bins mask).lb, (updateBinUb s.bins mask).ub⟩ := rfl
    _ = s.bins := by rw [this, u1]

end Verif.TE
