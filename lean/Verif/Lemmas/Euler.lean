import Verif.Lemmas.NoChange
import Verif.Lemmas.TwoHalves

/- With rate functions of the Lorentz factor alone and one group, a step of the loop moves every bin
separately. -/

namespace Verif.TE

open Verif.Np

set_option linter.unusedSectionVars false

variable {K : Type} [Field K] [LinearOrder K] [IsStrictOrderedRing K]

/-- a rate function that looks at the Lorentz factors only -/
def localFn (φ : K → K) : GammaFn K := fun _ p => p.gamma.map φ

def localFns (L : List (String × (K → K))) : List (String × GammaFn K) :=
  L.map fun p => (p.1, localFn p.2)

/-- the sum of the rates -/
def totalOf (L : List (String × (K → K))) (x : K) : K := (L.map (·.2 x)).sum

theorem zipWith_maps {α β γ δ : Type} (f : β → γ → δ) (a : α → β) (b : α → γ) (P : List α) :
    List.zipWith f (P.map a) (P.map b) = P.map fun p => f (a p) (b p) := by
  rw [List.zipWith_map, List.zipWith_self]

theorem zip_maps {α β γ : Type} (a : α → β) (b : α → γ) (P : List α) :
    List.zip (P.map a) (P.map b) = P.map fun p => (a p, b p) := by
  rw [List.zip, zipWith_maps]

theorem interlace_local (φ : K → K) (lb ub : List K) (h : ub.length = lb.length) :
    deinterlace ((interlace ⟨lb, ub⟩).map φ) = (lb.map φ, ub.map φ) := by
  unfold interlace
  simp only
  induction lb generalizing ub with
  | nil => cases ub with
    | nil => rfl
    | cons _ _ => simp at h
  | cons x lb ih =>
    cases ub with
    | nil => simp at h
    | cons y ub =>
      simp only [List.length_cons, Nat.add_right_cancel_iff] at h
      simp only [List.zipWith_cons_cons, List.flatten_cons, List.map_cons,
        List.cons_append, List.nil_append, deinterlace, ih ub h]

/-- the rates of local functions -/
def localRates1 (L : List (String × (K → K))) (g : List K) : Rates1 K :=
  L.map fun p => (p.1, g.map fun x => some (p.2 x))

def localRates2 (L : List (String × (K → K))) (b : Bins K) : Rates2 K :=
  L.map fun p => (p.1, ⟨b.lb.map fun x => some (p.2 x), b.ub.map fun x => some (p.2 x)⟩)

theorem newRates1_local (L : List (String × (K → K))) (dist : Dist K) {g dens : List K}
    {sub : List (List K)} (hd : dens.length = g.length) (hs : sub ≠ [])
    (hlen : ∀ r ∈ sub, r.length = g.length) :
    newRates1 dist g (localFns L) dens sub = .ok (localRates1 L g) := by
  unfold newRates1
  rw [params1_true rfl hd hs hlen]
  simp only [bind, Except.bind]
  unfold localFns localRates1
  rw [mapM_ok_of (g := fun f : String × GammaFn K => (f.1, (f.2 dist ⟨g, dens, sub⟩).map some))]
  · simp [localFn, Function.comp_def]
  · intro f hf
    obtain ⟨p, -, rfl⟩ := List.mem_map.1 hf
    simp [localFn, reshape1, pure, Except.pure]

theorem newRates2_local (L : List (String × (K → K))) (dist : Dist K) {b : Bins K} {dens : List K}
    {sub : List (List K)} (hb : b.ub.length = b.lb.length) (hd : dens.length = b.lb.length) (hs : sub ≠ [])
    (hlen : ∀ r ∈ sub, r.length = b.lb.length) :
    newRates2 dist b (localFns L) dens sub = .ok (localRates2 L b) := by
  unfold newRates2
  rw [params2_true ⟨rfl, hb⟩ hd hs hlen]
  simp only [bind, Except.bind]
  unfold localFns localRates2
  rw [mapM_ok_of (g := fun f : String × GammaFn K => (f.1,
    (⟨(deinterlace (f.2 dist ⟨interlace b, dens, sub⟩)).1.map some,
      (deinterlace (f.2 dist ⟨interlace b, dens, sub⟩)).2.map some⟩ : Bins (NV K))))]
  · rw [List.map_map]
    congr 1
    apply List.map_congr_left
    intro p _
    simp only [localFn, Function.comp_def]
    obtain ⟨lb, ub⟩ := b
    rw [interlace_local p.2 lb ub hb]
    simp [Function.comp_def]
  · intro f hf
    obtain ⟨p, -, rfl⟩ := List.mem_map.1 hf
    simp [localFn, reshape2, pure, Except.pure, interlace_length (b := b) ⟨rfl, hb⟩]

theorem lookup_map_nodup {α β : Type} (f : String × α → β) {L : List (String × α)}
    (h : (L.map Prod.fst).Nodup) {p : String × α} (hp : p ∈ L) :
    (L.map fun q => (q.1, f q)).lookup p.1 = some (f p) := by
  induction L with
  | nil => simp at hp
  | cons q L ih =>
    simp only [List.map_cons, List.nodup_cons] at h
    rw [List.map_cons]
    rcases List.mem_cons.1 hp with rfl | hp
    · rw [List.lookup_cons_self]
    · have hne : (p.1 == q.1) = false := by
        rw [beq_eq_false_iff_ne]
        intro e
        exact h.1 (e ▸ List.mem_map_of_mem (f := Prod.fst) hp)
      rw [List.lookup_cons, hne]
      exact ih h.2 hp

theorem recalcRates1_local {L : List (String × (K → K))} (hk : (L.map Prod.fst).Nodup) (dist : Dist K)
    {n : Nat} {g g0 dens : List K} {sub : List (List K)} (hg : g.length = n) (hg0 : g0.length = n)
    (hd : dens.length = n) (hs : sub ≠ []) (hlen : ∀ r ∈ sub, r.length = n) :
    recalcRates1 dist g (localFns L) dens sub (localRates1 L g0) (List.replicate n true)
      = .ok (localRates1 L g) := by
  unfold recalcRates1
  rw [params1_true hg hd hs hlen]
  simp only [bind, Except.bind]
  unfold localFns
  rw [mapM_ok_of (g := fun f : String × GammaFn K => (f.1, (f.2 dist ⟨g, dens, sub⟩).map some))]
  · simp [localFn, localRates1, Function.comp_def]
  · intro f hf
    obtain ⟨p, hp, rfl⟩ := List.mem_map.1 hf
    have hl : (localRates1 L g0).lookup p.1 = some (g0.map fun x => some (p.2 x)) :=
      lookup_map_nodup (fun q : String × (K → K) => g0.map fun x => some (q.2 x)) hk hp
    simp only [dictGet, hl, localFn, reshape1, countMask, List.length_map]
    rw [if_pos (by simp [hg])]
    simp only [pure, Except.pure]
    rw [scatter_replicate_true (by simpa using hg) (by simpa using hg0)]

theorem recalcRates2_local {L : List (String × (K → K))} (hk : (L.map Prod.fst).Nodup) (dist : Dist K)
    {n : Nat} {b b0 : Bins K} {dens : List K} {sub : List (List K)} (hb : b.Len n) (hb0 : b0.Len n)
    (hd : dens.length = n) (hs : sub ≠ []) (hlen : ∀ r ∈ sub, r.length = n) :
    recalcRates2 dist b (localFns L) dens sub (localRates2 L b0) (List.replicate n true)
      = .ok (localRates2 L b) := by
  unfold recalcRates2
  rw [params2_true hb hd hs hlen]
  simp only [bind, Except.bind]
  unfold localFns
  rw [mapM_ok_of (g := fun f : String × GammaFn K => (f.1,
    (⟨(deinterlace (f.2 dist ⟨interlace b, dens, sub⟩)).1.map some,
      (deinterlace (f.2 dist ⟨interlace b, dens, sub⟩)).2.map some⟩ : Bins (NV K))))]
  · rw [List.map_map]
    unfold localRates2
    congr 1
    apply List.map_congr_left
    intro p _
    simp only [localFn, Function.comp_def]
    obtain ⟨lb, ub⟩ := b
    rw [interlace_local p.2 lb ub (by have := hb.1; have := hb.2; simp_all)]
    simp [Function.comp_def]
  · intro f hf
    obtain ⟨p, hp, rfl⟩ := List.mem_map.1 hf
    have hl : (localRates2 L b0).lookup p.1
        = some ⟨b0.lb.map fun x => some (p.2 x), b0.ub.map fun x => some (p.2 x)⟩ :=
      lookup_map_nodup (fun q : String × (K → K) =>
        (⟨b0.lb.map fun x => some (q.2 x), b0.ub.map fun x => some (q.2 x)⟩ : Bins (NV K))) hk hp
    have hr : reshape2 (countMask (List.replicate n true)) ((interlace b).map p.2)
        = .ok ⟨(deinterlace ((interlace b).map p.2)).1, (deinterlace ((interlace b).map p.2)).2⟩ := by
      unfold reshape2 countMask
      rw [if_pos (by simp [interlace_length hb])]
    simp only [dictGet, hl, localFn, hr, pure, Except.pure]
    obtain ⟨lb, ub⟩ := b
    rw [interlace_local p.2 lb ub (by have := hb.1; have := hb.2; simp_all)]
    rw [scatter_replicate_true (by simpa using hb.1) (by simpa using hb0.1),
      scatter_replicate_true (by simpa using hb.2) (by simpa using hb0.2)]

theorem remapRates1_local (L : List (String × (K → K))) (g : List K) :
    remapRates1 (arange g.length) (localRates1 L g) = .ok (localRates1 L g) := by
  unfold remapRates1
  rw [mapM_ok_of (g := id)]
  · simp
  · intro p hp
    obtain ⟨q, -, rfl⟩ := List.mem_map.1 hp
    have := remap_arange (g.map fun x => some (q.2 x)) (none : NV K)
    rw [List.length_map] at this
    simp [this, bind, Except.bind, pure, Except.pure]

theorem remapRates2_local (L : List (String × (K → K))) {b : Bins K} (hb : b.ub.length = b.lb.length) :
    remapRates2 (arange b.lb.length) (localRates2 L b) = .ok (localRates2 L b) := by
  unfold remapRates2
  rw [mapM_ok_of (g := id)]
  · simp
  · intro p hp
    obtain ⟨q, -, rfl⟩ := List.mem_map.1 hp
    have h1 := remap_arange (b.lb.map fun x => some (q.2 x)) (none : NV K)
    have h2 := remap_arange (b.ub.map fun x => some (q.2 x)) (none : NV K)
    rw [List.length_map] at h1 h2
    rw [hb] at h2
    simp [remapBins, h1, h2, bind, Except.bind, pure, Except.pure]

theorem foldl_addRow_local (L : List (String × (K → K))) (g : List K) (a : K → K) :
    ((localRates1 L g).map (·.2)).foldl addRow (g.map fun x => some (a x))
      = g.map fun x => some (a x + totalOf L x) := by
  induction L generalizing a with
  | nil => simp [localRates1, totalOf]
  | cons p L ih =>
    have e : addRow (g.map fun x => some (a x)) (g.map fun x => some (p.2 x))
        = g.map fun x => some (a x + p.2 x) := by
      unfold addRow
      rw [zipWith_maps]
      rfl
    show List.foldl addRow (addRow (g.map fun x => some (a x)) (g.map fun x => some (p.2 x)))
      ((localRates1 L g).map (·.2)) = _
    rw [e, ih]
    simp [totalOf, add_assoc]

theorem zerosNV_map (g : List K) : (zerosNV g.length : List (NV K)) = g.map fun _ => some (0 : K) := by
  unfold zerosNV
  rw [List.map_const']

theorem sumRates1_local (L : List (String × (K → K))) (g : List K) :
    sumRates1 (localRates1 L g) g.length none = [g.map fun x => some (totalOf L x)] := by
  unfold sumRates1
  simp only
  rw [zerosNV_map, foldl_addRow_local]
  simp

theorem foldl_addBins_local (L : List (String × (K → K))) (b : Bins K) (z : Bins (NV K)) :
    ((localRates2 L b).map (·.2)).foldl addBins z
      = ⟨((localRates1 L b.lb).map (·.2)).foldl addRow z.lb,
         ((localRates1 L b.ub).map (·.2)).foldl addRow z.ub⟩ := by
  induction L generalizing z with
  | nil => rfl
  | cons p L ih =>
    show List.foldl addBins (addBins z ⟨_, _⟩) ((localRates2 L b).map (·.2)) = _
    rw [ih]
    rfl

theorem sumRates2_local (L : List (String × (K → K))) {b : Bins K} (hb : b.ub.length = b.lb.length) :
    sumRates2 (localRates2 L b) b.lb.length none
      = [⟨b.lb.map fun x => some (totalOf L x), b.ub.map fun x => some (totalOf L x)⟩] := by
  unfold sumRates2
  simp only
  rw [foldl_addBins_local]
  congr 2
  · simp only
    rw [zerosNV_map, foldl_addRow_local]; simp
  · simp only
    rw [← hb, zerosNV_map, foldl_addRow_local]; simp

theorem finiteRow_local (g : List K) (φ : K → K) : finiteRow (g.map fun x => some (φ x)) = .ok (g.map φ) := by
  unfold finiteRow
  induction g with
  | nil => rfl
  | cons x g ih =>
    rw [List.map_cons, List.mapM_cons, ih]
    rfl

/-! ### the state for a list of pairs (Lorentz factor, density) -/

/-- the state of a run with local rates -/
def localState (enL relL absL : List (String × (K → K))) (P : List (K × K)) (el : K)
    (tl : List (WithTop K)) (dist : Dist K) : State K :=
  let g := P.map Prod.fst
  let b : Bins K := ⟨g, g.map (· * (1 + binSizeFactor))⟩
  ⟨b, P.map Prod.snd, [P.map fun _ => 1], localRates2 enL b, localRates1 relL g, localRates1 absL g, tl, el,
    dist⟩

/-- one explicit Euler step of one bin -/
def moveBin (mec2 : K) (en rel abs : K → K) (t : K) (p : K × K) : K × K :=
  ((p.1 * mec2 + en p.1 * t) / mec2,
    p.2 * ((p.1 * (1 + binSizeFactor) * mec2 - p.1 * mec2) /
      ((p.1 * (1 + binSizeFactor) * mec2 + en (p.1 * (1 + binSizeFactor)) * t)
        - (p.1 * mec2 + en p.1 * t))) + (p.2 * rel p.1 + abs p.1) * t)

/-- conditions under which one Euler step of a bin does not raise -/
structure BinOK (mec2 : K) (en rel abs : K → K) (t : K) (p : K × K) : Prop where
  pos : 0 < p.1 * mec2 + en p.1 * t
  width : p.1 * mec2 + en p.1 * t
    < p.1 * (1 + binSizeFactor) * mec2 + en (p.1 * (1 + binSizeFactor)) * t
  nonneg : 0 ≤ (moveBin mec2 en rel abs t p).2

theorem evalGroup_local {cfg : Cfg K} {en rel abs : K → K} {t : K} {P : List (K × K)}
    (hok : ∀ p ∈ P, BinOK cfg.mec2 en rel abs t p) :
    evalGroup cfg (toErg cfg ⟨P.map Prod.fst, (P.map Prod.fst).map (· * (1 + binSizeFactor))⟩)
      (P.map Prod.snd) (P.map fun _ => 1)
      (scaleBins t ⟨(P.map Prod.fst).map en, ((P.map Prod.fst).map (· * (1 + binSizeFactor))).map en⟩)
    = .ok (⟨P.map fun p => (moveBin cfg.mec2 en rel abs t p).1,
        P.map fun p => (p.1 * (1 + binSizeFactor) * cfg.mec2 + en (p.1 * (1 + binSizeFactor)) * t) / cfg.mec2⟩,
      P.map fun p => p.2 * ((p.1 * (1 + binSizeFactor) * cfg.mec2 - p.1 * cfg.mec2) /
      ((p.1 * (1 + binSizeFactor) * cfg.mec2 + en (p.1 * (1 + binSizeFactor)) * t)
        - (p.1 * cfg.mec2 + en p.1 * t)))) := by
  unfold evalGroup recalcGammaBins recalcEnergyBins toErg scaleBins mulRow
  simp only [List.map_map, Function.comp_def, zipWith_maps]
  rw [if_neg, if_neg, if_neg]
  · simp [bind, Except.bind, pure, Except.pure, Function.comp_def, moveBin]
  · simp only [List.any_eq_true, List.mem_map, not_exists, not_and]
    rintro x ⟨p, hp, rfl⟩
    have := (hok p hp).width
    simp only [beq_iff_eq]
    intro h; linarith
  · simp only [List.any_eq_true, List.mem_map, not_exists, not_and]
    rintro x ⟨p, hp, rfl⟩
    have := (hok p hp).width
    simp only [decide_eq_true_eq, not_lt]
    linarith
  · simp only [Bool.or_eq_true, List.any_eq_true, List.mem_map, not_or, not_exists, not_and]
    refine ⟨?_, ?_⟩
    · rintro x ⟨p, hp, rfl⟩
      have := (hok p hp).pos
      simpa using this
    · rintro x ⟨p, hp, rfl⟩
      have := lt_trans (hok p hp).pos (hok p hp).width
      simpa using this

theorem applyTimeEval_local {cfg : Cfg K} {en rel abs : K → K} {t : K} {P : List (K × K)}
    (hok : ∀ p ∈ P, BinOK cfg.mec2 en rel abs t p) :
    applyTimeEval cfg (toErg cfg ⟨P.map Prod.fst, (P.map Prod.fst).map (· * (1 + binSizeFactor))⟩)
      (P.map Prod.snd) [P.map fun _ => 1]
      [scaleBins t ⟨(P.map Prod.fst).map en, ((P.map Prod.fst).map (· * (1 + binSizeFactor))).map en⟩]
      [P.map fun p => (p.2 * rel p.1 + abs p.1) * t]
    = .ok (⟨P.map fun p => (moveBin cfg.mec2 en rel abs t p).1,
        P.map fun p => (p.1 * (1 + binSizeFactor) * cfg.mec2 + en (p.1 * (1 + binSizeFactor)) * t) / cfg.mec2⟩,
      P.map fun p => (moveBin cfg.mec2 en rel abs t p).2, [P.map fun _ => 1]) := by
  unfold applyTimeEval
  simp only [List.zip_cons_cons, List.zip_nil_right, List.mapM_cons, List.mapM_nil]
  rw [evalGroup_local hok]
  have hinj : ∀ b : Bins K, addInjection (b, P.map fun p => p.2 * ((p.1 * (1 + binSizeFactor) * cfg.mec2 - p.1 * cfg.mec2) /
      ((p.1 * (1 + binSizeFactor) * cfg.mec2 + en (p.1 * (1 + binSizeFactor)) * t)
        - (p.1 * cfg.mec2 + en p.1 * t)))) (P.map fun p => (p.2 * rel p.1 + abs p.1) * t)
      = .ok (b, P.map fun p => (moveBin cfg.mec2 en rel abs t p).2) := by
    intro b
    unfold addInjection
    simp only [zipWith_maps]
    rw [if_neg]
    · rfl
    · simp only [List.any_eq_true, List.mem_map, not_exists, not_and]
      rintro x ⟨p, hp, rfl⟩
      have := (hok p hp).nonneg
      simpa [moveBin] using this
  simp only [bind, Except.bind, pure, Except.pure, List.length_cons, List.length_nil, lt_self_iff_false,
    decide_false, Bool.or_self, Bool.false_eq_true, if_false, hinj, List.zip_cons_cons, List.zip_nil_right,
    List.mapM_cons, List.mapM_nil]
  have hz : (List.replicate (P.map Prod.snd).length (0 : K)) = P.map fun _ => 0 := by
    rw [List.length_map, List.map_const']
  have hcol : colSum (P.map Prod.snd).length [P.map fun p => (moveBin cfg.mec2 en rel abs t p).2]
      = P.map fun p => (moveBin cfg.mec2 en rel abs t p).2 := by
    unfold colSum
    rw [hz]
    simp only [List.foldr_cons, List.foldr_nil, zipWith_maps, add_zero]
  rw [hcol]
  congr 3
  simp only [List.map_cons, List.map_nil, List.cons.injEq, and_true]
  unfold newFraction
  rw [zip_maps, zipWith_maps]
  apply List.map_congr_left
  intro p _
  simp only
  split
  · next h => exact div_self h
  · rfl

/-- pairs a distribution can be made of: all densities zero, or two of them not -/
structure GridOK (cfg : Cfg K) (P : List (K × K)) : Prop where
  two : 2 ≤ P.length
  apart : Apart cfg (P.map Prod.fst)
  nonneg : ∀ p ∈ P, 0 ≤ p.2
  interp : (∀ p ∈ P, p.2 = 0) ∨ 2 ≤ (P.filter fun p => decide (p.2 ≠ 0)).length

theorem mkDist_local {num : Numerics K} (hl : num.Lawful) {P : List (K × K)}
    (hs : ((P.map Prod.fst).map num.log10).Pairwise (· < ·)) (hnn : ∀ p ∈ P, 0 ≤ p.2)
    (h2 : 2 ≤ (P.filter fun p => decide (p.2 ≠ 0)).length) :
    ∃ d, mkDist num (P.map Prod.fst) (P.map Prod.snd) = .ok d := by
  unfold mkDist
  simp only [List.map_map]
  have e1 : select (P.map ((fun v => decide (v ≠ 0)) ∘ Prod.snd)) (P.map Prod.fst)
      = (P.filter fun p => decide (p.2 ≠ 0)).map Prod.fst := by
    rw [select_map, Function.comp_def, select_filter]
  have e2 : select (P.map ((fun v => decide (v ≠ 0)) ∘ Prod.snd)) (P.map Prod.snd)
      = (P.filter fun p => decide (p.2 ≠ 0)).map Prod.snd := by
    rw [select_map, Function.comp_def, select_filter]
  rw [e1, e2]
  set Q := P.filter fun p => decide (p.2 ≠ 0) with hQ
  have hsome : (num.interp (Q.map Prod.fst) (Q.map Prod.snd)).isSome := by
    apply hl.interp_some
    · simpa using h2
    · simp
    · exact hs.sublist ((List.filter_sublist.map _).map _)
    · intro y hy
      obtain ⟨p, hp, rfl⟩ := List.mem_map.1 hy
      rw [hQ, List.mem_filter] at hp
      exact lt_of_le_of_ne (hnn p hp.1) (Ne.symm (by simpa using hp.2))
  obtain ⟨f, hf⟩ := Option.isSome_iff_exists.1 hsome
  have hne : Q.map Prod.fst ≠ [] := by
    intro h
    have := congrArg List.length h
    simp only [List.length_map, List.length_nil] at this
    omega
  obtain ⟨m, hm⟩ := Option.isSome_iff_exists.1 (List.isSome_min?_of_ne_nil hne)
  obtain ⟨M, hM⟩ := Option.isSome_iff_exists.1 (List.isSome_max?_of_ne_nil hne)
  rw [hf, hm, hM]
  exact ⟨_, rfl⟩

theorem updateDistribution_local {cfg : Cfg K} (hl : cfg.num.Lawful) {P : List (K × K)} {ub : List K}
    (hub : ub.length = P.length) (h : GridOK cfg P) :
    ∃ d, updateDistribution cfg.num ⟨P.map Prod.fst, ub⟩ (P.map Prod.snd) = .ok d := by
  unfold updateDistribution
  rw [sortAndMergeDuplicates_id hl none (by simpa using hub) (by simp) h.apart.pos h.apart.distinct]
  simp only [bind, Except.bind]
  by_cases hz : (P.map Prod.snd).all (· == 0) = true
  · rw [if_pos hz]; exact ⟨_, rfl⟩
  · rw [if_neg hz, if_neg (by have := h.two; simp; omega)]
    refine mkDist_local hl h.apart.distinct h.nonneg ?_
    rcases h.interp with h0 | h0
    · exfalso
      apply hz
      simp only [List.all_eq_true, List.mem_map, beq_iff_eq]
      rintro x ⟨p, hp, rfl⟩
      exact h0 p hp
    · exact h0

theorem removeTooCloseBins_local {num : Numerics K} {thr : K} {b : Bins K} {dens : List K} {dist : Dist K}
    (h2 : 2 ≤ b.lb.length)
    (hap : ∀ j, j + 1 < b.lb.length →
      thr ≤ num.log10 (b.lb.getD (j + 1) 0) - num.log10 (b.lb.getD j 0)) :
    removeTooCloseBins num thr b dens dist = .ok (b, dens, arange b.lb.length) := by
  unfold removeTooCloseBins
  have hl : ((adjacent (fun a c => c - a) (b.lb.map num.log10)).map fun g => decide (g < thr)).length
      = b.lb.length - 1 := by simp [adjacent_length]
  have hf : ∀ x ∈ (adjacent (fun a c => c - a) (b.lb.map num.log10)).map fun g => decide (g < thr), x = false := by
    intro x hx
    obtain ⟨y, hy, rfl⟩ := List.mem_map.1 hx
    obtain ⟨j, hj, rfl⟩ := List.mem_iff_getElem.1 hy
    rw [adjacent_getElem]
    rw [adjacent_length, List.length_map] at hj
    have := hap j (by omega)
    rw [List.getD_eq_getElem _ _ (by omega), List.getD_eq_getElem _ _ (by omega)] at this
    simpa using this
  simp only [clearEnds]
  rw [if_neg (by intro h; rw [h] at hl; simp at hl; omega)]
  simp only [bind, Except.bind]
  rw [if_neg]
  · rfl
  · simp only [List.any_eq_true, id_eq, not_exists, not_and]
    intro x hx
    have := List.mem_or_eq_of_mem_set hx
    rcases this with h | h
    · rcases List.mem_or_eq_of_mem_set h with h | h
      · rw [hf x h]; simp
      · simp [h]
    · simp [h]

theorem sortAndMergeBins_local {cfg : Cfg K} (hl : cfg.num.Lawful) {b : Bins K} {dens : List K}
    {dist : Dist K} (hub : b.ub.length = b.lb.length) (hd : dens.length = b.lb.length)
    (h2 : 2 ≤ b.lb.length) (ha : Apart cfg b.lb) :
    sortAndMergeBins cfg b dens dist = .ok (b, dens, arange b.lb.length) := by
  unfold sortAndMergeBins
  rw [sortAndMergeDuplicates_id hl _ hub hd ha.pos ha.distinct]
  simp only [bind, Except.bind]
  cases hmc : cfg.mergeCloser with
  | none => rfl
  | some thr =>
    simp only
    rw [removeTooCloseBins_local h2 (ha.apart thr hmc)]
    simp only
    rw [arange_toInts, combineMapping_range]
    rfl

/-! ### the step -/

/-- a configuration with local rates, one group, no bounds and fixed steps -/
structure LocalCfg (cfg : Cfg K) (enL relL absL : List (String × (K → K))) (dt : K) : Prop where
  lawful : cfg.num.Lawful
  en : cfg.enFns = localFns enL
  rel : cfg.relFns = localFns relL
  abs : cfg.absFns = localFns absL
  keysEn : (enL.map Prod.fst).Nodup
  keysRel : (relL.map Prod.fst).Nodup
  keysAbs : (absL.map Prod.fst).Nodup
  fixed : cfg.stepDuration = .fixed dt
  noOpt : cfg.optimize = false
  noGroups : cfg.subgroups = none
  noBounds : cfg.gammaBounds = none

theorem groupRates_local {cfg : Cfg K} {enL relL absL : List (String × (K → K))} {dt : K}
    (hc : LocalCfg cfg enL relL absL dt) (P : List (K × K)) (el : K) (tl : List (WithTop K)) (dist : Dist K) :
    groupRates cfg (localState enL relL absL P el tl dist)
      = .ok ([⟨(P.map Prod.fst).map (totalOf enL), ((P.map Prod.fst).map (· * (1 + binSizeFactor))).map (totalOf enL)⟩],
        [(P.map Prod.fst).map (totalOf relL)], [(P.map Prod.fst).map (totalOf absL)]) := by
  unfold groupRates localState
  simp only [hc.noGroups]
  rw [sumRates2_local enL (b := ⟨P.map Prod.fst, (P.map Prod.fst).map (· * (1 + binSizeFactor))⟩)
    (by simp), sumRates1_local, sumRates1_local]
  simp only [List.mapM_cons, List.mapM_nil, finiteBins, finiteRow_local]
  rfl

theorem totalInjection_local (P : List (K × K)) (r a : K → K) :
    totalInjection (P.map Prod.snd) [P.map fun _ => 1] [(P.map Prod.fst).map r] [(P.map Prod.fst).map a]
      = .ok [P.map fun p => p.2 * r p.1 + a p.1] := by
  unfold totalInjection densitiesGrouped bcastRows mulRow
  simp only [bind, Except.bind, List.map_map, Function.comp_def, List.map_cons, List.map_nil, List.length_cons,
    List.length_nil, if_true, List.zipWith_cons_cons, List.zipWith_nil_right, zipWith_maps, mul_one]

/-- the rates read by the corrector of Heun's method -/
def heunSlope (mec2 : K) (en : K → K) (t x : K) : K := (en x + en ((x * mec2 + en x * t) / mec2)) / 2

/-- the part of a step that follows the energy changes: no bins are merged or reordered -/
theorem step_of_stages {cfg : Cfg K} {enL relL absL : List (String × (K → K))} {dt : K}
    (hc : LocalCfg cfg enL relL absL dt) {P Q : List (K × K)} {el : K} {tl : List (WithTop K)}
    {dist d : Dist K} {t : K} {ub' : List K} {rates : List (Bins K)} (ht : t = min dt (cfg.totalTime - el))
    (hQ : Q.length = P.length) (hub' : ub'.length = P.length)
    (e2 : applyStages12 cfg (toErg cfg ⟨P.map Prod.fst, (P.map Prod.fst).map (· * (1 + binSizeFactor))⟩)
      (P.map Prod.snd) [P.map fun _ => 1]
      [⟨(P.map Prod.fst).map (totalOf enL), ((P.map Prod.fst).map (· * (1 + binSizeFactor))).map (totalOf enL)⟩]
      [P.map fun p => p.2 * totalOf relL p.1 + totalOf absL p.1] t
      = .ok (⟨Q.map Prod.fst, ub'⟩, Q.map Prod.snd, [P.map fun _ => 1], d, rates))
    (hgrid : GridOK cfg Q) :
    step cfg (localState enL relL absL P el tl dist) = .ok (localState enL relL absL Q (el + t) tl d) := by
  have hones : (P.map fun _ => (1 : K)) = Q.map fun _ => 1 := by
    rw [List.map_const', List.map_const', hQ]
  rw [step_fixed hc.fixed hc.noOpt]
  unfold stepCore
  rw [groupRates_local hc]
  simp only [bind, Except.bind]
  have e0 : totalInjection (localState enL relL absL P el tl dist).dens
      (localState enL relL absL P el tl dist).sub [(P.map Prod.fst).map (totalOf relL)]
      [(P.map Prod.fst).map (totalOf absL)] = _ := totalInjection_local P _ _
  rw [e0]
  simp only
  have e1 : min dt (cfg.totalTime - (localState enL relL absL P el tl dist).elapsed) = t := ht.symm
  rw [e1]
  have e3 : sortAndMergeBins cfg ⟨Q.map Prod.fst, ub'⟩ (Q.map Prod.snd) d
      = .ok (⟨Q.map Prod.fst, ub'⟩, Q.map Prod.snd, arange P.length) := by
    rw [sortAndMergeBins_local hc.lawful (by simp [hub', hQ]) (by simp) (by simpa using hgrid.two) hgrid.apart]
    simp [hQ]
  have e4 : applyTimeChanges cfg (toErg cfg (localState enL relL absL P el tl dist).bins)
      (localState enL relL absL P el tl dist).dens (localState enL relL absL P el tl dist).sub
      [⟨(P.map Prod.fst).map (totalOf enL), ((P.map Prod.fst).map (· * (1 + binSizeFactor))).map (totalOf enL)⟩]
      [P.map fun p => p.2 * totalOf relL p.1 + totalOf absL p.1] t
      = .ok ⟨⟨Q.map Prod.fst, ub'⟩, Q.map Prod.snd, [P.map fun _ => 1], arange P.length, d⟩ := by
    unfold applyTimeChanges
    simp only [localState]
    rw [e2]
    simp only [bind, Except.bind]
    rw [e3]
    simp only
    rw [remapSubgroups_arange (by simp) (by simp)]
    simp only [applyBounds, hc.noBounds]
    rfl
  rw [e4]
  simp only
  have hmask : ((Q.map Prod.snd).map fun _ => true) = List.replicate P.length true := by
    rw [List.map_const', List.length_map, hQ]
  rw [hmask]
  unfold refresh
  have hb : updateBinUb ⟨Q.map Prod.fst, ub'⟩ (List.replicate P.length true)
      = ⟨Q.map Prod.fst, (Q.map Prod.fst).map (· * (1 + binSizeFactor))⟩ :=
    updateBinUb_true ⟨by simp [hQ], by simp [hub']⟩
  simp only [hb]
  have r1 : remapRates2 (arange P.length) (localState enL relL absL P el tl dist).en
      = .ok (localState enL relL absL P el tl dist).en := by
    have := remapRates2_local enL
      (b := ⟨P.map Prod.fst, (P.map Prod.fst).map (· * (1 + binSizeFactor))⟩) (by simp)
    rw [List.length_map] at this
    exact this
  have r2 : remapRates1 (arange P.length) (localState enL relL absL P el tl dist).abs
      = .ok (localState enL relL absL P el tl dist).abs := by
    have := remapRates1_local absL (P.map Prod.fst)
    rw [List.length_map] at this
    exact this
  have r3 : remapRates1 (arange P.length) (localState enL relL absL P el tl dist).rel
      = .ok (localState enL relL absL P el tl dist).rel := by
    have := remapRates1_local relL (P.map Prod.fst)
    rw [List.length_map] at this
    exact this
  rw [r1, r2, r3]
  simp only [bind, Except.bind, hc.en, hc.rel, hc.abs]
  have s1 := recalcRates2_local hc.keysEn d (n := P.length)
    (b := ⟨Q.map Prod.fst, (Q.map Prod.fst).map (· * (1 + binSizeFactor))⟩)
    (b0 := ⟨P.map Prod.fst, (P.map Prod.fst).map (· * (1 + binSizeFactor))⟩)
    (dens := Q.map Prod.snd) (sub := [P.map fun _ => 1])
    ⟨by simp [hQ], by simp [hQ]⟩ ⟨by simp, by simp⟩ (by simp [hQ]) (by simp) (by simp)
  have s2 := recalcRates1_local hc.keysAbs d (n := P.length) (g := Q.map Prod.fst)
    (g0 := P.map Prod.fst) (dens := Q.map Prod.snd) (sub := [P.map fun _ => 1])
    (by simp [hQ]) (by simp) (by simp [hQ]) (by simp) (by simp)
  have s3 := recalcRates1_local hc.keysRel d (n := P.length) (g := Q.map Prod.fst)
    (g0 := P.map Prod.fst) (dens := Q.map Prod.snd) (sub := [P.map fun _ => 1])
    (by simp [hQ]) (by simp) (by simp [hQ]) (by simp) (by simp)
  simp only [localState] at s1 s2 s3 ⊢
  rw [s1, s2, s3, hones]
  simp [pure, Except.pure]

theorem step_local {cfg : Cfg K} {enL relL absL : List (String × (K → K))} {dt : K}
    (hc : LocalCfg cfg enL relL absL dt) (hh : cfg.heun = false) {P : List (K × K)} {el : K} {tl : List (WithTop K)}
    {dist : Dist K} {t : K} (ht : t = min dt (cfg.totalTime - el))
    (hok : ∀ p ∈ P, BinOK cfg.mec2 (totalOf enL) (totalOf relL) (totalOf absL) t p)
    (hgrid : GridOK cfg (P.map (moveBin cfg.mec2 (totalOf enL) (totalOf relL) (totalOf absL) t))) :
    ∃ d, step cfg (localState enL relL absL P el tl dist)
      = .ok (localState enL relL absL
          (P.map (moveBin cfg.mec2 (totalOf enL) (totalOf relL) (totalOf absL) t)) (el + t) tl d) := by
  set F := moveBin cfg.mec2 (totalOf enL) (totalOf relL) (totalOf absL) t with hF
  set ub' : List K := P.map fun p => (p.1 * (1 + binSizeFactor) * cfg.mec2
    + totalOf enL (p.1 * (1 + binSizeFactor)) * t) / cfg.mec2 with hub'
  have hm1 : (P.map fun p => (F p).1) = (P.map F).map Prod.fst := by simp
  have hm2 : (P.map fun p => (F p).2) = (P.map F).map Prod.snd := by simp
  obtain ⟨d, hd⟩ := updateDistribution_local hc.lawful (ub := ub') (by simp [hub']) hgrid
  refine ⟨d, step_of_stages hc (ub' := ub') ht (by simp) (by simp [hub']) ?_ hgrid
    (rates := [⟨(P.map Prod.fst).map (totalOf enL),
      ((P.map Prod.fst).map (· * (1 + binSizeFactor))).map (totalOf enL)⟩])⟩
  unfold applyStages12
  simp only [List.map_cons, List.map_nil]
  rw [List.map_map (g := (· * t))]
  have := applyTimeEval_local (cfg := cfg) hok
  simp only [Function.comp_def]
  rw [this]
  simp only [bind, Except.bind, hh, Bool.false_eq_true, if_false]
  rw [← hF, ← hub', hm1, hm2, hd]
  rfl

/-- one step of Heun's method: Euler's method with the mean of the rates before and after -/
theorem step_local_heun {cfg : Cfg K} {enL relL absL : List (String × (K → K))} {dt : K}
    (hc : LocalCfg cfg enL relL absL dt) (hh : cfg.heun = true) {P : List (K × K)} {el : K} {tl : List (WithTop K)}
    {dist : Dist K} {t : K} (ht : t = min dt (cfg.totalTime - el))
    (hok1 : ∀ p ∈ P, BinOK cfg.mec2 (totalOf enL) (totalOf relL) (totalOf absL) t p)
    (hgrid1 : GridOK { cfg with mergeCloser := none }
      (P.map (moveBin cfg.mec2 (totalOf enL) (totalOf relL) (totalOf absL) t)))
    (hok : ∀ p ∈ P, BinOK cfg.mec2 (heunSlope cfg.mec2 (totalOf enL) t) (totalOf relL) (totalOf absL) t p)
    (hgrid : GridOK cfg (P.map (moveBin cfg.mec2 (heunSlope cfg.mec2 (totalOf enL) t) (totalOf relL)
      (totalOf absL) t))) :
    ∃ d, step cfg (localState enL relL absL P el tl dist)
      = .ok (localState enL relL absL
          (P.map (moveBin cfg.mec2 (heunSlope cfg.mec2 (totalOf enL) t) (totalOf relL) (totalOf absL) t))
          (el + t) tl d) := by
  set F1 := moveBin cfg.mec2 (totalOf enL) (totalOf relL) (totalOf absL) t with hF1
  set F := moveBin cfg.mec2 (heunSlope cfg.mec2 (totalOf enL) t) (totalOf relL) (totalOf absL) t with hF
  set ub1 : List K := P.map fun p => (p.1 * (1 + binSizeFactor) * cfg.mec2
    + totalOf enL (p.1 * (1 + binSizeFactor)) * t) / cfg.mec2 with hub1
  set ub' : List K := P.map fun p => (p.1 * (1 + binSizeFactor) * cfg.mec2
    + heunSlope cfg.mec2 (totalOf enL) t (p.1 * (1 + binSizeFactor)) * t) / cfg.mec2 with hub'
  have hm1 : (P.map fun p => (F p).1) = (P.map F).map Prod.fst := by simp
  have hm2 : (P.map fun p => (F p).2) = (P.map F).map Prod.snd := by simp
  have hn1 : (P.map fun p => (F1 p).1) = (P.map F1).map Prod.fst := by simp
  have hn2 : (P.map fun p => (F1 p).2) = (P.map F1).map Prod.snd := by simp
  obtain ⟨d1, hd1⟩ := updateDistribution_local (cfg := { cfg with mergeCloser := none }) hc.lawful (ub := ub1)
    (by simp [hub1]) hgrid1
  obtain ⟨d, hd⟩ := updateDistribution_local hc.lawful (ub := ub') (by simp [hub']) hgrid
  have hrates : List.zipWith averageBins
      [⟨(P.map Prod.fst).map (totalOf enL), ((P.map Prod.fst).map (· * (1 + binSizeFactor))).map (totalOf enL)⟩]
      [⟨((P.map F1).map Prod.fst).map (totalOf enL), ub1.map (totalOf enL)⟩]
      = [⟨(P.map Prod.fst).map (heunSlope cfg.mec2 (totalOf enL) t),
        ((P.map Prod.fst).map (· * (1 + binSizeFactor))).map (heunSlope cfg.mec2 (totalOf enL) t)⟩] := by
    simp only [List.zipWith_cons_cons, List.zipWith_nil_right, averageBins, hub1, List.map_map, zipWith_maps]
    rfl
  refine ⟨d, step_of_stages hc (ub' := ub') ht (by simp) (by simp [hub']) ?_ hgrid
    (rates := [⟨(P.map Prod.fst).map (heunSlope cfg.mec2 (totalOf enL) t),
        ((P.map Prod.fst).map (· * (1 + binSizeFactor))).map (heunSlope cfg.mec2 (totalOf enL) t)⟩])⟩
  unfold applyStages12
  simp only [List.map_cons, List.map_nil]
  rw [List.map_map (g := (· * t))]
  have a1 := applyTimeEval_local (cfg := cfg) hok1
  have a2 := applyTimeEval_local (cfg := cfg) hok
  simp only [Function.comp_def]
  rw [a1]
  simp only [bind, Except.bind, hh, if_true]
  rw [← hF1, ← hub1, hn1, hn2, hd1, hc.en]
  simp only
  rw [newRates2_local enL d1 (by simp [hub1]) (by simp) (by simp) (by simp), hc.noGroups]
  simp only
  rw [sumRates2_local enL (b := ⟨(P.map F1).map Prod.fst, ub1⟩) (by simp [hub1])]
  simp only [List.mapM_cons, List.mapM_nil, finiteBins, finiteRow_local, bind, Except.bind, pure, Except.pure]
  rw [hrates]
  simp only [List.map_cons, List.map_nil]
  rw [a2]
  simp only
  rw [← hF, ← hub', hm1, hm2, hd]

theorem initState_local {cfg : Cfg K} {enL relL absL : List (String × (K → K))} {dt : K}
    (hc : LocalCfg cfg enL relL absL dt) (dist : Dist K) :
    initState cfg dist = .ok (localState enL relL absL
      (cfg.initialGamma.map fun x => (x, dist.eval x)) 0 (cfg.initialGamma.map fun _ => 0) dist) := by
  unfold initState initialSub
  simp only [hc.noGroups, hc.en, hc.rel, hc.abs]
  rw [updateBinUb_true ⟨rfl, by simp⟩]
  simp only [bind, Except.bind]
  rw [newRates2_local enL dist (by simp) (by simp) (by simp) (by simp)]
  simp only
  rw [newRates1_local relL dist (by simp) (by simp) (by simp)]
  simp only
  rw [newRates1_local absL dist (by simp) (by simp) (by simp)]
  simp [localState, pure, Except.pure, Function.comp_def]

end Verif.TE
