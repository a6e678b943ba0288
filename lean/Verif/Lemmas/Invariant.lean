import Verif.Lemmas.AutoStep

/- The inductive invariant of the evolution loop. -/

namespace Verif.TE

open Verif.Np

set_option linter.unusedSectionVars false

variable {K : Type} [Field K] [LinearOrder K] [IsStrictOrderedRing K]

/-- Well-formed configuration.  `lawful`/`mec2` are assumptions about the libraries and constants;
`keys*` hold for every Python dict; `optAuto` is enforced by the constructor
(`time_evolution.py:165-169`); the initial array is checked to be increasing by the constructor (line 152)
or produced by `logspace` (line 159). -/
structure Cfg.WF (cfg : Cfg K) : Prop where
  lawful : cfg.num.Lawful
  mec2 : 0 < cfg.mec2
  optAuto : cfg.optimize = true → cfg.stepDuration = .auto
  thresholds : cfg.stepDuration = .auto →
    0 < cfg.maxEnergyChange ∧ 0 < cfg.maxDensityChange ∧ 0 < cfg.maxInjection
  keysEn : (cfg.enFns.map Prod.fst).Nodup
  keysRel : (cfg.relFns.map Prod.fst).Nodup
  keysAbs : (cfg.absFns.map Prod.fst).Nodup
  gammaPos : ∀ x ∈ cfg.initialGamma, 0 < x
  gammaSorted : cfg.initialGamma.Pairwise (· < ·)
  bounds : ∀ lo hi, cfg.gammaBounds = some (lo, hi) → 0 < lo ∧ 0 < cfg.maxBinCreep ∧
    cfg.num.log10 hi - cfg.num.log10 (hi / (1 + binSizeFactor)) < cfg.maxBinCreep ∧
    ∀ x ∈ cfg.initialGamma, lo ≤ x ∧ x ≤ hi
  fractions : ∀ f, cfg.initialFractions = some f → f ≠ [] ∧ ∀ r ∈ f, r.length = cfg.initialGamma.length

/-- Initial fractions given by the user are non-negative and sum to one (the constructor checks the sum,
`time_evolution.py:181-183`, up to 1e-6). -/
def Cfg.FractionsOK (cfg : Cfg K) : Prop :=
  ∀ f, cfg.initialFractions = some f → (∀ r ∈ f, ∀ x ∈ r, 0 ≤ x) ∧
    ∀ j, j < cfg.initialGamma.length → (f.map (·.getD j 0)).sum = 1

/-- every density is zero or the value of the distribution there -/
def Agree (d : Dist K) (lb dens : List K) : Prop :=
  ∀ j, j < lb.length → dens.getD j 0 = 0 ∨ dens.getD j 0 = d.eval (lb.getD j 0)

/-- The invariant -/
structure Inv (cfg : Cfg K) (s : State K) : Prop where
  ublen : s.bins.ub.length = s.bins.lb.length
  denslen : s.dens.length = s.bins.lb.length
  subne : s.sub ≠ []
  sublen : ∀ r ∈ s.sub, r.length = s.bins.lb.length
  leftlen : cfg.optimize = true → s.timeLeft.length = s.bins.lb.length
  leftnn : cfg.optimize = true → ∀ x ∈ s.timeLeft, 0 ≤ x
  pos : ∀ x ∈ s.bins.lb, 0 < x
  sorted : s.bins.lb.Pairwise (· < ·)
  width : ∀ j, j < s.bins.lb.length → s.bins.lb.getD j 0 < s.bins.ub.getD j 0
  densnn : ∀ x ∈ s.dens, 0 ≤ x
  bounds : ∀ lo hi, cfg.gammaBounds = some (lo, hi) → ∀ x ∈ s.bins.lb, lo ≤ x ∧ x ≤ hi
  en : RatesGood2 cfg.enFns s.bins.lb.length s.en
  rel : RatesGood1 cfg.relFns s.bins.lb.length s.rel
  abs : RatesGood1 cfg.absFns s.bins.lb.length s.abs
  distnn : ∀ x, 0 ≤ s.dist.eval x
  agree : Agree s.dist s.bins.lb s.dens

/-- The invariant of the fractions -/
structure InvSub (s : State K) : Prop where
  nn : ∀ r ∈ s.sub, ∀ x ∈ r, 0 ≤ x
  sum : ∀ j, j < s.bins.lb.length → (s.sub.map (·.getD j 0)).sum = 1

/-! ### the distribution agrees with the arrays -/

theorem select_zip {α β : Type} (m : List Bool) (a : List α) (b : List β) (h : a.length = b.length) :
    select m (List.zip a b) = List.zip (select m a) (select m b) := by
  induction m generalizing a b with
  | nil => simp
  | cons c m ih =>
    cases a with
    | nil => simp at h; cases b <;> simp_all
    | cons x a =>
      cases b with
      | nil => simp at h
      | cons y b =>
        simp only [List.length_cons, Nat.add_right_cancel_iff] at h
        cases c <;> simp [select, ih a b h]

theorem mem_select_of {α : Type} {p : α → Bool} {m : List Bool} {l : List α} (hm : m = l.map p) {x : α}
    (hx : x ∈ l) (hp : p x = true) : x ∈ select m l := by
  rw [hm, select_filter]; exact List.mem_filter.2 ⟨hx, hp⟩

/-- the nodes with non-zero density are reproduced -/
theorem mkDist_node {num : Numerics K} (hl : num.Lawful) {g v : List K} {d : Dist K}
    (hlen : v.length = g.length) (hg : ∀ x ∈ g, 0 < x) (hv : ∀ x ∈ v, 0 ≤ x)
    (h : mkDist num g v = .ok d) {j : Nat} (hj : j < g.length) (hne : v.getD j 0 ≠ 0) :
    d.eval (g.getD j 0) = v.getD j 0 := by
  unfold mkDist at h
  simp only at h
  set valid := v.map fun v => decide (v ≠ 0) with hvalid
  split at h
  · next f gmin gmax hf hmin hmax =>
    simp only [Except.ok.injEq] at h
    subst h
    have hvl : valid.length = g.length := by simp [hvalid, hlen]
    have hmem : (g.getD j 0, v.getD j 0) ∈ List.zip (select valid g) (select valid v) := by
      rw [← select_zip valid g v hlen.symm]
      refine mem_select_of (p := fun q => decide (q.2 ≠ 0)) ?_ ?_ (by simpa using hne)
      · rw [hvalid]
        have e : (List.zip g v).map (fun q => decide (q.2 ≠ 0))
            = ((List.zip g v).map Prod.snd).map (fun x => decide (x ≠ 0)) := by
          rw [List.map_map]; rfl
        rw [e, List.map_snd_zip (by omega)]
      · rw [List.mem_iff_getElem]
        refine ⟨j, by simp; omega, ?_⟩
        rw [List.getElem_zip, List.getD_eq_getElem _ _ hj, List.getD_eq_getElem _ _ (by omega)]
    obtain ⟨q, hq, e⟩ := List.mem_iff_getElem.1 hmem
    rw [List.getElem_zip] at e
    simp only [Prod.mk.injEq] at e
    rw [List.length_zip] at hq
    have hsg : select valid v = v.filter (fun x => decide (x ≠ 0)) := by rw [hvalid, select_filter]
    have hslen : (select valid v).length = (select valid g).length := by
      rw [select_length (by rw [hvl, hlen]), select_length hvl]
    have hnode := hl.interp_node hf hslen (fun x hx => hg x (select_mem hx)) (by
      intro y hy
      rw [hsg, List.mem_filter] at hy
      exact lt_of_le_of_ne (hv y hy.1) (Ne.symm (by simpa using hy.2))) q (by omega)
    rw [List.getD_eq_getElem _ _ (by omega), List.getD_eq_getElem _ _ (by omega), e.1, e.2] at hnode
    have hgm : g.getD j 0 ∈ select valid g := by rw [← e.1]; exact List.getElem_mem _
    have h1 := (List.min?_eq_some_iff.1 hmin).2 _ hgm
    have h2 := (List.max?_eq_some_iff.1 hmax).2 _ hgm
    simp only [h1, h2, and_self, if_true]
    exact hnode
  · simp at h

/-- sorting for the distribution and sorting for the state give the same energies, and the same
densities except at merged points -/
theorem sortMerge_two {num : Numerics K} {b : Bins K} {dens : List K} {D : Dist K}
    {b1 b2 : Bins K} {d1 d2 : List K} {m1 m2 : List Int}
    (e1 : sortAndMergeDuplicates num b dens none = .ok (b1, d1, m1))
    (e2 : sortAndMergeDuplicates num b dens (some D) = .ok (b2, d2, m2)) :
    b1 = b2 ∧ m1 = m2 ∧ d1.length = d2.length ∧
      ∀ j, j < d2.length → d2.getD j 0 = d1.getD j 0 ∨ d2.getD j 0 = D.eval (b2.lb.getD j 0) := by
  unfold sortAndMergeDuplicates at e1 e2
  obtain ⟨lb, hlb, e1⟩ := bind_ok_iff.1 e1
  obtain ⟨ub, hub, e1⟩ := bind_ok_iff.1 e1
  obtain ⟨d, hd, e1⟩ := bind_ok_iff.1 e1
  dsimp only at e2
  rw [hlb, hub, hd] at e2
  simp only [bind, Except.bind] at e1 e2
  split at e1
  · next hdup =>
    rw [if_pos hdup] at e2
    split at e1
    · simp at e1
    · next m hm =>
      rw [hm] at e2
      simp only [pure, Except.pure, Except.ok.injEq, Prod.mk.injEq] at e1 e2
      obtain ⟨rfl, rfl, rfl⟩ := e1
      obtain ⟨rfl, rfl, rfl⟩ := e2
      refine ⟨rfl, rfl, by simp [mergePoints], ?_⟩
      intro j hj
      simp only [mergePoints, List.length_map] at hj ⊢
      rw [getD_map_lt hj, getD_map_lt hj, getD_map_lt hj]
      split <;> simp
  · next hdup =>
    rw [if_neg hdup] at e2
    simp only [pure, Except.pure, Except.ok.injEq, Prod.mk.injEq] at e1 e2
    obtain ⟨rfl, rfl, rfl⟩ := e1
    obtain ⟨rfl, rfl, rfl⟩ := e2
    exact ⟨rfl, rfl, rfl, fun j _ => Or.inl rfl⟩

theorem Merged.agree {lb ub dens : List K} {D : Dist K} {b' : Bins K} {d' : List K}
    {idx : List Nat} (h : Merged lb ub dens (some D) b' d' idx) (ha : Agree D lb dens) :
    Agree D b'.lb d' := by
  intro p hp
  rw [h.len_lb] at hp
  have hq' : idx.getD p 0 < lb.length := by
    rw [List.getD_eq_getElem _ _ hp]; exact h.range _ (List.getElem_mem _)
  rcases h.entry p hp with ⟨h1, h2, -⟩ | ⟨-, -, h1⟩
  · rw [h1, h2]; exact ha _ hq'
  · exact Or.inr h1

theorem sortMerge_agree {num : Numerics K} (hl : num.Lawful) {b : Bins K} {dens : List K} {D : Dist K}
    (hub : b.ub.length = b.lb.length) (hd : dens.length = b.lb.length) (hpos : ∀ v ∈ b.lb, 0 < v)
    (hnn : ∀ x ∈ dens, 0 ≤ x)
    (hD : updateDistribution num b dens = .ok D) {b2 : Bins K} {d2 : List K} {m2 : List Int}
    (e2 : sortAndMergeDuplicates num b dens (some D) = .ok (b2, d2, m2)) : Agree D b2.lb d2 := by
  unfold updateDistribution at hD
  obtain ⟨⟨b1, d1, m1⟩, e1, hD⟩ := bind_ok_iff.1 hD
  obtain ⟨rfl, rfl, hlen, hor⟩ := sortMerge_two e1 e2
  obtain ⟨idx, -, hm1, -⟩ := sortAndMergeDuplicates_spec hl b dens none hub hd hpos e1
  have hd1 : d1.length = b1.lb.length := by rw [hm1.len_d, hm1.len_lb]
  have hnn1 : ∀ x ∈ d1, 0 ≤ x := by
    intro v hv
    obtain ⟨q, hq, rfl⟩ := List.mem_iff_getElem.1 hv
    have hq0 := hq
    rw [hm1.len_d] at hq
    have hq' : idx.getD q 0 < dens.length := by
      rw [hd, List.getD_eq_getElem _ _ hq]; exact hm1.range _ (List.getElem_mem _)
    rcases hm1.entry q hq with ⟨-, h1, -⟩ | ⟨-, -, l, hl0, hl1, h1⟩
    · rw [List.getD_eq_getElem _ _ hq0] at h1
      rw [h1]; exact hnn _ (getD_mem hq')
    · rw [List.getD_eq_getElem _ _ hq0] at h1
      rw [h1]; exact mean_nonneg (fun x hx => hnn x (hl1 x hx))
  intro j hj
  rcases hor j (by omega) with h | h
  · rw [h]
    by_cases h0 : d1.getD j 0 = 0
    · exact Or.inl h0
    · right
      simp only at hD
      split at hD
      · next hall =>
        exfalso
        apply h0
        rw [List.all_eq_true] at hall
        have := hall (d1.getD j 0) (getD_mem (by omega))
        simpa using this
      · split at hD
        · exact absurd hD (by simp [throw, throwThe, MonadExceptOf.throw])
        · exact (mkDist_node hl hd1 (hm1.pos hpos) hnn1 hD hj h0).symm
  · exact Or.inr h

theorem sortAndMergeBins_agree {cfg : Cfg K} (hl : cfg.num.Lawful) {b : Bins K} {dens : List K}
    {D : Dist K} (hub : b.ub.length = b.lb.length) (hd : dens.length = b.lb.length)
    (hpos : ∀ v ∈ b.lb, 0 < v) (hnn : ∀ x ∈ dens, 0 ≤ x)
    (hD : updateDistribution cfg.num b dens = .ok D) {b' : Bins K} {d' : List K} {m : List Int}
    (e : sortAndMergeBins cfg b dens D = .ok (b', d', m)) : Agree D b'.lb d' := by
  unfold sortAndMergeBins at e
  obtain ⟨⟨b1, d1, m1⟩, h1, e⟩ := bind_ok_iff.1 e
  have ha := sortMerge_agree hl hub hd hpos hnn hD h1
  obtain ⟨i1, rfl, hm1, -⟩ := sortAndMergeDuplicates_spec hl b dens (some D) hub hd hpos h1
  cases hmc : cfg.mergeCloser with
  | none =>
    simp only [hmc] at e
    rw [pure_ok_iff] at e
    simp only [Prod.mk.injEq] at e
    obtain ⟨rfl, rfl, rfl⟩ := e
    exact ha
  | some thr =>
    simp only [hmc] at e
    obtain ⟨⟨b2, d2, m2⟩, h2, e⟩ := bind_ok_iff.1 e
    obtain ⟨m3, h3, e⟩ := bind_ok_iff.1 e
    rw [pure_ok_iff] at e
    simp only [Prod.mk.injEq] at e
    obtain ⟨rfl, rfl, rfl⟩ := e
    obtain ⟨i2, rfl, hm2⟩ := removeTooCloseBins_merged hl
      (by rw [hm1.len_ub, hm1.len_lb]) (by rw [hm1.len_d, hm1.len_lb]) (hm1.pos hpos) hm1.sorted h2
    exact hm2.agree ha

/-! ### the bounds -/

/-- what stages 3-5 hand over: state arrays and the mapping to the old bins -/
structure Mapped (n : Nat) (D : Dist K) (subLen : Nat) (b : Bins K) (d : List K) (s : List (List K))
    (l : List (Option Nat)) : Prop where
  lblen : b.lb.length = l.length
  ublen : b.ub.length = l.length
  dlen : d.length = l.length
  sne : s ≠ []
  slen : s.length = subLen
  rowlen : ∀ r ∈ s, r.length = l.length
  range : InRange n l
  pos : ∀ x ∈ b.lb, 0 < x
  sorted : b.lb.Pairwise (· < ·)
  width : ∀ j, j < l.length → b.ub.getD j 0 = 0 ∨ b.lb.getD j 0 < b.ub.getD j 0
  new : ∀ j, j < l.length → l.getD j none = none → b.ub.getD j 0 = 0
  dnn : ∀ x ∈ d, 0 ≤ x
  agree : Agree D b.lb d

/-- fractions: non-negative, sum to one -/
def SubOK (s : List (List K)) (n : Nat) : Prop :=
  (∀ r ∈ s, ∀ x ∈ r, 0 ≤ x) ∧ ∀ j, j < n → (s.map (·.getD j 0)).sum = 1

theorem pullSub_ok {l : List (Option Nat)} {sub : List (List K)} {n : Nat} (hs : sub ≠ [])
    (hlen : ∀ r ∈ sub, r.length = n) (h : InRange n l) (ho : SubOK sub n) :
    SubOK (pullSub l sub) l.length :=
  ⟨pullSub_nonneg hlen h ho.1, fun j hj => pullSub_sum hs hlen h ho.2 j hj⟩

theorem nonzero_eq_range_of_length {m : List Bool} (h : m.length ≤ (nonzero m).length) :
    ∀ i (hi : i < m.length), m[i] = true := by
  intro i hi
  by_contra hne
  have hsub : (nonzero m).Sublist (List.range m.length) := List.filter_sublist
  have heq := hsub.eq_of_length_le (by simpa using h)
  have : i ∈ nonzero m := by rw [heq]; simpa using hi
  exact hne (mem_nonzero.1 this).2

theorem pairwise_map_getD {x : List K} (hs : x.Pairwise (· < ·)) {idx : List Nat}
    (hi : idx.Pairwise (· < ·)) (hr : ∀ i ∈ idx, i < x.length) :
    (idx.map (x.getD · 0)).Pairwise (· < ·) := by
  rw [List.pairwise_map]
  exact hi.imp_of_mem (fun _ hb h => getD_strictMono hs h (hr _ hb))

theorem pull_some {α : Type} (idx : List Nat) (v : List α) (d : α) :
    pull (idx.map some) v d = idx.map (v.getD · d) := by
  unfold pull; rw [List.map_map]; rfl

theorem removeBeyondBounds_spec {lo hi : K} {b : Bins K} (hub : b.ub.length = b.lb.length)
    {b' : Bins K} {m : List Int} (h : removeBeyondBounds lo hi b = .ok (b', m)) :
    ∃ idx : List Nat, m = toInts idx ∧ idx.Pairwise (· < ·) ∧ (∀ i ∈ idx, i < b.lb.length) ∧
      (∀ i, i < b.lb.length → (i ∈ idx ↔
        lo ≤ b.lb.getD i 0 ∧ b.lb.getD i 0 ≤ hi / (1 + binSizeFactor))) ∧
      b'.lb = idx.map (b.lb.getD · 0) ∧ b'.ub = idx.map (b.ub.getD · 0) := by
  unfold removeBeyondBounds at h
  set inside := b.lb.map fun g => decide (lo ≤ g ∧ g ≤ hi / (1 + binSizeFactor)) with hin
  have hil : inside.length = b.lb.length := by simp [hin]
  have hmem : ∀ i, i < b.lb.length → (i ∈ nonzero inside ↔
        lo ≤ b.lb.getD i 0 ∧ b.lb.getD i 0 ≤ hi / (1 + binSizeFactor)) := by
    intro i hi
    rw [mem_nonzero]
    constructor
    · rintro ⟨h, e⟩
      rw [List.getD_eq_getElem _ _ hi]
      simpa [hin] using e
    · intro e
      rw [List.getD_eq_getElem _ _ hi] at e
      exact ⟨by omega, by simpa [hin] using e⟩
  have hr : ∀ i ∈ nonzero inside, i < b.lb.length := by
    intro i hi; obtain ⟨h, -⟩ := mem_nonzero.1 hi; omega
  dsimp only at h
  split at h
  · rw [toInts_eq, gather_enc b.lb 0 _ (inRange_some hr) (Or.inr none_not_mem_some),
      gather_enc b.ub 0 _ (inRange_some (by rw [hub]; exact hr)) (Or.inr none_not_mem_some)] at h
    simp only [bind, Except.bind, pure, Except.pure, Except.ok.injEq, Prod.mk.injEq] at h
    obtain ⟨rfl, rfl⟩ := h
    refine ⟨nonzero inside, by rw [toInts_eq], nonzero_pairwise _, hr, hmem, ?_, ?_⟩
    · simp only; rw [map_readAt_of_not_mem none_not_mem_some, pull_some]
    · simp only; rw [map_readAt_of_not_mem none_not_mem_some, pull_some]
  · next hlt =>
    simp only [pure, Except.pure, Except.ok.injEq, Prod.mk.injEq] at h
    obtain ⟨rfl, rfl⟩ := h
    refine ⟨List.range b.lb.length, rfl, List.pairwise_lt_range, by simp, ?_, ?_, ?_⟩
    · intro i hi
      have hall := nonzero_eq_range_of_length (m := inside) (by
        simp only [toInts, List.length_map, not_lt] at hlt
        omega) i (by omega)
      rw [← hmem i hi, mem_nonzero]
      exact ⟨fun _ => ⟨by omega, hall⟩, fun _ => by simpa using hi⟩
    · rw [map_getD_range]
    · rw [← hub, map_getD_range]

theorem get_zero {α : Type} {v : List α} {x : α} (h : Np.get v 0 = .ok x) :
    ∃ hv : 0 < v.length, v[0] = x := by
  obtain ⟨j, hj, hlt, e⟩ := get_ok h
  have := npIndex_nonneg hj (by omega) (by omega)
  have : j = 0 := by omega
  subst this
  exact ⟨hlt, e⟩

/-- description of stage 5: optionally a bin at `lo` in front and a bin at `hi/(1+f)` at the end -/
theorem addBoundaryBins_spec {num : Numerics K} {creep lo hi : K} {b : Bins K} {rate : List K}
    {b' : Bins K} {m : List Int} (h : addBoundaryBins num creep lo hi b rate = .ok (b', m)) :
    ∃ (hb : b.lb ≠ []) (pre post : Bool),
      (pre = true → num.log10 (b.lb.head hb) - num.log10 lo ≥ creep ∧
        ∃ r, rate.head? = some r ∧ 0 < r) ∧
      (post = true → num.log10 hi - num.log10 (b.lb.getLast hb) ≥ creep ∧
        ∃ r, rate.getLast? = some r ∧ r < 0) ∧
      b'.lb = (if pre then [lo] else []) ++ b.lb ++ (if post then [hi / (1 + binSizeFactor)] else []) ∧
      b'.ub = (if pre then [0] else []) ++ b.ub ++ (if post then [0] else []) ∧
      m = (((if pre then [none] else []) ++ (List.range b.lb.length).map some
        ++ (if post then [none] else [])).map enc) := by
  unfold addBoundaryBins at h
  obtain ⟨first, hf, h⟩ := bind_ok_iff.1 h
  obtain ⟨last, hla, h⟩ := bind_ok_iff.1 h
  obtain ⟨hv0, rfl⟩ := get_zero hf
  have hb : b.lb ≠ [] := List.ne_nil_of_length_pos hv0
  rw [get_neg_one hb] at hla
  simp only [Except.ok.injEq] at hla
  subst hla
  have hhead : b.lb.head hb = b.lb[0] := by rw [List.head_eq_getElem]
  have hgl : ∀ {r : K}, Np.get rate (-1) = .ok r → rate.getLast? = some r := by
    intro r hr
    have hne : rate ≠ [] := by
      rintro rfl
      simp [Np.get, npIndex] at hr
    rw [get_neg_one hne] at hr
    simp only [Except.ok.injEq] at hr
    rw [List.getLast?_eq_getLast_of_ne_nil hne, hr]
  have hg0 : ∀ {r : K}, Np.get rate 0 = .ok r → rate.head? = some r := by
    intro r hr
    obtain ⟨h0, e⟩ := get_zero hr
    rw [List.head?_eq_getElem?, List.getElem?_eq_getElem h0, e]
  obtain ⟨⟨b1, m1⟩, h1, h⟩ := bind_ok_iff.1 h
  -- first half
  have hpre : ∃ pre : Bool, (pre = true → num.log10 (b.lb.head hb) - num.log10 lo ≥ creep ∧
        ∃ r, rate.head? = some r ∧ 0 < r) ∧ b1.lb = (if pre then [lo] else []) ++ b.lb ∧
      b1.ub = (if pre then [0] else []) ++ b.ub ∧
      m1 = (((if pre then [none] else []) ++ (List.range b.lb.length).map some).map enc) := by
    unfold addLowerBin at h1
    split at h1
    · next hc =>
      obtain ⟨r, hr, h1⟩ := bind_ok_iff.1 h1
      rw [pure_ok_iff] at h1
      split at h1
      · next hr0 =>
        simp only [Prod.mk.injEq] at h1
        obtain ⟨rfl, rfl⟩ := h1
        refine ⟨true, fun _ => ⟨by rw [hhead]; exact hc, r, hg0 hr, hr0⟩, rfl, rfl, ?_⟩
        simp [arange_eq, enc]
      · simp only [Prod.mk.injEq] at h1
        obtain ⟨rfl, rfl⟩ := h1
        exact ⟨false, by simp, by simp, by simp, by simp [arange_eq]⟩
    · rw [pure_ok_iff] at h1
      simp only [Prod.mk.injEq] at h1
      obtain ⟨rfl, rfl⟩ := h1
      exact ⟨false, by simp, by simp, by simp, by simp [arange_eq]⟩
  obtain ⟨pre, p1, p2, p3, p4⟩ := hpre
  simp only [addUpperBin] at h
  split at h
  · next hc =>
    obtain ⟨r, hr, h⟩ := bind_ok_iff.1 h
    rw [pure_ok_iff] at h
    split at h
    · next hr0 =>
      simp only [Prod.mk.injEq] at h
      obtain ⟨rfl, rfl⟩ := h
      refine ⟨hb, pre, true, p1, fun _ => ⟨hc, r, hgl hr, hr0⟩, by simp [p2], by simp [p3], ?_⟩
      rw [p4]; simp [enc]
    · simp only [Prod.mk.injEq] at h
      obtain ⟨rfl, rfl⟩ := h
      exact ⟨hb, pre, false, p1, by simp, by simp [p2], by simp [p3], by simp [p4]⟩
  · rw [pure_ok_iff] at h
    simp only [Prod.mk.injEq] at h
    obtain ⟨rfl, rfl⟩ := h
    exact ⟨hb, pre, false, p1, by simp, by simp [p2], by simp [p3], by simp [p4]⟩

theorem Mapped.pullStep {n : Nat} {D : Dist K} {subLen : Nat} {b : Bins K} {d : List K}
    {s : List (List K)} {l : List (Option Nat)} (h : Mapped n D subLen b d s l) {idx : List Nat}
    (hp : idx.Pairwise (· < ·)) (hr : ∀ i ∈ idx, i < l.length) :
    Mapped n D subLen ⟨idx.map (b.lb.getD · 0), idx.map (b.ub.getD · 0)⟩ (pull (idx.map some) d 0)
      (pullSub (idx.map some) s) (comp l (idx.map some)) := by
  have hri : InRange l.length (idx.map some) := inRange_some hr
  have hcl : (comp l (idx.map some)).length = idx.length := by simp [comp]
  have hi : ∀ j (hj : j < idx.length), idx[j] < l.length := fun j hj => hr _ (List.getElem_mem hj)
  have g : ∀ (v : List K) j (hj : j < idx.length), (idx.map (v.getD · 0)).getD j 0 = v.getD idx[j] 0 :=
    fun v j hj => getD_map_lt hj
  refine ⟨by simp [hcl], by simp [hcl], by simp [hcl], pullSub_ne_nil h.sne,
    by rw [pullSub_length, h.slen], ?_, comp_inRange h.range, ?_, ?_, ?_, ?_, ?_, ?_⟩
  · intro r hr'
    rw [pullSub_row_length r hr', hcl, List.length_map]
  · intro x hx
    obtain ⟨i, hi', rfl⟩ := List.mem_map.1 hx
    exact h.pos _ (getD_mem (by rw [h.lblen]; exact hr i hi'))
  · exact pairwise_map_getD h.sorted hp (by rw [h.lblen]; exact hr)
  · intro j hj
    rw [hcl] at hj
    simp only [g _ j hj]
    exact h.width _ (hi j hj)
  · intro j hj hnone
    rw [hcl] at hj
    simp only [g _ j hj]
    apply h.new _ (hi j hj)
    unfold comp at hnone
    rw [pull_getD _ _ _ _ (by simpa using hj)] at hnone
    simpa using hnone
  · intro x hx
    rcases mem_pull (by rw [h.dlen]; exact hri) hx with hx | ⟨rfl, -⟩
    · exact h.dnn x hx
    · exact le_refl _
  · intro j hj
    simp only [List.length_map] at hj
    simp only [pull_some, g _ j hj]
    exact h.agree _ (by rw [h.lblen]; exact hi j hj)

theorem getD_append3_mid {α : Type} (p q r : List α) (d : α) {j : Nat} (h1 : p.length ≤ j)
    (h2 : j < p.length + q.length) : (p ++ q ++ r).getD j d = q.getD (j - p.length) d := by
  rw [List.getD_eq_getElem _ _ (by simp; omega), List.getElem_append_left (by simp; omega),
    List.getElem_append_right h1, List.getD_eq_getElem]

end Verif.TE
