import Verif.Model.Batch
import Verif.Lemmas.Spectra
import Verif.Props.MathUtils

/- Reasoning about array programs: an array seen through broadcasting to the full shape. -/

noncomputable section

namespace Verif.Batch

open MathUtils Spectra

/-- index within a shape -/
abbrev Within (idx shape : List ℕ) : Prop := List.Forall₂ (· < ·) idx shape

@[simp] theorem bcastDim_left (d : ℕ) : bcastDim 1 d = some d := by
  unfold bcastDim; split_ifs <;> simp_all

@[simp] theorem bcastDim_right (d : ℕ) : bcastDim d 1 = some d := by
  unfold bcastDim; split_ifs <;> simp_all

@[simp] theorem bcastDim_self (d : ℕ) : bcastDim d d = some d := by
  unfold bcastDim; simp

theorem pad_eq {n : ℕ} {s : List ℕ} (h : n = s.length) : pad n s = s := by
  simp [pad, h]

theorem bshape_eq {s t : List ℕ} (h : s.length = t.length) : bshape s t = bshapeEq s t := by
  unfold bshape; rw [pad_eq h.symm, pad_eq h]

/-- `clamp` for an index with as many axes -/
theorem clamp_eq {s idx : List ℕ} (h : idx.length = s.length) :
    clamp s idx = List.zipWith (fun d i => if d = 1 then 0 else i) s idx := by
  unfold clamp; simp [h]

theorem clamp_self {s idx : List ℕ} (h : Within idx s) : clamp s idx = idx := by
  rw [clamp_eq h.length_eq]
  induction h with
  | nil => rfl
  | @cons i d idx s hi _ ih =>
    simp only [List.zipWith_cons_cons, ih]
    split_ifs with h1
    · congr 1; omega
    · rfl

/-- a shape broadcasts to a shape with as many axes -/
abbrev Fits (s D : List ℕ) : Prop := List.Forall₂ (fun d n => d = 1 ∨ d = n) s D

/-- seen through broadcasting to the shape `D`, the elements of `a` are `f` -/
structure Seen {α : Type} (D : List ℕ) (a : Arr α) (f : List ℕ → α) : Prop where
  fits : Fits a.shape D
  get : ∀ idx, Within idx D → a.get (clamp a.shape idx) = f idx

theorem bshapeEq_fits {s t D : List ℕ} (hs : Fits s D) (ht : Fits t D) :
    ∃ r, bshapeEq s t = some r ∧ Fits r D ∧ ∀ idx, idx.length = D.length →
      clamp s (clamp r idx) = clamp s idx ∧ clamp t (clamp r idx) = clamp t idx := by
  induction hs generalizing t with
  | nil =>
    cases ht
    refine ⟨[], rfl, .nil, fun idx h => ?_⟩
    rw [List.length_eq_zero_iff.1 h]; exact ⟨rfl, rfl⟩
  | @cons a n s D ha hs ih =>
    cases ht with
    | @cons b _ t _ hb ht =>
      obtain ⟨r, hr, fr, cr⟩ := ih ht
      have hd : ∃ d, bcastDim a b = some d ∧ (d = 1 ∨ d = n) ∧ (a = 1 ∨ a = d) ∧ (b = 1 ∨ b = d) := by
        rcases ha with rfl | rfl <;> rcases hb with rfl | rfl
        · exact ⟨1, by simp, by simp, by simp, by simp⟩
        · exact ⟨b, by simp, by simp, by simp, by simp⟩
        · exact ⟨a, by simp, by simp, by simp, by simp⟩
        · exact ⟨b, by simp, by simp, by simp, by simp⟩
      obtain ⟨d, hd, hn, h1, h2⟩ := hd
      refine ⟨d :: r, by simp [bshapeEq, hd, hr], .cons hn fr, fun idx hidx => ?_⟩
      cases idx with
      | nil => simp at hidx
      | cons i idx =>
        have hl : idx.length = D.length := by simpa using hidx
        obtain ⟨c1, c2⟩ := cr idx hl
        have ls : idx.length = s.length := hl.trans hs.length_eq.symm
        have lt : idx.length = t.length := hl.trans ht.length_eq.symm
        have lr : idx.length = r.length := hl.trans fr.length_eq.symm
        have lc : (clamp r idx).length = idx.length := by rw [clamp_eq lr]; simp [lr]
        have e1 : ∀ (x : ℕ) (u : List ℕ), idx.length = u.length → ∀ (j : ℕ) (v : List ℕ), v.length = u.length →
            clamp (x :: u) (j :: v) = (if x = 1 then 0 else j) :: clamp u v := by
          intro x u _ j v hv
          rw [clamp_eq (by simp [hv]), clamp_eq hv]; rfl
        rw [e1 d r lr i idx lr, e1 a s ls _ _ (by omega), e1 b t lt _ _ (by omega), e1 a s ls i idx ls,
          e1 b t lt i idx lt, c1, c2]
        constructor
        · congr 1
          split_ifs <;> rcases h1 with h | h <;> simp_all
        · congr 1
          split_ifs <;> rcases h2 with h | h <;> simp_all

variable {α β γ δ ε : Type} {D : List ℕ}

theorem seen_map {a : Arr α} {f : List ℕ → α} (h : Seen D a f) (g : α → β) : Seen D (a.map g) (fun i => g (f i)) :=
  ⟨h.fits, fun idx hi => congrArg g (h.get idx hi)⟩

theorem seen_zip {a : Arr α} {b : Arr β} {f : List ℕ → α} {g : List ℕ → β} (ha : Seen D a f) (hb : Seen D b g) :
    ∃ c, a.zip b = .ok c ∧ Seen D c (fun i => (f i, g i)) ∧ bshapeEq a.shape b.shape = some c.shape := by
  obtain ⟨r, hr, fr, cr⟩ := bshapeEq_fits ha.fits hb.fits
  have hl : a.shape.length = b.shape.length := ha.fits.length_eq.trans hb.fits.length_eq.symm
  refine ⟨⟨r, fun idx => (a.get (clamp a.shape idx), b.get (clamp b.shape idx))⟩, ?_, ⟨fr, ?_⟩, hr⟩
  · unfold Arr.zip; rw [bshape_eq hl, hr]
  · intro idx hi
    obtain ⟨c1, c2⟩ := cr idx hi.length_eq
    simp only [c1, c2, ha.get idx hi, hb.get idx hi]

theorem seen_lift2 {a : Arr α} {b : Arr β} {f : List ℕ → α} {g : List ℕ → β} (op : α → β → γ) (ha : Seen D a f)
    (hb : Seen D b g) :
    ∃ c, lift2 op a b = .ok c ∧ Seen D c (fun i => op (f i) (g i)) ∧ bshapeEq a.shape b.shape = some c.shape := by
  obtain ⟨c, hc, sc, rc⟩ := seen_zip ha hb
  refine ⟨c.map fun x => op x.1 x.2, ?_, seen_map sc _, rc⟩
  unfold lift2; rw [hc]; rfl

theorem seen_lift3 {a : Arr α} {b : Arr β} {c : Arr γ} {f : List ℕ → α} {g : List ℕ → β} {h : List ℕ → γ}
    (op : α → β → γ → δ) (ha : Seen D a f) (hb : Seen D b g) (hc : Seen D c h) :
    ∃ x, lift3 op a b c = .ok x ∧ Seen D x (fun i => op (f i) (g i) (h i))
      ∧ (bshapeEq a.shape b.shape).bind (bshapeEq · c.shape) = some x.shape := by
  obtain ⟨ab, h1, s1, r1⟩ := seen_zip ha hb
  obtain ⟨abc, h2, s2, r2⟩ := seen_zip s1 hc
  refine ⟨abc.map fun x => op x.1.1 x.1.2 x.2, ?_, seen_map s2 _, by rw [r1]; exact r2⟩
  unfold lift3; rw [h1]; simp only [bind, Except.bind]; rw [h2]

theorem seen_lift4 {a : Arr α} {b : Arr β} {c : Arr γ} {d : Arr δ} {f : List ℕ → α} {g : List ℕ → β} {h : List ℕ → γ}
    {k : List ℕ → δ} (op : α → β → γ → δ → ε) (ha : Seen D a f) (hb : Seen D b g) (hc : Seen D c h)
    (hd : Seen D d k) :
    ∃ x, lift4 op a b c d = .ok x ∧ Seen D x (fun i => op (f i) (g i) (h i) (k i))
      ∧ ((bshapeEq a.shape b.shape).bind (bshapeEq · c.shape)).bind (bshapeEq · d.shape) = some x.shape := by
  obtain ⟨ab, h1, s1, r1⟩ := seen_zip ha hb
  obtain ⟨abc, h2, s2, r2⟩ := seen_zip s1 hc
  obtain ⟨abcd, h3, s3, r3⟩ := seen_zip s2 hd
  refine ⟨abcd.map fun x => op x.1.1.1 x.1.1.2 x.1.2 x.2, ?_, seen_map s3 _, ?_⟩
  · unfold lift4; rw [h1]; simp only [bind, Except.bind]; rw [h2]; simp only []; rw [h3]
  · rw [r1]; simp only [Option.bind_some]; rw [r2]; exact r3

/-- an array of the full shape -/
theorem seen_full {a : Arr α} {f : List ℕ → α} (h : Seen D a f) (hs : a.shape = D) (idx : List ℕ)
    (hi : Within idx D) : a.get idx = f idx := by
  have := h.get idx hi
  rwa [hs, clamp_self hi] at this

theorem seen_of_get {a : Arr α} {f : List ℕ → α} (hs : a.shape = D) (h : ∀ idx, Within idx D → a.get idx = f idx) :
    Seen D a f := by
  refine ⟨?_, fun idx hi => ?_⟩
  · rw [hs]; exact List.forall₂_same.2 fun _ _ => Or.inr rfl
  · rw [hs, clamp_self hi]; exact h idx hi

/-- integration along axis 0 of an array of the full shape -/
theorem seen_integrate {a : Arr ℝ} {f : List ℕ → ℝ} {x : List ℝ} {rest : List ℕ} (integ : List ℝ → List ℝ → ℝ)
    (h : Seen (x.length :: rest) a f) (hs : a.shape = x.length :: rest) :
    ∃ c, integrate integ a x = .ok c ∧ c.shape = rest
      ∧ Seen rest c (fun idx => integ ((List.range x.length).map fun i => f (i :: idx)) x) := by
  refine ⟨⟨rest, fun idx => integ ((List.range x.length).map fun i => a.get (i :: idx)) x⟩, ?_, rfl, ?_⟩
  · unfold integrate; rw [hs]; simp
  · refine seen_of_get rfl fun idx hi => ?_
    show integ _ x = integ _ x
    congr 1
    exact List.map_congr_left fun i hi' => seen_full h hs _ (.cons (List.mem_range.1 hi') hi)

theorem range_getD {l : List ℝ} (f : ℝ → β) :
    (List.range l.length).map (fun i => f (l.getD i 0)) = l.map f := by
  apply List.ext_getElem
  · simp
  · intro i h1 h2
    have : i < l.length := by simpa using h1
    simp [this]

theorem range_getD2 {l m : List ℝ} (hl : m.length = l.length) (f : ℝ → ℝ → β) :
    (List.range l.length).map (fun i => f (m.getD i 0) (l.getD i 0)) = List.zipWith f m l := by
  apply List.ext_getElem
  · simp [hl]
  · intro i h1 h2
    have h : i < l.length := by simpa using h1
    have h' : i < m.length := by omega
    simp [h, h']

/-! ### `axes_reshaper` -/

theorem axes2_eq (a b : List ℝ) : axes2 a b = .ok (⟨[a.length, 1], a⟩, ⟨[1, b.length], b⟩) := by
  unfold axes2
  rw [axesReshaper, axesReshaperFrom_spec _ _ _ (by simp)]
  simp [axisShape, List.range_succ, bind, Except.bind]

theorem axes3_eq (a b c : List ℝ) :
    axes3 a b c = .ok (⟨[a.length, 1, 1], a⟩, ⟨[1, b.length, 1], b⟩, ⟨[1, 1, c.length], c⟩) := by
  unfold axes3
  rw [axesReshaper, axesReshaperFrom_spec _ _ _ (by simp)]
  simp [axisShape, List.range_succ, bind, Except.bind]

theorem axes4_eq (a b c d : List ℝ) : axes4 a b c d = .ok
    (⟨[a.length, 1, 1, 1], a⟩, ⟨[1, b.length, 1, 1], b⟩, ⟨[1, 1, c.length, 1], c⟩, ⟨[1, 1, 1, d.length], d⟩) := by
  unfold axes4
  rw [axesReshaper, axesReshaperFrom_spec _ _ _ (by simp)]
  simp [axisShape, List.range_succ, bind, Except.bind]

/-- an array along axis 0 of two -/
theorem seen_20 (l : List ℝ) (m : ℕ) :
    Seen [l.length, m] (ofNd ⟨[l.length, 1], l⟩) (fun i => l.getD (i.getD 0 0) 0) := by
  refine ⟨.cons (.inr rfl) (.cons (.inl rfl) .nil), fun idx hi => ?_⟩
  rcases hi with _ | ⟨h0, _ | ⟨h1, _ | _⟩⟩
  rename_i i j
  by_cases h : l.length = 1
  · obtain rfl : i = 0 := by omega
    simp [clamp, ofNd, NdArray.get?, offset, h]
  · simp [clamp, ofNd, NdArray.get?, offset, h, h0]

theorem seen_21 (n : ℕ) (l : List ℝ) :
    Seen [n, l.length] (ofNd ⟨[1, l.length], l⟩) (fun i => l.getD (i.getD 1 0) 0) := by
  refine ⟨.cons (.inl rfl) (.cons (.inr rfl) .nil), fun idx hi => ?_⟩
  rcases hi with _ | ⟨h0, _ | ⟨h1, _ | _⟩⟩
  rename_i i j
  by_cases h : l.length = 1
  · obtain rfl : j = 0 := by omega
    simp [clamp, ofNd, NdArray.get?, offset, h]
  · simp [clamp, ofNd, NdArray.get?, offset, h, h1]

theorem seen_30 (l : List ℝ) (m p : ℕ) :
    Seen [l.length, m, p] (ofNd ⟨[l.length, 1, 1], l⟩) (fun i => l.getD (i.getD 0 0) 0) := by
  refine ⟨.cons (.inr rfl) (.cons (.inl rfl) (.cons (.inl rfl) .nil)), fun idx hi => ?_⟩
  rcases hi with _ | ⟨h0, _ | ⟨h1, _ | ⟨h2, _ | _⟩⟩⟩
  rename_i i j q
  by_cases h : l.length = 1
  · obtain rfl : i = 0 := by omega
    simp [clamp, ofNd, NdArray.get?, offset, h]
  · simp [clamp, ofNd, NdArray.get?, offset, h, h0]

theorem seen_31 (n : ℕ) (l : List ℝ) (p : ℕ) :
    Seen [n, l.length, p] (ofNd ⟨[1, l.length, 1], l⟩) (fun i => l.getD (i.getD 1 0) 0) := by
  refine ⟨.cons (.inl rfl) (.cons (.inr rfl) (.cons (.inl rfl) .nil)), fun idx hi => ?_⟩
  rcases hi with _ | ⟨h0, _ | ⟨h1, _ | ⟨h2, _ | _⟩⟩⟩
  rename_i i j q
  by_cases h : l.length = 1
  · obtain rfl : j = 0 := by omega
    simp [clamp, ofNd, NdArray.get?, offset, h]
  · simp [clamp, ofNd, NdArray.get?, offset, h, h1]

theorem seen_32 (n m : ℕ) (l : List ℝ) :
    Seen [n, m, l.length] (ofNd ⟨[1, 1, l.length], l⟩) (fun i => l.getD (i.getD 2 0) 0) := by
  refine ⟨.cons (.inl rfl) (.cons (.inl rfl) (.cons (.inr rfl) .nil)), fun idx hi => ?_⟩
  rcases hi with _ | ⟨h0, _ | ⟨h1, _ | ⟨h2, _ | _⟩⟩⟩
  rename_i i j q
  by_cases h : l.length = 1
  · obtain rfl : q = 0 := by omega
    simp [clamp, ofNd, NdArray.get?, offset, h]
  · simp [clamp, ofNd, NdArray.get?, offset, h, h2]

theorem seen_40 (l : List ℝ) (m p q : ℕ) :
    Seen [l.length, m, p, q] (ofNd ⟨[l.length, 1, 1, 1], l⟩) (fun i => l.getD (i.getD 0 0) 0) := by
  refine ⟨.cons (.inr rfl) (.cons (.inl rfl) (.cons (.inl rfl) (.cons (.inl rfl) .nil))), fun idx hi => ?_⟩
  rcases hi with _ | ⟨h0, _ | ⟨h1, _ | ⟨h2, _ | ⟨h3, _ | _⟩⟩⟩⟩
  rename_i i j u v
  by_cases h : l.length = 1
  · obtain rfl : i = 0 := by omega
    simp [clamp, ofNd, NdArray.get?, offset, h]
  · simp [clamp, ofNd, NdArray.get?, offset, h, h0]

theorem seen_41 (n : ℕ) (l : List ℝ) (p q : ℕ) :
    Seen [n, l.length, p, q] (ofNd ⟨[1, l.length, 1, 1], l⟩) (fun i => l.getD (i.getD 1 0) 0) := by
  refine ⟨.cons (.inl rfl) (.cons (.inr rfl) (.cons (.inl rfl) (.cons (.inl rfl) .nil))), fun idx hi => ?_⟩
  rcases hi with _ | ⟨h0, _ | ⟨h1, _ | ⟨h2, _ | ⟨h3, _ | _⟩⟩⟩⟩
  rename_i i j u v
  by_cases h : l.length = 1
  · obtain rfl : j = 0 := by omega
    simp [clamp, ofNd, NdArray.get?, offset, h]
  · simp [clamp, ofNd, NdArray.get?, offset, h, h1]

theorem seen_42 (n m : ℕ) (l : List ℝ) (q : ℕ) :
    Seen [n, m, l.length, q] (ofNd ⟨[1, 1, l.length, 1], l⟩) (fun i => l.getD (i.getD 2 0) 0) := by
  refine ⟨.cons (.inl rfl) (.cons (.inl rfl) (.cons (.inr rfl) (.cons (.inl rfl) .nil))), fun idx hi => ?_⟩
  rcases hi with _ | ⟨h0, _ | ⟨h1, _ | ⟨h2, _ | ⟨h3, _ | _⟩⟩⟩⟩
  rename_i i j u v
  by_cases h : l.length = 1
  · obtain rfl : u = 0 := by omega
    simp [clamp, ofNd, NdArray.get?, offset, h]
  · simp [clamp, ofNd, NdArray.get?, offset, h, h2]

theorem seen_43 (n m p : ℕ) (l : List ℝ) :
    Seen [n, m, p, l.length] (ofNd ⟨[1, 1, 1, l.length], l⟩) (fun i => l.getD (i.getD 3 0) 0) := by
  refine ⟨.cons (.inl rfl) (.cons (.inl rfl) (.cons (.inl rfl) (.cons (.inr rfl) .nil))), fun idx hi => ?_⟩
  rcases hi with _ | ⟨h0, _ | ⟨h1, _ | ⟨h2, _ | ⟨h3, _ | _⟩⟩⟩⟩
  rename_i i j u v
  by_cases h : l.length = 1
  · obtain rfl : v = 0 := by omega
    simp [clamp, ofNd, NdArray.get?, offset, h]
  · simp [clamp, ofNd, NdArray.get?, offset, h, h3]

/-- an array with one axis -/
theorem seen_vec (l : List ℝ) : Seen [l.length] (ofNd (vec l)) (fun i => l.getD (i.getD 0 0) 0) := by
  refine seen_of_get rfl fun idx hi => ?_
  rcases hi with _ | ⟨h0, _ | _⟩
  simp [vec, ofNd, NdArray.get?, offset, h0]

/-! ### Distributions -/

theorem evaluateNd_axis (d : Dist) (l : List ℝ) (n : ℕ) {rest : List ℕ} (h : rest.prod = 1) :
    evaluateNd d ⟨n :: rest, l⟩ = .ok (⟨n :: rest, (d.evaluate l).1⟩, ⟨n :: rest, (d.evaluate l).2⟩) := by
  simp [evaluateNd, h]

theorem ssaNd_axis (d : Dist) (l : List ℝ) (n : ℕ) {rest : List ℕ} (h : rest.prod = 1) :
    ssaNd d ⟨n :: rest, l⟩ = .ok (⟨n :: rest, (d.ssaIntegrand l).1⟩, ⟨n :: rest, (d.ssaIntegrand l).2⟩) := by
  simp [ssaNd, h]

end Verif.Batch

end
