import Verif.Model.BatchTargets
import Verif.Props.Batch

/-
C101: a batch of distances gives what each distance gives alone.
-/

noncomputable section

namespace Verif.Batch

open MathUtils Region Targets

variable {k : Consts} {r : NdArray ℝ} {b : Option Blob}

/-- elements of a model array -/
theorem get_ofNd {idx : List ℕ} {x : ℝ} (h : r.get? idx = some x) : (ofNd r).get idx = x := by
  simp [ofNd, h]

theorem get?_within {idx : List ℕ} {x : ℝ} (h : r.get? idx = some x) : Within idx r.shape := by
  obtain ⟨n, hn, -⟩ := get?_some h
  exact (offset_some hn).1

/-- arrays of the same shape -/
theorem lift2_same {s : List ℕ} {a c : Arr ℝ} (op : ℝ → ℝ → ℝ) (ha : a.shape = s) (hc : c.shape = s) :
    ∃ x, lift2 op a c = .ok x ∧ x.shape = s ∧ ∀ idx, Within idx s → x.get idx = op (a.get idx) (c.get idx) := by
  obtain ⟨x, e, sx, rx⟩ := seen_lift2 (D := s) op (seen_of_get (f := a.get) ha fun _ _ => rfl)
    (seen_of_get (f := c.get) hc fun _ _ => rfl)
  have hx : x.shape = s := by
    rw [ha, hc, bshapeEq_self] at rx; exact (Option.some.inj rx).symm
  exact ⟨x, e, hx, fun idx hi => seen_full sx hx idx hi⟩

theorem imul_same {s : List ℕ} {a c : Arr ℝ} (ha : a.shape = s) (hc : c.shape = s) :
    ∃ x, imul a c = .ok x ∧ x.shape = s ∧ ∀ idx, Within idx s → x.get idx = a.get idx * c.get idx := by
  obtain ⟨x, e, hx, gx⟩ := lift2_same (· * ·) ha hc
  refine ⟨x, ?_, hx, gx⟩
  unfold imul
  rw [e]
  simp only [bind, Except.bind]
  rw [if_pos (by rw [hx, ha])]

/-- an array against one with a further axis 0 -/
theorem lift2_under {n : ℕ} {s : List ℕ} {a c : Arr ℝ} (op : ℝ → ℝ → ℝ) (ha : a.shape = n :: s) (hc : c.shape = s) :
    ∃ x, lift2 op a c = .ok x ∧ x.shape = n :: s
      ∧ ∀ i idx, i < n → Within idx s → x.get (i :: idx) = op (a.get (i :: idx)) (c.get idx) := by
  refine ⟨⟨n :: s, fun idx => op (a.get (clamp a.shape idx)) (c.get (clamp c.shape idx))⟩, ?_, rfl, ?_⟩
  · unfold lift2 Arr.zip
    have : bshape a.shape c.shape = some (n :: s) := by
      rw [ha, hc]; simp [bshape, pad, bshapeEq, bshapeEq_self]
    rw [this]; rfl
  · intro i idx hi hw
    have h1 : clamp a.shape (i :: idx) = i :: idx := by rw [ha]; exact clamp_self (.cons hi hw)
    have h2 : clamp c.shape (i :: idx) = idx := by
      rw [hc]
      have h3 : clamp s (i :: idx) = clamp s idx := by
        have hl := hw.length_eq
        have e : (i :: idx).length - s.length = 1 := by simp [hl]
        have e' : idx.length - s.length = 0 := by omega
        simp only [clamp, e, e']
        rfl
      rw [h3]; exact clamp_self hw
    show op (a.get _) (c.get _) = _
    rw [h1, h2]

/-- C101: point source, distances of any shape -/
theorem C101_ps {t : PS} : Pointwise r (.ok (uPS k t r b)) fun x => t.u k x b := by
  refine ⟨_, rfl, ?_, fun idx x hx => ?_⟩
  · cases b <;> rfl
  · cases b <;> simp [uPS, Arr.map, get_ofNd hx, PS.u]

/-- C101: torus, distances of any shape -/
theorem C101_dt {t : DT} : Pointwise r (uDT k t r b) fun x => t.u k x b := by
  set x2 : Arr ℝ := (ofNd r).map fun r => t.R_dt ^ 2 + r ^ 2 with hx2
  obtain ⟨m, e1, h1, g1⟩ := lift2_same (s := r.shape) (a := ofNd r) (c := x2.map fun x => √x)
    (fun r x => r / x) rfl rfl
  cases b with
  | none =>
    refine ⟨x2.map fun x2 => t.xi_dt * t.L_disk / (4 * Real.pi * k.c * x2), ?_, rfl, fun idx x hx => ?_⟩
    · unfold uDT
      simp only [← hx2, e1, bind, Except.bind, imulIf, Option.map_none]
    · simp [hx2, Arr.map, get_ofNd hx, DT.u]
  | some b =>
    obtain ⟨y, e2, h2, g2⟩ := imul_same (s := r.shape)
      (a := x2.map fun x2 => t.xi_dt * t.L_disk / (4 * Real.pi * k.c * x2))
      (c := m.map fun m => (b.Gamma * (1 - b.Beta * m)) ^ 2) rfl h1
    refine ⟨y, ?_, h2, fun idx x hx => ?_⟩
    · unfold uDT
      simp only [← hx2, e1, bind, Except.bind, imulIf, Option.map_some, e2]
    · have hw := get?_within hx
      rw [g2 idx hw]
      simp only [Arr.map, g1 idx hw, hx2, get_ofNd hx, DT.u]

/-- C101: disk, distances of any shape -/
theorem C101_disk {d : SSDisk} : Pointwise r (uDisk k d r b) fun x => d.u k x b := by
  set rt : Arr ℝ := (ofNd r).map (· / d.R_g k) with hrt
  set lo : Arr ℝ := rt.map fun x => 1 / √(1 + (d.R_out_tilde k / x) ^ 2) with hlo
  set hi : Arr ℝ := rt.map fun x => 1 / √(1 + (d.R_in_tilde k / x) ^ 2) with hhi
  set mu : Arr ℝ := ⟨100 :: r.shape, fun idx =>
      lo.get idx.tail + (idx.headD 0 : ℝ) * ((hi.get idx.tail - lo.get idx.tail) / (((100 : ℕ) : ℝ) - 1))⟩ with hmu
  have e0 : linspaceArr lo hi 100 = .ok mu := if_pos rfl
  obtain ⟨it, e1, h1, g1⟩ := lift2_under (fun m x => SSDisk.uIntegrand k d x m) (a := mu) (c := rt) rfl rfl
  -- the integrand with or without the blob
  have key : ∃ y, imulIf it (b.map fun b => mu.map (SSDisk.boost b)) = .ok y ∧ y.shape = 100 :: r.shape
      ∧ ∀ i idx, i < 100 → Within idx r.shape → y.get (i :: idx)
        = match b with
          | some b => SSDisk.uIntegrand k d (rt.get idx) (mu.get (i :: idx)) * SSDisk.boost b (mu.get (i :: idx))
          | none => SSDisk.uIntegrand k d (rt.get idx) (mu.get (i :: idx)) := by
    cases b with
    | none => exact ⟨it, rfl, h1, g1⟩
    | some b =>
      obtain ⟨y, e2, h2, g2⟩ := imul_same (a := it) (c := mu.map (SSDisk.boost b)) h1 rfl
      refine ⟨y, e2, h2, fun i idx hi hw => ?_⟩
      rw [g2 _ (.cons hi hw), g1 i idx hi hw]
      rfl
  obtain ⟨y, e2, h2, g2⟩ := key
  have e3 : trapzColumns y mu = .ok ⟨r.shape, fun idx => trapz ((List.range 100).map fun i => y.get (i :: idx))
      ((List.range 100).map fun i => mu.get (i :: idx))⟩ := by
    unfold trapzColumns; rw [h2]; exact if_pos rfl
  obtain ⟨c, e4, h4, g4⟩ := lift2_same (s := r.shape) (· * ·)
    (a := (ofNd r).map fun r =>
      3 * SSDisk.l_Edd k d.L_disk d.M_BH * SSDisk.L_Edd k d.M_BH * d.R_g k / (8 * Real.pi * k.c * d.eta * r ^ 3))
    (c := ⟨r.shape, fun idx => trapz ((List.range 100).map fun i => y.get (i :: idx))
      ((List.range 100).map fun i => mu.get (i :: idx))⟩) rfl rfl
  refine ⟨c, ?_, h4, fun idx x hx => ?_⟩
  · unfold uDisk
    simp only [← hrt, ← hlo, ← hhi, e0, e1, bind, Except.bind, e2, e3, e4]
  · have hw := get?_within hx
    rw [g4 idx hw]
    have hx' : rt.get idx = x / d.R_g k := by simp [hrt, Arr.map, get_ofNd hx]
    have hm : (List.range 100).map (fun i => mu.get (i :: idx))
        = SSDisk.muFromRTilde (d.R_in_tilde k) (d.R_out_tilde k) (x / d.R_g k) 100 := by
      unfold SSDisk.muFromRTilde linspace
      refine List.map_congr_left fun i _ => ?_
      simp [hmu, hlo, hhi, Arr.map, hx']
    simp only [hm]
    unfold SSDisk.u Verif.over
    simp only [Arr.map, get_ofNd hx]
    congr 2
    rw [← hm, List.map_map]
    refine List.map_congr_left fun i hi => ?_
    rw [g2 i idx (List.mem_range.1 hi) hw, hx']
    cases b <;> rfl

/-- the integrand of `BLR.u` -/
def blrIntegrand (t : BLR) (b : Option Blob) (m r : ℝ) : ℝ :=
  let x2 := r ^ 2 + t.R_line ^ 2 - 2 * r * t.R_line * m
  match b with
  | some b => 1 / x2 * (b.Gamma ^ 2 * (1 - b.Beta * √(1 - t.R_line ^ 2 / x2 * (1 - m ^ 2))) ^ 2)
  | none => 1 / x2

/-- C101: broad line region, distances along one axis.  Other shapes are flattened (`C101_blr_flat`). -/
theorem C101_blr {t : BLR} (rs : List ℝ) : Pointwise (vec rs) (uBLR k t (vec rs) b) fun x => t.u k x b := by
  set mu := linspace (-1) 1 50 with hmu
  have sm := seen_20 mu rs.length
  have sr := seen_21 mu.length rs
  obtain ⟨x2, e1, s1, r1⟩ := seen_lift2 (fun r m => r ^ 2 + t.R_line ^ 2 - 2 * r * t.R_line * m) sr sm
  obtain ⟨ms, e2, s2, r2⟩ := seen_lift2 (fun x2 m => √(1 - t.R_line ^ 2 / x2 * (1 - m ^ 2))) s1 sm
  have h1 : x2.shape = [mu.length, rs.length] := by
    have := r1; simpa [ofNd, bshapeEq] using this.symm
  have h2 : ms.shape = [mu.length, rs.length] := by
    have := r2; simpa [ofNd, h1, bshapeEq] using this.symm
  have key : ∃ y, imulIf (x2.map (1 / ·)) (b.map fun b => ms.map fun m => b.Gamma ^ 2 * (1 - b.Beta * m) ^ 2) = .ok y
      ∧ y.shape = [mu.length, rs.length]
      ∧ Seen [mu.length, rs.length] y fun i =>
        blrIntegrand t b (mu.getD (i.getD 0 0) 0) (rs.getD (i.getD 1 0) 0) := by
    cases b with
    | none => exact ⟨_, rfl, h1, seen_map s1 _⟩
    | some b =>
      obtain ⟨y, e3, h3, g3⟩ := imul_same (a := x2.map (1 / ·))
        (c := ms.map fun m => b.Gamma ^ 2 * (1 - b.Beta * m) ^ 2) h1 h2
      refine ⟨y, e3, h3, seen_of_get h3 fun idx hi => ?_⟩
      rw [g3 idx hi]
      simp only [Arr.map]
      rw [seen_full s1 h1 idx hi, seen_full s2 h2 idx hi]
      rfl
  obtain ⟨y, e3, h3, s3⟩ := key
  obtain ⟨a, e4, h4, s4⟩ := core2 (integ := trapz) (w := mu) (fun _ m r => blrIntegrand t b m r) h3 rfl s3
  refine pointwise_vec (c := a.map (t.xi_line * t.L_disk / (8 * Real.pi * k.c) * ·)) ?_ h4 (seen_map s4 _)
    fun j hj => ?_
  · unfold uBLR
    simp only [vec, ← hmu, e1, e2, bind, Except.bind, e3, e4]
  · simp only [BLR.u, ← hmu, Verif.over]
    cases b <;> simp [hj, List.zipWith_self, blrIntegrand]

/-- the BLR's density for distances of another shape is that of the flattened distances -/
theorem C101_blr_flat {t : BLR} : uBLR k t r b = uBLR k t (vec r.data) b := rfl

/-- C101 fails for the BLR and other shapes: a table of distances gives a row -/
theorem C101_blr_shape_violated {t : BLR} (h : r.shape ≠ [r.data.length]) (f : ℝ → ℝ) :
    ¬ Pointwise r (uBLR k t r b) f := by
  rintro ⟨c, hc, hs, -⟩
  obtain ⟨c', hc', hs', -⟩ := C101_blr (k := k) (b := b) (t := t) r.data
  rw [C101_blr_flat, hc'] at hc
  obtain rfl := Except.ok.inj hc
  exact h (hs.symm.trans hs')

/-- a table of distances -/
example {d : SSDisk} : ∃ c, uDisk k d ⟨[2, 2], [1, 2, 3, 4]⟩ b = .ok c ∧ c.get [0, 1] = d.u k 2 b := by
  obtain ⟨c, e, -, h⟩ := C101_disk (k := k) (r := ⟨[2, 2], [1, 2, 3, 4]⟩) (b := b) (d := d)
  exact ⟨c, e, h [0, 1] 2 (by simp [NdArray.get?, offset])⟩

/-- and a single distance, where the BLR answers with an array of one element -/
example : (⟨[], [1]⟩ : NdArray ℝ).shape ≠ [(⟨[], [1]⟩ : NdArray ℝ).data.length] := by simp

end Verif.Batch

end
