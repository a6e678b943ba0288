import Verif.Model.Batch

/-
The array programs behind the energy densities of the targets: distances in an array.  `Targets` models the same
functions for one distance at a time.
-/

noncomputable section

namespace Verif.Batch

open MathUtils Region Targets Classical

/-- `np.linspace(a, b, n)` of two arrays of the same shape (numpy, not code of /repo): a new axis 0 -/
def linspaceArr (a b : Arr ℝ) (n : ℕ) : Except Err (Arr ℝ) :=
  if a.shape = b.shape then
    .ok ⟨n :: a.shape, fun idx =>
      a.get idx.tail + (idx.headD 0 : ℝ) * ((b.get idx.tail - a.get idx.tail) / ((n : ℝ) - 1))⟩
  else .error .shapeError

/-- `np.trapz(a, x, axis=0)` with abscissae of the same shape (numpy, not code of /repo) -/
def trapzColumns (a x : Arr ℝ) : Except Err (Arr ℝ) :=
  match a.shape with
  | n :: rest =>
    if a.shape = x.shape then
      .ok ⟨rest, fun idx => trapz ((List.range n).map fun i => a.get (i :: idx))
        ((List.range n).map fun i => x.get (i :: idx))⟩
    else .error .shapeError
  | [] => .error .shapeError

/-- `a *= b` for an optional factor -/
def imulIf (a : Arr ℝ) : Option (Arr ℝ) → Except Err (Arr ℝ)
  | some b => imul a b
  | none => .ok a

/-- `PointSourceBehindJet.u`, targets.py:202-218 -/
def uPS (k : Consts) (t : PS) (r : NdArray ℝ) (blob : Option Blob) : Arr ℝ :=
  let u_0 := (ofNd r).map fun r => t.L_0 / (4 * Real.pi * k.c * r ^ 2)
  match blob with
  | some b => u_0.map fun u => u / (b.Gamma ^ 2 * (1 + b.Beta) ^ 2)
  | none => u_0

/-- `SSDisk.u`, targets.py:429-466, with `evaluate_mu_from_r_tilde`, 290-296 -/
def uDisk (k : Consts) (d : SSDisk) (r : NdArray ℝ) (blob : Option Blob) : Except Err (Arr ℝ) := do
  let r_tilde := (ofNd r).map (· / d.R_g k)
  let mu_min := r_tilde.map fun x => 1 / √(1 + (d.R_out_tilde k / x) ^ 2)
  let mu_max := r_tilde.map fun x => 1 / √(1 + (d.R_in_tilde k / x) ^ 2)
  let mu ← linspaceArr mu_min mu_max 100
  let prefactor := (ofNd r).map fun r =>
    3 * SSDisk.l_Edd k d.L_disk d.M_BH * SSDisk.L_Edd k d.M_BH * d.R_g k / (8 * Real.pi * k.c * d.eta * r ^ 3)
  let integrand ← lift2 (fun m x => SSDisk.uIntegrand k d x m) mu r_tilde
  let integrand ← imulIf integrand (blob.map fun b => mu.map (SSDisk.boost b))
  let integral ← trapzColumns integrand mu
  lift2 (· * ·) prefactor integral

/-- `SphericalShellBLR.u`, targets.py:516-543: the distances are flattened -/
def uBLR (k : Consts) (t : BLR) (r : NdArray ℝ) (blob : Option Blob) : Except Err (Arr ℝ) := do
  let mu := linspace (-1) 1 50
  let _mu := ofNd ⟨[mu.length, 1], mu⟩
  let _r := ofNd ⟨[1, r.data.length], r.data⟩
  let _x2 ← lift2 (fun r m => r ^ 2 + t.R_line ^ 2 - 2 * r * t.R_line * m) _r _mu
  let prefactor := t.xi_line * t.L_disk / (8 * Real.pi * k.c)
  let _mu_star ← lift2 (fun x2 m => √(1 - t.R_line ^ 2 / x2 * (1 - m ^ 2))) _x2 _mu
  let integrand ← imulIf (_x2.map (1 / ·))
    (blob.map fun b => _mu_star.map fun m => b.Gamma ^ 2 * (1 - b.Beta * m) ^ 2)
  let integral ← integrate trapz integrand mu
  .ok (integral.map (prefactor * ·))

/-- `RingDustTorus.u`, targets.py:620-638 -/
def uDT (k : Consts) (t : DT) (r : NdArray ℝ) (blob : Option Blob) : Except Err (Arr ℝ) := do
  let x2 := (ofNd r).map fun r => t.R_dt ^ 2 + r ^ 2
  let x := x2.map fun x => √x
  let integral := x2.map fun x2 => t.xi_dt * t.L_disk / (4 * Real.pi * k.c * x2)
  let mu ← lift2 (fun r x => r / x) (ofNd r) x
  imulIf integral (blob.map fun b => mu.map fun m => (b.Gamma * (1 - b.Beta * m)) ^ 2)

end Verif.Batch

end
