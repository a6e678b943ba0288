import Verif.Model.Conversion

/-
Model of agnpy/absorption/ebl_absorption.py over the reals.  The FITS files under agnpy/data are not read: their columns
are parameters.  `scipy.interpolate.RegularGridInterpolator` (method "linear", bounds_error False) is modelled, NaN being
`none`.
-/

noncomputable section

namespace Verif.EBL

/-- the keys of `ebl_files_dict`, ebl_absorption.py:12-18 -/
def models : List String :=
  ["franceschini_2008", "franceschini_2017", "dominguez_2011", "finke_2010", "saldana_lopez_2021"]

/-- the columns of a model file: `ENERG_LO`, `ENERG_HI` (keV), `PARAMVAL` and the rows `INTPSPEC` -/
structure File where
  energ_lo : List ℝ
  energ_hi : List ℝ
  paramval : List ℝ
  intpspec : List (List ℝ)

/-- the attributes `energy_ref`, `z_ref` and `values_ref`; the latter has a row for each redshift -/
structure Table where
  energy : List ℝ
  z : List ℝ
  values : List (List ℝ)

/-- `load_absorption_table`, ebl_absorption.py:46-57; `np.delete(a, 1001)` is `List.eraseIdx` (numpy raises an
IndexError on an array that is too short, here the array is left as it is) -/
def load (model : String) (f : File) : Table :=
  let energy := List.zipWith (fun lo hi => √(lo * hi)) f.energ_lo f.energ_hi
  if model = "franceschini_2008" then
    { energy, z := f.paramval.eraseIdx 1001, values := f.intpspec.eraseIdx 1001 }
  else { energy, z := f.paramval, values := f.intpspec }

/-- the interval of a grid `x` falls into and the relative position in it (scipy's `find_indices`); the last interval
contains its upper end -/
def locate : List ℝ → ℝ → Option (ℕ × ℝ)
  | [g0, g1], x => some (0, (x - g0) / (g1 - g0))
  | g0 :: g1 :: g2 :: gs, x =>
    open Classical in
    if x < g1 then some (0, (x - g0) / (g1 - g0)) else (locate (g1 :: g2 :: gs) x).map fun p => (p.1 + 1, p.2)
  | _, _ => none

/-- is `x` out of the bounds of the grid -/
def outside (grid : List ℝ) (x : ℝ) : Prop :=
  match grid.head?, grid.getLast? with
  | some a, some b => x < a ∨ b < x
  | _, _ => True

/-- the entry of `values_ref.T` with the indices of energy and redshift -/
def Table.at (t : Table) (i j : ℕ) : Option ℝ := (t.values[j]?).bind (·[i]?)

/-- the `RegularGridInterpolator` of `interpolate_absorption_table`, ebl_absorption.py:59-66, at the point `(e, z)` -/
def Table.interpolate (t : Table) (e z : ℝ) : Option ℝ :=
  open Classical in
  if outside t.energy e ∨ outside t.z z then none
  else do
    let (i, a) ← locate t.energy e
    let (j, b) ← locate t.z z
    let v00 ← t.at i j
    let v01 ← t.at i (j + 1)
    let v10 ← t.at (i + 1) j
    let v11 ← t.at (i + 1) (j + 1)
    pure ((1 - a) * (1 - b) * v00 + (1 - a) * b * v01 + a * (1 - b) * v10 + a * b * v11)

/-- what `RegularGridInterpolator` demands of its arguments (ValueError otherwise): both grids strictly ascending, as
many rows of values as redshifts, each with a value for every energy -/
structure Table.Valid (t : Table) : Prop where
  energy : t.energy.Pairwise (· < ·)
  energy_size : 2 ≤ t.energy.length
  z : t.z.Pairwise (· < ·)
  z_size : 2 ≤ t.z.length
  rows : t.values.length = t.z.length
  columns : ∀ row ∈ t.values, row.length = t.energy.length

/-- `EBL.__init__`, ebl_absorption.py:36-44: ValueError for an unknown model (`none`) or an invalid table (`none`) -/
def new (model : String) (f : File) : Option Table :=
  open Classical in
  if model ∈ models then (if (load model f).Valid then some (load model f) else none) else none

/-- `EBL.absorption`, ebl_absorption.py:68-75, at one frequency in Hz; `keV` is the value of one keV in erg -/
def Table.absorption (k : Consts) (keV : ℝ) (t : Table) (nu z : ℝ) : Option ℝ := t.interpolate (k.h * nu / keV) z

end Verif.EBL

end
