import Mathlib.Data.Real.Basic
import Verif.Model.Np

/-
Model of agnpy/utils/validation_utils.py (the comparison with reference data and the preparation of the directories
for its plots) and of `to_total_energy_gev_sqr`.  The plots and the reading of tables are not modelled.
-/

noncomputable section

namespace Verif.Validation

open Classical

/-! ### check_deviation -/

/-- exceptions of `check_deviation` -/
inductive Err where
  /-- NumPy: boolean index of another length -/
  | indexError
  /-- NumPy: shapes cannot be broadcast -/
  | valueError
  deriving DecidableEq

/-- an element of the compared arrays; `none` is NaN.  Infinities are left out. -/
abbrev Val := Option ℝ

/-- `np.isclose(a, b, atol=0, rtol=rtol)` -/
def isclose (rtol : ℝ) : Val → Val → Bool
  | some a, some b => decide (|a - b| ≤ 0 + rtol * |b|)
  | _, _ => false

/-- `np.allclose(a, b, atol=0, rtol=rtol)` with NumPy's broadcasting of an array of one element -/
def allclose (rtol : ℝ) (a b : List Val) : Except Err Bool :=
  if a.length = b.length then .ok ((List.zipWith (isclose rtol) a b).all id)
  else match a, b with
    | [x], b => .ok (b.all fun y => isclose rtol x y)
    | a, [y] => .ok (a.all fun x => isclose rtol x y)
    | _, _ => .error .valueError

/-- `y[condition]` -/
def maskBy (condition : List Bool) (y : List Val) : Except Err (List Val) :=
  if condition.length = y.length then .ok (Np.select condition y) else .error .indexError

/-- validation_utils.py:59-72 `check_deviation`.  The frequencies are finite. -/
def checkDeviation (x : List ℝ) (y_comp y_ref : List Val) (rtol : ℝ) (x_range : Option (ℝ × ℝ)) : Except Err Bool :=
  match x_range with
  | some r => do
    let condition := x.map fun v => decide (v ≥ r.1) && decide (v ≤ r.2)
    let y_ref ← maskBy condition y_ref
    let y_comp ← maskBy condition y_comp
    allclose rtol y_comp y_ref
  | none => allclose rtol y_comp y_ref

/-! ### clean_and_make_dir -/

/-- a string that names a path, as the list of its parts between slashes: `"a/b"` is `["a", "b"]`, `"/a"` is
`["", "a"]`, the empty string is `[""]` -/
abbrev Str := List String

/-- a `PosixPath`: absolute or not, and its parts -/
structure Path where
  abs : Bool
  parts : List String
  deriving DecidableEq

/-- `Path(string)`: empty parts and dots are dropped; a slash at the beginning makes it absolute.  (Two slashes at
the beginning, which POSIX treats apart, are not.) -/
def parse (s : Str) : Path :=
  ⟨decide (2 ≤ s.length ∧ s.head? = some ""), s.filter fun c => c ≠ "" ∧ c ≠ "."⟩

/-- `path / string`: an absolute right operand replaces the left one -/
def Path.div (p : Path) (s : Str) : Path :=
  if (parse s).abs then parse s else ⟨p.abs, p.parts ++ (parse s).parts⟩

/-- the argument `main_dir` -/
inductive Main where
  | str (s : Str)
  | path (p : Path)
  /-- anything else -/
  | other

/-- what is stored at a location -/
inductive Node where
  | file
  | dir
  deriving DecidableEq

/-- a file system without links: what is at each absolute location -/
abbrev FS := List String → Option Node

/-- exceptions of `clean_and_make_dir` -/
inductive DirErr where
  | typeError
  /-- `FileExistsError` or `NotADirectoryError` of `mkdir` -/
  | osError
  /-- paths with `..` are not modelled -/
  | notModelled
  deriving DecidableEq

/-- validation_utils.py:30-41: the directory meant -/
def target (main_dir : Main) (sub_dir : Option Str) : Except DirErr Path :=
  match main_dir, sub_dir with
  | .str m, none => .ok (parse m)
  | .str m, some s => .ok (parse (m ++ s))
  | .path p, none => .ok p
  | .path p, some s => .ok (p.div s)
  | .other, _ => .error .typeError

/-- the absolute location of a path for the working directory `cwd` -/
def resolve (cwd : List String) (p : Path) : List String := if p.abs then p.parts else cwd ++ p.parts

/-- `shutil.rmtree` -/
def rmtree (fs : FS) (d : List String) : FS := fun q => if d <+: q then none else fs q

/-- `mkdir(parents=True, exist_ok=True)`: fails if the location or something above it is a file -/
def mkdir (fs : FS) (d : List String) : Except DirErr FS :=
  if ∃ q, q <+: d ∧ fs q = some .file then .error .osError
  else .ok fun q => if q <+: d then some .dir else fs q

/-- validation_utils.py:19-48 `clean_and_make_dir`: the path returned and the file system afterwards.  Permissions and
links are not modelled. -/
def cleanAndMakeDir (cwd : List String) (fs : FS) (main_dir : Main) (sub_dir : Option Str) :
    Except DirErr (Path × FS) := do
  let dir ← target main_dir sub_dir
  if ".." ∈ dir.parts then throw .notModelled
  let d := resolve cwd dir
  let fs := if fs d = some .dir then rmtree fs d else fs
  let fs ← mkdir fs d
  return (dir, fs)

/-! ### to_total_energy_gev_sqr -/

/-- `_time_evolution_utils.py:251-256` `to_total_energy_gev_sqr` for one Lorentz factor: `mec2` in GeV -/
def toTotalEnergyGevSqr (mec2_gev gamma density total_volume : ℝ) : ℝ :=
  let gamma_as_gev := gamma * mec2_gev
  let densities_per_gev := density / mec2_gev
  let total_energy_per_gev := densities_per_gev * total_volume
  total_energy_per_gev * gamma_as_gev ^ 2

end Verif.Validation
