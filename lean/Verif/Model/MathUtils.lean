import Mathlib.Analysis.SpecialFunctions.Pow.Real
import Verif.Model.Np

/-
Model of agnpy/utils/math.py over the reals.

Floating-point numbers are read as real numbers, quantities as their numerical value in fixed (cgs) units.
`np.log`, `np.sqrt`, `np.power` are Mathlib's total functions; where numpy would give NaN (logarithm
or root of a negative number, 0/0) the theorems carry a hypothesis excluding the case.
-/

noncomputable section

namespace Verif.MathUtils

/-- smallest positive normal double, `np.finfo(np.float64).tiny` (utils/math.py:17) -/
def ftiny : ℝ := 1 / 2 ^ 1022

/-- largest double, `np.finfo(np.float64).max` (utils/math.py:19) -/
def fmax : ℝ := 2 ^ 1024 - 2 ^ 971

/-- utils/math.py:12 -/
def minRelDistance : ℝ := 1 / 10000

/-- `np.clip(x, lo, hi)` -/
def clip (x lo hi : ℝ) : ℝ := min (max x lo) hi

/-- clipped logarithm, utils/math.py:49-52 -/
def log (x : ℝ) : ℝ := Real.log (clip x ftiny fmax)

/-- `np.log10` -/
def log10 (x : ℝ) : ℝ := Real.log x / Real.log 10

/-- `np.isclose(a, b)` with the default tolerances -/
def isclose (a b : ℝ) : Prop := |a - b| ≤ 1 / 10 ^ 8 + 1 / 10 ^ 5 * |b|

/-- value of one interval of `trapz_loglog`, utils/math.py:101-117 (the entry of `vals` for
neighbouring points, after `vals[tozero] = 0.0`) -/
def loglogVal (xl yl xu yu : ℝ) : ℝ :=
  open Classical in
  let m := (log yl - log yu) / (log xl - log xu)
  let vals :=
    if |m + 1| > 1 / 10 ^ 10 then yl / (m + 1) * (xu * (xu / xl) ^ m - xl)
    else xl * yl * log (xu / xl)
  if yl = 0 ∨ yu = 0 ∨ xl = xu then 0 else vals

/-- `trapz_loglog(y, x)`, utils/math.py:55-119, on one-dimensional arrays.  (For a multi-dimensional
`y` the code applies the same formula to each line along `axis`.)  Arrays of different lengths, for
which numpy raises a broadcasting error, are not modelled: the longer one is cut. -/
def trapzLoglog : List ℝ → List ℝ → ℝ
  | yl :: yu :: ys, xl :: xu :: xs => loglogVal xl yl xu yu + trapzLoglog (yu :: ys) (xu :: xs)
  | _, _ => 0

/-- `np.trapz(y, x)` on one-dimensional arrays (numpy, not code of /repo) -/
def trapz : List ℝ → List ℝ → ℝ
  | yl :: yu :: ys, xl :: xu :: xs => (xu - xl) * (yl + yu) / 2 + trapz (yu :: ys) (xu :: xs)
  | _, _ => 0

/-- `power_law_integral`, utils/math.py:121-129 -/
def powerLawIntegral (k_e p gmin gmax : ℝ) : ℝ :=
  open Classical in
  let integral :=
    if isclose p 1 then Real.log (gmax / gmin)
    else (gmax ^ (1 - p) - gmin ^ (1 - p)) / (1 - p)
  k_e * integral

/-- `np.linspace(a, b, n)` (numpy, not code of /repo) -/
def linspace (a b : ℝ) (n : ℕ) : List ℝ :=
  (List.range n).map fun i : ℕ => a + (i : ℝ) * ((b - a) / ((n : ℝ) - 1))

/-- `np.logspace(a, b, n)` (numpy, not code of /repo) -/
def logspace (a b : ℝ) (n : ℕ) : List ℝ := (linspace a b n).map fun e => (10 : ℝ) ^ e

end Verif.MathUtils

end

namespace Verif.MathUtils

/-! ### Arrays with several axes (numpy, not code of /repo), for `axes_reshaper` -/

/-- an array: its shape and its elements in C order -/
structure NdArray (α : Type) where
  shape : List Nat
  data : List α

/-- `np.reshape(arg, shape)`: rejects a shape with a different number of elements -/
def reshape {α : Type} (a : NdArray α) (shape : List Nat) : Except Err (NdArray α) :=
  if shape.prod = a.data.length then .ok ⟨shape, a.data⟩ else .error .shapeError

/-- position in C order of a multi-index; `none` when it is out of range -/
def offset : List Nat → List Nat → Option Nat
  | [], [] => some 0
  | d :: ds, i :: is => if i < d then (offset ds is).map (i * ds.prod + ·) else none
  | _, _ => none

/-- `a[i_1, ..., i_n]` -/
def NdArray.get? {α : Type} (a : NdArray α) (idx : List Nat) : Option α :=
  (offset a.shape idx).bind (a.data[·]?)

/-- numpy's rule for one axis of two arrays -/
def bcastDim (a b : Nat) : Option Nat :=
  if a = b then some a else if a = 1 then some b else if b = 1 then some a else none

/-- numpy's rule for one axis of several arrays -/
def bcastDims (ds : List Nat) : Option Nat := ds.foldlM bcastDim 1

/-- shape of the broadcast of arrays that all have `n` axes, `none` when they are incompatible -/
def broadcastShape (n : Nat) (shapes : List (List Nat)) : Option (List Nat) :=
  (List.range n).mapM fun i => bcastDims (shapes.map (·.getD i 1))

/-- element of an array seen through broadcasting: along an axis of length one the index is 0 -/
def NdArray.bget? {α : Type} (a : NdArray α) (idx : List Nat) : Option α :=
  a.get? (List.zipWith (fun d i => if d = 1 then 0 else i) a.shape idx)

/-- `axes_reshaper(*args)` for one-dimensional arrays, utils/math.py:22-46: the loop over
`enumerate(args)`; `i` is the index of the head of the remaining arguments. -/
def axesReshaperFrom {α : Type} (n i : Nat) : List (List α) → Except Err (List (NdArray α))
  | [] => .ok []
  | arg :: args => do
    -- reshaped_dim = list((1,) * n); reshaped_dim[i] = arg.size
    let dim := (List.replicate n 1).set i arg.length
    let a ← reshape ⟨[arg.length], arg⟩ dim
    let rest ← axesReshaperFrom n (i + 1) args
    .ok (a :: rest)

/-- `axes_reshaper(*args)`, utils/math.py:22-46 -/
def axesReshaper {α : Type} (args : List (List α)) : Except Err (List (NdArray α)) :=
  axesReshaperFrom args.length 0 args

end Verif.MathUtils
