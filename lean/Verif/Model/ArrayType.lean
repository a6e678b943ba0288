import Mathlib.Algebra.Order.Floor.Ring
import Verif.Model.Spectra

/-
Model of agnpy/spectra/spectra.py for arguments of every numeric type a caller may pass: Python numbers and
NumPy arrays of integers or of floats.  `Verif/Model/Spectra.lean` has the arrays of floats only.

Simplified: integers have no largest value, NumPy's own scalars (`np.int64(10)`) are left out, and a call that
raises gives no array, although the correction of the ends comes before the exception.
-/

noncomputable section

namespace Verif.ArrayType

open MathUtils Spectra Classical

/-- the argument `gamma` as the caller passes it -/
inductive Arg where
  /-- a Python `int` -/
  | int (n : ℤ)
  /-- a Python `float` -/
  | float (x : ℝ)
  /-- an array of dtype `int64` -/
  | ints (l : List ℤ)
  /-- an array of dtype `float64` -/
  | floats (l : List ℝ)

/-- exceptions -/
inductive Err where
  /-- NumPy: "Integers to negative integer powers are not allowed." -/
  | valueError
  /-- `gamma[valid_indices]` of a Python number: not subscriptable -/
  | typeError
  deriving DecidableEq

/-- assignment of a float to an element of an integer array: NumPy drops the fraction -/
def trunc (x : ℝ) : ℤ := if 0 ≤ x then ⌊x⌋ else ⌈x⌉

/-- spectra.py:220-222 on an integer array: `gamma[0] = gamma_min` truncates -/
def correctFirst (gmin : ℝ) (gamma : List ℤ) : List ℤ :=
  match gamma with
  | [] => []
  | g0 :: rest =>
    if gmin > g0 ∧ (gmin - g0) / g0 < 1 / 10 ^ 10 then trunc gmin :: rest else g0 :: rest

/-- spectra.py:223-225 on an integer array: `gamma[-1] = gamma_max` truncates -/
def correctLast (gmax : ℝ) (gamma : List ℤ) : List ℤ :=
  match gamma with
  | [] => []
  | g0 :: rest =>
    let last := (g0 :: rest).getLast (List.cons_ne_nil _ _)
    if (last : ℝ) > gmax ∧ ((last : ℝ) - gmax) / gmax < 1 / 10 ^ 10 then
      (g0 :: rest).dropLast ++ [trunc gmax]
    else g0 :: rest

/-- the caller's integer array after `self(gamma)`; `EmptyDistribution` does not touch it (spectra.py:868-869) -/
def afterCall (d : Spectra.Dist) (gamma : List ℤ) : List ℤ :=
  match d with
  | .empty _ _ => gamma
  | d => correctLast d.gmax (correctFirst d.gmin gamma)

/-- an integer array to the power of a Python number: spectra.py:276, 288 and 574.  `isInt` tells whether the
exponent is an `int`; NumPy refuses negative ones. -/
def refuses (isInt : Bool) (exponent : ℝ) (gamma : List ℤ) : Bool :=
  isInt && decide (exponent < 0) && !gamma.isEmpty

/-- one element of `self(gamma)` on an integer array.  spectra.py:804-806: the values of an
`InterpolatedDistribution` go to `np.zeros_like(gamma)`, an integer array. -/
def callInt (d : Spectra.Dist) (g : ℤ) : ℝ :=
  match d with
  | .interp f _ norm gmin gmax =>
    norm * ((if InBounds gmin gmax g then trunc ((10 : ℝ) ^ f (log10 g)) else 0 : ℤ) : ℝ)
  | d => d.call g

/-- `self(gamma)`: the argument afterwards and the values.  `pIsInt` tells whether the attribute `p` is a
Python `int`.  spectra.py:273-280, 367-385, 471-490, 570-581, 674-693, 800-809, 858-869; the ends are only
corrected for arrays (line 218). -/
def evaluate (d : Spectra.Dist) (pIsInt : Bool) (a : Arg) : Except Err (Arg × List ℝ) :=
  match a with
  | .int n =>
    match d with
    | .interp .. => .error .typeError
    | d => .ok (.int n, [d.call n])
  | .float x =>
    match d with
    | .interp .. => .error .typeError
    | d => .ok (.float x, [d.call x])
  | .ints l =>
    let l' := afterCall d l
    match d with
    | .powerLaw _ p _ _ =>
      if refuses pIsInt (-p) l' then .error .valueError else .ok (.ints l', l'.map (callInt d))
    | .ecpl _ p _ _ _ =>
      if refuses pIsInt (-p) l' then .error .valueError else .ok (.ints l', l'.map (callInt d))
    | d => .ok (.ints l', l'.map (callInt d))
  | .floats l => .ok (.floats (d.evaluate l).1, (d.evaluate l).2)

/-- one element of `self.SSA_integrand(gamma)` on an integer array: `g` before and `g'` after the correction;
spectra.py:831-834 uses the truncated values -/
def ssaInt (d : Spectra.Dist) (g g' : ℤ) : ℝ :=
  match d with
  | .interp f df norm gmin gmax =>
    let n := callInt (.interp f df norm gmin gmax) g'
    n * df (log10 g) / g' - 2 * n / g'
  | d => d.ssaElem g g'

/-- the caller's integer array after `self.SSA_integrand(gamma)` -/
def afterSSA (d : Spectra.Dist) (gamma : List ℤ) : List ℤ :=
  match d with
  | .powerLaw .. => gamma
  | .broken .. => gamma
  | d => afterCall d gamma

/-- `self.SSA_integrand(gamma)`: spectra.py:283-295, 388-407, 493-510, 583-596, 696-722, 811-839.
`np.power(gamma, -p - 1)` on line 288 refuses Python integers as well, `gamma ** (-p)` on line 574 only arrays.
(`EmptyDistribution` has no `SSA_integrand`; the values are 0 as in `Dist.ssaElem`.) -/
def ssaIntegrand (d : Spectra.Dist) (pIsInt : Bool) (a : Arg) : Except Err (Arg × List ℝ) :=
  match a with
  | .int n =>
    match d with
    | .interp .. => .error .typeError
    | .powerLaw k p gmin gmax =>
      if refuses pIsInt (-p - 1) [n] then .error .valueError
      else .ok (.int n, [(Spectra.Dist.powerLaw k p gmin gmax).ssa n])
    | d => .ok (.int n, [d.ssa n])
  | .float x =>
    match d with
    | .interp .. => .error .typeError
    | d => .ok (.float x, [d.ssa x])
  | .ints l =>
    let l' := afterSSA d l
    match d with
    | .powerLaw _ p _ _ =>
      if refuses pIsInt (-p - 1) l then .error .valueError else .ok (.ints l', List.zipWith (ssaInt d) l l')
    | .ecpl _ p _ _ _ =>
      if refuses pIsInt (-p) l' then .error .valueError else .ok (.ints l', List.zipWith (ssaInt d) l l')
    | d => .ok (.ints l', List.zipWith (ssaInt d) l l')
  | .floats l => .ok (.floats (d.ssaIntegrand l).1, (d.ssaIntegrand l).2)

end Verif.ArrayType
