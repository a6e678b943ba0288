import Mathlib.Analysis.SpecialFunctions.Exp
import Verif.Model.MathUtils

/-
Model of agnpy/spectra/spectra.py over the reals (densities in cm-3).

Every family is modelled twice: at a scalar Lorentz factor (`...At`, no array is touched) and on an
array (`evaluate`, `ssaIntegrand`), where `_correct_array_boundary_values` may overwrite the first and last
element of the caller's array; the array functions return the array as the caller finds it
afterwards together with the values.
-/

noncomputable section

namespace Verif.Spectra

open MathUtils Classical

/-- spectra.py:211-225 `_correct_array_boundary_values`, the lower end: `gamma[0]` -/
def correctFirst (gmin : ℝ) (gamma : List ℝ) : List ℝ :=
  match gamma with
  | [] => []
  | g0 :: rest => if gmin > g0 ∧ (gmin - g0) / g0 < 1 / 10 ^ 10 then gmin :: rest else g0 :: rest

/-- spectra.py:211-225 `_correct_array_boundary_values`, the upper end: `gamma[-1]` -/
def correctLast (gmax : ℝ) (gamma : List ℝ) : List ℝ :=
  match gamma with
  | [] => []
  | g0 :: rest =>
    let last := (g0 :: rest).getLast (List.cons_ne_nil _ _)
    if last > gmax ∧ (last - gmax) / gmax < 1 / 10 ^ 10 then (g0 :: rest).dropLast ++ [gmax]
    else g0 :: rest

/-- spectra.py:211-225 `_correct_array_boundary_values`: the array after the call -/
def correctBoundary (gamma : List ℝ) (gmin gmax : ℝ) : List ℝ :=
  correctLast gmax (correctFirst gmin gamma)

/-- `(gamma_min <= gamma) * (gamma <= gamma_max)` -/
def InBounds (gmin gmax g : ℝ) : Prop := gmin ≤ g ∧ g ≤ gmax

/-- spectra.py:273-277 `PowerLaw.evaluate` -/
def powerLawAt (g k p gmin gmax : ℝ) : ℝ :=
  if InBounds gmin gmax g then k * g ^ (-p) else 0

/-- spectra.py:283-290 `PowerLaw.evaluate_SSA_integrand` -/
def powerLawSSA (g k p gmin gmax : ℝ) : ℝ :=
  k * (if InBounds gmin gmax g then -(p + 2) * g ^ (-p - 1) else 0)

/-- spectra.py:367-374 `BrokenPowerLaw.evaluate` -/
def brokenAt (g k p1 p2 gb gmin gmax : ℝ) : ℝ :=
  let index := if g ≤ gb then p1 else p2
  if InBounds gmin gmax g then k * (g / gb) ^ (-index) else 0

/-- spectra.py:388-396 `BrokenPowerLaw.evaluate_SSA_integrand` -/
def brokenSSA (g k p1 p2 gb gmin gmax : ℝ) : ℝ :=
  let index := if g ≤ gb then p1 else p2
  if InBounds gmin gmax g then k * -(index + 2) / g * (g / gb) ^ (-index) else 0

/-- spectra.py:471-479 `LogParabola.evaluate` -/
def logParabolaAt (g k p q g0 gmin gmax : ℝ) : ℝ :=
  let ratio := g / g0
  let index := -p - q * log10 ratio
  if InBounds gmin gmax g then k * ratio ^ index else 0

/-- spectra.py:493-499 `LogParabola.evaluate_SSA_integrand`; `g'` is the Lorentz factor after `evaluate` has
corrected the array (the same as `g` for a scalar) -/
def logParabolaSSA (g g' k p q g0 gmin gmax : ℝ) : ℝ :=
  let prefactor := -(p + 2 * q * log10 (g / g0) + 2) / g
  prefactor * logParabolaAt g' k p q g0 gmin gmax

/-- spectra.py:570-576 `ExpCutoffPowerLaw.evaluate` -/
def ecplAt (g k p gc gmin gmax : ℝ) : ℝ :=
  if InBounds gmin gmax g then k * g ^ (-p) * Real.exp (-g / gc) else 0

/-- spectra.py:584-591 `ExpCutoffPowerLaw.evaluate_SSA_integrand` -/
def ecplSSA (g g' k p gc gmin gmax : ℝ) : ℝ :=
  let prefactor := -(p + 2) / g + (-1 / gc)
  prefactor * ecplAt g' k p gc gmin gmax

/-- spectra.py:674-681 `ExpCutoffBrokenPowerLaw.evaluate` -/
def ecbplAt (g k p1 p2 gc gb gmin gmax : ℝ) : ℝ :=
  let index := if g ≤ gb then p1 else p2
  if InBounds gmin gmax g then k * (g / gb) ^ (-index) * Real.exp (-g / gc) else 0

/-- spectra.py:696-710 `ExpCutoffBrokenPowerLaw.evaluate_SSA_integrand`; index, prefactor and the condition of
`np.where` are computed before `evaluate` corrects the array -/
def ecbplSSA (g g' k p1 p2 gc gb gmin gmax : ℝ) : ℝ :=
  let index := if g ≤ gb then p1 else p2
  let prefactor := -(index + 2) / g + (-1 / gc)
  if InBounds gmin gmax g then prefactor * ecbplAt g' k p1 p2 gc gb gmin gmax else 0

/-- spectra.py:800-806 `InterpolatedDistribution.evaluate` with `f` the stored `log10_interp`.
Arrays here are real; integer arrays, where `np.zeros_like(gamma)` truncates the values, and scalars, which the
code does not accept, are modelled in `Verif.ArrayType`. -/
def interpAt (f : ℝ → ℝ) (g norm gmin gmax : ℝ) : ℝ :=
  norm * (if InBounds gmin gmax g then (10 : ℝ) ^ f (log10 g) else 0)

/-- spectra.py:811-834 `InterpolatedDistribution.evaluate_SSA_integrand`, `df` the derivative object;
`log10_gamma` is computed before the array is corrected, the divisions use the corrected array -/
def interpSSA (f df : ℝ → ℝ) (g g' norm gmin gmax : ℝ) : ℝ :=
  let n := interpAt f g' norm gmin gmax
  n * df (log10 g) / g' - 2 * n / g'

/-- a particle distribution object: the family and its attributes -/
inductive Dist where
  /-- spectra.py:255-266 -/
  | powerLaw (k p gmin gmax : ℝ)
  /-- spectra.py:338-353 -/
  | broken (k p1 p2 gb gmin gmax : ℝ)
  /-- spectra.py:449-464 -/
  | logParabola (k p q g0 gmin gmax : ℝ)
  /-- spectra.py:550-563 -/
  | ecpl (k p gc gmin gmax : ℝ)
  /-- spectra.py:642-659 -/
  | ecbpl (k p1 p2 gc gb gmin gmax : ℝ)
  /-- spectra.py:759-771: `f` is `log10_interp`, `df` its `derivative()` -/
  | interp (f df : ℝ → ℝ) (norm gmin gmax : ℝ)
  /-- spectra.py:855-856 -/
  | empty (gmin gmax : ℝ)

namespace Dist

/-- attribute `gamma_min` -/
def gmin : Dist → ℝ
  | powerLaw _ _ a _ => a
  | broken _ _ _ _ a _ => a
  | logParabola _ _ _ _ a _ => a
  | ecpl _ _ _ a _ => a
  | ecbpl _ _ _ _ _ a _ => a
  | interp _ _ _ a _ => a
  | empty a _ => a

/-- attribute `gamma_max` -/
def gmax : Dist → ℝ
  | powerLaw _ _ _ b => b
  | broken _ _ _ _ _ b => b
  | logParabola _ _ _ _ _ b => b
  | ecpl _ _ _ _ b => b
  | ecbpl _ _ _ _ _ _ b => b
  | interp _ _ _ _ b => b
  | empty _ b => b

/-- the property `parameters` of each family: spectra.py:269-270, 356-364, 467-468, 566-567, 662-671,
793-798, 862-863 -/
def parameters : Dist → List ℝ
  | powerLaw k p a b => [k, p, a, b]
  | broken k p1 p2 gb a b => [k, p1, p2, gb, a, b]
  | logParabola k p q g0 a b => [k, p, q, g0, a, b]
  | ecpl k p gc a b => [k, p, gc, a, b]
  | ecbpl k p1 p2 gc gb a b => [k, p1, p2, gc, gb, a, b]
  | interp _ _ norm a b => [norm, a, b]
  | empty a b => [a, b]

/-- `type(self).evaluate(gamma, *args)` at a scalar: the arguments are taken in the order of the signature of
`evaluate`; a wrong number of arguments is a TypeError (`none`) -/
def evaluateArgs : Dist → ℝ → List ℝ → Option ℝ
  | powerLaw .., g, [k, p, gamma_min, gamma_max] => some (powerLawAt g k p gamma_min gamma_max)
  | broken .., g, [k, p1, p2, gamma_b, gamma_min, gamma_max] =>
    some (brokenAt g k p1 p2 gamma_b gamma_min gamma_max)
  | logParabola .., g, [k, p, q, gamma_0, gamma_min, gamma_max] =>
    some (logParabolaAt g k p q gamma_0 gamma_min gamma_max)
  | ecpl .., g, [k, p, gamma_c, gamma_min, gamma_max] => some (ecplAt g k p gamma_c gamma_min gamma_max)
  | ecbpl .., g, [k, p1, p2, gamma_c, gamma_b, gamma_min, gamma_max] =>
    some (ecbplAt g k p1 p2 gamma_c gamma_b gamma_min gamma_max)
  | interp f _ _ _ _, g, [norm, gamma_min, gamma_max] => some (interpAt f g norm gamma_min gamma_max)
  | empty .., _, _ => some 0
  | _, _, _ => none

/-- `type(self).evaluate_SSA_integrand(gamma, *args)` at a scalar; `EmptyDistribution` has no such method -/
def ssaArgs : Dist → ℝ → List ℝ → Option ℝ
  | powerLaw .., g, [k, p, gamma_min, gamma_max] => some (powerLawSSA g k p gamma_min gamma_max)
  | broken .., g, [k, p1, p2, gamma_b, gamma_min, gamma_max] =>
    some (brokenSSA g k p1 p2 gamma_b gamma_min gamma_max)
  | logParabola .., g, [k, p, q, gamma_0, gamma_min, gamma_max] =>
    some (logParabolaSSA g g k p q gamma_0 gamma_min gamma_max)
  | ecpl .., g, [k, p, gamma_c, gamma_min, gamma_max] => some (ecplSSA g g k p gamma_c gamma_min gamma_max)
  | ecbpl .., g, [k, p1, p2, gamma_c, gamma_b, gamma_min, gamma_max] =>
    some (ecbplSSA g g k p1 p2 gamma_c gamma_b gamma_min gamma_max)
  | interp f df _ _ _, g, [norm, gamma_min, gamma_max] => some (interpSSA f df g g norm gamma_min gamma_max)
  | _, _, _ => none

/-- `self(gamma)` at a scalar: `__call__` of each family, spectra.py:279-280, 376-385, 481-490, 578-581,
683-693, 808-809, 858-859 -/
def call (d : Dist) (g : ℝ) : ℝ :=
  match d with
  | powerLaw k p gmin gmax => powerLawAt g k p gmin gmax
  | broken k p1 p2 gb gmin gmax => brokenAt g k p1 p2 gb gmin gmax
  | logParabola k p q g0 gmin gmax => logParabolaAt g k p q g0 gmin gmax
  | ecpl k p gc gmin gmax => ecplAt g k p gc gmin gmax
  | ecbpl k p1 p2 gc gb gmin gmax => ecbplAt g k p1 p2 gc gb gmin gmax
  | interp f _ norm gmin gmax => interpAt f g norm gmin gmax
  | empty _ _ => 0

/-- `self.SSA_integrand(gamma)`, element for element: `g` before and `g'` after the correction that `evaluate` makes;
spectra.py:292-295, 398-407, 501-510, 593-596, 712-722, 836-839.  (`EmptyDistribution` has no
`SSA_integrand`; the model gives 0.) -/
def ssaElem (d : Dist) (g g' : ℝ) : ℝ :=
  match d with
  | powerLaw k p gmin gmax => powerLawSSA g k p gmin gmax
  | broken k p1 p2 gb gmin gmax => brokenSSA g k p1 p2 gb gmin gmax
  | logParabola k p q g0 gmin gmax => logParabolaSSA g g' k p q g0 gmin gmax
  | ecpl k p gc gmin gmax => ecplSSA g g' k p gc gmin gmax
  | ecbpl k p1 p2 gc gb gmin gmax => ecbplSSA g g' k p1 p2 gc gb gmin gmax
  | interp f df norm gmin gmax => interpSSA f df g g' norm gmin gmax
  | empty _ _ => 0

/-- `self.SSA_integrand(gamma)` at a scalar -/
def ssa (d : Dist) (g : ℝ) : ℝ := d.ssaElem g g

/-- the caller's array after `self(gamma)`; `EmptyDistribution` does not touch it -/
def afterCall (d : Dist) (gamma : List ℝ) : List ℝ :=
  match d with
  | empty _ _ => gamma
  | d => correctBoundary gamma d.gmin d.gmax

/-- `self(gamma)` for an array: the caller's array afterwards and the values -/
def evaluate (d : Dist) (gamma : List ℝ) : List ℝ × List ℝ :=
  (d.afterCall gamma, (d.afterCall gamma).map d.call)

/-- the caller's array after `self.SSA_integrand(gamma)`: only the last four families call `evaluate` -/
def afterSSA (d : Dist) (gamma : List ℝ) : List ℝ :=
  match d with
  | powerLaw .. => gamma
  | broken .. => gamma
  | d => d.afterCall gamma

/-- `self.SSA_integrand(gamma)` for an array: the caller's array afterwards and the values -/
def ssaIntegrand (d : Dist) (gamma : List ℝ) : List ℝ × List ℝ :=
  (d.afterSSA gamma, List.zipWith d.ssaElem gamma (d.afterSSA gamma))

/-- `np.power(gamma, gamma_power)` for the non-negative integer powers used -/
def powers (n : ℕ) (gamma : List ℝ) : List ℝ := gamma.map (· ^ n)

/-- spectra.py:54-76 `integral`, with a general integrator: values on 200 points, `values *= gamma**gamma_power`,
`integrator(values, gamma)`; `gamma` is the array as `evaluate` leaves it -/
def integralWith (integrator : List ℝ → List ℝ → ℝ) (d : Dist) (low up : ℝ) (power : ℕ) : ℝ :=
  let gamma := logspace (log10 low) (log10 up) 200
  let (gamma', values) := d.evaluate gamma
  integrator (List.zipWith (· * ·) values (powers power gamma')) gamma'

/-- spectra.py:78-95 `integrate` (865-866 for `EmptyDistribution`), `integrator` the object's attribute -/
def integrate (integrator : List ℝ → List ℝ → ℝ) (d : Dist) (low up : Option ℝ) (power : ℕ) : ℝ :=
  match d with
  | empty _ _ => 0
  | d => integralWith integrator d (low.getD d.gmin) (up.getD d.gmax) power

end Dist

/-- the keyword arguments of the constructors that fix the normalisation: a family and every shape
parameter except `k`; `gamma_min`, `gamma_max` may be missing -/
inductive Shape where
  | powerLaw (p : ℝ)
  | broken (p1 p2 gb : ℝ)
  | logParabola (p q g0 : ℝ)
  | ecpl (p gc : ℝ)
  | ecbpl (p1 p2 gc gb : ℝ)

/-- `cls(k=k, **kwargs)` -/
def Shape.mk (s : Shape) (k gmin gmax : ℝ) : Dist :=
  match s with
  | .powerLaw p => .powerLaw k p gmin gmax
  | .broken p1 p2 gb => .broken k p1 p2 gb gmin gmax
  | .logParabola p q g0 => .logParabola k p q g0 gmin gmax
  | .ecpl p gc => .ecpl k p gc gmin gmax
  | .ecbpl p1 p2 gc gb => .ecbpl k p1 p2 gc gb gmin gmax

/-- failures of the constructors -/
inductive CtorErr where
  /-- UnboundLocalError: `gamma_min`/`gamma_max` not among the keyword arguments -/
  | unbound
  /-- division by a zero integral or value: numpy gives inf or NaN with a warning -/
  | divByZero
  deriving DecidableEq

/-- `x / y` for numpy scalars: a zero divisor gives inf or NaN -/
def npDiv (x y : ℝ) : Except CtorErr ℝ := if y = 0 then .error .divByZero else .ok (x / y)

/-- spectra.py:108-113 and 131-135: the limits taken from the keyword arguments -/
def limits (gmin gmax : Option ℝ) : Except CtorErr (ℝ × ℝ) :=
  match gmin, gmax with
  | some a, some b => .ok (a, b)
  | _, _ => .error .unbound

/-- spectra.py:98-118 `from_total_density` -/
def fromTotalDensity (s : Shape) (n_tot : ℝ) (gmin gmax : Option ℝ) : Except CtorErr Dist := do
  let (a, b) ← limits gmin gmax
  let k ← npDiv n_tot ((s.mk 1 a b).integralWith trapz a b 0)
  .ok (s.mk k a b)

/-- spectra.py:121-143 `from_total_energy_density`; `mc2` is the particle's rest energy -/
def fromTotalEnergyDensity (s : Shape) (mc2 u_tot : ℝ) (gmin gmax : Option ℝ) : Except CtorErr Dist := do
  let (a, b) ← limits gmin gmax
  let integral := (s.mk 1 a b).integralWith trapz a b 1
  let k ← npDiv u_tot (mc2 * integral)
  .ok (s.mk k a b)

/-- spectra.py:146-158 `from_density_at_gamma_1` -/
def fromDensityAtGamma1 (s : Shape) (n1 gmin gmax : ℝ) : Except CtorErr Dist := do
  let k ← npDiv n1 ((s.mk 1 gmin gmax).call 1)
  .ok (s.mk k gmin gmax)

/-- spectra.py:161-176 `from_total_energy` -/
def fromTotalEnergy (s : Shape) (mc2 W V : ℝ) (gmin gmax : Option ℝ) : Except CtorErr Dist := do
  let u ← npDiv W V
  fromTotalEnergyDensity s mc2 u gmin gmax

/-! ### InterpolatedDistribution construction -/

/-- failures of the constructor of `InterpolatedDistribution` -/
inductive InterpErr where
  /-- IndexError of `gamma[0]` on an empty array -/
  | emptyInput
  /-- numpy's IndexError: boolean mask of a different length -/
  | maskLength
  /-- the interpolator rejects its data (scipy ValueError; in particular NaN from a negative density) -/
  | rejected
  deriving DecidableEq

/-- spectra.py:759-790 `InterpolatedDistribution.__init__` and `log10_interpolation`.  `interp xs ys` models
`interpolator(xs, ys)` together with its `derivative()`; negative densities, whose logarithm is NaN,
are rejected.  The unit check of line 760 is not modelled. -/
def mkInterp (interp : List ℝ → List ℝ → Option ((ℝ → ℝ) × (ℝ → ℝ))) (gamma n : List ℝ) (norm : ℝ) :
    Except InterpErr Dist :=
  if gamma = [] then .error .emptyInput
  else if gamma.length ≠ n.length then .error .maskLength
  else
    let valid := n.map fun x => !decide (x = 0)
    let gamma' := Np.select valid gamma
    let n' := Np.select valid n
    if n'.any (fun x => decide (x < 0)) then .error .rejected
    else match interp (gamma'.map log10) (n'.map log10), gamma'.min?, gamma'.max? with
      | some (f, df), some lo, some hi => .ok (.interp f df norm lo hi)
      | _, _, _ => .error .rejected

end Verif.Spectra

end
