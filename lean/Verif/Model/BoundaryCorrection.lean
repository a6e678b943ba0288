import Verif.Model.TimeEvolution

/-
The evolution once more, this time with the in-place correction of the Lorentz factors that every call of
a distribution on an array performs (`spectra.py:211-225`).  `Verif/Model/TimeEvolution.lean` leaves it out;
`Verif/Props/TEBoundary.lean` proves when the two agree.
-/

namespace Verif.TE

open Verif.Np

variable {K : Type} [Field K] [LinearOrder K]

/-- `spectra.py:220-222`: `gamma[0]` is raised to `gamma_min` if it is below by less than 1e-10 (relative) -/
def correctFirst (gmin : K) : List K → List K
  | [] => []
  | x :: r => if gmin > x ∧ (gmin - x) / x < 1 / 10 ^ 10 then gmin :: r else x :: r

/-- `spectra.py:223-225`: `gamma[-1]` is lowered to `gamma_max` if it is above by less than 1e-10 (relative) -/
def correctLast (gmax : K) : List K → List K
  | [] => []
  | x :: r =>
    let last := (x :: r).getLast (List.cons_ne_nil _ _)
    if last > gmax ∧ (last - gmax) / gmax < 1 / 10 ^ 10 then (x :: r).dropLast ++ [gmax] else x :: r

/-- the caller's array after `n_e(gamma)`.  An `EmptyDistribution` (`spectra.py:865-866`) does not touch the
array; the ones made by `update_distribution` are those with arrays as range. -/
def Dist.afterCall (d : Dist K) (gamma : List K) : List K :=
  match d.gammaMin, d.gammaMax with
  | .scalar a, .scalar b => correctLast b (correctFirst a gamma)
  | _, _ => gamma

/-- `time_evolution.py:379-387` for one group other than the first; `distribution(new_gm_bins[0])` on line
386 gets a view of the first row of `new_gm_bins`, so the common grid changes too -/
def regridC (cfg : Cfg K) (gm : Bins K) (p : Bins K × List K) : Except Err (Bins K × List K) :=
  if p.2.all (· == 0) || decide (p.1 = gm) then .ok (gm, p.2)
  else do
    let d ← mkDist cfg.num p.1.lb p.2
    return (⟨d.afterCall gm.lb, gm.ub⟩, (d.afterCall gm.lb).map d.eval)

/-- the loop `time_evolution.py:379-387` -/
def regridAllC (cfg : Cfg K) (gm : Bins K) :
    List (Bins K × List K) → Except Err (Bins K × List (List K))
  | [] => .ok (gm, [])
  | p :: ps => do
    let (gm1, d) ← regridC cfg gm p
    let (gm2, ds) ← regridAllC cfg gm1 ps
    return (gm2, d :: ds)

/-- `_apply_time_eval`, `time_evolution.py:365-393` -/
def applyTimeEvalC (cfg : Cfg K) (en : Bins K) (dens : List K) (sub : List (List K))
    (chg : List (Bins K)) (inj : List (List K)) : Except Err (Bins K × List K × List (List K)) := do
  if chg.length < sub.length || inj.length < sub.length then throw .indexError
  let moved ← (List.zip sub chg).mapM fun p => evalGroup cfg en dens p.1 p.2
  let moved ← (List.zip moved inj).mapM fun p => addInjection p.1 p.2
  match moved with
  | [] => throw .indexError
  | first :: rest =>
    let (gm, others) ← regridAllC cfg first.1 rest
    let newDens := first.2 :: others
    let total := colSum dens.length newDens
    return (gm, total, (List.zip newDens sub).map fun p => newFraction total p.1 p.2)

/-- stages 1 and 2 of `_apply_time_changes`, `time_evolution.py:329-344` -/
def applyStages12C (cfg : Cfg K) (en : Bins K) (dens : List K) (sub : List (List K))
    (enRates : List (Bins K)) (injRates : List (List K)) (t : K) :
    Except Err (Bins K × List K × List (List K) × Dist K × List (Bins K)) := do
  let inj := injRates.map (·.map (· * t))
  let (gm1, d1, sub1) ← applyTimeEvalC cfg en dens sub (enRates.map (scaleBins t)) inj
  let dist1 ← updateDistribution cfg.num gm1 d1
  if cfg.heun then
    let r ← newRates2 dist1 gm1 cfg.enFns d1 sub1
    let recalced ← (sumRates2 r gm1.lb.length cfg.subgroups).mapM finiteBins
    let avg := List.zipWith averageBins enRates recalced
    let (gm2, d2, sub2) ← applyTimeEvalC cfg en dens sub1 (avg.map (scaleBins t)) inj
    let dist2 ← updateDistribution cfg.num gm2 d2
    return (gm2, d2, sub2, dist2, avg)
  else return (gm1, d1, sub1, dist1, enRates)

/-- `_apply_time_changes`, `time_evolution.py:326-363`; the distribution is called on single Lorentz factors
in stage 3 (`_time_evolution_utils.py:213`), which are not corrected (`spectra.py:217`) -/
def applyTimeChangesC (cfg : Cfg K) (en : Bins K) (dens : List K) (sub : List (List K))
    (enRates : List (Bins K)) (injRates : List (List K)) (t : K) : Except Err (StepOut K) := do
  let (gm, d, s, dist, rates) ← applyStages12C cfg en dens sub enRates injRates t
  let (b3, d3, m3) ← sortAndMergeBins cfg gm d dist
  let s3 ← remapSubgroups m3 s
  let (b5, d5, s5, m5) ← applyBounds cfg b3 d3 s3 m3 rates
  return ⟨b5, d5, s5, m5, dist⟩

/-- body of the `while` loop, `time_evolution.py:233-270` -/
def stepC (cfg : Cfg K) (s : State K) : Except Err (State K) := do
  let (enG, relG, absG) ← groupRates cfg s
  let inj ← totalInjection s.dens s.sub relG absG
  let (t0, left) ← chooseStep cfg s enG relG absG
  let t := truncStep cfg s.elapsed t0
  let o ← applyTimeChangesC cfg (toErg cfg s.bins) s.dens s.sub enG inj t
  let (left', mask) ← recalcMask cfg left t o
  refresh cfg s t o left' mask

/-- `_calculate_initial_values`, `time_evolution.py:193-211`: the state, and what is then in the array
`self._initial_gamma_array`, which is the caller's own array if one was given (line 155).  `gm_bins` is
copied (line 196) before the distribution is called on the array (line 198), so the energy changes see
the Lorentz factors as given and densities and injections the corrected ones.  `corrects` is false for a
user's `EmptyDistribution`. -/
def initStateC (cfg : Cfg K) (corrects : Bool) (dist : Dist K) : Except Err (List K × State K) := do
  let lb := cfg.initialGamma
  let mask := List.replicate lb.length true
  let bins := updateBinUb ⟨lb, lb.map fun _ => 0⟩ mask
  let lb' := if corrects then dist.afterCall lb else lb
  let dens := lb'.map dist.eval
  let sub ← initialSub cfg
  let en ← newRates2 dist bins cfg.enFns dens sub
  let rel ← newRates1 dist lb' cfg.relFns dens sub
  let abs ← newRates1 dist lb' cfg.absFns dens sub
  return (lb', ⟨bins, dens, sub, en, rel, abs, lb.map fun _ => 0, 0, dist⟩)

/-- the `while` loop (`time_evolution.py:232`) with a bound on the number of iterations -/
def loopC (cfg : Cfg K) : Nat → State K → Except Err (Option (State K))
  | 0, s => if s.elapsed < cfg.totalTime then .ok none else .ok (some s)
  | n + 1, s =>
    if s.elapsed < cfg.totalTime then do loopC cfg n (← stepC cfg s) else .ok (some s)

/-- `evaluate`, `time_evolution.py:213-279`: final state, and the contents of the initial array -/
def evaluateC (cfg : Cfg K) (corrects : Bool) (dist : Dist K) (fuel : Nat) :
    Except Err (List K × Option (State K)) := do
  let (g, s) ← initStateC cfg corrects dist
  return (g, ← loopC cfg fuel s)

end Verif.TE
