import Mathlib.Data.Rat.Defs
import Mathlib.Algebra.Order.Ring.Rat
import Mathlib.Algebra.Field.Rat
import Verif.Lemmas.Reach
import Verif.Lemmas.RealNumerics

/- Concrete runs over `ℚ` used as non-vacuity witnesses. -/

namespace Verif.TE

open Verif.Np

/-- check of a finished run -/
def checkRun {K : Type} [Field K] [LinearOrder K] (cfg : Cfg K) (dist : Dist K) (fuel : Nat)
    (p : State K → Bool) : Bool :=
  match evaluate cfg dist fuel with
  | .ok (some s) => p s
  | _ => false

theorem returns_of_check {K : Type} [Field K] [LinearOrder K] {cfg : Cfg K} {dist : Dist K} {fuel : Nat}
    {p : State K → Bool} (h : checkRun cfg dist fuel p = true) :
    ∃ s, Returns cfg dist (resultOf s) s.dist ∧ p s = true := by
  unfold checkRun at h
  split at h
  · next s hs => exact ⟨s, ⟨fuel, s, hs, rfl, rfl⟩, h⟩
  · simp at h

/-- cooling `dE/dt = -E²/8` and a constant injection into the second of two subgroups; three bins in
the bounds [1, 8] -/
def demoCfg : Cfg ℚ where
  num := toyNumerics
  mec2 := 1
  totalTime := 3/4
  stepDuration := .fixed (1/2)
  enFns := [("cool", fun _ p => p.gamma.map fun g => -(g * g) / 8)]
  relFns := [("esc", fun _ p => p.gamma.map fun _ => -1/10)]
  absFns := [("inj", fun _ p => p.gamma.map fun _ => 1)]
  initialGamma := [1, 2, 4]
  gammaBounds := some (1, 8)
  maxBinCreep := 1/10
  mergeCloser := some (1/1000)
  maxEnergyChange := 1/10
  maxDensityChange := 1/10
  maxInjection := 1
  optimize := false
  heun := false
  subgroups := some [["cool", "esc"], ["cool", "inj"]]
  initialFractions := none

def demoDist : Dist ℚ := ⟨fun x => if 1 ≤ x ∧ x ≤ 4 then 8 / x else 0, .scalar 1, .scalar 4⟩

/-- the same without bounds -/
def halfCfg : Cfg ℚ := { demoCfg with gammaBounds := none }

/-- the same with automatic, optimised steps -/
def demoAuto : Cfg ℚ := { demoCfg with stepDuration := .auto, optimize := true, totalTime := 1/4 }

end Verif.TE
