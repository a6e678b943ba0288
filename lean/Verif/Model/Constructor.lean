import Verif.Model.TimeEvolution

/- Model of `TimeEvolution.__init__` (`/repo/agnpy/time_evolution/time_evolution.py:103-191`). -/

namespace Verif.TE

variable {K : Type} [Field K] [LinearOrder K]

/-- What can be passed as a set of functions (`time_evolution.py:130-140`). A function that comes without a
name is paired with its `str(v)`. `absent` is `None`, which for the energy changes is *not* treated as
"no function" (line 132 makes the dict `{"None": None}`); the model leaves that case out by having
no entry to call. -/
inductive FnsArg (K : Type) where
  | dict (l : List (String × GammaFn K))
  | iter (l : List (String × GammaFn K))
  | single (f : String × GammaFn K)
  | absent

/-- `d[k] = v` for a python dict: the position of the first insertion is kept -/
def dictSet {α : Type} (d : List (String × α)) (k : String) (v : α) : List (String × α) :=
  if d.any (fun p => p.1 == k) then d.map (fun p => if p.1 == k then (k, v) else p) else d ++ [(k, v)]

/-- dict comprehension `{str(v): v for v in ...}` -/
def dictOf {α : Type} (l : List (String × α)) : List (String × α) :=
  l.foldl (fun d p => dictSet d p.1 p.2) []

/-- `time_evolution.py:130-140` -/
def FnsArg.toDict : FnsArg K → List (String × GammaFn K)
  | .dict l => l
  | .iter l => dictOf l
  | .single f => [f]
  | .absent => []

/-- `step_duration`: a Quantity, a string or something else -/
inductive StepArg (K : Type) where
  | quantity (dt : K)
  | str (s : String)
  | other

/-- a `(M,N)` array; the column count is kept because `M` may be zero -/
structure Mat (K : Type) where
  rows : List (List K)
  cols : Nat

/-- the arguments of the constructor, without the callback -/
structure Args (K : Type) where
  totalTime : K
  enFns : FnsArg K
  relFns : FnsArg K
  absFns : FnsArg K
  step : StepArg K
  initialGamma : Option (List K)
  gammaBounds : Option (K × K)
  maxBinCreep : K
  mergeCloser : Option K
  maxEnergyChange : K
  maxDensityChange : K
  maxInjection : K
  optimize : Option Bool
  method : String
  subgroups : Option (List (List String))
  initialFractions : Option (Mat K)

/-- what the constructor reads from its surroundings: constants, numpy and the blob.
`logspace lo hi n` is `np.logspace(np.log10(lo), np.log10(hi), n)` (line 159). -/
structure Env (K : Type) where
  num : Numerics K
  mec2 : K
  logspace : K → K → Nat → List K
  blobMin : K
  blobMax : K
  blobSize : Nat

/-- the `ValueError`s of the constructor -/
inductive CtorErr where
  | stepDuration | duplicateKeys | gammaTooSmall | gammaTooLarge | notIncreasing | optimizeFixed
  | badMethod | optimizeHeun | unknownFunction | fractionSum | fractionsNoSubgroups | fractionsNoGamma
  | fractionsShape
  deriving DecidableEq, Repr

/-- `time_evolution.py:124-129` -/
def checkStep : StepArg K → Except CtorErr (StepMode K)
  | .quantity dt => .ok (.fixed dt)
  | .str s => if s = "auto" then .ok .auto else .error .stepDuration
  | .other => .error .stepDuration

/-- keys two dicts share, `set(a) & set(b)` -/
def sharedKeys {α β : Type} (a : List (String × α)) (b : List (String × β)) : List String :=
  (a.map Prod.fst).filter fun k => (b.map Prod.fst).contains k

/-- `time_evolution.py:141-145` -/
def checkKeys {α : Type} (en rel abs : List (String × α)) : Except CtorErr Unit :=
  if (sharedKeys en rel ++ sharedKeys en abs ++ sharedKeys rel abs).isEmpty then .ok ()
  else .error .duplicateKeys

/-- `time_evolution.py:147-151` -/
def checkBounds (bounds : Option (K × K)) (gamma : Option (List K)) : Except CtorErr Unit :=
  match bounds, gamma with
  | some (lo, hi), some g =>
    if g.any (· < lo) then .error .gammaTooSmall
    else if g.any (hi < ·) then .error .gammaTooLarge
    else .ok ()
  | _, _ => .ok ()

/-- `time_evolution.py:152-153` -/
def checkIncreasing (gamma : Option (List K)) : Except CtorErr Unit :=
  match gamma with
  | some g => if (Np.adjacent (fun a b => decide (b ≤ a)) g).any id then .error .notIncreasing else .ok ()
  | none => .ok ()

/-- `time_evolution.py:154-159` -/
def startGamma (env : Env K) (bounds : Option (K × K)) : Option (List K) → List K
  | some g => g
  | none => match bounds with
    | some (lo, hi) => env.logspace (max env.blobMin lo) (min env.blobMax hi) env.blobSize
    | none => env.logspace (max env.blobMin 0) env.blobMax env.blobSize

def isAuto : StepMode K → Bool
  | .auto => true
  | .fixed _ => false

/-- `time_evolution.py:165-168` -/
def checkOptimize (opt : Option Bool) (step : StepMode K) : Except CtorErr Bool :=
  match opt with
  | some true => if isAuto step then .ok true else .error .optimizeFixed
  | some false => .ok false
  | none => .ok (isAuto step)

/-- `time_evolution.py:170-174`; returns whether the method is Heun -/
def checkMethod (method : String) (optimize : Bool) : Except CtorErr Bool :=
  if method.toLower = "heun" then (if optimize then .error .optimizeHeun else .ok true)
  else if method.toLower = "euler" then .ok false
  else .error .badMethod

/-- `time_evolution.py:177-180` -/
def checkSubgroups {α : Type} (en rel abs : List (String × α)) (sg : Option (List (List String))) :
    Except CtorErr Unit :=
  let known := fun s => (en.map Prod.fst).contains s || (rel.map Prod.fst).contains s ||
    (abs.map Prod.fst).contains s
  if ((sg.getD []).flatten).all known then .ok () else .error .unknownFunction

/-- `np.allclose(x, 1.0, atol=1e-6)` for one element: `|x - 1| <= atol + rtol * 1` with numpy's default
`rtol = 1e-5` -/
def closeToOne (x : K) : Bool := decide (|x - 1| ≤ 1 / 10 ^ 6 + 1 / 10 ^ 5)

/-- `m.sum(axis=0)` -/
def Mat.colSums (m : Mat K) : List K := (List.range m.cols).map fun j => (m.rows.map (·.getD j 0)).sum

/-- `time_evolution.py:181-190` -/
def checkFractions (f : Option (Mat K)) (sg : Option (List (List String))) (gamma : Option (List K)) :
    Except CtorErr Unit :=
  match f with
  | none => .ok ()
  | some m =>
    if m.colSums.any (fun x => !closeToOne x) then .error .fractionSum
    else if sg.isNone then .error .fractionsNoSubgroups
    else match gamma with
      | none => .error .fractionsNoGamma
      | some g => if m.cols ≠ g.length then .error .fractionsShape else .ok ()

/-- `TimeEvolution.__init__`, `time_evolution.py:103-191` -/
def construct (env : Env K) (a : Args K) : Except CtorErr (Cfg K) := do
  let step ← checkStep a.step
  let en := a.enFns.toDict
  let rel := a.relFns.toDict
  let abs := a.absFns.toDict
  checkKeys en rel abs
  checkBounds a.gammaBounds a.initialGamma
  checkIncreasing a.initialGamma
  let opt ← checkOptimize a.optimize step
  let heun ← checkMethod a.method opt
  checkSubgroups en rel abs a.subgroups
  checkFractions a.initialFractions a.subgroups a.initialGamma
  return { num := env.num, mec2 := env.mec2, totalTime := a.totalTime, stepDuration := step, enFns := en,
           relFns := rel, absFns := abs, initialGamma := startGamma env a.gammaBounds a.initialGamma,
           gammaBounds := a.gammaBounds, maxBinCreep := a.maxBinCreep, mergeCloser := a.mergeCloser,
           maxEnergyChange := a.maxEnergyChange, maxDensityChange := a.maxDensityChange,
           maxInjection := a.maxInjection, optimize := opt, heun := heun, subgroups := a.subgroups,
           initialFractions := a.initialFractions.map (·.rows) }

end Verif.TE
