import Mathlib.Algebra.Order.Field.Basic
import Mathlib.Order.WithBot
import Mathlib.Algebra.BigOperators.Group.List.Basic
import Verif.Model.Np

/-
Model of agnpy/time_evolution/time_evolution.py and agnpy/time_evolution/_time_evolution_utils.py.

Conventions (see DESIGN.md): numbers live in a linearly ordered field `K` (floating point is not
modelled); a `(2,N)` array is a pair of rows `Bins`; a Python dict is an association list in insertion
order; NaN placeholders are `none`; infinite times are `⊤ : WithTop K`; exceptions are `Except Err`.
-/

namespace Verif.TE

open Verif.Np

/-- numpy / scipy functions the code calls -/
structure Numerics (K : Type) where
  /-- `np.log10` on one value -/
  log10 : K → K
  /-- `np.exp(np.mean(np.log(x)))` -/
  gmean : List K → K
  /-- `np.argsort(x)` (the default sort is not stable; any sorting permutation is allowed) -/
  argsort : List K → List Nat
  /-- `γ ↦ 10 ** PchipInterpolator(log10 xs, log10 ys)(log10 γ)`; `none` when scipy raises -/
  interp : List K → List K → Option (K → K)

/-- The contract of numpy/scipy assumed by the theorems (an assumption about libraries, listed in
DESIGN.md; `Verif/Lemmas/RealNumerics.lean` proves that it can be met over the reals).  `log10` is only
weakly monotone, so that distinct floating point numbers with equal `log10` are covered. -/
structure Numerics.Lawful {K : Type} [Field K] [LinearOrder K] (num : Numerics K) : Prop where
  log10_mono : ∀ {x y : K}, 0 < x → x ≤ y → num.log10 x ≤ num.log10 y
  gmean_ge : ∀ {l : List K} {a : K}, l ≠ [] → 0 < a → (∀ x ∈ l, a ≤ x) → a ≤ num.gmean l
  gmean_le : ∀ {l : List K} {b : K}, l ≠ [] → (∀ x ∈ l, 0 < x ∧ x ≤ b) → num.gmean l ≤ b
  argsort_perm : ∀ l : List K, (num.argsort l).Perm (List.range l.length)
  argsort_sorted : ∀ l : List K, ((num.argsort l).map (l.getD · 0)).Pairwise (· ≤ ·)
  /-- scipy accepts two or more strictly increasing abscissae with finite ordinates -/
  interp_some : ∀ {xs ys : List K}, 2 ≤ xs.length → ys.length = xs.length →
    (xs.map num.log10).Pairwise (· < ·) → (∀ y ∈ ys, 0 < y) → (num.interp xs ys).isSome
  /-- and rejects everything else -/
  interp_none : ∀ {xs ys : List K}, ¬ (2 ≤ xs.length ∧ (xs.map num.log10).Pairwise (· < ·)) →
    num.interp xs ys = none
  /-- powers of ten are positive -/
  interp_nonneg : ∀ {xs ys : List K} {f : K → K}, num.interp xs ys = some f → ∀ x, 0 ≤ f x
  /-- the interpolant goes through its nodes -/
  interp_node : ∀ {xs ys : List K} {f : K → K}, num.interp xs ys = some f →
    ys.length = xs.length → (∀ x ∈ xs, 0 < x) → (∀ y ∈ ys, 0 < y) →
    ∀ i, i < xs.length → f (xs.getD i 0) = ys.getD i 0

/-- a `(2,N)` array -/
structure Bins (α : Type) where
  lb : List α
  ub : List α
  deriving DecidableEq

/-- `gamma_min` / `gamma_max` attribute of a distribution object; the code stores whole arrays in it
in one place (`_time_evolution_utils.py:237`) -/
inductive Bound (K : Type) where
  | scalar (x : K)
  | array (l : List K)

/-- the blob's electron distribution object: what calling it on one Lorentz factor returns, and its
range attributes -/
structure Dist (K : Type) where
  eval : K → K
  gammaMin : Bound K
  gammaMax : Bound K

/-- `types.py:11-15` -/
structure FnParams (K : Type) where
  gamma : List K
  densities : List K
  subgroups : List (List K)

/-- A rate function (`types.py:26`).  Functions built from a `Synchrotron`/`SynchrotronSelfCompton`
object read the blob's current distribution, hence the first argument. -/
abbrev GammaFn (K : Type) := Dist K → FnParams K → List K

inductive StepMode (K : Type) where
  | fixed (dt : K)
  | auto

/-- The attributes set by `TimeEvolution.__init__` (`time_evolution.py:122-191`) plus the constant
`mec2` (erg) and the numpy functions. -/
structure Cfg (K : Type) where
  num : Numerics K
  mec2 : K
  totalTime : K
  stepDuration : StepMode K
  enFns : List (String × GammaFn K)
  relFns : List (String × GammaFn K)
  absFns : List (String × GammaFn K)
  initialGamma : List K
  gammaBounds : Option (K × K)
  maxBinCreep : K
  mergeCloser : Option K
  maxEnergyChange : K
  maxDensityChange : K
  maxInjection : K
  optimize : Bool
  heun : Bool
  subgroups : Option (List (List String))
  initialFractions : Option (List (List K))

/-- a rate array entry; `none` is NaN -/
abbrev NV (K : Type) := Option K

abbrev Rates1 (K : Type) := List (String × List (NV K))
abbrev Rates2 (K : Type) := List (String × Bins (NV K))

variable {K : Type} [Field K] [LinearOrder K]

/-- `_time_evolution_utils.py:12` -/
def binSizeFactor : K := 1 / 10000

/-! ### index bookkeeping -/

/-- `_time_evolution_utils.py:82-93` for one array -/
def remap {α : Type} (mapping : List Int) (values : List α) (dflt : Option α) :
    Except Err (List α) := do
  let remapped ← gather values mapping
  if mapping.any (· == -1) then
    match dflt with
    | none => throw .noDefault
    | some d => return List.zipWith (fun i x => if i = -1 then d else x) mapping remapped
  else return remapped

/-- `_time_evolution_utils.py:82-93` for a `(2,N)` array -/
def remapBins {α : Type} (mapping : List Int) (b : Bins α) (dflt : Option α) :
    Except Err (Bins α) := do
  return ⟨← remap mapping b.lb dflt, ← remap mapping b.ub dflt⟩

/-- `_time_evolution_utils.py:82-84` for a dict of 1-d arrays -/
def remapRates1 (mapping : List Int) (r : Rates1 K) : Except Err (Rates1 K) :=
  r.mapM fun p => do return (p.1, ← remap mapping p.2 (some none))

/-- `_time_evolution_utils.py:82-84` for a dict of `(2,N)` arrays -/
def remapRates2 (mapping : List Int) (r : Rates2 K) : Except Err (Rates2 K) :=
  r.mapM fun p => do return (p.1, ← remapBins mapping p.2 (some none))

/-- `_time_evolution_utils.py:96-100`: row 0 gets 1 at new elements, other rows 0 -/
def remapSubgroups (mapping : List Int) (sub : List (List K)) : Except Err (List (List K)) := do
  let g ← sub.mapM (gather · mapping)
  match g with
  | [] => throw .indexError
  | r0 :: rs =>
    return List.zipWith (fun i x => if i = -1 then (1 : K) else x) mapping r0 ::
      rs.map (List.zipWith (fun i x => if i = -1 then (0 : K) else x) mapping)

/-- `_time_evolution_utils.py:103-104` -/
def maskToMapping (mask : List Bool) : List Int := select mask (arange mask.length)

/-- `_time_evolution_utils.py:107-113` -/
def combineMapping (first second : List Int) : Except Err (List Int) := do
  let combined ← gather first second
  return List.zipWith (fun i x => if i = -1 then -1 else x) second combined

/-! ### rates -/

/-- `_time_evolution_utils.py:20-24` -/
def updateBinUb (b : Bins K) (mask : List Bool) : Bins K :=
  ⟨b.lb, scatter mask ((select mask b.lb).map (· * (1 + binSizeFactor))) b.ub⟩

/-- `reshape(-1, order="F")` of a `(2,n)` array (`_time_evolution_utils.py:43`) -/
def interlace (b : Bins K) : List K := (List.zipWith (fun x y => [x, y]) b.lb b.ub).flatten

/-- elements of even position, elements of odd position -/
def deinterlace : List K → List K × List K
  | x :: y :: r => (x :: (deinterlace r).1, y :: (deinterlace r).2)
  | _ => ([], [])

/-- `.reshape((2,n), order="F")` (`_time_evolution_utils.py:50,53`) -/
def reshape2 (n : Nat) (l : List K) : Except Err (Bins K) :=
  if l.length = 2 * n then .ok ⟨(deinterlace l).1, (deinterlace l).2⟩ else .error .shapeError

/-- `.reshape((n,), order="F")` -/
def reshape1 (n : Nat) (l : List K) : Except Err (List K) :=
  if l.length = n then .ok l else .error .shapeError

/-- python dict lookup -/
def dictGet {α : Type} (d : List (String × α)) (k : String) : Except Err α :=
  match d.lookup k with
  | some v => .ok v
  | none => .error .keyError

/-- the `FnParams` built in `_time_evolution_utils.py:42-46` for a `(2,N)` array -/
def params2 (b : Bins K) (dens : List K) (sub : List (List K)) (mask : List Bool) :
    Except Err (FnParams K) := do
  let s ← remapSubgroups (maskToMapping mask) sub
  return ⟨interlace ⟨select mask b.lb, select mask b.ub⟩, select mask dens, s⟩

/-- the `FnParams` built in `_time_evolution_utils.py:42-46` for a `(N,)` array -/
def params1 (g : List K) (dens : List K) (sub : List (List K)) (mask : List Bool) :
    Except Err (FnParams K) := do
  let s ← remapSubgroups (maskToMapping mask) sub
  return ⟨select mask g, select mask dens, s⟩

/-- number of selected elements -/
def countMask (mask : List Bool) : Nat := (mask.filter id).length

/-- `recalc_new_rates`, `_time_evolution_utils.py:27-54`, `(2,N)` case with mask and previous rates -/
def recalcRates2 (dist : Dist K) (b : Bins K) (fns : List (String × GammaFn K)) (dens : List K)
    (sub : List (List K)) (prev : Rates2 K) (mask : List Bool) : Except Err (Rates2 K) := do
  let p ← params2 b dens sub mask
  fns.mapM fun f => do
    let old ← dictGet prev f.1
    let new ← reshape2 (countMask mask) (f.2 dist p)
    return (f.1, ⟨scatter mask (new.lb.map some) old.lb, scatter mask (new.ub.map some) old.ub⟩)

/-- `recalc_new_rates`, `(N,)` case with mask and previous rates -/
def recalcRates1 (dist : Dist K) (g : List K) (fns : List (String × GammaFn K)) (dens : List K)
    (sub : List (List K)) (prev : Rates1 K) (mask : List Bool) : Except Err (Rates1 K) := do
  let p ← params1 g dens sub mask
  fns.mapM fun f => do
    let old ← dictGet prev f.1
    let new ← reshape1 (countMask mask) (f.2 dist p)
    return (f.1, scatter mask (new.map some) old)

/-- `recalc_new_rates` without mask (line 41, 50), `(2,N)` case -/
def newRates2 (dist : Dist K) (b : Bins K) (fns : List (String × GammaFn K)) (dens : List K)
    (sub : List (List K)) : Except Err (Rates2 K) := do
  let p ← params2 b dens sub (List.replicate b.lb.length true)
  fns.mapM fun f => do
    let new ← reshape2 b.lb.length (f.2 dist p)
    return (f.1, ⟨new.lb.map some, new.ub.map some⟩)

/-- `recalc_new_rates` without mask, `(N,)` case -/
def newRates1 (dist : Dist K) (g : List K) (fns : List (String × GammaFn K)) (dens : List K)
    (sub : List (List K)) : Except Err (Rates1 K) := do
  let p ← params1 g dens sub (List.replicate g.length true)
  fns.mapM fun f => do
    let new ← reshape1 g.length (f.2 dist p)
    return (f.1, new.map some)

/-- addition with NaN absorbing -/
def addNV (a b : NV K) : NV K := match a, b with
  | some x, some y => some (x + y)
  | _, _ => none

def addRow (a b : List (NV K)) : List (NV K) := List.zipWith addNV a b

def zerosNV (n : Nat) : List (NV K) := List.replicate n (some 0)

/-- `sum_change_rates`, `_time_evolution_utils.py:57-79`, `(N,)` case: one row per group -/
def sumRates1 (r : Rates1 K) (n : Nat) (subgroups : Option (List (List String))) :
    List (List (NV K)) :=
  match subgroups with
  | none => [(r.map (·.2)).foldl addRow (zerosNV n)]
  | some rows => rows.map fun row =>
      if row.any (fun x => (r.lookup x).isSome) then
        (row.filterMap (r.lookup ·)).foldl addRow (zerosNV n)
      else zerosNV n

def addBins (a b : Bins (NV K)) : Bins (NV K) := ⟨addRow a.lb b.lb, addRow a.ub b.ub⟩

/-- `sum_change_rates`, `(2,N)` case -/
def sumRates2 (r : Rates2 K) (n : Nat) (subgroups : Option (List (List String))) :
    List (Bins (NV K)) :=
  match subgroups with
  | none => [(r.map (·.2)).foldl addBins ⟨zerosNV n, zerosNV n⟩]
  | some rows => rows.map fun row =>
      if row.any (fun x => (r.lookup x).isSome) then
        (row.filterMap (r.lookup ·)).foldl addBins ⟨zerosNV n, zerosNV n⟩
      else ⟨zerosNV n, zerosNV n⟩

/-- Model artefact: use of a NaN placeholder as a rate is turned into the marker `Err.nanRate`. -/
def finiteRow (l : List (NV K)) : Except Err (List K) :=
  l.mapM fun x => match x with
    | some v => .ok v
    | none => .error .nanRate

def finiteBins (b : Bins (NV K)) : Except Err (Bins K) := do
  return ⟨← finiteRow b.lb, ← finiteRow b.ub⟩

/-! ### one group, one step -/

/-- `to_erg`, `_time_evolution_utils.py:116-117` -/
def toErg (cfg : Cfg K) (b : Bins K) : Bins K := ⟨b.lb.map (· * cfg.mec2), b.ub.map (· * cfg.mec2)⟩

/-- `_time_evolution_utils.py:137-155`; returns the new energy bins and the density increase.
The last test is the model's account of an exactly zero new width (see `Err.nonFiniteDensity`). -/
def recalcEnergyBins (chg en : Bins K) : Except Err (Bins K × List K) :=
  let width := List.zipWith (· - ·) en.ub en.lb
  let new : Bins K := ⟨List.zipWith (· + ·) en.lb chg.lb, List.zipWith (· + ·) en.ub chg.ub⟩
  if new.lb.any (· ≤ 0) || new.ub.any (· ≤ 0) then .error .negativeGamma
  else
    let newWidth := List.zipWith (· - ·) new.ub new.lb
    if newWidth.any (· < 0) then .error .negativeWidth
    else if newWidth.any (· == 0) then .error .nonFiniteDensity
    else .ok (new, List.zipWith (· / ·) width newWidth)

/-- `_time_evolution_utils.py:130-134` -/
def recalcGammaBins (cfg : Cfg K) (en chg : Bins K) (density : List K) :
    Except Err (Bins K × List K) := do
  let (new, inc) ← recalcEnergyBins chg en
  return (⟨new.lb.map (· / cfg.mec2), new.ub.map (· / cfg.mec2)⟩, List.zipWith (· * ·) density inc)

/-! ### sorting and merging bins -/

/-- `group_duplicates`, `_time_evolution_utils.py:178-187` -/
def groupDuplicates (dup : List Nat) : List (List Nat) :=
  if dup = [] then []
  else
    let breaks := nonzero (adjacent (fun a b => decide (b ≠ a + 1)) dup)
    (split dup (breaks.map (· + 1))).map fun g => match g with
      | [] => []
      | x :: _ => (x - 1) :: g

/-- `labels[i]` in `merge_points` (lines 206-208): the last group containing `i`; `none` is -1 -/
def label (groups : List (List Nat)) (i : Nat) : Option Nat :=
  groups.zipIdx.foldl (fun acc p => if i ∈ p.1 then some p.2 else acc) none

/-- `x[labels == g]` -/
def members (x : List K) (groups : List (List Nat)) (g : Nat) : List K :=
  select ((List.range x.length).map fun i => decide (label groups i = some g)) x

def mean (l : List K) : K := l.sum / l.length

/-- `merge_points`, `_time_evolution_utils.py:190-219` -/
def mergePoints (num : Numerics K) (x y : List K) (groups : List (List Nat))
    (dist : Option (Dist K)) : List K × List K :=
  let xmean := fun g => num.gmean (members x groups g)
  let ymean := fun g => match dist with
    | none => mean (members y groups g)
    | some d => d.eval (xmean g)
  let tails := (groups.map List.tail).flatten
  let retain := (List.range x.length).filter (fun i => i ∉ tails)
  (retain.map fun i => match label groups i with
      | none => x.getD i 0
      | some g => xmean g,
   retain.map fun i => match label groups i with
      | none => y.getD i 0
      | some g => ymean g)

def toInts (l : List Nat) : List Int := l.map Int.ofNat

/-- `sort_and_merge_duplicates`, `_time_evolution_utils.py:158-175` -/
def sortAndMergeDuplicates (num : Numerics K) (b : Bins K) (dens : List K)
    (dist : Option (Dist K)) : Except Err (Bins K × List K × List Int) := do
  let sortIdx := toInts (num.argsort b.lb)
  let lb ← gather b.lb sortIdx
  let ub ← gather b.ub sortIdx
  let d ← gather dens sortIdx
  let dup := (nonzero (adjacent (fun a c => decide (a = c)) (lb.map num.log10))).map (· + 1)
  if dup ≠ [] then
    let keep := setdiffRange sortIdx.length dup
    let m := mergePoints num lb d (groupDuplicates dup) dist
    let mapping ← gather sortIdx (toInts keep)
    return (⟨m.1, m.1.map fun _ => 0⟩, m.2, mapping)
  else return (⟨lb, ub⟩, d, sortIdx)

/-- `mask[0] = mask[-1] = False` (`time_evolution.py:446`); IndexError on an empty mask -/
def clearEnds (mask : List Bool) : Except Err (List Bool) :=
  if mask = [] then .error .indexError
  else .ok ((mask.set 0 false).set (mask.length - 1) false)

/-- `_remove_too_close_bins`, `time_evolution.py:441-461` -/
def removeTooCloseBins (num : Numerics K) (thr : K) (b : Bins K) (dens : List K)
    (dist : Dist K) : Except Err (Bins K × List K × List Int) := do
  let gaps := adjacent (fun a c => c - a) (b.lb.map num.log10)
  let mask ← clearEnds (gaps.map fun g => decide (g < thr))
  if mask.any id then
    let close := (nonzero mask).map (· + 1)
    let keep := setdiffRange dens.length close
    let groups := groupDuplicates close
    let m := mergePoints num b.lb dens groups (some dist)
    let starts := groups.map (fun g : List Nat => g.headD 0)
    let ub ← gather b.ub (toInts keep)
    let ub := List.zipWith (fun i u => if i ∈ starts then 0 else u) keep ub
    return (⟨m.1, ub⟩, m.2, toInts keep)
  else return (b, dens, arange b.lb.length)

/-- `_sort_and_merge_bins`, `time_evolution.py:423-429` -/
def sortAndMergeBins (cfg : Cfg K) (b : Bins K) (dens : List K) (dist : Dist K) :
    Except Err (Bins K × List K × List Int) := do
  let (b1, d1, m1) ← sortAndMergeDuplicates cfg.num b dens (some dist)
  match cfg.mergeCloser with
  | none => return (b1, d1, m1)
  | some thr =>
    let (b2, d2, m2) ← removeTooCloseBins cfg.num thr b1 d1 dist
    return (b2, d2, ← combineMapping m1 m2)

/-- `InterpolatedDistribution(gamma, n, interpolator=PchipInterpolator)` (`spectra.py:759-806`):
zero densities are dropped, the range is that of the remaining points.  `eval` is the call on one Lorentz
factor (no boundary correction, `spectra.py:217`). -/
def mkDist (num : Numerics K) (gamma n : List K) : Except Err (Dist K) :=
  let valid := n.map fun v => decide (v ≠ 0)
  let g := select valid gamma
  let v := select valid n
  match num.interp g v, g.min?, g.max? with
  | some f, some gmin, some gmax =>
    .ok ⟨fun x => if gmin ≤ x ∧ x ≤ gmax then f x else 0, .scalar gmin, .scalar gmax⟩
  | _, _, _ => .error .interpError

/-- `EmptyDistribution` (`spectra.py:850-869`) -/
def emptyDist (gmin gmax : Bound K) : Dist K := ⟨fun _ => 0, gmin, gmax⟩

/-- `update_distribution`, `_time_evolution_utils.py:234-244`; returns the distribution, which the
code also stores in `blob.n_e`.  On line 237 `gamma_sorted_and_merged[0]` and `[-1]` are the two
rows of the `(2,N)` array, so the attributes of the empty distribution are arrays. -/
def updateDistribution (num : Numerics K) (b : Bins K) (dens : List K) : Except Err (Dist K) := do
  let (b1, d1, _) ← sortAndMergeDuplicates num b dens none
  if d1.all (· == 0) then return emptyDist (.array b1.lb) (.array b1.ub)
  else if b1.lb.length = 1 then throw .collapse
  else mkDist num b1.lb d1

/-! ### the step -/

/-- element-wise product of a density row with a fraction row -/
def mulRow (a b : List K) : List K := List.zipWith (· * ·) a b

/-- `to_densities_grouped`, `_time_evolution_utils.py:120-123` -/
def densitiesGrouped (dens : List K) (sub : List (List K)) : List (List K) := sub.map (mulRow dens)

/-- numpy broadcasting of two `(M,N)` / `(M',N)` arrays along the first axis -/
def bcastRows {α β γ : Type} (f : α → β → γ) (a : List α) (b : List β) : Except Err (List γ) :=
  if a.length = b.length then .ok (List.zipWith f a b)
  else match a, b with
    | [x], b => .ok (b.map (f x))
    | a, [y] => .ok (a.map (f · y))
    | _, _ => .error .shapeError

/-- column sums, `new_densities.sum(axis=0)` (`time_evolution.py:389`) -/
def colSum (n : Nat) (rows : List (List K)) : List K :=
  rows.foldr (List.zipWith (· + ·)) (List.replicate n 0)

/-- `time_evolution.py:366-373` for one group -/
def evalGroup (cfg : Cfg K) (en : Bins K) (dens : List K) (frac : List K) (chg : Bins K) :
    Except Err (Bins K × List K) :=
  recalcGammaBins cfg en chg (mulRow dens frac)

/-- `time_evolution.py:369-373` for one group -/
def addInjection (p : Bins K × List K) (inj : List K) : Except Err (Bins K × List K) :=
  let d := List.zipWith (· + ·) p.2 inj
  if d.any (· < 0) then .error .negativeDensity else .ok (p.1, d)

/-- `time_evolution.py:379-387` for one group other than the first.  Simplification: the in-place
correction of `new_gm_bins[0]` by the call on line 386 is left out; see
`Verif/Model/BoundaryCorrection.lean` and C91. -/
def regrid (cfg : Cfg K) (gm : Bins K) (p : Bins K × List K) : Except Err (List K) :=
  if p.2.all (· == 0) || decide (p.1 = gm) then .ok p.2
  else do
    let d ← mkDist cfg.num p.1.lb p.2
    return gm.lb.map d.eval

/-- `time_evolution.py:390-392` for one group -/
def newFraction (total : List K) (d old : List K) : List K :=
  List.zipWith (fun t p => if t ≠ 0 then p.1 / t else p.2) total (List.zip d old)

/-- `_apply_time_eval`, `time_evolution.py:365-393`.  `chg` and `inj` have one entry per group; the loops
run over the rows of `sub`, so a missing entry is an IndexError and extra entries are ignored. -/
def applyTimeEval (cfg : Cfg K) (en : Bins K) (dens : List K) (sub : List (List K))
    (chg : List (Bins K)) (inj : List (List K)) : Except Err (Bins K × List K × List (List K)) := do
  if chg.length < sub.length || inj.length < sub.length then throw .indexError
  let moved ← (List.zip sub chg).mapM fun p => evalGroup cfg en dens p.1 p.2
  let moved ← (List.zip moved inj).mapM fun p => addInjection p.1 p.2
  match moved with
  | [] => throw .indexError
  | first :: rest =>
    let others ← rest.mapM (regrid cfg first.1)
    let newDens := first.2 :: others
    let total := colSum dens.length newDens
    return (first.1, total, (List.zip newDens sub).map fun p => newFraction total p.1 p.2)

/-- `_remove_gamma_beyond_bounds`, `time_evolution.py:431-439` -/
def removeBeyondBounds (lo hi : K) (b : Bins K) : Except Err (Bins K × List Int) := do
  let inside := b.lb.map fun g => decide (lo ≤ g ∧ g ≤ hi / (1 + binSizeFactor))
  let mapping := toInts (nonzero inside)
  if mapping.length < b.lb.length then
    return (⟨← gather b.lb mapping, ← gather b.ub mapping⟩, mapping)
  else return (b, arange b.lb.length)

/-- the lower half of `_add_boundary_bins`, `time_evolution.py:399-406` -/
def addLowerBin (num : Numerics K) (creep lo first : K) (b : Bins K) (m : List Int)
    (rate : List K) : Except Err (Bins K × List Int) :=
  if num.log10 first - num.log10 lo ≥ creep then do
    let r ← get rate 0
    return if r > 0 then (⟨lo :: b.lb, 0 :: b.ub⟩, -1 :: m) else (b, m)
  else return (b, m)

/-- the upper half of `_add_boundary_bins`, `time_evolution.py:407-414` -/
def addUpperBin (num : Numerics K) (creep hi last : K) (b : Bins K) (m : List Int)
    (rate : List K) : Except Err (Bins K × List Int) :=
  if num.log10 hi - num.log10 last ≥ creep then do
    let r ← get rate (-1)
    return if r < 0 then (⟨b.lb ++ [hi / (1 + binSizeFactor)], b.ub ++ [0]⟩, m ++ [-1]) else (b, m)
  else return (b, m)

/-- `_add_boundary_bins`, `time_evolution.py:395-415`; `rate` is `en_chg_rates[0]` (the lower-edge
row of the first group, indexed by the bins *before* re-mapping) -/
def addBoundaryBins (num : Numerics K) (creep lo hi : K) (b : Bins K) (rate : List K) :
    Except Err (Bins K × List Int) := do
  let first ← get b.lb 0
  let last ← get b.lb (-1)
  let (b1, m1) ← addLowerBin num creep lo first b (arange b.lb.length) rate
  addUpperBin num creep hi last b1 m1 rate

/-- element-wise `rates * time` -/
def scaleBins (t : K) (b : Bins K) : Bins K := ⟨b.lb.map (· * t), b.ub.map (· * t)⟩

def averageBins (a b : Bins K) : Bins K :=
  ⟨List.zipWith (fun x y => (x + y) / 2) a.lb b.lb, List.zipWith (fun x y => (x + y) / 2) a.ub b.ub⟩

/-- result of `_apply_time_changes` together with the new `blob.n_e` -/
structure StepOut (K : Type) where
  bins : Bins K
  dens : List K
  sub : List (List K)
  mapping : List Int
  dist : Dist K

/-- stages 1 and 2 of `_apply_time_changes`, `time_evolution.py:329-344`: new bins, densities,
fractions, distribution and the energy-change rates used by stage 5.
Note that in stage 2 the code passes the *updated* `subgroups_density` with the *old* density. -/
def applyStages12 (cfg : Cfg K) (en : Bins K) (dens : List K) (sub : List (List K))
    (enRates : List (Bins K)) (injRates : List (List K)) (t : K) :
    Except Err (Bins K × List K × List (List K) × Dist K × List (Bins K)) := do
  let inj := injRates.map (·.map (· * t))
  let (gm1, d1, sub1) ← applyTimeEval cfg en dens sub (enRates.map (scaleBins t)) inj
  let dist1 ← updateDistribution cfg.num gm1 d1
  if cfg.heun then
    let r ← newRates2 dist1 gm1 cfg.enFns d1 sub1
    let recalced ← (sumRates2 r gm1.lb.length cfg.subgroups).mapM finiteBins
    let avg := List.zipWith averageBins enRates recalced
    let (gm2, d2, sub2) ← applyTimeEval cfg en dens sub1 (avg.map (scaleBins t)) inj
    let dist2 ← updateDistribution cfg.num gm2 d2
    return (gm2, d2, sub2, dist2, avg)
  else return (gm1, d1, sub1, dist1, enRates)

/-- stages 4 and 5 of `_apply_time_changes`, `time_evolution.py:351-362` -/
def applyBounds (cfg : Cfg K) (b : Bins K) (d : List K) (s : List (List K)) (m : List Int)
    (rates : List (Bins K)) : Except Err (Bins K × List K × List (List K) × List Int) := do
  match cfg.gammaBounds with
  | none => return (b, d, s, m)
  | some (lo, hi) =>
    let (b4, m4) ← removeBeyondBounds lo hi b
    let d4 ← remap m4 d none
    let s4 ← remapSubgroups m4 s
    let mm4 ← combineMapping m m4
    let r0 ← get rates 0
    let (b5, m5) ← addBoundaryBins cfg.num cfg.maxBinCreep lo hi b4 r0.lb
    let d5 ← remap m5 d4 (some 0)
    let s5 ← remapSubgroups m5 s4
    let mm5 ← combineMapping mm4 m5
    return (b5, d5, s5, mm5)

/-- `_apply_time_changes`, `time_evolution.py:326-363` -/
def applyTimeChanges (cfg : Cfg K) (en : Bins K) (dens : List K) (sub : List (List K))
    (enRates : List (Bins K)) (injRates : List (List K)) (t : K) : Except Err (StepOut K) := do
  let (gm, d, s, dist, rates) ← applyStages12 cfg en dens sub enRates injRates t
  let (b3, d3, m3) ← sortAndMergeBins cfg gm d dist
  let s3 ← remapSubgroups m3 s
  let (b5, d5, s5, m5) ← applyBounds cfg b3 d3 s3 m3 rates
  return ⟨b5, d5, s5, m5, dist⟩

/-! ### automatic time steps -/

/-- `time_evolution.py:294-297`, one edge -/
def timeEdge (cfg : Cfg K) (e rate : K) : WithTop K :=
  if rate ≠ 0 then ((cfg.maxEnergyChange * e / |rate| : K) : WithTop K) else ⊤

/-- `time_evolution.py:303-309`, one bin -/
def timeDensity (cfg : Cfg K) (elo ehi rlo rhi : K) : WithTop K :=
  if rhi - rlo ≠ 0 then
    let xf := (ehi - elo) / (rhi - rlo)
    let thr := cfg.maxDensityChange
    ((if xf > 0 then xf * thr else -xf * thr / (1 + thr) : K) : WithTop K)
  else ⊤

/-- `time_evolution.py:313-314`, one bin -/
def timeRel (rel : K) : WithTop K := if rel < 0 then ((-(1 / 2) / rel : K) : WithTop K) else ⊤

/-- `time_evolution.py:318-320`, one bin -/
def timeAbs (cfg : Cfg K) (abs : K) : WithTop K :=
  if abs ≠ 0 then ((cfg.maxInjection / |abs| : K) : WithTop K) else ⊤

/-- `time_evolution.py:322`, one bin of one group -/
def maxTimeBin (cfg : Cfg K) (elo ehi rlo rhi rel abs : K) : WithTop K :=
  min (min (timeEdge cfg elo rlo) (timeEdge cfg ehi rhi))
    (min (timeDensity cfg elo ehi rlo rhi) (min (timeRel rel) (timeAbs cfg abs)))

/-- `time_evolution.py:289-322`, one group -/
def maxTimesGroup (cfg : Cfg K) (en rates : Bins K) (rel abs : List K) : List (WithTop K) :=
  List.zipWith (fun e r => maxTimeBin cfg e.1 e.2 r.1.1 r.1.2 r.2.1 r.2.2)
    (List.zip en.lb en.ub)
    (List.zip (List.zip rates.lb rates.ub) (List.zip rel abs))

/-- one turn of the loop of `_calc_max_time_per_bin` (`time_evolution.py:285-323`) -/
def maxTimesStep (cfg : Cfg K) (en : Bins K) (acc : List (WithTop K))
    (g : List K × Bins K × List K × List K) : Except Err (List (WithTop K)) :=
  if (List.zipWith (fun d a => decide (d = 0 ∧ a < 0)) g.1 g.2.2.2).any id then
    .error .escapeAtZeroDensity
  else .ok (List.zipWith min acc (maxTimesGroup cfg en g.2.1 g.2.2.1 g.2.2.2))

/-- `_calc_max_time_per_bin`, `time_evolution.py:281-324` -/
def calcMaxTimePerBin (cfg : Cfg K) (en : Bins K) (dens : List K) (sub : List (List K))
    (enG : List (Bins K)) (relG absG : List (List K)) : Except Err (List (WithTop K)) :=
  if enG.length < sub.length then .error .indexError
  else (List.zip (densitiesGrouped dens sub) (List.zip enG (List.zip relG absG))).foldlM
    (maxTimesStep cfg en) (List.replicate dens.length ⊤)

/-- `np.min` of a 1-d array -/
def minTime (l : List (WithTop K)) : Except Err (WithTop K) :=
  match l.min? with
  | some t => .ok t
  | none => .error .emptyReduction

/-! ### the loop -/

/-- loop variables of `evaluate` (`time_evolution.py:227-230`) and the blob's distribution -/
structure State (K : Type) where
  bins : Bins K
  dens : List K
  sub : List (List K)
  en : Rates2 K
  rel : Rates1 K
  abs : Rates1 K
  timeLeft : List (WithTop K)
  elapsed : K
  dist : Dist K

/-- `types.py:17-24` -/
structure Result (K : Type) where
  totalTime : K
  gamma : List K
  density : List K
  subgroups : List (List K)
  enChgRates : Rates1 K
  relInjRates : Rates1 K
  absInjRates : Rates1 K

/-- `energy_changes_lb`, `_time_evolution_utils.py:247-248` -/
def energyChangesLb (r : Rates2 K) : Rates1 K := r.map fun p => (p.1, p.2.lb)

/-- the value returned by `evaluate`, `time_evolution.py:278-279` -/
def resultOf (s : State K) : Result K :=
  ⟨s.elapsed, s.bins.lb, s.dens, s.sub, energyChangesLb s.en, s.rel, s.abs⟩

/-- the record passed to the callback, `time_evolution.py:272-274`: positional arguments, the sixth and
seventh being `abs_injection_rates, rel_injection_rates` -/
def callbackOf (s : State K) : Result K :=
  ⟨s.elapsed, s.bins.lb, s.dens, s.sub, energyChangesLb s.en, s.abs, s.rel⟩

/-- `time_evolution.py:199-207` -/
def initialSub (cfg : Cfg K) : Except Err (List (List K)) :=
  let n := cfg.initialGamma.length
  match cfg.subgroups with
  | some rows => match cfg.initialFractions with
    | some f => .ok f
    | none => match rows with
      | [] => .error .indexError
      | _ :: rs => .ok (List.replicate n 1 :: rs.map fun _ => List.replicate n 0)
  | none => .ok [List.replicate n 1]

/-- `_calculate_initial_values` and lines 227-230, `time_evolution.py:193-211`; `dist` is the blob's
distribution.  Simplification: the in-place correction of the gamma array by the distribution
(C29) is not applied here; `Verif/Model/BoundaryCorrection.lean` has it, and C91 says when it matters. -/
def initState (cfg : Cfg K) (dist : Dist K) : Except Err (State K) := do
  let lb := cfg.initialGamma
  let mask := List.replicate lb.length true
  let bins := updateBinUb ⟨lb, lb.map fun _ => 0⟩ mask
  let dens := lb.map dist.eval
  let sub ← initialSub cfg
  let en ← newRates2 dist bins cfg.enFns dens sub
  let rel ← newRates1 dist lb cfg.relFns dens sub
  let abs ← newRates1 dist lb cfg.absFns dens sub
  return ⟨bins, dens, sub, en, rel, abs, lb.map fun _ => 0, 0, dist⟩

/-- the grouped rates of one step (`_group_change_rates`, `time_evolution.py:417-421`) -/
def groupRates (cfg : Cfg K) (s : State K) :
    Except Err (List (Bins K) × List (List K) × List (List K)) := do
  let n := s.bins.lb.length
  let enG ← (sumRates2 s.en n cfg.subgroups).mapM finiteBins
  let relG ← (sumRates1 s.rel n cfg.subgroups).mapM finiteRow
  let absG ← (sumRates1 s.abs n cfg.subgroups).mapM finiteRow
  return (enG, relG, absG)

/-- `time_evolution.py:236-237` -/
def totalInjection (dens : List K) (sub relG absG : List (List K)) :
    Except Err (List (List K)) := do
  let x ← bcastRows mulRow (densitiesGrouped dens sub) relG
  bcastRows (List.zipWith (· + ·)) x absG

/-- step time before truncation and the updated `time_left_per_bin` (`time_evolution.py:238-248`) -/
def chooseStep (cfg : Cfg K) (s : State K) (enG : List (Bins K)) (relG absG : List (List K)) :
    Except Err (WithTop K × List (WithTop K)) := do
  match cfg.stepDuration with
  | .fixed dt => return ((dt : WithTop K), s.timeLeft)
  | .auto =>
    let maxTimes ← calcMaxTimePerBin cfg (toErg cfg s.bins) s.dens s.sub enG relG absG
    if cfg.optimize then
      let left := List.zipWith (fun l m => if l = 0 then m else l) s.timeLeft maxTimes
      return (← minTime left, left)
    else return (← minTime maxTimes, s.timeLeft)

/-- `time_evolution.py:249-250` -/
def truncStep (cfg : Cfg K) (elapsed : K) (t : WithTop K) : K :=
  if t > ((cfg.totalTime - elapsed : K) : WithTop K) then cfg.totalTime - elapsed
  else t.untopD (cfg.totalTime - elapsed)

/-- `time_left_per_bin - step_time` on one entry -/
def subTime (t : K) (x : WithTop K) : WithTop K := x.map (· - t)

/-- `time_evolution.py:255-262`: updated `time_left_per_bin` and `recalc_mask` -/
def recalcMask (cfg : Cfg K) (left : List (WithTop K)) (t : K) (o : StepOut K) :
    Except Err (List (WithTop K) × List Bool) := do
  if cfg.optimize then
    let l ← remap o.mapping (left.map (subTime t)) (some 0)
    let l := List.zipWith (fun u x => if u = 0 then 0 else x) o.bins.ub l
    let mask := l.map fun x => decide (x < (t : WithTop K))
    return (List.zipWith (fun m x => if m then 0 else x) mask l, mask)
  else return (left, o.dens.map fun _ => true)

/-- `time_evolution.py:263-270`: refresh bins and rates after a step -/
def refresh (cfg : Cfg K) (s : State K) (t : K) (o : StepOut K) (left : List (WithTop K))
    (mask : List Bool) : Except Err (State K) := do
  let bins := updateBinUb o.bins mask
  let en ← recalcRates2 o.dist bins cfg.enFns o.dens o.sub (← remapRates2 o.mapping s.en) mask
  let abs ← recalcRates1 o.dist bins.lb cfg.absFns o.dens o.sub (← remapRates1 o.mapping s.abs) mask
  let rel ← recalcRates1 o.dist bins.lb cfg.relFns o.dens o.sub (← remapRates1 o.mapping s.rel) mask
  return ⟨bins, o.dens, o.sub, en, rel, abs, left, s.elapsed + t, o.dist⟩

/-- body of the `while` loop, `time_evolution.py:233-270` -/
def step (cfg : Cfg K) (s : State K) : Except Err (State K) := do
  let (enG, relG, absG) ← groupRates cfg s
  let inj ← totalInjection s.dens s.sub relG absG
  let (t0, left) ← chooseStep cfg s enG relG absG
  let t := truncStep cfg s.elapsed t0
  let o ← applyTimeChanges cfg (toErg cfg s.bins) s.dens s.sub enG inj t
  let (left', mask) ← recalcMask cfg left t o
  refresh cfg s t o left' mask

/-- the `while` loop (`time_evolution.py:232`) with a bound on the number of iterations; `none` means the
loop is still running after `fuel` iterations -/
def loop (cfg : Cfg K) : Nat → State K → Except Err (Option (State K))
  | 0, s => if s.elapsed < cfg.totalTime then .ok none else .ok (some s)
  | n + 1, s =>
    if s.elapsed < cfg.totalTime then do loop cfg n (← step cfg s) else .ok (some s)

/-- `evaluate`, `time_evolution.py:213-279`: final state (from which result and `blob.n_e` are read) -/
def evaluate (cfg : Cfg K) (dist : Dist K) (fuel : Nat) : Except Err (Option (State K)) := do
  loop cfg fuel (← initState cfg dist)

/-- The states the loop of `evaluate` goes through (`time_evolution.py:227-270`). -/
inductive Reach (cfg : Cfg K) (dist : Dist K) : State K → Prop where
  | init {s : State K} : initState cfg dist = .ok s → Reach cfg dist s
  | step {s s' : State K} : Reach cfg dist s → s.elapsed < cfg.totalTime → step cfg s = .ok s' →
      Reach cfg dist s'

/-- `evaluate()` returns the record `r` and leaves `dist'` in `blob.n_e` -/
def Returns (cfg : Cfg K) (dist : Dist K) (r : Result K) (dist' : Dist K) : Prop :=
  ∃ fuel s, evaluate cfg dist fuel = .ok (some s) ∧ r = resultOf s ∧ dist' = s.dist

/-- during `evaluate()` the callback is called with the record `r` while `blob.n_e` is `dist'`
(whether or not the run later raises) -/
def CallsBack (cfg : Cfg K) (dist : Dist K) (r : Result K) (dist' : Dist K) : Prop :=
  ∃ s s', Reach cfg dist s ∧ s.elapsed < cfg.totalTime ∧ step cfg s = .ok s' ∧ r = callbackOf s' ∧
    dist' = s'.dist

/-- a record the user sees: returned or passed to the callback -/
def Observed (cfg : Cfg K) (dist : Dist K) (r : Result K) (dist' : Dist K) : Prop :=
  Returns cfg dist r dist' ∨ CallsBack cfg dist r dist'

/-- `remove_empty_densities`, `_time_evolution_utils.py:222-231` -/
def removeEmptyDensities (r : Result K) : Except Err (Result K) := do
  let mask := r.density.map fun d => decide (d > 0)
  let sub ← remapSubgroups (maskToMapping mask) r.subgroups
  let f := fun (d : Rates1 K) => d.map fun p => (p.1, select mask p.2)
  return ⟨r.totalTime, select mask r.gamma, select mask r.density, sub,
    f r.enChgRates, f r.relInjRates, f r.absInjRates⟩

end Verif.TE
