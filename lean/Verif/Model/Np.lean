/-
Numpy primitives used by the time-evolution code, on lists.

These are models of library functions (numpy), not of code in /repo; they are part of the
trusted reading.  Indices that numpy would reject give `Err.indexError`.
-/

namespace Verif

/-- Exceptions the modelled code can raise, one constructor per `raise` (or per numpy/scipy
rejection). -/
inductive Err where
  /-- `_time_evolution_utils.py:149` "Negative gamma obtained at bins" -/
  | negativeGamma
  /-- `_time_evolution_utils.py:154` "Negative density obtained at bins" -/
  | negativeWidth
  /-- a bin of exactly zero new width passes the check of line 152 and gives a density that is inf
  or NaN, which the interpolator of `update_distribution` then rejects with a ValueError -/
  | nonFiniteDensity
  /-- `time_evolution.py:372` "Negative density obtained" -/
  | negativeDensity
  /-- `time_evolution.py:287` "Particles cannot escape when density is zero" -/
  | escapeAtZeroDensity
  /-- `_time_evolution_utils.py:240` DistributionToSinglePointCollapseError -/
  | collapse
  /-- `_time_evolution_utils.py:90` "No default value provided for new elements" -/
  | noDefault
  /-- numpy IndexError -/
  | indexError
  /-- python KeyError -/
  | keyError
  /-- numpy ValueError: operands / reshape with incompatible shapes -/
  | shapeError
  /-- numpy ValueError: zero-size array to reduction operation -/
  | emptyReduction
  /-- scipy ValueError: too few or not strictly increasing abscissae, non finite values -/
  | interpError
  /-- not an exception of the code: marks a NaN placeholder being used as a rate -/
  | nanRate
  deriving DecidableEq, Repr

namespace Np



variable {α : Type} {β : Type}

/-- position selected by a (possibly negative) numpy index in an axis of length `n` -/
def npIndex (n : Nat) (i : Int) : Option Nat :=
  if 0 ≤ i then (if i < n then some i.toNat else none)
  else (if -(n : Int) ≤ i then some (i + n).toNat else none)

/-- one element, `v[i]` -/
def get (v : List α) (i : Int) : Except Err α :=
  match npIndex v.length i with
  | some j => match v[j]? with
    | some x => .ok x
    | none => .error .indexError
  | none => .error .indexError

/-- fancy indexing, `v[..., m]` for an index array `m` -/
def gather (v : List α) (m : List Int) : Except Err (List α) :=
  m.mapM (get v)

/-- `l[mask]` for a boolean mask -/
def select : List Bool → List α → List α
  | true :: bs, x :: xs => x :: select bs xs
  | false :: bs, _ :: xs => select bs xs
  | _, _ => []

/-- `old[mask] = new`, returning the updated array -/
def scatter : List Bool → List α → List α → List α
  | true :: bs, n :: ns, _ :: os => n :: scatter bs ns os
  | false :: bs, ns, o :: os => o :: scatter bs ns os
  | _, _, _ => []

/-- `mask.nonzero()[0]` -/
def nonzero (mask : List Bool) : List Nat :=
  (List.range mask.length).filter (fun i => mask[i]? == some true)

/-- `np.setdiff1d(np.arange(n), d)` -/
def setdiffRange (n : Nat) (d : List Nat) : List Nat :=
  (List.range n).filter (fun i => i ∉ d)

/-- `op(a[:-1], a[1:])`: a binary function of neighbouring elements -/
def adjacent (op : α → α → β) : List α → List β
  | x :: y :: r => op x y :: adjacent op (y :: r)
  | _ => []

/-- `np.split(l, idxs)` for an increasing list of split positions; `off` is the position of the
head of `l` in the original array -/
def splitFrom (off : Nat) (l : List α) : List Nat → List (List α)
  | [] => [l]
  | i :: is => l.take (i - off) :: splitFrom i (l.drop (i - off)) is

/-- `np.split(l, idxs)` -/
def split (l : List α) (idxs : List Nat) : List (List α) := splitFrom 0 l idxs

/-- `np.arange(n)` as an index array -/
def arange (n : Nat) : List Int := (List.range n).map Int.ofNat

end Np
end Verif
