import Mathlib.Tactic.FieldSimp
import Mathlib.Tactic.Ring
import Mathlib.Tactic.Positivity
import Mathlib.Tactic.Linarith
import Verif.Lemmas.Sums
import Verif.Lemmas.Rates

/-
Helper lemmas for C84: every function of the time evolution commutes with a change of the units of time, energy and
density.
-/

set_option linter.unusedSectionVars false

namespace Verif.TE

open Verif.Np

/-! ### commutation in `Except` -/

theorem bind_rel {ε α α' β β' : Type} {x : Except ε α} {x' : Except ε α'} {f : α → Except ε β}
    {f' : α' → Except ε β'} {φ : α → α'} {ψ : β → β'} (hx : x' = x.map φ)
    (hf : ∀ a, f' (φ a) = (f a).map ψ) : x' >>= f' = (x >>= f).map ψ := by
  subst hx
  cases x with
  | error e => rfl
  | ok a => exact hf a

theorem bind_same {ε α β β' : Type} {x : Except ε α} {f : α → Except ε β}
    {f' : α → Except ε β'} {ψ : β → β'} (hf : ∀ a, f' a = (f a).map ψ) : x >>= f' = (x >>= f).map ψ := by
  cases x with
  | error e => rfl
  | ok a => exact hf a

theorem mapM_rel {ε α α' β β' : Type} {f : α → Except ε β} {f' : α' → Except ε β'} {g : α → α'} {ψ : β → β'}
    {l : List α} (h : ∀ a ∈ l, f' (g a) = (f a).map ψ) : (l.map g).mapM f' = (l.mapM f).map (List.map ψ) := by
  induction l with
  | nil => rfl
  | cons a l ih =>
    rw [List.map_cons, List.mapM_cons, List.mapM_cons]
    refine bind_rel (h a (by simp)) fun b => ?_
    refine bind_rel (ih fun x hx => h x (by simp [hx])) fun bs => rfl

theorem mapM_rel₂ {ε α α' β β' : Type} {R : α → α' → Prop} {f : α → Except ε β} {f' : α' → Except ε β'} {ψ : β → β'}
    {l : List α} {l' : List α'} (hl : List.Forall₂ R l l') (h : ∀ a a', R a a' → f' a' = (f a).map ψ) :
    l'.mapM f' = (l.mapM f).map (List.map ψ) := by
  induction hl with
  | nil => rfl
  | cons ha _ ih =>
    rw [List.mapM_cons, List.mapM_cons]
    refine bind_rel (h _ _ ha) fun b => ?_
    exact bind_rel ih fun bs => rfl

theorem foldlM_rel {ε α α' β β' : Type} {f : β → α → Except ε β} {f' : β' → α' → Except ε β'} {g : α → α'} {ψ : β → β'}
    {l : List α} (h : ∀ b, ∀ a ∈ l, f' (ψ b) (g a) = (f b a).map ψ) (b : β) :
    (l.map g).foldlM f' (ψ b) = (l.foldlM f b).map ψ := by
  induction l generalizing b with
  | nil => rfl
  | cons a l ih =>
    rw [List.map_cons, List.foldlM_cons, List.foldlM_cons]
    exact bind_rel (h b a (by simp)) fun c => ih (fun b x hx => h b x (by simp [hx])) c

/-! ### numpy helpers -/

variable {α β : Type}

theorem get_map (f : α → β) (v : List α) (i : Int) : Np.get (v.map f) i = (Np.get v i).map f := by
  unfold Np.get
  rw [List.length_map]
  cases npIndex v.length i with
  | none => rfl
  | some j =>
    simp only [List.getElem?_map]
    cases v[j]? <;> rfl

theorem gather_map (f : α → β) (v : List α) (m : List Int) : gather (v.map f) m = (gather v m).map (List.map f) := by
  unfold gather
  have := mapM_rel (f := Np.get v) (f' := Np.get (v.map f)) (g := id) (ψ := f) (l := m)
    fun a _ => by rw [id, get_map]
  rwa [List.map_id] at this

theorem scatter_map (f : α → β) (m : List Bool) (new old : List α) :
    scatter m (new.map f) (old.map f) = (scatter m new old).map f := by
  induction m generalizing new old with
  | nil => cases new <;> cases old <;> simp [scatter]
  | cons b m ih =>
    cases b <;> cases new <;> cases old <;> simp [scatter]
    · have := ih [] ; simp at this; exact this _
    · have := fun n ns => ih (n :: ns) ; simp at this; exact this _ _ _
    · exact ih _ _

theorem remap_map (f : α → β) (mapping : List Int) (v : List α) (d : Option α) :
    remap mapping (v.map f) (d.map f) = (remap mapping v d).map (List.map f) := by
  unfold remap
  refine bind_rel (gather_map f v mapping) fun r => ?_
  split
  · cases d with
    | none => rfl
    | some d =>
      simp only [Option.map_some]
      show Except.ok _ = Except.ok _
      congr 1
      rw [List.map_zipWith, List.zipWith_map_right]
      congr 1
      funext i x
      split <;> rfl
  · rfl

theorem adjacent_map {γ : Type} (f : α → β) (op : β → β → γ) (l : List α) :
    adjacent op (l.map f) = adjacent (fun a b => op (f a) (f b)) l := by
  induction l with
  | nil => rfl
  | cons a l ih =>
    cases l with
    | nil => rfl
    | cons b l => simp only [List.map_cons, adjacent] at ih ⊢; rw [ih]

theorem any_zipWith_map {γ : Type} (p : γ → Bool) (f : α → γ) (l : List α) : (l.map f).any p = l.any fun x => p (f x) := by
  simp [List.any_map, Function.comp_def]

section

variable {K : Type} [Field K] [LinearOrder K] [IsStrictOrderedRing K]

/-! ### scaling -/

/-- all elements multiplied by `a` -/
def mulL (a : K) (l : List K) : List K := l.map (a * ·)

/-- all entries of a `(2,N)` array multiplied by `a` -/
def mulB (a : K) (b : Bins K) : Bins K := ⟨mulL a b.lb, mulL a b.ub⟩

/-- the same for rates, NaN staying NaN -/
def mulV (a : K) (l : List (NV K)) : List (NV K) := l.map (Option.map (a * ·))

def mulVB (a : K) (b : Bins (NV K)) : Bins (NV K) := ⟨mulV a b.lb, mulV a b.ub⟩

def mulR1 (a : K) (r : Rates1 K) : Rates1 K := r.map fun p => (p.1, mulV a p.2)

def mulR2 (a : K) (r : Rates2 K) : Rates2 K := r.map fun p => (p.1, mulVB a p.2)

/-- times multiplied by `a`, infinity staying infinite -/
def mulT (a : K) (l : List (WithTop K)) : List (WithTop K) := l.map (WithTop.map (a * ·))

/-- the same particles, densities in another unit -/
def Dist.mul (a : K) (d : Dist K) : Dist K := ⟨fun x => a * d.eval x, d.gammaMin, d.gammaMax⟩

def FnParams.mul (a : K) (p : FnParams K) : FnParams K := { p with densities := mulL a p.densities }

@[simp] theorem mulL_length (a : K) (l : List K) : (mulL a l).length = l.length := by simp [mulL]

@[simp] theorem mulT_length (a : K) (l : List (WithTop K)) : (mulT a l).length = l.length := by simp [mulT]

theorem mulL_some (a : K) (l : List K) : (mulL a l).map some = mulV a (l.map some) := by
  simp [mulL, mulV, Function.comp_def]

theorem zipWith_mul (a b c : K) (h : a * b = c) (x y : List K) :
    List.zipWith (· * ·) (mulL a x) (mulL b y) = mulL c (List.zipWith (· * ·) x y) := by
  subst h
  simp only [mulL, List.zipWith_map, List.map_zipWith]
  congr 1; funext u v; ring

theorem zipWith_add (a : K) (x y : List K) :
    List.zipWith (· + ·) (mulL a x) (mulL a y) = mulL a (List.zipWith (· + ·) x y) := by
  simp only [mulL, List.zipWith_map, List.map_zipWith]
  congr 1; funext u v; ring

theorem zipWith_sub (a : K) (x y : List K) :
    List.zipWith (· - ·) (mulL a x) (mulL a y) = mulL a (List.zipWith (· - ·) x y) := by
  simp only [mulL, List.zipWith_map, List.map_zipWith]
  congr 1; funext u v; ring

theorem zipWith_div {a : K} (ha : a ≠ 0) (x y : List K) :
    List.zipWith (· / ·) (mulL a x) (mulL a y) = List.zipWith (· / ·) x y := by
  simp only [mulL, List.zipWith_map]
  congr 1; funext u v; rw [mul_div_mul_left _ _ ha]

theorem mulL_one (l : List K) : mulL 1 l = l := by simp [mulL]

theorem mulRow_mul (a : K) (x y : List K) : mulRow (mulL a x) y = mulL a (mulRow x y) := by
  have := zipWith_mul a 1 a (mul_one a) x y
  rw [mulL_one] at this
  exact this

theorem densitiesGrouped_mul (a : K) (d : List K) (sub : List (List K)) :
    densitiesGrouped (mulL a d) sub = (densitiesGrouped d sub).map (mulL a) := by
  simp only [densitiesGrouped, List.map_map]
  congr 1; funext r; exact mulRow_mul a d r

/-! ### distributions -/

/-- interpolation in logarithms commutes with a change of the unit of density -/
def Numerics.Homogeneous (num : Numerics K) (a : K) : Prop :=
  ∀ xs ys : List K, num.interp xs (mulL a ys) = (num.interp xs ys).map fun f x => a * f x

theorem mkDist_mul {num : Numerics K} {a : K} (ha : 0 < a) (hh : num.Homogeneous a) (g n : List K) :
    mkDist num g (mulL a n) = (mkDist num g n).map (Dist.mul a) := by
  unfold mkDist
  have hv : (mulL a n).map (fun v => decide (v ≠ 0)) = n.map fun v => decide (v ≠ 0) := by
    simp only [mulL, List.map_map]
    congr 1; funext v
    simp [ha.ne']
  rw [hv]
  simp only [mulL, ← select_map]
  simp only [select_map]
  have := hh (select (n.map fun v => decide (v ≠ 0)) g) (select (n.map fun v => decide (v ≠ 0)) n)
  simp only [mulL] at this
  rw [this]
  cases num.interp (select (n.map fun v => decide (v ≠ 0)) g) (select (n.map fun v => decide (v ≠ 0)) n) with
  | none => rfl
  | some f =>
    simp only [Option.map_some]
    cases (select (n.map fun v => decide (v ≠ 0)) g).min? with
    | none => rfl
    | some lo =>
      cases (select (n.map fun v => decide (v ≠ 0)) g).max? with
      | none => rfl
      | some hi =>
        simp only [Except.map, Dist.mul, Except.ok.injEq, Dist.mk.injEq, and_true]
        funext x
        split <;> simp

theorem members_mul (a : K) (x : List K) (groups : List (List Nat)) (g : Nat) :
    members (mulL a x) groups g = mulL a (members x groups g) := by
  unfold members
  rw [mulL_length]
  simp only [mulL, select_map]

theorem sum_mulL (a : K) (l : List K) : (mulL a l).sum = a * l.sum := by
  induction l with
  | nil => simp [mulL]
  | cons x l ih =>
    simp only [mulL, List.map_cons, List.sum_cons] at ih ⊢
    rw [ih, mul_add]

theorem mean_mul (a : K) (l : List K) : mean (mulL a l) = a * mean l := by
  unfold mean
  rw [sum_mulL, mulL_length, mul_div_assoc]

theorem getD_mulL (a : K) (l : List K) (i : Nat) : (mulL a l).getD i 0 = a * l.getD i 0 := by
  simp only [mulL, List.getD_eq_getElem?_getD, List.getElem?_map]
  cases l[i]? <;> simp

theorem mergePoints_mul (num : Numerics K) (a : K) (x y : List K) (groups : List (List Nat)) (d : Option (Dist K)) :
    mergePoints num x (mulL a y) groups (d.map (Dist.mul a))
      = ((mergePoints num x y groups d).1, mulL a (mergePoints num x y groups d).2) := by
  unfold mergePoints
  simp only [Prod.mk.injEq, true_and]
  simp only [mulL, List.map_map]
  refine List.map_congr_left fun i _ => ?_
  simp only [Function.comp_apply]
  cases label groups i with
  | none => exact getD_mulL a y i
  | some g =>
    simp only
    cases d with
    | none =>
      simp only [Option.map_none]
      exact (congrArg mean (members_mul a y groups g)).trans (mean_mul a _)
    | some d => rfl

/-- bins unchanged, densities multiplied -/
def mulOut (a : K) (p : Bins K × List K × List Int) : Bins K × List K × List Int := (p.1, mulL a p.2.1, p.2.2)

theorem sortAndMergeDuplicates_mul (num : Numerics K) (a : K) (b : Bins K) (dens : List K) (d : Option (Dist K)) :
    sortAndMergeDuplicates num b (mulL a dens) (d.map (Dist.mul a))
      = (sortAndMergeDuplicates num b dens d).map (mulOut a) := by
  unfold sortAndMergeDuplicates
  refine bind_same fun lb => bind_same fun ub => ?_
  refine bind_rel (gather_map _ dens _) fun dn => ?_
  simp only
  split
  · refine bind_same fun mapping => ?_
    have := mergePoints_mul num a lb dn
      (groupDuplicates ((nonzero (adjacent (fun a c => decide (a = c)) (lb.map num.log10))).map (· + 1))) d
    unfold mulL at this
    show Except.ok _ = Except.ok _
    rw [this]
    rfl
  · rfl

theorem removeTooCloseBins_mul (num : Numerics K) (thr a : K) (b : Bins K) (dens : List K) (d : Dist K) :
    removeTooCloseBins num thr b (mulL a dens) (d.mul a) = (removeTooCloseBins num thr b dens d).map (mulOut a) := by
  unfold removeTooCloseBins
  refine bind_same fun mask => ?_
  rw [mulL_length]
  split
  · refine bind_same fun ub => ?_
    have := mergePoints_mul num a b.lb dens (groupDuplicates ((nonzero mask).map (· + 1))) (some d)
    rw [Option.map_some] at this
    show Except.ok _ = Except.ok _
    rw [this]
    rfl
  · rfl

theorem all_zero_mul {a : K} (ha : 0 < a) (l : List K) : (mulL a l).all (· == 0) = l.all (· == 0) := by
  simp only [mulL, List.all_map]
  congr 1; funext x
  simp [ha.ne']

theorem any_neg_mul {a : K} (ha : 0 < a) (l : List K) : (mulL a l).any (· < 0) = l.any (· < 0) := by
  simp only [mulL, List.any_map]
  congr 1; funext x
  simp [mul_neg_iff, ha, ha.le, not_lt.2 ha.le]

theorem any_nonpos_mul {a : K} (ha : 0 < a) (l : List K) : (mulL a l).any (· ≤ 0) = l.any (· ≤ 0) := by
  simp only [mulL, List.any_map]
  congr 1; funext x
  simp only [Function.comp_apply, decide_eq_decide]
  exact ⟨fun h => by by_contra hn; exact absurd (mul_pos ha (not_le.1 hn)) (not_lt.2 h),
    fun h => mul_nonpos_of_nonneg_of_nonpos ha.le h⟩

theorem any_zero_mul {a : K} (ha : 0 < a) (l : List K) : (mulL a l).any (· == 0) = l.any (· == 0) := by
  simp only [mulL, List.any_map]
  congr 1; funext x
  simp [ha.ne']

theorem updateDistribution_mul {num : Numerics K} {a : K} (ha : 0 < a) (hh : num.Homogeneous a) (b : Bins K)
    (dens : List K) : updateDistribution num b (mulL a dens) = (updateDistribution num b dens).map (Dist.mul a) := by
  unfold updateDistribution
  have := sortAndMergeDuplicates_mul num a b dens none
  rw [Option.map_none] at this
  refine bind_rel this fun p => ?_
  obtain ⟨b1, d1, m⟩ := p
  show (if (mulL a d1).all (· == 0) then pure (emptyDist (Bound.array b1.lb) (Bound.array b1.ub))
      else if b1.lb.length = 1 then throw Err.collapse else mkDist num b1.lb (mulL a d1)) = _
  rw [all_zero_mul ha]
  dsimp only
  split
  · show Except.ok _ = Except.ok _
    simp [emptyDist, Dist.mul]
  · split
    · rfl
    · exact mkDist_mul ha hh _ _

/-! ### rates -/

theorem remapRates1_mul (a : K) (m : List Int) (r : Rates1 K) :
    remapRates1 m (mulR1 a r) = (remapRates1 m r).map (mulR1 a) := by
  unfold remapRates1
  refine mapM_rel fun p _ => ?_
  exact bind_rel (remap_map (Option.map (a * ·)) m p.2 (some none)) fun v => rfl

theorem remapBins_mulV (a : K) (m : List Int) (b : Bins (NV K)) :
    remapBins m (mulVB a b) (some none) = (remapBins m b (some none)).map (mulVB a) := by
  unfold remapBins
  refine bind_rel (remap_map (Option.map (a * ·)) m b.lb (some none)) fun v => ?_
  exact bind_rel (remap_map (Option.map (a * ·)) m b.ub (some none)) fun v => rfl

theorem remapRates2_mul (a : K) (m : List Int) (r : Rates2 K) :
    remapRates2 m (mulR2 a r) = (remapRates2 m r).map (mulR2 a) := by
  unfold remapRates2
  refine mapM_rel fun p _ => ?_
  exact bind_rel (remapBins_mulV a m p.2) fun v => rfl

theorem deinterlace_mul (a : K) (l : List K) :
    deinterlace (mulL a l) = (mulL a (deinterlace l).1, mulL a (deinterlace l).2) := by
  unfold mulL
  induction l using deinterlace.induct with
  | case1 x y r ih =>
    simp only [List.map_cons, deinterlace, ih]
  | case2 l h =>
    cases l with
    | nil => rfl
    | cons x l =>
      cases l with
      | nil => rfl
      | cons y r => exact absurd rfl (h x y r)

theorem reshape2_mul (a : K) (n : Nat) (l : List K) : reshape2 n (mulL a l) = (reshape2 n l).map (mulB a) := by
  unfold reshape2
  rw [mulL_length, deinterlace_mul]
  split <;> rfl

theorem reshape1_mul (a : K) (n : Nat) (l : List K) : reshape1 n (mulL a l) = (reshape1 n l).map (mulL a) := by
  unfold reshape1
  rw [mulL_length]
  split <;> rfl

theorem dictGet_map {α β : Type} (f : α → β) (d : List (String × α)) (k : String) :
    dictGet (d.map fun p => (p.1, f p.2)) k = (dictGet d k).map f := by
  unfold dictGet
  rw [lookup_map]
  cases d.lookup k <;> rfl

theorem params2_mul (a : K) (b : Bins K) (dens : List K) (sub : List (List K)) (mask : List Bool) :
    params2 b (mulL a dens) sub mask = (params2 b dens sub mask).map (FnParams.mul a) := by
  unfold params2
  refine bind_same fun s => ?_
  show Except.ok _ = Except.ok _
  simp only [FnParams.mul, mulL, select_map]

theorem params1_mul (a : K) (g dens : List K) (sub : List (List K)) (mask : List Bool) :
    params1 g (mulL a dens) sub mask = (params1 g dens sub mask).map (FnParams.mul a) := by
  unfold params1
  refine bind_same fun s => ?_
  show Except.ok _ = Except.ok _
  simp only [FnParams.mul, mulL, select_map]

/-- the same process in another system of units: densities (in the arguments) multiplied by `a`, the rate by `c` -/
def SameFn (a c : K) (f f' : String × GammaFn K) : Prop :=
  f'.1 = f.1 ∧ ∀ d p, f'.2 (Dist.mul a d) (FnParams.mul a p) = mulL c (f.2 d p)

theorem recalcRates2_mul {a c : K} {fns fns' : List (String × GammaFn K)} (hf : List.Forall₂ (SameFn a c) fns fns')
    (dist : Dist K) (b : Bins K) (dens : List K) (sub : List (List K)) (prev : Rates2 K) (mask : List Bool) :
    recalcRates2 (dist.mul a) b fns' (mulL a dens) sub (mulR2 c prev) mask
      = (recalcRates2 dist b fns dens sub prev mask).map (mulR2 c) := by
  unfold recalcRates2
  refine bind_rel (params2_mul a b dens sub mask) fun p => ?_
  refine mapM_rel₂ hf fun f f' h => ?_
  rw [h.1]
  refine bind_rel (dictGet_map (mulVB c) prev f.1) fun old => ?_
  rw [h.2]
  refine bind_rel (reshape2_mul c _ _) fun new => ?_
  show Except.ok _ = Except.ok _
  simp only [mulB, mulVB, mulL_some]
  simp only [mulV, scatter_map]

theorem recalcRates1_mul {a c : K} {fns fns' : List (String × GammaFn K)} (hf : List.Forall₂ (SameFn a c) fns fns')
    (dist : Dist K) (g dens : List K) (sub : List (List K)) (prev : Rates1 K) (mask : List Bool) :
    recalcRates1 (dist.mul a) g fns' (mulL a dens) sub (mulR1 c prev) mask
      = (recalcRates1 dist g fns dens sub prev mask).map (mulR1 c) := by
  unfold recalcRates1
  refine bind_rel (params1_mul a g dens sub mask) fun p => ?_
  refine mapM_rel₂ hf fun f f' h => ?_
  rw [h.1]
  refine bind_rel (dictGet_map (mulV c) prev f.1) fun old => ?_
  rw [h.2]
  refine bind_rel (reshape1_mul c _ _) fun new => ?_
  show Except.ok _ = Except.ok _
  simp only [mulL_some]
  simp only [mulV, scatter_map]

theorem newRates2_mul {a c : K} {fns fns' : List (String × GammaFn K)} (hf : List.Forall₂ (SameFn a c) fns fns')
    (dist : Dist K) (b : Bins K) (dens : List K) (sub : List (List K)) :
    newRates2 (dist.mul a) b fns' (mulL a dens) sub = (newRates2 dist b fns dens sub).map (mulR2 c) := by
  unfold newRates2
  refine bind_rel (params2_mul a b dens sub _) fun p => ?_
  refine mapM_rel₂ hf fun f f' h => ?_
  rw [h.1, h.2]
  refine bind_rel (reshape2_mul c _ _) fun new => ?_
  show Except.ok _ = Except.ok _
  simp only [mulB, mulVB, mulL_some]

theorem newRates1_mul {a c : K} {fns fns' : List (String × GammaFn K)} (hf : List.Forall₂ (SameFn a c) fns fns')
    (dist : Dist K) (g dens : List K) (sub : List (List K)) :
    newRates1 (dist.mul a) g fns' (mulL a dens) sub = (newRates1 dist g fns dens sub).map (mulR1 c) := by
  unfold newRates1
  refine bind_rel (params1_mul a g dens sub _) fun p => ?_
  refine mapM_rel₂ hf fun f f' h => ?_
  rw [h.1, h.2]
  refine bind_rel (reshape1_mul c _ _) fun new => ?_
  show Except.ok _ = Except.ok _
  simp only [mulL_some]

theorem addRow_mul (a : K) (x y : List (NV K)) : addRow (mulV a x) (mulV a y) = mulV a (addRow x y) := by
  simp only [addRow, mulV, List.zipWith_map, List.map_zipWith]
  congr 1; funext u v
  cases u <;> cases v <;> simp [addNV, mul_add]

theorem zerosNV_mul (a : K) (n : Nat) : mulV a (zerosNV n) = zerosNV n := by
  simp [mulV, zerosNV]

theorem foldl_addRow_mul (a : K) (ls : List (List (NV K))) (z : List (NV K)) :
    (ls.map (mulV a)).foldl addRow (mulV a z) = mulV a (ls.foldl addRow z) := by
  induction ls generalizing z with
  | nil => rfl
  | cons l ls ih => simp only [List.map_cons, List.foldl_cons]; rw [addRow_mul, ih]

theorem addBins_mul (a : K) (x y : Bins (NV K)) : addBins (mulVB a x) (mulVB a y) = mulVB a (addBins x y) := by
  simp only [addBins, mulVB, addRow_mul]

theorem foldl_addBins_mul (a : K) (ls : List (Bins (NV K))) (z : Bins (NV K)) :
    (ls.map (mulVB a)).foldl addBins (mulVB a z) = mulVB a (ls.foldl addBins z) := by
  induction ls generalizing z with
  | nil => rfl
  | cons l ls ih => simp only [List.map_cons, List.foldl_cons]; rw [addBins_mul, ih]

theorem any_lookup_map {α β : Type} (f : α → β) (r : List (String × α)) (row : List String) :
    (row.any fun x => ((r.map fun p => (p.1, f p.2)).lookup x).isSome) = row.any fun x => (r.lookup x).isSome := by
  congr 1; funext x
  rw [lookup_map]; simp

theorem sumRates1_mul (a : K) (r : Rates1 K) (n : Nat) (sg : Option (List (List String))) :
    sumRates1 (mulR1 a r) n sg = (sumRates1 r n sg).map (mulV a) := by
  unfold sumRates1
  cases sg with
  | none =>
    simp only [List.map_cons, List.map_nil, ← foldl_addRow_mul, zerosNV_mul]
    simp only [mulR1, List.map_map, Function.comp_def]
  | some rows =>
    simp only [List.map_map]
    refine List.map_congr_left fun row _ => ?_
    simp only [Function.comp_apply, mulR1, any_lookup_map, filterMap_lookup_map]
    split
    · rw [← foldl_addRow_mul, zerosNV_mul]
    · rw [zerosNV_mul]

theorem zerosB_mul (a : K) (n : Nat) : mulVB a (⟨zerosNV n, zerosNV n⟩ : Bins (NV K)) = ⟨zerosNV n, zerosNV n⟩ := by
  simp only [mulVB, zerosNV_mul]

theorem sumRates2_mul (a : K) (r : Rates2 K) (n : Nat) (sg : Option (List (List String))) :
    sumRates2 (mulR2 a r) n sg = (sumRates2 r n sg).map (mulVB a) := by
  unfold sumRates2
  cases sg with
  | none =>
    simp only [List.map_cons, List.map_nil, ← foldl_addBins_mul, zerosB_mul]
    simp only [mulR2, List.map_map, Function.comp_def]
  | some rows =>
    simp only [List.map_map]
    refine List.map_congr_left fun row _ => ?_
    simp only [Function.comp_apply, mulR2, any_lookup_map, filterMap_lookup_map]
    split
    · rw [← foldl_addBins_mul, zerosB_mul]
    · rw [zerosB_mul]

theorem finiteRow_mul (a : K) (l : List (NV K)) : finiteRow (mulV a l) = (finiteRow l).map (mulL a) := by
  unfold finiteRow
  refine mapM_rel fun x _ => ?_
  cases x <;> rfl

theorem finiteBins_mul (a : K) (b : Bins (NV K)) : finiteBins (mulVB a b) = (finiteBins b).map (mulB a) := by
  unfold finiteBins
  refine bind_rel (finiteRow_mul a b.lb) fun x => ?_
  exact bind_rel (finiteRow_mul a b.ub) fun y => rfl

/-! ### one step -/

theorem recalcEnergyBins_mul {a : K} (ha : 0 < a) (chg en : Bins K) :
    recalcEnergyBins (mulB a chg) (mulB a en)
      = (recalcEnergyBins chg en).map fun p => (mulB a p.1, p.2) := by
  unfold recalcEnergyBins
  simp only [mulB, zipWith_add, zipWith_sub, any_nonpos_mul ha, any_neg_mul ha, any_zero_mul ha, zipWith_div ha.ne']
  split
  · rfl
  · split
    · rfl
    · split <;> rfl

theorem map_div_mul {a m : K} (ha : a ≠ 0) (l : List K) : (mulL a l).map (· / (a * m)) = l.map (· / m) := by
  simp only [mulL, List.map_map]
  congr 1; funext x
  simp only [Function.comp_apply]
  rw [mul_div_mul_left _ _ ha]

/-- what a change of units does to a configuration (see `Rescaled`); `t`, `e`, `n` are the numbers of new units in an old
unit of time, energy and density -/
structure Units (K : Type) [Field K] [LinearOrder K] where
  t : K
  e : K
  n : K
  ht : 0 < t
  he : 0 < e
  hn : 0 < n

/-- the time step in new units -/
def StepMode.mul (a : K) : StepMode K → StepMode K
  | .fixed dt => .fixed (a * dt)
  | .auto => .auto

/-- `cfg'` describes in new units what `cfg` describes in old ones -/
structure Rescaled (u : Units K) (cfg cfg' : Cfg K) : Prop where
  num : cfg'.num = cfg.num
  mec2 : cfg'.mec2 = u.e * cfg.mec2
  totalTime : cfg'.totalTime = u.t * cfg.totalTime
  stepDuration : cfg'.stepDuration = cfg.stepDuration.mul u.t
  enFns : List.Forall₂ (SameFn u.n (u.e / u.t)) cfg.enFns cfg'.enFns
  relFns : List.Forall₂ (SameFn u.n (1 / u.t)) cfg.relFns cfg'.relFns
  absFns : List.Forall₂ (SameFn u.n (u.n / u.t)) cfg.absFns cfg'.absFns
  initialGamma : cfg'.initialGamma = cfg.initialGamma
  gammaBounds : cfg'.gammaBounds = cfg.gammaBounds
  maxBinCreep : cfg'.maxBinCreep = cfg.maxBinCreep
  mergeCloser : cfg'.mergeCloser = cfg.mergeCloser
  maxEnergyChange : cfg'.maxEnergyChange = cfg.maxEnergyChange
  maxDensityChange : cfg'.maxDensityChange = cfg.maxDensityChange
  maxInjection : cfg'.maxInjection = u.n * cfg.maxInjection
  optimize : cfg'.optimize = cfg.optimize
  heun : cfg'.heun = cfg.heun
  subgroups : cfg'.subgroups = cfg.subgroups
  initialFractions : cfg'.initialFractions = cfg.initialFractions

variable {u : Units K} {cfg cfg' : Cfg K}

/-- bins unchanged, densities multiplied -/
def mulPair (a : K) (p : Bins K × List K) : Bins K × List K := (p.1, mulL a p.2)

theorem zipWith_mul_left (a : K) (x y : List K) :
    List.zipWith (· * ·) (mulL a x) y = mulL a (List.zipWith (· * ·) x y) := mulRow_mul a x y

theorem evalGroup_mul (h : Rescaled u cfg cfg') (en : Bins K) (dens frac : List K) (chg : Bins K) :
    evalGroup cfg' (mulB u.e en) (mulL u.n dens) frac (mulB u.e chg)
      = (evalGroup cfg en dens frac chg).map (mulPair u.n) := by
  unfold evalGroup recalcGammaBins
  refine bind_rel (recalcEnergyBins_mul u.he chg en) fun p => ?_
  show Except.ok _ = Except.ok _
  simp only [mulB, h.mec2, map_div_mul u.he.ne', mulRow_mul, zipWith_mul_left, mulPair]

theorem addInjection_mul {a : K} (ha : 0 < a) (p : Bins K × List K) (inj : List K) :
    addInjection (mulPair a p) (mulL a inj) = (addInjection p inj).map (mulPair a) := by
  unfold addInjection
  simp only [mulPair, zipWith_add, any_neg_mul ha]
  split <;> rfl

theorem regrid_mul (h : Rescaled u cfg cfg') (hh : cfg.num.Homogeneous u.n) (gm : Bins K) (p : Bins K × List K) :
    regrid cfg' gm (mulPair u.n p) = (regrid cfg gm p).map (mulL u.n) := by
  obtain ⟨b, d⟩ := p
  unfold regrid
  show (if ((mulL u.n d).all (· == 0) || decide (b = gm)) = true then _ else _) = _
  rw [all_zero_mul u.hn]
  split
  · rfl
  · rw [h.num]
    refine bind_rel (mkDist_mul u.hn hh _ _) fun d => ?_
    show Except.ok _ = Except.ok _
    simp [Dist.mul, mulL, Function.comp_def]

theorem colSum_mul (a : K) (n : Nat) (rows : List (List K)) :
    colSum n (rows.map (mulL a)) = mulL a (colSum n rows) := by
  unfold colSum
  induction rows with
  | nil => simp [mulL]
  | cons r rows ih => simp only [List.map_cons, List.foldr_cons]; rw [ih, zipWith_add]

theorem newFraction_mul {a : K} (ha : a ≠ 0) (total d old : List K) :
    newFraction (mulL a total) (mulL a d) old = newFraction total d old := by
  unfold newFraction
  simp only [mulL, List.zip_map_left, List.zipWith_map]
  congr 1; funext t p
  simp only [Prod.map_fst, Prod.map_snd, id_eq, ne_eq, mul_eq_zero, ha, false_or]
  split
  · rw [mul_div_mul_left _ _ ha]
  · rfl

theorem zip_map_both {α β α' β' : Type} (f : α → α') (g : β → β') (l : List α) (m : List β) :
    List.zip (l.map f) (m.map g) = (List.zip l m).map fun p => (f p.1, g p.2) := by
  rw [List.zip_map]; rfl

/-- bins and fractions unchanged, densities multiplied -/
def mulTriple (a : K) (p : Bins K × List K × List (List K)) : Bins K × List K × List (List K) :=
  (p.1, mulL a p.2.1, p.2.2)

theorem applyTimeEval_mul (h : Rescaled u cfg cfg') (hh : cfg.num.Homogeneous u.n) (en : Bins K) (dens : List K)
    (sub : List (List K)) (chg : List (Bins K)) (inj : List (List K)) :
    applyTimeEval cfg' (mulB u.e en) (mulL u.n dens) sub (chg.map (mulB u.e)) (inj.map (mulL u.n))
      = (applyTimeEval cfg en dens sub chg inj).map (mulTriple u.n) := by
  unfold applyTimeEval
  simp only [List.length_map, mulL_length]
  split
  · rfl
  · show (_ >>= _) = Except.map _ (_ >>= _)
    have e1 : List.zip sub (chg.map (mulB u.e)) = (List.zip sub chg).map fun p => (p.1, mulB u.e p.2) := by
      have := zip_map_both id (mulB u.e) sub chg
      rwa [List.map_id] at this
    rw [e1]
    refine bind_rel (mapM_rel fun p _ => evalGroup_mul h en dens p.1 p.2) fun moved => ?_
    rw [zip_map_both]
    refine bind_rel (mapM_rel fun p _ => addInjection_mul u.hn p.1 p.2) fun moved => ?_
    cases moved with
    | nil => rfl
    | cons first rest =>
      simp only [List.map_cons]
      refine bind_rel (mapM_rel fun p _ => regrid_mul h hh _ p) fun others => ?_
      show Except.ok _ = Except.ok _
      have e2 : (mulPair u.n first).2 :: List.map (mulL u.n) others = (first.2 :: others).map (mulL u.n) := rfl
      simp only [e2, colSum_mul, mulTriple]
      show Except.ok (first.1, _, _) = Except.ok (first.1, _, _)
      refine congrArg (fun z => Except.ok (first.1, mulL u.n (colSum dens.length (first.2 :: others)), z)) ?_
      have := zip_map_both (mulL u.n) id (first.2 :: others) sub
      rw [List.map_id] at this
      rw [this, List.map_map]
      refine List.map_congr_left fun p _ => ?_
      simp only [Function.comp_apply, newFraction_mul u.hn.ne', id]

theorem scaleBins_mul {a t c : K} (h : a * t = c) (s : K) (b : Bins K) :
    scaleBins (t * s) (mulB a b) = mulB c (scaleBins s b) := by
  subst h
  simp only [scaleBins, mulB, mulL, List.map_map, Bins.mk.injEq]
  constructor <;> (congr 1; funext x; simp only [Function.comp_apply]; ring)

theorem averageBins_mul (a : K) (x y : Bins K) : averageBins (mulB a x) (mulB a y) = mulB a (averageBins x y) := by
  simp only [averageBins, mulB, mulL, List.zipWith_map, List.map_zipWith, Bins.mk.injEq]
  constructor <;> (congr 1; funext x y; ring)

/-- what the first two stages return, in new units -/
def mulStages (u : Units K) (p : Bins K × List K × List (List K) × Dist K × List (Bins K)) :
    Bins K × List K × List (List K) × Dist K × List (Bins K) :=
  (p.1, mulL u.n p.2.1, p.2.2.1, p.2.2.2.1.mul u.n, p.2.2.2.2.map (mulB (u.e / u.t)))

theorem applyStages12_mul (h : Rescaled u cfg cfg') (hh : cfg.num.Homogeneous u.n) (en : Bins K) (dens : List K)
    (sub : List (List K)) (enR : List (Bins K)) (inj : List (List K)) (s : K) :
    applyStages12 cfg' (mulB u.e en) (mulL u.n dens) sub (enR.map (mulB (u.e / u.t))) (inj.map (mulL (u.n / u.t)))
        (u.t * s)
      = (applyStages12 cfg en dens sub enR inj s).map (mulStages u) := by
  have hsc : ∀ l : List (Bins K), (l.map (mulB (u.e / u.t))).map (scaleBins (u.t * s))
      = (l.map (scaleBins s)).map (mulB u.e) := by
    intro l
    rw [List.map_map, List.map_map]
    refine List.map_congr_left fun b _ => ?_
    exact scaleBins_mul (div_mul_cancel₀ _ u.ht.ne') s b
  have hinj : (inj.map (mulL (u.n / u.t))).map (·.map (· * (u.t * s))) = (inj.map (·.map (· * s))).map (mulL u.n) := by
    rw [List.map_map, List.map_map]
    refine List.map_congr_left fun b _ => ?_
    simp only [Function.comp_apply, mulL, List.map_map]
    congr 1; funext x
    simp only [Function.comp_apply]
    have := u.ht.ne'
    field_simp
  unfold applyStages12
  simp only [hsc, hinj]
  refine bind_rel (applyTimeEval_mul h hh _ _ _ _ _) fun p => ?_
  obtain ⟨gm1, d1, sub1⟩ := p
  simp only [mulTriple]
  rw [h.num]
  refine bind_rel (updateDistribution_mul u.hn hh _ _) fun dist1 => ?_
  rw [h.heun]
  split
  · refine bind_rel (newRates2_mul h.enFns dist1 gm1 d1 sub1) fun r => ?_
    rw [h.subgroups, sumRates2_mul]
    refine bind_rel (mapM_rel fun b _ => finiteBins_mul _ b) fun rec => ?_
    have hav : List.zipWith averageBins (enR.map (mulB (u.e / u.t))) (rec.map (mulB (u.e / u.t)))
        = (List.zipWith averageBins enR rec).map (mulB (u.e / u.t)) := by
      simp only [List.zipWith_map, List.map_zipWith, averageBins_mul]
    simp only [hav, hsc]
    refine bind_rel (applyTimeEval_mul h hh _ _ _ _ _) fun p => ?_
    obtain ⟨gm2, d2, sub2⟩ := p
    simp only [mulTriple]
    refine bind_rel (updateDistribution_mul u.hn hh _ _) fun dist2 => ?_
    rfl
  · rfl

theorem sortAndMergeBins_mul (h : Rescaled u cfg cfg') (b : Bins K) (dens : List K) (d : Dist K) :
    sortAndMergeBins cfg' b (mulL u.n dens) (d.mul u.n) = (sortAndMergeBins cfg b dens d).map (mulOut u.n) := by
  unfold sortAndMergeBins
  rw [h.num, h.mergeCloser]
  refine bind_rel (sortAndMergeDuplicates_mul cfg.num u.n b dens (some d)) fun p => ?_
  obtain ⟨b1, d1, m1⟩ := p
  simp only [mulOut]
  cases cfg.mergeCloser with
  | none => rfl
  | some thr =>
    refine bind_rel (removeTooCloseBins_mul cfg.num thr u.n b1 d1 d) fun p => ?_
    obtain ⟨b2, d2, m2⟩ := p
    simp only [mulOut]
    exact bind_same fun m => rfl

theorem addLowerBin_mul {a : K} (ha : 0 < a) (num : Numerics K) (creep lo first : K) (b : Bins K) (m : List Int)
    (rate : List K) : addLowerBin num creep lo first b m (mulL a rate) = addLowerBin num creep lo first b m rate := by
  unfold addLowerBin
  split
  · unfold mulL
    rw [get_map]
    cases Np.get rate 0 with
    | error e => rfl
    | ok r =>
      show Except.ok _ = Except.ok _
      simp [ha]
  · rfl

theorem addUpperBin_mul {a : K} (ha : 0 < a) (num : Numerics K) (creep hi last : K) (b : Bins K) (m : List Int)
    (rate : List K) : addUpperBin num creep hi last b m (mulL a rate) = addUpperBin num creep hi last b m rate := by
  unfold addUpperBin
  split
  · unfold mulL
    rw [get_map]
    cases Np.get rate (-1) with
    | error e => rfl
    | ok r =>
      show Except.ok _ = Except.ok _
      simp [mul_neg_iff, ha, not_lt.2 ha.le]
  · rfl

theorem addBoundaryBins_mul {a : K} (ha : 0 < a) (num : Numerics K) (creep lo hi : K) (b : Bins K) (rate : List K) :
    addBoundaryBins num creep lo hi b (mulL a rate) = addBoundaryBins num creep lo hi b rate := by
  unfold addBoundaryBins
  simp only [addLowerBin_mul ha, addUpperBin_mul ha]

theorem remap_mulL (a : K) (m : List Int) (d : List K) (x : Option K) (hx : x.map (a * ·) = x) :
    remap m (mulL a d) x = (remap m d x).map (mulL a) := by
  have := remap_map (a * ·) m d x
  rwa [hx] at this

/-- what the stages 4 and 5 return, in new units -/
def mulQuad (a : K) (p : Bins K × List K × List (List K) × List Int) : Bins K × List K × List (List K) × List Int :=
  (p.1, mulL a p.2.1, p.2.2)

theorem applyBounds_mul (h : Rescaled u cfg cfg') (b : Bins K) (d : List K) (s : List (List K)) (m : List Int)
    (rates : List (Bins K)) :
    applyBounds cfg' b (mulL u.n d) s m (rates.map (mulB (u.e / u.t)))
      = (applyBounds cfg b d s m rates).map (mulQuad u.n) := by
  unfold applyBounds
  rw [h.gammaBounds, h.num, h.maxBinCreep]
  cases cfg.gammaBounds with
  | none => rfl
  | some p =>
    obtain ⟨lo, hi⟩ := p
    simp only
    refine bind_same fun p => ?_
    obtain ⟨b4, m4⟩ := p
    simp only
    refine bind_rel (remap_mulL u.n m4 d none rfl) fun d4 => ?_
    refine bind_same fun s4 => bind_same fun mm4 => ?_
    refine bind_rel (get_map (mulB (u.e / u.t)) rates 0) fun r0 => ?_
    have := addBoundaryBins_mul (div_pos u.he u.ht) cfg.num cfg.maxBinCreep lo hi b4 r0.lb
    simp only [mulB, this]
    refine bind_same fun p => ?_
    obtain ⟨b5, m5⟩ := p
    simp only
    refine bind_rel (remap_mulL u.n m5 d4 (some 0) (by simp)) fun d5 => ?_
    exact bind_same fun s5 => bind_same fun mm5 => rfl

/-- what a step returns, in new units -/
def StepOut.mul (a : K) (o : StepOut K) : StepOut K := ⟨o.bins, mulL a o.dens, o.sub, o.mapping, o.dist.mul a⟩

theorem applyTimeChanges_mul (h : Rescaled u cfg cfg') (hh : cfg.num.Homogeneous u.n) (en : Bins K) (dens : List K)
    (sub : List (List K)) (enR : List (Bins K)) (inj : List (List K)) (s : K) :
    applyTimeChanges cfg' (mulB u.e en) (mulL u.n dens) sub (enR.map (mulB (u.e / u.t))) (inj.map (mulL (u.n / u.t)))
        (u.t * s)
      = (applyTimeChanges cfg en dens sub enR inj s).map (StepOut.mul u.n) := by
  unfold applyTimeChanges
  refine bind_rel (applyStages12_mul h hh en dens sub enR inj s) fun p => ?_
  obtain ⟨gm, d, s1, dist, rates⟩ := p
  simp only [mulStages]
  refine bind_rel (sortAndMergeBins_mul h gm d dist) fun p => ?_
  obtain ⟨b3, d3, m3⟩ := p
  simp only [mulOut]
  refine bind_same fun s3 => ?_
  refine bind_rel (applyBounds_mul h b3 d3 s3 m3 rates) fun p => ?_
  obtain ⟨b5, d5, s5, m5⟩ := p
  rfl

/-! ### time steps -/

theorem top_map_min {a : K} (ha : 0 < a) (x y : WithTop K) :
    min (x.map (a * ·)) (y.map (a * ·)) = (min x y).map (a * ·) := by
  cases x with
  | top => simp
  | coe x =>
    cases y with
    | top => simp
    | coe y =>
      simp only [WithTop.map_coe, ← WithTop.coe_min]
      rw [← mul_min_of_nonneg _ _ ha.le]

theorem top_map_ite {a : K} (p : Prop) [Decidable p] (x : K) :
    (if p then ((a * x : K) : WithTop K) else ⊤) = (if p then ((x : K) : WithTop K) else ⊤).map (a * ·) := by
  split <;> simp

theorem timeEdge_mul (h : Rescaled u cfg cfg') (e r : K) :
    timeEdge cfg' (u.e * e) (u.e / u.t * r) = (timeEdge cfg e r).map (u.t * ·) := by
  unfold timeEdge
  have hc : u.e / u.t ≠ 0 := (div_pos u.he u.ht).ne'
  rw [← top_map_ite]
  simp only [ne_eq, mul_eq_zero, hc, false_or]
  split
  · next hr =>
    rw [h.maxEnergyChange, abs_mul, abs_of_pos (div_pos u.he u.ht)]
    have h1 := u.he.ne'
    have h2 := u.ht.ne'
    have h3 := abs_ne_zero.2 hr
    congr 1
    field_simp
  · rfl

theorem timeDensity_mul (h : Rescaled u cfg cfg') (elo ehi rlo rhi : K) :
    timeDensity cfg' (u.e * elo) (u.e * ehi) (u.e / u.t * rlo) (u.e / u.t * rhi)
      = (timeDensity cfg elo ehi rlo rhi).map (u.t * ·) := by
  unfold timeDensity
  have hc : u.e / u.t ≠ 0 := (div_pos u.he u.ht).ne'
  rw [← top_map_ite, ← mul_sub, ← mul_sub]
  simp only [ne_eq, mul_eq_zero, hc, false_or]
  split
  · next hr =>
    have hx : u.e * (ehi - elo) / (u.e / u.t * (rhi - rlo)) = u.t * ((ehi - elo) / (rhi - rlo)) := by
      have h1 := u.he.ne'
      have h2 := u.ht.ne'
      field_simp
    rw [hx, h.maxDensityChange]
    generalize (ehi - elo) / (rhi - rlo) = x
    simp only [gt_iff_lt, mul_pos_iff_of_pos_left u.ht]
    congr 1
    split
    · ring
    · ring
  · rfl

theorem timeRel_mul (r : K) : timeRel (1 / u.t * r) = (timeRel r).map (u.t * ·) := by
  unfold timeRel
  have hc : 0 < 1 / u.t := one_div_pos.2 u.ht
  rw [← top_map_ite]
  simp only [mul_neg_iff, hc, true_and, not_lt.2 hc.le, false_and, or_false]
  split
  · next hr =>
    have h2 := u.ht.ne'
    have h3 := hr.ne
    congr 1
    field_simp
  · rfl

theorem timeAbs_mul (h : Rescaled u cfg cfg') (r : K) :
    timeAbs cfg' (u.n / u.t * r) = (timeAbs cfg r).map (u.t * ·) := by
  unfold timeAbs
  have hc : u.n / u.t ≠ 0 := (div_pos u.hn u.ht).ne'
  rw [← top_map_ite]
  simp only [ne_eq, mul_eq_zero, hc, false_or]
  split
  · next hr =>
    rw [h.maxInjection, abs_mul, abs_of_pos (div_pos u.hn u.ht)]
    have h1 := u.hn.ne'
    have h2 := u.ht.ne'
    have h3 := abs_ne_zero.2 hr
    congr 1
    field_simp
  · rfl

theorem maxTimeBin_mul (h : Rescaled u cfg cfg') (elo ehi rlo rhi rel abs : K) :
    maxTimeBin cfg' (u.e * elo) (u.e * ehi) (u.e / u.t * rlo) (u.e / u.t * rhi) (1 / u.t * rel) (u.n / u.t * abs)
      = (maxTimeBin cfg elo ehi rlo rhi rel abs).map (u.t * ·) := by
  unfold maxTimeBin
  rw [timeEdge_mul h, timeEdge_mul h, timeDensity_mul h, timeRel_mul, timeAbs_mul h]
  simp only [top_map_min u.ht]

theorem zip_mulL (a b : K) (x y : List K) :
    List.zip (mulL a x) (mulL b y) = (List.zip x y).map fun p => (a * p.1, b * p.2) := zip_map_both _ _ _ _

theorem maxTimesGroup_mul (h : Rescaled u cfg cfg') (en rates : Bins K) (rel abs : List K) :
    maxTimesGroup cfg' (mulB u.e en) (mulB (u.e / u.t) rates) (mulL (1 / u.t) rel) (mulL (u.n / u.t) abs)
      = mulT u.t (maxTimesGroup cfg en rates rel abs) := by
  unfold maxTimesGroup
  simp only [mulB, zip_mulL, zip_map_both, List.zipWith_map, mulT, List.map_zipWith]
  congr 1; funext e r
  exact maxTimeBin_mul h _ _ _ _ _ _

/-- the arguments of one turn of the loop in new units -/
def mulTurn (u : Units K) (g : List K × Bins K × List K × List K) : List K × Bins K × List K × List K :=
  (mulL u.n g.1, mulB (u.e / u.t) g.2.1, mulL (1 / u.t) g.2.2.1, mulL (u.n / u.t) g.2.2.2)

theorem maxTimesStep_mul (h : Rescaled u cfg cfg') (en : Bins K) (acc : List (WithTop K))
    (g : List K × Bins K × List K × List K) :
    maxTimesStep cfg' (mulB u.e en) (mulT u.t acc) (mulTurn u g) = (maxTimesStep cfg en acc g).map (mulT u.t) := by
  unfold maxTimesStep
  have hany : (List.zipWith (fun d a => decide (d = 0 ∧ a < 0)) (mulTurn u g).1 (mulTurn u g).2.2.2).any id
      = (List.zipWith (fun d a => decide (d = 0 ∧ a < 0)) g.1 g.2.2.2).any id := by
    simp only [mulTurn, mulL, List.zipWith_map]
    congr 2; funext d a
    have hc : 0 < u.n / u.t := div_pos u.hn u.ht
    simp [u.hn.ne', mul_neg_iff, hc, not_lt.2 hc.le]
  rw [hany]
  split
  · rfl
  · show Except.ok _ = Except.ok _
    congr 1
    simp only [mulTurn, maxTimesGroup_mul h]
    simp only [mulT, List.zipWith_map, List.map_zipWith, top_map_min u.ht]

theorem calcMaxTimePerBin_mul (h : Rescaled u cfg cfg') (en : Bins K) (dens : List K) (sub : List (List K))
    (enG : List (Bins K)) (relG absG : List (List K)) :
    calcMaxTimePerBin cfg' (mulB u.e en) (mulL u.n dens) sub (enG.map (mulB (u.e / u.t)))
        (relG.map (mulL (1 / u.t))) (absG.map (mulL (u.n / u.t)))
      = (calcMaxTimePerBin cfg en dens sub enG relG absG).map (mulT u.t) := by
  unfold calcMaxTimePerBin
  simp only [List.length_map, mulL_length]
  split
  · rfl
  · have h0 : List.replicate dens.length (⊤ : WithTop K) = mulT u.t (List.replicate dens.length ⊤) := by
      simp [mulT]
    rw [densitiesGrouped_mul]
    simp only [zip_map_both]
    conv_lhs => rw [h0]
    exact foldlM_rel (g := mulTurn u) (fun acc g _ => maxTimesStep_mul h en acc g) _

theorem foldl_min_mul {a : K} (ha : 0 < a) (l : List (WithTop K)) (x : WithTop K) :
    (mulT a l).foldl min (x.map (a * ·)) = (l.foldl min x).map (a * ·) := by
  unfold mulT
  induction l generalizing x with
  | nil => rfl
  | cons y l ih => simp only [List.map_cons, List.foldl_cons]; rw [top_map_min ha, ih]

theorem minTime_mul {a : K} (ha : 0 < a) (l : List (WithTop K)) :
    minTime (mulT a l) = (minTime l).map (WithTop.map (a * ·)) := by
  unfold minTime
  cases l with
  | nil => rfl
  | cons x l =>
    simp only [mulT, List.map_cons, List.min?_cons']
    have := foldl_min_mul ha l x
    simp only [mulT] at this
    rw [this]
    rfl

theorem top_map_eq_zero {a : K} (ha : a ≠ 0) (x : WithTop K) : x.map (a * ·) = 0 ↔ x = 0 := by
  cases x with
  | top => simp
  | coe x =>
    rw [WithTop.map_coe]
    constructor
    · intro h
      have : a * x = 0 := by exact_mod_cast h
      rcases mul_eq_zero.1 this with h | h
      · exact absurd h ha
      · simp [h]
    · intro h
      have : x = 0 := by exact_mod_cast h
      simp [this]

/-- the state in new units -/
def State.mul (u : Units K) (s : State K) : State K :=
  ⟨s.bins, mulL u.n s.dens, s.sub, mulR2 (u.e / u.t) s.en, mulR1 (1 / u.t) s.rel, mulR1 (u.n / u.t) s.abs,
    mulT u.t s.timeLeft, u.t * s.elapsed, s.dist.mul u.n⟩

theorem toErg_mul (h : Rescaled u cfg cfg') (b : Bins K) : toErg cfg' b = mulB u.e (toErg cfg b) := by
  simp only [toErg, mulB, mulL, h.mec2, List.map_map, Bins.mk.injEq]
  constructor <;> (congr 1; funext x; simp only [Function.comp_apply]; ring)

theorem chooseStep_mul (h : Rescaled u cfg cfg') (s : State K) (enG : List (Bins K)) (relG absG : List (List K)) :
    chooseStep cfg' (s.mul u) (enG.map (mulB (u.e / u.t))) (relG.map (mulL (1 / u.t))) (absG.map (mulL (u.n / u.t)))
      = (chooseStep cfg s enG relG absG).map fun p => (p.1.map (u.t * ·), mulT u.t p.2) := by
  unfold chooseStep
  rw [h.stepDuration]
  cases cfg.stepDuration with
  | fixed dt => rfl
  | auto =>
    simp only [StepMode.mul, State.mul]
    rw [toErg_mul h]
    refine bind_rel (calcMaxTimePerBin_mul h _ _ _ _ _ _) fun mt => ?_
    rw [h.optimize]
    split
    · have hz : List.zipWith (fun l m : WithTop K => if l = 0 then m else l) (mulT u.t s.timeLeft) (mulT u.t mt)
          = mulT u.t (List.zipWith (fun l m : WithTop K => if l = 0 then m else l) s.timeLeft mt) := by
        simp only [mulT, List.zipWith_map, List.map_zipWith, top_map_eq_zero u.ht.ne']
        congr 1; funext l m
        split <;> rfl
      simp only [hz]
      exact bind_rel (minTime_mul u.ht _) fun t => rfl
    · exact bind_rel (minTime_mul u.ht _) fun t => rfl

theorem top_map_lt {a : K} (ha : 0 < a) (x : WithTop K) (y : K) :
    x.map (a * ·) < ((a * y : K) : WithTop K) ↔ x < (y : WithTop K) := by
  cases x with
  | top => simp
  | coe x =>
    rw [WithTop.map_coe, WithTop.coe_lt_coe, WithTop.coe_lt_coe]
    exact mul_lt_mul_iff_right₀ ha

theorem top_map_gt {a : K} (ha : 0 < a) (x : WithTop K) (y : K) :
    ((a * y : K) : WithTop K) < x.map (a * ·) ↔ (y : WithTop K) < x := by
  cases x with
  | top => simp
  | coe x =>
    rw [WithTop.map_coe, WithTop.coe_lt_coe, WithTop.coe_lt_coe]
    exact mul_lt_mul_iff_right₀ ha

theorem truncStep_mul (h : Rescaled u cfg cfg') (el : K) (t : WithTop K) :
    truncStep cfg' (u.t * el) (t.map (u.t * ·)) = u.t * truncStep cfg el t := by
  unfold truncStep
  rw [h.totalTime, ← mul_sub]
  simp only [gt_iff_lt, top_map_gt u.ht]
  split
  · rfl
  · cases t with
    | top => rfl
    | coe t => rfl

theorem groupRates_mul (h : Rescaled u cfg cfg') (s : State K) :
    groupRates cfg' (s.mul u) = (groupRates cfg s).map fun p =>
      (p.1.map (mulB (u.e / u.t)), p.2.1.map (mulL (1 / u.t)), p.2.2.map (mulL (u.n / u.t))) := by
  unfold groupRates
  simp only [State.mul, h.subgroups, sumRates1_mul, sumRates2_mul]
  refine bind_rel (mapM_rel fun b _ => finiteBins_mul _ b) fun enG => ?_
  refine bind_rel (mapM_rel fun b _ => finiteRow_mul _ b) fun relG => ?_
  exact bind_rel (mapM_rel fun b _ => finiteRow_mul _ b) fun absG => rfl

theorem bcastRows_rel {α α' β β' γ γ' : Type} {f : α → β → γ} {f' : α' → β' → γ'} {g : α → α'} {k : β → β'} {ψ : γ → γ'}
    (h : ∀ a b, f' (g a) (k b) = ψ (f a b)) (a : List α) (b : List β) :
    bcastRows f' (a.map g) (b.map k) = (bcastRows f a b).map (List.map ψ) := by
  unfold bcastRows
  simp only [List.length_map]
  split
  · show Except.ok _ = Except.ok _
    simp only [List.zipWith_map, List.map_zipWith, h]
  · cases a with
    | nil =>
      cases b with
      | nil => rfl
      | cons y b => cases b <;> rfl
    | cons x a =>
      cases a with
      | nil =>
        simp only [List.map_cons, List.map_nil]
        show Except.ok _ = Except.ok _
        simp only [List.map_map, Function.comp_def, h]
      | cons x2 a =>
        cases b with
        | nil => rfl
        | cons y b =>
          cases b with
          | nil =>
            simp only [List.map_cons, List.map_nil]
            show Except.ok _ = Except.ok _
            simp only [List.map_cons, List.map_map, Function.comp_def, h]
          | cons y2 b => rfl

theorem totalInjection_mul (u : Units K) (dens : List K) (sub relG absG : List (List K)) :
    totalInjection (mulL u.n dens) sub (relG.map (mulL (1 / u.t))) (absG.map (mulL (u.n / u.t)))
      = (totalInjection dens sub relG absG).map (List.map (mulL (u.n / u.t))) := by
  unfold totalInjection
  rw [densitiesGrouped_mul]
  refine bind_rel (bcastRows_rel (ψ := mulL (u.n / u.t)) (fun a b => ?_) _ _) fun x => ?_
  · exact zipWith_mul u.n (1 / u.t) (u.n / u.t) (by rw [mul_one_div]) a b
  · exact bcastRows_rel (fun a b => zipWith_add _ a b) _ _

theorem recalcMask_mul (h : Rescaled u cfg cfg') (left : List (WithTop K)) (t : K) (o : StepOut K) :
    recalcMask cfg' (mulT u.t left) (u.t * t) (o.mul u.n)
      = (recalcMask cfg left t o).map fun p => (mulT u.t p.1, p.2) := by
  unfold recalcMask
  rw [h.optimize]
  split
  · have hs : (mulT u.t left).map (subTime (u.t * t)) = mulT u.t (left.map (subTime t)) := by
      simp only [mulT, List.map_map]
      refine List.map_congr_left fun x _ => ?_
      cases x with
      | top => rfl
      | coe x =>
        simp only [Function.comp_apply, subTime, WithTop.map_coe]
        rw [← mul_sub]
    rw [hs]
    have hr := remap_map (WithTop.map (u.t * ·)) o.mapping (left.map (subTime t)) (some 0)
    have h0 : Option.map (WithTop.map (u.t * ·)) (some (0 : WithTop K)) = some 0 := by
      simp only [Option.map_some, Option.some.injEq]
      exact (top_map_eq_zero u.ht.ne' 0).2 rfl
    rw [h0] at hr
    refine bind_rel hr fun l => ?_
    show Except.ok _ = Except.ok _
    have hz : List.zipWith (fun (b : K) (x : WithTop K) => if b = 0 then 0 else x) (o.mul u.n).bins.ub
        (l.map (WithTop.map (u.t * ·)))
        = mulT u.t (List.zipWith (fun (b : K) (x : WithTop K) => if b = 0 then 0 else x) o.bins.ub l) := by
      simp only [mulT, List.zipWith_map_right, List.map_zipWith, StepOut.mul]
      congr 1; funext b x
      split
      · exact ((top_map_eq_zero u.ht.ne' 0).2 rfl).symm
      · rfl
    simp only [hz]
    have hm : (mulT u.t (List.zipWith (fun (b : K) (x : WithTop K) => if b = 0 then 0 else x) o.bins.ub l)).map
          (fun x => decide (x < ((u.t * t : K) : WithTop K)))
        = (List.zipWith (fun (b : K) (x : WithTop K) => if b = 0 then 0 else x) o.bins.ub l).map
          fun x => decide (x < (t : WithTop K)) := by
      simp only [mulT, List.map_map]
      refine List.map_congr_left fun x _ => ?_
      simp only [Function.comp_apply, decide_eq_decide]
      exact top_map_lt u.ht x t
    simp only [hm]
    congr 2
    generalize List.zipWith (fun (b : K) (x : WithTop K) => if b = 0 then 0 else x) o.bins.ub l = w
    simp only [mulT, List.zipWith_map_right, List.map_zipWith]
    congr 1; funext m x
    split
    · exact ((top_map_eq_zero u.ht.ne' 0).2 rfl).symm
    · rfl
  · show Except.ok _ = Except.ok _
    simp [StepOut.mul, mulL, Function.comp_def]

theorem refresh_mul (h : Rescaled u cfg cfg') (s : State K) (t : K) (o : StepOut K) (left : List (WithTop K))
    (mask : List Bool) :
    refresh cfg' (s.mul u) (u.t * t) (o.mul u.n) (mulT u.t left) mask
      = (refresh cfg s t o left mask).map (State.mul u) := by
  unfold refresh
  simp only [StepOut.mul, State.mul]
  refine bind_rel (remapRates2_mul _ _ _) fun r2 => ?_
  refine bind_rel (recalcRates2_mul h.enFns _ _ _ _ _ _) fun en => ?_
  refine bind_rel (remapRates1_mul _ _ _) fun r1 => ?_
  refine bind_rel (recalcRates1_mul h.absFns _ _ _ _ _ _) fun abs => ?_
  refine bind_rel (remapRates1_mul _ _ _) fun r1 => ?_
  refine bind_rel (recalcRates1_mul h.relFns _ _ _ _ _ _) fun rel => ?_
  show Except.ok _ = Except.ok _
  simp only [State.mul, mul_add]

theorem step_mul (h : Rescaled u cfg cfg') (hh : cfg.num.Homogeneous u.n) (s : State K) :
    step cfg' (s.mul u) = (step cfg s).map (State.mul u) := by
  unfold step
  refine bind_rel (groupRates_mul h s) fun p => ?_
  obtain ⟨enG, relG, absG⟩ := p
  simp only
  refine bind_rel (totalInjection_mul u s.dens s.sub relG absG) fun inj => ?_
  refine bind_rel (chooseStep_mul h s enG relG absG) fun p => ?_
  obtain ⟨t0, left⟩ := p
  simp only
  have e1 : (s.mul u).elapsed = u.t * s.elapsed := rfl
  have e2 : toErg cfg' (s.mul u).bins = mulB u.e (toErg cfg s.bins) := toErg_mul h s.bins
  rw [e1, truncStep_mul h, e2]
  refine bind_rel (applyTimeChanges_mul h hh _ s.dens s.sub enG inj _) fun o => ?_
  refine bind_rel (recalcMask_mul h left _ o) fun p => ?_
  obtain ⟨l, mask⟩ := p
  exact refresh_mul h s _ o l mask

theorem initState_mul (h : Rescaled u cfg cfg') (dist : Dist K) :
    initState cfg' (dist.mul u.n) = (initState cfg dist).map (State.mul u) := by
  unfold initState
  have hs : initialSub cfg' = initialSub cfg := by
    unfold initialSub
    rw [h.initialGamma, h.subgroups, h.initialFractions]
  have hd : cfg.initialGamma.map (dist.mul u.n).eval = mulL u.n (cfg.initialGamma.map dist.eval) := by
    simp [Dist.mul, mulL, Function.comp_def]
  rw [h.initialGamma, hs]
  simp only [hd]
  refine bind_same fun sub => ?_
  refine bind_rel (newRates2_mul h.enFns _ _ _ _) fun en => ?_
  refine bind_rel (newRates1_mul h.relFns _ _ _ _) fun rel => ?_
  refine bind_rel (newRates1_mul h.absFns _ _ _ _) fun abs => ?_
  show Except.ok _ = Except.ok _
  simp [State.mul, mulT]

theorem loop_mul (h : Rescaled u cfg cfg') (hh : cfg.num.Homogeneous u.n) (fuel : Nat) (s : State K) :
    loop cfg' fuel (s.mul u) = (loop cfg fuel s).map (Option.map (State.mul u)) := by
  have hc : ((s.mul u).elapsed < cfg'.totalTime) ↔ s.elapsed < cfg.totalTime := by
    rw [h.totalTime]
    exact mul_lt_mul_iff_right₀ u.ht
  induction fuel generalizing s with
  | zero =>
    unfold loop
    simp only [hc]
    split <;> rfl
  | succ n ih =>
    unfold loop
    simp only [hc]
    split
    · refine bind_rel (step_mul h hh s) fun s' => ih s' ?_
      rw [h.totalTime]
      exact mul_lt_mul_iff_right₀ u.ht
    · rfl

theorem evaluate_mul (h : Rescaled u cfg cfg') (hh : cfg.num.Homogeneous u.n) (dist : Dist K) (fuel : Nat) :
    evaluate cfg' (dist.mul u.n) fuel = (evaluate cfg dist fuel).map (Option.map (State.mul u)) := by
  unfold evaluate
  exact bind_rel (initState_mul h dist) fun s => loop_mul h hh fuel s

end

end Verif.TE
