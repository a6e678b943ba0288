import Verif.Lemmas.Hist

/- Which exceptions can be raised where. -/

namespace Verif.TE

open Verif.Np

set_option linter.unusedSectionVars false

variable {K : Type} [Field K] [LinearOrder K] [IsStrictOrderedRing K]

/-- the exceptions of the update of energies and densities -/
def Bad : Err → Prop
  | .negativeGamma | .negativeWidth | .nonFiniteDensity | .negativeDensity => True
  | _ => False

/-- no exception of that kind -/
structure Benign {α : Type} (x : Except Err α) : Prop where
  not_bad : ∀ e, x = .error e → ¬ Bad e

theorem benign_ok {α : Type} (a : α) : Benign (.ok a : Except Err α) := ⟨by intro e h; simp at h⟩

theorem benign_pure {α : Type} (a : α) : Benign (pure a : Except Err α) := benign_ok a

theorem benign_error {α : Type} {e : Err} (h : ¬ Bad e) : Benign (.error e : Except Err α) := by
  constructor
  intro e' h'
  simp only [Except.error.injEq] at h'
  exact h' ▸ h

theorem benign_throw {α : Type} {e : Err} (h : ¬ Bad e) : Benign (throw e : Except Err α) :=
  benign_error h

theorem benign_bind {α β : Type} {x : Except Err α} {f : α → Except Err β} (hx : Benign x)
    (hf : ∀ a, x = .ok a → Benign (f a)) : Benign (x >>= f) := by
  cases x with
  | error e => exact benign_error (hx.not_bad e rfl)
  | ok a => exact hf a rfl

theorem benign_mapM {α β : Type} {f : α → Except Err β} {l : List α} (h : ∀ a ∈ l, Benign (f a)) :
    Benign (l.mapM f) := by
  induction l with
  | nil => exact benign_pure _
  | cons a l ih =>
    rw [List.mapM_cons]
    refine benign_bind (h a (by simp)) (fun b _ => ?_)
    exact benign_bind (ih (fun c hc => h c (by simp [hc]))) (fun c _ => benign_pure _)

theorem benign_foldlM {α β : Type} {f : β → α → Except Err β} {l : List α}
    (h : ∀ b a, Benign (f b a)) (b : β) : Benign (l.foldlM f b) := by
  induction l generalizing b with
  | nil => exact benign_pure _
  | cons a l ih =>
    rw [List.foldlM_cons]
    exact benign_bind (h b a) (fun b' _ => ih b')

syntax "benign" : tactic
macro_rules
  | `(tactic| benign) => `(tactic| repeat' first
      | assumption
      | exact benign_ok _
      | exact benign_pure _
      | exact benign_error (by simp [Bad])
      | exact benign_throw (by simp [Bad])
      | intro _
      | split)

theorem benign_get {α : Type} (v : List α) (i : Int) : Benign (Np.get v i) := by
  unfold Np.get; benign

theorem benign_gather {α : Type} (v : List α) (m : List Int) : Benign (gather v m) := by
  unfold gather
  exact benign_mapM (fun _ _ => benign_get _ _)

theorem benign_remap {α : Type} (m : List Int) (v : List α) (d : Option α) : Benign (remap m v d) := by
  unfold remap
  refine benign_bind (benign_gather _ _) ?_
  benign

theorem benign_remapBins {α : Type} (m : List Int) (v : Bins α) (d : Option α) :
    Benign (remapBins m v d) := by
  unfold remapBins
  refine benign_bind (benign_remap _ _ _) (fun _ _ => benign_bind (benign_remap _ _ _) ?_)
  benign

theorem benign_remapRates1 (m : List Int) (r : Rates1 K) : Benign (remapRates1 m r) := by
  unfold remapRates1
  refine benign_mapM (fun _ _ => benign_bind (benign_remap _ _ _) ?_)
  benign

theorem benign_remapRates2 (m : List Int) (r : Rates2 K) : Benign (remapRates2 m r) := by
  unfold remapRates2
  refine benign_mapM (fun _ _ => benign_bind (benign_remapBins _ _ _) ?_)
  benign

theorem benign_remapSubgroups (m : List Int) (s : List (List K)) : Benign (remapSubgroups m s) := by
  unfold remapSubgroups
  refine benign_bind (benign_mapM (fun _ _ => benign_gather _ _)) ?_
  benign

theorem benign_combineMapping (a b : List Int) : Benign (combineMapping a b) := by
  unfold combineMapping
  refine benign_bind (benign_gather _ _) ?_
  benign

theorem benign_reshape1 (n : Nat) (l : List K) : Benign (reshape1 n l) := by unfold reshape1; benign
theorem benign_reshape2 (n : Nat) (l : List K) : Benign (reshape2 n l) := by unfold reshape2; benign
theorem benign_dictGet {α : Type} (d : List (String × α)) (k : String) : Benign (dictGet d k) := by
  unfold dictGet; benign

theorem benign_params1 (g dens : List K) (sub : List (List K)) (mask : List Bool) :
    Benign (params1 g dens sub mask) := by
  unfold params1
  refine benign_bind (benign_remapSubgroups _ _) ?_
  benign

theorem benign_params2 (g : Bins K) (dens : List K) (sub : List (List K)) (mask : List Bool) :
    Benign (params2 g dens sub mask) := by
  unfold params2
  refine benign_bind (benign_remapSubgroups _ _) ?_
  benign

theorem benign_recalcRates1 (d : Dist K) (g : List K) (fns : List (String × GammaFn K)) (dens : List K)
    (sub : List (List K)) (prev : Rates1 K) (mask : List Bool) :
    Benign (recalcRates1 d g fns dens sub prev mask) := by
  unfold recalcRates1
  refine benign_bind (benign_params1 _ _ _ _) (fun _ _ => benign_mapM (fun _ _ => ?_))
  refine benign_bind (benign_dictGet _ _) (fun _ _ => benign_bind (benign_reshape1 _ _) ?_)
  benign

theorem benign_recalcRates2 (d : Dist K) (g : Bins K) (fns : List (String × GammaFn K)) (dens : List K)
    (sub : List (List K)) (prev : Rates2 K) (mask : List Bool) :
    Benign (recalcRates2 d g fns dens sub prev mask) := by
  unfold recalcRates2
  refine benign_bind (benign_params2 _ _ _ _) (fun _ _ => benign_mapM (fun _ _ => ?_))
  refine benign_bind (benign_dictGet _ _) (fun _ _ => benign_bind (benign_reshape2 _ _) ?_)
  benign

theorem benign_newRates1 (d : Dist K) (g : List K) (fns : List (String × GammaFn K)) (dens : List K)
    (sub : List (List K)) : Benign (newRates1 d g fns dens sub) := by
  unfold newRates1
  refine benign_bind (benign_params1 _ _ _ _) (fun _ _ => benign_mapM (fun _ _ => ?_))
  refine benign_bind (benign_reshape1 _ _) ?_
  benign

theorem benign_newRates2 (d : Dist K) (g : Bins K) (fns : List (String × GammaFn K)) (dens : List K)
    (sub : List (List K)) : Benign (newRates2 d g fns dens sub) := by
  unfold newRates2
  refine benign_bind (benign_params2 _ _ _ _) (fun _ _ => benign_mapM (fun _ _ => ?_))
  refine benign_bind (benign_reshape2 _ _) ?_
  benign

theorem benign_finiteRow (l : List (NV K)) : Benign (finiteRow l) := by
  unfold finiteRow
  refine benign_mapM (fun _ _ => ?_)
  benign

theorem benign_finiteBins (l : Bins (NV K)) : Benign (finiteBins l) := by
  unfold finiteBins
  refine benign_bind (benign_finiteRow _) (fun _ _ => benign_bind (benign_finiteRow _) ?_)
  benign

theorem benign_sortAndMergeDuplicates (num : Numerics K) (b : Bins K) (dens : List K)
    (d : Option (Dist K)) : Benign (sortAndMergeDuplicates num b dens d) := by
  unfold sortAndMergeDuplicates
  refine benign_bind (benign_gather _ _) (fun _ _ => benign_bind (benign_gather _ _) (fun _ _ =>
    benign_bind (benign_gather _ _) (fun _ _ => ?_)))
  dsimp only
  split
  · refine benign_bind (benign_gather _ _) ?_
    benign
  · benign

theorem benign_clearEnds (m : List Bool) : Benign (clearEnds m) := by
  unfold clearEnds; benign

theorem benign_removeTooCloseBins (num : Numerics K) (thr : K) (b : Bins K) (dens : List K)
    (d : Dist K) : Benign (removeTooCloseBins num thr b dens d) := by
  unfold removeTooCloseBins
  refine benign_bind (benign_clearEnds _) (fun _ _ => ?_)
  split
  · refine benign_bind (benign_gather _ _) ?_
    benign
  · benign

theorem benign_sortAndMergeBins (cfg : Cfg K) (b : Bins K) (dens : List K)
    (d : Dist K) : Benign (sortAndMergeBins cfg b dens d) := by
  unfold sortAndMergeBins
  refine benign_bind (benign_sortAndMergeDuplicates _ _ _ _) (fun a _ => ?_)
  obtain ⟨b1, d1, m1⟩ := a
  dsimp only
  split
  · benign
  · refine benign_bind (benign_removeTooCloseBins _ _ _ _ _) (fun a _ => ?_)
    obtain ⟨b2, d2, m2⟩ := a
    dsimp only
    refine benign_bind (benign_combineMapping _ _) ?_
    benign

theorem benign_mkDist (num : Numerics K) (g n : List K) : Benign (mkDist num g n) := by
  unfold mkDist
  dsimp only
  benign

theorem benign_updateDistribution (num : Numerics K) (b : Bins K) (dens : List K) :
    Benign (updateDistribution num b dens) := by
  unfold updateDistribution
  refine benign_bind (benign_sortAndMergeDuplicates _ _ _ _) (fun a _ => ?_)
  obtain ⟨b1, d1, m1⟩ := a
  dsimp only
  split
  · benign
  · split
    · benign
    · exact benign_mkDist _ _ _

theorem benign_bcastRows {α β γ : Type} (f : α → β → γ) (a : List α) (b : List β) :
    Benign (bcastRows f a b) := by
  unfold bcastRows; benign

theorem benign_regrid (cfg : Cfg K) (gm : Bins K) (p : Bins K × List K) : Benign (regrid cfg gm p) := by
  unfold regrid
  split
  · benign
  · refine benign_bind (benign_mkDist _ _ _) ?_
    benign

theorem benign_removeBeyondBounds (lo hi : K) (b : Bins K) : Benign (removeBeyondBounds lo hi b) := by
  unfold removeBeyondBounds
  dsimp only
  split
  · refine benign_bind (benign_gather _ _) (fun _ _ => benign_bind (benign_gather _ _) ?_)
    benign
  · benign

theorem benign_addBoundaryBins (num : Numerics K) (c lo hi : K) (b : Bins K) (r : List K) :
    Benign (addBoundaryBins num c lo hi b r) := by
  unfold addBoundaryBins
  refine benign_bind (benign_get _ _) (fun _ _ => benign_bind (benign_get _ _) (fun _ _ => ?_))
  refine benign_bind ?_ (fun a _ => ?_)
  · unfold addLowerBin
    split
    · refine benign_bind (benign_get _ _) ?_
      benign
    · benign
  · obtain ⟨b1, m1⟩ := a
    dsimp only
    unfold addUpperBin
    split
    · refine benign_bind (benign_get _ _) ?_
      benign
    · benign

theorem benign_applyBounds (cfg : Cfg K) (b : Bins K) (d : List K) (s : List (List K)) (m : List Int)
    (rates : List (Bins K)) : Benign (applyBounds cfg b d s m rates) := by
  unfold applyBounds
  split
  · benign
  · refine benign_bind (benign_removeBeyondBounds _ _ _) (fun a _ => ?_)
    obtain ⟨b4, m4⟩ := a
    dsimp only
    refine benign_bind (benign_remap _ _ _) (fun _ _ => benign_bind (benign_remapSubgroups _ _) (fun _ _ =>
      benign_bind (benign_combineMapping _ _) (fun _ _ => benign_bind (benign_get _ _) (fun _ _ =>
      benign_bind (benign_addBoundaryBins _ _ _ _ _ _) (fun a _ => ?_)))))
    obtain ⟨b5, m5⟩ := a
    dsimp only
    refine benign_bind (benign_remap _ _ _) (fun _ _ => benign_bind (benign_remapSubgroups _ _) (fun _ _ =>
      benign_bind (benign_combineMapping _ _) ?_))
    benign

theorem benign_calcMaxTimePerBin (cfg : Cfg K) (en : Bins K) (dens : List K) (sub : List (List K))
    (enG : List (Bins K)) (relG absG : List (List K)) :
    Benign (calcMaxTimePerBin cfg en dens sub enG relG absG) := by
  unfold calcMaxTimePerBin
  split
  · benign
  · refine benign_foldlM (fun b a => ?_) _
    unfold maxTimesStep
    benign

theorem benign_minTime (l : List (WithTop K)) : Benign (minTime l) := by unfold minTime; benign

theorem benign_chooseStep (cfg : Cfg K) (s : State K) (enG : List (Bins K)) (relG absG : List (List K)) :
    Benign (chooseStep cfg s enG relG absG) := by
  unfold chooseStep
  split
  · benign
  · refine benign_bind (benign_calcMaxTimePerBin _ _ _ _ _ _ _) (fun _ _ => ?_)
    split
    · refine benign_bind (benign_minTime _) ?_
      benign
    · refine benign_bind (benign_minTime _) ?_
      benign

theorem benign_groupRates (cfg : Cfg K) (s : State K) : Benign (groupRates cfg s) := by
  unfold groupRates
  refine benign_bind (benign_mapM (fun _ _ => benign_finiteBins _)) (fun _ _ =>
    benign_bind (benign_mapM (fun _ _ => benign_finiteRow _)) (fun _ _ =>
    benign_bind (benign_mapM (fun _ _ => benign_finiteRow _)) ?_))
  benign

theorem benign_totalInjection (dens : List K) (sub relG absG : List (List K)) :
    Benign (totalInjection dens sub relG absG) := by
  unfold totalInjection
  exact benign_bind (benign_bcastRows _ _ _) (fun _ _ => benign_bcastRows _ _ _)

theorem benign_recalcMask (cfg : Cfg K) (left : List (WithTop K)) (t : K) (o : StepOut K) :
    Benign (recalcMask cfg left t o) := by
  unfold recalcMask
  split
  · refine benign_bind (benign_remap _ _ _) ?_
    benign
  · benign

theorem benign_refresh (cfg : Cfg K) (s : State K) (t : K) (o : StepOut K) (left : List (WithTop K))
    (mask : List Bool) : Benign (refresh cfg s t o left mask) := by
  unfold refresh
  refine benign_bind (benign_remapRates2 _ _) (fun _ _ => benign_bind (benign_recalcRates2 _ _ _ _ _ _ _)
    (fun _ _ => benign_bind (benign_remapRates1 _ _) (fun _ _ => benign_bind (benign_recalcRates1 _ _ _ _ _ _ _)
    (fun _ _ => benign_bind (benign_remapRates1 _ _) (fun _ _ =>
      benign_bind (benign_recalcRates1 _ _ _ _ _ _ _) ?_)))))
  benign

theorem benign_initState (cfg : Cfg K) (d : Dist K) : Benign (initState cfg d) := by
  unfold initState
  refine benign_bind ?_ (fun _ _ => benign_bind (benign_newRates2 _ _ _ _ _) (fun _ _ =>
    benign_bind (benign_newRates1 _ _ _ _ _) (fun _ _ => benign_bind (benign_newRates1 _ _ _ _ _) ?_)))
  · unfold initialSub
    dsimp only
    benign
  · benign

end Verif.TE
