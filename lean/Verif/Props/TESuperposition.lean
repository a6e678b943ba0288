import Verif.Props.TEClosedForms

/-
C93: with rates that depend on the Lorentz factor only, populations evolve independently of each other: the evolution of
their sum, under the sum of the injections, is the sum of their evolutions.
-/

namespace Verif.TE

open Verif.Np

set_option linter.unusedSectionVars false

variable {K : Type} [Field K] [LinearOrder K] [IsStrictOrderedRing K]

/-! ### one bin -/

/-- one bin after `k` steps -/
def binRun (f : K → K × K → K × K) (dt T : K) (p : K × K) : Nat → K × K
  | 0 => p
  | k + 1 => f (min dt (T - k * dt)) (binRun f dt T p k)

theorem eulerRun_map (f : K → K × K → K × K) (dt T : K) (P : List (K × K)) (k : Nat) :
    eulerRun f dt T P k = P.map fun p => binRun f dt T p k := by
  induction k with
  | zero => simp [eulerRun, binRun]
  | succ k ih => simp [eulerRun, binRun, ih, Function.comp_def]

theorem rateSum_append (L M : List (String × (K → K))) (x : K) :
    rateSum (L ++ M) x = rateSum L x + rateSum M x := by simp [rateSum]

section bins

variable {mec2 dt T : K} {en rel a b c : K → K}

theorem eulerBin_fst (t : K) (p q : K × K) (h : p.1 = q.1) :
    (eulerBin mec2 en rel a t p).1 = (eulerBin mec2 en rel b t q).1 := by
  simp only [eulerBin, h]

theorem binRun_fst (x m n : K) (k : Nat) :
    (binRun (eulerBin mec2 en rel a) dt T (x, m) k).1 = (binRun (eulerBin mec2 en rel b) dt T (x, n) k).1 := by
  induction k with
  | zero => rfl
  | succ k ih => exact eulerBin_fst _ _ _ ih

theorem eulerBin_add (hc : ∀ x, c x = a x + b x) (t : K) {p q r : K × K} (h1 : p.1 = r.1) (h2 : q.1 = r.1)
    (h : r.2 = p.2 + q.2) :
    (eulerBin mec2 en rel c t r).2 = (eulerBin mec2 en rel a t p).2 + (eulerBin mec2 en rel b t q).2 := by
  simp only [eulerBin, h1, h2, h, hc]
  ring

theorem binRun_add (hc : ∀ x, c x = a x + b x) (x m n : K) (k : Nat) :
    (binRun (eulerBin mec2 en rel c) dt T (x, m + n) k).2
      = (binRun (eulerBin mec2 en rel a) dt T (x, m) k).2 + (binRun (eulerBin mec2 en rel b) dt T (x, n) k).2 := by
  induction k with
  | zero => rfl
  | succ k ih => exact eulerBin_add hc _ (binRun_fst _ _ _ _) (binRun_fst _ _ _ _) ih

end bins

/-! ### the runs -/

/-- rate functions of the Lorentz factor, as the user passes them -/
def ofGamma (L : List (String × (K → K))) : List (String × GammaFn K) :=
  L.map fun p => (p.1, fun _ q => q.gamma.map p.2)

/-- the same evolution with other absolute injections -/
def Cfg.injecting (cfg : Cfg K) (L : List (String × (K → K))) : Cfg K := { cfg with absFns := ofGamma L }

/-- the run starting from `dist` meets the conditions of C70 in every step -/
def SmoothRun (cfg : Cfg K) (enL relL absL : List (String × (K → K))) (dt : K) (dist : Dist K) : Prop :=
  ∀ k : ℕ, (k : K) * dt < cfg.totalTime → Smooth cfg (rateSum enL) (rateSum relL) (rateSum absL)
    (min dt (cfg.totalTime - k * dt))
    (eulerRun (eulerBin cfg.mec2 (rateSum enL) (rateSum relL) (rateSum absL)) dt cfg.totalTime (startPairs cfg dist) k)

variable {cfg : Cfg K} {enL relL absA absB : List (String × (K → K))} {dt : K} {dist distA distB : Dist K}

/-- if both runs are smooth, so is the run of the sum -/
theorem smooth_add (hA : SmoothRun (cfg.injecting absA) enL relL absA dt distA)
    (hB : SmoothRun (cfg.injecting absB) enL relL absB dt distB)
    (hsum : ∀ x ∈ cfg.initialGamma, dist.eval x = distA.eval x + distB.eval x) :
    SmoothRun (cfg.injecting (absA ++ absB)) enL relL (absA ++ absB) dt dist := by
  intro k hk
  have sA := hA k hk
  have sB := hB k hk
  rw [eulerRun_map] at sA sB ⊢
  simp only [startPairs, List.map_map, Cfg.injecting] at sA sB ⊢
  set t := min dt (cfg.totalTime - k * dt)
  set fA := eulerBin cfg.mec2 (rateSum enL) (rateSum relL) (rateSum absA) with hfA
  set fB := eulerBin cfg.mec2 (rateSum enL) (rateSum relL) (rateSum absB) with hfB
  set f := eulerBin cfg.mec2 (rateSum enL) (rateSum relL) (rateSum (absA ++ absB)) with hf
  set pA := (fun p => binRun fA dt cfg.totalTime p k) ∘ fun x => (x, distA.eval x) with hpA
  set pB := (fun p => binRun fB dt cfg.totalTime p k) ∘ fun x => (x, distB.eval x) with hpB
  set p := (fun p => binRun f dt cfg.totalTime p k) ∘ fun x => (x, dist.eval x) with hp
  have e1 : ∀ x, (p x).1 = (pA x).1 := fun x => binRun_fst x _ _ k
  have e2 : ∀ x, (p x).1 = (pB x).1 := fun x => binRun_fst x _ _ k
  have e3 : ∀ x ∈ cfg.initialGamma, (p x).2 = (pA x).2 + (pB x).2 := by
    intro x hx
    simp only [hp, hpA, hpB, Function.comp_apply, hsum x hx]
    exact binRun_add (fun y => rateSum_append absA absB y) x _ _ k
  have g1 : ∀ x, (f t (p x)).1 = (fA t (pA x)).1 := fun x => eulerBin_fst _ _ _ (e1 x)
  have g3 : ∀ x ∈ cfg.initialGamma, (f t (p x)).2 = (fA t (pA x)).2 + (fB t (pB x)).2 := fun x hx =>
    eulerBin_add (fun y => rateSum_append absA absB y) t (e1 x).symm (e2 x).symm (e3 x hx)
  have nA : ∀ x ∈ cfg.initialGamma, 0 ≤ (fA t (pA x)).2 := fun x hx => sA.dens _ (List.mem_map_of_mem hx)
  have nB : ∀ x ∈ cfg.initialGamma, 0 ≤ (fB t (pB x)).2 := fun x hx => sB.dens _ (List.mem_map_of_mem hx)
  refine ⟨?_, ?_, ?_, ?_, ?_, ?_⟩
  · simp only [List.mem_map, forall_exists_index, and_imp, forall_apply_eq_imp_iff₂]
    intro x hx
    rw [← hf, g1]
    exact sA.pos _ (List.mem_map_of_mem hx)
  · simp only [List.mem_map, forall_exists_index, and_imp, forall_apply_eq_imp_iff₂]
    intro x hx
    rw [e1]
    exact sA.width _ (List.mem_map_of_mem hx)
  · simp only [List.mem_map, forall_exists_index, and_imp, forall_apply_eq_imp_iff₂]
    intro x hx
    rw [← hf, g3 x hx]
    exact add_nonneg (nA x hx) (nB x hx)
  · have := sA.order
    rw [List.map_map] at this ⊢
    have e : cfg.initialGamma.map ((fun q => cfg.num.log10 (f t q).1) ∘ p)
        = cfg.initialGamma.map ((fun q => cfg.num.log10 (fA t q).1) ∘ pA) :=
      List.map_congr_left fun x _ => congrArg _ (g1 x)
    show (cfg.initialGamma.map ((fun q => cfg.num.log10 (f t q).1) ∘ p)).Pairwise (· < ·)
    rw [e]
    exact this
  · intro thr hthr j hj
    have := sA.apart thr hthr j (by simpa using hj)
    have hj' : j + 1 < cfg.initialGamma.length := by simpa using hj
    rw [getD_map_pair hj', getD_map_pair (by omega)] at this ⊢
    rw [← hf, g1, g1]
    exact this
  · have cnt : ∀ (h : K → K × K) (q : K × K → K), ((cfg.initialGamma.map h).filter fun p => decide (q p ≠ 0)).length
        = (cfg.initialGamma.filter fun x => decide (0 < (if q (h x) = 0 then (0 : K) else 1))).length := by
      intro h q
      rw [List.filter_map, List.length_map]
      congr 1
      apply List.filter_congr
      intro x _
      by_cases hq : q (h x) = 0 <;> simp [hq]
    have more : ∀ (h : K → K × K) (q : K × K → K), (∀ x ∈ cfg.initialGamma, q (h x) ≠ 0 → (f t (p x)).2 ≠ 0) →
        2 ≤ ((cfg.initialGamma.map h).filter fun p => decide (q p ≠ 0)).length →
        2 ≤ ((cfg.initialGamma.map p).filter fun p => decide ((f t p).2 ≠ 0)).length := by
      intro h q hq h2
      rw [cnt] at h2
      rw [List.filter_map, List.length_map]
      refine filter_pos_length (g := fun x => (f t (p x)).2) (fun x hx h => hq x hx ?_) h2
      intro h0
      simp [h0] at h
    rcases sA.interp with zA | zA
    · rcases sB.interp with zB | zB
      · left
        simp only [List.mem_map, forall_exists_index, and_imp, forall_apply_eq_imp_iff₂]
        intro x hx
        rw [← hf, g3 x hx, zA _ (List.mem_map_of_mem hx), zB _ (List.mem_map_of_mem hx), add_zero]
      · right
        refine more pB (fun p => (fB t p).2) (fun x hx h => ?_) zB
        rw [g3 x hx]
        exact (add_pos_of_nonneg_of_pos (nA x hx) (lt_of_le_of_ne (nB x hx) (Ne.symm h))).ne'
    · right
      refine more pA (fun p => (fA t p).2) (fun x hx h => ?_) zA
      rw [g3 x hx]
      exact (add_pos_of_pos_of_nonneg (lt_of_le_of_ne (nA x hx) (Ne.symm h)) (nB x hx)).ne'

/-- Superposition.  Let two populations, starting from `distA` and `distB` and fed by the injections `absA` and `absB`,
evolve with rates of the Lorentz factor alone without bins being merged, reordered or turned inside out.  Then the
population starting from their sum and fed by both injections evolves too, through the same Lorentz factors, and its
densities are the sums of theirs, at every callback and at the end. -/
theorem C93_superposition [FloorSemiring K]
    (lA : LocalRates (cfg.injecting absA) enL relL absA dt) (lB : LocalRates (cfg.injecting absB) enL relL absB dt)
    (l : LocalRates (cfg.injecting (absA ++ absB)) enL relL (absA ++ absB) dt)
    (hp : 0 < dt) (h2 : 2 ≤ cfg.initialGamma.length)
    (hA : SmoothRun (cfg.injecting absA) enL relL absA dt distA)
    (hB : SmoothRun (cfg.injecting absB) enL relL absB dt distB)
    (hsum : ∀ x ∈ cfg.initialGamma, dist.eval x = distA.eval x + distB.eval x) :
    (∃ rA dA rB dB r d, Returns (cfg.injecting absA) distA rA dA ∧ Returns (cfg.injecting absB) distB rB dB
      ∧ Returns (cfg.injecting (absA ++ absB)) dist r d) ∧
    (∀ rA dA rB dB r d, Returns (cfg.injecting absA) distA rA dA → Returns (cfg.injecting absB) distB rB dB →
      Returns (cfg.injecting (absA ++ absB)) dist r d →
      r.gamma = rA.gamma ∧ r.gamma = rB.gamma ∧ r.density = List.zipWith (· + ·) rA.density rB.density) ∧
    ∀ k, 0 < k → k ≤ ⌈cfg.totalTime / dt⌉₊ → (∃ c, KthCallback (cfg.injecting (absA ++ absB)) dist k c) ∧
      ∀ cA cB c, KthCallback (cfg.injecting absA) distA k cA → KthCallback (cfg.injecting absB) distB k cB →
        KthCallback (cfg.injecting (absA ++ absB)) dist k c →
        c.gamma = cA.gamma ∧ c.gamma = cB.gamma ∧ c.density = List.zipWith (· + ·) cA.density cB.density := by
  obtain ⟨⟨rA, dA, hrA⟩, retA, cbA⟩ := C70_euler_run lA hp h2 rfl hA
  obtain ⟨⟨rB, dB, hrB⟩, retB, cbB⟩ := C70_euler_run lB hp h2 rfl hB
  obtain ⟨⟨r, d, hr⟩, ret, cb⟩ := C70_euler_run l hp h2 rfl (smooth_add hA hB hsum)
  have key : ∀ k, ∃ F FA FB : K → K × K,
      eulerRun (eulerBin cfg.mec2 (rateSum enL) (rateSum relL) (rateSum absA)) dt cfg.totalTime
        (startPairs (cfg.injecting absA) distA) k = cfg.initialGamma.map FA ∧
      eulerRun (eulerBin cfg.mec2 (rateSum enL) (rateSum relL) (rateSum absB)) dt cfg.totalTime
        (startPairs (cfg.injecting absB) distB) k = cfg.initialGamma.map FB ∧
      eulerRun (eulerBin cfg.mec2 (rateSum enL) (rateSum relL) (rateSum (absA ++ absB))) dt cfg.totalTime
        (startPairs (cfg.injecting (absA ++ absB)) dist) k = cfg.initialGamma.map F ∧
      ∀ x ∈ cfg.initialGamma, (F x).1 = (FA x).1 ∧ (F x).1 = (FB x).1 ∧ (F x).2 = (FA x).2 + (FB x).2 := by
    intro k
    refine ⟨_, _, _, by rw [eulerRun_map, startPairs, List.map_map]; rfl,
      by rw [eulerRun_map, startPairs, List.map_map]; rfl, by rw [eulerRun_map, startPairs, List.map_map]; rfl, ?_⟩
    intro x hx
    refine ⟨binRun_fst x _ _ k, binRun_fst x _ _ k, ?_⟩
    simp only [Function.comp_apply, hsum x hx]
    exact binRun_add (fun y => rateSum_append absA absB y) x _ _ k
  have fin : ∀ (F FA FB : K → K × K), (∀ x ∈ cfg.initialGamma, (F x).1 = (FA x).1 ∧ (F x).1 = (FB x).1
      ∧ (F x).2 = (FA x).2 + (FB x).2) →
      (cfg.initialGamma.map F).map Prod.fst = (cfg.initialGamma.map FA).map Prod.fst ∧
      (cfg.initialGamma.map F).map Prod.fst = (cfg.initialGamma.map FB).map Prod.fst ∧
      (cfg.initialGamma.map F).map Prod.snd
        = List.zipWith (· + ·) ((cfg.initialGamma.map FA).map Prod.snd) ((cfg.initialGamma.map FB).map Prod.snd) := by
    intro F FA FB h
    simp only [List.map_map, List.zipWith_map_left, List.zipWith_map_right]
    refine ⟨List.map_congr_left fun x hx => (h x hx).1, List.map_congr_left fun x hx => (h x hx).2.1, ?_⟩
    rw [List.zipWith_self]
    exact List.map_congr_left fun x hx => (h x hx).2.2
  refine ⟨⟨rA, dA, rB, dB, r, d, hrA, hrB, hr⟩, ?_, ?_⟩
  · intro rA dA rB dB r d hrA hrB hr
    obtain ⟨F, FA, FB, eA, eB, e, hF⟩ := key ⌈cfg.totalTime / dt⌉₊
    obtain ⟨a1, a2, -⟩ := retA rA dA hrA
    obtain ⟨b1, b2, -⟩ := retB rB dB hrB
    obtain ⟨c1, c2, -⟩ := ret r d hr
    have a1' : rA.gamma = (cfg.initialGamma.map FA).map Prod.fst := a1.trans (congrArg _ eA)
    have a2' : rA.density = (cfg.initialGamma.map FA).map Prod.snd := a2.trans (congrArg _ eA)
    have b1' : rB.gamma = (cfg.initialGamma.map FB).map Prod.fst := b1.trans (congrArg _ eB)
    have b2' : rB.density = (cfg.initialGamma.map FB).map Prod.snd := b2.trans (congrArg _ eB)
    have c1' : r.gamma = (cfg.initialGamma.map F).map Prod.fst := c1.trans (congrArg _ e)
    have c2' : r.density = (cfg.initialGamma.map F).map Prod.snd := c2.trans (congrArg _ e)
    rw [a1', a2', b1', b2', c1', c2']
    exact fin F FA FB hF
  · intro k hk hkN
    refine ⟨(cb k hk hkN).1, ?_⟩
    intro cA cB c hcA hcB hc
    obtain ⟨F, FA, FB, eA, eB, e, hF⟩ := key k
    obtain ⟨a1, a2⟩ := (cbA k hk hkN).2 cA hcA
    obtain ⟨b1, b2⟩ := (cbB k hk hkN).2 cB hcB
    obtain ⟨c1, c2⟩ := (cb k hk hkN).2 c hc
    have a1' : cA.gamma = (cfg.initialGamma.map FA).map Prod.fst := a1.trans (congrArg _ eA)
    have a2' : cA.density = (cfg.initialGamma.map FA).map Prod.snd := a2.trans (congrArg _ eA)
    have b1' : cB.gamma = (cfg.initialGamma.map FB).map Prod.fst := b1.trans (congrArg _ eB)
    have b2' : cB.density = (cfg.initialGamma.map FB).map Prod.snd := b2.trans (congrArg _ eB)
    have c1' : c.gamma = (cfg.initialGamma.map F).map Prod.fst := c1.trans (congrArg _ e)
    have c2' : c.density = (cfg.initialGamma.map F).map Prod.snd := c2.trans (congrArg _ e)
    rw [a1', a2', b1', b2', c1', c2']
    exact fin F FA FB hF

/-! ### the hypotheses can be met -/

theorem superpositionDemo {L : List (String × (ℚ → ℚ))} (hL : (L.map Prod.fst).Nodup) :
    LocalRates (eulerCfg.injecting L) [("cool", fun g => -(g * g) / 8)] [("esc", fun _ => -1/10)] L (1/2) where
  wf := { eulerCfg_local.wf with keysAbs := by simpa [Cfg.injecting, ofGamma, Function.comp_def] using hL }
  en := rfl
  rel := rfl
  abs := rfl
  fixed := rfl
  euler := rfl
  noGroups := rfl
  noBounds := rfl

/-- C93 applies: two populations, of which the second is fed at twice the rate -/
example : ∃ rA dA rB dB r d, Returns (eulerCfg.injecting [("inj", fun _ => 1)]) demoDist rA dA
    ∧ Returns (eulerCfg.injecting [("more", fun _ => 2)]) demoDist rB dB
    ∧ Returns (eulerCfg.injecting ([("inj", fun _ => 1)] ++ [("more", fun _ => 2)]))
      { demoDist with eval := fun x => demoDist.eval x + demoDist.eval x } r d
    ∧ r.density = List.zipWith (· + ·) rA.density rB.density ∧ r.density.length = 3 := by
  have smooth : ∀ L : List (String × (ℚ → ℚ)), (L = [("inj", fun _ => 1)] ∨ L = [("more", fun _ => 2)]) →
      SmoothRun (eulerCfg.injecting L) [("cool", fun g => -(g * g) / 8)] [("esc", fun _ => -1/10)] L (1/2) demoDist := by
    intro L hL k hk
    have hk2 : k < 2 := by
      have : (k : ℚ) < 3 / 2 := by
        have : (k : ℚ) * (1 / 2) < 3 / 4 := hk
        linarith
      have : (k : ℚ) < (2 : ℕ) := by push_cast; linarith
      exact_mod_cast this
    have : k = 0 ∨ k = 1 := by omega
    rcases hL with rfl | rfl <;> rcases this with rfl | rfl
    all_goals
      refine ⟨by decide +kernel, by decide +kernel, by decide +kernel, by decide +kernel, ?_, by decide +kernel⟩
      intro thr hthr
      have : thr = 1/1000 := by simpa [Cfg.injecting, eulerCfg, demoCfg] using hthr.symm
      subst this
      intro j hj
      rw [eulerRun_length] at hj
      have hj2 : j < 2 := by simp [startPairs, Cfg.injecting, eulerCfg, demoCfg] at hj; omega
      have : j = 0 ∨ j = 1 := by omega
      rcases this with rfl | rfl <;> decide +kernel
  have h := C93_superposition (cfg := eulerCfg) (dist := { demoDist with eval := fun x => demoDist.eval x + demoDist.eval x })
    (superpositionDemo (by decide)) (superpositionDemo (by decide)) (superpositionDemo (by decide)) (by norm_num) (by decide)
    (smooth _ (.inl rfl)) (smooth _ (.inr rfl)) (fun x _ => rfl)
  obtain ⟨⟨rA, dA, rB, dB, r, d, hA, hB, hr⟩, h2, -⟩ := h
  obtain ⟨-, -, e⟩ := h2 rA dA rB dB r d hA hB hr
  refine ⟨rA, dA, rB, dB, r, d, hA, hB, hr, e, ?_⟩
  have hA' := (C70_euler_run (superpositionDemo (by decide)) (by norm_num) (by decide) rfl (smooth _ (.inl rfl))).2.1 rA dA hA
  have hB' := (C70_euler_run (superpositionDemo (by decide)) (by norm_num) (by decide) rfl (smooth _ (.inr rfl))).2.1 rB dB hB
  rw [e, hA'.2.1, hB'.2.1]
  simp [eulerRun_length, startPairs, Cfg.injecting, eulerCfg, demoCfg]

end Verif.TE
