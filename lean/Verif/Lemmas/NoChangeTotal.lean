import Verif.Lemmas.Progress

/- Without processes a step does not fail, and an automatic step covers the whole remaining time. -/

namespace Verif.TE

open Verif.Np

set_option linter.unusedSectionVars false

variable {K : Type} [Field K] [LinearOrder K] [IsStrictOrderedRing K]

theorem ok_of_only {α : Type} {x : Except Err α} (h : Only (fun _ => False) x) : ∃ a, x = .ok a := by
  cases x with
  | ok a => exact ⟨a, rfl⟩
  | error e => exact (h e rfl).elim

theorem zipWith_add_zero {a z : List K} (hl : z.length = a.length) (hz : Zero1 z) :
    List.zipWith (· + ·) a z = a := by
  induction a generalizing z with
  | nil => simp
  | cons x a ih =>
    cases z with
    | nil => simp at hl
    | cons y z =>
      rw [List.zipWith_cons_cons, ih (by simpa using hl) (fun v hv => hz v (List.mem_cons_of_mem _ hv)),
        hz y (List.mem_cons_self ..), add_zero]

theorem any_eq_false_of {l : List K} {p : K → Bool} (h : ∀ x ∈ l, p x = false) : l.any p = false := by
  rw [List.any_eq_false]
  intro x hx
  simp [h x hx]

theorem evalGroup_zero_ok {cfg : Cfg K} (hm : 0 < cfg.mec2) {n : Nat} {b chg : Bins K} {dens frac : List K}
    (hb : b.Len n) (hc : chg.Len n) (hz : Zero2 chg) (hpos : ∀ x ∈ b.lb, 0 < x)
    (hw : ∀ j, j < n → b.lb.getD j 0 < b.ub.getD j 0)
    (hdnn : ∀ x ∈ dens, 0 ≤ x) (hfnn : ∀ x ∈ frac, 0 ≤ x) :
    ∃ d, evalGroup cfg (toErg cfg b) dens frac chg = .ok (b, d) ∧ ∀ x ∈ d, 0 ≤ x := by
  have hlb : List.zipWith (· + ·) (toErg cfg b).lb chg.lb = (toErg cfg b).lb :=
    zipWith_add_zero (by simp [toErg, hb.1, hc.1]) hz.1
  have hubz : List.zipWith (· + ·) (toErg cfg b).ub chg.ub = (toErg cfg b).ub :=
    zipWith_add_zero (by simp [toErg, hb.2, hc.2]) hz.2
  have hpu : ∀ x ∈ b.ub, 0 < x := (forall_mem_iff_getD 0).2 (by
    intro j hj
    rw [hb.2] at hj
    exact lt_trans ((forall_mem_iff_getD 0).1 hpos j (by rw [hb.1]; exact hj)) (hw j hj))
  have hwid : ∀ x ∈ List.zipWith (· - ·) (toErg cfg b).ub (toErg cfg b).lb, 0 < x := by
    refine (forall_mem_iff_getD 0).2 ?_
    intro j hj
    have hj' : j < n := by simpa [toErg, hb.1, hb.2] using hj
    rw [getD_zipWith _ 0 0 0 (by simpa [toErg, hb.2] using hj') (by simpa [toErg, hb.1] using hj')]
    have e1 : (toErg cfg b).lb.getD j 0 = b.lb.getD j 0 * cfg.mec2 := getD_map' _ 0 0 (by rw [hb.1]; exact hj')
    have e2 : (toErg cfg b).ub.getD j 0 = b.ub.getD j 0 * cfg.mec2 := getD_map' _ 0 0 (by rw [hb.2]; exact hj')
    rw [e1, e2, ← sub_mul]
    exact mul_pos (sub_pos.2 (hw j hj')) hm
  have a1 : (toErg cfg b).lb.any (· ≤ 0) = false := any_eq_false_of (by
    intro x hx
    obtain ⟨y, hy, rfl⟩ := List.mem_map.1 hx
    exact decide_eq_false (not_le.2 (mul_pos (hpos y hy) hm)))
  have a2 : (toErg cfg b).ub.any (· ≤ 0) = false := any_eq_false_of (by
    intro x hx
    obtain ⟨y, hy, rfl⟩ := List.mem_map.1 hx
    exact decide_eq_false (not_le.2 (mul_pos (hpu y hy) hm)))
  have a3 : (List.zipWith (· - ·) (toErg cfg b).ub (toErg cfg b).lb).any (· < 0) = false :=
    any_eq_false_of (fun x hx => decide_eq_false (not_lt.2 (hwid x hx).le))
  have a4 : (List.zipWith (· - ·) (toErg cfg b).ub (toErg cfg b).lb).any (· == 0) = false :=
    any_eq_false_of (fun x hx => by simpa using (hwid x hx).ne')
  have hm' := hm.ne'
  have back : ∀ l : List K, (l.map (· * cfg.mec2)).map (· / cfg.mec2) = l := by
    intro l
    rw [List.map_map]
    conv_rhs => rw [← List.map_id l]
    refine List.map_congr_left (fun x _ => ?_)
    exact mul_div_cancel_right₀ x hm'
  unfold evalGroup recalcGammaBins recalcEnergyBins
  dsimp only
  rw [hlb, hubz, a1, a2, a3, a4]
  refine ⟨_, congrArg Except.ok (Prod.ext (by
    show (⟨_, _⟩ : Bins K) = b
    unfold toErg
    rw [back, back]) rfl), ?_⟩
  dsimp only
  refine forall_mem_zipWith (P := fun x => 0 ≤ x) (Q := fun x => 0 ≤ x) ?_ ?_ (fun x y => mul_nonneg)
  · exact forall_mem_zipWith hdnn hfnn (fun x y => mul_nonneg)
  · exact forall_mem_zipWith (P := fun x => 0 < x) (Q := fun x => 0 < x) hwid hwid
      (fun x y h1 h2 => (div_pos h1 h2).le)

theorem addInjection_zero_ok {p : Bins K × List K} {inj : List K} (hp : ∀ x ∈ p.2, 0 ≤ x) (hi : Zero1 inj) :
    ∃ d, addInjection p inj = .ok (p.1, d) := by
  unfold addInjection
  have : (List.zipWith (· + ·) p.2 inj).any (· < 0) = false := any_eq_false_of (by
    refine forall_mem_zipWith (P := fun x => 0 ≤ x) (Q := fun x => x = 0) hp hi ?_
    rintro x y h rfl
    rw [add_zero]
    exact decide_eq_false (not_lt.2 h))
  simp only [this]
  exact ⟨_, rfl⟩

theorem applyTimeEval_zero_ok {cfg : Cfg K} (hm : 0 < cfg.mec2) {n : Nat} {b : Bins K} {dens : List K}
    {sub : List (List K)} {chg : List (Bins K)} {inj : List (List K)} (hb : b.Len n)
    (hsne : sub ≠ []) (hsnn : ∀ r ∈ sub, ∀ x ∈ r, 0 ≤ x)
    (hdnn : ∀ x ∈ dens, 0 ≤ x) (hpos : ∀ x ∈ b.lb, 0 < x) (hw : ∀ j, j < n → b.lb.getD j 0 < b.ub.getD j 0)
    (hcl : ∀ c ∈ chg, c.Len n) (hc : ∀ c ∈ chg, Zero2 c) (hi : ∀ r ∈ inj, Zero1 r)
    (l1 : sub.length ≤ chg.length) (l2 : sub.length ≤ inj.length) :
    ∃ r, applyTimeEval cfg (toErg cfg b) dens sub chg inj = .ok r := by
  have g : ∀ p ∈ List.zip sub chg, ∃ d, evalGroup cfg (toErg cfg b) dens p.1 p.2 = .ok (b, d) ∧ ∀ x ∈ d, 0 ≤ x := by
    intro p hp
    have h1 := (List.of_mem_zip hp).1
    have h2 := (List.of_mem_zip hp).2
    exact evalGroup_zero_ok hm hb (hcl _ h2) (hc _ h2) hpos hw hdnn (hsnn _ h1)
  obtain ⟨moved, hmv⟩ := mapM_ok_exists (f := fun p => evalGroup cfg (toErg cfg b) dens p.1 p.2)
    (l := List.zip sub chg) (fun p hp => by obtain ⟨d, hd, -⟩ := g p hp; exact ⟨_, hd⟩)
  have hmv' : ∀ q ∈ moved, q.1 = b ∧ ∀ x ∈ q.2, 0 ≤ x := mapM_forall_mem hmv (by
    intro p hp q hq
    obtain ⟨d, hd, hnn⟩ := g p hp
    rw [hd] at hq
    cases hq
    exact ⟨rfl, hnn⟩)
  have g2 : ∀ p ∈ List.zip moved inj, ∃ d, addInjection p.1 p.2 = .ok (b, d) := by
    intro p hp
    have h1 := hmv' _ (List.of_mem_zip hp).1
    obtain ⟨d, hd⟩ := addInjection_zero_ok h1.2 (hi _ (List.of_mem_zip hp).2)
    exact ⟨d, by rw [hd, h1.1]⟩
  obtain ⟨mv2, hmv2⟩ := mapM_ok_exists (f := fun p : (Bins K × List K) × List K => addInjection p.1 p.2)
    (l := List.zip moved inj) (fun p hp => by obtain ⟨d, hd⟩ := g2 p hp; exact ⟨_, hd⟩)
  have hmv2' : ∀ q ∈ mv2, q.1 = b := mapM_forall_mem hmv2 (by
    intro p hp q hq
    obtain ⟨d, hd⟩ := g2 p hp
    rw [hd] at hq
    cases hq
    rfl)
  have hlen : mv2.length = sub.length := by
    rw [mapM_ok_length hmv2, List.length_zip, mapM_ok_length hmv, List.length_zip]
    omega
  unfold applyTimeEval
  have hcond : (decide (chg.length < sub.length) || decide (inj.length < sub.length)) = false := by
    simp [l1, l2]
  rw [hcond, hmv]
  dsimp only [bind, Except.bind, pure, Except.pure]
  simp only [Bool.false_eq_true, if_false]
  rw [hmv2]
  dsimp only
  cases mv2 with
  | nil =>
    exact absurd (List.length_eq_zero_iff.1 hlen.symm) hsne
  | cons f rest =>
    dsimp only
    obtain ⟨o, ho⟩ := mapM_ok_exists (f := regrid cfg f.1) (l := rest) (fun p hp => by
      unfold regrid
      rw [hmv2' p (List.mem_cons_of_mem _ hp), hmv2' f (List.mem_cons_self ..)]
      simp)
    rw [ho]
    exact ⟨_, rfl⟩

theorem applyStages12_zero_ok {cfg : Cfg K} (hl : cfg.num.Lawful) (hm : 0 < cfg.mec2) (hf : Shaped cfg.enFns) {n : Nat}
    {b : Bins K} {dens : List K} {sub : List (List K)} {enRates : List (Bins K)}
    {injRates : List (List K)} {t : K} (hb : b.Len n) (hd : dens.length = n) (hsne : sub ≠ [])
    (hs : ∀ r ∈ sub, r.length = n) (hr : ∀ b ∈ enRates, b.Len n) (hi : ∀ r ∈ injRates, r.length = n)
    (hw : ∀ j, j < n → b.lb.getD j 0 < b.ub.getD j 0)
    (hsum : ∀ j, j < n → (sub.map (·.getD j 0)).sum = 1)
    (hsnn : ∀ r ∈ sub, ∀ x ∈ r, 0 ≤ x) (hdnn : ∀ x ∈ dens, 0 ≤ x) (hpos : ∀ x ∈ b.lb, 0 < x)
    (hfn : ∀ f ∈ cfg.enFns, ZeroFn f.2)
    (hz : ∀ c ∈ enRates, Zero2 c) (hzi : ∀ r ∈ injRates, Zero1 r)
    (hc : sub.length = enRates.length) (hil : sub.length ≤ injRates.length) (hg : sub.length = nGroups cfg)
    (hud : ∃ d, updateDistribution cfg.num b dens = .ok d) :
    ∃ r, applyStages12 cfg (toErg cfg b) dens sub enRates injRates t = .ok r := by
  obtain ⟨dist1, hud⟩ := hud
  have hinj : ∀ r ∈ injRates.map (·.map (· * t)), r.length = n := by
    intro r hr'
    obtain ⟨r', hr'', rfl⟩ := List.mem_map.1 hr'
    simp [hi r' hr'']
  have hinjz : ∀ r ∈ injRates.map (·.map (· * t)), Zero1 r := by
    intro r hr' x hx
    obtain ⟨r', hr'', rfl⟩ := List.mem_map.1 hr'
    obtain ⟨y, hy, rfl⟩ := List.mem_map.1 hx
    rw [hzi r' hr'' y hy, zero_mul]
  have hscale : ∀ rs : List (Bins K), (∀ c ∈ rs, Zero2 c) → ∀ c ∈ rs.map (scaleBins t), Zero2 c := by
    intro rs h c hc
    obtain ⟨c', hc', rfl⟩ := List.mem_map.1 hc
    exact scaleBins_zero (h c' hc')
  have hslen : ∀ rs : List (Bins K), (∀ c ∈ rs, c.Len n) → ∀ c ∈ rs.map (scaleBins t), c.Len n := by
    intro rs h c hc
    obtain ⟨c', hc', rfl⟩ := List.mem_map.1 hc
    exact scaleBins_len (h c' hc')
  obtain ⟨⟨gm1, d1, sub1⟩, h1⟩ := applyTimeEval_zero_ok (dens := dens) hm hb hsne hsnn hdnn hpos hw (hslen _ hr)
    (hscale _ hz) hinjz (by simp [hc]) (by simpa using hil)
  have ev1 := applyTimeEval_spec hl hm (toErg_len hb) hd hs (hslen _ hr) hinj h1
  obtain ⟨e1, e2, e3⟩ := ev1.zero hm hb hd hs hw hsum (hscale _ hz) hinjz
  subst e1 e2 e3
  unfold applyStages12
  dsimp only
  rw [h1]
  dsimp only [bind, Except.bind]
  rw [hud]
  dsimp only
  split
  · obtain ⟨r, h3⟩ := newRates2_ok (dist := dist1) hf hb hd hsne hs
    have hr2 := newRates2_spec h3
    have hr2l := hr2.len
    rw [hb.1] at hr2l
    obtain ⟨rec, h4⟩ := mapM_ok_exists (f := finiteBins) (l := sumRates2 r gm1.lb.length cfg.subgroups)
      (fun a ha => finiteBins_ok (sumRates2_fin hr2.fin cfg.subgroups a ha))
    have hrl : rec.length = sub1.length := by rw [mapM_ok_length h4, sumRates2_length, hg]
    have hrec : ∀ b ∈ rec, b.Len n := by
      rw [hb.1] at h4
      exact mapM_forall_mem h4 (fun a ha b hb => finiteBins_len (sumRates2_len hr2l cfg.subgroups a ha) hb)
    have hrecz : ∀ b ∈ rec, Zero2 b :=
      mapM_forall_mem h4 (fun a ha b hb =>
        finiteBins_zero (sumRates2_zero (hr2.zero hfn) cfg.subgroups a ha) hb)
    have havg : ∀ b ∈ List.zipWith averageBins enRates rec, b.Len n :=
      forall_mem_zipWith hr hrec (fun _ _ => averageBins_len)
    have havgz : ∀ b ∈ List.zipWith averageBins enRates rec, Zero2 b :=
      forall_mem_zipWith hz hrecz (fun _ _ => averageBins_zero)
    obtain ⟨⟨gm2, d2, sub2⟩, h5⟩ := applyTimeEval_zero_ok (dens := d1) hm hb hsne hsnn hdnn hpos hw (hslen _ havg)
      (hscale _ havgz) hinjz (by simp [hc, hrl]) (by simpa using hil)
    have ev2 := applyTimeEval_spec hl hm (toErg_len hb) hd hs (hslen _ havg) hinj h5
    obtain ⟨e1, e2, e3⟩ := ev2.zero hm hb hd hs hw hsum (hscale _ havgz) hinjz
    subst e1 e2 e3
    rw [h3]
    dsimp only
    rw [h4]
    dsimp only
    rw [h5]
    dsimp only
    rw [hud]
    exact ⟨_, rfl⟩
  · exact ⟨_, rfl⟩

/-! ### automatic step times -/

theorem maxTimeBin_zero (cfg : Cfg K) (elo ehi : K) : maxTimeBin cfg elo ehi 0 0 0 0 = ⊤ := by
  simp [maxTimeBin, timeEdge, timeDensity, timeRel, timeAbs]

theorem maxTimesGroup_zero {cfg : Cfg K} {en rates : Bins K} {rel abs : List K} (hz : Zero2 rates)
    (hr : Zero1 rel) (ha : Zero1 abs) : ∀ x ∈ maxTimesGroup cfg en rates rel abs, x = ⊤ := by
  unfold maxTimesGroup
  refine forall_mem_zipWith (P := fun _ => True)
    (Q := fun r : (K × K) × (K × K) => r.1.1 = 0 ∧ r.1.2 = 0 ∧ r.2.1 = 0 ∧ r.2.2 = 0) (by simp) ?_ ?_
  · rintro ⟨⟨a, b⟩, ⟨c, d⟩⟩ h
    have h1 := (List.of_mem_zip h).1
    have h2 := (List.of_mem_zip h).2
    exact ⟨hz.1 _ (List.of_mem_zip h1).1, hz.2 _ (List.of_mem_zip h1).2, hr _ (List.of_mem_zip h2).1,
      ha _ (List.of_mem_zip h2).2⟩
  · rintro x ⟨⟨a, b⟩, ⟨c, d⟩⟩ - ⟨rfl, rfl, rfl, rfl⟩
    exact maxTimeBin_zero cfg _ _

theorem calcMaxTimePerBin_zero {cfg : Cfg K} {en : Bins K} {dens : List K} {sub : List (List K)}
    {enG : List (Bins K)} {relG absG : List (List K)} (h : sub.length ≤ enG.length) (hz : ∀ c ∈ enG, Zero2 c)
    (hr : ∀ r ∈ relG, Zero1 r) (ha : ∀ r ∈ absG, Zero1 r) :
    ∃ l, calcMaxTimePerBin cfg en dens sub enG relG absG = .ok l ∧ ∀ x ∈ l, x = ⊤ := by
  unfold calcMaxTimePerBin
  rw [if_neg (by omega)]
  have key : ∀ (gs : List (List K × Bins K × List K × List K)) (acc : List (WithTop K)),
      (∀ g ∈ gs, Zero2 g.2.1 ∧ Zero1 g.2.2.1 ∧ Zero1 g.2.2.2) → (∀ x ∈ acc, x = ⊤) →
      ∃ l, gs.foldlM (maxTimesStep cfg en) acc = .ok l ∧ ∀ x ∈ l, x = ⊤ := by
    intro gs
    induction gs with
    | nil => exact fun acc _ h => ⟨acc, rfl, h⟩
    | cons g gs ih =>
      intro acc hg hacc
      obtain ⟨z1, z2, z3⟩ := hg g (List.mem_cons_self ..)
      have hany : (List.zipWith (fun d a => decide (d = 0 ∧ a < 0)) g.1 g.2.2.2).any id = false := by
        rw [List.any_eq_false]
        refine forall_mem_zipWith (P := fun _ => True) (Q := fun a => a = 0) (by simp) z3 ?_
        rintro x y - rfl
        simp
      rw [List.foldlM_cons]
      unfold maxTimesStep
      rw [hany]
      simp only [Bool.false_eq_true, if_false]
      refine ih _ (fun g' hg' => hg g' (List.mem_cons_of_mem _ hg')) ?_
      refine forall_mem_zipWith (P := fun x => x = ⊤) (Q := fun x => x = ⊤) hacc
        (maxTimesGroup_zero z1 z2 z3) ?_
      rintro x y rfl rfl
      simp
  refine key _ _ ?_ (by simp)
  rintro ⟨d, c, r, a⟩ hg
  have h1 := (List.of_mem_zip hg).2
  have h2 := (List.of_mem_zip h1).2
  exact ⟨hz _ (List.of_mem_zip h1).1, hr _ (List.of_mem_zip h2).1, ha _ (List.of_mem_zip h2).2⟩

theorem chooseStep_zero_ok {cfg : Cfg K} {s : State K} (hI : Inv cfg s) (hne : s.bins.lb ≠ [])
    {enG : List (Bins K)} {relG absG : List (List K)} (hL : StepLen s enG relG absG)
    (h : s.sub.length ≤ enG.length) (hz : ∀ c ∈ enG, Zero2 c)
    (hr : ∀ r ∈ relG, Zero1 r) (ha : ∀ r ∈ absG, Zero1 r) :
    ∃ r, chooseStep cfg s enG relG absG = .ok r ∧
      (cfg.stepDuration = .auto → (cfg.optimize = true → ∀ x ∈ s.timeLeft, x = 0) → r.1 = ⊤) := by
  have hlen : s.bins.Len s.bins.lb.length := ⟨rfl, hI.ublen⟩
  have hn : s.bins.lb.length ≠ 0 := fun h => hne (List.length_eq_zero_iff.1 h)
  unfold chooseStep
  cases hd : cfg.stepDuration with
  | fixed dt => exact ⟨_, rfl, by simp⟩
  | auto =>
    obtain ⟨l, hl, htop⟩ := calcMaxTimePerBin_zero (cfg := cfg) (en := toErg cfg s.bins) (dens := s.dens) h hz hr ha
    have hll := (calcMaxTimePerBin_spec (toErg_len hlen) hI.denslen hI.sublen hL.en hL.rel hL.abs hl).1
    dsimp only
    rw [hl]
    dsimp only [bind, Except.bind]
    have hmin : ∀ {m : List (WithTop K)} {t : WithTop K}, minTime m = .ok t → t ∈ m := by
      intro m t hm
      unfold minTime at hm
      split at hm
      · next t' ht =>
        cases hm
        exact List.min?_mem ht
      · cases hm
    by_cases ho : cfg.optimize = true
    · rw [if_pos ho]
      obtain ⟨t, ht⟩ := minTime_ok (l := List.zipWith (fun l m => if l = 0 then m else l) s.timeLeft l) (by
        intro h0
        have := congrArg List.length h0
        rw [List.length_zipWith, hll, hI.leftlen ho] at this
        simp at this
        exact hne this)
      rw [ht]
      refine ⟨_, rfl, fun _ h0 => ?_⟩
      refine forall_mem_zipWith (P := fun x => x = 0) (Q := fun x => x = ⊤) (R := fun x => x = ⊤)
        (h0 ho) htop ?_ t (hmin ht)
      rintro x y rfl rfl
      simp
    · rw [if_neg ho]
      obtain ⟨t, ht⟩ := minTime_ok (l := l) (by
        intro h0
        rw [h0] at hll
        exact hn hll.symm)
      rw [ht]
      exact ⟨_, rfl, fun _ _ => htop t (hmin ht)⟩

theorem truncStep_top (cfg : Cfg K) (el : K) : truncStep cfg el ⊤ = cfg.totalTime - el := by
  unfold truncStep
  rw [if_pos (WithTop.coe_lt_top _)]

/-! ### the step -/

theorem step_zero_ok {cfg : Cfg K} (wf : cfg.WF) {s : State K} (hI : Inv cfg s) (hS : InvSub s)
    (hL : Live cfg s) (h2 : 2 ≤ s.bins.lb.length) (hap : Apart cfg s.bins.lb)
    (hin : ∀ lo hi, cfg.gammaBounds = some (lo, hi) → ∀ x ∈ s.bins.lb,
      lo ≤ x ∧ x ≤ hi / (1 + binSizeFactor))
    (hen : ∀ f ∈ cfg.enFns, ZeroFn f.2) (hrel : ∀ f ∈ cfg.relFns, ZeroFn f.2)
    (habs : ∀ f ∈ cfg.absFns, ZeroFn f.2)
    (he : Shaped cfg.enFns) (hr : Shaped cfg.relFns) (ha : Shaped cfg.absFns)
    (hud : ∃ d, updateDistribution cfg.num s.bins s.dens = .ok d)
    (hg : s.elapsed < cfg.totalTime) :
    ∃ s', step cfg s = .ok s' ∧ (cfg.stepDuration = .auto →
      (cfg.optimize = true → ∀ x ∈ s.timeLeft, x = 0) → s'.elapsed = cfg.totalTime) := by
  have hn : s.bins.lb.length ≠ 0 := by omega
  obtain ⟨enG, relG, absG, h1, l1, l2, l3⟩ := groupRates_ok hI
  obtain ⟨g1, g2, g3⟩ := groupRates_len rfl hI.en.len hI.rel.len hI.abs.len h1
  have hlen : s.bins.Len s.bins.lb.length := ⟨rfl, hI.ublen⟩
  obtain ⟨inj, h2', l4⟩ := totalInjection_ok (dens := s.dens) (sub := s.sub) (relG := relG) (absG := absG)
    (by rw [l2, hL.groups]) (by rw [l3, hL.groups])
  have hinj := totalInjection_len hI.denslen hI.sublen g2 g3 h2'
  have hGz : (∀ b ∈ enG, Zero2 b) ∧ (∀ r ∈ relG, Zero1 r) ∧ (∀ r ∈ absG, Zero1 r) := by
    have h1' := h1
    unfold groupRates at h1'
    obtain ⟨e1, f1, h1'⟩ := bind_ok_iff.1 h1'
    obtain ⟨e2, f2, h1'⟩ := bind_ok_iff.1 h1'
    obtain ⟨e3, f3, h1'⟩ := bind_ok_iff.1 h1'
    rw [pure_ok_iff] at h1'
    simp only [Prod.mk.injEq] at h1'
    obtain ⟨rfl, rfl, rfl⟩ := h1'
    exact ⟨mapM_forall_mem f1 (fun a ha b hb =>
        finiteBins_zero (sumRates2_zero (hI.en.zero hen) cfg.subgroups a ha) hb),
      mapM_forall_mem f2 (fun a ha b hb =>
        finiteRow_zero (sumRates1_zero (hI.rel.zero hrel) cfg.subgroups a ha) hb),
      mapM_forall_mem f3 (fun a ha b hb =>
        finiteRow_zero (sumRates1_zero (hI.abs.zero habs) cfg.subgroups a ha) hb)⟩
  have hinjz := totalInjection_zero hGz.2.1 hGz.2.2 h2'
  obtain ⟨⟨t0, left⟩, h3, htop⟩ := chooseStep_zero_ok hI hL.ne ⟨g1, g2, g3⟩ (by rw [l1, hL.groups]) hGz.1 hGz.2.1 hGz.2.2
  obtain ⟨⟨gm, d, sb, dist, rates⟩, k1⟩ := applyStages12_zero_ok (t := truncStep cfg s.elapsed t0) wf.lawful wf.mec2 he
    hlen hI.denslen hI.subne hI.sublen g1 hinj hI.width hS.sum hS.nn hI.densnn hI.pos hen hGz.1 hinjz
    (by rw [l1, hL.groups]) (le_of_eq l4.symm) hL.groups hud
  obtain ⟨e1, e2, e3, hrz⟩ := applyStages12_zero wf.lawful wf.mec2 hlen hI.denslen hI.sublen g1
    hinj hI.width hS.sum hen hGz.1 hinjz k1
  have hrlen := rates_length (n := s.sub.length) (by rw [l1, hL.groups]) hL.groups k1
  obtain ⟨_, _, ev, -, -, -, -, hrl, -, -⟩ := applyStages12_spec wf.lawful wf.mec2 (toErg_len hlen) hI.denslen
    hI.sublen g1 hinj k1
  subst e1 e2 e3
  have hfail : Only (fun _ => False) (step cfg s) := by
    unfold step
    rw [h1]
    dsimp only [bind, Except.bind]
    rw [h2']
    dsimp only
    rw [h3]
    dsimp only
    have hok : ∃ o, applyTimeChanges cfg (toErg cfg s.bins) s.dens s.sub enG inj (truncStep cfg s.elapsed t0) = .ok o := by
      apply ok_of_only
      unfold applyTimeChanges
      rw [k1]
      refine only_bind (only_ok _) ?_
      intro a ha
      cases ha
      dsimp only
      refine only_bind (only_mono (sortAndMergeBins_only wf.lawful hI.ublen hI.denslen hI.pos hI.densnn) ?_) ?_
      · rintro e ⟨-, -, hlog⟩
        have hd := List.pairwise_iff_getElem.1 hap.distinct 0 1 (by simp; omega) (by simp; omega) (by omega)
        simp only [List.getElem_map] at hd
        rw [hlog _ (List.getElem_mem (by omega)) _ (List.getElem_mem (by omega : 1 < s.bins.lb.length))] at hd
        exact lt_irrefl _ hd
      · rintro ⟨b3, d3, m3⟩ k2
        have hmg := sortAndMergeBins_spec wf.lawful hI.ublen hI.denslen hI.pos k2
        have hag := sortAndMergeBins_agree wf.lawful hI.ublen hI.denslen hI.pos hI.densnn (by
          obtain ⟨d, hd⟩ := hud
          exact (applyStages12_spec wf.lawful wf.mec2 (toErg_len hlen) hI.denslen
            hI.sublen g1 hinj k1).choose_spec.choose_spec.2.2.2.2.1) k2
        obtain ⟨idx, rfl, hmg⟩ := hmg
        have hr3 : ∀ i ∈ idx, i < s.bins.lb.length := hmg.range
        have hDnn := updateDistribution_nonneg wf.lawful (applyStages12_spec wf.lawful wf.mec2 (toErg_len hlen) hI.denslen
            hI.sublen g1 hinj k1).choose_spec.choose_spec.2.2.2.2.1
        dsimp only
        rw [toInts_eq, remapSubgroups_enc s.sub _ s.bins.lb.length hI.subne hI.sublen (inRange_some hr3)
          (Or.inr none_not_mem_some)]
        refine only_bind (only_ok _) ?_
        intro s3 k3
        cases k3
        have hM := hmg.mapped hlen hI.denslen ev.pos hI.width hI.densnn hDnn hI.subne hag
        refine only_bind (only_mono (applyBounds_only hM ?_ ?_) ?_) (fun _ _ => only_pure _)
        · intro h0
          rw [h0] at hrlen
          exact hI.subne (List.length_eq_zero_iff.1 hrlen.symm)
        · intro r hr' h0
          have := (hrl r hr').1
          rw [h0] at this
          exact hn this.symm
        · rintro e ⟨-, lo, hi, hgb, hout⟩
          obtain ⟨rfl, -, -⟩ := sortAndMergeBins_id wf.lawful hI.ublen hI.denslen hap k2
          have hx : s.bins.lb[0] ∈ s.bins.lb := List.getElem_mem (by omega)
          exact hout _ hx (hin lo hi hgb _ hx)
    obtain ⟨o, h4⟩ := hok
    rw [h4]
    dsimp only
    obtain ⟨c1, c2, c3⟩ := chooseStep_spec wf hI ⟨g1, g2, g3⟩ h3
    obtain ⟨l, hmap, hM, -⟩ := applyTimeChanges_spec wf (toErg_len hlen) hI.denslen hI.subne hI.sublen g1 hinj h4
    obtain ⟨⟨left', mask⟩, h5⟩ := recalcMask_ok (cfg := cfg) (left := left) (t := truncStep cfg s.elapsed t0)
      hmap hM.range hn (fun ho => (c3 ho).1)
    obtain ⟨m1, m2, -, -⟩ := recalcMask_spec hmap hM.range hM.ublen hM.dlen (fun ho => by
      obtain ⟨a, b⟩ := c3 ho
      exact ⟨a, fun x hx => le_trans (truncStep_le_t _ _ _) (b x hx),
        truncStep_pos (c2 (wf.optAuto ho)) hg⟩) h5
    rw [h5]
    dsimp only
    obtain ⟨s', h6⟩ := refresh_ok wf he hr ha hI hL.ne (t := truncStep cfg s.elapsed t0) (left := left') hmap hM m1 (by
      intro j hj hj' hn
      refine m2 j hj' (hM.new j hj ?_)
      rw [List.getD_eq_getElem _ _ hj, hn])
    exact only_of_ok h6
  obtain ⟨s', hs'⟩ := ok_of_only hfail
  refine ⟨s', hs', fun hauto hleft => ?_⟩
  obtain ⟨enG', relG', absG', inj', t0', left'', t, o, left', mask, q1, q2, q3, rfl, q4, q5, q6⟩ := step_parts hs'
  rw [h1] at q1
  cases q1
  rw [h3] at q3
  cases q3
  have ht : t0 = ⊤ := htop hauto hleft
  obtain ⟨pe, pa, pr, -, -, -, -, -, -, -, -, -, -, e5, -⟩ := refresh_parts q6
  rw [e5, ht, truncStep_top]
  ring

end Verif.TE
