import Verif.Lemmas.NoChange

/- Energy-change functions that return a constant: the predictor and the corrector of the Heun method use the
same rates. -/

namespace Verif.TE

open Verif.Np

set_option linter.unusedSectionVars false

variable {K : Type} [Field K] [LinearOrder K] [IsStrictOrderedRing K]

/-- A rate that depends neither on the state nor on the energy. -/
def ConstFn (f : GammaFn K) : Prop := ∃ c, ∀ d p, f d p = List.replicate p.gamma.length c

theorem good1_unique {f : GammaFn K} (hf : ConstFn f) {n : Nat} {v w : List (NV K)} (hv : Good1 n f v)
    (hw : Good1 n f w) : v = w := by
  obtain ⟨c, hc⟩ := hf
  have e : ∀ {u : List (NV K)}, Good1 n f u → u = List.replicate n (some c) := by
    intro u hu
    rw [List.eq_replicate_iff]
    refine ⟨hu.1, fun x hx => ?_⟩
    obtain ⟨y, rfl, d, p, hy⟩ := hu.2 x hx
    rw [hc] at hy
    rw [List.eq_of_mem_replicate hy]
  rw [e hv, e hw]

theorem ratesGood2_unique {fns : List (String × GammaFn K)} (hf : ∀ f ∈ fns, ConstFn f.2) {n : Nat}
    {r q : Rates2 K} (hr : RatesGood2 fns n r) (hq : RatesGood2 fns n q) : r = q := by
  induction fns generalizing r q with
  | nil => cases hr; cases hq; rfl
  | cons f fns ih =>
    cases hr with
    | cons a b =>
      cases hq with
      | cons a' b' =>
        rename_i p r p' q
        rw [ih (fun g hg => hf g (by simp [hg])) b b']
        congr 1
        obtain ⟨k, lb, ub⟩ := p
        obtain ⟨k', lb', ub'⟩ := p'
        obtain ⟨e1, e2, e3⟩ := a
        obtain ⟨e1', e2', e3'⟩ := a'
        simp only at e1 e1' e2 e2' e3 e3'
        have h1 := good1_unique (hf f (by simp)) e2 e2'
        have h2 := good1_unique (hf f (by simp)) e3 e3'
        subst h1 h2 e1 e1'
        rfl

theorem newRates2_const {dist : Dist K} {b : Bins K} {n : Nat} {fns : List (String × GammaFn K)}
    {dens : List K} {sub : List (List K)} (hb : b.Len n) (hd : dens.length = n) (hs : sub ≠ [])
    (hl : ∀ r ∈ sub, r.length = n)
    (hf : ∀ f ∈ fns, ConstFn f.2) : ∃ r, newRates2 dist b fns dens sub = .ok r := by
  unfold newRates2
  rw [hb.1, params2_true hb hd hs hl]
  simp only [bind, Except.bind]
  clear hl hs
  induction fns with
  | nil => exact ⟨[], rfl⟩
  | cons f fns ih =>
    obtain ⟨r, hr⟩ := ih (fun g hg => hf g (by simp [hg]))
    obtain ⟨c, hc⟩ := hf f (by simp)
    refine ⟨(f.1, ⟨((deinterlace (f.2 dist ⟨interlace b, dens, sub⟩)).1).map some,
      ((deinterlace (f.2 dist ⟨interlace b, dens, sub⟩)).2).map some⟩) :: r, ?_⟩
    rw [mapM_ok_iff] at hr ⊢
    refine .cons ?_ hr
    unfold reshape2
    rw [if_pos (by rw [hc, List.length_replicate]; exact interlace_length hb)]
    rfl

theorem averageBins_self (b : Bins K) : averageBins b b = b := by
  have h : ∀ l : List K, List.zipWith (fun x y => (x + y) / 2) l l = l := by
    intro l
    induction l with
    | nil => rfl
    | cons x l ih => simp [ih]
  cases b
  simp [averageBins, h]

theorem zipWith_average_self (l : List (Bins K)) : List.zipWith averageBins l l = l := by
  induction l with
  | nil => rfl
  | cons x l ih => simp [ih, averageBins_self]

/-- with one group the fractions stay one -/
theorem EvalOut.sub_one {cfg : Cfg K} {n : Nat} {en : Bins K} {dens : List K}
    {sub : List (List K)} {chg : List (Bins K)} {inj : List (List K)} {gm : Bins K} {total : List K}
    {sub' : List (List K)} (hs : ∀ r ∈ sub, r.length = n) (h1 : sub.length = 1)
    (hsum : ∀ j, j < n → (sub.map (·.getD j 0)).sum = 1)
    (h : EvalOut cfg n en dens sub chg inj gm total sub') : sub' = sub := by
  obtain ⟨f, rfl⟩ := List.length_eq_one_iff.1 h1
  obtain ⟨f', hf'⟩ := List.length_eq_one_iff.1 (h.slen.trans h1)
  subst hf'
  congr 1
  refine ext_getD (h.rowlen f' (by simp)) (hs f (by simp)) (fun j hj => ?_)
  have a := h.subsum hsum j hj
  have b := hsum j hj
  simp only [List.map_cons, List.map_nil, List.sum_cons, List.sum_nil, add_zero] at a b
  rw [a, b]

/-- stages 1 and 2 with constant rates and one group -/
theorem applyStages12_const {cfg : Cfg K} (wf : cfg.WF) (hf : ∀ f ∈ cfg.enFns, ConstFn f.2) {s : State K}
    (hI : Inv cfg s) (hS : InvSub s) (hone : s.sub.length = 1) {enG : List (Bins K)} {inj : List (List K)}
    (hG : (sumRates2 s.en s.bins.lb.length cfg.subgroups).mapM finiteBins = .ok enG)
    (hgl : ∀ b ∈ enG, b.Len s.bins.lb.length)
    (hil : ∀ r ∈ inj, r.length = s.bins.lb.length) (t : K) :
    applyStages12 { cfg with heun := true } (toErg cfg s.bins) s.dens s.sub enG inj t
      = applyStages12 { cfg with heun := false } (toErg cfg s.bins) s.dens s.sub enG inj t := by
  unfold applyStages12
  have hlen : s.bins.Len s.bins.lb.length := ⟨rfl, hI.ublen⟩
  have eta : ∀ b, applyTimeEval { cfg with heun := b } = applyTimeEval cfg := fun _ => rfl
  simp only [eta, Bool.false_eq_true, if_false, if_true]
  cases h1 : applyTimeEval cfg (toErg cfg s.bins) s.dens s.sub (enG.map (scaleBins t))
      (inj.map (·.map (· * t))) with
  | error e => rfl
  | ok r =>
    obtain ⟨gm, d, sub'⟩ := r
    have ev := applyTimeEval_spec wf.lawful wf.mec2 (toErg_len hlen) hI.denslen hI.sublen
      (by
        intro b hb
        obtain ⟨b', hb', rfl⟩ := List.mem_map.1 hb
        exact scaleBins_len (hgl b' hb'))
      (by
        intro r hr
        obtain ⟨r', hr', rfl⟩ := List.mem_map.1 hr
        simp [hil r' hr']) h1
    have hsub := ev.sub_one hI.sublen hone hS.sum
    subst hsub
    cases h2 : updateDistribution cfg.num gm d with
    | error e => simp only [bind, Except.bind, h2]
    | ok D =>
      obtain ⟨r, hr⟩ := newRates2_const (dist := D) ev.len ev.tlen hI.subne hI.sublen hf
      have hrg := newRates2_spec hr
      rw [ev.len.1] at hrg
      have : r = s.en := ratesGood2_unique hf hrg hI.en
      subst this
      simp only [bind, Except.bind, h2, hr, ev.len.1, hG, zipWith_average_self, h1]

theorem step_heun_const {cfg : Cfg K} (wf : cfg.WF) (hf : ∀ f ∈ cfg.enFns, ConstFn f.2) {s : State K}
    (hI : Inv cfg s) (hS : InvSub s) (hone : s.sub.length = 1) :
    step { cfg with heun := true } s = step { cfg with heun := false } s := by
  unfold step
  have e0 : ∀ b, groupRates { cfg with heun := b } s = groupRates cfg s := fun _ => rfl
  simp only [e0]
  cases h1 : groupRates cfg s with
  | error e => rfl
  | ok g =>
    obtain ⟨enG, relG, absG⟩ := g
    obtain ⟨g1, g2, g3⟩ := groupRates_len rfl hI.en.len hI.rel.len hI.abs.len h1
    simp only [bind, Except.bind]
    cases h2 : totalInjection s.dens s.sub relG absG with
    | error e => rfl
    | ok inj =>
      have hinj := totalInjection_len hI.denslen hI.sublen g2 g3 h2
      have hG : (sumRates2 s.en s.bins.lb.length cfg.subgroups).mapM finiteBins = .ok enG := by
        unfold groupRates at h1
        obtain ⟨e1, k1, h1⟩ := bind_ok_iff.1 h1
        obtain ⟨e2, k2, h1⟩ := bind_ok_iff.1 h1
        obtain ⟨e3, k3, h1⟩ := bind_ok_iff.1 h1
        rw [pure_ok_iff] at h1
        simp only [Prod.mk.injEq] at h1
        rw [k1, h1.1]
      have e1 : ∀ b, chooseStep { cfg with heun := b } s enG relG absG = chooseStep cfg s enG relG absG :=
        fun _ => rfl
      simp only [e1]
      cases h3 : chooseStep cfg s enG relG absG with
      | error e => rfl
      | ok c =>
        obtain ⟨t0, left⟩ := c
        have e2 : ∀ t, applyTimeChanges { cfg with heun := true } (toErg cfg s.bins) s.dens s.sub enG inj t
            = applyTimeChanges { cfg with heun := false } (toErg cfg s.bins) s.dens s.sub enG inj t := by
          intro t
          unfold applyTimeChanges
          rw [applyStages12_const wf hf hI hS hone hG g1 hinj t]
          rfl
        have := e2 (truncStep cfg s.elapsed t0)
        simp only [show ∀ b, truncStep { cfg with heun := b } = truncStep cfg from fun _ => rfl,
          show ∀ b, toErg { cfg with heun := b } = toErg cfg from fun _ => rfl, this]
        rfl

end Verif.TE
