import Mathlib.Algebra.BigOperators.Group.List.Basic
import Verif.Lemmas.Totals
import Verif.Lemmas.Demo
import Verif.Props.TETwoHalves
import Verif.Props.TELoop

/-
C85: only what the processes of a subgroup give together matters for the evolution.

`SameProcesses cfg cfg'` (Lemmas/Totals.lean) says that two configurations agree in everything but the three
dictionaries of rate functions, the lists of names of the subgroups and the initial fractions as written down,
that they start with the same fractions, and that for every distribution and every array of energies the functions
of corresponding subgroups add up to the same rates.
-/

set_option linter.unusedSectionVars false

namespace Verif.TE

open Verif.Np

variable {K : Type} [Field K] [LinearOrder K] [IsStrictOrderedRing K]

/-- the part of a record that does not list the single processes: time, energies, densities, fractions -/
def Result.population (r : Result K) : K × List K × List K × List (List K) :=
  (r.totalTime, r.gamma, r.density, r.subgroups)

/-- what a caller of `evaluate()` learns about the particles: an exception, nothing yet, or the populations and
the distribution left in the blob -/
def evolution (cfg : Cfg K) (dist : Dist K) (fuel : Nat) :
    Except Err (Option ((K × List K × List K × List (List K)) × Dist K)) :=
  (outcome cfg dist fuel).map (Option.map fun p => (p.1.population, p.2))

variable {cfg cfg' : Cfg K}

theorem SameProcesses.total (h : SameProcesses cfg cfg') : cfg'.totalTime = cfg.totalTime :=
  (congrArg Cfg.totalTime h.rest).trans rfl

theorem loop_sim (h : SameProcesses cfg cfg') (wf : cfg.WF) (wf' : cfg'.WF) (hf : ShapedAll cfg)
    (hf' : ShapedAll cfg') (n : Nat) {s s' : State K} (hI : Inv cfg s) (hI' : Inv cfg' s')
    (hS : Sim cfg cfg' s s') (hL : Live cfg s) :
    Both (fun o o' => o'.map (fun s => ((resultOf s).population, s.dist))
      = o.map fun s => ((resultOf s).population, s.dist)) (loop cfg n s) (loop cfg' n s') := by
  have hres : ∀ {a a' : State K}, Sim cfg cfg' a a' → (resultOf a').population = (resultOf a).population := by
    intro a a' hs
    show (a'.elapsed, a'.bins.lb, a'.dens, a'.sub) = (a.elapsed, a.bins.lb, a.dens, a.sub)
    rw [hs.elapsed, hs.bins, hs.dens, hs.sub]
  induction n generalizing s s' with
  | zero =>
    unfold loop
    rw [hS.elapsed, h.total]
    split
    · exact Or.inr ⟨none, none, rfl, rfl, rfl⟩
    · refine Or.inr ⟨some s, some s', rfl, rfl, ?_⟩
      simp only [Option.map_some, hres hS, hS.dist]
  | succ n ih =>
    unfold loop
    rw [hS.elapsed, h.total]
    split
    · next hg =>
      rcases step_sim h wf wf' hf hf' hI hI' hS hL hg with ⟨e, e1, e2⟩ | ⟨a, b, e1, e2, hab⟩
      · rw [e1, e2]
        exact Or.inl ⟨e, rfl, rfl⟩
      · rw [e1, e2]
        have hg' : s'.elapsed < cfg'.totalTime := by rw [hS.elapsed, h.total]; exact hg
        exact ih (step_inv wf hI hg e1).1 (step_inv wf' hI' hg' e2).1 hab (step_live wf hI hL hg e1)
    · refine Or.inr ⟨some s, some s', rfl, rfl, ?_⟩
      simp only [Option.map_some, hres hS, hS.dist]

theorem evaluate_sim (h : SameProcesses cfg cfg') (wf : cfg.WF) (wf' : cfg'.WF) (hs : cfg.Sensible)
    (hf : ShapedAll cfg) (hf' : ShapedAll cfg') {dist : Dist K} (hnn : ∀ x, 0 ≤ dist.eval x) (n : Nat) :
    Both (fun o o' => o'.map (fun s => ((resultOf s).population, s.dist))
      = o.map fun s => ((resultOf s).population, s.dist)) (evaluate cfg dist n) (evaluate cfg' dist n) := by
  unfold evaluate
  rcases initState_sim h dist wf hf hf' with ⟨e, e1, e2⟩ | ⟨a, b, e1, e2, hab⟩
  · rw [e1, e2]
    exact Or.inl ⟨e, rfl, rfl⟩
  · obtain ⟨a', h1, hL⟩ := initState_live wf hs hf.en hf.rel hf.abs dist
    rw [e1] at h1
    cases h1
    rw [e1, e2]
    exact loop_sim h wf wf' hf hf' n (initState_inv wf hnn e1).1 (initState_inv wf' hnn e2).1 hab hL

/-- C85: two configurations whose processes give the same totals in every subgroup evolve alike: the same times,
energies, densities, fractions and distribution, or the same exception. -/
theorem C85_totals (h : SameProcesses cfg cfg') (wf : cfg.WF) (wf' : cfg'.WF) (hs : cfg.Sensible)
    (hf : ShapedAll cfg) (hf' : ShapedAll cfg') {dist : Dist K} (hnn : ∀ x, 0 ≤ dist.eval x) (fuel : Nat) :
    evolution cfg' dist fuel = evolution cfg dist fuel := by
  unfold evolution outcome
  rcases evaluate_sim h wf wf' hs hf hf' hnn fuel with ⟨e, e1, e2⟩ | ⟨a, b, e1, e2, hab⟩
  · rw [e1, e2]
  · rw [e1, e2]
    simp only [Except.map]
    refine congrArg Except.ok ?_
    rw [Option.map_map, Option.map_map]
    exact hab

theorem reach_sim (h : SameProcesses cfg cfg') (wf : cfg.WF) (wf' : cfg'.WF) (hs : cfg.Sensible)
    (hf : ShapedAll cfg) (hf' : ShapedAll cfg') {dist : Dist K} (hnn : ∀ x, 0 ≤ dist.eval x) {s : State K}
    (hr : Reach cfg dist s) : ∃ s', Reach cfg' dist s' ∧ Sim cfg cfg' s s' := by
  induction hr with
  | init h0 =>
    rcases initState_sim h dist wf hf hf' with ⟨e, e1, e2⟩ | ⟨a, b, e1, e2, hab⟩
    · rw [h0] at e1; cases e1
    · rw [h0] at e1
      cases e1
      exact ⟨b, .init e2, hab⟩
  | step hr hg hst ih =>
    obtain ⟨s', hr', hS⟩ := ih
    have hg' : s'.elapsed < cfg'.totalTime := by rw [hS.elapsed, h.total]; exact hg
    rcases step_sim h wf wf' hf hf' (reach_inv wf hnn hr).1 (reach_inv wf' hnn hr').1 hS
      (reach_live wf hs hf.en hf.rel hf.abs hnn hr) hg with ⟨e, e1, e2⟩ | ⟨a, b, e1, e2, hab⟩
    · rw [hst] at e1; cases e1
    · rw [hst] at e1
      cases e1
      exact ⟨b, .step hr' hg' e2, hab⟩

/-- C85, during the run: every callback of the one run has a counterpart in the other with the same time, energies,
densities, fractions and distribution.  (Exchange `cfg` and `cfg'` for the other direction.) -/
theorem C85_callbacks (h : SameProcesses cfg cfg') (wf : cfg.WF) (wf' : cfg'.WF) (hs : cfg.Sensible)
    (hf : ShapedAll cfg) (hf' : ShapedAll cfg') {dist : Dist K} (hnn : ∀ x, 0 ≤ dist.eval x) {r : Result K}
    {d : Dist K} (hc : CallsBack cfg dist r d) :
    ∃ r', CallsBack cfg' dist r' d ∧ r'.population = r.population := by
  obtain ⟨s, t, hr, hg, hst, rfl, rfl⟩ := hc
  obtain ⟨s', hr', hS⟩ := reach_sim h wf wf' hs hf hf' hnn hr
  have hg' : s'.elapsed < cfg'.totalTime := by rw [hS.elapsed, h.total]; exact hg
  rcases step_sim h wf wf' hf hf' (reach_inv wf hnn hr).1 (reach_inv wf' hnn hr').1 hS
    (reach_live wf hs hf.en hf.rel hf.abs hnn hr) hg with ⟨e, e1, e2⟩ | ⟨a, b, e1, e2, hab⟩
  · rw [hst] at e1; cases e1
  · rw [hst] at e1
    cases e1
    refine ⟨_, ⟨s', b, hr', hg', e2, rfl, by rw [hab.dist]⟩, ?_⟩
    show (b.elapsed, b.bins.lb, b.dens, b.sub) = (t.elapsed, t.bins.lb, t.dens, t.sub)
    rw [hab.elapsed, hab.bins, hab.dens, hab.sub]

/-! ### the order of the entries -/

theorem lookup_mem_iff {α : Type} {l : List (String × α)} (hn : (l.map Prod.fst).Nodup) {x : String} {a : α} :
    l.lookup x = some a ↔ (x, a) ∈ l := by
  induction l with
  | nil => simp
  | cons p l ih =>
    obtain ⟨k, b⟩ := p
    rw [List.map_cons, List.nodup_cons] at hn
    by_cases hx : x = k
    · subst hx
      simp only [List.lookup_cons, beq_self_eq_true, List.mem_cons, Prod.mk.injEq, true_and]
      constructor
      · intro h; exact Or.inl (Option.some.inj h).symm
      · rintro (rfl | h)
        · rfl
        · exact absurd (List.mem_map.2 ⟨_, h, rfl⟩) hn.1
    · have hb : (x == k) = false := by simpa using hx
      simp only [List.lookup_cons, hb, List.mem_cons, Prod.mk.injEq, hx, false_and, false_or]
      exact ih hn.2

theorem lookup_perm {α : Type} {l l' : List (String × α)} (hn : (l.map Prod.fst).Nodup) (hp : l'.Perm l)
    (x : String) : l'.lookup x = l.lookup x := by
  have hn' : (l'.map Prod.fst).Nodup := ((hp.map _).nodup_iff).2 hn
  ext a
  rw [lookup_mem_iff hn', lookup_mem_iff hn, hp.mem_iff]

theorem sum_of_perm {l l' : List K} (h : l.Perm l') : l.sum = l'.sum := h.sum_eq

theorem sameTotals_perm {fns fns' : List (String × GammaFn K)} (hn : (fns.map Prod.fst).Nodup)
    (hp : fns'.Perm fns) (sg : Option (List (List String))) : SameTotals sg sg fns fns' := by
  have e : ∀ d p i, fnAt fns' d p i = fnAt fns d p i := by
    intro d p i
    funext x
    unfold fnAt
    rw [lookup_perm hn hp]
  unfold SameTotals
  cases sg with
  | none =>
    refine .cons (fun d p i _ => ?_) .nil
    unfold totalAt
    rw [e]
    exact sum_of_perm ((hp.symm.map Prod.fst).map _)
  | some rows =>
    refine List.forall₂_same.2 fun ns _ d p i _ => ?_
    unfold totalAt
    rw [e]

theorem shaped_perm {fns fns' : List (String × GammaFn K)} (h : Shaped fns) (hp : fns'.Perm fns) : Shaped fns' :=
  fun f hf => h f (hp.mem_iff.1 hf)

/-- C85: the order of the entries of the three dictionaries does not matter. -/
theorem C85_order (wf : cfg.WF) (hs : cfg.Sensible) (he : Shaped cfg.enFns) (hr : Shaped cfg.relFns)
    (ha : Shaped cfg.absFns) {en rel abs : List (String × GammaFn K)} (pe : en.Perm cfg.enFns)
    (pr : rel.Perm cfg.relFns) (pa : abs.Perm cfg.absFns) {dist : Dist K} (hnn : ∀ x, 0 ≤ dist.eval x) (fuel : Nat) :
    evolution { cfg with enFns := en, relFns := rel, absFns := abs } dist fuel = evolution cfg dist fuel :=
  C85_totals (cfg' := { cfg with enFns := en, relFns := rel, absFns := abs })
    { rest := rfl
      start := rfl
      en := sameTotals_perm wf.keysEn pe _
      rel := sameTotals_perm wf.keysRel pr _
      abs := sameTotals_perm wf.keysAbs pa _ }
    wf
    { wf with
      keysEn := ((pe.map Prod.fst).nodup_iff).2 wf.keysEn
      keysRel := ((pr.map Prod.fst).nodup_iff).2 wf.keysRel
      keysAbs := ((pa.map Prod.fst).nodup_iff).2 wf.keysAbs }
    hs ⟨he, hr, ha⟩ ⟨shaped_perm he pe, shaped_perm hr pr, shaped_perm ha pa⟩ hnn fuel

/-! ### one subgroup with everything -/

theorem sum_superset (f : String → K) {keys names : List String} (hk : keys.Nodup) (hn : names.Nodup)
    (hsub : ∀ x ∈ keys, x ∈ names) (h0 : ∀ x, x ∉ keys → f x = 0) : (keys.map f).sum = (names.map f).sum := by
  have hp : (names.filter (fun x => x ∈ keys)).Perm keys := by
    refine (List.perm_ext_iff_of_nodup (hn.filter _) hk).2 fun x => ?_
    simp only [List.mem_filter, decide_eq_true_eq]
    exact ⟨fun h => h.2, fun h => ⟨hsub x h, h⟩⟩
  rw [sum_of_perm ((hp.map f).symm)]
  clear hp hn hsub hk
  induction names with
  | nil => rfl
  | cons x l ih =>
    by_cases hx : x ∈ keys
    · rw [List.filter_cons_of_pos (by simpa using hx)]
      simp only [List.map_cons, List.sum_cons, ih]
    · rw [List.filter_cons_of_neg (by simpa using hx)]
      simp only [List.map_cons, List.sum_cons, ih, h0 x hx, zero_add]

theorem fnAt_absent {fns : List (String × GammaFn K)} {x : String} (h : x ∉ fns.map Prod.fst) (d : Dist K)
    (p : FnParams K) (i : Nat) : fnAt fns d p i x = 0 := by
  unfold fnAt
  have : fns.lookup x = none := by
    rw [List.lookup_eq_none_iff]
    intro q hq
    have : x ≠ q.1 := fun e => h (List.mem_map.2 ⟨q, hq, e.symm⟩)
    simpa using this
  rw [this]

theorem sameTotals_one {fns : List (String × GammaFn K)} {names : List String} (hk : (fns.map Prod.fst).Nodup)
    (hn : names.Nodup) (hsub : ∀ f ∈ fns, f.1 ∈ names) : SameTotals none (some [names]) fns fns := by
  refine .cons (fun d p i _ => ?_) .nil
  refine sum_superset _ hk hn ?_ fun x hx => fnAt_absent hx d p i
  intro x hx
  obtain ⟨q, hq, rfl⟩ := List.mem_map.1 hx
  exact hsub q hq

/-- C85: running without subgroups is the same as running with one subgroup that lists every process once. -/
theorem C85_one_group (wf : cfg.WF) (he : Shaped cfg.enFns) (hr : Shaped cfg.relFns)
    (ha : Shaped cfg.absFns) (hg : cfg.subgroups = none) (hne : cfg.initialGamma ≠ []) {names : List String}
    (hn : names.Nodup) (ne : ∀ f ∈ cfg.enFns, f.1 ∈ names) (nr : ∀ f ∈ cfg.relFns, f.1 ∈ names)
    (na : ∀ f ∈ cfg.absFns, f.1 ∈ names) {dist : Dist K} (hnn : ∀ x, 0 ≤ dist.eval x) (fuel : Nat) :
    evolution { cfg with subgroups := some [names], initialFractions := none } dist fuel
      = evolution cfg dist fuel :=
  C85_totals (cfg' := { cfg with subgroups := some [names], initialFractions := none })
    { rest := rfl
      start := by unfold initialSub; rw [hg]; rfl
      en := by rw [hg]; exact sameTotals_one wf.keysEn hn ne
      rel := by rw [hg]; exact sameTotals_one wf.keysRel hn nr
      abs := by rw [hg]; exact sameTotals_one wf.keysAbs hn na }
    wf { wf with fractions := by intro f hf; cases hf }
    ⟨hne, by rw [hg]; simp, by intro g f h; rw [hg] at h; cases h⟩ ⟨he, hr, ha⟩ ⟨he, hr, ha⟩ hnn fuel

/-! ### splitting a process in two -/

/-- replace the function of `k` by `f1` and put `f2` under the new name `k2` next to it -/
def splitOff (k k2 : String) (f1 f2 : GammaFn K) (fns : List (String × GammaFn K)) : List (String × GammaFn K) :=
  fns.flatMap fun q => if q.1 = k then [(k, f1), (k2, f2)] else [q]

/-- name `k2` wherever `k` is named -/
def nameBoth (k k2 : String) (row : List String) : List String := row.flatMap fun x => if x = k then [k, k2] else [x]

/-- the two parts give arrays of the right length and add up to the function of `k`, if there is one -/
structure Parts (k k2 : String) (f1 f2 : GammaFn K) (fns : List (String × GammaFn K)) : Prop where
  fresh : k2 ∉ fns.map Prod.fst
  len1 : ∀ d p, (f1 d p).length = p.gamma.length
  len2 : ∀ d p, (f2 d p).length = p.gamma.length
  sum : ∀ f, (k, f) ∈ fns → ∀ d p, f d p = List.zipWith (· + ·) (f1 d p) (f2 d p)

theorem splitOff_lookup {k k2 : String} {f1 f2 : GammaFn K} {fns : List (String × GammaFn K)}
    (hk : k2 ≠ k) (h2 : k2 ∉ fns.map Prod.fst) (x : String) :
    (splitOff k k2 f1 f2 fns).lookup x
      = if x = k then (fns.lookup k).map fun _ => f1
        else if x = k2 then (fns.lookup k).map fun _ => f2 else fns.lookup x := by
  induction fns with
  | nil => simp [splitOff]
  | cons q fns ih =>
    obtain ⟨y, f⟩ := q
    have h2' : k2 ∉ fns.map Prod.fst := fun h => h2 (by simp [h])
    have hy : k2 ≠ y := fun h => h2 (by simp [h])
    have e : splitOff k k2 f1 f2 ((y, f) :: fns)
        = (if y = k then [(k, f1), (k2, f2)] else [(y, f)]) ++ splitOff k k2 f1 f2 fns := rfl
    rw [e]
    by_cases hyk : y = k
    · subst hyk
      rw [if_pos rfl]
      by_cases h1 : x = y
      · subst h1; simp
      · by_cases h3 : x = k2
        · subst h3; simp [List.lookup_cons, h1, beq_eq_false_iff_ne.2 h1]
        · have b1 : (x == y) = false := by simpa using h1
          have b2 : (x == k2) = false := by simpa using h3
          simp only [List.cons_append, List.nil_append, List.lookup_cons, b1, b2, ih h2', if_neg h1, if_neg h3]
    · rw [if_neg hyk]
      have b0 : (k == y) = false := by simpa using fun h : k = y => hyk h.symm
      by_cases h1 : x = y
      · subst h1
        simp [hyk, Ne.symm hy]
      · have b1 : (x == y) = false := by simpa using h1
        simp only [List.cons_append, List.nil_append, List.lookup_cons, b1, b0, ih h2']

theorem splitOff_keys (k k2 : String) (f1 f2 : GammaFn K) (fns : List (String × GammaFn K)) :
    (splitOff k k2 f1 f2 fns).map Prod.fst = nameBoth k k2 (fns.map Prod.fst) := by
  unfold splitOff nameBoth
  induction fns with
  | nil => rfl
  | cons q fns ih =>
    simp only [List.flatMap_cons, List.map_append, List.map_cons, ih]
    split <;> simp

theorem nameBoth_nodup {k k2 : String} {row : List String} (hk : k2 ≠ k) (h2 : k2 ∉ row) (hn : row.Nodup) :
    (nameBoth k k2 row).Nodup := by
  have hmem : ∀ l : List String, ∀ x, x ∈ nameBoth k k2 l → x ∈ l ∨ (x = k2 ∧ k ∈ l) := by
    intro l x hx
    obtain ⟨y, hy, hx⟩ := List.mem_flatMap.1 hx
    split at hx
    · next h =>
      subst h
      simp only [List.mem_cons, List.not_mem_nil, or_false] at hx
      rcases hx with rfl | rfl
      · exact Or.inl hy
      · exact Or.inr ⟨rfl, hy⟩
    · simp only [List.mem_cons, List.not_mem_nil, or_false] at hx
      subst hx
      exact Or.inl hy
  induction row with
  | nil => exact List.nodup_nil
  | cons y l ih =>
    rw [List.nodup_cons] at hn
    have h2' : k2 ∉ l := fun h => h2 (List.mem_cons_of_mem _ h)
    have hy2 : k2 ≠ y := fun h => h2 (by simp [h])
    have ih := ih h2' hn.2
    show ((if y = k then [k, k2] else [y]) ++ nameBoth k k2 l).Nodup
    split
    · next h =>
      subst h
      refine List.nodup_cons.2 ⟨?_, List.nodup_cons.2 ⟨?_, ih⟩⟩
      · intro h
        rcases List.mem_cons.1 h with h | h
        · exact hk h.symm
        · rcases hmem l _ h with h | h
          · exact hn.1 h
          · exact hk h.1.symm
      · intro h
        rcases hmem l _ h with h | h
        · exact h2' h
        · exact hn.1 h.2
    · refine List.nodup_cons.2 ⟨?_, ih⟩
      intro h
      rcases hmem l _ h with h | h
      · exact hn.1 h
      · exact hy2 h.1.symm

theorem totalAt_split {k k2 : String} {f1 f2 : GammaFn K} {fns : List (String × GammaFn K)} (hk : k2 ≠ k)
    (hP : Parts k k2 f1 f2 fns) (hn : (fns.map Prod.fst).Nodup) (d : Dist K) (p : FnParams K) {i : Nat}
    (hi : i < p.gamma.length) {row : List String} (h2 : k2 ∉ row) :
    totalAt fns d p i row = totalAt (splitOff k k2 f1 f2 fns) d p i (nameBoth k k2 row) := by
  unfold totalAt nameBoth
  induction row with
  | nil => rfl
  | cons x row ih =>
    have ih := ih fun h => h2 (List.mem_cons_of_mem _ h)
    have hx2 : x ≠ k2 := fun h => h2 (by simp [h])
    rw [List.flatMap_cons, List.map_cons, List.sum_cons, List.map_append, List.sum_append, ih]
    congr 1
    split
    · next h =>
      subst h
      simp only [List.map_cons, List.map_nil, List.sum_cons, List.sum_nil, add_zero]
      unfold fnAt
      rw [splitOff_lookup hk hP.fresh, splitOff_lookup hk hP.fresh, if_pos rfl, if_neg hk, if_pos rfl]
      cases hl : fns.lookup x with
      | none => simp
      | some f =>
        have := hP.sum f ((lookup_mem_iff hn).1 hl) d p
        simp only [Option.map_some, this]
        rw [List.getD_eq_getElem _ _ (by rw [List.length_zipWith, hP.len1, hP.len2]; omega),
          List.getD_eq_getElem _ _ (by rw [hP.len1]; exact hi), List.getD_eq_getElem _ _ (by rw [hP.len2]; exact hi),
          List.getElem_zipWith]
    · next h =>
      simp only [List.map_cons, List.map_nil, List.sum_cons, List.sum_nil, add_zero]
      unfold fnAt
      rw [splitOff_lookup hk hP.fresh, if_neg h, if_neg hx2]

theorem sameTotals_split {k k2 : String} {f1 f2 : GammaFn K} {fns : List (String × GammaFn K)} (hk : k2 ≠ k)
    (hP : Parts k k2 f1 f2 fns) (hn : (fns.map Prod.fst).Nodup) {sg : Option (List (List String))}
    (h2 : ∀ rows, sg = some rows → ∀ row ∈ rows, k2 ∉ row) :
    SameTotals sg (sg.map (List.map (nameBoth k k2))) fns (splitOff k k2 f1 f2 fns) := by
  unfold SameTotals
  cases sg with
  | none =>
    refine .cons (fun d p i hi => ?_) .nil
    rw [splitOff_keys]
    exact totalAt_split hk hP hn d p hi hP.fresh
  | some rows =>
    refine List.forall₂_map_right_iff.2 (List.forall₂_same.2 fun row hrow d p i hi => ?_)
    exact totalAt_split hk hP hn d p hi (h2 rows rfl row hrow)

theorem shaped_split {k k2 : String} {f1 f2 : GammaFn K} {fns : List (String × GammaFn K)}
    (hP : Parts k k2 f1 f2 fns) (hs : Shaped fns) : Shaped (splitOff k k2 f1 f2 fns) := by
  intro f hf
  obtain ⟨q, hq, hf⟩ := List.mem_flatMap.1 hf
  split at hf
  · simp only [List.mem_cons, List.not_mem_nil, or_false] at hf
    rcases hf with rfl | rfl
    · exact hP.len1
    · exact hP.len2
  · simp only [List.mem_cons, List.not_mem_nil, or_false] at hf
    subst hf
    exact hs _ hq

/-- the configuration with the process `k` split into two processes `k` and `k2` of the same subgroups; `f`, `g`,
`h` are the two parts of its energy change, its relative and its absolute injection (whichever it has) -/
def Cfg.split (cfg : Cfg K) (k k2 : String) (f g h : GammaFn K × GammaFn K) : Cfg K :=
  { cfg with
    enFns := splitOff k k2 f.1 f.2 cfg.enFns
    relFns := splitOff k k2 g.1 g.2 cfg.relFns
    absFns := splitOff k k2 h.1 h.2 cfg.absFns
    subgroups := cfg.subgroups.map (List.map (nameBoth k k2)) }

/-- C85: a process may be entered as one or as two that add up to it: the particles evolve the same way. -/
theorem C85_split (wf : cfg.WF) (hs : cfg.Sensible) (he : Shaped cfg.enFns) (hr : Shaped cfg.relFns)
    (ha : Shaped cfg.absFns) {k k2 : String} (hk : k2 ≠ k)
    (h2 : ∀ rows, cfg.subgroups = some rows → ∀ row ∈ rows, k2 ∉ row) {f g h : GammaFn K × GammaFn K}
    (pe : Parts k k2 f.1 f.2 cfg.enFns) (pr : Parts k k2 g.1 g.2 cfg.relFns) (pa : Parts k k2 h.1 h.2 cfg.absFns)
    {dist : Dist K} (hnn : ∀ x, 0 ≤ dist.eval x) (fuel : Nat) :
    evolution (cfg.split k k2 f g h) dist fuel = evolution cfg dist fuel :=
  C85_totals (cfg' := cfg.split k k2 f g h)
    { rest := rfl
      start := by
        unfold initialSub Cfg.split
        cases cfg.subgroups with
        | none => rfl
        | some rows =>
          cases cfg.initialFractions with
          | some f => rfl
          | none =>
            cases rows with
            | nil => rfl
            | cons r rs =>
              show Except.ok (_ :: List.map _ (List.map _ rs)) = Except.ok (_ :: List.map _ rs)
              rw [List.map_map]
              rfl
      en := sameTotals_split hk pe wf.keysEn h2
      rel := sameTotals_split hk pr wf.keysRel h2
      abs := sameTotals_split hk pa wf.keysAbs h2 }
    wf
    { wf with
      keysEn := by
        show ((splitOff _ _ _ _ _).map Prod.fst).Nodup
        rw [splitOff_keys]; exact nameBoth_nodup hk pe.fresh wf.keysEn
      keysRel := by
        show ((splitOff _ _ _ _ _).map Prod.fst).Nodup
        rw [splitOff_keys]; exact nameBoth_nodup hk pr.fresh wf.keysRel
      keysAbs := by
        show ((splitOff _ _ _ _ _).map Prod.fst).Nodup
        rw [splitOff_keys]; exact nameBoth_nodup hk pa.fresh wf.keysAbs }
    hs ⟨he, hr, ha⟩ ⟨shaped_split pe he, shaped_split pr hr, shaped_split pa ha⟩ hnn fuel

/-! ### concrete cases -/

/-- cooling, escape and injection without subgroups -/
def plainCfg : Cfg ℚ := { demoCfg with subgroups := none }

theorem plainCfg_wf : plainCfg.WF := { demoCfg_wf with fractions := by intro f hf; cases hf }

theorem plainCfg_shaped : Shaped plainCfg.enFns ∧ Shaped plainCfg.relFns ∧ Shaped plainCfg.absFns := by
  refine ⟨?_, ?_, ?_⟩ <;>
  · intro f hf d p
    simp only [plainCfg, demoCfg, List.mem_cons, List.not_mem_nil, or_false] at hf
    subst hf
    simp

/-- a run that moves, loses and gains particles: entered plainly or as one subgroup -/
example : evolution { plainCfg with subgroups := some [["inj", "cool", "esc"]], initialFractions := none } demoDist 9
      = evolution plainCfg demoDist 9 ∧
    checkRun plainCfg demoDist 9 (fun s => s.dens.any (fun x => decide (0 < x)) && decide (s.bins.lb ≠ [1, 2, 4])) = true := by
  obtain ⟨h1, h2, h3⟩ := plainCfg_shaped
  refine ⟨C85_one_group plainCfg_wf h1 h2 h3 rfl (by decide) (by decide) ?_ ?_ ?_ demoDist_nonneg 9, by decide +kernel⟩
  all_goals
    intro f hf
    simp only [plainCfg, demoCfg, List.mem_cons, List.not_mem_nil, or_false] at hf
    subst hf
    decide

/-- a third and two thirds of the cooling of `demoCfg`, in both of its subgroups -/
example : evolution (demoCfg.split "cool" "more"
      (fun _ p => p.gamma.map fun g => -(g * g) / 24, fun _ p => p.gamma.map fun g => -(g * g) / 12)
      (fun _ p => p.gamma, fun _ p => p.gamma) (fun _ p => p.gamma, fun _ p => p.gamma)) demoDist 9
    = evolution demoCfg demoDist 9 := by
  obtain ⟨h1, h2, h3⟩ := plainCfg_shaped
  refine C85_split demoCfg_wf ⟨by decide, by decide, by intro g f _ h; cases h⟩ h1 h2 h3 (by decide) ?_ ?_ ?_ ?_
    demoDist_nonneg 9
  · intro rows h row hrow
    cases h
    simp only [List.mem_cons, List.not_mem_nil, or_false] at hrow
    rcases hrow with rfl | rfl <;> decide
  · refine ⟨by decide, by simp, by simp, ?_⟩
    intro f hf d p
    simp only [demoCfg, List.mem_cons, List.not_mem_nil, or_false, Prod.mk.injEq, true_and] at hf
    subst hf
    simp only [List.zipWith_map, List.zipWith_self]
    refine List.map_congr_left fun g _ => ?_
    ring
  · exact ⟨by decide, by simp, by simp, by intro f hf; simp [demoCfg] at hf⟩
  · exact ⟨by decide, by simp, by simp, by intro f hf; simp [demoCfg] at hf⟩

end Verif.TE
