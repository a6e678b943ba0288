import Mathlib.Tactic.NormNum
import Verif.Model.Constructor
import Verif.Lemmas.Np
import Verif.Lemmas.Invariant
import Verif.Lemmas.Demo

/- C19: the constructor accepts exactly the documented configurations, and what it accepts is what the
evolution needs. -/

namespace Verif.TE

open Verif.Np

set_option linter.unusedSectionVars false

variable {K : Type} [Field K] [LinearOrder K] [IsStrictOrderedRing K]

/-! ### specification -/

/-- the names under which functions are given -/
def FnsArg.names : FnsArg K → List String
  | .dict l => l.map Prod.fst
  | .iter l => l.map Prod.fst
  | .single f => [f.1]
  | .absent => []

/-- automatic steps are requested -/
def Args.Auto (a : Args K) : Prop := a.step = .str "auto"

/-- slow rates are optimised: on request, or by default with automatic steps -/
def Args.Optimised (a : Args K) : Prop := a.optimize = some true ∨ (a.optimize = none ∧ a.Auto)

/-- the documented conditions on the arguments -/
structure Documented (a : Args K) : Prop where
  step : a.Auto ∨ ∃ dt, a.step = .quantity dt
  enRel : ∀ k ∈ a.enFns.names, k ∉ a.relFns.names
  enAbs : ∀ k ∈ a.enFns.names, k ∉ a.absFns.names
  relAbs : ∀ k ∈ a.relFns.names, k ∉ a.absFns.names
  inBounds : ∀ lo hi g, a.gammaBounds = some (lo, hi) → a.initialGamma = some g → ∀ x ∈ g, lo ≤ x ∧ x ≤ hi
  increasing : ∀ g, a.initialGamma = some g → g.Pairwise (· < ·)
  optimise : a.optimize = some true → a.Auto
  method : a.method.toLower = "euler" ∨ a.method.toLower = "heun"
  noHeun : a.Optimised → a.method.toLower ≠ "heun"
  known : ∀ sg, a.subgroups = some sg → ∀ row ∈ sg, ∀ k ∈ row,
    k ∈ a.enFns.names ∨ k ∈ a.relFns.names ∨ k ∈ a.absFns.names
  fractions : ∀ m, a.initialFractions = some m →
    (∃ sg, a.subgroups = some sg) ∧ (∃ g, a.initialGamma = some g ∧ m.cols = g.length) ∧
    ∀ j, j < m.cols → |(m.rows.map (·.getD j 0)).sum - 1| ≤ 11 / 10 ^ 6

/-! ### dicts -/

theorem dictSet_keys {α : Type} (d : List (String × α)) (k : String) (v : α) (x : String) :
    x ∈ (dictSet d k v).map Prod.fst ↔ x ∈ d.map Prod.fst ∨ x = k := by
  unfold dictSet
  split
  · next h =>
    have e : (d.map fun p => if p.1 == k then (k, v) else p).map Prod.fst = d.map Prod.fst := by
      rw [List.map_map]
      apply List.map_congr_left
      intro p _
      simp only [Function.comp]
      split
      · next hp => simpa using (beq_iff_eq.1 hp).symm
      · rfl
    rw [e]
    constructor
    · exact Or.inl
    · rintro (h' | rfl)
      · exact h'
      · obtain ⟨p, hp, hk⟩ := List.any_eq_true.1 h
        exact List.mem_map.2 ⟨p, hp, beq_iff_eq.1 hk⟩
  · simp

theorem dictSet_nodup {α : Type} {d : List (String × α)} (k : String) (v : α) (h : (d.map Prod.fst).Nodup) :
    ((dictSet d k v).map Prod.fst).Nodup := by
  unfold dictSet
  split
  · have e : (d.map fun p => if p.1 == k then (k, v) else p).map Prod.fst = d.map Prod.fst := by
      rw [List.map_map]
      apply List.map_congr_left
      intro p _
      simp only [Function.comp]
      split
      · next hp => simpa using (beq_iff_eq.1 hp).symm
      · rfl
    rw [e]; exact h
  · next hn =>
    rw [List.map_append, List.nodup_append]
    refine ⟨h, by simp, ?_⟩
    intro a ha b hb
    simp only [List.map_cons, List.map_nil, List.mem_singleton] at hb
    subst hb
    rintro rfl
    obtain ⟨p, hp, e⟩ := List.mem_map.1 ha
    exact hn (List.any_eq_true.2 ⟨p, hp, by simpa using e⟩)

theorem dictOf_spec {α : Type} (l : List (String × α)) :
    ((dictOf l).map Prod.fst).Nodup ∧ ∀ x, x ∈ (dictOf l).map Prod.fst ↔ x ∈ l.map Prod.fst := by
  unfold dictOf
  have : ∀ (d : List (String × α)), (d.map Prod.fst).Nodup →
      ((l.foldl (fun d p => dictSet d p.1 p.2) d).map Prod.fst).Nodup ∧
      ∀ x, x ∈ (l.foldl (fun d p => dictSet d p.1 p.2) d).map Prod.fst ↔
        x ∈ d.map Prod.fst ∨ x ∈ l.map Prod.fst := by
    induction l with
    | nil => intro d h; exact ⟨h, by simp⟩
    | cons p l ih =>
      intro d h
      obtain ⟨h1, h2⟩ := ih (dictSet d p.1 p.2) (dictSet_nodup _ _ h)
      refine ⟨h1, fun x => ?_⟩
      simp only [List.foldl_cons]
      rw [h2 x, dictSet_keys]
      simp only [List.map_cons, List.mem_cons]
      tauto
  obtain ⟨h1, h2⟩ := this [] (by simp)
  exact ⟨h1, fun x => by simpa using h2 x⟩

theorem toDict_names (f : FnsArg K) (x : String) : x ∈ f.toDict.map Prod.fst ↔ x ∈ f.names := by
  cases f with
  | dict l => rfl
  | iter l => exact (dictOf_spec l).2 x
  | single f => simp [FnsArg.toDict, FnsArg.names]
  | absent => rfl

/-! ### the checks one by one -/

theorem sharedKeys_nil {α β : Type} (a : List (String × α)) (b : List (String × β)) :
    sharedKeys a b = [] ↔ ∀ k ∈ a.map Prod.fst, k ∉ b.map Prod.fst := by
  unfold sharedKeys
  rw [List.filter_eq_nil_iff]
  simp only [List.contains_iff_mem]

theorem checkKeys_ok {α : Type} (en rel abs : List (String × α)) :
    checkKeys en rel abs = .ok () ↔ (∀ k ∈ en.map Prod.fst, k ∉ rel.map Prod.fst) ∧
      (∀ k ∈ en.map Prod.fst, k ∉ abs.map Prod.fst) ∧ (∀ k ∈ rel.map Prod.fst, k ∉ abs.map Prod.fst) := by
  unfold checkKeys
  rw [← sharedKeys_nil, ← sharedKeys_nil, ← sharedKeys_nil]
  split
  · next h =>
    rw [List.isEmpty_iff, List.append_eq_nil_iff, List.append_eq_nil_iff] at h
    simp [h]
  · next h =>
    rw [List.isEmpty_iff, List.append_eq_nil_iff, List.append_eq_nil_iff] at h
    simp only [reduceCtorEq, false_iff]
    tauto

theorem checkBounds_ok (b : Option (K × K)) (g : Option (List K)) :
    checkBounds b g = .ok () ↔ ∀ lo hi l, b = some (lo, hi) → g = some l → ∀ x ∈ l, lo ≤ x ∧ x ≤ hi := by
  unfold checkBounds
  split
  · next lo hi l =>
    simp only [Option.some.injEq, Prod.mk.injEq]
    split
    · next h =>
      obtain ⟨x, hx, hl⟩ := List.any_eq_true.1 h
      simp only [reduceCtorEq, false_iff]
      intro hc
      have := (hc lo hi l ⟨rfl, rfl⟩ rfl x hx).1
      exact absurd (of_decide_eq_true hl) (not_lt.2 this)
    · next h =>
      split
      · next h2 =>
        obtain ⟨x, hx, hl⟩ := List.any_eq_true.1 h2
        simp only [reduceCtorEq, false_iff]
        intro hc
        have := (hc lo hi l ⟨rfl, rfl⟩ rfl x hx).2
        exact absurd (of_decide_eq_true hl) (not_lt.2 this)
      · next h2 =>
        simp only [true_iff]
        rintro _ _ _ ⟨rfl, rfl⟩ rfl x hx
        constructor
        · by_contra hc
          exact h (List.any_eq_true.2 ⟨x, hx, decide_eq_true (not_le.1 hc)⟩)
        · by_contra hc
          exact h2 (List.any_eq_true.2 ⟨x, hx, decide_eq_true (not_le.1 hc)⟩)
  · next h =>
    simp only [true_iff]
    rintro lo hi l rfl rfl
    exact (h lo hi l rfl rfl).elim

theorem checkIncreasing_ok (g : Option (List K)) :
    checkIncreasing g = .ok () ↔ ∀ l, g = some l → l.Pairwise (· < ·) := by
  unfold checkIncreasing
  split
  · next l =>
    simp only [Option.some.injEq, forall_eq']
    have key : (adjacent (fun a b => decide (b ≤ a)) l).any id = false ↔ l.Pairwise (· < ·) := by
      rw [← List.isChain_iff_pairwise, List.isChain_iff_getElem]
      rw [List.any_eq_false]
      constructor
      · intro h i hi
        have := h _ (List.getElem_mem (show i < (adjacent (fun a b => decide (b ≤ a)) l).length by
          rw [adjacent_length]; omega))
        rw [adjacent_getElem] at this
        simpa using this
      · intro h x hx
        obtain ⟨i, hi, rfl⟩ := List.mem_iff_getElem.1 hx
        rw [adjacent_getElem]
        rw [adjacent_length] at hi
        have := h i (by omega)
        simpa using this
    split
    · next h =>
      simp only [reduceCtorEq, false_iff]
      intro hc
      rw [key.2 hc] at h
      simp at h
    · next h =>
      simp only [true_iff]
      exact key.1 (by simpa using h)
  · simp

theorem checkSubgroups_ok {α : Type} (en rel abs : List (String × α)) (sg : Option (List (List String))) :
    checkSubgroups en rel abs sg = .ok () ↔ ∀ s, sg = some s → ∀ row ∈ s, ∀ k ∈ row,
      k ∈ en.map Prod.fst ∨ k ∈ rel.map Prod.fst ∨ k ∈ abs.map Prod.fst := by
  unfold checkSubgroups
  dsimp only
  split
  · next h =>
    simp only [true_iff]
    rintro s rfl row hrow k hk
    rw [List.all_eq_true] at h
    have := h k (by simp only [Option.getD_some, List.mem_flatten]; exact ⟨row, hrow, hk⟩)
    simp only [Bool.or_eq_true, List.contains_iff_mem] at this
    tauto
  · next h =>
    simp only [reduceCtorEq, false_iff]
    intro hc
    apply h
    rw [List.all_eq_true]
    intro k hk
    cases sg with
    | none => simp at hk
    | some s =>
      obtain ⟨row, hrow, hk⟩ := List.mem_flatten.1 hk
      have := hc s rfl row hrow k hk
      simp only [Bool.or_eq_true, List.contains_iff_mem]
      tauto

theorem checkFractions_ok (f : Option (Mat K)) (sg : Option (List (List String))) (g : Option (List K)) :
    checkFractions f sg g = .ok () ↔ ∀ m, f = some m →
      (∃ s, sg = some s) ∧ (∃ l, g = some l ∧ m.cols = l.length) ∧
      ∀ j, j < m.cols → |(m.rows.map (·.getD j 0)).sum - 1| ≤ 11 / 10 ^ 6 := by
  unfold checkFractions
  have e : (1 / 10 ^ 6 + 1 / 10 ^ 5 : K) = 11 / 10 ^ 6 := by norm_num
  cases f with
  | none => simp
  | some m =>
    simp only [Option.some.injEq, forall_eq']
    have key : m.colSums.any (fun x => !closeToOne x) = false ↔
        ∀ j, j < m.cols → |(m.rows.map (·.getD j 0)).sum - 1| ≤ 11 / 10 ^ 6 := by
      rw [List.any_eq_false]
      unfold Mat.colSums closeToOne
      simp only [List.mem_map, List.mem_range, e]
      constructor
      · intro h j hj
        simpa using h _ ⟨j, hj, rfl⟩
      · rintro h x ⟨j, hj, rfl⟩
        simpa using h j hj
    split
    · next h =>
      simp only [reduceCtorEq, false_iff]
      rintro ⟨-, -, hc⟩
      rw [key.2 hc] at h
      simp at h
    · next h =>
      have hc := key.1 (by simpa using h)
      cases sg with
      | none => simp
      | some s =>
        cases g with
        | none => simp
        | some l =>
          simp only [Option.isNone_some, Bool.false_eq_true, if_false, Option.some.injEq, exists_eq',
            true_and, exists_eq_left']
          split
          · next hne => simp [hne]
          · next hne =>
            simp only [true_iff]
            exact ⟨not_not.1 hne, hc⟩

/-! ### C19 -/

/-- the constructor raises no error exactly on the documented configurations -/
theorem C19_accepts_iff (env : Env K) (a : Args K) :
    (∃ cfg, construct env a = .ok cfg) ↔ Documented a := by
  have hk : (∀ k ∈ a.enFns.toDict.map Prod.fst, k ∉ a.relFns.toDict.map Prod.fst) ↔
      ∀ k ∈ a.enFns.names, k ∉ a.relFns.names := by simp only [toDict_names]
  have hk2 : (∀ k ∈ a.enFns.toDict.map Prod.fst, k ∉ a.absFns.toDict.map Prod.fst) ↔
      ∀ k ∈ a.enFns.names, k ∉ a.absFns.names := by simp only [toDict_names]
  have hk3 : (∀ k ∈ a.relFns.toDict.map Prod.fst, k ∉ a.absFns.toDict.map Prod.fst) ↔
      ∀ k ∈ a.relFns.names, k ∉ a.absFns.names := by simp only [toDict_names]
  constructor
  · rintro ⟨cfg, h⟩
    unfold construct at h
    obtain ⟨st, h1, h⟩ := bind_ok_iff.1 h
    obtain ⟨⟨⟩, h2, h⟩ := bind_ok_iff.1 h
    obtain ⟨⟨⟩, h3, h⟩ := bind_ok_iff.1 h
    obtain ⟨⟨⟩, h4, h⟩ := bind_ok_iff.1 h
    obtain ⟨opt, h5, h⟩ := bind_ok_iff.1 h
    obtain ⟨heun, h6, h⟩ := bind_ok_iff.1 h
    obtain ⟨⟨⟩, h7, h⟩ := bind_ok_iff.1 h
    obtain ⟨⟨⟩, h8, h⟩ := bind_ok_iff.1 h
    rw [checkKeys_ok, hk, hk2, hk3] at h2
    rw [checkSubgroups_ok] at h7
    simp only [toDict_names] at h7
    have hst : (a.Auto ∧ st = .auto) ∨ ∃ dt, a.step = .quantity dt ∧ st = .fixed dt := by
      unfold checkStep at h1
      split at h1
      · next dt hs => exact Or.inr ⟨dt, hs, by simpa using h1.symm⟩
      · next s hs =>
        split at h1
        · next e => exact Or.inl ⟨by unfold Args.Auto; rw [hs, e], by simpa using h1.symm⟩
        · simp at h1
      · simp at h1
    have hauto : isAuto st = true → a.Auto := by
      intro h
      rcases hst with h' | ⟨dt, -, rfl⟩
      · exact h'.1
      · simp [isAuto] at h
    have hauto' : a.Auto → isAuto st = true := by
      intro h
      rcases hst with ⟨-, rfl⟩ | ⟨dt, hq, -⟩
      · rfl
      · unfold Args.Auto at h; rw [h] at hq; simp at hq
    have hopt : a.Optimised ↔ opt = true := by
      unfold checkOptimize at h5
      unfold Args.Optimised
      split at h5
      · next ho =>
        split at h5
        · simp only [Except.ok.injEq] at h5; simp [ho, ← h5]
        · simp at h5
      · next ho => simp only [Except.ok.injEq] at h5; simp [ho, ← h5]
      · next ho =>
        simp only [Except.ok.injEq] at h5
        simp only [ho, reduceCtorEq, false_or, true_and, ← h5]
        exact ⟨hauto', hauto⟩
    refine ⟨?_, h2.1, h2.2.1, h2.2.2, (checkBounds_ok _ _).1 h3, (checkIncreasing_ok _).1 h4, ?_, ?_, ?_, h7,
      (checkFractions_ok _ _ _).1 h8⟩
    · rcases hst with h | ⟨dt, h, -⟩
      · exact Or.inl h.1
      · exact Or.inr ⟨dt, h⟩
    · intro ho
      unfold checkOptimize at h5
      rw [ho] at h5
      simp only at h5
      split at h5
      · next h => exact hauto h
      · simp at h5
    · unfold checkMethod at h6
      split at h6
      · next e => exact Or.inr e
      · split at h6
        · next e => exact Or.inl e
        · simp at h6
    · intro ho hh
      unfold checkMethod at h6
      rw [if_pos hh, if_pos (hopt.1 ho)] at h6
      simp at h6
  · intro D
    have hs : ∃ st, checkStep a.step = .ok st ∧ (isAuto st = true ↔ a.Auto) := by
      rcases D.step with h | ⟨dt, h⟩
      · refine ⟨.auto, ?_, by simp [isAuto, h]⟩
        unfold Args.Auto at h
        rw [h]; simp [checkStep]
      · refine ⟨.fixed dt, by rw [h]; rfl, ?_⟩
        unfold Args.Auto
        rw [h]
        simp [isAuto]
    obtain ⟨st, h1, hauto⟩ := hs
    have h2 : checkKeys a.enFns.toDict a.relFns.toDict a.absFns.toDict = .ok () :=
      (checkKeys_ok _ _ _).2 ⟨hk.2 D.enRel, hk2.2 D.enAbs, hk3.2 D.relAbs⟩
    have h3 := (checkBounds_ok a.gammaBounds a.initialGamma).2 D.inBounds
    have h4 := (checkIncreasing_ok a.initialGamma).2 D.increasing
    have h5 : ∃ o, checkOptimize a.optimize st = .ok o ∧ (o = true ↔ a.Optimised) := by
      unfold Args.Optimised checkOptimize
      cases ho : a.optimize with
      | none => exact ⟨isAuto st, rfl, by simp [hauto]⟩
      | some b =>
        cases b with
        | false => exact ⟨false, rfl, by simp⟩
        | true => exact ⟨true, by simp [hauto.2 (D.optimise ho)], by simp⟩
    obtain ⟨o, h5, ho⟩ := h5
    have h6 : ∃ m, checkMethod a.method o = .ok m := by
      unfold checkMethod
      by_cases hh : a.method.toLower = "heun"
      · have : o = false := by
          by_contra hc
          exact D.noHeun (ho.1 (by simpa using hc)) hh
        exact ⟨true, by simp [hh, this]⟩
      · have := D.method.resolve_right hh
        exact ⟨false, by rw [if_neg hh, if_pos this]⟩
    obtain ⟨m, h6⟩ := h6
    have h7 : checkSubgroups a.enFns.toDict a.relFns.toDict a.absFns.toDict a.subgroups = .ok () := by
      rw [checkSubgroups_ok]
      simp only [toDict_names]
      exact D.known
    have h8 := (checkFractions_ok a.initialFractions a.subgroups a.initialGamma).2 D.fractions
    unfold construct
    simp only [h1, h2, h3, h4, h5, h6, h7, h8, bind, Except.bind]
    exact ⟨_, rfl⟩

/-- What the constructor stores: method and optimisation are as requested or by default, the functions are
stored once per name, the given energies are the starting ones. -/
theorem C19_stored (env : Env K) (a : Args K) {cfg : Cfg K} (h : construct env a = .ok cfg) :
    (cfg.stepDuration = .auto ↔ a.Auto) ∧ (∀ dt, a.step = .quantity dt → cfg.stepDuration = .fixed dt) ∧
    (cfg.optimize = true ↔ a.Optimised) ∧ (cfg.heun = true ↔ a.method.toLower = "heun") ∧
    (∀ x, x ∈ cfg.enFns.map Prod.fst ↔ x ∈ a.enFns.names) ∧
    (∀ x, x ∈ cfg.relFns.map Prod.fst ↔ x ∈ a.relFns.names) ∧
    (∀ x, x ∈ cfg.absFns.map Prod.fst ↔ x ∈ a.absFns.names) ∧
    (∀ g, a.initialGamma = some g → cfg.initialGamma = g) ∧
    cfg.gammaBounds = a.gammaBounds ∧ cfg.totalTime = a.totalTime ∧ cfg.subgroups = a.subgroups ∧
    cfg.maxBinCreep = a.maxBinCreep ∧ cfg.mergeCloser = a.mergeCloser ∧
    cfg.maxEnergyChange = a.maxEnergyChange ∧ cfg.maxDensityChange = a.maxDensityChange ∧
    cfg.maxInjection = a.maxInjection ∧ cfg.initialFractions = a.initialFractions.map (·.rows) := by
  unfold construct at h
  obtain ⟨st, h1, h⟩ := bind_ok_iff.1 h
  obtain ⟨⟨⟩, h2, h⟩ := bind_ok_iff.1 h
  obtain ⟨⟨⟩, h3, h⟩ := bind_ok_iff.1 h
  obtain ⟨⟨⟩, h4, h⟩ := bind_ok_iff.1 h
  obtain ⟨opt, h5, h⟩ := bind_ok_iff.1 h
  obtain ⟨heun, h6, h⟩ := bind_ok_iff.1 h
  obtain ⟨⟨⟩, h7, h⟩ := bind_ok_iff.1 h
  obtain ⟨⟨⟩, h8, h⟩ := bind_ok_iff.1 h
  rw [pure_ok_iff] at h
  subst h
  have hauto : st = .auto ↔ a.Auto := by
    unfold checkStep at h1
    unfold Args.Auto
    split at h1
    · next dt hs =>
      simp only [Except.ok.injEq] at h1
      simp [hs, ← h1]
    · next s hs =>
      split at h1
      · next e =>
        simp only [Except.ok.injEq] at h1
        simp [hs, e, ← h1]
      · simp at h1
    · simp at h1
  have hisa : isAuto st = true ↔ a.Auto := by
    rw [← hauto]
    cases st <;> simp [isAuto]
  refine ⟨hauto, ?_, ?_, ?_, toDict_names _, toDict_names _, toDict_names _, ?_, rfl, rfl, rfl, rfl, rfl, rfl,
    rfl, rfl, rfl⟩
  · intro dt hs
    rw [hs] at h1
    simpa [checkStep] using h1.symm
  · unfold checkOptimize at h5
    unfold Args.Optimised
    dsimp only
    split at h5
    · next ho =>
      split at h5
      · simp only [Except.ok.injEq] at h5; simp [ho, ← h5]
      · simp at h5
    · next ho => simp only [Except.ok.injEq] at h5; simp [ho, ← h5]
    · next ho =>
      simp only [Except.ok.injEq] at h5
      simp only [ho, reduceCtorEq, false_or, true_and, ← h5]
      exact hisa
  · unfold checkMethod at h6
    dsimp only
    split at h6
    · next e =>
      split at h6
      · simp at h6
      · simp only [Except.ok.injEq] at h6; simp [e, ← h6]
    · next e =>
      split at h6
      · simp only [Except.ok.injEq] at h6; simp [e, ← h6]
      · simp at h6
  · intro g hg
    simp [hg, startGamma]

theorem construct_fields {env : Env K} {a : Args K} {cfg : Cfg K} (h : construct env a = .ok cfg) :
    cfg.num = env.num ∧ cfg.mec2 = env.mec2 ∧ cfg.enFns = a.enFns.toDict ∧ cfg.relFns = a.relFns.toDict ∧
      cfg.absFns = a.absFns.toDict ∧ cfg.initialGamma = startGamma env a.gammaBounds a.initialGamma := by
  unfold construct at h
  obtain ⟨st, h1, h⟩ := bind_ok_iff.1 h
  obtain ⟨⟨⟩, h2, h⟩ := bind_ok_iff.1 h
  obtain ⟨⟨⟩, h3, h⟩ := bind_ok_iff.1 h
  obtain ⟨⟨⟩, h4, h⟩ := bind_ok_iff.1 h
  obtain ⟨opt, h5, h⟩ := bind_ok_iff.1 h
  obtain ⟨heun, h6, h⟩ := bind_ok_iff.1 h
  obtain ⟨⟨⟩, h7, h⟩ := bind_ok_iff.1 h
  obtain ⟨⟨⟩, h8, h⟩ := bind_ok_iff.1 h
  rw [pure_ok_iff] at h
  subst h
  exact ⟨rfl, rfl, rfl, rfl, rfl, rfl⟩

theorem wf_of_grid (env : Env K) (a : Args K) {cfg : Cfg K} (h : construct env a = .ok cfg)
    (hl : env.num.Lawful) (hm : 0 < env.mec2)
    (hdict : ∀ l, (a.enFns = .dict l ∨ a.relFns = .dict l ∨ a.absFns = .dict l) → (l.map Prod.fst).Nodup)
    (hpos : ∀ x ∈ cfg.initialGamma, 0 < x) (hsort : cfg.initialGamma.Pairwise (· < ·))
    (hin : ∀ lo hi, a.gammaBounds = some (lo, hi) → ∀ x ∈ cfg.initialGamma, lo ≤ x ∧ x ≤ hi)
    (hthr : 0 < a.maxEnergyChange ∧ 0 < a.maxDensityChange ∧ 0 < a.maxInjection)
    (hb : ∀ lo hi, a.gammaBounds = some (lo, hi) → 0 < lo ∧ 0 < a.maxBinCreep ∧
      env.num.log10 hi - env.num.log10 (hi / (1 + binSizeFactor)) < a.maxBinCreep)
    (hfr : ∀ m, a.initialFractions = some m → m.rows ≠ [] ∧ ∀ r ∈ m.rows, r.length = m.cols) : cfg.WF := by
  have D := (C19_accepts_iff env a).1 ⟨cfg, h⟩
  obtain ⟨s1, -, s3, -, -, -, -, s8, s9, -, -, s12, -, s14, s15, s16, s17⟩ := C19_stored env a h
  have nd : ∀ f : FnsArg K, (∀ l, f = .dict l → (l.map Prod.fst).Nodup) → (f.toDict.map Prod.fst).Nodup := by
    intro f hf
    cases f with
    | dict l => exact hf l rfl
    | iter l => exact (dictOf_spec l).1
    | single f => simp [FnsArg.toDict]
    | absent => simp [FnsArg.toDict]
  obtain ⟨f1, f2, f3, f4, f5, -⟩ := construct_fields h
  exact {
    lawful := by rw [f1]; exact hl
    mec2 := by rw [f2]; exact hm
    optAuto := by
      intro ho
      rw [s1]
      rcases s3.1 ho with h | h
      · exact D.optimise h
      · exact h.2
    thresholds := by intro _; rw [s14, s15, s16]; exact hthr
    keysEn := by rw [f3]; exact nd _ (fun l e => hdict l (Or.inl e))
    keysRel := by rw [f4]; exact nd _ (fun l e => hdict l (Or.inr (Or.inl e)))
    keysAbs := by rw [f5]; exact nd _ (fun l e => hdict l (Or.inr (Or.inr e)))
    gammaPos := hpos
    gammaSorted := hsort
    bounds := by
      intro lo hi hbd
      rw [s9] at hbd
      obtain ⟨b1, b2, b3⟩ := hb lo hi hbd
      rw [f1, s12]
      exact ⟨b1, b2, b3, hin lo hi hbd⟩
    fractions := by
      intro f hf
      rw [s17] at hf
      obtain ⟨m, hm1, rfl⟩ := Option.map_eq_some_iff.1 hf
      obtain ⟨r1, r2⟩ := hfr m hm1
      obtain ⟨-, ⟨g', hg', hc⟩, -⟩ := D.fractions m hm1
      rw [s8 g' hg']
      exact ⟨r1, fun r hr => by rw [r2 r hr, hc]⟩ }

/-- What the constructor lets through is sufficient for the properties of the evolution, up to
what it does not check: that the numbers it was given are positive, that the matrix of fractions is a
non-empty rectangular one, and that the boundary bins fit the allowed creep. -/
theorem C19_sufficient (env : Env K) (a : Args K) {cfg : Cfg K} (h : construct env a = .ok cfg)
    (hl : env.num.Lawful) (hm : 0 < env.mec2)
    (hdict : ∀ l, (a.enFns = .dict l ∨ a.relFns = .dict l ∨ a.absFns = .dict l) → (l.map Prod.fst).Nodup)
    {g : List K} (hg : a.initialGamma = some g) (hpos : ∀ x ∈ g, 0 < x)
    (hthr : 0 < a.maxEnergyChange ∧ 0 < a.maxDensityChange ∧ 0 < a.maxInjection)
    (hb : ∀ lo hi, a.gammaBounds = some (lo, hi) → 0 < lo ∧ 0 < a.maxBinCreep ∧
      env.num.log10 hi - env.num.log10 (hi / (1 + binSizeFactor)) < a.maxBinCreep)
    (hfr : ∀ m, a.initialFractions = some m → m.rows ≠ [] ∧ ∀ r ∈ m.rows, r.length = m.cols) : cfg.WF := by
  have D := (C19_accepts_iff env a).1 ⟨cfg, h⟩
  obtain ⟨-, -, -, -, -, -, -, s8, -⟩ := C19_stored env a h
  have hgi := s8 g hg
  exact wf_of_grid env a h hl hm hdict (by rw [hgi]; exact hpos) (by rw [hgi]; exact D.increasing g hg)
    (by rw [hgi]; exact fun lo hi hbd => D.inBounds lo hi g hbd hg) hthr hb hfr

/-- contract of `np.logspace(log10(lo), log10(hi), n)` -/
def LogspaceOK (ls : K → K → Nat → List K) : Prop :=
  ∀ lo hi n, 0 < lo → lo < hi → 2 ≤ n → (ls lo hi n).length = n ∧ (ls lo hi n).Pairwise (· < ·) ∧
    (ls lo hi n).head? = some lo ∧ (ls lo hi n).getLast? = some hi

theorem sorted_between {l : List K} (h : l.Pairwise (· < ·)) {a b : K} (ha : l.head? = some a)
    (hb : l.getLast? = some b) : ∀ x ∈ l, a ≤ x ∧ x ≤ b := by
  intro x hx
  have hle : l.Pairwise (· ≤ ·) := h.imp (fun h => h.le)
  refine ⟨?_, ?_⟩
  · cases l with
    | nil => simp at hx
    | cons c l =>
      simp only [List.head?_cons, Option.some.injEq] at ha
      subst ha
      rcases List.mem_cons.1 hx with rfl | hx
      · exact le_rfl
      · exact (List.pairwise_cons.1 hle).1 x hx
  · obtain ⟨l', rfl⟩ := List.getLast?_eq_some_iff.1 hb
    rw [List.pairwise_append] at hle
    rcases List.mem_append.1 hx with hx | hx
    · exact hle.2.2 x hx b (by simp)
    · simp only [List.mem_singleton] at hx; exact hx.le

/-- Without an initial grid the evolution starts from one over the range of the blob's distribution cut to the
bounds: as many points as the blob's own grid, from one end of that range to the other, and nothing outside. -/
theorem C19_default_grid (env : Env K) (a : Args K) {cfg : Cfg K} (h : construct env a = .ok cfg)
    (hls : LogspaceOK env.logspace) (hg : a.initialGamma = none) (h0 : 0 < env.blobMin) (h1 : env.blobMin < env.blobMax)
    (h2 : 2 ≤ env.blobSize) (hover : ∀ lo hi, a.gammaBounds = some (lo, hi) →
      lo < hi ∧ lo < env.blobMax ∧ env.blobMin < hi) :
    cfg.initialGamma.length = env.blobSize ∧ cfg.initialGamma.Pairwise (· < ·) ∧
    (∀ x ∈ cfg.initialGamma, env.blobMin ≤ x ∧ x ≤ env.blobMax) ∧
    (∀ lo hi, a.gammaBounds = some (lo, hi) → ∀ x ∈ cfg.initialGamma, lo ≤ x ∧ x ≤ hi) ∧
    ∃ first last, cfg.initialGamma.head? = some first ∧ cfg.initialGamma.getLast? = some last ∧
      (∀ y, env.blobMin ≤ y → (∀ lo hi, a.gammaBounds = some (lo, hi) → lo ≤ y) → first ≤ y) ∧
      (∀ y, y ≤ env.blobMax → (∀ lo hi, a.gammaBounds = some (lo, hi) → y ≤ hi) → y ≤ last) := by
  obtain ⟨-, -, -, -, -, f6⟩ := construct_fields h
  rw [f6, hg]
  unfold startGamma
  cases hbd : a.gammaBounds with
  | none =>
    dsimp only
    rw [max_eq_left h0.le]
    obtain ⟨l1, l2, l3, l4⟩ := hls _ _ _ h0 h1 h2
    exact ⟨l1, l2, sorted_between l2 l3 l4, by simp, _, _, l3, l4, fun y hy _ => hy, fun y hy _ => hy⟩
  | some p =>
    obtain ⟨lo, hi⟩ := p
    dsimp only
    obtain ⟨o1, o2, o3⟩ := hover lo hi hbd
    obtain ⟨l1, l2, l3, l4⟩ := hls (max env.blobMin lo) (min env.blobMax hi) env.blobSize (lt_of_lt_of_le h0 (le_max_left _ _))
      (max_lt (lt_min h1 o3) (lt_min o2 o1)) h2
    have hb := sorted_between l2 l3 l4
    refine ⟨l1, l2, fun x hx => ⟨le_trans (le_max_left _ _) (hb x hx).1, le_trans (hb x hx).2 (min_le_left _ _)⟩, ?_,
      _, _, l3, l4, fun y hy hy' => max_le hy (hy' lo hi rfl), fun y hy hy' => le_min hy (hy' lo hi rfl)⟩
    intro lo' hi' e x hx
    simp only [Option.some.injEq, Prod.mk.injEq] at e
    obtain ⟨rfl, rfl⟩ := e
    exact ⟨le_trans (le_max_right _ _) (hb x hx).1, le_trans (hb x hx).2 (min_le_right _ _)⟩

/-- ... and such a configuration is sufficient for the properties of the evolution, too. -/
theorem C19_sufficient_default (env : Env K) (a : Args K) {cfg : Cfg K} (h : construct env a = .ok cfg)
    (hl : env.num.Lawful) (hm : 0 < env.mec2)
    (hdict : ∀ l, (a.enFns = .dict l ∨ a.relFns = .dict l ∨ a.absFns = .dict l) → (l.map Prod.fst).Nodup)
    (hls : LogspaceOK env.logspace) (hg : a.initialGamma = none) (h0 : 0 < env.blobMin) (h1 : env.blobMin < env.blobMax)
    (h2 : 2 ≤ env.blobSize) (hover : ∀ lo hi, a.gammaBounds = some (lo, hi) →
      lo < hi ∧ lo < env.blobMax ∧ env.blobMin < hi)
    (hthr : 0 < a.maxEnergyChange ∧ 0 < a.maxDensityChange ∧ 0 < a.maxInjection)
    (hb : ∀ lo hi, a.gammaBounds = some (lo, hi) → 0 < lo ∧ 0 < a.maxBinCreep ∧
      env.num.log10 hi - env.num.log10 (hi / (1 + binSizeFactor)) < a.maxBinCreep) : cfg.WF := by
  have D := (C19_accepts_iff env a).1 ⟨cfg, h⟩
  obtain ⟨-, g2, g3, g4, -⟩ := C19_default_grid env a h hls hg h0 h1 h2 hover
  refine wf_of_grid env a h hl hm hdict (fun x hx => lt_of_lt_of_le h0 (g3 x hx).1) g2 g4 hthr hb ?_
  intro m hm'
  obtain ⟨-, ⟨g', hg', -⟩, -⟩ := D.fractions m hm'
  rw [hg] at hg'
  simp at hg'

/-! ### examples -/

def demoEnv : Env ℚ := ⟨toyNumerics, 1, fun lo hi _ => [lo, hi], 1, 4, 3⟩

def demoArgs : Args ℚ where
  totalTime := 3/4
  enFns := .dict [("cool", fun _ p => p.gamma.map fun g => -(g * g) / 8)]
  relFns := .iter [("esc", fun _ p => p.gamma.map fun _ => -1/10), ("esc", fun _ p => p.gamma.map fun _ => -1/5)]
  absFns := .absent
  step := .quantity (1/2)
  initialGamma := some [1, 2, 4]
  gammaBounds := some (1, 8)
  maxBinCreep := 1/10
  mergeCloser := none
  maxEnergyChange := 1/100
  maxDensityChange := 1/10
  maxInjection := 1
  optimize := none
  method := "Heun"
  subgroups := some [["cool", "esc"], ["cool"]]
  initialFractions := some ⟨[[1/2, 1/2, 1], [1/2, 1/2, 0]], 3⟩

/-- outcome of the constructor -/
def ctorOutcome (a : Args ℚ) : Option CtorErr :=
  match construct demoEnv a with
  | .ok _ => none
  | .error e => some e

/-- an accepted configuration, and one rejected for each of the reasons -/
example : ctorOutcome demoArgs = none ∧
    ctorOutcome { demoArgs with step := .str "Auto" } = some .stepDuration ∧
    ctorOutcome { demoArgs with absFns := .iter [("esc", fun _ _ => [])] } = some .duplicateKeys ∧
    ctorOutcome { demoArgs with gammaBounds := some (2, 8) } = some .gammaTooSmall ∧
    ctorOutcome { demoArgs with gammaBounds := some (1, 3) } = some .gammaTooLarge ∧
    ctorOutcome { demoArgs with initialGamma := some [1, 2, 2] } = some .notIncreasing ∧
    ctorOutcome { demoArgs with optimize := some true } = some .optimizeFixed ∧
    ctorOutcome { demoArgs with method := "rk4" } = some .badMethod ∧
    ctorOutcome { demoArgs with step := .str "auto" } = some .optimizeHeun ∧
    ctorOutcome { demoArgs with subgroups := some [["heat"]] } = some .unknownFunction ∧
    ctorOutcome { demoArgs with initialFractions := some ⟨[[1, 1, 1], [1/2, 0, 0]], 3⟩ } = some .fractionSum ∧
    ctorOutcome { demoArgs with subgroups := none } = some .fractionsNoSubgroups ∧
    ctorOutcome { demoArgs with initialGamma := none } = some .fractionsNoGamma ∧
    ctorOutcome { demoArgs with initialGamma := some [1, 2] } = some .fractionsShape := by
  decide +kernel

end Verif.TE
