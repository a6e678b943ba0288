import Verif.Model.Validation
import Verif.Model.Spectra
import Verif.Lemmas.Np
import Verif.Props.MathUtils
import Mathlib.Tactic.NormNum
import Mathlib.Tactic.Linarith
import Mathlib.Tactic.FieldSimp
import Mathlib.Tactic.Ring

/-
C112: a comparison with reference data passes exactly if every relative deviation in the range is small enough.
C113: preparing a directory empties that directory and nothing else.
C114: the energy distribution per decade carries the energy of the particles.
-/

noncomputable section

namespace Verif.Validation

open Classical Verif.Np

/-! ### C112 -/

/-- the meaning of the test for one point: two numbers, of relative deviation at most `rtol` from the reference -/
def Close (rtol : ℝ) (a b : Val) : Prop :=
  ∃ u v, a = some u ∧ b = some v ∧ (v = 0 → u = 0) ∧ (v ≠ 0 → |u / v - 1| ≤ rtol)

theorem isclose_iff (rtol : ℝ) (a b : Val) : isclose rtol a b = true ↔ Close rtol a b := by
  cases a with
  | none => simp [isclose, Close]
  | some u =>
    cases b with
    | none => simp [isclose, Close]
    | some v =>
      simp only [isclose, decide_eq_true_eq, Close, Option.some.injEq, zero_add]
      constructor
      · intro h
        refine ⟨u, v, rfl, rfl, fun hv => ?_, fun hv => ?_⟩
        · subst hv
          simpa using h
        · have : u / v - 1 = (u - v) / v := by field_simp
          rw [this, abs_div, div_le_iff₀ (abs_pos.mpr hv)]
          exact h
      · rintro ⟨u', v', rfl, rfl, h0, h1⟩
        by_cases hv : v = 0
        · subst hv; simp [h0 rfl]
        · have h := h1 hv
          have : u / v - 1 = (u - v) / v := by field_simp
          rw [this, abs_div, div_le_iff₀ (abs_pos.mpr hv)] at h
          exact h

theorem all_zipWith_iff (rtol : ℝ) : ∀ (a b : List Val), a.length = b.length →
    ((List.zipWith (isclose rtol) a b).all id = true ↔
      ∀ (i : ℕ) (u v : Val), a[i]? = some u → b[i]? = some v → Close rtol u v)
  | [], [], _ => by simp
  | u :: a, v :: b, h => by
    have ih := all_zipWith_iff rtol a b (by simpa using h)
    simp only [List.zipWith_cons_cons, List.all_cons, id, Bool.and_eq_true, isclose_iff, ih]
    constructor
    · rintro ⟨h1, h2⟩ i u' v' hu hv
      cases i with
      | zero =>
        simp only [List.getElem?_cons_zero, Option.some.injEq] at hu hv
        exact hu ▸ hv ▸ h1
      | succ i => exact h2 i u' v' (by simpa using hu) (by simpa using hv)
    · intro hall
      exact ⟨hall 0 u v rfl rfl, fun i u' v' hu hv => hall (i + 1) u' v' (by simpa using hu) (by simpa using hv)⟩

/-- the frequency is in the range, or there is none -/
def InRange (r : Option (ℝ × ℝ)) (v : ℝ) : Prop := ∀ lo hi, r = some (lo, hi) → lo ≤ v ∧ v ≤ hi

theorem select_all_iff (rtol lo hi : ℝ) : ∀ (x : List ℝ) (a b : List Val), a.length = x.length → b.length = x.length →
    ((List.zipWith (isclose rtol) (select (x.map fun v => decide (v ≥ lo) && decide (v ≤ hi)) a)
      (select (x.map fun v => decide (v ≥ lo) && decide (v ≤ hi)) b)).all id = true ↔
      ∀ (i : ℕ) (w : ℝ) (u v : Val), x[i]? = some w → a[i]? = some u → b[i]? = some v → lo ≤ w → w ≤ hi →
        Close rtol u v)
  | [], [], [], _, _ => by simp [select]
  | w :: x, u :: a, v :: b, ha, hb => by
    have ih := select_all_iff rtol lo hi x a b (by simpa using ha) (by simpa using hb)
    by_cases hw : lo ≤ w ∧ w ≤ hi
    · have hm : (decide (w ≥ lo) && decide (w ≤ hi)) = true := by simp [hw.1, hw.2]
      simp only [List.map_cons, hm, select, List.zipWith_cons_cons, List.all_cons, id, Bool.and_eq_true, isclose_iff]
      rw [ih]
      constructor
      · rintro ⟨h1, h2⟩ i w' u' v' hw' hu hv hlo hhi
        cases i with
        | zero =>
          simp only [List.getElem?_cons_zero, Option.some.injEq] at hu hv
          exact hu ▸ hv ▸ h1
        | succ i => exact h2 i w' u' v' (by simpa using hw') (by simpa using hu) (by simpa using hv) hlo hhi
      · intro hall
        exact ⟨hall 0 w u v rfl rfl rfl hw.1 hw.2, fun i w' u' v' hw' hu hv =>
          hall (i + 1) w' u' v' (by simpa using hw') (by simpa using hu) (by simpa using hv)⟩
    · have hm : (decide (w ≥ lo) && decide (w ≤ hi)) = false := by
        rw [Bool.and_eq_false_iff, decide_eq_false_iff_not, decide_eq_false_iff_not]
        by_cases h1 : lo ≤ w
        · exact .inr fun h2 => hw ⟨h1, h2⟩
        · exact .inl h1
      simp only [List.map_cons, hm, select]
      rw [ih]
      constructor
      · intro h2 i w' u' v' hw' hu hv hlo hhi
        cases i with
        | zero =>
          simp only [List.getElem?_cons_zero, Option.some.injEq] at hw'
          exact absurd ⟨hw' ▸ hlo, hw' ▸ hhi⟩ hw
        | succ i => exact h2 i w' u' v' (by simpa using hw') (by simpa using hu) (by simpa using hv) hlo hhi
      · intro hall i w' u' v' hw' hu hv
        exact hall (i + 1) w' u' v' (by simpa using hw') (by simpa using hu) (by simpa using hv)

/-- C112: for arrays of one length the comparison answers, and says yes exactly if at every frequency in the range
both values are numbers and the computed one deviates from the reference by at most `rtol`, relatively; a reference of
zero must be met exactly. -/
theorem C112_accepts_iff {x : List ℝ} {y_comp y_ref : List Val} (hc : y_comp.length = x.length)
    (hr : y_ref.length = x.length) (rtol : ℝ) (x_range : Option (ℝ × ℝ)) :
    ∃ b, checkDeviation x y_comp y_ref rtol x_range = .ok b ∧
      (b = true ↔ ∀ (i : ℕ) (w : ℝ) (u v : Val), x[i]? = some w → y_comp[i]? = some u → y_ref[i]? = some v →
        InRange x_range w → Close rtol u v) := by
  cases x_range with
  | none =>
    refine ⟨(List.zipWith (isclose rtol) y_comp y_ref).all id, ?_, ?_⟩
    · simp only [checkDeviation, allclose, if_pos (hc.trans hr.symm)]
    · rw [all_zipWith_iff rtol _ _ (hc.trans hr.symm)]
      constructor
      · intro h i w u v _ hu hv _
        exact h i u v hu hv
      · intro h i u v hu hv
        have hi : i < x.length := by
          rw [← hc]; exact (List.getElem?_eq_some_iff.mp hu).1
        exact h i x[i] u v (List.getElem?_eq_getElem hi) hu hv (fun _ _ hc => by cases hc)
  | some r =>
    obtain ⟨lo, hi⟩ := r
    have hlen : ∀ y : List Val, y.length = x.length →
        (x.map fun v => decide (v ≥ lo) && decide (v ≤ hi)).length = y.length := fun y hy => by simp [hy]
    refine ⟨_, ?_, (select_all_iff rtol lo hi x y_comp y_ref hc hr).trans ?_⟩
    · have hl : (select (x.map fun v => decide (v ≥ lo) && decide (v ≤ hi)) y_comp).length =
          (select (x.map fun v => decide (v ≥ lo) && decide (v ≤ hi)) y_ref).length := by
        rw [select_length (hlen _ hc), select_length (hlen _ hr)]
      simp only [checkDeviation, maskBy, if_pos (hlen _ hr), if_pos (hlen _ hc), bind, Except.bind, allclose, if_pos hl]
    · constructor
      · intro h i w u v hw hu hv hir
        exact h i w u v hw hu hv (hir lo hi rfl).1 (hir lo hi rfl).2
      · intro h i w u v hw hu hv h1 h2
        exact h i w u v hw hu hv fun lo' hi' he => by cases he; exact ⟨h1, h2⟩

/-- two frequencies, deviations of 10 % and of 50 %, the second outside the range -/
example : checkDeviation [1, 2] [some 11, some 3] [some 10, some 2] (1 / 5) (some (0, 1)) = .ok true
    ∧ checkDeviation [1, 2] [some 11, some 3] [some 10, some 2] (1 / 5) none = .ok false := by
  constructor
  · obtain ⟨b, hb, hiff⟩ := C112_accepts_iff (x := [1, 2]) (y_comp := [some 11, some 3]) (y_ref := [some 10, some 2])
      rfl rfl (1 / 5) (some (0, 1))
    rw [hb, hiff.mpr]
    intro i w u v hw hu hv hr
    match i with
    | 0 =>
      simp only [List.getElem?_cons_zero, Option.some.injEq] at hu hv
      subst hu hv
      exact ⟨11, 10, rfl, rfl, fun h => by norm_num at h, fun _ => by norm_num [abs_le]⟩
    | 1 =>
      simp only [List.getElem?_cons_succ, List.getElem?_cons_zero, Option.some.injEq] at hw
      have := (hr 0 1 rfl).2
      rw [← hw] at this
      norm_num at this
    | n + 2 => simp at hw
  · obtain ⟨b, hb, hiff⟩ := C112_accepts_iff (x := [1, 2]) (y_comp := [some 11, some 3]) (y_ref := [some 10, some 2])
      rfl rfl (1 / 5) none
    rw [hb]
    cases b with
    | false => rfl
    | true =>
      obtain ⟨u, v, hu, hv, -, h1⟩ := hiff.mp rfl 1 2 (some 3) (some 2) rfl rfl rfl (fun _ _ h => by cases h)
      cases hu
      cases hv
      have := h1 (by norm_num)
      norm_num [abs_le] at this

/-- C112: a more tolerant comparison, or one over a smaller range, accepts whatever a stricter one does -/
theorem C112_mono {x : List ℝ} {y_comp y_ref : List Val} (hc : y_comp.length = x.length) (hr : y_ref.length = x.length)
    {rtol rtol' : ℝ} (h : rtol ≤ rtol') {r r' : Option (ℝ × ℝ)} (hrr : ∀ v, InRange r' v → InRange r v)
    (ha : checkDeviation x y_comp y_ref rtol r = .ok true) : checkDeviation x y_comp y_ref rtol' r' = .ok true := by
  obtain ⟨b, hb, hiff⟩ := C112_accepts_iff hc hr rtol r
  obtain ⟨b', hb', hiff'⟩ := C112_accepts_iff hc hr rtol' r'
  rw [hb] at ha
  cases ha
  rw [hb', hiff'.mpr]
  intro i w u v hw hu hv hir
  obtain ⟨p, q, h1, h2, h3, h4⟩ := hiff.mp rfl i w u v hw hu hv (hrr w hir)
  exact ⟨p, q, h1, h2, h3, fun hq => (h4 hq).trans h⟩

/-- C112: a range that contains none of the frequencies is passed by whatever was computed, NaN included -/
theorem C112_empty_range {x : List ℝ} {y_comp y_ref : List Val} (hc : y_comp.length = x.length)
    (hr : y_ref.length = x.length) (rtol : ℝ) {r : Option (ℝ × ℝ)} (h : ∀ w ∈ x, ¬ InRange r w) :
    checkDeviation x y_comp y_ref rtol r = .ok true := by
  obtain ⟨b, hb, hiff⟩ := C112_accepts_iff hc hr rtol r
  rw [hb, hiff.mpr]
  intro i w u v hw _ _ hir
  exact absurd hir (h w (List.mem_of_getElem? hw))

example : checkDeviation [1, 2] [none, some 3] [some 10, some 2] 0 (some (3, 4)) = .ok true :=
  C112_empty_range rfl rfl 0 (by
    intro w hw h
    have := (h 3 4 rfl).1
    simp only [List.mem_cons, List.not_mem_nil, or_false] at hw
    rcases hw with rfl | rfl <;> norm_num at this)

/-! ### C113 -/

/-- C113: what was asked for is there: the location of the returned path is a directory, empty, and the locations
above it are directories -/
theorem C113_result {cwd : List String} {fs fs' : FS} {m : Main} {s : Option Str} {p : Path}
    (hfs : ∀ q q', q <+: q' → fs q' ≠ none → q ≠ q' → fs q = some .dir)
    (h : cleanAndMakeDir cwd fs m s = .ok (p, fs')) :
    (∀ q, q <+: resolve cwd p → fs' q = some .dir) ∧
    (∀ q, resolve cwd p <+: q → q ≠ resolve cwd p → fs' q = none) := by
  unfold cleanAndMakeDir at h
  cases ht : target m s with
  | error e => rw [ht] at h; cases h
  | ok dir =>
    rw [ht] at h
    simp only [bind, Except.bind] at h
    by_cases hdd : ".." ∈ dir.parts
    · rw [if_pos hdd] at h; cases h
    rw [if_neg hdd] at h
    simp only [pure, Except.pure] at h
    generalize hd : resolve cwd dir = d at h
    by_cases hf : ∃ q, q <+: d ∧ (if fs d = some Node.dir then rmtree fs d else fs) q = some .file
    · simp only [mkdir, if_pos hf] at h; cases h
    · simp only [mkdir, if_neg hf, Except.ok.injEq, Prod.mk.injEq] at h
      obtain ⟨rfl, rfl⟩ := h
      rw [hd]
      refine ⟨fun q hq => if_pos hq, fun q hq hne => ?_⟩
      have hnq : ¬ q <+: d := fun hc => hne (List.IsPrefix.eq_of_length_le hc hq.length_le)
      simp only [if_neg hnq]
      by_cases hdir : fs d = some .dir
      · simp only [if_pos hdir, rmtree, if_pos hq]
      · simp only [if_neg hdir]
        by_contra hc
        exact hdir (hfs d q hq hc (Ne.symm hne))

/-- C113: nothing else changes: a location that is neither below the returned directory nor above it holds what it
held, and what was above it and existed is still there. -/
theorem C113_elsewhere {cwd : List String} {fs fs' : FS} {m : Main} {s : Option Str} {p : Path}
    (h : cleanAndMakeDir cwd fs m s = .ok (p, fs')) {q : List String} (hq : ¬ resolve cwd p <+: q) :
    (¬ q <+: resolve cwd p → fs' q = fs q) ∧ (fs q ≠ none → fs' q = fs q) := by
  unfold cleanAndMakeDir at h
  cases ht : target m s with
  | error e => rw [ht] at h; cases h
  | ok dir =>
    rw [ht] at h
    simp only [bind, Except.bind] at h
    by_cases hdd : ".." ∈ dir.parts
    · rw [if_pos hdd] at h; cases h
    rw [if_neg hdd] at h
    simp only [pure, Except.pure] at h
    generalize hd : resolve cwd dir = d at h
    by_cases hf : ∃ q, q <+: d ∧ (if fs d = some Node.dir then rmtree fs d else fs) q = some .file
    · simp only [mkdir, if_pos hf] at h; cases h
    · simp only [mkdir, if_neg hf, Except.ok.injEq, Prod.mk.injEq] at h
      obtain ⟨rfl, rfl⟩ := h
      rw [hd] at hq ⊢
      have he : (if fs d = some Node.dir then rmtree fs d else fs) q = fs q := by
        split_ifs
        · exact if_neg hq
        · rfl
      refine ⟨fun hn => by simp only [if_neg hn, he], fun hne => ?_⟩
      by_cases hp : q <+: d
      · simp only [if_pos hp]
        cases hn : fs q with
        | none => exact absurd hn hne
        | some n =>
          cases n with
          | dir => rfl
          | file => exact absurd ⟨q, hp, he.trans hn⟩ hf
      · simp only [if_neg hp, he]

/-- the caller means a directory inside `main_dir`: the location of `main_dir` itself -/
def mainLocation (cwd : List String) : Main → List String
  | .str m => resolve cwd (parse m)
  | .path p => resolve cwd p
  | .other => []

/-- C113 (partial): only locations inside `main_dir` are emptied, provided that `main_dir` is not the empty string
and, if it is a `Path`, that `sub_dir` does not begin with a slash. -/
theorem C113_inside_partial {cwd : List String} {fs fs' : FS} {m : Main} {s : Option Str} {p : Path}
    (hstr : ∀ m', m = .str m' → m' ≠ [] ∧ (s ≠ none → m' ≠ [""]))
    (hpath : ∀ p', m = .path p' → ∀ s', s = some s' → (parse s').abs = false)
    (h : cleanAndMakeDir cwd fs m s = .ok (p, fs')) :
    mainLocation cwd m <+: resolve cwd p ∧
    ∀ q, ¬ mainLocation cwd m <+: q → fs q ≠ none → fs' q = fs q := by
  have hin : mainLocation cwd m <+: resolve cwd p := by
    have ht : target m s = .ok p := by
      unfold cleanAndMakeDir at h
      cases ht : target m s with
      | error e => rw [ht] at h; cases h
      | ok dir =>
        rw [ht] at h
        simp only [bind, Except.bind] at h
        by_cases hdd : ".." ∈ dir.parts
        · rw [if_pos hdd] at h; cases h
        rw [if_neg hdd] at h
        simp only [pure, Except.pure] at h
        by_cases hf : ∃ q, q <+: resolve cwd dir ∧
            (if fs (resolve cwd dir) = some Node.dir then rmtree fs (resolve cwd dir) else fs) q = some .file
        · simp only [mkdir, if_pos hf] at h; cases h
        · simp only [mkdir, if_neg hf, Except.ok.injEq, Prod.mk.injEq] at h
          rw [h.1]
    cases m with
    | other => simp [target] at ht
    | str m' =>
      obtain ⟨h0, h1⟩ := hstr m' rfl
      cases s with
      | none =>
        simp only [target, Except.ok.injEq] at ht
        subst ht
        exact List.prefix_rfl
      | some s' =>
        simp only [target, Except.ok.injEq] at ht
        subst ht
        have habs : (parse (m' ++ s')).abs = (parse m').abs := by
          have h1 := h1 (by simp)
          cases m' with
          | nil => exact absurd rfl h0
          | cons c r =>
            simp only [parse, List.cons_append, List.head?_cons, Option.some.injEq, decide_eq_decide]
            constructor
            · rintro ⟨-, hc⟩
              refine ⟨?_, hc⟩
              cases r with
              | nil => exact absurd (by rw [hc]) h1
              | cons => simp
            · rintro ⟨hl, hc⟩
              exact ⟨by simp only [List.length_cons, List.length_append] at *; omega, hc⟩
        have hparts : (parse (m' ++ s')).parts = (parse m').parts ++ (parse s').parts := by
          simp only [parse, List.filter_append]
        simp only [mainLocation, resolve, habs, hparts]
        split_ifs
        · exact List.prefix_append _ _
        · rw [← List.append_assoc]; exact List.prefix_append _ _
    | path p' =>
      cases s with
      | none =>
        simp only [target, Except.ok.injEq] at ht
        subst ht
        exact List.prefix_rfl
      | some s' =>
        have hs := hpath p' rfl s' rfl
        simp only [target, Except.ok.injEq, Path.div, hs, Bool.false_eq_true, if_false] at ht
        subst ht
        simp only [mainLocation, resolve]
        split_ifs
        · exact List.prefix_append _ _
        · rw [← List.append_assoc]; exact List.prefix_append _ _
  refine ⟨hin, fun q hq hne => ?_⟩
  exact (C113_elsewhere h fun hc => hq (hin.trans hc)).2 hne

/-- a file system with the directory `/home` only -/
def small : FS := fun q => if q = [] ∨ q = ["home"] then some .dir else none

theorem small_dirs (q : List String) : small q = some .dir ∨ small q = none := by
  unfold small; split_ifs <;> simp

theorem make_small {cwd : List String} {m : Main} {s : Option Str} {p : Path} (ht : target m s = .ok p)
    (hp : ".." ∉ p.parts) : ∃ fs', cleanAndMakeDir cwd small m s = .ok (p, fs') := by
  refine ⟨fun q => if q <+: resolve cwd p then some .dir
    else (if small (resolve cwd p) = some Node.dir then rmtree small (resolve cwd p) else small) q, ?_⟩
  have hf : ¬ ∃ q, q <+: resolve cwd p ∧
      (if small (resolve cwd p) = some Node.dir then rmtree small (resolve cwd p) else small) q = some .file := by
    rintro ⟨q, -, hq⟩
    have : small q = some .file := by
      revert hq
      split_ifs
      · unfold rmtree; split_ifs
        · simp
        · exact id
      · exact id
    rcases small_dirs q with h | h <;> rw [h] at this <;> cases this
  simp only [cleanAndMakeDir, ht, bind, Except.bind, if_neg hp, mkdir, if_neg hf, pure, Except.pure]

/-- `clean_and_make_dir("plots", "sed")` -/
example : (∀ m', Main.str ["plots"] = .str m' → m' ≠ [] ∧ ((some ["sed"] : Option Str) ≠ none → m' ≠ [""])) ∧
    (∃ p fs', cleanAndMakeDir ["home"] small (.str ["plots"]) (some ["sed"]) = .ok (p, fs')) ∧
    ∀ q q', q <+: q' → small q' ≠ none → q ≠ q' → small q = some .dir := by
  refine ⟨fun m' h => ?_, ⟨_, make_small (p := ⟨false, ["plots", "sed"]⟩) (by simp [target, parse]) (by simp)⟩, ?_⟩
  · cases h
    exact ⟨by simp, by simp⟩
  · intro q q' hq hn hne
    have hq' : q' = [] ∨ q' = ["home"] := by
      by_contra hc; exact hn (if_neg hc)
    rcases hq' with rfl | rfl
    · exact absurd (List.prefix_nil.mp hq) hne
    · rcases q with _ | ⟨c, r⟩
      · exact if_pos (.inl rfl)
      · obtain ⟨t, ht⟩ := hq
        simp only [List.cons_append, List.cons.injEq, List.append_eq_nil_iff] at ht
        exact absurd (by rw [ht.1, ht.2.1]) hne

/-- C113 (refuted): with a `Path` as `main_dir` and a `sub_dir` that begins with a slash, the directory emptied is
outside `main_dir`, although the same names as strings stay inside. -/
theorem C113_absolute_violated :
    ∃ (cwd : List String) (fs : FS) (p : Path) (s : Str),
      (∃ q fs', fs q = some .file ∧ ¬ mainLocation cwd (.path p) <+: q
        ∧ cleanAndMakeDir cwd fs (.path p) (some s) = .ok (⟨true, ["data"]⟩, fs') ∧ fs' q = none)
      ∧ ∃ m fs', parse m = p ∧ cleanAndMakeDir cwd fs (.str m) (some s) = .ok (⟨false, ["plots", "data"]⟩, fs')
        ∧ ∀ q, fs q ≠ none → fs' q = fs q := by
  let fs : FS := fun q =>
    if q = ["data", "results"] then some .file
    else if q = [] ∨ q = ["home"] ∨ q = ["data"] then some .dir else none
  have hfile : ∀ q, fs q = some .file ↔ q = ["data", "results"] := by
    intro q
    simp only [fs]
    constructor
    · intro h
      by_contra hc
      rw [if_neg hc] at h
      split_ifs at h <;> cases h
    · intro h; rw [if_pos h]
  refine ⟨["home"], fs, ⟨false, ["plots"]⟩, ["", "data"], ⟨["data", "results"], ?_⟩, ["plots"], ?_⟩
  · have ht : target (.path ⟨false, ["plots"]⟩) (some ["", "data"]) = .ok ⟨true, ["data"]⟩ := by
      simp [target, Path.div, parse]
    have hd : fs ["data"] = some .dir := by simp [fs]
    have hf : ¬ ∃ q, q <+: ["data"] ∧ rmtree fs ["data"] q = some .file := by
      rintro ⟨q, hq, h⟩
      unfold rmtree at h
      split_ifs at h
      have := (hfile q).mp h
      subst this
      exact absurd hq.length_le (by simp)
    refine ⟨fun q => if q <+: ["data"] then some .dir else rmtree fs ["data"] q, (hfile _).mpr rfl, ?_, ?_, ?_⟩
    · simp only [mainLocation, resolve, Bool.false_eq_true, if_false]
      rintro ⟨t, ht⟩
      simp at ht
    · have hdd : ¬ ".." ∈ ["data"] := by simp
      simp only [cleanAndMakeDir, ht, bind, Except.bind, resolve, if_true, hd, mkdir, if_neg hf, pure, Except.pure,
        if_neg hdd]
    · have h1 : ¬ ["data", "results"] <+: ["data"] := fun h => absurd h.length_le (by simp)
      have h2 : ["data"] <+: ["data", "results"] := ⟨["results"], rfl⟩
      simp only [if_neg h1, rmtree, if_pos h2]
  · have ht : target (.str ["plots"]) (some ["", "data"]) = .ok ⟨false, ["plots", "data"]⟩ := by
      simp [target, parse]
    have hd : fs ["home", "plots", "data"] = none := by simp [fs]
    have hf : ¬ ∃ q, q <+: ["home", "plots", "data"] ∧ fs q = some .file := by
      rintro ⟨q, hq, h⟩
      rw [(hfile q).mp h] at hq
      obtain ⟨t, ht⟩ := hq
      simp at ht
    have hrun : cleanAndMakeDir ["home"] fs (.str ["plots"]) (some ["", "data"])
        = .ok (⟨false, ["plots", "data"]⟩, fun q => if q <+: ["home", "plots", "data"] then some .dir else fs q) := by
      have hn : ¬ ((none : Option Node) = some .dir) := by simp
      have hdd : ¬ ".." ∈ ["plots", "data"] := by simp
      simp only [cleanAndMakeDir, ht, bind, Except.bind, resolve, Bool.false_eq_true, if_false, List.cons_append,
        List.nil_append, hd, mkdir, pure, Except.pure, if_neg hn, if_neg hf, if_neg hdd]
    refine ⟨_, by simp [parse], hrun, fun q hq => (C113_elsewhere hrun ?_).2 hq⟩
    rintro ⟨t, rfl⟩
    exact hq (by simp [fs, resolve])

/-- C113 (refuted): the empty string, `pathlib`'s name for the working directory, as `main_dir` makes `sub_dir`
absolute: `clean_and_make_dir("", "out")` empties `/out`. -/
theorem C113_empty_violated (cwd : List String) (hc : cwd ≠ []) (c : String) (h1 : c ≠ "") (h2 : c ≠ ".") :
    mainLocation cwd (.str [""]) = cwd ∧
    ∃ p, target (.str [""]) (some [c]) = .ok p ∧ resolve cwd p = [c] ∧ resolve cwd p ≠ cwd ++ [c] := by
  refine ⟨by simp [mainLocation, parse, resolve], ⟨true, [c]⟩, by simp [target, parse, h1, h2],
    by simp [resolve], ?_⟩
  simp only [resolve, if_true]
  intro he
  have := congrArg List.length he
  simp only [List.length_cons, List.length_nil, List.length_append] at this
  exact hc (List.length_eq_zero_iff.mp (by omega))

/-- C113: a `main_dir` that is neither a string nor a path is refused, before anything is touched; nothing else is
refused for its type -/
theorem C113_type_iff (cwd : List String) (fs : FS) (m : Main) (s : Option Str) :
    cleanAndMakeDir cwd fs m s = .error .typeError ↔ m = .other := by
  constructor
  · intro h
    cases m with
    | other => rfl
    | str m' | path p' =>
      exfalso
      unfold cleanAndMakeDir at h
      cases s <;> simp only [target, bind, Except.bind, throw, throwThe, MonadExceptOf.throw, pure, Except.pure,
        mkdir] at h <;> (split_ifs at h <;> simp at h)
  · rintro rfl
    cases s <;> rfl

/-! ### C114 -/

theorem trapz_wide (c : ℝ) (f : ℝ → ℝ) (l : List ℝ) :
    MathUtils.trapz (l.map f) (l.map (· * c)) = c * MathUtils.trapz (l.map f) l := by
  induction l with
  | nil => simp [MathUtils.trapz]
  | cons x l ih =>
    cases l with
    | nil => simp [MathUtils.trapz]
    | cons y l =>
      simp only [List.map_cons, MathUtils.trapz] at ih ⊢
      rw [ih]
      ring

/-- C114: the values are `E² dN/dE`: integrated with the trapezoidal rule as `∫ (E² dN/dE) dE / E` over the energies
in GeV they give the energy of all particles, the volume times the integral of `gamma n(gamma) mec2`, and as
`∫ (E² dN/dE) dE / E²` their number -/
theorem C114_totals {mec2 V : ℝ} (hm : 0 < mec2) (n : ℝ → ℝ) (l : List ℝ) (hl : ∀ g ∈ l, 0 < g) :
    MathUtils.trapz (l.map fun g => toTotalEnergyGevSqr mec2 g (n g) V / (g * mec2)) (l.map (· * mec2))
      = V * (mec2 * MathUtils.trapz (l.map fun g => g * n g) l)
    ∧ MathUtils.trapz (l.map fun g => toTotalEnergyGevSqr mec2 g (n g) V / (g * mec2) ^ 2) (l.map (· * mec2))
      = V * MathUtils.trapz (l.map n) l := by
  have h1 : (l.map fun g => toTotalEnergyGevSqr mec2 g (n g) V / (g * mec2)) = (l.map fun g => g * n g).map (V * ·) := by
    rw [List.map_map]
    refine List.map_congr_left fun g hg => ?_
    have := hl g hg
    simp only [toTotalEnergyGevSqr, Function.comp]
    field_simp
  have h2 : (l.map fun g => toTotalEnergyGevSqr mec2 g (n g) V / (g * mec2) ^ 2) = (l.map n).map (V / mec2 * ·) := by
    rw [List.map_map]
    refine List.map_congr_left fun g hg => ?_
    have := hl g hg
    simp only [toTotalEnergyGevSqr, Function.comp]
    field_simp
  refine ⟨?_, ?_⟩
  · rw [h1, MathUtils.C33_trapz_scale, trapz_wide]
  · rw [h2, MathUtils.C33_trapz_scale, trapz_wide]
    field_simp

example : (0 : ℝ) < 0.000511 ∧ ∀ g ∈ ([10, 100, 1000] : List ℝ), 0 < g := by
  constructor
  · norm_num
  · intro g hg
    simp only [List.mem_cons, List.not_mem_nil, or_false] at hg
    rcases hg with rfl | rfl | rfl <;> norm_num

end Verif.Validation
