import Mathlib.Data.List.Forall2
import Mathlib.Data.List.Basic
import Mathlib.Data.List.GetD
import Mathlib.Tactic.Linarith
import Verif.Model.Np

/- Helper lemmas about the numpy primitives of `Verif.Model.Np`. -/

namespace Verif.Np

variable {α β γ : Type} {ε : Type}

theorem bind_ok_iff {x : Except ε α} {f : α → Except ε β} {b : β} :
    (x >>= f) = .ok b ↔ ∃ a, x = .ok a ∧ f a = .ok b := by
  cases x <;> simp [bind, Except.bind]

theorem pure_ok_iff {a b : α} : (pure a : Except ε α) = .ok b ↔ a = b := by
  simp [pure, Except.pure]

theorem mapM_ok_iff {f : α → Except ε β} {l : List α} {r : List β} :
    l.mapM f = .ok r ↔ List.Forall₂ (fun a b => f a = .ok b) l r := by
  induction l generalizing r with
  | nil => cases r <;> simp [pure, Except.pure]
  | cons a l ih =>
    rw [List.mapM_cons]
    constructor
    · intro h
      obtain ⟨b, hb, h⟩ := bind_ok_iff.1 h
      obtain ⟨bs, hbs, h⟩ := bind_ok_iff.1 h
      rw [pure_ok_iff] at h
      subst h
      exact List.Forall₂.cons hb (ih.1 hbs)
    · intro h
      cases h with
      | cons hb hbs =>
        rw [hb, ih.2 hbs]; rfl

theorem mapM_ok_length {f : α → Except ε β} {l : List α} {r : List β} (h : l.mapM f = .ok r) :
    r.length = l.length := (mapM_ok_iff.1 h).length_eq.symm

theorem mapM_ok_getElem {f : α → Except ε β} {l : List α} {r : List β} (h : l.mapM f = .ok r)
    (i : Nat) (hi : i < l.length) (hi' : i < r.length) : f l[i] = .ok r[i] :=
  (List.forall₂_iff_get.1 (mapM_ok_iff.1 h)).2 i hi hi'

theorem mapM_ok_of {f : α → Except ε β} {g : α → β} {l : List α} (h : ∀ a ∈ l, f a = .ok (g a)) :
    l.mapM f = .ok (l.map g) := by
  rw [mapM_ok_iff]
  induction l with
  | nil => simp
  | cons a l ih =>
    simp only [List.map_cons]
    exact List.Forall₂.cons (h a (by simp)) (ih fun b hb => h b (by simp [hb]))

theorem npIndex_lt {n : Nat} {i : Int} {j : Nat} (h : npIndex n i = some j) : j < n := by
  unfold npIndex at h
  split at h <;> split at h <;> simp at h <;> omega

theorem npIndex_ofNat {n j : Nat} (h : j < n) : npIndex n (j : Int) = some j := by
  unfold npIndex; simp [h]

theorem npIndex_nonneg {n : Nat} {i : Int} {j : Nat} (h : npIndex n i = some j) (hi : i ≠ -1)
    (hi' : -1 ≤ i) : i = (j : Int) := by
  unfold npIndex at h
  split at h <;> split at h <;> simp at h <;> omega

theorem get_ok {v : List α} {i : Int} {x : α} (h : get v i = .ok x) :
    ∃ j, npIndex v.length i = some j ∧ ∃ hj : j < v.length, v[j] = x := by
  unfold get at h
  split at h
  · rename_i j hj
    have := npIndex_lt hj
    refine ⟨j, hj, this, ?_⟩
    rw [List.getElem?_eq_getElem this] at h
    simpa using h
  · simp at h

theorem get_ofNat {v : List α} {j : Nat} (h : j < v.length) : get v (j : Int) = .ok v[j] := by
  unfold get; rw [npIndex_ofNat h]; simp [h]

theorem get_neg_one {v : List α} (h : v ≠ []) : get v (-1) = .ok (v.getLast h) := by
  have hl : 0 < v.length := List.length_pos_of_ne_nil h
  have : npIndex v.length (-1) = some (v.length - 1) := by
    unfold npIndex
    rw [if_neg (by omega), if_pos (by omega)]
    congr 1
    omega
  unfold get; rw [this]
  simp [List.getLast_eq_getElem, hl]

theorem gather_length {v : List α} {m : List Int} {r : List α} (h : gather v m = .ok r) :
    r.length = m.length := mapM_ok_length h

theorem gather_getElem {v : List α} {m : List Int} {r : List α} (h : gather v m = .ok r)
    (i : Nat) (hi : i < m.length) (hi' : i < r.length) :
    ∃ j, npIndex v.length m[i] = some j ∧ ∃ hj : j < v.length, v[j] = r[i] :=
  get_ok (mapM_ok_getElem h i hi hi')

theorem gather_mem {v : List α} {m : List Int} {r : List α} (h : gather v m = .ok r) {x : α}
    (hx : x ∈ r) : x ∈ v := by
  obtain ⟨i, hi, rfl⟩ := List.mem_iff_getElem.1 hx
  obtain ⟨j, -, hj, e⟩ := gather_getElem h i (by rw [← gather_length h]; exact hi) hi
  rw [← e]; exact List.getElem_mem hj

/-- in-range natural-number indices: gather succeeds -/
theorem gather_nat [Inhabited α] {v : List α} {m : List Nat} (h : ∀ i ∈ m, i < v.length) :
    gather v (m.map Int.ofNat) = .ok (m.map fun i => v.getD i default) := by
  unfold gather
  rw [show m.map (fun i => v.getD i default)
      = (m.map Int.ofNat).map (fun i => v.getD i.toNat default) by simp]
  refine mapM_ok_of fun i hi => ?_
  obtain ⟨j, hj, rfl⟩ := List.mem_map.1 hi
  have := h j hj
  have h2 := get_ofNat this
  simp only [Int.ofNat_eq_natCast, Int.toNat_natCast]
  rw [h2, List.getD_eq_getElem _ _ this]

/-! ### masks -/

@[simp] theorem select_nil (l : List Bool) : select l ([] : List α) = [] := by
  cases l <;> simp [select]
@[simp] theorem select_nil_left (l : List α) : select [] l = [] := by simp [select]

theorem select_mem {m : List Bool} {l : List α} {x : α} (h : x ∈ select m l) : x ∈ l := by
  induction m generalizing l with
  | nil => simp at h
  | cons b m ih =>
    cases l with
    | nil => simp at h
    | cons y l =>
      cases b
      · simp only [select] at h; exact List.mem_cons_of_mem _ (ih h)
      · simp only [select, List.mem_cons] at h
        rcases h with rfl | h
        · simp
        · exact List.mem_cons_of_mem _ (ih h)

theorem select_map {f : α → β} {m : List Bool} {l : List α} :
    select m (l.map f) = (select m l).map f := by
  induction m generalizing l with
  | nil => simp
  | cons b m ih =>
    cases l with
    | nil => simp
    | cons y l => cases b <;> simp [select, ih]

theorem select_length {m : List Bool} {l : List α} (h : m.length = l.length) :
    (select m l).length = (m.filter id).length := by
  induction m generalizing l with
  | nil => simp
  | cons b m ih =>
    cases l with
    | nil => simp at h
    | cons y l =>
      simp only [List.length_cons, Nat.add_right_cancel_iff] at h
      cases b <;> simp [select, ih h]

theorem select_replicate_true (l : List α) : select (List.replicate l.length true) l = l := by
  induction l with
  | nil => simp
  | cons x l ih => simp [List.replicate_succ, select, ih]

theorem select_sublist {m : List Bool} {l : List α} : (select m l).Sublist l := by
  induction m generalizing l with
  | nil => simp
  | cons b m ih =>
    cases l with
    | nil => simp
    | cons y l =>
      cases b
      · exact (ih).cons _
      · exact (ih).cons_cons _

/-- `select` by a predicate mask is `filter` -/
theorem select_filter {p : α → Bool} {l : List α} : select (l.map p) l = l.filter p := by
  induction l with
  | nil => simp
  | cons x l ih =>
    cases h : p x <;> simp [select, h, ih]

theorem scatter_length {m : List Bool} {new old : List α} (h : m.length = old.length)
    (hn : new.length = (m.filter id).length) : (scatter m new old).length = m.length := by
  induction m generalizing new old with
  | nil => cases old <;> simp_all [scatter]
  | cons b m ih =>
    cases old with
    | nil => simp at h
    | cons o old =>
      simp only [List.length_cons, Nat.add_right_cancel_iff] at h
      cases b
      · simp only [scatter, List.length_cons]
        rw [ih h (by simpa using hn)]
      · cases new with
        | nil => simp at hn
        | cons x new =>
          simp only [scatter, List.length_cons]
          rw [ih h (by simpa using hn)]

/-- entries of a scatter: masked ones come from `new`, the others are the old ones in place -/
theorem scatter_getElem {m : List Bool} {new old : List α} (h : m.length = old.length)
    (hn : new.length = (m.filter id).length) (i : Nat) (hi : i < (scatter m new old).length)
    (him : i < m.length) (hio : i < old.length) :
    (m[i] = true → (scatter m new old)[i] ∈ new) ∧
      (m[i] = false → (scatter m new old)[i] = old[i]) := by
  induction m generalizing new old i with
  | nil => simp at him
  | cons b m ih =>
    cases old with
    | nil => simp at hio
    | cons o old =>
      simp only [List.length_cons, Nat.add_right_cancel_iff] at h
      cases b
      · have hn' : new.length = (m.filter id).length := by simpa using hn
        cases i with
        | zero => simp [scatter]
        | succ i =>
          simp only [scatter, List.getElem_cons_succ]
          simp only [List.length_cons] at him hio
          exact ih h hn' i (by rw [scatter_length h hn']; omega) (by omega) (by omega)
      · cases new with
        | nil => simp at hn
        | cons x new =>
          have hn' : new.length = (m.filter id).length := by simpa using hn
          cases i with
          | zero => simp [scatter]
          | succ i =>
            simp only [scatter, List.getElem_cons_succ]
            simp only [List.length_cons] at him hio
            obtain ⟨h1, h2⟩ := ih h hn' i (by rw [scatter_length h hn']; omega) (by omega) (by omega)
            exact ⟨fun e => List.mem_cons_of_mem _ (h1 e), h2⟩

/-- a scatter of values computed from the selected elements is element-wise -/
theorem scatter_select {f : α → β} {m : List Bool} {l : List α} {old : List β}
    (h : m.length = l.length) (h' : m.length = old.length) :
    scatter m ((select m l).map f) old
      = List.zipWith (fun b p => if b then f p.1 else p.2) m (List.zip l old) := by
  induction m generalizing l old with
  | nil => simp [scatter]
  | cons b m ih =>
    cases l with
    | nil => simp at h
    | cons x l =>
      cases old with
      | nil => simp at h'
      | cons o old =>
        simp only [List.length_cons, Nat.add_right_cancel_iff] at h h'
        cases b <;> simp [scatter, select, ih h h']

theorem scatter_replicate_true {n : Nat} {new old : List α} (h : new.length = n)
    (h' : old.length = n) : scatter (List.replicate n true) new old = new := by
  induction n generalizing new old with
  | zero => simp_all [scatter]
  | succ n ih =>
    cases new with
    | nil => simp at h
    | cons x new =>
      cases old with
      | nil => simp at h'
      | cons o old =>
        simp only [List.length_cons, Nat.add_right_cancel_iff] at h h'
        simp [List.replicate_succ, scatter, ih h h']

/-! ### ranges -/

theorem mem_nonzero {m : List Bool} {i : Nat} :
    i ∈ nonzero m ↔ ∃ h : i < m.length, m[i] = true := by
  unfold nonzero
  simp only [List.mem_filter, List.mem_range]
  constructor
  · rintro ⟨h, e⟩
    refine ⟨h, ?_⟩
    rw [List.getElem?_eq_getElem h] at e
    simpa using e
  · rintro ⟨h, e⟩
    refine ⟨h, ?_⟩
    rw [List.getElem?_eq_getElem h, e]; rfl

theorem nonzero_pairwise (m : List Bool) : (nonzero m).Pairwise (· < ·) :=
  List.Pairwise.filter _ List.pairwise_lt_range

theorem mem_setdiffRange {n : Nat} {d : List Nat} {i : Nat} :
    i ∈ setdiffRange n d ↔ i < n ∧ i ∉ d := by
  simp [setdiffRange]

theorem setdiffRange_pairwise (n : Nat) (d : List Nat) : (setdiffRange n d).Pairwise (· < ·) :=
  List.Pairwise.filter _ List.pairwise_lt_range

theorem adjacent_length (op : α → α → β) (l : List α) : (adjacent op l).length = l.length - 1 := by
  induction l with
  | nil => simp [adjacent]
  | cons x l ih =>
    cases l with
    | nil => simp [adjacent]
    | cons y l => simp [adjacent, ih]

theorem adjacent_getElem (op : α → α → β) (l : List α) (i : Nat)
    (h : i < (adjacent op l).length) :
    (adjacent op l)[i] = op (l[i]'(by rw [adjacent_length] at h; omega))
      (l[i + 1]'(by rw [adjacent_length] at h; omega)) := by
  induction l generalizing i with
  | nil => simp [adjacent] at h
  | cons x l ih =>
    cases l with
    | nil => simp [adjacent] at h
    | cons y l =>
      cases i with
      | zero => simp [adjacent]
      | succ i =>
        simp only [adjacent, List.getElem_cons_succ]
        rw [ih]
        simp

@[simp] theorem arange_length (n : Nat) : (arange n).length = n := by simp [arange]

theorem mem_arange {n : Nat} {i : Int} : i ∈ arange n ↔ 0 ≤ i ∧ i < n := by
  simp only [arange, List.mem_map, List.mem_range]
  constructor
  · rintro ⟨j, hj, rfl⟩; simp [hj]
  · rintro ⟨h0, h1⟩; exact ⟨i.toNat, by omega, by simp [h0]⟩

end Verif.Np
