import Verif.Model.Fit

/-! C59: flux points and their systematic errors -/

namespace Verif.Fit

open Classical

/-! ### the groups -/

/-- the instruments in the order of the groups -/
def instruments (table : List Row) : List String :=
  (table.map (·.instrument)).dedup.mergeSort fun a b => decide (a ≤ b)

theorem groupBy_eq (table : List Row) : groupBy table
    = (instruments table).map fun name => (name, table.filter fun row => row.instrument = name) := rfl

theorem mem_instruments {table : List Row} {name : String} :
    name ∈ instruments table ↔ ∃ row ∈ table, row.instrument = name := by
  rw [instruments, List.mem_mergeSort, List.mem_dedup, List.mem_map]

theorem instruments_nodup (table : List Row) : (instruments table).Nodup :=
  (List.mergeSort_perm _ _).nodup_iff.2 (List.nodup_dedup _)

/-- the rows of a list of groups, in order -/
def rowsOf (groups : List (String × List Row)) : List Row := groups.flatMap Prod.snd

theorem perm_filters (table : List Row) (names : List String) (hn : names.Nodup)
    (h : ∀ row ∈ table, row.instrument ∈ names) :
    List.Perm (names.flatMap fun name => table.filter fun row => row.instrument = name) table := by
  induction names generalizing table with
  | nil =>
    have : table = [] := List.eq_nil_iff_forall_not_mem.2 fun row hr => by simpa using h row hr
    subst this
    simp
  | cons a names ih =>
    rw [List.nodup_cons] at hn
    rw [List.flatMap_cons]
    have e : (names.flatMap fun name => table.filter fun row => row.instrument = name)
        = names.flatMap fun name => (table.filter fun row => !decide (row.instrument = a)).filter
          fun row => row.instrument = name := by
      apply List.flatMap_congr
      intro name hname
      rw [List.filter_filter]
      apply List.filter_congr
      intro row _
      by_cases h1 : row.instrument = name
      · have : row.instrument ≠ a := by rw [h1]; rintro rfl; exact hn.1 hname
        simp [h1, h1 ▸ this]
      · simp [h1]
    rw [e]
    have := ih (table.filter fun row => !decide (row.instrument = a)) hn.2 (by
      intro row hr
      rw [List.mem_filter] at hr
      have h1 := h row hr.1
      rw [List.mem_cons] at h1
      rcases h1 with h1 | h1
      · simp [h1] at hr
      · exact h1)
    refine (List.Perm.append_left _ this).trans ?_
    exact List.filter_append_perm _ _

/-- grouping keeps every row -/
theorem groupBy_perm (table : List Row) : (rowsOf (groupBy table)).Perm table := by
  rw [groupBy_eq, rowsOf, List.flatMap_map]
  exact perm_filters table _ (instruments_nodup table) fun row hr => mem_instruments.2 ⟨row, hr, rfl⟩

/-! ### what is expected -/

/-- the relative systematic error of an instrument: what the dictionary says, none if it is not listed -/
noncomputable def relError (dict : Option (List (String × ℝ))) (name : String) : ℝ :=
  match dict with
  | some items => (items.lookup name).getD 0
  | none => 0

/-- every instrument of the table is listed -/
def AllListed (dict : Option (List (String × ℝ))) (table : List Row) : Prop :=
  ∀ items, dict = some items → ∀ row ∈ table, row.instrument ∈ items.map Prod.fst

/-- the keys of a dictionary are distinct -/
def IsDict (dict : Option (List (String × ℝ))) : Prop := ∀ items, dict = some items → (items.map Prod.fst).Nodup

/-- the arrays expected from rows in a given order -/
noncomputable def expected (dict : Option (List (String × ℝ))) (rows : List Row) : Data1D :=
  { x := rows.map (·.e_ref)
    y := rows.map (·.e2dnde)
    stat := rows.map fun row => (row.errn + row.errp) / 2
    syst := rows.map fun row => relError dict row.instrument * row.e2dnde }

theorem foldl_not_mem {β : Type} {name : String} {items : List (String × ℝ)} (h : name ∉ items.map Prod.fst)
    (f : β → ℝ → β) (b : β) : items.foldl (fun v item => if name = item.1 then f v item.2 else v) b = b := by
  induction items generalizing b with
  | nil => rfl
  | cons a l ih =>
    rw [List.map_cons, List.mem_cons] at h
    push Not at h
    rw [List.foldl_cons, if_neg h.1]
    exact ih h.2 b

/-- a loop over a dictionary that acts on one key acts once -/
theorem foldl_mem {β : Type} {name : String} {items : List (String × ℝ)} (hd : (items.map Prod.fst).Nodup)
    (h : name ∈ items.map Prod.fst) (f : β → ℝ → β) (b : β) :
    ∃ rel, items.lookup name = some rel
      ∧ items.foldl (fun v item => if name = item.1 then f v item.2 else v) b = f b rel := by
  induction items generalizing b with
  | nil => simp at h
  | cons a l ih =>
    rw [List.map_cons, List.nodup_cons] at hd
    rw [List.foldl_cons]
    by_cases h1 : name = a.1
    · subst h1
      refine ⟨a.2, by rw [List.lookup_cons, beq_self_eq_true], ?_⟩
      rw [if_pos rfl]
      exact foldl_not_mem hd.1 f _
    · rw [if_neg h1]
      obtain ⟨rel, h2, h3⟩ := ih hd.2 (by simpa [h1] using h) b
      refine ⟨rel, ?_, h3⟩
      rw [List.lookup_cons, show (name == a.1) = false by simpa using h1, h2]

theorem systOf_listed {dict : Option (List (String × ℝ))} (hd : IsDict dict) {name : String} {rows : List Row}
    (hl : ∀ items, dict = some items → name ∈ items.map Prod.fst) (hr : ∀ row ∈ rows, row.instrument = name)
    (before : Option (List ℝ)) :
    systOf dict name rows before = some (rows.map fun row => relError dict row.instrument * row.e2dnde) := by
  cases dict with
  | none =>
    simp [systOf, relError]
  | some items =>
    obtain ⟨rel, h1, h2⟩ := foldl_mem (hd items rfl) (hl items rfl)
      (fun _ rel => some (rows.map fun row => rel * row.e2dnde)) before
    simp only [systOf]
    rw [h2]
    congr 1
    apply List.map_congr_left
    intro row hrow
    simp [relError, hr row hrow, h1]

theorem sherpaLoop_listed {dict : Option (List (String × ℝ))} (hd : IsDict dict) (groups : List (String × List Row))
    (hl : ∀ items, dict = some items → ∀ g ∈ groups, g.1 ∈ items.map Prod.fst)
    (hr : ∀ g ∈ groups, ∀ row ∈ g.2, row.instrument = g.1) (before : Option (List ℝ)) (done : List Row) :
    sherpaLoop dict groups before (expected dict done) = some (expected dict (done ++ rowsOf groups)) := by
  induction groups generalizing before done with
  | nil => simp [sherpaLoop, rowsOf]
  | cons g groups ih =>
    obtain ⟨name, rows⟩ := g
    rw [sherpaLoop, systOf_listed hd (fun items hi => hl items hi (name, rows) (by simp)) (hr (name, rows) (by simp))]
    have := ih (fun items hi g hg => hl items hi g (by simp [hg])) (fun g hg => hr g (by simp [hg]))
      (some (rows.map fun row => relError dict row.instrument * row.e2dnde)) (done ++ rows)
    rw [show rowsOf ((name, rows) :: groups) = rows ++ rowsOf groups from rfl, ← List.append_assoc, ← this]
    simp [expected]

/-- C59, the sherpa loader: if every instrument is listed or there is no dictionary, the data are the rows of the table,
in some order, each with the mean of its statistical errors and the systematic error of its own instrument.  The full
statement is for all dictionaries. -/
theorem C59_sherpa_partial {dict : Option (List (String × ℝ))} (hd : IsDict dict) {table : List Row}
    (hl : AllListed dict table) :
    ∃ rows, rows.Perm table ∧ loadSherpa table dict = some (expected dict rows) := by
  refine ⟨rowsOf (groupBy table), groupBy_perm table, ?_⟩
  have := sherpaLoop_listed hd (groupBy table) (by
    intro items hi g hg
    rw [groupBy_eq] at hg
    obtain ⟨name, hname, rfl⟩ := List.mem_map.1 hg
    obtain ⟨row, hr, rfl⟩ := mem_instruments.1 hname
    exact hl items hi row hr) (by
    intro g hg row hr
    rw [groupBy_eq] at hg
    obtain ⟨name, hname, rfl⟩ := List.mem_map.1 hg
    simpa using (List.mem_filter.1 hr).2) none []
  exact this

/-- finding: if the first instrument (in the order of the names) is not listed, the sherpa loader fails -/
theorem C59_unbound {items : List (String × ℝ)} {table : List Row} {name : String} {rest : List String}
    (h : instruments table = name :: rest) (hn : name ∉ items.map Prod.fst) :
    loadSherpa table (some items) = none := by
  rw [loadSherpa, groupBy_eq, h, List.map_cons, sherpaLoop]
  simp only [systOf]
  rw [foldl_not_mem hn (fun _ rel => some (List.map (fun row => rel * row.e2dnde)
    (List.filter (fun row => decide (row.instrument = name)) table)))]

/-- C59 fails for the sherpa loader: a listed instrument followed by one that is not listed.  The systematic errors of the
first are repeated for the second, although the fluxes differ. -/
theorem C59_violated (e f₁ f₂ err rel : ℝ) :
    loadSherpa [⟨"A", e, f₁, err, err⟩, ⟨"B", e, f₂, err, err⟩] (some [("A", rel)])
      = some ⟨[e, e], [f₁, f₂], [(err + err) / 2, (err + err) / 2], [rel * f₁, rel * f₁]⟩
    ∧ expected (some [("A", rel)]) [⟨"A", e, f₁, err, err⟩, ⟨"B", e, f₂, err, err⟩]
      = ⟨[e, e], [f₁, f₂], [(err + err) / 2, (err + err) / 2], [rel * f₁, 0]⟩ := by
  have hi : instruments [⟨"A", e, f₁, err, err⟩, ⟨"B", e, f₂, err, err⟩] = ["A", "B"] := by
    have : ([(⟨"A", e, f₁, err, err⟩ : Row), ⟨"B", e, f₂, err, err⟩].map (·.instrument)).dedup = ["A", "B"] := by simp
    rw [instruments, this]
    exact List.mergeSort_of_pairwise (by decide)
  constructor
  · rw [loadSherpa, groupBy_eq, hi]
    simp [sherpaLoop, systOf]
  · simp [expected, relError, List.lookup]

/-- C59 fails for the sherpa loader: the data are not those expected, whatever the order of the rows -/
theorem C59_violated_order {e f₁ f₂ err rel : ℝ} (hf : f₁ ≠ 0) (hr : rel ≠ 0) {rows : List Row}
    (hp : rows.Perm [⟨"A", e, f₁, err, err⟩, ⟨"B", e, f₂, err, err⟩]) :
    loadSherpa [⟨"A", e, f₁, err, err⟩, ⟨"B", e, f₂, err, err⟩] (some [("A", rel)])
      ≠ some (expected (some [("A", rel)]) rows) := by
  rw [(C59_violated e f₁ f₂ err rel).1]
  intro h
  have h1 := congrArg Data1D.syst (Option.some.inj h)
  have h2 : (0 : ℝ) ∈ (expected (some [("A", rel)]) rows).syst := by
    refine List.mem_map.2 ⟨⟨"B", e, f₂, err, err⟩, hp.mem_iff.2 (by simp), ?_⟩
    simp [relError, List.lookup]
  rw [← h1] at h2
  simp [hf, hr] at h2

/-! ### gammapy -/

/-- the error of a flux point with systematic error, `none` if there is none -/
noncomputable def total (rel : Option ℝ) (flux err : ℝ) : ℝ :=
  match rel with
  | some rel => √(err ^ 2 + (rel * flux) ^ 2)
  | none => err

/-- what the dictionary says of an instrument -/
noncomputable def listed (dict : Option (List (String × ℝ))) (name : String) : Option ℝ :=
  dict.bind fun items => items.lookup name

/-- C59, the gammapy loader: for all tables and dictionaries there is one dataset for each instrument, with the rows of
that instrument in the order of the table; energy and flux are those of the row, and the errors are increased by the
systematic error of this instrument if it is listed and otherwise unchanged -/
theorem C59_gammapy {ref : ℝ → ℝ} (table : List Row) (href : ∀ row ∈ table, 0 < ref row.e_ref ∧ row.e_ref ≠ 0)
    {dict : Option (List (String × ℝ))} (hd : IsDict dict) :
    (loadGammapy ref table dict).map Prod.fst = instruments table
    ∧ ∀ name points, (name, points) ∈ loadGammapy ref table dict →
      points.map (fun p => (p.e_ref, p.e_ref ^ 2 * p.dnde, p.e_ref ^ 2 * p.dnde_errn, p.e_ref ^ 2 * p.dnde_errp))
        = (table.filter fun row => row.instrument = name).map fun row =>
          (row.e_ref, row.e2dnde, total (listed dict name) row.e2dnde row.errn,
            total (listed dict name) row.e2dnde row.errp) := by
  constructor
  · simp [loadGammapy, groupBy_eq, Function.comp_def]
  intro name points h
  have base : ∀ row ∈ table, (FluxPoint.ofRow ref row).e_ref ^ 2 * (FluxPoint.ofRow ref row).dnde = row.e2dnde
      ∧ (FluxPoint.ofRow ref row).e_ref ^ 2 * (FluxPoint.ofRow ref row).dnde_errn = row.errn
      ∧ (FluxPoint.ofRow ref row).e_ref ^ 2 * (FluxPoint.ofRow ref row).dnde_errp = row.errp := by
    intro row hr
    obtain ⟨h1, h2⟩ := href row hr
    have := h1.ne'
    simp only [FluxPoint.ofRow, FluxPoint.dnde, FluxPoint.dnde_errn, FluxPoint.dnde_errp]
    refine ⟨?_, ?_, ?_⟩ <;> field_simp
  have shape : points = (match listed dict name with
      | some rel => ((table.filter fun row => row.instrument = name).map (FluxPoint.ofRow ref)).map (addSystematics rel)
      | none => (table.filter fun row => row.instrument = name).map (FluxPoint.ofRow ref)) := by
    simp only [loadGammapy, groupBy_eq, List.map_map, List.mem_map] at h
    obtain ⟨n, hn, he⟩ := h
    simp only [Function.comp_apply, Prod.mk.injEq] at he
    obtain ⟨rfl, he⟩ := he
    rw [← he]
    cases dict with
    | none => rfl
    | some items =>
      simp only [listed, Option.bind_some]
      by_cases hm : n ∈ items.map Prod.fst
      · obtain ⟨rel, h1, h2⟩ := foldl_mem (hd items rfl) hm
          (fun (data : List FluxPoint) rel => data.map (addSystematics rel))
          ((table.filter fun row => row.instrument = n).map (FluxPoint.ofRow ref))
        rw [h2, h1]
      · rw [foldl_not_mem hm fun (data : List FluxPoint) rel => data.map (addSystematics rel)]
        have : items.lookup n = none := by
          rw [List.lookup_eq_none_iff]
          intro p hp
          simpa using fun hc => hm (List.mem_map.2 ⟨p, hp, hc.symm⟩)
        rw [this]
  rw [shape]
  cases listed dict name with
  | none =>
    simp only [List.map_map]
    apply List.map_congr_left
    intro row hr
    obtain ⟨h1, h2, h3⟩ := base row (List.mem_filter.1 hr).1
    simp only [Function.comp_apply, h1, h2, h3, total]
    rfl
  | some rel =>
    simp only [List.map_map]
    apply List.map_congr_left
    intro row hr
    obtain ⟨h1, h2, h3⟩ := base row (List.mem_filter.1 hr).1
    obtain ⟨hp, he⟩ := href row (List.mem_filter.1 hr).1
    have hp' : (FluxPoint.ofRow ref row).ref ≠ 0 := hp.ne'
    have e2 : (0 : ℝ) ≤ (FluxPoint.ofRow ref row).e_ref ^ 2 := sq_nonneg _
    have key : ∀ a c : ℝ, (FluxPoint.ofRow ref row).e_ref ^ 2 * √(a ^ 2 + c ^ 2)
        = √(((FluxPoint.ofRow ref row).e_ref ^ 2 * a) ^ 2 + ((FluxPoint.ofRow ref row).e_ref ^ 2 * c) ^ 2) := by
      intro a c
      rw [show ((FluxPoint.ofRow ref row).e_ref ^ 2 * a) ^ 2 + ((FluxPoint.ofRow ref row).e_ref ^ 2 * c) ^ 2
        = ((FluxPoint.ofRow ref row).e_ref ^ 2) ^ 2 * (a ^ 2 + c ^ 2) by ring, Real.sqrt_mul (sq_nonneg _),
        Real.sqrt_sq e2]
    simp only [Function.comp_apply, addSystematics, total, Prod.mk.injEq]
    refine ⟨rfl, h1, ?_, ?_⟩
    · simp only [FluxPoint.dnde_errn] at h2 ⊢
      rw [div_mul_cancel₀ _ hp', key, h2, ← h1]
      ring_nf
    · simp only [FluxPoint.dnde_errp] at h3 ⊢
      rw [div_mul_cancel₀ _ hp', key, h3, ← h1]
      ring_nf

/-- C59: both loaders read all rows -/
theorem C59_rows (ref : ℝ → ℝ) (table : List Row) (dict : Option (List (String × ℝ))) (row : Row) (h : row ∈ table) :
    row.instrument ∈ (loadGammapy ref table dict).map Prod.fst := by
  simp only [loadGammapy, groupBy_eq, List.map_map, Function.comp_def, List.map_id']
  exact mem_instruments.2 ⟨row, h, rfl⟩

example : IsDict (some [("A", (1 / 10 : ℝ)), ("B", 3 / 10)])
    ∧ AllListed (some [("A", 1 / 10), ("B", 3 / 10)]) [⟨"B", 1, 2, 1, 1⟩, ⟨"A", 2, 3, 1, 1⟩, ⟨"B", 3, 4, 1, 1⟩] := by
  constructor
  · rintro items ⟨⟩
    simp
  · rintro items ⟨⟩
    simp

example : ∀ row ∈ [(⟨"B", 1, 2, 1, 1⟩ : Row), ⟨"A", 2, 3, 1, 1⟩], 0 < (fun e : ℝ => e ^ (-2 : ℤ)) row.e_ref ∧ row.e_ref ≠ 0 := by
  norm_num

end Verif.Fit
