import Verif.Props.Objects

/- C90: which assignments a radiative process notices -/

noncomputable section

namespace Verif.Objects

open MathUtils Spectra Region Targets

variable {k : Consts} {distance : ℝ → ℝ} {h h' : Heap}

/-! ### Specification: what a process refers to -/

/-- the blob a process refers to -/
def Proc.blobRef : Proc → Option ℕ
  | .synch b _ _ => some b
  | .proton b _ => some b
  | .ssc b _ _ => some b
  | .ec e => some e.blob
  | .abs a => match a.target with
    | .blob b => some b
    | .target _ => none

/-- the photon target a process refers to -/
def Proc.targetRef : Proc → Option ℕ
  | .ec e => some e.target
  | .abs a => match a.target with
    | .blob _ => none
    | .target t => some t
  | _ => none

/-- the particle distribution a process uses: the protons for proton synchrotron radiation, else the electrons -/
def Proc.distRef (b : BlobObj) : Proc → Option ℕ
  | .proton _ _ => b.n_p
  | _ => some b.n_e

/-- the statement assigns something to an object the process `q` at place `p` refers to -/
def Op.Touches (h : Heap) (p : ℕ) (q : Proc) : Op → Prop
  | .setDist a _ => ∃ i b, q.blobRef = some i ∧ h.blobs[i]? = some b ∧ q.distRef b = some a
  | .setBlob a _ => q.blobRef = some a
  | .setTarget a _ => q.targetRef = some a
  | .setProc a _ => a = p
  | _ => False

/-- no statement of the program does -/
def Untouched (k : Consts) (distance : ℝ → ℝ) (p : ℕ) (q : Proc) : Heap → List Op → Prop
  | _, [] => True
  | h, op :: ops => ¬ op.Touches h p q ∧ ∀ h', step k distance h op = some h' → Untouched k distance p q h' ops

/-! ### Proof -/

/-- the blobs agree in what the process uses -/
def Proc.Agree (b b' : Blob) : Proc → Prop
  | .proton _ _ => ∃ n, b' = { b with n_e := n }
  | _ => ∃ n, b' = { b with n_p := n }

/-- the two heaps look the same to the process -/
structure Same (q : Proc) (h h' : Heap) : Prop where
  blob : ∀ i b, q.blobRef = some i → h.blob i = some b → ∃ b', h'.blob i = some b' ∧ q.Agree b b'
  target : ∀ i t, q.targetRef = some i → h.targets[i]? = some t → h'.targets[i]? = some t

theorem tau_same {a : AbsObj} {v : ℝ} {nu : ℝ} (hs : Same (.abs a) h h') (hv : h.tau k a nu = some v) :
    h'.tau k a nu = some v := by
  unfold Heap.tau at hv ⊢
  cases ht : a.target with
  | blob i =>
    rw [ht] at hv
    simp only [Option.map_eq_some_iff] at hv ⊢
    obtain ⟨b, hb, rfl⟩ := hv
    obtain ⟨b', hb', n, rfl⟩ := hs.blob i b (by simp only [Proc.blobRef, ht]) hb
    exact ⟨_, hb', rfl⟩
  | target i =>
    rw [ht] at hv
    simp only [Option.bind_eq_bind, Option.bind_eq_some_iff] at hv ⊢
    obtain ⟨t, h1, h2⟩ := hv
    exact ⟨t, hs.target i t (by simp only [Proc.targetRef, ht]) h1, h2⟩

theorem ec_same {e : ECObj} {v : ℝ} {nu : ℝ} (hs : Same (.ec e) h h') (hv : h.sedEC k e nu = some v) :
    h'.sedEC k e nu = some v := by
  unfold Heap.sedEC at hv ⊢
  simp only [Option.bind_eq_bind, Option.bind_eq_some_iff] at hv ⊢
  obtain ⟨t, h1, h2⟩ := hv
  refine ⟨t, hs.target _ t rfl h1, ?_⟩
  cases t <;> simp only [Heap.sedCMB, Heap.sedPS, Heap.sedDisk, Heap.sedBLR, Heap.sedDT, Option.bind_eq_bind,
    Option.bind_eq_some_iff] at h2 ⊢ <;> (
    obtain ⟨b, hb, h2⟩ := h2
    obtain ⟨b', hb', n, rfl⟩ := hs.blob _ b rfl hb
    exact ⟨_, hb', h2⟩)

theorem ask_same {p : ℕ} {q : Proc} {nu v : ℝ} (h1 : h.procs[p]? = some q) (h2 : h'.procs[p]? = some q)
    (hs : Same q h h') (hv : h.ask k p nu = some v) : h'.ask k p nu = some v := by
  unfold Heap.ask at hv ⊢
  rw [h1] at hv
  rw [h2]
  simp only [Option.bind_eq_bind, Option.bind_some] at hv ⊢
  cases q with
  | ec e => exact ec_same hs hv
  | abs a => exact tau_same hs hv
  | synch i s I =>
    simp only [Heap.sedSynch, Option.bind_eq_bind, Option.bind_eq_some_iff] at hv ⊢
    obtain ⟨b, hb, hv⟩ := hv
    obtain ⟨b', hb', n, rfl⟩ := hs.blob i b rfl hb
    exact ⟨_, hb', hv⟩
  | ssc i s I =>
    simp only [Heap.sedSSC, Option.bind_eq_bind, Option.bind_eq_some_iff] at hv ⊢
    obtain ⟨b, hb, hv⟩ := hv
    obtain ⟨b', hb', n, rfl⟩ := hs.blob i b rfl hb
    exact ⟨_, hb', hv⟩
  | proton i I =>
    simp only [Heap.sedProton, Option.bind_eq_bind, Option.bind_eq_some_iff] at hv ⊢
    obtain ⟨b, hb, hv⟩ := hv
    obtain ⟨b', hb', n, rfl⟩ := hs.blob i b rfl hb
    exact ⟨_, hb', hv⟩

theorem get_append {α : Type} {l m : List α} {i : ℕ} {x : α} (hx : l[i]? = some x) : (l ++ m)[i]? = some x := by
  rw [List.getElem?_append_left (lt_of_getElem? hx)]
  exact hx

theorem get_set_ne {α : Type} {l : List α} {i j : ℕ} {x y : α} (hx : l[i]? = some x) (hij : j ≠ i) :
    (l.set j y)[i]? = some x := by
  rw [List.getElem?_set_ne hij]
  exact hx

theorem agree_refl (q : Proc) (b : Blob) : q.Agree b b := by
  cases q with
  | proton _ _ => exact ⟨b.n_e, rfl⟩
  | _ => exact ⟨b.n_p, rfl⟩

/-- what `Heap.blob` finds -/
theorem blob_iff {i : ℕ} {b : Blob} :
    h.blob i = some b ↔ ∃ o, h.blobs[i]? = some o ∧ h.dists[o.n_e]? = some b.n_e
      ∧ (match o.n_p with
        | none => b.n_p = none
        | some a => ∃ d, h.dists[a]? = some d ∧ b.n_p = some d)
      ∧ b = { R_b := o.R_b, z := o.z, d_L := o.d_L, delta_D := o.delta_D, Gamma := o.Gamma, B := o.B, n_e := b.n_e
              n_p := b.n_p, xi := o.xi, gamma_e_size := o.gamma_e_size, gamma_p_size := o.gamma_p_size } := by
  constructor
  · intro hb
    unfold Heap.blob at hb
    simp only [Option.bind_eq_bind, Option.bind_eq_some_iff] at hb
    obtain ⟨o, ho, n, hn, hb⟩ := hb
    refine ⟨o, ho, ?_⟩
    cases hp : o.n_p with
    | none =>
      rw [hp] at hb
      cases hb
      exact ⟨hn, rfl, rfl⟩
    | some a =>
      rw [hp] at hb
      simp only [Option.bind_eq_some_iff, Option.map_eq_some_iff] at hb
      obtain ⟨m, ⟨d, h1, rfl⟩, hb⟩ := hb
      cases hb
      exact ⟨hn, ⟨d, h1, rfl⟩, rfl⟩
  · rintro ⟨o, ho, hn, hm, hb⟩
    unfold Heap.blob
    simp only [Option.bind_eq_bind, ho, hn, Option.bind_some]
    cases hp : o.n_p with
    | none =>
      rw [hp] at hm
      have hm' : b.n_p = none := hm
      rw [hb, hm']
    | some a =>
      rw [hp] at hm
      obtain ⟨d, h1, h2⟩ := hm
      simp only [h1, Option.map_some, Option.bind_some]
      rw [hb, h2]

/-- the blob is found again when its object is there and the distributions still exist -/
theorem blob_grow {i : ℕ} {b : Blob} {o : BlobObj} (hb : h.blob i = some b) (ho : h.blobs[i]? = some o)
    (ho' : h'.blobs[i]? = some o) {q : Proc}
    (hd : ∀ (a : ℕ) d, h.dists[a]? = some d → ∃ d', h'.dists[a]? = some d' ∧ (q.distRef o = some a → d' = d)) :
    ∃ b', h'.blob i = some b' ∧ q.Agree b b' := by
  obtain ⟨o1, h1, h2, h3, h4⟩ := blob_iff.1 hb
  rw [ho] at h1
  cases h1
  obtain ⟨d1, h5, h6⟩ := hd _ _ h2
  cases hp : o.n_p with
  | none =>
    rw [hp] at h3
    refine ⟨{ b with n_e := d1 }, blob_iff.2 ⟨o, ho', h5, ?_, by rw [h4]⟩, ?_⟩
    · rw [hp]; exact h3
    · cases q with
      | proton _ _ => exact ⟨d1, rfl⟩
      | _ => rw [h6 rfl]; exact agree_refl _ _
  | some a =>
    rw [hp] at h3
    obtain ⟨d, h7, h8⟩ := h3
    obtain ⟨d2, h9, h10⟩ := hd _ _ h7
    refine ⟨{ b with n_e := d1, n_p := some d2 }, blob_iff.2 ⟨o, ho', h5, ?_, by rw [h4]⟩, ?_⟩
    · rw [hp]; exact ⟨d2, h9, rfl⟩
    · cases q with
      | proton _ _ => rw [h10 hp, ← h8]; exact ⟨d1, rfl⟩
      | _ => rw [h6 rfl]; exact ⟨some d2, rfl⟩

theorem step_same {p : ℕ} {q : Proc} {op : Op} (h1 : h.procs[p]? = some q) (hop : ¬ op.Touches h p q)
    (hs : step k distance h op = some h') : h'.procs[p]? = some q ∧ Same q h h' := by
  have keep : ∀ {i b}, h.blob i = some b → ∃ o, h.blobs[i]? = some o := fun hb =>
    (blob_iff.1 hb).imp fun _ x => x.1
  cases op with
  | newDist d =>
    cases hs
    refine ⟨h1, ⟨fun i b _ hb => ?_, fun i t _ ht => ht⟩⟩
    obtain ⟨o, ho⟩ := keep hb
    exact blob_grow (h' := ⟨h.dists ++ [d], h.blobs, h.targets, h.procs⟩) hb ho ho fun a d hd => ⟨d, get_append hd, fun _ => rfl⟩
  | newBlob b =>
    simp only [step, Option.map_eq_some_iff] at hs
    obtain ⟨b1, -, rfl⟩ := hs
    refine ⟨h1, ⟨fun i b _ hb => ?_, fun i t _ ht => ht⟩⟩
    obtain ⟨o, ho⟩ := keep hb
    exact blob_grow hb ho (get_append ho) fun a d hd => ⟨d, hd, fun _ => rfl⟩
  | newTarget t =>
    simp only [step, Option.map_eq_some_iff] at hs
    obtain ⟨t1, -, rfl⟩ := hs
    exact ⟨h1, ⟨fun i b _ hb => ⟨b, hb, agree_refl _ _⟩, fun i t _ ht => get_append ht⟩⟩
  | newProc a =>
    simp only [step, Option.map_eq_some_iff] at hs
    obtain ⟨t1, -, rfl⟩ := hs
    exact ⟨get_append h1, ⟨fun i b _ hb => ⟨b, hb, agree_refl _ _⟩, fun i t _ ht => ht⟩⟩
  | setDist a d =>
    cases hs
    refine ⟨h1, ⟨fun i b hi hb => ?_, fun i t _ ht => ht⟩⟩
    obtain ⟨o, ho⟩ := keep hb
    refine blob_grow (h' := ⟨h.dists.set a d, h.blobs, h.targets, h.procs⟩) hb ho ho fun c d1 hd => ?_
    by_cases hc : a = c
    · subst hc
      refine ⟨d, by simp only [List.getElem?_set_self (lt_of_getElem? hd)], fun hq => ?_⟩
      exact absurd ⟨i, o, hi, ho, hq⟩ hop
    · exact ⟨d1, get_set_ne hd hc, fun _ => rfl⟩
  | setBlob a s =>
    simp only [step, Option.map_eq_some_iff] at hs
    obtain ⟨b1, -, rfl⟩ := hs
    refine ⟨h1, ⟨fun i b hi hb => ?_, fun i t _ ht => ht⟩⟩
    obtain ⟨o, ho⟩ := keep hb
    exact blob_grow hb ho (get_set_ne ho fun hc => hop (by rw [hc]; exact hi)) fun a d hd => ⟨d, hd, fun _ => rfl⟩
  | setTarget a s =>
    simp only [step, Option.map_eq_some_iff] at hs
    obtain ⟨t1, -, rfl⟩ := hs
    exact ⟨h1, ⟨fun i b _ hb => ⟨b, hb, agree_refl _ _⟩,
      fun i t hi ht => get_set_ne ht fun hc => hop (by rw [hc]; exact hi)⟩⟩
  | setProc a s =>
    simp only [step, Option.bind_eq_bind, Option.bind_eq_some_iff] at hs
    obtain ⟨q1, -, q2, -, hs⟩ := hs
    cases hs
    exact ⟨get_set_ne h1 hop, ⟨fun i b _ hb => ⟨b, hb, agree_refl _ _⟩, fun i t _ ht => ht⟩⟩

/-- C90: whatever a program builds and assigns, an answer of a process does not change as long as nothing is assigned to
the process, its blob, its target or the distribution it uses -/
theorem C90_untouched {p : ℕ} {q : Proc} {nu v : ℝ} {ops : List Op} : ∀ {h : Heap}, h.procs[p]? = some q →
    h.ask k p nu = some v → Untouched k distance p q h ops → run k distance h ops = some h' →
    h'.ask k p nu = some v := by
  induction ops with
  | nil =>
    intro h _ hv _ hr
    cases hr
    exact hv
  | cons op ops ih =>
    intro h h1 hv hu hr
    simp only [run, Option.bind_eq_some_iff] at hr
    obtain ⟨h2, hs, hr⟩ := hr
    obtain ⟨h3, h4⟩ := step_same h1 hu.1 hs
    exact ih h3 (ask_same h1 h3 h4 hv) (hu.2 h2 hs) hr

/-- C90: two blobs that refer to the same electron distribution, as all blobs built without `n_e` do: multiplying the
density through one of them multiplies the synchrotron radiation of the other -/
theorem C90_shared {I : List ℝ → List ℝ → ℝ} (hI : HomogeneousIntegrator I) {p i j : ℕ} {nu c v : ℝ} {o1 o2 : BlobObj}
    {d : Dist} (hp : h.procs[p]? = some (.synch j false I)) (_h1 : h.blobs[i]? = some o1) (h2 : h.blobs[j]? = some o2)
    (hsame : o1.n_e = o2.n_e) (hn : o2.n_p = none) (hd : h.dists[o1.n_e]? = some d) (hv : h.ask k p nu = some v)
    (hs : step k distance h (.setDist o1.n_e (d.scale c)) = some h') : h'.ask k p nu = some (c * v) := by
  cases hs
  simp only [Heap.ask, hp, Heap.sedSynch, Heap.blob, h2, hn, ← hsame, hd, Option.bind_eq_bind, Option.bind_some,
    Option.some.injEq, List.getElem?_set_self (lt_of_getElem? hd)] at hv ⊢
  rw [← hv]
  have := Synchrotron.C51_linear (k := k) (nu := nu) (z := o2.z) (d_L := o2.d_L) (δ := o2.delta_D) (B := o2.B) (R_b := o2.R_b)
    (d := d) hI c
  rw [this]
  simp only [Blob.gamma_e, Dist.scale_gmin, Dist.scale_gmax]

/-! ### Examples -/

/-- two blobs on the default distribution, synchrotron radiation of both and the absorption by a torus -/
def pair (b1 b2 : BlobObj) (t : TargetObj) (a : AbsObj) : Heap :=
  { dists := [.powerLaw 1 2 10 1000], blobs := [{ b1 with n_e := 0, n_p := none }, { b2 with n_e := 0, n_p := none }]
    targets := [t], procs := [.synch 0 false trapz, .synch 1 false trapz, .abs { a with target := .target 0 }] }

/-- assignments to the first blob do not change the radiation of the second -/
example (b1 b2 : BlobObj) (t : TargetObj) (a : AbsObj) (x y v : ℝ) (hv : (pair b1 b2 t a).ask k 1 1 = some v)
    (hr : run k distance (pair b1 b2 t a) [.setBlob 0 (.B x), .newDist (.powerLaw 1 2 10 100), .setBlob 0 (.n_e 1),
      .setTarget 0 (.L_disk y), .setProc 0 (.ssa true), .setDist 1 (.powerLaw 7 2 10 100)] = some h') :
    h'.ask k 1 1 = some v := by
  refine C90_untouched (q := .synch 1 false trapz) rfl hv ?_ hr
  simp [Untouched, Op.Touches, Proc.blobRef, Proc.targetRef, Proc.distRef, step, pair, BlobSet.run, ProcSet.run]

/-- an assignment to the density of the first does, by the factor 3 -/
example (b1 b2 : BlobObj) (t : TargetObj) (a : AbsObj) :
    ∃ v h', (pair b1 b2 t a).ask k 1 1 = some v
      ∧ step k distance (pair b1 b2 t a) (.setDist 0 (Dist.scale 3 (.powerLaw 1 2 10 1000))) = some h'
      ∧ h'.ask k 1 1 = some (3 * v) :=
  ⟨_, _, rfl, rfl, C90_shared (distance := distance) (i := 0) (j := 1) (o1 := { b1 with n_e := 0, n_p := none })
    (o2 := { b2 with n_e := 0, n_p := none }) homogeneous_trapz rfl rfl rfl rfl rfl rfl rfl rfl⟩

/-- and the radiation of that blob need not vanish -/
example (t : TargetObj) (a : AbsObj) : ∃ v, 0 < v ∧
    (pair ⟨1, 0, 1, 10, 10, 1, 0, none, 1, 200, 200⟩ ⟨1, 0, 1, 10, 10, 1, 0, none, 1, 200, 200⟩ t a).ask
      ⟨1, 1, 1, 1, 1, 1, 1, 1, 1, 1⟩ 1 1 = some v :=
  ⟨_, Synchrotron.C51_blob_pos (b := Synchrotron.demoBlob) Synchrotron.demoBlob_good (by norm_num [Synchrotron.demoBlob, Dist.NonEmpty, Dist.gmin, Dist.gmax])
    Synchrotron.demoPhysical false, rfl⟩

end Verif.Objects

end
