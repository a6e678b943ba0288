import Verif.Lemmas.Batch

/-
C100: a batch of frequencies gives what each frequency gives alone.

The array programs of `Model/Batch.lean` return an array of the shape of the frequencies whose element at an index is
the SED (or the opacity) of the frequency at that index, as modelled for one frequency.
-/

noncomputable section

namespace Verif.Batch

open MathUtils Spectra Geometry Kernels Region Targets

/-- the program succeeds with an array shaped like the frequencies, and the element at an index is `f` of the frequency
at that index -/
def Pointwise (nu : NdArray ℝ) (r : Except Err (Arr ℝ)) (f : ℝ → ℝ) : Prop :=
  ∃ c, r = .ok c ∧ c.shape = nu.shape ∧ ∀ idx x, nu.get? idx = some x → c.get idx = f x

variable {k : Consts} {integ : List ℝ → List ℝ → ℝ} {z d_L δ B R_b mu_s r : ℝ} {d : Dist} {gamma mu phi : List ℝ}

theorem offset_some {s idx : List ℕ} {n : ℕ} (h : offset s idx = some n) : Within idx s ∧ n < s.prod := by
  induction s generalizing idx n with
  | nil => cases idx with
    | nil => simp [offset] at h; subst h; simp
    | cons => simp [offset] at h
  | cons a s ih => cases idx with
    | nil => simp [offset] at h
    | cons i idx =>
      simp only [offset] at h
      split_ifs at h with hi
      cases ho : offset s idx with
      | none => simp [ho] at h
      | some m =>
        simp only [ho, Option.map_some, Option.some.injEq] at h
        obtain ⟨h1, h2⟩ := ih ho
        refine ⟨.cons hi h1, ?_⟩
        rw [List.prod_cons, ← h]
        calc i * s.prod + m < i * s.prod + s.prod := by omega
          _ = (i + 1) * s.prod := by ring
          _ ≤ a * s.prod := Nat.mul_le_mul_right _ hi

theorem get?_some {nu : NdArray ℝ} {idx : List ℕ} {x : ℝ} (h : nu.get? idx = some x) :
    ∃ n, offset nu.shape idx = some n ∧ nu.data[n]? = some x := by
  unfold NdArray.get? at h
  cases ho : offset nu.shape idx with
  | none => simp [ho] at h
  | some n => exact ⟨n, rfl, by simpa [ho] using h⟩

/-- frequencies along one axis -/
theorem pointwise_vec {nus : List ℝ} {r : Except Err (Arr ℝ)} {c : Arr ℝ} {F : List ℕ → ℝ} {f : ℝ → ℝ}
    (hr : r = .ok c) (hs : c.shape = [nus.length]) (hc : Seen [nus.length] c F)
    (hF : ∀ j (h : j < nus.length), F [j] = f nus[j]) : Pointwise (vec nus) r f := by
  refine ⟨c, hr, hs, fun idx x hx => ?_⟩
  obtain ⟨n, hn, hd⟩ := get?_some hx
  obtain ⟨hw, -⟩ := offset_some hn
  rcases hw with _ | ⟨h0, _ | _⟩
  rename_i j
  have hj : j < nus.length := h0
  rw [seen_full hc hs _ (.cons hj .nil), hF j hj]
  have : n = j := by simpa [vec, offset, hj] using hn.symm
  subst this
  have : nus[n] = x := by
    have := hd; simp only [vec] at this
    rw [List.getElem?_eq_getElem hj] at this; exact Option.some.inj this
  rw [this]

/-- integration over Lorentz factors `g` of weights `w` times a function of photon energy and Lorentz factor -/
theorem synch_core {a : Arr ℝ} {g w : List ℝ} (P : ℝ → ℝ → ℝ) (eps : List ℝ) (hw : w.length = g.length)
    (ha : a.shape = [g.length, 1]) (sa : Seen [g.length, eps.length] a fun i => w.getD (i.getD 0 0) 0) :
    ∃ pw it em, lift2 P (ofNd ⟨[1, eps.length], eps⟩) (ofNd ⟨[g.length, 1], g⟩) = .ok pw
      ∧ lift2 (· * ·) a pw = .ok it
      ∧ integrate integ it g = .ok em ∧ em.shape = [eps.length]
      ∧ Seen [eps.length] em (fun i => integ (List.zipWith (· * ·) w (g.map fun g => P (eps.getD (i.getD 0 0) 0) g))
          g) := by
  obtain ⟨pw, e1, s1, r1⟩ := seen_lift2 P (seen_21 g.length eps) (seen_20 g eps.length)
  obtain ⟨it, e2, s2, r2⟩ := seen_lift2 (· * ·) sa s1
  have hp : pw.shape = [g.length, eps.length] := by
    have := r1; simpa [ofNd, bshapeEq] using this.symm
  have hi : it.shape = [g.length, eps.length] := by
    have := r2; simpa [ha, hp, bshapeEq] using this.symm
  obtain ⟨em, e3, h3, s3⟩ := seen_integrate integ s2 hi
  refine ⟨pw, it, em, e1, e2, e3, h3, ?_⟩
  refine ⟨s3.fits, fun idx hw' => ?_⟩
  rw [s3.get idx hw']
  congr 1
  apply List.ext_getElem
  · simp [hw]
  · intro i h1 h2
    have h : i < g.length := by simpa using h1
    have h' : i < w.length := by omega
    simp [h, h']

theorem seen_weights {n : ℕ} {w : List ℝ} (h : w.length = n) (m : ℕ) :
    Seen [n, m] (ofNd ⟨[n, 1], w⟩) fun i => w.getD (i.getD 0 0) 0 := by
  subst h; exact seen_20 w m

theorem seen_densities {n : ℕ} {w : List ℝ} (V : ℝ) (h : w.length = n) (m : ℕ) :
    Seen [n, m] ((ofNd ⟨[n, 1], w⟩).map (V * ·)) fun i => (w.map (V * ·)).getD (i.getD 0 0) 0 := by
  subst h
  refine ⟨(seen_20 w m).fits, fun idx hi => ?_⟩
  have := (seen_map (seen_20 w m) (V * ·)).get idx hi
  rw [this]
  rcases hi with _ | ⟨h0, hi⟩
  simp [h0]

/-- elements of a mapped array -/
theorem get_mapNd {nu : NdArray ℝ} {f : ℝ → ℝ} {idx : List ℕ} {x : ℝ} (h : nu.get? idx = some x) :
    (ofNd (mapNd f nu)).get idx = f x := by
  obtain ⟨n, hn, hd⟩ := get?_some h
  simp [ofNd, mapNd, NdArray.get?, hn, hd]

/-- the SED before self-absorption, frequencies of any shape -/
theorem thin_any (nu : NdArray ℝ) (hnu : nu.shape.prod = nu.data.length) :
    ∃ c, sedThin k integ nu z d_L δ B R_b d gamma = .ok (c, d.afterCall gamma)
      ∧ Pointwise nu (.ok c) (fun x => Synchrotron.sedFlux k integ false x z d_L δ B R_b d gamma) := by
  have hl : (d.afterCall gamma).length = gamma.length := afterCall_length d gamma
  obtain ⟨pw, it, em, e1, e2, e3, h3, s3⟩ := synch_core (integ := integ) (fun e g => Synchrotron.power k B e g k.m_e)
    (nu.data.map (nuToEps k · z δ)) (w := ((d.afterCall gamma).map d.call).map (Synchrotron.volume R_b * ·))
    (g := d.afterCall gamma) (by simp) rfl (seen_densities (Synchrotron.volume R_b) (by simp) _)
  rw [hl] at e1 e2
  have e4 : reshape1 em nu.shape = .ok ⟨nu.shape, fun idx => em.get [(offset nu.shape idx).getD 0]⟩ := by
    unfold reshape1; rw [h3, if_pos (by simp [hnu])]
  have he : (mapNd (nuToEps k · z δ) nu).shape = nu.shape := rfl
  obtain ⟨c, e5, s5, r5⟩ := seen_lift2 (D := nu.shape) (fun e j => δ ^ 4 / (4 * Real.pi * d_L ^ 2) * e * j)
    (seen_of_get (a := ofNd (mapNd (nuToEps k · z δ) nu)) rfl fun _ _ => rfl)
    (seen_of_get (a := ⟨nu.shape, fun idx => em.get [(offset nu.shape idx).getD 0]⟩) rfl fun _ _ => rfl)
  have hc : c.shape = nu.shape := by
    have e : ∀ s : List ℕ, bshapeEq s s = some s := by
      intro s; induction s with
      | nil => rfl
      | cons a s ih => simp [bshapeEq, ih]
    have := r5; simpa [ofNd, mapNd, e] using this.symm
  refine ⟨c, ?_, c, rfl, hc, fun idx x hx => ?_⟩
  · unfold sedThin
    simp only [mapNd, axes2_eq, evaluateNd_axis d gamma gamma.length (rest := [1]) (by simp), bind, Except.bind,
      Dist.evaluate, e1, e2, e3, e4] at e5 ⊢
    rw [e5]
  · obtain ⟨n, hn, hd⟩ := get?_some hx
    obtain ⟨hw, hlt⟩ := offset_some hn
    rw [seen_full s5 hc idx hw, get_mapNd hx]
    simp only [hn, Option.getD_some]
    have hlen : n < (nu.data.map (nuToEps k · z δ)).length := by simpa [← hnu] using hlt
    rw [seen_full s3 h3 [n] (.cons hlen .nil)]
    simp [Synchrotron.sedFlux, Synchrotron.sedThin, Dist.evaluate, hd]

/-- C100: without self-absorption, frequencies of any shape -/
theorem C100_synchrotron (nu : NdArray ℝ) (hnu : nu.shape.prod = nu.data.length) :
    ∃ c, sedFlux k integ false nu z d_L δ B R_b d gamma = .ok (c, d.afterCall gamma)
      ∧ Pointwise nu (.ok c) (fun x => Synchrotron.sedFlux k integ false x z d_L δ B R_b d gamma) := by
  obtain ⟨c, e, h⟩ := thin_any (k := k) (integ := integ) (z := z) (d_L := d_L) (δ := δ) (B := B) (R_b := R_b) (d := d)
    (gamma := gamma) nu hnu
  exact ⟨c, by unfold sedFlux; rw [e]; rfl, h⟩

theorem bshapeEq_self (s : List ℕ) : bshapeEq s s = some s := by
  induction s with
  | nil => rfl
  | cons a s ih => simp [bshapeEq, ih]

/-- the optical depth of self-absorption for frequencies along one axis -/
theorem tauSSA_vec (nus : List ℝ) :
    ∃ c, tauSSA k integ (vec nus) z δ B R_b d gamma = .ok (c, d.afterSSA gamma) ∧ c.shape = [nus.length]
      ∧ Seen [nus.length] c (fun i => Synchrotron.tauSSA k integ (nus.getD (i.getD 0 0) 0) z δ B R_b d gamma) := by
  have hl : (d.afterSSA gamma).length = gamma.length := afterSSA_length d gamma
  obtain ⟨pw, it, em, e1, e2, e3, h3, s3⟩ := synch_core (integ := integ) (fun e g => Synchrotron.power k B e g k.m_e)
    (nus.map (nuToEps k · z δ)) (w := List.zipWith d.ssaElem gamma (d.afterSSA gamma))
    (g := d.afterSSA gamma) (by simp [hl]) rfl (seen_weights (by simp [hl]) _)
  rw [hl] at e1 e2
  have sv := seen_vec (nus.map (nuToEps k · z δ))
  obtain ⟨c, e4, s4, r4⟩ := seen_lift2
    (fun e j => -1 / (8 * Real.pi * k.m_e * e ^ 2) * (k.lambda_c_e / k.c) ^ 3 * j) sv s3
  have hv : mapNd (nuToEps k · z δ) (vec nus) = vec (nus.map (nuToEps k · z δ)) := by simp [mapNd, vec]
  have hc : c.shape = [nus.length] := by
    have := r4; simpa [ofNd, vec, h3, bshapeEq] using this.symm
  refine ⟨c.map fun x => 2 * x * R_b, ?_, hc, ?_⟩
  · unfold tauSSA
    rw [hv]
    simp only [vec, axes2_eq, ssaNd_axis d gamma gamma.length (rest := [1]) (by simp), bind, Except.bind,
      Dist.ssaIntegrand, e1, e2, e3] at e4 ⊢
    rw [e4]
  · rw [List.length_map] at s4
    refine ⟨(seen_map s4 _).fits, fun idx hi => ?_⟩
    rw [(seen_map s4 fun x => 2 * x * R_b).get idx hi]
    rcases hi with _ | ⟨h0, hi⟩
    simp [Synchrotron.tauSSA, Dist.ssaIntegrand, h0]

/-- the Lorentz factors after a synchrotron SED -/
def afterSynch (ssa : Bool) (d : Dist) (gamma : List ℝ) : List ℝ :=
  if ssa then d.afterSSA (d.afterCall gamma) else d.afterCall gamma

/-- the synchrotron SED for frequencies along one axis -/
theorem synch_vec (ssa : Bool) (nus : List ℝ) :
    ∃ c, sedFlux k integ ssa (vec nus) z d_L δ B R_b d gamma = .ok (c, afterSynch ssa d gamma)
      ∧ c.shape = [nus.length]
      ∧ Seen [nus.length] c
        (fun i => Synchrotron.sedFlux k integ ssa (nus.getD (i.getD 0 0) 0) z d_L δ B R_b d gamma) := by
  obtain ⟨c, e, c', hc', hs, hp⟩ := C100_synchrotron (k := k) (integ := integ) (z := z) (d_L := d_L) (δ := δ) (B := B)
    (R_b := R_b) (d := d) (gamma := gamma) (vec nus) (by simp [vec])
  obtain rfl := Except.ok.inj hc'
  have sc : Seen [nus.length] c
      (fun i => Synchrotron.sedFlux k integ false (nus.getD (i.getD 0 0) 0) z d_L δ B R_b d gamma) := by
    refine seen_of_get hs fun idx hi => ?_
    rcases hi with _ | ⟨h0, _ | _⟩
    rename_i i
    exact hp [i] _ (by simp [vec, NdArray.get?, offset, h0])
  cases ssa with
  | false => exact ⟨c, e, hs, sc⟩
  | true =>
    obtain ⟨t, et, ht, st⟩ := tauSSA_vec (k := k) (integ := integ) (z := z) (δ := δ) (B := B) (R_b := R_b) (d := d)
      (gamma := d.afterCall gamma) nus
    obtain ⟨m, em, sm, rm⟩ := seen_lift2 (· * ·) sc (seen_map st Synchrotron.tauToAttenuation)
    have hm : m.shape = [nus.length] := by
      have := rm; simpa [Arr.map, hs, ht, vec, bshapeEq] using this.symm
    refine ⟨m, ?_, hm, ?_⟩
    · have hi : imul c (t.map Synchrotron.tauToAttenuation) = .ok m := by
        unfold imul; rw [em]; simp only [bind, Except.bind]; rw [if_pos (by rw [hm, hs]; rfl)]
      unfold sedFlux at e ⊢
      cases hth : sedThin k integ (vec nus) z d_L δ B R_b d gamma with
      | error x => rw [hth] at e; cases e
      | ok x =>
        rw [hth] at e
        obtain rfl : x = (c, d.afterCall gamma) := Except.ok.inj e
        simp only [bind, Except.bind, if_true, et, hi]
        rfl
    · refine ⟨sm.fits, fun idx hi => ?_⟩
      rw [sm.get idx hi]
      simp [Synchrotron.sedFlux]

/-- C100: with self-absorption, frequencies along one axis -/
theorem C100_synchrotron_ssa (ssa : Bool) (nus : List ℝ) :
    ∃ c g, sedFlux k integ ssa (vec nus) z d_L δ B R_b d gamma = .ok (c, g)
      ∧ Pointwise (vec nus) (.ok c) (fun x => Synchrotron.sedFlux k integ ssa x z d_L δ B R_b d gamma) := by
  obtain ⟨c, e, hs, sc⟩ := synch_vec (k := k) (integ := integ) (z := z) (d_L := d_L) (δ := δ) (B := B)
    (R_b := R_b) (d := d) (gamma := gamma) ssa nus
  exact ⟨c, _, e, pointwise_vec rfl hs sc fun j hj => by simp [hj]⟩

/-! ### Integration over the axes -/

theorem range_zip {l m : List ℝ} (hl : m.length = l.length) (f : ℝ → ℝ → ℝ) :
    (List.range l.length).map (fun i => f (m.getD i 0) (l.getD i 0)) = List.zipWith f m l := range_getD2 hl f

/-- one integration, weights `w` on the axis -/
theorem core2 {it : Arr ℝ} {x w e : List ℝ} (f : ℝ → ℝ → ℝ → ℝ) (hs : it.shape = [x.length, e.length])
    (hw : w.length = x.length)
    (h : Seen [x.length, e.length] it fun i =>
      f (w.getD (i.getD 0 0) 0) (x.getD (i.getD 0 0) 0) (e.getD (i.getD 1 0) 0)) :
    ∃ a, integrate integ it x = .ok a ∧ a.shape = [e.length]
      ∧ Seen [e.length] a fun i => integ (List.zipWith (fun W X => f W X (e.getD (i.getD 0 0) 0)) w x) x := by
  obtain ⟨a, ea, ha, sa⟩ := seen_integrate integ h hs
  refine ⟨a, ea, ha, sa.fits, fun idx hi => ?_⟩
  rw [sa.get idx hi, ← range_zip hw]
  rfl

/-- two integrations, weights `w` and `v` on their axes -/
theorem core3 {it : Arr ℝ} {x w y v e : List ℝ} {integ' : List ℝ → List ℝ → ℝ} (f : ℝ → ℝ → ℝ → ℝ → ℝ → ℝ)
    (hs : it.shape = [x.length, y.length, e.length]) (hw : w.length = x.length) (hv : v.length = y.length)
    (h : Seen [x.length, y.length, e.length] it fun i =>
      f (w.getD (i.getD 0 0) 0) (x.getD (i.getD 0 0) 0) (v.getD (i.getD 1 0) 0) (y.getD (i.getD 1 0) 0)
        (e.getD (i.getD 2 0) 0)) :
    ∃ a b, integrate integ it x = .ok a ∧ integrate integ' a y = .ok b ∧ b.shape = [e.length]
      ∧ Seen [e.length] b fun i => integ' (List.zipWith (fun V Y =>
          integ (List.zipWith (fun W X => f W X V Y (e.getD (i.getD 0 0) 0)) w x) x) v y) y := by
  obtain ⟨a, ea, ha, sa⟩ := seen_integrate integ h hs
  obtain ⟨b, eb, hb, sb⟩ := seen_integrate integ' sa ha
  refine ⟨a, b, ea, eb, hb, sb.fits, fun idx hi => ?_⟩
  rw [sb.get idx hi, ← range_zip hv]
  congr 1
  refine List.map_congr_left fun i _ => ?_
  rw [← range_zip hw]
  rfl

/-- three integrations, weights `w` on the first axis -/
theorem core4 {it : Arr ℝ} {x w y t e : List ℝ} {integ' integ'' : List ℝ → List ℝ → ℝ}
    (f : ℝ → ℝ → ℝ → ℝ → ℝ → ℝ) (hs : it.shape = [x.length, y.length, t.length, e.length]) (hw : w.length = x.length)
    (h : Seen [x.length, y.length, t.length, e.length] it fun i =>
      f (w.getD (i.getD 0 0) 0) (x.getD (i.getD 0 0) 0) (y.getD (i.getD 1 0) 0) (t.getD (i.getD 2 0) 0)
        (e.getD (i.getD 3 0) 0)) :
    ∃ a b c, integrate integ it x = .ok a ∧ integrate integ' a y = .ok b ∧ integrate integ'' b t = .ok c
      ∧ c.shape = [e.length]
      ∧ Seen [e.length] c fun i => Verif.over integ'' t fun t => Verif.over integ' y fun y =>
          integ (List.zipWith (fun W X => f W X y t (e.getD (i.getD 0 0) 0)) w x) x := by
  obtain ⟨a, ea, ha, sa⟩ := seen_integrate integ h hs
  obtain ⟨b, eb, hb, sb⟩ := seen_integrate integ' sa ha
  obtain ⟨c, ec, hc, sc⟩ := seen_integrate integ'' sb hb
  refine ⟨a, b, c, ea, eb, ec, hc, sc.fits, fun idx hi => ?_⟩
  rw [sc.get idx hi]
  unfold Verif.over
  rw [← range_getD]
  congr 1
  refine List.map_congr_left fun i _ => ?_
  rw [← range_getD]
  congr 1
  refine List.map_congr_left fun j _ => ?_
  rw [← range_zip hw]
  rfl

theorem zip_self (x : List ℝ) (f : ℝ → ℝ) : List.zipWith (fun _ X => f X) x x = x.map f := by
  simp [List.zipWith_self]

/-! ### Weights on the first axis -/

theorem boostedN_length {gamma : List ℝ} : (Compton.boostedN d R_b δ gamma).length = gamma.length := by
  simp [Compton.boostedN, Dist.evaluate, afterCall_length]

theorem boosted_eq {rest : List ℕ} (h : rest.prod = 1) (gamma : List ℝ) :
    boosted d R_b δ ⟨gamma.length :: rest, gamma⟩
      = .ok ((ofNd ⟨gamma.length :: rest, (d.evaluate (gamma.map (· / δ))).2⟩).map (Synchrotron.volume R_b * ·)) := by
  unfold boosted
  simp only [mapNd, evaluateNd_axis d _ _ h, bind, Except.bind]

theorem seen_scaled {D : List ℕ} {a : Arr ℝ} {n : ℕ} {rest : List ℕ} {w : List ℝ} (V : ℝ) (hD : D = w.length :: rest)
    (h : Seen D a fun i => w.getD (i.getD 0 0) 0) :
    Seen D (a.map (V * ·)) fun i => (w.map (V * ·)).getD (i.getD 0 0) 0 := by
  refine ⟨h.fits, fun idx hi => ?_⟩
  rw [(seen_map h (V * ·)).get idx hi]
  rw [hD] at hi
  rcases hi with _ | ⟨h0, hi⟩
  simp [h0]

theorem seen_boosted2 (gamma : List ℝ) (m : ℕ) : Seen [gamma.length, m]
    ((ofNd ⟨[gamma.length, 1], (d.evaluate (gamma.map (· / δ))).2⟩).map (Synchrotron.volume R_b * ·))
    fun i => (Compton.boostedN d R_b δ gamma).getD (i.getD 0 0) 0 := by
  have hl : gamma.length = ((d.evaluate (gamma.map (· / δ))).2).length := by simp [Dist.evaluate, afterCall_length]
  rw [hl]
  exact seen_scaled (n := 0) _ rfl (seen_20 _ m)

theorem seen_boosted3 (gamma : List ℝ) (m p : ℕ) : Seen [gamma.length, m, p]
    ((ofNd ⟨[gamma.length, 1, 1], (d.evaluate (gamma.map (· / δ))).2⟩).map (Synchrotron.volume R_b * ·))
    fun i => (Compton.boostedN d R_b δ gamma).getD (i.getD 0 0) 0 := by
  have hl : gamma.length = ((d.evaluate (gamma.map (· / δ))).2).length := by simp [Dist.evaluate, afterCall_length]
  rw [hl]
  exact seen_scaled (n := 0) _ rfl (seen_30 _ m p)

theorem seen_boosted4 (gamma : List ℝ) (m p q : ℕ) : Seen [gamma.length, m, p, q]
    ((ofNd ⟨[gamma.length, 1, 1, 1], (d.evaluate (gamma.map (· / δ))).2⟩).map (Synchrotron.volume R_b * ·))
    fun i => (Compton.boostedN d R_b δ gamma).getD (i.getD 0 0) 0 := by
  have hl : gamma.length = ((d.evaluate (gamma.map (· / δ))).2).length := by simp [Dist.evaluate, afterCall_length]
  rw [hl]
  exact seen_scaled (n := 0) _ rfl (seen_40 _ m p q)

/-- the last step: a function of the frequencies' energies and the integral -/
theorem finish {nus : List ℝ} {a : Arr ℝ} {F : List ℕ → ℝ} {g : ℝ → ℝ} (op : ℝ → ℝ → ℝ) (ha : a.shape = [nus.length])
    (sa : Seen [nus.length] a F) {f : ℝ → ℝ} (hf : ∀ j (h : j < nus.length), op (g nus[j]) (F [j]) = f nus[j]) :
    Pointwise (vec nus) (lift2 op (ofNd (mapNd g (vec nus))) a) f := by
  have hv : mapNd g (vec nus) = vec (nus.map g) := by simp [mapNd, vec]
  have sv := seen_vec (nus.map g)
  rw [List.length_map] at sv
  obtain ⟨c, e, s, r⟩ := seen_lift2 op sv sa
  rw [hv]
  refine pointwise_vec e ?_ s fun j hj => ?_
  · have := r; simpa [ofNd, vec, ha, bshapeEq] using this.symm
  · rw [← hf j hj]; simp [hj]

/-! ### External Compton -/

/-- C100: point source behind the jet -/
theorem C100_ps {epsilon_0 L_0 : ℝ} (nus : List ℝ) :
    Pointwise (vec nus) (psBehindJet k integ (vec nus) z d_L δ mu_s R_b epsilon_0 L_0 r d gamma)
      fun x => Compton.psBehindJet k integ x z d_L δ mu_s R_b epsilon_0 L_0 r d gamma := by
  set eps := nus.map (nuToEps k · z 1) with heps
  have hm : (mapNd (nuToEps k · z 1) (vec nus)).data = eps := rfl
  obtain ⟨K, e1, s1, r1⟩ := seen_lift2 (fun g e => comptonKernel g e epsilon_0 mu_s 1 0) (seen_20 gamma eps.length)
    (seen_21 gamma.length eps)
  obtain ⟨it, e2, s2, r2⟩ := seen_lift3 (fun n g K => n / g ^ 2 * K)
    (seen_boosted2 (d := d) (R_b := R_b) (δ := δ) gamma eps.length) (seen_20 gamma eps.length) s1
  have hK : K.shape = [gamma.length, eps.length] := by
    have := r1; simpa [ofNd, bshapeEq] using this.symm
  have hi : it.shape = [gamma.length, eps.length] := by
    have := r2; simpa [ofNd, Arr.map, hK, bshapeEq] using this.symm
  obtain ⟨a, e3, h3, s3⟩ := core2 (integ := integ)
    (fun N g e => N / g ^ 2 * comptonKernel g e epsilon_0 mu_s 1 0) hi (boostedN_length (d := d) (R_b := R_b) (δ := δ)) s2
  unfold psBehindJet
  simp only [hm, axes2_eq, boosted_eq (rest := [1]) (by simp), bind, Except.bind, e1, e2, e3]
  rw [show eps.length = nus.length by simp [heps]] at h3 s3
  refine finish _ h3 s3 fun j hj => ?_
  simp [Compton.psBehindJet, Compton.fold, heps, hj]

end Verif.Batch

end
