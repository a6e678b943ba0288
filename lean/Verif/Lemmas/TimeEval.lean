import Mathlib.Algebra.Order.Field.Basic
import Mathlib.Tactic.FieldSimp
import Mathlib.Tactic.Ring
import Verif.Lemmas.MergeBins

/- `recalcEnergyBins`, `applyTimeEval`, `updateDistribution`. -/

namespace Verif.TE

open Verif.Np

set_option linter.unusedSectionVars false

def Bins.Len {α : Type} (n : Nat) (b : Bins α) : Prop := b.lb.length = n ∧ b.ub.length = n

theorem getD_zipWith {α β γ : Type} (f : α → β → γ) {a : List α} {b : List β} {i : Nat} (da : α) (db : β)
    (dc : γ) (ha : i < a.length) (hb : i < b.length) :
    (List.zipWith f a b).getD i dc = f (a.getD i da) (b.getD i db) := by
  rw [List.getD_eq_getElem _ _ (by simp; omega), List.getD_eq_getElem _ _ ha,
    List.getD_eq_getElem _ _ hb, List.getElem_zipWith]

theorem getD_map' {α β : Type} (f : α → β) {a : List α} {i : Nat} (da : α) (db : β)
    (ha : i < a.length) : (a.map f).getD i db = f (a.getD i da) := by
  rw [List.getD_eq_getElem _ _ (by simpa using ha), List.getD_eq_getElem _ _ ha, List.getElem_map]

theorem forall_mem_iff_getD {α : Type} {l : List α} {P : α → Prop} (d : α) :
    (∀ x ∈ l, P x) ↔ ∀ j, j < l.length → P (l.getD j d) := by
  constructor
  · intro h j hj
    rw [List.getD_eq_getElem _ _ hj]; exact h _ (List.getElem_mem hj)
  · intro h x hx
    obtain ⟨j, hj, rfl⟩ := List.mem_iff_getElem.1 hx
    have := h j hj
    rwa [List.getD_eq_getElem _ _ hj] at this

theorem not_any_iff {α : Type} {l : List α} {p : α → Bool} :
    ¬ (l.any p = true) ↔ ∀ x ∈ l, p x = false := by
  simp

variable {K : Type} [Field K] [LinearOrder K] [IsStrictOrderedRing K]

theorem recalcEnergyBins_spec {n : Nat} {chg en : Bins K} (hc : chg.Len n) (he : en.Len n)
    {new : Bins K} {inc : List K} (e : recalcEnergyBins chg en = .ok (new, inc)) :
    new.Len n ∧ inc.length = n ∧ ∀ j, j < n →
      new.lb.getD j 0 = en.lb.getD j 0 + chg.lb.getD j 0 ∧
      new.ub.getD j 0 = en.ub.getD j 0 + chg.ub.getD j 0 ∧
      0 < new.lb.getD j 0 ∧ new.lb.getD j 0 < new.ub.getD j 0 ∧
      inc.getD j 0 = (en.ub.getD j 0 - en.lb.getD j 0) / (new.ub.getD j 0 - new.lb.getD j 0) := by
  obtain ⟨hc1, hc2⟩ := hc
  obtain ⟨he1, he2⟩ := he
  unfold recalcEnergyBins at e
  simp only at e
  split at e
  · simp at e
  · next h1 =>
    split at e
    · simp at e
    · next h2 =>
      split at e
      · simp at e
      · next h3 =>
        simp only [Except.ok.injEq, Prod.mk.injEq] at e
        obtain ⟨rfl, rfl⟩ := e
        simp only [Bool.or_eq_true, not_or] at h1
        refine ⟨⟨by simp [hc1, he1], by simp [hc2, he2]⟩, by simp [hc1, hc2, he1, he2], ?_⟩
        intro j hj
        have g1 : (List.zipWith (· + ·) en.lb chg.lb).getD j 0
            = en.lb.getD j 0 + chg.lb.getD j 0 := getD_zipWith _ 0 0 0 (by omega) (by omega)
        have g2 : (List.zipWith (· + ·) en.ub chg.ub).getD j 0
            = en.ub.getD j 0 + chg.ub.getD j 0 := getD_zipWith _ 0 0 0 (by omega) (by omega)
        have hlb : (List.zipWith (· + ·) en.lb chg.lb).length = n := by simp [he1, hc1]
        have hub : (List.zipWith (· + ·) en.ub chg.ub).length = n := by simp [he2, hc2]
        have gw : (List.zipWith (· - ·) (List.zipWith (· + ·) en.ub chg.ub)
            (List.zipWith (· + ·) en.lb chg.lb)).getD j 0
            = (List.zipWith (· + ·) en.ub chg.ub).getD j 0
              - (List.zipWith (· + ·) en.lb chg.lb).getD j 0 :=
          getD_zipWith _ 0 0 0 (by omega) (by omega)
        have p1 := (forall_mem_iff_getD 0).1 (not_any_iff.1 h1.1) j (by omega)
        have p2 := (forall_mem_iff_getD 0).1 (not_any_iff.1 h2) j (by simp [hc1, hc2, he1, he2]; omega)
        have p3 := (forall_mem_iff_getD 0).1 (not_any_iff.1 h3) j (by simp [hc1, hc2, he1, he2]; omega)
        simp only [decide_eq_false_iff_not, not_le, not_lt] at p1 p2
        simp only [beq_eq_false_iff_ne] at p3
        rw [gw] at p2 p3
        refine ⟨g1, g2, p1, ?_, ?_⟩
        · have := lt_of_le_of_ne p2 (Ne.symm p3)
          linarith
        · rw [getD_zipWith _ 0 0 0 (by simp; omega) (by simp; omega), gw,
            getD_zipWith _ 0 0 0 (by omega) (by omega)]

/-- Result of moving one group: entry by entry -/
structure GroupOut (cfg : Cfg K) (n : Nat) (en : Bins K) (dens frac : List K) (chg : Bins K)
    (inj : List K) (out : Bins K × List K) : Prop where
  len : out.1.Len n
  dlen : out.2.length = n
  lb : ∀ j, j < n → out.1.lb.getD j 0 = (en.lb.getD j 0 + chg.lb.getD j 0) / cfg.mec2
  ub : ∀ j, j < n → out.1.ub.getD j 0 = (en.ub.getD j 0 + chg.ub.getD j 0) / cfg.mec2
  pos : ∀ j, j < n → 0 < out.1.lb.getD j 0
  width : ∀ j, j < n → out.1.lb.getD j 0 < out.1.ub.getD j 0
  dens : ∀ j, j < n → out.2.getD j 0 = dens.getD j 0 * frac.getD j 0 *
    ((en.ub.getD j 0 - en.lb.getD j 0) /
      ((en.ub.getD j 0 + chg.ub.getD j 0) - (en.lb.getD j 0 + chg.lb.getD j 0))) + inj.getD j 0
  nonneg : ∀ j, j < n → 0 ≤ out.2.getD j 0

theorem group_spec {cfg : Cfg K} {n : Nat} (hm : 0 < cfg.mec2) {en : Bins K} {dens frac : List K}
    {chg : Bins K} {inj : List K} (he : en.Len n) (hd : dens.length = n) (hf : frac.length = n)
    (hc : chg.Len n) (hi : inj.length = n) {p q : Bins K × List K}
    (h1 : evalGroup cfg en dens frac chg = .ok p) (h2 : addInjection p inj = .ok q) :
    GroupOut cfg n en dens frac chg inj q := by
  unfold evalGroup recalcGammaBins at h1
  obtain ⟨⟨new, inc⟩, h3, h4⟩ := bind_ok_iff.1 h1
  obtain ⟨hnl, hil, hs⟩ := recalcEnergyBins_spec hc he h3
  simp only [pure_ok_iff] at h4
  subst h4
  unfold addInjection at h2
  simp only at h2
  split at h2
  · simp at h2
  · next hneg =>
    simp only [Except.ok.injEq] at h2
    subst h2
    have e1 : ∀ j, j < n → (new.lb.map (· / cfg.mec2)).getD j 0 = new.lb.getD j 0 / cfg.mec2 :=
      fun j hj => getD_map' _ 0 0 (by rw [hnl.1]; exact hj)
    have e2 : ∀ j, j < n → (new.ub.map (· / cfg.mec2)).getD j 0 = new.ub.getD j 0 / cfg.mec2 :=
      fun j hj => getD_map' _ 0 0 (by rw [hnl.2]; exact hj)
    have hml : (mulRow dens frac).length = n := by simp [mulRow, hd, hf]
    have hdl : (List.zipWith (· * ·) (mulRow dens frac) inc).length = n := by simp [hml, hil]
    refine ⟨⟨by simp [hnl.1], by simp [hnl.2]⟩, by simp [hml, hil, hi], ?_, ?_, ?_, ?_, ?_, ?_⟩
    · intro j hj
      simp only [e1 j hj, (hs j hj).1]
    · intro j hj
      simp only [e2 j hj, (hs j hj).2.1]
    · intro j hj
      simp only [e1 j hj]
      exact div_pos (hs j hj).2.2.1 hm
    · intro j hj
      simp only [e1 j hj, e2 j hj]
      exact div_lt_div_of_pos_right (hs j hj).2.2.2.1 hm
    · intro j hj
      simp only
      rw [getD_zipWith _ 0 0 0 (by omega) (by omega), getD_zipWith _ 0 0 0 (by omega) (by omega),
        (hs j hj).2.2.2.2, (hs j hj).1, (hs j hj).2.1]
      unfold mulRow
      rw [getD_zipWith _ 0 0 0 (by omega) (by omega)]
    · have := not_any_iff.1 hneg
      simp only [decide_eq_false_iff_not, not_lt] at this
      intro j hj
      refine (forall_mem_iff_getD 0).1 this j ?_
      simp only [List.length_zipWith]
      omega

/-- column sums -/
theorem colSum_length {n : Nat} {rows : List (List K)} (h : ∀ r ∈ rows, r.length = n) :
    (colSum n rows).length = n := by
  unfold colSum
  induction rows with
  | nil => simp
  | cons r rs ih =>
    simp only [List.foldr_cons, List.length_zipWith]
    rw [ih (fun r hr => h r (by simp [hr])), h r (by simp)]
    simp

theorem colSum_getD {n : Nat} {rows : List (List K)} (h : ∀ r ∈ rows, r.length = n) {j : Nat}
    (hj : j < n) : (colSum n rows).getD j 0 = (rows.map (·.getD j 0)).sum := by
  induction rows with
  | nil => simp [colSum, hj]
  | cons r rs ih =>
    have hrs : ∀ r ∈ rs, r.length = n := fun r hr => h r (by simp [hr])
    have hl := colSum_length hrs
    have : colSum n (r :: rs) = List.zipWith (· + ·) r (colSum n rs) := rfl
    rw [this, getD_zipWith _ 0 0 0 (by rw [h r (by simp)]; exact hj) (by rw [hl]; exact hj), ih hrs]
    simp

theorem sum_map_div (l : List K) (c : K) : (l.map (· / c)).sum = l.sum / c := by
  induction l with
  | nil => simp
  | cons x l ih => simp [ih, add_div]

theorem mkDist_nonneg {num : Numerics K} (hl : num.Lawful) {g v : List K} {d : Dist K}
    (h : mkDist num g v = .ok d) (x : K) : 0 ≤ d.eval x := by
  unfold mkDist at h
  simp only at h
  split at h
  · next f gmin gmax hf _ _ =>
    simp only [Except.ok.injEq] at h
    subst h
    simp only
    split
    · exact hl.interp_nonneg hf x
    · exact le_refl _
  · simp at h

theorem regrid_spec {cfg : Cfg K} (hl : cfg.num.Lawful) {gm : Bins K} {n : Nat} (hg : gm.Len n)
    {p : Bins K × List K} (hp : p.2.length = n) (hnn : ∀ j, j < n → 0 ≤ p.2.getD j 0) {r : List K}
    (h : regrid cfg gm p = .ok r) :
    r.length = n ∧ (∀ j, j < n → 0 ≤ r.getD j 0) ∧ (p.1 = gm → r = p.2) := by
  unfold regrid at h
  split at h
  · simp only [Except.ok.injEq] at h
    subst h
    exact ⟨hp, hnn, fun _ => rfl⟩
  · next hc =>
    obtain ⟨d, hd, h⟩ := bind_ok_iff.1 h
    rw [pure_ok_iff] at h
    subst h
    refine ⟨by simp [hg.1], ?_, ?_⟩
    · intro j hj
      rw [getD_map' _ 0 0 (by rw [hg.1]; exact hj)]
      exact mkDist_nonneg hl hd _
    · intro e
      simp [e] at hc

/-- What one explicit update of all groups produces. -/
structure EvalOut (cfg : Cfg K) (n : Nat) (en : Bins K) (dens : List K) (sub : List (List K))
    (chg : List (Bins K)) (inj : List (List K)) (gm : Bins K) (total : List K)
    (sub' : List (List K)) : Prop where
  len : gm.Len n
  pos : ∀ j, j < n → 0 < gm.lb.getD j 0
  width : ∀ j, j < n → gm.lb.getD j 0 < gm.ub.getD j 0
  tlen : total.length = n
  tnn : ∀ x ∈ total, 0 ≤ x
  slen : sub'.length = sub.length
  rowlen : ∀ r ∈ sub', r.length = n
  subnn : (∀ r ∈ sub, ∀ x ∈ r, 0 ≤ x) → ∀ r ∈ sub', ∀ x ∈ r, 0 ≤ x
  subsum : (∀ j, j < n → (sub.map (·.getD j 0)).sum = 1) →
    ∀ j, j < n → (sub'.map (·.getD j 0)).sum = 1
  chgLen : sub.length ≤ chg.length
  injLen : sub.length ≤ inj.length
  subne : 0 < sub.length
  /-- the groups, and the densities they contribute on the common grid -/
  groups : ∃ (moved : List (Bins K × List K)) (newDens : List (List K)),
    moved.length = sub.length ∧ newDens.length = sub.length ∧
    (∀ k (h1 : k < sub.length) (h2 : k < chg.length) (h3 : k < inj.length) (h4 : k < moved.length),
      GroupOut cfg n en dens sub[k] chg[k] inj[k] moved[k]) ∧
    (∀ h : 0 < moved.length, moved[0].1 = gm) ∧
    (∀ k (h1 : k < moved.length) (h2 : k < newDens.length), moved[k].1 = gm → newDens[k] = moved[k].2) ∧
    (∀ r ∈ newDens, r.length = n) ∧
    (∀ j, j < n → total.getD j 0 = (newDens.map (·.getD j 0)).sum) ∧
    (∀ k (h1 : k < sub.length) (h2 : k < newDens.length) (h3 : k < sub'.length), ∀ j, j < n →
      sub'[k].getD j 0 = if total.getD j 0 ≠ 0 then newDens[k].getD j 0 / total.getD j 0
        else sub[k].getD j 0)

theorem applyTimeEval_spec {cfg : Cfg K} (hl : cfg.num.Lawful) (hm : 0 < cfg.mec2) {n : Nat}
    {en : Bins K} {dens : List K} {sub : List (List K)} {chg : List (Bins K)} {inj : List (List K)}
    (he : en.Len n) (hd : dens.length = n) (hs : ∀ r ∈ sub, r.length = n)
    (hc : ∀ b ∈ chg, b.Len n) (hi : ∀ r ∈ inj, r.length = n)
    {gm : Bins K} {total : List K} {sub' : List (List K)}
    (e : applyTimeEval cfg en dens sub chg inj = .ok (gm, total, sub')) :
    EvalOut cfg n en dens sub chg inj gm total sub' := by
  unfold applyTimeEval at e
  split at e
  · obtain ⟨_, h, _⟩ := bind_ok_iff.1 e
    exact absurd h (by simp [throw, throwThe, MonadExceptOf.throw])
  · next hlen =>
    simp only [Bool.or_eq_true, decide_eq_true_eq, not_or, not_lt] at hlen
    obtain ⟨-, -, e⟩ := bind_ok_iff.1 e
    obtain ⟨moved0, h0, e⟩ := bind_ok_iff.1 e
    obtain ⟨moved, h1, e⟩ := bind_ok_iff.1 e
    have hl0 : moved0.length = sub.length := by
      rw [mapM_ok_length h0, List.length_zip]; omega
    have hl1 : moved.length = sub.length := by
      rw [mapM_ok_length h1, List.length_zip]; omega
    have hgo : ∀ k (h1 : k < sub.length) (h2 : k < chg.length) (h3 : k < inj.length)
        (h4 : k < moved.length), GroupOut cfg n en dens sub[k] chg[k] inj[k] moved[k] := by
      intro k k1 k2 k3 k4
      have a := mapM_ok_getElem h0 k (by simp; omega) (by omega)
      have b := mapM_ok_getElem h1 k (by simp; omega) (by omega)
      simp only [List.getElem_zip] at a b
      exact group_spec hm he hd (hs _ (List.getElem_mem _)) (hc _ (List.getElem_mem _))
        (hi _ (List.getElem_mem _)) a b
    cases moved with
    | nil =>
      simp only at e
      exact absurd e (by simp [throw, throwThe, MonadExceptOf.throw])
    | cons first rest =>
      simp only at e
      obtain ⟨others, h2, e⟩ := bind_ok_iff.1 e
      rw [pure_ok_iff] at e
      simp only [Prod.mk.injEq] at e
      obtain ⟨rfl, rfl, rfl⟩ := e
      simp only [List.length_cons] at hl1
      have g0 := hgo 0 (by omega) (by omega) (by omega) (by simp)
      simp only [List.getElem_cons_zero] at g0
      have hol : others.length = rest.length := mapM_ok_length h2
      have hoth : ∀ k (k1 : k < rest.length) (k2 : k < others.length),
          others[k].length = n ∧ (∀ j, j < n → 0 ≤ others[k].getD j 0) ∧
          (rest[k].1 = first.1 → others[k] = rest[k].2) := by
        intro k k1 k2
        have a := mapM_ok_getElem h2 k k1 k2
        have g := hgo (k + 1) (by omega) (by omega) (by omega) (by simp; omega)
        simp only [List.getElem_cons_succ] at g
        exact regrid_spec hl g0.len g.dlen g.nonneg a
      have hND : ∀ r ∈ first.2 :: others, r.length = n ∧ ∀ j, j < n → 0 ≤ r.getD j 0 := by
        intro r hr
        rcases List.mem_cons.1 hr with rfl | hr
        · exact ⟨g0.dlen, g0.nonneg⟩
        · obtain ⟨k, hk, rfl⟩ := List.mem_iff_getElem.1 hr
          have := hoth k (by omega) hk
          exact ⟨this.1, this.2.1⟩
      rw [hd]
      set ND := first.2 :: others with hNDdef
      have hNDl : ND.length = sub.length := by simp [hNDdef]; omega
      have hcl := colSum_length (fun r hr => (hND r hr).1)
      have hcs : ∀ j, j < n → (colSum n ND).getD j 0 = (ND.map (·.getD j 0)).sum :=
        fun j hj => colSum_getD (fun r hr => (hND r hr).1) hj
      have hnfl : ∀ d o : List K, d.length = n → o.length = n →
          (newFraction (colSum n ND) d o).length = n := by
        intro d o h1 h2
        simp [newFraction, hcl, h1, h2]
      have hnf : ∀ d o : List K, d.length = n → o.length = n → ∀ j, j < n →
          (newFraction (colSum n ND) d o).getD j 0 = if (colSum n ND).getD j 0 ≠ 0
            then d.getD j 0 / (colSum n ND).getD j 0 else o.getD j 0 := by
        intro d o h1 h2 j hj
        unfold newFraction
        rw [getD_zipWith _ 0 (0, 0) 0 (by omega) (by simp; omega)]
        have : (List.zip d o).getD j (0, 0) = (d.getD j 0, o.getD j 0) := by
          rw [List.getD_eq_getElem _ _ (by simp; omega), List.getElem_zip,
            List.getD_eq_getElem _ _ (by omega), List.getD_eq_getElem _ _ (by omega)]
        rw [this]
      have hsub : ∀ k (h1 : k < sub.length) (h2 : k < ND.length)
          (h3 : k < ((List.zip ND sub).map fun p => newFraction (colSum n ND) p.1 p.2).length),
          ∀ j, j < n →
          ((List.zip ND sub).map fun p => newFraction (colSum n ND) p.1 p.2)[k].getD j 0
            = if (colSum n ND).getD j 0 ≠ 0 then ND[k].getD j 0 / (colSum n ND).getD j 0
              else sub[k].getD j 0 := by
        intro k k1 k2 k3 j hj
        rw [List.getElem_map, List.getElem_zip]
        exact hnf _ _ (hND _ (List.getElem_mem _)).1 (hs _ (List.getElem_mem _)) j hj
      have tnn : ∀ j, j < n → 0 ≤ (colSum n ND).getD j 0 := by
        intro j hj
        rw [hcs j hj]
        apply List.sum_nonneg
        intro x hx
        obtain ⟨r, hr, rfl⟩ := List.mem_map.1 hx
        exact (hND r hr).2 j hj
      refine ⟨g0.len, g0.pos, g0.width, hcl, ?_, by simp [hNDl], ?_, ?_, ?_, hlen.1, hlen.2, by omega, ?_⟩
      · rw [forall_mem_iff_getD 0, hcl]; exact tnn
      · intro r hr
        obtain ⟨p, hp, rfl⟩ := List.mem_map.1 hr
        have := List.of_mem_zip hp
        exact hnfl _ _ (hND _ this.1).1 (hs _ this.2)
      · intro hnn r hr
        obtain ⟨p, hp, rfl⟩ := List.mem_map.1 hr
        have hz := List.of_mem_zip hp
        have l1 := (hND _ hz.1).1
        have l2 := hs _ hz.2
        rw [forall_mem_iff_getD 0, hnfl _ _ l1 l2]
        intro j hj
        rw [hnf _ _ l1 l2 j hj]
        split
        · exact div_nonneg ((hND _ hz.1).2 j hj) (tnn j hj)
        · exact (forall_mem_iff_getD 0).1 (hnn _ hz.2) j (by omega)
      · intro hsum j hj
        have : ((List.zip ND sub).map fun p => newFraction (colSum n ND) p.1 p.2).map (·.getD j 0)
            = if (colSum n ND).getD j 0 ≠ 0
              then (ND.map (·.getD j 0)).map (· / (colSum n ND).getD j 0)
              else sub.map (·.getD j 0) := by
          split
          · next h =>
            apply List.ext_getElem
            · simp [hNDl]
            · intro k k1 k2
              simp only [List.length_map, List.length_zip] at k1 k2
              have := hsub k (by omega) (by omega) (by simp; omega) j hj
              rw [List.getElem_map, this, if_pos h, List.getElem_map, List.getElem_map]
          · next h =>
            apply List.ext_getElem
            · simp [hNDl]
            · intro k k1 k2
              simp only [List.length_map, List.length_zip] at k1 k2
              have := hsub k (by omega) (by omega) (by simp; omega) j hj
              rw [List.getElem_map, this, if_neg h, List.getElem_map]
        rw [this]
        split
        · next h =>
          rw [sum_map_div, ← hcs j hj]
          simpa using div_self h
        · exact hsum j hj
      · refine ⟨first :: rest, ND, by simpa using hl1, hNDl, hgo, fun _ => rfl, ?_, fun r hr => (hND r hr).1,
          hcs, hsub⟩
        intro k k1 k2
        cases k with
        | zero => intro _; rfl
        | succ k =>
          simp only [hNDdef, List.getElem_cons_succ]
          simp only [List.length_cons] at k1
          exact (hoth k (by omega) (by omega)).2.2

theorem updateDistribution_nonneg {num : Numerics K} (hl : num.Lawful) {b : Bins K} {dens : List K}
    {d : Dist K} (h : updateDistribution num b dens = .ok d) (x : K) : 0 ≤ d.eval x := by
  unfold updateDistribution at h
  obtain ⟨⟨b1, d1, m⟩, -, h⟩ := bind_ok_iff.1 h
  simp only at h
  split at h
  · rw [pure_ok_iff] at h
    subst h
    exact le_refl _
  · split at h
    · exact absurd h (by simp [throw, throwThe, MonadExceptOf.throw])
    · exact mkDist_nonneg hl h x

end Verif.TE
