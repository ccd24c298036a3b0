import Mathlib.Tactic.Linarith
import Mathlib.Tactic.Ring
import Mathlib.Tactic.Positivity
import Verif.Model.RandomVertices
import Verif.Spec.RandomVertices
import Verif.Lemmas.Vertex

set_option linter.unusedSectionVars false

/-!
# Lemmas for generated vertices
-/

namespace Verif.Lemmas

open Verif.Spec

theorem drawPosition_length (u : ℕ → ℝ) (lo hi : List ℝ) (h : lo.length = hi.length) (k : ℕ) :
    (Vertex.drawPosition u k lo hi).length = lo.length := by
  induction lo generalizing hi k with
  | nil => cases hi <;> rfl
  | cons a lo ih =>
    cases hi with
    | nil => simp at h
    | cons b hi =>
      simp only [Vertex.drawPosition, List.length_cons]
      rw [ih hi (by simpa using h)]

theorem drawPosition_inBox (u : ℕ → ℝ) (hu : Canonical u) (lo hi : List ℝ) (h : List.Forall₂ (· ≤ ·) lo hi) (k : ℕ) :
    InBox lo hi (Vertex.drawPosition u k lo hi) := by
  induction h generalizing k with
  | nil => exact ⟨List.Forall₂.nil, List.Forall₂.nil⟩
  | @cons a b lo hi hab _ ih =>
    obtain ⟨h0, h1⟩ := hu k
    have hd : 0 ≤ b - a := sub_nonneg.mpr hab
    refine ⟨List.Forall₂.cons ?_ (ih (k + 1)).1, List.Forall₂.cons ?_ (ih (k + 1)).2⟩
    · have := mul_nonneg h0 hd; linarith
    · have := mul_le_mul_of_nonneg_right h1.le hd; linarith

theorem vnorm_pointDistance (p q : List ℝ) : vnorm (List.zipWith (· - ·) q p) = pointDistance p q := by
  unfold vnorm pointDistance
  congr 2
  induction p generalizing q with
  | nil => cases q <;> rfl
  | cons a p ih =>
    cases q with
    | nil => rfl
    | cons b q =>
      simp only [List.zipWith_cons_cons, List.map_cons]
      rw [ih q]
      congr 1
      ring

/-- Two points of a box are at most its diagonal apart. -/
theorem sq_sum_le_diag (lo hi p q : List ℝ) (hp : InBox lo hi p) (hq : InBox lo hi q) :
    (List.zipWith (fun a b => (a - b) ^ 2) p q).sum ≤ ((List.zipWith (· - ·) hi lo).map (· ^ 2)).sum := by
  induction lo generalizing hi p q with
  | nil =>
    obtain ⟨h1, h2⟩ := hp
    cases h1; cases h2; simp
  | cons a lo ih =>
    obtain ⟨h1, h2⟩ := hp
    obtain ⟨h3, h4⟩ := hq
    cases h1 with
    | cons ha h1 =>
    cases h2 with
    | cons hb h2 =>
    cases h3 with
    | cons hc h3 =>
    cases h4 with
    | cons hd h4 =>
      simp only [List.zipWith_cons_cons, List.sum_cons, List.map_cons]
      refine add_le_add ?_ (ih _ _ _ ⟨h1, h2⟩ ⟨h3, h4⟩)
      apply sq_le_sq'
      · linarith
      · linarith

theorem pointDistance_le_diag (lo hi p q : List ℝ) (hp : InBox lo hi p) (hq : InBox lo hi q) :
    pointDistance p q ≤ pointDistance lo hi := by
  rw [← vnorm_pointDistance lo hi]
  exact Real.sqrt_le_sqrt (sq_sum_le_diag lo hi p q hp hq)

/-- A drawn position that is at least the fraction `r` of each side away from the last one. -/
theorem fraction_sum_le (u : ℕ → ℝ) (r : ℝ) (hr : 0 ≤ r) (lo hi last : List ℝ) (m : ℕ)
    (hlh : List.Forall₂ (· ≤ ·) lo hi) (hl : last.length = lo.length)
    (h : ∀ d < lo.length, r * (hi.getD d 0 - lo.getD d 0) ≤
      |u (m + d) * (hi.getD d 0 - lo.getD d 0) + lo.getD d 0 - last.getD d 0|) :
    r ^ 2 * ((List.zipWith (· - ·) hi lo).map (· ^ 2)).sum ≤
      ((List.zipWith (· - ·) (Vertex.drawPosition u m lo hi) last).map (· ^ 2)).sum := by
  induction hlh generalizing last m with
  | nil => cases last <;> simp [Vertex.drawPosition]
  | @cons a b lo hi hab _ ih =>
    cases last with
    | nil => simp at hl
    | cons x last =>
      simp only [Vertex.drawPosition, List.zipWith_cons_cons, List.map_cons, List.sum_cons]
      have h0 := h 0 (by simp)
      simp only [List.getD_cons_zero, Nat.add_zero] at h0
      have h1 : r ^ 2 * (b - a) ^ 2 ≤ (u m * (b - a) + a - x) ^ 2 := by
        rw [← mul_pow, ← sq_abs (u m * (b - a) + a - x)]
        exact pow_le_pow_left₀ (mul_nonneg hr (sub_nonneg.mpr hab)) h0 2
      have h2 := ih last (m + 1) (by simpa using hl) (fun d hd => by
        have := h (d + 1) (by simpa using hd)
        simp only [List.getD_cons_succ] at this
        rw [Nat.add_assoc, Nat.add_comm 1 d]
        exact this)
      rw [mul_add]
      exact add_le_add h1 h2

theorem forall₂_getD_le (lo hi : List ℝ) (h : List.Forall₂ (· ≤ ·) lo hi) (d : ℕ) : lo.getD d 0 ≤ hi.getD d 0 := by
  induction h generalizing d with
  | nil => simp
  | cons hab _ ih =>
    cases d with
    | zero => simpa using hab
    | succ d => simpa using ih d

/-- In a box with a diagonal above 0.4 some attempt succeeds. -/
theorem exists_far (u : ℕ → ℝ) (lo hi last : List ℝ) (hlh : List.Forall₂ (· ≤ ·) lo hi) (hlast : InBox lo hi last)
    (hd : 2 / 5 < pointDistance lo hi) (hc : ReachesCorners lo.length u) (k : ℕ) :
    ∃ j, Vertex.farFrom last (Vertex.drawPosition u (k + j * lo.length) lo hi) := by
  set D := pointDistance lo hi with hD
  set ε := (1 / 2 - 1 / (5 * D)) / 2 with hε
  have hDpos : 0 < D := by linarith
  have hq : 1 / (5 * D) < 1 / 2 := by
    rw [div_lt_div_iff₀ (by linarith) (by norm_num)]; linarith
  have hεpos : 0 < ε := by rw [hε]; linarith
  obtain ⟨j, hj⟩ := hc k (fun d => decide (last.getD d 0 ≤ (lo.getD d 0 + hi.getD d 0) / 2)) ε hεpos
  refine ⟨j, ?_⟩
  have hq0 : 0 ≤ 1 / (5 * D) := by positivity
  have hr : 0 ≤ 1 / 2 - ε := by rw [hε]; linarith
  have hlen : last.length = lo.length := hlast.1.length_eq.symm
  have key := fraction_sum_le u (1 / 2 - ε) hr lo hi last (k + j * lo.length) hlh hlen (fun d hdl => by
    have hb := hj d hdl
    have hs := forall₂_getD_le lo hi hlh d
    set a := lo.getD d 0
    set b := hi.getD d 0
    set x := last.getD d 0
    set w := u (k + j * lo.length + d)
    have hba : 0 ≤ b - a := sub_nonneg.mpr hs
    by_cases hx : x ≤ (a + b) / 2
    · simp only [hx, decide_true, if_true] at hb
      have h1 := (abs_lt.mp hb).1
      have h2 : (1 - ε) * (b - a) ≤ w * (b - a) := mul_le_mul_of_nonneg_right (by linarith) hba
      refine le_trans ?_ (le_abs_self _)
      nlinarith
    · simp only [hx, decide_false, if_false, Bool.false_eq_true] at hb
      have h1 := (abs_lt.mp hb).2
      have h2 : w * (b - a) ≤ ε * (b - a) := mul_le_mul_of_nonneg_right (by linarith) hba
      refine le_trans ?_ (neg_le_abs _)
      push Not at hx
      nlinarith)
  unfold Vertex.farFrom
  have h3 : (1 / 2 - ε) * D ≤ vnorm (List.zipWith (· - ·) (Vertex.drawPosition u (k + j * lo.length) lo hi) last) := by
    rw [hD, ← vnorm_pointDistance lo hi]
    unfold vnorm
    refine le_trans (le_of_eq ?_) (Real.sqrt_le_sqrt key)
    rw [Real.sqrt_mul (sq_nonneg _), Real.sqrt_sq hr]
  refine lt_of_lt_of_le ?_ h3
  have h4 : 1 / (5 * D) * D = 1 / 5 := by field_simp
  have h5 : (1 / 2 - ε) * D = D / 4 + 1 / (5 * D) * D / 2 := by rw [hε]; ring
  rw [h5, h4]; linarith

theorem nextPosition_ok (u : ℕ → ℝ) (lo hi : List ℝ) (k : ℕ) (last : List ℝ) (x : List ℝ × ℕ)
    (h : Vertex.nextPosition u lo hi k last = .ok x) :
    (∃ m, x.1 = Vertex.drawPosition u m lo hi) ∧ 1 / 5 < pointDistance last x.1 := by
  unfold Vertex.nextPosition at h
  split at h
  · rename_i he
    classical
    rw [← Except.ok.inj h]
    refine ⟨⟨_, rfl⟩, ?_⟩
    rw [← vnorm_pointDistance]
    exact Nat.find_spec he
  · cases h

theorem nextPosition_hang (u : ℕ → ℝ) (hu : Canonical u) (lo hi : List ℝ) (hlh : List.Forall₂ (· ≤ ·) lo hi) (k : ℕ)
    (last : List ℝ) (h : ∀ p, InBox lo hi p → pointDistance last p ≤ 1 / 5) :
    Vertex.nextPosition u lo hi k last = .error .hang := by
  unfold Vertex.nextPosition
  rw [dif_neg]
  rintro ⟨j, hj⟩
  unfold Vertex.farFrom at hj
  rw [vnorm_pointDistance] at hj
  exact absurd hj (not_lt.mpr (h _ (drawPosition_inBox u hu lo hi hlh _)))

theorem addPosition_ok (D : ℕ) (p : List ℝ) (h : p.length = D) :
    ∃ v, (Vertex.mk' D : Vertex ℝ).addConstraint 0 p = .ok v ∧ v.D = D ∧ WellFormed v ∧ v.getConstraint = passes p := by
  obtain ⟨v, h1, h2, h3, h4⟩ := addConstraint_ok (Vertex.mk' D : Vertex ℝ) 0 p (wellFormed_mk' D) h
  exact ⟨v, h1, h2, h3, funext fun j => by rw [h4 j]; rfl⟩

/-- The vertices that the loop appends, with the points they go through. -/
theorem randomLoop_ok (u : ℕ → ℝ) (lo hi : List ℝ) (hlen : lo.length = hi.length) (n k : ℕ) (last : List ℝ)
    (x : List (Vertex ℝ) × List ℝ) (h : Vertex.randomLoop u lo hi n k last = .ok x) :
    ∃ ps : List (List ℝ), ps.length = n ∧ (∀ p ∈ ps, ∃ m, p = Vertex.drawPosition u m lo hi) ∧
      (last :: ps).IsChain (fun p q => 1 / 5 < pointDistance p q) ∧ (last :: ps).getLast? = some x.2 ∧
      List.Forall₂ (fun v p => v.D = lo.length ∧ WellFormed v ∧ v.getConstraint = passes p) x.1 ps := by
  induction n generalizing k last x with
  | zero =>
    rw [← Except.ok.inj h]
    exact ⟨[], rfl, by simp, by simp, rfl, List.Forall₂.nil⟩
  | succ n ih =>
    unfold Vertex.randomLoop at h
    cases hn : Vertex.nextPosition u lo hi k last with
    | error e => rw [hn] at h; cases h
    | ok y =>
      rw [hn] at h
      obtain ⟨⟨m, hm⟩, hfar⟩ := nextPosition_ok u lo hi k last y hn
      have hyl : y.1.length = lo.length := by rw [hm]; exact drawPosition_length u lo hi hlen m
      obtain ⟨v, h1, h2, h3, h4⟩ := addPosition_ok lo.length y.1 hyl
      cases hr : Vertex.randomLoop u lo hi n y.2 y.1 with
      | error e =>
        simp only [bind, Except.bind, h1, hr] at h
        cases h
      | ok z =>
        simp only [bind, Except.bind, h1, hr, pure, Except.pure] at h
        obtain ⟨ps, g1, g2, g3, g4, g5⟩ := ih y.2 y.1 z hr
        rw [← Except.ok.inj h]
        refine ⟨y.1 :: ps, by simp [g1], ?_, ?_, ?_, List.Forall₂.cons ⟨h2, h3, h4⟩ g5⟩
        · intro p hp
          rcases List.mem_cons.mp hp with rfl | hp
          · exact ⟨m, hm⟩
          · exact g2 p hp
        · exact List.IsChain.cons_cons hfar g3
        · rw [List.getLast?_cons_cons]; exact g4

theorem randomLoop_total (u : ℕ → ℝ) (hu : Canonical u) (lo hi : List ℝ) (hlh : List.Forall₂ (· ≤ ·) lo hi)
    (hd : 2 / 5 < pointDistance lo hi) (hc : ReachesCorners lo.length u) (n k : ℕ) (last : List ℝ) (hl : InBox lo hi last) :
    ∃ x, Vertex.randomLoop u lo hi n k last = .ok x := by
  induction n generalizing k last with
  | zero => exact ⟨_, rfl⟩
  | succ n ih =>
    have he := exists_far u lo hi last hlh hl hd hc k
    obtain ⟨y, hy⟩ : ∃ y, Vertex.nextPosition u lo hi k last = .ok y := by
      unfold Vertex.nextPosition
      rw [dif_pos he]
      exact ⟨_, rfl⟩
    obtain ⟨⟨m, hm⟩, _⟩ := nextPosition_ok u lo hi k last y hy
    have hyl : y.1.length = lo.length := by rw [hm]; exact drawPosition_length u lo hi hlh.length_eq m
    obtain ⟨v, h1, _⟩ := addPosition_ok lo.length y.1 hyl
    obtain ⟨z, hz⟩ := ih y.2 y.1 (by rw [hm]; exact drawPosition_inBox u hu lo hi hlh m)
    unfold Vertex.randomLoop
    simp only [hy, bind, Except.bind, h1, hz]
    exact ⟨_, rfl⟩

/-! ## Routes with both ends at rest -/

section Ends
variable {K : Type*} [Field K]

/-- A vertex that holds exactly the constraints `m`. -/
def Holds (D : ℕ) (m : Int → Option (List K)) (v : Vertex K) : Prop := v.D = D ∧ WellFormed v ∧ v.getConstraint = m

theorem Holds.represents {D : ℕ} {m : Int → Option (List K)} {v : Vertex K} (h : Holds D m v) : Represents v m := by
  have := represents_getConstraint v h.2.1
  rw [h.2.2] at this
  exact this

theorem position_holds (D : ℕ) (p : List K) (h : p.length = D) :
    ∃ v, (Vertex.mk' D : Vertex K).addConstraint 0 p = .ok v ∧ Holds D (passes p) v := by
  obtain ⟨v, h1, h2, h3, h4⟩ := addConstraint_ok (Vertex.mk' D : Vertex K) 0 p (wellFormed_mk' D) h
  exact ⟨v, h1, h2, h3, funext fun j => by rw [h4 j]; rfl⟩

theorem rest_of_new (D : ℕ) (n : Int) (p : List K) (h : p.length = D) :
    ∃ v, (Vertex.mk' D : Vertex K).makeStartOrEnd p n = .ok v ∧ Holds D (rests n p) v := by
  obtain ⟨v, h1, h2, h3, h4⟩ := makeStartOrEnd_ok (Vertex.mk' D : Vertex K) p n (wellFormed_mk' D) h
  refine ⟨v, h1, h2, h3, funext fun j => ?_⟩
  rw [h4 j, rests, h]; rfl

theorem rest_of_passing (D : ℕ) (n : Int) (p : List K) (h : p.length = D) (v : Vertex K) (hv : Holds D (passes p) v) :
    ∃ w, v.makeStartOrEnd p n = .ok w ∧ Holds D (rests n p) w := by
  obtain ⟨w, h1, h2, h3, h4⟩ := makeStartOrEnd_ok v p n hv.2.1 (h.trans hv.1.symm)
  refine ⟨w, h1, h2.trans hv.1, h3, funext fun j => ?_⟩
  rw [h4 j, hv.2.2, hv.1, rests, h]
  by_cases h0 : j = 0
  · rw [if_pos h0, if_pos h0]
  · rw [if_neg h0, if_neg h0, passes, if_neg h0]

theorem rest_of_rest (D : ℕ) (n : Int) (p : List K) (h : p.length = D) (v : Vertex K) (hv : Holds D (rests n p) v) :
    ∃ w, v.makeStartOrEnd p n = .ok w ∧ Holds D (rests n p) w := by
  obtain ⟨w, h1, h2, h3, h4⟩ := makeStartOrEnd_ok v p n hv.2.1 (h.trans hv.1.symm)
  refine ⟨w, h1, h2.trans hv.1, h3, funext fun j => ?_⟩
  rw [h4 j, hv.2.2, hv.1, rests, h]
  by_cases h0 : j = 0
  · rw [if_pos h0, if_pos h0]
  · rw [if_neg h0, if_neg h0]
    by_cases h1 : 1 ≤ j ∧ j ≤ n
    · rw [if_pos h1, if_pos h1]
    · rw [if_neg h1, if_neg h1]

theorem goesThrough_ends (D : ℕ) (n : Int) (p q : List K) (ps : List (List K)) (v w : Vertex K) (vs : List (Vertex K))
    (hp : p.length = D) (hq : q.length = D) (hv : Holds D (rests n p) v) (hw : Holds D (rests n q) w)
    (hm : List.Forall₂ (fun v p => p.length = D ∧ Holds D (passes p) v) vs ps) :
    GoesThrough D n (p :: (ps ++ [q])) (v :: (vs ++ [w])) := by
  have hl := hm.length_eq
  refine ⟨by simp [hl], fun i a b ha hb => ?_⟩
  cases i with
  | zero =>
    simp only [List.getElem?_cons_zero, Option.some.injEq] at ha hb
    subst ha; subst hb
    rw [if_pos (Or.inl rfl)]
    exact ⟨hv.1, hp, hv.represents⟩
  | succ i =>
    simp only [List.getElem?_cons_succ] at ha hb
    simp only [List.length_cons, List.length_append, List.length_nil]
    by_cases hi : i < ps.length
    · rw [List.getElem?_append_left hi] at ha
      rw [List.getElem?_append_left (by omega)] at hb
      rw [if_neg (by omega)]
      obtain ⟨h1, rfl⟩ := List.getElem?_eq_some_iff.mp ha
      obtain ⟨h2, rfl⟩ := List.getElem?_eq_some_iff.mp hb
      have := (List.forall₂_iff_get.mp hm).2 i h2 h1
      exact ⟨this.2.1, this.1, this.2.represents⟩
    · rw [List.getElem?_append_right (by omega)] at ha hb
      have hi' : i = ps.length := by
        obtain ⟨h1, _⟩ := List.getElem?_eq_some_iff.mp ha
        simp at h1; omega
      subst hi'
      rw [← hl] at hb ha
      simp only [Nat.sub_self, List.getElem?_cons_zero, Option.some.injEq] at ha hb
      subst ha; subst hb
      rw [if_pos (Or.inr (by omega))]
      exact ⟨hw.1, hq, hw.represents⟩

end Ends

theorem forall₂_snoc {α β : Type*} (R : α → β → Prop) (as : List α) (bs : List β) (h : List.Forall₂ R as bs) (hne : bs ≠ []) :
    ∃ as' a bs' b, as = as' ++ [a] ∧ bs = bs' ++ [b] ∧ List.Forall₂ R as' bs' ∧ R a b := by
  rcases List.eq_nil_or_concat bs with rfl | ⟨bs', b, rfl⟩
  · exact absurd rfl hne
  · rw [List.concat_eq_append] at h ⊢
    have h1 := List.forall₂_take_append as bs' [b] h
    have h2 := List.forall₂_drop_append as bs' [b] h
    have he := (List.take_append_drop bs'.length as).symm
    cases hd : as.drop bs'.length with
    | nil => rw [hd] at h2; cases h2
    | cons a r =>
      rw [hd] at h2 he
      cases h2 with
      | cons hab hr =>
        cases hr
        exact ⟨_, a, bs', b, he, rfl, h1, hab⟩

end Verif.Lemmas
