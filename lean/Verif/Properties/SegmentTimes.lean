import Mathlib.Tactic.Linarith
import Mathlib.Tactic.Ring
import Mathlib.Tactic.Positivity
import Mathlib.Tactic.NormNum
import Verif.Lemmas.Vertex

/-!
# Property C21: estimated segment times
-/

namespace Verif.Properties

open Spec

/-- Euclidean distance of two points given as coordinate lists. -/
noncomputable def distance (p q : List ℝ) : ℝ := Real.sqrt ((List.zipWith (fun a b => (a - b) ^ 2) p q).sum)

/-- The vertex is constrained to a velocity of norm below 10⁻⁶. -/
def AtRest (v : Vertex ℝ) : Prop := ∃ u, v.getConstraint 1 = some u ∧ Real.sqrt ((u.map (· ^ 2)).sum) < 1 / 10 ^ 6

open Classical in
/-- Distance over speed, plus the time to reach the speed if one of the ends is at rest. -/
noncomputable def estimate (v w : Vertex ℝ) (p q : List ℝ) (vMax aMax : ℝ) : ℝ :=
  distance p q / vMax + if AtRest v ∨ AtRest w then vMax / aMax else 0

theorem vnorm_vsub (p q : List ℝ) : vnorm (List.zipWith (· - ·) p q) = distance p q := by
  simp [vnorm, distance, List.map_zipWith]

theorem distance_comm (p q : List ℝ) : distance p q = distance q p := by
  unfold distance
  rw [List.zipWith_comm]
  simp only [sub_sq_comm]

theorem distance_nonneg (p q : List ℝ) : 0 ≤ distance p q := Real.sqrt_nonneg _

theorem distance_eq_zero_iff (p q : List ℝ) (h : p.length = q.length) : distance p q = 0 ↔ p = q := by
  unfold distance
  have nn : ∀ (p q : List ℝ), 0 ≤ (List.zipWith (fun a b => (a - b) ^ 2) p q).sum := by
    intro p
    induction p with
    | nil => simp
    | cons x p ih =>
      intro q
      cases q with
      | nil => simp
      | cons y q => simp only [List.zipWith_cons_cons, List.sum_cons]; have := ih q; positivity
  rw [Real.sqrt_eq_zero (nn p q)]
  induction p generalizing q with
  | nil => cases q <;> simp_all
  | cons x p ih =>
    cases q with
    | nil => simp at h
    | cons y q =>
      simp only [List.zipWith_cons_cons, List.sum_cons, List.cons.injEq]
      have hi := ih q (by simpa using h)
      rw [add_eq_zero_iff_of_nonneg (by positivity) (nn p q)]
      refine and_congr ?_ hi
      simp [sub_eq_zero]

theorem distance_translate (p q o : List ℝ) (hp : p.length = o.length) (hq : q.length = o.length) :
    distance (List.zipWith (· + ·) p o) (List.zipWith (· + ·) q o) = distance p q := by
  unfold distance
  congr 2
  induction o generalizing p q with
  | nil => cases p <;> cases q <;> simp_all
  | cons z o ih =>
    cases p with
    | nil => simp at hp
    | cons x p =>
      cases q with
      | nil => simp at hq
      | cons y q =>
        simp only [List.zipWith_cons_cons]
        rw [ih p q (by simpa using hp) (by simpa using hq)]
        congr 1
        ring

theorem nfabianTime_eq (v w : Vertex ℝ) (p q : List ℝ) (vMax aMax : ℝ) (hv : v.getConstraint 0 = some p)
    (hw : w.getConstraint 0 = some q) (hl : p.length = q.length) (hV : 0 < vMax) (hA : 0 < aMax) :
    nfabianTime v w vMax aMax = .ok (estimate v w p q vMax aMax) := by
  unfold nfabianTime
  have hsub : vsub q p = .ok (List.zipWith (· - ·) q p) := by rw [vsub, if_pos hl.symm]
  have r : ∀ u : Vertex ℝ, slowEnd u = true ↔ AtRest u := by
    intro u
    unfold AtRest slowEnd
    cases h : u.getConstraint 1 with
    | none => simp
    | some x => simp [vnorm]
  simp only [hv, hw, Option.getD_some, hsub, bind, Except.bind]
  rw [if_neg hV.ne', vnorm_vsub, distance_comm]
  unfold estimate
  by_cases h : AtRest v ∨ AtRest w
  · rw [if_pos h, if_pos, if_neg hA.ne']
    · rfl
    · rw [Bool.or_eq_true, r v, r w]; exact h
  · rw [if_neg h, if_neg]
    · simp [pure, Except.pure]
    · rw [Bool.or_eq_true, r v, r w]; exact h

theorem nfabianLoop_spec (vMax aMax : ℝ) (hV : 0 < vMax) (hA : 0 < aMax) (D : ℕ) (vs : List (Vertex ℝ))
    (hpos : ∀ v ∈ vs, ∃ p, v.getConstraint 0 = some p ∧ p.length = D) :
    ∃ ts, nfabianLoop vMax aMax vs = .ok ts ∧ ts.length = vs.length - 1 ∧
      ∀ (i : ℕ) (v w : Vertex ℝ) (p q : List ℝ), vs[i]? = some v → vs[i + 1]? = some w → v.getConstraint 0 = some p →
        w.getConstraint 0 = some q → ts[i]? = some (estimate v w p q vMax aMax) := by
  induction vs with
  | nil => exact ⟨[], rfl, rfl, by simp⟩
  | cons v vs ih =>
    cases vs with
    | nil => exact ⟨[], rfl, rfl, by simp⟩
    | cons w vs =>
      obtain ⟨ts, h1, h2, h3⟩ := ih (fun x hx => hpos x (by simp [hx]))
      obtain ⟨p, hp, hpl⟩ := hpos v (by simp)
      obtain ⟨q, hq, hql⟩ := hpos w (by simp)
      have ht := nfabianTime_eq v w p q vMax aMax hp hq (by rw [hpl, hql]) hV hA
      refine ⟨estimate v w p q vMax aMax :: ts, ?_, by simp [h2], ?_⟩
      · unfold nfabianLoop
        rw [ht, h1]; rfl
      · intro i a b pa pb ha hb hpa hpb
        cases i with
        | zero =>
          simp at ha hb
          subst ha hb
          rw [hp] at hpa; rw [hq] at hpb
          cases hpa; cases hpb
          rfl
        | succ i => simpa using h3 i a b pa pb (by simpa using ha) (by simpa using hb) hpa hpb

/-- C21: for at least two vertices with position constraints of a common dimension and positive limits, there is one time per pair of
consecutive vertices: distance over speed, plus speed over acceleration if one end is at rest. -/
theorem C21_estimateSegmentTimes (vMax aMax : ℝ) (hV : 0 < vMax) (hA : 0 < aMax) (D : ℕ) (vs : List (Vertex ℝ)) (hn : 2 ≤ vs.length)
    (hpos : ∀ v ∈ vs, ∃ p, v.getConstraint 0 = some p ∧ p.length = D) :
    ∃ ts, estimateSegmentTimes vs vMax aMax = .ok ts ∧ ts.length = vs.length - 1 ∧
      ∀ (i : ℕ) (v w : Vertex ℝ) (p q : List ℝ), vs[i]? = some v → vs[i + 1]? = some w → v.getConstraint 0 = some p →
        w.getConstraint 0 = some q → ts[i]? = some (estimate v w p q vMax aMax) := by
  unfold estimateSegmentTimes
  rw [if_neg (by omega)]
  exact nfabianLoop_spec vMax aMax hV hA D vs hpos

/-- C21: fewer than two vertices abort. -/
theorem C21_too_few (vMax aMax : ℝ) (vs : List (Vertex ℝ)) (h : vs.length < 2) :
    estimateSegmentTimes vs vMax aMax = .error .check := by
  unfold estimateSegmentTimes; rw [if_pos h]

/-- C21: an estimate is never below distance over speed, never negative, and zero exactly when the positions coincide and neither end
is at rest. -/
theorem C21_estimate_bounds (v w : Vertex ℝ) (p q : List ℝ) (hl : p.length = q.length) (vMax aMax : ℝ) (hV : 0 < vMax) (hA : 0 < aMax) :
    distance p q / vMax ≤ estimate v w p q vMax aMax ∧ 0 ≤ estimate v w p q vMax aMax ∧
    (estimate v w p q vMax aMax = 0 ↔ p = q ∧ ¬ (AtRest v ∨ AtRest w)) := by
  have hd : 0 ≤ distance p q / vMax := div_nonneg (distance_nonneg p q) hV.le
  have ha : 0 < vMax / aMax := by positivity
  unfold estimate
  by_cases h : AtRest v ∨ AtRest w
  · rw [if_pos h]
    refine ⟨by linarith, by linarith, ?_⟩
    constructor
    · intro e; linarith
    · rintro ⟨_, h'⟩; exact absurd h h'
  · rw [if_neg h]
    refine ⟨by linarith, by linarith, ?_⟩
    rw [add_zero, div_eq_zero_iff, or_iff_left hV.ne', distance_eq_zero_iff p q hl]
    simp [h]

/-- C21: reversing the vertex list reverses the times. -/
theorem C21_reverse (vMax aMax : ℝ) (hV : 0 < vMax) (hA : 0 < aMax) (D : ℕ) (vs : List (Vertex ℝ)) (hn : 2 ≤ vs.length)
    (hpos : ∀ v ∈ vs, ∃ p, v.getConstraint 0 = some p ∧ p.length = D) (ts : List ℝ)
    (h : estimateSegmentTimes vs vMax aMax = .ok ts) : estimateSegmentTimes vs.reverse vMax aMax = .ok ts.reverse := by
  obtain ⟨ts1, a1, a2, a3⟩ := C21_estimateSegmentTimes vMax aMax hV hA D vs hn hpos
  obtain ⟨ts2, b1, b2, b3⟩ := C21_estimateSegmentTimes vMax aMax hV hA D vs.reverse (by simpa using hn)
    (fun v hv => hpos v (by simpa using hv))
  rw [h] at a1
  have e1 := Except.ok.inj a1
  subst e1
  rw [b1]
  congr 1
  have hl1 : ts.length = vs.length - 1 := a2
  have hl2 : ts2.length = vs.length - 1 := by rw [b2]; simp
  apply List.ext_getElem?
  intro i
  by_cases hi : i < vs.length - 1
  · rw [List.getElem?_reverse (by omega)]
    obtain ⟨p, hp, _⟩ := hpos (vs[vs.length - 1 - i]'(by omega)) (List.getElem_mem _)
    obtain ⟨q, hq, _⟩ := hpos (vs[vs.length - 2 - i]'(by omega)) (List.getElem_mem _)
    have c1 : vs[vs.length - 1 - i]? = some (vs[vs.length - 1 - i]'(by omega)) := List.getElem?_eq_getElem _
    have c2 : vs[vs.length - 2 - i]? = some (vs[vs.length - 2 - i]'(by omega)) := List.getElem?_eq_getElem _
    rw [b3 i _ _ p q (by rw [List.getElem?_reverse (by omega)]; exact c1)
      (by rw [List.getElem?_reverse (by omega), show vs.length - 1 - (i + 1) = vs.length - 2 - i by omega]; exact c2) hp hq]
    rw [show ts.length - 1 - i = vs.length - 2 - i by omega]
    rw [a3 (vs.length - 2 - i) _ _ q p c2
      (by rw [show vs.length - 2 - i + 1 = vs.length - 1 - i by omega]; exact c1) hq hp]
    congr 1
    unfold estimate
    rw [distance_comm]
    congr 1
    by_cases h1 : AtRest vs[vs.length - 1 - i] <;> by_cases h2 : AtRest vs[vs.length - 2 - i] <;> simp [h1, h2]
  · rw [List.getElem?_eq_none (by omega), List.getElem?_eq_none (by simp; omega)]

/-- C21: the estimate of a pair does not change when both positions are shifted by the same offset (velocity constraints kept). -/
theorem C21_translation (v w v' w' : Vertex ℝ) (p q o : List ℝ) (hp : p.length = o.length) (hq : q.length = o.length)
    (hv : v'.getConstraint 1 = v.getConstraint 1) (hw : w'.getConstraint 1 = w.getConstraint 1) (vMax aMax : ℝ) :
    estimate v' w' (List.zipWith (· + ·) p o) (List.zipWith (· + ·) q o) vMax aMax = estimate v w p q vMax aMax := by
  have e : (AtRest v' ∨ AtRest w') = (AtRest v ∨ AtRest w) := by unfold AtRest; rw [hv, hw]
  unfold estimate
  rw [distance_translate p q o hp hq]
  congr 1
  by_cases h : AtRest v ∨ AtRest w
  · rw [if_pos h, if_pos (by rw [e]; exact h)]
  · rw [if_neg h, if_neg (by rw [e]; exact h)]

-- a two-vertex route from rest at (0,0) to (3,4): distance 5, at speed 2 and acceleration 4 the estimate is 5/2 + 2/4
example : let v : Vertex ℝ := ⟨2, [(0, [0, 0]), (1, [0, 0])]⟩
    let w : Vertex ℝ := ⟨2, [(0, [3, 4])]⟩
    (∀ x ∈ [v, w], ∃ p, x.getConstraint 0 = some p ∧ p.length = 2) ∧ AtRest v ∧ estimate v w [0, 0] [3, 4] 2 4 = 3 := by
  intro v w
  have hr : AtRest v := ⟨[0, 0], rfl, by simp⟩
  refine ⟨by simp [v, w, Vertex.getConstraint, IntMap.find], hr, ?_⟩
  unfold estimate
  rw [if_pos (Or.inl hr)]
  have : distance [0, 0] [3, 4] = 5 := by
    unfold distance
    rw [show (List.zipWith (fun a b : ℝ => (a - b) ^ 2) [0, 0] [3, 4]).sum = 5 ^ 2 by simp; norm_num]
    exact Real.sqrt_sq (by norm_num)
  rw [this]; norm_num

end Verif.Properties
