import Mathlib.Tactic.NormNum
import Verif.Model.Equality
import Verif.Spec.Trajectory

set_option linter.unusedSectionVars false

/-!
# Property C136: comparison of trajectories
-/

namespace Verif.Properties

open Verif.Spec

variable {K : Type*} [DecidableEq K]

/-- The two trajectories have the same segments: as many, with the same durations and the same coefficients. -/
def SameSegments (tr ur : Trajectory K) : Prop :=
  tr.segments.map (fun s => (s.time, s.polys)) = ur.segments.map (fun s => (s.time, s.polys))

/-- All polynomials of the trajectory have `n` coefficients. -/
def OfOrder (n : ℕ) (tr : Trajectory K) : Prop := ∀ s ∈ tr.segments, ∀ p ∈ s.polys, p.length = n

/-- C136 in full: comparing two trajectories always gives an answer, `true` exactly for those with the same segments. -/
def C136_Full (K : Type) [DecidableEq K] : Prop :=
  ∀ (tr ur : Trajectory K) (n m : ℕ), OfOrder n tr → OfOrder m ur →
    ∃ b, Trajectory.isEqual tr ur = .ok b ∧ (b = true ↔ SameSegments tr ur)

theorem equalFrom_spec (n : ℕ) (ps qs : List (Poly K)) (h : ps.length = qs.length) (hp : ∀ p ∈ ps, p.length = n)
    (hq : ∀ q ∈ qs, q.length = n) : Segment.equalFrom ps qs = .ok (decide (ps = qs)) := by
  induction ps generalizing qs with
  | nil =>
    cases qs with
    | nil => rfl
    | cons q qs => simp at h
  | cons p ps ih =>
    cases qs with
    | nil => simp at h
    | cons q qs =>
      have hl : p.length = q.length := (hp p (by simp)).trans (hq q (by simp)).symm
      unfold Segment.equalFrom Poly.isEqual
      rw [if_pos hl]
      by_cases e : p = q
      · subst e
        simp only [decide_true, bind, Except.bind, if_true]
        rw [ih qs (by simpa using h) (fun x hx => hp x (by simp [hx])) (fun x hx => hq x (by simp [hx]))]
        simp
      · simp [bind, Except.bind, e, pure, Except.pure]

theorem segment_isEqual_spec (n : ℕ) (s r : Segment K) (hs : ∀ p ∈ s.polys, p.length = n) (hr : ∀ p ∈ r.polys, p.length = n) :
    Segment.isEqual s r = .ok (decide ((s.time, s.polys) = (r.time, r.polys))) := by
  unfold Segment.isEqual
  by_cases h : s.polys.length ≠ r.polys.length ∨ s.time ≠ r.time
  · rw [if_pos h]
    rcases h with h | h
    · have : s.polys ≠ r.polys := fun e => h (by rw [e])
      simp [this]
    · simp [h]
  · rw [if_neg h]
    push Not at h
    rw [equalFrom_spec n s.polys r.polys h.1 hs hr]
    simp [h.2]

theorem segmentsEqual_spec (n : ℕ) (ss rs : List (Segment K)) (h : ss.length = rs.length)
    (hs : ∀ s ∈ ss, ∀ p ∈ s.polys, p.length = n) (hr : ∀ s ∈ rs, ∀ p ∈ s.polys, p.length = n) :
    Trajectory.segmentsEqual ss rs =
      .ok (decide (ss.map (fun s => (s.time, s.polys)) = rs.map (fun s => (s.time, s.polys)))) := by
  induction ss generalizing rs with
  | nil =>
    cases rs with
    | nil => rfl
    | cons r rs => simp at h
  | cons s ss ih =>
    cases rs with
    | nil => simp at h
    | cons r rs =>
      unfold Trajectory.segmentsEqual
      rw [segment_isEqual_spec n s r (hs s (by simp)) (hr r (by simp))]
      by_cases e : (s.time, s.polys) = (r.time, r.polys)
      · simp only [e, decide_true, bind, Except.bind, if_true]
        rw [ih rs (by simpa using h) (fun x hx => hs x (by simp [hx])) (fun x hx => hr x (by simp [hx]))]
        simp [e]
      · simp only [e, decide_false, bind, Except.bind, pure, Except.pure, Bool.false_eq_true, if_false, List.map_cons,
          List.cons.injEq, false_and]

theorem equalRepeat_spec (ss rs : List (Segment K)) (b : Bool) (h : Trajectory.segmentsEqual ss rs = .ok b) (k : ℕ) :
    Trajectory.equalRepeat ss rs (k + 1) = .ok b := by
  induction k with
  | zero =>
    unfold Trajectory.equalRepeat
    rw [h]
    cases b <;> rfl
  | succ k ih =>
    unfold Trajectory.equalRepeat
    rw [h]
    cases b
    · rfl
    · exact ih

/-- C136, the part that holds: for trajectories with the same number of coefficients. Missing: different numbers of coefficients,
for which it is false. -/
theorem C136_equal_iff_partial (n : ℕ) (tr ur : Trajectory K) (h1 : OfOrder n tr) (h2 : OfOrder n ur) :
    ∃ b, Trajectory.isEqual tr ur = .ok b ∧ (b = true ↔ SameSegments tr ur) := by
  unfold Trajectory.isEqual
  by_cases hl : tr.segments.length = ur.segments.length
  · rw [if_neg (not_not.mpr hl)]
    have hs := segmentsEqual_spec n tr.segments ur.segments hl h1 h2
    cases hk : tr.segments.length with
    | zero =>
      refine ⟨true, rfl, ?_⟩
      have e1 : tr.segments = [] := List.length_eq_zero_iff.mp hk
      have e2 : ur.segments = [] := List.length_eq_zero_iff.mp (hl.symm.trans hk)
      simp [SameSegments, e1, e2]
    | succ k =>
      refine ⟨_, equalRepeat_spec _ _ _ hs k, ?_⟩
      rw [decide_eq_true_iff]; rfl
  · rw [if_pos hl]
    refine ⟨false, rfl, ?_⟩
    simp only [Bool.false_eq_true, false_iff]
    intro h
    have := congrArg List.length h
    simp at this
    exact hl this

theorem poly_isEqual_true (p q : Poly K) (h : Poly.isEqual p q = .ok true) : p = q := by
  unfold Poly.isEqual at h
  split at h
  · simpa using Except.ok.inj h
  · cases h

theorem equalFrom_true (ps qs : List (Poly K)) (hl : ps.length = qs.length) (h : Segment.equalFrom ps qs = .ok true) : ps = qs := by
  induction ps generalizing qs with
  | nil => cases qs with
    | nil => rfl
    | cons q qs => simp at hl
  | cons p ps ih =>
    cases qs with
    | nil => simp at hl
    | cons q qs =>
      unfold Segment.equalFrom at h
      cases hb : Poly.isEqual p q with
      | error e => rw [hb] at h; cases h
      | ok b =>
        rw [hb] at h
        cases b with
        | false => cases h
        | true =>
          rw [poly_isEqual_true p q hb, ih qs (by simpa using hl) h]

theorem segment_isEqual_true (s r : Segment K) (h : Segment.isEqual s r = .ok true) : s.time = r.time ∧ s.polys = r.polys := by
  unfold Segment.isEqual at h
  split at h
  · cases h
  · rename_i hne
    push Not at hne
    exact ⟨hne.2, equalFrom_true _ _ hne.1 h⟩

theorem segmentsEqual_true (ss rs : List (Segment K)) (hl : ss.length = rs.length) (h : Trajectory.segmentsEqual ss rs = .ok true) :
    ss.map (fun s => (s.time, s.polys)) = rs.map (fun s => (s.time, s.polys)) := by
  induction ss generalizing rs with
  | nil => cases rs with
    | nil => rfl
    | cons q qs => simp at hl
  | cons s ss ih =>
    cases rs with
    | nil => simp at hl
    | cons r rs =>
      unfold Trajectory.segmentsEqual at h
      cases hb : Segment.isEqual s r with
      | error e => rw [hb] at h; cases h
      | ok b =>
        rw [hb] at h
        cases b with
        | false => cases h
        | true =>
          obtain ⟨e1, e2⟩ := segment_isEqual_true s r hb
          rw [List.map_cons, List.map_cons, e1, e2, ih rs (by simpa using hl) h]

/-- C136: whenever the answer is `true`, whatever the trajectories, they have the same segments. -/
theorem C136_true_means_same (tr ur : Trajectory K) (h : Trajectory.isEqual tr ur = .ok true) : SameSegments tr ur := by
  unfold Trajectory.isEqual at h
  split at h
  · cases h
  · rename_i hl
    rw [not_not] at hl
    cases hk : tr.segments.length with
    | zero =>
      have e1 : tr.segments = [] := List.length_eq_zero_iff.mp hk
      have e2 : ur.segments = [] := List.length_eq_zero_iff.mp (hl.symm.trans hk)
      simp [SameSegments, e1, e2]
    | succ k =>
      rw [hk] at h
      unfold Trajectory.equalRepeat at h
      cases hb : Trajectory.segmentsEqual tr.segments ur.segments with
      | error e => rw [hb] at h; cases h
      | ok b =>
        rw [hb] at h
        cases b with
        | false => cases h
        | true => exact segmentsEqual_true _ _ hl hb

/-- C136: comparison does not depend on the order of the operands, also when it fails. -/
theorem C136_symmetric (tr ur : Trajectory K) : Trajectory.isEqual tr ur = Trajectory.isEqual ur tr := by
  have hp : ∀ p q : Poly K, Poly.isEqual p q = Poly.isEqual q p := by
    intro p q
    unfold Poly.isEqual
    by_cases h : p.length = q.length
    · rw [if_pos h, if_pos h.symm]
      congr 1
      by_cases e : p = q
      · rw [e]
      · simp [e, Ne.symm e]
    · rw [if_neg h, if_neg (Ne.symm h)]
  have hf : ∀ ps qs : List (Poly K), ps.length = qs.length → Segment.equalFrom ps qs = Segment.equalFrom qs ps := by
    intro ps
    induction ps with
    | nil => intro qs h; cases qs with
      | nil => rfl
      | cons q qs => simp at h
    | cons p ps ih => intro qs h; cases qs with
      | nil => simp at h
      | cons q qs =>
        unfold Segment.equalFrom
        rw [hp p q, ih qs (by simpa using h)]
  have hs : ∀ s r : Segment K, Segment.isEqual s r = Segment.isEqual r s := by
    intro s r
    unfold Segment.isEqual
    by_cases h : s.polys.length ≠ r.polys.length ∨ s.time ≠ r.time
    · rw [if_pos h, if_pos (h.imp Ne.symm Ne.symm)]
    · rw [if_neg h, if_neg (fun h' => h (h'.imp Ne.symm Ne.symm))]
      push Not at h
      exact hf _ _ h.1
  have hss : ∀ ss rs : List (Segment K), Trajectory.segmentsEqual ss rs = Trajectory.segmentsEqual rs ss := by
    intro ss
    induction ss with
    | nil => intro rs; cases rs <;> rfl
    | cons s ss ih => intro rs; cases rs with
      | nil => rfl
      | cons r rs =>
        unfold Trajectory.segmentsEqual
        rw [hs s r, ih rs]
  have hr : ∀ (ss rs : List (Segment K)) k, Trajectory.equalRepeat ss rs k = Trajectory.equalRepeat rs ss k := by
    intro ss rs k
    induction k with
    | zero => rfl
    | succ k ih => unfold Trajectory.equalRepeat; rw [hss ss rs, ih]
  unfold Trajectory.isEqual
  by_cases h : tr.segments.length = ur.segments.length
  · rw [if_neg (not_not.mpr h), if_neg (not_not.mpr h.symm), hr, h]
  · rw [if_pos h, if_pos (Ne.symm h)]

section Evaluate
variable [Field K] [LinearOrder K] [IsStrictOrderedRing K]

omit [DecidableEq K] in
theorem sameSegments_behave (tr ur : Trajectory K) (h : SameSegments tr ur) (c1 : Consistent tr) (c2 : Consistent ur)
    (hne : tr.segments ≠ []) :
    tr.D = ur.D ∧ tr.getSegmentTimes = ur.getSegmentTimes ∧ tr.maxTime = ur.maxTime ∧
      ∀ t k, tr.evaluate t k = ur.evaluate t k := by
  have ht : tr.segments.map (·.time) = ur.segments.map (·.time) := by
    have := congrArg (List.map Prod.fst) h
    simpa [List.map_map, Function.comp_def] using this
  have hm : tr.maxTime = ur.maxTime := by rw [c1.1, c2.1, duration, duration, ht]
  have hlen : tr.segments.length = ur.segments.length := by simpa using congrArg List.length ht
  have hat : ∀ (i : ℕ) (s r : Segment K), tr.segments[i]? = some s → ur.segments[i]? = some r →
      s.time = r.time ∧ s.polys = r.polys := by
    intro i s r h1 h2
    have e := congrArg (fun l : List (K × List (Poly K)) => l[i]?) h
    simp only [List.getElem?_map, h1, h2, Option.map_some, Option.some.injEq, Prod.mk.injEq] at e
    exact e
  have hD : tr.D = ur.D := by
    obtain ⟨s, ss, e1⟩ := List.exists_cons_of_ne_nil hne
    have hne2 : ur.segments ≠ [] := by
      intro e; rw [e, e1] at hlen; simp at hlen
    obtain ⟨r, rs, e2⟩ := List.exists_cons_of_ne_nil hne2
    have hp := (hat 0 s r (by rw [e1]; rfl) (by rw [e2]; rfl)).2
    rw [← (c1.2 s (by rw [e1]; simp)).1, ← (c2.2 r (by rw [e2]; simp)).1, hp]
  refine ⟨hD, ht, hm, fun t k => ?_⟩
  have hf : ∀ (ss rs : List (Segment K)) a i, ss.map (·.time) = rs.map (·.time) →
      Trajectory.findSegment t ss a i = Trajectory.findSegment t rs a i := by
    intro ss
    induction ss with
    | nil => intro rs a i e; cases rs with
      | nil => rfl
      | cons r rs => simp at e
    | cons s ss ih => intro rs a i e; cases rs with
      | nil => simp at e
      | cons r rs =>
        simp only [List.map_cons, List.cons.injEq] at e
        unfold Trajectory.findSegment
        rw [e.1, ih rs _ _ e.2]
  unfold Trajectory.evaluate
  rw [hf _ _ 0 0 ht, hD, hlen]
  simp only
  split
  · rfl
  · generalize (if ur.segments.length ≤ (Trajectory.findSegment t ur.segments 0 0).2 then ur.segments.length - 1
      else (Trajectory.findSegment t ur.segments 0 0).2) = i
    by_cases hi : i < ur.segments.length
    · have h1 := List.getElem?_eq_getElem (l := tr.segments) (i := i) (by omega)
      have h2 := List.getElem?_eq_getElem (l := ur.segments) (i := i) hi
      obtain ⟨a, b⟩ := hat i _ _ h1 h2
      simp only [at?, h1, h2, bind, Except.bind, a]
      unfold Segment.evaluate
      rw [b]
    · have h1 : tr.segments[i]? = none := List.getElem?_eq_none_iff.mpr (by omega)
      have h2 : ur.segments[i]? = none := List.getElem?_eq_none_iff.mpr (by omega)
      simp only [at?, h1, h2, bind, Except.bind]

/-- C136: trajectories that compare equal behave the same: same dimension, segment times and duration, and the same value of every
derivative at every time. -/
theorem C136_equal_behave (tr ur : Trajectory K) (h : Trajectory.isEqual tr ur = .ok true) (c1 : Consistent tr)
    (c2 : Consistent ur) (hne : tr.segments ≠ []) :
    tr.D = ur.D ∧ tr.getSegmentTimes = ur.getSegmentTimes ∧ tr.maxTime = ur.maxTime ∧
      ∀ t k, tr.evaluate t k = ur.evaluate t k :=
  sameSegments_behave tr ur (C136_true_means_same tr ur h) c1 c2 hne

end Evaluate

/-- C136: the full claim is false: comparing a trajectory of two coefficients with one of three is undefined behaviour. -/
theorem C136_refuted : ¬ C136_Full ℚ := by
  intro h
  obtain ⟨b, h1, _⟩ := h ⟨1, 2, 1, [⟨2, 1, [[0, 1]]⟩]⟩ ⟨1, 3, 1, [⟨3, 1, [[0, 1, 0]]⟩]⟩ 2 3 (by simp [OfOrder]) (by simp [OfOrder])
  have : Trajectory.isEqual (⟨1, 2, 1, [⟨2, 1, [[0, 1]]⟩]⟩ : Trajectory ℚ) ⟨1, 3, 1, [⟨3, 1, [[0, 1, 0]]⟩]⟩ = .error .ub := by
    decide +kernel
  rw [this] at h1
  cases h1

/-- Two trajectories that compare equal, and two that do not: the last coefficient of the second segment differs. -/
example : Trajectory.isEqual (⟨1, 2, 3, [⟨2, 1, [[0, 1]]⟩, ⟨2, 2, [[1, 1]]⟩]⟩ : Trajectory ℚ) ⟨1, 2, 3, [⟨2, 1, [[0, 1]]⟩, ⟨2, 2, [[1, 1]]⟩]⟩
      = .ok true ∧
    Trajectory.isEqual (⟨1, 2, 3, [⟨2, 1, [[0, 1]]⟩, ⟨2, 2, [[1, 1]]⟩]⟩ : Trajectory ℚ) ⟨1, 2, 3, [⟨2, 1, [[0, 1]]⟩, ⟨2, 2, [[1, 2]]⟩]⟩
      = .ok false ∧
    OfOrder 2 (⟨1, 2, 3, [⟨2, 1, [[0, 1]]⟩, ⟨2, 2, [[1, 1]]⟩]⟩ : Trajectory ℚ) ∧
    Consistent (⟨1, 2, 3, [⟨2, 1, [[0, 1]]⟩, ⟨2, 2, [[1, 1]]⟩]⟩ : Trajectory ℚ) := by
  refine ⟨by decide +kernel, by decide +kernel, by simp [OfOrder], ?_, by simp⟩
  simp [duration]; norm_num

end Verif.Properties
