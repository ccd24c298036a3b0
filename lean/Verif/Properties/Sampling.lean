import Verif.Lemmas.Sampling

/-!
# Property C65: sampling of trajectories into states

`Spec.Sample` (in `Verif.Spec.Sampling`) says what a state at a given time must contain, `Mav.Kinematic` (in `Verif.Spec.MavMsgs`)
that the fields of a moving state are derivatives of one another. Times up to nine billion seconds, so that the nanoseconds fit.
-/

namespace Verif.Properties

open Spec Mav Sampling Matrix

/-- A four-dimensional trajectory used in the examples: along x with speed 2 for 10 s, turning with yaw rate 3. -/
def sampleTraj4 : Trajectory ℝ := ⟨4, 2, 10, [⟨2, 10, [[0, 2], [1, 0], [0, 0], [0, 3]]⟩]⟩

theorem sampleTraj4_ok : Consistent sampleTraj4 ∧ sampleTraj4.segments ≠ [] ∧ (∀ s ∈ sampleTraj4.segments, 0 < s.time) ∧
    (∀ s ∈ sampleTraj4.segments, Regular s) ∧ 3 ≤ sampleTraj4.D ∧ sampleTraj4.maxTime ≤ 9000000000 := by
  refine ⟨?_, ?_, ?_, ?_, ?_, ?_⟩ <;> simp [sampleTraj4, Consistent, Regular, duration]
  norm_num

/-- At a time within the trajectory the sample succeeds and holds the derivatives `evaluate` gives. -/
theorem C65_at_time (tr : Trajectory ℝ) (hc : Consistent tr) (hne : tr.segments ≠ []) (hT : ∀ s ∈ tr.segments, 0 ≤ s.time)
    (hR : ∀ s ∈ tr.segments, Regular s) (hD : 3 ≤ tr.D) (hmax : tr.maxTime ≤ 9000000000) (t : ℝ) (h0 : 0 ≤ t)
    (h1 : t ≤ tr.maxTime) (old : TrajectoryPoint) :
    ∃ (v : ℕ → List ℝ) (new : TrajectoryPoint), (∀ k, tr.evaluate t k = .ok (v k)) ∧
      sampleTrajectoryAtTime tr t old = .ok (true, new) ∧ Sample tr.D t v old new := by
  obtain ⟨v, hv, hl⟩ := evaluate_total tr hc hne hT hR t h0 h1
  obtain ⟨new, hn, hs⟩ := flat_ok tr.D tr.evaluate t v hv hl hD h0 (by linarith) old
  refine ⟨v, new, hv, ?_, hs⟩
  unfold sampleTrajectoryAtTime
  rw [if_neg (by push Not; exact ⟨h0, h1⟩), if_neg (by omega), hn]

/-- The same for one segment. -/
theorem C65_segment_at_time (s : Segment ℝ) (hR : Regular s) (hD : 3 ≤ s.polys.length) (t : ℝ) (h0 : 0 ≤ t) (h1 : t ≤ s.time)
    (hmax : s.time ≤ 9000000000) (old : TrajectoryPoint) :
    ∃ new, sampleSegmentAtTime s t old = .ok (true, new) ∧ Sample s.polys.length t (fun k => segDeriv s k t) old new := by
  obtain ⟨new, hn, hs⟩ := flat_ok s.D s.evaluate t (fun k => segDeriv s k t) (fun k => segment_evaluate_eq s t k hR.le)
    (fun k => by unfold segDeriv; rw [List.length_map]; rfl) hD h0 (by linarith) old
  refine ⟨new, ?_, hs⟩
  unfold sampleSegmentAtTime
  rw [if_neg (by push Not; exact ⟨h0, h1⟩), hn]

/-- Requests outside the trajectory and trajectories with fewer than three dimensions are refused, and nothing is written. -/
theorem C65_refused (tr : Trajectory ℝ) :
    (∀ t old, t < 0 ∨ tr.maxTime < t ∨ tr.D < 3 → sampleTrajectoryAtTime tr t old = .ok (false, old)) ∧
    (∀ fuel a b dt old, a < 0 ∨ tr.maxTime < b ∨ tr.D < 3 → sampleTrajectoryInRange fuel tr a b dt old = .ok (false, old)) ∧
    (∀ fuel a d dt old, a < 0 ∨ tr.maxTime < a + d ∨ tr.D < 3 →
      sampleTrajectoryStartDuration fuel tr a d dt old = .ok (false, old)) ∧
    (∀ (s : Segment ℝ) t old, t < 0 ∨ s.time < t ∨ s.polys.length < 3 → sampleSegmentAtTime s t old = .ok (false, old)) := by
  have hrange : ∀ fuel a b dt old, a < 0 ∨ tr.maxTime < b ∨ tr.D < 3 →
      sampleTrajectoryInRange fuel tr a b dt old = .ok (false, old) := by
    intro fuel a b dt old h
    unfold sampleTrajectoryInRange
    by_cases h1 : a < 0 ∨ b > tr.maxTime
    · rw [if_pos h1]
    · rw [if_neg h1, if_pos]
      rcases h with h | h | h
      · exact absurd (Or.inl h) h1
      · exact absurd (Or.inr h) h1
      · exact h
  refine ⟨?_, hrange, fun fuel a d dt old h => hrange fuel a (a + d) dt old h, ?_⟩
  · intro t old h
    unfold sampleTrajectoryAtTime
    by_cases h1 : t < 0 ∨ t > tr.maxTime
    · rw [if_pos h1]
    · rw [if_neg h1, if_pos]
      rcases h with h | h | h
      · exact absurd (Or.inl h) h1
      · exact absurd (Or.inr h) h1
      · exact h
  · intro s t old h
    unfold sampleSegmentAtTime
    by_cases h1 : t < 0 ∨ t > s.time
    · rw [if_pos h1]
    · rw [if_neg h1]
      unfold sampleFlatStateAtTime
      rw [if_pos]
      rcases h with h | h | h
      · exact absurd (Or.inl h) h1
      · exact absurd (Or.inr h) h1
      · exact h

/-- What sampling a range does, exactly: for a start in the segment that begins at `o` the call terminates, state `n` is the sample
at `tMin + n * dt` of a segment that contains this time, and there are states as long as `o + n * dt` (not `tMin + n * dt`) is before
`tMax` and `tMin + n * dt` is within the trajectory. Old states are written over (`old.getD n {}`). -/
theorem C65_range (tr : Trajectory ℝ) (hc : Consistent tr) (hT : ∀ s ∈ tr.segments, 0 ≤ s.time)
    (hR : ∀ s ∈ tr.segments, Regular s) (hD : 3 ≤ tr.D) (hmax : tr.maxTime ≤ 9000000000) (tMin tMax dt : ℝ) (h0 : 0 ≤ tMin)
    (hle : tMax ≤ tr.maxTime) (hdt : 0 < dt) (hcast : tMin - 2 * dt < tMax) (j : ℕ) (s : Segment ℝ)
    (hj : tr.segments[j]? = some s) (h1 : startOf tr.segments j ≤ tMin) (h2 : tMin < startOf tr.segments j + s.time)
    (old : List TrajectoryPoint) :
    ∃ (new : List TrajectoryPoint) (fuel₀ : ℕ),
      (∀ fuel ≥ fuel₀, sampleTrajectoryInRange fuel tr tMin tMax dt old = .ok (true, new)) ∧
      (∀ n : ℕ, n < new.length ↔ (startOf tr.segments j + n * dt < tMax ∧ tMin + n * dt ≤ tr.maxTime)) ∧
      ∀ (n : ℕ) (st : TrajectoryPoint), new[n]? = some st → ∃ (i : ℕ) (sg : Segment ℝ), tr.segments[i]? = some sg ∧
        startOf tr.segments i ≤ tMin + n * dt ∧ tMin + n * dt ≤ startOf tr.segments i + sg.time ∧
        Sample tr.D (tMin + n * dt) (fun k => segDeriv sg k (tMin + n * dt - startOf tr.segments i)) (old.getD n {}) st := by
  have hcast' : -1 < (tMax - tMin) / dt + 1 := by
    have : -2 < (tMax - tMin) / dt := by rw [lt_div_iff₀ hdt]; linarith
    linarith
  exact range_ok tr hc hT hR hD hmax tMin tMax dt h0 hle hdt hcast' j s hj h1 h2 old

/-- C65 for ranges as one would state it: exactly the states at `tMin + n * dt` before `tMax`. -/
def C65Full : Prop :=
  ∀ (tr : Trajectory ℝ) (tMin tMax dt : ℝ) (old : List TrajectoryPoint), Consistent tr → (∀ s ∈ tr.segments, 0 < s.time) →
    (∀ s ∈ tr.segments, Regular s) → 3 ≤ tr.D → tr.maxTime ≤ 9000000000 → 0 ≤ tMin → tMin < tMax → tMax ≤ tr.maxTime → 0 < dt →
    ∃ (new : List TrajectoryPoint) (fuel₀ : ℕ),
      (∀ fuel ≥ fuel₀, sampleTrajectoryInRange fuel tr tMin tMax dt old = .ok (true, new)) ∧
      ∀ n : ℕ, n < new.length ↔ tMin + n * dt < tMax

/-- It fails: asked for the range from 3 to 5 s in steps of 1 s, the code returns five states, up to 7 s. -/
theorem C65_refuted : ¬ C65Full := by
  intro h
  obtain ⟨g1, g2, g3, g4, g5, g6⟩ := sampleTraj4_ok
  obtain ⟨new, f, hn, hl⟩ := h sampleTraj4 3 5 1 [] g1 g3 g4 g5 g6 (by norm_num) (by norm_num) (by simp [sampleTraj4]; norm_num)
    (by norm_num)
  obtain ⟨new', f', hn', hl', -⟩ := C65_range sampleTraj4 g1 (fun s hs => (g3 s hs).le) g4 g5 g6 3 5 1 (by norm_num)
    (by simp [sampleTraj4]; norm_num) (by norm_num) (by norm_num) 0 _ rfl (by simp [startOf, duration])
    (by simp [startOf, duration]; norm_num) []
  have e : new = new' := by
    have := (hn (max f f') (le_max_left _ _)).symm.trans (hn' (max f f') (le_max_right _ _))
    simpa using this
  have h4 : 4 < new'.length := (hl' 4).2 (by simp [startOf, duration, sampleTraj4]; norm_num)
  rw [← e] at h4
  have := (hl 4).1 h4
  norm_num at this

/-- What holds: from the start of a segment, in particular for the whole trajectory, the states are exactly those at `tMin + n * dt`
before `tMax`; if the derivatives up to the fourth are continuous at the joints they are the values of `evaluate`. -/
theorem C65_from_joint_partial (tr : Trajectory ℝ) (hc : Consistent tr) (hT : ∀ s ∈ tr.segments, 0 < s.time)
    (hR : ∀ s ∈ tr.segments, Regular s) (hD : 3 ≤ tr.D) (hmax : tr.maxTime ≤ 9000000000) (tMax dt : ℝ)
    (hle : tMax ≤ tr.maxTime) (hdt : 0 < dt) (j : ℕ) (hj : j < tr.segments.length) (hlt : startOf tr.segments j ≤ tMax)
    (hcont : ∀ k ≤ 4, ∀ (i : ℕ) (a b : Segment ℝ), tr.segments[i]? = some a → tr.segments[i + 1]? = some b →
      segDeriv a k a.time = segDeriv b k 0)
    (old : List TrajectoryPoint) :
    ∃ (new : List TrajectoryPoint) (fuel₀ : ℕ),
      (∀ fuel ≥ fuel₀, sampleTrajectoryInRange fuel tr (startOf tr.segments j) tMax dt old = .ok (true, new)) ∧
      (∀ n : ℕ, n < new.length ↔ startOf tr.segments j + n * dt < tMax) ∧
      ∀ (n : ℕ) (st : TrajectoryPoint), new[n]? = some st → ∃ v : ℕ → List ℝ,
        (∀ k ≤ 4, tr.evaluate (startOf tr.segments j + n * dt) k = .ok (v k)) ∧
        Sample tr.D (startOf tr.segments j + n * dt) v (old.getD n {}) st := by
  have hs : tr.segments[j]? = some tr.segments[j] := List.getElem?_eq_getElem hj
  have hT' : ∀ s ∈ tr.segments, 0 ≤ s.time := fun s hs => (hT s hs).le
  have hpos : 0 ≤ startOf tr.segments j := by
    unfold startOf
    exact duration_nonneg _ fun s hs => hT' s (List.mem_of_mem_take hs)
  obtain ⟨new, f, a1, a2, a3⟩ := C65_range tr hc hT' hR hD hmax (startOf tr.segments j) tMax dt hpos hle hdt (by linarith) j _ hs
    (le_refl _) (by have := hT _ (List.getElem_mem hj); linarith) old
  refine ⟨new, f, a1, ?_, ?_⟩
  · intro n
    rw [a2]
    exact ⟨fun h => h.1, fun h => ⟨h, by linarith⟩⟩
  · intro n st hn
    obtain ⟨i, sg, hi, b1, b2, b3⟩ := a3 n st hn
    refine ⟨_, ?_, b3⟩
    intro k hk
    have ham := List.mem_of_getElem? hi
    rcases lt_or_eq_of_le b2 with hlt | heq
    · exact evaluate_inside tr _ k i sg hT' (hR sg ham).le hi b1 hlt
    · rw [heq, show startOf tr.segments i + sg.time - startOf tr.segments i = sg.time by ring, ← startOf_succ _ _ _ hi]
      have hil := (List.getElem?_eq_some_iff.mp hi).1
      by_cases hnext : i + 1 < tr.segments.length
      · have hb : tr.segments[i + 1]? = some tr.segments[i + 1] := List.getElem?_eq_getElem hnext
        rw [hcont k hk i sg _ hi hb]
        have := evaluate_inside tr (startOf tr.segments (i + 1)) k (i + 1) _ hT' (hR _ (List.getElem_mem hnext)).le hb (le_refl _)
          (by have := hT _ (List.getElem_mem hnext); linarith)
        rw [this, sub_self]
      · have e : i + 1 = tr.segments.length := by omega
        rw [e, startOf_length]
        obtain ⟨hsp, _⟩ := split_at tr.segments i sg hi
        rw [List.drop_of_length_le (by omega)] at hsp
        exact evaluate_end tr k _ sg hsp hT' (hR sg ham).le

/-- The whole trajectory: states at `n * dt` before its end. -/
theorem C65_whole (tr : Trajectory ℝ) (hc : Consistent tr) (hne : tr.segments ≠ []) (hT : ∀ s ∈ tr.segments, 0 < s.time)
    (hR : ∀ s ∈ tr.segments, Regular s) (hD : 3 ≤ tr.D) (hmax : tr.maxTime ≤ 9000000000) (dt : ℝ) (hdt : 0 < dt)
    (hcont : ∀ k ≤ 4, ∀ (i : ℕ) (a b : Segment ℝ), tr.segments[i]? = some a → tr.segments[i + 1]? = some b →
      segDeriv a k a.time = segDeriv b k 0)
    (old : List TrajectoryPoint) :
    ∃ (new : List TrajectoryPoint) (fuel₀ : ℕ),
      (∀ fuel ≥ fuel₀, sampleWholeTrajectory fuel tr dt old = .ok (true, new)) ∧
      (∀ n : ℕ, n < new.length ↔ n * dt < tr.maxTime) ∧
      ∀ (n : ℕ) (st : TrajectoryPoint), new[n]? = some st → ∃ v : ℕ → List ℝ,
        (∀ k ≤ 4, tr.evaluate (n * dt) k = .ok (v k)) ∧ Sample tr.D (n * dt) v (old.getD n {}) st := by
  have h0 : startOf tr.segments 0 = 0 := by simp [startOf, duration]
  have hm : 0 ≤ tr.maxTime := by rw [hc.1]; exact duration_nonneg _ fun s hs => (hT s hs).le
  have := C65_from_joint_partial tr hc hT hR hD hmax tr.maxTime dt (le_refl _) hdt 0 (List.length_pos_iff.2 hne)
    (by rw [h0]; exact hm) hcont old
  simp only [h0, zero_add] at this
  exact this

/-- A range that starts at the end of the trajectory passes the checks and reads past the last segment. -/
theorem C65_start_at_end (fuel : ℕ) (tr : Trajectory ℝ) (hc : Consistent tr) (hT : ∀ s ∈ tr.segments, 0 ≤ s.time) (hD : 3 ≤ tr.D)
    (dt : ℝ) (old : List TrajectoryPoint) :
    sampleTrajectoryInRange fuel tr tr.maxTime tr.maxTime dt old = .error .ub := by
  have hm : 0 ≤ tr.maxTime := by rw [hc.1]; exact duration_nonneg _ hT
  unfold sampleTrajectoryInRange
  rw [if_neg (by push Not; exact ⟨hm, le_refl _⟩), if_neg (by omega), hc.1, C13_start_at_end tr _ dt 0 fuel hT]
  rfl

/-- End to end: if the segments join with equal derivatives up to the fourth, the states sampled along the trajectory are
kinematically consistent at every time inside it: each vector field is the time derivative of the previous one, the orientation is a
unit quaternion, its angular velocity and acceleration are those of the state. For four dimensions without condition, for six where the
rotation vector is longer than the threshold 1/1000. -/
theorem C65_kinematic (tr : Trajectory ℝ) (hc : Consistent tr) (hne : tr.segments ≠ []) (hT : ∀ s ∈ tr.segments, 0 < s.time)
    (hR : ∀ s ∈ tr.segments, Regular s) (hmax : tr.maxTime ≤ 9000000000)
    (hcont : ∀ k ≤ 4, ∀ (i : ℕ) (a b : Segment ℝ), tr.segments[i]? = some a → tr.segments[i + 1]? = some b →
      segDeriv a k a.time = segDeriv b k 0)
    (old : ℝ → TrajectoryPoint) (p : ℝ → TrajectoryPoint)
    (hp : ∀ u, 0 < u → u < tr.maxTime → sampleTrajectoryAtTime tr u (old u) = .ok (true, p u))
    (t : ℝ) (h0 : 0 < t) (h1 : t < tr.maxTime)
    (hD : tr.D = 4 ∨ (tr.D = 6 ∧ ∃ x y z r₁ r₂ r₃, tr.evaluate t 0 = .ok [x, y, z, r₁, r₂, r₃] ∧
      1 / 1000 < √(r₁ ^ 2 + r₂ ^ 2 + r₃ ^ 2))) :
    Kinematic p t := by
  have hT' : ∀ s ∈ tr.segments, 0 ≤ s.time := fun s hs => (hT s hs).le
  have hD3 : 3 ≤ tr.D := by omega
  -- the derivatives as functions of time
  have hall : ∀ u : ℝ, ∃ v : ℕ → List ℝ, 0 < u → u < tr.maxTime → (∀ k, tr.evaluate u k = .ok (v k)) ∧
      Sample tr.D u v (old u) (p u) := by
    intro u
    by_cases hu : 0 < u ∧ u < tr.maxTime
    · obtain ⟨v, st, a1, a2, a3⟩ := C65_at_time tr hc hne hT' hR hD3 hmax u hu.1.le hu.2.le (old u)
      refine ⟨v, fun _ _ => ⟨a1, ?_⟩⟩
      rw [hp u hu.1 hu.2] at a2
      have : p u = st := by simpa using a2
      rw [this]; exact a3
    · exact ⟨fun _ => [], fun a b => absurd ⟨a, b⟩ hu⟩
  choose F hF using hall
  have hder (k d : ℕ) (hk : k ≤ 3) : HasDerivAt (fun u => (F u k).getD d 0) ((F t (k + 1)).getD d 0) t := by
    refine C09_derivative_of_evaluation tr k d hT hR ?_ (fun i u => F u i) ?_ t h0 (by rw [← hc.1]; exact h1)
    · intro j a b ha hb i hi
      rw [hcont i (by omega) j a b ha hb]
    · intro i u a b
      exact (hF u a (by rw [hc.1]; exact b)).1 i
  have hnear : ∀ᶠ u in nhds t, 0 < u ∧ u < tr.maxTime := (lt_mem_nhds h0).and (gt_mem_nhds h1)
  have hvec (k : ℕ) (hk : k ≤ 3) (f g : TrajectoryPoint → V3)
      (hf : ∀ u, 0 < u → u < tr.maxTime → ∀ i : Fin 3, (F u k)[(i : ℕ)]? = some (f (p u) i))
      (hg : ∀ i : Fin 3, (F t (k + 1))[(i : ℕ)]? = some (g (p t) i)) : HasDerivAt (fun u => f (p u)) (g (p t)) t := by
    rw [hasDerivAt_pi]
    intro i
    have h := hder k i hk
    have e1 : (F t (k + 1)).getD i 0 = g (p t) i := by rw [List.getD_eq_getElem?_getD, hg i]; rfl
    rw [e1] at h
    refine h.congr_of_eventuallyEq (hnear.mono fun u hu => ?_)
    show f (p u) i = (F u k).getD i 0
    rw [List.getD_eq_getElem?_getD, hf u hu.1 hu.2 i]; rfl
  have hS := (hF t h0 h1).2
  have hSu (u : ℝ) (a : 0 < u) (b : u < tr.maxTime) := (hF u a b).2
  have hv := hvec 0 (by norm_num) (·.position) (·.velocity) (fun u a b => (hSu u a b).position) hS.velocity
  have ha := hvec 1 (by norm_num) (·.velocity) (·.acceleration) (fun u a b => (hSu u a b).velocity) hS.acceleration
  have hj := hvec 2 (by norm_num) (·.acceleration) (·.jerk) (fun u a b => (hSu u a b).acceleration) hS.jerk
  have hs := hvec 3 (by norm_num) (·.jerk) (·.snap) (fun u a b => (hSu u a b).jerk) hS.snap
  -- the rotation vector as a function of time
  let r (k : ℕ) (u : ℝ) : V3 := if tr.D = 4 then ![0, 0, (F u k).getD 3 0] else ![(F u k).getD 3 0, (F u k).getD 4 0, (F u k).getD 5 0]
  have hr (k : ℕ) (hk : k ≤ 3) : HasDerivAt (r k) (r (k + 1) t) t := by
    rw [hasDerivAt_pi]
    intro i
    by_cases h4 : tr.D = 4
    · simp only [r, if_pos h4]
      fin_cases i
      · exact hasDerivAt_const _ _
      · exact hasDerivAt_const _ _
      · exact hder k 3 hk
    · simp only [r, if_neg h4]
      fin_cases i
      · exact hder k 3 hk
      · exact hder k 4 hk
      · exact hder k 5 hk
  have hav := exact_angular_velocity (hr 0 (by norm_num))
  rcases hD with h4 | ⟨h6, x, y, z, r₁, r₂, r₃, hev, hn⟩
  · have hy (u : ℝ) (a : 0 < u) (b : u < tr.maxTime) : IsUnitQuat (p u).orientation ∧
        quatToMatrix (p u).orientation = matrixFromRotationVector (r 0 u) ∧ (p u).angularVelocity = r 1 u ∧
        (p u).angularAcceleration = r 2 u := by
      obtain ⟨y, w, c, e0, e1, e2, q1, q2, q3, q4, -⟩ := (hSu u a b).yaw h4
      simp only [r, if_pos h4, List.getD_eq_getElem?_getD, e0, e1, e2, Option.getD_some]
      refine ⟨q1, ?_, q3, q4⟩
      have hk : (![0, 0, 1] : V3) 0 ^ 2 + (![0, 0, 1] : V3) 1 ^ 2 + (![0, 0, 1] : V3) 2 ^ 2 = 1 := by simp
      have : (![0, 0, y] : V3) = y • ![0, 0, 1] := by simp
      rw [q2, this, matrix_smul hk]
      apply mat_ext <;> simp [rod, rotZ, skewMatrixFromVector]
    have hw : exactOmega (r 0 t) (r 1 t) = (p t).angularVelocity := by
      rw [(hy t h0 h1).2.2.1]
      have : r 0 t ⨯₃ r 1 t = 0 := by
        simp only [r, if_pos h4]
        apply vec_ext <;> simp [cross_0, cross_1, cross_2]
      unfold exactOmega
      rw [this]
      simp
    refine ⟨hnear.mono fun u hu => (hy u hu.1 hu.2).1, hv, ha, hj, hs, ?_, ?_⟩
    · intro x
      have := hav x
      simp only [zero_add] at this
      rw [hw, ← (hy t h0 h1).2.1] at this
      exact this.congr_of_eventuallyEq (hnear.mono fun u hu => by
        show quatToMatrix (p u).orientation *ᵥ x = matrixFromRotationVector (r 0 u) *ᵥ x
        rw [(hy u hu.1 hu.2).2.1])
    · have := hr 1 (by norm_num)
      rw [← (hy t h0 h1).2.2.2] at this
      exact this.congr_of_eventuallyEq (hnear.mono fun u hu => (hy u hu.1 hu.2).2.2.1)
  · have h4 : ¬ tr.D = 4 := by omega
    have hy (u : ℝ) (a : 0 < u) (b : u < tr.maxTime) : IsUnitQuat (p u).orientation ∧
        quatToMatrix (p u).orientation = matrixFromRotationVector (r 0 u) ∧
        (p u).angularVelocity = omegaFromRotationVector (r 0 u) (r 1 u) ∧
        (p u).angularAcceleration = omegaDotFromRotationVector (r 0 u) (r 1 u) (r 2 u) := by
      obtain ⟨q, q', q'', e0, e1, e2, q1, q2, q3, q4, -⟩ := (hSu u a b).rotation h6
      have c (k : ℕ) (w : V3) (hw : ∀ i : Fin 3, (F u k)[3 + (i : ℕ)]? = some (w i)) : r k u = w := by
        simp only [r, if_neg h4, List.getD_eq_getElem?_getD]
        have w0 := hw 0
        have w1 := hw 1
        have w2 := hw 2
        simp only [Fin.val_zero, Fin.val_one, Fin.val_two, add_zero, Nat.reduceAdd] at w0 w1 w2
        rw [w0, w1, w2]
        apply vec_ext <;> rfl
      rw [c 0 q e0, c 1 q' e1, c 2 q'' e2]
      exact ⟨q1, q2, q3, q4⟩
    have hnorm : 1 / 1000 < norm3 (r 0 t) := by
      have e : F t 0 = [x, y, z, r₁, r₂, r₃] := by
        have := (hF t h0 h1).1 0
        rw [hev] at this
        simpa using this.symm
      simp only [r, if_neg h4, e]
      unfold norm3
      simpa using hn
    have hw : exactOmega (r 0 t) (r 1 t) = (p t).angularVelocity := by
      rw [(hy t h0 h1).2.2.1, omega_eq, if_neg (not_lt.2 hnorm.le)]
    refine ⟨hnear.mono fun u hu => (hy u hu.1 hu.2).1, hv, ha, hj, hs, ?_, ?_⟩
    · intro x
      have := hav x
      simp only [zero_add] at this
      rw [hw, ← (hy t h0 h1).2.1] at this
      exact this.congr_of_eventuallyEq (hnear.mono fun u hu => by
        show quatToMatrix (p u).orientation *ᵥ x = matrixFromRotationVector (r 0 u) *ᵥ x
        rw [(hy u hu.1 hu.2).2.1])
    · have := omega_hasDerivAt (hr 0 (by norm_num)) (hr 1 (by norm_num)) hnorm.ne'
      rw [← (hy t h0 h1).2.2.2] at this
      exact this.congr_of_eventuallyEq (hnear.mono fun u hu => (hy u hu.1 hu.2).2.2.1)

/-- Non-vacuity: `sampleTraj4` meets the hypotheses of the last theorem. -/
example : ∃ p : ℝ → TrajectoryPoint, (∀ u, 0 < u → u < sampleTraj4.maxTime → sampleTrajectoryAtTime sampleTraj4 u {} = .ok (true, p u)) ∧
    Kinematic p 5 := by
  obtain ⟨g1, g2, g3, g4, g5, g6⟩ := sampleTraj4_ok
  have : ∀ u, ∃ st, 0 < u → u < sampleTraj4.maxTime → sampleTrajectoryAtTime sampleTraj4 u {} = .ok (true, st) := by
    intro u
    by_cases hu : 0 < u ∧ u < sampleTraj4.maxTime
    · obtain ⟨-, st, -, hs, -⟩ := C65_at_time sampleTraj4 g1 g2 (fun s hs => (g3 s hs).le) g4 g5 g6 u hu.1.le hu.2.le {}
      exact ⟨st, fun _ _ => hs⟩
    · exact ⟨{}, fun a b => absurd ⟨a, b⟩ hu⟩
  choose p hp using this
  refine ⟨p, hp, C65_kinematic sampleTraj4 g1 g2 g3 g4 g6 ?_ (fun _ => {}) p hp 5 (by norm_num) (by simp [sampleTraj4]; norm_num)
    (Or.inl rfl)⟩
  intro k _ i a b ha hb
  simp [sampleTraj4] at hb

/-- Non-vacuity: one second into `sampleTraj4` the vehicle is at (2, 1, 0), has speed 2 and has turned by 3 rad. -/
example : ∃ st, sampleTrajectoryAtTime sampleTraj4 1 {} = .ok (true, st) ∧ st.position = ![2, 1, 0] ∧
    st.velocity = ![2, 0, 0] ∧ st.angularVelocity = ![0, 0, 3] ∧ quatToMatrix st.orientation = rotZ 3 ∧
    st.timeFromStartNs = 1000000000 := by
  obtain ⟨g1, g2, g3, g4, g5, g6⟩ := sampleTraj4_ok
  obtain ⟨v, st, hv, hs, hS⟩ := C65_at_time sampleTraj4 g1 g2 (fun s hs => (g3 s hs).le) g4 g5 g6 1 (by norm_num)
    (by simp [sampleTraj4]) {}
  have e (k : ℕ) : v k = segDeriv ⟨2, 10, [[0, 2], [1, 0], [0, 0], [0, 3]]⟩ k (1 - startOf sampleTraj4.segments 0) := by
    have := evaluate_inside sampleTraj4 1 k 0 _ (fun s hs => (g3 s hs).le) (g4 _ (by simp [sampleTraj4])).le rfl
      (by simp [startOf, duration]) (by simp [startOf, duration])
    rw [hv] at this
    simpa using this
  simp [startOf, duration, segDeriv, derivAt] at e
  have e0 : v 0 = [2, 1, 0, 3] := by rw [e]; simp [ofCoeffs, Finset.sum_range_succ]
  have e1 : v 1 = [2, 0, 0, 3] := by rw [e]; simp [ofCoeffs, Finset.sum_range_succ]
  refine ⟨st, hs, ?_, ?_, ?_, ?_, ?_⟩
  · funext i
    have := hS.position i
    rw [e0] at this
    fin_cases i <;> simpa using this.symm
  · funext i
    have := hS.velocity i
    rw [e1] at this
    fin_cases i <;> simpa using this.symm
  · obtain ⟨y, r, a, -, hr, -, -, -, hw, -⟩ := hS.yaw rfl
    rw [e1] at hr
    simp at hr
    rw [hw, hr]
  · obtain ⟨y, r, a, hy, -, -, -, hm, -⟩ := hS.yaw rfl
    rw [e0] at hy
    simp at hy
    rw [hm, hy]
  · rw [hS.time]
    norm_num

end Verif.Properties
