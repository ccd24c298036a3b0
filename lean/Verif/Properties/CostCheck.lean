import Verif.Model.CostCheck
import Verif.Properties.SampledExtrema
import Verif.Properties.LinearOptCost
import Verif.Lemmas.IO

/-!
# C169: sampled costs agree with the cost that is reported
-/

namespace Verif.Properties

set_option linter.unusedSectionVars false

open Verif Verif.Spec Verif.Lemmas Verif.LinOpt Verif.CostCheck

/-- A sum of `n` samples at a distance of `dt` from a point `a` in the first interval on, as many as fit before `T`, is near the integral up to `T`. -/
theorem offset_sum (Q : Polynomial ℝ) (T : ℝ) (hT : 0 ≤ T) : ∃ C, 0 ≤ C ∧ ∀ dt a : ℝ, 0 < dt → dt ≤ 1 → 0 ≤ a → a ≤ dt → ∀ n : ℕ, T ≤ a + n * dt → a + n * dt ≤ T + dt →
    |∑ i ∈ Finset.range n, Q.eval (a + i * dt) * dt - ∫ x in (0 : ℝ)..T, Q.eval x| ≤ C * dt := by
  obtain ⟨B, hB⟩ := (isCompact_Icc (a := (0 : ℝ)) (b := T + 1)).exists_bound_of_continuousOn (f := fun x => Q.eval x) Q.continuous.continuousOn
  obtain ⟨L, hL⟩ := (isCompact_Icc (a := (0 : ℝ)) (b := T + 1)).exists_bound_of_continuousOn (f := fun x => Q.derivative.eval x) Q.derivative.continuous.continuousOn
  have hB0 : 0 ≤ B := (norm_nonneg _).trans (hB 0 ⟨le_rfl, by linarith⟩)
  have hL0 : 0 ≤ L := (norm_nonneg _).trans (hL 0 ⟨le_rfl, by linarith⟩)
  have hlip : ∀ x ∈ Set.Icc (0 : ℝ) (T + 1), ∀ y ∈ Set.Icc (0 : ℝ) (T + 1), |Q.eval y - Q.eval x| ≤ L * |y - x| := by
    intro x hx y hy
    exact (convex_Icc 0 (T + 1)).norm_image_sub_le_of_norm_hasDerivWithin_le (f := fun x => Q.eval x) (f' := fun x => Q.derivative.eval x) (C := L)
      (fun z _ => (Q.hasDerivAt z).hasDerivWithinAt) hL hx hy
  have hint : ∀ u v : ℝ, IntervalIntegrable (fun x => Q.eval x) MeasureTheory.volume u v := fun u v => Q.continuous.intervalIntegrable u v
  have hbd : ∀ u v : ℝ, 0 ≤ u → u ≤ v → v ≤ T + 1 → |∫ x in u..v, Q.eval x| ≤ B * (v - u) := by
    intro u v h0 h1 h2
    have := intervalIntegral.norm_integral_le_of_norm_le_const (a := u) (b := v) (C := B) (f := fun x => Q.eval x) (fun x hx => by
      rw [Set.uIoc_of_le h1] at hx
      exact hB x ⟨by linarith [hx.1], by linarith [hx.2]⟩)
    rwa [Real.norm_eq_abs, abs_of_nonneg (sub_nonneg.mpr h1)] at this
  refine ⟨L * (T + 1) + 2 * B, by positivity, ?_⟩
  intro dt a hdt h1 ha0 ha n hn1 hn2
  have hpt : ∀ i ≤ n, 0 ≤ a + i * dt ∧ a + i * dt ≤ T + 1 := by
    intro i hi
    have h2 : (i : ℝ) * dt ≤ n * dt := mul_le_mul_of_nonneg_right (by exact_mod_cast hi) hdt.le
    exact ⟨by positivity, by linarith⟩
  have hsplit : ∑ i ∈ Finset.range n, ∫ x in (a + (i : ℕ) * dt)..(a + ((i + 1 : ℕ) : ℝ) * dt), Q.eval x = ∫ x in a..(a + n * dt), Q.eval x := by
    have := intervalIntegral.sum_integral_adjacent_intervals (f := fun x => Q.eval x) (μ := MeasureTheory.volume) (a := fun i : ℕ => a + i * dt) (n := n)
      (fun i _ => hint _ _)
    simpa using this
  have hpart : ∀ i < n, |Q.eval (a + i * dt) * dt - ∫ x in (a + (i : ℕ) * dt)..(a + ((i + 1 : ℕ) : ℝ) * dt), Q.eval x| ≤ L * dt * dt := by
    intro i hi
    have e : a + ((i + 1 : ℕ) : ℝ) * dt = a + i * dt + dt := by push_cast; ring
    obtain ⟨p1, p2⟩ := hpt i hi.le
    obtain ⟨q1, q2⟩ := hpt (i + 1) hi
    rw [e] at q1 q2 ⊢
    set x0 := a + i * dt
    have hc : Q.eval x0 * dt = ∫ _ in x0..(x0 + dt), Q.eval x0 := by
      rw [intervalIntegral.integral_const, smul_eq_mul]; ring
    rw [hc, ← intervalIntegral.integral_sub intervalIntegrable_const (hint _ _)]
    have := intervalIntegral.norm_integral_le_of_norm_le_const (a := x0) (b := x0 + dt) (C := L * dt) (f := fun x => Q.eval x0 - Q.eval x) (fun x hx => by
      rw [Set.uIoc_of_le (by linarith)] at hx
      refine (hlip x ⟨by linarith [hx.1], by linarith [hx.2]⟩ x0 ⟨p1, p2⟩).trans (mul_le_mul_of_nonneg_left ?_ hL0)
      rw [abs_le]
      constructor <;> linarith [hx.1, hx.2])
    rwa [Real.norm_eq_abs, add_sub_cancel_left, abs_of_pos hdt] at this
  have hsum : |∑ i ∈ Finset.range n, Q.eval (a + i * dt) * dt - ∫ x in a..(a + n * dt), Q.eval x| ≤ L * dt * (n * dt) := by
    rw [← hsplit, ← Finset.sum_sub_distrib]
    refine (Finset.abs_sum_le_sum_abs _ _).trans ((Finset.sum_le_sum fun i hi => hpart i (Finset.mem_range.mp hi)).trans ?_)
    rw [Finset.sum_const, Finset.card_range, nsmul_eq_mul]
    exact le_of_eq (by ring)
  have hends : (∫ x in a..(a + n * dt), Q.eval x) - (∫ x in (0 : ℝ)..T, Q.eval x) = (∫ x in T..(a + n * dt), Q.eval x) - ∫ x in (0 : ℝ)..a, Q.eval x := by
    have e1 := intervalIntegral.integral_add_adjacent_intervals (hint 0 a) (hint a (a + n * dt))
    have e2 := intervalIntegral.integral_add_adjacent_intervals (hint 0 T) (hint T (a + n * dt))
    linarith
  have b1 := hbd T (a + n * dt) hT hn1 (by linarith)
  have b2 := hbd 0 a le_rfl ha0 (by linarith)
  have c1 : B * (a + n * dt - T) ≤ B * dt := mul_le_mul_of_nonneg_left (by linarith) hB0
  have c2 : B * (a - 0) ≤ B * dt := mul_le_mul_of_nonneg_left (by linarith) hB0
  have c3 : L * dt * (n * dt) ≤ L * dt * (T + 1) := mul_le_mul_of_nonneg_left (by linarith) (by positivity)
  have a1 := abs_le.mp hsum
  have a2 := abs_le.mp b1
  have a3 := abs_le.mp b2
  rw [abs_le]
  constructor <;> nlinarith

/-- The squared length of derivative `k` of a segment, as a polynomial. -/
noncomputable def sqPoly (k : ℕ) (s : Segment ℝ) : Polynomial ℝ := (s.polys.map fun p => (Polynomial.derivative^[k] (ofCoeffs p)) ^ 2).sum

theorem sqPoly_eval (k : ℕ) (s : Segment ℝ) (x : ℝ) : (sqPoly k s).eval x = euclid (segDeriv s k x) ^ 2 := by
  unfold euclid sqPoly segDeriv
  rw [Real.sq_sqrt (List.sum_nonneg fun y hy => by
    obtain ⟨z, _, rfl⟩ := List.mem_map.mp hy
    positivity)]
  induction s.polys with
  | nil => simp
  | cons p l ih =>
    rw [List.map_cons, List.sum_cons, Polynomial.eval_add, ih]
    simp [derivAt]

theorem sqPoly_integral (k : ℕ) (s : Segment ℝ) : ∫ x in (0 : ℝ)..s.time, (sqPoly k s).eval x = (s.polys.map (polyEnergy k s.time)).sum := by
  unfold sqPoly
  induction s.polys with
  | nil => simp
  | cons p l ih =>
    rw [List.map_cons, List.sum_cons, List.map_cons, List.sum_cons, ← ih]
    simp only [Polynomial.eval_add]
    rw [intervalIntegral.integral_add ((Polynomial.continuous _).intervalIntegrable _ _) ((Polynomial.continuous _).intervalIntegrable _ _)]
    simp [polyEnergy, derivAt]

/-- The derivative of a sequence of segments at a time before its end, and the empty vector after it. -/
noncomputable def along (k : ℕ) : List (Segment ℝ) → ℝ → List ℝ
  | [], _ => []
  | s :: ss, t => if t < s.time then segDeriv s k t else along k ss (t - s.time)

theorem along_spec (k : ℕ) (segs : List (Segment ℝ)) (t : ℝ) (h0 : 0 ≤ t) (h1 : t < duration segs) :
    ∃ j s, segs[j]? = some s ∧ startOf segs j ≤ t ∧ t < startOf segs j + s.time ∧ along k segs t = segDeriv s k (t - startOf segs j) := by
  induction segs generalizing t with
  | nil => simp [duration] at h1; linarith
  | cons s ss ih =>
    by_cases h : t < s.time
    · exact ⟨0, s, rfl, by simpa [startOf, duration] using h0, by simpa [startOf, duration] using h, by simp [along, h, startOf, duration]⟩
    · have hd : duration (s :: ss) = s.time + duration ss := by simp [duration]
      obtain ⟨j, x, e1, e2, e3, e4⟩ := ih (t - s.time) (by linarith) (by linarith)
      have hs : startOf (s :: ss) (j + 1) = s.time + startOf ss j := by simp [startOf, duration]
      refine ⟨j + 1, x, e1, by linarith, by linarith, ?_⟩
      rw [along, if_neg h, e4, hs]
      congr 1
      ring

/-- The samples of a sequence of segments. -/
theorem along_sum (k : ℕ) (segs : List (Segment ℝ)) (hT : ∀ s ∈ segs, 0 ≤ s.time) : ∃ C, 0 ≤ C ∧ ∀ dt a : ℝ, 0 < dt → dt ≤ 1 → 0 ≤ a → a ≤ dt → ∀ N : ℕ,
    duration segs ≤ a + N * dt → |∑ i ∈ Finset.range N, euclid (along k segs (a + i * dt)) ^ 2 * dt - energy k segs| ≤ C * dt := by
  induction segs with
  | nil => exact ⟨0, le_rfl, by intro dt a _ _ _ _ N _; simp [along, euclid, energy]⟩
  | cons s ss ih =>
    obtain ⟨C, hC, h⟩ := ih fun x hx => hT x (List.mem_cons_of_mem _ hx)
    obtain ⟨D, hD, g⟩ := offset_sum (sqPoly k s) s.time (hT s List.mem_cons_self)
    refine ⟨D + C, by positivity, ?_⟩
    intro dt a hdt h1 ha0 ha N hN
    have hs0 := hT s List.mem_cons_self
    have hd : duration (s :: ss) = s.time + duration ss := by simp [duration]
    have hss : 0 ≤ duration ss := List.sum_nonneg fun x hx => by
      obtain ⟨y, hy, rfl⟩ := List.mem_map.mp hx
      exact hT y (List.mem_cons_of_mem _ hy)
    obtain ⟨c1, c2⟩ := ceil_samples (s.time - a) dt hdt
    set n := ⌈(s.time - a) / dt⌉₊
    have hn2 : a + n * dt ≤ s.time + dt := by
      rcases Nat.eq_zero_or_pos n with h0 | h0
      · rw [h0]; push_cast; linarith
      · have := c2 (n - 1) (by omega)
        rw [Nat.cast_sub h0] at this
        push_cast at this
        linarith
    have hnN : n ≤ N := by
      by_contra hc
      have := c2 N (by omega)
      linarith
    obtain ⟨m, rfl⟩ := Nat.exists_eq_add_of_le hnN
    have e1 : ∑ i ∈ Finset.range n, euclid (along k (s :: ss) (a + i * dt)) ^ 2 * dt = ∑ i ∈ Finset.range n, (sqPoly k s).eval (a + i * dt) * dt := by
      refine Finset.sum_congr rfl fun i hi => ?_
      have := c2 i (Finset.mem_range.mp hi)
      rw [along, if_pos (by linarith), sqPoly_eval]
    have e2 : ∑ i ∈ Finset.range m, euclid (along k (s :: ss) (a + (n + i : ℕ) * dt)) ^ 2 * dt =
        ∑ i ∈ Finset.range m, euclid (along k ss ((a + n * dt - s.time) + i * dt)) ^ 2 * dt := by
      refine Finset.sum_congr rfl fun i _ => ?_
      have h0 : 0 ≤ (i : ℝ) * dt := by positivity
      rw [along, if_neg (by push_cast; rw [add_mul]; linarith)]
      congr 4
      push_cast
      ring
    rw [Finset.sum_range_add, e1, e2]
    have g1 := g dt a hdt h1 ha0 ha n (by linarith) hn2
    have g2 := h dt (a + n * dt - s.time) hdt h1 (by linarith) (by linarith) m (by
      push_cast at hN
      rw [add_mul] at hN
      linarith)
    have he : energy k (s :: ss) = (s.polys.map (polyEnergy k s.time)).sum + energy k ss := by simp [energy]
    rw [he, ← sqPoly_integral]
    have b1 := abs_le.mp g1
    have b2 := abs_le.mp g2
    rw [abs_le]
    constructor <;> linarith [b1.1, b1.2, b2.1, b2.2]

/-- C169: the cost by sampling a trajectory differs from the integral of the squared derivative by at most a constant of the trajectory times the step. -/
theorem C169_numeric (tr : Trajectory ℝ) (k : ℕ) (hT : ∀ s ∈ tr.segments, 0 ≤ s.time) (hR : ∀ s ∈ tr.segments, Regular s) (hm : tr.maxTime = duration tr.segments) :
    ∃ C, 0 ≤ C ∧ ∀ dt : ℝ, 0 < dt → dt ≤ 1 → ∀ fuel : ℕ, ⌈tr.maxTime / dt⌉₊ ≤ fuel →
      ∃ c, computeCostNumeric fuel tr k dt = .ok c ∧ |c - energy k tr.segments| ≤ C * dt := by
  obtain ⟨C, hC, h⟩ := along_sum k tr.segments hT
  refine ⟨C, hC, fun dt hdt h1 fuel hf => ⟨_, C102_cost tr k dt (along k tr.segments) ?_ hdt fuel hf, ?_⟩⟩
  · intro t h0 h1
    rw [hm] at h1
    obtain ⟨j, s, e1, e2, e3, e4⟩ := along_spec k tr.segments t h0 h1
    rw [e4]
    exact evaluate_inside tr t k j s hT (regular_short s (hR s (List.mem_of_getElem? e1))) e1 e2 e3
  · have := h dt 0 hdt h1 le_rfl hdt.le ⌈tr.maxTime / dt⌉₊ (by rw [← hm, zero_add]; exact (ceil_samples _ _ hdt).1)
    simpa using this

theorem sqPoly_nonneg (k : ℕ) (s : Segment ℝ) (hT : 0 ≤ s.time) : 0 ≤ ∫ x in (0 : ℝ)..s.time, (sqPoly k s).eval x :=
  intervalIntegral.integral_nonneg hT fun x _ => by rw [sqPoly_eval]; positivity

theorem along_energy_nonneg (k : ℕ) (segs : List (Segment ℝ)) (hT : ∀ s ∈ segs, 0 ≤ s.time) : 0 ≤ energy k segs := by
  refine List.sum_nonneg fun x hx => ?_
  obtain ⟨s, hs, rfl⟩ := List.mem_map.mp hx
  rw [← sqPoly_integral]
  exact sqPoly_nonneg k s (hT s hs)

/-- Where the integral vanishes, the derivative does. -/
theorem along_zero (k : ℕ) (segs : List (Segment ℝ)) (hT : ∀ s ∈ segs, 0 ≤ s.time) (h : energy k segs = 0) (t : ℝ) (h0 : 0 ≤ t) : euclid (along k segs t) ^ 2 = 0 := by
  induction segs generalizing t with
  | nil => simp [along, euclid]
  | cons s ss ih =>
    have he : energy k (s :: ss) = (s.polys.map (polyEnergy k s.time)).sum + energy k ss := by simp [energy]
    have hs := fun x hx => hT x (List.mem_cons_of_mem s hx)
    have h1 := along_energy_nonneg k ss hs
    have h2 := sqPoly_nonneg k s (hT s List.mem_cons_self)
    rw [sqPoly_integral] at h2
    rw [along]
    split
    · rename_i ht
      by_contra hne
      have := intervalIntegral.integral_pos (a := 0) (b := s.time) (f := fun x => (sqPoly k s).eval x) (by linarith) (Polynomial.continuous _).continuousOn
        (fun x _ => by rw [sqPoly_eval]; positivity) ⟨t, ⟨h0, ht.le⟩, by rw [sqPoly_eval]; positivity⟩
      rw [sqPoly_integral] at this
      linarith
    · rename_i ht
      exact ih hs (by linarith) _ (by linarith)

/-- C169: a cost that differs from the integral by less than the tolerance allows is accepted, and one that differs by more is rejected, if the samples are close enough
together. -/
theorem C169_judges (tr : Trajectory ℝ) (k : ℕ) (hT : ∀ s ∈ tr.segments, 0 ≤ s.time) (hR : ∀ s ∈ tr.segments, Regular s) (hm : tr.maxTime = duration tr.segments)
    (tol cost : ℝ) (h0 : 0 ≤ tol) (h1 : tol ≤ 1) :
    (|cost - energy k tr.segments| < energy k tr.segments * tol → ∃ δ > 0, ∀ dt : ℝ, 0 < dt → dt < δ → ∀ fuel : ℕ, ⌈tr.maxTime / dt⌉₊ ≤ fuel →
      checkCost fuel dt cost tr k tol = .ok true) ∧
    (energy k tr.segments * tol < |cost - energy k tr.segments| → ∃ δ > 0, ∀ dt : ℝ, 0 < dt → dt < δ → ∀ fuel : ℕ, ⌈tr.maxTime / dt⌉₊ ≤ fuel →
      checkCost fuel dt cost tr k tol = .ok false) := by
  obtain ⟨C, hC, h⟩ := C169_numeric tr k hT hR hm
  set E := energy k tr.segments
  have hsmall : ∀ gap : ℝ, 0 < gap → ∃ δ > 0, δ ≤ 1 ∧ ∀ dt : ℝ, 0 < dt → dt < δ → (1 + tol) * (C * dt) < gap := by
    intro gap hg
    have hp : 0 < (1 + tol) * C + 1 := by positivity
    refine ⟨min 1 (gap / ((1 + tol) * C + 1)), lt_min one_pos (div_pos hg hp), min_le_left _ _, fun dt hdt hlt => ?_⟩
    have := lt_of_lt_of_le hlt (min_le_right _ _)
    rw [lt_div_iff₀ hp] at this
    nlinarith
  constructor
  · intro hc
    obtain ⟨δ, hδ, hδ1, hs⟩ := hsmall (E * tol - |cost - E|) (by linarith)
    refine ⟨δ, hδ, fun dt hdt hlt fuel hf => ?_⟩
    obtain ⟨n, e, hn⟩ := h dt hdt (by linarith) fuel hf
    have h2 := hs dt hdt hlt
    have h3 : |n - cost| ≤ |n - E| + |cost - E| := by rw [abs_sub_comm cost E]; exact abs_sub_le n E cost
    have h4 := (abs_le.mp hn).1
    unfold checkCost
    rw [if_pos ⟨h0, h1⟩, e]
    simp only [bind, Except.bind, pure, Except.pure]
    rw [if_neg (by push Not; nlinarith)]
  · intro hc
    obtain ⟨δ, hδ, hδ1, hs⟩ := hsmall (|cost - E| - E * tol) (by linarith)
    refine ⟨δ, hδ, fun dt hdt hlt fuel hf => ?_⟩
    obtain ⟨n, e, hn⟩ := h dt hdt (by linarith) fuel hf
    have h2 := hs dt hdt hlt
    have h3 : |cost - E| ≤ |n - cost| + |n - E| := by rw [abs_sub_comm n cost]; exact abs_sub_le cost n E
    have h4 := (abs_le.mp hn).2
    unfold checkCost
    rw [if_pos ⟨h0, h1⟩, e]
    simp only [bind, Except.bind, pure, Except.pure]
    rw [if_pos (by show _ < _; nlinarith)]

/-- C169: a tolerance out of the range from 0 to 1 is a failed check. -/
theorem C169_tolerance (fuel : ℕ) (dt cost : ℝ) (tr : Trajectory ℝ) (k : ℕ) (tol : ℝ) (h : tol < 0 ∨ 1 < tol) : checkCost fuel dt cost tr k tol = .error .check := by
  unfold checkCost
  rw [if_neg (by rintro ⟨h1, h2⟩; rcases h with h | h <;> linarith)]

/-- C169: the cost the optimiser reports of what it solved passes the check with any positive tolerance, if the samples are close enough together. -/
theorem C169_reported {h dim : ℕ} {solve : LinSolver ℝ} (hd : 0 < dim) (q : Problem ℝ) (o o' : LinOpt h ℝ) (hh : LinHistory h dim solve (some q) o)
    (hu : (∃ values, o.setFreeConstraints values = .ok o') ∨ o.solveLinear solve = .ok o') (tr : Trajectory ℝ) (htr : o'.getTrajectory = .ok tr) (tol : ℝ) (h0 : 0 < tol)
    (h1 : tol ≤ 1) :
    ∃ cost, o'.computeCost = .ok cost ∧ ∃ δ > 0, ∀ dt : ℝ, 0 < dt → dt < δ → ∀ fuel : ℕ, ⌈tr.maxTime / dt⌉₊ ≤ fuel →
      checkCost fuel dt cost tr q.derivative.toNat tol = .ok true := by
  have hi := (inv_history dim solve _ o hh).2 q rfl
  obtain ⟨free, _, _, hl, hlen, hs⟩ := solved_spec dim q solve o o' hi hu
  have es := setSegments_segments _ _ htr
  have hseg : ∀ s ∈ tr.segments, SegShape h dim s ∧ 0 ≤ s.time ∧ h + h ≤ 22 := by
    intro s hm
    rw [es] at hm
    obtain ⟨i, hi'⟩ := List.mem_iff_getElem?.mp hm
    obtain ⟨a, b, _⟩ := hs i s hi'
    obtain ⟨c, d, _⟩ := hi.segment i _ (b hd)
    exact ⟨a, dblEps_pos.le.trans d, c⟩
  have hT := fun s hm => (hseg s hm).2.1
  have hR : ∀ s ∈ tr.segments, Regular s := fun s hm => ⟨fun p hp => by rw [(hseg s hm).1.2.2 p hp, (hseg s hm).1.1], by rw [(hseg s hm).1.1]; exact (hseg s hm).2.2⟩
  have hne : o'.segments ≠ [] := by
    intro hc
    change Trajectory.setSegments o'.segments = _ at htr
    rw [hc] at htr
    cases htr
  have hm : tr.maxTime = duration tr.segments := by
    have := Verif.IO.setSegments_ok dim (h + h) o'.segments hne fun s hm => by rw [← es] at hm; exact ⟨(hseg s hm).1.2.1, (hseg s hm).1.1⟩
    change Trajectory.setSegments o'.segments = _ at htr
    rw [this] at htr
    cases htr
    rfl
  have hcost := C26_cost_solved q o o' hh hu
  rw [← es] at hcost
  refine ⟨_, hcost, ?_⟩
  rcases (along_energy_nonneg q.derivative.toNat tr.segments hT).lt_or_eq with hp | hz
  · exact (C169_judges tr q.derivative.toNat hT hR hm tol _ h0.le h1).1 (by rw [sub_self, abs_zero]; positivity)
  · refine ⟨1, one_pos, fun dt hdt _ fuel hf => ?_⟩
    have hn := C102_cost tr q.derivative.toNat dt (along q.derivative.toNat tr.segments) (fun t h0 h1 => by
      rw [hm] at h1
      obtain ⟨j, s, e1, e2, e3, e4⟩ := along_spec q.derivative.toNat tr.segments t h0 h1
      rw [e4]
      exact evaluate_inside tr t _ j s hT (regular_short s (hR s (List.mem_of_getElem? e1))) e1 e2 e3) hdt fuel hf
    rw [Finset.sum_eq_zero fun i _ => by rw [along_zero _ _ hT hz.symm _ (by positivity), zero_mul]] at hn
    unfold checkCost
    rw [if_pos ⟨h0.le, h1⟩, hn, ← hz]
    simp [bind, Except.bind, pure, Except.pure]

/-! ## The hypotheses are met -/

/-- The cost of a solved problem with three vertices is accepted. -/
example (solve : LinSolver ℝ) : ∃ (o o' : LinOpt 5 ℝ) (tr : Trajectory ℝ) (cost : ℝ), LinHistory 5 3 solve (some realProblem) o ∧ o.solveLinear solve = .ok o' ∧
    o'.getTrajectory = .ok tr ∧ o'.computeCost = .ok cost ∧ ∃ δ > 0, ∀ dt : ℝ, 0 < dt → dt < δ → ∀ fuel : ℕ, ⌈tr.maxTime / dt⌉₊ ≤ fuel →
      checkCost fuel dt cost tr 4 (1 / 10) = .ok true := by
  obtain ⟨o, o', tr, hh, hs, htr⟩ := C28_solves (solve := solve) (h := 5) (dim := 3) realProblem (by omega) realProblem_wellFormed
    realProblem_acceptable (by simp [realProblem])
  obtain ⟨cost, hc, h⟩ := C169_reported (by omega) realProblem o o' hh (.inr hs) tr htr (1 / 10) (by norm_num) (by norm_num)
  exact ⟨o, o', tr, cost, hh, hs, htr, hc, h⟩

/-- Uniform motion for two seconds at speed 3 costs 18: 19 is accepted with a tolerance of a tenth, 20 is not. -/
example : let tr : Trajectory ℝ := ⟨1, 2, 2, [⟨2, 2, [[1, 3]]⟩]⟩
    (∃ δ > 0, ∀ dt : ℝ, 0 < dt → dt < δ → ∀ fuel : ℕ, ⌈tr.maxTime / dt⌉₊ ≤ fuel → checkCost fuel dt 19 tr 1 (1 / 10) = .ok true) ∧
    ∃ δ > 0, ∀ dt : ℝ, 0 < dt → dt < δ → ∀ fuel : ℕ, ⌈tr.maxTime / dt⌉₊ ≤ fuel → checkCost fuel dt 20 tr 1 (1 / 10) = .ok false := by
  intro tr
  have he : energy 1 tr.segments = 18 := by
    norm_num [energy, polyEnergy, derivAt, ofCoeffs, tr, Finset.sum_range_succ]
  have hT : ∀ s ∈ tr.segments, 0 ≤ s.time := by simp [tr]
  have hR : ∀ s ∈ tr.segments, Regular s := by simp [tr, Regular]
  have hm : tr.maxTime = duration tr.segments := by simp [tr, duration]
  constructor
  · exact (C169_judges tr 1 hT hR hm (1 / 10) 19 (by norm_num) (by norm_num)).1 (by rw [he]; norm_num)
  · exact (C169_judges tr 1 hT hR hm (1 / 10) 20 (by norm_num) (by norm_num)).2 (by rw [he]; norm_num)

end Verif.Properties
