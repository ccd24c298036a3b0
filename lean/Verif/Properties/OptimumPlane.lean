import Verif.Spec.OptimumPlane
import Verif.Properties.OptimumCost
import Verif.Properties.OptimumUnique
import Verif.Properties.OptimumSum

/-!
# C174: missions in a plane stay in it
-/

namespace Verif.Properties

open Verif Verif.Spec Verif.Lemmas Verif.LinOpt Polynomial

section
variable {h dim : ℕ} {q : Problem ℝ}

theorem componentAlong_sum {w c : List ℝ} (hw : w.length = dim) {f : ℕ → ℝ} (hc : c.length = dim) (hf : ∀ j < dim, c[j]? = some (f j)) :
    componentAlong w c = ∑ j ∈ Finset.range dim, w.getD j 0 * f j := by
  unfold componentAlong
  have : List.zipWith (fun x y => x * y) w c = (List.range dim).map fun j => w.getD j 0 * f j := by
    apply List.ext_getElem
    · simp [hw, hc]
    · intro j h1 h2
      have hj : j < dim := by simpa using h2
      obtain ⟨_, e⟩ := List.getElem?_eq_some_iff.mp (hf j hj)
      simp only [List.getElem_zipWith, List.getElem_map, List.getElem_range]
      rw [e, List.getD_eq_getElem _ _ (by omega)]
  rw [this, Finset.sum_range]
  rw [← List.sum_ofFn, List.ofFn_eq_map, ← List.map_coe_finRange_eq_range, List.map_map]
  rfl

theorem shifted_derivative (P : ℝ[X]) (T : ℝ) (k : ℕ) : derivative^[k] (P.comp (X + C T)) = (derivative^[k] P).comp (X + C T) := by
  induction k generalizing P with
  | zero => rfl
  | succ k ih =>
    rw [Function.iterate_succ_apply, Function.iterate_succ_apply, derivative_comp]
    simp only [derivative_add, derivative_X, derivative_C, add_zero, one_mul]
    exact ih _

/-- What lacks to the course `P` along `w`. -/
noncomputable def lack (dim : ℕ) (q : Problem ℝ) (w : List ℝ) (P : ℝ[X]) (a : List (Segment ℝ)) (i : ℕ) : ℝ[X] :=
  P.comp (X + C (q.times.take i).sum) - ∑ j ∈ Finset.range dim, C (w.getD j 0) * pAt a j i

/-- The change that puts the curve on the course. -/
noncomputable def correction (dim : ℕ) (q : Problem ℝ) (w : List ℝ) (P : ℝ[X]) (a : List (Segment ℝ)) (j i : ℕ) : ℝ[X] :=
  C (w.getD j 0 / ∑ j ∈ Finset.range dim, w.getD j 0 ^ 2) * lack dim q w P a i

theorem lack_derivative (w : List ℝ) (P : ℝ[X]) (a : List (Segment ℝ)) (i k : ℕ) : derivative^[k] (lack dim q w P a i) =
    (derivative^[k] P).comp (X + C (q.times.take i).sum) - ∑ j ∈ Finset.range dim, C (w.getD j 0) * derivative^[k] (pAt a j i) := by
  unfold lack
  rw [iterate_derivative_sub, shifted_derivative, iterate_derivative_sum]
  simp only [iterate_derivative_C_mul]

theorem lack_eval (w : List ℝ) (P : ℝ[X]) (a : List (Segment ℝ)) (i k : ℕ) (x : ℝ) : (derivative^[k] (lack dim q w P a i)).eval x =
    (derivative^[k] P).eval (x + (q.times.take i).sum) - ∑ j ∈ Finset.range dim, w.getD j 0 * (derivative^[k] (pAt a j i)).eval x := by
  rw [lack_derivative, eval_sub, eval_comp, eval_finsetSum]
  simp only [eval_add, eval_X, eval_C, eval_mul]

theorem correction_neutral {w : List ℝ} {P : ℝ[X]} {a : List (Segment ℝ)} (ha : Candidate h dim q a) (hw : w.length = dim) (hP : Below (h + h) P)
    (hd : ∀ v ∈ q.vertices, ∀ (k : ℕ) (c : List ℝ), k < h → v.getConstraint k = some c → c.length = dim) (hq : PrescribesAlong h w P q) :
    Neutral h dim q (correction dim q w P a) := by
  have ev : ∀ (j i k : ℕ) (x : ℝ), (derivative^[k] (correction dim q w P a j i)).eval x =
      w.getD j 0 / (∑ j ∈ Finset.range dim, w.getD j 0 ^ 2) * (derivative^[k] (lack dim q w P a i)).eval x := by
    intro j i k x
    unfold correction
    rw [iterate_derivative_C_mul, eval_mul, eval_C]
  have take : ∀ i < q.times.length, (q.times.take (i + 1)).sum = q.times.getD i 0 + (q.times.take i).sum := by
    intro i hi
    rw [List.take_add_one, List.sum_append, List.getElem?_eq_getElem hi, List.getD_eq_getElem _ _ hi]
    simp [add_comm]
  refine ⟨fun j i n hn => ?_, fun i j k hi hj hk => ?_, fun i j k hi hj hk v hv hs => ?_, fun i j k hi hj hk v hv hs => ?_⟩
  · have hl : Below (h + h) (lack dim q w P a i) := by
      rw [below_iff, lack_derivative, (below_iff _ _).mp hP, zero_comp, zero_sub, neg_eq_zero]
      refine Finset.sum_eq_zero fun j _ => ?_
      rw [(below_iff _ _).mp (pAt_below ha j i), mul_zero]
    unfold correction
    rw [coeff_C_mul, hl n hn, mul_zero]
  · rw [ev, ev, lack_eval, lack_eval, take i (by omega), zero_add]
    congr 2
    exact Finset.sum_congr rfl fun j hj => by rw [candidate_joint ha hi (Finset.mem_range.mp hj) hk]
  · obtain ⟨c, hc⟩ := Option.isSome_iff_exists.mp hs
    rw [ev, lack_eval, zero_add, ← hq i v k c hv hk hc,
      componentAlong_sum hw (hd v (List.mem_of_getElem? hv) k c hk hc) fun j hj => (candidate_vertex ha hi hj hk (c := c)).1 v hv hc, sub_self, mul_zero]
  · obtain ⟨c, hc⟩ := Option.isSome_iff_exists.mp hs
    rw [ev, lack_eval, ← take i hi, ← hq (i + 1) v k c hv hk hc,
      componentAlong_sum hw (hd v (List.mem_of_getElem? hv) k c hk hc) fun j hj => (candidate_vertex ha hi hj hk (c := c)).2 v hv hc, sub_self, mul_zero]

/-- Less of a vector is shorter. -/
theorem projected_shorter (dim : ℕ) (w f : ℕ → ℝ) (hw : 0 < ∑ j ∈ Finset.range dim, w j ^ 2) :
    ∑ j ∈ Finset.range dim, (f j + w j / (∑ j ∈ Finset.range dim, w j ^ 2) * -(∑ j ∈ Finset.range dim, w j * f j)) ^ 2 ≤ ∑ j ∈ Finset.range dim, f j ^ 2 := by
  set W := ∑ j ∈ Finset.range dim, w j ^ 2 with hW
  set S := ∑ j ∈ Finset.range dim, w j * f j with hS
  have e : ∑ j ∈ Finset.range dim, (f j + w j / W * -S) ^ 2 = ∑ j ∈ Finset.range dim, f j ^ 2 - S ^ 2 / W := by
    have : ∀ j, (f j + w j / W * -S) ^ 2 = f j ^ 2 - 2 * S / W * (w j * f j) + S ^ 2 / W ^ 2 * w j ^ 2 := by
      intro j
      ring
    simp only [this, Finset.sum_add_distrib, Finset.sum_sub_distrib, ← Finset.mul_sum]
    rw [← hS, ← hW]
    field_simp
    ring
  rw [e]
  have : 0 ≤ S ^ 2 / W := by positivity
  linarith

theorem correction_optimal {w : List ℝ} {P : ℝ[X]} {a : List (Segment ℝ)} (ha : Optimal h dim q a) (hpos : ∀ t ∈ q.times, 0 < t)
    (hW : 0 < ∑ j ∈ Finset.range dim, w.getD j 0 ^ 2) (hP : Below q.derivative.toNat P) (hn : Neutral h dim q (correction dim q w P a)) :
    Optimal h dim q (addTo h a (correction dim q w P a)) := by
  have hm := addTo_candidate ha.1 hn
  refine ⟨hm, fun b hb => le_trans ?_ (ha.2 b hb)⟩
  rw [candidate_energy hm, candidate_energy ha.1, Finset.sum_comm, Finset.sum_comm (s := Finset.range dim)]
  refine Finset.sum_le_sum fun i hi => ?_
  have hi := Finset.mem_range.mp hi
  have ht : 0 ≤ q.times.getD i 0 := by
    rw [List.getD_eq_getElem _ _ hi]
    exact (hpos _ (List.getElem_mem _)).le
  set d := q.derivative.toNat
  have ci : ∀ f : ℝ[X], IntervalIntegrable (fun x => (derivative^[d] f).eval x ^ 2) MeasureTheory.volume 0 (q.times.getD i 0) := fun f =>
    ((derivative^[d] f).continuous.pow 2).intervalIntegrable _ _
  unfold pEnergy
  rw [← intervalIntegral.integral_finsetSum fun j _ => ci _, ← intervalIntegral.integral_finsetSum fun j _ => ci _]
  refine intervalIntegral.integral_mono_on ht ?_ ?_ fun x _ => ?_
  · exact (continuous_finsetSum _ fun j _ => (derivative^[d] _).continuous.pow 2).intervalIntegrable _ _
  · exact (continuous_finsetSum _ fun j _ => (derivative^[d] _).continuous.pow 2).intervalIntegrable _ _
  · refine le_trans (le_of_eq ?_) (projected_shorter dim (fun j => w.getD j 0) (fun j => (derivative^[d] (pAt a j i)).eval x) hW)
    refine Finset.sum_congr rfl fun j hj => ?_
    rw [addTo_pAt ha.1 hn.below hi (Finset.mem_range.mp hj), iterate_map_add, eval_add]
    unfold correction
    rw [iterate_derivative_C_mul, eval_mul, eval_C, lack_eval, (below_iff _ _).mp hP, eval_zero, zero_sub]

end

/-- C174: if all that is prescribed along a direction are values of a polynomial of a degree below the optimised derivative, the solution follows it along that direction. -/
theorem C174_follows {h dim : ℕ} (hdim : 0 < dim) (solve : LinSolver ℝ) (hs : SolvesSystems solve) (q : Problem ℝ) (ha : AcceptableProblem h dim q)
    (hwf : ∀ v ∈ q.vertices, WellFormed v) (hg : ∀ v ∈ q.vertices, NoGaps q.derivative.toNat v)
    (hn : q.derivative.toNat ≤ (q.vertices.map (prescribedBelow q.derivative.toNat)).sum) (w : List ℝ) (hw : w.length = dim) (hw0 : ∃ x ∈ w, x ≠ 0) (P : ℝ[X])
    (hP : P.degree < q.derivative.toNat) (hq : PrescribesAlong h w P q) (o o' : LinOpt h ℝ) (hh : LinHistory h dim solve (some q) o)
    (hu : o.solveLinear solve = .ok o') (tr : Trajectory ℝ) (htr : o'.getTrajectory = .ok tr) (i : ℕ) (s : Segment ℝ) (hi : tr.segments[i]? = some s) (k : ℕ) (t : ℝ) :
    componentAlong w (segDeriv s k t) = (derivative^[k] P).eval ((q.times.take i).sum + t) := by
  rw [setSegments_segments _ _ htr] at hi
  obtain ⟨a0, _⟩ := cost_solved hdim hs hh hwf hu
  set a := o'.segments
  have p0 := candidate_pieces a0.1
  have hpos : ∀ t ∈ q.times, 0 < t := fun t ht => lt_of_lt_of_le (by positivity) (ha.2.2.2.2 t ht)
  have hdh : q.derivative.toNat ≤ h + h := by
    have := ha.2.1
    have := ha.1
    omega
  have hPd : Below q.derivative.toNat P := fun n hn => coeff_eq_zero_of_degree_lt (lt_of_lt_of_le hP (by exact_mod_cast hn))
  have hPh : Below (h + h) P := fun n hn => hPd n (le_trans hdh hn)
  obtain ⟨x, hx, hx0⟩ := hw0
  obtain ⟨j0, hj0, rfl⟩ := List.getElem_of_mem hx
  have g0 : w.getD j0 0 = w[j0] := List.getD_eq_getElem _ _ hj0
  have hW : 0 < ∑ j ∈ Finset.range dim, w.getD j 0 ^ 2 :=
    Finset.sum_pos' (fun j _ => sq_nonneg _) ⟨j0, Finset.mem_range.mpr (hw ▸ hj0), by rw [g0]; positivity⟩
  have hneu := correction_neutral a0.1 hw hPh (fun v hv k c hk hc => ha.2.2.2.1 v hv k c (by exact_mod_cast hk) hc) hq
  have hsame := C139_only ha hg hn _ _ a0 (correction_optimal a0 hpos hW hPd hneu)
  have hlt : i < q.times.length := by
    rw [← p0.length]
    exact (List.getElem?_eq_some_iff.mp hi).1
  have ls := (p0.time i s hi).2
  have e := sameCurve_pAt hsame hi (j := j0) (by rw [ls, ← hw]; exact hj0)
  rw [addTo_pAt a0.1 hneu.below hlt (hw ▸ hj0), add_eq_left] at e
  unfold correction at e
  have hl : lack dim q w P a i = 0 := by
    rcases mul_eq_zero.mp e with e | e
    · rw [C_eq_zero, g0] at e
      exact absurd e (div_ne_zero hx0 hW.ne')
    · exact e
  have := lack_eval (dim := dim) (q := q) w P a i k t
  rw [hl, iterate_derivative_zero, eval_zero] at this
  rw [componentAlong_sum hw (by simp [segDeriv, ls]) fun j hj => segDeriv_at hi (by rw [ls]; exact hj) k t, add_comm]
  linarith

/-- C174: a mission in a plane stays in it; in particular, waypoints of equal height are flown at that height. -/
theorem C174_plane {h dim : ℕ} (hdim : 0 < dim) (solve : LinSolver ℝ) (hs : SolvesSystems solve) (q : Problem ℝ) (ha : AcceptableProblem h dim q)
    (hwf : ∀ v ∈ q.vertices, WellFormed v) (hg : ∀ v ∈ q.vertices, NoGaps q.derivative.toNat v) (hd : 0 < q.derivative)
    (hn : q.derivative.toNat ≤ (q.vertices.map (prescribedBelow q.derivative.toNat)).sum) (w : List ℝ) (hw : w.length = dim) (hw0 : ∃ x ∈ w, x ≠ 0) (z : ℝ)
    (hq : InPlane h w z q) (o o' : LinOpt h ℝ) (hh : LinHistory h dim solve (some q) o)
    (hu : o.solveLinear solve = .ok o') (tr : Trajectory ℝ) (htr : o'.getTrajectory = .ok tr) (i : ℕ) (s : Segment ℝ) (hi : tr.segments[i]? = some s) (k : ℕ) (t : ℝ) :
    componentAlong w (segDeriv s k t) = if k = 0 then z else 0 := by
  have ev : ∀ (k : ℕ) (x : ℝ), (derivative^[k] (C z)).eval x = if k = 0 then z else 0 := by
    intro k x
    rcases k with _ | k
    · simp
    · rw [iterate_derivative_C (Nat.succ_pos k)]
      simp
  rw [C174_follows hdim solve hs q ha hwf hg hn w hw hw0 (C z) (lt_of_le_of_lt degree_C_le (by exact_mod_cast (by omega : 0 < q.derivative.toNat))) ?_ o o' hh hu tr htr i s hi k t, ev]
  intro i v k c hv hk hc
  rw [ev, hq v (List.mem_of_getElem? hv) k c hk hc]

/-- The hypotheses are met: a mission whose waypoints are all in the tilted plane `x + y = z`. -/
example : InPlane 5 [1, 1, -1] 0 (wayProblem (1, 2, 3) (2, 1, 3)) ∧ ∃ (o o' : LinOpt 5 ℝ) (tr : Trajectory ℝ),
    LinHistory 5 3 exactSolver (some (wayProblem (1, 2, 3) (2, 1, 3))) o ∧ o.solveLinear exactSolver = .ok o' ∧ o'.getTrajectory = .ok tr ∧
    ∀ (i : ℕ) (s : Segment ℝ), tr.segments[i]? = some s → ∀ t, componentAlong [1, 1, -1] (segDeriv s 0 t) = 0 := by
  have hq : InPlane 5 [1, 1, -1] 0 (wayProblem (1, 2, 3) (2, 1, 3)) := by
    intro v hv k c _ hc
    rw [ite_self]
    simp only [wayProblem, List.mem_cons, List.not_mem_nil, or_false] at hv
    rcases hv with rfl | rfl | rfl <;> rcases k with _ | _ | k <;> cases hc <;> norm_num [componentAlong]
  obtain ⟨o, o', tr, h1, h2, h3⟩ := C28_solves (solve := exactSolver) (wayProblem (1, 2, 3) (2, 1, 3)) (by omega) (wayProblem_wellFormed _ _) (wayProblem_acceptable _ _)
    (by simp [wayProblem])
  exact ⟨hq, o, o', tr, h1, h2, h3, fun i s hi t => C174_plane (by omega) _ exactSolver_solves _ (wayProblem_acceptable _ _) (wayProblem_wellFormed _ _) (wayProblem_enough _ _).1
    (show (0 : ℤ) < 4 by norm_num) (wayProblem_enough _ _).2 [1, 1, -1] rfl ⟨1, by simp, by norm_num⟩ 0 hq o o' h1 h2 tr h3 i s hi 0 t⟩

/-- The hypotheses are met: a mission that climbs by `15 t² - 2 t³`. -/
example : PrescribesAlong 5 [0, 0, 1] (C 15 * X ^ 2 - C 2 * X ^ 3) (wayProblem (1, 2, 44) (4, 5, 125)) ∧ ∃ (o o' : LinOpt 5 ℝ) (tr : Trajectory ℝ),
    LinHistory 5 3 exactSolver (some (wayProblem (1, 2, 44) (4, 5, 125))) o ∧ o.solveLinear exactSolver = .ok o' ∧ o'.getTrajectory = .ok tr ∧
    ∀ s, tr.segments[1]? = some s → ∀ t, componentAlong [0, 0, 1] (segDeriv s 0 t) = 15 * (2 + t) ^ 2 - 2 * (2 + t) ^ 3 := by
  have hq : PrescribesAlong 5 [0, 0, 1] (C 15 * X ^ 2 - C 2 * X ^ 3) (wayProblem (1, 2, 44) (4, 5, 125)) := by
    intro i v k c hv _ hc
    rcases i with _ | _ | _ | i
    · cases hv
      rcases k with _ | _ | k <;> cases hc <;> norm_num [componentAlong, wayProblem]
    · cases hv
      rcases k with _ | k <;> cases hc <;> norm_num [componentAlong, wayProblem]
    · cases hv
      rcases k with _ | _ | k <;> cases hc <;> norm_num [componentAlong, wayProblem]
    · simp [wayProblem] at hv
  obtain ⟨o, o', tr, h1, h2, h3⟩ := C28_solves (solve := exactSolver) (wayProblem (1, 2, 44) (4, 5, 125)) (by omega) (wayProblem_wellFormed _ _) (wayProblem_acceptable _ _)
    (by simp [wayProblem])
  refine ⟨hq, o, o', tr, h1, h2, h3, fun s hi t => ?_⟩
  have hdeg : (C 15 * X ^ 2 - C 2 * X ^ 3 : ℝ[X]).degree < ((4 : ℕ) : WithBot ℕ) := by
    rw [degree_lt_iff_coeff_zero]
    intro m hm
    have h2 : m ≠ 2 := by omega
    have h3 : m ≠ 3 := by omega
    simp [coeff_X_pow, h2, h3]
  rw [C174_follows (by omega) _ exactSolver_solves _ (wayProblem_acceptable _ _) (wayProblem_wellFormed _ _) (wayProblem_enough _ _).1
    (wayProblem_enough _ _).2 [0, 0, 1] rfl ⟨1, by simp, by norm_num⟩ _ hdeg hq o o' h1 h2 tr h3 1 s hi 0 t]
  simp [wayProblem]

end Verif.Properties
