import Verif.Properties.OptimumPlane

/-!
# C175: a path recovered from its values
-/

namespace Verif.Properties

open Verif Verif.Spec Verif.Lemmas Verif.LinOpt Polynomial

section
variable {h dim : ℕ} {q : Problem ℝ}

/-- What repeated integration by parts leaves at the ends. -/
noncomputable def byParts (d n : ℕ) (f e : ℝ[X]) : ℝ[X] := ∑ m ∈ Finset.range n, C ((-1) ^ m) * (derivative^[d + m] f * derivative^[d - 1 - m] e)

theorem byParts_derivative (d : ℕ) (f e : ℝ[X]) (n : ℕ) (hn : n ≤ d) :
    derivative^[d] f * derivative^[d] e = derivative (byParts d n f e) + C ((-1) ^ n) * (derivative^[d + n] f * derivative^[d - n] e) := by
  induction n with
  | zero => simp [byParts]
  | succ n ih =>
    rw [ih (by omega)]
    unfold byParts
    rw [Finset.sum_range_succ, derivative_add, derivative_C_mul, derivative_mul, ← Function.iterate_succ_apply' derivative, ← Function.iterate_succ_apply' derivative]
    have e1 : (d - 1 - n).succ = d - n := by omega
    have e2 : d - 1 - n = d - (n + 1) := by omega
    have e3 : (d + n).succ = d + (n + 1) := by omega
    rw [e1, e2, e3, pow_succ, C_mul, C_neg, C_1]
    ring

theorem byParts_integral (d : ℕ) (t : ℝ) (f e : ℝ[X]) (hf : Below (2 * d) f) : pInner d t f e = (byParts d d f e).eval t - (byParts d d f e).eval 0 := by
  have key : derivative^[d] f * derivative^[d] e = derivative (byParts d d f e) := by
    rw [byParts_derivative d f e d le_rfl, show d + d = 2 * d by ring, (below_iff _ _).mp hf]
    simp
  unfold pInner
  rw [← intervalIntegral.integral_eq_sub_of_hasDerivAt (fun x _ => (byParts d d f e).hasDerivAt x) ((Polynomial.derivative (byParts d d f e)).continuous.intervalIntegrable _ _)]
  congr 1
  funext x
  rw [← key, eval_mul]

theorem byParts_eval (d : ℕ) (f e : ℝ[X]) (x : ℝ) :
    (byParts d d f e).eval x = ∑ m ∈ Finset.range d, (-1) ^ m * ((derivative^[d + m] f).eval x * (derivative^[d - 1 - m] e).eval x) := by
  unfold byParts
  rw [eval_finsetSum]
  simp only [eval_mul, eval_C]

theorem take_times {i : ℕ} (hi : i < q.times.length) : (q.times.take (i + 1)).sum = q.times.getD i 0 + (q.times.take i).sum := by
  rw [List.take_add_one, List.sum_append, List.getElem?_eq_getElem hi, List.getD_eq_getElem _ _ hi]
  simp [add_comm]

/-- A path of low degree is orthogonal to all allowed changes that vanish at the ends. -/
theorem path_orthogonal {P : ℕ → ℝ[X]} {E : ℕ → ℕ → ℝ[X]} (hE : Neutral h dim q E) (hd : q.derivative.toNat ≤ h) (hP : ∀ j < dim, Below (2 * q.derivative.toNat) (P j))
    (he : EndsPrescribed q) (hne : 0 < q.times.length) :
    curveInner q.derivative.toNat dim q (fun j i => (P j).comp (X + C (q.times.take i).sum)) E = 0 := by
  set d := q.derivative.toNat with hdd
  refine Finset.sum_eq_zero fun j hj => ?_
  have hj := Finset.mem_range.mp hj
  set n := q.times.length with hnn
  let V : ℕ → ℕ → ℝ := fun i k => if i < n then (derivative^[k] (E j i)).eval 0 else 0
  let H : ℕ → ℝ := fun i => ∑ m ∈ Finset.range d, (-1) ^ m * ((derivative^[d + m] (P j)).eval (q.times.take i).sum * V i (d - 1 - m))
  have one : ∀ i ∈ Finset.range n, pInner d (q.times.getD i 0) ((P j).comp (X + C (q.times.take i).sum)) (E j i) = H (i + 1) - H i := by
    intro i hi
    have hi := Finset.mem_range.mp hi
    rw [byParts_integral d _ _ _ (by rw [below_iff, shifted_derivative, (below_iff _ _).mp (hP j hj), zero_comp]), byParts_eval, byParts_eval]
    congr 1
    · refine Finset.sum_congr rfl fun m hm => ?_
      have hm := Finset.mem_range.mp hm
      rw [shifted_derivative, eval_comp, eval_add, eval_X, eval_C, ← take_times hi]
      congr 2
      simp only [V]
      by_cases h1 : i + 1 < n
      · rw [if_pos h1, hE.joint i j _ h1 hj (by omega)]
      · rw [if_neg h1]
        obtain ⟨v, hv, hs⟩ := (he (d - 1 - m) (by omega)).2
        exact hE.last i j _ hi hj (by omega) v (by rw [show i + 1 = q.times.length by omega]; exact hv) hs
    · refine Finset.sum_congr rfl fun m hm => ?_
      rw [shifted_derivative, eval_comp, eval_add, eval_X, eval_C, zero_add]
      simp only [V]
      rw [if_pos hi]
  rw [Finset.sum_congr rfl one, Finset.sum_range_sub]
  have hn0 : H n = 0 := Finset.sum_eq_zero fun m _ => by simp [V]
  have h00 : H 0 = 0 := Finset.sum_eq_zero fun m hm => by
    have hm := Finset.mem_range.mp hm
    obtain ⟨v, hv, hs⟩ := (he (d - 1 - m) (by omega)).1
    simp only [V]
    rw [if_pos hne, hE.first 0 j _ hne hj (by omega) v hv hs]
    ring
  rw [hn0, h00, sub_zero]

/-- The change that makes a curve the path. -/
theorem path_neutral {P : ℕ → ℝ[X]} {a : List (Segment ℝ)} (ha : Candidate h dim q a) (hP : ∀ j < dim, Below (h + h) (P j)) (hq : TakenFrom h dim P q) :
    Neutral h dim q fun j i => if j < dim then (P j).comp (X + C (q.times.take i).sum) - pAt a j i else 0 := by
  have ev : ∀ (j i k : ℕ) (x : ℝ), j < dim → (derivative^[k] (if j < dim then (P j).comp (X + C (q.times.take i).sum) - pAt a j i else 0)).eval x =
      (derivative^[k] (P j)).eval (x + (q.times.take i).sum) - (derivative^[k] (pAt a j i)).eval x := by
    intro j i k x hj
    rw [if_pos hj, iterate_derivative_sub, shifted_derivative, eval_sub, eval_comp]
    simp
  refine ⟨fun j i => ?_, fun i j k hi hj hk => ?_, fun i j k hi hj hk v hv hs => ?_, fun i j k hi hj hk v hv hs => ?_⟩
  · split_ifs with hj
    · rw [below_iff, iterate_derivative_sub, shifted_derivative, (below_iff _ _).mp (hP j hj), zero_comp, (below_iff _ _).mp (pAt_below ha j i), sub_zero]
    · intro n _
      rfl
  · rw [ev _ _ _ _ hj, ev _ _ _ _ hj, candidate_joint ha hi hj hk, take_times (by omega), zero_add]
  · obtain ⟨c, hc⟩ := Option.isSome_iff_exists.mp hs
    have e1 := (candidate_vertex ha hi hj hk (c := c)).1 v hv hc
    rw [ev _ _ _ _ hj, zero_add, Option.some.inj (e1.symm.trans (hq i v k c hv hk hc j hj)), sub_self]
  · obtain ⟨c, hc⟩ := Option.isSome_iff_exists.mp hs
    have e1 := (candidate_vertex ha hi hj hk (c := c)).2 v hv hc
    rw [ev _ _ _ _ hj, ← take_times hi, Option.some.inj (e1.symm.trans (hq (i + 1) v k c hv hk hc j hj)), sub_self]

end

/-- C175: if all that is prescribed are values of a polynomial path whose degree is below twice the optimised derivative, and the ends prescribe all orders below that
derivative, the solution is this path. -/
theorem C175_recovers {h dim : ℕ} (hdim : 0 < dim) (solve : LinSolver ℝ) (hs : SolvesSystems solve) (q : Problem ℝ) (ha : AcceptableProblem h dim q)
    (hwf : ∀ v ∈ q.vertices, WellFormed v) (hg : ∀ v ∈ q.vertices, NoGaps q.derivative.toNat v)
    (hn : q.derivative.toNat ≤ (q.vertices.map (prescribedBelow q.derivative.toNat)).sum) (he : EndsPrescribed q) (P : ℕ → ℝ[X])
    (hP : ∀ j < dim, (P j).degree < (2 * q.derivative.toNat : ℕ)) (hq : TakenFrom h dim P q) (o o' : LinOpt h ℝ) (hh : LinHistory h dim solve (some q) o)
    (hu : o.solveLinear solve = .ok o') (tr : Trajectory ℝ) (htr : o'.getTrajectory = .ok tr) (i : ℕ) (s : Segment ℝ) (hi : tr.segments[i]? = some s) (j : ℕ) (hj : j < dim)
    (k : ℕ) (t : ℝ) : (segDeriv s k t)[j]? = some ((derivative^[k] (P j)).eval ((q.times.take i).sum + t)) := by
  rw [setSegments_segments _ _ htr] at hi
  obtain ⟨a0, _⟩ := cost_solved hdim hs hh hwf hu
  set a := o'.segments
  have p0 := candidate_pieces a0.1
  have hpos : ∀ t ∈ q.times, 0 < t := fun t ht => lt_of_lt_of_le (by positivity) (ha.2.2.2.2 t ht)
  have hdh : q.derivative.toNat ≤ h := by
    have := ha.2.1
    have := ha.1
    omega
  have hPd : ∀ j < dim, Below (2 * q.derivative.toNat) (P j) := fun j hj n hn => coeff_eq_zero_of_degree_lt (lt_of_lt_of_le (hP j hj) (by exact_mod_cast hn))
  have hPh : ∀ j < dim, Below (h + h) (P j) := fun j hj n hn => hPd j hj n (by omega)
  have hlt : i < q.times.length := by
    rw [← p0.length]
    exact (List.getElem?_eq_some_iff.mp hi).1
  have hneu := path_neutral a0.1 hPh hq
  set D : ℕ → ℕ → ℝ[X] := fun j i => if j < dim then (P j).comp (X + C (q.times.take i).sum) - pAt a j i else 0 with hD
  have cc := addTo_candidate a0.1 hneu
  have at' : ∀ {j i : ℕ}, j < dim → i < q.times.length → pAt (addTo h a D) j i = (P j).comp (X + C (q.times.take i).sum) := by
    intro j i hj hi
    rw [addTo_pAt a0.1 hneu.below hi hj]
    simp only [hD]
    rw [if_pos hj]
    ring
  have hopt : Optimal h dim q (addTo h a D) := by
    refine ⟨cc, fun x hx => ?_⟩
    have hE := neutral_difference cc hx 1
    have horth := path_orthogonal hE hdh hPd he (by omega)
    set d := q.derivative.toNat
    rw [candidate_energy cc, candidate_energy hx]
    have e1 : ∑ j ∈ Finset.range dim, ∑ i ∈ Finset.range q.times.length, pEnergy d (q.times.getD i 0) (pAt (addTo h a D) j i) =
        ∑ j ∈ Finset.range dim, ∑ i ∈ Finset.range q.times.length, pEnergy d (q.times.getD i 0) ((P j).comp (X + C (q.times.take i).sum)) :=
      Finset.sum_congr rfl fun j hj => Finset.sum_congr rfl fun i hi => by rw [at' (Finset.mem_range.mp hj) (Finset.mem_range.mp hi)]
    have e2 : ∑ j ∈ Finset.range dim, ∑ i ∈ Finset.range q.times.length, pEnergy d (q.times.getD i 0) (pAt x j i) =
        ∑ j ∈ Finset.range dim, ∑ i ∈ Finset.range q.times.length, pEnergy d (q.times.getD i 0)
          ((P j).comp (X + C (q.times.take i).sum) + C 1 * (C 1 * (pAt x j i - pAt (addTo h a D) j i))) :=
      Finset.sum_congr rfl fun j hj => Finset.sum_congr rfl fun i hi => by
        rw [at' (Finset.mem_range.mp hj) (Finset.mem_range.mp hi), C_1]
        congr 1
        ring
    rw [e1, e2, sum_energy_add d dim q 1 (fun j i => (P j).comp (X + C (q.times.take i).sum)) (fun j i => C 1 * (pAt x j i - pAt (addTo h a D) j i)), horth]
    have hnn : 0 ≤ ∑ j ∈ Finset.range dim, ∑ i ∈ Finset.range q.times.length, pEnergy d (q.times.getD i 0) (C 1 * (pAt x j i - pAt (addTo h a D) j i)) :=
      Finset.sum_nonneg fun j _ => Finset.sum_nonneg fun i hi => pEnergy_nonneg d (by
        rw [List.getD_eq_getElem _ _ (Finset.mem_range.mp hi)]
        exact (hpos _ (List.getElem_mem _)).le) _
    linarith
  have hsame := C139_only ha hg hn _ _ a0 hopt
  have ls := (p0.time i s hi).2
  rw [segDeriv_at hi (by rw [ls]; exact hj), ← sameCurve_pAt hsame hi (by rw [ls]; exact hj), at' hj hlt, shifted_derivative, eval_comp]
  simp [add_comm]

/-- A mission taken from the path `t ^ 7`. -/
noncomputable def seventhProblem : Problem ℝ :=
  ⟨[⟨1, [(0, [0]), (1, [0]), (2, [0]), (3, [0])]⟩, ⟨1, [(0, [1])]⟩, ⟨1, [(0, [128]), (1, [448]), (2, [1344]), (3, [3360])]⟩], [1, 1], 4⟩

theorem seventhProblem_wellFormed : ∀ v ∈ seventhProblem.vertices, WellFormed v := by
  intro v hv
  simp only [seventhProblem, List.mem_cons, List.not_mem_nil, or_false] at hv
  rcases hv with rfl | rfl | rfl <;> refine ⟨?_, ?_⟩ <;> simp

theorem seventhProblem_acceptable : AcceptableProblem 5 1 seventhProblem := by
  refine ⟨by norm_num [seventhProblem], by norm_num [seventhProblem], rfl, ?_, ?_⟩
  · intro v hv k c _ hc
    have hw := seventhProblem_wellFormed v hv
    have := hw.2 _ ((IntMap.find_some_iff _ hw.1 k c).mp hc)
    simp only [seventhProblem, List.mem_cons, List.not_mem_nil, or_false] at hv
    rcases hv with rfl | rfl | rfl <;> exact this
  · intro t ht
    simp only [seventhProblem, List.mem_cons, List.not_mem_nil, or_false, or_self] at ht
    subst ht
    norm_num

/-- The hypotheses are met: the path `t ^ 7` is found again. -/
example : TakenFrom 5 1 (fun _ => X ^ 7) seventhProblem ∧ EndsPrescribed seventhProblem ∧ ∃ (o o' : LinOpt 5 ℝ) (tr : Trajectory ℝ),
    LinHistory 5 1 exactSolver (some seventhProblem) o ∧ o.solveLinear exactSolver = .ok o' ∧ o'.getTrajectory = .ok tr ∧
    ∀ s, tr.segments[1]? = some s → ∀ t, (segDeriv s 0 t)[0]? = some ((1 + t) ^ 7) := by
  have hq : TakenFrom 5 1 (fun _ => X ^ 7) seventhProblem := by
    intro i v k c hv _ hc j hj
    obtain rfl : j = 0 := by omega
    rcases i with _ | _ | _ | i
    · cases hv
      rcases k with _ | _ | _ | _ | k <;> cases hc <;> norm_num [seventhProblem]
    · cases hv
      rcases k with _ | k <;> cases hc <;> norm_num [seventhProblem]
    · cases hv
      rcases k with _ | _ | _ | _ | k <;> cases hc <;> norm_num [seventhProblem]
    · simp [seventhProblem] at hv
  have he : EndsPrescribed seventhProblem := by
    intro k hk
    have hk : k < 4 := hk
    exact ⟨⟨_, rfl, by interval_cases k <;> rfl⟩, ⟨_, rfl, by interval_cases k <;> rfl⟩⟩
  have hg : ∀ v ∈ seventhProblem.vertices, NoGaps 4 v := by
    intro v hv
    simp only [seventhProblem, List.mem_cons, List.not_mem_nil, or_false] at hv
    intro k k' hk hk' hs
    rcases hv with rfl | rfl | rfl <;> interval_cases k' <;> interval_cases k <;> first | rfl | exact hs
  have hn : (seventhProblem.vertices.map (prescribedBelow 4)).sum = 9 := rfl
  obtain ⟨o, o', tr, h1, h2, h3⟩ := C28_solves (solve := exactSolver) seventhProblem (by omega) seventhProblem_wellFormed seventhProblem_acceptable
    (by simp [seventhProblem])
  refine ⟨hq, he, o, o', tr, h1, h2, h3, fun s hi t => ?_⟩
  rw [C175_recovers (by omega) _ exactSolver_solves _ seventhProblem_acceptable seventhProblem_wellFormed hg (le_trans (show (4 : ℕ) ≤ 9 by norm_num) (le_of_eq hn.symm)) he
    (fun _ => X ^ 7) (fun j _ => ?_) hq o o' h1 h2 tr h3 1 s hi 0 (by omega) 0 t]
  · simp [seventhProblem]
  · rw [degree_X_pow]
    exact_mod_cast (show 7 < 2 * 4 by norm_num)

end Verif.Properties
