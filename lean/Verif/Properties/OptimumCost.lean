import Verif.Lemmas.OptimumCost
import Verif.Properties.OptimumReverse
import Verif.Lemmas.NonlinearMellinger

/-!
# C164: the cost reported for a mission compares missions as it should
-/

namespace Verif.Properties

open Verif Verif.Spec Verif.Lemmas Verif.LinOpt

/-- What `computeCost` reports after `solveLinear` is the integral of an optimum. -/
theorem cost_solved {h dim : ℕ} (hdim : 0 < dim) {solve : LinSolver ℝ} (hs : SolvesSystems solve) {q : Problem ℝ} {o o' : LinOpt h ℝ}
    (hh : LinHistory h dim solve (some q) o) (hw : ∀ v ∈ q.vertices, WellFormed v) (hu : o.solveLinear solve = .ok o') :
    Optimal h dim q o'.segments ∧ o'.computeCost = .ok (energy q.derivative.toNat o'.segments) :=
  ⟨⟨solved_candidate q o o' hh hw hdim (.inr hu), fun segs hc => solve_optimal solve hs ((inv_history dim solve _ o hh).2 q rfl) hw hu segs hc⟩,
    C26_cost_solved q o o' hh (.inr hu)⟩

/-- Two optima of one problem cost the same. -/
theorem optima_cost {h dim : ℕ} {q : Problem ℝ} {a b : List (Segment ℝ)} (ha : Optimal h dim q a) (hb : Optimal h dim q b) :
    energy q.derivative.toNat a = energy q.derivative.toNat b :=
  le_antisymm (ha.2 _ hb.1) (hb.2 _ ha.1)

/-- A curve for the problem that prescribes more is one for the other. -/
theorem more_candidate {h dim : ℕ} {q q' : Problem ℝ} (hm : PrescribesMore q q') {a : List (Segment ℝ)} (ha : Candidate h dim q' a) : Candidate h dim q a := by
  obtain ⟨h1, _, h3⟩ := hm
  have hv : ∀ {i : ℕ} {v : Vertex ℝ}, q.vertices[i]? = some v → ∃ v', q'.vertices[i]? = some v' ∧
      ∀ (k : ℕ) (c : List ℝ), v.getConstraint k = some c → v'.getConstraint k = some c := by
    intro i v hv
    obtain ⟨hi, rfl⟩ := List.getElem?_eq_some_iff.mp hv
    rw [List.forall₂_iff_get] at h3
    have hi' : i < q'.vertices.length := h3.1 ▸ hi
    exact ⟨_, List.getElem?_eq_getElem hi', h3.2 i hi hi'⟩
  refine ⟨ha.times.trans h1, ha.dims, ha.degree, fun i s hs k c hk => ⟨fun v hvi hc => ?_, fun v hvi hc => ?_⟩, ha.smooth⟩
  · obtain ⟨v', e1, e2⟩ := hv hvi
    exact (ha.constraints i s hs k c hk).1 v' e1 (e2 k c hc)
  · obtain ⟨v', e1, e2⟩ := hv hvi
    exact (ha.constraints i s hs k c hk).2 v' e1 (e2 k c hc)

/-- C164: a mission that prescribes more, with the same times, does not cost less. -/
theorem C164_more {h dim : ℕ} (hdim : 0 < dim) (solve solve2 : LinSolver ℝ) (hs : SolvesSystems solve) (hs2 : SolvesSystems solve2) (q q' : Problem ℝ)
    (hm : PrescribesMore q q') (o o' o2 o2' : LinOpt h ℝ) (hh : LinHistory h dim solve (some q) o) (hh2 : LinHistory h dim solve2 (some q') o2)
    (hw : ∀ v ∈ q.vertices, WellFormed v) (hw2 : ∀ v ∈ q'.vertices, WellFormed v) (hu : o.solveLinear solve = .ok o')
    (hu2 : o2.solveLinear solve2 = .ok o2') : ∃ cost cost', o'.computeCost = .ok cost ∧ o2'.computeCost = .ok cost' ∧ cost ≤ cost' := by
  obtain ⟨a1, a2⟩ := cost_solved hdim hs hh hw hu
  obtain ⟨b1, b2⟩ := cost_solved hdim hs2 hh2 hw2 hu2
  rw [hm.2.1] at b2
  exact ⟨_, _, a2, b2, a1.2 _ (more_candidate hm b1.1)⟩

/-- C164: one more vertex, within a leg, that prescribes nothing (or nothing but what the trajectory does there in any case) does not make the mission cost more. -/
theorem C164_extra_vertex {h dim : ℕ} (hdim : 0 < dim) (solve solve2 : LinSolver ℝ) (hs : SolvesSystems solve) (hs2 : SolvesSystems solve2) (q : Problem ℝ)
    (ha : AcceptableProblem h dim q) (i : ℕ) (x : ℝ) (u : Vertex ℝ) (o o' o2 o2' : LinOpt h ℝ) (hh : LinHistory h dim solve (some q) o)
    (hh2 : LinHistory h dim solve2 (some (withVertex i x u q)) o2)
    (hw : ∀ v ∈ q.vertices, WellFormed v) (hwu : WellFormed u) (hu : o.solveLinear solve = .ok o') (hu2 : o2.solveLinear solve2 = .ok o2')
    (tr : Trajectory ℝ) (htr : o'.getTrajectory = .ok tr) (s : Segment ℝ) (hsi : tr.segments[i]? = some s)
    (hc : ∀ k < h, ∀ c, u.getConstraint (k : ℕ) = some c → segDeriv s k x = c) :
    ∃ cost cost', o'.computeCost = .ok cost ∧ o2'.computeCost = .ok cost' ∧ cost' ≤ cost := by
  obtain ⟨a1, a2⟩ := cost_solved hdim hs hh hw hu
  obtain ⟨b1, b2⟩ := cost_solved hdim hs2 hh2 (fun v hv => by
    rcases List.mem_append.mp hv with hv | hv
    · exact hw v (List.mem_of_mem_take hv)
    · rcases List.mem_cons.mp hv with rfl | hv
      · exact hwu
      · exact hw v (List.mem_of_mem_drop hv)) hu2
  rw [setSegments_segments _ _ htr] at hsi
  refine ⟨_, _, a2, b2, ?_⟩
  rw [← cutCurve_energy (x := x) q.derivative.toNat hsi]
  exact b1.2 _ (cut_candidate ha.2.2.1 a1.1 hsi hc)

/-- C164: in another frame of reference (turned, mirrored, moved, and enlarged so that squares of lengths are multiplied by `c`) the mission costs `c` times as much;
as much as before if it is not enlarged. -/
theorem C164_frame {h n : ℕ} (hdim : 0 < n) {A : Matrix (Fin n) (Fin n) ℝ} {c : ℝ} (hA : Similarity A c) (b : Fin n → ℝ) (solve solve2 : LinSolver ℝ)
    (hs : SolvesSystems solve) (hs2 : SolvesSystems solve2) (q : Problem ℝ) (o o' o2 o2' : LinOpt h ℝ) (hh : LinHistory h n solve (some q) o)
    (hh2 : LinHistory h n solve2 (some (moveProblem A b q)) o2) (ha : AcceptableProblem h n q) (hw : ∀ v ∈ q.vertices, WellFormed v)
    (hd : 0 < q.derivative) (hu : o.solveLinear solve = .ok o') (hu2 : o2.solveLinear solve2 = .ok o2') :
    ∃ cost, o'.computeCost = .ok cost ∧ o2'.computeCost = .ok (c * cost) := by
  obtain ⟨a1, a2⟩ := cost_solved hdim hs hh hw hu
  obtain ⟨b1, b2⟩ := cost_solved hdim hs2 hh2 (fun v hv => by
    obtain ⟨w, h1, rfl⟩ := List.mem_map.mp hv
    exact moved_wellFormed A b (hw w h1)) hu2
  refine ⟨_, a2, ?_⟩
  rw [b2, optima_cost b1 (moved_optimal hA b q ha hd a1)]
  exact congrArg Except.ok (energy_map _ _ c _ fun s hs => moveSeg_energy hA b (by have := ha.2.1; omega) (show 0 < q.derivative.toNat by omega) s (a1.1.dims s hs) (a1.1.degree s hs))

/-- C164: flown in `σ` times the time, the mission costs `σ ^ (2 * d - 1)` times less, where `d` is the derivative optimised. -/
theorem C164_slow {h dim : ℕ} (hdim : 0 < dim) {σ : ℝ} (hσ : 0 < σ) (solve solve2 : LinSolver ℝ)
    (hs : SolvesSystems solve) (hs2 : SolvesSystems solve2) (q : Problem ℝ) (o o' o2 o2' : LinOpt h ℝ) (hh : LinHistory h dim solve (some q) o)
    (hh2 : LinHistory h dim solve2 (some (slowProblem σ q)) o2) (hw : ∀ v ∈ q.vertices, WellFormed v)
    (hd : 0 < q.derivative) (hu : o.solveLinear solve = .ok o') (hu2 : o2.solveLinear solve2 = .ok o2') :
    ∃ cost, o'.computeCost = .ok cost ∧ o2'.computeCost = .ok (cost / σ ^ (2 * q.derivative.toNat - 1)) := by
  obtain ⟨a1, a2⟩ := cost_solved hdim hs hh hw hu
  obtain ⟨b1, b2⟩ := cost_solved hdim hs2 hh2 (fun v hv => by
    obtain ⟨w, h1, rfl⟩ := List.mem_map.mp hv
    refine ⟨?_, ?_⟩
    · unfold slowVertex
      rw [List.pairwise_map]
      exact (hw w h1).1
    · intro x hx
      obtain ⟨y, hy, rfl⟩ := List.mem_map.mp hx
      simpa [slowVertex] using (hw w h1).2 y hy) hu2
  refine ⟨_, a2, ?_⟩
  rw [b2, optima_cost b1 (slowed_optimal hσ q a1)]
  refine congrArg Except.ok ((energy_map _ _ _ _ fun s _ => slowSeg_energy hσ _ s).trans ?_)
  rw [show (slowProblem σ q).derivative = q.derivative from rfl]
  obtain ⟨m, hm⟩ : ∃ m, q.derivative.toNat = m + 1 := ⟨q.derivative.toNat - 1, by omega⟩
  rw [hm, show 2 * (m + 1) - 1 = m + m + 1 by omega]
  have h1 : σ * (σ⁻¹ ^ (m + 1)) ^ 2 = (σ ^ (m + m + 1))⁻¹ := by
    rw [show m + m + 1 = (m + 1) * 2 - 1 by omega, inv_pow, inv_pow, ← pow_mul]
    obtain ⟨j, hj⟩ : ∃ j, (m + 1) * 2 = j + 1 := ⟨_, rfl⟩
    rw [hj, Nat.add_sub_cancel, pow_succ, mul_inv, mul_comm, mul_assoc, inv_mul_cancel₀ hσ.ne', mul_one]
  rw [h1, div_eq_inv_mul]

/-- A vertex at which nothing but the position is prescribed to be other than zero looks the same at every pace. -/
theorem restful_slow (σ : ℝ) {v : Vertex ℝ} (hv : ∀ x ∈ v.constraints, x.1 ≠ 0 → ∀ y ∈ x.2, y = 0) : slowVertex σ v = v := by
  unfold slowVertex
  obtain ⟨D, cs⟩ := v
  congr 1
  conv_rhs => rw [← List.map_id cs]
  refine List.map_congr_left fun x hx => ?_
  refine Prod.ext rfl ?_
  change x.2.map (· / σ ^ x.1) = x.2
  conv_rhs => rw [← List.map_id x.2]
  refine List.map_congr_left fun y hy => ?_
  by_cases h0 : x.1 = 0
  · simp [h0]
  · simp [hv x hx h0 y hy]

/-- C164: if nothing but positions is prescribed to be other than zero (the vehicle halts, or its derivatives are free), the same mission with `σ` times the time
for every leg costs `σ ^ (2 * d - 1)` times less; in particular more time never costs more. -/
theorem C164_more_time {h dim : ℕ} (hdim : 0 < dim) {σ : ℝ} (hσ : 0 < σ) (solve solve2 : LinSolver ℝ)
    (hs : SolvesSystems solve) (hs2 : SolvesSystems solve2) (q : Problem ℝ) (o o' o2 o2' : LinOpt h ℝ) (hh : LinHistory h dim solve (some q) o)
    (hh2 : LinHistory h dim solve2 (some { q with times := q.times.map (σ * ·) }) o2) (hw : ∀ v ∈ q.vertices, WellFormed v)
    (hv : ∀ v ∈ q.vertices, ∀ x ∈ v.constraints, x.1 ≠ 0 → ∀ y ∈ x.2, y = 0)
    (hd : 0 < q.derivative) (hu : o.solveLinear solve = .ok o') (hu2 : o2.solveLinear solve2 = .ok o2') :
    ∃ cost, o'.computeCost = .ok cost ∧ o2'.computeCost = .ok (cost / σ ^ (2 * q.derivative.toNat - 1)) := by
  refine C164_slow hdim hσ solve solve2 hs hs2 q o o' o2 o2' hh ?_ hw hd hu hu2
  have e : slowProblem σ q = { q with times := q.times.map (σ * ·) } := by
    unfold slowProblem
    congr 1
    conv_rhs => rw [← List.map_id q.vertices]
    exact List.map_congr_left fun v hm => restful_slow σ (hv v hm)
  rw [e]
  exact hh2

/-- C164: flown from the last vertex to the first, the mission costs the same. -/
theorem C164_backwards {h dim : ℕ} (hdim : 0 < dim) (solve solve2 : LinSolver ℝ) (hs : SolvesSystems solve) (hs2 : SolvesSystems solve2) (q : Problem ℝ)
    (o o' o2 o2' : LinOpt h ℝ) (hh : LinHistory h dim solve (some q) o) (hh2 : LinHistory h dim solve2 (some (backProblem q)) o2)
    (ha : AcceptableProblem h dim q) (hw : ∀ v ∈ q.vertices, WellFormed v) (hu : o.solveLinear solve = .ok o') (hu2 : o2.solveLinear solve2 = .ok o2') :
    o2'.computeCost = o'.computeCost := by
  obtain ⟨a1, a2⟩ := cost_solved hdim hs hh hw hu
  obtain ⟨b1, b2⟩ := cost_solved hdim hs2 hh2 (fun v hv => by
    obtain ⟨w, h1, rfl⟩ := List.mem_map.mp (List.mem_reverse.mp hv)
    exact back_wellFormed (hw w h1)) hu2
  rw [a2, b2, optima_cost b1 (back_optimal ha.2.2.1 a1)]
  exact congrArg Except.ok (energy_back _ _)

/-! ## The hypotheses are met -/

/-- `realProblem` with a velocity prescribed at the vertex on the way. -/
noncomputable def steeredProblem : Problem ℝ :=
  ⟨[⟨3, [(0, [0, 0, 0]), (1, [0, 0, 0])]⟩, ⟨3, [(0, [1, 2, 3]), (1, [1, 0, 0])]⟩, ⟨3, [(0, [4, 5, 6]), (1, [0, 0, 0])]⟩], [2, 3], 4⟩

theorem steered_wellFormed : ∀ v ∈ steeredProblem.vertices, WellFormed v := by
  intro v hv
  simp only [steeredProblem, List.mem_cons, List.not_mem_nil, or_false] at hv
  rcases hv with rfl | rfl | rfl <;> refine ⟨?_, ?_⟩ <;> simp

/-- Problems with vertices of dimension 3 and long enough times are acceptable. -/
theorem snapAcceptable_of {q : Problem ℝ} (hw : ∀ v ∈ q.vertices, WellFormed v) (hD : ∀ v ∈ q.vertices, v.D = 3) (hd : q.derivative = 4)
    (hl : q.vertices.length = q.times.length + 1) (ht : ∀ t ∈ q.times, 1 ≤ t) : AcceptableProblem 5 3 q := by
  refine ⟨by rw [hd]; norm_num, by rw [hd]; norm_num, hl, ?_, ?_⟩
  · intro v hv k c _ hc
    rw [← hD v hv]
    exact (hw v hv).2 _ ((IntMap.find_some_iff _ (hw v hv).1 k c).mp hc)
  · intro t h
    exact le_trans (by norm_num) (ht t h)

theorem steered_acceptable : AcceptableProblem 5 3 steeredProblem := by
  refine snapAcceptable_of steered_wellFormed ?_ rfl rfl ?_
  · intro v hv
    simp only [steeredProblem, List.mem_cons, List.not_mem_nil, or_false] at hv
    rcases hv with rfl | rfl | rfl <;> rfl
  · intro t ht
    simp only [steeredProblem, List.mem_cons, List.not_mem_nil, or_false] at ht
    rcases ht with rfl | rfl <;> norm_num

/-- The hypotheses of `C164_more` are met. -/
example : ∃ (o o' o2 o2' : LinOpt 5 ℝ) (cost cost' : ℝ), LinHistory 5 3 exactSolver (some realProblem) o ∧
    LinHistory 5 3 exactSolver (some steeredProblem) o2 ∧ PrescribesMore realProblem steeredProblem ∧ o.solveLinear exactSolver = .ok o' ∧
    o2.solveLinear exactSolver = .ok o2' ∧ o'.computeCost = .ok cost ∧ o2'.computeCost = .ok cost' ∧ cost ≤ cost' := by
  obtain ⟨o, o', tr, h1, h2, h3⟩ := C28_solves (solve := exactSolver) realProblem (by omega) realProblem_wellFormed realProblem_acceptable (by simp [realProblem])
  obtain ⟨o2, o2', tr2, g1, g2, g3⟩ := C28_solves (solve := exactSolver) steeredProblem (by omega) steered_wellFormed steered_acceptable (by simp [steeredProblem])
  have hm : PrescribesMore realProblem steeredProblem := by
    refine ⟨rfl, rfl, .cons (fun _ _ h => h) (.cons (fun k c h => ?_) (.cons (fun _ _ h => h) .nil))⟩
    simp only [Vertex.getConstraint, IntMap.find] at h ⊢
    split at h
    · rename_i hk
      rw [if_pos hk]
      exact h
    · cases h
  obtain ⟨c, c', e1, e2, e3⟩ := C164_more (by omega) _ _ exactSolver_solves exactSolver_solves _ _ hm o o' o2 o2' h1 g1 realProblem_wellFormed
    steered_wellFormed h2 g2
  exact ⟨o, o', o2, o2', c, c', h1, g1, hm, h2, g2, e1, e2, e3⟩

/-- The hypotheses of `C164_extra_vertex` are met: an additional vertex, one second after the first, that prescribes nothing. -/
example : ∃ (o o' o2 o2' : LinOpt 5 ℝ) (cost cost' : ℝ), LinHistory 5 3 exactSolver (some realProblem) o ∧
    LinHistory 5 3 exactSolver (some (withVertex 0 1 ⟨3, []⟩ realProblem)) o2 ∧ o.solveLinear exactSolver = .ok o' ∧
    o2.solveLinear exactSolver = .ok o2' ∧ o'.computeCost = .ok cost ∧ o2'.computeCost = .ok cost' ∧ cost' ≤ cost := by
  have hwu : WellFormed (⟨3, []⟩ : Vertex ℝ) := ⟨by simp, by simp⟩
  have hw : ∀ v ∈ (withVertex 0 1 ⟨3, []⟩ realProblem).vertices, WellFormed v := by
    intro v hv
    simp only [withVertex, realProblem, zero_add, List.take_succ_cons, List.take_zero, List.drop_succ_cons, List.drop_zero, List.cons_append, List.nil_append,
      List.mem_cons, List.not_mem_nil, or_false] at hv
    rcases hv with rfl | rfl | rfl | rfl <;> refine ⟨?_, ?_⟩ <;> simp
  have ha : AcceptableProblem 5 3 (withVertex 0 1 ⟨3, []⟩ realProblem) := by
    refine snapAcceptable_of hw ?_ rfl rfl ?_
    · intro v hv
      simp only [withVertex, realProblem, zero_add, List.take_succ_cons, List.take_zero, List.drop_succ_cons, List.drop_zero, List.cons_append, List.nil_append,
        List.mem_cons, List.not_mem_nil, or_false] at hv
      rcases hv with rfl | rfl | rfl | rfl <;> rfl
    · intro t ht
      simp only [withVertex, realProblem, zero_add, List.take_zero, List.drop_succ_cons, List.drop_zero, List.nil_append, List.getD_cons_zero,
        List.mem_cons, List.not_mem_nil, or_false] at ht
      rcases ht with rfl | rfl | rfl <;> norm_num
  obtain ⟨o, o', tr, h1, h2, h3⟩ := C28_solves (solve := exactSolver) realProblem (by omega) realProblem_wellFormed realProblem_acceptable (by simp [realProblem])
  obtain ⟨o2, o2', tr2, g1, g2, g3⟩ := C28_solves (solve := exactSolver) _ (by omega) hw ha (by simp [withVertex])
  have hc := (C27_optimal realProblem o o' h1 realProblem_wellFormed exactSolver_solves h2 tr h3).1 (by omega)
  have hlen : tr.segments.length = 2 := by
    have := congrArg List.length hc.times
    simpa [realProblem] using this
  obtain ⟨c, c', e1, e2, e3⟩ := C164_extra_vertex (by omega) _ _ exactSolver_solves exactSolver_solves _ realProblem_acceptable 0 1 ⟨3, []⟩ o o' o2 o2' h1 g1
    realProblem_wellFormed hwu h2 g2 tr h3 (tr.segments[0]'(by omega)) (List.getElem?_eq_getElem (by omega)) (fun k _ c hk => by
      simp [Vertex.getConstraint, IntMap.find] at hk)
  exact ⟨o, o', o2, o2', c, c', h1, g1, h2, g2, e1, e2, e3⟩

/-- The hypotheses of `C164_slow` and `C164_backwards` are met: twice as slow, the mission costs a 128th. -/
example : ∃ (o o' o2 o2' o3 o3' : LinOpt 5 ℝ) (cost : ℝ), LinHistory 5 3 exactSolver (some realProblem) o ∧
    LinHistory 5 3 exactSolver (some (slowProblem 2 realProblem)) o2 ∧ LinHistory 5 3 exactSolver (some (backProblem realProblem)) o3 ∧
    o.solveLinear exactSolver = .ok o' ∧ o2.solveLinear exactSolver = .ok o2' ∧ o3.solveLinear exactSolver = .ok o3' ∧ o'.computeCost = .ok cost ∧
    o2'.computeCost = .ok (cost / 128) ∧ o3'.computeCost = .ok cost := by
  have hw2 : ∀ v ∈ (slowProblem 2 realProblem).vertices, WellFormed v := by
    intro v hv
    obtain ⟨w, h1, rfl⟩ := List.mem_map.mp hv
    refine ⟨?_, ?_⟩
    · unfold slowVertex
      rw [List.pairwise_map]
      exact (realProblem_wellFormed w h1).1
    · intro x hx
      obtain ⟨y, hy, rfl⟩ := List.mem_map.mp hx
      simpa [slowVertex] using (realProblem_wellFormed w h1).2 y hy
  have ha2 : AcceptableProblem 5 3 (slowProblem 2 realProblem) := by
    refine snapAcceptable_of hw2 ?_ rfl rfl ?_
    · intro v hv
      obtain ⟨w, h1, rfl⟩ := List.mem_map.mp hv
      simp only [realProblem, List.mem_cons, List.not_mem_nil, or_false] at h1
      rcases h1 with rfl | rfl | rfl <;> rfl
    · intro t ht
      simp only [slowProblem, realProblem, List.map_cons, List.map_nil, List.mem_cons, List.not_mem_nil, or_false] at ht
      rcases ht with rfl | rfl <;> norm_num
  obtain ⟨o, o', tr, h1, h2, h3⟩ := C28_solves (solve := exactSolver) realProblem (by omega) realProblem_wellFormed realProblem_acceptable (by simp [realProblem])
  obtain ⟨o2, o2', tr2, g1, g2, g3⟩ := C28_solves (solve := exactSolver) _ (by omega) hw2 ha2 (by simp [slowProblem, realProblem])
  obtain ⟨o3, o3', tr3, k1, k2, k3⟩ := C28_solves (solve := exactSolver) (backProblem realProblem) (by omega) (fun v hv => by
    obtain ⟨w, h1, rfl⟩ := List.mem_map.mp (List.mem_reverse.mp hv)
    exact back_wellFormed (realProblem_wellFormed w h1)) (back_acceptable realProblem_acceptable) (by simp [backProblem, realProblem])
  obtain ⟨c, e1, e2⟩ := C164_slow (by omega) two_pos _ _ exactSolver_solves exactSolver_solves realProblem o o' o2 o2' h1 g1 realProblem_wellFormed
    (by norm_num [realProblem]) h2 g2
  have e3 := C164_backwards (by omega) _ _ exactSolver_solves exactSolver_solves realProblem o o' o3 o3' h1 k1 realProblem_acceptable realProblem_wellFormed h2 k2
  refine ⟨o, o', o2, o2', o3, o3', c, h1, g1, k1, h2, g2, k2, e1, ?_, e3.trans e1⟩
  rw [e2, show 2 * realProblem.derivative.toNat - 1 = 7 from rfl]
  norm_num

/-- The hypotheses of `C164_more_time` are met by the same object, given twice the times after the first solution. -/
example : ∃ (o o' o2 o2' : LinOpt 5 ℝ) (cost : ℝ), LinHistory 5 3 exactSolver (some realProblem) o ∧ o.solveLinear exactSolver = .ok o' ∧
    o'.updateSegmentTimes [4, 6] = .ok o2 ∧ o2.solveLinear exactSolver = .ok o2' ∧ o'.computeCost = .ok cost ∧ o2'.computeCost = .ok (cost / 128) := by
  obtain ⟨o, o', tr, h1, h2, h3⟩ := C28_solves (solve := exactSolver) realProblem (by omega) realProblem_wellFormed realProblem_acceptable (by simp [realProblem])
  obtain ⟨o2, o2', g1, g2, g3, _⟩ := resolve_total (.solve h1 h2) (by omega) (by simp [realProblem]) (solvable_of_solved h1 (.inr h2)) [4, 6] rfl (by
    intro t ht
    simp only [List.mem_cons, List.not_mem_nil, or_false] at ht
    rcases ht with rfl | rfl <;> norm_num [Poly.dblEps])
  have hv : ∀ v ∈ realProblem.vertices, ∀ x ∈ v.constraints, x.1 ≠ 0 → ∀ y ∈ x.2, y = 0 := by
    intro v hv
    simp only [realProblem, List.mem_cons, List.not_mem_nil, or_false] at hv
    rcases hv with rfl | rfl | rfl <;> simp
  have e : ({ realProblem with times := realProblem.times.map (2 * ·) } : Problem ℝ) = { realProblem with times := [4, 6] } := by
    simp [realProblem]; norm_num
  obtain ⟨c, e1, e2⟩ := C164_more_time (by omega) two_pos _ _ exactSolver_solves exactSolver_solves realProblem o o' o2 o2' h1 (by rw [e]; exact g3) realProblem_wellFormed hv
    (by norm_num [realProblem]) h2 g2
  refine ⟨o, o', o2, o2', c, h1, h2, g1, g2, e1, ?_⟩
  rw [e2, show 2 * realProblem.derivative.toNat - 1 = 7 from rfl]
  norm_num

/-- The hypotheses of `C164_frame` are met: turned, moved and twice as large, the mission costs four times as much. -/
example : ∃ (o o' o2 o2' : LinOpt 5 ℝ) (cost : ℝ), LinHistory 5 3 exactSolver (some realProblem) o ∧
    LinHistory 5 3 exactSolver (some (moveProblem ((2 : ℝ) • quarterTurn) ![1, 2, 3] realProblem)) o2 ∧ o.solveLinear exactSolver = .ok o' ∧
    o2.solveLinear exactSolver = .ok o2' ∧ o'.computeCost = .ok cost ∧ o2'.computeCost = .ok (4 * cost) := by
  obtain ⟨o, o', tr, h1, h2, h3⟩ := C28_solves (solve := exactSolver) realProblem (by omega) realProblem_wellFormed realProblem_acceptable (by simp [realProblem])
  obtain ⟨o2, o2', tr2, g1, g2, g3⟩ := C28_solves (solve := exactSolver) (moveProblem ((2 : ℝ) • quarterTurn) ![1, 2, 3] realProblem) (by omega)
    (fun v hv => by
      obtain ⟨w, h1, rfl⟩ := List.mem_map.mp hv
      exact moved_wellFormed _ _ (realProblem_wellFormed w h1)) (moved_acceptable _ _ realProblem_acceptable) (by simp [realProblem, moveProblem])
  obtain ⟨c, e1, e2⟩ := C164_frame (by omega) enlarged_similarity _ _ _ exactSolver_solves exactSolver_solves realProblem o o' o2 o2' h1 g1
    realProblem_acceptable realProblem_wellFormed (show (0 : Int) < 4 by norm_num) h2 g2
  exact ⟨o, o', o2, o2', c, h1, g1, h2, g2, e1, e2⟩

end Verif.Properties
