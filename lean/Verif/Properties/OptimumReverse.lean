import Verif.Lemmas.OptimumReverse
import Verif.Properties.OptimumFrame

/-!
# C160: the linear optimum of the mission flown backwards is the optimum flown backwards
-/

namespace Verif.Properties

open Verif Verif.Spec Verif.Lemmas Verif.LinOpt Polynomial

theorem back_acceptable {h dim : ℕ} {q : Problem ℝ} (ha : AcceptableProblem h dim q) : AcceptableProblem h dim (backProblem q) := by
  obtain ⟨a1, a2, a3, a4, a5⟩ := ha
  refine ⟨a1, a2, by simp [backProblem, a3], ?_, fun t ht => a5 t (List.mem_reverse.mp ht)⟩
  intro v hv k c hk hc
  obtain ⟨w, hw, rfl⟩ := List.mem_map.mp (List.mem_reverse.mp hv)
  rw [backVertex_get, Option.map_eq_some_iff] at hc
  obtain ⟨c, hc, rfl⟩ := hc
  unfold backValue
  rw [List.length_map]
  exact a4 w hw k c hk hc

theorem back_wellFormed {v : Vertex ℝ} (hw : WellFormed v) : WellFormed (backVertex v) := by
  refine ⟨?_, ?_⟩
  · unfold backVertex
    rw [List.pairwise_map]
    exact hw.1
  · intro x hx
    obtain ⟨y, hy, rfl⟩ := List.mem_map.mp hx
    simpa [backVertex, backValue] using hw.2 y hy

/-- C160: if enough is prescribed for one optimum, the optimum of the problem flown from the last vertex to the first is the optimum flown backwards. -/
theorem C160_optimum {h dim : ℕ} (q : Problem ℝ) (ha : AcceptableProblem h dim q) (hg : ∀ v ∈ q.vertices, NoGaps q.derivative.toNat v)
    (hn : q.derivative.toNat ≤ (q.vertices.map (prescribedBelow q.derivative.toNat)).sum) (a a' : List (Segment ℝ)) (ho : Optimal h dim q a)
    (ho' : Optimal h dim (backProblem q) a') : BackwardsCurve a a' := by
  have hk : ∀ (v : Vertex ℝ) (k : ℕ), ((backVertex v).getConstraint k).isSome = (v.getConstraint k).isSome := fun v k => by
    rw [backVertex_get, Option.isSome_map]
  have g1 : ∀ v ∈ (backProblem q).vertices, NoGaps (backProblem q).derivative.toNat v := by
    intro v hv
    obtain ⟨w, hw, rfl⟩ := List.mem_map.mp (List.mem_reverse.mp hv)
    exact (prescribed_congr (hk w)).1 (hg w hw)
  have g2 : ((backProblem q).vertices.map (prescribedBelow q.derivative.toNat)).sum = (q.vertices.map (prescribedBelow q.derivative.toNat)).sum := by
    unfold backProblem
    simp only [List.map_reverse, List.sum_reverse, List.map_map]
    congr 1
    exact List.map_congr_left fun v _ => (prescribed_congr (d := q.derivative.toNat) (hk v)).2
  have hs := sameCurve_deriv (C139_only (back_acceptable ha) g1 (by rw [show (backProblem q).derivative = q.derivative from rfl, g2]; exact hn) _ _
    (back_optimal ha.2.2.1 ho) ho')
  rw [← List.map_reverse, List.forall₂_map_left_iff] at hs
  unfold BackwardsCurve
  refine hs.imp fun s s' hs => ⟨hs.1.symm, fun k x => ?_⟩
  rw [← hs.2 k, backSeg_deriv]

/-- C160: `solveLinear` on an object with the problem flown backwards returns the trajectory flown backwards; whatever the objects were used for before, and
whichever exact solvers they use. -/
theorem C160_solve {h dim : ℕ} (hdim : 0 < dim) (solve solve2 : LinSolver ℝ) (hs : SolvesSystems solve) (hs2 : SolvesSystems solve2) (q : Problem ℝ)
    (o o' o2 o2' : LinOpt h ℝ) (hh : LinHistory h dim solve (some q) o) (hh2 : LinHistory h dim solve2 (some (backProblem q)) o2)
    (ha : AcceptableProblem h dim q) (hw : ∀ v ∈ q.vertices, WellFormed v) (hg : ∀ v ∈ q.vertices, NoGaps q.derivative.toNat v)
    (hn : q.derivative.toNat ≤ (q.vertices.map (prescribedBelow q.derivative.toNat)).sum) (hu : o.solveLinear solve = .ok o')
    (hu2 : o2.solveLinear solve2 = .ok o2') (tr tr2 : Trajectory ℝ) (htr : o'.getTrajectory = .ok tr) (htr2 : o2'.getTrajectory = .ok tr2) :
    BackwardsCurve tr.segments tr2.segments := by
  obtain ⟨a1, a2⟩ := C27_optimal q o o' hh hw hs hu tr htr
  obtain ⟨b1, b2⟩ := C27_optimal _ o2 o2' hh2 (fun v hv => by
    obtain ⟨w, h1, rfl⟩ := List.mem_map.mp (List.mem_reverse.mp hv)
    exact back_wellFormed (hw w h1)) hs2 hu2 tr2 htr2
  exact C160_optimum q ha hg hn _ _ ⟨a1 hdim, a2⟩ ⟨b1 hdim, b2⟩

/-! ## The planner's optimisation, with its time estimate -/

theorem back_norm (k : Int) (x : List ℝ) : vnorm (backValue k x) = vnorm x := by
  unfold vnorm backValue
  congr 1
  rw [List.map_map]
  congr 1
  refine List.map_congr_left fun y _ => ?_
  simp only [Function.comp]
  have h1 : ((-1 : ℝ) ^ k) ^ 2 = 1 := by rw [sq, ← mul_zpow]; norm_num
  rw [mul_pow, h1, one_mul]

theorem sub_norm (v w : List ℝ) : vnorm (List.zipWith (· - ·) v w) = vnorm (List.zipWith (· - ·) w v) := by
  unfold vnorm
  congr 1
  induction v generalizing w with
  | nil => simp
  | cons a v ih =>
    cases w with
    | nil => simp
    | cons b w =>
      simp only [List.zipWith_cons_cons, List.map_cons, List.sum_cons]
      rw [ih w]
      ring

theorem back_time (v w : Vertex ℝ) (s a : ℝ) : nfabianTime (backVertex w) (backVertex v) s a = nfabianTime v w s a := by
  have slow : ∀ v : Vertex ℝ, slowEnd (backVertex v) = slowEnd v := by
    intro v
    unfold slowEnd
    rw [backVertex_get]
    cases v.getConstraint 1 with
    | none => rfl
    | some x => simp only [Option.map_some, back_norm]
  have pos : ∀ v : Vertex ℝ, (backVertex v).getConstraint 0 = v.getConstraint 0 := by
    intro v
    rw [backVertex_get]
    cases v.getConstraint 0 <;> simp [backValue]
  unfold nfabianTime
  rw [slow, slow, pos, pos, Bool.or_comm]
  simp only
  generalize (v.getConstraint 0).getD [] = p
  generalize (w.getConstraint 0).getD [] = r
  unfold vsub
  by_cases h : p.length = r.length
  · rw [if_pos h, if_pos h.symm]
    simp only [bind, Except.bind]
    rw [sub_norm]
  · rw [if_neg h, if_neg (Ne.symm h)]

theorem loop_append (s a : ℝ) (vs : List (Vertex ℝ)) (v w : Vertex ℝ) (ts : List ℝ) (t : ℝ) (h : nfabianLoop s a (vs ++ [v]) = .ok ts)
    (ht : nfabianTime v w s a = .ok t) : nfabianLoop s a (vs ++ [v, w]) = .ok (ts ++ [t]) := by
  induction vs generalizing ts with
  | nil =>
    obtain rfl := Except.ok.inj h
    rw [List.nil_append, nfabianLoop, ht]
    rfl
  | cons x vs ih =>
    have step : ∀ (y : Vertex ℝ) (l : List (Vertex ℝ)) (l' : List (Vertex ℝ)), vs ++ [v] = y :: l → vs ++ [v, w] = y :: l' →
        nfabianLoop s a ((x :: vs) ++ [v, w]) = .ok (ts ++ [t]) := by
      intro y l l' e e'
      rw [List.cons_append, e] at h
      rw [List.cons_append, e']
      rw [nfabianLoop] at h ⊢
      cases e1 : nfabianTime x y s a with
      | error f => rw [e1] at h; cases h
      | ok u =>
        rw [e1] at h
        simp only [bind, Except.bind] at h ⊢
        cases e2 : nfabianLoop s a (y :: l) with
        | error f => rw [e2] at h; cases h
        | ok r =>
          rw [e2] at h
          obtain rfl := Except.ok.inj h
          have := ih r (by rw [e]; exact e2)
          rw [e'] at this
          rw [this]
          rfl
    cases vs with
    | nil => exact step v [] [w] rfl rfl
    | cons y vs => exact step y _ _ rfl rfl

/-- Flown backwards, the segments are given the same times. -/
theorem back_times (s a : ℝ) (vs : List (Vertex ℝ)) (ts : List ℝ) (h : estimateSegmentTimes vs s a = .ok ts) :
    estimateSegmentTimes (vs.map backVertex).reverse s a = .ok ts.reverse := by
  have loop : ∀ (vs : List (Vertex ℝ)) (ts : List ℝ), nfabianLoop s a vs = .ok ts → nfabianLoop s a (vs.map backVertex).reverse = .ok ts.reverse := by
    intro vs
    induction vs with
    | nil => intro ts h; obtain rfl := Except.ok.inj h; rfl
    | cons v l ih =>
      intro ts h
      cases l with
      | nil => obtain rfl := Except.ok.inj h; rfl
      | cons w l =>
        rw [nfabianLoop] at h
        cases e1 : nfabianTime v w s a with
        | error f => rw [e1] at h; cases h
        | ok t =>
          rw [e1] at h
          simp only [bind, Except.bind] at h
          cases e2 : nfabianLoop s a (w :: l) with
          | error f => rw [e2] at h; cases h
          | ok r =>
            rw [e2] at h
            obtain rfl := Except.ok.inj h
            have ih := ih r e2
            rw [List.map_cons, List.reverse_cons] at ih
            rw [List.map_cons, List.map_cons, List.reverse_cons, List.reverse_cons, List.append_assoc, List.reverse_cons]
            exact loop_append s a _ _ _ _ t ih (by rw [back_time]; exact e1)
  unfold estimateSegmentTimes at h ⊢
  rw [List.length_reverse, List.length_map]
  split at h
  · cases h
  · rename_i hl
    rw [if_neg hl]
    exact loop vs ts h

/-- C160 for the planner's optimiser with the linear method, its estimate of the times included: if it finds a trajectory through the vertices handed over, it
finds the same trajectory, flown backwards, through the vertices in reverse order. -/
theorem C160_planner (be be2 : OptBackend) (hacc : be.aMax = be2.aMax) (hs : SolvesSystems be.solve) (hs2 : SolvesSystems be2.solve)
    (vs : List (Vertex ℝ)) (speed : ℝ) (hl : 2 ≤ vs.length)
    (hv : ∀ v ∈ vs, WellFormed v ∧ v.D = 3 ∧ ∃ p, v.getConstraint 0 = some p) (tr : Trajectory ℝ) (h1 : (be.env true).optimize vs speed = .ok tr) :
    ∃ tr2, (be2.env true).optimize (vs.map backVertex).reverse speed = .ok tr2 ∧ BackwardsCurve tr.segments tr2.segments := by
  have hw : ∀ v ∈ vs, WellFormed v := fun v h => (hv v h).1
  obtain ⟨ts, o, o', e1, e2, e3, e4⟩ := (optimize_linear_iff be vs speed tr).mp h1
  have hq : AcceptableProblem 5 3 (⟨vs, ts, 2⟩ : Problem ℝ) := (C28_setup_iff none (LinOpt.init 5 ℝ 3) (.new (solve := be.solve)) ⟨vs, ts, 2⟩ (by omega) hw).mp ⟨o, e2⟩
  have hq2 := back_acceptable hq
  have hw2 : ∀ v ∈ (backProblem ⟨vs, ts, 2⟩).vertices, WellFormed v := fun v hv => by
    obtain ⟨w, h1, rfl⟩ := List.mem_map.mp (List.mem_reverse.mp hv)
    exact back_wellFormed (hw w h1)
  have hts : ts ≠ [] := by
    rintro rfl
    have := hq.2.2.1
    have h2 := hl
    simp_all
  have hts2 : (backProblem ⟨vs, ts, 2⟩).times ≠ [] := fun e => hts (List.reverse_eq_nil_iff.mp e)
  obtain ⟨o2, g2⟩ := setup_total 3 (backProblem ⟨vs, ts, 2⟩) (LinOpt.init 5 ℝ 3) rfl (by omega) hw2 hq2
  have hh2 : LinHistory 5 3 be2.solve (some (backProblem ⟨vs, ts, 2⟩)) o2 := .setup _ .new g2
  obtain ⟨hi, hf⟩ := setupFromVertices_ok 3 (backProblem ⟨vs, ts, 2⟩) _ o2 ⟨rfl, by simp [LinOpt.init]⟩ g2
  obtain ⟨o2', g3⟩ := solve_total 3 (backProblem ⟨vs, ts, 2⟩) be2.solve o2 hi (List.length_pos_iff.mpr hts2) (fun _ => by
    rw [hf]
    exact ⟨by simp [LinOpt.init], fun v hv => (List.mem_replicate.mp hv).2⟩)
  have hi' := inv_solve 3 _ be2.solve o2 o2' hi g3
  obtain ⟨tr2, g4⟩ := getTrajectory_total 3 o2' hi'.shape (by
    intro e
    have := hi'.segLength
    rw [e] at this
    exact hts2 (List.length_eq_zero_iff.mp this.symm))
  obtain ⟨k1, k2⟩ := handed_enough (speed := 1) ⟨hl, one_pos, hv⟩
  refine ⟨tr2, (optimize_linear_iff be2 _ speed tr2).mpr ⟨ts.reverse, o2, o2', ?_, g2, g3, g4⟩, C160_solve (by omega) be.solve be2.solve hs hs2 ⟨vs, ts, 2⟩ o o' o2 o2'
    (.setup ⟨vs, ts, 2⟩ .new e2) hh2 hq hw k1 k2 e3 g3 tr tr2 e4 g4⟩
  rw [← hacc]
  exact back_times speed be.aMax vs ts e1

/-! ## Concrete cases -/

/-- The hypotheses of `C160_planner` are met. -/
example : ∃ tr tr2, (sampleBackend.env true).optimize realProblem.vertices 1 = .ok tr ∧
    (sampleBackend.env true).optimize (realProblem.vertices.map backVertex).reverse 1 = .ok tr2 ∧ BackwardsCurve tr.segments tr2.segments := by
  obtain ⟨tr, _, h, _⟩ := C85_linear_succeeds sampleBackend one_pos _ _ sample_handed sample_estimates
  obtain ⟨tr2, h2, h3⟩ := C160_planner sampleBackend sampleBackend rfl exactSolver_solves exactSolver_solves _ 1 sample_handed.1 sample_handed.2.2 tr h
  exact ⟨tr, tr2, h, h2, h3⟩

/-- The hypotheses of `C160_solve` are met: both problems are accepted and solved. -/
example : ∃ (o o' o2 o2' : LinOpt 5 ℝ) (tr tr2 : Trajectory ℝ), LinHistory 5 3 exactSolver (some realProblem) o ∧
    LinHistory 5 3 exactSolver (some (backProblem realProblem)) o2 ∧ o.solveLinear exactSolver = .ok o' ∧
    o2.solveLinear exactSolver = .ok o2' ∧ o'.getTrajectory = .ok tr ∧ o2'.getTrajectory = .ok tr2 ∧ BackwardsCurve tr.segments tr2.segments := by
  obtain ⟨o, o', tr, h1, h2, h3⟩ := C28_solves (solve := exactSolver) realProblem (by omega) realProblem_wellFormed realProblem_acceptable (by simp [realProblem])
  obtain ⟨o2, o2', tr2, g1, g2, g3⟩ := C28_solves (solve := exactSolver) (backProblem realProblem) (by omega)
    (fun v hv => by
      obtain ⟨w, h1, rfl⟩ := List.mem_map.mp (List.mem_reverse.mp hv)
      exact back_wellFormed (realProblem_wellFormed w h1)) (back_acceptable realProblem_acceptable) (by simp [realProblem, backProblem])
  exact ⟨o, o', o2, o2', tr, tr2, h1, g1, h2, g2, h3, g3, C160_solve (by omega) _ _ exactSolver_solves exactSolver_solves realProblem o o' o2 o2'
    h1 g1 realProblem_acceptable realProblem_wellFormed realProblem_enough.1
    (by rw [show realProblem.derivative.toNat = 4 from rfl, realProblem_enough.2]; omega) h2 g2 tr tr2 h3 g3⟩

/-- A vertex passed at a velocity is passed at the opposite velocity. -/
example : (backVertex ⟨3, [(0, [1, 2, 3]), (1, [1, 0, 0]), (2, [0, 5, 0])]⟩).constraints = [(0, [1, 2, 3]), (1, [-1, 0, 0]), (2, [0, 5, 0])] := by
  simp [backVertex, backValue]

end Verif.Properties
