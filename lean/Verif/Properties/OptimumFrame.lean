import Verif.Lemmas.OptimumFrame

/-!
# C158, C159: the linear optimum does not depend on the frame of reference nor on the unit of time
-/

namespace Verif.Properties

open Verif Verif.Spec Verif.Lemmas Verif.LinOpt Polynomial

theorem sameCurve_deriv {a b : List (Segment ℝ)} (h : SameCurve a b) :
    List.Forall₂ (fun s s' => s.time = s'.time ∧ ∀ (k : ℕ) (x : ℝ), segDeriv s k x = segDeriv s' k x) a b := by
  refine h.imp fun s s' hs => ⟨hs.1, fun k x => ?_⟩
  have hp := hs.2
  unfold segDeriv
  generalize s.polys = l at hp
  generalize s'.polys = l' at hp
  induction hp with
  | nil => rfl
  | cons h1 _ ih =>
    rw [List.map_cons, List.map_cons, ih]
    congr 1
    have h2 : ofCoeffs _ = ofCoeffs _ := Polynomial.funext fun x => h1 x
    unfold derivAt
    rw [h2]

theorem prescribed_congr {d : ℕ} {v v' : Vertex ℝ} (h : ∀ k : ℕ, (v'.getConstraint k).isSome = (v.getConstraint k).isSome) :
    (NoGaps d v → NoGaps d v') ∧ prescribedBelow d v' = prescribedBelow d v := by
  refine ⟨fun hg k k' h1 h2 h3 => ?_, ?_⟩
  · rw [h] at h3 ⊢; exact hg k k' h1 h2 h3
  · unfold prescribedBelow; simp only [h]

theorem moved_acceptable {h n : ℕ} (A : Matrix (Fin n) (Fin n) ℝ) (b : Fin n → ℝ) {q : Problem ℝ} (ha : AcceptableProblem h n q) :
    AcceptableProblem h n (moveProblem A b q) := by
  obtain ⟨a1, a2, a3, a4, a5⟩ := ha
  refine ⟨a1, a2, by simp [moveProblem, a3], ?_, a5⟩
  intro v hv k c _ hc
  obtain ⟨w, _, rfl⟩ := List.mem_map.mp hv
  rw [moveVertex_get, Option.map_eq_some_iff] at hc
  obtain ⟨c, _, rfl⟩ := hc
  simp [moveValue, moveVec]

theorem moved_wellFormed {n : ℕ} (A : Matrix (Fin n) (Fin n) ℝ) (b : Fin n → ℝ) {v : Vertex ℝ} (hw : WellFormed v) : WellFormed (moveVertex A b v) := by
  refine ⟨?_, ?_⟩
  · unfold moveVertex
    rw [List.pairwise_map]
    exact hw.1
  · intro x hx
    obtain ⟨y, _, rfl⟩ := List.mem_map.mp hx
    simp [moveValue, moveVec, moveVertex]

theorem moved_enough {n : ℕ} (A : Matrix (Fin n) (Fin n) ℝ) (b : Fin n → ℝ) {q : Problem ℝ} (hg : ∀ v ∈ q.vertices, NoGaps q.derivative.toNat v) :
    (∀ v ∈ (moveProblem A b q).vertices, NoGaps q.derivative.toNat v) ∧
    ((moveProblem A b q).vertices.map (prescribedBelow q.derivative.toNat)).sum = (q.vertices.map (prescribedBelow q.derivative.toNat)).sum := by
  have hk : ∀ (v : Vertex ℝ) (k : ℕ), ((moveVertex A b v).getConstraint k).isSome = (v.getConstraint k).isSome := fun v k => by
    rw [moveVertex_get, Option.isSome_map]
  constructor
  · intro v hv
    obtain ⟨w, hw, rfl⟩ := List.mem_map.mp hv
    exact (prescribed_congr (hk w)).1 (hg w hw)
  · unfold moveProblem
    simp only [List.map_map]
    congr 1
    exact List.map_congr_left fun v _ => (prescribed_congr (d := q.derivative.toNat) (hk v)).2

/-- C158: if enough is prescribed for one optimum, and a derivative of positions is optimised, the optimum in another frame of reference (turned, mirrored,
moved, enlarged) is the optimum in the old one, seen from the new one. -/
theorem C158_optimum {h n : ℕ} {A : Matrix (Fin n) (Fin n) ℝ} {c : ℝ} (hA : Similarity A c) (b : Fin n → ℝ) (q : Problem ℝ)
    (ha : AcceptableProblem h n q) (hd : 0 < q.derivative) (hg : ∀ v ∈ q.vertices, NoGaps q.derivative.toNat v)
    (hn : q.derivative.toNat ≤ (q.vertices.map (prescribedBelow q.derivative.toNat)).sum) (a a' : List (Segment ℝ)) (ho : Optimal h n q a)
    (ho' : Optimal h n (moveProblem A b q) a') : MovedCurve A b a a' := by
  obtain ⟨g1, g2⟩ := moved_enough A b hg
  have hs := sameCurve_deriv (C139_only (moved_acceptable A b ha) g1 (by rw [show (moveProblem A b q).derivative = q.derivative from rfl, g2]; exact hn) _ _
    (moved_optimal hA b q ha hd ho) ho')
  rw [List.forall₂_map_left_iff] at hs
  have hh : 0 < h := by have := ha.2.1; omega
  unfold MovedCurve
  have hdeg := ho.1.degree
  rw [List.forall₂_iff_get] at hs ⊢
  refine ⟨hs.1, fun i h1 h2 => ?_⟩
  obtain ⟨e1, e2⟩ := hs.2 i h1 h2
  refine ⟨e1.symm, fun k x => ?_⟩
  rw [← e2 k x, moveSeg_deriv A b (by omega) _ (hdeg _ (List.get_mem _ _))]

/-- C158: `solveLinear` on an object with the problem in the new frame returns the trajectory of the problem in the old frame, seen from the new one; whatever
the objects were used for before, and whichever exact solvers they use. -/
theorem C158_solve {h n : ℕ} (hdim : 0 < n) {A : Matrix (Fin n) (Fin n) ℝ} {c : ℝ} (hA : Similarity A c) (b : Fin n → ℝ) (solve solve2 : LinSolver ℝ)
    (hs : SolvesSystems solve) (hs2 : SolvesSystems solve2) (q : Problem ℝ) (o o' o2 o2' : LinOpt h ℝ) (hh : LinHistory h n solve (some q) o)
    (hh2 : LinHistory h n solve2 (some (moveProblem A b q)) o2) (ha : AcceptableProblem h n q) (hw : ∀ v ∈ q.vertices, WellFormed v)
    (hd : 0 < q.derivative) (hg : ∀ v ∈ q.vertices, NoGaps q.derivative.toNat v)
    (hn : q.derivative.toNat ≤ (q.vertices.map (prescribedBelow q.derivative.toNat)).sum) (hu : o.solveLinear solve = .ok o')
    (hu2 : o2.solveLinear solve2 = .ok o2') (tr tr2 : Trajectory ℝ) (htr : o'.getTrajectory = .ok tr) (htr2 : o2'.getTrajectory = .ok tr2) :
    MovedCurve A b tr.segments tr2.segments := by
  obtain ⟨a1, a2⟩ := C27_optimal q o o' hh hw hs hu tr htr
  obtain ⟨b1, b2⟩ := C27_optimal _ o2 o2' hh2 (fun v hv => by
    obtain ⟨w, h1, rfl⟩ := List.mem_map.mp hv
    exact moved_wellFormed A b (hw w h1)) hs2 hu2 tr2 htr2
  exact C158_optimum hA b q ha hd hg hn _ _ ⟨a1 hdim, a2⟩ ⟨b1 hdim, b2⟩

/-! ## The planner's optimisation, with its time estimate -/

theorem moved_norm {n : ℕ} {A : Matrix (Fin n) (Fin n) ℝ} (hA : Similarity A 1) (v : List ℝ) (hv : v.length = n) : vnorm (moveVec A 0 v) = vnorm v := by
  unfold vnorm moveVec
  congr 1
  rw [List.map_ofFn, List.sum_ofFn]
  simp only [Function.comp, Pi.zero_apply, add_zero]
  rw [similarity_norm hA fun j => v.getD j 0, one_mul]
  subst hv
  rw [← List.sum_ofFn]
  congr 1
  apply List.ext_getElem
  · simp
  · intro i h1 h2
    have hi : i < v.length := by simpa using h1
    rw [List.getElem_ofFn, List.getElem_map]
    simp only [List.getD_eq_getElem?_getD, List.getElem?_eq_getElem hi, Option.getD_some]

theorem moved_sub {n : ℕ} (A : Matrix (Fin n) (Fin n) ℝ) (b : Fin n → ℝ) (v w : List ℝ) (hv : v.length = n) (hw : w.length = n) :
    List.zipWith (· - ·) (moveVec A b v) (moveVec A b w) = moveVec A 0 (List.zipWith (· - ·) v w) := by
  apply List.ext_getElem
  · simp [moveVec]
  · intro i h1 h2
    have hi : i < n := by simpa [moveVec] using h2
    have at_ : ∀ (b : Fin n → ℝ) (v : List ℝ) (h : i < (moveVec A b v).length), (moveVec A b v)[i] = ∑ j, A ⟨i, hi⟩ j * v.getD j 0 + b ⟨i, hi⟩ := fun b v h => by
      unfold moveVec; exact List.getElem_ofFn _
    rw [List.getElem_zipWith, at_, at_, at_, Pi.zero_apply, add_zero, add_sub_add_right_eq_sub, ← Finset.sum_sub_distrib]
    refine Finset.sum_congr rfl fun j _ => ?_
    have h3 : (List.zipWith (· - ·) v w).getD j 0 = v.getD j 0 - w.getD j 0 := by
      have hj1 : (j : ℕ) < v.length := by omega
      have hj2 : (j : ℕ) < w.length := by omega
      simp only [List.getD_eq_getElem?_getD, List.getElem?_zipWith, List.getElem?_eq_getElem hj1, List.getElem?_eq_getElem hj2, Option.getD_some]
    rw [h3]; ring

/-- The time estimated for a segment is the same in a frame that is turned, mirrored and moved. -/
theorem moved_time {A : Matrix (Fin 3) (Fin 3) ℝ} (hA : Similarity A 1) (b : Fin 3 → ℝ) (v w : Vertex ℝ) (hv : WellFormed v ∧ v.D = 3 ∧ ∃ p, v.getConstraint 0 = some p)
    (hw : WellFormed w ∧ w.D = 3 ∧ ∃ p, w.getConstraint 0 = some p) (s a : ℝ) :
    nfabianTime (moveVertex A b v) (moveVertex A b w) s a = nfabianTime v w s a := by
  have slow : ∀ v : Vertex ℝ, WellFormed v → v.D = 3 → slowEnd (moveVertex A b v) = slowEnd v := by
    intro v h1 h2
    unfold slowEnd
    rw [moveVertex_get]
    cases e : v.getConstraint 1 with
    | none => rfl
    | some x =>
      simp only [Option.map_some]
      have : moveValue A b 1 x = moveVec A 0 x := by unfold moveValue; rw [if_neg (by norm_num)]
      rw [this, moved_norm hA x ((constraint_length h1 e).trans h2)]
  obtain ⟨hv1, hv2, p, hp⟩ := hv
  obtain ⟨hw1, hw2, r, hr⟩ := hw
  have lp := (constraint_length hv1 hp).trans hv2
  have lr := (constraint_length hw1 hr).trans hw2
  unfold nfabianTime
  rw [slow v hv1 hv2, slow w hw1 hw2, moveVertex_get, moveVertex_get, hp, hr]
  simp only [Option.map_some, Option.getD_some]
  have e : ∀ x, moveValue A b 0 x = moveVec A b x := fun x => by unfold moveValue; rw [if_pos rfl]
  have h1 : vsub (moveVec A b r) (moveVec A b p) = .ok (moveVec A 0 (List.zipWith (· - ·) r p)) := by
    unfold vsub
    rw [if_pos (by simp [moveVec]), moved_sub A b r p lr lp]
  have h2 : vsub r p = .ok (List.zipWith (· - ·) r p) := by unfold vsub; rw [if_pos (by omega)]
  rw [e, e, h1, h2]
  simp only [bind, Except.bind]
  rw [moved_norm hA _ (by simp [lp, lr])]

theorem moved_times {A : Matrix (Fin 3) (Fin 3) ℝ} (hA : Similarity A 1) (b : Fin 3 → ℝ) (s a : ℝ) (vs : List (Vertex ℝ))
    (hv : ∀ v ∈ vs, WellFormed v ∧ v.D = 3 ∧ ∃ p, v.getConstraint 0 = some p) :
    estimateSegmentTimes (vs.map (moveVertex A b)) s a = estimateSegmentTimes vs s a := by
  have loop : ∀ vs : List (Vertex ℝ), (∀ v ∈ vs, WellFormed v ∧ v.D = 3 ∧ ∃ p, v.getConstraint 0 = some p) →
      nfabianLoop s a (vs.map (moveVertex A b)) = nfabianLoop s a vs := by
    intro vs
    induction vs with
    | nil => exact fun _ => rfl
    | cons v l ih =>
      intro h
      cases l with
      | nil => rfl
      | cons w l =>
        have ih := ih fun x hx => h x (List.mem_cons_of_mem _ hx)
        rw [List.map_cons] at ih
        rw [List.map_cons, List.map_cons, nfabianLoop, nfabianLoop, ih, moved_time hA b v w (h v (by simp)) (h w (by simp))]
  unfold estimateSegmentTimes
  rw [List.length_map, loop vs hv]

theorem optimize_linear_iff (be : OptBackend) (vs : List (Vertex ℝ)) (speed : ℝ) (tr : Trajectory ℝ) :
    (be.env true).optimize vs speed = .ok tr ↔ ∃ ts o o', estimateSegmentTimes vs speed be.aMax = .ok ts ∧
      (LinOpt.init 5 ℝ 3).setupFromVertices vs ts 2 = .ok o ∧ o.solveLinear be.solve = .ok o' ∧ o'.getTrajectory = .ok tr := by
  constructor
  · intro h1
    change be.linear vs speed = .ok tr at h1
    unfold OptBackend.linear at h1
    simp only [bind, Except.bind] at h1
    split at h1
    · cases h1
    · rename_i ts e1
      split at h1
      · cases h1
      · rename_i o e2
        split at h1
        · cases h1
        · rename_i o' e3
          exact ⟨ts, o, o', e1, e2, e3, h1⟩
  · rintro ⟨ts, o, o', e1, e2, e3, e4⟩
    change be.linear _ speed = .ok tr
    unfold OptBackend.linear
    rw [e1]
    simp only [bind, Except.bind]
    rw [e2]
    simp only
    rw [e3]
    exact e4

/-- C158 for the planner's optimiser with the linear method, its estimate of the times included: if it finds a trajectory through the vertices handed over, it
finds the same trajectory, turned, mirrored and moved, through the vertices that are turned, mirrored and moved. -/
theorem C158_planner (be be2 : OptBackend) (hacc : be.aMax = be2.aMax) (hs : SolvesSystems be.solve) (hs2 : SolvesSystems be2.solve)
    {A : Matrix (Fin 3) (Fin 3) ℝ} (hA : Similarity A 1) (b : Fin 3 → ℝ) (vs : List (Vertex ℝ)) (speed : ℝ) (hl : 2 ≤ vs.length)
    (hv : ∀ v ∈ vs, WellFormed v ∧ v.D = 3 ∧ ∃ p, v.getConstraint 0 = some p) (tr : Trajectory ℝ)
    (h1 : (be.env true).optimize vs speed = .ok tr) :
    ∃ tr2, (be2.env true).optimize (vs.map (moveVertex A b)) speed = .ok tr2 ∧ MovedCurve A b tr.segments tr2.segments := by
  have hw : ∀ v ∈ vs, WellFormed v := fun v h => (hv v h).1
  obtain ⟨ts, o, o', e1, e2, e3, e4⟩ := (optimize_linear_iff be vs speed tr).mp h1
  have hq : AcceptableProblem 5 3 (⟨vs, ts, 2⟩ : Problem ℝ) := (C28_setup_iff none (LinOpt.init 5 ℝ 3) (.new (solve := be.solve)) ⟨vs, ts, 2⟩ (by omega) hw).mp ⟨o, e2⟩
  have hq2 := moved_acceptable A b hq
  have hw2 : ∀ v ∈ (moveProblem A b ⟨vs, ts, 2⟩).vertices, WellFormed v := fun v hv => by
    obtain ⟨w, h1, rfl⟩ := List.mem_map.mp hv
    exact moved_wellFormed A b (hw w h1)
  have hts : ts ≠ [] := by
    rintro rfl
    have := hq.2.2.1
    have h2 := hl
    simp_all
  obtain ⟨o2, g2⟩ := setup_total 3 (moveProblem A b ⟨vs, ts, 2⟩) (LinOpt.init 5 ℝ 3) rfl (by omega) hw2 hq2
  have hh2 : LinHistory 5 3 be2.solve (some (moveProblem A b ⟨vs, ts, 2⟩)) o2 := .setup _ .new g2
  obtain ⟨hi, hf⟩ := setupFromVertices_ok 3 (moveProblem A b ⟨vs, ts, 2⟩) _ o2 ⟨rfl, by simp [LinOpt.init]⟩ g2
  obtain ⟨o2', g3⟩ := solve_total 3 (moveProblem A b ⟨vs, ts, 2⟩) be2.solve o2 hi (List.length_pos_iff.mpr hts) (fun _ => by
    rw [hf]
    exact ⟨by simp [LinOpt.init], fun v hv => (List.mem_replicate.mp hv).2⟩)
  have hi' := inv_solve 3 _ be2.solve o2 o2' hi g3
  obtain ⟨tr2, g4⟩ := getTrajectory_total 3 o2' hi'.shape (by
    intro e
    have := hi'.segLength
    rw [e] at this
    exact hts (List.length_eq_zero_iff.mp this.symm))
  obtain ⟨k1, k2⟩ := handed_enough (speed := 1) ⟨hl, one_pos, hv⟩
  refine ⟨tr2, (optimize_linear_iff be2 _ speed tr2).mpr ⟨ts, o2, o2', ?_, g2, g3, g4⟩, C158_solve (by omega) hA b be.solve be2.solve hs hs2 ⟨vs, ts, 2⟩ o o' o2 o2'
    (.setup ⟨vs, ts, 2⟩ .new e2) hh2 hq hw (by norm_num) k1 k2 e3 g3 tr tr2 e4 g4⟩
  rw [← hacc, moved_times hA b speed be.aMax vs hv, e1]

/-! ## Another unit of time -/

/-- C159: if enough is prescribed for one optimum, the optimum of the problem in which everything takes `σ` times as long is the same path, flown `σ` times
slower. -/
theorem C159_optimum {h dim : ℕ} {σ : ℝ} (hσ : 0 < σ) (q : Problem ℝ) (ha : AcceptableProblem h dim (slowProblem σ q))
    (hg : ∀ v ∈ q.vertices, NoGaps q.derivative.toNat v)
    (hn : q.derivative.toNat ≤ (q.vertices.map (prescribedBelow q.derivative.toNat)).sum) (a a' : List (Segment ℝ)) (ho : Optimal h dim q a)
    (ho' : Optimal h dim (slowProblem σ q) a') : SlowedCurve σ a a' := by
  have hk : ∀ (v : Vertex ℝ) (k : ℕ), ((slowVertex σ v).getConstraint k).isSome = (v.getConstraint k).isSome := fun v k => by
    rw [slowVertex_get, Option.isSome_map]
  have g1 : ∀ v ∈ (slowProblem σ q).vertices, NoGaps (slowProblem σ q).derivative.toNat v := by
    intro v hv
    obtain ⟨w, hw, rfl⟩ := List.mem_map.mp hv
    exact (prescribed_congr (hk w)).1 (hg w hw)
  have g2 : ((slowProblem σ q).vertices.map (prescribedBelow q.derivative.toNat)).sum = (q.vertices.map (prescribedBelow q.derivative.toNat)).sum := by
    unfold slowProblem
    simp only [List.map_map]
    congr 1
    exact List.map_congr_left fun v _ => (prescribed_congr (d := q.derivative.toNat) (hk v)).2
  have hs := sameCurve_deriv (C139_only ha g1 (by rw [show (slowProblem σ q).derivative = q.derivative from rfl, g2]; exact hn) _ _
    (slowed_optimal hσ q ho) ho')
  rw [List.forall₂_map_left_iff] at hs
  unfold SlowedCurve
  refine hs.imp fun s s' hs => ⟨hs.1.symm, fun k x => ?_⟩
  rw [← hs.2 k, slowSeg_deriv hσ.ne']

/-- C159: `solveLinear` on an object with the problem in which everything takes `σ` times as long returns the same path, flown `σ` times slower. -/
theorem C159_solve {h dim : ℕ} (hdim : 0 < dim) {σ : ℝ} (hσ : 0 < σ) (solve solve2 : LinSolver ℝ)
    (hs : SolvesSystems solve) (hs2 : SolvesSystems solve2) (q : Problem ℝ) (o o' o2 o2' : LinOpt h ℝ) (hh : LinHistory h dim solve (some q) o)
    (hh2 : LinHistory h dim solve2 (some (slowProblem σ q)) o2) (ha : AcceptableProblem h dim (slowProblem σ q)) (hw : ∀ v ∈ q.vertices, WellFormed v)
    (hg : ∀ v ∈ q.vertices, NoGaps q.derivative.toNat v)
    (hn : q.derivative.toNat ≤ (q.vertices.map (prescribedBelow q.derivative.toNat)).sum) (hu : o.solveLinear solve = .ok o')
    (hu2 : o2.solveLinear solve2 = .ok o2') (tr tr2 : Trajectory ℝ) (htr : o'.getTrajectory = .ok tr) (htr2 : o2'.getTrajectory = .ok tr2) :
    SlowedCurve σ tr.segments tr2.segments := by
  obtain ⟨a1, a2⟩ := C27_optimal q o o' hh hw hs hu tr htr
  obtain ⟨b1, b2⟩ := C27_optimal _ o2 o2' hh2 (fun v hv => by
    obtain ⟨w, h1, rfl⟩ := List.mem_map.mp hv
    refine ⟨?_, ?_⟩
    · unfold slowVertex
      rw [List.pairwise_map]
      exact (hw w h1).1
    · intro x hx
      obtain ⟨y, hy, rfl⟩ := List.mem_map.mp hx
      simpa [slowVertex] using (hw w h1).2 y hy) hs2 hu2 tr2 htr2
  exact C159_optimum hσ q ha hg hn _ _ ⟨a1 hdim, a2⟩ ⟨b1 hdim, b2⟩

/-- The estimated times, with the maximum speed divided by `σ` and the maximum acceleration by `σ ^ 2`, are `σ` times as long; if slowing down leaves the slow
ends slow and the others fast. -/
theorem slowed_times {σ : ℝ} (hσ : 0 < σ) (s a : ℝ) (vs : List (Vertex ℝ))
    (hslow : ∀ v ∈ vs, ∀ x, v.getConstraint 1 = some x → (vnorm x < 1 / 10 ^ 6 ↔ vnorm x / σ < 1 / 10 ^ 6)) (ts : List ℝ)
    (h : estimateSegmentTimes vs s a = .ok ts) : estimateSegmentTimes (vs.map (slowVertex σ)) (s / σ) (a / σ ^ 2) = .ok (ts.map (σ * ·)) := by
  have norm : ∀ x : List ℝ, vnorm (x.map (· / σ)) = vnorm x / σ := by
    intro x
    unfold vnorm
    rw [List.map_map, show ((fun x => x ^ 2) ∘ fun x => x / σ) = fun y : ℝ => σ⁻¹ ^ 2 * y ^ 2 from funext fun y => by simp only [Function.comp]; ring,
      List.sum_map_mul_left, Real.sqrt_mul (by positivity), Real.sqrt_sq (by positivity), div_eq_inv_mul]
  have slow : ∀ v ∈ vs, slowEnd (slowVertex σ v) = slowEnd v := by
    intro v hv
    unfold slowEnd
    rw [slowVertex_get]
    cases e : v.getConstraint 1 with
    | none => rfl
    | some x =>
      simp only [Option.map_some, zpow_one]
      rw [norm, decide_eq_decide, ← hslow v hv x e]
  have pos : ∀ v : Vertex ℝ, (slowVertex σ v).getConstraint 0 = v.getConstraint 0 := by
    intro v
    rw [slowVertex_get]
    cases v.getConstraint 0 <;> simp
  have one : ∀ v ∈ vs, ∀ w ∈ vs, ∀ t, nfabianTime v w s a = .ok t → nfabianTime (slowVertex σ v) (slowVertex σ w) (s / σ) (a / σ ^ 2) = .ok (σ * t) := by
    intro v hv w hw t ht
    unfold nfabianTime at ht ⊢
    rw [pos, pos, slow v hv, slow w hw]
    simp only at ht ⊢
    cases e : vsub ((w.getConstraint 0).getD []) ((v.getConstraint 0).getD []) with
    | error f => rw [e] at ht; cases ht
    | ok d =>
      rw [e] at ht
      simp only [bind, Except.bind] at ht ⊢
      by_cases h0 : s = 0
      · rw [if_pos h0] at ht; cases ht
      rw [if_neg h0] at ht
      rw [if_neg (div_ne_zero h0 hσ.ne')]
      by_cases h1 : (slowEnd v || slowEnd w) = true
      · rw [if_pos h1] at ht ⊢
        by_cases h2 : a = 0
        · rw [if_pos h2] at ht; cases ht
        rw [if_neg h2] at ht
        rw [if_neg (div_ne_zero h2 (by positivity))]
        obtain rfl := Except.ok.inj ht
        refine congrArg Except.ok ?_
        field_simp
      · rw [if_neg h1] at ht ⊢
        obtain rfl := Except.ok.inj ht
        refine congrArg Except.ok ?_
        field_simp
  have loop : ∀ l : List (Vertex ℝ), (∀ v ∈ l, v ∈ vs) → ∀ ts, nfabianLoop s a l = .ok ts →
      nfabianLoop (s / σ) (a / σ ^ 2) (l.map (slowVertex σ)) = .ok (ts.map (σ * ·)) := by
    intro l
    induction l with
    | nil => intro _ ts h; obtain rfl := Except.ok.inj h; rfl
    | cons v l ih =>
      intro hm ts h
      cases l with
      | nil => obtain rfl := Except.ok.inj h; rfl
      | cons w l =>
        rw [nfabianLoop] at h
        cases e1 : nfabianTime v w s a with
        | error f => rw [e1] at h; cases h
        | ok t =>
          rw [e1] at h
          simp only [bind, Except.bind] at h
          cases e2 : nfabianLoop s a (w :: l) with
          | error f => rw [e2] at h; cases h
          | ok r =>
            rw [e2] at h
            obtain rfl := Except.ok.inj h
            have ih := ih (fun x hx => hm x (List.mem_cons_of_mem _ hx)) r e2
            rw [List.map_cons] at ih
            rw [List.map_cons, List.map_cons, nfabianLoop, one v (hm v (by simp)) w (hm w (by simp)) t e1, ih]
            rfl
  unfold estimateSegmentTimes at h ⊢
  rw [List.length_map]
  split at h
  · cases h
  · rename_i hl
    rw [if_neg hl]
    exact loop vs (fun _ h => h) ts h

/-- C159 for the planner's optimiser with the linear method, its estimate of the times included: with the maximum speed divided by `σ` and the maximum acceleration
by `σ ^ 2`, it finds the same path, flown `σ` times slower. -/
theorem C159_planner (be be2 : OptBackend) {σ : ℝ} (hσ : 0 < σ) (hacc : be2.aMax = be.aMax / σ ^ 2) (hs : SolvesSystems be.solve) (hs2 : SolvesSystems be2.solve)
    (vs : List (Vertex ℝ)) (speed : ℝ) (hv : Handed3 vs speed)
    (hslow : ∀ v ∈ vs, ∀ x, v.getConstraint 1 = some x → (vnorm x < 1 / 10 ^ 6 ↔ vnorm x / σ < 1 / 10 ^ 6)) (tr tr2 : Trajectory ℝ)
    (h1 : (be.env true).optimize vs speed = .ok tr) (h2 : (be2.env true).optimize (vs.map (slowVertex σ)) (speed / σ) = .ok tr2) :
    SlowedCurve σ tr.segments tr2.segments := by
  have hw : ∀ v ∈ vs, WellFormed v := fun v h => (hv.2.2 v h).1
  obtain ⟨ts, o, o', e1, e2, e3, e4⟩ := (optimize_linear_iff be vs speed tr).mp h1
  obtain ⟨ts2, o2, o2', g1, g2, g3, g4⟩ := (optimize_linear_iff be2 _ _ tr2).mp h2
  rw [hacc, slowed_times hσ speed be.aMax vs hslow ts e1] at g1
  obtain rfl := Except.ok.inj g1
  have hq : AcceptableProblem 5 3 (slowProblem σ ⟨vs, ts, 2⟩) :=
    (C28_setup_iff none (LinOpt.init 5 ℝ 3) (.new (solve := be2.solve)) (slowProblem σ ⟨vs, ts, 2⟩) (by omega) (fun v hv => by
      obtain ⟨w, h1, rfl⟩ := List.mem_map.mp hv
      refine ⟨?_, ?_⟩
      · unfold slowVertex
        rw [List.pairwise_map]
        exact (hw w h1).1
      · intro x hx
        obtain ⟨y, hy, rfl⟩ := List.mem_map.mp hx
        simpa [slowVertex] using (hw w h1).2 y hy)).mp ⟨o2, g2⟩
  obtain ⟨k1, k2⟩ := handed_enough hv
  exact C159_solve (by omega) hσ be.solve be2.solve hs hs2 ⟨vs, ts, 2⟩ o o' o2 o2' (.setup ⟨vs, ts, 2⟩ .new e2) (.setup (slowProblem σ ⟨vs, ts, 2⟩) .new g2) hq hw k1 k2
    e3 g3 tr tr2 e4 g4

/-! ## Concrete cases -/

/-- A quarter turn about the vertical axis. -/
def quarterTurn : Matrix (Fin 3) (Fin 3) ℝ := !![0, -1, 0; 1, 0, 0; 0, 0, 1]

theorem quarterTurn_similarity : Similarity quarterTurn 1 := by
  refine ⟨one_pos, ?_⟩
  ext i j
  fin_cases i <;> fin_cases j <;> simp [quarterTurn, Matrix.mul_apply, Fin.sum_univ_three]

/-- Enlarged to twice the size as well. -/
theorem enlarged_similarity : Similarity ((2 : ℝ) • quarterTurn) 4 := by
  refine ⟨by norm_num, ?_⟩
  rw [Matrix.transpose_smul, Matrix.smul_mul, Matrix.mul_smul, quarterTurn_similarity.2, smul_smul, smul_smul]
  norm_num

/-- The hypotheses of `C158_solve` are met: both problems are accepted and solved. -/
example : ∃ (o o' o2 o2' : LinOpt 5 ℝ) (tr tr2 : Trajectory ℝ), LinHistory 5 3 exactSolver (some realProblem) o ∧
    LinHistory 5 3 exactSolver (some (moveProblem ((2 : ℝ) • quarterTurn) ![1, 2, 3] realProblem)) o2 ∧ o.solveLinear exactSolver = .ok o' ∧
    o2.solveLinear exactSolver = .ok o2' ∧ o'.getTrajectory = .ok tr ∧ o2'.getTrajectory = .ok tr2 ∧
    MovedCurve ((2 : ℝ) • quarterTurn) ![1, 2, 3] tr.segments tr2.segments := by
  obtain ⟨o, o', tr, h1, h2, h3⟩ := C28_solves (solve := exactSolver) realProblem (by omega) realProblem_wellFormed realProblem_acceptable (by simp [realProblem])
  obtain ⟨o2, o2', tr2, g1, g2, g3⟩ := C28_solves (solve := exactSolver) (moveProblem ((2 : ℝ) • quarterTurn) ![1, 2, 3] realProblem) (by omega)
    (fun v hv => by
      obtain ⟨w, h1, rfl⟩ := List.mem_map.mp hv
      exact moved_wellFormed _ _ (realProblem_wellFormed w h1)) (moved_acceptable _ _ realProblem_acceptable) (by simp [realProblem, moveProblem])
  exact ⟨o, o', o2, o2', tr, tr2, h1, g1, h2, g2, h3, g3, C158_solve (by omega) enlarged_similarity _ _ _ exactSolver_solves exactSolver_solves realProblem o o' o2 o2'
    h1 g1 realProblem_acceptable realProblem_wellFormed (show (0 : Int) < 4 by norm_num) realProblem_enough.1
    (by rw [show realProblem.derivative.toNat = 4 from rfl, realProblem_enough.2]; omega) h2 g2 tr tr2 h3 g3⟩

/-- The vertices of that problem, seen from the other frame: the second one was `(1, 2, 3)`. -/
example : (moveVertex quarterTurn ![1, 2, 3] ⟨3, [(0, [1, 2, 3]), (1, [1, 0, 0])]⟩).constraints = [(0, [-1, 3, 6]), (1, [0, 1, 0])] := by
  simp [moveVertex, moveValue, moveVec, quarterTurn, Fin.sum_univ_three]
  norm_num

/-- The hypotheses of `C158_planner` are met. -/
example : ∃ tr tr2, (sampleBackend.env true).optimize realProblem.vertices 1 = .ok tr ∧
    (sampleBackend.env true).optimize (realProblem.vertices.map (moveVertex quarterTurn ![1, 2, 3])) 1 = .ok tr2 ∧
    MovedCurve quarterTurn ![1, 2, 3] tr.segments tr2.segments := by
  obtain ⟨tr, _, h, _⟩ := C85_linear_succeeds sampleBackend one_pos _ _ sample_handed sample_estimates
  obtain ⟨tr2, h2, h3⟩ := C158_planner sampleBackend sampleBackend rfl exactSolver_solves exactSolver_solves quarterTurn_similarity ![1, 2, 3] _ 1 sample_handed.1 sample_handed.2.2 tr h
  exact ⟨tr, tr2, h, h2, h3⟩

/-- The hypotheses of `C159_optimum` are met: half the time is accepted, and there are optimal curves. -/
example : AcceptableProblem 5 3 (slowProblem (1 / 2) realProblem) ∧ (∃ a, Optimal 5 3 realProblem a) ∧ ∃ a, Optimal 5 3 (slowProblem (1 / 2) realProblem) a := by
  obtain ⟨o, o', tr, h1, h2, h3⟩ := C28_solves (solve := exactSolver) realProblem (by omega) realProblem_wellFormed realProblem_acceptable (by simp [realProblem])
  obtain ⟨a1, a2⟩ := C27_optimal realProblem o o' h1 realProblem_wellFormed exactSolver_solves h2 tr h3
  have ho : Optimal 5 3 realProblem tr.segments := ⟨a1 (by omega), a2⟩
  refine ⟨?_, ⟨_, ho⟩, _, slowed_optimal (by norm_num) realProblem ho⟩
  obtain ⟨b1, b2, b3, b4, b5⟩ := realProblem_acceptable
  refine ⟨b1, b2, by simp [slowProblem, b3], ?_, ?_⟩
  · intro v hv k c hk hc
    obtain ⟨w, hw, rfl⟩ := List.mem_map.mp hv
    rw [slowVertex_get, Option.map_eq_some_iff] at hc
    obtain ⟨c, hc, rfl⟩ := hc
    rw [List.length_map]
    exact b4 w hw k c hk hc
  · intro t ht
    simp only [slowProblem, realProblem, List.map_cons, List.map_nil, List.mem_cons, List.not_mem_nil, or_false] at ht
    rcases ht with rfl | rfl <;> norm_num

/-- The hypotheses of `C159_planner` are met for the vertices of that problem, which are at rest at both ends: at half the speed and a quarter of the acceleration. -/
example : ∃ tr tr2, (sampleBackend.env true).optimize realProblem.vertices 1 = .ok tr ∧
    ((⟨exactSolver, sampleBackend.rf, sampleBackend.nlopt, 1 / 2 ^ 2⟩ : OptBackend).env true).optimize (realProblem.vertices.map (slowVertex 2)) (1 / 2) = .ok tr2 ∧
    SlowedCurve 2 tr.segments tr2.segments := by
  have hslow : ∀ v ∈ realProblem.vertices, ∀ x, v.getConstraint 1 = some x → (vnorm x < 1 / 10 ^ 6 ↔ vnorm x / 2 < 1 / 10 ^ 6) := by
    intro v hv x hx
    have hz : x = [0, 0, 0] := by
      simp only [realProblem, List.mem_cons, List.not_mem_nil, or_false] at hv
      rcases hv with rfl | rfl | rfl
      · exact (Option.some.inj hx).symm
      · cases hx
      · exact (Option.some.inj hx).symm
    subst hz
    simp [vnorm]
  obtain ⟨tr, ts, h, e, _⟩ := C85_linear_succeeds sampleBackend one_pos _ _ sample_handed sample_estimates
  obtain ⟨ts', o, o', e1, e2, _, _⟩ := (optimize_linear_iff _ _ _ tr).mp h
  have hw : ∀ v ∈ realProblem.vertices.map (slowVertex 2), WellFormed v := by
    intro v hv
    obtain ⟨w, h1, rfl⟩ := List.mem_map.mp hv
    have hw := realProblem_wellFormed w h1
    refine ⟨?_, ?_⟩
    · unfold slowVertex
      rw [List.pairwise_map]
      exact hw.1
    · intro x hx
      obtain ⟨y, hy, rfl⟩ := List.mem_map.mp hx
      simpa [slowVertex] using hw.2 y hy
  have hq : AcceptableProblem 5 3 (⟨realProblem.vertices, ts', 2⟩ : Problem ℝ) :=
    (C28_setup_iff none (LinOpt.init 5 ℝ 3) (.new (solve := exactSolver)) ⟨realProblem.vertices, ts', 2⟩ (by omega) realProblem_wellFormed).mp ⟨o, e2⟩
  have hq2 : AcceptableProblem 5 3 (⟨realProblem.vertices.map (slowVertex 2), ts'.map (2 * ·), 2⟩ : Problem ℝ) := by
    obtain ⟨b1, b2, b3, b4, b5⟩ := hq
    refine ⟨b1, b2, by simpa using b3, ?_, ?_⟩
    · intro v hv k c hk hc
      obtain ⟨w, hw, rfl⟩ := List.mem_map.mp hv
      rw [slowVertex_get, Option.map_eq_some_iff] at hc
      obtain ⟨c, hc, rfl⟩ := hc
      rw [List.length_map]
      exact b4 w hw k c hk hc
    · intro t ht
      obtain ⟨u, hu, rfl⟩ := List.mem_map.mp ht
      have := b5 u hu
      have h0 : (0 : ℝ) < 1 / 2 ^ 52 := by norm_num
      linarith
  have hts : ts'.map (2 * ·) ≠ [] := by
    intro e
    have := hq2.2.2.1
    rw [e] at this
    simp [realProblem] at this
  obtain ⟨o2, g2⟩ := setup_total 3 ⟨realProblem.vertices.map (slowVertex 2), ts'.map (2 * ·), 2⟩ (LinOpt.init 5 ℝ 3) rfl (by omega) hw hq2
  obtain ⟨hi, hf⟩ := setupFromVertices_ok 3 ⟨realProblem.vertices.map (slowVertex 2), ts'.map (2 * ·), 2⟩ _ o2 ⟨rfl, by simp [LinOpt.init]⟩ g2
  obtain ⟨o2', g3⟩ := solve_total 3 ⟨realProblem.vertices.map (slowVertex 2), ts'.map (2 * ·), 2⟩ exactSolver o2 hi (List.length_pos_iff.mpr hts) (fun _ => by
    rw [hf]
    exact ⟨by simp [LinOpt.init], fun v hv => (List.mem_replicate.mp hv).2⟩)
  have hi' := inv_solve 3 _ exactSolver o2 o2' hi g3
  obtain ⟨tr2, g4⟩ := getTrajectory_total 3 o2' hi'.shape (by
    intro e
    have := hi'.segLength
    rw [e] at this
    exact hts (List.length_eq_zero_iff.mp this.symm))
  have h2 : ((⟨exactSolver, sampleBackend.rf, sampleBackend.nlopt, 1 / 2 ^ 2⟩ : OptBackend).env true).optimize (realProblem.vertices.map (slowVertex 2)) (1 / 2) = .ok tr2 :=
    (optimize_linear_iff _ _ _ tr2).mpr ⟨_, o2, o2', slowed_times two_pos 1 1 _ hslow ts' e1, g2, g3, g4⟩
  exact ⟨tr, tr2, h, h2, C159_planner sampleBackend ⟨exactSolver, sampleBackend.rf, sampleBackend.nlopt, 1 / 2 ^ 2⟩ two_pos rfl exactSolver_solves exactSolver_solves _ 1 sample_handed
    hslow tr tr2 h h2⟩

end Verif.Properties
