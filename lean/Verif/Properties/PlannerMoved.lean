import Verif.Lemmas.PlannerMoved
import Verif.Lemmas.PlannerSample
import Verif.Lemmas.OptimiserFails
import Verif.Properties.OptimumFrame

/-!
# C161: the planner does not depend on the frame of reference
-/

set_option linter.unusedSectionVars false

namespace Verif.Properties

open Verif Verif.Spec Verif.Lemmas

variable {K : Type*} [Field K] [LinearOrder K] [IsStrictOrderedRing K] [FloorSemiring K]

/-- The condition on a step under which the order of the axes does not matter: a requested update is taken into the flight only after an evaluation at a
positive time. -/
def AxesMayMove (F : Frame K) (s : Planner K) (e : Event K) (_ : Planner K) : Prop :=
  F.axes = .xyz ∨ (e = .worker → s.pc = .apply → 0 < s.params.lastGlobal)

/-- The full claim: whatever happens to a planner, in any frame (with the axes in any order and direction, and any origin) it happens in the same way, and whatever
references are then read are the same in the new frame. -/
def FrameIndependent (K : Type*) [Field K] [LinearOrder K] [IsStrictOrderedRing K] [FloorSemiring K] : Prop :=
  ∀ (F : Frame K) (env env' : Env K) (v : V3 K) (es : List (Event K)) (s : Planner K), F.Proper → F.SameOptimizer env env' → (∀ e ∈ es, ValidEvent e) →
    Run env (Planner.init v) es s → ∃ s', Run env' (Planner.init (F.pos v)) (es.map F.event) s' ∧
      ∀ t o f q s1, s.evaluateTrajectory env t o f = .ok (some (q, s1)) → ∃ s1', s'.evaluateTrajectory env' t o f = .ok (some (F.references q, s1'))

/-- C161. Every history can be told in another frame, and then the planner is in the same state, in that frame: with shifted origin and mirrored axes without any
condition, with axes in another order as long as updates are taken into the flight after evaluations at positive times only. -/
theorem C161_history_partial (F : Frame K) (env env' : Env K) (v : V3 K) (es : List (Event K)) (s : Planner K) (hF : F.Proper) (ho : F.SameOptimizer env env')
    (hv : ∀ e ∈ es, ValidEvent e) (h : RunWhile (AxesMayMove F) env (Planner.init v) es s) :
    ∃ s', Run env' (Planner.init (F.pos v)) (es.map F.event) s' ∧ F.Same s s' := by
  induction h with
  | nil =>
    refine ⟨_, .nil, ?_⟩
    constructor <;> first | rfl | exact .none | exact .invalid
  | @snoc es s1 s2 e h1 h2 h3 ih =>
    obtain ⟨s1', r1, hs⟩ := ih fun e he => hv e (List.mem_append_left _ he)
    have hr : Reachable env s1 := ⟨v, es, fun e he => hv e (List.mem_append_left _ he), runWhile_run _ _ _ _ _ h1⟩
    obtain ⟨r', h4, h5⟩ := Moved.step_moved hF ho hs (reachable_ctl _ _ hr) (reachable_wp _ _ hr) e h3 _ h2
    cases h5 with
    | @some _ s2' h6 =>
      refine ⟨s2', ?_, h6⟩
      rw [List.map_append]
      exact .snoc _ r1 h4

/-- What a user of the second planner is told is what a user of the first is told, in the new frame. -/
structure SameAnswers (F : Frame K) (env env' : Env K) (s s' : Planner K) : Prop where
  evaluate : ∀ t o f q s1, s.evaluateTrajectory env t o f = .ok (some (q, s1)) → ∃ s1', s'.evaluateTrajectory env' t o f = .ok (some (F.references q, s1'))
  evaluateWaits : ∀ t o f, s.evaluateTrajectory env t o f = .ok none → s'.evaluateTrajectory env' t o f = .ok none
  maxTime : ∀ T s1, s.getMaxTime env = .ok (some (T, s1)) → ∃ s1', s'.getMaxTime env' = .ok (some (T, s1'))
  minTime : ∀ T s1, s.getMinTime env = .ok (some (T, s1)) → ∃ s1', s'.getMinTime env' = .ok (some (T, s1'))
  waypoints : ∀ ws s1, s.getDynamicWaypoints env = .ok (some (ws, s1)) → ∃ s1', s'.getDynamicWaypoints env' = .ok (some (ws.map F.waypoint, s1'))
  nextWaypoints : s'.getNextTrajectoryWaypoints = s.getNextTrajectoryWaypoints.map F.waypoint
  remaining : s'.getRemainingWaypoints = s.getRemainingWaypoints
  speed : s'.getSpeed = s.getSpeed
  compensation : s'.getTimeCompensation = s.getTimeCompensation
  regenerated : s'.getWasTrajectoryRegenerated.1 = s.getWasTrajectoryRegenerated.1

theorem same_answers {F : Frame K} {env env' : Env K} {s s' : Planner K} (hF : F.Proper) (he : env'.exp = env.exp) (hs : F.Same s s') : SameAnswers F env env' s s' where
  evaluate t o f q s1 h := by
    obtain ⟨r', h1, h2⟩ := Moved.evaluate_moved hF he hs t o f _ h
    cases h2 with
    | @some _ b h3 => exact ⟨b.2, by rw [h1, ← h3.1]⟩
  evaluateWaits t o f h := by
    obtain ⟨r', h1, h2⟩ := Moved.evaluate_moved hF he hs t o f _ h
    cases h2 with
    | none => exact h1
  maxTime T s1 h := by
    obtain ⟨r', h1, h2⟩ := Moved.getMaxTime_moved hF he hs _ h
    cases h2 with
    | @some _ b h3 => exact ⟨b.2, by rw [h1, ← show b.1 = T from h3.1]⟩
  minTime T s1 h := by
    obtain ⟨r', h1, h2⟩ := Moved.getMinTime_moved hF he hs _ h
    cases h2 with
    | @some _ b h3 => exact ⟨b.2, by rw [h1, ← show b.1 = T from h3.1]⟩
  waypoints ws s1 h := by
    obtain ⟨r', h1, h2⟩ := Moved.getDynamicWaypoints_moved hF he hs _ h
    cases h2 with
    | @some _ b h3 => exact ⟨b.2, by rw [h1, ← h3.1]⟩
  nextWaypoints := Moved.nextWaypoints_moved hs
  remaining := Moved.remaining_moved hs
  speed := congrArg Params.speed hs.params
  compensation := congrArg Params.tOffset hs.params
  regenerated := hs.regenerated

/-- C161. … and then all answers are the same, in that frame. -/
theorem C161_answers_partial (F : Frame K) (env env' : Env K) (v : V3 K) (es : List (Event K)) (s : Planner K) (hF : F.Proper) (ho : F.SameOptimizer env env')
    (hv : ∀ e ∈ es, ValidEvent e) (h : RunWhile (AxesMayMove F) env (Planner.init v) es s) :
    ∃ s', Run env' (Planner.init (F.pos v)) (es.map F.event) s' ∧ SameAnswers F env env' s s' := by
  obtain ⟨s', h1, h2⟩ := C161_history_partial F env env' v es s hF ho hv h
  exact ⟨s', h1, same_answers hF ho.1 h2⟩

/-- C161. With the axes in their order – a shifted origin, axes pointing the other way – this holds for every history. -/
theorem C161_moved_and_mirrored (F : Frame K) (env env' : Env K) (v : V3 K) (es : List (Event K)) (s : Planner K) (hF : F.Proper) (hx : F.axes = .xyz)
    (ho : F.SameOptimizer env env') (hv : ∀ e ∈ es, ValidEvent e) (h : Run env (Planner.init v) es s) :
    ∃ s', Run env' (Planner.init (F.pos v)) (es.map F.event) s' ∧ SameAnswers F env env' s s' := by
  refine C161_answers_partial F env env' v es s hF ho hv ?_
  clear hv
  induction h with
  | nil => exact .nil
  | snoc e _ h2 ih => exact .snoc e ih h2 (.inl hx)

/-! ## The linear optimizer -/

/-- The old axis which is the `i`-th of the new frame. -/
def axisOf (a : Axes) : Fin 3 → Fin 3 := fun i => (a.pick ⟨(0 : Fin 3), 1, 2⟩).toList.getD i 0

/-- The matrix of a frame. -/
def frameMatrix (F : Frame ℝ) : Matrix (Fin 3) (Fin 3) ℝ := fun i j => if j = axisOf F.axes i then F.sign.toList.getD i 0 else 0

/-- The place of the old origin. -/
def frameOrigin (F : Frame ℝ) : Fin 3 → ℝ := fun i => F.origin.toList.getD i 0

theorem frame_similarity {F : Frame ℝ} (hF : F.Proper) : Similarity (frameMatrix F) 1 := by
  obtain ⟨a, ⟨sx, sy, sz⟩, o⟩ := F
  obtain ⟨h1, h2, h3⟩ := hF
  simp only at h1 h2 h3
  have e1 : sx * sx = 1 := by rcases h1 with rfl | rfl <;> norm_num
  have e2 : sy * sy = 1 := by rcases h2 with rfl | rfl <;> norm_num
  have e3 : sz * sz = 1 := by rcases h3 with rfl | rfl <;> norm_num
  refine ⟨one_pos, ?_⟩
  rw [one_smul]
  ext i j
  rw [Matrix.mul_apply, Fin.sum_univ_three]
  cases a <;> fin_cases i <;> fin_cases j <;> simp [frameMatrix, axisOf, Axes.pick, V3.toList, e1, e2, e3]

theorem frame_value (F : Frame ℝ) (k : Int) (c : List ℝ) (hc : c.length = 3) : F.value k c = moveValue (frameMatrix F) (frameOrigin F) k c := by
  obtain ⟨x, y, z, rfl⟩ : ∃ x y z, c = [x, y, z] := by
    match c, hc with
    | [x, y, z], _ => exact ⟨x, y, z, rfl⟩
  obtain ⟨a, ⟨sx, sy, sz⟩, ⟨ox, oy, oz⟩⟩ := F
  unfold moveValue moveVec Frame.value
  by_cases h : k = 0
  · cases a <;> simp [h, frameMatrix, frameOrigin, axisOf, Axes.pick, V3.toList, Fin.sum_univ_three, Frame.pos, Frame.dir, List.ofFn_succ]
  · cases a <;> simp [h, frameMatrix, frameOrigin, axisOf, Axes.pick, V3.toList, Fin.sum_univ_three, Frame.pos, Frame.dir, List.ofFn_succ]

theorem frame_vertex (F : Frame ℝ) (v : Vertex ℝ) (hw : WellFormed v) (hD : v.D = 3) : F.vertex v = moveVertex (frameMatrix F) (frameOrigin F) v := by
  unfold Frame.vertex moveVertex
  rw [hD]
  congr 1
  refine List.map_congr_left fun x hx => ?_
  rw [frame_value F x.1 x.2 ((hw.2 x hx).trans hD)]

/-- C161. Any two planners with the linear optimizer and the same acceleration limit meet the contract above, in every frame, whatever exact solver each uses. -/
theorem C161_linear (be be2 : OptBackend) (hacc : be.aMax = be2.aMax) (hs : SolvesSystems be.solve) (hs2 : SolvesSystems be2.solve) (F : Frame ℝ) (hF : F.Proper) :
    F.SameOptimizer (be.env true) (be2.env true) := by
  refine ⟨rfl, fun vs speed hl hv => ⟨fun tr h => ?_, fun h => ?_⟩⟩
  · obtain ⟨tr2, h1, h2⟩ := C158_planner be be2 hacc hs hs2 (frame_similarity hF) (frameOrigin F) vs speed hl hv tr h
    have hm : vs.map F.vertex = vs.map (moveVertex (frameMatrix F) (frameOrigin F)) :=
      List.map_congr_left fun v hm => frame_vertex F v (hv v hm).1 (hv v hm).2.1
    have hu := (C85_segmentwise be true _ _ _ h).1
    have hu2 := (C85_segmentwise be2 true _ _ _ h1).1
    refine ⟨tr2, by rw [hm]; exact h1, Moved.sameFlight_of hu hu2 ?_⟩
    have hlen : ∀ s ∈ tr.segments, s.polys.length = 3 := fun s hs => ((hu.2.2.1.2 s hs).1).trans hu.1
    unfold Moved.SameSegments
    unfold MovedCurve at h2
    generalize tr.segments = a at h2 hlen
    generalize tr2.segments = a' at h2
    induction h2 with
    | nil => exact .nil
    | @cons s s' _ _ h3 _ ih =>
      refine .cons ⟨h3.1, fun k x _ => ?_⟩ (ih fun s hs => hlen s (List.mem_cons_of_mem _ hs))
      rw [h3.2 k x, frame_value F k _ (by unfold segDeriv; rw [List.length_map]; exact hlen _ (List.mem_cons_self ..))]
  · rcases OptBackend.tame_env be true vs speed hv _ h with h | h <;> cases h

/-- C161. A planner with the linear optimizer: every history, seen from a frame with another origin and any axes pointing the other way. -/
theorem C161_linear_moved (be be2 : OptBackend) (hacc : be.aMax = be2.aMax) (hs : SolvesSystems be.solve) (hs2 : SolvesSystems be2.solve) (F : Frame ℝ) (hF : F.Proper)
    (hx : F.axes = .xyz) (v : V3 ℝ) (es : List (Event ℝ)) (s : Planner ℝ) (hv : ∀ e ∈ es, ValidEvent e) (h : Run (be.env true) (Planner.init v) es s) :
    ∃ s', Run (be2.env true) (Planner.init (F.pos v)) (es.map F.event) s' ∧ SameAnswers F (be.env true) (be2.env true) s s' :=
  C161_moved_and_mirrored F _ _ v es s hF hx (C161_linear be be2 hacc hs hs2 F hF) hv h

/-! ## The order of the axes matters before the first evaluation at a positive time -/

theorem run_functional {env : Env K} {s a b : Planner K} {es : List (Event K)} (ha : Run env s es a) (hb : Run env s es b) : a = b := by
  induction ha generalizing b with
  | nil =>
    generalize hn : ([] : List (Event K)) = l at hb
    cases hb with
    | nil => rfl
    | snoc e _ _ => simp at hn
  | @snoc es s1 s2 e h1 h2 ih =>
    generalize hn : es ++ [e] = l at hb
    cases hb with
    | nil => simp at hn
    | @snoc es' s1' _ e' h1' h2' =>
      obtain ⟨rfl, h3⟩ := List.append_inj' hn rfl
      obtain rfl := (List.cons.inj h3).1
      rw [← ih h1', h2] at h2'
      exact Option.some.inj (Except.ok.inj h2')

/-- The frame whose first axis is the old second axis and whose second is the old first. -/
def swapped : Frame ℚ := ⟨.yxz, ⟨1, 1, 1⟩, ⟨0, 0, 0⟩⟩

/-- After a plan was taken over at time 0, the first waypoint is moved by one along the first axis, and the worker applies that update. -/
def historyEarly : List (Event ℚ) := history1 ++ [.modifyWaypoint "a" ⟨2, 0, 0⟩ false, .worker, .worker]

/-- The speed along an axis of the reference read at half a unit of time. -/
def speedRead (axis : V3 ℚ → ℚ) (s : Planner ℚ) : Option ℚ :=
  match s.evaluateTrajectory hermiteEnv (1 / 2) false true with
  | .ok (some (q, _)) => q.velocity.map axis
  | _ => none

/-- C161. The full claim fails: an update applied before any evaluation at a positive time is spread over a width which shrinks from axis to axis (each axis takes
three quarters of the width of the one before, although none was compensated), so the speeds read afterwards depend on which axis is called the first. -/
theorem C161_not_the_axes : ¬ FrameIndependent ℚ := by
  intro H
  obtain ⟨s, hs, hx⟩ := run?_map historyEarly (speedRead V3.x) (some (15226976 / 6328125)) (by decide +kernel)
  obtain ⟨s', hs', hy⟩ := run?_map (historyEarly.map swapped.event) (speedRead V3.y) (some (151042784 / 56953125)) (by decide +kernel)
  obtain ⟨s2, h1, h2⟩ := H swapped hermiteEnv hermiteEnv ⟨0, 0, 0⟩ historyEarly s ⟨.inl rfl, .inl rfl, .inl rfl⟩ (Moved.hermite_same _) (by
    intro e he
    rcases List.mem_append.mp he with he | he
    · have := history1_fresh e he
      cases e <;> first | trivial | exact this | exact this.1 | exact fun w hw => (this w hw).1
    · fin_cases he <;> trivial) hs
  have h0 : swapped.pos ⟨0, 0, 0⟩ = ⟨0, 0, 0⟩ := by simp [swapped, Frame.pos, Frame.dir, Axes.pick]
  rw [h0] at h1
  obtain rfl := run_functional h1 hs'
  unfold speedRead at hx hy
  split at hx
  · rename_i q s1 he
    obtain ⟨s1', h3⟩ := h2 _ _ _ _ _ he
    rw [h3] at hy
    simp only [Frame.references, Option.map_map] at hy
    cases hq : q.velocity with
    | none => rw [hq] at hx; cases hx
    | some w =>
      rw [hq] at hx hy
      simp only [Option.map_some, Option.some.injEq, Function.comp_apply] at hx hy
      rw [show (swapped.dir w).y = w.x by simp [swapped, Frame.dir, Axes.pick], hx] at hy
      norm_num at hy
  · cases hx

/-! ## Examples -/

/-- From east, north, up to north, east, down. -/
def ned : Frame ℚ := ⟨.yxz, ⟨1, 1, -1⟩, ⟨0, 0, 0⟩⟩

/-- A frame with another origin, whose first axis points the other way. -/
def mirrored : Frame ℚ := ⟨.xyz, ⟨-1, 1, 1⟩, ⟨5, -3, 2⟩⟩

theorem ned_proper : ned.Proper := ⟨.inl rfl, .inl rfl, .inr rfl⟩

theorem mirrored_proper : mirrored.Proper := ⟨.inr rfl, .inl rfl, .inl rfl⟩

/-- After an evaluation at a positive time the first waypoint is moved, and the worker applies that update. -/
def historyLate : List (Event ℚ) := history1 ++ [.evaluate (1 / 4) false false, .modifyWaypoint "a" ⟨2, 0, 0⟩ false, .worker, .worker, .evaluate (1 / 2) false false]

theorem fresh_is_valid (es : List (Event ℚ)) (he : ∀ e ∈ es, FreshEvent e) : ∀ e ∈ es, ValidEvent e := fun e h => by
  have := he e h
  cases e <;> first | trivial | exact this | exact this.1 | exact fun w hw => (this w hw).1

theorem historyLate_valid : ∀ e ∈ historyLate, ValidEvent e := fresh_is_valid _ fun e he => by
  rcases List.mem_append.mp he with he | he
  · exact history1_fresh e he
  · fin_cases he <;> trivial

/-- The condition for reordered axes is met by a history in which an update really was applied in flight. -/
theorem historyLate_run : ∃ s, RunWhile (AxesMayMove ned) hermiteEnv (Planner.init ⟨0, 0, 0⟩) historyLate s ∧ (s.dyn.map fun w => w.modifiers.length) = [0, 1, 0] ∧
    speedRead V3.x s ≠ none := by
  have h : (execWhile (fun s e _ => match e with | .worker => !(s.pc == .apply) || decide (0 < s.params.lastGlobal) | _ => true) (Planner.init ⟨0, 0, 0⟩) historyLate).map
      (fun s => (decide ((s.dyn.map fun w => w.modifiers.length) = [0, 1, 0]), (speedRead V3.x s).isSome)) = some (true, true) := by decide +kernel
  obtain ⟨s, h1, h2⟩ := Option.map_eq_some_iff.mp h
  refine ⟨s, execWhile_run _ (AxesMayMove ned) ?_ _ _ _ h1, of_decide_eq_true (congrArg Prod.fst h2), ?_⟩
  · rintro s e s' hok
    refine .inr ?_
    rintro rfl hpc
    simpa [hpc] using hok
  · intro hn
    rw [hn] at h2
    cases congrArg Prod.snd h2

example : ∃ s s', RunWhile (AxesMayMove ned) hermiteEnv (Planner.init ⟨0, 0, 0⟩) historyLate s ∧ (s.dyn.map fun w => w.modifiers.length) = [0, 1, 0] ∧
    Run hermiteEnv (Planner.init (ned.pos ⟨0, 0, 0⟩)) (historyLate.map ned.event) s' ∧ SameAnswers ned hermiteEnv hermiteEnv s s' := by
  obtain ⟨s, h1, h2, _⟩ := historyLate_run
  obtain ⟨s', h3, h4⟩ := C161_answers_partial ned hermiteEnv hermiteEnv _ historyLate s ned_proper (Moved.hermite_same _) historyLate_valid h1
  exact ⟨s, s', h1, h2, h3, h4⟩

example : ∃ s', Run hermiteEnv (Planner.init (mirrored.pos ⟨0, 0, 0⟩)) (history1.map mirrored.event) s' ∧ SameAnswers mirrored hermiteEnv hermiteEnv state1 s' :=
  C161_moved_and_mirrored mirrored hermiteEnv hermiteEnv _ history1 state1 mirrored_proper rfl (Moved.hermite_same _) (fresh_is_valid _ history1_fresh) state1_run

/-- The linear optimizer, in a frame with its axes in another order and its origin elsewhere. -/
example : (⟨.zxy, ⟨1, -1, 1⟩, ⟨4, 5, 6⟩⟩ : Frame ℝ).SameOptimizer (sampleBackend.env true) (sampleBackend.env true) ∧
    ∃ tr, (sampleBackend.env true).optimize realProblem.vertices 1 = .ok tr := by
  obtain ⟨tr, _, h, _⟩ := C85_linear_succeeds sampleBackend one_pos _ _ sample_handed sample_estimates
  exact ⟨C161_linear sampleBackend sampleBackend rfl exactSolver_solves exactSolver_solves _ ⟨.inl rfl, .inr rfl, .inl rfl⟩, tr, h⟩

end Verif.Properties
