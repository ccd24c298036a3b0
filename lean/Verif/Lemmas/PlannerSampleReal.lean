import Verif.Lemmas.PlannerSample
import Verif.Lemmas.Hermite
import Verif.Lemmas.PlannerEval
import Mathlib.Algebra.Order.Archimedean.Real.Basic
import Mathlib.Analysis.SpecialFunctions.Exp

/-!
# A sample history over the real numbers

For theorems that need the exponential function: one waypoint is planned, the plan is taken over, and the waypoint is then moved by one metre.
-/

set_option linter.unusedSimpArgs false

namespace Verif.Lemmas
open Verif Verif.Spec

noncomputable section

/-- The optimizer of the examples with the true exponential function. -/
def realEnv : Env ℝ := ⟨Real.exp, hermiteOptimize⟩

def rwp (name : String) (x y z : ℝ) : Waypoint ℝ :=
  { vertex := ⟨3, [(0, [x, y, z])]⟩, original := ⟨x, y, z⟩, current := ⟨x, y, z⟩, time := 0, name := name, index := -1, modifiers := [],
    lastSigma := 3 / 2 }

theorem rwp_bookkept (name : String) (x y z : ℝ) : Bookkept (rwp name x y z) ∧ (rwp name x y z).modifiers = [] := by
  refine ⟨⟨rfl, ⟨by simp [rwp], by simp [rwp]⟩, rfl, fun _ => rfl, by simp [rwp], ?_⟩, rfl⟩
  intro a; simp [rwp]

def realHistory : List (Event ℝ) :=
  [.setWaypoints [rwp "a" 1 0 0], .worker, .worker, .worker, .worker, .worker, .worker, .worker, .asyncStart, .asyncFinish 0,
    .getDynamicWaypoints, .modifyWaypoint "a" ⟨2, 0, 0⟩ false, .worker, .worker]

def startVertex : Vertex ℝ := ⟨3, [(0, [0, 0, 0]), (1, [0, 0, 0]), (2, [0, 0, 0])]⟩
def endVertex : Vertex ℝ := ⟨3, [(0, [1, 0, 0]), (1, [0, 0, 0]), (2, [0, 0, 0])]⟩

/-- From the origin to (1, 0, 0) in one second. -/
def realPlan : Trajectory ℝ := ⟨3, 10, 1, [hermiteSegment startVertex endVertex]⟩

theorem realEnv_optimize (sp : ℝ) : realEnv.optimize [startVertex, endVertex] sp = .ok realPlan := by
  show hermiteOptimize [startVertex, endVertex] sp = _
  unfold hermiteOptimize
  rw [if_pos (by simp [startVertex, endVertex]; constructor <;> (rintro a b (⟨-, rfl⟩ | ⟨-, rfl⟩ | ⟨-, rfl⟩) <;> rfl))]
  simp [realPlan, hermiteSegments]

theorem realPlan_time0 : getCummulativeTime realPlan.segments 0 = .ok (0 : ℝ) := by
  simp [realPlan, getCummulativeTime, cumulativeLoop, hermiteSegment, bind, Except.bind, pure, Except.pure, at?]

theorem realPlan_time1 : getCummulativeTime realPlan.segments 1 = .ok (1 : ℝ) := by
  simp [realPlan, getCummulativeTime, cumulativeLoop, hermiteSegment, bind, Except.bind, pure, Except.pure, at?]

theorem realEnv_segmentwise : Segmentwise realEnv := hermite_segmentwise

theorem realPlan_usable : Usable realPlan := (realEnv_segmentwise _ 0 _ (realEnv_optimize 0)).1

theorem realPlan_fit (s : Planner ℝ) (target : V3 ℝ) (h1 : s.newParams.gtlg = 0) (h2 : s.timeConstant = 0) (h3 : s.params.lastGlobal = 0) :
    s.timeFitting realEnv realPlan target = .ok { s with newParams := { s.newParams with tOffset := 1 / 10 } } := by
  have hm := usable_maxTime_nonneg realPlan_usable
  obtain ⟨b, hb⟩ := usable_evaluate realPlan_usable 0 0 le_rfl hm
  have hc : Planner.clampTime (0 : ℝ) realPlan.maxTime = 0 := by rw [clampTime_eq _ _ hm, min_eq_left hm, max_self]
  unfold Planner.timeFitting Planner.evaluateModified
  rw [h1, hc, hb]
  simp [bind, Except.bind, pure, Except.pure, Planner.computationTime, h2, h3, h1, Planner.fitLoop, V3.ofList]

/-- The compensation of the moved waypoint: one metre along the first axis, width 9/8 s, at 1 s. -/
def realModifier : V3 (Modifier ℝ) :=
  ⟨⟨9 / 8, 81 / 64, 1, 1⟩, ⟨27 / 32, 729 / 1024, 1, 0⟩, ⟨81 / 128, 6561 / 16384, 1, 0⟩⟩

/-- The waypoints of the current plan at the end of the history. -/
def realWaypoints : List (Waypoint ℝ) :=
  [{ vertex := startVertex, original := ⟨0, 0, 0⟩, current := ⟨0, 0, 0⟩, time := 0, name := "", index := 0, modifiers := [], lastSigma := 3 / 2 },
   { vertex := ⟨3, [(0, [2, 0, 0])]⟩, original := ⟨1, 0, 0⟩, current := ⟨2, 0, 0⟩, time := 1, name := "a", index := 1, modifiers := [realModifier],
     lastSigma := 81 / 128 }]

/-- The end of the history: nothing is being computed and no plan waits. -/
def realState : Planner ℝ :=
  { params := ⟨0, 1 / 10, 0, 0, 0⟩, newParams := ⟨0, 1 / 10, 0, 0, 0⟩, traj := some realPlan, future := .invalid, fromScratch := false, vehicle := ⟨0, 0, 0⟩,
    dyn := realWaypoints,
    next := [{ vertex := startVertex, original := ⟨0, 0, 0⟩, current := ⟨0, 0, 0⟩, time := 0, name := "", index := 0, modifiers := [], lastSigma := 3 / 2 },
      { vertex := ⟨3, [(0, [1, 0, 0])]⟩, original := ⟨1, 0, 0⟩, current := ⟨1, 0, 0⟩, time := 1, name := "a", index := 1, modifiers := [], lastSigma := 3 / 2 }],
    toAdd := [], toSet := [], toModify := [], generateNew := false, computing := false, regenerated := true, timeConstant := 0, pc := .top }

theorem realState_exec : exec realEnv (Planner.init ⟨0, 0, 0⟩) realHistory = .ok (some realState) := by
  have ho := fun sp => realEnv_optimize sp
  unfold startVertex endVertex at ho
  simp [realHistory, exec, Planner.step, Planner.setWaypoints, Planner.init, Planner.workerStep, Planner.checkIfTrajectoryCanBeGenerated, Planner.checkInSecurityZone, bind,
    Except.bind, pure, Except.pure, Planner.generateWaypoints, resetAll, Planner.checkStitchTrajectory, Planner.appendDronePosition, Waypoint.reset,
    Waypoint.resetWithCurrent, Waypoint.default, Vertex.mk', Vertex.addConstraint, V3.toList, V3.zero, Waypoint.setConstraint, Waypoint.copy, rwp, Planner.asyncStart,
    Planner.asyncFinish, Planner.computeTrajectory, extractVertices, ho, IntMap.insert, assignTimes, realPlan_time0, realPlan_time1, Waypoint.setIndex, Waypoint.setTime,
    Planner.getDynamicWaypoints, Planner.checkTrajectoryGenerated, Planner.swapTrajectory, Planner.swapDynamicWaypoints, Planner.modifyWaypoint, Planner.putModification,
    realPlan_fit, Planner.applyAll, Planner.applyWaypointModification, Planner.applyLoop, Waypoint.setCurrentPosition, Waypoint.axisModifier, Modifier.default,
    Modifier.setSigma, Modifier.setModifierTime, Modifier.setDifference, Future.isReady, Future.valid, realState, realWaypoints, realModifier, startVertex, sigmaFixed,
    sigmaCoefficient]
  norm_num

theorem realState_fresh : ReachableBy FreshEvent realEnv realState := by
  refine ⟨⟨0, 0, 0⟩, realHistory, ?_, exec_run _ _ _ _ realState_exec⟩
  simp [realHistory, FreshEvent, rwp_bookkept]

theorem realState_reachable : Reachable realEnv realState := reachable_of_fresh realState_fresh

end

end Verif.Lemmas
