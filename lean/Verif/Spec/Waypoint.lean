import Mathlib.Analysis.SpecialFunctions.Exp
import Verif.Model.Waypoint
import Verif.Spec.Vertex

/-!
# Specification vocabulary for waypoints

Axes, the Gaussian bump, and histories of waypoint operations.
-/

namespace Verif.Spec

inductive Axis where
  | x | y | z
  deriving DecidableEq, Repr

/-- Component of a 3-vector. -/
def comp {α : Type*} (v : V3 α) : Axis → α
  | .x => v.x
  | .y => v.y
  | .z => v.z

/-- A Gaussian bump of height `δ` and width `σ` centred at `T`. -/
noncomputable def bump (T σ δ t : ℝ) : ℝ := δ * Real.exp (-((t - T) ^ 2 / (2 * σ ^ 2)))

section
variable {K : Type*} [Field K] [LinearOrder K] [IsStrictOrderedRing K]

/-- The bookkeeping invariant: the vertex is three-dimensional and its position constraint is the current position; with no pending
compensation the planned position is the current one; all compensations are centred at the waypoint's time. -/
def Bookkept (w : Waypoint K) : Prop :=
  w.vertex.D = 3 ∧ WellFormed w.vertex ∧ w.vertex.getConstraint 0 = some [w.current.x, w.current.y, w.current.z] ∧
  (w.modifiers = [] → w.original = w.current) ∧
  (∀ m ∈ w.modifiers, ∀ a, (comp m a).mu = w.time) ∧
  ∀ a, comp w.original a + (w.modifiers.map (fun m => (comp m a).increment)).sum = comp w.current a

end

/-- All the operations a user or the planner can apply to a waypoint. -/
inductive WaypointOp (K : Type*) where
  | update (p : V3 K) (actualTime : K)
  | setTime (t : K)
  | setIndex (i : Int)
  | displaceIndex (d : Int)
  | setName (n : String)
  | resetCurrent
  | reset (p : V3 K)
  | constrain (order : Int) (c : V3 K)
  | copy

section
variable {K : Type*} [Field K] [LinearOrder K] [IsStrictOrderedRing K]

def WaypointOp.run : WaypointOp K → Waypoint K → Res (Waypoint K)
  | .update p a, w => w.setCurrentPosition p a
  | .setTime t, w => .ok (w.setTime t)
  | .setIndex i, w => .ok (w.setIndex i)
  | .displaceIndex d, w => .ok (w.displaceIndex d)
  | .setName n, w => .ok (w.setName n)
  | .resetCurrent, w => w.resetWithCurrent
  | .reset p, w => w.reset p
  | .constrain k c, w => w.setConstraint k c
  | .copy, w => .ok w.copy

/-- A history of operations. -/
def runOps : List (WaypointOp K) → Waypoint K → Res (Waypoint K)
  | [], w => .ok w
  | o :: os, w => do
    let w' ← o.run w
    runOps os w'

end

/-- Position updates and re-timings of a waypoint, where every axis changes by 0 or by at least 2 cm and updates with a known time come
before the waypoint's time. -/
inductive Tracked : Waypoint ℝ → Waypoint ℝ → Prop
  | refl (w : Waypoint ℝ) : Tracked w w
  | update {w w' w'' : Waypoint ℝ} (p : V3 ℝ) (actualTime : ℝ) : Tracked w w' →
      (∀ a, comp p a = comp w'.current a ∨ 2 / 100 ≤ |comp p a - comp w'.current a|) →
      (0 < actualTime → actualTime < w'.time) →
      w'.setCurrentPosition p actualTime = .ok w'' → Tracked w w''
  | retime {w w' : Waypoint ℝ} (t : ℝ) : Tracked w w' → Tracked w (w'.setTime t)

end Verif.Spec
