import Verif.Spec.Planner

/-!
# Specification: the planner seen from another frame of reference

The new frame has its origin elsewhere, its axes are those of the old frame in any order, and each may point the other way.
-/

namespace Verif.Spec

/-- The order of the axes: the old axes which are the first, the second and the third of the new frame. -/
inductive Axes where
  | xyz
  | xzy
  | yxz
  | yzx
  | zxy
  | zyx

/-- What belongs to the three axes, in the new order. -/
def Axes.pick {α : Type*} : Axes → V3 α → V3 α
  | xyz, p => ⟨p.x, p.y, p.z⟩
  | xzy, p => ⟨p.x, p.z, p.y⟩
  | yxz, p => ⟨p.y, p.x, p.z⟩
  | yzx, p => ⟨p.y, p.z, p.x⟩
  | zxy, p => ⟨p.z, p.x, p.y⟩
  | zyx, p => ⟨p.z, p.y, p.x⟩

/-- A frame of reference: the order of the axes, the sign of each of the new axes, and where the old origin is. -/
structure Frame (K : Type*) where
  axes : Axes
  sign : V3 K
  origin : V3 K

variable {K : Type*} [Field K] [LinearOrder K] [IsStrictOrderedRing K] [FloorSemiring K]

namespace Frame

/-- The signs are signs. -/
def Proper (F : Frame K) : Prop := (F.sign.x = 1 ∨ F.sign.x = -1) ∧ (F.sign.y = 1 ∨ F.sign.y = -1) ∧ (F.sign.z = 1 ∨ F.sign.z = -1)

/-- A velocity, acceleration or difference of positions in the new frame. -/
def dir (F : Frame K) (p : V3 K) : V3 K := ⟨F.sign.x * (F.axes.pick p).x, F.sign.y * (F.axes.pick p).y, F.sign.z * (F.axes.pick p).z⟩

/-- A position in the new frame. -/
def pos (F : Frame K) (p : V3 K) : V3 K := ⟨(F.dir p).x + F.origin.x, (F.dir p).y + F.origin.y, (F.dir p).z + F.origin.z⟩

/-- The value of a derivative of order `k`, order 0 being the position, in the new frame. -/
def value (F : Frame K) (k : Int) : List K → List K
  | x :: y :: z :: l => (if k = 0 then F.pos ⟨x, y, z⟩ else F.dir ⟨x, y, z⟩).toList ++ l
  | c => c

/-- A vertex in the new frame. -/
def vertex (F : Frame K) (v : Vertex K) : Vertex K := ⟨v.D, v.constraints.map fun x => (x.1, F.value x.1 x.2)⟩

/-- The compensations of one update in the new frame. -/
def modifier (F : Frame K) (m : V3 (Modifier K)) : V3 (Modifier K) :=
  ⟨{ (F.axes.pick m).x with increment := F.sign.x * (F.axes.pick m).x.increment }, { (F.axes.pick m).y with increment := F.sign.y * (F.axes.pick m).y.increment },
    { (F.axes.pick m).z with increment := F.sign.z * (F.axes.pick m).z.increment }⟩

/-- A waypoint in the new frame. -/
def waypoint (F : Frame K) (w : Waypoint K) : Waypoint K :=
  { w with vertex := F.vertex w.vertex, original := F.pos w.original, current := F.pos w.current, modifiers := w.modifiers.map F.modifier }

/-- References in the new frame. -/
def references (F : Frame K) (r : References K) : References K := ⟨F.pos r.position, r.velocity.map F.dir, r.acceleration.map F.dir⟩

/-- What happens, told in the new frame: the positions handed over are those of the new frame, everything else is the same. -/
def event (F : Frame K) : Event K → Event K
  | .setWaypoints ws => .setWaypoints (ws.map F.waypoint)
  | .appendWaypoint w => .appendWaypoint (F.waypoint w)
  | .modifyWaypoint n p g => .modifyWaypoint n (F.pos p) g
  | .modifyWaypoints ms => .modifyWaypoints (ms.map fun m => (m.1, F.pos m.2))
  | .updateVehiclePosition p => .updateVehiclePosition (F.pos p)
  | e => e

/-- The second trajectory is the first one in the new frame: the same durations, and wherever the first can be evaluated for position, velocity or acceleration,
the second gives the same in the new frame. -/
def SameFlight (F : Frame K) (tr tr' : Trajectory K) : Prop :=
  tr'.segments.map (·.time) = tr.segments.map (·.time) ∧ tr'.maxTime = tr.maxTime ∧
  ∀ t ≤ tr.maxTime, ∀ (k : ℕ) (c : List K), k ≤ 2 → tr.evaluate t k = .ok c → tr'.evaluate t k = .ok (F.value k c)

/-- Contract of the optimizers: given three-dimensional vertices with positions for which the first finds a trajectory, the second finds the same trajectory in
the new frame when given the vertices in the new frame; and if the first throws an exception, so does the second. -/
def SameOptimizer (F : Frame K) (env env' : Env K) : Prop :=
  env'.exp = env.exp ∧ ∀ vs speed, 2 ≤ vs.length → (∀ v ∈ vs, WellFormed v ∧ v.D = 3 ∧ ∃ p, v.getConstraint 0 = some p) →
    (∀ tr, env.optimize vs speed = .ok tr → ∃ tr', env'.optimize (vs.map F.vertex) speed = .ok tr' ∧ F.SameFlight tr tr') ∧
    (env.optimize vs speed = .error .exc → env'.optimize (vs.map F.vertex) speed = .error .exc)

/-- What the second planner's members are, if they are the first's in the new frame. -/
inductive SameFuture (F : Frame K) : Future K → Future K → Prop
  | invalid : SameFuture F .invalid .invalid
  | launched : SameFuture F .launched .launched
  | running (v : K) : SameFuture F (.running v) (.running v)
  | ready {tr tr' : Trajectory K} (h : F.SameFlight tr tr') : SameFuture F (.ready tr) (.ready tr')
  | failed : SameFuture F .failed .failed

/-- The second planner is in the state of the first one, in the new frame. -/
structure Same (F : Frame K) (s s' : Planner K) : Prop where
  params : s'.params = s.params
  newParams : s'.newParams = s.newParams
  traj : Option.Rel F.SameFlight s.traj s'.traj
  future : F.SameFuture s.future s'.future
  fromScratch : s'.fromScratch = s.fromScratch
  vehicle : s'.vehicle = F.pos s.vehicle
  dyn : s'.dyn = s.dyn.map F.waypoint
  next : s'.next = s.next.map F.waypoint
  toAdd : s'.toAdd = s.toAdd.map F.waypoint
  toSet : s'.toSet = s.toSet.map F.waypoint
  toModify : s'.toModify = s.toModify.map fun m => (m.1, F.pos m.2)
  generateNew : s'.generateNew = s.generateNew
  computing : s'.computing = s.computing
  regenerated : s'.regenerated = s.regenerated
  timeConstant : s'.timeConstant = s.timeConstant
  pc : s'.pc = s.pc

end Frame

end Verif.Spec
