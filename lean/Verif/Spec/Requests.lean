import Verif.Spec.Planner

/-!
# What the user has asked for and the planner has not yet consumed

A ghost record, computed from the history alone (and from the moments at which the worker collects requests).
-/

namespace Verif.Spec

variable {K : Type*} [Field K] [LinearOrder K] [IsStrictOrderedRing K] [FloorSemiring K]

/-- Pending requests: the route of the latest `setWaypoints`, the waypoints appended since, the position updates in the order of the calls. -/
structure Requests (K : Type*) where
  route : List (Waypoint K)
  appended : List (Waypoint K)
  updates : List (String × V3 K)

/-- Nothing is asked for. -/
def Requests.nothing : Requests K := ⟨[], [], []⟩

/-- The effect of an event: `setWaypoints` replaces everything asked for before; when the worker (at `pc`) collects requests for a plan they
are all consumed, when it applies updates to the current plan the updates are. -/
def Requests.after (g : Requests K) (pc : WorkerPc) : Event K → Requests K
  | .setWaypoints ws => ⟨ws, [], []⟩
  | .appendWaypoint w => { g with appended := g.appended ++ [w] }
  | .modifyWaypoint n p _ => { g with updates := g.updates ++ [(n, p)] }
  | .modifyWaypoints ms => { g with updates := g.updates ++ ms }
  | .worker => if pc = .collect then .nothing else if pc = .apply then { g with updates := [] } else g
  | _ => g

/-- A history together with the requests pending after it. -/
inductive RunR (env : Env K) (s : Planner K) : List (Event K) → Requests K → Planner K → Prop
  | nil : RunR env s [] .nothing s
  | snoc {es : List (Event K)} {g : Requests K} {s' s'' : Planner K} (e : Event K) :
      RunR env s es g s' → s'.step env e = .ok (some s'') → RunR env s (es ++ [e]) (g.after s'.pc e) s''

/-- The position of the last update for a name. -/
def lastUpdate (us : List (String × V3 K)) (name : String) : Option (V3 K) :=
  ((us.filter fun u => u.1 = name).getLast?).map (·.2)

/-- The update that concerns a waypoint: none if it has no name. -/
def updateFor (us : List (String × V3 K)) (w : Waypoint K) : Option (V3 K) := if w.name = "" then none else lastUpdate us w.name

/-- `w'` is `w` at the position `u` (or where it was, if `u` is none); name, time and all other constraints are the same. -/
def Becomes (u : Option (V3 K)) (w w' : Waypoint K) : Prop :=
  w'.name = w.name ∧ w'.time = w.time ∧ w'.current = u.getD w.current ∧
  w'.vertex.getConstraint 0 = some [w'.current.x, w'.current.y, w'.current.z] ∧
  ∀ k : Int, k ≠ 0 → w'.vertex.getConstraint k = w.vertex.getConstraint k

/-- A plan is taken over in the step from `s` to `s'`. -/
def TakesOver (s s' : Planner K) : Prop := s.computing = true ∧ s'.computing = false

/-- A history all of whose steps satisfy `ok` (state before, event, state after). -/
inductive RunWhile (ok : Planner K → Event K → Planner K → Prop) (env : Env K) (s : Planner K) : List (Event K) → Planner K → Prop
  | nil : RunWhile ok env s [] s
  | snoc {es : List (Event K)} {s' s'' : Planner K} (e : Event K) :
      RunWhile ok env s es s' → s'.step env e = .ok (some s'') → ok s' e s'' → RunWhile ok env s (es ++ [e]) s''

/-- A history in which no plan is taken over. -/
def RunBefore (env : Env K) : Planner K → List (Event K) → Planner K → Prop := RunWhile (fun s _ s' => ¬ TakesOver s s') env

/-- The same waypoint up to index, time and compensations. -/
def SameWaypoint (w w' : Waypoint K) : Prop :=
  w'.name = w.name ∧ w'.current = w.current ∧ ∀ k : Int, w'.vertex.getConstraint k = w.vertex.getConstraint k

/-- The waypoints `ws` are the points added by the planner (`pre`) followed by the waypoints `from_`, of which, if the plan was stitched to
the previous one, those with a time in `(0, b)` for some `b` are missing. -/
def PlanOf (from_ ws : List (Waypoint K)) : Prop :=
  ∃ pre kept, ws = pre ++ kept ∧
    ((pre.map (·.name) = [""] ∧ List.Forall₂ SameWaypoint from_ kept) ∨
     (pre.map (·.name) = ["stitching_point", "stitching_point"] ∧
      ∃ b : K, List.Forall₂ SameWaypoint (from_.filter fun w => w.time ≤ 0 ∨ b ≤ w.time) kept))

/-- The position updates of a history, in order. -/
def updatesIn (es : List (Event K)) : List (String × V3 K) :=
  es.flatMap fun e => match e with
    | .modifyWaypoint n p _ => [(n, p)]
    | .modifyWaypoints ms => ms
    | _ => []

/-- A call that hands over a route, a waypoint or a position update. -/
def IsRequest : Event K → Prop
  | .setWaypoints _ => True
  | .appendWaypoint _ => True
  | .modifyWaypoint _ _ _ => True
  | .modifyWaypoints _ => True
  | _ => False

/-- The call `r` hands over the waypoint `w`. -/
def HandsOver (r : Event K) (w : Waypoint K) : Prop := r = .appendWaypoint w ∨ ∃ ws, r = .setWaypoints ws ∧ w ∈ ws

/-- The worker collects the requests for a plan. -/
def Collects (s : Planner K) (e : Event K) : Prop := e = .worker ∧ s.pc = .collect

/-- The worker applies position updates to the current plan. -/
def Applies (s : Planner K) (e : Event K) : Prop := e = .worker ∧ s.pc = .apply

end Verif.Spec
