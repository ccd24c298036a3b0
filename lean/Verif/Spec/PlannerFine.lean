import Verif.Model.PlannerFine
import Verif.Spec.Planner

/-!
# Interleavings of the evaluating calls with everything else
-/

namespace Verif.Spec

variable {K : Type*} [Field K] [LinearOrder K] [IsStrictOrderedRing K] [FloorSemiring K]

/-- The events of other threads: the calls that request, set or reset something, the worker and the computation; not the calls of the
evaluating thread. -/
def ByOthers : Event K → Prop
  | .evaluate _ _ _ => False
  | .getMaxTime => False
  | .getMinTime => False
  | .getDynamicWaypoints => False
  | _ => True

/-- What the worker thread does between two of its phases when its decisions rest on values it read some time ago, and when the updates of
the waypoints are applied one after the other (`dt.cpp` 241-288; `Model/PlannerThreads.lean` has the single steps): it looks; it
begins to plan, or to apply updates, although the request or the clock may have changed since it looked; it collects the waypoints, having
read the clock earlier; it plans from the old trajectory or from the vehicle's position, having decided earlier; it moves the waypoints
of one name, each with its own reading of the clock. -/
inductive Belated (env : Env K) : Planner K → Planner K → Prop
  | look (s : Planner K) : Belated env s s
  | begin (s : Planner K) : s.pc = .top → s.computing = false → Belated env s { s with pc := .collect }
  | beginUpdates (s : Planner K) : s.pc = .top → s.computing = false → Belated env s { s with pc := .apply }
  | collect (s : Planner K) (clock : K) (ws : List (Waypoint K)) (s' : Planner K) : s.pc = .collect →
      Planner.generateWaypoints { s with params := { s.params with lastGlobal := clock } } = .ok (ws, s') →
      Belated env s { s with toSet := [], toAdd := [], toModify := [], next := ws, pc := .collected }
  | origin (s : Planner K) (scratch : Bool) : s.pc = .snapshotted → (scratch = false → s.traj ≠ none) → Belated env s { s with fromScratch := scratch }
  | attach (s : Planner K) (ws : List (Waypoint K)) : s.pc = .snapshotted → s.fromScratch = false → s.stitch env s.next = .ok ws →
      Belated env s { s with next := ws, pc := .planned }
  | scratch (s : Planner K) (ws : List (Waypoint K)) : s.pc = .snapshotted → s.fromScratch = true → s.appendDronePosition s.next = .ok ws →
      Belated env s { s with next := ws, pc := .planned }
  | announce (s : Planner K) : s.pc = .apply → Belated env s { s with regenerated := true }
  | update (s : Planner K) (name : String) (x : V3 K) (ws : List (Waypoint K)) : s.pc = .apply →
      List.Forall₂ (fun w w' => (w.name = name ∧ w.name ≠ "" ∧ ∃ clock, w.setCurrentPosition x clock = .ok w') ∨
        (¬ (w.name = name ∧ w.name ≠ "") ∧ w' = w)) s.dyn ws →
      Belated env s { s with dyn := ws }
  | updated (s : Planner K) : s.pc = .apply → Belated env s { s with toModify := [], pc := .top }

/-- Something other threads do: an event, the assignment of the request flag at the end of `modifyWaypoints`, or a belated step of the
worker. -/
inductive OtherStep (env : Env K) : Planner K → Planner K → Prop
  | event {p p' : Planner K} (e : Event K) : ByOthers e → ValidEvent e → p.step env e = .ok (some p') → OtherStep env p p'
  | request (p : Planner K) : OtherStep env p { p with generateNew := true }
  | belated {p p' : Planner K} : Belated env p p' → OtherStep env p p'

/-- What can happen while a call of the evaluating thread is in progress: its next step, or a step of another thread. -/
inductive InsideStep (env : Env K) : Fine K → Fine K → Prop
  | own {f f' : Fine K} : f.consume env = .ok (some f') → InsideStep env f f'
  | other {p p' : Planner K} (c : Consumer K) : OtherStep env p p' → InsideStep env ⟨p, c⟩ ⟨p', c⟩

/-- The states some interleaving leads to: starting at construction, the evaluating thread makes any calls one after the other. -/
inductive Interleaved (env : Env K) : Fine K → Prop
  | init (vehicle : V3 K) : Interleaved env ⟨Planner.init vehicle, .free⟩
  | call {f : Fine K} (k : Purpose K) : Interleaved env f → f.c.isFree = true → Interleaved env ⟨f.p, .start k⟩
  | inside {f f' : Fine K} : Interleaved env f → InsideStep env f f' → Interleaved env f'

/-- A call `k` in progress (or just over), in some interleaving: `During env k fs f` when the states since its beginning are `fs`, the last
of them `f`. -/
inductive During (env : Env K) (k : Purpose K) : List (Fine K) → Fine K → Prop
  | start {f : Fine K} : Interleaved env f → f.c.isFree = true → During env k [⟨f.p, .start k⟩] ⟨f.p, .start k⟩
  | inside {fs : List (Fine K)} {f f' : Fine K} : During env k fs f → InsideStep env f f' → During env k (fs ++ [f']) f'

/-- `Later env ok f f'`: from `f` on, steps of the evaluating thread (which may begin further calls) and events of other threads that satisfy `ok` lead to `f'`. -/
inductive Later (env : Env K) (ok : Planner K → Event K → Prop) (f : Fine K) : Fine K → Prop
  | refl : Later env ok f f
  | call {g : Fine K} (k : Purpose K) : Later env ok f g → g.c.isFree = true → Later env ok f ⟨g.p, .start k⟩
  | own {g g' : Fine K} : Later env ok f g → g.consume env = .ok (some g') → Later env ok f g'
  | event {p p' : Planner K} {c : Consumer K} (e : Event K) : Later env ok f ⟨p, c⟩ → ByOthers e → ValidEvent e → ok p e →
      p.step env e = .ok (some p') → Later env ok f ⟨p', c⟩

/-- The thread is in the middle of taking over a plan: it has fetched the plan and not yet replaced all of parameters, trajectory and
waypoints. -/
def TakingOver : Consumer K → Prop
  | .target _ _ => True
  | .old _ _ _ _ => True
  | .fit0 _ _ _ _ => True
  | .fit _ _ _ _ _ _ _ _ => True
  | .offset _ _ _ _ _ => True
  | .fitted _ _ _ => True
  | .params _ _ => True
  | .traj _ _ => True
  | .mark _ => True
  | .swap _ => True
  | .clearComputing _ => True
  | _ => False

/-- The states complete calls, one after the other, lead to, when the request flag may be rewritten at any time, an evaluation may
record its time separately, and the worker may act belatedly. -/
inductive Serialised (env : Env K) : Planner K → Prop
  | init (vehicle : V3 K) : Serialised env (Planner.init vehicle)
  | event {s s' : Planner K} (e : Event K) : Serialised env s → ValidEvent e → s.step env e = .ok (some s') → Serialised env s'
  | flag {s : Planner K} (b : Bool) : Serialised env s → Serialised env { s with generateNew := b }
  | belated {s s' : Planner K} : Serialised env s → Belated env s s' → Serialised env s'
  | record {s : Planner K} (t : K) : Serialised env s → s.traj ≠ none →
      Serialised env { s with params := { s.params with lastGlobal := t, lastLocal := t - s.params.gtlg } }

end Verif.Spec
