import Verif.Spec.PlannerOnePlan

/-!
# A single request among all threads
-/

namespace Verif.Spec

variable {K : Type*} [Field K] [LinearOrder K] [IsStrictOrderedRing K] [FloorSemiring K]

/-- The step hands over a route, a waypoint or a position update, or asks for a plan. -/
def Requesting : Label K → Prop
  | .user e => IsRequest e
  | .request => True
  | _ => False

/-- An evaluating call `k`, begun in `s0`, in progress or just over; all steps since satisfy `ok`; the states since its beginning are `ss`, the last of
them `s`. -/
inductive CallWhile (env : Env K) (ok : Whole K → Label K → Whole K → Prop) (k : Purpose K) (s0 : Whole K) : List (Whole K) → Whole K → Prop
  | start : s0.c.isFree = true → CallWhile env ok k s0 [⟨s0.p, .start k, s0.w⟩] ⟨s0.p, .start k, s0.w⟩
  | step {ss : List (Whole K)} {l : Label K} {s s' : Whole K} : CallWhile env ok k s0 ss s → ThreadStep env l s s' → ok s l s' →
      CallWhile env ok k s0 (ss ++ [s']) s'

end Verif.Spec
