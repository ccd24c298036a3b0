import Verif.Model.NonlinearOpt
import Verif.Spec.LinearOptCost

/-!
# Specification vocabulary for the nonlinear optimisation

What NLopt may do with the problem it is handed, histories of calls on one object, and the free derivatives of a problem.
-/

namespace Verif.Spec

/-- The derivatives of order below `h` that the vertices leave free: pairs of vertex and order, by vertex, then by order. -/
def freeOrders {K : Type*} (h : ℕ) (vs : List (Vertex K)) : List (ℕ × ℕ) :=
  vs.zipIdx.flatMap fun (v, i) => ((List.range h).filter fun k : ℕ => (v.getConstraint k).isNone).map fun k => (i, k)

/-- Derivative `k` in dimension `d` of a piecewise polynomial is `x` at vertex `i`: on the segment that begins there and on the one that ends
there. -/
def AtVertex {K : Type*} [Field K] (segs : List (Segment K)) (i k d : ℕ) (x : K) : Prop :=
  (∀ s, segs[i]? = some s → (segDeriv s k 0)[d]? = some x) ∧
  (∀ j s, j + 1 = i → segs[j]? = some s → (segDeriv s k s.time)[d]? = some x)

/-- The point has the right number of entries, each within its bounds. -/
def WithinBounds (p : NloptProblem) (x : List ℝ) : Prop :=
  x.length = p.x0.length ∧ ∀ (i : ℕ) (v : ℝ), x[i]? = some v →
    (∀ l, p.lower[i]? = some (some l) → l ≤ v) ∧ (∀ u, p.upper[i]? = some (some u) → v ≤ u)

/-- Contract of NLopt: it invokes the objective and the registered constraints `hard` only within the bounds, asks for gradients as its
algorithm does, and throws without any invocation when the starting point is out of bounds. -/
def Obeys (p : NloptProblem) (hard : List MagConstraint) (gradient : Bool) (run : NloptRun) : Prop :=
  run.setupFails = true ∨
  (∀ r ∈ run.requests, match r with
    | .objective x g => WithinBounds p x ∧ g = gradient
    | .constraint c x g => c ∈ hard ∧ WithinBounds p x ∧ g = gradient) ∧
  (¬WithinBounds p p.x0 → run.requests = [] ∧ run.result = none ∧ run.costWritten = false)

/-- The methods that optimise times and free derivatives together. -/
def FullMethod (m : AllocMethod) : Prop := m = .squaredTimeAndConstraints ∨ m = .richterTimeAndConstraints

/-- The methods that optimise the times only, without gradients. -/
def TimeMethod (m : AllocMethod) : Prop := m = .squaredTime ∨ m = .richterTime

/-- The problem `optimize` hands to NLopt. -/
def Handed {h : ℕ} (solve : LinSolver ℝ) (o : NonLin h) (p : NloptProblem) : Prop :=
  (FullMethod o.params.method ∧ ∃ o1, o.solveLinear solve = .ok o1 ∧ o1.fullProblem = .ok p) ∨
  ((TimeMethod o.params.method ∨ o.params.method = .mellingerOuterLoop) ∧ p = o.timeProblem)

/-- A run of NLopt that obeys the contract for the problem `optimize` hands to it, with an algorithm that fits the method: with gradients for the
Mellinger method, without for the others. -/
def GoodRun {h : ℕ} (solve : LinSolver ℝ) (o : NonLin h) (run : NloptRun) : Prop :=
  ∀ p nl, Handed solve o p → o.nlopt = some nl → Obeys p nl.hard (decide (o.params.method = .mellingerOuterLoop)) run

/-- `NLHistory h dim rf solve q o`: some sequence of calls on a new object of dimension `dim`, none of which fails, with runs of NLopt that obey
the contract, leads to the object `o`, and `q` is the problem it was last set up with, with the segment times it holds now. -/
inductive NLHistory (h dim : ℕ) (rf : Poly.RootFinder ℝ) (solve : LinSolver ℝ) : Option (Problem ℝ) → NonLin h → Prop
  | new (params : NLParams) : NLHistory h dim rf solve none (NonLin.init h dim params)
  | setup {p : Option (Problem ℝ)} {o o' : NonLin h} (q : Problem ℝ) : NLHistory h dim rf solve p o →
      o.setupFromVertices q.vertices q.times q.derivative = .ok o' → NLHistory h dim rf solve (some q) o'
  | add {p : Option (Problem ℝ)} {o o' : NonLin h} {b : Bool} (k : Int) (value : ℝ) : NLHistory h dim rf solve p o →
      o.addMaximumMagnitudeConstraint k value = .ok (o', b) → NLHistory h dim rf solve p o'
  | solve {q : Problem ℝ} {o o' : NonLin h} : NLHistory h dim rf solve (some q) o →
      o.solveLinear solve = .ok o' → NLHistory h dim rf solve (some q) o'
  | cost {p : Option (Problem ℝ)} {o o' : NonLin h} {c : ℝ} : NLHistory h dim rf solve p o →
      o.getTotalCostWithSoftConstraints rf = .ok (o', c) → NLHistory h dim rf solve p o'
  | scale {q : Problem ℝ} {o o' : NonLin h} : NLHistory h dim rf solve (some q) o →
      o.scaleSegmentTimesWithViolation rf solve = .ok o' →
      NLHistory h dim rf solve (some { q with times := o'.poly.times }) o'
  | optimize {q : Problem ℝ} {o o' : NonLin h} {code : Int} (run : NloptRun) : NLHistory h dim rf solve (some q) o →
      GoodRun solve o run → o.optimize rf solve run = .ok (o', code) →
      NLHistory h dim rf solve (some { q with times := o'.poly.times }) o'

/-- The limit given last for derivative `k`, if any was. -/
def lastLimit (k : ℕ) (cs : List MagConstraint) : Option ℝ := ((cs.filter fun c => c.derivative = k).getLast?).map (·.value)

/-- The bounds of the problem handed to NLopt, for `n` segments, bound exactly the free derivatives with a limit on their order: by the limit
given last, widened to the starting value. -/
def BoundsMatch (h n dim : ℕ) (vs : List (Vertex ℝ)) (cs : List MagConstraint) (p : NloptProblem) : Prop :=
  ∀ (i v k d : ℕ) (y : ℝ), (freeOrders h vs)[i]? = some (v, k) → d < dim → p.x0[n + d * (freeOrders h vs).length + i]? = some y →
    p.lower[n + d * (freeOrders h vs).length + i]? = some ((lastLimit k cs).map fun l => min (-|l|) y) ∧
    p.upper[n + d * (freeOrders h vs).length + i]? = some ((lastLimit k cs).map fun l => max |l| y)

/-- The trajectory held is the solution of the linear problem, or given by free values, for the problem `q`. -/
def Solved (h dim : ℕ) (solve : LinSolver ℝ) (q : Problem ℝ) (p : LinOpt h ℝ) : Prop :=
  ∃ p0, LinHistory h dim solve (some q) p0 ∧ ((∃ values, p0.setFreeConstraints values = .ok p) ∨ p0.solveLinear solve = .ok p)

/-- `M` is the largest magnitude of derivative `k` on the segments. -/
def IsPeak (dim k : ℕ) (segs : List (Segment ℝ)) (M : ℝ) : Prop :=
  (∃ s ∈ segs, ∃ τ ∈ Set.Icc 0 s.time, M = magnitude s (List.range dim) k τ) ∧
  ∀ s ∈ segs, ∀ τ ∈ Set.Icc 0 s.time, magnitude s (List.range dim) k τ ≤ M

/-- The cost of one soft constraint with limit `limit > 0` for a trajectory with largest magnitude `M`. -/
noncomputable def softCost (weight cap limit M : ℝ) : ℝ := min cap (Real.exp (weight * (M / limit - 1)))

/-- Sum of the soft-constraint costs, given the largest magnitudes. -/
noncomputable def softCosts (weight cap : ℝ) (M : ℕ → ℝ) (cs : List MagConstraint) : ℝ :=
  (cs.map fun c => softCost weight cap c.value (M c.derivative)).sum

/-- Cost of the total time: linear for the Richter methods, squared otherwise. -/
noncomputable def timeTerm (m : AllocMethod) (penalty : ℝ) (segs : List (Segment ℝ)) : ℝ :=
  match m with
  | .richterTime | .richterTimeAndConstraints => (segs.map (·.time)).sum * penalty
  | _ => (segs.map (·.time)).sum ^ 2 * penalty

/-- The information an object holds describes the segments `segs`. -/
structure InfoMatches {h : ℕ} (dim : ℕ) (q : Problem ℝ) (o : NonLin h) (segs : List (Segment ℝ)) : Prop where
  trajectory : o.info.costTrajectory = energy q.derivative.toNat segs
  time : o.info.costTime = timeTerm o.params.method o.params.timePenalty segs
  hard : o.params.useSoft = false → o.info.costSoft = 0
  soft : o.params.useSoft = true → ∃ M : ℕ → ℝ, (∀ c ∈ o.constraints, IsPeak dim c.derivative segs (M c.derivative)) ∧
    o.info.costSoft = softCosts o.params.softWeight (10 ^ 12) M o.constraints
  maxima : o.params.useSoft = true → ∀ c ∈ o.constraints, ∃ e : Extremum ℝ, o.info.maxima c.derivative = some e ∧
    (∃ s, segs[e.segmentIdx]? = some s ∧ e.time ∈ Set.Icc 0 s.time ∧ e.value = magnitude s (List.range dim) c.derivative e.time) ∧
    ∀ s ∈ segs, ∀ τ ∈ Set.Icc 0 s.time, magnitude s (List.range dim) c.derivative τ ≤ e.value

/-- The points at which the objective is evaluated, in order. -/
def evaluated (rs : List Request) : List (List ℝ) :=
  rs.filterMap fun r => match r with
    | .objective x _ => some x
    | .constraint _ _ _ => none

open Classical in
/-- The objective that NLopt is given for the gradient-free method of the object, at the point `x`: cost, and the object as it is afterwards. -/
noncomputable def objectiveAt {h : ℕ} (rf : Poly.RootFinder ℝ) (solve : LinSolver ℝ) (o : NonLin h) (x : List ℝ) : Res (NonLin h × ℝ) :=
  if FullMethod o.params.method then o.objectiveFunctionTimeAndConstraints rf x false else o.objectiveFunctionTime rf solve x false

/-- One successful call on an object other than a set-up, with a run of NLopt that obeys the contract. -/
inductive Call {h : ℕ} (rf : Poly.RootFinder ℝ) (solve : LinSolver ℝ) : NonLin h → NonLin h → Prop
  | add {o o' : NonLin h} {b : Bool} (k : Int) (value : ℝ) : o.addMaximumMagnitudeConstraint k value = .ok (o', b) → Call rf solve o o'
  | solve {o o' : NonLin h} : o.solveLinear solve = .ok o' → Call rf solve o o'
  | cost {o o' : NonLin h} {c : ℝ} : o.getTotalCostWithSoftConstraints rf = .ok (o', c) → Call rf solve o o'
  | scale {o o' : NonLin h} : o.scaleSegmentTimesWithViolation rf solve = .ok o' → Call rf solve o o'
  | optimize {o o' : NonLin h} {code : Int} (run : NloptRun) : GoodRun solve o run → o.optimize rf solve run = .ok (o', code) → Call rf solve o o'

/-- The segment times for direction `i` of the Mellinger gradient: 0.1 more for segment `i`, the same total taken off the others, and nothing
below 0.1. -/
def Perturbed (ts : List ℝ) (i : ℕ) (ts' : List ℝ) : Prop :=
  ts'.length = ts.length ∧ ∀ (j : ℕ) (t t' : ℝ), ts[j]? = some t → ts'[j]? = some t' →
    t' = max (1 / 10) (if j = i then t + 1 / 10 else t - 1 / 10 / (ts.length - 1))

end Verif.Spec
