import Mathlib.Analysis.SpecialFunctions.Exp
import Verif.Model.OptMagnitude

/-!
# Model of `mav_trajectory_generation::PolynomialOptimizationNonLinear<N>`

Source: `SP/include/mav_trajectory_generation/impl/polynomial_optimization_nonlinear_impl.h` (`nl.h`) and
`polynomial_optimization_nonlinear.h` (`nonlinear.h`), `SP` being `subpackages/mav_trajectory_generation`.

`double` is `ℝ`. The NLopt library is external: a run of it is the list of the callback invocations it makes, in order, and its result. Any
algorithm, also one that reacts to the answers, makes some such list, so a statement about all runs covers all algorithms; what is
assumed about the list is a hypothesis (`Spec/NonlinearOpt.lean`). Not modelled: printing, timing, stopping criteria and seed (they are only
handed to NLopt), copying of the optimisation object.
-/

namespace Verif

/-- `nonlinear.h` 88-95 `TimeAllocMethod`. -/
inductive AllocMethod where
  | squaredTime
  | richterTime
  | mellingerOuterLoop
  | squaredTimeAndConstraints
  | richterTimeAndConstraints
  | unknown
  deriving DecidableEq, Repr

/-- `nonlinear.h` 34-99 `NonlinearOptimizationParameters`: those the code itself uses. `acceptsConstraints` stands for the property of the chosen
`algorithm` that NLopt accepts inequality constraints for it. -/
structure NLParams where
  initialStepRel : ℝ
  timePenalty : ℝ
  useSoft : Bool
  softWeight : ℝ
  method : AllocMethod
  acceptsConstraints : Bool

/-- `nonlinear.h` 206-210 `ConstraintData` (`this_object` is the object holding it). -/
structure MagConstraint where
  derivative : ℕ
  value : ℝ

/-- `nonlinear.h` 101-109 `OptimizationInfo` without the duration. `maxima` is a map. -/
structure OptInfo where
  nIterations : ℕ
  stoppingReason : Int
  costTrajectory : ℝ
  costTime : ℝ
  costSoft : ℝ
  maxima : ℕ → Option (Extremum ℝ)

/-- `nlopt::FAILURE`. -/
def nloptFailure : Int := -1

/-- `nonlinear.h` 102-108: a new `OptimizationInfo`. -/
noncomputable def OptInfo.new : OptInfo := ⟨0, nloptFailure, 0, 0, 0, fun _ => none⟩

/-- An `nlopt::opt` object: number of variables and the inequality constraints registered with it. -/
structure NloptObj where
  dim : ℕ
  hard : List MagConstraint

/-- `nonlinear.h` 284-298: the members. `nlopt_` is a null pointer before the first set-up. -/
structure NonLin (h : ℕ) where
  poly : LinOpt h ℝ
  params : NLParams
  constraints : List MagConstraint
  nlopt : Option NloptObj
  info : OptInfo

/-- An invocation of a callback by NLopt: the objective or a registered constraint, at a point, with or without asking for the gradient. -/
inductive Request where
  | objective (x : List ℝ) (gradient : Bool)
  | constraint (c : MagConstraint) (x : List ℝ) (gradient : Bool)

/-- What NLopt does when it is used: whether one of the setters throws, the callbacks it invokes, its result (`none`: it throws), and whether
it has written the final cost before throwing. -/
structure NloptRun where
  setupFails : Bool
  requests : List Request
  result : Option Int
  costWritten : Bool

/-- The problem handed to NLopt: bounds (`none`: the largest or lowest `double`), starting point, initial steps. -/
structure NloptProblem where
  lower : List (Option ℝ)
  upper : List (Option ℝ)
  x0 : List ℝ
  step : List ℝ

/-- `nonlinear.h` 31 `kOptimizationTimeLowerBound`. -/
noncomputable def kOptimizationTimeLowerBound : ℝ := 1 / 10

namespace NonLin
variable {h : ℕ}

/-- `nl.h` 49-52: the constructor. -/
noncomputable def init (h dimension : ℕ) (params : NLParams) : NonLin h :=
  ⟨LinOpt.init h ℝ dimension, params, [], none, OptInfo.new⟩

/-- `nl.h` 54-89 `setupFromVertices`: the NLopt object is replaced by a new one without constraints. -/
noncomputable def setupFromVertices (o : NonLin h) (vs : List (Vertex ℝ)) (ts : List ℝ) (derivative : Int) : Res (NonLin h) := do
  let p ← o.poly.setupFromVertices vs ts derivative
  let n := match o.params.method with
    | .squaredTime | .richterTime | .mellingerOuterLoop => ts.length
    | _ => ts.length + p.nFree * p.dimension
  return { o with poly := p, nlopt := some ⟨n, []⟩ }

/-- `nl.h` 91-94 `solveLinear`. -/
noncomputable def solveLinear (solve : LinSolver ℝ) (o : NonLin h) : Res (NonLin h) := do
  let p ← o.poly.solveLinear solve
  return { o with poly := p }

/-- `nl.h` 525-553 `addMaximumMagnitudeConstraint`: `CHECK_GE` of both arguments. The constraint is stored in any case. Without soft constraints it is
registered with NLopt, which is a null pointer before the set-up; NLopt throws when the algorithm does not take constraints. -/
noncomputable def addMaximumMagnitudeConstraint (o : NonLin h) (derivative : Int) (value : ℝ) : Res (NonLin h × Bool) :=
  if derivative < 0 ∨ value < 0 then .error .check
  else
    let c : MagConstraint := ⟨derivative.toNat, value⟩
    let o1 := { o with constraints := o.constraints ++ [c] }
    if o.params.useSoft then .ok (o1, true)
    else
      match o.nlopt with
      | none => .error .ub
      | some nl =>
        if o.params.acceptsConstraints then .ok ({ o1 with nlopt := some { nl with hard := nl.hard ++ [c] } }, true)
        else .ok (o1, false)

/-! ## Constraint evaluation and costs -/

/-- `nl.h` 744-763 `evaluateMaximumMagnitudeConstraint`: the point is ignored, the current trajectory is used. -/
noncomputable def evaluateMaximumMagnitudeConstraint (rf : Poly.RootFinder ℝ) (o : NonLin h) (c : MagConstraint) (_x : List ℝ)
    (gradient : Bool) : Res (NonLin h × ℝ) :=
  if gradient then .error .check
  else do
    let m ← o.poly.computeMaximumOfMagnitude rf c.derivative
    return ({ o with info := { o.info with maxima := Function.update o.info.maxima c.derivative (some m.1) } }, m.1.value - c.value)

/-- `nl.h` 782-784: the cost of one soft constraint from the absolute violation. For a limit of zero the quotient is infinite or NaN: the
cost is the cap (`std::min` keeps its first argument when the second is NaN), except that a negative weight gives `exp(-inf) = 0`. -/
noncomputable def softTerm (violation limit weight cap : ℝ) : ℝ :=
  if limit = 0 then
    if violation ≠ 0 ∧ weight < 0 then min cap 0 else cap
  else min cap (Real.exp (violation / limit * weight))

/-- `nl.h` 775-793: the loop over the stored constraints. -/
noncomputable def softLoop (rf : Poly.RootFinder ℝ) (weight cap : ℝ) : List MagConstraint → NonLin h → ℝ → Res (NonLin h × ℝ)
  | [], o, cost => .ok (o, cost)
  | c :: cs, o, cost => do
    let r ← evaluateMaximumMagnitudeConstraint rf o c [] false
    softLoop rf weight cap cs r.1 (cost + softTerm r.2 c.value weight cap)

/-- `nl.h` 765-795 `evaluateMaximumMagnitudeAsSoftConstraint`. It is `const`, but writes the maxima through the constraint data. -/
noncomputable def evaluateMaximumMagnitudeAsSoftConstraint (rf : Poly.RootFinder ℝ) (o : NonLin h) (weight cap : ℝ) : Res (NonLin h × ℝ) :=
  softLoop rf weight cap o.constraints o 0

/-- `nl.h` 846-852 `computeTotalTrajectoryTime`. -/
noncomputable def computeTotalTrajectoryTime (ts : List ℝ) : ℝ := ts.foldl (fun acc t => acc + t) 0

/-- `nl.h` 261-264 `getCost`. -/
noncomputable def getCost (o : NonLin h) : Res ℝ := o.poly.computeCost

/-- `nl.h` 266-284 `getTotalCostWithSoftConstraints`: squared time, and a cap of `1e9`, whatever the method. -/
noncomputable def getTotalCostWithSoftConstraints (rf : Poly.RootFinder ℝ) (o : NonLin h) : Res (NonLin h × ℝ) := do
  let c ← o.poly.computeCost
  let total := computeTotalTrajectoryTime o.poly.times
  let r ← evaluateMaximumMagnitudeAsSoftConstraint rf o o.params.softWeight (10 ^ 9)
  return (r.1, c + total * total * o.params.timePenalty + r.2)

/-! ## Objective functions -/

/-- `nl.h` 573-612 and 696-741: the common second half of the two gradient-free objectives, for the trajectory now held: costs and information.
`linear` is whether the time cost is linear. The default cap is `1e12` (`nonlinear.h` 266). -/
noncomputable def costOf (rf : Poly.RootFinder ℝ) (linear : Bool) (ts : List ℝ) (o : NonLin h) : Res (NonLin h × ℝ) := do
  let c ← o.poly.computeCost
  let total := computeTotalTrajectoryTime ts
  let costTime := if linear then total * o.params.timePenalty else total * total * o.params.timePenalty
  let r ← if o.params.useSoft then evaluateMaximumMagnitudeAsSoftConstraint rf o o.params.softWeight (10 ^ 12) else .ok (o, 0)
  return ({ r.1 with info := { r.1.info with
      nIterations := r.1.info.nIterations + 1
      costTrajectory := c
      costTime := costTime
      costSoft := r.2 } }, c + costTime + r.2)

/-- `nl.h` 555-615 `objectiveFunctionTime`. -/
noncomputable def objectiveFunctionTime (rf : Poly.RootFinder ℝ) (solve : LinSolver ℝ) (o : NonLin h) (x : List ℝ) (gradient : Bool) :
    Res (NonLin h × ℝ) :=
  if gradient then .error .check
  else if x.length ≠ o.poly.nSegments then .error .check
  else do
    let p1 ← o.poly.updateSegmentTimes x
    let p2 ← p1.solveLinear solve
    costOf rf (o.params.method = .richterTime) x { o with poly := p2 }

/-- `nl.h` 679-691: the free derivatives of dimension `d`, read from the vector. -/
def decodeFree (nSegments nFree : ℕ) (x : List ℝ) (d : ℕ) : List ℝ := (x.drop (nSegments + d * nFree)).take nFree

/-- `nl.h` 659-742 `objectiveFunctionTimeAndConstraints`. -/
noncomputable def objectiveFunctionTimeAndConstraints (rf : Poly.RootFinder ℝ) (o : NonLin h) (x : List ℝ) (gradient : Bool) :
    Res (NonLin h × ℝ) :=
  if gradient then .error .check
  else if x.length ≠ o.poly.nSegments + o.poly.nFree * o.poly.dimension then .error .check
  else do
    let ts := x.take o.poly.nSegments
    let p1 ← o.poly.updateSegmentTimes ts
    let p2 ← p1.setFreeConstraints ((List.range o.poly.dimension).map (decodeFree o.poly.nSegments o.poly.nFree x))
    costOf rf (o.params.method = .richterTimeAndConstraints) ts { o with poly := p2 }

/-- `nl.h` 317-342: the segment times for the difference quotient in direction `n`. -/
noncomputable def mellingerTimes (ts : List ℝ) (n : ℕ) : List ℝ :=
  ts.zipIdx.map fun (t, i) =>
    max kOptimizationTimeLowerBound (if i = n then t + 1 / 10 else t - 1 / 10 / ((ts.length : ℝ) - 1))

/-- `nl.h` 312-354: the loop over the directions; `acc` holds the entries so far. -/
noncomputable def gradientLoop (solve : LinSolver ℝ) (ts : List ℝ) (cost : ℝ) : List ℕ → LinOpt h ℝ → List ℝ → Res (LinOpt h ℝ × List ℝ)
  | [], p, acc => .ok (p, acc)
  | n :: ns, p, acc => do
    let p1 ← p.updateSegmentTimes (mellingerTimes ts n)
    let p2 ← p1.solveLinear solve
    let c ← p2.computeCost
    gradientLoop solve ts cost ns p2 (acc ++ [(c - cost) / (1 / 10)])

/-- `nl.h` 286-364 `getCostAndGradientMellinger` with the gradient asked for (the only caller checks that it is, 620). -/
noncomputable def getCostAndGradientMellinger (solve : LinSolver ℝ) (o : NonLin h) : Res (NonLin h × ℝ × List ℝ) := do
  let c ← o.poly.computeCost
  if o.poly.nSegments = 1 then
    return (o, c, List.replicate o.poly.nSegments 0)
  else
    let r ← gradientLoop solve o.poly.times c (List.range o.poly.nSegments) o.poly []
    let p1 ← r.1.updateSegmentTimes o.poly.times
    let p2 ← p1.solveLinear solve
    return ({ o with poly := p2 }, c, r.2)

/-- `nl.h` 617-657 `objectiveFunctionTimeMellingerOuterLoop`: cost and gradient. -/
noncomputable def objectiveFunctionTimeMellingerOuterLoop (solve : LinSolver ℝ) (o : NonLin h) (x : List ℝ) (gradient : Bool) :
    Res (NonLin h × ℝ × List ℝ) :=
  if ¬gradient then .error .check
  else if x.length ≠ o.poly.nSegments then .error .check
  else do
    let p1 ← o.poly.updateSegmentTimes x
    let p2 ← p1.solveLinear solve
    let r ← getCostAndGradientMellinger solve { o with poly := p2 }
    return ({ r.1 with info := { r.1.info with nIterations := r.1.info.nIterations + 1, costTrajectory := r.2.1 } }, r.2)

/-! ## The problems handed to NLopt -/

/-- `nl.h` 133-142 and 148-149: time-only optimisation. -/
noncomputable def timeProblem (o : NonLin h) : NloptProblem where
  lower := o.poly.times.map fun _ => some kOptimizationTimeLowerBound
  upper := o.poly.times.map fun _ => none
  x0 := o.poly.times
  step := o.poly.times.map fun t => o.params.initialStepRel * t

/-- `nl.h` 824-827, 833, 835-837: the derivative orders `free_deriv_counter` counts, in order: those up to the optimised derivative that the vertex leaves
free. -/
def countedOrders (vs : List (Vertex ℝ)) (derivative : Int) : List ℕ :=
  vs.flatMap fun v => (List.range (derivative + 1).toNat).filter fun k : ℕ => !v.hasConstraint k

/-- `nl.h` 829-832: `at` of one entry of both bound vectors, which throws outside. -/
noncomputable def setBound (value : ℝ) (bounds : List (Option ℝ × Option ℝ)) (i : ℕ) : Res (List (Option ℝ × Option ℝ)) :=
  if i < bounds.length then .ok (bounds.set i (some (-|value|), some |value|)) else .error .exc

/-- `nl.h` 820-840: the loops for one magnitude constraint. -/
noncomputable def boundsOfConstraint (vs : List (Vertex ℝ)) (derivative : Int) (nFree dim : ℕ) (c : MagConstraint)
    (bounds : List (Option ℝ × Option ℝ)) : Res (List (Option ℝ × Option ℝ)) :=
  (countedOrders vs derivative).zipIdx.foldlM (fun bs (k, counter) =>
    if k = c.derivative then (List.range dim).foldlM (fun bs d => setBound c.value bs (d * nFree + counter)) bs
    else .ok bs) bounds

/-- `nl.h` 797-844 `setFreeEndpointDerivativeHardConstraints`: lower and upper bound of every free variable. -/
noncomputable def setFreeEndpointDerivativeHardConstraints (o : NonLin h) : Res (List (Option ℝ × Option ℝ)) :=
  o.constraints.foldlM (fun bs c => boundsOfConstraint o.poly.vertices o.poly.derivative o.poly.nFree o.poly.dimension c bs)
    (List.replicate (o.poly.dimension * o.poly.nFree) (none, none))

/-- `nl.h` 468-473: the initial step of one variable. -/
noncomputable def initialStep (rel x : ℝ) : ℝ := if |x| ≤ Poly.dblEps then 1 / 10 ^ 13 else rel * |x|

/-- `nl.h` 476-480: the bounds are widened to the starting point. -/
noncomputable def widen (x : ℝ) (b : Option ℝ × Option ℝ) : Option ℝ × Option ℝ :=
  match b with
  | (some l, u) => if x < l then (some x, u) else
      match u with
      | some u => if u < x then (some l, some x) else (some l, some u)
      | none => (some l, none)
  | (none, some u) => if u < x then (none, some x) else (none, some u)
  | (none, none) => (none, none)

/-- `nl.h` 409-490: the problem of the optimisation over times and free derivatives, for the linear solution now held. An empty list of
dimensions makes `front()` undefined; `lower_bounds[i]` outside is undefined; the `CHECK`s compare the sizes. -/
noncomputable def fullProblem (o : NonLin h) : Res NloptProblem :=
  match o.poly.freeCompact with
  | [] => .error .ub
  | f :: _ =>
    let n := o.poly.times.length + o.poly.freeCompact.length * f.length
    if n = 0 then .error .check
    else do
      let x0 := o.poly.times ++ o.poly.freeCompact.flatten
      let free ← setFreeEndpointDerivativeHardConstraints o
      let bounds := o.poly.times.map (fun _ => (some kOptimizationTimeLowerBound, none)) ++ free
      if bounds.length < x0.length then .error .ub
      else if x0.length ≠ bounds.length ∨ x0.length ≠ n then .error .check
      else
        let b := List.zipWith widen x0 bounds
        return ⟨b.map (·.1), b.map (·.2), x0, x0.map (initialStep o.params.initialStepRel)⟩

/-! ## Running the optimisation -/

/-- The answer to one callback invocation, with objective `f`. -/
noncomputable def answer {α : Type} (rf : Poly.RootFinder ℝ) (f : NonLin h → List ℝ → Bool → Res (NonLin h × α)) (o : NonLin h)
    (r : Request) : Res (NonLin h) :=
  match r with
  | .objective x gradient => do
    let a ← f o x gradient
    return a.1
  | .constraint c x gradient => do
    let a ← evaluateMaximumMagnitudeConstraint rf o c x gradient
    return a.1

/-- `nl.h` 143-167, 194-213, 492-522: setting up and running NLopt with objective `f`. The point it returns is discarded. `none`: an exception
was caught. -/
noncomputable def runNlopt {α : Type} (rf : Poly.RootFinder ℝ) (f : NonLin h → List ℝ → Bool → Res (NonLin h × α)) (run : NloptRun)
    (o : NonLin h) : Res (NonLin h × Option Int) :=
  match o.nlopt with
  | none => .error .ub
  | some _ =>
    if run.setupFails then .ok (o, none)
    else do
      let o1 ← run.requests.foldlM (answer rf f) o
      return (o1, run.result)

/-- `nl.h` 132-168 `optimizeTime`. -/
noncomputable def optimizeTime (rf : Poly.RootFinder ℝ) (solve : LinSolver ℝ) (run : NloptRun) (o : NonLin h) : Res (NonLin h × Int) := do
  let r ← runNlopt rf (objectiveFunctionTime rf solve) run o
  return (r.1, r.2.getD nloptFailure)

/-- `nl.h` 408-523 `optimizeTimeAndFreeConstraints`. -/
noncomputable def optimizeTimeAndFreeConstraints (rf : Poly.RootFinder ℝ) (solve : LinSolver ℝ) (run : NloptRun) (o : NonLin h) :
    Res (NonLin h × Int) := do
  let p ← o.poly.solveLinear solve
  let o1 := { o with poly := p }
  let _ ← fullProblem o1
  let r ← runNlopt rf (objectiveFunctionTimeAndConstraints rf) run o1
  return (r.1, r.2.getD nloptFailure)

/-- `nl.h` 372-381: the limit used for a derivative order: the last one given, 0 if none was. -/
noncomputable def limitOf (k : ℕ) (cs : List MagConstraint) : ℝ := cs.foldl (fun v c => if c.derivative = k then c.value else v) 0

/-- `nl.h` 366-406 `scaleSegmentTimesWithViolation`. -/
noncomputable def scaleSegmentTimesWithViolation (rf : Poly.RootFinder ℝ) (solve : LinSolver ℝ) (o : NonLin h) : Res (NonLin h) := do
  let tr ← o.poly.getTrajectory
  let r ← tr.scaleSegmentTimesToMeetConstraints rf (limitOf 1 o.constraints) (limitOf 2 o.constraints)
  let p1 ← o.poly.updateSegmentTimes (r.2.segments.map (·.time))
  let p2 ← p1.solveLinear solve
  return { o with poly := p2 }

/-- `nl.h` 170-259 `optimizeTimeMellingerOuterLoop`: when NLopt throws before it has written a cost, or in the set-up, the times are not scaled. -/
noncomputable def optimizeTimeMellingerOuterLoop (rf : Poly.RootFinder ℝ) (solve : LinSolver ℝ) (run : NloptRun) (o : NonLin h) :
    Res (NonLin h × Int) := do
  let r ← runNlopt rf (objectiveFunctionTimeMellingerOuterLoop solve) run o
  match r.2 with
  | some code =>
    let o2 ← scaleSegmentTimesWithViolation rf solve r.1
    return (o2, code)
  | none =>
    if run.setupFails ∨ ¬run.costWritten then return (r.1, nloptFailure)
    else
      let o2 ← scaleSegmentTimesWithViolation rf solve r.1
      return (o2, nloptFailure)

/-- `nl.h` 104-119: the choice of the optimisation by the method. -/
noncomputable def optimizeBy (rf : Poly.RootFinder ℝ) (solve : LinSolver ℝ) (run : NloptRun) (method : AllocMethod) (o : NonLin h) :
    Res (NonLin h × Int) :=
  match method with
  | .squaredTime | .richterTime => optimizeTime rf solve run o
  | .squaredTimeAndConstraints | .richterTimeAndConstraints => optimizeTimeAndFreeConstraints rf solve run o
  | .mellingerOuterLoop => optimizeTimeMellingerOuterLoop rf solve run o
  | .unknown => .ok (o, nloptFailure)

/-- `nl.h` 96-130 `optimize`. -/
noncomputable def optimize (rf : Poly.RootFinder ℝ) (solve : LinSolver ℝ) (run : NloptRun) (o : NonLin h) : Res (NonLin h × Int) := do
  let r ← optimizeBy rf solve run o.params.method { o with info := OptInfo.new }
  return ({ r.1 with info := { r.1.info with stoppingReason := r.2 } }, r.2)

/-- `nonlinear.h` 167-169 `getTrajectory`. -/
noncomputable def getTrajectory (o : NonLin h) : Res (Trajectory ℝ) := o.poly.getTrajectory

end NonLin

end Verif
