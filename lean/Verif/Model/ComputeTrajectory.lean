import Verif.Model.NonlinearOpt
import Verif.Model.Planner

/-!
# The planner's use of the optimisation library

Source: `src/dynamic_trajectory.cpp` (`dt.cpp`) 297-345. This instantiates the parameter `Env.optimize` of the planner model with the models of the
time estimate and of the two optimisations. External and hence parameters: the sparse linear solver, the polynomial root finder, NLopt.
-/

namespace Verif

/-- What the planner's optimisation depends on besides its arguments: solver, root finder, NLopt (its behaviour may depend on the arguments),
and the largest acceleration (`dynamic_trajectory.hpp` 94). -/
structure OptBackend where
  solve : LinSolver ℝ
  rf : Poly.RootFinder ℝ
  nlopt : List (Vertex ℝ) → ℝ → NloptRun
  aMax : ℝ

namespace OptBackend

/-- `dt.cpp` 325-333 with the defaults of `nonlinear.h` 34-99; the default algorithm BOBYQA takes no constraints. -/
noncomputable def params : NLParams := ⟨1 / 10, 1000, true, 100, .squaredTimeAndConstraints, false⟩

/-- `dt.cpp` 314-322: the linear optimisation. -/
noncomputable def linear (b : OptBackend) (vs : List (Vertex ℝ)) (speed : ℝ) : Res (Trajectory ℝ) := do
  let ts ← estimateSegmentTimes vs speed b.aMax
  let o ← (LinOpt.init 5 ℝ 3).setupFromVertices vs ts 2
  let o ← o.solveLinear b.solve
  o.getTrajectory

/-- `dt.cpp` 334-339: the object before the optimisation. -/
noncomputable def prepare (b : OptBackend) (vs : List (Vertex ℝ)) (speed : ℝ) : Res (NonLin 5) := do
  let ts ← estimateSegmentTimes vs speed b.aMax
  let o ← (NonLin.init 5 3 params).setupFromVertices vs ts 2
  let o ← o.addMaximumMagnitudeConstraint 1 speed
  let o ← o.1.addMaximumMagnitudeConstraint 2 b.aMax
  return o.1

/-- `dt.cpp` 323-342: the nonlinear optimisation, which the planner uses; the return value of `optimize` is ignored. -/
noncomputable def nonlinear (b : OptBackend) (vs : List (Vertex ℝ)) (speed : ℝ) : Res (Trajectory ℝ) := do
  let o ← b.prepare vs speed
  let o ← o.optimize b.rf b.solve (b.nlopt vs speed)
  o.1.getTrajectory

/-- The planner's environment with the linear or the nonlinear optimisation (`dt.cpp` 317). -/
noncomputable def env (b : OptBackend) (lineal : Bool) : Env ℝ where
  exp := Real.exp
  optimize := if lineal then b.linear else b.nonlinear

end OptBackend

end Verif
