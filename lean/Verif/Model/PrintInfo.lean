import Verif.Model.Print

/-!
# The printed report of an optimisation

Source: `subpackages/mav_trajectory_generation/include/mav_trajectory_generation/` `impl/polynomial_optimization_nonlinear_impl.h` 29-48, 856-886 and `extremum.h`
46-50. Conventions as in `Model/Print.lean`.
-/

namespace Verif

namespace Print

open MotionDefines

variable {K : Type}

/-- `nonlinear_impl.h` 858-885 `nlopt::returnValueToString`; the cases by their values in `nlopt.hpp`. -/
def returnValueToString (r : Int) : String :=
  if r = 1 then "SUCCESS"
  else if r = -1 then "FAILURE"
  else if r = -2 then "INVALID_ARGS"
  else if r = -3 then "OUT_OF_MEMORY"
  else if r = -4 then "ROUNDOFF_LIMITED"
  else if r = -5 then "FORCED_STOP"
  else if r = 2 then "STOPVAL_REACHED"
  else if r = 3 then "FTOL_REACHED"
  else if r = 4 then "XTOL_REACHED"
  else if r = 5 then "MAXEVAL_REACHED"
  else if r = 6 then "MAXTIME_REACHED"
  else "ERROR CODE UNKNOWN"

/-- `nonlinear.h` 101-109 `OptimizationInfo`; the map `maxima` as the list of its entries, in ascending order of the keys. Simplified: the counters are not negative. -/
structure InfoReport (K : Type) where
  nIterations : ℕ
  stoppingReason : Int
  costTrajectory : K
  costTime : K
  costSoft : K
  optimizationTime : K
  maxima : List (Int × Extremum K)

/-- `extremum.h` 46-50 `operator<<`. -/
def printExtremum (num : ℕ → K → List Char) (prec : ℕ) (e : Extremum K) : List Char :=
  "time: ".toList ++ num prec e.time ++ ", value: ".toList ++ num prec e.value ++ ", segment idx: ".toList ++ Nat.toDigits 10 e.segmentIdx ++ ['\n']

/-- `nonlinear_impl.h` 42-46, the body of the loop. -/
def maximumLine (num : ℕ → K → List Char) (prec : ℕ) (m : Int × Extremum K) : List Char :=
  "    ".toList ++ (positionDerivativeToString m.1).toList ++ ": ".toList ++ num prec m.2.value ++ " in segment ".toList ++ Nat.toDigits 10 m.2.segmentIdx ++
    " and segment time ".toList ++ num prec m.2.time ++ ['\n']

/-- `nonlinear_impl.h` 29-48 `operator<<`. -/
def printInfo (num : ℕ → K → List Char) (prec : ℕ) (v : InfoReport K) : List Char :=
  ("--- optimization info ---".toList ++ ['\n']) ++
  ("  optimization time:     ".toList ++ num prec v.optimizationTime ++ ['\n']) ++
  ("  n_iterations:          ".toList ++ Nat.toDigits 10 v.nIterations ++ ['\n']) ++
  ("  stopping reason:       ".toList ++ (returnValueToString v.stoppingReason).toList ++ ['\n']) ++
  ("  cost trajectory:       ".toList ++ num prec v.costTrajectory ++ ['\n']) ++
  ("  cost time:             ".toList ++ num prec v.costTime ++ ['\n']) ++
  ("  cost soft constraints: ".toList ++ num prec v.costSoft ++ ['\n']) ++
  ("  maxima: ".toList ++ ['\n']) ++
  v.maxima.flatMap (maximumLine num prec)

end Print

end Verif
