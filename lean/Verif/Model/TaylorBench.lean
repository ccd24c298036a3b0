import Mathlib.Algebra.Field.Basic
import Verif.Model.Basic

/-!
# `tests/taylor_series_vs_exp_benchmark.cpp`: the Gaussian and the five terms of its series

Numbers are elements of a field. `std::pow` with an integer exponent is the power, `std::exp` a parameter. The random draws and the timing loops are not modelled.
-/

namespace Verif.TaylorBench
open Verif

variable {K : Type*} [Field K] [DecidableEq K]

/-- Lines 9-24, class `gaussian`. -/
structure Gaussian (K : Type*) where
  mean : K
  sigma : K

/-- Lines 19-23, `gaussian::operator()`. With `sigma_` zero the exponent is `-inf`, or not a number. -/
def Gaussian.eval (exp : K → K) (g : Gaussian K) (x : K) : Res K :=
  if 2 * g.sigma ^ 2 = 0 then .error .nonfinite else .ok (exp (-(x - g.mean) ^ 2 / (2 * g.sigma ^ 2)))

/-- Lines 26-31, the members of `taylorSerie5terms`. -/
structure Series (K : Type*) where
  mean : K
  sigma : K
  a : K
  b : K
  c : K
  d : K
  e : K

/-- Lines 34-35 and 57-64, the constructor with `set_coefficients`. With `sigma` zero the coefficients are infinite. -/
def Series.make (mean sigma : K) : Res (Series K) :=
  if sigma = 0 then .error .nonfinite
  else .ok ⟨mean, sigma, 1, -1 / (2 * sigma ^ 2), 1 / (8 * sigma ^ 4), -1 / (48 * sigma ^ 6), 1 / (384 * sigma ^ 8)⟩

/-- Lines 37-41, `taylorSerie5terms::operator()`. -/
def Series.eval (s : Series K) (x : K) : K :=
  let y := x - s.mean
  s.a + s.b * y ^ 2 + s.c * y ^ 4 + s.d * y ^ 6 + s.e * y ^ 8

/-- Lines 44-54, `operator+`: mean and width are those of the left operand. The constructor called first cannot fail where the left operand exists. -/
def Series.add (s o : Series K) : Series K := ⟨s.mean, s.sigma, s.a + o.a, s.b + o.b, s.c + o.c, s.d + o.d, s.e + o.e⟩

/-- Lines 77-85, `add_multiple_gaussians`. -/
def addGaussians (exp : K → K) (gs : List (Gaussian K)) (x : K) : Res K :=
  gs.foldlM (fun acc g => do return acc + (← g.eval exp x)) 0

/-- Lines 144-165 with 87-90: further series are added to the first one, in the loop, and the sum is evaluated (`add_multiple_taylor`). -/
def addSeries (s : Series K) (rest : List (Series K)) (x : K) : K := (rest.foldl Series.add s).eval x

end Verif.TaylorBench
