import Mathlib.Analysis.SpecialFunctions.Trigonometric.Basic
import Mathlib.Analysis.SpecialFunctions.Log.Basic
import Mathlib.Algebra.Order.Floor.Ring
import Verif.Model.Polynomial

/-!
# The root finder

`mav_trajectory_generation/src/rpoly/rpoly_ak1.cpp` (all of it; line numbers without a file name refer to it).

The fixed-size arrays of the C code are functions `ℕ → ℝ`; entries that no later statement reads are not tracked. Coefficients are in
decreasing order, as in the code: the polynomial is `p 0 X^N + … + p N`. `NN` is always `N + 1` and is left out. `double` is exact.
Divisions whose divisor the code has just found to be non-zero are plain divisions; the one that is not protected (667, 668) gives
`nonfinite` for a zero divisor. Loops that the code bounds by a counter get a number of rounds that is large enough, the two that it does not
bound (262-268, 274-283) get an arbitrary number `fuel` of rounds and hang when it is used up.
-/

namespace Verif.RPoly

/-- `DBL_EPSILON`. -/
noncomputable def dblEpsilon : ℝ := 1 / 2 ^ 52
/-- `std::numeric_limits<double>::min()`. -/
noncomputable def dblMin : ℝ := 1 / 2 ^ 1022
/-- `FLT_MIN`. -/
noncomputable def fltMin : ℝ := 1 / 2 ^ 126
/-- `FLT_MAX`. -/
noncomputable def fltMax : ℝ := (2 - 1 / 2 ^ 23) * 2 ^ 127

/-- What `Quad_ak1` writes: the smaller and the larger zero, real and imaginary parts. -/
structure Pair where
  sr : ℝ
  si : ℝ
  lr : ℝ
  li : ℝ

/-- 905-918: `e` of the discriminant computation; `b` is half the linear coefficient. -/
noncomputable def discE (a b c : ℝ) : ℝ :=
  if |b| < |c| then -(if c ≥ 0 then a else -a) + b * (b / |c|) else -((a / b) * (c / b)) + 1

/-- 905-918: `d` of the discriminant computation. -/
noncomputable def discD (a b c : ℝ) : ℝ :=
  if |b| < |c| then √|discE a b c| * √|c| else √|discE a b c| * |b|

/-- 885-937 `Quad_ak1`: the zeros of `a Z² + b1 Z + c`. In the second branch of 911 `b` is not zero, because `c` is not. -/
noncomputable def quad (a b1 c : ℝ) : Pair :=
  if a = 0 then ⟨if b1 ≠ 0 then -(c / b1) else 0, 0, 0, 0⟩
  else if c = 0 then ⟨0, 0, -(b1 / a), 0⟩
  else
    let b := b1 / 2
    if discE a b c ≥ 0 then
      let d := if b ≥ 0 then -discD a b c else discD a b c
      let lr := (-b + d) / a
      ⟨if lr ≠ 0 then c / lr / a else 0, 0, lr, 0⟩
    else
      let si := |discD a b c / a|
      ⟨-(b / a), si, -(b / a), -si⟩

/-- 547-564 `QuadSD_ak1`: the array `q`. For `NN` coefficients `*a` is entry `NN - 1` and `*b` entry `NN - 2`. -/
def quadSD (u v : ℝ) (p : ℕ → ℝ) : ℕ → ℝ
  | 0 => p 0
  | 1 => -(p 0 * u) + p 1
  | n + 2 => -(quadSD u v p (n + 1) * u + quadSD u v p n * v) + p (n + 2)

/-- 810-813, 854-855, 870-871: Horner's rule, with all intermediate values. -/
def horner (s : ℝ) (p : ℕ → ℝ) : ℕ → ℝ
  | 0 => p 0
  | n + 1 => horner s p n * s + p (n + 1)

/-- The scalars of 566-607, which `tFlag` says how to use. -/
structure Scalars where
  flag : ℕ
  a1 : ℝ
  a3 : ℝ
  a7 : ℝ
  c : ℝ
  d : ℝ
  f : ℝ
  g : ℝ
  h : ℝ

/-- 566-607 `calcSC_ak1`. `qk` is `quadSD u v K`. For flag 3 nobody reads the other scalars. When the divisor is zero both `c` and `d` are, and the
flag is 3. -/
noncomputable def calcSC (N : ℕ) (a b : ℝ) (K : ℕ → ℝ) (u v : ℝ) : Scalars :=
  let c := quadSD u v K (N - 1)
  let d := quadSD u v K (N - 2)
  if |c| ≤ 10 * dblEpsilon * |K (N - 1)| ∧ |d| ≤ 10 * dblEpsilon * |K (N - 2)| then ⟨3, 0, 0, 0, c, d, 0, 0, 0⟩
  else
    let h := v * b
    if |d| ≥ |c| then
      let e := a / d
      let f := c / d
      let g := u * b
      ⟨2, -a + f * b, e * (g + a) + h * (b / d), h + (f + u) * a, c, d, f, g, h⟩
    else
      let e := a / c
      let f := d / c
      let g := e * u
      ⟨1, -(a * (d / c)) + b, e * a + (g + h / c) * b, g * d + h * f + a, c, d, f, g, h⟩

/-- 609-649 `nextK_ak1`: the new `K`. -/
noncomputable def nextK (sc : Scalars) (a b : ℝ) (qk qp : ℕ → ℝ) : ℕ → ℝ :=
  if sc.flag = 3 then fun i => if i < 2 then 0 else qk (i - 2)
  else if |sc.a1| > 10 * dblEpsilon * |if sc.flag = 1 then b else a| then
    let a7 := sc.a7 / sc.a1
    let a3 := sc.a3 / sc.a1
    fun i => if i = 0 then qp 0 else if i = 1 then -(a7 * qp 0) + qp 1 else -(a7 * qp (i - 1)) + a3 * qk (i - 2) + qp i
  else fun i => if i = 0 then 0 else if i = 1 then -sc.a7 * qp 0 else -(sc.a7 * qp (i - 1)) + sc.a3 * qk (i - 2)

/-- 651-689 `newest_ak1`: new estimates of the coefficients of the quadratic. -/
noncomputable def newest (N : ℕ) (sc : Scalars) (a b u v : ℝ) (K p : ℕ → ℝ) : Res (ℝ × ℝ) :=
  if sc.flag = 3 then .ok (0, 0)
  else
    let a4 := if sc.flag ≠ 2 then a + u * b + sc.h * sc.f else (a + sc.g) * sc.f + sc.h
    let a5 := if sc.flag ≠ 2 then sc.c + (u + v * sc.f) * sc.d else (sc.f + u) * sc.c + v * sc.d
    if p N = 0 then .error .nonfinite
    else
      let b1 := -K (N - 1) / p N
      let b2 := -(K (N - 2) + b1 * p (N - 1)) / p N
      let c1 := v * b2 * sc.a1
      let c2 := b1 * sc.a7
      let c3 := b1 * b1 * sc.a3
      let c4 := -(c2 + c3) + c1
      let temp := -c4 + a5 + b1 * a4
      if temp ≠ 0 then .ok (-((u * (c3 + c2) + v * (b1 * sc.a1 + b2 * sc.a7)) / temp) + u, v * (1 + c4 / temp))
      else .ok (0, 0)

/-- What one of the third-stage iterations ends with: zeros found, with the quotient (`qp`); a sign that two real zeros nearly coincide at `s` (840-841);
failure. In the last two cases with the `K` it leaves. -/
inductive Stage3 where
  | one (s : ℝ) (qp : ℕ → ℝ)
  | two (z : Pair) (qp : ℕ → ℝ)
  | cluster (s : ℝ) (K : ℕ → ℝ)
  | failed (K : ℕ → ℝ)

/-- 726-734, 820-821: the loop that accumulates the error bound, after `n` rounds. -/
noncomputable def errSum (start m : ℝ) (q : ℕ → ℝ) : ℕ → ℝ
  | 0 => start
  | n + 1 => errSum start m q n * m + |q (n + 1)|

/-- 815-826: the test that accepts the real number `s` as a zero. -/
def AcceptsReal (N : ℕ) (p : ℕ → ℝ) (s : ℝ) : Prop :=
  let qp := horner s p
  |qp N| ≤ 20 * dblEpsilon * (2 * errSum (1 / 2 * |qp 0|) |s| qp N - |qp N|)

open Classical in
/-- 808-879: the loop of `RealIT_ak1`; `j`, `t` and `omp` as in the code (`t` and `omp` are read only when set). The first argument bounds the number
of rounds; the test in 836 ends the loop before it is used up. -/
noncomputable def realLoop (N : ℕ) (p : ℕ → ℝ) : ℕ → ℕ → (ℕ → ℝ) → ℝ → ℝ → ℝ → Stage3
  | 0, _, K, _, _, _ => .failed K
  | n + 1, j, K, s, t, omp =>
    let qp := horner s p
    let pv := qp N
    let mp := |pv|
    if AcceptsReal N p s then .one s qp
    else if j + 1 > 10 then .failed K
    else if j + 1 ≥ 2 ∧ |t| ≤ 1 / 1000 * |-t + s| ∧ mp > omp then .cluster s K
    else
      let qk := horner s K
      let kv := qk (N - 1)
      let K' : ℕ → ℝ :=
        if |kv| > |K (N - 1)| * 10 * dblEpsilon then fun i => if i = 0 then qp 0 else -(pv / kv) * qk (i - 1) + qp i
        else fun i => if i = 0 then 0 else qk (i - 1)
      let kv' := horner s K' (N - 1)
      let t' := if |kv'| > |K' (N - 1)| * 10 * dblEpsilon then -(pv / kv') else 0
      realLoop N p n (j + 1) K' (s + t') t' mp

/-- 794-883 `RealIT_ak1`. -/
noncomputable def realIT (N : ℕ) (p K : ℕ → ℝ) (s : ℝ) : Stage3 := realLoop N p 11 0 K s 0 0

/-- 719-740: the test that accepts the quadratic `X² + uX + v` with the zeros `z` as a factor. -/
def AcceptsPair (N : ℕ) (p : ℕ → ℝ) (u v : ℝ) (z : Pair) : Prop :=
  let qp := quadSD u v p
  let a := qp N
  let b := qp (N - 1)
  let zm := √|v|
  let t := -(z.sr * b)
  let ee := errSum (2 * |qp 0|) zm qp (N - 1) * zm + |a + t|
  |-(z.sr * b) + a| + |z.si * b| ≤ 20 * ((9 * ee + 2 * |t| - 7 * (|a + t| + zm * |b|)) * dblEpsilon)

/-- 762-766: fixed-shift steps. -/
noncomputable def fixedSteps (N : ℕ) (p : ℕ → ℝ) (u v : ℝ) : ℕ → (ℕ → ℝ) → ℕ → ℝ
  | 0, K => K
  | n + 1, K =>
    let qp := quadSD u v p
    let a := qp N
    let b := qp (N - 1)
    fixedSteps N p u v n (nextK (calcSC N a b K u v) a b (quadSD u v K) qp)

open Classical in
/-- 709-788: the loop of `QuadIT_ak1`; `j`, `triedFlag`, `relstp` and `omp` as in the code. The first argument bounds the number of rounds: after at
most 20 rounds the loop ends or, once, `j` starts again from 0. -/
noncomputable def quadLoop (N : ℕ) (p : ℕ → ℝ) : ℕ → ℕ → Bool → (ℕ → ℝ) → ℝ → ℝ → ℝ → ℝ → Res Stage3
  | 0, _, _, K, _, _, _, _ => .ok (.failed K)
  | n + 1, j, tried, K, u, v, relstp, omp =>
    let z := quad 1 u v
    if |(|z.sr| - |z.lr|)| > 1 / 100 * |z.lr| then .ok (.failed K)
    else if AcceptsPair N p u v z then .ok (.two z (quadSD u v p))
    else if j + 1 > 20 then .ok (.failed K)
    else
      let mp := |-(z.sr * quadSD u v p (N - 1)) + quadSD u v p N| + |z.si * quadSD u v p (N - 1)|
      let stall := j + 1 ≥ 2 ∧ relstp ≤ 1 / 100 ∧ mp ≥ omp ∧ tried = false
      let r := if relstp < dblEpsilon then √dblEpsilon else √relstp
      let u1 := if stall then u - u * r else u
      let v1 := if stall then v + v * r else v
      let K1 := if stall then fixedSteps N p u1 v1 5 K else K
      let qp := quadSD u1 v1 p
      let a := qp N
      let b := qp (N - 1)
      let K2 := nextK (calcSC N a b K1 u1 v1) a b (quadSD u1 v1 K1) qp
      match newest N (calcSC N a b K2 u1 v1) a b u1 v1 K2 p with
      | .error e => .error e
      | .ok (ui, vi) =>
        if vi ≠ 0 then
          quadLoop N p n (if stall then 0 else j + 1) (if stall then true else tried) K2 ui vi |(-v1 + vi) / vi| mp
        else .ok (.failed K2)

/-- 691-792 `QuadIT_ak1`. -/
noncomputable def quadIT (N : ℕ) (p K : ℕ → ℝ) (u v : ℝ) : Res Stage3 := quadLoop N p 42 0 false K u v 0 0

/-- What the second stage goes on with after failed third-stage iterations. -/
structure Retry where
  K : ℕ → ℝ
  betav : ℝ
  betas : ℝ

open Classical in
/-- 455-526: the third-stage iterations tried for one pair of converging sequences: the zeros found or the values to go on with. The loop 462-526 runs at
most twice: its second round is a quadratic iteration, which sets `vtry`. A `continue` (515) goes to the test in 526 and leaves `K` as it is. -/
noncomputable def tryStage3 (N : ℕ) (p K : ℕ → ℝ) (ss ui vi : ℝ) (spass vpass realFirst : Bool) (betav betas : ℝ) :
    Res (Stage3 ⊕ Retry) :=
  if realFirst then
    match realIT N p K ss with
    | .one s qp => .ok (.inl (.one s qp))
    | .two z qp => .ok (.inl (.two z qp))
    | .cluster s K1 =>
      if vpass then do
        match ← quadIT N p K1 (-(s + s)) (s * s) with
        | .two z qp => return .inl (.two z qp)
        | _ => return .inr ⟨K, betav * (1 / 4), betas * (1 / 4)⟩
      else .ok (.inr ⟨K1, betav, betas * (1 / 4)⟩)
    | .failed _ =>
      if vpass then do
        match ← quadIT N p K ui vi with
        | .two z qp => return .inl (.two z qp)
        | _ => return .inr ⟨K, betav * (1 / 4), betas * (1 / 4)⟩
      else .ok (.inr ⟨K, betav, betas * (1 / 4)⟩)
  else do
    match ← quadIT N p K ui vi with
    | .two z qp => return .inl (.two z qp)
    | _ =>
      if spass then
        match realIT N p K ss with
        | .one s qp => return .inl (.one s qp)
        | .two z qp => return .inl (.two z qp)
        | .cluster _ K1 => return .inr ⟨K1, betav * (1 / 4), betas * (1 / 4)⟩
        | .failed _ => return .inr ⟨K, betav * (1 / 4), betas * (1 / 4)⟩
      else return .inr ⟨K, betav * (1 / 4), betas⟩

open Classical in
/-- 420-543: the loop of `Fxshfr_ak1`, `left` more rounds; the other variables as in the code (`otv` and `ots` are read only when set). The scalars and
`qp` are those of the current `K`, `u` and `v` at the beginning of every round (415-418, 425-426, 530-532). `none`: no zeros found. -/
noncomputable def fxLoop (N : ℕ) (p : ℕ → ℝ) (u v : ℝ) :
    ℕ → ℕ → (ℕ → ℝ) → ℝ → ℝ → ℝ → ℝ → ℝ → ℝ → Res (Option Stage3)
  | 0, _, _, _, _, _, _, _, _ => .ok none
  | left + 1, j, K, betav, betas, ovv, oss, otv, ots => do
    let qp := quadSD u v p
    let a := qp N
    let b := qp (N - 1)
    let K := nextK (calcSC N a b K u v) a b (quadSD u v K) qp
    let sc := calcSC N a b K u v
    let e ← newest N sc a b u v K p
    let vv := e.2
    let ss := if K (N - 1) ≠ 0 then -(p N / K (N - 1)) else 0
    if j ≠ 0 ∧ sc.flag ≠ 3 then
      let tv := if vv ≠ 0 then |(vv - ovv) / vv| else 1
      let ts := if ss ≠ 0 then |(ss - oss) / ss| else 1
      let tvv := if tv < otv then tv * otv else 1
      let tss := if ts < ots then ts * ots else 1
      if tss < betas ∨ tvv < betav then
        match ← tryStage3 N p K ss e.1 e.2 (tss < betas) (tvv < betav) (tss < betas ∧ (¬tvv < betav ∨ tss < tvv)) betav betas with
        | .inl z => return some z
        | .inr r => fxLoop N p u v left (j + 1) r.K r.betav r.betas vv ss tv ts
      else fxLoop N p u v left (j + 1) K betav betas vv ss tv ts
    else fxLoop N p u v left (j + 1) K betav betas vv ss 1 1

/-- 391-545 `Fxshfr_ak1`. -/
noncomputable def fxshfr (L2 : ℕ) (sr bnd : ℝ) (N : ℕ) (p K : ℕ → ℝ) : Res (Option Stage3) :=
  fxLoop N p (-(2 * sr)) bnd L2 0 K (1 / 4) (1 / 4) bnd sr 0 0

/-! ## The main program -/

/-- 212-220: the largest modulus of the coefficients. -/
noncomputable def moduliMax (N : ℕ) (p : ℕ → ℝ) : ℝ :=
  (List.range (N + 1)).foldl (fun m i => if |p i| > m then |p i| else m) 0

/-- 212-220: the smallest non-zero modulus of the coefficients. -/
noncomputable def moduliMin (N : ℕ) (p : ℕ → ℝ) : ℝ :=
  (List.range (N + 1)).foldl (fun m i => if |p i| ≠ 0 ∧ |p i| < m then |p i| else m) fltMax

/-- Conversion to `int`. -/
noncomputable def truncate (x : ℝ) : ℤ := if 0 ≤ x then ⌊x⌋ else ⌈x⌉

/-- 230-241: the factor by which the coefficients are multiplied; 1 if they are not. -/
noncomputable def scaleFactor (N : ℕ) (p : ℕ → ℝ) : ℝ :=
  let sc := fltMin / dblEpsilon / moduliMin N p
  if (sc ≤ 1 ∧ moduliMax N p ≥ 10) ∨ (sc > 1 ∧ fltMax / sc ≥ moduliMax N p) then
    let sc := if sc = 0 then fltMin else sc
    2 ^ truncate (Real.log sc / Real.log 2 + 1 / 2)
  else 1

/-- 245-246: the coefficients of the polynomial whose positive zero bounds the moduli of the zeros from below. -/
noncomputable def moduli (N : ℕ) (p : ℕ → ℝ) : ℕ → ℝ := fun i => if i = N then -|p i| else |p i|

/-- 252-258: the upper estimate. For `p[N] = 0` the logarithm is minus infinity and the exponential is zero. -/
noncomputable def upperEstimate (N : ℕ) (p : ℕ → ℝ) : ℝ :=
  let pt := moduli N p
  let x := if p N = 0 then 0 else Real.exp ((Real.log (-pt N) - Real.log (pt 0)) / N)
  if pt (N - 1) ≠ 0 then
    let xm := -pt N / pt (N - 1)
    if xm < x then xm else x
  else x

/-- 262-268: the interval is chopped until the value is not positive. -/
noncomputable def chop (N : ℕ) (pt : ℕ → ℝ) : ℕ → ℝ → Res ℝ
  | 0, _ => .error .hang
  | fuel + 1, x => if horner (1 / 10 * x) pt N > 0 then chop N pt fuel (1 / 10 * x) else .ok x

/-- 276-280: value `ff` and derivative `df`, after `n` rounds of the loop. -/
noncomputable def hornerDeriv (x : ℝ) (pt : ℕ → ℝ) : ℕ → ℝ × ℝ
  | 0 => (pt 0, pt 0)
  | n + 1 =>
    let r := hornerDeriv x pt n
    (x * r.1 + pt (n + 1), x * r.2 + (x * r.1 + pt (n + 1)))

/-- 274-283: Newton's iteration. With `x = 0` the quotient is NaN and the loop ends. -/
noncomputable def newton (N : ℕ) (pt : ℕ → ℝ) : ℕ → ℝ → ℝ → Res ℝ
  | 0, _, _ => .error .hang
  | fuel + 1, x, dx =>
    if x ≠ 0 ∧ |dx / x| > 5 / 1000 then
      let r := hornerDeriv x pt (N - 1)
      if r.2 = 0 then .error .nonfinite
      else
        let dx := (x * r.1 + pt N) / r.2
        newton N pt fuel (x - dx) dx
    else .ok x

/-- 245-285: the lower bound on the moduli of the zeros. -/
noncomputable def lowerBound (fuel N : ℕ) (p : ℕ → ℝ) : Res ℝ := do
  let x ← chop N (moduli N p) fuel (upperEstimate N p)
  newton N (moduli N p) fuel x x

/-- 290-291: the derivative over `N`. -/
noncomputable def initialK (N : ℕ) (p : ℕ → ℝ) : ℕ → ℝ := fun i => if i = 0 then p 0 else (N - i : ℝ) * p i / N

/-- 297-319: steps without shift. -/
noncomputable def noShift (N : ℕ) (p : ℕ → ℝ) : ℕ → (ℕ → ℝ) → Bool → ℕ → ℝ
  | 0, K, _ => K
  | n + 1, K, zerok =>
    if zerok then
      let K' : ℕ → ℝ := fun j => if j = 0 then 0 else K (j - 1)
      noShift N p n K' (K' (N - 1) = 0)
    else
      let t := -p N / K (N - 1)
      let K' : ℕ → ℝ := fun j => if j = 0 then p 0 else t * K (j - 1) + p j
      noShift N p n K' (|K' (N - 1)| ≤ |p (N - 1)| * dblEpsilon * 10)

/-- 290-319: `K` before the shifts. -/
noncomputable def startK (N : ℕ) (p : ℕ → ℝ) : ℕ → ℝ := noShift N p 5 (initialK N p) (initialK N p (N - 1) = 0)

/-- 169-170: the cosine and the sine of 94 degrees. -/
noncomputable def cosr : ℝ := Real.cos (94 * (314159265358979323846 / 100000000000000000000 / 180))
/-- 169-170. -/
noncomputable def sinr : ℝ := Real.sin (94 * (314159265358979323846 / 100000000000000000000 / 180))

/-- 327-368: the loop over the shifts, from `jj` with `left` more to go: the zeros found (`none` after 20 shifts), and the direction of the last shift. -/
noncomputable def shiftLoop (N : ℕ) (p K : ℕ → ℝ) (bnd : ℝ) : ℕ → ℕ → ℝ → ℝ → Res (Option Stage3 × ℝ × ℝ)
  | 0, _, xx, yy => .ok (none, xx, yy)
  | left + 1, jj, xx, yy => do
    let xx' := -(sinr * yy) + cosr * xx
    let yy' := sinr * xx + cosr * yy
    match ← fxshfr (20 * jj) (bnd * xx') bnd N p K with
    | some z => return (some z, xx', yy')
    | none => shiftLoop N p K bnd left (jj + 1) xx' yy'

/-- A zero as stored in `zeror`, `zeroi`. -/
abbrev Zero := ℝ × ℝ

/-- 195-379: the main loop, for the polynomial `p` of degree `N` still to be factored; the zeros it stores, from index `*Degree - N` on. After a failure
(372-377) `*Degree` is the number of zeros stored before. The first argument bounds the number of rounds by the degree. -/
noncomputable def mainLoop (fuel : ℕ) : ℕ → ℕ → (ℕ → ℝ) → ℝ → ℝ → Res (List Zero)
  | 0, _, _, _, _ => .ok []
  | n + 1, N, p, xx, yy =>
    if N < 1 then .ok []
    else if N < 2 then .ok [(-(p 1 / p 0), 0)]
    else if N = 2 then
      let z := quad (p 0) (p 1) (p 2)
      .ok [(z.sr, z.si), (z.lr, z.li)]
    else do
      let p : ℕ → ℝ := fun i => p i * scaleFactor N p
      let bnd ← lowerBound fuel N p
      let r ← shiftLoop N p (startK N p) bnd 20 1 xx yy
      match r.1 with
      | some (.one s qp) => do
        let zs ← mainLoop fuel n (N - 1) qp r.2.1 r.2.2
        return (s, 0) :: zs
      | some (.two z qp) => do
        let zs ← mainLoop fuel n (N - 2) qp r.2.1 r.2.2
        return (z.sr, z.si) :: (z.lr, z.li) :: zs
      | _ => .ok []

/-- 183-188: zeros at the origin: the remaining degree. (For `N = 0` the coefficient is the leading one, which is not zero.) -/
noncomputable def stripZeros (op : ℕ → ℝ) : ℕ → ℕ
  | 0 => 0
  | N + 1 => if op (N + 1) = 0 then stripZeros op N else N + 1

/-- 153-388 `rpoly_ak1`: the zeros stored; `*Degree` is their number afterwards, except that it is -1 (`none`) for a degree above 100. -/
noncomputable def rpoly (fuel : ℕ) (op : ℕ → ℝ) (degree : ℕ) : Res (Option (List Zero)) :=
  if degree > 100 then .ok none
  else if op 0 ≠ 0 then do
    let N := stripZeros op degree
    let zs ← mainLoop fuel (N + 1) N op (√(1 / 2)) (-√(1 / 2))
    return some (List.replicate (degree - N) (0, 0) ++ zs)
  else .ok (some [])

/-- 57-68 `findLastNonZeroCoeff` for the first `n` coefficients; `none` is -1. -/
noncomputable def findLastNonZeroCoeff (c : List ℝ) : ℕ → Option ℕ
  | 0 => none
  | n + 1 => if |c.getD n 0| ≥ dblMin then some n else findLastNonZeroCoeff c n

/-- 70-116 `findRootsJenkinsTraub`: the returned flag and the roots (`none`: `*roots` keeps its contents). More than 101 coefficients are written past the end of the
array in 96-98. -/
noncomputable def findRoots (fuel : ℕ) (c : List ℝ) : Res (Bool × Option (List Zero)) :=
  match findLastNonZeroCoeff c c.length with
  | none => .ok (true, some [])
  | some last =>
    if last + 1 < 2 then .ok (true, some [])
    else if 101 < last + 1 then .error .ub
    else do
      match ← rpoly fuel (fun i => (c.take (last + 1)).reverse.getD i 0) last with
      | some zs => if 0 < zs.length then return (true, some zs) else return (false, none)
      | none => return (false, none)

/-- `polynomial.cpp` 28-30, 65-83: the roots as the callers get them: their vector is empty before the call, and the flag is only logged. -/
noncomputable def rootsOf (fuel : ℕ) (c : List ℝ) : Res (List Zero) := do
  let r ← findRoots fuel c
  return r.2.getD []

end Verif.RPoly
