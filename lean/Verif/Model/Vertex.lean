import Mathlib.Analysis.Real.Sqrt
import Verif.Model.Trajectory

/-!
# `mav_trajectory_generation::Vertex` and segment time estimation

`SP` is `subpackages/mav_trajectory_generation`. The constraint store `std::map<int, Eigen::VectorXd>` is an association list sorted
by key. Printing (`operator<<`) is not modelled. `createRandomVertices` is in `Model/RandomVertices.lean`.
-/

namespace Verif

/-! ## `std::map<int, α>` -/

namespace IntMap
variable {α : Type*}

/-- `std::map::operator[](k) = v`: insert or overwrite, keeping the keys increasing. -/
def insert (k : Int) (v : α) : List (Int × α) → List (Int × α)
  | [] => [(k, v)]
  | (k', v') :: l =>
    if k < k' then (k, v) :: (k', v') :: l
    else if k = k' then (k, v) :: l
    else (k', v') :: insert k v l

/-- `std::map::find`. -/
def find (k : Int) : List (Int × α) → Option α
  | [] => none
  | (k', v') :: l => if k = k' then some v' else find k l

/-- `std::map::erase` of a key. -/
def erase (k : Int) : List (Int × α) → List (Int × α)
  | [] => []
  | (k', v') :: l => if k = k' then l else (k', v') :: erase k l

end IntMap

/-- `SP/include/mav_trajectory_generation/vertex.h` 41-116: dimension `D_` and constraint map. -/
structure Vertex (K : Type*) where
  D : Nat
  constraints : List (Int × List K)
  deriving DecidableEq, Repr

namespace Vertex
variable {K : Type*}

/-- `vertex.h` 50: the constructor. -/
def mk' (D : Nat) : Vertex K := ⟨D, []⟩

/-- `vertex.cpp` 130-134 `addConstraint(int, VectorXd)`: aborts unless the vector has `D` entries. -/
def addConstraint (v : Vertex K) (k : Int) (c : List K) : Res (Vertex K) :=
  if c.length = v.D then .ok { v with constraints := IntMap.insert k c v.constraints } else .error .check

/-- `vertex.h` 58-60 `addConstraint(int, double)`. -/
def addConstraintConst (v : Vertex K) (k : Int) (x : K) : Vertex K :=
  { v with constraints := IntMap.insert k (List.replicate v.D x) v.constraints }

/-- `vertex.cpp` 155-163 `getConstraint`: `none` is `return false` (the output argument is left alone). -/
def getConstraint (v : Vertex K) (k : Int) : Option (List K) := IntMap.find k v.constraints

/-- `vertex.cpp` 165-168 `hasConstraint`. -/
def hasConstraint (v : Vertex K) (k : Int) : Bool := (IntMap.find k v.constraints).isSome

/-- `vertex.h` 99 `getNumberOfConstraints`. -/
def getNumberOfConstraints (v : Vertex K) : Nat := v.constraints.length

/-- `vertex.cpp` 136-145 `removeConstraint`. -/
def removeConstraint (v : Vertex K) (k : Int) : Bool × Vertex K :=
  match IntMap.find k v.constraints with
  | some _ => (true, { v with constraints := IntMap.erase k v.constraints })
  | none => (false, v)

section Zero
variable [Zero K]

/-- `vertex.cpp` 150-152: the loop of `makeStartOrEnd`; `n` iterations from derivative `i` on. -/
def zeroLoop (D : Nat) : Nat → Nat → List (Int × List K) → List (Int × List K)
  | 0, _, m => m
  | n + 1, i, m => zeroLoop D n (i + 1) (IntMap.insert (i : Int) (List.replicate D 0) m)

/-- `vertex.cpp` 147-153 `makeStartOrEnd(VectorXd, int)`. A negative `up_to_derivative` gives no iterations, like 0. -/
def makeStartOrEnd (v : Vertex K) (c : List K) (upTo : Int) : Res (Vertex K) := do
  let w ← v.addConstraint 0 c
  return { w with constraints := zeroLoop w.D upTo.toNat 1 w.constraints }

/-- `vertex.h` 77-79 `makeStartOrEnd(double, int)`. -/
def makeStartOrEndConst (v : Vertex K) (x : K) (upTo : Int) : Res (Vertex K) :=
  v.makeStartOrEnd (List.replicate v.D x) upTo

end Zero

/-- `vertex.cpp` 196-204: the projection of one constraint; an index outside the stored vector is undefined behaviour. -/
def project (c : List K) (subs : List Nat) : Res (List K) := subs.mapM (at? c)

/-- `vertex.cpp` 193-205: the copying loop of `getSubdimension`. -/
def subLoop (subs : List Nat) (maxOrder : Int) : List (Int × List K) → Vertex K → Res (Vertex K)
  | [], w => .ok w
  | (k, c) :: l, w =>
    if k > maxOrder then subLoop subs maxOrder l w
    else do
      let c' ← project c subs
      let w' ← w.addConstraint k c'
      subLoop subs maxOrder l w'

/-- `vertex.cpp` 184-207 `getSubdimension`: returned flag and `*subvertex`. -/
def getSubdimension (v : Vertex K) (subs : List Nat) (maxOrder : Int) : Res (Bool × Vertex K) :=
  if subs.any (fun d => decide (v.D ≤ d)) then .ok (false, mk' subs.length)
  else do
    let w ← subLoop subs maxOrder v.constraints (mk' subs.length)
    return (true, w)

section Order
variable [Field K] [LinearOrder K] [IsStrictOrderedRing K]

/-- `vertex.cpp` 173-180: the loop of `isEqualTol`. `(a - b).isZero(tol)` is `|aᵢ - bᵢ| ≤ tol` for every entry; vectors of different
sizes are undefined behaviour (an Eigen assertion). -/
def equalLoop (tol : K) (rhs : List (Int × List K)) : List (Int × List K) → Res Bool
  | [] => .ok true
  | (k, c) :: l =>
    match IntMap.find k rhs with
    | none => .ok false
    | some c' =>
      if c.length ≠ c'.length then .error .ub
      else if (List.zipWith (fun a b => decide (|a - b| ≤ tol)) c c').all id then equalLoop tol rhs l
      else .ok false

/-- `vertex.cpp` 170-182 `isEqualTol`. -/
def isEqualTol (v w : Vertex K) (tol : K) : Res Bool :=
  if v.constraints.length ≠ w.constraints.length then .ok false else equalLoop tol w.constraints v.constraints

/-- `vertex.cpp` 84-120 `createSquareVertices` (3-dimensional). `rounds ≤ 0` makes no loop iteration; `reserve(4 * rounds)` with
negative `rounds` throws `std::length_error`; a product outside the range of `int` is undefined behaviour. Running out of memory
for very many rounds is not modelled. -/
def createSquareVertices (maxDerivative : Int) (cx cy cz side : K) (rounds : Int) : Res (List (Vertex K)) := do
  let p1 : List K := [cx - side / 2, cy - side / 2, cz]
  let v1 ← (mk' 3 : Vertex K).addConstraint 0 p1
  let v2 ← (mk' 3 : Vertex K).addConstraint 0 [cx - side / 2, cy + side / 2, cz]
  let v3 ← (mk' 3 : Vertex K).addConstraint 0 [cx + side / 2, cy + side / 2, cz]
  let v4 ← (mk' 3 : Vertex K).addConstraint 0 [cx + side / 2, cy - side / 2, cz]
  if 4 * rounds < -2 ^ 31 ∨ 2 ^ 31 ≤ 4 * rounds then .error .ub
  else if rounds < 0 then .error .exc
  else do
    let front ← v1.makeStartOrEnd p1 maxDerivative
    let all := front :: (List.replicate rounds.toNat [v2, v3, v4, v1]).flatten
    match all.getLast? with
    | none => .error .ub
    | some lst => do
      let lst' ← lst.makeStartOrEnd p1 maxDerivative
      return all.dropLast ++ [lst']

end Order

end Vertex

/-! ## Vertices of a trajectory -/

namespace Trajectory
variable {K : Type*} [Field K] [LinearOrder K]

/-- `trajectory.cpp` 278-280: the loop of `getVertexAtTime`, `n` iterations from order `i` on. -/
def vertexLoop (tr : Trajectory K) (t : K) : Nat → Nat → Vertex K → Res (Vertex K)
  | 0, _, v => .ok v
  | n + 1, i, v => do
    let x ← tr.evaluate t i
    let w ← v.addConstraint (i : Int) x
    vertexLoop tr t n (i + 1) w

/-- `trajectory.cpp` 276-282 `getVertexAtTime`; the order is a natural number (a negative one is converted to a huge unsigned
bound and the loop does not end in practice). -/
def getVertexAtTime (tr : Trajectory K) (t : K) (k : Nat) : Res (Vertex K) := tr.vertexLoop t (k + 1) 0 (Vertex.mk' tr.D)

/-- `trajectory.cpp` 284-286 `getStartVertex`. -/
def getStartVertex (tr : Trajectory K) (k : Nat) : Res (Vertex K) := tr.getVertexAtTime 0 k

/-- `trajectory.cpp` 288-290 `getGoalVertex`. -/
def getGoalVertex (tr : Trajectory K) (k : Nat) : Res (Vertex K) := tr.getVertexAtTime tr.maxTime k

/-- `trajectory.cpp` 336-339: the loop of `getVertices`. -/
def verticesLoop (tr : Trajectory K) (k : Nat) : List (Segment K) → K → Res (List (Vertex K))
  | [], _ => .ok []
  | s :: ss, t => do
    let v ← tr.getVertexAtTime (t + s.time) k
    let vs ← verticesLoop tr k ss (t + s.time)
    return v :: vs

/-- `trajectory.cpp` 329-341 `getVertices(int, Vector*)`; it always returns true. -/
def getVertices (tr : Trajectory K) (k : Nat) : Res (List (Vertex K)) := do
  let v ← tr.getStartVertex k
  let vs ← tr.verticesLoop k tr.segments 0
  return v :: vs

/-- `trajectory.cpp` 304-326: split one vertex in position and yaw parts; `none` is `return false`. -/
def splitVertex (v : Vertex K) (kPos kYaw : Nat) : Res (Option (Vertex K × Vertex K)) := do
  let p ← v.getSubdimension [0, 1, 2] kPos
  if p.1 then do
    let y ← v.getSubdimension [3] kYaw
    if y.1 then return some (p.2, y.2) else return none
  else return none

/-- `trajectory.cpp` 312-325: the loop of the position/yaw variant of `getVertices`. -/
def splitLoop (tr : Trajectory K) (kPos kYaw : Nat) : List (Segment K) → K → Res (Option (List (Vertex K × Vertex K)))
  | [], _ => .ok (some [])
  | s :: ss, t => do
    let v ← tr.getVertexAtTime (t + s.time) (max kPos kYaw)
    match ← splitVertex v kPos kYaw with
    | none => return none
    | some x =>
      match ← splitLoop tr kPos kYaw ss (t + s.time) with
      | none => return none
      | some xs => return some (x :: xs)

/-- `trajectory.cpp` 292-327 `getVertices(int, int, Vector*, Vector*)`; `none` is `return false`. -/
def getVerticesPosYaw (tr : Trajectory K) (kPos kYaw : Nat) : Res (Option (List (Vertex K × Vertex K))) := do
  let v ← tr.getStartVertex (max kPos kYaw)
  match ← splitVertex v kPos kYaw with
  | none => return none
  | some x =>
    match ← splitLoop tr kPos kYaw tr.segments 0 with
    | none => return none
    | some xs => return some (x :: xs)

end Trajectory

/-! ## Segment times -/

/-- Euclidean norm of a vector of doubles (Eigen `norm()`). -/
noncomputable def vnorm (v : List ℝ) : ℝ := Real.sqrt ((v.map (· ^ 2)).sum)

/-- Eigen vector difference; different sizes are undefined behaviour. -/
def vsub {K : Type*} [Sub K] (a b : List K) : Res (List K) :=
  if a.length = b.length then .ok (List.zipWith (· - ·) a b) else .error .ub

/-- `vertex.cpp` 273-283: the vertex has a velocity constraint of norm below 10⁻⁶. -/
noncomputable def slowEnd (v : Vertex ℝ) : Bool :=
  match v.getConstraint 1 with
  | some x => decide (vnorm x < 1 / 10 ^ 6)
  | none => false

/-- `vertex.cpp` 264-287: the time of one segment in `estimateSegmentTimesNfabian`. A missing position constraint leaves the vector
default-constructed, i.e. empty. A zero `v_max` or `a_max` (when used) divides by zero. -/
noncomputable def nfabianTime (v w : Vertex ℝ) (vMax aMax : ℝ) : Res ℝ := do
  let start := (v.getConstraint 0).getD []
  let stop := (w.getConstraint 0).getD []
  let d ← vsub stop start
  if vMax = 0 then .error .nonfinite
  else if slowEnd v || slowEnd w then
    if aMax = 0 then .error .nonfinite else return vnorm d / vMax + vMax / aMax
  else return vnorm d / vMax

/-- `vertex.cpp` 261-288: the loop over consecutive vertices. -/
noncomputable def nfabianLoop (vMax aMax : ℝ) : List (Vertex ℝ) → Res (List ℝ)
  | v :: w :: l => do
    let t ← nfabianTime v w vMax aMax
    let ts ← nfabianLoop vMax aMax (w :: l)
    return t :: ts
  | _ => .ok []

/-- `vertex.cpp` 228-231 and 255-289 `estimateSegmentTimes` = `estimateSegmentTimesNfabian` (its last argument is unused). -/
noncomputable def estimateSegmentTimes (vs : List (Vertex ℝ)) (vMax aMax : ℝ) : Res (List ℝ) :=
  if vs.length < 2 then .error .check else nfabianLoop vMax aMax vs

/-- `vertex.cpp` 291-307 `computeTimeVelocityRamp`. -/
noncomputable def computeTimeVelocityRamp (start goal : List ℝ) (vMax aMax : ℝ) : Res ℝ := do
  let d ← vsub start goal
  let distance := vnorm d
  if aMax = 0 then .error .nonfinite
  else
    let accTime := vMax / aMax
    let accDistance := 1 / 2 * vMax * accTime
    if distance < 2 * accDistance then return 2 * Real.sqrt (distance / aMax)
    else if vMax = 0 then .error .nonfinite
    else return 2 * accTime + (distance - 2 * accDistance) / vMax

/-- `vertex.cpp` 243-250: the loop of `estimateSegmentTimesVelocityRamp`. -/
noncomputable def rampLoop (vMax aMax : ℝ) : List (Vertex ℝ) → Res (List ℝ)
  | v :: w :: l => do
    let t ← computeTimeVelocityRamp ((v.getConstraint 0).getD []) ((w.getConstraint 0).getD []) vMax aMax
    let ts ← rampLoop vMax aMax (w :: l)
    return max (1 / 10) t :: ts
  | _ => .ok []

/-- `vertex.cpp` 233-253 `estimateSegmentTimesVelocityRamp` (`time_factor` is unused). -/
noncomputable def estimateSegmentTimesVelocityRamp (vs : List (Vertex ℝ)) (vMax aMax : ℝ) : Res (List ℝ) :=
  if vs.length < 2 then .error .check else rampLoop vMax aMax vs

/-- `vertex.h` 147 `getHighestDerivativeFromN`: C++ integer division truncates towards zero. -/
def getHighestDerivativeFromN (N : Int) : Int := N.tdiv 2 - 1

end Verif
