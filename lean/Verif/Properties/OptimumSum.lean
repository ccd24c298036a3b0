import Verif.Spec.OptimumSum
import Verif.Properties.OptimumCost
import Verif.Properties.OptimumUnique

/-!
# C173: missions add up
-/

namespace Verif.Properties

open Verif Verif.Spec Verif.Lemmas Verif.LinOpt Polynomial

section
variable {h dim : ℕ} {q q1 q2 : Problem ℝ} {α β : ℝ}

/-- The integral of the product of two derivatives. -/
noncomputable def pInner (d : ℕ) (t : ℝ) (f g : ℝ[X]) : ℝ := ∫ x in (0 : ℝ)..t, (derivative^[d] f).eval x * (derivative^[d] g).eval x

theorem pInner_integrable (d : ℕ) (t : ℝ) (f g : ℝ[X]) :
    IntervalIntegrable (fun x => (derivative^[d] f).eval x * (derivative^[d] g).eval x) MeasureTheory.volume 0 t :=
  ((derivative^[d] f).continuous.mul (derivative^[d] g).continuous).intervalIntegrable _ _

theorem pInner_combine (d : ℕ) (t : ℝ) (f g e : ℝ[X]) : pInner d t (C α * f + C β * g) e = α * pInner d t f e + β * pInner d t g e := by
  unfold pInner
  rw [← intervalIntegral.integral_const_mul, ← intervalIntegral.integral_const_mul,
    ← intervalIntegral.integral_add ((pInner_integrable d t f e).const_mul α) ((pInner_integrable d t g e).const_mul β)]
  congr 1
  funext x
  rw [iterate_map_add, iterate_derivative_C_mul, iterate_derivative_C_mul]
  simp only [eval_add, eval_mul, eval_C]
  ring

theorem pEnergy_add (d : ℕ) (t s : ℝ) (f g : ℝ[X]) : pEnergy d t (f + C s * g) = pEnergy d t f + 2 * s * pInner d t f g + s ^ 2 * pEnergy d t g := by
  have ci : ∀ f : ℝ[X], IntervalIntegrable (fun x => (derivative^[d] f).eval x ^ 2) MeasureTheory.volume 0 t := fun f =>
    ((derivative^[d] f).continuous.pow 2).intervalIntegrable _ _
  unfold pEnergy pInner
  rw [← intervalIntegral.integral_const_mul, ← intervalIntegral.integral_const_mul, ← intervalIntegral.integral_add (ci f) ((pInner_integrable d t f g).const_mul _),
    ← intervalIntegral.integral_add ((ci f).add ((pInner_integrable d t f g).const_mul _)) ((ci g).const_mul _)]
  congr 1
  funext x
  rw [iterate_map_add, iterate_derivative_C_mul]
  simp only [eval_add, eval_mul, eval_C]
  ring

/-- The integral of the products over all segments and dimensions. -/
noncomputable def curveInner (d dim : ℕ) (q : Problem ℝ) (f g : ℕ → ℕ → ℝ[X]) : ℝ :=
  ∑ j ∈ Finset.range dim, ∑ i ∈ Finset.range q.times.length, pInner d (q.times.getD i 0) (f j i) (g j i)

/-- A curve and a multiple of a change. -/
theorem sum_energy_add (d dim : ℕ) (q : Problem ℝ) (s : ℝ) (f g : ℕ → ℕ → ℝ[X]) :
    ∑ j ∈ Finset.range dim, ∑ i ∈ Finset.range q.times.length, pEnergy d (q.times.getD i 0) (f j i + C s * g j i) =
      (∑ j ∈ Finset.range dim, ∑ i ∈ Finset.range q.times.length, pEnergy d (q.times.getD i 0) (f j i)) + 2 * s * curveInner d dim q f g +
        s ^ 2 * ∑ j ∈ Finset.range dim, ∑ i ∈ Finset.range q.times.length, pEnergy d (q.times.getD i 0) (g j i) := by
  unfold curveInner
  simp only [pEnergy_add, Finset.sum_add_distrib, ← Finset.mul_sum]

theorem neutral_smul {E : ℕ → ℕ → ℝ[X]} (hE : Neutral h dim q E) (s : ℝ) : Neutral h dim q fun j i => C s * E j i := by
  have ev : ∀ (j i k : ℕ) (x : ℝ), (derivative^[k] (C s * E j i)).eval x = s * (derivative^[k] (E j i)).eval x := by
    intro j i k x
    rw [iterate_derivative_C_mul, eval_mul, eval_C]
  refine ⟨fun j i n hn => by rw [coeff_C_mul, hE.below j i n hn, mul_zero], fun i j k h1 h2 h3 => by rw [ev, ev, hE.joint i j k h1 h2 h3],
    fun i j k h1 h2 h3 v hv hs => by rw [ev, hE.first i j k h1 h2 h3 v hv hs, mul_zero], fun i j k h1 h2 h3 v hv hs => by rw [ev, hE.last i j k h1 h2 h3 v hv hs, mul_zero]⟩

/-- The best curve is orthogonal to all changes that are allowed. -/
theorem optimal_orthogonal {a : List (Segment ℝ)} (ha : Optimal h dim q a) {E : ℕ → ℕ → ℝ[X]} (hE : Neutral h dim q E) :
    curveInner q.derivative.toNat dim q (pAt a) E = 0 := by
  set d := q.derivative.toNat with hd
  set Q := ∑ j ∈ Finset.range dim, ∑ i ∈ Finset.range q.times.length, pEnergy d (q.times.getD i 0) (E j i) with hQ
  have key : ∀ s : ℝ, 0 ≤ 2 * s * curveInner d dim q (pAt a) E + s ^ 2 * Q := by
    intro s
    have hm := addTo_candidate ha.1 (neutral_smul hE s)
    have h1 := ha.2 _ hm
    rw [← hd, candidate_energy ha.1, candidate_energy hm] at h1
    have e : ∑ j ∈ Finset.range dim, ∑ i ∈ Finset.range q.times.length, pEnergy d (q.times.getD i 0) (pAt (addTo h a fun j i => C s * E j i) j i) =
        ∑ j ∈ Finset.range dim, ∑ i ∈ Finset.range q.times.length, pEnergy d (q.times.getD i 0) (pAt a j i + C s * E j i) :=
      Finset.sum_congr rfl fun j hj => Finset.sum_congr rfl fun i hi => by
        rw [addTo_pAt ha.1 (neutral_smul hE s).below (Finset.mem_range.mp hi) (Finset.mem_range.mp hj)]
    rw [e, sum_energy_add] at h1
    linarith
  set B := curveInner d dim q (pAt a) E
  by_contra hB
  have hQ1 : 0 < |Q| + 1 := by positivity
  have := key (-B / (|Q| + 1))
  have e : 2 * (-B / (|Q| + 1)) * B + (-B / (|Q| + 1)) ^ 2 * Q = B ^ 2 / (|Q| + 1) ^ 2 * (Q - 2 * (|Q| + 1)) := by
    field_simp
    ring
  rw [e] at this
  have hneg : Q - 2 * (|Q| + 1) < 0 := by
    have := le_abs_self Q
    have := abs_nonneg Q
    linarith
  have hpos : 0 < B ^ 2 / (|Q| + 1) ^ 2 := by positivity
  nlinarith

/-- `α` times the curve `a` plus `β` times the curve `b`. -/
noncomputable def combineCurves (h : ℕ) (α β : ℝ) (a b : List (Segment ℝ)) : List (Segment ℝ) := addTo h a fun j i => C (α - 1) * pAt a j i + C β * pAt b j i

theorem combine_below {a b : List (Segment ℝ)} (ha : Candidate h dim q1 a) (hb : Candidate h dim q2 b) (j i : ℕ) :
    Below (h + h) (C (α - 1) * pAt a j i + C β * pAt b j i) := by
  intro n hn
  rw [coeff_add, coeff_C_mul, coeff_C_mul, pAt_below ha j i n hn, pAt_below hb j i n hn]
  ring

theorem combine_deriv {a b : List (Segment ℝ)} (ha : Candidate h dim q1 a) (hb : Candidate h dim q2 b) {i : ℕ} {s t : Segment ℝ} (hs : a[i]? = some s)
    (ht : b[i]? = some t) (k : ℕ) (x : ℝ) :
    segDeriv { s with polys := s.polys.mapIdx fun j p => toCoeffs (h + h) (ofCoeffs p + (C (α - 1) * pAt a j i + C β * pAt b j i)) } k x =
      combine α β (segDeriv s k x) (segDeriv t k x) := by
  rw [addTo_deriv ha (combine_below ha hb) hs]
  have ls := ha.dims s (List.mem_of_getElem? hs)
  have lt := hb.dims t (List.mem_of_getElem? ht)
  apply List.ext_getElem
  · simp [combine, segDeriv, ls, lt]
  · intro j h1 h2
    have hj : j < dim := by simpa [segDeriv, ls] using h1
    have e1 := segDeriv_at hs (by rw [ls]; exact hj) k x
    have e2 := segDeriv_at ht (by rw [lt]; exact hj) k x
    obtain ⟨_, e1⟩ := List.getElem?_eq_some_iff.mp e1
    obtain ⟨_, e2⟩ := List.getElem?_eq_some_iff.mp e2
    simp only [List.getElem_mapIdx, combine, List.getElem_zipWith]
    rw [e1, e2, iterate_map_add, iterate_derivative_C_mul, iterate_derivative_C_mul]
    simp only [eval_add, eval_mul, eval_C]
    ring

theorem combine_candidate (hc : Combines α β q1 q2 q) {a b : List (Segment ℝ)} (ha : Candidate h dim q1 a) (hb : Candidate h dim q2 b) :
    Candidate h dim q (combineCurves h α β a b) := by
  have pa := candidate_pieces ha
  have pb := candidate_pieces hb
  have lab : a.length = b.length := by rw [pa.length, pb.length, hc.times.1, hc.times.2]
  have other : ∀ {i : ℕ} {s : Segment ℝ}, a[i]? = some s → ∃ t, b[i]? = some t ∧ t.time = s.time := by
    intro i s hs
    obtain ⟨hi, _⟩ := List.getElem?_eq_some_iff.mp hs
    have ht : b[i]? = some (b[i]'(lab ▸ hi)) := List.getElem?_eq_getElem _
    refine ⟨_, ht, ?_⟩
    rw [(pa.time i s hs).1, (pb.time i _ ht).1, hc.times.1, hc.times.2]
  have vert : ∀ (i k : ℕ) (v : Vertex ℝ) (c : List ℝ), q.vertices[i]? = some v → v.getConstraint (k : ℕ) = some c →
      ∃ v1 v2 x y, q1.vertices[i]? = some v1 ∧ q2.vertices[i]? = some v2 ∧ v1.getConstraint (k : ℕ) = some x ∧ v2.getConstraint (k : ℕ) = some y ∧ c = combine α β x y := by
    intro i k v c hv hvc
    obtain ⟨hi, _⟩ := List.getElem?_eq_some_iff.mp hv
    have h1 : q1.vertices[i]? = some (q1.vertices[i]'(hc.length.1 ▸ hi)) := List.getElem?_eq_getElem _
    have h2 : q2.vertices[i]? = some (q2.vertices[i]'(hc.length.2 ▸ hi)) := List.getElem?_eq_getElem _
    rcases hc.values i _ _ v h1 h2 hv k with ⟨_, _, e⟩ | ⟨x, y, e1, e2, e3⟩
    · rw [e] at hvc; cases hvc
    · rw [e3] at hvc
      exact ⟨_, _, x, y, h1, h2, e1, e2, (Option.some.inj hvc).symm⟩
  refine ⟨?_, ?_, ?_, ?_, ?_⟩
  · rw [← hc.times.1, ← ha.times]
    unfold combineCurves addTo
    apply List.ext_getElem?
    intro i
    simp only [List.getElem?_map, List.getElem?_mapIdx, Option.map_map]
    rfl
  · intro s' hs'
    obtain ⟨i, hi⟩ := List.mem_iff_getElem?.mp hs'
    obtain ⟨s, hs, rfl⟩ := addTo_get hi
    rw [List.length_mapIdx]
    exact (pa.time _ _ hs).2
  · intro s' hs' p hpm
    obtain ⟨i, hi⟩ := List.mem_iff_getElem?.mp hs'
    obtain ⟨s, hs, rfl⟩ := addTo_get hi
    obtain ⟨j, hj⟩ := List.mem_iff_getElem?.mp hpm
    simp only [List.getElem?_mapIdx] at hj
    obtain ⟨p0, _, rfl⟩ := Option.map_eq_some_iff.mp hj
    simp [toCoeffs]
  · intro i s' hs' k c hk
    obtain ⟨s, hs, rfl⟩ := addTo_get hs'
    obtain ⟨t, ht, htt⟩ := other hs
    refine ⟨fun v hv hvc => ?_, fun v hv hvc => ?_⟩
    · obtain ⟨v1, v2, x, y, w1, w2, g1, g2, rfl⟩ := vert i k v c hv hvc
      rw [combine_deriv ha hb hs ht, (ha.constraints i s hs k x hk).1 v1 w1 g1, (hb.constraints i t ht k y hk).1 v2 w2 g2]
    · obtain ⟨v1, v2, x, y, w1, w2, g1, g2, rfl⟩ := vert (i + 1) k v c hv hvc
      rw [combine_deriv ha hb hs ht]
      have e1 := (ha.constraints i s hs k x hk).2 v1 w1 g1
      have e2 := (hb.constraints i t ht k y hk).2 v2 w2 g2
      rw [htt] at e2
      simp only
      rw [e1, e2]
  · intro i s1 s2 hs1 hs2 k hk
    obtain ⟨s, hs, rfl⟩ := addTo_get hs1
    obtain ⟨s', hs', rfl⟩ := addTo_get hs2
    obtain ⟨t, ht, htt⟩ := other hs
    obtain ⟨t', ht', _⟩ := other hs'
    rw [combine_deriv ha hb hs ht, combine_deriv ha hb hs' ht']
    have e2 := hb.smooth i t t' ht ht' k hk
    rw [htt] at e2
    simp only
    rw [ha.smooth i s s' hs hs' k hk, e2]

theorem neutral_congr {q' : Problem ℝ} (ht : q'.times = q.times) (hl : q'.vertices.length = q.vertices.length)
    (hv : ∀ (i k : ℕ) (v v' : Vertex ℝ), q.vertices[i]? = some v → q'.vertices[i]? = some v' → (v'.getConstraint (k : ℕ)).isSome = true → (v.getConstraint (k : ℕ)).isSome = true)
    {E : ℕ → ℕ → ℝ[X]} (hE : Neutral h dim q E) : Neutral h dim q' E := by
  have get : ∀ {i : ℕ} {v' : Vertex ℝ}, q'.vertices[i]? = some v' → ∃ v, q.vertices[i]? = some v := by
    intro i v' hi
    obtain ⟨hi, _⟩ := List.getElem?_eq_some_iff.mp hi
    exact ⟨_, List.getElem?_eq_getElem (hl ▸ hi)⟩
  refine ⟨hE.below, ?_, ?_, ?_⟩
  · rw [ht]; exact hE.joint
  · intro i j k h1 h2 h3 v' hv' hs
    obtain ⟨v, e⟩ := get hv'
    exact hE.first i j k (ht ▸ h1) h2 h3 v e (hv i k v v' e hv' hs)
  · intro i j k h1 h2 h3 v' hv' hs
    obtain ⟨v, e⟩ := get hv'
    rw [ht]
    exact hE.last i j k (ht ▸ h1) h2 h3 v e (hv (i + 1) k v v' e hv' hs)

/-- Optima add up. -/
theorem combine_optimal (hc : Combines α β q1 q2 q) (hpos : ∀ t ∈ q.times, 0 < t) {a b : List (Segment ℝ)} (ha : Optimal h dim q1 a) (hb : Optimal h dim q2 b) :
    Optimal h dim q (combineCurves h α β a b) := by
  have cc := combine_candidate hc ha.1 hb.1
  refine ⟨cc, fun x hx => ?_⟩
  have hn := neutral_difference cc hx 1
  set E : ℕ → ℕ → ℝ[X] := fun j i => C 1 * (pAt x j i - pAt (combineCurves h α β a b) j i) with hEdef
  have iff1 : ∀ (i k : ℕ) (v v1 : Vertex ℝ), q.vertices[i]? = some v → q1.vertices[i]? = some v1 → (v1.getConstraint (k : ℕ)).isSome = true → (v.getConstraint (k : ℕ)).isSome = true := by
    intro i k v v1 hv hv1 hs
    obtain ⟨hi, _⟩ := List.getElem?_eq_some_iff.mp hv
    have h2 : q2.vertices[i]? = some (q2.vertices[i]'(hc.length.2 ▸ hi)) := List.getElem?_eq_getElem _
    rcases hc.values i _ _ v hv1 h2 hv k with ⟨e, _, _⟩ | ⟨x, y, _, _, e⟩
    · rw [e] at hs; cases hs
    · rw [e]; rfl
  have iff2 : ∀ (i k : ℕ) (v v2 : Vertex ℝ), q.vertices[i]? = some v → q2.vertices[i]? = some v2 → (v2.getConstraint (k : ℕ)).isSome = true → (v.getConstraint (k : ℕ)).isSome = true := by
    intro i k v v2 hv hv2 hs
    obtain ⟨hi, _⟩ := List.getElem?_eq_some_iff.mp hv
    have h1 : q1.vertices[i]? = some (q1.vertices[i]'(hc.length.1 ▸ hi)) := List.getElem?_eq_getElem _
    rcases hc.values i _ _ v h1 hv2 hv k with ⟨_, e, _⟩ | ⟨x, y, _, _, e⟩
    · rw [e] at hs; cases hs
    · rw [e]; rfl
  have o1 := optimal_orthogonal ha (neutral_congr hc.times.1 hc.length.1 iff1 hn)
  have o2 := optimal_orthogonal hb (neutral_congr hc.times.2 hc.length.2 iff2 hn)
  rw [hc.derivative.1] at o1
  rw [hc.derivative.2] at o2
  set d := q.derivative.toNat
  have hz : curveInner d dim q (pAt (combineCurves h α β a b)) E = 0 := by
    have e : curveInner d dim q (pAt (combineCurves h α β a b)) E = α * curveInner d dim q1 (pAt a) E + β * curveInner d dim q2 (pAt b) E := by
      unfold curveInner
      rw [hc.times.1, hc.times.2, Finset.mul_sum, Finset.mul_sum, ← Finset.sum_add_distrib]
      refine Finset.sum_congr rfl fun j hj => ?_
      rw [Finset.mul_sum, Finset.mul_sum, ← Finset.sum_add_distrib]
      refine Finset.sum_congr rfl fun i hi => ?_
      rw [← pInner_combine]
      congr 1
      unfold combineCurves
      rw [addTo_pAt ha.1 (combine_below ha.1 hb.1) (by rw [hc.times.1]; exact Finset.mem_range.mp hi) (Finset.mem_range.mp hj), C_sub, C_1]
      ring
    rw [e, o1, o2]
    ring
  rw [candidate_energy cc, candidate_energy hx]
  have e : ∑ j ∈ Finset.range dim, ∑ i ∈ Finset.range q.times.length, pEnergy d (q.times.getD i 0) (pAt x j i) =
      ∑ j ∈ Finset.range dim, ∑ i ∈ Finset.range q.times.length, pEnergy d (q.times.getD i 0) (pAt (combineCurves h α β a b) j i + C 1 * E j i) :=
    Finset.sum_congr rfl fun j _ => Finset.sum_congr rfl fun i _ => by
      congr 1
      simp only [hEdef, C_1, one_mul]
      ring
  rw [e, sum_energy_add, hz]
  have hnn : 0 ≤ ∑ j ∈ Finset.range dim, ∑ i ∈ Finset.range q.times.length, pEnergy d (q.times.getD i 0) (E j i) :=
    Finset.sum_nonneg fun j _ => Finset.sum_nonneg fun i hi => pEnergy_nonneg d (by
      rw [List.getD_eq_getElem _ _ (Finset.mem_range.mp hi)]
      exact (hpos _ (List.getElem_mem _)).le) _
  linarith

end

/-- C173: the solution of a mission whose prescribed values are `α` times those of a first mission plus `β` times those of a second is, at every instant and in every
derivative, `α` times the solution of the first plus `β` times that of the second, in all cases in which the solution is unique. -/
theorem C173_sum {h dim : ℕ} (hdim : 0 < dim) (α β : ℝ) (solve solve1 solve2 : LinSolver ℝ) (hs : SolvesSystems solve) (hs1 : SolvesSystems solve1)
    (hs2 : SolvesSystems solve2) (q q1 q2 : Problem ℝ) (hc : Combines α β q1 q2 q) (ha : AcceptableProblem h dim q) (hw : ∀ v ∈ q.vertices, WellFormed v)
    (hw1 : ∀ v ∈ q1.vertices, WellFormed v) (hw2 : ∀ v ∈ q2.vertices, WellFormed v) (hg : ∀ v ∈ q.vertices, NoGaps q.derivative.toNat v)
    (hn : q.derivative.toNat ≤ (q.vertices.map (prescribedBelow q.derivative.toNat)).sum) (o o' o1 o1' o2 o2' : LinOpt h ℝ)
    (hh : LinHistory h dim solve (some q) o) (hh1 : LinHistory h dim solve1 (some q1) o1) (hh2 : LinHistory h dim solve2 (some q2) o2)
    (hu : o.solveLinear solve = .ok o') (hu1 : o1.solveLinear solve1 = .ok o1') (hu2 : o2.solveLinear solve2 = .ok o2') (tr tr1 tr2 : Trajectory ℝ)
    (htr : o'.getTrajectory = .ok tr) (htr1 : o1'.getTrajectory = .ok tr1) (htr2 : o2'.getTrajectory = .ok tr2) :
    tr1.segments.length = tr.segments.length ∧ tr2.segments.length = tr.segments.length ∧
    ∀ (i : ℕ) (s s1 s2 : Segment ℝ), tr.segments[i]? = some s → tr1.segments[i]? = some s1 → tr2.segments[i]? = some s2 →
      s1.time = s.time ∧ s2.time = s.time ∧ ∀ k t, segDeriv s k t = combine α β (segDeriv s1 k t) (segDeriv s2 k t) := by
  rw [setSegments_segments _ _ htr, setSegments_segments _ _ htr1, setSegments_segments _ _ htr2]
  obtain ⟨a0, _⟩ := cost_solved hdim hs hh hw hu
  obtain ⟨a1, _⟩ := cost_solved hdim hs1 hh1 hw1 hu1
  obtain ⟨a2, _⟩ := cost_solved hdim hs2 hh2 hw2 hu2
  have p0 := candidate_pieces a0.1
  have p1 := candidate_pieces a1.1
  have p2 := candidate_pieces a2.1
  have hpos : ∀ t ∈ q.times, 0 < t := fun t ht => lt_of_lt_of_le (by positivity) (ha.2.2.2.2 t ht)
  have hsame := C139_only ha hg hn _ _ a0 (combine_optimal hc hpos a1 a2)
  refine ⟨by rw [p1.length, p0.length, hc.times.1], by rw [p2.length, p0.length, hc.times.2], fun i s s1 s2 e0 e1 e2 => ⟨?_, ?_, fun k t => ?_⟩⟩
  · rw [(p1.time i s1 e1).1, (p0.time i s e0).1, hc.times.1]
  · rw [(p2.time i s2 e2).1, (p0.time i s e0).1, hc.times.2]
  · have hi : i < q.times.length := by
      rw [← p0.length]
      exact (List.getElem?_eq_some_iff.mp e0).1
    have l0 := (p0.time i s e0).2
    have l1 := (p1.time i s1 e1).2
    have l2 := (p2.time i s2 e2).2
    apply List.ext_getElem
    · simp [combine, segDeriv, l0, l1, l2]
    · intro j h1 h2
      have hj : j < dim := by simpa [segDeriv, l0] using h1
      obtain ⟨_, g0⟩ := List.getElem?_eq_some_iff.mp (segDeriv_at e0 (by rw [l0]; exact hj) k t)
      obtain ⟨_, g1⟩ := List.getElem?_eq_some_iff.mp (segDeriv_at e1 (by rw [l1]; exact hj) k t)
      obtain ⟨_, g2⟩ := List.getElem?_eq_some_iff.mp (segDeriv_at e2 (by rw [l2]; exact hj) k t)
      simp only [combine, List.getElem_zipWith]
      rw [g0, g1, g2, ← sameCurve_pAt hsame e0 (by rw [l0]; exact hj)]
      unfold combineCurves
      rw [addTo_pAt a1.1 (combine_below a1.1 a2.1) (by rw [hc.times.1]; exact hi) hj, iterate_map_add, iterate_map_add, iterate_derivative_C_mul, iterate_derivative_C_mul]
      simp only [eval_add, eval_mul, eval_C]
      ring

/-- C173: a move of prescribed values changes the solution in the same way whatever the other prescribed values are. The move is given as a mission `m` of the same form, whose
values are the differences; `q'` is `q` moved by `β` times `m` and `r'` is `r` moved by `β'` times `m`: the changes of the solutions have the ratio of `β` to `β'`. -/
theorem C173_move {h dim : ℕ} (hdim : 0 < dim) (hN : h + h ≤ 22) (β β' : ℝ) (solve : LinSolver ℝ) (hs : SolvesSystems solve) (q q' r r' m : Problem ℝ)
    (hq : Combines 1 β q m q') (hr : Combines 1 β' r m r') (haq : AcceptableProblem h dim q') (har : AcceptableProblem h dim r') (ham : AcceptableProblem h dim m)
    (wq : ∀ v ∈ q.vertices, WellFormed v) (wq' : ∀ v ∈ q'.vertices, WellFormed v) (wr : ∀ v ∈ r.vertices, WellFormed v) (wr' : ∀ v ∈ r'.vertices, WellFormed v)
    (wm : ∀ v ∈ m.vertices, WellFormed v) (hne : m.times ≠ [])
    (gq : ∀ v ∈ q'.vertices, NoGaps q'.derivative.toNat v) (nq : q'.derivative.toNat ≤ (q'.vertices.map (prescribedBelow q'.derivative.toNat)).sum)
    (gr : ∀ v ∈ r'.vertices, NoGaps r'.derivative.toNat v) (nr : r'.derivative.toNat ≤ (r'.vertices.map (prescribedBelow r'.derivative.toNat)).sum)
    (o1 u1 o2 u2 o3 u3 o4 u4 : LinOpt h ℝ) (h1 : LinHistory h dim solve (some q) o1) (h2 : LinHistory h dim solve (some q') o2)
    (h3 : LinHistory h dim solve (some r) o3) (h4 : LinHistory h dim solve (some r') o4) (e1 : o1.solveLinear solve = .ok u1) (e2 : o2.solveLinear solve = .ok u2)
    (e3 : o3.solveLinear solve = .ok u3) (e4 : o4.solveLinear solve = .ok u4) (tr1 tr2 tr3 tr4 : Trajectory ℝ) (g1 : u1.getTrajectory = .ok tr1)
    (g2 : u2.getTrajectory = .ok tr2) (g3 : u3.getTrajectory = .ok tr3) (g4 : u4.getTrajectory = .ok tr4) (i : ℕ) (s1 s2 s3 s4 : Segment ℝ)
    (i1 : tr1.segments[i]? = some s1) (i2 : tr2.segments[i]? = some s2) (i3 : tr3.segments[i]? = some s3) (i4 : tr4.segments[i]? = some s4) (k : ℕ) (t : ℝ) :
    combine β' (-β') (segDeriv s2 k t) (segDeriv s1 k t) = combine β (-β) (segDeriv s4 k t) (segDeriv s3 k t) := by
  obtain ⟨o, o', tr, h5, e5, g5⟩ := C28_solves (solve := solve) m hN wm ham hne
  obtain ⟨_, lq, cq⟩ := C173_sum hdim 1 β solve solve solve hs hs hs q' q m hq haq wq' wq wm gq nq o2 u2 o1 u1 o o' h2 h1 h5 e2 e1 e5 tr2 tr1 tr g2 g1 g5
  obtain ⟨_, _, cr⟩ := C173_sum hdim 1 β' solve solve solve hs hs hs r' r m hr har wr' wr wm gr nr o4 u4 o3 u3 o o' h4 h3 h5 e4 e3 e5 tr4 tr3 tr g4 g3 g5
  have hi : i < tr.segments.length := by
    rw [lq]
    exact (List.getElem?_eq_some_iff.mp i2).1
  have i5 : tr.segments[i]? = some tr.segments[i] := List.getElem?_eq_getElem hi
  have c1 := (cq i _ _ _ i2 i1 i5).2.2 k t
  have c2 := (cr i _ _ _ i4 i3 i5).2.2 k t
  have dims : ∀ {q : Problem ℝ} {o u : LinOpt h ℝ} {tr : Trajectory ℝ} {s : Segment ℝ}, (∀ v ∈ q.vertices, WellFormed v) → LinHistory h dim solve (some q) o →
      o.solveLinear solve = .ok u → u.getTrajectory = .ok tr → tr.segments[i]? = some s → (segDeriv s k t).length = dim := by
    intro q o u tr s hw hh hu htr hi
    obtain ⟨a, _⟩ := cost_solved hdim hs hh hw hu
    rw [setSegments_segments _ _ htr] at hi
    simp [segDeriv, a.1.dims s (List.mem_of_getElem? hi)]
  have l1 := dims wq h1 e1 g1 i1
  have l3 := dims wr h3 e3 g3 i3
  have l5 := dims wm h5 e5 g5 i5
  rw [c1, c2]
  apply List.ext_getElem
  · simp [combine, l1, l3, l5]
  · intro j _ _
    simp only [combine, List.getElem_zipWith]
    ring

/-- A mission of the form of `realProblem` with another waypoint and another goal. -/
noncomputable def wayProblem (m g : ℝ × ℝ × ℝ) : Problem ℝ :=
  ⟨[⟨3, [(0, [0, 0, 0]), (1, [0, 0, 0])]⟩, ⟨3, [(0, [m.1, m.2.1, m.2.2])]⟩, ⟨3, [(0, [g.1, g.2.1, g.2.2]), (1, [0, 0, 0])]⟩], [2, 3], 4⟩

theorem wayProblem_wellFormed (m g : ℝ × ℝ × ℝ) : ∀ v ∈ (wayProblem m g).vertices, WellFormed v := by
  intro v hv
  simp only [wayProblem, List.mem_cons, List.not_mem_nil, or_false] at hv
  rcases hv with rfl | rfl | rfl <;> refine ⟨?_, ?_⟩ <;> simp

theorem wayProblem_acceptable (m g : ℝ × ℝ × ℝ) : AcceptableProblem 5 3 (wayProblem m g) := by
  refine ⟨by norm_num [wayProblem], by norm_num [wayProblem], rfl, ?_, realProblem_acceptable.2.2.2.2⟩
  intro v hv k c _ hc
  have hw := wayProblem_wellFormed m g v hv
  have := hw.2 _ ((IntMap.find_some_iff _ hw.1 k c).mp hc)
  simp only [wayProblem, List.mem_cons, List.not_mem_nil, or_false] at hv
  rcases hv with rfl | rfl | rfl <;> exact this

theorem wayProblem_combines (α β : ℝ) (m g m' g' : ℝ × ℝ × ℝ) : Combines α β (wayProblem m g) (wayProblem m' g')
    (wayProblem (α * m.1 + β * m'.1, α * m.2.1 + β * m'.2.1, α * m.2.2 + β * m'.2.2) (α * g.1 + β * g'.1, α * g.2.1 + β * g'.2.1, α * g.2.2 + β * g'.2.2)) := by
  refine ⟨⟨rfl, rfl⟩, ⟨rfl, rfl⟩, ⟨rfl, rfl⟩, ?_⟩
  intro i v1 v2 v h1 h2 h k
  have zero : ([0, 0, 0] : List ℝ) = combine α β [0, 0, 0] [0, 0, 0] := by simp [combine]
  rcases i with _ | _ | _ | i
  · cases h1; cases h2; cases h
    rcases k with _ | _ | k
    · exact .inr ⟨_, _, rfl, rfl, congrArg some zero⟩
    · exact .inr ⟨_, _, rfl, rfl, congrArg some zero⟩
    · exact .inl ⟨rfl, rfl, rfl⟩
  · cases h1; cases h2; cases h
    rcases k with _ | k
    · exact .inr ⟨_, _, rfl, rfl, rfl⟩
    · exact .inl ⟨rfl, rfl, rfl⟩
  · cases h1; cases h2; cases h
    rcases k with _ | _ | k
    · exact .inr ⟨_, _, rfl, rfl, rfl⟩
    · exact .inr ⟨_, _, rfl, rfl, congrArg some zero⟩
    · exact .inl ⟨rfl, rfl, rfl⟩
  · simp [wayProblem] at h

/-- The hypotheses are met: the waypoint of `realProblem` moved upwards by twice a unit. -/
example : ∃ (o o' o1 o1' o2 o2' : LinOpt 5 ℝ) (tr tr1 tr2 : Trajectory ℝ),
    LinHistory 5 3 exactSolver (some (wayProblem (1, 2, 5) (4, 5, 6))) o ∧ LinHistory 5 3 exactSolver (some (wayProblem (1, 2, 3) (4, 5, 6))) o1 ∧
    LinHistory 5 3 exactSolver (some (wayProblem (0, 0, 1) (0, 0, 0))) o2 ∧ o.solveLinear exactSolver = .ok o' ∧ o1.solveLinear exactSolver = .ok o1' ∧
    o2.solveLinear exactSolver = .ok o2' ∧ o'.getTrajectory = .ok tr ∧ o1'.getTrajectory = .ok tr1 ∧ o2'.getTrajectory = .ok tr2 ∧
    ∀ (i : ℕ) (s s1 s2 : Segment ℝ), tr.segments[i]? = some s → tr1.segments[i]? = some s1 → tr2.segments[i]? = some s2 →
      ∀ k t, segDeriv s k t = combine 1 2 (segDeriv s1 k t) (segDeriv s2 k t) := by
  have hc : Combines 1 2 (wayProblem (1, 2, 3) (4, 5, 6)) (wayProblem (0, 0, 1) (0, 0, 0)) (wayProblem (1, 2, 5) (4, 5, 6)) := by
    have := wayProblem_combines 1 2 (1, 2, 3) (4, 5, 6) (0, 0, 1) (0, 0, 0)
    norm_num at this
    exact this
  have hg : ∀ v ∈ (wayProblem (1, 2, 5) (4, 5, 6)).vertices, NoGaps 4 v := by
    intro v hv
    simp only [wayProblem, List.mem_cons, List.not_mem_nil, or_false] at hv
    intro k k' hk hk' hs
    rcases hv with rfl | rfl | rfl <;> interval_cases k' <;> interval_cases k <;> first | rfl | exact hs
  have hn : ((wayProblem (1, 2, 5) (4, 5, 6)).vertices.map (prescribedBelow 4)).sum = 5 := rfl
  obtain ⟨o, o', tr, h1, h2, h3⟩ := C28_solves (solve := exactSolver) (wayProblem (1, 2, 5) (4, 5, 6)) (by omega) (wayProblem_wellFormed _ _) (wayProblem_acceptable _ _)
    (by simp [wayProblem])
  obtain ⟨o1, o1', tr1, g1, g2, g3⟩ := C28_solves (solve := exactSolver) (wayProblem (1, 2, 3) (4, 5, 6)) (by omega) (wayProblem_wellFormed _ _) (wayProblem_acceptable _ _)
    (by simp [wayProblem])
  obtain ⟨o2, o2', tr2, f1, f2, f3⟩ := C28_solves (solve := exactSolver) (wayProblem (0, 0, 1) (0, 0, 0)) (by omega) (wayProblem_wellFormed _ _) (wayProblem_acceptable _ _)
    (by simp [wayProblem])
  have := C173_sum (by omega) 1 2 _ _ _ exactSolver_solves exactSolver_solves exactSolver_solves _ _ _ hc (wayProblem_acceptable _ _) (wayProblem_wellFormed _ _)
    (wayProblem_wellFormed _ _) (wayProblem_wellFormed _ _) hg (le_trans (show (4 : ℕ) ≤ 5 by norm_num) (le_of_eq hn.symm)) _ _ _ _ _ _ h1 g1 f1 h2 g2 f2 _ _ _ h3 g3 f3
  exact ⟨o, o', o1, o1', o2, o2', tr, tr1, tr2, h1, g1, f1, h2, g2, f2, h3, g3, f3, fun i s s1 s2 e0 e1 e2 => (this.2.2 i s s1 s2 e0 e1 e2).2.2⟩

theorem wayProblem_enough (m g : ℝ × ℝ × ℝ) : (∀ v ∈ (wayProblem m g).vertices, NoGaps 4 v) ∧
    (4 : ℕ) ≤ ((wayProblem m g).vertices.map (prescribedBelow 4)).sum := by
  constructor
  · intro v hv
    simp only [wayProblem, List.mem_cons, List.not_mem_nil, or_false] at hv
    intro k k' hk hk' hs
    rcases hv with rfl | rfl | rfl <;> interval_cases k' <;> interval_cases k <;> first | rfl | exact hs
  · have : ((wayProblem m g).vertices.map (prescribedBelow 4)).sum = 5 := rfl
    rw [this]
    norm_num

/-- The hypotheses are met: in two missions with different goals the waypoint is moved upwards, by two units and by three. -/
example : ∃ (o1 u1 o2 u2 o3 u3 o4 u4 : LinOpt 5 ℝ) (tr1 tr2 tr3 tr4 : Trajectory ℝ),
    LinHistory 5 3 exactSolver (some (wayProblem (1, 2, 3) (4, 5, 6))) o1 ∧ LinHistory 5 3 exactSolver (some (wayProblem (1, 2, 5) (4, 5, 6))) o2 ∧
    LinHistory 5 3 exactSolver (some (wayProblem (7, 0, 1) (9, 9, 9))) o3 ∧ LinHistory 5 3 exactSolver (some (wayProblem (7, 0, 4) (9, 9, 9))) o4 ∧
    o1.solveLinear exactSolver = .ok u1 ∧ o2.solveLinear exactSolver = .ok u2 ∧ o3.solveLinear exactSolver = .ok u3 ∧ o4.solveLinear exactSolver = .ok u4 ∧
    u1.getTrajectory = .ok tr1 ∧ u2.getTrajectory = .ok tr2 ∧ u3.getTrajectory = .ok tr3 ∧ u4.getTrajectory = .ok tr4 ∧
    ∀ (i : ℕ) (s1 s2 s3 s4 : Segment ℝ), tr1.segments[i]? = some s1 → tr2.segments[i]? = some s2 → tr3.segments[i]? = some s3 → tr4.segments[i]? = some s4 →
      ∀ k t, combine 3 (-3) (segDeriv s2 k t) (segDeriv s1 k t) = combine 2 (-2) (segDeriv s4 k t) (segDeriv s3 k t) := by
  have hq : Combines 1 2 (wayProblem (1, 2, 3) (4, 5, 6)) (wayProblem (0, 0, 1) (0, 0, 0)) (wayProblem (1, 2, 5) (4, 5, 6)) := by
    have := wayProblem_combines 1 2 (1, 2, 3) (4, 5, 6) (0, 0, 1) (0, 0, 0)
    norm_num at this
    exact this
  have hr : Combines 1 3 (wayProblem (7, 0, 1) (9, 9, 9)) (wayProblem (0, 0, 1) (0, 0, 0)) (wayProblem (7, 0, 4) (9, 9, 9)) := by
    have := wayProblem_combines 1 3 (7, 0, 1) (9, 9, 9) (0, 0, 1) (0, 0, 0)
    norm_num at this
    exact this
  have sol := fun m g => C28_solves (solve := exactSolver) (wayProblem m g) (by omega) (wayProblem_wellFormed m g) (wayProblem_acceptable m g) (by simp [wayProblem])
  obtain ⟨o1, u1, tr1, a1, b1, c1⟩ := sol (1, 2, 3) (4, 5, 6)
  obtain ⟨o2, u2, tr2, a2, b2, c2⟩ := sol (1, 2, 5) (4, 5, 6)
  obtain ⟨o3, u3, tr3, a3, b3, c3⟩ := sol (7, 0, 1) (9, 9, 9)
  obtain ⟨o4, u4, tr4, a4, b4, c4⟩ := sol (7, 0, 4) (9, 9, 9)
  exact ⟨o1, u1, o2, u2, o3, u3, o4, u4, tr1, tr2, tr3, tr4, a1, a2, a3, a4, b1, b2, b3, b4, c1, c2, c3, c4, fun i s1 s2 s3 s4 i1 i2 i3 i4 k t =>
    C173_move (by omega) (by omega) 2 3 exactSolver exactSolver_solves _ _ _ _ _ hq hr (wayProblem_acceptable _ _) (wayProblem_acceptable _ _) (wayProblem_acceptable _ _)
      (wayProblem_wellFormed _ _) (wayProblem_wellFormed _ _) (wayProblem_wellFormed _ _) (wayProblem_wellFormed _ _) (wayProblem_wellFormed _ _) (by simp [wayProblem])
      (wayProblem_enough _ _).1 (wayProblem_enough _ _).2 (wayProblem_enough _ _).1 (wayProblem_enough _ _).2 _ _ _ _ _ _ _ _ a1 a2 a3 a4 b1 b2 b3 b4 _ _ _ _ c1 c2 c3 c4
      i s1 s2 s3 s4 i1 i2 i3 i4 k t⟩

end Verif.Properties
