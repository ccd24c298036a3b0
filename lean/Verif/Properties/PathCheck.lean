import Verif.Model.PathCheck
import Verif.Spec.PathCheck
import Verif.Properties.LinearOpt
import Verif.Properties.Print

/-!
# C168: the checks of the tests accept what they should
-/

namespace Verif.Properties

set_option linter.unusedSectionVars false

open Verif Verif.Spec Verif.Lemmas Verif.LinOpt Verif.PathCheck

section
variable {K : Type} [Field K] [LinearOrder K] [IsStrictOrderedRing K]

theorem near_iff (tol : K) (a b : List K) : near tol a b = true ↔ NearBy tol a b := by
  unfold near NearBy
  induction a generalizing b with
  | nil => cases b <;> simp
  | cons x a ih =>
    cases b with
    | nil => simp
    | cons y b =>
      have := ih b
      simp only [List.length_cons, List.zipWith_cons_cons, List.all_cons, List.forall₂_cons, Bool.and_eq_true, decide_eq_true_eq, id] at this ⊢
      rw [← this]
      constructor
      · rintro ⟨h1, h2, h3⟩; exact ⟨h2, by omega, h3⟩
      · rintro ⟨h1, h2, h3⟩; exact ⟨by omega, h1, h3⟩

/-- A loop of checks none of which aborts. -/
theorem checks_mapM {α : Type*} (f : α → Res Bool) (P : α → Prop) (l : List α) (h : ∀ x ∈ l, ∃ b, f x = .ok b ∧ (b = true ↔ P x)) :
    ∃ bs, l.mapM f = .ok bs ∧ (bs.all id = true ↔ ∀ x ∈ l, P x) := by
  induction l with
  | nil => exact ⟨[], rfl, by simp⟩
  | cons x l ih =>
    obtain ⟨b, e1, e2⟩ := h x List.mem_cons_self
    obtain ⟨bs, e3, e4⟩ := ih fun y hy => h y (List.mem_cons_of_mem _ hy)
    refine ⟨b :: bs, ?_, ?_⟩
    · rw [List.mapM_cons, e1, e3]
      rfl
    · rw [List.all_cons, Bool.and_eq_true, e4, List.forall_mem_cons]
      exact and_congr_left fun _ => e2

theorem print_ok (s : Segment K) (hs : Regular s) (k : ℕ) (hk : k < s.N) : ∃ text, Print.printSegment (fun _ _ => []) 6 s (k : Int) = .ok text := by
  obtain ⟨rows, e, _⟩ := segment_text (num := fun _ _ => []) s hs 6 k hk
  exact ⟨_, e⟩

theorem checkFixed_ok (tol : K) (s : Segment K) (hs : Regular s) (t : K) (x : Int × List K) (h0 : 0 ≤ x.1) (h1 : x.1 < s.N) :
    ∃ b, checkFixed tol s t x = .ok b ∧ (b = true ↔ NearBy tol x.2 (segDeriv s x.1.toNat t)) := by
  obtain ⟨k, c⟩ := x
  obtain ⟨k, rfl⟩ := Int.eq_ofNat_of_zero_le h0
  obtain ⟨text, e⟩ := print_ok s hs k (by simpa using h1)
  refine ⟨near tol c (segDeriv s k t), ?_, near_iff _ _ _⟩
  unfold checkFixed evaluateInt
  rw [if_neg (by simp), Int.toNat_natCast, segment_evaluate_eq s t k fun p hp => by rw [hs.1 p hp]; exact hs.2, e]
  rfl

theorem checkJoint_ok (tol : K) (l s : Segment K) (hl : Regular l) (hs : Regular s) (k : ℕ) (hk : k < s.N) :
    ∃ b, checkJoint tol l s k = .ok b ∧ (b = true ↔ NearBy tol (segDeriv l k l.time) (segDeriv s k 0)) := by
  obtain ⟨text, e⟩ := print_ok s hs k hk
  refine ⟨near tol (segDeriv l k l.time) (segDeriv s k 0), ?_, near_iff _ _ _⟩
  unfold checkJoint
  rw [segment_evaluate_eq l _ k fun p hp => by rw [hl.1 p hp]; exact hl.2, segment_evaluate_eq s _ k fun p hp => by rw [hs.1 p hp]; exact hs.2, e]
  rfl

/-- C168: of segments with `N` coefficients and vertices whose constraints have orders below `N`, one vertex more than segments, `checkPath` gives a verdict, and it is
that the segments lead from vertex to vertex and join in the derivatives of orders below `N / 2`, up to the tolerance. -/
theorem C168_path (N : ℕ) (hN : 0 < N) (tol : K) (vs : List (Vertex K)) (segs : List (Segment K)) (hs : ∀ s ∈ segs, Regular s ∧ s.N = N)
    (hw : ∀ v ∈ vs, WellFormed v) (ho : ∀ v ∈ vs, ∀ x ∈ v.constraints, 0 ≤ x.1 ∧ x.1 < N) (hl : vs.length = segs.length + 1) :
    ∃ b, checkPath N tol vs segs = .ok b ∧ (b = true ↔ FollowsPath (N / 2) tol vs segs) := by
  let P : ℕ → Prop := fun i =>
    (∀ v s, vs[i]? = some v → segs[i]? = some s → ∀ x ∈ v.constraints, NearBy tol x.2 (segDeriv s x.1.toNat 0)) ∧
    (∀ v s, vs[i + 1]? = some v → segs[i]? = some s → ∀ x ∈ v.constraints, NearBy tol x.2 (segDeriv s x.1.toNat s.time)) ∧
    (0 < i → ∀ l s, segs[i - 1]? = some l → segs[i]? = some s → ∀ k < N / 2, NearBy tol (segDeriv l k l.time) (segDeriv s k 0))
  obtain ⟨rs, e1, e2⟩ := checks_mapM (checkSegment N tol vs segs) P (List.range segs.length) (by
    intro i hi
    have hi := List.mem_range.mp hi
    have g1 : vs[i]? = some vs[i] := List.getElem?_eq_getElem (by omega)
    have g2 : vs[i + 1]? = some vs[i + 1] := List.getElem?_eq_getElem (by omega)
    have g3 : segs[i]? = some segs[i] := List.getElem?_eq_getElem hi
    have r3 := hs _ (List.mem_of_getElem? g3)
    obtain ⟨a, a1, a2⟩ := checks_mapM (checkFixed tol segs[i] 0) (fun x => NearBy tol x.2 (segDeriv segs[i] x.1.toNat 0)) vs[i].constraints
      fun x hx => checkFixed_ok tol _ r3.1 0 x (ho _ (List.mem_of_getElem? g1) x hx).1 (by rw [r3.2]; exact (ho _ (List.mem_of_getElem? g1) x hx).2)
    obtain ⟨b, b1, b2⟩ := checks_mapM (checkFixed tol segs[i] segs[i].time) (fun x => NearBy tol x.2 (segDeriv segs[i] x.1.toNat segs[i].time)) vs[i + 1].constraints
      fun x hx => checkFixed_ok tol _ r3.1 _ x (ho _ (List.mem_of_getElem? g2) x hx).1 (by rw [r3.2]; exact (ho _ (List.mem_of_getElem? g2) x hx).2)
    have hc : ∃ c : List Bool, checkJoints N tol segs segs[i] i = .ok c ∧ (c.all id = true ↔
        (0 < i → ∀ l s, segs[i - 1]? = some l → segs[i]? = some s → ∀ k < N / 2, NearBy tol (segDeriv l k l.time) (segDeriv s k 0))) := by
      by_cases h0 : 0 < i
      · have g4 : segs[i - 1]? = some segs[i - 1] := List.getElem?_eq_getElem (by omega)
        have r4 := hs _ (List.mem_of_getElem? g4)
        obtain ⟨c, c1, c2⟩ := checks_mapM (checkJoint tol segs[i - 1] segs[i])
          (fun k => NearBy tol (segDeriv segs[i - 1] k segs[i - 1].time) (segDeriv segs[i] k 0)) (List.range (N / 2))
          fun k hk => checkJoint_ok tol _ _ r4.1 r3.1 k (by have := List.mem_range.mp hk; rw [r3.2]; omega)
        refine ⟨c, ?_, ?_⟩
        · unfold checkJoints at?
          rw [if_pos h0, g4]
          exact c1
        · rw [c2]
          constructor
          · intro h _ l s hl' hs' k hk
            rw [g4] at hl'
            rw [g3] at hs'
            cases hl'
            cases hs'
            exact h k (List.mem_range.mpr hk)
          · intro h k hk
            exact h h0 _ _ g4 g3 k (List.mem_range.mp hk)
      · exact ⟨[], by unfold checkJoints; rw [if_neg h0], by simp [h0]⟩
    obtain ⟨c, c1, c2⟩ := hc
    refine ⟨(a ++ b ++ c).all id, ?_, ?_⟩
    · unfold checkSegment at?
      rw [g1, g2, g3]
      change (do
        let a ← vs[i].constraints.mapM (checkFixed tol segs[i] 0)
        let b ← vs[i + 1].constraints.mapM (checkFixed tol segs[i] segs[i].time)
        let c ← checkJoints N tol segs segs[i] i
        return (a ++ b ++ c).all id) = _
      rw [a1, b1, c1]
      rfl
    · rw [List.all_append, List.all_append, Bool.and_eq_true, Bool.and_eq_true, a2, b2, c2, and_assoc]
      refine and_congr ?_ (and_congr ?_ Iff.rfl)
      · constructor
        · intro h v s hv hs'
          rw [g1] at hv
          rw [g3] at hs'
          cases hv
          cases hs'
          exact h
        · exact fun h => h _ _ g1 g3
      · constructor
        · intro h v s hv hs'
          rw [g2] at hv
          rw [g3] at hs'
          cases hv
          cases hs'
          exact h
        · exact fun h => h _ _ g2 g3)
  refine ⟨decide (segs.length + 1 = vs.length) && rs.all id, ?_, ?_⟩
  · unfold checkPath
    rw [e1]
    rfl
  · rw [Bool.and_eq_true, e2, decide_eq_true_eq]
    constructor
    · rintro ⟨_, h⟩
      refine ⟨hl, ?_, ?_, ?_⟩
      · intro i s v k c hsi hvi hc
        have hi := (List.getElem?_eq_some_iff.mp hsi).1
        have hm := (represents_getConstraint v (hw v (List.mem_of_getElem? hvi)) k c).mpr hc
        exact (h i (List.mem_range.mpr hi)).1 v s hvi hsi _ hm
      · intro i s v k c hsi hvi hc
        have hi := (List.getElem?_eq_some_iff.mp hsi).1
        have hm := (represents_getConstraint v (hw v (List.mem_of_getElem? hvi)) k c).mpr hc
        exact (h i (List.mem_range.mpr hi)).2.1 v s hvi hsi _ hm
      · intro i s s' hsi hsi' k hk
        have hi := (List.getElem?_eq_some_iff.mp hsi').1
        exact (h (i + 1) (List.mem_range.mpr hi)).2.2 (by omega) s s' hsi hsi' k hk
    · intro h
      refine ⟨hl.symm, fun i hi => ⟨?_, ?_, ?_⟩⟩
      · intro v s hv hs' x hx
        have h0 := (ho v (List.mem_of_getElem? hv) x hx).1
        have hm := (represents_getConstraint v (hw v (List.mem_of_getElem? hv)) x.1 x.2).mp hx
        exact h.start i s v x.1.toNat x.2 hs' hv (by rw [Int.toNat_of_nonneg h0]; exact hm)
      · intro v s hv hs' x hx
        have h0 := (ho v (List.mem_of_getElem? hv) x hx).1
        have hm := (represents_getConstraint v (hw v (List.mem_of_getElem? hv)) x.1 x.2).mp hx
        exact h.arrival i s v x.1.toNat x.2 hs' hv (by rw [Int.toNat_of_nonneg h0]; exact hm)
      · intro h0 l s hl' hs' k hk
        exact h.joints (i - 1) l s hl' (by rw [Nat.sub_add_cancel h0]; exact hs') k hk

theorem nearBy_refl (tol : K) (ht : 0 ≤ tol) (a : List K) : NearBy tol a a := by
  unfold NearBy
  induction a with
  | nil => exact .nil
  | cons x a ih => exact .cons (by simpa using ht) ih

/-- C168: every answer of the optimiser to vertices with constraints of the orders it handles passes `checkPath`, whatever the tolerance and whatever the object was
used for before. -/
theorem C168_solution {h dim : ℕ} {solve : LinSolver K} (h0 : 0 < h) (hN : h + h ≤ 22) (q : Problem K) (o o' : LinOpt h K) (hh : LinHistory h dim solve (some q) o)
    (hw : ∀ v ∈ q.vertices, WellFormed v) (ho : ∀ v ∈ q.vertices, ∀ x ∈ v.constraints, 0 ≤ x.1 ∧ x.1 < h)
    (hu : (∃ values, o.setFreeConstraints values = .ok o') ∨ o.solveLinear solve = .ok o') (tr : Trajectory K) (htr : o'.getTrajectory = .ok tr) (tol : K)
    (ht : 0 ≤ tol) : checkPath (h + h) tol q.vertices tr.segments = .ok true := by
  have hi := (inv_history dim solve _ o hh).2 q rfl
  obtain ⟨free, _, _, hl, hlen, hs⟩ := solved_spec dim q solve o o' hi hu
  obtain ⟨e1, _, hm⟩ := C23_constraints q o o' hh hw hu tr htr
  have hsm := C24_smooth q o o' hh hu tr htr
  have es := setSegments_segments _ _ htr
  have hshape : ∀ s ∈ tr.segments, SegShape h dim s := by
    intro s hm
    rw [es] at hm
    obtain ⟨i, hi⟩ := List.mem_iff_getElem?.mp hm
    exact (hs i s hi).1
  have hvl : q.vertices.length = tr.segments.length + 1 := by
    rw [e1, ← (C28_kept q o hh hw).1, hi.vertices_length]
  obtain ⟨b, b1, b2⟩ := C168_path (h + h) (by omega) tol q.vertices tr.segments
    (fun s hs => ⟨⟨fun p hp => by rw [(hshape s hs).2.2 p hp, (hshape s hs).1], by rw [(hshape s hs).1]; exact hN⟩, (hshape s hs).1⟩) hw
    (fun v hv x hx => ⟨(ho v hv x hx).1, by have := (ho v hv x hx).2; push_cast; omega⟩) hvl
  rw [b1]
  congr 1
  have hk : ∀ v ∈ q.vertices, ∀ (k : ℕ) (c : List K), v.getConstraint k = some c → k < h := by
    intro v hv k c hc
    have := (ho v hv _ ((represents_getConstraint v (hw v hv) k c).mpr hc)).2
    simpa using this
  refine b2.mpr ⟨hvl, ?_, ?_, ?_⟩
  · intro i s v k c hsi hvi hc
    rw [((hm i s hsi k c (hk v (List.mem_of_getElem? hvi) k c hc)).1 v hvi hc)]
    exact nearBy_refl tol ht _
  · intro i s v k c hsi hvi hc
    rw [((hm i s hsi k c (hk v (List.mem_of_getElem? hvi) k c hc)).2 v hvi hc)]
    exact nearBy_refl tol ht _
  · intro i s s' hsi hsi' k hk
    rw [hsm i s s' hsi hsi' k (by omega)]
    exact nearBy_refl tol ht _

/-- C168: `checkExtrema` accepts exactly if every value tested is less than the tolerance away from some value of the reference. -/
theorem C168_extrema (testee reference : List K) (tol : K) : checkExtrema testee reference tol = true ↔ ∀ t ∈ testee, ∃ r ∈ reference, |t - r| < tol := by
  simp [checkExtrema]

end

/-! ## The hypotheses are met -/

/-- Three vertices, the one in the middle with a position and a velocity. -/
def legalProblem : Problem ℚ where
  vertices :=
    [⟨3, [(0, [0, 0, 0]), (1, [0, 0, 0]), (2, [0, 0, 0])]⟩, ⟨3, [(0, [1, 2, 3]), (1, [1, 1, 1])]⟩,
      ⟨3, [(0, [4, 0, 1]), (1, [0, 0, 0]), (2, [0, 0, 0])]⟩]
  times := [2, 3 / 2]
  derivative := 2

theorem legalProblem_wellFormed : ∀ v ∈ legalProblem.vertices, WellFormed v := by
  unfold WellFormed
  decide +kernel

theorem legalProblem_acceptable : AcceptableProblem 5 3 legalProblem := by
  refine ⟨by decide, by decide, rfl, ?_, by decide +kernel⟩
  intro v hv k c _ hc
  have hw := legalProblem_wellFormed v hv
  have := hw.2 _ ((IntMap.find_some_iff _ hw.1 k c).mp hc)
  have hD : ∀ v ∈ legalProblem.vertices, v.D = 3 := by decide +kernel
  rw [← hD v hv]
  exact this

/-- It is solved, and the solution passes the check of the tests with their tolerance. -/
example (solve : LinSolver ℚ) : ∃ (o o' : LinOpt 5 ℚ) (tr : Trajectory ℚ), LinHistory 5 3 solve (some legalProblem) o ∧ o.solveLinear solve = .ok o' ∧ o'.getTrajectory = .ok tr ∧
    checkPath 10 (1 / 10 ^ 6) legalProblem.vertices tr.segments = .ok true := by
  obtain ⟨o, o', tr, hh, hs, htr⟩ := C28_solves (solve := solve) legalProblem (by omega) legalProblem_wellFormed legalProblem_acceptable (by decide)
  exact ⟨o, o', tr, hh, hs, htr, C168_solution (by omega) (by omega) legalProblem o o' hh legalProblem_wellFormed (by decide +kernel) (.inr hs) tr htr _
    (by norm_num)⟩

/-- Two segments on a line that meet at the second vertex, the second with another velocity: rejected. -/
example : checkPath (K := ℚ) 2 (1 / 10 ^ 6) [⟨1, [(0, [0])]⟩, ⟨1, [(0, [1])]⟩, ⟨1, [(0, [2])]⟩] [⟨2, 1, [[0, 1]]⟩, ⟨2, 1, [[1, 1]]⟩] = .ok true ∧
    checkPath (K := ℚ) 4 (1 / 10 ^ 6) [⟨1, [(0, [0])]⟩, ⟨1, [(0, [1])]⟩, ⟨1, [(0, [3])]⟩] [⟨4, 1, [[0, 1, 0, 0]]⟩, ⟨4, 1, [[1, 2, 0, 0]]⟩] = .ok false ∧
    checkPath (K := ℚ) 2 (1 / 10 ^ 6) [⟨1, [(0, [0])]⟩, ⟨1, [(2, [1])]⟩] [⟨2, 1, [[0, 1]]⟩] = .error .check ∧
    checkPath (K := ℚ) 2 (1 / 10 ^ 6) [⟨1, [(0, [0])]⟩] [⟨2, 1, [[0, 1]]⟩] = .error .ub := by decide +kernel

/-- Extrema that match, and one that does not. -/
example : checkExtrema (K := ℚ) [1, 2] [2, 1 + 1 / 1000, 5] (1 / 100) = true ∧ checkExtrema (K := ℚ) [1, 3] [2, 1, 5] (1 / 100) = false := by decide +kernel

end Verif.Properties
