import Verif.Lemmas.OptimumRest
import Verif.Properties.Vertex

/-!
# C163: a mission taken up at one of its vertices goes on as planned
-/

namespace Verif.Properties

open Verif Verif.Spec Verif.Lemmas Verif.LinOpt

theorem prescribed_all {d : ℕ} {v : Vertex ℝ} (hv : PrescribesAll d v) : prescribedBelow d v = d := by
  unfold prescribedBelow
  rw [List.filter_eq_self.mpr fun j hj => hv j (List.mem_range.mp hj), List.length_range]

theorem begins_all {h : ℕ} {st : Vertex ℝ} {s : Segment ℝ} (hst : BeginsAt h st s) : PrescribesAll h st := fun j hj => by
  rw [hst j hj]; rfl

theorem all_noGaps {d h : ℕ} {v : Vertex ℝ} (hd : d ≤ h) (hv : PrescribesAll h v) : NoGaps d v := fun k k' hk hk' _ => hv k (by omega)

theorem rest_acceptable {h dim k : ℕ} {q : Problem ℝ} {st : Vertex ℝ} (ha : AcceptableProblem h dim q) (hk : k < q.times.length)
    (hD : ∀ (j : Int) (c : List ℝ), j < h → st.getConstraint j = some c → c.length = dim) : AcceptableProblem h dim (restOf k st q) := by
  obtain ⟨a1, a2, a3, a4, a5⟩ := ha
  refine ⟨a1, a2, ?_, ?_, fun t ht => a5 t (List.mem_of_mem_drop ht)⟩
  · simp only [restOf, List.length_cons, List.length_drop]
    omega
  · intro v hv j c hj hc
    rcases List.mem_cons.mp hv with rfl | hv
    · exact hD j c hj hc
    · exact a4 v (List.mem_of_mem_drop hv) j c hj hc

theorem upTo_acceptable {h dim k : ℕ} {q : Problem ℝ} {st : Vertex ℝ} (ha : AcceptableProblem h dim q) (hk : k < q.times.length)
    (hD : ∀ (j : Int) (c : List ℝ), j < h → st.getConstraint j = some c → c.length = dim) : AcceptableProblem h dim (upTo k st q) := by
  obtain ⟨a1, a2, a3, a4, a5⟩ := ha
  refine ⟨a1, a2, ?_, ?_, fun t ht => a5 t (List.mem_of_mem_take ht)⟩
  · simp only [upTo, List.length_append, List.length_take, List.length_singleton]
    omega
  · intro v hv j c hj hc
    rcases List.mem_append.mp hv with hv | hv
    · exact a4 v (List.mem_of_mem_take hv) j c hj hc
    · obtain rfl := List.mem_singleton.mp hv
      exact hD j c hj hc

/-- An optimal curve of what is left is the rest of the optimal curve. -/
theorem rest_curve {h dim k : ℕ} {q : Problem ℝ} {st : Vertex ℝ} {s : Segment ℝ} {a c : List (Segment ℝ)} (ha : AcceptableProblem h dim q)
    (hk : k < q.times.length) (hD : ∀ (j : Int) (c : List ℝ), j < h → st.getConstraint j = some c → c.length = dim)
    (hg : ∀ v ∈ q.vertices, NoGaps q.derivative.toNat v) (ho : Optimal h dim q a) (hs : a[k]? = some s) (hst : BeginsAt h st s)
    (hc : Optimal h dim (restOf k st q) c) : SameCurve (a.drop k) c := by
  have hd : q.derivative.toNat ≤ h := by have := ha.2.1; omega
  have hl := ha.2.2.1
  refine C139_only (rest_acceptable ha hk hD) ?_ ?_ _ _ (rest_optimal (by omega) (by omega) ho hs hst) hc
  · intro v hv
    rcases List.mem_cons.mp hv with rfl | hv
    · exact all_noGaps hd (begins_all hst)
    · exact hg v (List.mem_of_mem_drop hv)
  · have h1 : PrescribesAll q.derivative.toNat st := fun j hj => begins_all hst j (by omega)
    show q.derivative.toNat ≤ ((st :: q.vertices.drop (k + 1)).map (prescribedBelow q.derivative.toNat)).sum
    rw [List.map_cons, List.sum_cons, prescribed_all h1]
    omega

/-- An optimal curve of the mission up to the vertex is the first part of the optimal curve. -/
theorem upTo_curve {h dim k : ℕ} {q : Problem ℝ} {st : Vertex ℝ} {s : Segment ℝ} {a c : List (Segment ℝ)} (ha : AcceptableProblem h dim q)
    (hk : k < q.times.length) (hD : ∀ (j : Int) (c : List ℝ), j < h → st.getConstraint j = some c → c.length = dim)
    (hg : ∀ v ∈ q.vertices, NoGaps q.derivative.toNat v) (ho : Optimal h dim q a) (hs : a[k]? = some s) (hst : BeginsAt h st s)
    (hc : Optimal h dim (upTo k st q) c) : SameCurve (a.take k) c := by
  have hd : q.derivative.toNat ≤ h := by have := ha.2.1; omega
  have hl := ha.2.2.1
  refine C139_only (upTo_acceptable ha hk hD) ?_ ?_ _ _ (upTo_optimal (by omega) (by omega) ho hs hst) hc
  · intro v hv
    rcases List.mem_append.mp hv with hv | hv
    · exact hg v (List.mem_of_mem_take hv)
    · obtain rfl := List.mem_singleton.mp hv
      exact all_noGaps hd (begins_all hst)
  · have h1 : PrescribesAll q.derivative.toNat st := fun j hj => begins_all hst j (by omega)
    show q.derivative.toNat ≤ ((q.vertices.take k ++ [st]).map (prescribedBelow q.derivative.toNat)).sum
    rw [List.map_append, List.sum_append, List.map_singleton, List.sum_singleton, prescribed_all h1]
    omega

/-- What a solved object returns: an optimal curve of segments of the object's size, and a trajectory that is consistent. -/
theorem solved_facts {h dim : ℕ} (hdim : 0 < dim) (solve : LinSolver ℝ) (hs : SolvesSystems solve) (q : Problem ℝ) (o o' : LinOpt h ℝ)
    (hh : LinHistory h dim solve (some q) o) (hw : ∀ v ∈ q.vertices, WellFormed v) (hu : o.solveLinear solve = .ok o') (tr : Trajectory ℝ)
    (htr : o'.getTrajectory = .ok tr) :
    Optimal h dim q tr.segments ∧ (∀ s ∈ tr.segments, SegShape h dim s) ∧ Consistent tr := by
  obtain ⟨a1, a2⟩ := C27_optimal q o o' hh hw hs hu tr htr
  refine ⟨⟨a1 hdim, a2⟩, ?_, (consistent_setSegments tr _ htr).1⟩
  rw [setSegments_segments _ _ htr]
  exact ((inv_history dim solve _ o' (.solve hh hu)).2 q rfl).shape

/-- The vertices read back from a solved trajectory hold the states in which its segments begin. -/
theorem read_back {h dim : ℕ} (hN : h + h ≤ 22) (h0 : 0 < h) {tr : Trajectory ℝ} (hsh : ∀ s ∈ tr.segments, SegShape h dim s) (hc : Consistent tr)
    (hT : ∀ s ∈ tr.segments, 0 < s.time) {ws : List (Vertex ℝ)} (hws : tr.getVertices (h - 1) = .ok ws) {k : ℕ} {s : Segment ℝ}
    (hs : tr.segments[k]? = some s) {st : Vertex ℝ} (hst : ws[k]? = some st) :
    BeginsAt h st s ∧ WellFormed st ∧ st.D = dim := by
  have hR : ∀ s ∈ tr.segments, Regular s := fun s hs => by
    obtain ⟨e1, _, e3⟩ := hsh s hs
    exact ⟨fun p hp => by rw [e3 p hp, e1], by rw [e1]; exact hN⟩
  have hne : tr.segments ≠ [] := by
    rintro e
    rw [e] at hs
    cases hs
  obtain ⟨ws', g1, _, g2⟩ := C18_getVertices tr (h - 1) hc (fun s hs => (hT s hs).le) hR hne
  obtain rfl := Except.ok.inj (hws.symm.trans g1)
  obtain ⟨e1, e2, e3, _⟩ := g2 k st hst
  have hm := List.mem_of_getElem? hs
  refine ⟨fun j hj => ?_, e2, ?_⟩
  · obtain ⟨x, x1, x2⟩ := e3 j (by omega)
    have := (C08_evaluate tr (startOf tr.segments k) j (fun s hs => (hT s hs).le) hR).1 k s hs le_rfl (by have := hT s hm; linarith)
    rw [x1, sub_self] at this
    rw [x2, Except.ok.inj this]
  · rw [e1, ← (hc.2 s hm).1, (hsh s hm).2.1]

/-- C163: a mission is solved and the state at vertex `k` is read from the trajectory, with all derivatives up to order `h - 1`. If the rest of the mission is
solved again from this state, with the same times, the answer is the rest of the trajectory; whatever the objects were used for before, and whichever exact
solvers they use. Enough is always prescribed for the rest to have one optimum, whether or not this holds of the mission. -/
theorem C163_rest {h dim : ℕ} (hdim : 0 < dim) (hN : h + h ≤ 22) (solve solve2 : LinSolver ℝ) (hs : SolvesSystems solve) (hs2 : SolvesSystems solve2)
    (q : Problem ℝ) (o o' o2 o2' : LinOpt h ℝ) (hh : LinHistory h dim solve (some q) o) (ha : AcceptableProblem h dim q) (hw : ∀ v ∈ q.vertices, WellFormed v)
    (hg : ∀ v ∈ q.vertices, NoGaps q.derivative.toNat v) (hu : o.solveLinear solve = .ok o') (tr tr2 : Trajectory ℝ) (htr : o'.getTrajectory = .ok tr)
    (ws : List (Vertex ℝ)) (hws : tr.getVertices (h - 1) = .ok ws) (k : ℕ) (hk : k < q.times.length) (st : Vertex ℝ) (hst : ws[k]? = some st)
    (hh2 : LinHistory h dim solve2 (some (restOf k st q)) o2) (hu2 : o2.solveLinear solve2 = .ok o2') (htr2 : o2'.getTrajectory = .ok tr2) :
    tr2.segments = tr.segments.drop k := by
  obtain ⟨a1, a2, a3⟩ := solved_facts hdim solve hs q o o' hh hw hu tr htr
  have hlen : tr.segments.length = q.times.length := by rw [← a1.1.times, List.length_map]
  have hT : ∀ s ∈ tr.segments, 0 < s.time := fun s hs => by
    have := ha.2.2.2.2 s.time (by rw [← a1.1.times]; exact List.mem_map_of_mem hs)
    exact lt_of_lt_of_le (by norm_num) this
  have hsk : tr.segments[k]? = some tr.segments[k] := List.getElem?_eq_getElem (by omega)
  obtain ⟨e1, e2, e3⟩ := read_back hN (by have := ha.1; have := ha.2.1; omega) a2 a3 hT hws hsk hst
  have hw2 : ∀ v ∈ (restOf k st q).vertices, WellFormed v := fun v hv => by
    rcases List.mem_cons.mp hv with rfl | hv
    · exact e2
    · exact hw v (List.mem_of_mem_drop hv)
  obtain ⟨b1, b2, _⟩ := solved_facts hdim solve2 hs2 _ o2 o2' hh2 hw2 hu2 tr2 htr2
  have hD : ∀ (j : Int) (c : List ℝ), j < h → st.getConstraint j = some c → c.length = dim := fun j c _ hc => by
    rw [← e3]
    exact e2.2 _ ((IntMap.find_some_iff _ e2.1 j c).mp hc)
  exact (segments_of_curve (fun s hs => a2 s (List.mem_of_mem_drop hs)) b2 (rest_curve ha hk hD hg a1 hsk e1 b1)).symm

/-- C163: the mission that ends at vertex `k` in the state of the trajectory there is the first part of it. -/
theorem C163_up_to {h dim : ℕ} (hdim : 0 < dim) (hN : h + h ≤ 22) (solve solve2 : LinSolver ℝ) (hs : SolvesSystems solve) (hs2 : SolvesSystems solve2)
    (q : Problem ℝ) (o o' o2 o2' : LinOpt h ℝ) (hh : LinHistory h dim solve (some q) o) (ha : AcceptableProblem h dim q) (hw : ∀ v ∈ q.vertices, WellFormed v)
    (hg : ∀ v ∈ q.vertices, NoGaps q.derivative.toNat v) (hu : o.solveLinear solve = .ok o') (tr tr2 : Trajectory ℝ) (htr : o'.getTrajectory = .ok tr)
    (ws : List (Vertex ℝ)) (hws : tr.getVertices (h - 1) = .ok ws) (k : ℕ) (hk : k < q.times.length) (st : Vertex ℝ) (hst : ws[k]? = some st)
    (hh2 : LinHistory h dim solve2 (some (upTo k st q)) o2) (hu2 : o2.solveLinear solve2 = .ok o2') (htr2 : o2'.getTrajectory = .ok tr2) :
    tr2.segments = tr.segments.take k := by
  obtain ⟨a1, a2, a3⟩ := solved_facts hdim solve hs q o o' hh hw hu tr htr
  have hlen : tr.segments.length = q.times.length := by rw [← a1.1.times, List.length_map]
  have hT : ∀ s ∈ tr.segments, 0 < s.time := fun s hs => by
    have := ha.2.2.2.2 s.time (by rw [← a1.1.times]; exact List.mem_map_of_mem hs)
    exact lt_of_lt_of_le (by norm_num) this
  have hsk : tr.segments[k]? = some tr.segments[k] := List.getElem?_eq_getElem (by omega)
  obtain ⟨e1, e2, e3⟩ := read_back hN (by have := ha.1; have := ha.2.1; omega) a2 a3 hT hws hsk hst
  have hw2 : ∀ v ∈ (upTo k st q).vertices, WellFormed v := fun v hv => by
    rcases List.mem_append.mp hv with hv | hv
    · exact hw v (List.mem_of_mem_take hv)
    · obtain rfl := List.mem_singleton.mp hv
      exact e2
  obtain ⟨b1, b2, _⟩ := solved_facts hdim solve2 hs2 _ o2 o2' hh2 hw2 hu2 tr2 htr2
  have hD : ∀ (j : Int) (c : List ℝ), j < h → st.getConstraint j = some c → c.length = dim := fun j c _ hc => by
    rw [← e3]
    exact e2.2 _ ((IntMap.find_some_iff _ e2.1 j c).mp hc)
  exact (segments_of_curve (fun s hs => a2 s (List.mem_of_mem_take hs)) b2 (upTo_curve ha hk hD hg a1 hsk e1 b1)).symm

/-- C163: if a vertex prescribes the position and all derivatives up to order `h - 1` (a halt, for example), the mission can be solved in two parts, on either side
of the vertex, each without regard to the other: the answers, one after the other, are that of the whole. -/
theorem C163_parts {h dim : ℕ} (hdim : 0 < dim) (solve solve1 solve2 : LinSolver ℝ) (hs : SolvesSystems solve) (hs1 : SolvesSystems solve1)
    (hs2 : SolvesSystems solve2) (q : Problem ℝ) (o o' o1 o1' o2 o2' : LinOpt h ℝ) (hh : LinHistory h dim solve (some q) o)
    (ha : AcceptableProblem h dim q) (hw : ∀ v ∈ q.vertices, WellFormed v) (hg : ∀ v ∈ q.vertices, NoGaps q.derivative.toNat v)
    (k : ℕ) (hk : k < q.times.length) (v : Vertex ℝ) (hv : q.vertices[k]? = some v) (hall : PrescribesAll h v)
    (hh1 : LinHistory h dim solve1 (some ⟨q.vertices.take (k + 1), q.times.take k, q.derivative⟩) o1)
    (hh2 : LinHistory h dim solve2 (some ⟨q.vertices.drop k, q.times.drop k, q.derivative⟩) o2)
    (hu : o.solveLinear solve = .ok o') (hu1 : o1.solveLinear solve1 = .ok o1') (hu2 : o2.solveLinear solve2 = .ok o2') (tr tr1 tr2 : Trajectory ℝ)
    (htr : o'.getTrajectory = .ok tr) (htr1 : o1'.getTrajectory = .ok tr1) (htr2 : o2'.getTrajectory = .ok tr2) :
    tr.segments = tr1.segments ++ tr2.segments := by
  obtain ⟨a1, a2, a3⟩ := solved_facts hdim solve hs q o o' hh hw hu tr htr
  have hlen : tr.segments.length = q.times.length := by rw [← a1.1.times, List.length_map]
  have hsk : tr.segments[k]? = some tr.segments[k] := List.getElem?_eq_getElem (by omega)
  have hkv : k < q.vertices.length := by have := ha.2.2.1; omega
  have hv' : q.vertices[k] = v := by rw [List.getElem?_eq_getElem hkv] at hv; exact Option.some.inj hv
  have hbeg : BeginsAt h v tr.segments[k] := fun j hj => by
    obtain ⟨c, hc⟩ := Option.isSome_iff_exists.mp (hall j hj)
    rw [hc, (a1.1.constraints k _ hsk j c hj).1 v hv hc]
  have q1 : (⟨q.vertices.take (k + 1), q.times.take k, q.derivative⟩ : Problem ℝ) = upTo k v q := by
    unfold upTo
    rw [← List.take_append_getElem hkv, hv']
  have q2 : (⟨q.vertices.drop k, q.times.drop k, q.derivative⟩ : Problem ℝ) = restOf k v q := by
    unfold restOf
    rw [List.drop_eq_getElem_cons hkv, hv']
  obtain ⟨b1, b2, _⟩ := solved_facts hdim solve1 hs1 _ o1 o1' hh1 (fun v hv => hw v (List.mem_of_mem_take hv)) hu1 tr1 htr1
  obtain ⟨c1, c2, _⟩ := solved_facts hdim solve2 hs2 _ o2 o2' hh2 (fun v hv => hw v (List.mem_of_mem_drop hv)) hu2 tr2 htr2
  rw [q1] at b1
  rw [q2] at c1
  have hD : ∀ (j : Int) (c : List ℝ), j < h → v.getConstraint j = some c → c.length = dim :=
    ha.2.2.2.1 v (List.mem_of_getElem? hv)
  rw [← segments_of_curve (fun s hs => a2 s (List.mem_of_mem_take hs)) b2 (upTo_curve ha hk hD hg a1 hsk hbeg b1),
    ← segments_of_curve (fun s hs => a2 s (List.mem_of_mem_drop hs)) c2 (rest_curve ha hk hD hg a1 hsk hbeg c1)]
  exact (List.take_append_drop k tr.segments).symm

/-- C163: the rest of the mission can always be solved again: the state at each vertex can be read, and the rest of the mission from it is accepted and solved. -/
theorem C163_solvable {h dim : ℕ} (hdim : 0 < dim) (hN : h + h ≤ 22) (solve solve2 : LinSolver ℝ) (hs : SolvesSystems solve)
    (q : Problem ℝ) (o o' : LinOpt h ℝ) (hh : LinHistory h dim solve (some q) o) (ha : AcceptableProblem h dim q) (hw : ∀ v ∈ q.vertices, WellFormed v)
    (hu : o.solveLinear solve = .ok o') (tr : Trajectory ℝ) (htr : o'.getTrajectory = .ok tr) (k : ℕ) (hk : k < q.times.length) :
    ∃ ws st, tr.getVertices (h - 1) = .ok ws ∧ ws[k]? = some st ∧
      ∃ o2 o2' tr2, LinHistory h dim solve2 (some (restOf k st q)) o2 ∧ o2.solveLinear solve2 = .ok o2' ∧ o2'.getTrajectory = .ok tr2 := by
  obtain ⟨a1, a2, a3⟩ := solved_facts hdim solve hs q o o' hh hw hu tr htr
  have hlen : tr.segments.length = q.times.length := by rw [← a1.1.times, List.length_map]
  have hT : ∀ s ∈ tr.segments, 0 < s.time := fun s hs => by
    have := ha.2.2.2.2 s.time (by rw [← a1.1.times]; exact List.mem_map_of_mem hs)
    exact lt_of_lt_of_le (by norm_num) this
  have hR : ∀ s ∈ tr.segments, Regular s := fun s hs => by
    obtain ⟨e1, _, e3⟩ := a2 s hs
    exact ⟨fun p hp => by rw [e3 p hp, e1], by rw [e1]; exact hN⟩
  have hsk : tr.segments[k]? = some tr.segments[k] := List.getElem?_eq_getElem (by omega)
  obtain ⟨ws, g1, g2, _⟩ := C18_getVertices tr (h - 1) a3 (fun s hs => (hT s hs).le) hR (by
    intro e
    have := congrArg List.length e
    rw [hlen, List.length_nil] at this
    omega)
  have hst : ws[k]? = some ws[k] := List.getElem?_eq_getElem (by omega)
  obtain ⟨e1, e2, e3⟩ := read_back hN (by have := ha.1; have := ha.2.1; omega) a2 a3 hT g1 hsk hst
  refine ⟨ws, _, g1, hst, C28_solves (solve := solve2) _ hN ?_ (rest_acceptable ha hk fun j c _ hc => ?_) ?_⟩
  · intro v hv
    rcases List.mem_cons.mp hv with rfl | hv
    · exact e2
    · exact hw v (List.mem_of_mem_drop hv)
  · rw [← e3]
    exact e2.2 _ ((IntMap.find_some_iff _ e2.1 j c).mp hc)
  · intro e
    have := congrArg List.length e
    simp only [restOf, List.length_drop, List.length_nil] at this
    omega

/-! ## Concrete cases -/

/-- The hypotheses of `C163_rest` are met by the sample mission, taken up at its second vertex. -/
example : ∃ (o o' o2 o2' : LinOpt 5 ℝ) (tr tr2 : Trajectory ℝ) (ws : List (Vertex ℝ)) (st : Vertex ℝ), LinHistory 5 3 exactSolver (some realProblem) o ∧
    o.solveLinear exactSolver = .ok o' ∧ o'.getTrajectory = .ok tr ∧ tr.getVertices 4 = .ok ws ∧ ws[1]? = some st ∧
    LinHistory 5 3 exactSolver (some (restOf 1 st realProblem)) o2 ∧ o2.solveLinear exactSolver = .ok o2' ∧ o2'.getTrajectory = .ok tr2 ∧
    tr2.segments = tr.segments.drop 1 := by
  obtain ⟨o, o', tr, h1, h2, h3⟩ := C28_solves (solve := exactSolver) realProblem (by omega) realProblem_wellFormed realProblem_acceptable (by simp [realProblem])
  obtain ⟨ws, st, g1, g2, o2, o2', tr2, g3, g4, g5⟩ := C163_solvable (by omega) (by omega) exactSolver exactSolver exactSolver_solves realProblem o o' h1
    realProblem_acceptable realProblem_wellFormed h2 tr h3 1 (by simp [realProblem])
  exact ⟨o, o', o2, o2', tr, tr2, ws, st, h1, h2, h3, g1, g2, g3, g4, g5, C163_rest (by omega) (by omega) _ _ exactSolver_solves exactSolver_solves realProblem
    o o' o2 o2' h1 realProblem_acceptable realProblem_wellFormed realProblem_enough.1 h2 tr tr2 h3 ws g1 1 (by simp [realProblem]) st g2 g3 g4 g5⟩

/-- A halt on the way prescribes everything. -/
example : PrescribesAll 5 ⟨3, [(0, [1, 2, 3]), (1, [0, 0, 0]), (2, [0, 0, 0]), (3, [0, 0, 0]), (4, [0, 0, 0])]⟩ := by
  intro j hj
  interval_cases j <;> simp [Vertex.getConstraint, IntMap.find]

/-! ## Only at the vertices -/

/-- A mission of one leg: from rest at 0 to 1 within a second, with the least mean square velocity among the cubic curves. -/
noncomputable def oneLeg : Problem ℝ := ⟨[⟨1, [(0, [0]), (1, [0])]⟩, ⟨1, [(0, [1])]⟩], [1], 1⟩

/-- Its optimum. -/
noncomputable def oneLegCurve : List (Segment ℝ) := [⟨4, 1, [[0, 0, 9 / 4, -5 / 4]]⟩]

theorem derivAt_cubic (a b c d : ℝ) (x : ℝ) : derivAt [a, b, c, d] 0 x = a + b * x + c * x ^ 2 + d * x ^ 3 ∧
    derivAt [a, b, c, d] 1 x = b + 2 * c * x + 3 * d * x ^ 2 := by
  unfold derivAt
  constructor <;> simp [ofCoeffs_cons, ofCoeffs_nil] <;> ring

theorem cubic_pad (p : Poly ℝ) (hp : p.length ≤ 4) : ∃ a b c d : ℝ, ∀ k x, derivAt p k x = derivAt [a, b, c, d] k x := by
  have key : ∃ a b c d : ℝ, ofCoeffs p = ofCoeffs [a, b, c, d] := by
    rcases p with _ | ⟨a, _ | ⟨b, _ | ⟨c, _ | ⟨d, _ | ⟨e, p⟩⟩⟩⟩⟩
    · exact ⟨0, 0, 0, 0, by simp [ofCoeffs_cons, ofCoeffs_nil]⟩
    · exact ⟨a, 0, 0, 0, by simp [ofCoeffs_cons, ofCoeffs_nil]⟩
    · exact ⟨a, b, 0, 0, by simp [ofCoeffs_cons, ofCoeffs_nil]⟩
    · exact ⟨a, b, c, 0, by simp [ofCoeffs_cons, ofCoeffs_nil]⟩
    · exact ⟨a, b, c, d, rfl⟩
    · simp only [List.length_cons] at hp
      omega
  obtain ⟨a, b, c, d, e⟩ := key
  exact ⟨a, b, c, d, fun k x => by unfold derivAt; rw [e]⟩

theorem cubic_energy (a b c d t : ℝ) : polyEnergy 1 t [a, b, c, d] =
    b ^ 2 * t + 2 * b * c * t ^ 2 + (4 * c ^ 2 / 3 + 2 * b * d) * t ^ 3 + 3 * c * d * t ^ 4 + 9 / 5 * d ^ 2 * t ^ 5 := by
  unfold polyEnergy
  have h : ∀ x ∈ Set.uIcc 0 t, HasDerivAt (fun x : ℝ => b ^ 2 * x + 2 * b * c * x ^ 2 + (4 * c ^ 2 / 3 + 2 * b * d) * x ^ 3 + 3 * c * d * x ^ 4 + 9 / 5 * d ^ 2 * x ^ 5)
      (derivAt [a, b, c, d] 1 x ^ 2) x := by
    intro x _
    rw [(derivAt_cubic a b c d x).2]
    have := ((((hasDerivAt_id x).const_mul (b ^ 2)).add ((hasDerivAt_pow 2 x).const_mul (2 * b * c))).add
      ((hasDerivAt_pow 3 x).const_mul (4 * c ^ 2 / 3 + 2 * b * d))).add ((hasDerivAt_pow 4 x).const_mul (3 * c * d)) |>.add
      ((hasDerivAt_pow 5 x).const_mul (9 / 5 * d ^ 2))
    refine this.congr_deriv ?_
    push_cast
    ring
  have hc : Continuous fun x => derivAt [a, b, c, d] 1 x ^ 2 := by
    simp only [(derivAt_cubic a b c d _).2]
    fun_prop
  rw [intervalIntegral.integral_eq_sub_of_hasDerivAt h (hc.intervalIntegrable _ _)]
  ring

theorem iterate_derivative_shift (f : Polynomial ℝ) (r : ℝ) (k : ℕ) :
    Polynomial.derivative^[k] (f.comp (Polynomial.X + Polynomial.C r)) = (Polynomial.derivative^[k] f).comp (Polynomial.X + Polynomial.C r) := by
  induction k with
  | zero => rfl
  | succ k ih =>
    rw [Function.iterate_succ_apply', ih, Polynomial.derivative_comp, Function.iterate_succ_apply']
    simp

theorem oneLeg_acceptable : AcceptableProblem 2 1 oneLeg := by
  refine ⟨by norm_num [oneLeg], by norm_num [oneLeg], rfl, ?_, ?_⟩
  · intro v hv k c _ hc
    have hw : WellFormed v := by
      simp only [oneLeg, List.mem_cons, List.not_mem_nil, or_false] at hv
      rcases hv with rfl | rfl <;> refine ⟨?_, ?_⟩ <;> simp
    have := hw.2 _ ((IntMap.find_some_iff _ hw.1 k c).mp hc)
    simp only [oneLeg, List.mem_cons, List.not_mem_nil, or_false] at hv
    rcases hv with rfl | rfl <;> exact this
  · intro t ht
    simp only [oneLeg, List.mem_cons, List.not_mem_nil, or_false] at ht
    subst ht
    norm_num

/-- A candidate for a problem of one leg and one dimension. -/
theorem leg_candidate (v w : Vertex ℝ) (T : ℝ) (p : Poly ℝ) (hp : p.length ≤ 4)
    (h0 : ∀ k < 2, ∀ c, v.getConstraint (k : ℕ) = some c → [derivAt p k 0] = c) (h1 : ∀ k < 2, ∀ c, w.getConstraint (k : ℕ) = some c → [derivAt p k T] = c) :
    Candidate 2 1 ⟨[v, w], [T], 1⟩ [⟨4, T, [p]⟩] := by
  refine ⟨rfl, ?_, ?_, ?_, ?_⟩
  · intro s hs
    obtain rfl := List.mem_singleton.mp hs
    rfl
  · intro s hs
    obtain rfl := List.mem_singleton.mp hs
    intro r hr
    obtain rfl := List.mem_singleton.mp hr
    exact hp
  · intro i s hi k c hk
    cases i with
    | zero =>
      obtain rfl := Option.some.inj hi
      refine ⟨fun x hx hc => ?_, fun x hx hc => ?_⟩
      · obtain rfl := Option.some.inj hx
        exact h0 k hk c hc
      · obtain rfl := Option.some.inj hx
        exact h1 k hk c hc
    | succ i => simp at hi
  · intro i s s' hi hi'
    cases i <;> simp at hi'

theorem oneLeg_optimal : Optimal 2 1 oneLeg oneLegCurve := by
  refine ⟨leg_candidate _ _ _ _ (by simp) ?_ ?_, ?_⟩
  · intro k hk c hc
    interval_cases k
    · simp [Vertex.getConstraint, IntMap.find] at hc
      rw [← hc, (derivAt_cubic _ _ _ _ _).1]; norm_num
    · simp [Vertex.getConstraint, IntMap.find] at hc
      rw [← hc, (derivAt_cubic _ _ _ _ _).2]; norm_num
  · intro k hk c hc
    interval_cases k
    · simp [Vertex.getConstraint, IntMap.find] at hc
      rw [← hc, (derivAt_cubic _ _ _ _ _).1]; norm_num
    · simp [Vertex.getConstraint, IntMap.find] at hc
  · intro b hb
    have h1 := hb.times
    obtain ⟨s, rfl, hst⟩ : ∃ s, b = [s] ∧ s.time = 1 := by
      rcases b with _ | ⟨s, _ | ⟨s', b⟩⟩
      · simp [oneLeg] at h1
      · exact ⟨s, rfl, by simpa [oneLeg] using h1⟩
      · simp [oneLeg] at h1
    obtain ⟨p, hp⟩ := List.length_eq_one_iff.mp (hb.dims s List.mem_cons_self)
    obtain ⟨x0, x1, x2, x3, hx⟩ := cubic_pad p (hb.degree s List.mem_cons_self p (by rw [hp]; exact List.mem_cons_self))
    have c0 := ((hb.constraints 0 s rfl 0 [0] (by omega)).1 _ rfl (by simp [Vertex.getConstraint, IntMap.find]))
    have c1 := ((hb.constraints 0 s rfl 1 [0] (by omega)).1 _ rfl (by simp [Vertex.getConstraint, IntMap.find]))
    have c2 := ((hb.constraints 0 s rfl 0 [1] (by omega)).2 _ rfl (by simp [Vertex.getConstraint, IntMap.find]))
    simp only [segDeriv, hp, hst, List.map_cons, List.map_nil, List.cons.injEq, and_true, hx, (derivAt_cubic _ _ _ _ _).1, (derivAt_cubic _ _ _ _ _).2] at c0 c1 c2
    have hE : polyEnergy 1 1 p = polyEnergy 1 1 [x0, x1, x2, x3] := by
      unfold polyEnergy
      simp only [hx]
    show energy 1 oneLegCurve ≤ energy 1 [s]
    simp only [energy, oneLegCurve, List.map_cons, List.map_nil, List.sum_cons, List.sum_nil, hp, hst, hE, cubic_energy]
    have e1 : x1 = 0 := by linarith
    have e3 : x3 = 1 - x2 := by subst e1; linarith
    subst e1 e3
    nlinarith [sq_nonneg (x2 - 9 / 4)]

/-- C163 is a property of the vertices: taken up between two of them, in the very state of the optimum and with the time that is left, the mission may go on
differently. Half-way through the leg of `oneLeg`, where the state is read with all derivatives up to order `h - 1`, the rest of the optimum is not the optimum of
the rest. -/
theorem C163_only_at_vertices : ∃ (q : Problem ℝ) (s r : Segment ℝ) (st w : Vertex ℝ), AcceptableProblem 2 1 q ∧ (∀ v ∈ q.vertices, NoGaps q.derivative.toNat v) ∧
    Optimal 2 1 q [s] ∧ q.vertices[1]? = some w ∧
    -- `st` holds the state half-way, `r` is the second half of `s`
    (∀ j < 2, st.getConstraint (j : ℕ) = some (segDeriv s j (1 / 2))) ∧ r.time = s.time - 1 / 2 ∧ (∀ j x, segDeriv r j x = segDeriv s j (1 / 2 + x)) ∧
    Candidate 2 1 ⟨[st, w], [s.time - 1 / 2], q.derivative⟩ [r] ∧ ¬ Optimal 2 1 ⟨[st, w], [s.time - 1 / 2], q.derivative⟩ [r] := by
  have hr : ∀ j x, derivAt ([13 / 32, 21 / 16, 3 / 8, -5 / 4] : List ℝ) j x = derivAt ([0, 0, 9 / 4, -5 / 4] : List ℝ) j (1 / 2 + x) := by
    intro j x
    have e : ofCoeffs ([13 / 32, 21 / 16, 3 / 8, -5 / 4] : List ℝ) = (ofCoeffs ([0, 0, 9 / 4, -5 / 4] : List ℝ)).comp (Polynomial.X + Polynomial.C (1 / 2)) := by
      apply Polynomial.funext
      intro y
      simp only [ofCoeffs_cons, ofCoeffs_nil, Polynomial.eval_comp, Polynomial.eval_add, Polynomial.eval_mul, Polynomial.eval_C, Polynomial.eval_X,
        Polynomial.eval_zero]
      ring
    unfold derivAt
    rw [e, iterate_derivative_shift]
    simp only [Polynomial.eval_comp, Polynomial.eval_add, Polynomial.eval_X, Polynomial.eval_C]
    rw [add_comm]
  have hst : ∀ j < 2, (⟨1, [(0, [13 / 32]), (1, [21 / 16])]⟩ : Vertex ℝ).getConstraint (j : ℕ) = some (segDeriv (⟨4, 1, [[0, 0, 9 / 4, -5 / 4]]⟩ : Segment ℝ) j (1 / 2)) := by
    intro j hj
    interval_cases j
    · simp [Vertex.getConstraint, IntMap.find, segDeriv, (derivAt_cubic _ _ _ _ _).1]; norm_num
    · simp [Vertex.getConstraint, IntMap.find, segDeriv, (derivAt_cubic _ _ _ _ _).2]; norm_num
  have cand : ∀ c d : ℝ, 13 / 32 + 21 / 16 * (1 / 2) + c * (1 / 2) ^ 2 + d * (1 / 2) ^ 3 = 1 → Candidate 2 1 ⟨[⟨1, [(0, [13 / 32]), (1, [21 / 16])]⟩, ⟨1, [(0, [1])]⟩], [1 - 1 / 2], 1⟩
      [⟨4, 1 - 1 / 2, [[13 / 32, 21 / 16, c, d]]⟩] := by
    intro c d hcd
    refine leg_candidate _ _ _ _ (by simp) ?_ ?_
    · intro k hk e he
      interval_cases k
      · simp [Vertex.getConstraint, IntMap.find] at he
        rw [← he, (derivAt_cubic _ _ _ _ _).1]; norm_num
      · simp [Vertex.getConstraint, IntMap.find] at he
        rw [← he, (derivAt_cubic _ _ _ _ _).2]; norm_num
    · intro k hk e he
      interval_cases k
      · simp [Vertex.getConstraint, IntMap.find] at he
        rw [← he, (derivAt_cubic _ _ _ _ _).1, show (1 : ℝ) - 1 / 2 = 1 / 2 by norm_num, hcd]
      · simp [Vertex.getConstraint, IntMap.find] at he
  refine ⟨oneLeg, ⟨4, 1, [[0, 0, 9 / 4, -5 / 4]]⟩, ⟨4, 1 - 1 / 2, [[13 / 32, 21 / 16, 3 / 8, -5 / 4]]⟩, ⟨1, [(0, [13 / 32]), (1, [21 / 16])]⟩, ⟨1, [(0, [1])]⟩, oneLeg_acceptable,
    ?_, oneLeg_optimal, rfl, hst, rfl, fun j x => by simp only [segDeriv, List.map_cons, List.map_nil, hr], cand _ _ (by norm_num), fun ho => ?_⟩
  · intro v hv k k' hk hk' _
    have hk'' : k' < 1 := hk'
    obtain rfl : k = 0 := by omega
    simp only [oneLeg, List.mem_cons, List.not_mem_nil, or_false] at hv
    rcases hv with rfl | rfl <;> simp [Vertex.getConstraint, IntMap.find]
  · have h1 := ho.2 _ (cand (-9 / 16) (5 / 8) (by norm_num))
    simp only [energy, oneLeg, List.map_cons, List.map_nil, List.sum_cons, List.sum_nil] at h1
    rw [show (1 : ℤ).toNat = 1 from rfl, cubic_energy, cubic_energy] at h1
    norm_num at h1

/-- A mission with a halt on the way. -/
noncomputable def haltProblem : Problem ℝ :=
  ⟨[⟨1, [(0, [0]), (1, [0])]⟩, ⟨1, [(0, [1]), (1, [0])]⟩, ⟨1, [(0, [3])]⟩], [1, 2], 1⟩

/-- The hypotheses of `C163_parts` are met. -/
example : ∃ (o o' o1 o1' o2 o2' : LinOpt 2 ℝ) (tr tr1 tr2 : Trajectory ℝ), LinHistory 2 1 exactSolver (some haltProblem) o ∧
    LinHistory 2 1 exactSolver (some ⟨haltProblem.vertices.take 2, haltProblem.times.take 1, 1⟩) o1 ∧
    LinHistory 2 1 exactSolver (some ⟨haltProblem.vertices.drop 1, haltProblem.times.drop 1, 1⟩) o2 ∧
    o.solveLinear exactSolver = .ok o' ∧ o1.solveLinear exactSolver = .ok o1' ∧ o2.solveLinear exactSolver = .ok o2' ∧
    o'.getTrajectory = .ok tr ∧ o1'.getTrajectory = .ok tr1 ∧ o2'.getTrajectory = .ok tr2 ∧ tr.segments = tr1.segments ++ tr2.segments := by
  have hw : ∀ v ∈ haltProblem.vertices, WellFormed v := by
    intro v hv
    simp only [haltProblem, List.mem_cons, List.not_mem_nil, or_false] at hv
    rcases hv with rfl | rfl | rfl <;> refine ⟨?_, ?_⟩ <;> simp
  have ha : AcceptableProblem 2 1 haltProblem := by
    refine ⟨by norm_num [haltProblem], by norm_num [haltProblem], rfl, ?_, ?_⟩
    · intro v hv k c _ hc
      have hw := hw v hv
      have := hw.2 _ ((IntMap.find_some_iff _ hw.1 k c).mp hc)
      simp only [haltProblem, List.mem_cons, List.not_mem_nil, or_false] at hv
      rcases hv with rfl | rfl | rfl <;> exact this
    · intro t ht
      simp only [haltProblem, List.mem_cons, List.not_mem_nil, or_false] at ht
      rcases ht with rfl | rfl <;> norm_num
  have hg : ∀ v ∈ haltProblem.vertices, NoGaps haltProblem.derivative.toNat v := by
    intro v hv k k' hk hk' _
    have hk'' : k' < 1 := hk'
    obtain rfl : k = 0 := by omega
    simp only [haltProblem, List.mem_cons, List.not_mem_nil, or_false] at hv
    rcases hv with rfl | rfl | rfl <;> simp [Vertex.getConstraint, IntMap.find]
  have hk : 1 < haltProblem.times.length := by simp [haltProblem]
  have hv : haltProblem.vertices[1]? = some ⟨1, [(0, [1]), (1, [0])]⟩ := rfl
  have hD := ha.2.2.2.1 _ (List.mem_of_getElem? hv)
  obtain ⟨o, o', tr, h1, h2, h3⟩ := C28_solves (solve := exactSolver) haltProblem (by omega) hw ha (by simp [haltProblem])
  obtain ⟨o1, o1', tr1, a1, a2, a3⟩ := C28_solves (solve := exactSolver) (upTo 1 ⟨1, [(0, [1]), (1, [0])]⟩ haltProblem) (by omega)
    (fun v hv => hw v (List.mem_of_mem_take (i := 2) hv)) (upTo_acceptable ha hk hD) (by simp [upTo, haltProblem])
  obtain ⟨o2, o2', tr2, b1, b2, b3⟩ := C28_solves (solve := exactSolver) (restOf 1 ⟨1, [(0, [1]), (1, [0])]⟩ haltProblem) (by omega)
    (fun v hv => hw v (List.mem_of_mem_drop (i := 1) hv)) (rest_acceptable ha hk hD) (by simp [restOf, haltProblem])
  refine ⟨o, o', o1, o1', o2, o2', tr, tr1, tr2, h1, a1, b1, h2, a2, b2, h3, a3, b3, C163_parts (by omega) _ _ _ exactSolver_solves exactSolver_solves exactSolver_solves
    haltProblem o o' o1 o1' o2 o2' h1 ha hw hg 1 hk _ hv ?_ a1 b1 h2 a2 b2 tr tr1 tr2 h3 a3 b3⟩
  intro j hj
  interval_cases j <;> simp [Vertex.getConstraint, IntMap.find]

end Verif.Properties
