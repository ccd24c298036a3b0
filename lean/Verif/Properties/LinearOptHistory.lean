import Verif.Lemmas.NonlinearRun

/-!
# Properties C77, C74: using one optimisation object for several problems
-/

set_option linter.unusedSectionVars false

namespace Verif.Properties

open Verif Spec Lemmas LinOpt

/-- C77: the linear solution depends on the problem only: two objects with any two histories, now holding the same problem, give the same
trajectory, or the same error when it is read. -/
theorem C77_history_independent {K : Type*} [Field K] [LinearOrder K] [IsStrictOrderedRing K] {h dim : ℕ} {solve : LinSolver K} (q : Problem K)
    (hdim : 0 < dim) (o o2 o' o2' : LinOpt h K) (hh : LinHistory h dim solve (some q) o) (hh2 : LinHistory h dim solve (some q) o2)
    (hs : o.solveLinear solve = .ok o') (hs2 : o2.solveLinear solve = .ok o2') :
    o'.getTrajectory = o2'.getTrajectory ∧ o'.computeCost = o2'.computeCost ∧ o'.freeCompact = o2'.freeCompact := by
  have hi := (inv_history dim solve _ o hh).2 q rfl
  have hi2 := (inv_history dim solve _ o2 hh2).2 q rfl
  have hf := solve_free_unique hi hi2 (freeCompact_length hh) (freeCompact_length hh2) hs hs2
  have he := segments_unique hi hi2 hdim (.inr hs) (.inr hs2) hf
  have hi' := (inv_history dim solve _ o' (.solve hh hs)).2 q rfl
  have hi2' := (inv_history dim solve _ o2' (.solve hh2 hs2)).2 q rfl
  have hsame := hi'.same hi2'
  refine ⟨?_, ?_, hf⟩
  · unfold getTrajectory
    rw [he]
  · unfold computeCost
    rw [hsame.nSegments, hsame.costs, he, hi'.dimension, hi2'.dimension]

/-- C77: the same with given free derivatives. -/
theorem C77_free_independent {K : Type*} [Field K] [LinearOrder K] [IsStrictOrderedRing K] {h dim : ℕ} {solve : LinSolver K} (q : Problem K)
    (hdim : 0 < dim) (o o2 o' o2' : LinOpt h K) (hh : LinHistory h dim solve (some q) o) (hh2 : LinHistory h dim solve (some q) o2)
    (values : List (List K)) (hs : o.setFreeConstraints values = .ok o') (hs2 : o2.setFreeConstraints values = .ok o2') :
    o'.getTrajectory = o2'.getTrajectory := by
  have hi := (inv_history dim solve _ o hh).2 q rfl
  have hi2 := (inv_history dim solve _ o2 hh2).2 q rfl
  unfold getTrajectory
  rw [segments_unique (solve := solve) (solve2 := solve) hi hi2 hdim (.inl ⟨_, hs⟩) (.inl ⟨_, hs2⟩)
    ((setFree_free hi _ hs).trans (setFree_free hi2 _ hs2).symm)]

/-- C74, proved part: it does when the new problem leaves some derivative free, and gives the trajectory a new object gives. Missing: a new
problem without free derivatives. -/
theorem C74_reuse_partial {h dim : ℕ} {solve : LinSolver ℝ} (p : Option (Problem ℝ)) (o o1 : LinOpt h ℝ) (q : Problem ℝ) (hdim : 0 < dim)
    (hh : LinHistory h dim solve p o) (hw : ∀ v ∈ q.vertices, WellFormed v) (hq : q.times ≠ [])
    (hs : o.setupFromVertices q.vertices q.times q.derivative = .ok o1) (hfree : freeOrders h q.vertices ≠ []) :
    ∃ o2 tr, o1.solveLinear solve = .ok o2 ∧ o2.getTrajectory = .ok tr ∧
      ∀ n1 n2, (LinOpt.init h ℝ dim).setupFromVertices q.vertices q.times q.derivative = .ok n1 → n1.solveLinear solve = .ok n2 →
        n2.getTrajectory = .ok tr := by
  have hh1 : LinHistory h dim solve (some q) o1 := .setup q hh hs
  have hi := (inv_history dim solve _ o1 hh1).2 q rfl
  obtain ⟨o2, h2⟩ := solve_total dim q solve o1 hi (List.length_pos_iff.mpr hq) (fun h0 => by
    rw [nFree_eq hi hw] at h0
    exact absurd (List.length_eq_zero_iff.mp h0) hfree)
  obtain ⟨tr, htr⟩ := NonLin.solved_trajectory ⟨o1, hh1, .inr h2⟩ hq
  refine ⟨o2, tr, h2, htr, fun n1 n2 e1 e2 => ?_⟩
  rw [← htr]
  exact (C77_history_independent q hdim n1 o1 n2 o2 (.setup q .new e1) hh1 e2 h2).1

/-- C74: an object that has solved a problem with free derivatives and is set up with a fully constrained one uses the free derivatives
of the old problem: vectors of wrong size are put together. -/
theorem C74_stale_free {h dim : ℕ} {solve : LinSolver ℝ} (q q' : Problem ℝ) (o o1 o2 : LinOpt h ℝ) (hdim : 0 < dim)
    (hh : LinHistory h dim solve (some q) o) (hw : ∀ v ∈ q.vertices, WellFormed v) (hw' : ∀ v ∈ q'.vertices, WellFormed v)
    (hs : o.solveLinear solve = .ok o1) (hfree : freeOrders h q.vertices ≠ []) (hfix : freeOrders h q'.vertices = [])
    (hs2 : o1.setupFromVertices q'.vertices q'.times q'.derivative = .ok o2) : o2.solveLinear solve = .error .ub := by
  have hh1 : LinHistory h dim solve (some q) o1 := .solve hh hs
  have hi1 := (inv_history dim solve _ o1 hh1).2 q rfl
  obtain ⟨hfl, hfv, _⟩ := solved_free hh (.inr hs)
  obtain ⟨hi2, hf2⟩ := setupFromVertices_ok dim q' o1 o2 (inv_history dim solve _ o1 hh1).1 hs2
  have h0 : o2.nFree = 0 := by rw [nFree_eq hi2 hw', hfix]; rfl
  have hpos : o1.nFree ≠ 0 := by
    rw [nFree_eq hi1 hw]
    exact fun e => hfree (List.length_eq_zero_iff.mp e)
  obtain ⟨f, fs, hf⟩ : ∃ f fs, o1.freeCompact = f :: fs := List.exists_cons_of_length_pos (by omega)
  have hfn : f.length = o1.nFree := hfv f (by rw [hf]; simp)
  obtain ⟨_, h2, _⟩ := hi2.fixed_length 0 hdim
  have hx := fixedCompact_length hi2
  obtain ⟨g, gs, hg⟩ : ∃ g gs, o2.fixedCompact = g :: gs := List.exists_cons_of_length_pos (by omega)
  have hr := hi2.range
  unfold solveLinear
  rw [if_neg (by rw [hi2.derivative]; exact not_not.mpr hr), if_pos h0]
  unfold updateSegmentsFromCompactConstraints
  obtain ⟨n, hn⟩ : ∃ n, dim = n + 1 := ⟨dim - 1, by omega⟩
  rw [hi2.dimension, hn, List.range_succ_eq_map, List.foldlM_cons]
  have : updateDimension o2 o2.segments 0 = .error .ub := by
    unfold updateDimension
    rw [hf2, hf, hg]
    simp only [at?, List.getElem?_cons_zero, bind, Except.bind]
    rw [if_pos]
    rw [hg] at h2
    simp only [List.getD_cons_zero] at h2
    have := hi2.nFixed
    omega
  rw [this]
  rfl

/-! A concrete history -/

/-- One segment of degree one; the end is free. -/
noncomputable def halfFree : Problem ℝ := ⟨[⟨1, [(0, [0])]⟩, ⟨1, []⟩], [1], 0⟩

/-- Both ends are given. -/
noncomputable def allFixed : Problem ℝ := ⟨[⟨1, [(0, [0])]⟩, ⟨1, [(0, [7])]⟩], [1], 0⟩

theorem halfFree_wellFormed : ∀ v ∈ halfFree.vertices, WellFormed v := by
  intro v hv
  simp only [halfFree, List.mem_cons, List.not_mem_nil, or_false] at hv
  rcases hv with rfl | rfl <;> refine ⟨?_, ?_⟩ <;> simp

theorem allFixed_wellFormed : ∀ v ∈ allFixed.vertices, WellFormed v := by
  intro v hv
  simp only [allFixed, List.mem_cons, List.not_mem_nil, or_false] at hv
  rcases hv with rfl | rfl <;> refine ⟨?_, ?_⟩ <;> simp

theorem acceptable_of {h dim : ℕ} {q : Problem ℝ} (hd : 0 ≤ q.derivative ∧ q.derivative < h) (hl : q.vertices.length = q.times.length + 1)
    (hw : ∀ v ∈ q.vertices, WellFormed v) (hdim : ∀ v ∈ q.vertices, v.D = dim) (ht : ∀ t ∈ q.times, 1 / 2 ^ 52 ≤ t) :
    AcceptableProblem h dim q := by
  refine ⟨hd.1, hd.2, hl, fun v hv k c _ hc => ?_, ht⟩
  have := (hw v hv).2 _ ((IntMap.find_some_iff _ (hw v hv).1 k c).mp hc)
  rw [← hdim v hv]
  exact this

theorem halfFree_acceptable : AcceptableProblem 1 1 halfFree :=
  acceptable_of (by constructor <;> norm_num [halfFree]) rfl halfFree_wellFormed
    (by intro v hv; simp only [halfFree, List.mem_cons, List.not_mem_nil, or_false] at hv; rcases hv with rfl | rfl <;> rfl)
    (by intro t ht; simp only [halfFree, List.mem_singleton] at ht; rw [ht]; norm_num)

theorem allFixed_acceptable : AcceptableProblem 1 1 allFixed :=
  acceptable_of (by constructor <;> norm_num [allFixed]) rfl allFixed_wellFormed
    (by intro v hv; simp only [allFixed, List.mem_cons, List.not_mem_nil, or_false] at hv; rcases hv with rfl | rfl <;> rfl)
    (by intro t ht; simp only [allFixed, List.mem_singleton] at ht; rw [ht]; norm_num)

theorem halfFree_free : freeOrders 1 halfFree.vertices = [(1, 0)] := rfl

theorem allFixed_free : freeOrders 1 allFixed.vertices = [] := rfl

/-- Hypotheses of `C74_stale_free` met: a problem with a free end, then one with both ends fixed, on one object. -/
example : ∃ o o1 o2, LinHistory 1 1 exactSolver (some halfFree) o ∧ o.solveLinear exactSolver = .ok o1 ∧
    o1.setupFromVertices allFixed.vertices allFixed.times allFixed.derivative = .ok o2 ∧ o2.solveLinear exactSolver = .error .ub := by
  obtain ⟨o, o1, _, hh, hs, _⟩ := C28_solves (solve := exactSolver) (h := 1) (dim := 1) halfFree (by omega) halfFree_wellFormed halfFree_acceptable
    (by simp [halfFree])
  have hh1 : LinHistory 1 1 exactSolver (some halfFree) o1 := .solve hh hs
  obtain ⟨o2, h2⟩ := (C28_setup_iff _ o1 hh1 allFixed (by omega) allFixed_wellFormed).mpr allFixed_acceptable
  exact ⟨o, o1, o2, hh, hs, h2, C74_stale_free halfFree allFixed o o1 o2 (by omega) hh halfFree_wellFormed allFixed_wellFormed hs
    (by rw [halfFree_free]; simp) allFixed_free h2⟩

/-- The other order works: hypotheses of `C74_reuse_partial` and `C77_history_independent` met by a reused object. -/
example : ∃ o o1 o2 o3 tr, LinHistory 1 1 exactSolver (some allFixed) o ∧ o.setupFromVertices halfFree.vertices halfFree.times halfFree.derivative = .ok o1 ∧
    o1.solveLinear exactSolver = .ok o2 ∧ o2.getTrajectory = .ok tr ∧ LinHistory 1 1 exactSolver (some halfFree) o3 ∧ o3 ≠ o1 := by
  obtain ⟨a, o, _, hh, hs, _⟩ := C28_solves (solve := exactSolver) (h := 1) (dim := 1) allFixed (by omega) allFixed_wellFormed allFixed_acceptable
    (by simp [allFixed])
  have hh1 : LinHistory 1 1 exactSolver (some allFixed) o := .solve hh hs
  obtain ⟨o1, h1⟩ := (C28_setup_iff _ o hh1 halfFree (by omega) halfFree_wellFormed).mpr halfFree_acceptable
  obtain ⟨o2, tr, e1, e2, _⟩ := C74_reuse_partial _ o o1 halfFree (by omega) hh1 halfFree_wellFormed (by simp [halfFree]) h1
    (by rw [halfFree_free]; simp)
  refine ⟨o, o1, o2, o2, tr, hh1, h1, e1, e2, .solve (.setup _ hh1 h1) e1, fun e => ?_⟩
  have hf2 := (setupFromVertices_ok 1 halfFree o o1 (inv_history 1 exactSolver _ o hh1).1 h1)
  obtain ⟨f1, f2, f3⟩ := solved_free (.setup _ hh1 h1) (.inr e1)
  obtain ⟨g1, g2, _⟩ := solved_free hh (.inr hs)
  have hi := hf2.1
  have n1 : o2.nFree = 1 := by rw [f3, nFree_eq hi halfFree_wellFormed]; rfl
  have n2 : o.nFree = 0 := by
    rw [nFree_eq ((inv_history 1 exactSolver _ o hh1).2 _ rfl) allFixed_wellFormed]; rfl
  rw [e, hf2.2] at f2
  obtain ⟨f, fs, hf⟩ : ∃ f fs, o.freeCompact = f :: fs := List.exists_cons_of_length_pos (by omega)
  have a1 := f2 f (by rw [hf]; simp)
  have a2 := g2 f (by rw [hf]; simp)
  rw [e] at n1
  omega

end Verif.Properties
