import Verif.Lemmas.OptimiserFails
import Verif.Properties.PlannerThreads
import Verif.Properties.PlannerNoSpeed

/-!
# Property C141: nothing throws and nothing is undefined, the optimisation included
-/

namespace Verif.Properties

open Verif Spec Lemmas LinOpt NonLin OptBackend

/-- C141: the ways in which the planner's optimisation can fail, for any vertices in space with a position each, any speed and acceleration limit, and
whatever the linear solver, the root finder and NLopt do, obeying the bounds or not: a failed check, which ends the process, or a value that is not
finite. It does not throw, it does not hang, and nothing is undefined. -/
theorem C141_optimiser (b : OptBackend) (lineal : Bool) (vs : List (Vertex ℝ)) (speed : ℝ)
    (hv : ∀ v ∈ vs, WellFormed v ∧ v.D = 3 ∧ ∃ p, v.getConstraint 0 = some p) (x : Fail)
    (hx : (b.env lineal).optimize vs speed = .error x) : x = .check ∨ x = .nonfinite :=
  tame_env b lineal vs speed hv x hx

/-- C141: hence no computation ever ends with an exception, and no call, no step of the worker and no step of the computation throws or is undefined. A
check fails only in the computation. -/
theorem C141_planner (b : OptBackend) (lineal : Bool) (s : Planner ℝ) (h : Reachable (b.env lineal) s) :
    s.future ≠ .failed ∧
    ∀ (e : Event ℝ) (x : Fail), s.step (b.env lineal) e = .error x → x = .nonfinite ∨ (x = .check ∧ ∃ dt, e = .asyncFinish dt) := by
  have hn := reachable_notFailed h
  refine ⟨hn, fun e x hx => ?_⟩
  rcases C61_failures _ (C85_segmentwise b lineal) s h e x hx with h1 | ⟨_, h1⟩ | ⟨_, dt, sp, vs, h1, h2, h3, h4⟩
  · exact .inl h1
  · exact absurd h1 hn
  · rcases tame_env b lineal vs sp (handed_inSpace (reachable_wp _ s h) vs h3) x h4 with h | h
    · exact .inr ⟨h, dt, h1⟩
    · exact .inl h

/-- C141: the same in every interleaving of the single accesses of all threads: the worker and an evaluating call can at most come to a value that is
not finite, calls of other threads do not fail, and the computation fails only by a failed check or a value that is not finite. -/
theorem C141_threads (b : OptBackend) (lineal : Bool) (s : Whole ℝ) (h : Threads (b.env lineal) s) :
    s.p.future ≠ .failed ∧
    (∀ x, s.work (b.env lineal) = .error x → x = .nonfinite) ∧
    (∀ x, Fine.consume (b.env lineal) ⟨s.p, s.c⟩ = .error x → x = .nonfinite) ∧
    (∀ e x, ByUsers e → s.p.step (b.env lineal) e ≠ .error x) ∧
    (∀ e x, ByTask e → s.p.step (b.env lineal) e = .error x → x = .check ∨ x = .nonfinite) := by
  have hi := (threads_inv h).1
  have hn : s.p.future ≠ .failed := interleaved_notFailed hi
  obtain ⟨h1, h2, h3, h4⟩ := C112_defined _ (C85_segmentwise b lineal) s h
  refine ⟨hn, fun x hx => (h1 x hx).1, fun x hx => ?_, h3, fun e x he hx => ?_⟩
  · rcases h2 x hx with h | ⟨_, h⟩
    · exact h
    · exact absurd h hn
  · obtain ⟨_, dt, sp, vs, _, h5, h6, h7⟩ := h4 e x he hx
    have hi := interleaved_inv hi
    have htk : ¬ TakingOver s.c := fun htk => by
      have hh : Held s.p := by
        obtain ⟨p, c, w⟩ := s
        cases c <;> first | exact htk.elim | exact hi.2.1 | exact hi.2
      rw [hh.1] at h5
      cases h5
    have hs : Serialised (b.env lineal) s.p := by have hk := hi.1; rw [settled_eq (f := ⟨s.p, s.c⟩) htk] at hk; exact hk
    exact tame_env b lineal vs sp (handed_inSpace (serialised_wp hs) vs h6) x h7

/-! ## The statements apply -/

/-- A computation in progress that fails, with a value that is not finite. -/
example : ∃ s, Reachable (sampleBackend.env false) s ∧ s.future = .running 0 ∧ s.step (sampleBackend.env false) (.asyncFinish 1) = .error .nonfinite := by
  obtain ⟨s, hr, hf⟩ := noSpeed_sample (sampleBackend.env false)
  have hv : ∀ e ∈ ([.setWaypoints [realWp "a" 1 2 3]] ++ [.worker] ++ [.worker] ++ [.worker] ++ [.worker] ++ [.worker] ++ [.worker] ++ [.worker] ++
      [.asyncStart] : List (Event ℝ)), ValidEvent e := by
    simp [ValidEvent, realWp_bookkept]
  exact ⟨s, ⟨_, _, hv, hr⟩, hf, (C127_computation sampleBackend one_pos false s ⟨_, _, hv, hr⟩ 0 hf 1).1 rfl⟩

/-- Vertices in space for which the optimisation fails by a check: the speed is negative. -/
example : (∀ v ∈ realProblem.vertices, WellFormed v ∧ v.D = 3 ∧ ∃ p, v.getConstraint 0 = some p) ∧
    (sampleBackend.env false).optimize realProblem.vertices (-1) = .error .check := by
  have h := sample_handed
  exact ⟨h.2.2, optimize_negative sampleBackend one_pos false _ ⟨h.1, h.2.2⟩ _ (by norm_num)⟩

/-- Without positions something is undefined: the vectors subtracted have different lengths. -/
example (b : OptBackend) (lineal : Bool) : (b.env lineal).optimize [Vertex.mk' 3, ⟨3, [(0, [1, 2, 3])]⟩] 1 = .error .ub := by
  cases lineal <;> rfl

/-- In the midst of the threads' work: the worker has launched a computation and not yet noted it, the computation is in progress, and an evaluating call
is waiting. -/
example : ∃ s : Whole ℝ, Threads (sampleBackend.env false) s ∧ s.p.pc = .launched ∧ s.p.future = .running 0 ∧ s.c = .wait (.evaluate 5 false false) := by
  have h0 := Threads.init (env := sampleBackend.env false) ⟨0, 0, 0⟩
  have h1 := Threads.step h0 (.user (.setWaypoints [realWp "a" 1 2 3]) trivial (by simp [ValidEvent, realWp_bookkept]) (fun _ => rfl) rfl)
  have h2 := Threads.step (Threads.step (Threads.step h1 (.worker rfl)) (.worker rfl)) (.worker rfl)
  have h3 := Threads.step (Threads.step (Threads.step h2 (.worker rfl)) (.worker rfl)) (.worker rfl)
  have h4 := Threads.step (.call (.evaluate 5 false false) h3 rfl) (.evaluator _ rfl)
  have h5 := Threads.step (Threads.step (Threads.step h4 (.worker rfl)) (.worker rfl)) (.worker rfl)
  have h6 := Threads.step (Threads.step h5 (.worker rfl)) (.worker rfl)
  have h7 := Threads.step h6 (.task .asyncStart trivial trivial rfl)
  exact ⟨_, h7, rfl, rfl, rfl⟩

end Verif.Properties
