import Verif.Lemmas.PlannerThreads

/-!
# How a step of the worker can fail, in any interleaving
-/

set_option linter.unusedSectionVars false
set_option linter.unusedSimpArgs false

namespace Verif.Lemmas
open Verif Verif.Spec

variable {K : Type*} [Field K] [LinearOrder K] [IsStrictOrderedRing K] [FloorSemiring K]

/-- The invariants while the worker plans or applies updates. -/
theorem threads_phase {env : Env K} {s : Whole K} (h : Threads env s) (hpc : s.p.pc ≠ .top ∧ s.p.pc ≠ .launching ∧ s.p.pc ≠ .launched) :
    Serialised env s.p ∧ s.p.computing = false ∧ s.p.future = .invalid ∧ ¬ TakingOver s.c := by
  obtain ⟨hi, _⟩ := threads_inv h
  have hinv := interleaved_inv hi
  obtain ⟨h1, h2, _⟩ := phase_idle hinv hpc
  have hn : ¬ TakingOver s.c := by
    obtain ⟨p, c, w⟩ := s
    intro ht
    have hp := hinv.2
    have hh : Held p := by cases c <;> first | exact ht.elim | exact hp.1 | exact hp
    have : p.computing = false := h1
    rw [hh.2.1] at this
    cases this
  have hs := hinv.1
  rw [settled_eq (f := ⟨s.p, s.c⟩) hn] at hs
  exact ⟨hs, h1, h2, hn⟩

theorem merge_total {p : Planner K} (hw : WpInv p) {clock : K} {base : List (Waypoint K)} (hb : Base p clock base) :
    ∃ all, resetAll p.toModify (base ++ p.toAdd.map (·.copy)) = .ok all := by
  obtain ⟨ws, hg⟩ := generateWaypoints_total { p with params := { p.params with lastGlobal := clock } } ⟨hw.1, hw.2, hw.3, hw.4⟩
  cases hr : resetAll p.toModify (base ++ p.toAdd.map (·.copy)) with
  | ok all => exact ⟨all, rfl⟩
  | error e =>
    exfalso
    unfold Planner.generateWaypoints at hg
    unfold Base at hb
    by_cases ht : p.toSet.length = 0
    · rw [if_pos ht] at hb
      simp only [if_pos ht, bind, Except.bind] at hg
      rw [hb] at hg
      simp only [hr] at hg
      cases hg
    · rw [if_neg ht] at hb
      simp only [if_neg ht, bind, Except.bind] at hg
      rw [hb] at hg
      simp only [hr] at hg
      cases hg

theorem filter_total {p : Planner K} (hw : WpInv p) (ht : p.toSet = []) :
    ∃ base, (p.filterPassed (p.dyn.map (·.copy))).mapM (·.resetWithCurrent) = .ok base := by
  obtain ⟨ws, hg⟩ := generateWaypoints_total p hw
  cases hr : (p.filterPassed (p.dyn.map (·.copy))).mapM (·.resetWithCurrent) with
  | ok b => exact ⟨b, rfl⟩
  | error e =>
    exfalso
    unfold Planner.generateWaypoints at hg
    simp only [ht, List.length_nil, if_true, bind, Except.bind] at hg
    rw [hr] at hg
    cases hg

/-- Only while a plan is attached to the old one can a step of the worker fail, and only with a compensation of width zero. -/
theorem work_fail {env : Env K} (henv : Segmentwise env) {s : Whole K} (h : Threads env s) {e : Fail} (he : s.work env = .error e) :
    e = .nonfinite ∧ s.p.pc = .snapshotted ∧ ¬ NoZeroWidth s.p.dyn := by
  have hl := (threads_inv h).2
  have hph := threads_phase h
  obtain ⟨p, c, w⟩ := s
  unfold Local at hl
  simp only at hl hph
  cases hpc : p.pc <;> cases w <;> rw [hpc] at hl <;> simp only at hl <;> simp only [Whole.work, hpc] at he
  case top.begin => cases he
  case top.zone => cases he
  case top.zoneRead => cases he
  case top.zoneLoop => cases he
  case top.status => split at he <;> cases he
  case top.queue => cases he
  case top.queueStatus => split at he <;> cases he
  case collect.begin => cases he
  case collect.filter ws =>
    have hs := hph ⟨by rw [hpc]; simp, by rw [hpc]; simp, by rw [hpc]; simp⟩
    obtain ⟨base, hb⟩ := filter_total (serialised_wp hs.1) hl.2
    rw [hl.1, hb] at he
    cases he
  case collect.merge base =>
    have hs := hph ⟨by rw [hpc]; simp, by rw [hpc]; simp, by rw [hpc]; simp⟩
    obtain ⟨clock, hb⟩ := hl
    obtain ⟨all, ha⟩ := merge_total (serialised_wp hs.1) hb
    rw [ha] at he
    cases he
  case collected.begin =>
    simp only [Planner.workerStep, hpc, bind, Except.bind] at he
    split at he
    · rename_i he'
      split at he' <;> cases he'
    · cases he
  case planned.begin => simp only [Planner.workerStep, hpc, bind, Except.bind] at he; cases he
  case launching.begin => simp only [Planner.workerStep, hpc, bind, Except.bind] at he; cases he
  case launched.begin => simp only [Planner.workerStep, hpc, bind, Except.bind] at he; cases he
  case snapshotted.begin => cases he
  case snapshotted.stitchParams => cases he
  case snapshotted.stitchTime clock start =>
    split at he
    · rename_i htr; exact absurd htr hl
    · cases he
  case snapshotted.attach => cases he
  case snapshotted.point0 => cases he
  case snapshotted.convert => cases he
  case snapshotted.plain g t points done =>
    have hs := hph ⟨by rw [hpc]; simp, by rw [hpc]; simp, by rw [hpc]; simp⟩
    obtain ⟨_, tr, htr, _⟩ := hl
    have hu := traj_usable env henv _ (serialised_plan henv hs.1) tr htr
    rw [htr] at he
    simp only [bind, Except.bind] at he
    rw [clampTime_eq t _ (usable_maxTime_nonneg hu)] at he
    obtain ⟨b, hb⟩ := usable_evaluate hu (max 0 (min t tr.maxTime)) done.length (clamp_mem _ _ (usable_maxTime_nonneg hu)).1
      (clamp_mem _ _ (usable_maxTime_nonneg hu)).2
    rw [hb] at he
    cases he
  case snapshotted.compensate g t points done base =>
    have hs := hph ⟨by rw [hpc]; simp, by rw [hpc]; simp, by rw [hpc]; simp⟩
    obtain ⟨_, tr, htr, h3, h4, h5, h6, h7, y, h8, h9⟩ := hl
    have hu := traj_usable env henv _ (serialised_plan henv hs.1) tr htr
    have hv : (∃ v, (if g > 0 then Planner.compensateLoop env g done.length p.dyn base else .ok base) = .ok v ∧
        (if done.length < 2 then (.ok ⟨p, c, .plain g t points (done ++ [v])⟩ : Res (Whole K)) else do
          let point ← attachPoint (referencesOf (done ++ [v])) points.isEmpty
          if points.length < 1 then .ok ⟨p, c, .convert (t + 5 * p.computationTime) (points ++ [point])⟩
          else .ok ⟨p, c, .rest (t + 5 * p.computationTime) (points ++ [point])⟩) = .error e) ∨
        (∃ e', Planner.compensateLoop env g done.length p.dyn base = .error e' ∧ e = e') := by
      split at he
      · rename_i hg
        simp only [bind, Except.bind] at he
        split at he
        · rename_i e' hv
          cases he
          exact Or.inr ⟨_, hv, rfl⟩
        · rename_i v hv
          exact Or.inl ⟨v, by rw [if_pos hg]; exact hv, he⟩
      · rename_i hg
        exact Or.inl ⟨base, by rw [if_neg hg], he⟩
    rcases hv with ⟨v, hv, he⟩ | ⟨e', hv, rfl⟩
    · exfalso
      have hev := evaluateModified_parts h8 h9 hv
      split at he
      · cases he
      · rename_i hge
        have hlen : done.length = 2 := by omega
        match done, hlen with
        | [x0, x1], _ =>
          subst h5
          have e0 := h7 0 x0 rfl
          have e1 := h7 1 x1 rfl
          simp only [bind, Except.bind] at he
          split at he
          · rename_i e' hpt
            have hsp : p.stitchPoint env tr t points.isEmpty = .error e' := by
              rw [stitchPoint_attach e0 e1 hev]; exact hpt
            have := stitchPoint_fail env p tr t _ e' hsp
            unfold Planner.getReferences at this
            simp only [e0, e1, show p.evaluateModified env tr (t + p.params.gtlg) t 2 = .ok v from hev, bind, Except.bind, pure, Except.pure,
              Bool.false_eq_true, if_false] at this
            cases this
          · split at he <;> cases he
    · refine ⟨compensateLoop_fail env _ _ _ _ _ hv, rfl, ?_⟩
      intro hz
      obtain ⟨v, hv'⟩ := compensateLoop_total env g done.length p.dyn base hz
      rw [hv'] at hv; cases hv
  case snapshotted.rest => cases he
  case snapshotted.drone => cases he
  case snapshotted.vehicle =>
    obtain ⟨ws, hws⟩ := appendDrone_total p p.next
    rw [hws] at he
    cases he
  case apply.begin => cases he
  case apply.modification ms => cases ms <;> cases he
  case apply.waypoints name x ms done rest =>
    have hs := hph ⟨by rw [hpc]; simp, by rw [hpc]; simp, by rw [hpc]; simp⟩
    obtain ⟨pre, h1, _⟩ := hl
    cases rest with
    | nil => cases he
    | cons a rest =>
      have hb : Bookkept a := (serialised_wp hs.1).dyn a (by rw [h1]; simp)
      obtain ⟨a', ha⟩ := setCurrentPosition_ok a x p.params.lastGlobal hb.1
      simp only [ha] at he
      split at he <;> cases he

end Verif.Lemmas
