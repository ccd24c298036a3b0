import Verif.Lemmas.PlannerThreadsPhases
import Verif.Lemmas.PlannerClock
import Verif.Spec.Clock

/-!
# The worker's look at requests and security zone, in any interleaving of all threads
-/

set_option linter.unusedSectionVars false
set_option linter.unusedSimpArgs false

namespace Verif.Lemmas
open Verif Verif.Spec

variable {K : Type*} [Field K] [LinearOrder K] [IsStrictOrderedRing K] [FloorSemiring K]

/-- The plan is fetched and the waypoints are still to be replaced. -/
def Late : Consumer K → Prop
  | .fitted _ _ _ => True
  | .params _ _ => True
  | .traj _ _ => True
  | .mark _ => True
  | .swap _ => True
  | _ => False

theorem settled_dyn {f : Fine K} (h : ¬ Late f.c) : (settled f).dyn = f.p.dyn := by
  obtain ⟨p, c⟩ := f
  cases c <;> first | rfl | exact absurd trivial h

theorem serialised_sorted {env : Env K} (henv : Segmentwise env) {s : Planner K} (h : Serialised env s) :
    s.dyn.Pairwise (fun a b => a.time < b.time) := by
  have hp := serialised_plan henv h
  cases ht : s.traj with
  | none => rw [hp.none ht]; exact .nil
  | some tr => exact timed_sorted tr (traj_usable env henv s hp tr ht) _ _ (hp.taken tr ht).1

theorem late_held {env : Env K} {f : Fine K} (hl : Late f.c) (hp : PhaseInv env f) : Held f.p := by
  obtain ⟨p, c⟩ := f
  cases c <;> first | exact hl.elim | exact hp.1

theorem own_late {env : Env K} {p p' : Planner K} {c c' : Consumer K} (h : Fine.consume env ⟨p, c⟩ = .ok (some ⟨p', c'⟩)) (hl : Late c') :
    p'.dyn = p.dyn := by
  cases c with
  | swap k =>
    simp only [Fine.consume] at h
    injection h with h; injection h with h; injection h with h1 h2
    rw [← h2] at hl; exact hl.elim
  | offset k new scratch target m =>
    simp only [Fine.consume] at h
    injection h with h; injection h with h; injection h with h1 h2
    rw [← h1]
  | fitted k new scratch =>
    simp only [Fine.consume] at h
    injection h with h; injection h with h; injection h with h1 h2
    rw [← h1]; split <;> rfl
  | note t o f l =>
    simp only [Fine.consume] at h
    injection h with h; injection h with h; injection h with h1 h2
    rw [← h1]; split <;> rfl
  | start k => cases k <;> simp only [Fine.consume] at h <;> (injection h with h; injection h with h; injection h with h1 h2; rw [← h1])
  | wait k =>
    simp only [Fine.consume] at h
    split at h
    · injection h with h; injection h with h; injection h with h1 h2; rw [← h1]
    · cases h
  | ready k =>
    simp only [Fine.consume] at h
    split at h
    · injection h with h; injection h with h; injection h with h1 h2; rw [← h1]
    · cases h
  | get k =>
    simp only [Fine.consume] at h
    split at h
    · injection h with h; injection h with h; injection h with h1 h2; rw [← h1]
    all_goals cases h
  | target k new =>
    simp only [Fine.consume] at h
    split at h <;> (injection h with h; injection h with h; injection h with h1 h2; rw [← h1])
  | old k new g l =>
    simp only [Fine.consume] at h
    split at h
    · cases h
    · simp only [bind, Except.bind] at h
      split at h
      · cases h
      · injection h with h; injection h with h; injection h with h1 h2; rw [← h1]
  | fit0 k new scratch target =>
    simp only [Fine.consume, bind, Except.bind] at h
    split at h
    · cases h
    · injection h with h; injection h with h; injection h with h1 h2; rw [← h1]
  | fit k new scratch target n i d m =>
    cases n with
    | zero =>
      simp only [Fine.consume] at h
      injection h with h; injection h with h; injection h with h1 h2; rw [← h1]
    | succ n =>
      simp only [Fine.consume, bind, Except.bind] at h
      split at h
      · cases h
      · split at h <;> (injection h with h; injection h with h; injection h with h1 h2; rw [← h1])
  | plain o g l done =>
    simp only [Fine.consume] at h
    split at h
    · cases h
    · simp only [bind, Except.bind] at h
      split at h
      · cases h
      · split at h
        · cases h
        · injection h with h; injection h with h; injection h with h1 h2; rw [← h1]
  | compensate o g l done base =>
    simp only [Fine.consume, bind, Except.bind, pure, Except.pure] at h
    split at h
    · split at h
      · cases h
      · injection h with h; injection h with h; injection h with h1 h2; rw [← h1]
    · injection h with h; injection h with h; injection h with h1 h2; rw [← h1]
  | length b =>
    simp only [Fine.consume] at h
    split at h
    · cases h
    · injection h with h; injection h with h; injection h with h1 h2; rw [← h1]
  | free => cases h
  | evaluated r => cases h
  | copied r => cases h
  | time r => cases h
  | _ =>
    simp only [Fine.consume] at h
    injection h with h; injection h with h; injection h with h1 h2; rw [← h1]

/-- The times of the waypoints of the current plan increase, also while a plan is being taken over. -/
theorem interleaved_sorted {env : Env K} (henv : Segmentwise env) {f : Fine K} (h : Interleaved env f) :
    f.p.dyn.Pairwise (fun a b => a.time < b.time) := by
  induction h with
  | init v => exact .nil
  | call k _ _ ih => exact ih
  | @inside f f' h0 hs ih =>
    by_cases hl : Late f'.c
    · cases hs with
      | @own f f' h =>
        obtain ⟨p, c⟩ := f
        obtain ⟨p', c'⟩ := f'
        rw [show p'.dyn = p.dyn from own_late h hl]
        exact ih
      | @other p p' c h =>
        have hi := interleaved_inv h0
        have : p'.dyn = p.dyn := (aside_unchanged (other_aside (late_held (f := ⟨p, c⟩) hl hi.2) h)).dyn
        simp only [this]
        exact ih
    · rw [← settled_dyn hl]
      exact serialised_sorted henv (interleaved_inv (.inside h0 hs)).1

/-- What the worker has found out so far. -/
def Looked (ss : List (Whole K)) (s : Whole K) : Prop :=
  match s.w with
  | .zone => ∃ m ∈ ss, m.p.generateNew = true
  | .zoneRead => ∃ m ∈ ss, m.p.generateNew = true
  | .zoneLoop ws clock => (∃ m ∈ ss, m.p.generateNew = true) ∧ ∃ m ∈ ss, ws = m.p.dyn ∧ clock = m.p.params.lastGlobal
  | .status b => (∃ m ∈ ss, m.p.generateNew = true) ∧ (b = false → (∃ m ∈ ss, m.p.traj = none) ∨
      ∃ before after, ss = before ++ after ∧ ∃ m ∈ before, ∃ m' ∈ after, ¬ ∃ w ∈ m.p.dyn, w.name ≠ "" ∧ m.p.params.lastGlobal < w.time ∧
        w.time ≤ m.p.params.lastGlobal + 10 * m'.p.timeConstant)
  | _ => True

theorem looked_grows {ss : List (Whole K)} {s : Whole K} (h : Looked ss s) (p' : Planner K) (c' : Consumer K) (q : Whole K) :
    Looked (ss ++ [q]) ⟨p', c', s.w⟩ := by
  unfold Looked at h ⊢
  have grow : ∀ (P : Whole K → Prop), (∃ m ∈ ss, P m) → ∃ m ∈ ss ++ [q], P m :=
    fun P ⟨m, hm, hP⟩ => ⟨m, List.mem_append_left _ hm, hP⟩
  cases hw : s.w <;> rw [hw] at h <;> simp only at h ⊢
  case zone => exact grow _ h
  case zoneRead => exact grow _ h
  case zoneLoop ws clock => exact ⟨grow _ h.1, grow _ h.2⟩
  case status b =>
    refine ⟨grow _ h.1, fun hb => ?_⟩
    rcases h.2 hb with h | ⟨before, after, rfl, m, hm, m', hm', hh⟩
    · exact Or.inl (grow _ h)
    · exact Or.inr ⟨before, after ++ [q], by simp, m, hm, m', List.mem_append_left _ hm', hh⟩

theorem work_w {env : Env K} {l : Label K} {s s' : Whole K} (h : ThreadStep env l s s') (hl : l ≠ .worker) : s'.w = s.w := by
  cases h with
  | worker => exact absurd rfl hl
  | _ => rfl

theorem looking {env : Env K} (henv : Segmentwise env) {s0 s : Whole K} {ss : List (Whole K)} (h0 : Threads env s0) (hpc : s0.p.pc = .top)
    (hw : s0.w = .begin) (h : Stretch env (fun _ _ b => b.p.pc = .top ∧ b.w ≠ .begin) s0 ss s) : s.p.pc = .top ∧ Looked ss s ∧
      ∀ ws clock, s.w = .zoneLoop ws clock → ws.Pairwise (fun a b => a.time < b.time) := by
  induction h with
  | start => exact ⟨hpc, by unfold Looked; rw [hw]; trivial, fun ws clock hh => by rw [hw] at hh; cases hh⟩
  | @call ss s k hs hf ih =>
    obtain ⟨h1, h2, h3⟩ := ih
    exact ⟨h1, looked_grows h2 _ _ _, h3⟩
  | @step ss l s s' hs hst hok ih =>
    obtain ⟨h1, h2, h3⟩ := ih
    have ht := stretch_threads h0 hs
    by_cases hl : l = .worker
    · subst hl
      have hin := stretch_mem hs
      cases hst with
      | worker h =>
        refine ⟨hok.1, ?_⟩
        have hsort := interleaved_sorted henv (threads_inv ht).1
        obtain ⟨p, c, w⟩ := s
        replace h1 : p.pc = .top := h1
        have hloc := (threads_inv ht).2
        unfold Local at hloc
        simp only [h1] at hloc
        have grow : ∀ (P : Whole K → Prop) (q : Whole K), (∃ m ∈ ss, P m) → ∃ m ∈ ss ++ [q], P m :=
          fun P q ⟨m, hm, hP⟩ => ⟨m, List.mem_append_left _ hm, hP⟩
        unfold Looked at h2
        simp only at h2 h3 hsort
        cases w <;> simp only at hloc h2 <;> simp only [Whole.work, h1] at h
        case begin =>
          rw [← Except.ok.inj h]
          by_cases hg : p.generateNew = true
          · refine ⟨?_, ?_⟩
            · unfold Looked
              simp only [if_pos hg]
              exact ⟨_, List.mem_append_left _ hin, hg⟩
            · simp only [if_pos hg]
              intro _ _ hh; cases hh
          · refine ⟨?_, ?_⟩
            · unfold Looked
              simp only [if_neg hg]
            · simp only [if_neg hg]
              intro _ _ hh; cases hh
        case zone =>
          rw [← Except.ok.inj h]
          by_cases hg : p.traj.isSome = true
          · refine ⟨?_, ?_⟩
            · unfold Looked
              simp only [if_pos hg]
              exact grow _ _ h2
            · simp only [if_pos hg]
              intro _ _ hh; cases hh
          · refine ⟨?_, ?_⟩
            · unfold Looked
              simp only [if_neg hg]
              exact ⟨grow _ _ h2, fun _ => Or.inl ⟨_, List.mem_append_left _ hin, by simpa using hg⟩⟩
            · simp only [if_neg hg]
              intro _ _ hh; cases hh
        case zoneRead =>
          rw [← Except.ok.inj h]
          refine ⟨⟨grow _ _ h2, _, List.mem_append_left _ hin, rfl, rfl⟩, ?_⟩
          intro ws clock hh
          injection hh with e1 e2
          rw [← e1]
          exact hsort
        case zoneLoop ws clock =>
          rw [← Except.ok.inj h]
          refine ⟨⟨grow _ _ h2.1, ?_⟩, fun _ _ hh => by cases hh⟩
          intro hb
          right
          obtain ⟨_, m, hm, rfl, rfl⟩ := h2
          have hso := h3 _ _ rfl
          refine ⟨ss, [_], rfl, m, hm, _, List.mem_singleton.mpr rfl, ?_⟩
          have : 5 * p.computationTime = 10 * p.timeConstant := by unfold Planner.computationTime; ring
          simp only
          rw [← this, ← zoneLoop_iff _ _ _ hso, hb]
          decide
        case status b =>
          split at h
          · rw [← Except.ok.inj h] at hok
            cases hok.1
          · rw [← Except.ok.inj h]
            exact ⟨trivial, fun _ _ hh => by cases hh⟩
        case queue =>
          rw [← Except.ok.inj h]
          by_cases hg : p.toModify.isEmpty = true
          · rw [← Except.ok.inj h] at hok
            simp only [if_pos hg] at hok
            exact absurd rfl hok.2
          · refine ⟨?_, ?_⟩
            · unfold Looked
              simp only [if_neg hg]
            · simp only [if_neg hg]
              intro _ _ hh; cases hh
        case queueStatus =>
          split at h
          · rw [← Except.ok.inj h] at hok
            cases hok.1
          · rw [← Except.ok.inj h] at hok
            exact absurd rfl hok.2
    · have hw' := work_w hst hl
      refine ⟨hok.1, ?_, ?_⟩
      · have := looked_grows h2 s'.p s'.c s'
        rw [← hw'] at this
        exact this
      · rw [hw']; exact h3

/-- The step with which the worker begins to plan. -/
theorem look_ends {env : Env K} {l : Label K} {s s' : Whole K} (h : ThreadStep env l s s') (ht : Threads env s) (hpc : s.p.pc = .top)
    (hpc' : s'.p.pc = .collect) : l = .worker ∧ s.w = .status false ∧ s.p.computing = false ∧ s' = ⟨{ s.p with pc := .collect }, s.c, .begin⟩ := by
  cases h with
  | evaluator w h => have := own_pc h; simp only at hpc hpc'; rw [hpc, hpc'] at this; cases this
  | user e hu _ hq h => have := (user_beside hu hq h).pc; simp only at hpc hpc'; rw [hpc, hpc'] at this; cases this
  | request => simp only at hpc hpc'; rw [hpc] at hpc'; cases hpc'
  | task e hk _ h => have := (task_pc hk h).1; simp only at hpc hpc'; rw [hpc, hpc'] at this; cases this
  | worker h =>
    refine ⟨rfl, ?_⟩
    have hloc := (threads_inv ht).2
    obtain ⟨p, c, w⟩ := s
    replace hpc : p.pc = .top := hpc
    unfold Local at hloc
    simp only [hpc] at hloc
    have no : ∀ q : Planner K, s'.p = q → q.pc = .top → False := by
      intro q h1 h2
      rw [h1, h2] at hpc'
      cases hpc'
    cases w <;> simp only at hloc <;> simp only [Whole.work, hpc] at h
    case status b =>
      split at h
      · rename_i hb
        rw [Bool.and_eq_true, Bool.not_eq_true', Bool.not_eq_true'] at hb
        exact ⟨by rw [hb.1], hb.2, (Except.ok.inj h).symm⟩
      · exact (no p (by rw [← Except.ok.inj h]) hpc).elim
    case queueStatus =>
      split at h
      · rw [← Except.ok.inj h] at hpc'
        cases hpc'
      · exact (no p (by rw [← Except.ok.inj h]) hpc).elim
    all_goals exact (no p (by rw [← Except.ok.inj h]) hpc).elim

end Verif.Lemmas
