import Verif.Lemmas.PlannerThreadsFail
import Verif.Lemmas.PlannerRequests

/-!
# What is asked for, in any interleaving of all threads
-/

set_option linter.unusedSectionVars false
set_option linter.unusedSimpArgs false

namespace Verif.Lemmas
open Verif Verif.Spec

variable {K : Type*} [Field K] [LinearOrder K] [IsStrictOrderedRing K] [FloorSemiring K]

structure Keeps (p p' : Planner K) : Prop where
  pc : p'.pc = p.pc
  toSet : p'.toSet = p.toSet
  toAdd : p'.toAdd = p.toAdd
  toModify : p'.toModify = p.toModify
  vehicle : p'.vehicle = p.vehicle
  timeConstant : p'.timeConstant = p.timeConstant
  next : p'.next = p.next

theorem Keeps.refl (p : Planner K) : Keeps p p := ⟨rfl, rfl, rfl, rfl, rfl, rfl, rfl⟩

/-- What no step of the evaluating thread changes. -/
theorem own_keeps {env : Env K} {p p' : Planner K} {c c' : Consumer K} (h : Fine.consume env ⟨p, c⟩ = .ok (some ⟨p', c'⟩)) : Keeps p p' := by
  have simple : ∀ {q : Planner K} {d : Consumer K}, (Except.ok (some (⟨q, d⟩ : Fine K)) : Res (Option (Fine K))) = .ok (some ⟨p', c'⟩) → p' = q :=
    fun h => by
      have := Option.some.inj (Except.ok.inj h)
      injection this with h1 h2
      exact h1.symm
  cases c with
  | free => cases h
  | evaluated r => cases h
  | copied ws => cases h
  | time x => cases h
  | start k => cases k <;> (rw [simple h]; exact ⟨rfl, rfl, rfl, rfl, rfl, rfl, rfl⟩)
  | wait k =>
    simp only [Fine.consume] at h
    split at h
    · rw [simple h]; exact ⟨rfl, rfl, rfl, rfl, rfl, rfl, rfl⟩
    · cases h
  | ready k =>
    simp only [Fine.consume] at h
    split at h
    · rw [simple h]; exact ⟨rfl, rfl, rfl, rfl, rfl, rfl, rfl⟩
    · cases h
  | get k =>
    simp only [Fine.consume] at h
    split at h
    · rw [simple h]; exact ⟨rfl, rfl, rfl, rfl, rfl, rfl, rfl⟩
    · cases h
    · cases h
    · cases h
  | target k new =>
    simp only [Fine.consume] at h
    split at h <;> (rw [simple h]; exact ⟨rfl, rfl, rfl, rfl, rfl, rfl, rfl⟩)
  | old k new g l =>
    simp only [Fine.consume] at h
    split at h
    · cases h
    · simp only [bind, Except.bind] at h
      split at h
      · cases h
      · rw [simple h]; exact ⟨rfl, rfl, rfl, rfl, rfl, rfl, rfl⟩
  | fit0 k new s x =>
    simp only [Fine.consume, bind, Except.bind] at h
    split at h
    · cases h
    · rw [simple h]; exact ⟨rfl, rfl, rfl, rfl, rfl, rfl, rfl⟩
  | fit k new s x n i d m =>
    cases n with
    | zero => rw [simple h]; exact ⟨rfl, rfl, rfl, rfl, rfl, rfl, rfl⟩
    | succ n =>
      simp only [Fine.consume, bind, Except.bind] at h
      split at h
      · cases h
      · split at h <;> (rw [simple h]; exact ⟨rfl, rfl, rfl, rfl, rfl, rfl, rfl⟩)
  | fitted k new s =>
    rw [simple h]
    cases s <;> exact ⟨rfl, rfl, rfl, rfl, rfl, rfl, rfl⟩
  | note t o f l =>
    rw [simple h]
    cases f <;> exact ⟨rfl, rfl, rfl, rfl, rfl, rfl, rfl⟩
  | plain o g l done =>
    simp only [Fine.consume] at h
    split at h
    · cases h
    · simp only [bind, Except.bind] at h
      split at h
      · cases h
      · split at h
        · cases h
        · rw [simple h]; exact ⟨rfl, rfl, rfl, rfl, rfl, rfl, rfl⟩
  | compensate o g l done base =>
    obtain ⟨v, _, hv⟩ := compensate_step h
    injection hv with h1 h2
    rw [h1]; exact .refl p
  | length m =>
    simp only [Fine.consume] at h
    split at h
    · cases h
    · rw [simple h]; exact ⟨rfl, rfl, rfl, rfl, rfl, rfl, rfl⟩
  | _ => rw [simple h]; exact ⟨rfl, rfl, rfl, rfl, rfl, rfl, rfl⟩

/-- What the worker does to the queues. -/
theorem work_queues {env : Env K} {s s' : Whole K} (h : s.work env = .ok s') :
    (s.p.pc = .collect ∧ s'.p.pc = .collected ∧ s'.p.toSet = [] ∧ s'.p.toAdd = [] ∧ s'.p.toModify = []) ∨
    (s.p.pc = .apply ∧ s'.p.pc = .top ∧ s'.p.toSet = s.p.toSet ∧ s'.p.toAdd = s.p.toAdd ∧ s'.p.toModify = []) ∨
    (¬ (s.p.pc = .collect ∧ s'.p.pc = .collected) ∧ ¬ (s.p.pc = .apply ∧ s'.p.pc = .top) ∧
      s'.p.toSet = s.p.toSet ∧ s'.p.toAdd = s.p.toAdd ∧ s'.p.toModify = s.p.toModify) := by
  obtain ⟨p, c, w⟩ := s
  have same : ∀ {q : Whole K}, (Except.ok q : Res (Whole K)) = .ok s' → s' = q := fun h => (Except.ok.inj h).symm
  have whole : ∀ (r : Res (Planner K)) (c : Consumer K), (r.bind fun p' => .ok ⟨p', c, .begin⟩) = .ok s' → r = .ok s'.p := by
    intro r c h
    cases r with
    | error e => cases h
    | ok p' => rw [same h]
  cases hpc : p.pc <;> cases w <;> simp only [Whole.work, hpc] at h
  case top.begin => rw [same h]; simp [hpc]
  case top.zone => rw [same h]; simp [hpc]
  case top.zoneRead => rw [same h]; simp [hpc]
  case top.zoneLoop => rw [same h]; simp [hpc]
  case top.status => split at h <;> (rw [same h]; simp [hpc])
  case top.queue => rw [same h]; simp [hpc]
  case top.queueStatus => split at h <;> (rw [same h]; simp [hpc])
  case collect.begin => rw [same h]; simp [hpc]
  case collect.filter ws =>
    simp only [bind, Except.bind] at h
    split at h
    · cases h
    · rw [same h]; simp [hpc]
  case collect.merge base =>
    simp only [bind, Except.bind] at h
    split at h
    · cases h
    · rw [same h]; simp [hpc]
  case collected.begin =>
    have := whole _ _ h
    simp only [Planner.workerStep, hpc] at this
    split at this <;> (rw [← Except.ok.inj this]; simp)
  case planned.begin =>
    have := whole _ _ h
    simp only [Planner.workerStep, hpc] at this
    rw [← Except.ok.inj this]; simp
  case launching.begin =>
    have := whole _ _ h
    simp only [Planner.workerStep, hpc] at this
    rw [← Except.ok.inj this]; simp
  case launched.begin =>
    have := whole _ _ h
    simp only [Planner.workerStep, hpc] at this
    rw [← Except.ok.inj this]; simp
  case snapshotted.begin => rw [same h]; simp [hpc]
  case snapshotted.stitchParams => rw [same h]; simp [hpc]
  case snapshotted.stitchTime clock start =>
    split at h
    · cases h
    · rw [same h]; simp [hpc]
  case snapshotted.attach => rw [same h]; simp
  case snapshotted.point0 => rw [same h]; simp [hpc]
  case snapshotted.convert => rw [same h]; simp [hpc]
  case snapshotted.plain g t points done =>
    split at h
    · cases h
    · simp only [bind, Except.bind] at h
      split at h
      · cases h
      · split at h
        · cases h
        · rw [same h]; simp [hpc]
  case snapshotted.compensate g t points done base =>
    have key : s'.p = p := by
      split at h
      · simp only [bind, Except.bind] at h
        split at h
        · cases h
        · split at h
          · rw [same h]
          · split at h
            · cases h
            · split at h <;> rw [same h]
      · simp only [bind, Except.bind, pure, Except.pure] at h
        split at h
        · rw [same h]
        · split at h
          · cases h
          · split at h <;> rw [same h]
    rw [key]; simp [hpc]
  case snapshotted.rest => rw [same h]; simp
  case snapshotted.drone => rw [same h]; simp
  case snapshotted.vehicle =>
    simp only [bind, Except.bind] at h
    split at h
    · cases h
    · rw [same h]; simp
  case apply.begin => rw [same h]; simp [hpc]
  case apply.modification ms => cases ms <;> (rw [same h]; simp [hpc])
  case apply.waypoints name x ms done rest =>
    cases rest with
    | nil => rw [same h]; simp
    | cons a rest =>
      simp only at h
      split at h
      · simp only [bind, Except.bind] at h
        split at h
        · cases h
        · rw [same h]; simp
      · rw [same h]; simp [hpc]
  all_goals cases h

/-- The queues hold exactly what is pending. -/
theorem pending_tracks {env : Env K} {g : Requests K} {s : Whole K} (h : Pending env g s) : Threads env s ∧ Tracks g s.p := by
  have same : ∀ {g : Requests K} {p p' : Planner K}, Tracks g p → p'.toSet = p.toSet → p'.toAdd = p.toAdd → p'.toModify = p.toModify →
      Tracks g p' :=
    fun ht h1 h2 h3 => ⟨h1.trans ht.1, h2.trans ht.2, by rw [h3]; exact ht.3, by rw [h3]; exact ht.4⟩
  induction h with
  | init v => exact ⟨.init v, rfl, rfl, by simp [Planner.init], fun n => by simp [Planner.init, Requests.nothing, lookupMod, lastUpdate]⟩
  | call k _ hf ih => exact ⟨.call k ih.1 hf, ih.2⟩
  | @user g s s' e _ hs ih =>
    refine ⟨.step ih.1 hs, ?_⟩
    cases hs with
    | user _ hu _ _ h =>
      have := tracks_step env g e _ _ ih.2 h
      cases e <;> first | exact hu.elim | exact this
  | @taken g l s s' _ hs ht ih =>
    refine ⟨.step ih.1 hs, ?_⟩
    obtain ⟨rfl, h1, h2⟩ := ht
    cases hs with
    | worker h =>
      rcases work_queues h with ⟨_, _, k1, k2, k3⟩ | ⟨k, _⟩ | ⟨k, _⟩
      · exact ⟨k1, k2, by rw [k3]; simp, fun n => by rw [k3]; simp [Requests.nothing, lookupMod, lastUpdate]⟩
      · rw [h1] at k; cases k
      · exact absurd ⟨h1, h2⟩ k
  | @updated g l s s' _ hs ht ih =>
    refine ⟨.step ih.1 hs, ?_⟩
    obtain ⟨rfl, h1, h2⟩ := ht
    cases hs with
    | worker h =>
      rcases work_queues h with ⟨k, _⟩ | ⟨_, _, k1, k2, k3⟩ | ⟨_, k, _⟩
      · rw [h1] at k; cases k
      · exact ⟨k1.trans ih.2.1, k2.trans ih.2.2, by rw [k3]; simp, fun n => by rw [k3]; simp [lookupMod, lastUpdate]⟩
      · exact absurd ⟨h1, h2⟩ k
  | @other g l s s' _ hs hu h1 h2 ih =>
    refine ⟨.step ih.1 hs, ?_⟩
    cases hs with
    | evaluator w h =>
      have hk := own_keeps h
      exact same ih.2 hk.toSet hk.toAdd hk.toModify
    | worker h =>
      rcases work_queues h with ⟨k1, k2, _⟩ | ⟨k1, k2, _⟩ | ⟨_, _, k1, k2, k3⟩
      · exact absurd ⟨rfl, k1, k2⟩ h1
      · exact absurd ⟨rfl, k1, k2⟩ h2
      · exact same ih.2 k1 k2 k3
    | user e => exact absurd rfl (hu e)
    | request => exact same ih.2 rfl rfl rfl
    | task e ht _ h =>
      have := tracks_step env g e _ _ ih.2 h
      cases e <;> first | exact ht.elim | exact this

/-- Every interleaving has its pending requests. -/
theorem threads_pending {env : Env K} {s : Whole K} (h : Threads env s) : ∃ g, Pending env g s := by
  induction h with
  | init v => exact ⟨_, .init v⟩
  | call k _ hf ih => obtain ⟨g, hg⟩ := ih; exact ⟨g, .call k hg hf⟩
  | @step l s s' _ hs ih =>
    obtain ⟨g, hg⟩ := ih
    by_cases hu : ∃ e, l = .user e
    · obtain ⟨e, rfl⟩ := hu
      exact ⟨_, .user e hg hs⟩
    · by_cases h1 : TakesRequests s l s'
      · exact ⟨_, .taken hg hs h1⟩
      · by_cases h2 : FinishesUpdates s l s'
        · exact ⟨_, .updated hg hs h2⟩
        · exact ⟨_, .other hg hs (fun e he => hu ⟨e, he⟩) h1 h2⟩

end Verif.Lemmas
