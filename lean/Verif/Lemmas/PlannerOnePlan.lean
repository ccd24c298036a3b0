import Verif.Lemmas.PlannerThreads
import Verif.Spec.PlannerOnePlan

/-!
# Plans and requests, thread by thread
-/

set_option linter.unusedSectionVars false
set_option linter.unusedSimpArgs false

namespace Verif.Lemmas
open Verif Verif.Spec

variable {K : Type*} [Field K] [LinearOrder K] [IsStrictOrderedRing K] [FloorSemiring K]

/-- The evaluating thread never sets the request flag, and never changes the queues, the plan in preparation or the vehicle's position. -/
theorem own_requests {env : Env K} {p p' : Planner K} {c c' : Consumer K} (h : Fine.consume env ⟨p, c⟩ = .ok (some ⟨p', c'⟩)) :
    (p'.generateNew = p.generateNew ∨ p'.generateNew = false) ∧ p'.toSet = p.toSet ∧ p'.toAdd = p.toAdd ∧ p'.toModify = p.toModify ∧ p'.next = p.next ∧
      p'.vehicle = p.vehicle ∧ p'.timeConstant = p.timeConstant := by
  have simple : ∀ {q : Planner K} {d : Consumer K}, (Except.ok (some (⟨q, d⟩ : Fine K)) : Res (Option (Fine K))) = .ok (some ⟨p', c'⟩) → p' = q :=
    fun h => by
      have := Option.some.inj (Except.ok.inj h)
      injection this with h1 h2
      exact h1.symm
  have same : (p.generateNew = p.generateNew ∨ p.generateNew = false) ∧ p.toSet = p.toSet ∧ p.toAdd = p.toAdd ∧ p.toModify = p.toModify ∧
      p.next = p.next ∧ p.vehicle = p.vehicle ∧ p.timeConstant = p.timeConstant := ⟨.inl rfl, rfl, rfl, rfl, rfl, rfl, rfl⟩
  cases c with
  | free => cases h
  | evaluated r => cases h
  | copied ws => cases h
  | time x => cases h
  | start k => cases k <;> (rw [simple h]; exact same)
  | wait k =>
    simp only [Fine.consume] at h
    split at h
    · rw [simple h]; exact same
    · cases h
  | ready k =>
    simp only [Fine.consume] at h
    split at h
    · rw [simple h]; exact same
    · cases h
  | get k =>
    simp only [Fine.consume] at h
    split at h
    · rw [simple h]; exact same
    · cases h
    · cases h
    · cases h
  | target k new =>
    simp only [Fine.consume] at h
    split at h <;> (rw [simple h]; exact same)
  | old k new g l =>
    simp only [Fine.consume] at h
    split at h
    · cases h
    · simp only [bind, Except.bind] at h
      split at h
      · cases h
      · rw [simple h]; exact same
  | fit0 k new s x =>
    simp only [Fine.consume, bind, Except.bind] at h
    split at h
    · cases h
    · rw [simple h]; exact same
  | fit k new s x n i d m =>
    cases n with
    | zero => rw [simple h]; exact same
    | succ n =>
      simp only [Fine.consume, bind, Except.bind] at h
      split at h
      · cases h
      · split at h <;> (rw [simple h]; exact same)
  | fitted k new s =>
    rw [simple h]
    cases s <;> exact same
  | note t o f l =>
    rw [simple h]
    cases f <;> exact same
  | plain o g l done =>
    simp only [Fine.consume] at h
    split at h
    · cases h
    · simp only [bind, Except.bind] at h
      split at h
      · cases h
      · split at h
        · cases h
        · rw [simple h]; exact same
  | compensate o g l done base =>
    obtain ⟨v, _, hv⟩ := compensate_step h
    injection hv with h1 h2
    rw [h1]; exact same
  | length m =>
    simp only [Fine.consume] at h
    split at h
    · cases h
    · rw [simple h]; exact same
  | clearRequest k => rw [simple h]; exact ⟨.inr rfl, rfl, rfl, rfl, rfl, rfl, rfl⟩
  | _ => rw [simple h]; exact same

/-- The computation never sets the request flag. -/
theorem task_requests {env : Env K} {p p' : Planner K} {e : Event K} (ht : ByTask e) (h : p.step env e = .ok (some p')) :
    p'.generateNew = p.generateNew := by
  cases e with
  | asyncStart =>
    simp only [Planner.step, Planner.asyncStart] at h
    split at h
    · rw [← Option.some.inj (Except.ok.inj h)]
    · cases h
  | asyncFinish dt =>
    simp only [Planner.step, Planner.asyncFinish] at h
    split at h
    · split at h
      · rw [← Option.some.inj (Except.ok.inj h)]
      · rw [← Option.some.inj (Except.ok.inj h)]
      · cases h
    · cases h
  | _ => exact ht.elim

/-- No plan is asked for, as far as the worker can see or has seen. -/
def Unaware (s : Whole K) : Prop := s.p.generateNew = false ∧ (s.w = .begin ∨ s.w = .queue ∨ s.w = .queueStatus)

/-- Requests made before the last plan was begun are dealt with. -/
def Spent (s : Whole K) : Prop :=
  match s.p.pc with
  | .top => Unaware s
  | .apply => s.p.generateNew = false
  | .collect => False
  | _ => True

/-- What one step of the worker does to the request flag and to its position in the loop. -/
theorem work_moves {env : Env K} {s s' : Whole K} (h : s.work env = .ok s') :
    (s.p.pc = .top ∧ s'.p = s.p ∧ (s'.w = .zone → s.w = .begin ∧ s.p.generateNew = true) ∧
      (s.w = .begin ∨ s.w = .queue ∨ s.w = .queueStatus → s'.w = .begin ∨ s'.w = .queue ∨ s'.w = .queueStatus ∨ s'.w = .zone)) ∨
    (s.p.pc = .top ∧ s'.p.pc = .collect ∧ ∃ z, s.w = .status z) ∨
    (s.p.pc = .top ∧ s'.p.pc = .apply ∧ s.w = .queueStatus ∧ s'.p.generateNew = s.p.generateNew) ∨
    (s.p.pc = .collect ∧ (s'.p.pc = .collect ∨ s'.p.pc = .collected)) ∨
    (s.p.pc = .apply ∧ s'.p.generateNew = s.p.generateNew ∧ (s'.p.pc = .apply ∨ (s'.p.pc = .top ∧ s'.w = .begin))) ∨
    ((s.p.pc = .collected ∨ s.p.pc = .snapshotted ∨ s.p.pc = .planned ∨ s.p.pc = .launching ∨ s.p.pc = .launched) ∧
      (s'.p.pc = .snapshotted ∨ s'.p.pc = .planned ∨ s'.p.pc = .launching ∨ s'.p.pc = .launched ∨
        (s'.p.pc = .top ∧ s'.w = .begin ∧ s'.p.generateNew = false))) := by
  obtain ⟨p, c, w⟩ := s
  cases hpc : p.pc with
  | top =>
    cases w with
    | begin =>
      simp only [Whole.work, hpc] at h
      rw [← Except.ok.inj h]
      refine .inl ⟨rfl, rfl, ?_, ?_⟩ <;> (cases hg : p.generateNew <;> simp)
    | zone =>
      simp only [Whole.work, hpc] at h
      rw [← Except.ok.inj h]
      refine .inl ⟨rfl, rfl, ?_, ?_⟩ <;> (cases hg : p.traj.isSome <;> simp)
    | zoneRead =>
      simp only [Whole.work, hpc] at h
      rw [← Except.ok.inj h]
      exact .inl ⟨rfl, rfl, by simp, by simp⟩
    | zoneLoop ws clock =>
      simp only [Whole.work, hpc] at h
      rw [← Except.ok.inj h]
      exact .inl ⟨rfl, rfl, by simp, by simp⟩
    | status z =>
      simp only [Whole.work, hpc] at h
      split at h
      · rw [← Except.ok.inj h]; exact .inr (.inl ⟨rfl, rfl, z, rfl⟩)
      · rw [← Except.ok.inj h]; exact .inl ⟨rfl, rfl, by simp, by simp⟩
    | queue =>
      simp only [Whole.work, hpc] at h
      rw [← Except.ok.inj h]
      refine .inl ⟨rfl, rfl, ?_, ?_⟩ <;> (cases hg : p.toModify.isEmpty <;> simp)
    | queueStatus =>
      simp only [Whole.work, hpc] at h
      split at h
      · rw [← Except.ok.inj h]; exact .inr (.inr (.inl ⟨rfl, rfl, rfl, rfl⟩))
      · rw [← Except.ok.inj h]; exact .inl ⟨rfl, rfl, by simp, by simp⟩
    | _ => simp [Whole.work, hpc] at h
  | collect =>
    refine .inr (.inr (.inr (.inl ⟨rfl, ?_⟩)))
    cases w with
    | begin =>
      simp only [Whole.work, hpc] at h
      rw [← Except.ok.inj h]; exact .inl hpc
    | filter ws =>
      simp only [Whole.work, hpc, bind, Except.bind] at h
      split at h
      · cases h
      · rw [← Except.ok.inj h]; exact .inl hpc
    | merge ws =>
      simp only [Whole.work, hpc, bind, Except.bind] at h
      split at h
      · cases h
      · rw [← Except.ok.inj h]; exact .inr rfl
    | _ => simp [Whole.work, hpc] at h
  | apply =>
    refine .inr (.inr (.inr (.inr (.inl ⟨rfl, ?_⟩))))
    cases w with
    | begin =>
      simp only [Whole.work, hpc] at h
      rw [← Except.ok.inj h]; exact ⟨rfl, .inl hpc⟩
    | modification ms =>
      cases ms with
      | nil =>
        simp only [Whole.work, hpc] at h
        rw [← Except.ok.inj h]; exact ⟨rfl, .inr ⟨rfl, rfl⟩⟩
      | cons m ms =>
        simp only [Whole.work, hpc] at h
        rw [← Except.ok.inj h]; exact ⟨rfl, .inl hpc⟩
    | waypoints name x ms done rest =>
      cases rest with
      | nil =>
        simp only [Whole.work, hpc] at h
        rw [← Except.ok.inj h]; exact ⟨rfl, .inl rfl⟩
      | cons a rest =>
        simp only [Whole.work, hpc] at h
        split at h
        · simp only [bind, Except.bind] at h
          split at h
          · cases h
          · rw [← Except.ok.inj h]; exact ⟨rfl, .inl rfl⟩
        · rw [← Except.ok.inj h]; exact ⟨rfl, .inl hpc⟩
    | _ => simp [Whole.work, hpc] at h
  | snapshotted =>
    refine .inr (.inr (.inr (.inr (.inr ⟨.inr (.inl rfl), ?_⟩))))
    have keep : s'.p.pc = .snapshotted ∨ s'.p.pc = .planned → _ := fun hh =>
      (hh.elim .inl fun hh => .inr (.inl hh) : s'.p.pc = .snapshotted ∨ s'.p.pc = .planned ∨ s'.p.pc = .launching ∨ s'.p.pc = .launched ∨
        (s'.p.pc = .top ∧ s'.w = .begin ∧ s'.p.generateNew = false))
    apply keep
    cases w with
    | begin => simp only [Whole.work, hpc] at h; rw [← Except.ok.inj h]; exact .inl hpc
    | stitchParams => simp only [Whole.work, hpc] at h; rw [← Except.ok.inj h]; exact .inl hpc
    | stitchTime clock start =>
      simp only [Whole.work, hpc] at h
      split at h
      · cases h
      · rw [← Except.ok.inj h]; exact .inl hpc
    | attach => simp only [Whole.work, hpc] at h; rw [← Except.ok.inj h]; exact .inl rfl
    | point0 => simp only [Whole.work, hpc] at h; rw [← Except.ok.inj h]; exact .inl hpc
    | convert t points => simp only [Whole.work, hpc] at h; rw [← Except.ok.inj h]; exact .inl hpc
    | plain g t points done =>
      simp only [Whole.work, hpc] at h
      split at h
      · cases h
      · simp only [bind, Except.bind] at h
        split at h
        · cases h
        · split at h
          · cases h
          · rw [← Except.ok.inj h]; exact .inl hpc
    | compensate g t points done base =>
      simp only [Whole.work, hpc, bind, Except.bind] at h
      split at h
      · split at h
        · cases h
        · split at h
          · rw [← Except.ok.inj h]; exact .inl hpc
          · split at h
            · cases h
            · split at h <;> (rw [← Except.ok.inj h]; exact .inl hpc)
      · simp only [pure, Except.pure] at h
        split at h
        · rw [← Except.ok.inj h]; exact .inl hpc
        · split at h
          · cases h
          · split at h <;> (rw [← Except.ok.inj h]; exact .inl hpc)
    | rest t points => simp only [Whole.work, hpc] at h; rw [← Except.ok.inj h]; exact .inr rfl
    | drone => simp only [Whole.work, hpc] at h; rw [← Except.ok.inj h]; exact .inl rfl
    | vehicle =>
      simp only [Whole.work, hpc, bind, Except.bind] at h
      split at h
      · cases h
      · rw [← Except.ok.inj h]; exact .inr rfl
    | _ => simp [Whole.work, hpc] at h
  | collected =>
    refine .inr (.inr (.inr (.inr (.inr ⟨.inl rfl, ?_⟩))))
    cases w with
    | begin =>
      simp only [Whole.work, hpc, bind, Except.bind, Planner.workerStep] at h
      split at h
      · rename_i hh
        split at hh <;> cases hh
      · rename_i q hh
        rw [← Except.ok.inj h]
        split at hh
        · rw [← Except.ok.inj hh]; exact .inr (.inr (.inr (.inr ⟨rfl, rfl, rfl⟩)))
        · rw [← Except.ok.inj hh]; exact .inl rfl
    | _ => simp [Whole.work, hpc] at h
  | planned =>
    refine .inr (.inr (.inr (.inr (.inr ⟨.inr (.inr (.inl rfl)), ?_⟩))))
    cases w with
    | begin =>
      simp only [Whole.work, hpc, bind, Except.bind, Planner.workerStep] at h
      rw [← Except.ok.inj h]; exact .inr (.inr (.inl rfl))
    | _ => simp [Whole.work, hpc] at h
  | launching =>
    refine .inr (.inr (.inr (.inr (.inr ⟨.inr (.inr (.inr (.inl rfl))), ?_⟩))))
    cases w with
    | begin =>
      simp only [Whole.work, hpc, bind, Except.bind, Planner.workerStep] at h
      rw [← Except.ok.inj h]; exact .inr (.inr (.inr (.inl rfl)))
    | _ => simp [Whole.work, hpc] at h
  | launched =>
    refine .inr (.inr (.inr (.inr (.inr ⟨.inr (.inr (.inr (.inr rfl))), ?_⟩))))
    cases w with
    | begin =>
      simp only [Whole.work, hpc, bind, Except.bind, Planner.workerStep] at h
      rw [← Except.ok.inj h]; exact .inr (.inr (.inr (.inr ⟨rfl, rfl, rfl⟩)))
    | _ => simp [Whole.work, hpc] at h

theorem work_launched {env : Env K} {s s' : Whole K} (h : s.work env = .ok s') (hpc : s.p.pc = .launched) : s'.p.pc = .top := by
  obtain ⟨p, c, w⟩ := s
  change p.pc = .launched at hpc
  cases w with
  | begin =>
    simp only [Whole.work, hpc, bind, Except.bind, Planner.workerStep] at h
    rw [← Except.ok.inj h]
  | _ => simp [Whole.work, hpc] at h

/-- What the steps of the other threads do to the request flag, if they do not ask for a plan. -/
theorem beside_moves {env : Env K} {l : Label K} {s s' : Whole K} (h : ThreadStep env l s s') (hl : l ≠ .worker) :
    s'.w = s.w ∧ s'.p.pc = s.p.pc ∧ (¬ AsksForPlan l → s'.p.generateNew = s.p.generateNew ∨ s'.p.generateNew = false) := by
  cases h with
  | @evaluator p p' c c' w h => exact ⟨rfl, own_pc h, fun _ => (own_requests h).1⟩
  | worker h => exact absurd rfl hl
  | @user s p' e hu hv hq h =>
    refine ⟨rfl, (user_beside hu hq h).pc, fun hn => ?_⟩
    cases e with
    | setWaypoints ws => exact absurd trivial hn
    | appendWaypoint w => exact absurd trivial hn
    | modifyWaypoint n x g =>
      rw [← Option.some.inj (Except.ok.inj h)]
      right
      show g = false
      cases g
      · rfl
      · exact absurd (rfl : (true : Bool) = true) hn
    | setSpeed v => rw [← Option.some.inj (Except.ok.inj h)]; exact .inl rfl
    | getWasTrajectoryRegenerated => rw [← Option.some.inj (Except.ok.inj h)]; exact .inl rfl
    | updateVehiclePosition x => rw [← Option.some.inj (Except.ok.inj h)]; exact .inl rfl
    | _ => exact hu.elim
  | request => exact ⟨rfl, rfl, fun hn => absurd trivial hn⟩
  | @task s p' e ht hv h => exact ⟨rfl, (task_pc ht h).1, fun _ => .inl (task_requests ht h)⟩

/-- Without a request, dealt with remains dealt with. -/
theorem spent_step {env : Env K} {l : Label K} {s s' : Whole K} (h : ThreadStep env l s s') (hn : ¬ AsksForPlan l) (hs : Spent s) : Spent s' := by
  by_cases hl : l = .worker
  · subst hl
    cases h with
    | worker h =>
      unfold Spent at hs ⊢
      rcases work_moves h with ⟨a, b, c, d⟩ | ⟨a, b, z, c⟩ | ⟨a, b, c, d⟩ | ⟨a, b⟩ | ⟨a, b, c⟩ | ⟨a, b⟩
      · rw [a] at hs
        rw [b, a]
        refine ⟨by rw [b]; exact hs.1, ?_⟩
        rcases d hs.2 with d | d | d | d
        · exact .inl d
        · exact .inr (.inl d)
        · exact .inr (.inr d)
        · have := (c d).2
          rw [hs.1] at this
          cases this
      · rw [a] at hs
        rcases hs.2 with h | h | h <;> rw [c] at h <;> cases h
      · rw [a] at hs
        rw [b]
        exact d.trans hs.1
      · rw [a] at hs
        exact hs.elim
      · rw [a] at hs
        rcases c with c | ⟨c, d⟩
        · rw [c]; exact b.trans hs
        · rw [c]; exact ⟨b.trans hs, .inl d⟩
      · rcases b with b | b | b | b | ⟨b, c, d⟩ <;> rw [b]
        · trivial
        · trivial
        · trivial
        · trivial
        · exact ⟨d, .inl c⟩
  · obtain ⟨h1, h2, h3⟩ := beside_moves h hl
    have flag : s.p.generateNew = false → s'.p.generateNew = false := fun hg => (h3 hn).elim (fun h => h.trans hg) id
    unfold Spent at hs ⊢
    rw [h2]
    cases hpc : s.p.pc with
    | top => rw [hpc] at hs; exact ⟨flag hs.1, by rw [h1]; exact hs.2⟩
    | apply => rw [hpc] at hs; exact flag hs
    | collect => rw [hpc] at hs; exact hs.elim
    | _ => trivial

theorem spent_stretch {env : Env K} {s0 s : Whole K} {ss : List (Whole K)} (h : Stretch env (fun _ l _ => ¬ AsksForPlan l) s0 ss s) (h0 : Spent s0) :
    Spent s := by
  induction h with
  | start => exact h0
  | call k _ hf ih => exact ih
  | step _ hs hn ih => exact spent_step hs hn ih

theorem counted_threads {env : Env K} {r n m : ℕ} {s : Whole K} (h : Counted env r n m s) : Threads env s := by
  induction h with
  | init v => exact .init v
  | call k _ hf ih => exact .call k ih hf
  | step _ hs _ _ _ ih => exact .step ih hs

theorem asks_not_takes {s s' : Whole K} {l : Label K} (ht : TakesRequests s l s') : ¬ AsksForPlan l := by
  rw [ht.1]; exact id

/-- Something was asked for and not yet taken, or nothing is seen to be asked for. -/
theorem counted_spent {env : Env K} {r n m : ℕ} {s : Whole K} (h : Counted env r n m s) : n < r ∨ (n = r ∧ Spent s) := by
  induction h with
  | init v => exact .inr ⟨rfl, rfl, .inl rfl⟩
  | call k _ _ ih => exact ih
  | @step r n m r' n' m' l s s' _ hst h1 h2 _ ih =>
    rcases h1 with ⟨ha, rfl⟩ | ⟨ha, rfl⟩
    · rcases h2 with ⟨ht, rfl⟩ | ⟨ht, rfl⟩
      · exact absurd ha (asks_not_takes ht)
      · left; rcases ih with ih | ih <;> omega
    · rcases h2 with ⟨ht, rfl⟩ | ⟨ht, rfl⟩
      · rcases ih with ih | ⟨ih, hsp⟩
        · have hsp' : Spent s' := by unfold Spent; rw [ht.2.2]; trivial
          rcases Nat.lt_or_ge (n + 1) r' with h | h
          · exact .inl h
          · exact .inr ⟨by omega, hsp'⟩
        · unfold Spent at hsp
          rw [ht.2.1] at hsp
          exact hsp.elim
      · rcases ih with ih | ⟨ih, hsp⟩
        · exact .inl ih
        · exact .inr ⟨ih, spent_step hst ha hsp⟩

/-- The evaluating thread has replaced the trajectory and is not yet through with the take-over. -/
def Replaced : Consumer K → Prop
  | .mark _ => True
  | .swap _ => True
  | .clearComputing _ => True
  | _ => False

theorem after_replaced (k : Purpose K) : ¬ Replaced k.after := by cases k <;> exact id

/-- How the evaluating thread replaces the trajectory. -/
theorem own_replaces {env : Env K} {p p' : Planner K} {c c' : Consumer K} (h : Fine.consume env ⟨p, c⟩ = .ok (some ⟨p', c'⟩)) :
    (∃ k new, c = .traj k new ∧ c' = .mark k) ∨
    (p'.traj = p.traj ∧ (p'.computing = true → p.computing = true) ∧ (Replaced c → p'.computing = true → Replaced c')) := by
  have simple : ∀ {q : Planner K} {d : Consumer K}, (Except.ok (some (⟨q, d⟩ : Fine K)) : Res (Option (Fine K))) = .ok (some ⟨p', c'⟩) → p' = q ∧ c' = d :=
    fun h => by
      have := Option.some.inj (Except.ok.inj h)
      injection this with h1 h2
      exact ⟨h1.symm, h2.symm⟩
  have same : ∀ {q : Planner K}, ¬ Replaced c → p' = q → q.traj = p.traj → q.computing = p.computing →
      (∃ k new, c = .traj k new ∧ c' = .mark k) ∨
      (p'.traj = p.traj ∧ (p'.computing = true → p.computing = true) ∧ (Replaced c → p'.computing = true → Replaced c')) := by
    rintro q hn rfl h1 h2
    exact .inr ⟨h1, fun h => by rw [← h2]; exact h, fun h => absurd h hn⟩
  cases c with
  | free => cases h
  | evaluated r => cases h
  | copied ws => cases h
  | time x => cases h
  | start k => cases k <;> exact same id (simple h).1 rfl rfl
  | wait k =>
    simp only [Fine.consume] at h
    split at h
    · exact same id (simple h).1 rfl rfl
    · cases h
  | ready k =>
    simp only [Fine.consume] at h
    split at h
    · exact same id (simple h).1 rfl rfl
    · cases h
  | get k =>
    simp only [Fine.consume] at h
    split at h
    · exact same id (simple h).1 rfl rfl
    · cases h
    · cases h
    · cases h
  | target k new =>
    simp only [Fine.consume] at h
    split at h <;> exact same id (simple h).1 rfl rfl
  | old k new g l =>
    simp only [Fine.consume] at h
    split at h
    · cases h
    · simp only [bind, Except.bind] at h
      split at h
      · cases h
      · exact same id (simple h).1 rfl rfl
  | fit0 k new s x =>
    simp only [Fine.consume, bind, Except.bind] at h
    split at h
    · cases h
    · exact same id (simple h).1 rfl rfl
  | fit k new s x n i d m =>
    cases n with
    | zero => exact same id (simple h).1 rfl rfl
    | succ n =>
      simp only [Fine.consume, bind, Except.bind] at h
      split at h
      · cases h
      · split at h <;> exact same id (simple h).1 rfl rfl
  | fitted k new s => cases s <;> exact same id (simple h).1 rfl rfl
  | note t o f l => cases f <;> exact same id (simple h).1 rfl rfl
  | plain o g l done =>
    simp only [Fine.consume] at h
    split at h
    · cases h
    · simp only [bind, Except.bind] at h
      split at h
      · cases h
      · split at h
        · cases h
        · exact same id (simple h).1 rfl rfl
  | compensate o g l done base =>
    obtain ⟨v, _, hv⟩ := compensate_step h
    injection hv with h1 h2
    exact same id h1 rfl rfl
  | length m =>
    simp only [Fine.consume] at h
    split at h
    · cases h
    · exact same id (simple h).1 rfl rfl
  | traj k new => exact .inl ⟨k, new, rfl, (simple h).2⟩
  | mark k => rw [(simple h).1, (simple h).2]; exact .inr ⟨rfl, id, fun _ _ => trivial⟩
  | swap k => rw [(simple h).1, (simple h).2]; exact .inr ⟨rfl, id, fun _ _ => trivial⟩
  | clearComputing k => rw [(simple h).1]; exact .inr ⟨rfl, fun h => (Bool.false_ne_true h).elim, fun _ h => (Bool.false_ne_true h).elim⟩
  | _ => exact same id (simple h).1 rfl rfl

/-- A plan is being prepared or computed, or waits to replace the trajectory. -/
def Owed (s : Whole K) : Prop :=
  (s.p.pc = .collected ∨ s.p.pc = .snapshotted ∨ s.p.pc = .planned ∨ s.p.pc = .launching) ∨ (s.p.computing = true ∧ ¬ Replaced s.c)

theorem other_computing {env : Env K} {p p' : Planner K} (h : OtherStep env p p') : p'.computing = p.computing ∨ p.pc = .planned := by
  cases h with
  | request => exact .inl rfl
  | belated hb => cases hb <;> exact .inl rfl
  | event e ho hv hs =>
    rcases step_micro' env e _ _ hs with ⟨h, _⟩ | h | ⟨m, ⟨t, o, rfl⟩, _⟩
    · rw [h]; exact .inl rfl
    · cases h with
      | takeOver _ _ new off _ _ he _ =>
        rcases he with ⟨t, o, f, rfl⟩ | rfl | rfl | rfl <;> exact ho.elim
      | planned _ hp => exact .inr hp
      | apply _ s1 hp ha =>
        obtain ⟨_, d, r, rfl, _⟩ := applyAll_rel (fun _ _ => True) (fun _ => trivial) (fun _ _ _ _ _ => trivial)
          (fun _ _ _ _ _ => trivial) _ _ _ ha
        exact .inl rfl
      | _ => exact .inl rfl
    · exact ho.elim

/-- What a step does to the trajectory and the status. -/
theorem owed_step {env : Env K} {l : Label K} {s s' : Whole K} (ht : Threads env s) (h : ThreadStep env l s s') :
    (s'.p.traj ≠ s.p.traj → Owed s ∧ ¬ Owed s') ∧ (Owed s' → Owed s ∨ TakesRequests s l s') := by
  have hi := threads_inv ht
  obtain ⟨hser, hph⟩ := interleaved_inv hi.1
  by_cases hl : l = .evaluator
  · subst hl
    cases h with
    | @evaluator p p' c c' w h =>
      have hpc : p'.pc = p.pc := own_pc h
      rcases own_replaces h with ⟨k, new, rfl, rfl⟩ | ⟨h1, h2, h3⟩
      · have hh : Held p := hph.1
        have ho : Owed (⟨p, .traj k new, w⟩ : Whole K) := .inr ⟨hh.2.1, id⟩
        refine ⟨fun _ => ⟨ho, ?_⟩, fun _ => .inl ho⟩
        rintro (h | ⟨_, h⟩)
        · simp only [hpc] at h
          rcases hh.2.2 with hx | hx <;> rw [hx] at h <;> simp at h
        · exact h trivial
      · refine ⟨fun hne => absurd h1 hne, ?_⟩
        rintro (h | ⟨ha, hb⟩)
        · exact .inl (.inl (by simp only [hpc] at h; exact h))
        · exact .inl (.inr ⟨h2 ha, fun hr => hb (h3 hr ha)⟩)
  · have key : s'.c = s.c ∧ (l = .worker ∨ s'.p.pc = s.p.pc) ∧ ∃ p, OtherStep env s.p p ∧ s'.p = p := by
      obtain ⟨h1, _⟩ := step_fine h hi.1 hi.2
      cases h with
      | evaluator w h => exact absurd rfl hl
      | worker h =>
        obtain ⟨k1, k2, _⟩ := work_other h hi.2 (fun hpc => (phase_idle (interleaved_inv hi.1) (by rcases hpc with h | h | h <;> simp [h])).1)
        exact ⟨k1, .inl rfl, _, k2, rfl⟩
      | @user s p' e hu hv hq h =>
        refine ⟨rfl, .inr (user_beside hu hq h).pc, _, .event e ?_ hv h, rfl⟩
        cases e <;> first | exact hu.elim | trivial
      | request => exact ⟨rfl, .inr rfl, _, .request _, rfl⟩
      | @task s p' e ht hv h =>
        refine ⟨rfl, .inr (task_pc ht h).1, _, .event e ?_ hv h, rfl⟩
        cases e <;> first | exact ht.elim | trivial
    obtain ⟨hc, hw, p, ho, hp⟩ := key
    have hcomp := other_computing ho
    rw [← hp] at ho hcomp
    have htraj : s'.p.traj = s.p.traj := by
      by_cases hto : TakingOver s.c
      · have hh : Held s.p := by
          obtain ⟨p, c, w⟩ := s
          cases c <;> first | exact hto.elim | exact hph.1 | exact hph
        exact (aside_unchanged (other_aside hh ho)).traj
      · rw [settled_eq (f := ⟨s.p, s.c⟩) hto] at hser
        exact (other_frame (serialised_ctl hser) ho).1
    refine ⟨fun hne => absurd htraj hne, ?_⟩
    rintro (h' | ⟨ha, hb⟩)
    · rcases hw with hw | hw
      · subst hw
        cases h with
        | worker h =>
          rcases work_moves h with ⟨a, b, c, d⟩ | ⟨a, b, z, c⟩ | ⟨a, b, c, d⟩ | ⟨a, b⟩ | ⟨a, b, c⟩ | ⟨a, b⟩
          · rw [b, a] at h'; simp at h'
          · rw [b] at h'; simp at h'
          · rw [b] at h'; simp at h'
          · rcases b with b | b
            · rw [b] at h'; simp at h'
            · exact .inr ⟨rfl, a, b⟩
          · rcases c with c | ⟨c, _⟩ <;> (rw [c] at h'; simp at h')
          · rcases a with a | a | a | a | a
            · exact .inl (.inl (.inl a))
            · exact .inl (.inl (.inr (.inl a)))
            · exact .inl (.inl (.inr (.inr (.inl a))))
            · exact .inl (.inl (.inr (.inr (.inr a))))
            · exfalso
              rw [work_launched h a] at h'
              simp at h'
      · exact .inl (.inl (by rw [hw] at h'; exact h'))
    · rcases hcomp with hcomp | hcomp
      · exact .inl (.inr ⟨by rw [← hcomp]; exact ha, by rw [← hc]; exact hb⟩)
      · exact .inl (.inl (.inr (.inr (.inl hcomp))))

/-- Each change of the trajectory has its own collection of requests. -/
theorem counted_owed {env : Env K} {r n m : ℕ} {s : Whole K} (h : Counted env r n m s) : m ≤ n ∧ (Owed s → m < n) := by
  induction h with
  | init v =>
    refine ⟨le_rfl, ?_⟩
    rintro (h | ⟨h, _⟩)
    · simp [Planner.init] at h
    · cases h
  | @call r n m s k _ hf ih =>
    refine ⟨ih.1, fun ho => ih.2 ?_⟩
    rcases ho with ho | ⟨h1, h2⟩
    · exact .inl ho
    · refine .inr ⟨h1, fun hr => ?_⟩
      cases hc : s.c <;> rw [hc] at hr hf <;> first | exact hr.elim | cases hf
  | @step r n m r' n' m' l s s' hcount hst h1 h2 h3 ih =>
    obtain ⟨k1, k2⟩ := owed_step (counted_threads hcount) hst
    have hn : n ≤ n' := by rcases h2 with ⟨_, h⟩ | ⟨_, h⟩ <;> omega
    rcases h3 with ⟨hne, rfl⟩ | ⟨_, rfl⟩
    · obtain ⟨o1, o2⟩ := k1 hne
      have := ih.2 o1
      exact ⟨by omega, fun ho => absurd ho o2⟩
    · refine ⟨ih.1.trans hn, fun ho => ?_⟩
      rcases k2 ho with ho | ht
      · exact lt_of_lt_of_le (ih.2 ho) hn
      · rcases h2 with ⟨_, h⟩ | ⟨h, _⟩
        · have := ih.1; omega
        · exact absurd ht h

end Verif.Lemmas
