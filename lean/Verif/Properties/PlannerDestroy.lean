import Verif.Lemmas.PlannerDestroy
import Verif.Properties.PlannerThreads

/-!
# Destroying the planner (C119)
-/

set_option linter.unusedSectionVars false

namespace Verif.Properties
open Verif Verif.Spec Verif.Lemmas

variable {K : Type*} [Field K] [LinearOrder K] [IsStrictOrderedRing K] [FloorSemiring K]

/-- The full claim C119: if the planner is destroyed while no call is in progress, nothing undefined happens in any interleaving of the
destructor, the worker and the computation. -/
def C119Full (K : Type*) [Field K] [LinearOrder K] [IsStrictOrderedRing K] [FloorSemiring K] : Prop :=
  ∀ (env : Env K), Segmentwise env → ∀ (s : Whole K), Threads env s → s.c.isFree = true → ∀ x, Destroyed env s x → ¬ Undefined env x

/-- C119: the worker never uses a member that has been destroyed, and nothing else that it does is undefined, whatever was going on. -/
theorem C119_worker (env : Env K) (henv : Segmentwise env) (s : Whole K) (h : Threads env s) (x : Dying K) (hx : Destroyed env s x) :
    x.work env ≠ .error .ub := by
  obtain ⟨h1, h2, _⟩ := destroyed_inv h hx
  intro hu
  unfold Dying.work at hu
  split at hu
  · cases hu
  · rename_i he
    split at hu
    · rename_i ha
      have : x.d = .stop ∨ x.d = .join := by
        by_contra hd
        push Not at hd
        exact he (h2 hd.1 hd.2)
      rcases this with hd | hd <;> rw [hd] at ha <;> simp [declared, Destructor.alive] at ha
    · split at hu
      · cases hu
      · simp only [bind, Except.bind] at hu
        split at hu
        · rename_i e he'
          cases hu
          exact absurd ((C112_defined env henv x.s h1).1 _ he').1 (by simp)
        · cases hu

/-- C119, what holds: nothing undefined happens if, when the destructor is called, no plan is being computed or made, and none is requested or
one has not been taken over. -/
theorem C119_partial (env : Env K) (henv : Segmentwise env) (s : Whole K) (h : Threads env s) (hn : NoPlanComing s) (x : Dying K)
    (hx : Destroyed env s x) : ¬ Undefined env x := by
  rintro (hu | ⟨e, hb, _, hu⟩)
  · exact C119_worker env henv s h x hx hu
  · simp only [Dying.compute, bind, Except.bind, idle_task (not_coming h hn hx).1 hb] at hu
    cases hu

/-- C119: the destructor does not wait for ever. Once it has told the worker to stop, every execution comes to an end after finitely many
steps, whatever was going on when it was called. -/
theorem C119_ends (env : Env K) (s : Whole K) (h : Threads env s) (f : ℕ → Dying K) (h0 : Destroyed env s (f 0)) (hd : (f 0).d ≠ .stop) :
    ¬ ∀ n, DestroyStep env (f n) (f (n + 1)) := by
  intro hs
  have hall : ∀ n, Destroyed env s (f n) ∧ (f n).d ≠ .stop := by
    intro n
    induction n with
    | zero => exact ⟨h0, hd⟩
    | succ n ih =>
      refine ⟨.step ih.1 (hs n), ?_⟩
      have hn := hs n
      generalize f (n + 1) = y at hn
      cases hn with
      | destructor hh =>
        obtain ⟨d, rfl, _, ⟨h1, _⟩ | ⟨_, _, rfl⟩ | ⟨_, rfl⟩ | ⟨_, _, _, rfl⟩⟩ := dying_destroy hh
        · exact absurd h1 ih.2
        all_goals simp
      | worker hh =>
        obtain ⟨_, _, ⟨_, _, _, ⟨_, rfl⟩ | ⟨_, rfl⟩⟩ | ⟨_, _, _, rfl⟩⟩ := dying_work hh <;> exact ih.2
      | task e _ _ hh =>
        obtain ⟨_, _, _, rfl⟩ := compute_ok hh
        exact ih.2
  exact no_descent (fun n => remaining (f n)) (fun _ => True) 0 (fun n _ => (remaining_step h (hall n).1 (hall n).2 (hs n)).le)
    (fun n _ _ => remaining_step h (hall n).1 (hall n).2 (hs n)) (fun n _ => ⟨n, le_refl _, trivial⟩)

/-- C119: when the destructor has returned, the worker has ended and no computation is going on, whatever was going on when it was called. -/
theorem C119_quiet (env : Env K) (s : Whole K) (h : Threads env s) (x : Dying K) (hx : Destroyed env s x) (hd : x.d = .done) :
    x.ended = true ∧ x.s.p.future.inProgress = false :=
  ⟨(destroyed_inv h hx).2.1 (by simp [hd]) (by simp [hd]), destroyed_waits h hx (by rw [hd]; rfl)⟩

/-- C119: and it ends with the return of the destructor: until then some thread can go on, if no plan was coming (or else the worker meets a
compensation of width zero, see C112). -/
theorem C119_returns (env : Env K) (henv : Segmentwise env) (s : Whole K) (h : Threads env s) (hn : NoPlanComing s) (x : Dying K)
    (hx : Destroyed env s x) (hd : x.d ≠ .done) : (∃ y, DestroyStep env x y) ∨ (x.work env = .error .nonfinite ∧ ¬ NoZeroWidth x.s.p.dyn) := by
  obtain ⟨h1, _, _⟩ := destroyed_inv h hx
  refine (destroyed_progress h hx hd (not_coming h hn hx).1).imp_right fun ⟨e, he⟩ => ?_
  have hu := C119_partial env henv s h hn x hx
  have he' := he
  unfold Dying.work at he
  split at he
  · cases he
  · split at he
    · rw [← Except.error.inj he] at he'; exact absurd (Or.inl he') hu
    · split at he
      · cases he
      · simp only [bind, Except.bind] at he
        split at he
        · rename_i e2 he2
          obtain ⟨k1, k2⟩ := (C112_defined env henv x.s h1).1 _ he2
          rw [← Except.error.inj he, k1] at he'
          exact ⟨he', k2⟩
        · cases he

/-- A step during the destruction. -/
inductive LastMove where
  | destroy
  | work
  | task (e : Event ℚ)

def lastMove (x : Dying ℚ) : LastMove → Option (Dying ℚ)
  | .destroy => x.destroy
  | .work => (x.work hermiteEnv).toOption.getD none
  | .task e => (x.compute hermiteEnv e).toOption.getD none

def lastMoves (x : Dying ℚ) : List LastMove → Option (Dying ℚ)
  | [] => some x
  | m :: ms => (lastMove x m).bind fun y => lastMoves y ms

def LastMoveOk : LastMove → Prop
  | .task e => ByTask e ∧ ValidEvent e
  | _ => True

theorem lastMoves_destroyed {s : Whole ℚ} (ms : List LastMove) (hm : ∀ m ∈ ms, LastMoveOk m) (x y : Dying ℚ) (hx : Destroyed hermiteEnv s x)
    (h : lastMoves x ms = some y) : Destroyed hermiteEnv s y := by
  induction ms generalizing x with
  | nil => rw [← Option.some.inj h]; exact hx
  | cons m ms ih =>
    simp only [lastMoves] at h
    obtain ⟨z, hz, h'⟩ := Option.bind_eq_some_iff.mp h
    refine ih (fun a ha => hm a (List.mem_cons_of_mem _ ha)) z (.step hx ?_) h'
    have ho := hm m List.mem_cons_self
    cases m with
    | destroy => exact .destructor hz
    | work => exact .worker (toOption_getD hz)
    | task e => exact .task e ho.1 ho.2 (toOption_getD hz)

/-- The next step of the computation is undefined. -/
def undefinedNext (x : Dying ℚ) (e : Event ℚ) : Bool :=
  match x.compute hermiteEnv e with
  | .error .ub => true
  | _ => false

theorem undefinedNext_true {x : Dying ℚ} {e : Event ℚ} (h : undefinedNext x e = true) : x.compute hermiteEnv e = .error .ub := by
  unfold undefinedNext at h
  split at h
  · assumption
  · cases h

/-- Some moves, then the destructor is called and there are some last moves. -/
theorem destroyed_map (ms : List Move) (ls : List LastMove) (hm : ∀ m ∈ ms, MoveOk m) (hl : ∀ m ∈ ls, LastMoveOk m) (q : Whole ℚ → Dying ℚ → Bool)
    (h : (moveAll start ms).bind (fun t => (lastMoves ⟨t.s, false, false, .stop⟩ ls).map (q t.s)) = some true) :
    ∃ s x, Threads hermiteEnv s ∧ Destroyed hermiteEnv s x ∧ q s x = true := by
  obtain ⟨t, ht, h1⟩ := Option.bind_eq_some_iff.mp h
  obtain ⟨x, hx, h2⟩ := Option.map_eq_some_iff.mp h1
  obtain ⟨t', hp, rfl⟩ := trace_map ms hm id t (by rw [ht]; rfl)
  exact ⟨t'.s, x, (pending_tracks hp).1, lastMoves_destroyed ls hl _ _ (.called false) hx, h2⟩

theorem last_ok (ls : List LastMove) (k n : ℕ) (h : ls = [.destroy] ++ List.replicate k .work ++ List.replicate n .destroy) :
    ∀ m ∈ ls, LastMoveOk m := by
  subst h
  intro m hm
  simp only [List.mem_append, List.mem_replicate, List.mem_cons, List.not_mem_nil, or_false] at hm
  rcases hm with (rfl | ⟨_, rfl⟩) | ⟨_, rfl⟩ <;> trivial

/-- C119 is false of the code: `next_trajectory_waypoint_` is declared after `future_traj_` and so is destroyed before the computation is waited
for. A computation is going on, the planner is destroyed, and the computation reads waypoints that are gone. -/
theorem C119_refuted : ¬ C119Full ℚ := by
  intro hF
  obtain ⟨s, x, hs, hx, hq⟩ := destroyed_map
    (flying2 ++ [.user (.appendWaypoint (wp "c" 3 3 3))] ++ times 32 .work ++ [.task .asyncStart])
    ([.destroy] ++ List.replicate 1 .work ++ List.replicate 6 .destroy)
    (append_ok (append_ok (append_ok flying2_ok (by simp [MoveOk, ByUsers, ValidEvent, wp_bookkept])) (times_ok _ _ trivial))
      (by simp [MoveOk, ByTask, ValidEvent])) (last_ok _ 1 6 rfl)
    (fun s x => decide (s.c.isFree = true) && undefinedNext x (.asyncFinish (1 / 100))) (by decide +kernel)
  rw [Bool.and_eq_true] at hq
  exact hF hermiteEnv hermite_segmentwise s hs (of_decide_eq_true hq.1) x hx
    (Or.inr ⟨.asyncFinish (1 / 100), trivial, by simp [ValidEvent], undefinedNext_true hq.2⟩)

/-- C119: nor is it enough to wait until the planner reports that it is neither generating a trajectory nor asked to: the worker may have
decided to make a plan before and start its computation after the destructor has been called. -/
theorem C119_idle_refuted : ∃ (s : Whole ℚ) (x : Dying ℚ), Threads hermiteEnv s ∧ s.c.isFree = true ∧ s.p.computing = false ∧
    s.p.generateNew = false ∧ s.p.future.inProgress = false ∧ Destroyed hermiteEnv s x ∧ Undefined hermiteEnv x := by
  obtain ⟨s, x, hs, hx, hq⟩ := destroyed_map (racing ++ race ++ times 9 .own)
    ([.destroy] ++ List.replicate 29 .work ++ List.replicate 11 .destroy)
    (append_ok (append_ok racing_ok race_ok) (times_ok _ _ trivial)) (last_ok _ 29 11 rfl)
    (fun s x => decide (s.c.isFree = true ∧ s.p.computing = false ∧ s.p.generateNew = false ∧ s.p.future.inProgress = false) &&
      undefinedNext x .asyncStart) (by decide +kernel)
  rw [Bool.and_eq_true] at hq
  obtain ⟨h1, h2, h3, h4⟩ := of_decide_eq_true hq.1
  exact ⟨s, x, hs, h1, h2, h3, h4, hx, Or.inr ⟨.asyncStart, trivial, trivial, undefinedNext_true hq.2⟩⟩

-- C119_partial, C119_returns: the planner is destroyed while it follows a plan; the worker ends and the members are being destroyed.
example : ∃ (s : Whole ℚ) (x : Dying ℚ), Threads hermiteEnv s ∧ NoPlanComing s ∧ s.p.traj ≠ none ∧ s.p.dyn ≠ [] ∧ Destroyed hermiteEnv s x ∧
    x.d = .members [.trajMutex, .future, .traj] := by
  obtain ⟨s, x, hs, hx, hq⟩ := destroyed_map flying2 ([.destroy] ++ List.replicate 1 .work ++ List.replicate 13 .destroy) flying2_ok
    (last_ok _ 1 13 rfl)
    (fun s x => decide (s.p.future.inProgress = false ∧ s.p.pc = .top ∧ s.w = .begin ∧ s.p.generateNew = false ∧ s.p.traj ≠ none ∧ s.p.dyn ≠ [] ∧
      x.d = .members [.trajMutex, .future, .traj])) (by decide +kernel)
  obtain ⟨h1, h2, h3, h4, h5, h6, h7⟩ := of_decide_eq_true hq
  exact ⟨s, x, hs, ⟨h1, Or.inr h2, Or.inr ⟨h4, fun _ => Or.inl h3⟩⟩, h5, h6, hx, h7⟩

-- C119_quiet: a computation is going on when the destructor is called, ends in time, and the destructor returns.
example : ∃ (s : Whole ℚ) (x : Dying ℚ), Threads hermiteEnv s ∧ s.p.future.inProgress = true ∧ Destroyed hermiteEnv s x ∧ x.d = .done := by
  obtain ⟨s, x, hs, hx, hq⟩ := destroyed_map (flying2 ++ [.user (.appendWaypoint (wp "c" 3 3 3))] ++ times 32 .work)
    ([.destroy, .task .asyncStart, .task (.asyncFinish (1 / 100)), .work] ++ List.replicate 17 .destroy)
    (append_ok (append_ok flying2_ok (by simp [MoveOk, ByUsers, ValidEvent, wp_bookkept])) (times_ok _ _ trivial))
    (by
      intro m hm
      simp only [List.mem_append, List.mem_replicate, List.mem_cons, List.not_mem_nil, or_false] at hm
      rcases hm with (rfl | rfl | rfl | rfl) | ⟨_, rfl⟩ <;> simp [LastMoveOk, ByTask, ValidEvent])
    (fun s x => decide (s.p.future.inProgress = true ∧ x.d = .done)) (by decide +kernel)
  obtain ⟨h1, h2⟩ := of_decide_eq_true hq
  exact ⟨s, x, hs, h1, hx, h2⟩

-- C119_ends: the destructor has been called while a plan is being made.
example : ∃ (s : Whole ℚ) (x : Dying ℚ), Threads hermiteEnv s ∧ Destroyed hermiteEnv s x ∧ x.d ≠ .stop ∧ x.s.p.future.inProgress = true := by
  obtain ⟨s, x, hs, hx, hq⟩ := destroyed_map (flying2 ++ [.user (.appendWaypoint (wp "c" 3 3 3))] ++ times 32 .work)
    ([.destroy] ++ List.replicate 1 .work ++ List.replicate 6 .destroy)
    (append_ok (append_ok flying2_ok (by simp [MoveOk, ByUsers, ValidEvent, wp_bookkept])) (times_ok _ _ trivial)) (last_ok _ 1 6 rfl)
    (fun _ x => decide (x.d ≠ .stop ∧ x.s.p.future.inProgress = true)) (by decide +kernel)
  obtain ⟨h1, h2⟩ := of_decide_eq_true hq
  exact ⟨s, x, hs, hx, h1, h2⟩

end Verif.Properties
