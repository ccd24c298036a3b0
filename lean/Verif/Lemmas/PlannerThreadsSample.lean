import Verif.Lemmas.PlannerThreadsLook
import Verif.Lemmas.PlannerFineSample

/-! # Concrete interleavings of all threads -/

set_option linter.unusedSectionVars false

namespace Verif.Lemmas
open Verif Verif.Spec

/-- What happens next: an evaluating call begins, or a thread makes a step. -/
inductive Move where
  | call (k : Purpose ℚ)
  | own
  | work
  | user (e : Event ℚ)
  | request
  | task (e : Event ℚ)

def MoveOk : Move → Prop
  | .user e => ByUsers e ∧ ValidEvent e
  | .task e => ByTask e ∧ ValidEvent e
  | _ => True

def NotCall : Move → Prop
  | .call _ => False
  | _ => True

/-- The call acquires `todo_mutex`. -/
def queues? : Event ℚ → Bool
  | .setWaypoints _ => true
  | .appendWaypoint _ => true
  | .modifyWaypoint _ _ _ => true
  | _ => false

theorem queues?_iff (e : Event ℚ) : Queues e ↔ queues? e = true := by
  cases e <;> simp [Queues, queues?]

def move (s : Whole ℚ) : Move → Option (Whole ℚ)
  | .call k => if s.c.isFree then some ⟨s.p, .start k, s.w⟩ else none
  | .own => ((Fine.consume hermiteEnv ⟨s.p, s.c⟩).toOption.getD none).map fun f => ⟨f.p, f.c, s.w⟩
  | .work => (s.work hermiteEnv).toOption
  | .user e => if queues? e && s.holdsTodo then none else ((s.p.step hermiteEnv e).toOption.getD none).map fun p => ⟨p, s.c, s.w⟩
  | .request => some ⟨{ s.p with generateNew := true }, s.c, s.w⟩
  | .task e => ((s.p.step hermiteEnv e).toOption.getD none).map fun p => ⟨p, s.c, s.w⟩

/-- Whose step a move is. -/
def Move.label : Move → Label ℚ
  | .call _ => .request
  | .own => .evaluator
  | .work => .worker
  | .user e => .user e
  | .request => .request
  | .task e => .task e

theorem toOption_ok {α : Type*} {x : Res α} {a : α} (h : x.toOption = some a) : x = .ok a := by
  cases x with
  | error e => cases h
  | ok o => exact congrArg Except.ok (Option.some.inj h)

theorem move_step (s s' : Whole ℚ) (m : Move) (hn : NotCall m) (hm : MoveOk m) (h : move s m = some s') :
    ThreadStep hermiteEnv m.label s s' := by
  cases m with
  | call k => exact hn.elim
  | own =>
    obtain ⟨f, hf, rfl⟩ := Option.map_eq_some_iff.mp h
    obtain ⟨p, c, w⟩ := s
    obtain ⟨p', c'⟩ := f
    exact .evaluator w (toOption_getD hf)
  | work => exact .worker (toOption_ok h)
  | user e =>
    simp only [move] at h
    split at h
    · cases h
    · rename_i hq
      obtain ⟨p, hp, rfl⟩ := Option.map_eq_some_iff.mp h
      refine .user e hm.1 hm.2 ?_ (toOption_getD hp)
      intro hh
      rw [queues?_iff] at hh
      simpa [hh] using hq
  | request => rw [← Option.some.inj h]; exact .request s
  | task e =>
    obtain ⟨p, hp, rfl⟩ := Option.map_eq_some_iff.mp h
    exact .task e hm.1 hm.2 (toOption_getD hp)

/-- Execute, keeping track of the states and of the pending requests. -/
structure Trace where
  ss : List (Whole ℚ)
  s : Whole ℚ
  g : Requests ℚ

/-- The effect on the pending requests. -/
def ghost (g : Requests ℚ) (s : Whole ℚ) (m : Move) (s' : Whole ℚ) : Requests ℚ :=
  match m with
  | .user e => g.after .top e
  | .work => if s.p.pc = .collect ∧ s'.p.pc = .collected then .nothing
      else if s.p.pc = .apply ∧ s'.p.pc = .top then { g with updates := [] } else g
  | _ => g

def moveAll (t : Trace) : List Move → Option Trace
  | [] => some t
  | m :: ms => match move t.s m with
    | none => none
    | some s' => moveAll ⟨t.ss ++ [s'], s', ghost t.g t.s m s'⟩ ms

theorem move_pending (s s' : Whole ℚ) (g : Requests ℚ) (m : Move) (hm : MoveOk m) (h : move s m = some s') (hp : Pending hermiteEnv g s) :
    Pending hermiteEnv (ghost g s m s') s' := by
  cases m with
  | call k =>
    simp only [move] at h
    split at h
    · rename_i hf
      rw [← Option.some.inj h]
      exact .call k hp hf
    · cases h
  | user e => exact .user e hp (move_step s s' (.user e) trivial hm h)
  | work =>
    have hst := move_step s s' .work trivial hm h
    simp only [ghost]
    split
    · rename_i hh; exact .taken hp hst ⟨rfl, hh⟩
    · split
      · rename_i hh; exact .updated hp hst ⟨rfl, hh⟩
      · rename_i h1 h2
        exact .other hp hst (fun e => by simp [Move.label]) (fun hh => h1 hh.2) (fun hh => h2 hh.2)
  | own => exact .other hp (move_step s s' .own trivial hm h) (fun e => by simp [Move.label]) (fun hh => by cases hh.1) (fun hh => by cases hh.1)
  | request =>
    exact .other hp (move_step s s' .request trivial hm h) (fun e => by simp [Move.label]) (fun hh => by cases hh.1) (fun hh => by cases hh.1)
  | task e =>
    exact .other hp (move_step s s' (.task e) trivial hm h) (fun e => by simp [Move.label]) (fun hh => by cases hh.1) (fun hh => by cases hh.1)

theorem moveAll_pending (ms : List Move) (t t' : Trace) (hm : ∀ m ∈ ms, MoveOk m) (h : moveAll t ms = some t')
    (hp : Pending hermiteEnv t.g t.s) : Pending hermiteEnv t'.g t'.s := by
  induction ms generalizing t with
  | nil => rw [← Option.some.inj h]; exact hp
  | cons m ms ih =>
    simp only [moveAll] at h
    split at h
    · cases h
    · rename_i s' hs
      exact ih _ (fun b hb => hm b (List.mem_cons_of_mem _ hb)) h (move_pending _ _ _ m (hm m List.mem_cons_self) hs hp)

/-- Execute steps all of which satisfy `ok`. -/
def moveWhile (ok : Whole ℚ → Bool) (t : Trace) : List Move → Option Trace
  | [] => some t
  | m :: ms => match move t.s m with
    | none => none
    | some s' => if ok s' then moveWhile ok ⟨t.ss ++ [s'], s', ghost t.g t.s m s'⟩ ms else none

theorem moveWhile_all (ok : Whole ℚ → Bool) (ms : List Move) (t t' : Trace) (h : moveWhile ok t ms = some t') : moveAll t ms = some t' := by
  induction ms generalizing t with
  | nil => exact h
  | cons m ms ih =>
    simp only [moveWhile] at h
    simp only [moveAll]
    split at h
    · cases h
    · rename_i s' hs
      split at h
      · exact ih _ h
      · cases h

theorem moveWhile_stretch (ok : Whole ℚ → Bool) (s0 : Whole ℚ) (ms : List Move) (t t' : Trace) (hm : ∀ m ∈ ms, MoveOk m)
    (h : moveWhile ok t ms = some t') (hs : Stretch hermiteEnv (fun _ _ b => ok b = true) s0 t.ss t.s) :
    Stretch hermiteEnv (fun _ _ b => ok b = true) s0 t'.ss t'.s := by
  induction ms generalizing t with
  | nil => rw [← Option.some.inj h]; exact hs
  | cons m ms ih =>
    simp only [moveWhile] at h
    split at h
    · cases h
    · rename_i s' hm'
      split at h
      · rename_i hok
        refine ih _ (fun b hb => hm b (List.mem_cons_of_mem _ hb)) h ?_
        by_cases hc : NotCall m
        · exact .step hs (move_step _ _ m hc (hm m List.mem_cons_self) hm') hok
        · cases m with
          | call k =>
            simp only [move] at hm'
            split at hm'
            · rename_i hf
              rw [← Option.some.inj hm']
              exact .call k hs hf
            · cases hm'
          | _ => exact absurd trivial hc
      · cases h

theorem stretch_weaken {env : Env ℚ} {P Q : Whole ℚ → Label ℚ → Whole ℚ → Prop} (hPQ : ∀ a l b, P a l b → Q a l b) {s0 s : Whole ℚ}
    {ss : List (Whole ℚ)} (h : Stretch env P s0 ss s) : Stretch env Q s0 ss s := by
  induction h with
  | start => exact .start
  | call k _ hf ih => exact .call k ih hf
  | step _ hst hok ih => exact .step ih hst (hPQ _ _ _ hok)

/-- From construction on. -/
def start : Trace := ⟨[], ⟨Planner.init ⟨0, 0, 0⟩, .free, .begin⟩, .nothing⟩

theorem trace_map {α : Type*} (ms : List Move) (hm : ∀ m ∈ ms, MoveOk m) (q : Trace → α) (x : α)
    (h : (moveAll start ms).map q = some x) : ∃ t, Pending hermiteEnv t.g t.s ∧ q t = x := by
  obtain ⟨t, ht, hx⟩ := Option.map_eq_some_iff.mp h
  exact ⟨t, moveAll_pending ms _ t hm ht (.init _), hx⟩

/-- A prefix, a stretch and one more step of the worker. -/
def phase (ok : Whole ℚ → Bool) (as bs : List Move) : Option (Trace × Trace × Whole ℚ) :=
  match moveAll start as with
  | none => none
  | some t => match moveWhile ok ⟨[t.s], t.s, t.g⟩ bs with
    | none => none
    | some t' => match move t'.s .work with
      | none => none
      | some s' => some (t, t', s')

theorem phase_map {α : Type*} (ok : Whole ℚ → Bool) (as bs : List Move) (ha : ∀ m ∈ as, MoveOk m) (hb : ∀ m ∈ bs, MoveOk m)
    (q : Trace × Trace × Whole ℚ → α) (x : α) (h : (phase ok as bs).map q = some x) :
    ∃ t t' s', Pending hermiteEnv t.g t.s ∧ Stretch hermiteEnv (fun _ _ b => ok b = true) t.s t'.ss t'.s ∧ Pending hermiteEnv t'.g t'.s ∧
      ThreadStep hermiteEnv .worker t'.s s' ∧ q (t, t', s') = x := by
  obtain ⟨⟨t, t', s'⟩, ht, hx⟩ := Option.map_eq_some_iff.mp h
  unfold phase at ht
  split at ht
  · cases ht
  · rename_i t1 h1
    split at ht
    · cases ht
    · rename_i t2 h2
      split at ht
      · cases ht
      · rename_i s3 h3
        obtain ⟨rfl, ht2⟩ := Prod.mk.inj (Option.some.inj ht)
        obtain ⟨rfl, rfl⟩ := Prod.mk.inj ht2
        have hp := moveAll_pending as _ _ ha h1 (.init _)
        exact ⟨_, _, _, hp, moveWhile_stretch ok _ bs _ _ hb h2 .start, moveAll_pending bs _ _ hb (moveWhile_all ok bs _ _ h2) hp,
          move_step _ _ .work trivial trivial h3, hx⟩

/-- A prefix, a step of the worker, a stretch and one more step of the worker. -/
def phase2 (ok : Whole ℚ → Bool) (as bs : List Move) : Option (Trace × Trace × Trace × Whole ℚ) :=
  match moveAll start as with
  | none => none
  | some t => match phase ok (as ++ [.work]) bs with
    | none => none
    | some x => some (t, x)

theorem moveAll_append (as bs : List Move) (t t1 : Trace) (h : moveAll t as = some t1) : moveAll t (as ++ bs) = moveAll t1 bs := by
  induction as generalizing t with
  | nil => rw [← Option.some.inj h]; rfl
  | cons m ms ih =>
    simp only [moveAll] at h
    simp only [List.cons_append, moveAll]
    split at h
    · cases h
    · exact ih _ h

theorem phase2_map {α : Type*} (ok : Whole ℚ → Bool) (as bs : List Move) (ha : ∀ m ∈ as, MoveOk m) (hb : ∀ m ∈ bs, MoveOk m)
    (q : Trace × Trace × Trace × Whole ℚ → α) (x : α) (h : (phase2 ok as bs).map q = some x) :
    ∃ t0 t t' s', Threads hermiteEnv t0.s ∧ ThreadStep hermiteEnv .worker t0.s t.s ∧ Stretch hermiteEnv (fun _ _ b => ok b = true) t.s t'.ss t'.s ∧
      ThreadStep hermiteEnv .worker t'.s s' ∧ q (t0, t, t', s') = x := by
  obtain ⟨⟨t0, t, t', s'⟩, ht, hx⟩ := Option.map_eq_some_iff.mp h
  unfold phase2 at ht
  split at ht
  · cases ht
  · rename_i t1 h1
    split at ht
    · cases ht
    · rename_i y h2
      obtain ⟨rfl, rfl⟩ := Prod.mk.inj (Option.some.inj ht)
      unfold phase at h2
      rw [moveAll_append as [.work] _ _ h1] at h2
      simp only [moveAll] at h2
      cases hw : move t1.s .work with
      | none => rw [hw] at h2; cases h2
      | some s1 =>
        rw [hw] at h2
        simp only at h2
        split at h2
        · cases h2
        · rename_i t3 h3
          split at h2
          · cases h2
          · rename_i s4 h4
            obtain ⟨rfl, e2⟩ := Prod.mk.inj (Option.some.inj h2)
            obtain ⟨rfl, rfl⟩ := Prod.mk.inj e2
            have hp := moveAll_pending as _ _ ha h1 (.init _)
            exact ⟨t1, _, _, _, (pending_tracks hp).1, move_step _ _ .work trivial trivial hw, moveWhile_stretch ok _ bs _ _ hb h3 .start,
              move_step _ _ .work trivial trivial h4, hx⟩

/-- `n` times the same thread. -/
def times (n : ℕ) (m : Move) : List Move := List.replicate n m

theorem times_ok (n : ℕ) (m : Move) (h : MoveOk m) : ∀ a ∈ times n m, MoveOk a := by
  intro a ha
  rw [(List.mem_replicate.mp ha).2]
  exact h

theorem append_ok {as bs : List Move} (ha : ∀ m ∈ as, MoveOk m) (hb : ∀ m ∈ bs, MoveOk m) : ∀ m ∈ as ++ bs, MoveOk m := by
  intro m hm
  rcases List.mem_append.mp hm with h | h
  · exact ha m h
  · exact hb m h

/-- A route is requested and planned from the vehicle's position, and taken over by `evaluateTrajectory(0)`. -/
def flying2 : List Move :=
  [.user (.setSpeed 2), .user (.updateVehiclePosition ⟨0, 0, 0⟩), .user (.setWaypoints [wp "a" 1 0 0, wp "b" 2 1 0])] ++ times 12 .work ++
    [.task .asyncStart, .task (.asyncFinish (1 / 100)), .call (.evaluate 0 false false)] ++ times 26 .own

theorem flying2_ok : ∀ m ∈ flying2, MoveOk m := by
  unfold flying2
  refine append_ok (append_ok (append_ok ?_ (times_ok _ _ trivial)) ?_) (times_ok _ _ trivial)
  · simp [MoveOk, ByUsers, ValidEvent, wp_bookkept]
  · simp [MoveOk, ByTask, ValidEvent]

end Verif.Lemmas
