import Verif.Spec.PlannerDestroy
import Verif.Lemmas.PlannerThreadsLive
import Verif.Lemmas.PlannerThreadsFail

/-! # The destructor -/

set_option linter.unusedSectionVars false

namespace Verif.Lemmas
open Verif Verif.Spec

variable {K : Type*} [Field K] [LinearOrder K] [IsStrictOrderedRing K] [FloorSemiring K]

theorem compute_ok {env : Env K} {x y : Dying K} {e : Event K} (h : x.compute env e = .ok (some y)) :
    ∃ p, x.s.p.step env e = .ok (some p) ∧ (usedBy e).all x.d.alive = true ∧ y = { x with s := ⟨p, x.s.c, x.s.w⟩ } := by
  simp only [Dying.compute, bind, Except.bind] at h
  split at h
  · cases h
  · rename_i r hr
    split at h
    · cases h
    · rename_i p
      split at h
      · rename_i hu
        exact ⟨p, hr, hu, (Option.some.inj (Except.ok.inj h)).symm⟩
      · cases h

/-- What a step of the worker is. -/
theorem dying_work {env : Env K} {x y : Dying K} (h : x.work env = .ok (some y)) :
    x.ended = false ∧ declared.all x.d.alive = true ∧
      ((x.s.p.pc = .top ∧ x.s.w = .begin ∧ x.checked = false ∧ ((x.d = .stop ∧ y = { x with checked := true }) ∨ (x.d ≠ .stop ∧ y = { x with ended := true }))) ∨
       (¬ (x.s.p.pc = .top ∧ x.s.w = .begin ∧ x.checked = false) ∧ ∃ s, x.s.work env = .ok s ∧ y = { x with s := s, checked := false })) := by
  unfold Dying.work at h
  split at h
  · cases h
  · rename_i he
    split at h
    · cases h
    · rename_i ha
      refine ⟨by simpa using he, by simpa using ha, ?_⟩
      split at h
      · rename_i hb
        refine Or.inl ⟨hb.1, hb.2.1, hb.2.2, ?_⟩
        split at h
        · rename_i hd; exact Or.inl ⟨hd, (Option.some.inj (Except.ok.inj h)).symm⟩
        · rename_i hd; exact Or.inr ⟨hd, (Option.some.inj (Except.ok.inj h)).symm⟩
      · rename_i hb
        simp only [bind, Except.bind] at h
        split at h
        · cases h
        · rename_i s hs
          exact Or.inr ⟨hb, s, hs, (Option.some.inj (Except.ok.inj h)).symm⟩

/-- What a step of the destructor is. -/
theorem dying_destroy {x y : Dying K} (h : x.destroy = some y) :
    ∃ d, y = { x with d := d } ∧ x.d ≠ .done ∧ ((x.d = .stop ∧ d = .join) ∨ (x.d = .join ∧ x.ended = true ∧ d = .members declared.reverse) ∨
      (x.d = .members [] ∧ d = .done) ∨ ∃ m rest, x.d = .members (m :: rest) ∧ d = .members rest) := by
  unfold Dying.destroy at h
  split at h
  · rename_i hd; exact ⟨_, (Option.some.inj h).symm, by simp [hd], Or.inl ⟨hd, rfl⟩⟩
  · rename_i hd
    split at h
    · rename_i he; exact ⟨_, (Option.some.inj h).symm, by simp [hd], Or.inr (Or.inl ⟨hd, he, rfl⟩)⟩
    · cases h
  · rename_i hd; exact ⟨_, (Option.some.inj h).symm, by simp [hd], Or.inr (Or.inr (Or.inl ⟨hd, rfl⟩))⟩
  · rename_i rest hd
    split at h
    · cases h
    · exact ⟨_, (Option.some.inj h).symm, by simp [hd], Or.inr (Or.inr (Or.inr ⟨_, _, hd, rfl⟩))⟩
  · rename_i m rest hd; exact ⟨_, (Option.some.inj h).symm, by simp [hd], Or.inr (Or.inr (Or.inr ⟨_, _, hd, rfl⟩))⟩
  · cases h

/-- The members are destroyed only after the worker has ended; the planner stays in a state of some interleaving. -/
theorem destroyed_inv {env : Env K} {s0 : Whole K} (h0 : Threads env s0) {x : Dying K} (h : Destroyed env s0 x) :
    Threads env x.s ∧ (x.d ≠ .stop → x.d ≠ .join → x.ended = true) ∧ (x.ended = true → x.s.p.pc = .top ∧ x.s.w = .begin) := by
  induction h with
  | called c => exact ⟨h0, (fun h => absurd rfl h), (fun h => by cases h)⟩
  | step _ hs ih =>
    obtain ⟨i1, i2, i3⟩ := ih
    cases hs with
    | destructor h =>
      obtain ⟨d, rfl, hn, hh⟩ := dying_destroy h
      refine ⟨i1, fun h1 h2 => ?_, i3⟩
      simp only at h1 h2
      rcases hh with ⟨_, rfl⟩ | ⟨_, he, _⟩ | ⟨hd, _⟩ | ⟨m, r, hd, _⟩
      · exact absurd rfl h2
      · exact he
      · exact i2 (by simp [hd]) (by simp [hd])
      · exact i2 (by simp [hd]) (by simp [hd])
    | worker h =>
      obtain ⟨he, _, ⟨hp, hw, _, ⟨_, rfl⟩ | ⟨_, rfl⟩⟩ | ⟨_, s, hs, rfl⟩⟩ := dying_work h
      · exact ⟨i1, i2, i3⟩
      · exact ⟨i1, fun _ _ => rfl, fun _ => ⟨hp, hw⟩⟩
      · exact ⟨.step i1 (.worker hs), i2, fun h => by simp only at h; rw [he] at h; cases h⟩
    | task e hb hv h =>
      obtain ⟨p, hp, _, rfl⟩ := compute_ok h
      refine ⟨.step i1 (.task e hb hv hp), i2, fun hh => ?_⟩
      obtain ⟨k1, k2⟩ := i3 hh
      exact ⟨(task_pc hb hp).1.trans k1, k2⟩

/-! ## A plan that is not coming -/

theorem idle_task {env : Env K} {s : Planner K} (hf : s.future.inProgress = false) {e : Event K} (hb : ByTask e) :
    s.step env e = .ok none := by
  cases e with
  | asyncStart =>
    simp only [Planner.step, Planner.asyncStart]
    cases hs : s.future <;> rw [hs] at hf <;> first | rfl | (simp [Future.inProgress] at hf)
  | asyncFinish dt =>
    simp only [Planner.step, Planner.asyncFinish]
    cases hs : s.future <;> rw [hs] at hf <;> first | rfl | (simp [Future.inProgress] at hf)
  | _ => exact hb.elim

theorem not_coming_work {env : Env K} {s s' : Whole K} (h : s.work env = .ok s') (ht : Threads env s) (hn : NoPlanComing s) : NoPlanComing s' := by
  have hloc := (threads_inv ht).2
  obtain ⟨p, c, w⟩ := s
  obtain ⟨hf, hpc, hc⟩ := hn
  replace hf : p.future.inProgress = false := hf
  replace hpc : p.pc = .apply ∨ p.pc = .top := hpc
  replace hc : p.computing = true ∨ (p.generateNew = false ∧ (p.pc = .top → w = .begin ∨ w = .queue ∨ w = .queueStatus)) := hc
  unfold Local at hloc
  have same : ∀ {q : Whole K}, (Except.ok q : Res (Whole K)) = .ok s' → s' = q := fun h => (Except.ok.inj h).symm
  rcases hpc with hpc | hpc <;> simp only [hpc] at hloc <;> cases w <;> simp only at hloc <;> simp only [Whole.work, hpc] at h
  case inl.begin => rw [same h]; exact ⟨hf, Or.inl hpc, hc.imp_right fun hh => ⟨hh.1, fun ht => by simp only [hpc] at ht; cases ht⟩⟩
  case inl.modification ms =>
    cases ms with
    | nil =>
      simp only at h
      rw [same h]
      exact ⟨hf, Or.inr rfl, hc.imp_right fun hh => ⟨hh.1, fun _ => Or.inl rfl⟩⟩
    | cons m ms =>
      obtain ⟨name, y⟩ := m
      simp only at h
      rw [same h]
      exact ⟨hf, Or.inl hpc, hc.imp_right fun hh => ⟨hh.1, fun ht => by simp only [hpc] at ht; cases ht⟩⟩
  case inl.waypoints name y ms done rest =>
    cases rest with
    | nil =>
      simp only at h
      rw [same h]
      exact ⟨hf, Or.inl rfl, hc.imp_right fun hh => ⟨hh.1, fun ht => by cases ht⟩⟩
    | cons a rest =>
      simp only at h
      split at h
      · simp only [bind, Except.bind] at h
        split at h
        · cases h
        · rw [same h]
          exact ⟨hf, Or.inl rfl, hc.imp_right fun hh => ⟨hh.1, fun ht => by cases ht⟩⟩
      · rw [same h]
        exact ⟨hf, Or.inl hpc, hc.imp_right fun hh => ⟨hh.1, fun ht => by simp only [hpc] at ht; cases ht⟩⟩
  case inr.begin =>
    rw [same h]
    refine ⟨hf, Or.inr hpc, hc.imp_right fun hh => ⟨hh.1, fun _ => ?_⟩⟩
    simp only [hh.1]
    exact Or.inr (Or.inl rfl)
  case inr.queue =>
    rw [same h]
    refine ⟨hf, Or.inr hpc, hc.imp_right fun hh => ⟨hh.1, fun _ => ?_⟩⟩
    simp only
    split
    · exact Or.inl rfl
    · exact Or.inr (Or.inr rfl)
  case inr.queueStatus =>
    split at h
    · rw [same h]
      exact ⟨hf, Or.inl rfl, hc.imp_right fun hh => ⟨hh.1, fun ht => by cases ht⟩⟩
    · rw [same h]
      exact ⟨hf, Or.inr hpc, hc.imp_right fun hh => ⟨hh.1, fun _ => Or.inl rfl⟩⟩
  case inr.status b =>
    have hct : p.computing = true := hc.resolve_right fun hh => by have := hh.2 hpc; simp at this
    rw [hct] at h
    simp only [Bool.not_true, Bool.and_false, Bool.false_eq_true, if_false] at h
    rw [same h]
    exact ⟨hf, Or.inr hpc, Or.inl hct⟩
  all_goals
    rw [same h]
    exact ⟨hf, Or.inr hpc, Or.inl (hc.resolve_right fun hh => by have := hh.2 hpc; simp at this)⟩

/-- No computation comes about, whatever happens after the call. -/
theorem not_coming {env : Env K} {s0 : Whole K} (h0 : Threads env s0) (hn : NoPlanComing s0) {x : Dying K} (h : Destroyed env s0 x) :
    NoPlanComing x.s := by
  induction h with
  | called c => exact hn
  | step hx hs ih =>
    have hth := (destroyed_inv h0 hx).1
    cases hs with
    | destructor h =>
      obtain ⟨d, rfl, _⟩ := dying_destroy h
      exact ih
    | worker h =>
      obtain ⟨_, _, ⟨_, _, _, ⟨_, rfl⟩ | ⟨_, rfl⟩⟩ | ⟨_, s, hs, rfl⟩⟩ := dying_work h
      · exact ih
      · exact ih
      · exact not_coming_work hs hth ih
    | task e hb hv h =>
      obtain ⟨p, hp, _, _⟩ := compute_ok h
      rw [idle_task ih.1 hb] at hp; cases hp

/-! ## The end -/

/-- How many steps the worker takes at most until it looks whether it is to stop. -/
def toGo (s : Whole K) : ℕ :=
  let B := s.p.toModify.length * (s.p.dyn.length + 2)
  match s.p.pc, s.w with
  | .apply, .modification ms => ms.length * (s.p.dyn.length + 2) + 2
  | .apply, .waypoints _ _ ms _ rest => ms.length * (s.p.dyn.length + 2) + rest.length + 3
  | .apply, _ => B + 3
  | .top, .queueStatus => B + 4
  | .top, .queue => B + 5
  | .launched, _ => B + 6
  | .launching, _ => B + 7
  | .planned, _ => B + 8
  | .snapshotted, .vehicle => B + 9
  | .snapshotted, .drone => B + 10
  | .snapshotted, .rest _ _ => B + 11
  | .snapshotted, .convert _ ps => B + 12 + (20 - 10 * ps.length)
  | .snapshotted, .plain _ _ ps done => B + 12 + (19 - 10 * ps.length - 2 * done.length)
  | .snapshotted, .compensate _ _ ps done _ => B + 12 + (18 - 10 * ps.length - 2 * done.length)
  | .snapshotted, .point0 => B + 33
  | .snapshotted, .attach => B + 34
  | .snapshotted, .stitchTime _ _ => B + 35
  | .snapshotted, .stitchParams => B + 36
  | .snapshotted, _ => B + 37
  | .collected, _ => B + 38
  | .collect, .merge _ => B + 39
  | .collect, .filter _ => B + 40
  | .collect, _ => B + 41
  | .top, .status _ => B + 42
  | .top, .zoneLoop _ _ => B + 43
  | .top, .zoneRead => B + 44
  | .top, .zone => B + 45
  | .top, _ => B + 46

/-- It gets closer with every step of its own. -/
theorem toGo_work {env : Env K} {s s' : Whole K} (h : s.work env = .ok s') (ht : Threads env s) :
    (if s'.p.pc = .top ∧ s'.w = .begin then 1 else toGo s') < toGo s := by
  have hloc := (threads_inv ht).2
  obtain ⟨p, c, w⟩ := s
  unfold Local at hloc
  have same : ∀ {q : Whole K}, (Except.ok q : Res (Whole K)) = .ok s' → s' = q := fun h => (Except.ok.inj h).symm
  cases hpc : p.pc <;> simp only [hpc] at hloc <;> cases w <;> simp only at hloc <;> simp only [Whole.work, hpc] at h
  case top.queueStatus =>
    split at h <;> rw [same h] <;> simp [toGo, hpc]
  case top.status b =>
    split at h <;> rw [same h] <;> simp [toGo, hpc]
  case top.queue =>
    rw [same h]
    by_cases hm : p.toModify.isEmpty = true <;> simp [toGo, hpc, hm]
  case top.begin =>
    rw [same h]
    by_cases hm : p.generateNew = true <;> simp [toGo, hpc, hm]
  case top.zone =>
    rw [same h]
    cases p.traj <;> simp [toGo, hpc]
  case collect.begin =>
    rw [same h]
    by_cases hm : p.toSet.length = 0 <;> simp [toGo, hpc, hm]
  case snapshotted.begin =>
    rw [same h]
    cases p.traj <;> simp [toGo, hpc]
  case collect.filter ws =>
    simp only [bind, Except.bind] at h
    split at h
    · cases h
    · rw [same h]; simp [toGo, hpc]
  case collect.merge ws =>
    simp only [bind, Except.bind] at h
    split at h
    · cases h
    · rw [same h]; simp [toGo, hpc]
  case snapshotted.stitchTime a b =>
    split at h
    · cases h
    · rename_i tr _
      rw [same h]
      by_cases hm : tr.maxTime + b - a < 2 * p.computationTime <;> simp [toGo, hpc, hm]
  case snapshotted.plain g t ps done =>
    obtain ⟨_, tr, _, hl, _, _, hd, _⟩ := hloc
    split at h
    · cases h
    · simp only [bind, Except.bind] at h
      split at h
      · cases h
      · split at h
        · cases h
        · rw [same h]
          simp [toGo, hpc]
          omega
  case snapshotted.compensate g t ps done base =>
    obtain ⟨_, tr, _, hl, _, _, hd, _⟩ := hloc
    have fin : ∀ v : V3 K, ((if done.length < 2 then pure ⟨p, c, .plain g t ps (done ++ [v])⟩
        else do
          let point ← attachPoint (referencesOf (done ++ [v])) ps.isEmpty
          if ps.length < 1 then pure ⟨p, c, .convert (t + 5 * p.computationTime) (ps ++ [point])⟩
            else pure ⟨p, c, .rest (t + 5 * p.computationTime) (ps ++ [point])⟩ : Res (Whole K)) = .ok s') →
        (if s'.p.pc = .top ∧ s'.w = .begin then 1 else toGo s') < toGo ⟨p, c, .compensate g t ps done base⟩ := by
      intro v h
      split at h
      · rw [same h]
        simp [toGo, hpc]
        omega
      · simp only [bind, Except.bind] at h
        split at h
        · cases h
        · split at h
          · rw [same h]
            simp [toGo, hpc]
            omega
          · rw [same h]
            simp only [toGo, hpc, reduceCtorEq, false_and, if_false]
            omega
    split at h
    · cases hv : Planner.compensateLoop env g done.length p.dyn base with
      | error e => rw [hv] at h; cases h
      | ok v => rw [hv] at h; exact fin v h
    · exact fin base h
  case snapshotted.vehicle =>
    simp only [bind, Except.bind] at h
    split at h
    · cases h
    · rw [same h]; simp [toGo, hpc]
  case apply.modification ms =>
    cases ms with
    | nil => simp only at h; rw [same h]; simp [toGo, hpc]
    | cons m ms =>
      obtain ⟨name, y⟩ := m
      simp only at h
      rw [same h]
      simp [toGo, hpc, Nat.add_mul]
      omega
  case apply.waypoints name y ms done rest =>
    obtain ⟨pre, hd, hf⟩ := hloc
    replace hd : p.dyn = pre ++ rest := hd
    cases rest with
    | nil =>
      simp only at h
      rw [same h]
      have := hf.length_eq
      rw [List.append_nil] at hd
      simp [toGo, hpc, hd, this]
    | cons a rest =>
      simp only at h
      split at h
      · simp only [bind, Except.bind] at h
        split at h
        · cases h
        · rw [same h]
          simp [toGo, hpc]
      · rw [same h]
        simp [toGo, hpc]
  case snapshotted.convert t ps =>
    obtain ⟨_, tr, _, hl, _⟩ := hloc
    rw [same h]
    simp [toGo, hpc]
    omega
  case collected.begin =>
    simp only [Planner.workerStep, hpc, bind, Except.bind] at h
    split at h
    · cases h
    · rename_i q hq
      split at hq
      · rw [← Except.ok.inj hq] at h; rw [same h]; simp [toGo, hpc]
      · rw [← Except.ok.inj hq] at h; rw [same h]; simp [toGo, hpc]
  case planned.begin =>
    simp only [Planner.workerStep, hpc, bind, Except.bind] at h
    rw [same h]; simp [toGo, hpc]
  case launching.begin =>
    simp only [Planner.workerStep, hpc, bind, Except.bind] at h
    rw [same h]; simp [toGo, hpc]
  case launched.begin =>
    simp only [Planner.workerStep, hpc, bind, Except.bind] at h
    rw [same h]; simp [toGo, hpc]
  all_goals
    rw [same h]
    simp [toGo, hpc]

/-- How many steps all threads together take at most. -/
def remaining (x : Dying K) : ℕ :=
  3 * (if x.ended then 0 else if x.s.p.pc = .top ∧ x.s.w = .begin ∧ x.checked = false then 1 else toGo x.s) +
    (match x.s.p.future with
      | .launched => 2
      | .running _ => 1
      | _ => 0) +
    match x.d with
      | .stop => declared.length + 3
      | .join => declared.length + 2
      | .members rest => rest.length + 1
      | .done => 0



theorem task_lists {env : Env K} {p p' : Planner K} {e : Event K} (ht : ByTask e) (h : p.step env e = .ok (some p')) :
    p'.dyn = p.dyn ∧ p'.toModify = p.toModify := by
  cases e with
  | asyncStart =>
    simp only [Planner.step, Planner.asyncStart] at h
    split at h
    · rw [← Option.some.inj (Except.ok.inj h)]; exact ⟨rfl, rfl⟩
    · cases h
  | asyncFinish dt =>
    simp only [Planner.step, Planner.asyncFinish] at h
    split at h
    · split at h
      · rw [← Option.some.inj (Except.ok.inj h)]; exact ⟨rfl, rfl⟩
      · rw [← Option.some.inj (Except.ok.inj h)]; exact ⟨rfl, rfl⟩
      · cases h
    · cases h
  | _ => exact ht.elim

theorem remaining_step {env : Env K} {s0 : Whole K} (h0 : Threads env s0) {x y : Dying K} (hx : Destroyed env s0 x) (hd : x.d ≠ .stop)
    (h : DestroyStep env x y) : remaining y < remaining x := by
  have hth := (destroyed_inv h0 hx).1
  cases h with
  | destructor h =>
    obtain ⟨d, rfl, hn, hh⟩ := dying_destroy h
    rcases hh with ⟨h1, _⟩ | ⟨h1, _, rfl⟩ | ⟨h1, rfl⟩ | ⟨m, r, h1, rfl⟩
    · exact absurd h1 hd
    · simp only [remaining, h1, List.length_reverse]; omega
    · simp only [remaining, h1, List.length_nil]; omega
    · simp only [remaining, h1, List.length_cons]; omega
  | worker h =>
    obtain ⟨he, _, ⟨hp, hw, hc, ⟨h1, _⟩ | ⟨_, rfl⟩⟩ | ⟨hb, s, hs, rfl⟩⟩ := dying_work h
    · exact absurd h1 hd
    · simp only [remaining, he, hp, hw, hc, if_true, and_self, Bool.false_eq_true, if_false]; omega
    · have hk := toGo_work hs hth
      simp only [remaining, he, Bool.false_eq_true, if_false, and_true]
      rw [if_neg hb]
      have f1 : (match s.p.future with | .launched => 2 | .running _ => 1 | _ => 0) ≤ 2 := by split <;> omega
      generalize (match s.p.future with | .launched => 2 | .running _ => 1 | _ => 0) = f at f1 ⊢
      generalize (if s.p.pc = .top ∧ s.w = .begin then 1 else toGo s) = a at hk ⊢
      omega
  | task e hb hv h =>
    obtain ⟨p, hp, _, rfl⟩ := compute_ok h
    obtain ⟨k1, _⟩ := task_pc hb hp
    have k3 : p.dyn = x.s.p.dyn ∧ p.toModify = x.s.p.toModify := task_lists hb hp
    have k4 := task_future hb hp
    have hg : toGo ⟨p, x.s.c, x.s.w⟩ = toGo x.s := by
      unfold toGo
      simp only [k1, k3.1, k3.2]
    simp only [remaining, hg, k1]
    rcases k4 with ⟨k4, v, k5⟩ | ⟨⟨v, k4⟩, k5⟩
    · simp only [k4, k5]; omega
    · simp only [k4]
      cases hf : p.future <;> rw [hf] at k5 <;> first | (simp only; omega) | (simp [Future.isReady] at k5)

/-- As long as the destructor has not returned, some thread can go on, or fails. -/
theorem destroyed_progress {env : Env K} {s0 : Whole K} (h0 : Threads env s0) {x : Dying K} (hx : Destroyed env s0 x) (hd : x.d ≠ .done)
    (hf : x.s.p.future.inProgress = false) : (∃ y, DestroyStep env x y) ∨ ∃ e, x.work env = .error e := by
  obtain ⟨_, h2, _⟩ := destroyed_inv h0 hx
  cases hc : x.destroy with
  | some y => exact Or.inl ⟨y, .destructor hc⟩
  | none =>
    unfold Dying.destroy at hc
    split at hc <;> try cases hc
    · rename_i hj
      split at hc <;> try cases hc
      rename_i he
      cases hw : x.work env with
      | error e => exact Or.inr ⟨e, rfl⟩
      | ok r =>
        cases r with
        | some y => exact Or.inl ⟨y, .worker hw⟩
        | none =>
          unfold Dying.work at hw
          rw [if_neg he] at hw
          split at hw
          · cases hw
          · split at hw
            · cases hw
            · simp only [bind, Except.bind] at hw
              split at hw <;> cases hw
    · rw [hf] at hc
      cases hc
    · rename_i hdd; exact absurd hdd hd

/-- The destructor of the future has waited for the computation. -/
theorem destroyed_waits {env : Env K} {s0 : Whole K} (h0 : Threads env s0) {x : Dying K} (hx : Destroyed env s0 x) :
    x.d.alive .future = false → x.s.p.future.inProgress = false := by
  induction hx with
  | called c => intro h; cases h
  | step hx hs ih =>
    rename_i x y
    obtain ⟨_, i2, _⟩ := destroyed_inv h0 hx
    cases hs with
    | destructor h =>
      unfold Dying.destroy at h
      split at h
      · rename_i hd; rw [← Option.some.inj h]; intro h; cases h
      · split at h
        · rw [← Option.some.inj h]; intro h; simp [Destructor.alive, declared] at h
        · cases h
      · rename_i hd; rw [← Option.some.inj h]; intro _; exact ih (by rw [hd]; rfl)
      · split at h
        · cases h
        · rename_i hf; rw [← Option.some.inj h]; intro _; simpa using hf
      · rename_i m rest hne hd
        rw [← Option.some.inj h]
        intro ha
        refine ih ?_
        rw [hd]
        simp only [Destructor.alive, List.mem_cons, decide_eq_false_iff_not, not_or] at ha ⊢
        exact ⟨fun hm => hne hm.symm, ha⟩
      · cases h
    | worker h =>
      obtain ⟨_, ha, _⟩ := dying_work h
      have hal : x.d.alive .future = true := List.all_eq_true.mp ha _ (by simp [declared])
      obtain ⟨_, _, ⟨_, _, _, ⟨_, rfl⟩ | ⟨_, rfl⟩⟩ | ⟨_, _, _, rfl⟩⟩ := dying_work h <;>
        (intro hh; simp only at hh; rw [hal] at hh; cases hh)
    | task e hb hv h =>
      obtain ⟨p, hp, _, rfl⟩ := compute_ok h
      intro ha
      rw [idle_task (ih ha) hb] at hp
      cases hp

end Verif.Lemmas
