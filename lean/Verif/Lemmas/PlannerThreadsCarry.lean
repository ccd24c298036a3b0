import Verif.Lemmas.PlannerThreadsPhases

/-!
# A waypoint handed over, on its way into the plan, in any interleaving of all threads
-/

set_option linter.unusedSectionVars false
set_option linter.unusedSimpArgs false

namespace Verif.Lemmas
open Verif Verif.Spec

variable {K : Type*} [Field K] [LinearOrder K] [IsStrictOrderedRing K] [FloorSemiring K]

/-- While no computation is in progress nothing is taken over. -/
theorem threads_idle {env : Env K} {s : Whole K} (h : Threads env s) (hc : s.p.computing = false) :
    Serialised env s.p ∧ s.p.future = .invalid ∧ ¬ TakingOver s.c := by
  obtain ⟨hi, _⟩ := threads_inv h
  have hinv := interleaved_inv hi
  have hn : ¬ TakingOver s.c := by
    obtain ⟨p, c, w⟩ := s
    intro ht
    have hp := hinv.2
    have hh : Held p := by cases c <;> first | exact ht.elim | exact hp.1 | exact hp
    have : p.computing = false := hc
    rw [hh.2.1] at this
    cases this
  have hs := hinv.1
  rw [settled_eq (f := ⟨s.p, s.c⟩) hn] at hs
  have hk := serialised_ctl hs
  exact ⟨hs, hk.idle hc, hn⟩

theorem threads_busy {env : Env K} {s : Whole K} (h : Threads env s) (hc : s.p.computing = true) :
    s.p.pc = .top ∨ s.p.pc = .launching ∨ s.p.pc = .launched := by
  by_contra hn
  push Not at hn
  have := (threads_phase h hn).2.1
  rw [hc] at this
  cases this

/-- What the evaluating thread does to the plan. -/
theorem own_plan {env : Env K} {p p' : Planner K} {c c' : Consumer K} (h : Fine.consume env ⟨p, c⟩ = .ok (some ⟨p', c'⟩)) :
    ((∃ k, c = .clearComputing k) ∧ p'.computing = false ∧ p'.dyn = p.dyn ∧ ∀ k, c' ≠ .clearComputing k) ∨
    ((∀ k, c ≠ .clearComputing k) ∧ p'.computing = p.computing ∧ ∀ k, c' = .clearComputing k → p'.dyn = p.next.map (·.copy)) := by
  have simple : ∀ {q : Planner K} {d : Consumer K}, (Except.ok (some (⟨q, d⟩ : Fine K)) : Res (Option (Fine K))) = .ok (some ⟨p', c'⟩) →
      p' = q ∧ c' = d :=
    fun h => by
      have := Option.some.inj (Except.ok.inj h)
      injection this with h1 h2
      exact ⟨h1.symm, h2.symm⟩
  have hafter : ∀ k : Purpose K, ∀ k', k.after ≠ .clearComputing k' := fun k k' => by cases k <;> simp [Purpose.after]
  have plain : ∀ {q : Planner K} {d : Consumer K}, (Except.ok (some (⟨q, d⟩ : Fine K)) : Res (Option (Fine K))) = .ok (some ⟨p', c'⟩) →
      (∀ k, c ≠ .clearComputing k) → q.computing = p.computing → (∀ k, d ≠ .clearComputing k) →
      (∀ k, c ≠ .clearComputing k) ∧ p'.computing = p.computing ∧ ∀ k, c' = .clearComputing k → p'.dyn = p.next.map (·.copy) := by
    intro q d h3 h0 h1 h2
    obtain ⟨rfl, rfl⟩ := simple h3
    exact ⟨h0, h1, fun k hk => absurd hk (h2 k)⟩
  cases c with
  | free => cases h
  | evaluated r => cases h
  | copied ws => cases h
  | time x => cases h
  | clearComputing k =>
    obtain ⟨rfl, rfl⟩ := simple h
    exact Or.inl ⟨⟨k, rfl⟩, rfl, rfl, fun k => by simp⟩
  | swap k =>
    obtain ⟨rfl, rfl⟩ := simple h
    exact Or.inr ⟨fun k => by simp, rfl, fun k _ => rfl⟩
  | start k =>
    right
    cases k <;> refine plain h (by simp) rfl ?_ <;> intro k' <;> first | (split <;> simp) | simp
  | wait k =>
    right
    simp only [Fine.consume] at h
    split at h
    · exact plain h (by simp) rfl (by simp)
    · cases h
  | valid k => exact Or.inr (plain h (by simp) rfl (by simp))
  | busy k v =>
    refine Or.inr (plain h (by simp) rfl ?_)
    intro k'
    split
    · simp
    · exact hafter k k'
  | ready k =>
    right
    simp only [Fine.consume] at h
    split at h
    · refine plain h (by simp) rfl ?_
      intro k'
      split
      · simp
      · exact hafter k k'
    · cases h
  | get k =>
    right
    simp only [Fine.consume] at h
    split at h
    · exact plain h (by simp) rfl (by simp)
    · cases h
    · cases h
    · cases h
  | target k new =>
    right
    simp only [Fine.consume] at h
    split at h <;> exact plain h (by simp) rfl (by simp)
  | old k new g l =>
    right
    simp only [Fine.consume] at h
    split at h
    · cases h
    · simp only [bind, Except.bind] at h
      split at h
      · cases h
      · exact plain h (by simp) rfl (by simp)
  | fit0 k new s x =>
    right
    simp only [Fine.consume, bind, Except.bind] at h
    split at h
    · cases h
    · exact plain h (by simp) rfl (by simp)
  | fit k new s x n i d m =>
    right
    cases n with
    | zero => exact plain h (by simp) rfl (by simp)
    | succ n =>
      simp only [Fine.consume, bind, Except.bind] at h
      split at h
      · cases h
      · split at h <;> exact plain h (by simp) rfl (by simp)
  | offset k new s x m => exact Or.inr (plain h (by simp) rfl (by simp))
  | fitted k new s => refine Or.inr (plain h (by simp) ?_ (by simp)); cases s <;> rfl
  | params k new => exact Or.inr (plain h (by simp) rfl (by simp))
  | traj k new => exact Or.inr (plain h (by simp) rfl (by simp))
  | mark k => exact Or.inr (plain h (by simp) rfl (by simp))
  | clearRequest k => exact Or.inr (plain h (by simp) rfl (hafter k))
  | localTime t o f => exact Or.inr (plain h (by simp) rfl (by simp))
  | note t o f l => refine Or.inr (plain h (by simp) ?_ (by simp)); cases f <;> rfl
  | shift t o l => exact Or.inr (plain h (by simp) rfl (by simp))
  | plain o g l done =>
    right
    simp only [Fine.consume] at h
    split at h
    · cases h
    · simp only [bind, Except.bind] at h
      split at h
      · cases h
      · split at h
        · cases h
        · exact plain h (by simp) rfl (by simp)
  | compensate o g l done base =>
    right
    obtain ⟨v, _, hv⟩ := compensate_step h
    injection hv with h1 h2
    rw [h1, h2]
    refine ⟨by simp, rfl, fun k hk => ?_⟩
    unfold nextOrder at hk
    split at hk <;> cases hk
  | copy => exact Or.inr (plain h (by simp) rfl (by simp))
  | length m =>
    right
    simp only [Fine.consume] at h
    split at h
    · cases h
    · exact plain h (by simp) rfl (by simp)
  | globalTime x => exact Or.inr (plain h (by simp) rfl (by simp))

/-- What the computation does to the plan. -/
theorem task_plan {env : Env K} {p p' : Planner K} {e : Event K} (ht : ByTask e) (h : p.step env e = .ok (some p')) :
    p'.pc = p.pc ∧ p'.computing = p.computing ∧ p'.dyn = p.dyn ∧ List.Forall₂ SameWaypoint p.next p'.next := by
  have refl : ∀ l : List (Waypoint K), List.Forall₂ SameWaypoint l l := fun l => List.forall₂_same.mpr fun w _ => same_refl w
  cases e with
  | asyncStart =>
    simp only [Planner.step, Planner.asyncStart] at h
    split at h
    · rw [← Option.some.inj (Except.ok.inj h)]
      exact ⟨rfl, rfl, rfl, refl _⟩
    · cases h
  | asyncFinish dt =>
    simp only [Planner.step, Planner.asyncFinish] at h
    split at h
    · split at h
      · rename_i tr ws hco
        rw [← Option.some.inj (Except.ok.inj h)]
        obtain ⟨vs, _, _, _, ha⟩ := computeTrajectory_form env p _ tr ws hco
        exact ⟨rfl, rfl, rfl, assignTimes_same _ _ _ _ _ ha⟩
      · rw [← Option.some.inj (Except.ok.inj h)]
        exact ⟨rfl, rfl, rfl, refl _⟩
      · cases h
    · cases h
  | _ => exact ht.elim

/-- What the worker does while a computation is in progress. -/
theorem work_busy {env : Env K} {s s' : Whole K} (h : s.work env = .ok s') (ht : Threads env s) (hc : s.p.computing = true) :
    s'.p.computing = true ∧ s'.p.next = s.p.next ∧ s'.p.dyn = s.p.dyn ∧ s'.c = s.c ∧ s'.p.pc ≠ .launching ∧
      (s.p.pc ≠ .launching → s'.p.future = s.p.future) := by
  have hpc := threads_busy ht hc
  have hloc := (threads_inv ht).2
  obtain ⟨p, c, w⟩ := s
  replace hpc : p.pc = .top ∨ p.pc = .launching ∨ p.pc = .launched := hpc
  replace hc : p.computing = true := hc
  unfold Local at hloc
  have same : ∀ {q : Whole K}, (Except.ok q : Res (Whole K)) = .ok s' → s' = q := fun h => (Except.ok.inj h).symm
  rcases hpc with hpc | hpc | hpc <;> simp only [hpc] at hloc <;> cases w <;> simp only at hloc <;> simp only [Whole.work, hpc] at h
  case inl.status b =>
    rw [hc] at h
    simp only [Bool.not_true, Bool.and_false, Bool.false_eq_true, if_false] at h
    rw [same h]; exact ⟨hc, rfl, rfl, rfl, by simp [hpc], by simp [hpc]⟩
  case inl.queueStatus =>
    rw [hc] at h
    simp only [Bool.not_true, Bool.false_eq_true, if_false] at h
    rw [same h]; exact ⟨hc, rfl, rfl, rfl, by simp [hpc], by simp [hpc]⟩
  case inr.inl.begin =>
    simp only [Planner.workerStep, hpc, bind, Except.bind] at h
    rw [same h]; exact ⟨hc, rfl, rfl, rfl, by simp [hpc], by simp [hpc]⟩
  case inr.inr.begin =>
    simp only [Planner.workerStep, hpc, bind, Except.bind] at h
    rw [same h]; exact ⟨hc, rfl, rfl, rfl, by simp [hpc], by simp [hpc]⟩
  all_goals (rw [same h]; exact ⟨hc, rfl, rfl, rfl, by simp [hpc], by simp [hpc]⟩)

/-- What the worker does at the top of its loop, or while it applies updates or collects, short of having collected. -/
theorem work_resting {env : Env K} {s s' : Whole K} (h : s.work env = .ok s') (ht : Threads env s)
    (hpc : s.p.pc = .top ∨ s.p.pc = .apply ∨ s.p.pc = .collect) (hn : ¬ (s.p.pc = .collect ∧ s'.p.pc = .collected)) :
    (s'.p.pc = .top ∨ s'.p.pc = .apply ∨ s'.p.pc = .collect) ∧ s'.p.computing = s.p.computing ∧ s'.p.generateNew = s.p.generateNew ∧
      s'.c = s.c := by
  have hloc := (threads_inv ht).2
  obtain ⟨p, c, w⟩ := s
  replace hpc : p.pc = .top ∨ p.pc = .apply ∨ p.pc = .collect := hpc
  unfold Local at hloc
  have same : ∀ {q : Whole K}, (Except.ok q : Res (Whole K)) = .ok s' → s' = q := fun h => (Except.ok.inj h).symm
  rcases hpc with hpc | hpc | hpc <;> simp only [hpc] at hloc <;> cases w <;> simp only at hloc <;> simp only [Whole.work, hpc] at h
  case inl.status b => split at h <;> (rw [same h]; simp [hpc])
  case inl.queueStatus => split at h <;> (rw [same h]; simp [hpc])
  case inr.inl.modification ms => cases ms <;> (rw [same h]; simp [hpc])
  case inr.inl.waypoints name x ms done rest =>
    cases rest with
    | nil => rw [same h]; simp [hpc]
    | cons a rest =>
      simp only at h
      split at h
      · simp only [bind, Except.bind] at h
        split at h
        · cases h
        · rw [same h]; simp [hpc]
      · rw [same h]; simp [hpc]
  case inr.inr.filter ws =>
    simp only [bind, Except.bind] at h
    split at h
    · cases h
    · rw [same h]; simp [hpc]
  case inr.inr.merge base =>
    simp only [bind, Except.bind] at h
    split at h
    · cases h
    · have := same h
      exact absurd ⟨hpc, by rw [this]⟩ hn
  all_goals (rw [same h]; simp [hpc])

/-- What the worker does in the phase `collected`. -/
theorem work_collected {env : Env K} {s s' : Whole K} (h : s.work env = .ok s') (ht : Threads env s) (hpc : s.p.pc = .collected)
    (hn : s.p.next ≠ []) : s'.p.pc = .snapshotted ∧ s'.w = .begin ∧ s'.p.next = s.p.next ∧ s'.p.computing = s.p.computing ∧ s'.c = s.c := by
  have hloc := (threads_inv ht).2
  obtain ⟨p, c, w⟩ := s
  replace hpc : p.pc = .collected := hpc
  unfold Local at hloc
  simp only [hpc] at hloc
  cases w <;> simp only at hloc
  simp only [Whole.work, hpc, Planner.workerStep, bind, Except.bind] at h
  split at h
  · cases h
  · rename_i q hq
    have h' := Except.ok.inj h
    split at hq
    · rename_i he; exact absurd (List.length_eq_zero_iff.mp he) hn
    · rw [← Except.ok.inj hq] at h'
      rw [← h']
      exact ⟨rfl, rfl, rfl, rfl, rfl⟩

/-- What the worker does in the phase `planned`. -/
theorem work_planned {env : Env K} {s s' : Whole K} (h : s.work env = .ok s') (ht : Threads env s) (hpc : s.p.pc = .planned) :
    s'.p.pc = .launching ∧ s'.p.next = s.p.next ∧ s'.p.computing = true ∧ s'.c = s.c := by
  have hloc := (threads_inv ht).2
  obtain ⟨p, c, w⟩ := s
  replace hpc : p.pc = .planned := hpc
  unfold Local at hloc
  simp only [hpc] at hloc
  cases w <;> simp only at hloc
  simp only [Whole.work, hpc, Planner.workerStep, bind, Except.bind] at h
  rw [← Except.ok.inj h]
  exact ⟨rfl, rfl, rfl, rfl⟩

/-- The plan in preparation has the waypoint `w0`. -/
def Carried (w0 : Waypoint K) (s : Whole K) : Prop :=
  ((s.p.pc = .collected ∨ s.p.pc = .snapshotted) ∧ ∃ w' ∈ s.p.next, w'.time = 0 ∧ SameWaypoint w0 w') ∨
  ((s.p.pc = .planned ∨ s.p.computing = true) ∧ (∃ w' ∈ s.p.next, SameWaypoint w0 w') ∧
    ∀ k, s.c = .clearComputing k → ∃ w' ∈ s.p.dyn, SameWaypoint w0 w')

theorem attach_same {env : Env K} {p : Planner K} {ws r : List (Waypoint K)} {w : Waypoint K} (hw : w ∈ ws) (ht : w.time = 0)
    (h : p.stitch env ws = .ok r ∨ p.appendDronePosition ws = .ok r) : ∃ w' ∈ r, SameWaypoint w w' := by
  rcases h with h | h
  · obtain ⟨_, w0, w1, _, _, _, rfl⟩ := stitch_form env p ws r h
    refine ⟨w.copy, ?_, same_copy w⟩
    refine List.mem_cons_of_mem _ (List.mem_cons_of_mem _ (List.mem_map_of_mem (List.mem_filter.mpr ⟨hw, ?_⟩)))
    simp [ht]
  · obtain ⟨w0, rfl, _⟩ := appendDrone_spec p ws r h
    exact ⟨w, List.mem_cons_of_mem _ hw, same_refl w⟩

/-- What the worker does in the phase `snapshotted`. -/
theorem work_snapshotted {env : Env K} {s s' : Whole K} (h : s.work env = .ok s') (ht : Threads env s) (hpc : s.p.pc = .snapshotted) :
    (s'.p.pc = .snapshotted ∧ s'.p.next = s.p.next ∨ s'.p.pc = .planned) ∧ s'.p.computing = s.p.computing ∧ s'.c = s.c := by
  have hloc := (threads_inv ht).2
  obtain ⟨p, c, w⟩ := s
  replace hpc : p.pc = .snapshotted := hpc
  unfold Local at hloc
  simp only [hpc] at hloc
  have same : ∀ {q : Whole K}, (Except.ok q : Res (Whole K)) = .ok s' → s' = q := fun h => (Except.ok.inj h).symm
  cases w <;> simp only at hloc <;> simp only [Whole.work, hpc] at h
  case stitchTime clock start =>
    split at h
    · cases h
    · rw [same h]; simp [hpc]
  case plain g t points done =>
    split at h
    · cases h
    · simp only [bind, Except.bind] at h
      split at h
      · cases h
      · split at h
        · cases h
        · rw [same h]; simp [hpc]
  case compensate g t points done base =>
    have key : s'.p = p ∧ s'.c = c := by
      split at h
      · simp only [bind, Except.bind] at h
        split at h
        · cases h
        · split at h
          · rw [same h]; exact ⟨rfl, rfl⟩
          · split at h
            · cases h
            · split at h <;> (rw [same h]; exact ⟨rfl, rfl⟩)
      · simp only [bind, Except.bind, pure, Except.pure] at h
        split at h
        · rw [same h]; exact ⟨rfl, rfl⟩
        · split at h
          · cases h
          · split at h <;> (rw [same h]; exact ⟨rfl, rfl⟩)
    rw [key.1, key.2]; simp [hpc]
  case vehicle =>
    simp only [bind, Except.bind] at h
    split at h
    · cases h
    · rw [same h]; simp
  all_goals (rw [same h]; simp [hpc])

/-- The plan in preparation keeps the waypoint until it is taken over, and then the new plan has it. -/
theorem carried_step {env : Env K} {l : Label K} {s s' : Whole K} {w0 : Waypoint K} (ht : Threads env s) (hc : Carried w0 s)
    (h : ThreadStep env l s s') : (TakesOver s.p s'.p → ∃ w' ∈ s'.p.dyn, SameWaypoint w0 w') ∧ (¬ TakesOver s.p s'.p → Carried w0 s') := by
  have idleA : s.p.pc = .collected ∨ s.p.pc = .snapshotted ∨ s.p.pc = .planned → s.p.computing = false ∧ s.p.future = .invalid := by
    intro hpc
    have := threads_phase ht (by rcases hpc with h | h | h <;> simp [h])
    exact ⟨this.2.1, this.2.2.1⟩
  have no : ∀ {p p' : Planner K}, p'.computing = p.computing → ¬ TakesOver p p' := by
    intro p p' he h
    have := h.2
    rw [he, h.1] at this
    cases this
  cases h with
  | evaluator w h =>
    rename_i p p' c c'
    have hk := own_keeps h
    simp only at idleA
    rcases own_plan h with ⟨⟨k, rfl⟩, h1, h2, h3⟩ | ⟨h0, h1, h2⟩
    · have hheld : Held p := (interleaved_inv (threads_inv ht).1).2.1
      have hdyn : ∃ w' ∈ p.dyn, SameWaypoint w0 w' := by
        rcases hc with ⟨hp, _⟩ | ⟨_, _, hd⟩
        · have := (idleA (by rcases hp with h | h <;> simp only at h <;> simp [h])).1
          rw [hheld.2.1] at this
          cases this
        · exact hd k rfl
      refine ⟨fun _ => by simp only; rw [h2]; exact hdyn, fun hn => absurd ⟨hheld.2.1, h1⟩ hn⟩
    · refine ⟨fun hto => absurd hto (no h1), fun _ => ?_⟩
      rcases hc with ⟨hp, hw⟩ | ⟨hp, hw, _⟩
      · left
        simp only at hp hw ⊢
        rw [hk.pc, hk.next]
        exact ⟨hp, hw⟩
      · right
        simp only at hp hw ⊢
        rw [hk.pc, hk.next, h1]
        refine ⟨hp, hw, fun k hkk => ?_⟩
        rw [h2 k hkk]
        obtain ⟨w', hw', hs⟩ := hw
        exact ⟨w'.copy, List.mem_map_of_mem hw', same_trans _ _ _ hs (same_copy w')⟩
  | worker h =>
    rcases hc with ⟨hp | hp, hw⟩ | ⟨hp, hw, hd⟩
    · obtain ⟨k1, _, k2, k3, k4⟩ := work_collected h ht hp (by obtain ⟨w', hw', _⟩ := hw; exact List.ne_nil_of_mem hw')
      refine ⟨fun hto => absurd hto (no k3), fun _ => Or.inl ⟨Or.inr k1, ?_⟩⟩
      rw [k2]; exact hw
    · obtain ⟨k1, k2, k3⟩ := work_snapshotted h ht hp
      refine ⟨fun hto => absurd hto (no k2), fun _ => ?_⟩
      rcases k1 with ⟨k1, k4⟩ | k1
      · left
        rw [k4]; exact ⟨Or.inr k1, hw⟩
      · right
        obtain ⟨w1, hw1, hw2, hw3⟩ := hw
        refine ⟨Or.inl k1, ?_, ?_⟩
        · have : ∃ w' ∈ s'.p.next, SameWaypoint w1 w' := by
            rcases attach_ends (.worker h) ht hp k1 with ⟨_, _, _, _, e, _⟩ | ⟨_, _, e, _⟩
            · exact attach_same hw1 hw2 (Or.inl e)
            · exact attach_same (env := env) hw1 hw2 (Or.inr e)
          obtain ⟨w', hw', hs⟩ := this
          exact ⟨w', hw', same_trans _ _ _ hw3 hs⟩
        · intro k hk
          rw [k3] at hk
          exact absurd (by rw [hk]; trivial) (threads_phase ht (by simp [hp])).2.2.2
    · by_cases hcomp : s.p.computing = true
      · obtain ⟨k1, k2, k3, k4, _⟩ := work_busy h ht hcomp
        refine ⟨fun hto => absurd hto (no (k1.trans hcomp.symm)), fun _ => Or.inr ⟨Or.inr k1, ?_, ?_⟩⟩
        · rw [k2]; exact hw
        · rw [k3, k4]; exact hd
      · have hpl : s.p.pc = .planned := hp.resolve_right hcomp
        obtain ⟨_, k2, k3, k4⟩ := work_planned h ht hpl
        refine ⟨fun hto => absurd hto.1 hcomp, fun _ => Or.inr ⟨Or.inr k3, ?_, ?_⟩⟩
        · rw [k2]; exact hw
        · intro k hk
          rw [k4] at hk
          exact absurd (by rw [hk]; trivial) (threads_phase ht (by simp [hpl])).2.2.2
  | user e hu _ hq h =>
    have hb := user_beside hu hq h
    refine ⟨fun hto => absurd hto (no hb.computing), fun _ => ?_⟩
    unfold Carried at hc ⊢
    simp only [hb.pc, hb.next, hb.computing, hb.dyn]
    exact hc
  | request => exact ⟨fun hto => absurd hto (no rfl), fun _ => hc⟩
  | task e hk _ h =>
    obtain ⟨k1, k2, k3, k4⟩ := task_plan hk h
    refine ⟨fun hto => absurd hto (no k2), fun _ => ?_⟩
    rcases hc with ⟨hp, _⟩ | ⟨hp, hw, hd⟩
    · exact absurd (idleA (by rcases hp with h | h <;> simp [h])).2 (task_pc hk h).2
    · right
      simp only [k1, k2, k3]
      refine ⟨hp, ?_, hd⟩
      obtain ⟨w1, hw1, hs1⟩ := hw
      obtain ⟨w', hw', hs⟩ := forall2_mem_left k4 hw1
      exact ⟨w', hw', same_trans _ _ _ hs1 hs⟩

/-- The waypoint is still queued; `ex`: no update for its name is. -/
def Queued (env : Env K) (ex : Prop) (w : Waypoint K) (s : Whole K) : Prop :=
  ∃ g, Pending env g s ∧ (s.p.pc = .top ∨ s.p.pc = .apply ∨ s.p.pc = .collect) ∧ s.p.computing = false ∧ w ∈ g.route ++ g.appended ∧
    (ex → ∀ u ∈ g.updates, u.1 ≠ w.name)

theorem updateFor_none (us : List (String × V3 K)) (w : Waypoint K) (h : ∀ u ∈ us, u.1 ≠ w.name) : updateFor us w = none := by
  unfold updateFor lastUpdate
  split
  · rfl
  · rw [List.filter_eq_nil_iff.mpr (by intro u hu; simpa using h u hu)]; rfl

/-- What is asked for stays asked for until the worker takes it, and then the plan in preparation has it. -/
theorem queued_whole {env : Env K} {ex : Prop} {w : Waypoint K} {l : Label K} {s s' : Whole K} (hq : Queued env ex w s) (hnew : w.time = 0)
    (h : ThreadStep env l s s') (hns : ∀ ws, l ≠ .user (.setWaypoints ws)) (hnm : ex → ∀ x b, l ≠ .user (.modifyWaypoint w.name x b)) :
    ¬ TakesOver s.p s'.p ∧ (¬ TakesRequests s l s' → Queued env ex w s') ∧
      (TakesRequests s l s' → ∃ w0, w0.name = w.name ∧ (ex → Becomes none w w0) ∧ Carried w0 s') := by
  obtain ⟨g, hg, hpc, hcomp, hw, hex⟩ := hq
  have ht := (pending_tracks hg).1
  have hinv := interleaved_inv (threads_inv ht).1
  refine ⟨fun hto => (by rw [hto.1] at hcomp; cases hcomp), ?_, ?_⟩
  · intro hnt
    cases h with
    | evaluator v h =>
      have hb := own_beside h hinv.2 hcomp false
      refine ⟨g, .other hg (.evaluator v h) (by simp) hnt (by simp [FinishesUpdates]), ?_, ?_, hw, hex⟩
      · simp only; rw [hb.pc]; exact hpc
      · exact hb.computing.trans hcomp
    | worker h =>
      obtain ⟨k1, k2, _⟩ := work_resting h ht hpc (fun hh => hnt ⟨rfl, hh⟩)
      by_cases hf : FinishesUpdates s .worker s'
      · exact ⟨_, .updated hg (.worker h) hf, k1, k2.trans hcomp, hw, fun _ u hu => by cases hu⟩
      · exact ⟨g, .other hg (.worker h) (by simp) hnt hf, k1, k2.trans hcomp, hw, hex⟩
    | user e hu hv hq h =>
      have hb := user_beside hu hq h
      refine ⟨_, .user e hg (.user e hu hv hq h), ?_, hb.computing.trans hcomp, ?_, ?_⟩
      · simp only; rw [hb.pc]; exact hpc
      · cases e with
        | setWaypoints ws => exact absurd rfl (hns ws)
        | appendWaypoint u =>
          rcases List.mem_append.mp hw with h | h
          · exact List.mem_append_left _ h
          · exact List.mem_append_right _ (List.mem_append_left _ h)
        | _ => exact hw
      · intro hx
        cases e with
        | setWaypoints ws => exact absurd rfl (hns ws)
        | modifyWaypoint n x b =>
          intro u hu'
          rcases List.mem_append.mp hu' with h | h
          · exact hex hx u h
          · rw [List.mem_singleton.mp h]
            rintro rfl
            exact hnm hx x b rfl
        | _ => first | exact hex hx | exact hu.elim
    | request => exact ⟨g, .other hg (.request s) (by simp) hnt (by simp [FinishesUpdates]), hpc, hcomp, hw, hex⟩
    | task e hk _ h => exact absurd (threads_idle ht hcomp).2.1 (task_pc hk h).2
  · intro htr
    obtain ⟨rfl, h1, h2⟩ := htr
    obtain ⟨base, all, e1, e2, e3⟩ := collect_ends h ht h1 h2
    have hloc := (threads_inv ht).2
    obtain ⟨clock, hB⟩ : ∃ clock, Base s.p clock base := by
      obtain ⟨p, c, v⟩ := s
      simp only at e1 h1
      subst e1
      unfold Local at hloc
      simp only [h1] at hloc
      exact hloc
    obtain ⟨q, hgen⟩ := base_generate hB e2
    have htr := (pending_tracks hg).2
    have hwp := serialised_wp (threads_phase ht (by simp [h1])).1
    have hcont := generated_contents { s.p with params := { s.p.params with lastGlobal := clock } } q g
      ⟨htr.toSet, htr.toAdd, htr.nodup, htr.lookup⟩ ⟨hwp.dyn, hwp.next, hwp.toAdd, hwp.toSet⟩ all hgen
    have hin : w ∈ (if g.route.isEmpty then s.p.dyn.filter (fun w => clock ≤ w.time) else g.route) ++ g.appended := by
      rcases List.mem_append.mp hw with h | h
      · have : g.route.isEmpty = false := by
          cases hr : g.route with
          | nil => rw [hr] at h; cases h
          | cons a b => rfl
        rw [this]
        exact List.mem_append_left _ h
      · exact List.mem_append_right _ h
    obtain ⟨w0, hw0, hbec⟩ := forall2_mem_left hcont hin
    refine ⟨w0, hbec.1, fun hx => by rw [← updateFor_none g.updates w (hex hx)]; exact hbec, Or.inl ⟨Or.inl h2, w0, ?_, hbec.2.1.trans hnew, same_refl w0⟩⟩
    rw [e3]
    exact hw0

/-- From the request to the moment the next plan is taken over. -/
theorem request_carried {env : Env K} {ex : Prop} {w : Waypoint K} {s1 s : Whole K} {ss : List (Whole K)} (hq : Queued env ex w s1)
    (hnew : w.time = 0)
    (h : Stretch env (fun a l b => ¬ TakesOver a.p b.p ∧ (∀ ws, l ≠ .user (.setWaypoints ws)) ∧
      (ex → ∀ x b, l ≠ .user (.modifyWaypoint w.name x b))) s1 ss s) :
    Queued env ex w s ∨ (Threads env s ∧ ∃ w0, w0.name = w.name ∧ (ex → Becomes none w w0) ∧ Carried w0 s) := by
  induction h with
  | start => exact Or.inl hq
  | call k _ hf ih =>
    rcases ih with ⟨g, hg, h1, h2, h3, h4⟩ | ⟨ht, w0, h1, h2, h3⟩
    · exact Or.inl ⟨g, .call k hg hf, h1, h2, h3, h4⟩
    · refine Or.inr ⟨.call k ht hf, w0, h1, h2, ?_⟩
      rcases h3 with h3 | ⟨h3, h4, _⟩
      · exact Or.inl h3
      · exact Or.inr ⟨h3, h4, fun k hk => by cases hk⟩
  | @step ss l s s' _ hs hok ih =>
    obtain ⟨hto, hns, hnm⟩ := hok
    rcases ih with hq | ⟨ht, w0, h1, h2, h3⟩
    · obtain ⟨_, k1, k2⟩ := queued_whole hq hnew hs hns hnm
      by_cases htr : TakesRequests s l s'
      · right
        obtain ⟨g, hg, _⟩ := hq
        exact ⟨.step (pending_tracks hg).1 hs, k2 htr⟩
      · exact Or.inl (k1 htr)
    · exact Or.inr ⟨.step ht hs, w0, h1, h2, (carried_step ht h3 hs).2 hto⟩

end Verif.Lemmas
