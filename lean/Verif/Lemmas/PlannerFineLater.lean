import Verif.Lemmas.PlannerFineCall
import Verif.Lemmas.PlannerPipeline
import Verif.Spec.Clock

/-! # What happens after a request, how calls fail, and why they end -/

set_option linter.unusedSectionVars false
set_option linter.unusedSimpArgs false

namespace Verif.Lemmas
open Verif Verif.Spec

variable {K : Type*} [Field K] [LinearOrder K] [IsStrictOrderedRing K] [FloorSemiring K]

theorem later_interleaved {env : Env K} {ok : Planner K → Event K → Prop} {f g : Fine K} (hf : Interleaved env f) (h : Later env ok f g) :
    Interleaved env g := by
  induction h with
  | refl => exact hf
  | call k _ hg ih => exact .call k ih hg
  | own _ hs ih => exact .inside ih (.own hs)
  | event e _ ho hv _ hs ih => exact .inside ih (.other _ (.event e ho hv hs))

/-- While no computation is in progress the evaluating thread's steps, other than clearing the request flag, only record times. -/
theorem own_idle {env : Env K} {f f' : Fine K} (h : f.consume env = .ok (some f')) (hp : PhaseInv env f) (hc : f.p.computing = false)
    (hn : ∀ k, f.c ≠ .clearRequest k) : (∃ q, f'.p = { f.p with params := q }) ∧ ∀ k, f'.c ≠ .clearRequest k := by
  obtain ⟨p, c⟩ := f
  have hc : p.computing = false := hc
  have hheld : ¬ Held p := fun hh => by rw [hh.2.1] at hc; cases hc
  have hafter : ∀ k : Purpose K, ∀ k', k.after ≠ .clearRequest k' := fun k k' => by cases k <;> simp [Purpose.after]
  cases c with
  | free => cases h
  | evaluated r => cases h
  | copied r => cases h
  | time x => cases h
  | start k =>
    cases k <;> rw [← Option.some.inj (Except.ok.inj h)] <;> refine ⟨⟨p.params, rfl⟩, fun k => ?_⟩ <;> dsimp only <;> first | (split <;> simp) | simp
  | wait k =>
    simp only [Fine.consume] at h
    split at h
    · rw [← Option.some.inj (Except.ok.inj h)]; exact ⟨⟨p.params, rfl⟩, fun k => by simp⟩
    · cases h
  | valid k => rw [← Option.some.inj (Except.ok.inj h)]; exact ⟨⟨p.params, rfl⟩, fun k => by simp⟩
  | busy k v =>
    rw [← Option.some.inj (Except.ok.inj h)]
    refine ⟨⟨p.params, rfl⟩, fun k' => ?_⟩
    dsimp only
    rw [hc]
    exact hafter k k'
  | ready k => exact absurd (show p.computing = true from hp.2.1) (by rw [show p.computing = false from hc]; decide)
  | get k => exact absurd (show p.computing = true from hp.1) (by rw [show p.computing = false from hc]; decide)
  | target k new => exact absurd hp hheld
  | old k new g l => exact absurd hp.1 hheld
  | fit0 k new sc t => exact absurd hp.1 hheld
  | fit k new sc t n i d m => exact absurd hp.1 hheld
  | offset k new sc t m => exact absurd hp.1 hheld
  | fitted k new sc => exact absurd hp.1 hheld
  | params k new => exact absurd hp.1 hheld
  | traj k new => exact absurd hp.1 hheld
  | mark k => exact absurd hp.1 hheld
  | swap k => exact absurd hp.1 hheld
  | clearComputing k => exact absurd hp.1 hheld
  | clearRequest k => exact absurd rfl (hn k)
  | localTime t o fl => rw [← Option.some.inj (Except.ok.inj h)]; exact ⟨⟨p.params, rfl⟩, fun k => by simp⟩
  | note t o fl l =>
    rw [← Option.some.inj (Except.ok.inj h)]
    refine ⟨?_, fun k => by simp⟩
    cases fl with
    | true => exact ⟨p.params, rfl⟩
    | false => exact ⟨_, rfl⟩
  | shift t o l => rw [← Option.some.inj (Except.ok.inj h)]; exact ⟨⟨p.params, rfl⟩, fun k => by simp⟩
  | plain o g l done =>
    simp only [Fine.consume] at h
    split at h
    · cases h
    · simp only [bind, Except.bind] at h
      split at h
      · cases h
      · split at h
        · cases h
        · rw [← Option.some.inj (Except.ok.inj h)]; exact ⟨⟨p.params, rfl⟩, fun k => by simp⟩
  | compensate o g l done base =>
    obtain ⟨v, _, rfl⟩ := compensate_step h
    refine ⟨⟨p.params, rfl⟩, fun k => ?_⟩
    dsimp only [nextOrder]
    split <;> simp
  | copy => rw [← Option.some.inj (Except.ok.inj h)]; exact ⟨⟨p.params, rfl⟩, fun k => by simp⟩
  | length b =>
    simp only [Fine.consume] at h
    split at h
    · cases h
    · rw [← Option.some.inj (Except.ok.inj h)]; exact ⟨⟨p.params, rfl⟩, fun k => by simp⟩
  | globalTime x => rw [← Option.some.inj (Except.ok.inj h)]; exact ⟨⟨p.params, rfl⟩, fun k => by simp⟩

/-- Appended waypoints stay queued until they are collected or superseded. -/
theorem queued_step {env : Env K} {e : Event K} {s s' : Planner K} (hns : ∀ ws, e ≠ .setWaypoints ws) (hcol : ¬ Collects s e)
    (h : s.step env e = .ok (some s')) : ∀ w ∈ s.toAdd, w ∈ s'.toAdd := by
  have hm : ∀ (s s' : Planner K), ¬ Collects s e → Micro env e s s' → ∀ w ∈ s.toAdd, w ∈ s'.toAdd := by
    intro s s' hcol h w hw
    cases h with
    | setWaypoints _ ws => exact absurd rfl (hns ws)
    | append _ u => exact List.mem_append_left _ hw
    | collect _ ws hp _ => exact absurd ⟨rfl, hp⟩ hcol
    | apply _ s1 hp ha =>
      obtain ⟨_, d, r, rfl, _⟩ := applyAll_rel (fun _ _ => True) (fun _ => trivial) (fun _ _ _ _ _ => trivial) (fun _ _ _ _ _ => trivial) _ _ _ ha
      exact hw
    | _ => exact hw
  rcases step_micro' env e s s' h with ⟨rfl, _⟩ | h | ⟨m, ⟨t, o, rfl⟩, h1, h2⟩
  · exact fun w hw => hw
  · exact hm s s' hcol h
  · exact fun w hw => hm m s' (fun h => by cases h.1) h2 w (hm s m hcol h1 w hw)

/-- A flagged request survives. -/
theorem later_flagged {env : Env K} {f g : Fine K} (hf : Interleaved env f) (hfl : Flagged f.p) (hn : ∀ k, f.c ≠ .clearRequest k)
    (h : Later env (fun p e => ¬ Collects p e ∧ (∀ ws, e ≠ .setWaypoints ws) ∧ ∀ n x, e ≠ .modifyWaypoint n x false) f g) :
    Flagged g.p ∧ (∀ k, g.c ≠ .clearRequest k) ∧ ∀ w ∈ f.p.toAdd, w ∈ g.p.toAdd := by
  induction h with
  | refl => exact ⟨hfl, hn, fun _ h => h⟩
  | call k _ _ ih => exact ⟨ih.1, fun k => by simp, ih.2.2⟩
  | own hl hs ih =>
    obtain ⟨⟨q, hq⟩, h2⟩ := own_idle hs (interleaved_inv (later_interleaved hf hl)).2 ih.1.2.1 ih.2.1
    refine ⟨?_, h2, ?_⟩
    · rw [hq]; exact ih.1
    · rw [hq]; exact ih.2.2
  | event e hl _ _ hok hs ih =>
    exact ⟨flagged_step env e _ _ hok.2.2 hok.1 ih.1 hs, ih.2.1, fun w hw => queued_step hok.2.1 hok.1 hs w (ih.2.2 w hw)⟩

/-- Nothing wakes a sleeping planner but a request. -/
theorem later_asleep {env : Env K} {f g : Fine K} (hf : Interleaved env f) (hfl : Asleep f.p) (hn : ∀ k, f.c ≠ .clearRequest k)
    (h : Later env (fun _ e => ¬ IsRequest e) f g) :
    Asleep g.p ∧ (∀ k, g.c ≠ .clearRequest k) ∧ g.p.toAdd = f.p.toAdd := by
  induction h with
  | refl => exact ⟨hfl, hn, rfl⟩
  | call k _ _ ih => exact ⟨ih.1, fun k => by simp, ih.2.2⟩
  | own hl hs ih =>
    obtain ⟨⟨q, hq⟩, h2⟩ := own_idle hs (interleaved_inv (later_interleaved hf hl)).2 ih.1.2.1 ih.2.1
    refine ⟨?_, h2, ?_⟩
    · rw [hq]; exact ih.1
    · rw [hq]; exact ih.2.2
  | event e hl _ _ hok hs ih =>
    obtain ⟨j1, j2, _⟩ := asleep_step env e _ _ hok ih.1 hs
    exact ⟨j1, ih.2.1, j2.trans ih.2.2⟩

/-! ## Failures -/

/-- How a step of an evaluating call can fail: the computation threw, or a compensation of width zero. -/
theorem own_fail {env : Env K} (henv : Segmentwise env) {f : Fine K} {e : Fail} (h : f.consume env = .error e)
    (hs : Serialised env (settled f)) (hp : PhaseInv env f) : e = .nonfinite ∨ (e = .exc ∧ f.p.future = .failed) := by
  have hc := serialised_ctl hs
  have hpl := serialised_plan henv hs
  obtain ⟨p, c⟩ := f
  cases c with
  | free => cases h
  | evaluated r => cases h
  | copied r => cases h
  | time x => cases h
  | start k => cases k <;> cases h
  | wait k =>
    simp only [Fine.consume] at h
    split at h <;> cases h
  | valid k => cases h
  | busy k v => cases h
  | ready k =>
    simp only [Fine.consume, show p.future.valid = true from hp.1, if_true] at h
    cases h
  | get k =>
    have hr : p.future.isReady = true := hp.2
    simp only [Fine.consume] at h
    cases hf : p.future with
    | invalid => rw [hf] at hr; cases hr
    | launched => rw [hf] at hr; cases hr
    | running s => rw [hf] at hr; cases hr
    | ready new => rw [hf] at h; cases h
    | failed => rw [hf] at h; cases h; exact Or.inr ⟨rfl, rfl⟩
  | target k new =>
    simp only [Fine.consume] at h
    split at h <;> cases h
  | old k new g l =>
    simp only [Fine.consume] at h
    cases htr : p.traj with
    | none => exact absurd htr (hc.scratch hp.2.1)
    | some old =>
      rw [htr] at h
      simp only [bind, Except.bind] at h
      split at h
      · rename_i e' he
        cases h
        exact Or.inl (evaluateModified_fail env p old (traj_usable env henv _ hpl old htr) _ _ _ _ he)
      · cases h
  | fit0 k new sc t =>
    simp only [Fine.consume, bind, Except.bind] at h
    split at h
    · rename_i e' he
      cases h
      exact Or.inl (evaluateModified_fail env p new (ready_usable env henv _ hpl new rfl) _ _ _ _ he)
    · cases h
  | fit k new sc t n i d m =>
    cases n with
    | zero => cases h
    | succ n =>
      simp only [Fine.consume, bind, Except.bind] at h
      split at h
      · rename_i e' he
        cases h
        exact Or.inl (evaluateModified_fail env p new (ready_usable env henv _ hpl new rfl) _ _ _ _ he)
      · split at h <;> cases h
  | offset k new sc t m => cases h
  | fitted k new sc => cases h
  | params k new => cases h
  | traj k new => cases h
  | mark k => cases h
  | swap k => cases h
  | clearComputing k => cases h
  | clearRequest k => cases h
  | localTime t o fl => cases h
  | note t o fl l => cases h
  | shift t o l => cases h
  | plain o g l done =>
    simp only [Fine.consume] at h
    cases htr : p.traj with
    | none => exact absurd htr hp
    | some tr =>
      rw [htr] at h
      have hu := traj_usable env henv _ hpl tr htr
      simp only [bind, Except.bind] at h
      rw [clampTime_eq l _ (usable_maxTime_nonneg hu)] at h
      obtain ⟨b, hb⟩ := usable_evaluate hu (max 0 (min l tr.maxTime)) done.length (clamp_mem _ _ (usable_maxTime_nonneg hu)).1
        (clamp_mem _ _ (usable_maxTime_nonneg hu)).2
      rw [hb] at h
      cases h
  | compensate o g l done base =>
    simp only [Fine.consume, bind, Except.bind] at h
    split at h
    · rename_i hg
      split at h
      · rename_i e' he
        cases h
        exact Or.inl (compensateLoop_fail env _ _ _ _ _ he)
      · cases h
    · cases h
  | copy => cases h
  | length b =>
    simp only [Fine.consume] at h
    cases htr : p.traj with
    | none => exact absurd htr hp
    | some tr => rw [htr] at h; cases h
  | globalTime x => cases h

/-! ## Progress -/

/-- A call in progress waits only for the first plan. -/
theorem own_waits {env : Env K} {f : Fine K} (h : f.consume env = .ok none) (hf : f.c.isFree = false) (hp : PhaseInv env f) :
    (∃ k, f.c = .wait k) ∧ f.p.traj = none ∧ f.p.future.isReady = false := by
  obtain ⟨p, c⟩ := f
  cases c with
  | free => cases hf
  | evaluated r => cases hf
  | copied r => cases hf
  | time x => cases hf
  | start k => cases k <;> cases h
  | wait k =>
    simp only [Fine.consume] at h
    split at h
    · cases h
    · rename_i hh
      rw [Bool.or_eq_true, not_or] at hh
      exact ⟨⟨k, rfl⟩, by simpa using hh.1, by simpa using hh.2⟩
  | valid k => cases h
  | busy k v => cases h
  | ready k =>
    simp only [Fine.consume] at h
    split at h <;> cases h
  | get k =>
    have hr : p.future.isReady = true := hp.2
    simp only [Fine.consume] at h
    cases hf : p.future with
    | invalid => rw [hf] at hr; cases hr
    | launched => rw [hf] at hr; cases hr
    | running s => rw [hf] at hr; cases hr
    | ready new => rw [hf] at h; cases h
    | failed => rw [hf] at h; cases h
  | target k new =>
    simp only [Fine.consume] at h
    split at h <;> cases h
  | old k new g l =>
    simp only [Fine.consume, bind, Except.bind] at h
    split at h
    · cases h
    · split at h <;> cases h
  | fit0 k new sc t =>
    simp only [Fine.consume, bind, Except.bind] at h
    split at h <;> cases h
  | fit k new sc t n i d m =>
    cases n with
    | zero => cases h
    | succ n =>
      simp only [Fine.consume, bind, Except.bind] at h
      split at h
      · cases h
      · split at h <;> cases h
  | offset k new sc t m => cases h
  | fitted k new sc => cases h
  | params k new => cases h
  | traj k new => cases h
  | mark k => cases h
  | swap k => cases h
  | clearComputing k => cases h
  | clearRequest k => cases h
  | localTime t o fl => cases h
  | note t o fl l => cases h
  | shift t o l => cases h
  | plain o g l done =>
    simp only [Fine.consume, bind, Except.bind] at h
    split at h
    · cases h
    · split at h
      · cases h
      · split at h <;> cases h
  | compensate o g l done base =>
    simp only [Fine.consume, bind, Except.bind] at h
    split at h
    · split at h <;> cases h
    · cases h
  | copy => cases h
  | length b =>
    simp only [Fine.consume] at h
    split at h <;> cases h
  | globalTime x => cases h

/-- How much of a call is left: the stage, then the rounds of the stage. -/
def stage : Consumer K → ℕ ×ₗ ℕ
  | .start _ => toLex (27, 0)
  | .wait _ => toLex (26, 0)
  | .valid _ => toLex (25, 0)
  | .busy _ _ => toLex (24, 0)
  | .ready _ => toLex (23, 0)
  | .get _ => toLex (22, 0)
  | .target _ _ => toLex (21, 0)
  | .old _ _ _ _ => toLex (20, 0)
  | .fit0 _ _ _ _ => toLex (19, 0)
  | .fit _ _ _ _ n _ _ _ => toLex (18, n)
  | .offset _ _ _ _ _ => toLex (17, 0)
  | .fitted _ _ _ => toLex (16, 0)
  | .params _ _ => toLex (15, 0)
  | .traj _ _ => toLex (14, 0)
  | .mark _ => toLex (13, 0)
  | .swap _ => toLex (12, 0)
  | .clearComputing _ => toLex (11, 0)
  | .clearRequest _ => toLex (10, 0)
  | .localTime _ _ _ => toLex (9, 0)
  | .note _ _ _ _ => toLex (8, 0)
  | .shift _ _ _ => toLex (7, 0)
  | .plain _ _ _ done => toLex (4, 2 * (3 - done.length) + 1)
  | .compensate _ _ _ done _ => toLex (4, 2 * (3 - done.length))
  | .copy => toLex (3, 0)
  | .length _ => toLex (2, 0)
  | .globalTime _ => toLex (1, 0)
  | _ => toLex (0, 0)

theorem lt_left {a b m n : ℕ} (h : a < b) : toLex (a, m) < toLex (b, n) := Prod.Lex.toLex_lt_toLex.mpr (Or.inl h)

theorem lt_right {a m n : ℕ} (h : m < n) : toLex (a, m) < toLex (a, n) := Prod.Lex.toLex_lt_toLex.mpr (Or.inr ⟨rfl, h⟩)

theorem stage_after (k : Purpose K) {a n : ℕ} (h : 9 < a) : stage k.after < toLex (a, n) := by
  cases k <;> exact lt_left (by omega)

/-- At most three orders are evaluated. -/
def OrderInv (c : Consumer K) : Prop :=
  match c with
  | .plain _ _ _ done => done.length < 3
  | .compensate _ _ _ done _ => done.length < 3
  | _ => True

theorem own_stage {env : Env K} {f f' : Fine K} (h : f.consume env = .ok (some f')) (hi : OrderInv f.c) :
    stage f'.c < stage f.c ∧ OrderInv f'.c := by
  obtain ⟨p, c⟩ := f
  have hoa : ∀ k : Purpose K, OrderInv k.after := fun k => by cases k <;> trivial
  cases c with
  | free => cases h
  | evaluated r => cases h
  | copied r => cases h
  | time x => cases h
  | start k =>
    cases k <;> rw [← Option.some.inj (Except.ok.inj h)] <;> dsimp only <;>
      first | (split <;> exact ⟨lt_left (by omega), trivial⟩) | exact ⟨lt_left (by omega), trivial⟩
  | wait k =>
    simp only [Fine.consume] at h
    split at h
    · rw [← Option.some.inj (Except.ok.inj h)]; exact ⟨lt_left (by omega), trivial⟩
    · cases h
  | valid k => rw [← Option.some.inj (Except.ok.inj h)]; exact ⟨lt_left (by omega), trivial⟩
  | busy k v =>
    rw [← Option.some.inj (Except.ok.inj h)]
    dsimp only
    split
    · exact ⟨lt_left (by omega), trivial⟩
    · exact ⟨stage_after k (by omega), hoa k⟩
  | ready k =>
    simp only [Fine.consume] at h
    split at h
    · rw [← Option.some.inj (Except.ok.inj h)]
      dsimp only
      split
      · exact ⟨lt_left (by omega), trivial⟩
      · exact ⟨stage_after k (by omega), hoa k⟩
    · cases h
  | get k =>
    simp only [Fine.consume] at h
    split at h
    · rw [← Option.some.inj (Except.ok.inj h)]; exact ⟨lt_left (by omega), trivial⟩
    · cases h
    · cases h
    · cases h
  | target k new =>
    simp only [Fine.consume] at h
    split at h <;> rw [← Option.some.inj (Except.ok.inj h)] <;> exact ⟨lt_left (by omega), trivial⟩
  | old k new g l =>
    simp only [Fine.consume, bind, Except.bind] at h
    split at h
    · cases h
    · split at h
      · cases h
      · rw [← Option.some.inj (Except.ok.inj h)]; exact ⟨lt_left (by omega), trivial⟩
  | fit0 k new sc t =>
    simp only [Fine.consume, bind, Except.bind] at h
    split at h
    · cases h
    · rw [← Option.some.inj (Except.ok.inj h)]; exact ⟨lt_left (by omega), trivial⟩
  | fit k new sc t n i d m =>
    cases n with
    | zero => rw [← Option.some.inj (Except.ok.inj h)]; exact ⟨lt_left (by omega), trivial⟩
    | succ n =>
      simp only [Fine.consume, bind, Except.bind] at h
      split at h
      · cases h
      · split at h <;> rw [← Option.some.inj (Except.ok.inj h)] <;> exact ⟨lt_right (by omega), trivial⟩
  | offset k new sc t m => rw [← Option.some.inj (Except.ok.inj h)]; exact ⟨lt_left (by omega), trivial⟩
  | fitted k new sc => rw [← Option.some.inj (Except.ok.inj h)]; exact ⟨lt_left (by omega), trivial⟩
  | params k new => rw [← Option.some.inj (Except.ok.inj h)]; exact ⟨lt_left (by omega), trivial⟩
  | traj k new => rw [← Option.some.inj (Except.ok.inj h)]; exact ⟨lt_left (by omega), trivial⟩
  | mark k => rw [← Option.some.inj (Except.ok.inj h)]; exact ⟨lt_left (by omega), trivial⟩
  | swap k => rw [← Option.some.inj (Except.ok.inj h)]; exact ⟨lt_left (by omega), trivial⟩
  | clearComputing k => rw [← Option.some.inj (Except.ok.inj h)]; exact ⟨lt_left (by omega), trivial⟩
  | clearRequest k => rw [← Option.some.inj (Except.ok.inj h)]; exact ⟨stage_after k (by omega), hoa k⟩
  | localTime t o fl => rw [← Option.some.inj (Except.ok.inj h)]; exact ⟨lt_left (by omega), trivial⟩
  | note t o fl l => rw [← Option.some.inj (Except.ok.inj h)]; exact ⟨lt_left (by omega), trivial⟩
  | shift t o l => rw [← Option.some.inj (Except.ok.inj h)]; exact ⟨lt_left (by omega), by show (0 : ℕ) < 3; omega⟩
  | plain o g l done =>
    have hi : done.length < 3 := hi
    simp only [Fine.consume, bind, Except.bind] at h
    split at h
    · cases h
    · split at h
      · cases h
      · split at h
        · cases h
        · rw [← Option.some.inj (Except.ok.inj h)]; exact ⟨lt_right (by omega), hi⟩
  | compensate o g l done base =>
    have hi : done.length < 3 := hi
    obtain ⟨v, _, rfl⟩ := compensate_step h
    dsimp only [nextOrder]
    split
    · exact ⟨lt_left (by omega), trivial⟩
    · rename_i hh
      have hl : (done ++ [v]).length ≠ 3 := by
        intro hh'
        apply hh
        rw [hh']; simp
      simp only [List.length_append, List.length_singleton] at hl
      refine ⟨lt_right ?_, ?_⟩
      · simp only [List.length_append, List.length_singleton]; omega
      · show (done ++ [v]).length < 3
        simp only [List.length_append, List.length_singleton]; omega
  | copy => rw [← Option.some.inj (Except.ok.inj h)]; exact ⟨lt_left (by omega), trivial⟩
  | length b =>
    simp only [Fine.consume] at h
    split at h
    · cases h
    · rw [← Option.some.inj (Except.ok.inj h)]; exact ⟨lt_left (by omega), trivial⟩
  | globalTime x => rw [← Option.some.inj (Except.ok.inj h)]; exact ⟨lt_left (by omega), trivial⟩

theorem interleaved_order {env : Env K} {f : Fine K} (h : Interleaved env f) : OrderInv f.c := by
  induction h with
  | init v => trivial
  | call k _ _ _ => trivial
  | inside _ hs ih =>
    cases hs with
    | own h => exact (own_stage h ih).2
    | other c h => exact ih

theorem inside_stage {env : Env K} {f f' : Fine K} (hi : Interleaved env f) (h : InsideStep env f f') :
    f'.c = f.c ∨ stage f'.c < stage f.c := by
  cases h with
  | own h => exact Or.inr (own_stage h (interleaved_order hi)).1
  | other c h => exact Or.inl rfl

/-- In an infinite sequence of steps inside calls the evaluating thread moves finitely often. -/
theorem finitely_many {env : Env K} (σ : ℕ → Fine K) (h0 : Interleaved env (σ 0)) (hs : ∀ n, InsideStep env (σ n) (σ (n + 1))) :
    ∃ N, ∀ n ≥ N, (σ n).c = (σ N).c := by
  have hint : ∀ n, Interleaved env (σ n) := by
    intro n
    induction n with
    | zero => exact h0
    | succ n ih => exact .inside ih (hs n)
  obtain ⟨N, hN⟩ : ∃ N, ∀ n, ¬ stage (σ n).c < stage (σ N).c := by
    have hw : WellFounded (fun a b : ℕ => stage (σ a).c < stage (σ b).c) := InvImage.wf (fun n => stage (σ n).c) wellFounded_lt
    obtain ⟨N, _, hN⟩ := hw.has_min Set.univ ⟨0, trivial⟩
    exact ⟨N, fun n => hN n trivial⟩
  refine ⟨N, fun n hn => ?_⟩
  induction n, hn using Nat.le_induction with
  | base => rfl
  | succ n _ ih =>
    rcases inside_stage (hint n) (hs n) with h | h
    · exact h.trans ih
    · rw [ih] at h
      exact absurd h (hN _)

theorem zoneLoop_inside (l z : K) (ws : List (Waypoint K)) (h : Planner.zoneLoop l z ws = true) :
    ∃ w ∈ ws, w.name ≠ "" ∧ l < w.time ∧ w.time ≤ l + z := by
  induction ws with
  | nil => cases h
  | cons w ws ih =>
    unfold Planner.zoneLoop at h
    split at h
    · rename_i hw
      split at h
      · cases h
      · exact ⟨w, by simp, hw.1, hw.2, by linarith⟩
    · obtain ⟨u, hu, hh⟩ := ih h
      exact ⟨u, by simp [hu], hh⟩

theorem outside_zone (s : Planner K) (h : ¬ InZone s) : s.checkInSecurityZone = false := by
  by_contra hc
  rw [Bool.not_eq_false] at hc
  unfold Planner.checkInSecurityZone at hc
  cases ht : s.traj with
  | none => rw [ht] at hc; cases hc
  | some tr =>
    rw [ht] at hc
    obtain ⟨w, hw, h1, h2, h3⟩ := zoneLoop_inside _ _ _ hc
    refine h ⟨by rw [ht]; simp, w, hw, h1, h2, ?_⟩
    unfold Planner.computationTime at h3
    linarith

end Verif.Lemmas
