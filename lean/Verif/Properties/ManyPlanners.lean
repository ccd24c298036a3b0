import Verif.Lemmas.ManyPlanners
import Verif.Lemmas.PlannerSample

/-!
# Several planners in one process (C143)
-/

set_option linter.unusedSectionVars false

namespace Verif.Properties
open Verif Verif.Spec Verif.Lemmas

variable {K : Type} [Field K] [LinearOrder K] [IsStrictOrderedRing K] [FloorSemiring K] {ι : Type} [DecidableEq ι]

/-- The full claim C143: planners of one process, each used from its own threads, never race with each other. -/
def C143Full (K : Type) [Field K] [LinearOrder K] [IsStrictOrderedRing K] [FloorSemiring K] : Prop :=
  ∀ (ι : Type) (_ : DecidableEq ι) (env : Env K) (x : Process ι K), Segmentwise env → Runs env x → ¬ DataRace x

/-- C143: what a planner does does not depend on the others: whatever all of them do, each of them goes through a history it could go through
alone. -/
theorem C143_independent (env : Env K) (vehicle : ι → V3 K) (x : Process ι K) (h : Proceeds env (.init vehicle) x) (i : ι) :
    ∃ es, Run env (Planner.init (vehicle i)) es (x.planner i) := projection h i

/-- C143, what holds: there is no race while at most one planner computes; in particular none if there is only one planner. -/
theorem C143_partial (env : Env K) (x : Process ι K) (_h : Runs env x) (h1 : OneComputes x) : ¬ DataRace x := by
  rintro ⟨i, j, _, _, _, hij, hi, hj, _⟩
  exact hij (h1 i j hi hj)

/-- C143, what holds of the statistics: if at most one planner computes at any time, then, whenever a time has been measured, the statistics under
the optimisation's tag are exactly those of all the times measured so far by all planners. -/
theorem C143_statistics_partial (env : Env K) (x : Process ι K) (l : List K) (h : OneAtATime env x l) (hne : l ≠ []) :
    ∃ a, (x.registry.statsOf solveTag).2 = .ok a ∧ addAll Timing.window l = .ok a := by
  have hi := oneInv h
  have key : ∃ a, x.registry.tags = [(solveTag, 0)] ∧ x.registry.timers = [a] ∧ addAll Timing.window l = .ok a := by
    by_cases hall : ∀ i, x.timer i = .begin
    · rcases hi.rest hall with ⟨h0, _⟩ | h1
      · exact absurd h0 hne
      · exact h1
    · push Not at hall
      obtain ⟨i, hb⟩ := hall
      have hr := hi.registry i hb
      cases ht : x.timer i with
      | begin => exact absurd ht hb
      | absent => rw [ht] at hr; exact absurd hr.1 hne
      | sized n => rw [ht] at hr; exact absurd hr.2.1 hne
      | entered n => rw [ht] at hr; exact absurd hr.2.1 hne
      | appended n => rw [ht] at hr; exact hr.2
      | handle n => rw [ht] at hr; exact hr.2
      | done => rw [ht] at hr; exact hr
  obtain ⟨a, h1, h2, h3⟩ := key
  refine ⟨a, ?_, h3⟩
  simp [Timing.Registry.statsOf, Timing.Registry.getHandle, Timing.Registry.find, Timing.Registry.stats, at?, h1, h2]

/-- Up to the running computation of a plan with two waypoints. -/
def uptoRunning : List (Event ℚ) :=
  [.setSpeed 2, .setWaypoints [wp "a" 1 0 0, wp "b" 2 1 0], .worker, .worker, .worker, .worker, .worker, .worker, .worker, .asyncStart]

theorem two_computing : ∃ x : Process Bool ℚ, Runs hermiteEnv x ∧ Computes x true ∧ Computes x false ∧ x.timer = (fun _ => .begin) ∧
    x.registry = .init ∧ ∀ i, ∃ q, (x.planner i).step hermiteEnv (.asyncFinish (1 / 100)) = .ok (some q) := by
  have hes : ∀ e ∈ uptoRunning, ∀ dt, e ≠ .asyncFinish dt := by
    intro e he dt h
    subst h
    simp [uptoRunning] at he
  obtain ⟨s, hs, hx⟩ := run?_map uptoRunning (fun s => decide (s.future = .running 2) &&
    (match s.step hermiteEnv (.asyncFinish (1 / 100)) with | .ok (some _) => true | _ => false)) true (by decide +kernel)
  rw [Bool.and_eq_true, decide_eq_true_eq] at hx
  obtain ⟨hx, hfin⟩ := hx
  have hq : ∃ q, s.step hermiteEnv (.asyncFinish (1 / 100)) = .ok (some q) := by
    split at hfin
    · exact ⟨_, by assumption⟩
    · cases hfin
  have h1 := proceeds_run (Process.init (fun _ : Bool => (⟨0, 0, 0⟩ : V3 ℚ))) true hes hs
  have h2 := proceeds_run { Process.init (fun _ : Bool => (⟨0, 0, 0⟩ : V3 ℚ)) with
    planner := Function.update (Process.init (fun _ : Bool => (⟨0, 0, 0⟩ : V3 ℚ))).planner true s } false hes (by
      simpa [Process.init] using hs)
  refine ⟨_, ⟨fun _ => ⟨0, 0, 0⟩, proceeds_trans h1 h2⟩, ⟨2, ?_⟩, ⟨2, ?_⟩, rfl, rfl, ?_⟩
  · simpa using hx
  · simpa using hx
  · intro i
    cases i <;> simpa using hq

/-- `n` accesses of the computation of planner `i`, which measures the time `sec`. -/
def accessesOf (i : Bool) (sec : ℚ) : ℕ → (Bool → TimerAt) × Timing.Registry ℚ × List ℚ → Option ((Bool → TimerAt) × Timing.Registry ℚ × List ℚ)
  | 0, x => some x
  | n + 1, (t, r, l) =>
    match (t i).step r sec with
    | .ok (some (r', a)) => accessesOf i sec n (Function.update t i a, r', if a = .done then l ++ [sec] else l)
    | _ => none

theorem accessesOf_one {env : Env ℚ} (p : Bool → Planner ℚ) (i : Bool) (hp : ∃ v, (p i).future = .running v) (sec : ℚ) (n : ℕ) (t t' : Bool → TimerAt)
    (r r' : Timing.Registry ℚ) (l l' : List ℚ) (h : OneAtATime env ⟨p, t, r⟩ l) (ha : accessesOf i sec n (t, r, l) = some (t', r', l')) :
    OneAtATime env ⟨p, t', r'⟩ l' := by
  induction n generalizing t r l with
  | zero => cases ha; exact h
  | succ n ih =>
    unfold accessesOf at ha
    split at ha
    · rename_i r1 a hs
      obtain ⟨v, hv⟩ := hp
      exact ih _ _ _ (.timer i sec v r1 a h hv hs) ha
    · cases ha

-- Two planners compute one after the other: two times are measured.
example : ∃ (x : Process Bool ℚ) (l : List ℚ), OneAtATime hermiteEnv x l ∧ l = [3, 5] ∧ Computes x false := by
  have hes : ∀ e ∈ uptoRunning, ∀ dt, e ≠ .asyncFinish dt := by
    intro e he dt h
    subst h
    simp [uptoRunning] at he
  obtain ⟨s, hs, hx⟩ := run?_map uptoRunning (fun s => decide (s.future = .running 2) &&
    (match s.step hermiteEnv (.asyncFinish (1 / 100)) with | .ok (some q) => decide (q.future.isReady = true) | _ => false)) true (by decide +kernel)
  rw [Bool.and_eq_true, decide_eq_true_eq] at hx
  obtain ⟨hx, hfin⟩ := hx
  obtain ⟨q, hq, hready⟩ : ∃ q, s.step hermiteEnv (.asyncFinish (1 / 100)) = .ok (some q) ∧ q.future.isReady = true := by
    split at hfin
    · exact ⟨_, by assumption, by simpa using hfin⟩
    · cases hfin
  have hinit : ∀ j, ¬ Computes (Process.init (fun _ : Bool => (⟨0, 0, 0⟩ : V3 ℚ))) j := by
    rintro j ⟨v, hv⟩
    cases hv
  obtain ⟨⟨t1, r1, l1⟩, e1, g1⟩ := Option.map_eq_some_iff.mp (by decide +kernel : (accessesOf true 3 6 ((fun _ => .begin), .init, [])).map
    (fun y => [decide (y.1 true = .done ∧ y.1 false = .begin ∧ y.2.2 = [3]),
      (accessesOf false 5 2 (Function.update y.1 true .begin, y.2)).map (fun z => z.2.2) == some [3, 5]]) = some [true, true])
  simp only [List.cons.injEq, decide_eq_true_eq, and_true, beq_iff_eq] at g1
  obtain ⟨⟨g1, g2, g3⟩, g4⟩ := g1
  obtain ⟨⟨t2, r2, l2⟩, e2, g5⟩ := Option.map_eq_some_iff.mp g4
  have h1 := oneAtATime_run (.start (env := hermiteEnv) (fun _ : Bool => (⟨0, 0, 0⟩ : V3 ℚ))) true (fun j _ => hinit j) hes hs
  have h2 := accessesOf_one _ true ⟨2, by simpa using hx⟩ 3 6 _ _ _ _ _ _ h1 e1
  have h3 := OneAtATime.finish (env := hermiteEnv) true (1 / 100) q h2 g1 (by simpa using hq)
  have h4 := oneAtATime_run h3 false (fun j hj => by
    have : j = true := by cases j <;> simp_all
    subst this
    rintro ⟨v, hv⟩
    simp only [Function.update_self] at hv
    rw [hv] at hready
    cases hready) hes (by simpa [Process.init] using hs)
  have h5 := accessesOf_one _ false ⟨2, by simpa using hx⟩ 5 2 _ _ _ _ _ _ h4 e2
  exact ⟨_, _, h5, g5, ⟨2, by simpa using hx⟩⟩

-- A process with two planners, one of which computes.
example : ∃ x : Process Bool ℚ, Runs hermiteEnv x ∧ OneComputes x ∧ Computes x true := by
  have hes : ∀ e ∈ uptoRunning, ∀ dt, e ≠ .asyncFinish dt := by
    intro e he dt h
    subst h
    simp [uptoRunning] at he
  obtain ⟨s, hs, hx⟩ := run?_map uptoRunning (fun s => decide (s.future = .running 2)) true (by decide +kernel)
  rw [decide_eq_true_eq] at hx
  have hinit : ∀ j, ¬ Computes (Process.init (fun _ : Bool => (⟨0, 0, 0⟩ : V3 ℚ))) j := by
    rintro j ⟨v, hv⟩
    cases hv
  refine ⟨_, ⟨_, proceeds_run (Process.init (fun _ : Bool => (⟨0, 0, 0⟩ : V3 ℚ))) true hes hs⟩,
    (oneInv (oneAtATime_run (.start (env := hermiteEnv) (fun _ : Bool => (⟨0, 0, 0⟩ : V3 ℚ))) true (fun j _ => hinit j) hes hs)).one, 2, by simpa using hx⟩

/-- An access by the computation of a planner. -/
theorem access_step {env : Env ℚ} {x : Process Bool ℚ} {r : Timing.Registry ℚ} {a : TimerAt} (h : Runs env x) (i : Bool) (hc : Computes x i)
    (hs : (x.timer i).step x.registry 1 = .ok (some (r, a))) :
    Runs env { x with timer := Function.update x.timer i a, registry := r } := by
  obtain ⟨v, h⟩ := h
  obtain ⟨w, hw⟩ := hc
  exact ⟨v, .step h (.timer i 1 w r a hw hs)⟩

/-- C143 does not hold in full: with two planners, the computation of one enters the tag of its timer while that of the other looks for it. -/
theorem C143_refuted : ¬ C143Full ℚ := by
  intro hfull
  obtain ⟨x, hx, h1, h2, ht, hr, _⟩ := two_computing
  have a1 := access_step (r := .init) (a := .absent) hx true h1 (by rw [ht, hr]; rfl)
  have a2 := access_step (r := .init) (a := .sized 0) a1 true h1 (by simp only [Function.update_self]; rfl)
  refine hfull Bool inferInstance hermiteEnv _ hermite_segmentwise a2 ⟨true, false, .tags, true, false, by simp, h1, h2, ?_, ?_, rfl⟩
  · simp [TimerAt.access]
  · simp [ht, TimerAt.access]

/-- The accesses of the two computations, in an order in which both find the tag absent. -/
def lostOrder : List Bool := [true, false, true, true, true, true, false, false, false, false, true, false]

/-- The effect of accesses in the given order. -/
def accesses : List Bool → (Bool → TimerAt) × Timing.Registry ℚ → Option ((Bool → TimerAt) × Timing.Registry ℚ)
  | [], x => some x
  | i :: is, (t, r) =>
    match (t i).step r 1 with
    | .ok (some (r', a)) => accesses is (Function.update t i a, r')
    | _ => none

theorem accesses_runs {env : Env ℚ} (p : Bool → Planner ℚ) (hp : ∀ i, ∃ v, (p i).future = .running v) (is : List Bool) (t t' : Bool → TimerAt)
    (r r' : Timing.Registry ℚ) (h : Runs env ⟨p, t, r⟩) (ha : accesses is (t, r) = some (t', r')) : Runs env ⟨p, t', r'⟩ := by
  induction is generalizing t r with
  | nil => cases ha; exact h
  | cons i is ih =>
    unfold accesses at ha
    split at ha
    · rename_i r1 a hs
      exact ih _ _ (access_step h i (hp i) hs) ha
    · cases ha

/-- C143: even if every access were atomic, the statistics would be wrong: there is an order of accesses after which both computations have added
their time and the statistics of their tag contain only one. -/
theorem C143_statistics_lost : ∃ x : Process Bool ℚ, Runs hermiteEnv x ∧ (∀ i, x.timer i = .done) ∧
    ∃ a, (x.registry.statsOf solveTag).2 = .ok a ∧ a.total = 1 := by
  obtain ⟨⟨p, t, r⟩, hx, h1, h2, ht, hr, _⟩ := two_computing
  have hp : ∀ i, ∃ v, (p i).future = .running v := fun i => by cases i; exacts [h2, h1]
  have ht : t = fun _ => .begin := ht
  have hr : r = .init := hr
  subst ht hr
  have key : ∃ y, accesses lostOrder ((fun _ => .begin), .init) = some y ∧ (y.1 true = .done ∧ y.1 false = .done) ∧
      ∃ a, (y.2.statsOf solveTag).2 = .ok a ∧ a.total = 1 := by
    have h := (by decide +kernel : (accesses lostOrder ((fun _ => .begin), .init)).map (fun y => [decide (y.1 true = .done), decide (y.1 false = .done),
      match (y.2.statsOf solveTag).2 with | .ok a => decide (a.total = 1) | _ => false]) = some [true, true, true])
    obtain ⟨y, hy, hl⟩ := Option.map_eq_some_iff.mp h
    simp only [List.cons.injEq, decide_eq_true_eq, and_true] at hl
    refine ⟨y, hy, ⟨hl.1, hl.2.1⟩, ?_⟩
    have h3 := hl.2.2
    split at h3
    · rename_i a ha
      exact ⟨a, ha, by simpa using h3⟩
    · cases h3
  obtain ⟨⟨t', r'⟩, hy, hd, ha⟩ := key
  exact ⟨_, accesses_runs p hp _ _ _ _ _ hx hy, fun i => by cases i; exacts [hd.2, hd.1], ha⟩

/-- C143: the race is not one of the first computations only. Whenever two planners begin their computations and the tag of the timer is known already,
the process can get to a data race: both add the time they have measured to the same statistics. -/
theorem C143_races_later (env : Env K) (x : Process ι K) (_hx : Runs env x) (i j : ι) (hij : i ≠ j) (hi : Computes x i) (hj : Computes x j)
    (hti : x.timer i = .begin) (htj : x.timer j = .begin) (known : ∃ h, x.registry.find solveTag = some h) :
    ∃ y, Proceeds env x y ∧ y.registry = x.registry ∧ DataRace y := by
  obtain ⟨h, hk⟩ := known
  obtain ⟨v, hv⟩ := hi
  obtain ⟨w, hw⟩ := hj
  have s1 : (x.timer i).step x.registry 0 = .ok (some (x.registry, .handle h)) := by rw [hti]; simp [TimerAt.step, hk]
  have s2 : (Function.update x.timer i (.handle h) j).step x.registry 0 = .ok (some (x.registry, .handle h)) := by
    rw [Function.update_of_ne (Ne.symm hij), htj]; simp [TimerAt.step, hk]
  refine ⟨_, .step (.step .refl (.timer i 0 v _ _ hv s1)) (.timer j 0 w _ _ hw s2), rfl, i, j, .timers, true, true, hij, ⟨v, hv⟩, ⟨w, hw⟩, ?_, ?_, rfl⟩
  · simp [Function.update_of_ne hij, TimerAt.access]
  · simp [TimerAt.access]

-- The case: three planners compute; the third has entered the tag, the other two begin.
example : ∃ x : Process (Fin 3) ℚ, Runs hermiteEnv x ∧ Computes x 0 ∧ Computes x 1 ∧ x.timer 0 = .begin ∧ x.timer 1 = .begin ∧
    ∃ h, x.registry.find solveTag = some h := by
  have hes : ∀ e ∈ uptoRunning, ∀ dt, e ≠ .asyncFinish dt := by
    intro e he dt h
    subst h
    simp [uptoRunning] at he
  obtain ⟨s, hs, hx⟩ := run?_map uptoRunning (fun s => decide (s.future = .running 2)) true (by decide +kernel)
  rw [decide_eq_true_eq] at hx
  have h0 := proceeds_run (Process.init (fun _ : Fin 3 => (⟨0, 0, 0⟩ : V3 ℚ))) 0 hes hs
  have h1 := proceeds_run _ 1 hes (by simpa [Process.init] using hs) |> proceeds_trans h0
  have h2 := proceeds_run _ 2 hes (by simpa [Process.init] using hs) |> proceeds_trans h1
  have h3 := h2.step (.timer 2 0 2 .init .absent (by simpa using hx) rfl)
  have h4 := h3.step (.timer 2 0 2 .init (.sized 0) (by simpa using hx) (by simp only [Function.update_self]; rfl))
  have h5 := h4.step (.timer 2 0 2 _ (.entered 0) (by simpa using hx) (by simp only [Function.update_self]; rfl))
  refine ⟨_, ⟨_, h5⟩, ⟨2, ?_⟩, ⟨2, ?_⟩, ?_, ?_, 0, ?_⟩
  · simpa using hx
  · simpa using hx
  · simp [Process.init]
  · simp [Process.init]
  · show Timing.Registry.find (Timing.Registry.enter (Timing.Registry.init (K := ℚ)) solveTag 0) solveTag = some 0
    decide +kernel

end Verif.Properties
