import Verif.Lemmas.PlannerThreadsLive
import Verif.Lemmas.PlannerForeverSample
import Verif.Properties.PlannerThreads

/-!
# What is asked for is carried out (C117, C118)
-/

set_option linter.unusedSectionVars false

namespace Verif.Properties
open Verif Verif.Spec Verif.Lemmas

variable {K : Type*} [Field K] [LinearOrder K] [IsStrictOrderedRing K] [FloorSemiring K]

/-! ## C117 -/

theorem handed_queued {env : Env K} {g0 : Requests K} {s0 s1 : Whole K} (hg : Pending env g0 s0) (hidle : NoPlanUnderWay s0) {r : Event K}
    {w : Waypoint K} (hw : HandsOver r w) (h1 : ThreadStep env (.user r) s0 s1) {ex : Prop} (hex : ex → ∀ u ∈ g0.updates, u.1 ≠ w.name) :
    Queued env ex w s1 := by
  refine ⟨_, .user r hg h1, ?_⟩
  cases h1 with
  | user _ hu _ hq hs =>
    have hb := user_beside hu hq hs
    refine ⟨by simp only; rw [hb.pc]; exact hidle.2, hb.computing.trans hidle.1, ?_, ?_⟩
    · rcases hw with rfl | ⟨ws, rfl, hmem⟩
      · exact List.mem_append_right _ (List.mem_append_right _ (List.mem_singleton.mpr rfl))
      · exact List.mem_append_left _ hmem
    · intro hx u hu
      rcases hw with rfl | ⟨ws, rfl, _⟩
      · exact hex hx u hu
      · cases hu

/-- C117: in every interleaving of all threads. A new waypoint (its time is not set) handed over by `appendWaypoint` or `setWaypoints` while
no plan is under way is in the next plan that is taken over, whatever else happens in between short of another `setWaypoints`. -/
theorem C117_next_plan (env : Env K) (g0 : Requests K) (s0 s1 s s' : Whole K) (ss : List (Whole K)) (l : Label K) (hg : Pending env g0 s0)
    (hidle : NoPlanUnderWay s0) (r : Event K) (w : Waypoint K) (hw : HandsOver r w) (hnew : w.time = 0) (h1 : ThreadStep env (.user r) s0 s1)
    (h2 : Stretch env (fun a l b => ¬ TakesOver a.p b.p ∧ ∀ ws, l ≠ .user (.setWaypoints ws)) s1 ss s) (h3 : ThreadStep env l s s')
    (ht : TakesOver s.p s'.p) : ∃ w' ∈ s'.p.dyn, w'.name = w.name := by
  have hq := handed_queued hg hidle hw h1 (ex := False) False.elim
  have h2' : Stretch env (fun a l b => ¬ TakesOver a.p b.p ∧ (∀ ws, l ≠ .user (.setWaypoints ws)) ∧
      (False → ∀ x b, l ≠ .user (.modifyWaypoint w.name x b))) s1 ss s := by
    clear h3 ht
    induction h2 with
    | start => exact .start
    | call k _ hf ih => exact .call k ih hf
    | step _ hst hok ih => exact .step ih hst ⟨hok.1, hok.2, False.elim⟩
  rcases request_carried hq hnew h2' with ⟨_, _, _, hc, _⟩ | ⟨hth, w0, hn, _, hcar⟩
  · rw [ht.1] at hc; cases hc
  · obtain ⟨w', hw', hs⟩ := (carried_step hth hcar h3).1 ht
    exact ⟨w', hw', hs.1.trans hn⟩

/-- C117: if no update for its name is pending or asked for in between, it is there at its position and with all its constraints. -/
theorem C117_next_plan_exact (env : Env K) (g0 : Requests K) (s0 s1 s s' : Whole K) (ss : List (Whole K)) (l : Label K) (hg : Pending env g0 s0)
    (hidle : NoPlanUnderWay s0) (r : Event K) (w : Waypoint K) (hw : HandsOver r w) (hnew : w.time = 0) (h1 : ThreadStep env (.user r) s0 s1)
    (hu : ∀ u ∈ g0.updates, u.1 ≠ w.name)
    (h2 : Stretch env (fun a l b => ¬ TakesOver a.p b.p ∧ (∀ ws, l ≠ .user (.setWaypoints ws)) ∧
      ∀ x b, l ≠ .user (.modifyWaypoint w.name x b)) s1 ss s)
    (h3 : ThreadStep env l s s') (ht : TakesOver s.p s'.p) :
    ∃ w' ∈ s'.p.dyn, w'.name = w.name ∧ w'.current = w.current ∧
      w'.vertex.getConstraint 0 = some [w.current.x, w.current.y, w.current.z] ∧
      ∀ k : Int, k ≠ 0 → w'.vertex.getConstraint k = w.vertex.getConstraint k := by
  have hq := handed_queued hg hidle hw h1 (ex := True) (fun _ => hu)
  have h2' : Stretch env (fun a l b => ¬ TakesOver a.p b.p ∧ (∀ ws, l ≠ .user (.setWaypoints ws)) ∧
      (True → ∀ x b, l ≠ .user (.modifyWaypoint w.name x b))) s1 ss s := by
    clear h3 ht
    induction h2 with
    | start => exact .start
    | call k _ hf ih => exact .call k ih hf
    | step _ hst hok ih => exact .step ih hst ⟨hok.1, hok.2.1, fun _ => hok.2.2⟩
  rcases request_carried hq hnew h2' with ⟨_, _, _, hc, _⟩ | ⟨hth, w0, hn, hb, hcar⟩
  · rw [ht.1] at hc; cases hc
  · obtain ⟨w', hw', hs⟩ := (carried_step hth hcar h3).1 ht
    obtain ⟨b1, _, b2, b3, b4⟩ := hb trivial
    have b2' : w0.current = w.current := b2
    refine ⟨w', hw', hs.1.trans hn, hs.2.1.trans b2', ?_, fun k hk => (hs.2.2 k).trans (b4 k hk)⟩
    rw [hs.2.2 0, b3, b2']

/-- No plan is taken over, `setWaypoints` is not called and "c" not updated. -/
def keepsRequest (a : Whole ℚ) (m : Move) (b : Whole ℚ) : Bool :=
  !(a.p.computing && !b.p.computing) && match m with
    | .user (.setWaypoints _) => false
    | .user (.modifyWaypoint n _ _) => decide (n ≠ "c")
    | _ => true

theorem keepsRequest_ok (a : Whole ℚ) (m : Move) (b : Whole ℚ) (h : keepsRequest a m b = true) :
    ¬ TakesOver a.p b.p ∧ (∀ ws, m.label ≠ .user (.setWaypoints ws)) ∧ ∀ x f, m.label ≠ .user (.modifyWaypoint "c" x f) := by
  unfold keepsRequest at h
  rw [Bool.and_eq_true] at h
  refine ⟨fun ht => ?_, fun ws hk => ?_, fun x f hk => ?_⟩
  · rw [ht.1, ht.2] at h; cases h.1
  · have h2 := h.2
    cases m <;> cases hk
    cases h2
  · have h2 := h.2
    cases m <;> cases hk
    simp at h2

/-- A plan is flown and "a" updated when "c" is appended; then "d" is appended and "a" updated again, the plan is computed and taken over. -/
example : ∃ (g0 : Requests ℚ) (s0 s1 s s' : Whole ℚ) (ss : List (Whole ℚ)) (l : Label ℚ) (r : Event ℚ) (w : Waypoint ℚ),
    Pending hermiteEnv g0 s0 ∧ NoPlanUnderWay s0 ∧ HandsOver r w ∧ w.time = 0 ∧ w.name = "c" ∧ ThreadStep hermiteEnv (.user r) s0 s1 ∧
    (∀ u ∈ g0.updates, u.1 ≠ w.name) ∧ Stretch hermiteEnv (fun a l b => ¬ TakesOver a.p b.p ∧ (∀ ws, l ≠ .user (.setWaypoints ws)) ∧
      ∀ x b, l ≠ .user (.modifyWaypoint w.name x b)) s1 ss s ∧ ThreadStep hermiteEnv l s s' ∧ TakesOver s.p s'.p ∧ s0.p.traj ≠ none ∧
    g0.updates ≠ [] ∧ (s'.p.dyn.drop 2).map (fun w => (w.name, w.current)) =
      [("", ⟨0, 0, 0⟩), ("a", ⟨5, 5, 5⟩), ("b", ⟨2, 1, 0⟩), ("c", ⟨3, 3, 3⟩), ("d", ⟨4, 4, 4⟩)] := by
  obtain ⟨t, s1, ss, s, s', h1, h2, h3, h4, hq⟩ := episode_map (ok := keepsRequest)
    (P := fun a l b => ¬ TakesOver a.p b.p ∧ (∀ ws, l ≠ .user (.setWaypoints ws)) ∧ ∀ x f, l ≠ .user (.modifyWaypoint "c" x f)) keepsRequest_ok
    (as := flying2 ++ [.user (.modifyWaypoint "a" ⟨6, 6, 6⟩ false)])
    (bs := [.user (.appendWaypoint (wp "d" 4 4 4)), .user (.modifyWaypoint "a" ⟨5, 5, 5⟩ true)] ++ times 32 .work ++
      [.task .asyncStart, .task (.asyncFinish (1 / 100)), .call (.evaluate 0 false false)] ++ times 16 .own)
    (m := .user (.appendWaypoint (wp "c" 3 3 3))) (m' := .own)
    (append_ok flying2_ok (by simp [MoveOk, ByUsers, ValidEvent]))
    (append_ok (append_ok (append_ok (by simp [MoveOk, ByUsers, ValidEvent, wp_bookkept]) (times_ok _ _ trivial))
      (by simp [MoveOk, ByTask, ValidEvent])) (times_ok _ _ trivial))
    (by simp [MoveOk, ByUsers, ValidEvent, wp_bookkept]) trivial trivial trivial
    (q := fun x => decide (x.1.s.p.computing = false ∧ x.1.s.p.pc = .top ∧ (∀ u ∈ x.1.g.updates, u.1 ≠ "c") ∧ x.2.2.1.p.computing = true ∧
      x.2.2.2.p.computing = false ∧ x.1.s.p.traj.isSome = true ∧ x.1.g.updates ≠ [] ∧
      (x.2.2.2.p.dyn.drop 2).map (fun w => (w.name, w.current)) =
        [("", ⟨0, 0, 0⟩), ("a", ⟨5, 5, 5⟩), ("b", ⟨2, 1, 0⟩), ("c", ⟨3, 3, 3⟩), ("d", ⟨4, 4, 4⟩)])) (by decide +kernel)
  obtain ⟨k1, k2, k3, k4, k5, k6, k7, k8⟩ := of_decide_eq_true hq
  exact ⟨t.g, t.s, s1, s, s', ss, _, _, wp "c" 3 3 3, h1, ⟨k1, Or.inl k2⟩, Or.inl rfl, rfl, rfl, h2, k3, h3, h4, ⟨k4, k5⟩,
    (fun hn => by rw [hn] at k6; cases k6), k7, k8⟩

/-! ## C118 -/

/-- C118: in every execution that goes on forever, in which the worker is scheduled again and again, a launched computation goes on, the user
keeps calling `evaluateTrajectory` and from some time on the vehicle is outside the security zone: a new waypoint handed over while no
plan is under way, and not exactly while the evaluating thread is about to clear the request flag (C110), is in the next plan that is taken
over, and there is such a plan; provided that until then nobody calls `setWaypoints` or `modifyWaypoint` without asking for a plan. If there
is never an update for its name, it is there at its position and with its constraints. -/
theorem C118_carried_out (env : Env K) (henv : Segmentwise env) (σ : ℕ → Whole K) (L : ℕ → Option (Label K)) (h : Forever env σ L)
    (hworker : WorkerRuns L) (htask : TaskRuns σ L) (heval : KeepsEvaluating σ L) (hzone : ∃ N, ∀ n ≥ N, ¬ InZone (σ n).p) (n0 : ℕ)
    (hidle : NoPlanUnderWay (σ n0)) (hclear : ∀ k, (σ n0).c ≠ .clearRequest k) (r : Event K) (w : Waypoint K)
    (hr : L n0 = some (.user r)) (hw : HandsOver r w) (hnew : w.time = 0)
    (hkeep : ∀ n > n0, (∀ m, n0 < m → m < n → ¬ TakenOver σ m) →
      (∀ ws, L n ≠ some (.user (.setWaypoints ws))) ∧ ∀ m x, L n ≠ some (.user (.modifyWaypoint m x false))) :
    ∃ m > n0, TakenOver σ m ∧ (∀ i, n0 < i → i < m → ¬ TakenOver σ i) ∧ ∃ w' ∈ (σ (m + 1)).p.dyn, w'.name = w.name ∧
      ((∀ n x b, L n ≠ some (.user (.modifyWaypoint w.name x b))) → w'.current = w.current ∧
        w'.vertex.getConstraint 0 = some [w.current.x, w.current.y, w.current.z] ∧
        ∀ k : Int, k ≠ 0 → w'.vertex.getConstraint k = w.vertex.getConstraint k) := by
  obtain ⟨m, h1, h2, h3, w0, h4, h5, w', h6, h7⟩ := request_taken henv h hworker htask heval hzone hr hw hnew hidle.2 hidle.1 hclear
    (ex := ∀ n x b, L n ≠ some (.user (.modifyWaypoint w.name x b))) id hkeep
  refine ⟨m, h1, h2, h3, w', h6, h7.1.trans h4, fun hx => ?_⟩
  obtain ⟨_, _, b2, b3, b4⟩ := h5 hx
  have b2' : w0.current = w.current := b2
  refine ⟨h7.2.1.trans b2', ?_, fun k hk => (h7.2.2 k).trans (b4 k hk)⟩
  rw [h7.2.2 0, b3, b2']

/-- A plan is flown; a waypoint is appended, planned, computed and taken over; then the worker goes on looking, and the user evaluating. -/
def flight : List Move :=
  flying2 ++ [.user (.appendWaypoint (wp "c" 3 3 3))] ++ times 32 .work ++
    [.task .asyncStart, .task (.asyncFinish (1 / 100)), .call (.evaluate 0 false false)] ++ times 27 .own

def flightLoop : List Move := [.work, .work, .call (.evaluate 0 false false)] ++ times 13 .own

def isTask : Move → Bool
  | .task _ => true
  | _ => false

def resets : Move → Bool
  | .user (.setWaypoints _) => true
  | .user (.modifyWaypoint _ _ _) => true
  | _ => false

/-- Outside the security zone; an unfinished computation goes on; after the request nothing is replaced. -/
def flightOk (s : Whole ℚ) (ms : List Move) : Bool :=
  !inZone? s.p && (match s.p.future with
    | .launched => ms.any isTask
    | .running _ => ms.any isTask
    | _ => true) && (decide (62 < ms.length) || !(ms.head?.any resets))

theorem flight_loop : ∃ s1, Loop flight flightLoop s1 ∧ along flightOk start.s flight = true ∧ along flightOk s1 flightLoop = true := by
  have h : (match runAll start.s flight with
      | none => false
      | some s1 => decide (runAll s1 flightLoop = some s1) && along flightOk s1 flightLoop) = true ∧ along flightOk start.s flight = true := by
    decide +kernel
  obtain ⟨h1, h2⟩ := h
  split at h1
  · cases h1
  · rename_i s1 hs1
    rw [Bool.and_eq_true] at h1
    refine ⟨s1, ⟨?_, by simp [flightLoop], hs1, of_decide_eq_true h1.1⟩, h2, h1.2⟩
    unfold flight flightLoop
    refine append_ok (append_ok (append_ok (append_ok (append_ok flying2_ok ?_) (times_ok _ _ trivial)) ?_) (times_ok _ _ trivial))
      (append_ok ?_ (times_ok _ _ trivial))
    · simp [MoveOk, ByUsers, ValidEvent, wp_bookkept]
    · simp [MoveOk, ByTask, ValidEvent]
    · simp [MoveOk]

theorem inZone?_false {p : Planner ℚ} (h : inZone? p = false) : ¬ InZone p := by
  rintro ⟨hn, w, hw, hz⟩
  have : inZone? p = true := by
    unfold inZone?
    rw [Bool.and_eq_true]
    refine ⟨?_, List.any_eq_true.mpr ⟨w, hw, decide_eq_true hz⟩⟩
    cases ht : p.traj with
    | none => exact absurd ht hn
    | some _ => rfl
  rw [this] at h
  cases h

/-- The hypotheses of C118 are met by an infinite execution: a plan is flown when "c" is appended. -/
example : ∃ (σ : ℕ → Whole ℚ) (L : ℕ → Option (Label ℚ)) (n0 : ℕ) (r : Event ℚ) (w : Waypoint ℚ), Segmentwise (hermiteEnv : Env ℚ) ∧
    Forever hermiteEnv σ L ∧ WorkerRuns L ∧ TaskRuns σ L ∧ KeepsEvaluating σ L ∧ (∃ N, ∀ n ≥ N, ¬ InZone (σ n).p) ∧
    NoPlanUnderWay (σ n0) ∧ (∀ k, (σ n0).c ≠ .clearRequest k) ∧ L n0 = some (.user r) ∧ HandsOver r w ∧ w.time = 0 ∧ w.name = "c" ∧
    (∀ n > n0, (∀ ws, L n ≠ some (.user (.setWaypoints ws))) ∧ ∀ m x b, L n ≠ some (.user (.modifyWaypoint m x b))) ∧
    (σ n0).p.traj ≠ none := by
  obtain ⟨s1, hl, hq1, hq2⟩ := flight_loop
  have hall := config_all hl flightOk hq1 hq2
  have hfor := config_forever hl
  have hat : ∀ n i (hi : i < flightLoop.length), ∃ m ≥ n, due flightLoop (config flight flightLoop m) = flightLoop[i] := by
    intro n i hi
    exact ⟨_, by omega, config_cyc flight flightLoop _ i (config_back flight flightLoop n) hi⟩
  refine ⟨_, _, 44, .appendWaypoint (wp "c" 3 3 3), wp "c" 3 3 3, hermite_segmentwise, hfor, ?_, ?_, ?_, ?_, ?_, ?_, ?_, Or.inl rfl, rfl, rfl, ?_, ?_⟩
  · intro n
    obtain ⟨m, hm, h⟩ := hat n 0 (by decide)
    exact ⟨m, hm, by simp only [h]; rfl⟩
  · intro n hn
    obtain ⟨ms, _, hq, _, hi⟩ := hall n
    unfold flightOk at hq
    simp only [Bool.and_eq_true] at hq
    have hany : ms.any isTask = true := by
      have h2 := hq.1.2
      rcases hn with hn | ⟨v, hn⟩ <;> simp only at hn <;> rw [hn] at h2 <;> exact h2
    obtain ⟨x, hx, ht⟩ := List.any_eq_true.mp hany
    obtain ⟨i, hlt, rfl⟩ := List.getElem_of_mem hx
    refine ⟨n + i, by omega, ?_⟩
    simp only [hi i hlt]
    generalize ms[i] = m at ht
    cases m with
    | task e => exact ⟨e, rfl⟩
    | _ => cases ht
  · intro n
    obtain ⟨m, hm, h⟩ := hat n 2 (by decide)
    refine ⟨m, hm, by simp only [h]; rfl, 0, false, false, ?_⟩
    obtain ⟨h1, _⟩ := config_step hl m
    rw [h] at h1
    have h1 : (if (config flight flightLoop m).1.c.isFree then
      some ⟨(config flight flightLoop m).1.p, .start (.evaluate 0 false false), (config flight flightLoop m).1.w⟩ else none) =
        some (config flight flightLoop (m + 1)).1 := h1
    split at h1
    · simp only; rw [← Option.some.inj h1]
    · cases h1
  · refine ⟨0, fun n _ => ?_⟩
    obtain ⟨ms, _, hq, _, _⟩ := hall n
    unfold flightOk at hq
    simp only [Bool.and_eq_true, Bool.not_eq_true'] at hq
    exact inZone?_false hq.1.1
  · have : (config flight flightLoop 44).1.p.computing = false ∧ (config flight flightLoop 44).1.p.pc = .top := by decide +kernel
    exact ⟨this.1, Or.inl this.2⟩
  · have : (config flight flightLoop 44).1.c.isFree = true := by decide +kernel
    intro k hk
    rw [hk] at this
    cases this
  · have : (config flight flightLoop 44).2 = flight.drop 44 := config_drop flight flightLoop 0 44 (by decide +kernel)
    unfold due
    rw [this]
    rfl
  · intro n hn
    obtain ⟨ms, hh, hq, hlen, _⟩ := hall n
    have hlen : ms.length ≤ max (107 - n) 16 := hlen
    unfold flightOk at hq
    simp only [Bool.and_eq_true] at hq
    have h3 := hq.2
    rw [hh, decide_eq_false (by omega)] at h3
    simp only [Option.any_some, Bool.false_or, Bool.not_eq_true'] at h3
    generalize due flightLoop (config flight flightLoop n) = m at h3
    refine ⟨fun ws hk => ?_, fun a x b hk => ?_⟩ <;> cases m <;> cases hk <;> cases h3
  · have : (config flight flightLoop 44).1.p.traj.isSome = true := by decide +kernel
    intro hk
    rw [hk] at this
    cases this

end Verif.Properties
