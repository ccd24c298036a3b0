import Verif.Lemmas.PlannerSample
import Verif.Lemmas.PlannerPipeline
import Verif.Lemmas.PlannerFresh
import Verif.Lemmas.PlannerContents

/-!
# What happens to requests (C46 to C50)

For every history of calls, worker phases and computations.
-/

set_option linter.unusedSectionVars false
set_option linter.unusedSimpArgs false

namespace Verif.Properties
open Verif Verif.Spec Verif.Lemmas

section
variable {K : Type*} [Field K] [LinearOrder K] [IsStrictOrderedRing K] [FloorSemiring K]

/-! ## C47 -/

/-- C47: when the worker collects the requests for a plan it succeeds, and the plan's waypoints are: the pending route, or, if there is
none, the waypoints of the current plan whose time has not passed; then the appended waypoints in order; each at the position of the last
pending update for its name (otherwise where it was), and with its other constraints. Nothing stays queued. -/
theorem C47_contents (env : Env K) (v : V3 K) (es : List (Event K)) (hv : ∀ e ∈ es, ValidEvent e) (g : Requests K) (s : Planner K)
    (h : RunR env (Planner.init v) es g s) (hpc : s.pc = .collect) :
    ∃ s', s.step env .worker = .ok (some s') ∧ s'.pc = .collected ∧
      List.Forall₂ (fun w w' => Becomes (updateFor g.updates w) w w')
        ((if g.route.isEmpty then s.dyn.filter (fun w => s.params.lastGlobal ≤ w.time) else g.route) ++ g.appended) s'.next ∧
      s'.toSet = [] ∧ s'.toAdd = [] ∧ s'.toModify = [] := by
  have ht := runR_tracks env v es g s h
  have hw := reachable_wp env s ⟨v, es, hv, runR_run env _ es g s h⟩
  obtain ⟨ws, hg⟩ := generateWaypoints_total s hw
  refine ⟨{ s with toSet := [], toAdd := [], toModify := [], next := ws, pc := .collected }, ?_, rfl, ?_, rfl, rfl, rfl⟩
  · simp only [Planner.step, Planner.workerStep, hpc, hg, bind, Except.bind]; rfl
  · exact generated_contents s _ g ht hw ws hg

/-- C47, continued: whatever is called and however the worker and the computation proceed, when this plan is taken over (the next time one
is) the waypoints returned by `getDynamicWaypoints` are these, after the points the planner adds at the start; a stitched plan may lack
waypoints that were close in time (C52). -/
theorem C47_taken_over (env : Env K) (s : Planner K) (h : Reachable env s) (hpc : s.pc = .collected) (hne : s.next ≠ [])
    (es : List (Event K)) (s1 : Planner K) (hrun : RunBefore env s es s1) (e : Event K) (s2 : Planner K)
    (hs : s1.step env e = .ok (some s2)) (ht : TakesOver s1 s2) : PlanOf s.next s2.dyn := by
  obtain ⟨hp, hc⟩ := planning_run env s.next hne s s1 es (reachable_ctl env s h) (Or.inl ⟨Or.inl hpc, rfl⟩) hrun
  rcases planning_step env s.next hne e s1 s2 hc hp hs with h | h
  · exact absurd ht h.2
  · exact h.2

/-- Requests of the sample history: a new waypoint and two updates of an old one. -/
def history4 : List (Event ℚ) :=
  history1 ++ [.evaluate (1 / 2) true false, .modifyWaypoint "a" ⟨5, 5, 5⟩ false, .appendWaypoint (wp "c" 3 3 3),
    .modifyWaypoint "a" ⟨1, 1, 1⟩ true, .worker]

theorem history4_fresh : ∀ e ∈ history4, FreshEvent e := by
  simp [history4, history1, planEvents, FreshEvent, wp_bookkept]

-- The worker is about to collect; then the plan consists of "a" at the position of the last update, "b" and "c".
example : ∃ s, Run hermiteEnv (Planner.init ⟨0, 0, 0⟩) history4 s ∧ s.pc = .collect := by
  obtain ⟨s, h, hs⟩ := run?_map history4 (fun s => decide (s.pc = .collect)) true (by decide +kernel)
  exact ⟨s, h, by simpa using hs⟩

example : (run? (history4 ++ [.worker])).map (fun s => s.next.map fun w => (w.name, w.current)) =
    some [("a", ⟨1, 1, 1⟩), ("b", ⟨2, 1, 0⟩), ("c", ⟨3, 3, 3⟩)] := by decide +kernel

-- The whole way to the take-over: the planner adds two stitching points.
example : (run? (history4 ++ [.worker] ++ [.worker, .worker, .worker, .worker, .worker, .asyncStart, .asyncFinish (1 / 100), .getDynamicWaypoints])).map
    (fun s => (s.dyn.map fun w => w.name, (s.dyn.drop 2).map fun w => w.current)) =
    some (["stitching_point", "stitching_point", "a", "b", "c"], [⟨1, 1, 1⟩, ⟨2, 1, 0⟩, ⟨3, 3, 3⟩]) := by decide +kernel

/-! ## C48 -/

/-- C48, the claim: after `setWaypoints` the next plan has no other waypoints than those set (and appended afterwards). -/
def C48Full (K : Type*) [Field K] [LinearOrder K] [IsStrictOrderedRing K] [FloorSemiring K] : Prop :=
  ∀ (env : Env K) (v : V3 K) (es : List (Event K)) (ws : List (Waypoint K)) (s s' : Planner K), (∀ e ∈ es ++ [.setWaypoints ws], ValidEvent e) →
    Run env (Planner.init v) (es ++ [.setWaypoints ws] ++ [.worker]) s → s.pc = .collect → s.step env .worker = .ok (some s') →
    s'.next.map (·.name) = ws.map (·.name)

/-- The code cannot tell an empty route from no request: the old route is planned again. -/
theorem C48_refuted : ¬ C48Full ℚ := by
  intro h
  obtain ⟨s, s', hr, hs, hf⟩ := run2?_map (history1 ++ [.evaluate (1 / 2) true false] ++ [.setWaypoints []] ++ [.worker]) .worker
    (fun s s' => decide (s.pc = .collect ∧ s'.next.map (·.name) = ["a", "b"])) true (by decide +kernel)
  obtain ⟨h1, h2⟩ := of_decide_eq_true hf
  have := h hermiteEnv _ _ [] s s' (by simp [history1, planEvents, ValidEvent, wp_bookkept]) hr h1 hs
  rw [h2] at this
  cases this

/-- What happens instead, in every history: with no route pending, in particular after `setWaypoints({})`, the plan consists of the
waypoints of the current plan not yet passed and the appended ones. -/
theorem C48_empty_keeps_route (env : Env K) (v : V3 K) (es : List (Event K)) (hv : ∀ e ∈ es, ValidEvent e) (g : Requests K) (s s' : Planner K)
    (h : RunR env (Planner.init v) es g s) (hpc : s.pc = .collect) (hr : g.route = []) (hs : s.step env .worker = .ok (some s')) :
    s'.next.map (·.name) = ((s.dyn.filter fun w => s.params.lastGlobal ≤ w.time) ++ g.appended).map (·.name) := by
  obtain ⟨s1, h1, _, h2, _⟩ := C47_contents env v es hv g s h hpc
  rw [h1] at hs
  rw [← Option.some.inj (Except.ok.inj hs)]
  rw [hr] at h2
  exact (forall2_map_eq (fun w w' hw => hw.1) h2)

/-- C48 for a non-empty route: it replaces the old one. -/
theorem C48_nonempty_partial (env : Env K) (v : V3 K) (es : List (Event K)) (hv : ∀ e ∈ es, ValidEvent e) (g : Requests K) (s s' : Planner K)
    (h : RunR env (Planner.init v) es g s) (hpc : s.pc = .collect) (hr : g.route ≠ []) (hs : s.step env .worker = .ok (some s')) :
    s'.next.map (·.name) = (g.route ++ g.appended).map (·.name) := by
  obtain ⟨s1, h1, _, h2, _⟩ := C47_contents env v es hv g s h hpc
  rw [h1] at hs
  rw [← Option.some.inj (Except.ok.inj hs)]
  rw [show g.route.isEmpty = false by simpa using hr] at h2
  exact (forall2_map_eq (fun w w' hw => hw.1) h2)

/-! ## C49 -/

/-- C49: `modifyWaypoint` itself changes no waypoint, neither of the current plan nor of a plan being computed nor queued. -/
theorem C49_call (env : Env K) (s s' : Planner K) (n : String) (p : V3 K) (g : Bool) (h : s.step env (.modifyWaypoint n p g) = .ok (some s')) :
    s'.dyn = s.dyn ∧ s'.next = s.next ∧ s'.toAdd = s.toAdd ∧ s'.toSet = s.toSet := by
  rw [← Option.some.inj (Except.ok.inj h)]
  exact ⟨rfl, rfl, rfl, rfl⟩

/-- C49: when the worker applies the pending updates to the current plan, it succeeds; each waypoint for whose name there is an update (the
last one counts) gets that position, all the others stay as they are, in particular those without a name. -/
theorem C49_apply (env : Env K) (v : V3 K) (es : List (Event K)) (hv : ∀ e ∈ es, ValidEvent e) (g : Requests K) (s : Planner K)
    (h : RunR env (Planner.init v) es g s) (hpc : s.pc = .apply) :
    ∃ s', s.step env .worker = .ok (some s') ∧ s'.next = s.next ∧ s'.toAdd = s.toAdd ∧ s'.toSet = s.toSet ∧ s'.toModify = [] ∧
      List.Forall₂ (fun w w' => (updateFor g.updates w = none → w' = w) ∧
        ∀ p, updateFor g.updates w = some p → Becomes (some p) w w' ∧ w'.original = w.original ∧ w'.index = w.index ∧
          ∃ m, w'.modifiers = w.modifiers ++ [m] ∧ ∀ a, (comp m a).increment = comp p a - comp w.current a) s.dyn s'.dyn := by
  have ht := runR_tracks env v es g s h
  have hw := reachable_wp env s ⟨v, es, hv, runR_run env _ es g s h⟩
  obtain ⟨s1, h1⟩ := applyAll_total s.toModify s hw.dyn
  obtain ⟨_, d, r, hs1, _⟩ := applyAll_rel (fun _ _ => True) (fun _ => trivial) (fun _ _ _ _ _ => trivial)
    (fun _ _ _ _ _ => trivial) _ s s1 h1
  obtain ⟨hrel, _⟩ := applyAll_exact s.toModify ht.nodup s s1 h1
  refine ⟨{ s1 with toModify := [], pc := .top }, ?_, ?_, ?_, ?_, rfl, ?_⟩
  · simp only [Planner.step, Planner.workerStep, hpc, h1, bind, Except.bind]; rfl
  · rw [hs1]
  · rw [hs1]
  · rw [hs1]
  · refine forall2_imp_mem hrel ?_
    intro w hwm w' hr
    unfold updateFor
    rcases hr with ⟨h0, rfl⟩ | ⟨h0, ⟨hl, rfl⟩ | ⟨p, hl, hset⟩⟩
    · rw [if_pos h0]
      exact ⟨fun _ => rfl, fun p hp => by cases hp⟩
    · rw [if_neg h0, ← ht.lookup, hl]
      exact ⟨fun _ => rfl, fun p hp => by cases hp⟩
    · rw [if_neg h0, ← ht.lookup, hl]
      refine ⟨fun hh => (by cases hh), ?_⟩
      intro q hq
      obtain rfl := Option.some.inj hq
      have hb := hw.dyn w hwm
      obtain ⟨k1, k2, k3, k4, k5⟩ := setCurrentPosition_frame w w' p _ hset
      have hb' := step_bookkept (.update p _) w w' hset hb
      obtain ⟨v', m, hv', hm, hinc⟩ := setCurrentPosition_spec w w' p _ hset
      refine ⟨⟨k4, k1, k5, hb'.2.2.1, fun k hk => setCurrentPosition_constraints w w' p _ hb hset k hk⟩, k3, k2, m, by rw [hm], ?_⟩
      intro a
      rw [hinc a]

/-- Two pending updates, about to be applied to the current plan. -/
def history5 : List (Event ℚ) :=
  history1 ++ [.evaluate (1 / 2) true false, .modifyWaypoint "a" ⟨5, 5, 5⟩ false, .modifyWaypoint "" ⟨7, 7, 7⟩ false,
    .modifyWaypoint "zz" ⟨7, 7, 7⟩ false, .modifyWaypoint "a" ⟨1, 1, 1⟩ false, .worker]

example : (run2? history5 .worker).map (fun q => (decide (q.1.pc = .apply), q.1.dyn.map fun w => (w.name, w.current), q.2.dyn.map fun w => (w.name, w.current))) =
    some (true, [("", ⟨0, 0, 0⟩), ("a", ⟨1, 0, 0⟩), ("b", ⟨2, 1, 0⟩)], [("", ⟨0, 0, 0⟩), ("a", ⟨1, 1, 1⟩), ("b", ⟨2, 1, 0⟩)]) := by
  decide +kernel

/-! ## C50 -/

/-- C50, the claim: if the position of a waypoint is updated after it was appended and before it is planned, it is planned at the position
of the last update. -/
def C50Full (K : Type*) [Field K] [LinearOrder K] [IsStrictOrderedRing K] [FloorSemiring K] : Prop :=
  ∀ (env : Env K) (v : V3 K) (es1 es2 : List (Event K)) (w : Waypoint K) (s1 s s' : Planner K) (p : V3 K),
    (∀ e ∈ es1 ++ [.appendWaypoint w] ++ es2, ValidEvent e) → Run env (Planner.init v) (es1 ++ [.appendWaypoint w]) s1 →
    RunWhile (fun s e _ => ¬ Collects s e ∧ ∀ ws, e ≠ .setWaypoints ws) env s1 es2 s →
    s.pc = .collect → s.step env .worker = .ok (some s') → w.name ≠ "" → lastUpdate (updatesIn es2) w.name = some p →
    ∃ w' ∈ s'.next, w'.name = w.name ∧ w'.current = p

/-- The waypoint is appended shortly before the plan's next waypoint; its update is consumed there without effect, and forgotten. -/
def history6a : List (Event ℚ) := history1 ++ [.evaluate (19 / 20) true false]

def history6b : List (Event ℚ) := [.modifyWaypoint "c" ⟨9, 9, 9⟩ true, .worker, .worker, .evaluate (6 / 5) true false, .worker]

theorem C50_refuted : ¬ C50Full ℚ := by
  intro h
  obtain ⟨s1, s, s', h1, h2, h3, hf⟩ := run3?_map
    (fun s e _ => match e with | .worker => !decide (s.pc = .collect) | .setWaypoints _ => false | _ => true)
    (fun s e _ => ¬ Collects s e ∧ ∀ ws, e ≠ .setWaypoints ws)
    (by
      intro s e s' hok
      cases e with
      | worker => exact ⟨fun hh => (by simp [hh.2] at hok), fun ws => (by simp)⟩
      | setWaypoints ws => cases hok
      | _ => exact ⟨fun hh => (by cases hh.1), fun ws => (by simp)⟩)
    (history6a ++ [.appendWaypoint (wp "c" 3 3 3)]) history6b .worker
    (fun _ s s' => decide (s.pc = .collect ∧ s'.next.map (fun w => (w.name, w.current)) = [("b", ⟨2, 1, 0⟩), ("c", ⟨3, 3, 3⟩)])) true
    (by decide +kernel)
  obtain ⟨k1, k2⟩ := of_decide_eq_true hf
  obtain ⟨w', hw', hn, hc⟩ := h hermiteEnv _ history6a history6b (wp "c" 3 3 3) s1 s s' ⟨9, 9, 9⟩
    (by simp [history6a, history6b, history1, planEvents, ValidEvent, wp_bookkept]) h1 h2 k1 h3 (by decide) (by decide +kernel)
  have : (w'.name, w'.current) ∈ s'.next.map (fun w => (w.name, w.current)) := List.mem_map.mpr ⟨w', hw', rfl⟩
  rw [k2, hn, hc] at this
  revert this
  decide +kernel

/-- C50 when the worker does not apply updates to the current plan in the meantime. -/
theorem C50_partial (env : Env K) (v : V3 K) (es1 es2 : List (Event K)) (w : Waypoint K) (s1 s s' : Planner K) (p : V3 K)
    (hv : ∀ e ∈ es1 ++ [.appendWaypoint w] ++ es2, ValidEvent e) (h1 : Run env (Planner.init v) (es1 ++ [.appendWaypoint w]) s1)
    (h2 : RunWhile (fun s e _ => ¬ Collects s e ∧ ¬ Applies s e ∧ ∀ ws, e ≠ .setWaypoints ws) env s1 es2 s)
    (hpc : s.pc = .collect) (hs : s.step env .worker = .ok (some s')) (hn : w.name ≠ "") (hp : lastUpdate (updatesIn es2) w.name = some p) :
    ∃ w' ∈ s'.next, Becomes (some p) w w' := by
  obtain ⟨g1, hg1⟩ := run_runR env _ _ _ h1
  have hmem : w ∈ g1.appended := by
    generalize hes : es1 ++ [Event.appendWaypoint w] = es at hg1
    cases hg1 with
    | nil => simp at hes
    | snoc e hr hst =>
      obtain ⟨_, he⟩ := List.append_inj' hes rfl
      obtain rfl := List.cons.inj he |>.1
      simp [Requests.after]
  obtain ⟨g, hg, hu, ha, _⟩ := runR_stretch env _ s1 s _ es2 g1 hg1 h2
  obtain ⟨s2, k1, _, k2, _⟩ := C47_contents env v _ hv g s hg hpc
  rw [hs] at k1
  rw [← Option.some.inj (Except.ok.inj k1)] at k2
  obtain ⟨i, hi⟩ := List.mem_iff_getElem?.mp (List.mem_append_right (if g.route.isEmpty = true then
    s.dyn.filter (fun w => s.params.lastGlobal ≤ w.time) else g.route) (ha w hmem))
  obtain ⟨w', hw', hb⟩ := forall2_get k2 i w hi
  refine ⟨w', List.mem_of_getElem? hw', ?_⟩
  unfold updateFor at hb
  rw [if_neg hn, hu, lastUpdate_append _ _ _ p hp] at hb
  exact hb

-- The same history without the detour through the security zone: the update is honoured.
example : (run? (history1 ++ [.evaluate (1 / 2) true false, .appendWaypoint (wp "c" 3 3 3), .modifyWaypoint "c" ⟨9, 9, 9⟩ true, .worker, .worker])).map
    (fun s => s.next.map fun w => (w.name, w.current)) = some [("a", ⟨1, 0, 0⟩), ("b", ⟨2, 1, 0⟩), ("c", ⟨9, 9, 9⟩)] := by decide +kernel

/-! ## C46 -/

/-- C46, the claim: whenever a route or an appended waypoint is pending there is a continuation of the history without any further request
in which the worker collects it for a plan. -/
def C46Full (K : Type*) [Field K] [LinearOrder K] [IsStrictOrderedRing K] [FloorSemiring K] : Prop :=
  ∀ (env : Env K) (v : V3 K) (es : List (Event K)) (g : Requests K) (s : Planner K), (∀ e ∈ es, ValidEvent e) →
    RunR env (Planner.init v) es g s → (g.route ≠ [] ∨ g.appended ≠ []) →
    ∃ es' s', (∀ e ∈ es', ¬ IsRequest e) ∧ Run env s es' s' ∧ s'.pc = .collect

/-- When nothing is in progress and the request flag is not set, no history without a further request ever leads to a plan, and whatever
is queued stays queued. -/
theorem C46_asleep (env : Env K) (s : Planner K) (hi : (s.pc = .top ∨ s.pc = .apply) ∧ s.computing = false ∧ s.generateNew = false)
    (es : List (Event K)) (s' : Planner K) (hes : ∀ e ∈ es, ¬ IsRequest e) (h : Run env s es s') :
    s'.pc ≠ .collect ∧ s'.toAdd = s.toAdd ∧ s'.toSet = s.toSet ∧ s'.computing = false := by
  have : Asleep s' ∧ s'.toAdd = s.toAdd ∧ s'.toSet = s.toSet := by
    induction h with
    | nil => exact ⟨hi, rfl, rfl⟩
    | snoc e _ hs ih =>
      obtain ⟨i1, i2, i3⟩ := ih (fun x hx => hes x (by simp [hx]))
      obtain ⟨j1, j2, j3⟩ := asleep_step env e _ _ (hes e (by simp)) i1 hs
      exact ⟨j1, j2.trans i2, j3.trans i3⟩
  refine ⟨?_, this.2.1, this.2.2, this.1.2.1⟩
  rcases this.1.1 with h | h <;> rw [h] <;> decide

/-- A waypoint appended while a plan is being computed: the take-over of that plan clears the request flag. -/
def history7 : List (Event ℚ) :=
  [.setSpeed 2, .setWaypoints [wp "a" 1 0 0, wp "b" 2 1 0]] ++
    [.worker, .worker, .worker, .worker, .worker, .worker, .worker, .asyncStart, .appendWaypoint (wp "c" 3 3 3), .asyncFinish (1 / 100)] ++
    [.evaluate 0 false false]

theorem C46_refuted : ¬ C46Full ℚ := by
  intro h
  obtain ⟨s, hr, hf⟩ := run?_map history7
    (fun s => decide ((s.pc = .top ∨ s.pc = .apply) ∧ s.computing = false ∧ s.generateNew = false ∧ s.toAdd ≠ [])) true (by decide +kernel)
  obtain ⟨k1, k2, k3, k4⟩ := of_decide_eq_true hf
  obtain ⟨g, hg⟩ := run_runR _ _ _ _ hr
  have ht := runR_tracks _ _ _ _ _ hg
  have hne : g.appended ≠ [] := fun hh => k4 (by rw [ht.toAdd, hh]; rfl)
  obtain ⟨es', s', h1, h2, h3⟩ := h hermiteEnv _ _ g s (by simp [history7, ValidEvent, wp_bookkept]) hg (Or.inr hne)
  exact (C46_asleep hermiteEnv s ⟨k1, k2, k3⟩ es' s' h1 h2).1 h3

/-- The same with `modifyWaypoint(..., false)`: it cancels the pending request of an idle planner. -/
def history8 : List (Event ℚ) :=
  history1 ++ [.evaluate (1 / 2) true false, .appendWaypoint (wp "c" 3 3 3), .modifyWaypoint "a" ⟨1, 1, 1⟩ false]

theorem C46_refuted_by_modification : ∃ g s, RunR hermiteEnv (Planner.init ⟨0, 0, 0⟩) history8 g s ∧ g.appended ≠ [] ∧
    ∀ es' s', (∀ e ∈ es', ¬ IsRequest e) → Run hermiteEnv s es' s' → s'.pc ≠ .collect := by
  obtain ⟨s, hr, hf⟩ := run?_map history8
    (fun s => decide ((s.pc = .top ∨ s.pc = .apply) ∧ s.computing = false ∧ s.generateNew = false ∧ s.toAdd ≠ [])) true (by decide +kernel)
  obtain ⟨k1, k2, k3, k4⟩ := of_decide_eq_true hf
  obtain ⟨g, hg⟩ := run_runR _ _ _ _ hr
  have ht := runR_tracks _ _ _ _ _ hg
  exact ⟨g, s, hg, fun hh => k4 (by rw [ht.toAdd, hh]; rfl), fun es' s' h1 h2 => (C46_asleep hermiteEnv s ⟨k1, k2, k3⟩ es' s' h1 h2).1⟩

end

end Verif.Properties
