import Verif.Lemmas.PlannerStitch
import Verif.Properties.PlannerTime

/-!
# Replanning while flying (C52, C53, C56)

For every history of calls, worker phases and computations.
-/

set_option linter.unusedSectionVars false
set_option linter.unusedSimpArgs false

namespace Verif.Properties
open Verif Verif.Spec Verif.Lemmas

section
variable {K : Type*} [Field K] [LinearOrder K] [IsStrictOrderedRing K] [FloorSemiring K]

theorem runWhile_cons (ok : Planner K → Event K → Planner K → Prop) (env : Env K) (s s' : Planner K) (e : Event K) (es : List (Event K))
    (h : RunWhile ok env s (e :: es) s') : ∃ m, s.step env e = .ok (some m) ∧ ok s e m ∧ RunWhile ok env m es s' := by
  generalize hl : e :: es = l at h
  induction h generalizing es with
  | nil => cases hl
  | @snoc es0 m1 m2 e' hrun hs hok ih =>
    rcases es0 with _ | ⟨a, es0⟩
    · obtain ⟨rfl, rfl⟩ := List.cons.inj hl
      have hm : s = m1 := by
        generalize hl' : ([] : List (Event K)) = l' at hrun
        cases hrun with
        | nil => rfl
        | snoc e'' _ _ _ => simp at hl'
      subst hm
      exact ⟨m2, hs, hok, .nil⟩
    · rw [List.cons_append] at hl
      obtain ⟨rfl, rfl⟩ := List.cons.inj hl
      obtain ⟨m, h1, h2, h3⟩ := ih es0 rfl
      exact ⟨m, h1, h2, .snoc e' h3 hs hok⟩

/-- Execute a history of the sample system in three parts, checking every step of the first two. -/
def run3w? (ok1 ok2 : Planner ℚ → Event ℚ → Planner ℚ → Bool) (es1 es2 : List (Event ℚ)) (e : Event ℚ) :
    Option (Planner ℚ × Planner ℚ × Planner ℚ) :=
  (execWhile ok1 (Planner.init ⟨0, 0, 0⟩) es1).bind fun s => (execWhile ok2 s es2).bind fun s2 =>
    (s2.step hermiteEnv e).toOption.bind fun o => o.map fun s3 => (s, s2, s3)

theorem run3w?_map {α : Type*} (ok1 ok2 : Planner ℚ → Event ℚ → Planner ℚ → Bool) (P1 P2 : Planner ℚ → Event ℚ → Planner ℚ → Prop)
    (hP1 : ∀ s e s', ok1 s e s' = true → P1 s e s') (hP2 : ∀ s e s', ok2 s e s' = true → P2 s e s') (es1 es2 : List (Event ℚ)) (e : Event ℚ)
    (f : Planner ℚ → Planner ℚ → Planner ℚ → α) (x : α) (h : (run3w? ok1 ok2 es1 es2 e).map (fun q => f q.1 q.2.1 q.2.2) = some x) :
    ∃ s1 s s', RunWhile P1 hermiteEnv (Planner.init ⟨0, 0, 0⟩) es1 s1 ∧ RunWhile P2 hermiteEnv s1 es2 s ∧
      s.step hermiteEnv e = .ok (some s') ∧ f s1 s s' = x := by
  obtain ⟨⟨s, s2, s3⟩, hs, hx⟩ := Option.map_eq_some_iff.mp h
  unfold run3w? at hs
  obtain ⟨a, ha, hs⟩ := Option.bind_eq_some_iff.mp hs
  obtain ⟨b, hb, hs⟩ := Option.bind_eq_some_iff.mp hs
  obtain ⟨o, ho, hs⟩ := Option.bind_eq_some_iff.mp hs
  obtain ⟨c, hc, hs⟩ := Option.map_eq_some_iff.mp hs
  obtain ⟨rfl, h2⟩ := Prod.mk.inj hs
  obtain ⟨rfl, rfl⟩ := Prod.mk.inj h2
  subst hc
  refine ⟨_, _, _, execWhile_run ok1 P1 hP1 _ _ _ ha, execWhile_run ok2 P2 hP2 _ _ _ hb, ?_, hx⟩
  cases hst : b.step hermiteEnv e with
  | error e => rw [hst] at ho; cases ho
  | ok r => rw [hst] at ho; rw [Option.some.inj ho]

/-! ## C52 -/

/-- C52, the claim: if no new route is pending when the worker collects the requests, every named waypoint of the current plan that lies
after the last evaluated instant is in the next plan that is taken over. -/
def C52Full (K : Type*) [Field K] [LinearOrder K] [IsStrictOrderedRing K] [FloorSemiring K] : Prop :=
  ∀ (env : Env K) (v : V3 K) (es es' : List (Event K)) (e : Event K) (g : Requests K) (s s2 s3 : Planner K), (∀ e ∈ es, ValidEvent e) →
    RunR env (Planner.init v) es g s → s.pc = .collect → g.route = [] → RunBefore env s (.worker :: es') s2 →
    s2.step env e = .ok (some s3) → TakesOver s2 s3 →
    ∀ w ∈ s.dyn, w.name ≠ "" → lastEval es < w.time → ∃ w' ∈ s3.dyn, w'.name = w.name

/-- The first computation took 3/100 s; at 1/2 s a waypoint is appended. -/
def history13 : List (Event ℚ) :=
  [.setSpeed 2, .updateVehiclePosition ⟨0, 0, 0⟩, .setWaypoints [wp "a" 1 0 0, wp "b" 2 1 0]] ++ planEvents (3 / 100) ++
    [.evaluate 0 false false, .evaluate (1 / 2) true false, .appendWaypoint (wp "c" 3 3 3), .worker]

theorem history13_valid : ∀ e ∈ history13, ValidEvent e := by
  simp [history13, planEvents, ValidEvent, wp_bookkept]
  norm_num

/-- The rest of the planning, without take-over. -/
def planRest : List (Event ℚ) := [.worker, .worker, .worker, .worker, .worker, .worker, .asyncStart, .asyncFinish (1 / 100)]

def notTaken (s : Planner ℚ) (_ : Event ℚ) (s' : Planner ℚ) : Bool := !(s.computing && !s'.computing)

theorem notTaken_ok (s : Planner ℚ) (e : Event ℚ) (s' : Planner ℚ) (h : notTaken s e s' = true) : ¬ TakesOver s s' := by
  rintro ⟨h1, h2⟩
  simp [notTaken, h1, h2] at h

/-- C52 is false of the code: waypoint "a", half a second ahead, is not in the next plan. -/
theorem C52_refuted : ¬ C52Full ℚ := by
  intro h
  obtain ⟨s, s2, s3, h1, h2, h3, hf⟩ := run3?_map notTaken _ notTaken_ok history13 planRest (.evaluate (3 / 5) true false)
    (fun s s2 s3 => decide (s.pc = .collect ∧ s.toSet = [] ∧ s2.computing = true ∧ s3.computing = false ∧
      ((s.dyn.map fun w => (w.name, w.time)).contains ("a", 1)) ∧ ¬ (s3.dyn.map (·.name)).contains "a")) true (by decide +kernel)
  obtain ⟨k1, k2, k3, k4, k5, k6⟩ := of_decide_eq_true hf
  obtain ⟨g, hg⟩ := run_runR _ _ _ _ h1
  have hroute : g.route = [] := by
    have := (runR_tracks _ _ _ _ _ hg).toSet; rw [k2] at this; simpa using this.symm
  rw [List.contains_iff_mem, List.mem_map] at k5
  obtain ⟨w, hw, hwt⟩ := k5
  obtain ⟨hn, htm⟩ := Prod.mk.inj hwt
  obtain ⟨w', hw', hn'⟩ := h hermiteEnv _ history13 (planRest.drop 1) _ g s s2 s3 history13_valid hg k1 hroute h2 h3 ⟨k3, k4⟩ w hw
    (by rw [hn]; decide) (by rw [htm]; decide +kernel)
  apply k6
  rw [List.contains_iff_mem, List.mem_map]
  exact ⟨w', hw', hn'.trans hn⟩

theorem filter_drop_eq (b : K) (ws : List (Waypoint K)) :
    (ws.filter fun w => !decide (w.time < b ∧ w.time > 0)) = ws.filter fun w => decide (w.time ≤ 0 ∨ b ≤ w.time) := by
  apply List.filter_congr
  intro w _
  rw [← decide_not, decide_eq_decide, not_and_or, not_lt, gt_iff_lt, not_lt, or_comm]

theorem stitch_iff (s : Planner K) : s.checkStitchTrajectory = true ↔ EnoughLeft s := by
  unfold Planner.checkStitchTrajectory EnoughLeft Planner.computationTime
  cases s.traj with
  | none => simp
  | some tr =>
    simp only [Bool.not_eq_true', decide_eq_false_iff_not, not_lt, Option.some.injEq, exists_eq_left']
    constructor <;> intro h <;> linarith

/-- C52, exactly: from the moment the worker has noted the last evaluated instant (`newParams`) until the plan is taken over, whatever is
called. If the plan is not stitched all waypoints are kept; if it is stitched those without time (time 0) and those at least 20
computation times after the flown instant are kept, all others are dropped. -/
theorem C52_exact_partial (env : Env K) (s : Planner K) (h : Reachable env s) (hpc : s.pc = .snapshotted) (es : List (Event K))
    (s2 s3 : Planner K) (hrun : RunBefore env s (.worker :: es) s2) (e : Event K) (hs : s2.step env e = .ok (some s3)) (ht : TakesOver s2 s3) :
    ∃ pre kept, s3.dyn = pre ++ kept ∧
      ((¬ EnoughLeft s ∧ pre.map (·.name) = [""] ∧ List.Forall₂ SameWaypoint s.next kept) ∨
       (EnoughLeft s ∧ pre.map (·.name) = ["stitching_point", "stitching_point"] ∧
        List.Forall₂ SameWaypoint (s.next.filter fun w => w.time ≤ 0 ∨
          s.newParams.lastLocal + s.params.gtlg + s.params.tOffset + 20 * s.timeConstant ≤ w.time) kept)) := by
  obtain ⟨s1, h1, _, hrun⟩ := runWhile_cons _ _ _ _ _ _ hrun
  have hc := reachable_ctl env s h
  have hb : s.newParams.lastLocal + s.params.tOffset + 5 * s.computationTime + 5 * s.computationTime + s.params.gtlg =
      s.newParams.lastLocal + s.params.gtlg + s.params.tOffset + 20 * s.timeConstant := by unfold Planner.computationTime; ring
  set P : List (Waypoint K) → Prop := fun ws => ∃ pre kept, ws = pre ++ kept ∧
      ((¬ EnoughLeft s ∧ pre.map (·.name) = [""] ∧ List.Forall₂ SameWaypoint s.next kept) ∨
       (EnoughLeft s ∧ pre.map (·.name) = ["stitching_point", "stitching_point"] ∧
        List.Forall₂ SameWaypoint (s.next.filter fun w => w.time ≤ 0 ∨
          s.newParams.lastLocal + s.params.gtlg + s.params.tOffset + 20 * s.timeConstant ≤ w.time) kept)) with hPdef
  have hP : ∀ ws ws', P ws → List.Forall₂ SameWaypoint ws ws' → P ws' := by
    rintro ws ws' ⟨pre, kept, rfl, hcase⟩ hf
    obtain ⟨pre', kept', f1, f2, rfl⟩ := forall2_split hf
    have hn := forall2_map_eq (f := fun w : Waypoint K => w.name) (f' := fun w => w.name) (fun _ _ h => h.1) f1
    refine ⟨pre', kept', rfl, ?_⟩
    rcases hcase with ⟨a, b, c⟩ | ⟨a, b, c⟩
    · exact Or.inl ⟨a, hn.trans b, forall2_trans same_trans c f2⟩
    · exact Or.inr ⟨a, hn.trans b, forall2_trans same_trans c f2⟩
  have hprep : Prepared P s1.newParams.gtlg s1 := by
    simp only [Planner.step, Planner.workerStep, hpc, bind, Except.bind] at h1
    by_cases hst : s.checkStitchTrajectory = true
    · rw [if_pos hst] at h1
      cases hw : s.stitch env s.next with
      | error e => rw [hw] at h1; cases h1
      | ok ws =>
        rw [hw] at h1
        rw [← Option.some.inj (Except.ok.inj h1)]
        refine ⟨Or.inl rfl, ?_, rfl⟩
        obtain ⟨traj, w0, w1, _, e0, e1, rfl⟩ := stitch_form env s _ ws hw
        refine ⟨[w0, w1], _, rfl, Or.inr ⟨(stitch_iff s).mp hst, ?_, ?_⟩⟩
        · simp [stitchPoint_name env s traj _ _ _ e0, stitchPoint_name env s traj _ _ _ e1]
        · rw [filter_drop_eq, hb]
          exact forall2_same_copy _
    · rw [if_neg hst] at h1
      cases hw : s.appendDronePosition s.next with
      | error e => rw [hw] at h1; cases h1
      | ok ws =>
        rw [hw] at h1
        rw [← Option.some.inj (Except.ok.inj h1)]
        refine ⟨Or.inl rfl, ?_, rfl⟩
        obtain ⟨w, rfl, _, _, hwname, _⟩ := appendDrone_spec s _ ws hw
        refine ⟨[w], s.next, rfl, Or.inl ⟨fun hh => hst ((stitch_iff s).mpr hh), by simp [hwname], List.forall₂_same.mpr (fun w _ => same_refl w)⟩⟩
  obtain ⟨hp2, hc2⟩ := prepared_run env P hP _ s1 s2 es (ctl_step env _ _ _ hc h1) hprep hrun
  rcases prepared_step env P hP _ e s2 s3 hc2 hp2 hs with h | h
  · exact absurd ht h.2
  · exact h.2.1

/-- C53, when: a plan that is taken over has been attached to the old one exactly if enough of the old one was left when it was prepared;
otherwise it starts at the vehicle (an unnamed first waypoint). -/
theorem C53_when (env : Env K) (s : Planner K) (h : Reachable env s) (hpc : s.pc = .snapshotted) (es : List (Event K))
    (s2 s3 : Planner K) (hrun : RunBefore env s (.worker :: es) s2) (e : Event K) (hs : s2.step env e = .ok (some s3)) (ht : TakesOver s2 s3) :
    (s3.dyn.head?.map (·.name) = some "stitching_point" ↔ EnoughLeft s) ∧ (s3.dyn.head?.map (·.name) = some "" ↔ ¬ EnoughLeft s) := by
  obtain ⟨pre, kept, hd, hc⟩ := C52_exact_partial env s h hpc es s2 s3 hrun e hs ht
  rcases hc with ⟨h1, h2, _⟩ | ⟨h1, h2, _⟩
  · cases pre with
    | nil => cases h2
    | cons w l =>
      have hn : w.name = "" := (List.cons.inj h2).1
      rw [hd]
      simp [hn, h1]
  · cases pre with
    | nil => cases h2
    | cons w l =>
      have hn : w.name = "stitching_point" := (List.cons.inj h2).1
      rw [hd]
      simp [hn, h1]

-- Both happen: the first plan starts at the vehicle; for a stitched one see the examples of C52 and C53.
example : (run? (history1.take 6)).map (fun s => decide (s.pc = .snapshotted ∧ s.traj = none)) = some true := by decide +kernel

/-- C52 where it holds: if plans are taken over by evaluations and the worker's three preparing phases are not interrupted, a waypoint of
the current plan that is at least 20 computation times after the instant flown at the last evaluation is in the next plan taken over. -/
theorem C52_partial (env : Env K) (v : V3 K) (es es' : List (Event K)) (e : Event K) (g : Requests K) (s s2 s3 : Planner K)
    (hv : ∀ e ∈ es, ValidEvent e) (h : RunR env (Planner.init v) es g s) (hok : RunOnTime env (Planner.init v) es s) (hpc : s.pc = .collect)
    (hroute : g.route = []) (hrun : RunBefore env s (.worker :: .worker :: .worker :: es') s2) (hs : s2.step env e = .ok (some s3))
    (ht : TakesOver s2 s3) (w : Waypoint K) (hw : w ∈ s.dyn) (hnow : lastEval es ≤ w.time)
    (hfar : lastEval es + s.getTimeCompensation + 20 * s.timeConstant ≤ w.time) : ∃ w' ∈ s3.dyn, w'.name = w.name := by
  obtain ⟨s', h1, _, hrun'⟩ := runWhile_cons _ _ _ _ _ _ hrun
  obtain ⟨s'', h2, _, hrun''⟩ := runWhile_cons _ _ _ _ _ _ hrun'
  obtain ⟨s1, h1', hpc1, hf, _⟩ := C47_contents env v es hv g s h hpc
  rw [h1'] at h1
  have : s1 = s' := Option.some.inj (Except.ok.inj h1)
  subst this
  rw [hroute] at hf
  simp only [List.isEmpty_nil, if_true] at hf
  have hk := clock_run env v es s hok
  have hL : s.params.lastGlobal = lastEval es := hk.global
  -- the waypoint was collected
  obtain ⟨f1, f2, hf1, _, hnext⟩ := forall2_split hf
  obtain ⟨i, hi⟩ := List.mem_iff_getElem?.mp (List.mem_filter.mpr ⟨hw, decide_eq_true (by rw [hL]; exact hnow)⟩ :
    w ∈ s.dyn.filter (fun w => s.params.lastGlobal ≤ w.time))
  obtain ⟨u, hu, hbec⟩ := forall2_get hf1 i w hi
  have humem : u ∈ s1.next := by rw [hnext]; exact List.mem_append_left _ (List.mem_of_getElem? hu)
  -- parameters
  have hp1 : s1.params = s.params ∧ s1.timeConstant = s.timeConstant := by
    have := h1'
    simp only [Planner.step, Planner.workerStep, hpc, bind, Except.bind] at this
    cases hgw : s.generateWaypoints with
    | error e => rw [hgw] at this; cases this
    | ok q =>
      obtain ⟨ws, sx⟩ := q
      rw [hgw] at this
      obtain rfl := generateWaypoints_frame _ _ _ hgw
      rw [← Option.some.inj (Except.ok.inj this)]
      exact ⟨rfl, rfl⟩
  have hs'' : s'' = { s1 with newParams := { s1.params with gtlg := s1.params.lastGlobal }, pc := .snapshotted } := by
    have hne : s1.next ≠ [] := List.ne_nil_of_mem humem
    have : s1.next.length ≠ 0 := by simpa using hne
    simp only [Planner.step, Planner.workerStep, hpc1, bind, Except.bind] at h2
    rw [if_neg this] at h2
    exact (Option.some.inj (Except.ok.inj h2)).symm
  have hreach : Reachable env s'' := ⟨v, es ++ [.worker] ++ [.worker], by
    intro e he
    rcases List.mem_append.mp he with he | he
    · rcases List.mem_append.mp he with he | he
      · exact hv e he
      · rw [List.mem_singleton.mp he]; trivial
    · rw [List.mem_singleton.mp he]; trivial, .snoc _ (.snoc _ (runR_run _ _ _ _ _ h) h1') h2⟩
  obtain ⟨pre, kept, hdyn, hcase⟩ := C52_exact_partial env s'' hreach (by rw [hs'']) es' s2 s3 hrun'' e hs ht
  have hfin : ∀ from_ : List (Waypoint K), u ∈ from_ → List.Forall₂ SameWaypoint from_ kept → ∃ w' ∈ s3.dyn, w'.name = w.name := by
    intro from_ hmem hfk
    obtain ⟨j, hj⟩ := List.mem_iff_getElem?.mp hmem
    obtain ⟨w', hw', hsame⟩ := forall2_get hfk j u hj
    exact ⟨w', by rw [hdyn]; exact List.mem_append_right _ (List.mem_of_getElem? hw'), hsame.1.trans hbec.1⟩
  rcases hcase with ⟨_, _, hfk⟩ | ⟨_, _, hfk⟩
  · exact hfin _ (by rw [hs'']; exact humem) hfk
  · refine hfin _ (List.mem_filter.mpr ⟨by rw [hs'']; exact humem, decide_eq_true (Or.inr ?_)⟩) hfk
    rw [hs'', hbec.2.1]
    simp only [hp1.1, hp1.2]
    rw [hk.loc]
    unfold Planner.getTimeCompensation at hfar
    linarith

-- In the sample history (computation time 1/100) everything is kept; the hypotheses are met for "a": 1/2 + 1/10 + 20/100 ≤ 1.
example : ∃ s s2 s3, RunOnTime hermiteEnv (Planner.init ⟨0, 0, 0⟩)
      (history1 ++ [.evaluate (1 / 2) true false, .appendWaypoint (wp "c" 3 3 3), .worker]) s ∧
    RunBefore hermiteEnv s planRest s2 ∧ s2.step hermiteEnv (.evaluate (3 / 5) true false) = .ok (some s3) ∧ s.pc = .collect ∧ TakesOver s2 s3 ∧
    s.getTimeCompensation + 20 * s.timeConstant = 3 / 10 ∧ s3.dyn.map (·.name) = ["stitching_point", "stitching_point", "a", "b", "c"] := by
  obtain ⟨s, s2, s3, h1, h2, h3, hf⟩ := run3w?_map onTime notTaken _ _ onTime_ok notTaken_ok
    (history1 ++ [.evaluate (1 / 2) true false, .appendWaypoint (wp "c" 3 3 3), .worker]) planRest (.evaluate (3 / 5) true false)
    (fun s s2 s3 => decide (s.pc = .collect ∧ (s2.computing = true ∧ s3.computing = false) ∧
      s.getTimeCompensation + 20 * s.timeConstant = 3 / 10 ∧ s3.dyn.map (·.name) = ["stitching_point", "stitching_point", "a", "b", "c"]))
    true (by decide +kernel)
  have hf' := of_decide_eq_true hf
  exact ⟨s, s2, s3, h1, h2, h3, hf'⟩

/-! ## C53 -/

theorem evaluate_snapshotted (env : Env K) (s : Planner K) (hc : Ctl s) (hpc : s.pc = .snapshotted) (tr : Trajectory K) (htr : s.traj = some tr)
    (t : K) (r : References K) (h : s.getReferences env tr (t + s.params.tOffset) (t - s.params.gtlg + s.params.tOffset) false = .ok r) :
    s.evaluateTrajectory env t false true = .ok (some (r, s)) := by
  have hcomp := hc.quiet (by rw [hpc]; decide) (by rw [hpc]; decide) (by rw [hpc]; decide)
  have hf := hc.idle hcomp
  have hw : ¬ PlanWaiting s := by rintro (h | ⟨_, h⟩) <;> rw [hf] at h <;> cases h
  unfold Planner.evaluateTrajectory
  rw [check_idle env s hw (by rw [htr]; simp)]
  simp only [bind, Except.bind]
  rw [evaluateNow_eq env s tr htr, h]
  rfl

/-- C53, exactly: let the worker have noted the parameters (`newParams`) and prepare a stitched plan. When this plan is taken over, whatever
was called before, its trajectory starts with position, velocity and acceleration of the references that an evaluation of the old plan
would have returned for the noted instant. -/
theorem C53_recorded (env : Env K) (henv : Segmentwise env) (hmeets : MeetsVertices env) (s : Planner K) (h : Reachable env s)
    (hpc : s.pc = .snapshotted) (es : List (Event K)) (s2 s3 : Planner K) (hrun : RunBefore env s (.worker :: es) s2) (e : Event K)
    (hv : ∀ e ∈ es, ValidEvent e) (hs : s2.step env e = .ok (some s3)) (ht : TakesOver s2 s3)
    (hstitched : s3.dyn.head?.map (·.name) = some "stitching_point") :
    ∃ r tr, s.evaluateTrajectory env (s.newParams.lastLocal + s.params.gtlg) false true = .ok (some (r, s)) ∧ s3.traj = some tr ∧
      s3.params.gtlg = s.newParams.gtlg ∧
      ∀ k ≤ 2, ∃ v, refOrder r k = some v ∧ tr.evaluate 0 k = .ok [v.x, v.y, v.z] := by
  have hc := reachable_ctl env s h
  obtain ⟨s1, h1, _, hrun1⟩ := runWhile_cons _ _ _ _ _ _ hrun
  by_cases hst : s.checkStitchTrajectory = true
  · have h1' := h1
    simp only [Planner.step, Planner.workerStep, hpc, bind, Except.bind] at h1'
    rw [if_pos hst] at h1'
    cases hw : s.stitch env s.next with
    | error e => rw [hw] at h1'; cases h1'
    | ok ws =>
      rw [hw] at h1'
      have hs1 := Option.some.inj (Except.ok.inj h1')
      obtain ⟨old, w0, w1, hold, e0, e1, rfl⟩ := stitch_form env s _ ws hw
      obtain ⟨r, hr, hb0, _, hn0, hcur, hder⟩ := stitchPoint_spec env s old _ _ w0 e0
      obtain ⟨hd1, hd2⟩ := hder rfl
      obtain ⟨vel, acc, hvel, hacc, _⟩ := getReferences_full env s old _ _ r hr
      set P : List (Waypoint K) → Prop := fun ws => ∃ w rest, ws = w :: rest ∧ SameWaypoint w0 w with hPdef
      have hP : ∀ ws ws', P ws → List.Forall₂ SameWaypoint ws ws' → P ws' := by
        rintro _ ws' ⟨w, rest, rfl, hsame⟩ hf
        cases hf with
        | cons hab hrest => exact ⟨_, _, rfl, same_trans _ _ _ hsame hab⟩
      have hprep : Prepared P s.newParams.gtlg s1 := by
        rw [← hs1]
        exact ⟨Or.inl rfl, ⟨w0, _, rfl, same_refl _⟩, rfl⟩
      obtain ⟨hp2, hc2⟩ := prepared_run env P hP _ s1 s2 es (ctl_step env _ _ _ hc h1) hprep hrun1
      rcases prepared_step env P hP _ e s2 s3 hc2 hp2 hs with hno | ⟨_, _, hg, tr, hfut, htr⟩
      · exact absurd ht hno.2
      obtain ⟨_, ⟨w, rest, hnext, hsame⟩, _⟩ := hp2
      have hreach2 : Reachable env s2 := by
        obtain ⟨v, es0, hv0, hr0⟩ := h
        refine ⟨v, es0 ++ (.worker :: es), ?_, ?_⟩
        · intro e he
          rcases List.mem_append.mp he with he | he
          · exact hv0 e he
          · rcases List.mem_cons.mp he with rfl | he
            · trivial
            · exact hv e he
        · exact run_append env _ _ _ _ _ hr0 (runWhile_run _ _ _ _ _ hrun)
      have hplan := reachable_plan env henv s2 hreach2
      have hwp := reachable_wp env s2 hreach2
      obtain ⟨_, vs, sp, hvs, ho⟩ := hplan.ready tr hfut
      have hbk : ∀ w ∈ s2.next, Bookkept w := hwp.next
      have hlen := hc2.next2 (Or.inr ht.1)
      obtain ⟨v, hv0, hsamev, _⟩ := extractVertices_position s2.next vs hvs hbk 0 w (by rw [hnext]; rfl)
      have hcon : ∀ k : ℕ, v.getConstraint k = w0.vertex.getConstraint k := fun k =>
        (hsamev k (Or.inl (by omega))).trans (hsame.2.2 k)
      refine ⟨r, tr, ?_, htr, hg, ?_⟩
      · apply evaluate_snapshotted env s hc hpc old hold
        rw [← hr]
        congr 1 <;> ring
      · intro k hk
        have key : ∀ (k : ℕ) (v' : V3 K), k ≤ 4 → w0.vertex.getConstraint k = some v'.toList → tr.evaluate 0 k = .ok [v'.x, v'.y, v'.z] := by
          intro k v' hk hcc
          have := hmeets vs sp tr ho (fun v hv => (extractVertices_wellFormed s2.next vs hvs hbk v hv).1) 0 v hv0 k v'.toList hk (by rw [hcon k, hcc])
          rwa [startOf_zero] at this
        match k, hk with
        | 0, _ => exact ⟨_, rfl, key 0 _ (by norm_num) (by rw [← hcur]; exact hb0.2.2.1)⟩
        | 1, _ => exact ⟨vel, hvel, key 1 _ (by norm_num) (by have := hd1; rw [hvel] at this; exact this)⟩
        | 2, _ => exact ⟨acc, hacc, key 2 _ (by norm_num) (by have := hd2; rw [hacc] at this; exact this)⟩
  · -- not stitched: the first waypoint has no name
    exfalso
    obtain ⟨pre, kept, hdyn, hcase⟩ := C52_exact_partial env s h hpc es s2 s3 hrun e hs ht
    rcases hcase with ⟨_, hpre, _⟩ | ⟨hst', _⟩
    · cases pre with
      | nil => cases hpre
      | cons a l =>
        rw [hdyn] at hstitched
        simp only [List.map_cons, List.cons.injEq] at hpre
        simp [hpre.1] at hstitched
    · exact hst ((stitch_iff s).mpr hst')

/-- C53, the claim: the noted instant is the start (`getMinTime`) of the new plan. -/
def C53Full (K : Type*) [Field K] [LinearOrder K] [IsStrictOrderedRing K] [FloorSemiring K] : Prop :=
  ∀ (env : Env K), Segmentwise env → MeetsVertices env → ∀ (s s2 s3 : Planner K), Reachable env s → s.pc = .snapshotted →
    ∀ (es : List (Event K)) (e : Event K), (∀ e ∈ es, ValidEvent e) → RunBefore env s (.worker :: es) s2 → s2.step env e = .ok (some s3) →
    TakesOver s2 s3 → s3.dyn.head?.map (·.name) = some "stitching_point" →
    ∀ (g : K) (r : References K) (tr : Trajectory K), s3.getMinTime env = .ok (some (g, s3)) →
      s.evaluateTrajectory env g false true = .ok (some (r, s)) → s3.traj = some tr →
      ∀ (k : ℕ) (v : V3 K), refOrder r k = some v → tr.evaluate 0 k = .ok [v.x, v.y, v.z]

/-- A plan is taken over by `getDynamicWaypoints`, and the next one is prepared before the next evaluation. -/
def history14 : List (Event ℚ) :=
  history1 ++ [.evaluate (1 / 2) true false, .appendWaypoint (wp "c" 3 3 3)] ++ planEvents (1 / 100) ++
    [.getDynamicWaypoints, .appendWaypoint (wp "d" 4 4 4), .worker, .worker, .worker]

theorem history14_valid : ∀ e ∈ history14, ValidEvent e := by
  simp [history14, history1, planEvents, ValidEvent, wp_bookkept]

/-- The trajectory of `s3` starts elsewhere than the plan of `s` is at that time. -/
def startsElsewhere (s s3 : Planner ℚ) : Bool :=
  match s.evaluateTrajectory hermiteEnv s3.params.gtlg false true, s3.traj with
  | .ok (some (r, s')), some tr =>
    decide (s' = s) && (match tr.evaluate 0 0 with
      | .ok l => decide (l ≠ [r.position.x, r.position.y, r.position.z])
      | .error _ => true)
  | _, _ => false

theorem startsElsewhere_spec (s s3 : Planner ℚ) (h : startsElsewhere s s3 = true) :
    ∃ r tr, s.evaluateTrajectory hermiteEnv s3.params.gtlg false true = .ok (some (r, s)) ∧ s3.traj = some tr ∧
      tr.evaluate 0 0 ≠ .ok [r.position.x, r.position.y, r.position.z] := by
  unfold startsElsewhere at h
  split at h
  · rename_i r s' tr he htr
    rw [Bool.and_eq_true] at h
    obtain ⟨h1, h2⟩ := h
    have := of_decide_eq_true h1
    subst this
    refine ⟨r, tr, he, htr, ?_⟩
    intro hc
    rw [hc] at h2
    simp at h2
  · cases h

/-- C53 is false of the code: the noted local time belongs to the plan before. -/
theorem C53_refuted : ¬ C53Full ℚ := by
  intro h
  obtain ⟨s, s2, s3, h1, h2, h3, hf⟩ := run3?_map notTaken _ notTaken_ok history14 (planRest.drop 2) .getDynamicWaypoints
    (fun s s2 s3 => decide (s.pc = .snapshotted ∧ s2.computing = true ∧ s3.computing = false ∧
      s3.dyn.head?.map (·.name) = some "stitching_point" ∧ startsElsewhere s s3 = true)) true (by decide +kernel)
  obtain ⟨k1, k2, k3, k4, k5⟩ := of_decide_eq_true hf
  obtain ⟨r, tr, hr, htr, hne⟩ := startsElsewhere_spec s s3 k5
  exact hne (h hermiteEnv hermite_segmentwise hermite_meets s s2 s3 ⟨_, history14, history14_valid, h1⟩ k1 (planRest.drop 3) .getDynamicWaypoints
    (by simp [planRest, ValidEvent]) h2 h3 ⟨k2, k3⟩ k4 _ r tr (getMinTime_eq hermiteEnv s3 (by rw [htr]; simp)) hr htr 0 _ rfl)

/-- C53 where it holds: if plans are taken over by evaluations, a stitched plan starts with position, velocity and acceleration of the
references that the old plan has at the new plan's start. -/
theorem C53_partial (env : Env K) (henv : Segmentwise env) (hmeets : MeetsVertices env) (v : V3 K) (es0 : List (Event K)) (s s2 s3 : Planner K)
    (hv0 : ∀ e ∈ es0, ValidEvent e) (hok : RunOnTime env (Planner.init v) es0 s) (hpc : s.pc = .snapshotted) (es : List (Event K)) (e : Event K)
    (hv : ∀ e ∈ es, ValidEvent e) (hrun : RunBefore env s (.worker :: es) s2) (hs : s2.step env e = .ok (some s3)) (ht : TakesOver s2 s3)
    (hstitched : s3.dyn.head?.map (·.name) = some "stitching_point") :
    ∃ g r tr, s3.getMinTime env = .ok (some (g, s3)) ∧ s.evaluateTrajectory env g false true = .ok (some (r, s)) ∧ s3.traj = some tr ∧
      ∀ k ≤ 2, ∃ v, refOrder r k = some v ∧ tr.evaluate 0 k = .ok [v.x, v.y, v.z] := by
  have hr : Reachable env s := ⟨v, es0, hv0, runWhile_run _ _ _ _ _ hok⟩
  obtain ⟨r, tr, h1, h2, h3, h4⟩ := C53_recorded env henv hmeets s hr hpc es s2 s3 hrun e hv hs ht hstitched
  have hsnap := snap_run env v es0 s hok hpc
  refine ⟨s3.params.gtlg, r, tr, getMinTime_eq env s3 (by rw [h2]; simp), ?_, h2, h4⟩
  rw [h3, ← h1, hsnap]
  congr 1
  ring

-- The sample history's replanning at 1/2 meets the hypotheses.
example : ∃ s s2 s3, RunOnTime hermiteEnv (Planner.init ⟨0, 0, 0⟩)
      (history1 ++ [.evaluate (1 / 2) true false, .appendWaypoint (wp "c" 3 3 3), .worker, .worker, .worker]) s ∧
    RunBefore hermiteEnv s (planRest.drop 2) s2 ∧ s2.step hermiteEnv (.evaluate (3 / 5) true false) = .ok (some s3) ∧ s.pc = .snapshotted ∧
    TakesOver s2 s3 ∧ s3.dyn.head?.map (·.name) = some "stitching_point" ∧ s3.params.gtlg = 1 / 2 ∧
    (s3.traj.bind fun tr => (tr.evaluate 0 0).toOption) ≠ some [0, 0, 0] := by
  obtain ⟨s, s2, s3, h1, h2, h3, hf⟩ := run3w?_map onTime notTaken _ _ onTime_ok notTaken_ok
    (history1 ++ [.evaluate (1 / 2) true false, .appendWaypoint (wp "c" 3 3 3), .worker, .worker, .worker]) (planRest.drop 2)
    (.evaluate (3 / 5) true false)
    (fun s s2 s3 => decide (s.pc = .snapshotted ∧ (s2.computing = true ∧ s3.computing = false) ∧
      s3.dyn.head?.map (·.name) = some "stitching_point" ∧ s3.params.gtlg = 1 / 2 ∧
      (s3.traj.bind fun tr => (tr.evaluate 0 0).toOption) ≠ some [0, 0, 0])) true (by decide +kernel)
  have hf' := of_decide_eq_true hf
  exact ⟨s, s2, s3, h1, h2, h3, hf'⟩

/-! ## C56 -/

theorem distSq_eq (a b : V3 K) : Planner.distSq a b = sqDist a b := by unfold Planner.distSq sqDist; ring

theorem onGrid_iff (tc : K) (j : ℕ) : (j = 0 ∨ (1 ≤ j ∧ j < 1 + (⌈3 / 2 * (2 * tc) / (1 / 10)⌉₊ - 1))) ↔ OnGrid tc j := by
  unfold OnGrid
  rcases Nat.eq_zero_or_pos j with rfl | hj
  · simp
  · have h1 : (1 ≤ j ∧ j < 1 + (⌈3 / 2 * (2 * tc) / (1 / 10)⌉₊ - 1)) ↔ j < ⌈3 / 2 * (2 * tc) / (1 / 10)⌉₊ := by omega
    rw [h1, Nat.lt_ceil]
    have : (3 / 2 * (2 * tc) / (1 / 10) : K) = 30 * tc := by ring
    rw [this]
    constructor
    · rintro (h | h)
      · omega
      · right; linarith
    · rintro (h | h)
      · omega
      · right; linarith

/-- What the time fitting chooses. -/
theorem timeFitting_spec (env : Env K) (s s' : Planner K) (tr : Trajectory K) (hu : Usable tr) (target : V3 K)
    (h : s.timeFitting env tr target = .ok s') :
    ∃ (i : ℕ) (p : ℕ → V3 K), s'.newParams.tOffset = (i : K) / 10 + 1 / 10 - (s.params.lastGlobal - s.newParams.gtlg) ∧
      OnGrid s.timeConstant i ∧
      ∀ j, OnGrid s.timeConstant j → IsReference env tr s.dyn ((j : K) / 10) ((j : K) / 10 + s.newParams.gtlg) 0 (p j) ∧
        sqDist (p i) target ≤ sqDist (p j) target ∧ (i < j → sqDist (p i) target < sqDist (p j) target) := by
  unfold Planner.timeFitting at h
  simp only [bind, Except.bind] at h
  cases h0 : s.evaluateModified env tr (0 + s.newParams.gtlg) 0 0 with
  | error e => rw [h0] at h; cases h
  | ok p0 =>
    rw [h0] at h
    simp only at h
    unfold Planner.computationTime at h
    cases hl : s.fitLoop env tr target (⌈3 / 2 * (2 * s.timeConstant) / (1 / 10)⌉₊ - 1) 1 (Planner.distSq p0 target) 0 with
    | error e => rw [hl] at h; cases h
    | ok r =>
      rw [hl] at h
      obtain ⟨d', m'⟩ := r
      obtain ⟨p, hp, hcase⟩ := fitLoop_spec env s tr target _ _ _ _ _ _ hl
      have hoff : s'.newParams.tOffset = m' - (s.params.lastGlobal - s.newParams.gtlg) + 1 / 10 := by
        rw [← Except.ok.inj h]
      have hq : ∀ j, OnGrid s.timeConstant j → IsReference env tr s.dyn ((j : K) / 10) ((j : K) / 10 + s.newParams.gtlg) 0 (Function.update p 0 p0 j) := by
        intro j hj
        rcases (onGrid_iff _ _).mpr hj with rfl | ⟨h1, h2⟩
        · rw [Function.update_self]
          have := evaluateModified_ok env s tr hu _ _ 0 p0 h0
          simpa using this
        · rw [Function.update_of_ne (by omega)]
          have := evaluateModified_ok env s tr hu _ _ 0 _ (hp j h1 h2)
          simpa [div_eq_mul_inv] using this
      have hz : ∀ j, 1 ≤ j → Function.update p 0 p0 j = p j := fun j hj => Function.update_of_ne (by omega) _ _
      rcases hcase with ⟨h1, h2, h3⟩ | ⟨k, k1, k2, k3, k4, k5, k6⟩
      · refine ⟨0, Function.update p 0 p0, by rw [hoff, h1]; push_cast; ring, Or.inl rfl, fun j hj => ⟨hq j hj, ?_⟩⟩
        rw [Function.update_self]
        rcases (onGrid_iff _ _).mpr hj with rfl | ⟨j1, j2⟩
        · rw [Function.update_self]
          exact ⟨le_rfl, fun h => absurd h (lt_irrefl _)⟩
        · rw [hz j j1, ← distSq_eq, ← distSq_eq]
          have := h3 j j1 j2
          exact ⟨this.le, fun _ => this⟩
      · refine ⟨k, Function.update p 0 p0, by rw [hoff, k3]; ring, (onGrid_iff _ _).mp (Or.inr ⟨k1, k2⟩), fun j hj => ⟨hq j hj, ?_⟩⟩
        rw [hz k k1]
        rcases (onGrid_iff _ _).mpr hj with rfl | ⟨j1, j2⟩
        · rw [Function.update_self, ← distSq_eq, ← distSq_eq, ← k4]
          exact ⟨k5, fun h => by omega⟩
        · rw [hz j j1, ← distSq_eq, ← distSq_eq, ← k4]
          exact k6 j j1 j2

/-- C56, relative to the planner's record of the last evaluated time: when a plan that starts at `g` is taken over, an evaluation at `t` reads
it at `(t - last) + i / 10 + 1 / 10`, where `i / 10` is the point of the grid at which the new plan is closest to the target, the last of
them if there are several. The target is the vehicle's position if the plan was made from scratch (its first waypoint has no name), and
otherwise the old plan's reference at the last evaluated time. -/
theorem C56_recorded (env : Env K) (henv : Segmentwise env) (s s' : Planner K) (h : Reachable env s) (e : Event K)
    (hs : s.step env e = .ok (some s')) (ht : TakesOver s s') (g : K) (hg : s'.getMinTime env = .ok (some (g, s'))) :
    ∃ (tr : Trajectory K) (target : V3 K) (i : ℕ) (p : ℕ → V3 K), s'.traj = some tr ∧
      (∀ t, t - g + s'.getTimeCompensation = (t - s.params.lastGlobal) + (i : K) / 10 + 1 / 10) ∧ OnGrid s.timeConstant i ∧
      (∀ j, OnGrid s.timeConstant j → IsReference env tr s.dyn ((j : K) / 10) ((j : K) / 10 + g) 0 (p j) ∧
        sqDist (p i) target ≤ sqDist (p j) target ∧ (i < j → sqDist (p i) target < sqDist (p j) target)) ∧
      ((s'.dyn.head?.map (·.name) = some "" ∧ target = s.vehicle) ∨
       (s'.dyn.head?.map (·.name) = some "stitching_point" ∧ ∃ old, s.traj = some old ∧
        IsReference env old s.dyn (s.params.lastLocal + s.getTimeCompensation) (s.params.lastGlobal + s.getTimeCompensation) 0 target)) := by
  have hplan := reachable_plan env henv s h
  have key : ∀ m : Planner K, Micro env e s m → TakesOver s m → ∃ (tr : Trajectory K) (target : V3 K) (i : ℕ) (p : ℕ → V3 K), m.traj = some tr ∧
      (∀ t, t - m.params.gtlg + m.params.tOffset = (t - s.params.lastGlobal) + (i : K) / 10 + 1 / 10) ∧ OnGrid s.timeConstant i ∧
      (∀ j, OnGrid s.timeConstant j → IsReference env tr s.dyn ((j : K) / 10) ((j : K) / 10 + m.params.gtlg) 0 (p j) ∧
        sqDist (p i) target ≤ sqDist (p j) target ∧ (i < j → sqDist (p i) target < sqDist (p j) target)) ∧
      ((m.dyn.head?.map (·.name) = some "" ∧ target = s.vehicle) ∨
       (m.dyn.head?.map (·.name) = some "stitching_point" ∧ ∃ old, s.traj = some old ∧
        IsReference env old s.dyn (s.params.lastLocal + s.params.tOffset) (s.params.lastGlobal + s.params.tOffset) 0 target)) := by
    intro m hm htm
    cases hm with
    | takeOver _ _ new off hcomp hr he hfit =>
      obtain ⟨target, sf, hfit, rfl, hcase⟩ := hfit
      obtain ⟨_, vs, sp, _, ho⟩ := hplan.ready new hr
      obtain ⟨i, p, k1, k2, k3⟩ := timeFitting_spec env _ sf new (henv vs sp new ho).1 target hfit
      refine ⟨new, target, i, p, rfl, ?_, k2, k3, ?_⟩
      · intro t
        simp only [k1]
        ring
      · have hhead : (s.next.map (·.copy)).head?.map (·.name) = some (if s.fromScratch then "" else "stitching_point") := by
          rw [← reachable_head env s h (Or.inr hcomp)]
          cases s.next <;> rfl
        rcases hcase with ⟨hsc, htg⟩ | ⟨old, hsc, hold, hev⟩
        · left
          refine ⟨?_, htg⟩
          rw [hsc] at hhead
          exact hhead
        · right
          refine ⟨?_, old, hold, evaluateModified_ok env s old (traj_usable env henv s hplan old hold) _ _ 0 target hev⟩
          rw [hsc] at hhead
          exact hhead
    | planned _ hp => cases htm.2
    | apply _ s2 hp ha =>
      have := (reachable_ctl env s h).quiet (by rw [hp]; decide) (by rw [hp]; decide) (by rw [hp]; decide)
      rw [htm.1] at this; cases this
    | _ => exact absurd (htm.1.symm.trans htm.2) (by decide)
  have hgt : s'.traj ≠ none → g = s'.params.gtlg := by
    intro hne
    rw [getMinTime_eq env s' hne] at hg
    exact (congrArg Prod.fst (Option.some.inj (Except.ok.inj hg))).symm
  suffices hfin : ∃ m : Planner K, Micro env e s m ∧ TakesOver s m ∧ s'.traj = m.traj ∧ s'.params.gtlg = m.params.gtlg ∧
      s'.params.tOffset = m.params.tOffset ∧ s'.dyn = m.dyn by
    obtain ⟨m, hm, htm, e1, e2, e3, e4⟩ := hfin
    obtain ⟨tr, target, i, p, k1, k2, k3, k4, k5⟩ := key m hm htm
    have hgm : g = m.params.gtlg := by rw [← e2]; exact hgt (by rw [e1, k1]; simp)
    rw [← hgm] at k2 k4
    rw [← e3] at k2
    rw [← e4] at k5
    exact ⟨tr, target, i, p, e1.trans k1, k2, k3, k4, k5⟩
  by_cases hev : ∃ t o f, e = .evaluate t o f
  · obtain ⟨t, o, f, rfl⟩ := hev
    obtain ⟨r, m, _, hck, hnow⟩ := step_evaluate env s s' t o f hs
    obtain ⟨_, hs'⟩ := evaluateNow_inv env m s' t o f r hnow
    have hsame : s'.traj = m.traj ∧ s'.params.gtlg = m.params.gtlg ∧ s'.params.tOffset = m.params.tOffset ∧ s'.dyn = m.dyn ∧
        s'.computing = m.computing := by
      rw [hs']; cases f <;> exact ⟨rfl, rfl, rfl, rfl, rfl⟩
    obtain ⟨e1, e2, e3, e4, e5⟩ := hsame
    rcases check_micro env (.evaluate t o f) s m (Or.inl ⟨t, o, f, rfl⟩) hck with rfl | hm
    · exact absurd (ht.1.symm.trans (e5.symm.trans ht.2)) (by decide)
    · exact ⟨m, hm, ⟨ht.1, e5 ▸ ht.2⟩, e1, e2, e3, e4⟩
  · rcases step_micro' env e s s' hs with ⟨rfl, _⟩ | hm | ⟨m, ⟨t, o, rfl⟩, _⟩
    · exact absurd (ht.1.symm.trans ht.2) (by decide)
    · exact ⟨s', hm, ht, rfl, rfl, rfl, rfl⟩
    · exact absurd ⟨t, o, false, rfl⟩ hev

/-- C56, the claim: as `C56_recorded`, for the last evaluated time (here only the time formula). -/
def C56Full (K : Type*) [Field K] [LinearOrder K] [IsStrictOrderedRing K] [FloorSemiring K] : Prop :=
  ∀ (env : Env K), Segmentwise env → ∀ (v : V3 K) (es : List (Event K)) (e : Event K) (s s' : Planner K), (∀ e ∈ es, ValidEvent e) →
    Run env (Planner.init v) es s → s.step env e = .ok (some s') → TakesOver s s' →
    ∀ g, s'.getMinTime env = .ok (some (g, s')) → ∃ i : ℕ, OnGrid s.timeConstant i ∧
      ∀ t, t - g + s'.getTimeCompensation = (t - lastEval es) + (i : K) / 10 + 1 / 10

/-- A second plan is taken over without an evaluation since the first one was. -/
def history15 : List (Event ℚ) := history9 ++ [.getDynamicWaypoints, .appendWaypoint (wp "d" 4 4 4)] ++ planEvents (1 / 100)

theorem history15_valid : ∀ e ∈ history15, ValidEvent e := by
  simp [history15, history9, history1, planEvents, ValidEvent, wp_bookkept]

/-- C56 is false of the code, for the reason of `C57_refuted`: the older last evaluated time is used. -/
theorem C56_refuted : ¬ C56Full ℚ := by
  intro h
  obtain ⟨s, s', h1, h2, hf⟩ := run2?_map history15 .getDynamicWaypoints
    (fun s s' => decide (s.computing = true ∧ s'.computing = false ∧ s'.traj.isSome = true ∧ s.timeConstant = 1 / 100 ∧
      s'.params.tOffset - s'.params.gtlg = - 2 / 5)) true (by decide +kernel)
  obtain ⟨k1, k2, k3, k4, k5⟩ := of_decide_eq_true hf
  obtain ⟨i, hi, ht⟩ := h hermiteEnv hermite_segmentwise _ history15 _ s s' history15_valid h1 h2 ⟨k1, k2⟩ _
    (getMinTime_eq hermiteEnv s' (by rw [← Option.isSome_iff_ne_none]; exact k3))
  have h0 := ht 0
  have hl : lastEval history15 = 3 := by decide +kernel
  rw [hl] at h0
  unfold Planner.getTimeCompensation at h0
  unfold OnGrid at hi
  rw [k4] at hi
  rcases hi with rfl | hi
  · push_cast at h0
    linarith
  · linarith

/-- C56 where it holds: plans are taken over by evaluations. The record is then the last evaluated time, and the target of a stitched plan is
what the last evaluation returned. -/
theorem C56_partial (env : Env K) (henv : Segmentwise env) (v : V3 K) (es : List (Event K)) (s s' : Planner K) (hv : ∀ e ∈ es, ValidEvent e)
    (h : RunOnTime env (Planner.init v) es s) (e : Event K) (hs : s.step env e = .ok (some s')) (ht : TakesOver s s')
    (g : K) (hg : s'.getMinTime env = .ok (some (g, s'))) :
    ∃ (tr : Trajectory K) (target : V3 K) (i : ℕ) (p : ℕ → V3 K), s'.traj = some tr ∧
      (∀ t, t - g + s'.getTimeCompensation = (t - lastEval es) + (i : K) / 10 + 1 / 10) ∧ OnGrid s.timeConstant i ∧
      (∀ j, OnGrid s.timeConstant j → IsReference env tr s.dyn ((j : K) / 10) ((j : K) / 10 + g) 0 (p j) ∧
        sqDist (p i) target ≤ sqDist (p j) target ∧ (i < j → sqDist (p i) target < sqDist (p j) target)) ∧
      ((s'.dyn.head?.map (·.name) = some "" ∧ target = s.vehicle) ∨
       (s'.dyn.head?.map (·.name) = some "stitching_point" ∧ ∃ old g0, s.traj = some old ∧ s.getMinTime env = .ok (some (g0, s)) ∧
        IsReference env old s.dyn (lastEval es - g0 + s.getTimeCompensation) (lastEval es + s.getTimeCompensation) 0 target)) := by
  have hk := clock_run env v es s h
  obtain ⟨tr, target, i, p, k1, k2, k3, k4, k5⟩ := C56_recorded env henv s s' ⟨v, es, hv, runWhile_run _ _ _ _ _ h⟩ e hs ht g hg
  rw [hk.global] at k2
  refine ⟨tr, target, i, p, k1, k2, k3, k4, ?_⟩
  rcases k5 with k5 | ⟨k5, old, hold, href⟩
  · exact Or.inl k5
  · rw [hk.global, hk.loc] at href
    exact Or.inr ⟨k5, old, s.params.gtlg, hold, getMinTime_eq env s (by rw [hold]; simp), href⟩

-- The hypotheses are met by the sample history, where the plan that starts at 1/2 is taken over at 7/2 after an evaluation at 3: the new plan
-- is read at 3/5 then.
example : ∃ s s', RunOnTime hermiteEnv (Planner.init ⟨0, 0, 0⟩) history9 s ∧
    s.step hermiteEnv (.evaluate (7 / 2) true false) = .ok (some s') ∧ TakesOver s s' ∧
    s'.params.gtlg = 1 / 2 ∧ 7 / 2 - s'.params.gtlg + s'.getTimeCompensation = 3 / 5 ∧ s'.dyn.head?.map (·.name) = some "stitching_point" := by
  obtain ⟨s, _, s', h1, h2, h3, hf⟩ := run3w?_map onTime notTaken _ _ onTime_ok notTaken_ok history9 [] (.evaluate (7 / 2) true false)
    (fun s s2 s3 => decide (s = s2 ∧ (s2.computing = true ∧ s3.computing = false) ∧ s3.params.gtlg = 1 / 2 ∧
      7 / 2 - s3.params.gtlg + s3.getTimeCompensation = 3 / 5 ∧ s3.dyn.head?.map (·.name) = some "stitching_point")) true (by decide +kernel)
  obtain ⟨rfl, hf'⟩ := of_decide_eq_true hf
  exact ⟨s, s', h1, h3, hf'⟩

end
end Verif.Properties
