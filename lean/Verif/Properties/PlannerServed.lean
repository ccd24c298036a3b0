import Verif.Properties.PlannerRoute
import Verif.Properties.PlannerNoSpeed
import Verif.Properties.PlannerTime

/-!
# Property C128: a first route is planned and flown without failure
-/

set_option linter.unusedSectionVars false

namespace Verif.Properties
open Verif Verif.Spec Verif.Lemmas OptBackend

section
variable {K : Type*} [Field K] [LinearOrder K] [IsStrictOrderedRing K] [FloorRing K]

theorem timeFitting_total (env : Env K) (s : Planner K) (tr : Trajectory K) (hu : Usable tr) (hz : NoZeroWidth s.dyn) (target : V3 K) :
    ∃ s', s.timeFitting env tr target = .ok s' ∧ s'.dyn = s.dyn := by
  have loop : ∀ n i d m, ∃ r, s.fitLoop env tr target n i d m = .ok r := by
    intro n
    induction n with
    | zero => exact fun i d m => ⟨_, rfl⟩
    | succ n ih =>
      intro i d m
      obtain ⟨p, hp⟩ := evaluateModified_total env s tr hu hz ((i : K) * (1 / 10) + s.newParams.gtlg) ((i : K) * (1 / 10)) 0
      unfold Planner.fitLoop
      simp only [hp, bind, Except.bind]
      split
      · exact ih _ _ _
      · exact ih _ _ _
  obtain ⟨p, hp⟩ := evaluateModified_total env s tr hu hz (0 + s.newParams.gtlg) 0 0
  unfold Planner.timeFitting
  simp only [hp, bind, Except.bind]
  obtain ⟨r, hr⟩ := loop (⌈3 / 2 * s.computationTime / (1 / 10)⌉₊ - 1) 1 (Planner.distSq p target) 0
  rw [hr]
  exact ⟨_, rfl, rfl⟩

/-- The taking over of a plan does not fail. -/
theorem check_total (env : Env K) (henv : Segmentwise env) (s : Planner K) (h : Reachable env s) (hz : NoZeroWidth s.dyn) (hf : s.future ≠ .failed) :
    ∃ o, s.checkTrajectoryGenerated env = .ok o := by
  have hp := reachable_plan env henv s h
  have hc := reachable_ctl env s h
  cases he : s.checkTrajectoryGenerated env with
  | ok o => exact ⟨o, rfl⟩
  | error e =>
    exfalso
    unfold Planner.checkTrajectoryGenerated at he
    split at he
    · cases he
    · split at he
      · rename_i hn hr
        simp only [Bool.and_eq_true] at hr
        obtain ⟨⟨hcomp, hval⟩, hready⟩ := hr
        have hswap : s.swapTrajectory env = .error e := by
          simp only [bind, Except.bind] at he
          cases hs : s.swapTrajectory env with
          | error e' => rw [hs] at he; cases he; rfl
          | ok s' => rw [hs] at he; cases he
        unfold Planner.swapTrajectory at hswap
        cases hft : s.future with
        | invalid => rw [hft] at hready; cases hready
        | launched => rw [hft] at hready; cases hready
        | running sp => rw [hft] at hready; cases hready
        | failed => exact hf hft
        | ready new =>
          rw [hft] at hswap
          simp only [bind, Except.bind] at hswap
          have hu := ready_usable env henv s hp new hft
          by_cases hsc : s.fromScratch = true
          · rw [if_pos hsc] at hswap
            obtain ⟨s1, h1, _⟩ := timeFitting_total env { s with future := .invalid } new hu hz s.vehicle
            rw [h1] at hswap
            cases hswap
          · rw [if_neg hsc] at hswap
            cases htr : s.traj with
            | none => exact absurd htr (hc.scratch (by simpa using hsc))
            | some old =>
              simp only [htr] at hswap
              obtain ⟨v, hv⟩ := evaluateModified_total env { s with future := .invalid, traj := some old } old (traj_usable env henv s hp old htr) hz
                (s.params.lastGlobal + s.params.tOffset) (s.params.lastLocal + s.params.tOffset) 0
              rw [hv] at hswap
              obtain ⟨s1, h1, _⟩ := timeFitting_total env { s with future := .invalid, traj := some old } new hu hz v
              simp only [h1] at hswap
              cases hswap
      · cases he

theorem noZeroWidth_copy (ws : List (Waypoint K)) (h : NoZeroWidth ws) : NoZeroWidth (ws.map (·.copy)) := by
  intro w hw
  obtain ⟨u, hu, rfl⟩ := List.mem_map.mp hw
  exact h u hu

/-- C128: nothing fails while no compensation has width zero, neither in the plan in force nor in one that is about to be taken over, and no computation has
thrown: no call and no step of the worker; a computation fails only as the optimiser does. -/
theorem C128_defined (env : Env K) (henv : Segmentwise env) (s : Planner K) (h : Reachable env s) (hz : NoZeroWidth s.dyn)
    (hz' : PlanWaiting s → NoZeroWidth s.next) (hf : s.future ≠ .failed) (e : Event K) (x : Fail) (hx : s.step env e = .error x) :
    ∃ dt speed vs, e = .asyncFinish dt ∧ s.future = .running speed ∧ extractVertices s.next = .ok vs ∧ env.optimize vs speed = .error x := by
  have hc := reachable_ctl env s h
  have hw := reachable_wp env s h
  have hp := reachable_plan env henv s h
  obtain ⟨o, ho⟩ := check_total env henv s h hz hf
  have hens : ∃ o, s.ensureTrajectory env = .ok o := by
    unfold Planner.ensureTrajectory
    split
    · exact ⟨_, rfl⟩
    · exact ⟨o, ho⟩
  rcases C61_failures env henv s h e x hx with rfl | ⟨_, hfail⟩ | ⟨_, hh⟩
  · cases e with
    | setWaypoints ws => cases hx
    | appendWaypoint w => cases hx
    | modifyWaypoint n p g => cases hx
    | modifyWaypoints ms => cases hx
    | setSpeed v => cases hx
    | getWasTrajectoryRegenerated => cases hx
    | updateVehiclePosition p => cases hx
    | asyncStart => cases hx
    | getMaxTime =>
      exfalso
      obtain ⟨o, ho⟩ := hens
      simp only [Planner.step, Planner.getMaxTime, bind, Except.bind, ho] at hx
      cases o with
      | none => cases hx
      | some s' =>
        simp only at hx
        split at hx
        · rename_i h'
          split at h' <;> cases h'
          cases hx
        · cases hx
    | getMinTime =>
      exfalso
      obtain ⟨o, ho⟩ := hens
      simp only [Planner.step, Planner.getMinTime, bind, Except.bind, ho] at hx
      cases o with
      | none => cases hx
      | some s' =>
        simp only at hx
        split at hx
        · rename_i h'
          split at h' <;> cases h'
          cases hx
        · cases hx
    | getDynamicWaypoints =>
      exfalso
      simp only [Planner.step, Planner.getDynamicWaypoints, bind, Except.bind, ho] at hx
      cases o with
      | none => cases hx
      | some s' => cases hx
    | evaluate t o' f =>
      exfalso
      simp only [Planner.step, Planner.evaluateTrajectory, bind, Except.bind, ho] at hx
      cases o with
      | none => cases hx
      | some s1 =>
        simp only at hx
        obtain ⟨hs1, hz1⟩ : PlanInv env s1 ∧ NoZeroWidth s1.dyn := by
          rcases check_micro env .getMaxTime s s1 (Or.inr (Or.inl rfl)) ho with rfl | hm
          · exact ⟨hp, hz⟩
          · refine ⟨plan_micro env henv _ s s1 hc hw hp hm, ?_⟩
            cases hm with
            | takeOver _ _ new off _ hr => exact noZeroWidth_copy _ (hz' (.inr ⟨new, hr⟩))
        cases ht : s1.traj with
        | none => exact absurd ht (check_some_traj env s s1 ho hc)
        | some tr =>
          rw [evaluateNow_eq env s1 tr ht] at hx
          obtain ⟨r, hr⟩ := getReferences_total env s1 tr (traj_usable env henv s1 hs1 tr ht) hz1 (t + s1.params.tOffset) (t - s1.params.gtlg + s1.params.tOffset) o'
          rw [hr] at hx
          cases hx
    | worker =>
      exfalso
      simp only [Planner.step, bind, Except.bind] at hx
      have hwk : s.workerStep env = .error .nonfinite := by
        cases hq : s.workerStep env with
        | error y => rw [hq] at hx; cases hx; rfl
        | ok s' => rw [hq] at hx; cases hx
      unfold Planner.workerStep at hwk
      cases hpc : s.pc with
      | top => simp only [hpc] at hwk; split at hwk <;> [cases hwk; skip]; split at hwk <;> cases hwk
      | collect =>
        simp only [hpc, bind, Except.bind] at hwk
        obtain ⟨ws, hws⟩ := generateWaypoints_total s hw
        rw [hws] at hwk; cases hwk
      | collected => simp only [hpc] at hwk; split at hwk <;> cases hwk
      | snapshotted =>
        simp only [hpc, bind, Except.bind] at hwk
        split at hwk
        · rename_i hst
          cases ht : s.traj with
          | none => unfold Planner.checkStitchTrajectory at hst; rw [ht] at hst; cases hst
          | some tr =>
            obtain ⟨r, hr⟩ := stitch_total env s tr ht (traj_usable env henv s hp tr ht) hz s.next
            rw [hr] at hwk; cases hwk
        · obtain ⟨r, hr⟩ := appendDrone_total s s.next
          rw [hr] at hwk; cases hwk
      | planned => simp only [hpc] at hwk; cases hwk
      | launching => simp only [hpc] at hwk; cases hwk
      | launched => simp only [hpc] at hwk; cases hwk
      | apply =>
        simp only [hpc, bind, Except.bind] at hwk
        obtain ⟨s', hs'⟩ := applyAll_total s.toModify s hw.dyn
        rw [hs'] at hwk; cases hwk
    | asyncFinish dt =>
      simp only [Planner.step, Planner.asyncFinish] at hx
      cases hft : s.future with
      | running sp =>
        rw [hft] at hx
        simp only at hx
        have hcomp : s.computing = true := by
          cases hcc : s.computing with
          | true => rfl
          | false => have := hc.idle hcc; rw [hft] at this; cases this
        cases hq : s.computeTrajectory env sp with
        | ok q => rw [hq] at hx; cases hx
        | error y =>
          rw [hq] at hx
          obtain ⟨vs, h1, h2, h3⟩ := computeTrajectory_fail env henv s hw (hc.next2 (Or.inr hcomp)) sp y hq
          cases y with
          | nonfinite => exact ⟨dt, sp, vs, rfl, rfl, h1, h3⟩
          | _ => cases hx
      | _ => rw [hft] at hx; cases hx
  · exact absurd hfail hf
  · exact hh

end

/-- NLopt invokes the objective only within the bounds it was given, whatever it returns or throws. -/
def NloptKeepsBounds (b : OptBackend) : Prop := ∀ vs speed o, b.prepare vs speed = .ok o → GoodRun b.solve o (b.nlopt vs speed)

/-- C128: the computation of a plan succeeds if it began with a positive speed and the time estimated for each two consecutive waypoints is at least `2⁻⁵²`. -/
theorem C128_computes (b : OptBackend) (hA : 0 < b.aMax) (lineal : Bool) (hN : lineal = false → NloptKeepsBounds b) (s : Planner ℝ) (h : Reachable (b.env lineal) s) (speed : ℝ)
    (hf : s.future = .running speed) (hs : 0 < speed) (vs : List (Vertex ℝ)) (hvs : extractVertices s.next = .ok vs)
    (ht : EachEstimate b vs speed (1 / 2 ^ 52 ≤ ·)) (dt : ℝ) :
    ∃ s' tr, s.step (b.env lineal) (.asyncFinish dt) = .ok (some s') ∧ s'.future = .ready tr := by
  obtain ⟨vs', hvs', hv2, hv⟩ := running_vertices _ s h speed hf
  obtain rfl : vs = vs' := Except.ok.inj (hvs.symm.trans hvs')
  obtain ⟨tr, htr⟩ : ∃ tr, (b.env lineal).optimize vs speed = .ok tr := by
    cases lineal with
    | true =>
      obtain ⟨tr, _, h, _⟩ := C85_linear_succeeds b hA vs speed ⟨hv2, hs, hv⟩ ht
      exact ⟨tr, h⟩
    | false =>
      obtain ⟨tr, _, h, _⟩ := C85_nonlinear_succeeds b hA vs speed ⟨hv2, hs, hv⟩ ht (hN rfl vs speed)
      exact ⟨tr, h⟩
  have hw := reachable_wp _ s h
  have hc := reachable_ctl _ s h
  have hcomp : s.computing = true := by
    cases hcc : s.computing with
    | true => rfl
    | false => have := hc.idle hcc; rw [hf] at this; cases this
  cases hq : s.computeTrajectory (b.env lineal) speed with
  | error e =>
    obtain ⟨vs', h1, _, h3⟩ := computeTrajectory_fail _ (C85_segmentwise b lineal) s hw (hc.next2 (.inr hcomp)) speed e hq
    obtain rfl : vs = vs' := Except.ok.inj (hvs.symm.trans h1)
    rw [htr] at h3
    cases h3
  | ok q =>
    refine ⟨{ s with next := q.2, timeConstant := dt, future := .ready q.1 }, q.1, ?_, rfl⟩
    show s.asyncFinish _ dt = _
    unfold Planner.asyncFinish
    rw [hf]
    simp only
    rw [hq]

section
variable {K : Type*} [Field K] [LinearOrder K] [IsStrictOrderedRing K] [FloorRing K]

/-- How many phases of the worker a history contains. -/
def workerSteps (es : List (Event K)) : ℕ := es.countP fun e => match e with | .worker => true | _ => false

/-- How many phases of the worker lie behind it on the way to the launch of a computation. -/
def phasesDone : WorkerPc → ℕ
  | .top => 0
  | .collect => 1
  | .collected => 2
  | .snapshotted => 3
  | .planned => 4
  | _ => 5

/-- How far the first plan has got, `es` being what happened since the route was given. -/
inductive Phase (es : List (Event K)) (s : Planner K) : Prop
  | waiting (ht : s.traj = none) (hf : s.future = .invalid) (hs : .asyncStart ∉ es) (hd : ∀ dt, .asyncFinish dt ∉ es) (hr : workerSteps es ≤ phasesDone s.pc)
      (hg : s.pc = .top → s.generateNew = true)
  | launched (ht : s.traj = none) (hf : s.future = .launched) (hs : .asyncStart ∉ es) (hd : ∀ dt, .asyncFinish dt ∉ es)
  | running (ht : s.traj = none) (speed : K) (hf : s.future = .running speed) (hs : .asyncStart ∈ es) (hd : ∀ dt, .asyncFinish dt ∉ es)
  | ready (ht : s.traj = none) (tr : Trajectory K) (hf : s.future = .ready tr) (hs : .asyncStart ∈ es) (hd : ∃ dt, .asyncFinish dt ∈ es)
  | flown (ht : s.traj ≠ none) (hs : .asyncStart ∈ es) (hd : ∃ dt, .asyncFinish dt ∈ es)

theorem Phase.more {es : List (Event K)} {s : Planner K} (h : Phase es s) (e : Event K) (h1 : e ≠ .worker) (h2 : e ≠ .asyncStart)
    (h3 : ∀ dt, e ≠ .asyncFinish dt) : Phase (es ++ [e]) s := by
  have hw : workerSteps (es ++ [e]) = workerSteps es := by
    unfold workerSteps
    cases e <;> simp_all
  have hs : .asyncStart ∉ es → .asyncStart ∉ es ++ [e] := fun h => by simp [h, h2.symm]
  have hd : (∀ dt, .asyncFinish dt ∉ es) → ∀ dt, .asyncFinish dt ∉ es ++ [e] := fun h dt => by simp [h dt, (h3 dt).symm]
  cases h with
  | waiting a b c d f g => exact .waiting a b (hs c) (hd d) (by rw [hw]; exact f) g
  | launched a b c d => exact .launched a b (hs c) (hd d)
  | running a sp b c d => exact .running a sp b (by simp [c]) (hd d)
  | ready a tr b c d => exact .ready a tr b (by simp [c]) (by obtain ⟨dt, d⟩ := d; exact ⟨dt, by simp [d]⟩)
  | flown a c d => exact .flown a (by simp [c]) (by obtain ⟨dt, d⟩ := d; exact ⟨dt, by simp [d]⟩)

theorem phase_other (env : Env K) (es : List (Event K)) (e : Event K) (s s' : Planner K) (he : ¬ IsRequest e) (h1 : e ≠ .worker) (h2 : e ≠ .asyncStart)
    (h3 : ∀ dt, e ≠ .asyncFinish dt) (hi : Phase es s) (h : Micro env e s s') : Phase es s' := by
  have keep : ∀ s' : Planner K, s'.traj = s.traj → s'.future = s.future → s'.pc = s.pc → s'.generateNew = s.generateNew → Phase es s' := by
    intro s' e1 e2 e3 e4
    cases hi with
    | waiting a b c d f g => exact .waiting (e1.trans a) (e2.trans b) c d (by rw [e3]; exact f) (by rw [e3, e4]; exact g)
    | launched a b c d => exact .launched (e1.trans a) (e2.trans b) c d
    | running a sp b c d => exact .running (e1.trans a) sp (e2.trans b) c d
    | ready a tr b c d => exact .ready (e1.trans a) tr (e2.trans b) c d
    | flown a c d => exact .flown (by rw [e1]; exact a) c d
  cases h with
  | setWaypoints _ ws => exact absurd trivial he
  | append _ w => exact absurd trivial he
  | modify _ n p g => exact absurd trivial he
  | modifyMany _ ms => exact absurd trivial he
  | takeOver _ _ new off hcomp hr _ hfit =>
    cases hi with
    | waiting a b c d f g => rw [b] at hr; cases hr
    | launched a b c d => rw [b] at hr; cases hr
    | running a sp b c d => rw [b] at hr; cases hr
    | ready a tr b c d => exact .flown (by simp) c d
    | flown a c d => exact .flown (by simp) c d
  | evalTime _ t o ht => exact keep _ rfl rfl rfl rfl
  | setSpeed _ v => exact keep _ rfl rfl rfl rfl
  | clearRegenerated _ => exact keep _ rfl rfl rfl rfl
  | vehicle _ p => exact keep _ rfl rfl rfl rfl
  | asyncStart _ hf => exact absurd rfl h2
  | asyncFinish _ dt sp tr ws hf hco => exact absurd rfl (h3 dt)
  | asyncFail _ dt sp hf hco => exact absurd rfl (h3 dt)
  | _ => exact absurd rfl h1

theorem phase_worker (env : Env K) (route : List (Waypoint K)) (hne : route ≠ []) (ps : List (V3 K)) (es : List (Event K)) (s s' : Planner K) (hc : Ctl s)
    (hon : OnRoute route ps s) (hi : Phase es s) (h : s.step env .worker = .ok (some s')) : Phase (es ++ [.worker]) s' := by
  have hs : .asyncStart ∉ es → .asyncStart ∉ es ++ [Event.worker] := fun h => by simp [h]
  have hd : (∀ dt, .asyncFinish dt ∉ es) → ∀ dt, .asyncFinish dt ∉ es ++ [Event.worker] := fun h dt => by simp [h dt]
  have hw : workerSteps (es ++ [Event.worker]) = workerSteps es + 1 := by
    unfold workerSteps
    simp
  -- the plan itself is not touched by the worker, except for the launch
  have hother : s'.traj = s.traj ∧ (s'.future = s.future ∨ s.pc = .launching) := by
    rcases step_micro' env _ s s' h with ⟨rfl, _⟩ | hm | ⟨m, ⟨t, o, hx⟩, _⟩
    · exact ⟨rfl, .inl rfl⟩
    · cases hm with
      | takeOver _ _ new off hcomp hr hx hfit => simp at hx
      | apply _ s2 hp ha =>
        obtain ⟨_, d, r, rfl, _⟩ := applyAll_rel (fun _ _ => True) (fun _ => trivial) (fun _ _ _ _ _ => trivial) (fun _ _ _ _ _ => trivial) _ s s2 ha
        exact ⟨rfl, .inl rfl⟩
      | launch _ hp => exact ⟨rfl, .inr hp⟩
      | _ => exact ⟨rfl, .inl rfl⟩
    · cases hx
  obtain ⟨o1, o2⟩ := hother
  have hq : s.future ≠ .invalid → s'.future = s.future := fun hne => o2.resolve_right fun hp => hne (hc.launching hp).2
  cases hi with
  | launched a b c d => exact .launched (o1.trans a) ((hq (by rw [b]; simp)).trans b) (hs c) (hd d)
  | running a sp b c d => exact .running (o1.trans a) sp ((hq (by rw [b]; simp)).trans b) (by simp [c]) (hd d)
  | ready a tr b c d =>
    exact .ready (o1.trans a) tr ((hq (by rw [b]; simp)).trans b) (by simp [c]) (by obtain ⟨dt, d⟩ := d; exact ⟨dt, by simp [d]⟩)
  | flown a c d => exact .flown (by rw [o1]; exact a) (by simp [c]) (by obtain ⟨dt, d⟩ := d; exact ⟨dt, by simp [d]⟩)
  | waiting a b c d f g =>
    have htop : s.pc = .top → s.computing = false := by
      intro hp
      by_contra hcomp
      exact hc.busy (by simpa using hcomp) (by rw [hp]; simp) b
    rcases step_micro' env _ s s' h with ⟨rfl, hno⟩ | hm | ⟨m, ⟨t, o, hx⟩, _⟩
    · exfalso
      obtain ⟨hp, hgen, _⟩ := hno rfl
      unfold Planner.checkIfTrajectoryCanBeGenerated Planner.checkInSecurityZone at hgen
      rw [a, g hp, htop hp] at hgen
      cases hgen
    · cases hm with
      | takeOver _ _ new off hcomp hr hx hfit => simp at hx
      | goCollect _ hp hg hz hcomp => exact .waiting a b (hs c) (hd d) (by rw [hp] at f; rw [hw]; exact Nat.succ_le_succ f) (fun hp => by cases hp)
      | goApply _ hp hm hcomp hno =>
        exact absurd hon.toModify hm
      | collect _ ws hp hw2 => exact .waiting a b (hs c) (hd d) (by rw [hp] at f; rw [hw]; exact Nat.succ_le_succ f) (fun hp => by cases hp)
      | nothingToPlan _ hp hn =>
        exfalso
        cases hon.stage with
        | queued _ _ _ k => rcases k with k | k <;> rw [hp] at k <;> cases k
        | collected _ _ _ _ k => rw [hn] at k; exact hne (by simpa using k.symm)
        | planned _ _ k _ =>
          rcases k with k | k
          · rw [hp] at k; cases k
          · have := hc.quiet (by rw [hp]; simp) (by rw [hp]; simp) (by rw [hp]; simp)
            rw [k] at this
            cases this
        | flown k _ _ _ _ _ => exact k a
      | snapshot _ hp hn => exact .waiting a b (hs c) (hd d) (by rw [hp] at f; rw [hw]; exact Nat.succ_le_succ f) (fun hp => by cases hp)
      | stitch _ ws hp hst hw2 => exact .waiting a b (hs c) (hd d) (by rw [hp] at f; rw [hw]; exact Nat.succ_le_succ f) (fun hp => by cases hp)
      | scratch _ ws hp hst hw2 => exact .waiting a b (hs c) (hd d) (by rw [hp] at f; rw [hw]; exact Nat.succ_le_succ f) (fun hp => by cases hp)
      | planned _ hp => exact .waiting a b (hs c) (hd d) (by rw [hp] at f; rw [hw]; exact Nat.succ_le_succ f) (fun hp => by cases hp)
      | launch _ hp => exact .launched a rfl (hs c) (hd d)
      | launched _ hp =>
        exfalso
        cases hon.stage with
        | queued _ _ _ k => rcases k with k | k <;> rw [hp] at k <;> cases k
        | collected _ _ _ k _ => rcases k with k | k <;> rw [hp] at k <;> cases k
        | planned _ _ k _ =>
          rcases k with k | k
          · rw [hp] at k; cases k
          · exact hc.busy k (by rw [hp]; simp) b
        | flown k _ _ _ _ _ => exact k a
      | apply _ s2 hp ha =>
        exfalso
        cases hon.stage with
        | queued _ _ _ k => rcases k with k | k <;> rw [hp] at k <;> cases k
        | collected _ _ _ k _ => rcases k with k | k <;> rw [hp] at k <;> cases k
        | planned _ _ k _ =>
          rcases k with k | k
          · rw [hp] at k; cases k
          · exact hc.busy k (by rw [hp]; simp) b
        | flown k _ _ _ _ _ => exact k a
    · cases hx

theorem unasked_run (env : Env K) (vehicle : V3 K) (all es : List (Event K)) (ha : ∀ e ∈ es, e ∈ all) (hr : ∀ e ∈ es, ¬ IsRequest e) (s : Planner K)
    (h : Run env (Planner.init vehicle) es s) : Ctl s ∧ Unasked (vehicle :: positionsReported all) s := by
  have hv : ∀ e ∈ all, ∀ p, e = .updateVehiclePosition p → p ∈ vehicle :: positionsReported all := by
    rintro e he p rfl
    exact List.mem_cons_of_mem _ (List.mem_filterMap.mpr ⟨_, he, rfl⟩)
  refine run_induction env (Planner.init vehicle) (fun es s => (∀ e ∈ es, e ∈ all ∧ ¬ IsRequest e) → Ctl s ∧ Unasked (vehicle :: positionsReported all) s)
    (fun _ => ⟨ctl_init vehicle, ⟨List.mem_cons_self .., rfl, ⟨rfl, rfl, rfl⟩, rfl, rfl, rfl⟩⟩) ?_ es s h (fun e he => ⟨ha e he, hr e he⟩)
  intro es e s s' ih hs hes
  obtain ⟨c, u⟩ := ih (fun e he => hes e (List.mem_append_left _ he))
  obtain ⟨hmem, hreq⟩ := hes e (by simp)
  refine ⟨ctl_step env e s s' c hs, ?_⟩
  rcases step_micro env e s s' hs with rfl | h | ⟨m, h1, h2⟩
  · exact u
  · exact unasked_micro env _ e s s' hreq (hv e hmem) u h
  · exact unasked_micro env _ e m s' hreq (hv e hmem) (unasked_micro env _ e s m hreq (hv e hmem) u h1) h2

end

/-- Consecutive waypoints of the route, except for the last two, are at least the distance apart that takes `2⁻⁵²` seconds at this speed. (The first segment
starts and the last one ends at rest, which takes time anyway.) -/
def Spaced (route : List (Waypoint ℝ)) (speed : ℝ) : Prop :=
  ∀ (i : ℕ) (u w : Waypoint ℝ), route[i]? = some u → route[i + 1]? = some w → i + 2 < route.length →
    speed / 2 ^ 52 ≤ Real.sqrt ((u.current.x - w.current.x) ^ 2 + (u.current.y - w.current.y) ^ 2 + (u.current.z - w.current.z) ^ 2)

/-- The estimated times for the vertices of a plan that starts the route. -/
theorem route_estimates (b : OptBackend) (hA : 0 < b.aMax) (route : List (Waypoint ℝ)) (ps : List (V3 ℝ)) (ws : List (Waypoint ℝ)) (hst : StartsRoute route ps ws)
    (hb : ∀ w ∈ ws, Bookkept w) (vs : List (Vertex ℝ)) (hvs : extractVertices ws = .ok vs) (speed : ℝ) (hs : b.aMax / 2 ^ 52 ≤ speed) (hsp : Spaced route speed) :
    EachEstimate b vs speed (1 / 2 ^ 52 ≤ ·) := by
  have h52 : (0 : ℝ) < 2 ^ 52 := by positivity
  have hpos : 0 < speed := lt_of_lt_of_le (div_pos hA h52) hs
  have hacc : 1 / 2 ^ 52 ≤ speed / b.aMax := by
    rw [div_le_div_iff₀ h52 hA]
    rw [div_le_iff₀ h52] at hs
    linarith
  intro i v w p q hv hw hp hq
  have hdist : 0 ≤ distance p q / speed := div_nonneg (Real.sqrt_nonneg _) hpos.le
  have hrest : ∀ x : Vertex ℝ, x.getConstraint 1 = some [0, 0, 0] → AtRest x := fun x hx => ⟨_, hx, by norm_num⟩
  by_cases hr : AtRest v ∨ AtRest w
  · show 1 / 2 ^ 52 ≤ estimate v w p q speed b.aMax
    unfold estimate
    rw [if_pos hr]
    linarith
  · push Not at hr
    obtain ⟨w0, rest, rfl, _, _, h1, _, hsame, _⟩ := hst
    have hlen := (extractVertices_form _ vs hvs).1
    have hi1 : i + 1 < vs.length := (List.getElem?_eq_some_iff.mp hw).1
    obtain ⟨v', hv', hcv, _⟩ := extractVertices_position _ vs hvs hb i _ (List.getElem?_eq_getElem (show i < (w0 :: rest).length by omega))
    obtain ⟨w', hw', hcw, hlw⟩ := extractVertices_position _ vs hvs hb (i + 1) _ (List.getElem?_eq_getElem (show i + 1 < (w0 :: rest).length by omega))
    rw [hv] at hv'
    rw [hw] at hw'
    obtain rfl := Option.some.inj hv'
    obtain rfl := Option.some.inj hw'
    have hnl : i + 1 + 1 ≠ (w0 :: rest).length := fun hl => hr.2 (hrest _ (hlw hl).1)
    cases i with
    | zero =>
      exfalso
      exact hr.1 (hrest _ ((hcv 1 (.inl (by omega))).trans h1))
    | succ i =>
      have hrl := hsame.length_eq
      simp only [List.length_cons] at hnl hlen
      obtain ⟨u1, hu1, su1⟩ := forall2_get' hsame i _ (List.getElem?_eq_getElem (show i < rest.length by omega))
      obtain ⟨u2, hu2, su2⟩ := forall2_get' hsame (i + 1) _ (List.getElem?_eq_getElem (show i + 1 < rest.length by omega))
      have hd := hsp i u1 u2 hu1 hu2 (by omega)
      have k1 := hcv 0 (.inr ⟨by decide, by decide⟩)
      have k2 := hcw 0 (.inr ⟨by decide, by decide⟩)
      simp only [List.getElem_cons_succ] at k1 k2
      rw [(hb rest[i] (by simp)).2.2.1, hp, su1.2.1] at k1
      rw [(hb rest[i + 1] (by simp)).2.2.1, hq, su2.2.1] at k2
      obtain rfl := Option.some.inj k1
      obtain rfl := Option.some.inj k2
      show 1 / 2 ^ 52 ≤ estimate v w _ _ speed b.aMax
      unfold estimate
      rw [if_neg (by push Not; exact hr)]
      have hdd : distance [u1.current.x, u1.current.y, u1.current.z] [u2.current.x, u2.current.y, u2.current.z] =
          Real.sqrt ((u1.current.x - u2.current.x) ^ 2 + (u1.current.y - u2.current.y) ^ 2 + (u1.current.z - u2.current.z) ^ 2) := by
        simp [distance, add_assoc]
      rw [hdd, add_zero, div_le_div_iff₀ h52 hpos]
      rw [div_le_iff₀ h52] at hd
      linarith

section
variable (b : OptBackend) (hA : 0 < b.aMax) (lineal : Bool) (hN : lineal = false → NloptKeepsBounds b) (vehicle : V3 ℝ) (before : List (Event ℝ))
  (route : List (Waypoint ℝ)) (hne : route ≠ []) (hw : ∀ w ∈ route, Bookkept w ∧ w.modifiers = []) (hset : speedsSet before ≠ [])
include hA hN hne hw hset

theorem route_computes (after : List (Event ℝ)) (hr : ∀ e ∈ before ++ after, ¬ IsRequest e ∧ ValidEvent e)
    (hpos : ∀ v ∈ speedsSet (before ++ after), b.aMax / 2 ^ 52 ≤ v ∧ Spaced route v) (s : Planner ℝ)
    (h : Run (b.env lineal) (Planner.init vehicle) (before ++ .setWaypoints route :: after) s) (speed : ℝ) (hf : s.future = .running speed)
    (hmem : speed ∈ speedsSet (before ++ after)) (dt : ℝ) :
    ∃ s' tr, s.step (b.env lineal) (.asyncFinish dt) = .ok (some s') ∧ s'.future = .ready tr := by
  have hre : Reachable (b.env lineal) s := by
    refine ⟨vehicle, _, ?_, h⟩
    intro e he
    rcases List.mem_append.mp he with he | he
    · exact (hr e (List.mem_append_left _ he)).2
    · rcases List.mem_cons.mp he with rfl | he
      · exact fun w hx => (hw w hx).1
      · exact (hr e (List.mem_append_right _ he)).2
  have hon := onRoute_run _ vehicle before after route hne (fun w hx => (hw w hx).2) (fun e he => (hr e he).1) s h
  have hc := reachable_ctl _ s hre
  have hidle : s.computing ≠ false := fun hh => by rw [hc.idle hh] at hf; cases hf
  have hst : StartsRoute route (vehicle :: positionsReported (before ++ after)) s.next := by
    cases hon.stage with
    | queued _ _ k _ => exact absurd k hidle
    | collected _ _ k _ _ => exact absurd k hidle
    | planned _ _ _ k => exact k
    | flown _ _ k _ _ _ => exact absurd k hidle
  obtain ⟨vs, hvs, _⟩ := running_vertices _ s hre speed hf
  obtain ⟨h1, h2⟩ := hpos speed hmem
  have h52 : (0 : ℝ) < 2 ^ 52 := by positivity
  exact C128_computes b hA lineal hN s hre speed hf (lt_of_lt_of_le (div_pos hA h52) h1) vs hvs
    (route_estimates b hA route _ s.next hst (reachable_wp _ s hre).next vs hvs speed h1 h2) dt

theorem phase_run (after : List (Event ℝ)) (hr : ∀ e ∈ before ++ after, ¬ IsRequest e ∧ ValidEvent e)
    (hpos : ∀ v ∈ speedsSet (before ++ after), b.aMax / 2 ^ 52 ≤ v ∧ Spaced route v) (s : Planner ℝ)
    (h : Run (b.env lineal) (Planner.init vehicle) (before ++ .setWaypoints route :: after) s) :
    Phase after s ∧ ∀ speed, s.future = .running speed → speed ∈ speedsSet (before ++ after) := by
  induction after using List.reverseRecOn generalizing s with
  | nil =>
    obtain ⟨m, h1, h2⟩ := run_snoc_inv _ _ before (.setWaypoints route) s h
    obtain ⟨c, u⟩ := unasked_run _ vehicle before before (fun _ h => h) (fun e he => (hr e (List.mem_append_left _ he)).1) m h1
    have hf : s.future = .invalid := by
      rw [← Option.some.inj (Except.ok.inj h2)]
      exact c.idle u.flags.1
    refine ⟨.waiting ?_ hf (by simp) (by simp) (by simp [workerSteps]) ?_, fun sp hh => by rw [hf] at hh; cases hh⟩
    · rw [← Option.some.inj (Except.ok.inj h2)]
      exact u.traj
    · rw [← Option.some.inj (Except.ok.inj h2)]
      exact fun _ => rfl
  | append_singleton after e ih =>
    obtain ⟨m, h1, h2⟩ := run_snoc_inv _ _ (before ++ .setWaypoints route :: after) e s (by simpa using h)
    have hr' : ∀ e ∈ before ++ after, ¬ IsRequest e ∧ ValidEvent e := fun x hx => hr x (by
      rcases List.mem_append.mp hx with hx | hx <;> simp [hx])
    have hmono : ∀ v ∈ speedsSet (before ++ after), v ∈ speedsSet (before ++ (after ++ [e])) := by
      intro v hv
      rw [← List.append_assoc]
      unfold speedsSet at *
      rw [List.filterMap_append]
      exact List.mem_append_left _ hv
    have hpos' : ∀ v ∈ speedsSet (before ++ after), b.aMax / 2 ^ 52 ≤ v ∧ Spaced route v := fun v hv => hpos v (hmono v hv)
    obtain ⟨hph, hsp⟩ := ih hr' hpos' m h1
    have hreq := (hr e (by simp)).1
    have hc : Ctl m := run_induction _ (Planner.init vehicle) (fun _ s => Ctl s) (ctl_init vehicle) (fun _ e s s' ih hs => ctl_step _ e s s' ih hs) _ m h1
    have hon := onRoute_run _ vehicle before after route hne (fun w hx => (hw w hx).2) (fun e he => (hr' e he).1) m h1
    by_cases hst : e = .asyncStart
    · subst hst
      have hs' : m.asyncStart = some s := Except.ok.inj h2
      unfold Planner.asyncStart at hs'
      split at hs'
      · rename_i hf
        have hd : (∀ dt, .asyncFinish dt ∉ after) → ∀ dt, .asyncFinish dt ∉ after ++ [Event.asyncStart] := fun h dt => by simp [h dt]
        rw [← Option.some.inj hs']
        constructor
        · cases hph with
          | waiting _ k => rw [k] at hf; cases hf
          | launched k1 k2 k3 k4 => exact .running k1 m.params.speed rfl (by simp) (hd k4)
          | running _ _ k => rw [k] at hf; cases hf
          | ready _ _ k => rw [k] at hf; cases hf
          | flown k1 k2 k3 => exact .flown k1 (by simp) (by obtain ⟨dt, d⟩ := k3; exact ⟨dt, by simp [d]⟩)
        · intro sp hh
          cases hh
          apply hmono
          have hlast : m.params.speed = _ := C41_speed _ vehicle _ m h1
          rw [hlast]
          have e1 : speedsSet (before ++ .setWaypoints route :: after) = speedsSet (before ++ after) := by
            unfold speedsSet
            simp
          rw [e1]
          cases hl : (speedsSet (before ++ after)).getLast? with
          | none =>
            rw [List.getLast?_eq_none_iff] at hl
            unfold speedsSet at hl hset
            rw [List.filterMap_append] at hl
            exact absurd (List.append_eq_nil_iff.mp hl).1 hset
          | some v => exact List.mem_of_getLast? hl
      · cases hs'
    · by_cases hfin : ∃ dt, e = .asyncFinish dt
      · obtain ⟨dt, rfl⟩ := hfin
        have hs' : m.asyncFinish (b.env lineal) dt = .ok (some s) := h2
        cases hf : m.future with
        | running sp =>
          obtain ⟨s2, tr, k1, k2⟩ := route_computes b hA lineal hN vehicle before route hne hw hset after hr' hpos' m h1 sp hf (hsp sp hf) dt
          rw [h2] at k1
          rw [← Option.some.inj (Except.ok.inj k1)] at k2
          have htr : s.traj = m.traj := by
            unfold Planner.asyncFinish at hs'
            rw [hf] at hs'
            simp only at hs'
            split at hs'
            · rw [← Option.some.inj (Except.ok.inj hs')]
            · rw [← Option.some.inj (Except.ok.inj hs')]
            · cases hs'
          refine ⟨?_, fun sp hh => by rw [k2] at hh; cases hh⟩
          cases hph with
          | waiting _ k => rw [k] at hf; cases hf
          | launched _ k => rw [k] at hf; cases hf
          | running k1 sp' _ k3 k4 => exact .ready (htr.trans k1) tr k2 (by simp [k3]) ⟨dt, by simp⟩
          | ready _ _ k => rw [k] at hf; cases hf
          | flown k1 k3 k4 => exact .flown (by rw [htr]; exact k1) (by simp [k3]) ⟨dt, by simp⟩
        | _ =>
          unfold Planner.asyncFinish at hs'
          rw [hf] at hs'
          cases hs'
      · push Not at hfin
        by_cases hwk : e = .worker
        · subst hwk
          refine ⟨phase_worker _ route hne _ after m s hc hon hph h2, ?_⟩
          intro sp hh
          apply hmono
          apply hsp
          rcases step_micro' _ _ m s h2 with ⟨rfl, _⟩ | hm | ⟨_, ⟨t, o, hx⟩, _⟩
          · exact hh
          · cases hm with
            | takeOver _ _ new off hcomp hr hx hfit => simp at hx
            | apply _ s2 hp ha =>
              obtain ⟨_, d, r, rfl, _⟩ := applyAll_rel (fun _ _ => True) (fun _ => trivial) (fun _ _ _ _ _ => trivial) (fun _ _ _ _ _ => trivial) _ m s2 ha
              exact hh
            | launch _ hp => cases hh
            | _ => exact hh
          · cases hx
        · have hph' := hph.more e hwk hst hfin
          have key : ∀ x y : Planner ℝ, Micro (b.env lineal) e x y → (∀ sp, x.future = .running sp → sp ∈ speedsSet (before ++ after)) →
              ∀ sp, y.future = .running sp → sp ∈ speedsSet (before ++ after) := by
            intro x y hm hx sp hh
            cases hm with
            | takeOver _ _ new off hcomp hr hx hfit => cases hh
            | asyncStart => exact absurd rfl hst
            | asyncFinish _ dt => exact absurd rfl (hfin dt)
            | asyncFail _ dt => exact absurd rfl (hfin dt)
            | _ => first | exact hx sp hh | exact absurd rfl hwk
          rcases step_micro _ e m s h2 with rfl | hm | ⟨n, n1, n2⟩
          · exact ⟨hph', fun sp hh => hmono _ (hsp sp hh)⟩
          · exact ⟨phase_other _ _ e m s hreq hwk hst hfin hph' hm, fun sp hh => hmono _ (key m s hm hsp sp hh)⟩
          · exact ⟨phase_other _ _ e n s hreq hwk hst hfin (phase_other _ _ e m n hreq hwk hst hfin hph' n1) n2,
              fun sp hh => hmono _ (key n s n2 (key m n n1 hsp) sp hh)⟩

/-- C128: a planner without a plan is given a route of waypoints in space; a speed was set before. Nothing else is requested before or after, but
vehicle positions are reported, further speeds set, references asked for, and worker and computation proceed, in any order. All speeds are positive (at
least the speed reached in `2⁻⁵²` seconds) and the waypoints are not closer than it takes `2⁻⁵²` seconds to fly. Then nothing fails: no call, no step of the
worker or of the computation. After six phases of the worker the computation can begin, unless it has; once it has begun it can end, unless it has; and
once it has ended every call returns. -/
theorem C128_served (after : List (Event ℝ)) (hr : ∀ e ∈ before ++ after, ¬ IsRequest e ∧ ValidEvent e)
    (hpos : ∀ v ∈ speedsSet (before ++ after), b.aMax / 2 ^ 52 ≤ v ∧ Spaced route v) (s : Planner ℝ)
    (h : Run (b.env lineal) (Planner.init vehicle) (before ++ .setWaypoints route :: after) s) :
    (∀ e x, s.step (b.env lineal) e ≠ .error x) ∧
    (6 ≤ workerSteps after → .asyncStart ∉ after → ∃ s', s.step (b.env lineal) .asyncStart = .ok (some s')) ∧
    (.asyncStart ∈ after → (∀ dt, .asyncFinish dt ∉ after) → ∀ dt, ∃ s', s.step (b.env lineal) (.asyncFinish dt) = .ok (some s')) ∧
    ((∃ dt, .asyncFinish dt ∈ after) → (∀ t o f, ∃ r, s.evaluateTrajectory (b.env lineal) t o f = .ok (some r)) ∧
      (∃ r, s.getMaxTime (b.env lineal) = .ok (some r)) ∧ (∃ r, s.getMinTime (b.env lineal) = .ok (some r)) ∧
      ∃ r, s.getDynamicWaypoints (b.env lineal) = .ok (some r)) := by
  obtain ⟨hph, hsp⟩ := phase_run b hA lineal hN vehicle before route hne hw hset after hr hpos s h
  have hcomp := route_computes b hA lineal hN vehicle before route hne hw hset after hr hpos s h
  have henv := C85_segmentwise b lineal
  have hre : Reachable (b.env lineal) s := by
    refine ⟨vehicle, _, ?_, h⟩
    intro e he
    rcases List.mem_append.mp he with he | he
    · exact (hr e (List.mem_append_left _ he)).2
    · rcases List.mem_cons.mp he with rfl | he
      · exact fun w hx => (hw w hx).1
      · exact (hr e (List.mem_append_right _ he)).2
  have hon := onRoute_run _ vehicle before after route hne (fun w hx => (hw w hx).2) (fun e he => (hr e he).1) s h
  have hc := reachable_ctl _ s hre
  have hdyn : NoZeroWidth s.dyn := by
    cases hon.stage with
    | flown _ _ _ _ _ k =>
      obtain ⟨_, _, _, _, _, _, _, _, k⟩ := k
      intro w hx m hm
      rw [k w hx] at hm
      cases hm
    | queued k => rw [(reachable_plan _ henv s hre).none k]; intro w hx; cases hx
    | collected k => rw [(reachable_plan _ henv s hre).none k]; intro w hx; cases hx
    | planned k => rw [(reachable_plan _ henv s hre).none k]; intro w hx; cases hx
  have hnext : PlanWaiting s → NoZeroWidth s.next := by
    intro hwt
    have hidle : s.computing ≠ false := fun hh => by
      rcases hwt with hx | ⟨tr, hx⟩ <;> rw [hc.idle hh] at hx <;> cases hx
    cases hon.stage with
    | queued _ _ k _ => exact absurd k hidle
    | collected _ _ k _ _ => exact absurd k hidle
    | planned _ _ _ k =>
      obtain ⟨_, _, _, _, _, _, _, _, k⟩ := k
      intro w hx m hm
      rw [k w hx] at hm
      cases hm
    | flown _ _ k _ _ _ => exact absurd k hidle
  have hnf : s.future ≠ .failed := by
    intro hx
    cases hph with
    | waiting _ k => rw [k] at hx; cases hx
    | launched _ k => rw [k] at hx; cases hx
    | running _ _ k => rw [k] at hx; cases hx
    | ready _ _ k => rw [k] at hx; cases hx
    | flown k _ _ =>
      cases hon.stage with
      | flown _ _ k' _ _ _ => rw [hc.idle k'] at hx; cases hx
      | queued k' => exact k k'
      | collected k' => exact k k'
      | planned k' => exact k k'
  have hok : ∀ e x, s.step (b.env lineal) e ≠ .error x := by
    intro e x hx
    obtain ⟨dt, sp, vs, rfl, hf, _, _⟩ := C128_defined _ henv s hre hdyn hnext hnf e x hx
    obtain ⟨s', tr, k, _⟩ := hcomp sp hf (hsp sp hf) dt
    rw [k] at hx
    cases hx
  refine ⟨hok, ?_, ?_, ?_⟩
  · intro h6 hno
    cases hph with
    | waiting _ _ _ _ k _ =>
      have : phasesDone s.pc ≤ 5 := by cases s.pc <;> decide
      omega
    | launched _ k _ _ =>
      refine ⟨{ s with future := .running s.params.speed }, ?_⟩
      show Except.ok s.asyncStart = _
      unfold Planner.asyncStart
      rw [k]
    | running _ _ _ k _ => exact absurd k hno
    | ready _ _ _ k _ => exact absurd k hno
    | flown _ k _ => exact absurd k hno
  · intro hs hno dt
    cases hph with
    | waiting _ _ k _ _ _ => exact absurd hs k
    | launched _ _ k _ => exact absurd hs k
    | running _ sp k _ _ =>
      obtain ⟨s', _, k, _⟩ := hcomp sp k (hsp sp k) dt
      exact ⟨s', k⟩
    | ready _ _ _ _ k => obtain ⟨dt, k⟩ := k; exact absurd k (hno dt)
    | flown _ _ k => obtain ⟨dt, k⟩ := k; exact absurd k (hno dt)
  · rintro ⟨dt, hd⟩
    have hwt : s.traj ≠ none ∨ PlanWaiting s := by
      cases hph with
      | waiting _ _ _ k _ _ => exact absurd hd (k dt)
      | launched _ _ _ k => exact absurd hd (k dt)
      | running _ _ _ _ k => exact absurd hd (k dt)
      | ready _ tr k _ _ => exact .inr (.inr ⟨tr, k⟩)
      | flown k _ _ => exact .inl k
    have hblock := fun t o f => C61_does_not_block (b.env lineal) s hwt t o f
    refine ⟨fun t o f => ?_, ?_, ?_, ?_⟩
    · cases hx : s.evaluateTrajectory (b.env lineal) t o f with
      | error x => exact absurd (by show Except.bind _ _ = _; rw [hx]; rfl) (hok (.evaluate t o f) x)
      | ok r =>
        cases r with
        | none => exact absurd hx (hblock t o f).1
        | some r => exact ⟨r, rfl⟩
    · cases hx : s.getMaxTime (b.env lineal) with
      | error x => exact absurd (by show Except.bind _ _ = _; rw [hx]; rfl) (hok .getMaxTime x)
      | ok r =>
        cases r with
        | none => exact absurd hx (hblock 0 true true).2.1
        | some r => exact ⟨r, rfl⟩
    · cases hx : s.getMinTime (b.env lineal) with
      | error x => exact absurd (by show Except.bind _ _ = _; rw [hx]; rfl) (hok .getMinTime x)
      | ok r =>
        cases r with
        | none => exact absurd hx (hblock 0 true true).2.2.1
        | some r => exact ⟨r, rfl⟩
    · cases hx : s.getDynamicWaypoints (b.env lineal) with
      | error x => exact absurd (by show Except.bind _ _ = _; rw [hx]; rfl) (hok .getDynamicWaypoints x)
      | ok r =>
        cases r with
        | none => exact absurd hx (hblock 0 true true).2.2.2
        | some r => exact ⟨r, rfl⟩

end

/-- NLopt throws at once. -/
noncomputable def idleBackend : OptBackend := ⟨exactSolver, fun _ => [], fun _ _ => ⟨false, [], none, false⟩, 1⟩

theorem idle_keepsBounds : NloptKeepsBounds idleBackend :=
  fun _ _ _ _ _ _ _ _ => .inr ⟨fun _ hr => (by cases hr), fun _ => ⟨rfl, rfl, rfl⟩⟩

/-- The hypotheses are met, for the linear and for the nonlinear optimisation: the speed is set, two waypoints are given, and the worker runs through its six
phases. The computation can begin and end, and then every call returns: in particular there is a history that leads to a plan. -/
example (lineal : Bool) : ∃ (after : List (Event ℝ)) (s : Planner ℝ),
    Run (idleBackend.env lineal) (Planner.init ⟨0, 0, 0⟩) ([.setSpeed 1] ++ .setWaypoints [realWp "a" 1 2 3, realWp "b" 4 5 6] :: after) s ∧ s.traj ≠ none := by
  have hw : ∀ w ∈ [realWp "a" 1 2 3, realWp "b" 4 5 6], Bookkept w ∧ w.modifiers = [] := by
    intro w hw
    rcases List.mem_cons.mp hw with rfl | hw
    · exact ⟨realWp_bookkept .., rfl⟩
    · rw [List.mem_singleton.mp hw]
      exact ⟨realWp_bookkept .., rfl⟩
  have hspaced : ∀ v, Spaced [realWp "a" 1 2 3, realWp "b" 4 5 6] v := by
    intro v i u w _ _ h
    simp at h
  have served := fun after hr hpos s h => C128_served idleBackend one_pos lineal (fun _ => idle_keepsBounds) ⟨0, 0, 0⟩ [.setSpeed 1]
    [realWp "a" 1 2 3, realWp "b" 4 5 6] (by simp) hw (by simp [speedsSet]) after hr hpos s h
  have hone : ((2 : ℝ) ^ 52)⁻¹ ≤ 1 := by norm_num
  let w6 : List (Event ℝ) := [.worker, .worker, .worker, .worker, .worker, .worker]
  obtain ⟨s6, h6⟩ : ∃ s, Run (idleBackend.env lineal) (Planner.init ⟨0, 0, 0⟩)
      ([.setSpeed 1] ++ .setWaypoints [realWp "a" 1 2 3, realWp "b" 4 5 6] :: w6) s :=
    ⟨_, .snoc (es := [.setSpeed 1, .setWaypoints _, .worker, .worker, .worker, .worker, .worker]) _
      (.snoc (es := [.setSpeed 1, .setWaypoints _, .worker, .worker, .worker, .worker]) _
      (.snoc (es := [.setSpeed 1, .setWaypoints _, .worker, .worker, .worker]) _ (.snoc (es := [.setSpeed 1, .setWaypoints _, .worker, .worker]) _
      (.snoc (es := [.setSpeed 1, .setWaypoints _, .worker]) _ (.snoc (es := [.setSpeed 1, .setWaypoints _]) _ (.snoc (es := [.setSpeed 1]) _ (.snoc (es := []) _ .nil rfl)
      rfl) rfl) rfl) rfl) rfl) rfl) rfl⟩
  obtain ⟨s7, h7⟩ := (served w6 (by simp [w6, IsRequest, ValidEvent]) (by simp [w6, speedsSet, hspaced, idleBackend, hone]) s6 h6).2.1 (by simp [w6, workerSteps]) (by simp [w6])
  have r7 : Run (idleBackend.env lineal) (Planner.init ⟨0, 0, 0⟩) ([.setSpeed 1] ++ .setWaypoints [realWp "a" 1 2 3, realWp "b" 4 5 6] :: (w6 ++ [.asyncStart])) s7 :=
    .snoc _ h6 h7
  obtain ⟨s8, h8⟩ := (served (w6 ++ [.asyncStart]) (by simp [w6, IsRequest, ValidEvent]) (by simp [w6, speedsSet, hspaced, idleBackend, hone]) s7 r7).2.2.1 (by simp)
    (by simp [w6]) 1
  have r8 : Run (idleBackend.env lineal) (Planner.init ⟨0, 0, 0⟩)
      ([.setSpeed 1] ++ .setWaypoints [realWp "a" 1 2 3, realWp "b" 4 5 6] :: (w6 ++ [.asyncStart] ++ [.asyncFinish 1])) s8 := .snoc _ r7 h8
  obtain ⟨⟨ws, s9⟩, h9⟩ := ((served (w6 ++ [.asyncStart] ++ [.asyncFinish 1]) (by simp [w6, IsRequest, ValidEvent]) (by simp [w6, speedsSet, hspaced, idleBackend, hone])
    s8 r8).2.2.2 ⟨1, by simp⟩).2.2.2
  have hstep : s8.step (idleBackend.env lineal) .getDynamicWaypoints = .ok (some s9) := by
    show Except.bind _ _ = _
    rw [h9]
    rfl
  refine ⟨w6 ++ [.asyncStart] ++ [.asyncFinish 1] ++ [.getDynamicWaypoints], s9, ?_, ?_⟩
  · have := Run.snoc _ r8 hstep
    simpa using this
  obtain ⟨hchk, _⟩ := getDynamicWaypoints_inv _ s8 s9 ws h9
  refine check_some_traj _ s8 s9 hchk ?_
  exact run_induction _ (Planner.init ⟨0, 0, 0⟩) (fun _ s => Ctl s) (ctl_init _) (fun _ e s s' ih hs => ctl_step _ e s s' ih hs) _ s8 r8

end Verif.Properties
