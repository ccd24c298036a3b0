import Verif.Spec.CsvDriver
import Verif.Properties.PlannerRoute
import Verif.Properties.PlannerHandover
import Verif.Properties.PlannerStitch

/-!
# The table of `tests/trajectory_test.cpp`: what the proofs about it use
-/

set_option linter.unusedSectionVars false

namespace Verif.Lemmas
open Verif Verif.Spec Verif.Csv Verif.Properties

section
variable {K : Type*} [Field K] [LinearOrder K] [IsStrictOrderedRing K] [FloorRing K]

/-! ## The waypoints of the program -/

/-- The waypoint made of a named position. -/
def MadeFrom (n : String × V3 K) (w : Waypoint K) : Prop := w.name = n.1 ∧ w.current = n.2 ∧ w.modifiers = [] ∧ Bookkept w

theorem toWaypoint_spec (junk : V3 K × V3 K) (n : String × V3 K) : ∃ w, toWaypoint junk n = .ok w ∧ MadeFrom n w := by
  obtain ⟨v, hv, _, _, _⟩ := addConstraint_ok (Vertex.mk' 3 : Vertex K) 0 n.2.toList (wellFormed_mk' 3) rfl
  have hr : (Waypoint.default junk.1 junk.2).reset n.2 =
      .ok { Waypoint.default junk.1 junk.2 with current := n.2, original := n.2, vertex := v, modifiers := [] } := by
    unfold Waypoint.reset Waypoint.resetWithCurrent Waypoint.default
    simp only [hv, bind, Except.bind, pure, Except.pure]
  have hb := reset_bookkept _ _ n.2 rfl (wellFormed_mk' 3) hr
  exact ⟨(({ Waypoint.default junk.1 junk.2 with current := n.2, original := n.2, vertex := v, modifiers := [] } : Waypoint K).setName n.1).copy,
    by unfold toWaypoint; rw [hr]; rfl, rfl, rfl, rfl, hb⟩

theorem toWaypoints_spec (junk : V3 K × V3 K) (ns : List (String × V3 K)) :
    ∃ ws, toWaypoints junk ns = .ok ws ∧ List.Forall₂ MadeFrom ns ws := by
  unfold toWaypoints
  induction ns with
  | nil => exact ⟨[], rfl, .nil⟩
  | cons n ns ih =>
    obtain ⟨w, h1, h2⟩ := toWaypoint_spec junk n
    obtain ⟨ws, h3, h4⟩ := ih
    exact ⟨w :: ws, by rw [List.mapM_cons, h1, h3]; rfl, .cons h2 h4⟩

/-! ## Until there is a plan -/

/-- Nothing has been evaluated yet and there is no plan. -/
structure Waits (C : K) (s : Planner K) : Prop where
  traj : s.traj = none
  clock : s.params.lastGlobal = 0
  snap : s.pc = .snapshotted ∨ s.pc = .planned ∨ s.computing = true → s.newParams.gtlg = 0
  took : ∀ tr, s.future = .ready tr → s.timeConstant ≤ C

/-- The events before the plan is asked for. -/
def Calm (C : K) (e : Event K) : Prop :=
  Background C e ∨ (∃ p, e = .updateVehiclePosition p) ∨ (∃ v, e = .setSpeed v) ∨ ∃ ws, e = .setWaypoints ws

theorem waits_micro (env : Env K) (C : K) (e : Event K) (s s' : Planner K) (he : Calm C e) (hc : Ctl s) (hi : Waits C s)
    (h : Micro env e s s') : Waits C s' := by
  obtain ⟨i1, i2, i3, i4⟩ := hi
  have eb : ∀ {e : Event K}, Calm C e → ¬ ((∃ t o f, e = .evaluate t o f) ∨ e = .getMaxTime ∨ e = .getMinTime ∨ e = .getDynamicWaypoints) := by
    rintro e (h | ⟨p, rfl⟩ | ⟨v, rfl⟩ | ⟨ws, rfl⟩)
    · cases h <;> rintro (⟨_, _, _, h⟩ | h | h | h) <;> cases h
    all_goals rintro (⟨_, _, _, h⟩ | h | h | h) <;> cases h
  cases h with
  | takeOver _ _ new off hcomp hr hx hfit => exact absurd hx (eb he)
  | evalTime _ t o ht => exact absurd i1 ht
  | goCollect _ hp hg hz hcomp =>
    refine ⟨i1, i2, ?_, i4⟩
    rintro (h | h | h)
    · cases h
    · cases h
    · exact i3 (.inr (.inr h))
  | goApply _ hp hm hcomp hno =>
    refine ⟨i1, i2, ?_, i4⟩
    rintro (h | h | h)
    · cases h
    · cases h
    · exact i3 (.inr (.inr h))
  | collect _ ws hp hw =>
    refine ⟨i1, i2, ?_, i4⟩
    rintro (h | h | h)
    · cases h
    · cases h
    · exact i3 (.inr (.inr h))
  | nothingToPlan _ hp hn =>
    refine ⟨i1, i2, ?_, i4⟩
    rintro (h | h | h)
    · cases h
    · cases h
    · exact i3 (.inr (.inr h))
  | snapshot _ hp hn => exact ⟨i1, i2, fun _ => i2, i4⟩
  | stitch _ ws hp hs hw =>
    unfold Planner.checkStitchTrajectory at hs
    rw [i1] at hs; cases hs
  | scratch _ ws hp hs hw => exact ⟨i1, i2, fun _ => i3 (.inl hp), i4⟩
  | planned _ hp => exact ⟨i1, i2, fun _ => i3 (.inr (.inl hp)), i4⟩
  | launch _ hp =>
    refine ⟨i1, i2, fun _ => i3 (.inr (.inr (hc.launching hp).1)), ?_⟩
    intro tr h; cases h
  | launched _ hp =>
    refine ⟨i1, i2, ?_, i4⟩
    rintro (h | h | h)
    · cases h
    · cases h
    · exact i3 (.inr (.inr h))
  | apply _ s2 hp ha =>
    obtain ⟨_, d, r, rfl, _⟩ := applyAll_rel (fun _ _ => True) (fun _ => trivial) (fun _ _ _ _ _ => trivial) (fun _ _ _ _ _ => trivial) _ s s2 ha
    refine ⟨i1, i2, ?_, i4⟩
    rintro (h | h | h)
    · cases h
    · cases h
    · exact i3 (.inr (.inr h))
  | asyncStart _ hf => exact ⟨i1, i2, i3, fun tr h => by cases h⟩
  | asyncFail _ dt speed hf hco => exact ⟨i1, i2, i3, fun tr h => by cases h⟩
  | asyncFinish _ dt sp tr ws hf hco =>
    refine ⟨i1, i2, i3, fun _ _ => ?_⟩
    rcases he with h | ⟨p, h⟩ | ⟨v, h⟩ | ⟨ws, h⟩
    · cases h with
      | finish _ _ hC => exact hC
    all_goals cases h
  | _ => exact ⟨i1, i2, i3, i4⟩

theorem waits_run (env : Env K) (C : K) (es : List (Event K)) (s s' : Planner K) (he : ∀ e ∈ es, Calm C e) (hc : Ctl s) (hi : Waits C s)
    (h : Run env s es s') : Ctl s' ∧ Waits C s' := by
  refine run_induction env s (fun es s' => (∀ e ∈ es, Calm C e) → Ctl s' ∧ Waits C s') (fun _ => ⟨hc, hi⟩) ?_ es s' h he
  intro es e m m' ih hs hes
  obtain ⟨c, w⟩ := ih fun e he => hes e (List.mem_append_left _ he)
  have hce := hes e (by simp)
  refine ⟨ctl_step env e m m' c hs, ?_⟩
  rcases step_micro env e m m' hs with rfl | h | ⟨n, h1, h2⟩
  · exact w
  · exact waits_micro env C e m m' hce c w h
  · exact waits_micro env C e n m' hce (ctl_micro env e m n c h1) (waits_micro env C e m n hce c w h1) h2

theorem ctl_run (env : Env K) (s : Planner K) (es : List (Event K)) (s' : Planner K) (hc : Ctl s) (h : Run env s es s') : Ctl s' :=
  run_induction env s (fun _ s' => Ctl s') hc (fun _ e m m' c hs => ctl_step env e m m' c hs) es s' h

theorem unasked_run (env : Env K) (ps : List (V3 K)) (es : List (Event K)) (s s' : Planner K) (he : ∀ e ∈ es, ¬ IsRequest e)
    (hv : ∀ e ∈ es, ∀ p, e = .updateVehiclePosition p → p ∈ ps) (hi : Unasked ps s) (h : Run env s es s') : Unasked ps s' := by
  refine run_induction env s (fun es s' => (∀ e ∈ es, ¬ IsRequest e ∧ ∀ p, e = .updateVehiclePosition p → p ∈ ps) → Unasked ps s') (fun _ => hi) ?_ es s' h
    (fun e hx => ⟨he e hx, hv e hx⟩)
  intro es e m m' ih hs hes
  have u := ih fun e he => hes e (List.mem_append_left _ he)
  obtain ⟨h1, h2⟩ := hes e (by simp)
  rcases step_micro env e m m' hs with rfl | h | ⟨n, k1, k2⟩
  · exact u
  · exact unasked_micro env ps e m m' h1 h2 u h
  · exact unasked_micro env ps e n m' h1 h2 (unasked_micro env ps e m n h1 h2 u k1) k2

theorem onRoute_rest (env : Env K) (route : List (Waypoint K)) (hne : route ≠ []) (hm : ∀ w ∈ route, w.modifiers = []) (ps : List (V3 K)) (es : List (Event K))
    (s s' : Planner K) (he : ∀ e ∈ es, ¬ IsRequest e) (hv : ∀ e ∈ es, ∀ p, e = .updateVehiclePosition p → p ∈ ps) (hc : Ctl s) (hi : OnRoute route ps s)
    (h : Run env s es s') : Ctl s' ∧ OnRoute route ps s' := by
  refine run_induction env s (fun es s' => (∀ e ∈ es, ¬ IsRequest e ∧ ∀ p, e = .updateVehiclePosition p → p ∈ ps) → Ctl s' ∧ OnRoute route ps s')
    (fun _ => ⟨hc, hi⟩) ?_ es s' h (fun e hx => ⟨he e hx, hv e hx⟩)
  intro es e m m' ih hs hes
  obtain ⟨c, u⟩ := ih fun e he => hes e (List.mem_append_left _ he)
  obtain ⟨h1, h2⟩ := hes e (by simp)
  exact onRoute_step env route hne hm ps e m m' h1 h2 c u hs

theorem background_not {C : K} {e : Event K} (h : Background C e) : ¬ IsRequest e ∧ (∀ p, e ≠ .updateVehiclePosition p) ∧ FreshEvent e := by
  cases h with
  | worker => exact ⟨fun h => h, (fun _ h => by cases h), trivial⟩
  | start => exact ⟨fun h => h, (fun _ h => by cases h), trivial⟩
  | finish c hc _ => exact ⟨fun h => h, (fun _ h => by cases h), hc⟩

theorem run_cons_inv (env : Env K) (s : Planner K) (e : Event K) (es : List (Event K)) (s' : Planner K) (h : Run env s (e :: es) s') :
    ∃ m, s.step env e = .ok (some m) ∧ Run env m es s' := by
  obtain ⟨m, h1, h2⟩ := run_split env s [e] es s' h
  obtain ⟨n, k1, k2⟩ := run_snoc_inv env s [] e m h1
  rw [run_nil_inv env s n k1] at k2
  exact ⟨m, k2, h2⟩

/-- The state in which the loop runs. -/
structure Flies (env : Env K) (tr : Trajectory K) (ws : List (Waypoint K)) (off : K) (s : Planner K) : Prop where
  fresh : ReachableBy FreshEvent env s
  flying : Flying (some tr) ws s
  start : s.params.gtlg = 0
  offset : s.params.tOffset = off

theorem flies_step (env : Env K) (tr : Trajectory K) (ws : List (Waypoint K)) (off : K) (s s' : Planner K) (e : Event K) (hr : ¬ IsRequest e)
    (hf : FreshEvent e) (hi : Flies env tr ws off s) (h : s.step env e = .ok (some s')) : Flies env tr ws off s' := by
  have hc := reachable_ctl env s (reachable_of_fresh hi.fresh)
  have keep : ∀ m m' : Planner K, Ctl m → Flying (some tr) ws m → m.params.gtlg = 0 → m.params.tOffset = off → Micro env e m m' →
      Flying (some tr) ws m' ∧ m'.params.gtlg = 0 ∧ m'.params.tOffset = off := by
    intro m m' c f g o hm
    have hn : ¬ TakesOver m m' := fun ht => by have := ht.1; rw [f.flags.1] at this; cases this
    obtain ⟨_, k2, k3⟩ := clockKept_micro env e m m' hm hn
    exact ⟨flying_micro env _ ws e m m' hr c f hm, k2.trans g, k3.trans o⟩
  have hfr := reachableBy_step FreshEvent env s s' e hi.fresh hf h
  rcases step_micro env e s s' h with rfl | h | ⟨m, h1, h2⟩
  · exact hi
  · obtain ⟨a, b, c⟩ := keep s s' hc hi.flying hi.start hi.offset h
    exact ⟨hfr, a, b, c⟩
  · obtain ⟨a, b, c⟩ := keep s m hc hi.flying hi.start hi.offset h1
    obtain ⟨a, b, c⟩ := keep m s' (ctl_micro env e s m hc h1) a b c h2
    exact ⟨hfr, a, b, c⟩

/-- What an evaluation during the loop answers. -/
theorem flies_evaluate (env : Env K) (henv : Segmentwise env) (tr : Trajectory K) (ws : List (Waypoint K)) (hm : ∀ w ∈ ws, w.modifiers = []) (off : K)
    (s : Planner K) (hi : Flies env tr ws off s) (t : K) :
    ∃ (x v a : V3 K) (s' : Planner K), s.evaluateTrajectory env t false false = .ok (some (⟨x, some v, some a⟩, s')) ∧ Flies env tr ws off s' ∧
      tr.evaluate (max 0 (min (t + off) tr.maxTime)) 0 = .ok [x.x, x.y, x.z] ∧ tr.evaluate (max 0 (min (t + off) tr.maxTime)) 1 = .ok [v.x, v.y, v.z] ∧
      tr.evaluate (max 0 (min (t + off) tr.maxTime)) 2 = .ok [a.x, a.y, a.z] := by
  have hre := reachable_of_fresh hi.fresh
  have hwait : ¬ PlanWaiting s := by
    have := (reachable_ctl env s hre).idle hi.flying.flags.1
    rintro (h | ⟨tr, h⟩) <;> rw [this] at h <;> cases h
  have hdm : ∀ w ∈ s.dyn, w.modifiers = [] := by rw [hi.flying.dyn]; exact hm
  have hz : NoZeroWidth s.dyn := fun w hx m hmm => by rw [hdm w hx] at hmm; cases hmm
  obtain ⟨⟨x, v, a⟩, s', hev⟩ := C40_returns env henv s hre tr hi.flying.traj hwait hz t false false
  have hmin := getMinTime_eq env s (by rw [hi.flying.traj]; simp)
  obtain ⟨href, hsome⟩ := C40_references env henv s hre tr hi.flying.traj hwait _ hmin t false false _ s' hev
  obtain ⟨v', hv⟩ := Option.isSome_iff_exists.mp ((hsome 1 (by omega)).mpr (.inr rfl))
  obtain ⟨a', ha⟩ := Option.isSome_iff_exists.mp ((hsome 2 (by omega)).mpr (.inr rfl))
  have e0 := reference_base env tr s.dyn hdm (href 0 x rfl)
  have e1 := reference_base env tr s.dyn hdm (href 1 v' hv)
  have e2 := reference_base env tr s.dyn hdm (href 2 a' ha)
  have ht : t - s.params.gtlg + s.getTimeCompensation = t + off := by
    unfold Planner.getTimeCompensation
    rw [hi.start, hi.offset, sub_zero]
  rw [ht] at e0 e1 e2
  have hv' : v = some v' := hv
  have ha' : a = some a' := ha
  subst hv' ha'
  refine ⟨x, v', a', s', hev, flies_step env tr ws off s s' (.evaluate t false false) (fun h => h) trivial hi ?_, e0, e1, e2⟩
  simp only [Planner.step, hev, bind, Except.bind]
  rfl

/-- What holds when the program has got the duration of the plan. -/
theorem planned_inv (env : Env K) (henv : Segmentwise env) (hmeets : MeetsVertices env) (C : K) (p : V3 K) (speed : K) (ns : List (String × V3 K))
    (hne : ns ≠ []) (max : K) (s2 : Planner K) (h : Planned env C p speed ns max s2) :
    ∃ (tr : Trajectory K) (ws : List (Waypoint K)) (i : ℕ), Flies env tr ws ((i : K) / 10 + 1 / 10) s2 ∧ (∀ w ∈ ws, w.modifiers = []) ∧
      max = tr.maxTime ∧ 0 < tr.maxTime ∧ FliesThrough p ns tr ∧ (i = 0 ∨ (i : K) / 10 < 3 * C) ∧
      tr.evaluate (min ((i : K) / 10) tr.maxTime) 0 = .ok [p.x, p.y, p.z] := by
  obtain ⟨v0, junk, route, hroute, b0, b1, b2, b3, hb, s1, h1, h2⟩ := h
  obtain ⟨ws0, e1, hmade⟩ := toWaypoints_spec junk ns
  rw [hroute] at e1
  cases e1
  have hb0 : ∀ e ∈ b0, Background C e := fun e he => hb e (by simp [he])
  have hb1 : ∀ e ∈ b1, Background C e := fun e he => hb e (by simp [he])
  have hb2 : ∀ e ∈ b2, Background C e := fun e he => hb e (by simp [he])
  have hb3 : ∀ e ∈ b3, Background C e := fun e he => hb e (by simp [he])
  have hrne : route ≠ [] := by
    rintro rfl
    cases hmade
    exact hne rfl
  have hmem : ∀ w ∈ route, ∃ n ∈ ns, MadeFrom n w := fun w hw => forall₂_left hmade w hw
  have hrm : ∀ w ∈ route, w.modifiers = [] := fun w hw => by obtain ⟨n, _, h⟩ := hmem w hw; exact h.2.2.1
  have hrb : ∀ w ∈ route, Bookkept w := fun w hw => by obtain ⟨n, _, h⟩ := hmem w hw; exact h.2.2.2
  -- the route
  have hon : Ctl s1 ∧ OnRoute route [p] s1 := by
    obtain ⟨m0, r0, h1⟩ := run_split env _ b0 _ s1 h1
    obtain ⟨m1, t1, h1⟩ := run_cons_inv env m0 _ _ s1 h1
    obtain ⟨m2, r2, h1⟩ := run_split env _ b1 _ s1 h1
    obtain ⟨m3, t3, h1⟩ := run_cons_inv env m2 _ _ s1 h1
    obtain ⟨m4, r4, h1⟩ := run_split env _ b2 _ s1 h1
    obtain ⟨m5, t5, r5⟩ := run_cons_inv env m4 _ _ s1 h1
    have nr : ∀ {es : List (Event K)}, (∀ e ∈ es, Background C e) → ∀ e ∈ es, ¬ IsRequest e := fun h e he => (background_not (h e he)).1
    have nv : ∀ {es : List (Event K)} {ps : List (V3 K)}, (∀ e ∈ es, Background C e) → ∀ e ∈ es, ∀ q, e = .updateVehiclePosition q → q ∈ ps :=
      fun h e he q hq => absurd hq ((background_not (h e he)).2.1 q)
    have u0 := unasked_run env [v0] b0 _ m0 (nr hb0) (nv hb0) ⟨List.mem_singleton.mpr rfl, rfl, ⟨rfl, rfl, rfl⟩, rfl, rfl, rfl⟩ r0
    have u1 : Unasked [p] m1 := by
      rw [← Option.some.inj (Except.ok.inj t1)]
      exact ⟨List.mem_singleton.mpr rfl, u0.traj, u0.queues, u0.pc, u0.flags⟩
    have u2 := unasked_run env [p] b1 m1 m2 (nr hb1) (nv hb1) u1 r2
    have u3 : Unasked [p] m3 := by
      rw [← Option.some.inj (Except.ok.inj t3)]
      exact ⟨u2.vehicle, u2.traj, u2.queues, u2.pc, u2.flags⟩
    have u4 := unasked_run env [p] b2 m3 m4 (nr hb2) (nv hb2) u3 r4
    have c0 := ctl_run env _ b0 m0 (ctl_init v0) r0
    have c1 := ctl_step env _ m0 m1 c0 t1
    have c2 := ctl_run env _ b1 m2 c1 r2
    have c3 := ctl_step env _ m2 m3 c2 t3
    have c4 := ctl_run env _ b2 m4 c3 r4
    have c5 := ctl_step env _ m4 m5 c4 t5
    refine onRoute_rest env route hrne hrm [p] b3 m5 s1 (nr hb3) (nv hb3) c5 ?_ r5
    rw [← Option.some.inj (Except.ok.inj t5)]
    exact ⟨u4.vehicle, rfl, rfl, .queued u4.traj rfl u4.flags.1 (.inl u4.pc)⟩
  -- no plan yet, no time has passed
  have hcalm : ∀ e ∈ b0 ++ .updateVehiclePosition p :: (b1 ++ .setSpeed speed :: (b2 ++ .setWaypoints route :: b3)), Calm C e := by
    intro e he
    simp only [List.mem_append, List.mem_cons] at he
    rcases he with he | rfl | he | rfl | he | rfl | he
    · exact .inl (hb0 e he)
    · exact .inr (.inl ⟨p, rfl⟩)
    · exact .inl (hb1 e he)
    · exact .inr (.inr (.inl ⟨speed, rfl⟩))
    · exact .inl (hb2 e he)
    · exact .inr (.inr (.inr ⟨route, rfl⟩))
    · exact .inl (hb3 e he)
  obtain ⟨hctl, hwait⟩ := waits_run env C _ (Planner.init v0) s1 hcalm (ctl_init v0)
    ⟨rfl, rfl, (by rintro (h | h | h) <;> cases h), fun tr h => by cases h⟩ h1
  have hfresh : ∀ e ∈ b0 ++ .updateVehiclePosition p :: (b1 ++ .setSpeed speed :: (b2 ++ .setWaypoints route :: b3)), FreshEvent e := by
    intro e he
    simp only [List.mem_append, List.mem_cons] at he
    rcases he with he | rfl | he | rfl | he | rfl | he
    · exact (background_not (hb0 e he)).2.2
    · trivial
    · exact (background_not (hb1 e he)).2.2
    · trivial
    · exact (background_not (hb2 e he)).2.2
    · exact fun w hw => ⟨hrb w hw, hrm w hw⟩
    · exact (background_not (hb3 e he)).2.2
  have hf1 : ReachableBy FreshEvent env s1 := ⟨v0, _, hfresh, h1⟩
  have hstep : s1.step env .getMaxTime = .ok (some s2) := by
    simp only [Planner.step, h2, bind, Except.bind]; rfl
  have hf2 := reachableBy_step FreshEvent env s1 s2 .getMaxTime hf1 trivial hstep
  have hre2 := reachable_of_fresh hf2
  -- the call takes the plan over
  obtain ⟨hchk, tr, htr, hmax⟩ : s1.checkTrajectoryGenerated env = .ok (some s2) ∧ ∃ tr, s2.traj = some tr ∧ max = tr.maxTime + s2.params.gtlg := by
    unfold Planner.getMaxTime Planner.ensureTrajectory at h2
    rw [hwait.traj] at h2
    simp only [Option.isSome_none, Bool.false_eq_true, if_false, bind, Except.bind] at h2
    cases hc : s1.checkTrajectoryGenerated env with
    | error e => rw [hc] at h2; cases h2
    | ok o =>
      rw [hc] at h2
      cases o with
      | none => cases h2
      | some s =>
        simp only at h2
        cases ht : s.traj with
        | none => rw [ht] at h2; cases h2
        | some tr =>
          rw [ht] at h2
          have := Option.some.inj (Except.ok.inj h2)
          obtain ⟨rfl, rfl⟩ := Prod.mk.inj this
          exact ⟨rfl, tr, ht, rfl⟩
  have hmic : Micro env .getMaxTime s1 s2 := by
    rcases check_micro env .getMaxTime s1 s2 (.inr (.inl rfl)) hchk with h | h
    · rw [h, hwait.traj] at htr; cases htr
    · exact h
  have hp1 := reachable_plan env henv s1 (reachable_of_fresh hf1)
  have hdyn1 := hp1.none hwait.traj
  have hscr : s1.fromScratch = true := by
    by_contra hh
    exact hctl.scratch (by simpa using hh) hwait.traj
  have hv1 : s1.vehicle = p := List.mem_singleton.mp hon.2.vehicle
  obtain ⟨i, q, hoff, hgrid, hfit⟩ : ∃ (i : ℕ) (q : ℕ → V3 K), s2.params.tOffset = (i : K) / 10 + 1 / 10 ∧ OnGrid s1.timeConstant i ∧
      ∀ j, OnGrid s1.timeConstant j → IsReference env tr [] ((j : K) / 10) ((j : K) / 10 + s1.newParams.gtlg) 0 (q j) ∧ sqDist (q i) p ≤ sqDist (q j) p := by
    cases hmic with
    | takeOver _ _ new off hcomp hr he hfit =>
      obtain ⟨target, sf, hfit, rfl, hcase⟩ := hfit
      obtain ⟨_, vs, sp, _, ho⟩ := hp1.ready new hr
      obtain ⟨i, q, k1, k2, k3⟩ := timeFitting_spec env _ sf new (henv vs sp new ho).1 target hfit
      cases htr
      have ht : target = p := by
        rcases hcase with ⟨_, rfl⟩ | ⟨old, h, _⟩
        · exact hv1
        · rw [hscr] at h; cases h
      subst ht
      refine ⟨i, q, ?_, k2, fun j hj => ?_⟩
      · simp only at k1
        show sf.newParams.tOffset = _
        rw [k1, hwait.clock, hwait.snap (.inr (.inr hcomp))]
        ring
      · obtain ⟨a, b, _⟩ := k3 j hj
        simp only at a
        rw [hdyn1] at a
        exact ⟨a, b⟩
  have hg2 : s2.params.gtlg = 0 := by
    cases hmic with
    | takeOver _ _ new off hcomp hr he hfit => exact hwait.snap (.inr (.inr hcomp))
  have htc : i = 0 ∨ (i : K) / 10 < 3 * C := by
    rcases hgrid with h | h
    · exact .inl h
    · right
      have : s1.timeConstant ≤ C := by
        cases hmic with
        | takeOver _ _ new off hcomp hr he hfit => exact hwait.took new hr
      linarith
  have hon2 := (onRoute_step env route hrne hrm [p] .getMaxTime s1 s2 (fun h => h) (by rintro _ ⟨⟩) hon.1 hon.2 hstep)
  obtain ⟨hstart, hfly⟩ : StartsRoute route [p] s2.dyn ∧ Flying (some tr) s2.dyn s2 := by
    cases hon2.2.stage with
    | queued a b c d => rw [a] at htr; cases htr
    | collected a b c d f => rw [a] at htr; cases htr
    | planned a b c d => rw [a] at htr; cases htr
    | flown a b c d f g => exact ⟨g, htr, by simp, rfl, hon2.2.toModify, ⟨c, d⟩, f⟩
  have hflies : Flies env tr s2.dyn ((i : K) / 10 + 1 / 10) s2 := ⟨hf2, hfly, hg2, hoff⟩
  obtain ⟨w0, rest, hws, n0, c0, v0', a0, hsame, hm⟩ := hstart
  have hp2 := reachable_plan env henv s2 hre2
  have hu := traj_usable env henv s2 hp2 tr htr
  obtain ⟨⟨hlen, hti⟩, _⟩ := hp2.taken tr htr
  have hmin := getMinTime_eq env s2 (by rw [htr]; simp)
  have horig : ∀ w ∈ s2.dyn, w.original = w.current := fun w hw => ((reachable_wp env s2 hre2).dyn w hw).2.2.2.1 (hm w hw)
  have hpos : ∀ (j : ℕ) (w : Waypoint K), s2.dyn[j]? = some w → w.time = startOf tr.segments j ∧
      tr.evaluate (startOf tr.segments j) 0 = .ok [w.current.x, w.current.y, w.current.z] := by
    intro j w hw
    have ht := (hti j w hw).2
    rw [hg2, zero_add] at ht
    refine ⟨ht, ?_⟩
    have := (C54_positions env henv hmeets s2 hf2 tr htr _ hmin j w hw).1
    rwa [ht, hg2, sub_zero, horig w (List.mem_of_getElem? hw)] at this
  have hw0 : s2.dyn[0]? = some w0 := by rw [hws]; rfl
  have hrestne : rest ≠ [] := by
    rintro rfl
    cases hsame
    exact hrne rfl
  have hfirst := (hpos 0 w0 hw0).2
  rw [startOf_zero, List.mem_singleton.mp c0] at hfirst
  have hlen1 : 0 + 1 < s2.dyn.length := by
    rw [hws, List.length_cons]
    have := List.length_pos_of_ne_nil hrestne
    omega
  have hrest0 := (C54_positions env henv hmeets s2 hf2 tr htr _ hmin 0 w0 hw0).2
  have ht0 : w0.time - s2.params.gtlg = 0 := by rw [(hpos 0 w0 hw0).1, startOf_zero, hg2, sub_zero]
  rw [ht0] at hrest0
  have hmaxpos : 0 < tr.maxTime := by
    rw [hu.2.2.1.1, ← startOf_length]
    have := startOf_lt tr.segments hu.2.2.2.1 0 tr.segments.length (List.length_pos_of_ne_nil hu.2.1) le_rfl
    rwa [startOf_zero] at this
  have hend : tr.evaluate tr.maxTime 1 = .ok [0, 0, 0] ∧ tr.evaluate tr.maxTime 2 = .ok [0, 0, 0] := by
    obtain ⟨x, v, a, s3, hev, _, _, k1, k2⟩ := flies_evaluate env henv tr s2.dyn hm _ s2 hflies tr.maxTime
    have hio : (0 : K) ≤ (i : K) / 10 + 1 / 10 := by positivity
    have hcl : Max.max 0 (min (tr.maxTime + ((i : K) / 10 + 1 / 10)) tr.maxTime) = tr.maxTime := by
      rw [min_eq_right (by linarith), max_eq_right hmaxpos.le]
    rw [hcl] at k1 k2
    have hnw : ¬ PlanWaiting s2 := by
      have := (reachable_ctl env s2 hre2).idle hfly.flags.1
      rintro (h | ⟨tr, h⟩) <;> rw [this] at h <;> cases h
    obtain ⟨_, j2, j3⟩ := C55_hover env henv hmeets s2 hf2 hnw hm _ (getMaxTime_eq env s2 tr htr) tr.maxTime (by
      unfold Planner.getTimeCompensation
      rw [hg2, hoff]; linarith) _ s3 false hev
    cases j2
    cases j3
    exact ⟨k1, k2⟩
  refine ⟨tr, s2.dyn, i, hflies, hm, by rw [hmax, hg2, add_zero], hmaxpos, ⟨hfirst, ?_, ?_, ?_, hend⟩, htc, ?_⟩
  · exact hrest0 1 _ le_rfl (by omega) (.inl hlen1) v0'
  · exact hrest0 2 _ (by omega) (by omega) (.inl hlen1) a0
  · refine ⟨rest.map (·.time), ?_, ?_, ?_⟩
    · have : (0 :: rest.map (·.time)) = s2.dyn.map (·.time) := by
        rw [hws, List.map_cons, (hpos 0 w0 hw0).1, startOf_zero]
      rw [this, List.pairwise_iff_getElem]
      intro a b ha hb hab
      rw [List.getElem_map, List.getElem_map, (hpos a _ (List.getElem?_eq_getElem (by simpa using ha))).1,
        (hpos b _ (List.getElem?_eq_getElem (by simpa using hb))).1]
      refine startOf_lt tr.segments hu.2.2.2.1 a b hab ?_
      rw [List.length_map] at hb
      omega
    · rw [List.getLast?_map]
      have hl : s2.dyn.getLast? = rest.getLast? := by
        rw [hws]
        cases rest with
        | nil => exact absurd rfl hrestne
        | cons a b => rfl
      rw [← hl, List.getLast?_eq_getElem?]
      have hlt : s2.dyn.length - 1 < s2.dyn.length := by omega
      rw [List.getElem?_eq_getElem hlt, Option.map_some, (hpos _ _ (List.getElem?_eq_getElem hlt)).1, hu.2.2.1.1, ← startOf_length]
      congr 2
      omega
    · rw [List.forall₂_map_right_iff]
      have hall : ∀ w ∈ rest, tr.evaluate w.time 0 = .ok [w.current.x, w.current.y, w.current.z] := by
        intro w hw
        obtain ⟨j, hj⟩ := List.mem_iff_getElem?.mp (show w ∈ s2.dyn by rw [hws]; exact List.mem_cons_of_mem _ hw)
        obtain ⟨k1, k2⟩ := hpos j w hj
        rw [k1, k2]
      clear hend hpos
      have : ∀ (ns : List (String × V3 K)) (route rest : List (Waypoint K)), List.Forall₂ MadeFrom ns route → List.Forall₂ SameWaypoint route rest →
          (∀ w ∈ rest, tr.evaluate w.time 0 = .ok [w.current.x, w.current.y, w.current.z]) →
          List.Forall₂ (fun (n : String × V3 K) (w : Waypoint K) => tr.evaluate w.time 0 = .ok [n.2.x, n.2.y, n.2.z]) ns rest := by
        intro ns
        induction ns with
        | nil => intro route rest h1 h2 _; cases h1; cases h2; exact .nil
        | cons n ns ih =>
          intro route rest h1 h2 h3
          cases h1 with
          | cons a b =>
            cases h2 with
            | cons c d =>
              refine .cons ?_ (ih _ _ b d fun w hw => h3 w (List.mem_cons_of_mem _ hw))
              rw [h3 _ (List.mem_cons_self ..), c.2.1, a.2.1]
      exact this ns route rest hmade hsame hall
  · obtain ⟨ri, _⟩ := hfit i hgrid
    obtain ⟨r0, hle⟩ := hfit 0 (.inl rfl)
    have b0 := reference_base env tr [] (by simp) r0
    have bi := reference_base env tr [] (by simp) ri
    rw [Nat.cast_zero, zero_div, min_eq_left hmaxpos.le, max_self, hfirst] at b0
    have b0 := Except.ok.inj b0
    simp only [List.cons.injEq, and_true] at b0
    obtain ⟨x0, y0, z0⟩ := b0
    have hz : sqDist (q i) p ≤ 0 := by
      refine hle.trans (le_of_eq ?_)
      unfold sqDist
      rw [x0, y0, z0]
      ring
    unfold sqDist at hz
    have hx : (q i).x = p.x := by nlinarith [sq_nonneg ((q i).x - p.x), sq_nonneg ((q i).y - p.y), sq_nonneg ((q i).z - p.z)]
    have hy : (q i).y = p.y := by nlinarith [sq_nonneg ((q i).x - p.x), sq_nonneg ((q i).y - p.y), sq_nonneg ((q i).z - p.z)]
    have hz : (q i).z = p.z := by nlinarith [sq_nonneg ((q i).x - p.x), sq_nonneg ((q i).y - p.y), sq_nonneg ((q i).z - p.z)]
    have hi0 : (0 : K) ≤ (i : K) / 10 := by positivity
    rw [max_eq_right (le_min hi0 hmaxpos.le), hx, hy, hz] at bi
    exact bi

end

end Verif.Lemmas
