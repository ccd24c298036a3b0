import Verif.Lemmas.PlannerKeep
import Verif.Properties.PlannerSmooth
import Verif.Properties.PlannerStitch

/-!
# From one plan to the next (C122), asking again (C123)

What the vehicle is asked to do at the moment another plan is taken over.
-/

set_option linter.unusedSectionVars false

namespace Verif.Properties
open Verif Verif.Spec Verif.Lemmas

section
variable {K : Type*} [Field K] [LinearOrder K] [IsStrictOrderedRing K] [FloorRing K]

/-! ## C123 -/

theorem evaluate_parts (env : Env K) (s s' : Planner K) (t : K) (o f : Bool) (r : References K) (h : s.evaluateTrajectory env t o f = .ok (some (r, s'))) :
    ∃ m, s.checkTrajectoryGenerated env = .ok (some m) ∧ m.evaluateNow env t o f = .ok (r, s') := by
  simp only [Planner.evaluateTrajectory, Bind.bind, Except.bind] at h
  cases hc : s.checkTrajectoryGenerated env with
  | error e => rw [hc] at h; cases h
  | ok x =>
    rw [hc] at h
    cases x with
    | none => cases h
    | some m =>
      simp only at h
      cases hn : m.evaluateNow env t o f with
      | error e => rw [hn] at h; cases h
      | ok y => rw [hn] at h; exact ⟨m, rfl, by rw [hn, ← Option.some.inj (Except.ok.inj h)]⟩

/-- After an evaluation there is a plan and none to take over. -/
theorem evaluate_settled (env : Env K) (s m : Planner K) (h : s.checkTrajectoryGenerated env = .ok (some m)) (ht : m.traj ≠ none) (p : Params K) :
    Planner.checkTrajectoryGenerated env { m with params := p } = .ok (some { m with params := p }) := by
  have hn : m.traj.isNone = false := by
    cases hm : m.traj with
    | none => exact absurd hm ht
    | some _ => rfl
  unfold Planner.checkTrajectoryGenerated at h ⊢
  simp only [hn, Bool.false_and, Bool.false_eq_true, if_false]
  split at h
  · cases h
  · split at h
    · simp only [Bind.bind, Except.bind] at h
      split at h
      · cases h
      · have := Option.some.inj (Except.ok.inj h)
        have hcf : m.computing = false := by rw [← this]
        simp [hcf]
    · rename_i hno
      have := Option.some.inj (Except.ok.inj h)
      subst this
      rw [if_neg hno]

/-- C123: an evaluation at `t` directly followed by another one at `t` returns the same references again, whatever state the planner is in and even if the first of them took over
a plan. The second evaluation changes nothing, unless it is the first one that is not for plotting: then it only records the instant. -/
theorem C123_again (env : Env K) (s s' : Planner K) (t : K) (o f f' : Bool) (r : References K) (h : s.evaluateTrajectory env t o f = .ok (some (r, s'))) :
    ∃ s'', s'.evaluateTrajectory env t o f' = .ok (some (r, s'')) ∧ (f = false ∨ f' = true → s'' = s') ∧
      ∃ p : Params K, s'' = { s' with params := { s'.params with lastGlobal := p.lastGlobal, lastLocal := p.lastLocal } } := by
  obtain ⟨m, hc, hn⟩ := evaluate_parts env s s' t o f r h
  obtain ⟨htr, hs'⟩ := evaluateNow_inv env m s' t o f r hn
  obtain ⟨tr, htr'⟩ : ∃ tr, m.traj = some tr := by
    cases hm : m.traj with
    | none => exact absurd hm htr
    | some tr => exact ⟨tr, rfl⟩
  rw [evaluateNow_eq env m tr htr'] at hn
  cases hr : m.getReferences env tr (t + m.params.tOffset) (t - m.params.gtlg + m.params.tOffset) o with
  | error e => rw [hr] at hn; cases hn
  | ok r' =>
    rw [hr] at hn
    have hrr : r' = r := (Prod.mk.inj (Except.ok.inj hn)).1
    subst hrr
    obtain ⟨p, hp, hg, ho⟩ : ∃ p : Params K, s' = { m with params := p } ∧ p.gtlg = m.params.gtlg ∧ p.tOffset = m.params.tOffset := by
      rw [hs']
      cases f
      · exact ⟨_, rfl, rfl, rfl⟩
      · exact ⟨m.params, rfl, rfl, rfl⟩
    have hck := evaluate_settled env s m hc htr p
    rw [← hp] at hck
    have htr2 : s'.traj = some tr := by rw [hp]; exact htr'
    have href : s'.getReferences env tr (t + s'.params.tOffset) (t - s'.params.gtlg + s'.params.tOffset) o = .ok r' := by
      rw [← hr, hp]
      simp only [hg, ho]
      unfold Planner.getReferences Planner.evaluateModified
      rfl
    refine ⟨if f' then s' else { s' with params := { s'.params with lastGlobal := t, lastLocal := t - s'.params.gtlg } }, ?_, ?_, ?_⟩
    · unfold Planner.evaluateTrajectory
      rw [hck]
      simp only [Bind.bind, Except.bind]
      rw [evaluateNow_eq env s' tr htr2, href]
      rfl
    · rintro (rfl | rfl)
      · cases f'
        · rw [hs']; rfl
        · rfl
      · rfl
    · cases f'
      · exact ⟨{ s'.params with lastGlobal := t, lastLocal := t - s'.params.gtlg }, rfl⟩
      · exact ⟨s'.params, rfl⟩

theorem clockKept_micro (env : Env K) (e : Event K) (s s' : Planner K) (h : Micro env e s s') (hn : ¬ TakesOver s s') :
    s'.traj = s.traj ∧ s'.params.gtlg = s.params.gtlg ∧ s'.params.tOffset = s.params.tOffset := by
  cases h with
  | takeOver _ _ new off hcomp hr he hfit => exact absurd ⟨hcomp, rfl⟩ hn
  | apply _ s2 hp ha =>
    obtain ⟨_, d, r, rfl, _⟩ := applyAll_rel (fun _ _ => True) (fun _ => trivial) (fun _ _ _ _ _ => trivial) (fun _ _ _ _ _ => trivial) _ s s2 ha
    exact ⟨rfl, rfl, rfl⟩
  | _ => exact ⟨rfl, rfl, rfl⟩

theorem clockKept_run (env : Env K) (s s' : Planner K) (es : List (Event K)) (h : RunBefore env s es s') :
    s'.traj = s.traj ∧ s'.params.gtlg = s.params.gtlg ∧ s'.params.tOffset = s.params.tOffset := by
  induction h with
  | nil => exact ⟨rfl, rfl, rfl⟩
  | @snoc es m1 m2 e _ hs hn ih =>
    obtain ⟨i1, i2, i3⟩ := ih
    have : m2.traj = m1.traj ∧ m2.params.gtlg = m1.params.gtlg ∧ m2.params.tOffset = m1.params.tOffset := by
      rcases step_micro' env e m1 m2 hs with ⟨rfl, _⟩ | h | ⟨m, ⟨t, o, rfl⟩, h1, h2⟩
      · exact ⟨rfl, rfl, rfl⟩
      · exact clockKept_micro env e _ _ h hn
      · cases h1 with
        | takeOver _ _ new off hcomp hr he hfit =>
          cases h2 with
          | takeOver _ _ new off hcomp hr he hfit => cases hcomp
          | evalTime _ _ _ ht => exact absurd ⟨hcomp, rfl⟩ hn
        | evalTime _ _ _ ht =>
          cases h2 with
          | takeOver _ _ new off hcomp hr he hfit => exact absurd ⟨hcomp, rfl⟩ hn
          | evalTime _ _ _ ht => exact ⟨rfl, rfl, rfl⟩
    exact ⟨this.1.trans i1, this.2.1.trans i2, this.2.2.trans i3⟩

/-- C123: nor does anything else that happens between the two evaluations matter, as long as no plan is taken over and the current waypoints stay as they are. -/
theorem C123_meanwhile (env : Env K) (s s' q q' : Planner K) (t : K) (o f f' : Bool) (r r' : References K) (h : s.evaluateTrajectory env t o f = .ok (some (r, s')))
    (es : List (Event K)) (hrun : RunBefore env s' es q) (hd : q.dyn = s'.dyn) (hw : ¬ PlanWaiting q) (h' : q.evaluateTrajectory env t o f' = .ok (some (r', q'))) : r' = r := by
  obtain ⟨s'', h2, -, -⟩ := C123_again env s s' t o f true r h
  obtain ⟨m, hm, hn⟩ := evaluate_parts env s' s'' t o true r h2
  obtain ⟨m', hm', hn'⟩ := evaluate_parts env q q' t o f' r' h'
  obtain ⟨k1, k2, k3⟩ := clockKept_run env s' q es hrun
  obtain ⟨tr, htr⟩ := evaluated_plan env q hw t o f' r' q' h'
  have e1 : m' = q := by
    rw [check_idle env q hw (by rw [htr]; simp)] at hm'
    exact (Option.some.inj (Except.ok.inj hm')).symm
  subst e1
  have htr' : s'.traj = some tr := by rw [← k1, htr]
  have e2 : m = s' := by
    obtain ⟨m0, hc0, hn0⟩ := evaluate_parts env s s' t o f r h
    obtain ⟨ht0, hs0⟩ := evaluateNow_inv env m0 s' t o f r hn0
    obtain ⟨p, hp⟩ : ∃ p : Params K, s' = { m0 with params := p } := by
      rw [hs0]
      cases f
      · exact ⟨_, rfl⟩
      · exact ⟨m0.params, rfl⟩
    have := evaluate_settled env s m0 hc0 ht0 p
    rw [← hp, hm] at this
    exact Option.some.inj (Except.ok.inj this)
  subst e2
  rw [evaluateNow_eq env m tr htr'] at hn
  rw [evaluateNow_eq env m' tr htr, samePlan_references env m m' ⟨k1, k2, k3, hd⟩, k2, k3] at hn'
  cases hr : m.getReferences env tr (t + m.params.tOffset) (t - m.params.gtlg + m.params.tOffset) o with
  | error e => rw [hr] at hn; cases hn
  | ok x =>
    rw [hr] at hn hn'
    rw [← (Prod.mk.inj (Except.ok.inj hn)).1, ← (Prod.mk.inj (Except.ok.inj hn')).1]

/-! ## C122 -/

theorem onTime_extend (env : Env K) (v : V3 K) (es0 es : List (Event K)) (s s2 : Planner K) (h : RunOnTime env (Planner.init v) es0 s) (h' : RunBefore env s es s2) :
    RunOnTime env (Planner.init v) (es0 ++ es) s2 := by
  refine runWhile_append _ env _ s s2 es0 es h ?_
  induction h' with
  | nil => exact .nil
  | snoc e _ hs hn ih => exact .snoc e ih hs fun ht => absurd ht hn

theorem snapshotted_idle (s : Planner K) (hc : Ctl s) (hpc : s.pc = .snapshotted) : ¬ PlanWaiting s := by
  have hcomp := hc.quiet (by rw [hpc]; decide) (by rw [hpc]; decide) (by rw [hpc]; decide)
  have hf := hc.idle hcomp
  rintro (h | ⟨_, h⟩) <;> rw [hf] at h <;> cases h

theorem getReferences_position (env : Env K) (s : Planner K) (tr : Trajectory K) (g l : K) (o : Bool) (r : References K)
    (h : s.getReferences env tr g l o = .ok r) : s.evaluateModified env tr g l 0 = .ok r.position := by
  unfold Planner.getReferences at h
  simp only [Bind.bind, Except.bind] at h
  split at h
  · cases h
  · rename_i p hp
    split at h
    · rw [hp, ← Except.ok.inj h]
    · split at h
      · cases h
      · split at h
        · cases h
        · rw [hp, ← Except.ok.inj h]

/-- C122: from the preparation of a plan until it is taken over the old plan is followed unchanged. -/
theorem C122_unchanged (env : Env K) (s q q' : Planner K) (h : Reachable env s) (hpc : s.pc = .snapshotted) (es : List (Event K)) (hrun : RunBefore env s (.worker :: es) q)
    (hw : ¬ PlanWaiting q) (t : K) (o f : Bool) (r : References K) (hq : q.evaluateTrajectory env t o f = .ok (some (r, q'))) :
    s.evaluateTrajectory env t o true = .ok (some (r, s)) := by
  have hc := reachable_ctl env s h
  obtain ⟨s1, h1, _, hrun1⟩ := runWhile_cons _ _ _ _ _ _ hrun
  obtain ⟨p1, u1⟩ := prepare_same env s s1 hpc h1
  obtain ⟨p2, _, _⟩ := keep_run env s1 q es (ctl_step env _ _ _ hc h1) u1 hrun1
  have hp := samePlan_trans p1 p2
  obtain ⟨tr, htr⟩ := evaluated_plan env q hw t o f r q' hq
  have htr' : s.traj = some tr := by rw [← hp.1, htr]
  obtain ⟨m, hm, hn⟩ := evaluate_parts env q q' t o f r hq
  rw [check_idle env q hw (by rw [htr]; simp)] at hm
  have e1 : q = m := Option.some.inj (Except.ok.inj hm)
  subst e1
  rw [evaluateNow_eq env q tr htr, samePlan_references env s q hp, hp.2.1, hp.2.2.1] at hn
  unfold Planner.evaluateTrajectory
  rw [check_idle env s (snapshotted_idle s hc hpc) (by rw [htr']; simp)]
  simp only [Bind.bind, Except.bind]
  rw [evaluateNow_eq env s tr htr']
  cases hr : s.getReferences env tr (t + s.params.tOffset) (t - s.params.gtlg + s.params.tOffset) o with
  | error e => rw [hr] at hn; cases hn
  | ok x => rw [hr] at hn; rw [(Prod.mk.inj (Except.ok.inj hn)).1]; rfl

/-- C122 in full: from one evaluation to the next the position reference moves by no more than the plans' largest velocity times the time between them, also if a stitched plan is
taken over between them. `r0`: the reference at the last evaluated instant, `r`: the reference at `t` after the take-over. Refuted (`C122_refuted`). -/
def C122Full (K : Type*) [Field K] [LinearOrder K] [IsStrictOrderedRing K] [FloorRing K] : Prop :=
  ∀ (env : Env K), Segmentwise env → MeetsVertices env → JoinsSmoothly env → ∀ (v : V3 K) (es0 es : List (Event K)) (e : Event K) (s s2 s3 s4 : Planner K),
    (∀ e ∈ es0, ValidEvent e) → (∀ e ∈ es, ValidEvent e) → RunOnTime env (Planner.init v) es0 s → s.pc = .snapshotted → RunBefore env s (.worker :: es) s2 →
    s2.step env e = .ok (some s3) → TakesOver s2 s3 → s3.dyn.head?.map (·.name) = some "stitching_point" →
    (∀ w ∈ s.dyn, w.modifiers = []) → (∀ w ∈ s3.dyn, w.modifiers = []) → ∀ (old tr : Trajectory K), s.traj = some old → s3.traj = some tr →
    ∀ V, RateBound 1 old V → RateBound 1 tr V → ∀ (r0 r : References K) (t : K) (o f : Bool),
      s.evaluateTrajectory env (lastEval (es0 ++ .worker :: es)) false true = .ok (some (r0, s)) → s3.evaluateTrajectory env t o f = .ok (some (r, s4)) →
      ∀ a, |comp r.position a - comp r0.position a| ≤ V * |t - lastEval (es0 ++ .worker :: es)|

theorem v3_of_list {a b : V3 K} (h : [a.x, a.y, a.z] = [b.x, b.y, b.z]) : a = b := by
  simp only [List.cons.injEq, and_true] at h
  obtain ⟨h1, h2, h3⟩ := h
  cases a; cases b
  simp only at h1 h2 h3
  rw [h1, h2, h3]

/-- How the plan that is taken over is read, and how the point it is read at was chosen. -/
theorem taken_reads (env : Env K) (henv : Segmentwise env) (hj : JoinsSmoothly env) (v : V3 K) (es0 es : List (Event K)) (e : Event K)
    (s s2 s3 s4 : Planner K) (hv0 : ∀ e ∈ es0, ValidEvent e) (hv : ∀ e ∈ es, ValidEvent e) (hok : RunOnTime env (Planner.init v) es0 s) (hpc : s.pc = .snapshotted)
    (hrun : RunBefore env s (.worker :: es) s2) (hs : s2.step env e = .ok (some s3)) (ht : TakesOver s2 s3)
    (hm : ∀ w ∈ s.dyn, w.modifiers = []) (hm3 : ∀ w ∈ s3.dyn, w.modifiers = []) (tr : Trajectory K) (htr : s3.traj = some tr)
    (g last : K) (hg : s3.getMinTime env = .ok (some (g, s3))) (hlast : last = lastEval (es0 ++ .worker :: es)) (r : References K) (t : K) (o f : Bool)
    (hr : s3.evaluateTrajectory env t o f = .ok (some (r, s4))) :
    ∃ (target start near : V3 K), SamePlan s s2 ∧ Usable tr ∧ tr.evaluate 0 0 = .ok [start.x, start.y, start.z] ∧ sqDist near target ≤ sqDist start target ∧
      (∀ V, RateBound 1 tr V → ∀ a, |comp r.position a - comp near a| ≤ V * |t - last + 1 / 10|) ∧
      ((s3.dyn.head?.map (·.name) = some "" ∧ target = s2.vehicle) ∨
       (s3.dyn.head?.map (·.name) = some "stitching_point" ∧ ∃ old g0, s2.traj = some old ∧ s2.getMinTime env = .ok (some (g0, s2)) ∧
        IsReference env old s2.dyn (last - g0 + s2.getTimeCompensation) (last + s2.getTimeCompensation) 0 target)) := by
  have hreach : Reachable env s := ⟨v, es0, hv0, runWhile_run _ _ _ _ _ hok⟩
  have hc := reachable_ctl env s hreach
  have hval : ∀ e ∈ es0 ++ .worker :: es, ValidEvent e := by
    intro e he
    rcases List.mem_append.mp he with he | he
    · exact hv0 e he
    · rcases List.mem_cons.mp he with rfl | he
      · trivial
      · exact hv e he
  have hok2 := onTime_extend env v es0 _ s s2 hok hrun
  have hreach2 : Reachable env s2 := ⟨v, _, hval, runWhile_run _ _ _ _ _ hok2⟩
  have hplan2 := reachable_plan env henv s2 hreach2
  obtain ⟨s1, h1, _, hrun1⟩ := runWhile_cons _ _ _ _ _ _ hrun
  obtain ⟨p1, u1⟩ := prepare_same env s s1 hpc h1
  obtain ⟨p2, _, hc2⟩ := keep_run env s1 s2 es (ctl_step env _ _ _ hc h1) u1 hrun1
  have hp := samePlan_trans p1 p2
  have hm2 : ∀ w ∈ s2.dyn, w.modifiers = [] := by rw [hp.2.2.2]; exact hm
  -- the new plan
  obtain ⟨tr', target, i, p, k1, k2, k3, k4, k5⟩ := C56_partial env henv v _ s2 s3 hval hok2 e hs ht g hg
  rw [htr] at k1
  obtain rfl := Option.some.inj k1
  rw [← hlast] at k2 k5
  obtain ⟨vs, sp, ho⟩ : ∃ vs sp, env.optimize vs sp = .ok tr := by
    obtain ⟨_, _, _, tr2, hf, htr2⟩ := (prepared_step env (fun _ => True) (fun _ _ _ _ => trivial) s2.newParams.gtlg e s2 s3 hc2 ⟨Or.inr ht.1, trivial, rfl⟩ hs).resolve_left
      fun h => h.2 ht
    rw [htr] at htr2
    rw [← Option.some.inj htr2] at hf
    obtain ⟨_, vs, sp, _, ho⟩ := hplan2.ready tr hf
    exact ⟨vs, sp, ho⟩
  have hu := (henv vs sp tr ho).1
  have hjt : PiecesMeet 0 tr := hj vs sp tr ho 0 (by omega)
  -- where the references come from
  have hbase : ∀ j, OnGrid s2.timeConstant j → tr.evaluate (max 0 (min ((j : K) / 10) tr.maxTime)) 0 = .ok [(p j).x, (p j).y, (p j).z] := fun j hj' => by
    have := reference_base env tr s2.dyn hm2 (k4 j hj').1
    simpa using this
  have hc3 : Ctl s3 := ctl_step env e _ _ hc2 hs
  have hw3 : ¬ PlanWaiting s3 := by
    have hf := hc3.idle ht.2
    rintro (h | ⟨_, h⟩) <;> rw [hf] at h <;> cases h
  have hnow : tr.evaluate (max 0 (min (t - last + (i : K) / 10 + 1 / 10) tr.maxTime)) 0 = .ok [r.position.x, r.position.y, r.position.z] := by
    obtain ⟨m, hm', hn⟩ := evaluate_parts env s3 s4 t o f r hr
    rw [check_idle env s3 hw3 (by rw [htr]; simp)] at hm'
    have e1 : s3 = m := Option.some.inj (Except.ok.inj hm')
    subst e1
    rw [evaluateNow_eq env s3 tr htr] at hn
    cases hgr : s3.getReferences env tr (t + s3.params.tOffset) (t - s3.params.gtlg + s3.params.tOffset) o with
    | error e => rw [hgr] at hn; cases hn
    | ok x =>
      rw [hgr] at hn
      obtain rfl := (Prod.mk.inj (Except.ok.inj hn)).1
      have href := evaluateModified_ok env s3 tr hu _ _ 0 _ (getReferences_position env s3 tr _ _ o x hgr)
      have := reference_base env tr s3.dyn hm3 href
      have hgg : g = s3.params.gtlg := by
        rw [getMinTime_eq env s3 (by rw [htr]; simp)] at hg
        exact (Prod.mk.inj (Option.some.inj (Except.ok.inj hg))).1.symm
      have hk2 := k2 t
      unfold Planner.getTimeCompensation at hk2
      rw [← hgg, hk2] at this
      simpa using this
  have hb := hbase 0 (Or.inl rfl)
  simp only [Nat.cast_zero, zero_div] at hb
  rw [min_eq_left (usable_maxTime tr hu), max_self] at hb
  refine ⟨target, p 0, p i, hp, hu, hb, (k4 0 (Or.inl rfl)).2.1, fun V hV a => ?_, k5⟩
  have hA := base_rate tr hu 0 V hjt hV hnow (hbase i k3) a
  rwa [show t - last + (i : K) / 10 + 1 / 10 - (i : K) / 10 = t - last + 1 / 10 by ring] at hA

/-- C122, what holds: when a stitched plan that starts at `g` is taken over, after a last evaluation at `last`, the position reference at `t` differs from the one at `last`, in each
component, by at most the old plan's largest velocity times twice the time from `g` to `last`, plus the new plan's largest velocity times the time from `last` to a tenth of
a second after `t`. -/
theorem C122_stitched_partial (env : Env K) (henv : Segmentwise env) (hmeets : MeetsVertices env) (hj : JoinsSmoothly env) (v : V3 K) (es0 es : List (Event K)) (e : Event K)
    (s s2 s3 s4 : Planner K) (hv0 : ∀ e ∈ es0, ValidEvent e) (hv : ∀ e ∈ es, ValidEvent e) (hok : RunOnTime env (Planner.init v) es0 s) (hpc : s.pc = .snapshotted)
    (hrun : RunBefore env s (.worker :: es) s2) (hs : s2.step env e = .ok (some s3)) (ht : TakesOver s2 s3)
    (hstitched : s3.dyn.head?.map (·.name) = some "stitching_point") (hm : ∀ w ∈ s.dyn, w.modifiers = []) (hm3 : ∀ w ∈ s3.dyn, w.modifiers = [])
    (old tr : Trajectory K) (hold : s.traj = some old) (htr : s3.traj = some tr) (Vold Vnew : K) (hVold : RateBound 1 old Vold) (hVnew : RateBound 1 tr Vnew)
    (g last : K) (hg : s3.getMinTime env = .ok (some (g, s3))) (hlast : last = lastEval (es0 ++ .worker :: es)) (r0 r : References K) (t : K) (o f : Bool)
    (hr0 : s.evaluateTrajectory env last false true = .ok (some (r0, s))) (hr : s3.evaluateTrajectory env t o f = .ok (some (r, s4))) (a : Axis) :
    |comp r.position a - comp r0.position a| ≤ Vold * (2 * |last - g|) + Vnew * |t - last + 1 / 10| := by
  have hreach : Reachable env s := ⟨v, es0, hv0, runWhile_run _ _ _ _ _ hok⟩
  have hc := reachable_ctl env s hreach
  obtain ⟨target, start, near, hp, hu, hb, hmin, hA, k5⟩ := taken_reads env henv hj v es0 es e s s2 s3 s4 hv0 hv hok hpc hrun hs ht hm hm3 tr htr g last hg hlast r t o f hr
  have hA := hA Vnew hVnew a
  have hm2 : ∀ w ∈ s2.dyn, w.modifiers = [] := by rw [hp.2.2.2]; exact hm
  -- the start of the new plan
  obtain ⟨g', rg, tr2, hg', hrg, htr2, hstart⟩ := C53_partial env henv hmeets v es0 s s2 s3 hv0 hok hpc es e hv hrun hs ht hstitched
  rw [htr] at htr2
  obtain rfl := Option.some.inj htr2
  have hgg : g' = g := by
    rw [hg] at hg'
    exact ((Prod.mk.inj (Option.some.inj (Except.ok.inj hg'))).1).symm
  subst hgg
  have hp0 : start = rg.position := by
    obtain ⟨v0, hv0, he⟩ := hstart 0 (by omega)
    obtain rfl := Option.some.inj hv0
    exact v3_of_list (Except.ok.inj (hb.symm.trans he))
  -- the target of the time fitting is the last reference
  have hsw := snapshotted_idle s hc hpc
  have htarget : target = r0.position := by
    rcases k5 with ⟨hh, _⟩ | ⟨_, old2, g0, hold2, hg0, href⟩
    · rw [hstitched] at hh; simp at hh
    · have e2 : old2 = old := by
        have := hp.1; rw [hold2, hold] at this; exact Option.some.inj this
      subst e2
      have b1 := reference_base env old2 s2.dyn hm2 href
      have hgs := idle_minTime env s old2 hold
      have b2 := reference_base env old2 s.dyn hm ((C40_references env henv s hreach old2 hold hsw _ hgs last false true r0 s hr0).1 0 r0.position rfl)
      have e3 : g0 = s.params.gtlg := by
        rw [getMinTime_eq env s2 (by rw [hold2]; simp)] at hg0
        rw [← (Prod.mk.inj (Option.some.inj (Except.ok.inj hg0))).1, hp.2.1]
      have e4 : s2.getTimeCompensation = s.getTimeCompensation := hp.2.2.1
      rw [e3, e4] at b1
      rw [b1] at b2
      exact v3_of_list (Except.ok.inj b2)
  subst htarget
  have hVn := rateBound_nonneg old (traj_usable env henv s (reachable_plan env henv s hreach) old hold) 1 Vold hVold
  have hB : |comp near a - comp r0.position a| ≤ Vold * (2 * |last - g'|) := by
    rw [show Vold * (2 * |last - g'|) = 2 * (Vold * |last - g'|) by ring]
    refine comp_le_of_sqDist _ _ _ (by positivity) ?_ a
    refine hmin.trans ?_
    rw [hp0]
    refine sqDist_le_of_comp _ _ _ fun i => ?_
    have := C121_rate_partial env henv hj s hreach old hold hsw hm g' last false true false true rg r0 s s hrg hr0 0 (by omega) Vold hVold _ _ rfl rfl i
    rwa [abs_sub_comm g' last] at this
  have := abs_sub_le (comp r.position a) (comp near a) (comp r0.position a)
  linarith

/-- The trajectory of a plan from scratch starts at the vehicle's position when it was prepared. -/
theorem scratch_start (env : Env K) (henv : Segmentwise env) (hmeets : MeetsVertices env) (s : Planner K) (h : Reachable env s) (hpc : s.pc = .snapshotted)
    (es : List (Event K)) (s2 s3 : Planner K) (hrun : RunBefore env s (.worker :: es) s2) (e : Event K) (hv : ∀ e ∈ es, ValidEvent e) (hs : s2.step env e = .ok (some s3))
    (ht : TakesOver s2 s3) (hscratch : s3.dyn.head?.map (·.name) = some "") :
    ∃ tr, s3.traj = some tr ∧ tr.evaluate 0 0 = .ok [s.vehicle.x, s.vehicle.y, s.vehicle.z] ∧ tr.evaluate 0 1 = .ok [0, 0, 0] ∧ tr.evaluate 0 2 = .ok [0, 0, 0] := by
  have hc := reachable_ctl env s h
  have hne : ¬ EnoughLeft s := ((C53_when env s h hpc es s2 s3 hrun e hs ht).2).mp hscratch
  obtain ⟨s1, h1, _, hrun1⟩ := runWhile_cons _ _ _ _ _ _ hrun
  have hst : s.checkStitchTrajectory = false := by
    rw [Bool.eq_false_iff]; exact fun hh => hne ((stitch_iff s).mp hh)
  have h1' := h1
  simp only [Planner.step, Planner.workerStep, hpc, Bind.bind, Except.bind] at h1'
  rw [hst] at h1'
  simp only [Bool.false_eq_true, if_false] at h1'
  cases hw : s.appendDronePosition s.next with
  | error e => rw [hw] at h1'; cases h1'
  | ok ws =>
    rw [hw] at h1'
    have hs1 := Option.some.inj (Except.ok.inj h1')
    obtain ⟨w0, rfl, hb0, _, _, hcur, hd1, hd2⟩ := appendDrone_spec s _ ws hw
    set P : List (Waypoint K) → Prop := fun ws => ∃ w rest, ws = w :: rest ∧ SameWaypoint w0 w with hPdef
    have hP : ∀ ws ws', P ws → List.Forall₂ SameWaypoint ws ws' → P ws' := by
      rintro _ ws' ⟨w, rest, rfl, hsame⟩ hf
      cases hf with
      | cons hab hrest => exact ⟨_, _, rfl, same_trans _ _ _ hsame hab⟩
    have hprep : Prepared P s.newParams.gtlg s1 := by
      rw [← hs1]
      exact ⟨Or.inl rfl, ⟨w0, _, rfl, same_refl _⟩, rfl⟩
    obtain ⟨hp2, hc2⟩ := prepared_run env P hP _ s1 s2 es (ctl_step env _ _ _ hc h1) hprep hrun1
    rcases prepared_step env P hP _ e s2 s3 hc2 hp2 hs with hno | ⟨_, _, hg, tr, hfut, htr⟩
    · exact absurd ht hno.2
    obtain ⟨_, ⟨w, rest, hnext, hsame⟩, _⟩ := hp2
    have hreach2 : Reachable env s2 := by
      obtain ⟨v, es0, hv0, hr0⟩ := h
      refine ⟨v, es0 ++ (.worker :: es), ?_, run_append env _ _ _ _ _ hr0 (runWhile_run _ _ _ _ _ hrun)⟩
      intro e he
      rcases List.mem_append.mp he with he | he
      · exact hv0 e he
      · rcases List.mem_cons.mp he with rfl | he
        · trivial
        · exact hv e he
    obtain ⟨_, vs, sp, hvs, ho⟩ := (reachable_plan env henv s2 hreach2).ready tr hfut
    have hbk : ∀ w ∈ s2.next, Bookkept w := (reachable_wp env s2 hreach2).next
    have hlen := hc2.next2 (Or.inr ht.1)
    obtain ⟨v, hv0, hsamev, _⟩ := extractVertices_position s2.next vs hvs hbk 0 w (by rw [hnext]; rfl)
    have hcon : ∀ k : ℕ, v.getConstraint k = w0.vertex.getConstraint k := fun k => (hsamev k (Or.inl (by omega))).trans (hsame.2.2 k)
    have key : ∀ (k : ℕ) (c : List K), k ≤ 4 → w0.vertex.getConstraint k = some c → tr.evaluate 0 k = .ok c := by
      intro k c hk hcc
      have := hmeets vs sp tr ho (fun v hv => (extractVertices_wellFormed s2.next vs hvs hbk v hv).1) 0 v hv0 k c hk (by rw [hcon k, hcc])
      rwa [startOf_zero] at this
    refine ⟨tr, htr, key 0 _ (by norm_num) (by rw [← hcur]; exact hb0.2.2.1), key 1 _ (by norm_num) hd1, key 2 _ (by norm_num) hd2⟩

/-- C122, plans from scratch: when a plan that was made from scratch is taken over, and the vehicle has not moved further than `d` since it was prepared, the position reference at
`t` is within `d` of the vehicle, plus the new plan's largest velocity times the time from the last evaluated instant to a tenth of a second after `t`. -/
theorem C122_scratch (env : Env K) (henv : Segmentwise env) (hmeets : MeetsVertices env) (hj : JoinsSmoothly env) (v : V3 K) (es0 es : List (Event K)) (e : Event K)
    (s s2 s3 s4 : Planner K) (hv0 : ∀ e ∈ es0, ValidEvent e) (hv : ∀ e ∈ es, ValidEvent e) (hok : RunOnTime env (Planner.init v) es0 s) (hpc : s.pc = .snapshotted)
    (hrun : RunBefore env s (.worker :: es) s2) (hs : s2.step env e = .ok (some s3)) (ht : TakesOver s2 s3) (hscratch : s3.dyn.head?.map (·.name) = some "")
    (hm : ∀ w ∈ s.dyn, w.modifiers = []) (hm3 : ∀ w ∈ s3.dyn, w.modifiers = []) (tr : Trajectory K) (htr : s3.traj = some tr) (V : K) (hV : RateBound 1 tr V)
    (d : K) (hd : 0 ≤ d) (hmoved : sqDist s.vehicle s2.vehicle ≤ d ^ 2) (r : References K) (t : K) (o f : Bool)
    (hr : s3.evaluateTrajectory env t o f = .ok (some (r, s4))) (a : Axis) :
    |comp r.position a - comp s2.vehicle a| ≤ d + V * |t - lastEval (es0 ++ .worker :: es) + 1 / 10| := by
  have hreach : Reachable env s := ⟨v, es0, hv0, runWhile_run _ _ _ _ _ hok⟩
  obtain ⟨target, start, near, hp, hu, hb, hmin, hA, k5⟩ := taken_reads env henv hj v es0 es e s s2 s3 s4 hv0 hv hok hpc hrun hs ht hm hm3 tr htr _ _
    (idle_minTime env s3 tr htr) rfl r t o f hr
  obtain ⟨tr2, htr2, hstart, _, _⟩ := scratch_start env henv hmeets s hreach hpc es s2 s3 hrun e hv hs ht hscratch
  rw [htr] at htr2
  obtain rfl := Option.some.inj htr2
  have hp0 : start = s.vehicle := v3_of_list (Except.ok.inj (hb.symm.trans hstart))
  have htarget : target = s2.vehicle := by
    rcases k5 with ⟨_, h⟩ | ⟨h, _⟩
    · exact h
    · rw [hscratch] at h; simp at h
  subst hp0 htarget
  have h1 := hA V hV a
  have h2 := comp_le_of_sqDist near s2.vehicle d hd (hmin.trans hmoved) a
  have := abs_sub_le (comp r.position a) (comp near a) (comp s2.vehicle a)
  linarith

end

/-! ### The sample: replanning at 1/2 -/

def handover : List (Event ℚ) := history1 ++ [.evaluate (1 / 2) true false, .appendWaypoint (wp "c" 3 3 3), .worker, .worker, .worker]

theorem handover_valid : ∀ e ∈ handover, ValidEvent e := by simp [handover, history1, planEvents, ValidEvent, wp_bookkept]

/-- The positions of the old plan at `last` and of the new plan at `t`. -/
def handoverPositions (s s3 : Planner ℚ) (last t : ℚ) : Option (V3 ℚ × V3 ℚ) :=
  match s.evaluateTrajectory hermiteEnv last false true, s3.evaluateTrajectory hermiteEnv t true true with
  | .ok (some (r0, s')), .ok (some (r, _)) => if s' = s then some (r0.position, r.position) else none
  | _, _ => none

theorem handoverPositions_spec (s s3 : Planner ℚ) (last t : ℚ) (x : V3 ℚ × V3 ℚ) (h : handoverPositions s s3 last t = some x) :
    ∃ r0 r s4, s.evaluateTrajectory hermiteEnv last false true = .ok (some (r0, s)) ∧ s3.evaluateTrajectory hermiteEnv t true true = .ok (some (r, s4)) ∧
      x = (r0.position, r.position) := by
  unfold handoverPositions at h
  split at h
  · rename_i r0 s' r s4 h1 h2
    split at h
    · rename_i hss
      subst hss
      exact ⟨r0, r, s4, h1, h2, (Option.some.inj h).symm⟩
    · cases h
  · cases h

def noModifiers (s : Planner ℚ) : Bool := s.dyn.all fun w => decide (w.modifiers = [])

theorem noModifiers_spec (s : Planner ℚ) (h : noModifiers s = true) : ∀ w ∈ s.dyn, w.modifiers = [] := by
  intro w hw
  exact of_decide_eq_true (List.all_eq_true.mp h w hw)

/-- A sample history's handover: a plan that was stitched after an evaluation at 1/2 is taken over at `t`. -/
theorem handover_sample (t : ℚ) (f : Planner ℚ → Planner ℚ → Planner ℚ → Bool)
    (h : (run3w? onTime notTaken handover (planRest.drop 2) (.evaluate t true false)).map (fun q => f q.1 q.2.1 q.2.2) = some true) :
    ∃ s s2 s3, RunOnTime hermiteEnv (Planner.init ⟨0, 0, 0⟩) handover s ∧ RunBefore hermiteEnv s (.worker :: planRest.drop 3) s2 ∧
      s2.step hermiteEnv (.evaluate t true false) = .ok (some s3) ∧ f s s2 s3 = true :=
  run3w?_map onTime notTaken _ _ onTime_ok notTaken_ok handover (planRest.drop 2) (.evaluate t true false) f true h

/-- C122 is false of the code: the instant 1/2 is evaluated again after the next plan has been computed, and the position reference jumps from 0.733 to 0.908, because the new plan
is read a tenth of a second ahead. -/
theorem C122_refuted : ¬ C122Full ℚ := by
  intro h
  obtain ⟨s, s2, s3, h1, h2, h3, hf⟩ := handover_sample (1 / 2) (fun s s2 s3 => decide (s.pc = .snapshotted ∧ s2.computing = true ∧ s3.computing = false ∧
      s3.dyn.head?.map (·.name) = some "stitching_point" ∧ noModifiers s = true ∧ noModifiers s3 = true ∧ s.traj.isSome = true ∧ s3.traj.isSome = true ∧
      handoverPositions s s3 (1 / 2) (1 / 2) = some (⟨286497 / 390625, 0, 0⟩, ⟨1134511246602863 / 1250000000000000, 0, 0⟩))) (by decide +kernel)
  obtain ⟨k1, k2, k3, k4, k5, k6, k7, k8, k9⟩ := of_decide_eq_true hf
  obtain ⟨old, hold⟩ := Option.isSome_iff_exists.mp k7
  obtain ⟨tr, htr⟩ := Option.isSome_iff_exists.mp k8
  obtain ⟨r0, r, s4, hr0, hr, hx⟩ := handoverPositions_spec s s3 _ _ _ k9
  have hreach : Reachable hermiteEnv s := ⟨_, handover, handover_valid, runWhile_run _ _ _ _ _ h1⟩
  have hvr : ∀ e ∈ planRest.drop 3, ValidEvent e := by simp [planRest, ValidEvent]
  have hreach3 : Reachable hermiteEnv s3 := by
    refine ⟨_, handover ++ (.worker :: planRest.drop 3) ++ [.evaluate (1 / 2) true false], ?_, .snoc _ (run_append _ _ _ _ _ _ (runWhile_run _ _ _ _ _ h1) (runWhile_run _ _ _ _ _ h2)) h3⟩
    intro e he
    rcases List.mem_append.mp he with he | he
    · rcases List.mem_append.mp he with he | he
      · exact handover_valid e he
      · rcases List.mem_cons.mp he with rfl | he
        · trivial
        · exact hvr e he
    · rw [List.mem_singleton.mp he]; trivial
  obtain ⟨V1, hV1⟩ := C121_bound hermiteEnv hermite_segmentwise s hreach old hold 1
  obtain ⟨V2, hV2⟩ := C121_bound hermiteEnv hermite_segmentwise s3 hreach3 tr htr 1
  have hlast : lastEval (handover ++ .worker :: planRest.drop 3) = 1 / 2 := by decide +kernel
  have key := h hermiteEnv hermite_segmentwise hermite_meets (hermite_joins _) _ handover (planRest.drop 3) _ s s2 s3 s4 handover_valid hvr h1 k1 h2 h3 ⟨k2, k3⟩ k4
    (noModifiers_spec s k5) (noModifiers_spec s3 k6) old tr hold htr (max V1 V2)
    (fun t a b v hv x hx => (hV1 t a b v hv x hx).trans (le_max_left _ _)) (fun t a b v hv x hx => (hV2 t a b v hv x hx).trans (le_max_right _ _))
    r0 r (1 / 2) true true (by rw [hlast]; exact hr0) hr .x
  rw [hlast, sub_self, abs_zero, mul_zero] at key
  obtain ⟨e1, e2⟩ := Prod.mk.inj hx
  rw [← e1, ← e2] at key
  norm_num [comp] at key

-- The hypotheses of `C122_stitched_partial` and `C122_unchanged` are met: the same handover at 3/5.
example : ∃ s s2 s3 s4 r0 r, RunOnTime hermiteEnv (Planner.init ⟨0, 0, 0⟩) handover s ∧ RunBefore hermiteEnv s (.worker :: planRest.drop 3) s2 ∧
    s2.step hermiteEnv (.evaluate (3 / 5) true false) = .ok (some s3) ∧ s.pc = .snapshotted ∧ TakesOver s2 s3 ∧
    s3.dyn.head?.map (·.name) = some "stitching_point" ∧ (∀ w ∈ s.dyn, w.modifiers = []) ∧ (∀ w ∈ s3.dyn, w.modifiers = []) ∧ lastEval (handover ++ .worker :: planRest.drop 3) = 1 / 2 ∧
    s3.params.gtlg = 1 / 2 ∧ s.evaluateTrajectory hermiteEnv (1 / 2) false true = .ok (some (r0, s)) ∧
    s3.evaluateTrajectory hermiteEnv (3 / 5) true true = .ok (some (r, s4)) := by
  obtain ⟨s, s2, s3, h1, h2, h3, hf⟩ := handover_sample (3 / 5) (fun s s2 s3 => decide (s.pc = .snapshotted ∧ (s2.computing = true ∧ s3.computing = false) ∧
      s3.dyn.head?.map (·.name) = some "stitching_point" ∧ noModifiers s = true ∧ noModifiers s3 = true ∧ s3.params.gtlg = 1 / 2 ∧
      (handoverPositions s s3 (1 / 2) (3 / 5)).isSome)) (by decide +kernel)
  obtain ⟨k1, k2, k3, k4, k5, k6, k7⟩ := of_decide_eq_true hf
  obtain ⟨x, hx⟩ := Option.isSome_iff_exists.mp k7
  obtain ⟨r0, r, s4, hr0, hr, _⟩ := handoverPositions_spec s s3 _ _ _ hx
  exact ⟨s, s2, s3, s4, r0, r, h1, h2, h3, k1, k2, k3, noModifiers_spec s k4, noModifiers_spec s3 k5, by decide +kernel, k6, hr0, hr⟩

-- Those of `C122_scratch` by the first plan, which is taken over at 1/10; the vehicle moved from (0, 0, 0) to (1/10, 0, 0) meanwhile.
example : ∃ s s2 s3, RunOnTime hermiteEnv (Planner.init ⟨0, 0, 0⟩) (history1.take 6) s ∧
    RunBefore hermiteEnv s (.worker :: [.worker, .worker, .worker, .updateVehiclePosition ⟨1 / 10, 0, 0⟩, .asyncStart, .asyncFinish (1 / 100)]) s2 ∧
    s2.step hermiteEnv (.evaluate (1 / 10) true false) = .ok (some s3) ∧ s.pc = .snapshotted ∧ TakesOver s2 s3 ∧ s3.dyn.head?.map (·.name) = some "" ∧
    (∀ w ∈ s.dyn, w.modifiers = []) ∧ (∀ w ∈ s3.dyn, w.modifiers = []) ∧ s3.traj ≠ none ∧ sqDist s.vehicle s2.vehicle ≤ (1 / 10) ^ 2 := by
  obtain ⟨s, s2, s3, h1, h2, h3, hf⟩ := run3w?_map onTime notTaken _ _ onTime_ok notTaken_ok (history1.take 6)
    (.worker :: [.worker, .worker, .worker, .updateVehiclePosition ⟨1 / 10, 0, 0⟩, .asyncStart, .asyncFinish (1 / 100)]) (.evaluate (1 / 10) true false)
    (fun s s2 s3 => decide (s.pc = .snapshotted ∧ (s2.computing = true ∧ s3.computing = false) ∧ s3.dyn.head?.map (·.name) = some "" ∧
      noModifiers s = true ∧ noModifiers s3 = true ∧ s3.traj ≠ none ∧ sqDist s.vehicle s2.vehicle ≤ (1 / 10) ^ 2)) true (by decide +kernel)
  obtain ⟨k1, k2, k3, k4, k5, k6, k7⟩ := of_decide_eq_true hf
  exact ⟨s, s2, s3, h1, h2, h3, k1, k2, k3, noModifiers_spec s k4, noModifiers_spec s3 k5, k6, k7⟩

-- Those of C123 by an evaluation that takes over a plan.
example : ∃ (s2 s3 : Planner ℚ) (r : References ℚ), s2.evaluateTrajectory hermiteEnv (3 / 5) true false = .ok (some (r, s3)) ∧ TakesOver s2 s3 ∧ Reachable hermiteEnv s2 ∧
    s3.evaluateTrajectory hermiteEnv (3 / 5) true false = .ok (some (r, s3)) ∧ ¬ PlanWaiting s3 := by
  obtain ⟨s, s2, s3, h1, h2, h3, hf⟩ := handover_sample (3 / 5) (fun _ s2 s3 => decide ((s2.computing = true ∧ s3.computing = false) ∧ s3.future = .invalid)) (by decide +kernel)
  obtain ⟨k1, k2⟩ := of_decide_eq_true hf
  obtain ⟨r, _, h, _, _⟩ := step_evaluate hermiteEnv s2 s3 _ _ _ h3
  obtain ⟨s4, h4, h5, _⟩ := C123_again hermiteEnv s2 s3 _ _ _ false r h
  rw [h5 (Or.inl rfl)] at h4
  refine ⟨s2, s3, r, h, k1, ⟨_, handover ++ (.worker :: planRest.drop 3), ?_, run_append _ _ _ _ _ _ (runWhile_run _ _ _ _ _ h1) (runWhile_run _ _ _ _ _ h2)⟩, h4,
    by rintro (h | ⟨_, h⟩) <;> rw [k2] at h <;> cases h⟩
  intro e he
  rcases List.mem_append.mp he with he | he
  · exact handover_valid e he
  · rcases List.mem_cons.mp he with rfl | he
    · trivial
    · exact (by simp [planRest, ValidEvent] : ∀ e ∈ planRest.drop 3, ValidEvent e) e he

end Verif.Properties
