import Verif.Properties.PlannerAppend
import Mathlib.Analysis.Complex.ExponentialBounds

/-!
# Property C131: a waypoint moved in flight is flown to its new position
-/

set_option linter.unusedSectionVars false

namespace Verif.Properties
open Verif Verif.Spec Verif.Lemmas

section
variable {K : Type*} [Field K] [LinearOrder K] [IsStrictOrderedRing K] [FloorRing K]

/-- One if the event is a phase of the worker's loop. -/
def workerPhase : Event K → ℕ
  | .worker => 1
  | _ => 0

/-- The number of phases of its loop the worker goes through in a history. -/
def workerPhases (es : List (Event K)) : ℕ := (es.map workerPhase).sum

theorem workerPhases_snoc (es : List (Event K)) (e : Event K) : workerPhases (es ++ [e]) = workerPhases es + workerPhase e := by
  simp [workerPhases]

/-- `w'` is what becomes of the waypoint `w` of the plan if the position `p` for the name `n` is applied at the instant `a`. -/
def MovedAt (n : String) (p : V3 K) (a : K) (w w' : Waypoint K) : Prop :=
  (w.name = n ∧ w.setCurrentPosition p a = .ok w') ∨ (w.name ≠ n ∧ w' = w)

structure Moving (s0 : Planner K) (n : String) (p : V3 K) (ts : List K) (i : ℕ) (s : Planner K) : Prop where
  traj : s.traj = s0.traj
  gtlg : s.params.gtlg = s0.params.gtlg
  tOffset : s.params.tOffset = s0.params.tOffset
  flags : s.computing = false ∧ s.generateNew = false
  last : s.params.lastGlobal ∈ ts
  stage : (i = 0 ∧ s.pc = .top ∧ s.toModify = [(n, p)] ∧ s.dyn = s0.dyn) ∨ (i = 1 ∧ s.pc = .apply ∧ s.toModify = [(n, p)] ∧ s.dyn = s0.dyn) ∨
    (2 ≤ i ∧ s.pc = .top ∧ s.toModify = [] ∧ ∃ a ∈ ts, List.Forall₂ (MovedAt n p a) s0.dyn s.dyn)

theorem moving_micro (env : Env K) (s0 : Planner K) (n : String) (hn : n ≠ "") (p : V3 K) (ts : List K) (i : ℕ) (e : Event K) (s s' : Planner K)
    (he : ¬ IsRequest e) (ht : ∀ t o, e = .evaluate t o false → t ∈ ts) (hc : Ctl s) (hi : Moving s0 n p ts i s) (h : Micro env e s s') :
    Moving s0 n p ts (i + workerPhase e) s' := by
  obtain ⟨i1, i2, i3, i4, i5, i6⟩ := hi
  have nopc : ∀ {x : WorkerPc}, s.pc = x → x ≠ .top → x ≠ .apply → False := by
    intro x hx h1 h2
    rcases i6 with ⟨_, h, _⟩ | ⟨_, h, _⟩ | ⟨_, h, _⟩ <;> rw [hx] at h
    · exact h1 h
    · exact h2 h
    · exact h1 h
  cases h with
  | setWaypoints _ ws => exact absurd trivial he
  | append _ w => exact absurd trivial he
  | modify _ n p g => exact absurd trivial he
  | modifyMany _ ms => exact absurd trivial he
  | takeOver _ _ new off hcomp hr _ hfit => rw [i4.1] at hcomp; cases hcomp
  | evalTime _ t o htr => exact ⟨i1, i2, i3, i4, ht t o rfl, i6⟩
  | goCollect _ hp hg hz hcomp => rw [i4.2] at hg; cases hg
  | goApply _ hp hm hcomp hno =>
    refine ⟨i1, i2, i3, i4, i5, ?_⟩
    rcases i6 with ⟨rfl, _, h3, h4⟩ | ⟨rfl, h2, _⟩ | ⟨_, _, h3, _⟩
    · exact .inr (.inl ⟨rfl, rfl, h3, h4⟩)
    · rw [hp] at h2; cases h2
    · exact absurd h3 hm
  | collect _ ws hp hw => exact (nopc hp (by decide) (by decide)).elim
  | nothingToPlan _ hp _ => exact (nopc hp (by decide) (by decide)).elim
  | snapshot _ hp _ => exact (nopc hp (by decide) (by decide)).elim
  | stitch _ _ hp _ _ => exact (nopc hp (by decide) (by decide)).elim
  | scratch _ _ hp _ _ => exact (nopc hp (by decide) (by decide)).elim
  | planned _ hp => exact (nopc hp (by decide) (by decide)).elim
  | launch _ hp => exact (nopc hp (by decide) (by decide)).elim
  | launched _ hp => exact (nopc hp (by decide) (by decide)).elim
  | apply _ s2 hp ha =>
    rcases i6 with ⟨_, h2, _⟩ | ⟨rfl, _, h3, h4⟩ | ⟨_, h2, _⟩
    · rw [hp] at h2; cases h2
    · obtain ⟨_, d, r, hs2, _⟩ := applyAll_rel (fun _ _ => True) (fun _ => trivial) (fun _ _ _ _ _ => trivial)
        (fun _ _ _ _ _ => trivial) _ s s2 ha
      rw [h3] at ha
      obtain ⟨hf, _⟩ := applyAll_exact _ (by simp) s s2 ha
      refine ⟨by rw [hs2]; exact i1, by rw [hs2]; exact i2, by rw [hs2]; exact i3, by rw [hs2]; exact i4, by rw [hs2]; exact i5, .inr (.inr ⟨le_rfl, rfl, rfl, s.params.lastGlobal, i5, ?_⟩)⟩
      rw [← h4]
      refine hf.imp ?_
      rintro a b (⟨h, rfl⟩ | ⟨h, ⟨hl, rfl⟩ | ⟨q, hl, hset⟩⟩)
      · exact .inr ⟨by rw [h]; exact hn.symm, rfl⟩
      · refine .inr ⟨fun hx => ?_, rfl⟩
        simp [lookupMod, hx] at hl
      · by_cases hx : a.name = n
        · refine .inl ⟨hx, ?_⟩
          simp [lookupMod, hx] at hl
          rw [hl]; exact hset
        · simp [lookupMod, Ne.symm hx] at hl
    · rw [hp] at h2; cases h2
  | asyncStart _ hf => rw [hc.idle i4.1] at hf; cases hf
  | asyncFinish _ _ _ _ _ hf _ => rw [hc.idle i4.1] at hf; cases hf
  | asyncFail _ _ _ hf _ => rw [hc.idle i4.1] at hf; cases hf
  | setSpeed _ v => exact ⟨i1, i2, i3, i4, i5, i6⟩
  | clearRegenerated _ => exact ⟨i1, i2, i3, i4, i5, i6⟩
  | vehicle _ p => exact ⟨i1, i2, i3, i4, i5, i6⟩

theorem moving_step (env : Env K) (s0 : Planner K) (n : String) (hn : n ≠ "") (p : V3 K) (ts : List K) (i : ℕ) (e : Event K) (s s' : Planner K)
    (he : ¬ IsRequest e) (ht : ∀ t o, e = .evaluate t o false → t ∈ ts) (hc : Ctl s) (hi : Moving s0 n p ts i s) (h : s.step env e = .ok (some s')) :
    Moving s0 n p ts (i + workerPhase e) s' := by
  rcases step_micro' env e s s' h with ⟨rfl, hx⟩ | h | ⟨m, ⟨t, o, rfl⟩, h1, h2⟩
  · cases e with
    | worker =>
      obtain ⟨k1, _, k3⟩ := hx rfl
      obtain ⟨i1, i2, i3, i4, i5, i6⟩ := hi
      refine ⟨i1, i2, i3, i4, i5, ?_⟩
      rcases k3 with k3 | k3
      · rcases i6 with ⟨_, _, h3, _⟩ | ⟨_, h2, _⟩ | ⟨h1, h2, h3, h4⟩
        · rw [k3] at h3; cases h3
        · rw [k1] at h2; cases h2
        · exact .inr (.inr ⟨Nat.le_succ_of_le h1, h2, h3, h4⟩)
      · rw [i4.1] at k3; cases k3
    | _ => exact hi
  · exact moving_micro env s0 n hn p ts i e s s' he ht hc hi h
  · exact moving_micro env s0 n hn p ts i _ m s' he ht (ctl_micro env _ s m hc h1) (moving_micro env s0 n hn p ts i _ s m he ht hc hi h1) h2

theorem moving_run (env : Env K) (s0 : Planner K) (hc0 : Ctl s0) (hidle : s0.pc = .top ∧ s0.computing = false) (hq : s0.toModify = [])
    (n : String) (hn : n ≠ "") (p : V3 K) (ts : List K) (hts : s0.params.lastGlobal ∈ ts) (after : List (Event K)) (hr : ∀ e ∈ after, ¬ IsRequest e)
    (ht : ∀ e ∈ after, ∀ t o, e = .evaluate t o false → t ∈ ts) (s1 s : Planner K) (h1 : s0.step env (.modifyWaypoint n p false) = .ok (some s1))
    (h : Run env s1 after s) : Ctl s ∧ Moving s0 n p ts (workerPhases after) s := by
  have hb : Ctl s1 ∧ Moving s0 n p ts 0 s1 := by
    refine ⟨ctl_step env _ s0 s1 hc0 h1, ?_⟩
    rw [← Option.some.inj (Except.ok.inj h1)]
    refine ⟨rfl, rfl, rfl, ⟨hidle.2, rfl⟩, hts, .inl ⟨rfl, hidle.1, ?_, rfl⟩⟩
    show Planner.putModification n p s0.toModify = _
    rw [hq]; rfl
  clear h1
  induction h with
  | nil => exact hb
  | snoc e _ hs ih =>
    obtain ⟨c, i⟩ := ih (fun e he => hr e (by simp [he])) (fun e he => ht e (by simp [he]))
    refine ⟨ctl_step env e _ _ c hs, ?_⟩
    rw [workerPhases_snoc]
    exact moving_step env s0 n hn p ts _ e _ _ (hr e (by simp)) (ht e (by simp)) c i hs

/-- Only one waypoint has the name. -/
theorem moved_one (n : String) (p : V3 K) (a : K) (pre post : List (Waypoint K)) (w : Waypoint K) (hw : w.name = n) (hpre : ∀ u ∈ pre ++ post, u.name ≠ n)
    (ds : List (Waypoint K)) (h : List.Forall₂ (MovedAt n p a) (pre ++ w :: post) ds) :
    ∃ w', ds = pre ++ w' :: post ∧ w.setCurrentPosition p a = .ok w' := by
  have same : ∀ us vs : List (Waypoint K), (∀ u ∈ us, u.name ≠ n) → List.Forall₂ (MovedAt n p a) us vs → vs = us := by
    intro us vs hu h
    induction h with
    | nil => rfl
    | cons h1 _ ih =>
      rcases h1 with ⟨h1, _⟩ | ⟨_, rfl⟩
      · exact absurd h1 (hu _ (by simp))
      · rw [ih (fun u hx => hu u (by simp [hx]))]
  obtain ⟨d1, d2, h1, h2, rfl⟩ := forall2_split h
  cases h2 with
  | cons h3 h4 =>
    rename_i w' d3
    rw [same _ _ (fun u hx => hpre u (by simp [hx])) h1, same _ _ (fun u hx => hpre u (by simp [hx])) h4]
    rcases h3 with ⟨_, h3⟩ | ⟨h3, _⟩
    · exact ⟨w', rfl, h3⟩
    · exact absurd hw h3

/-- The references with one waypoint moved, compared with those without. -/
theorem references_moved (env : Env K) (tr : Trajectory K) (p : V3 K) (a : K) (pre post : List (Waypoint K)) (w w' : Waypoint K) (hname : w.name ≠ "")
    (hm : ∀ u ∈ pre ++ w :: post, u.modifiers = []) (hset : w.setCurrentPosition p a = .ok w') (h0 : 0 < a) (h1 : a < w.time) (tl tg : K) (k : ℕ) (v v0 : V3 K)
    (hv : IsReference env tr (pre ++ w' :: post) tl tg k v) (hv0 : IsReference env tr (pre ++ w :: post) tl tg k v0) :
    ((tg ≤ 0 ∨ 7 / 6 * (w.time - a) < |tg - w.time|) → v = v0) ∧
    (k = 0 → 0 < tg → |tg - w.time| ≤ 7 / 6 * (w.time - a) → ∀ ax, comp v ax = comp v0 ax +
      if |comp p ax - comp w.current ax| < 2 / 100 then 0 else env.exp (-(9 / 2 * ((tg - w.time) / (w.time - a)) ^ 2)) * (comp p ax - comp w.current ax)) := by
  have hb0 := reference_base env tr _ hm hv0
  obtain ⟨b, hb, hle, hgt⟩ := hv
  have hbv : b = v0 := by
    rw [hb] at hb0
    have := Except.ok.inj hb0
    simp only [List.cons.injEq, and_true] at this
    obtain ⟨q1, q2, q3⟩ := this
    apply comp_ext
    intro ax
    cases ax
    · exact q1
    · exact q2
    · exact q3
  subst hbv
  obtain ⟨vx, m, _, hw', hmod⟩ := setCurrentPosition_spec w w' p a hset
  have hwm : w.modifiers = [] := hm w (by simp)
  have hmods : w'.modifiers = [m] := by rw [hw', hwm]; rfl
  have hn' : w'.name = w.name := by rw [hw']
  have hwid : ∀ ax, comp m ax = ⟨(w.time - a) / 3, (w.time - a) / 3 * ((w.time - a) / 3), w.time, comp p ax - comp w.current ax⟩ := by
    intro ax
    rw [hmod ax]
    cases ax <;> simp [width, h0]
  have hpos : 0 < w.time - a := by linarith
  -- what the moved waypoint contributes
  have split : 0 < tg → ∃ c, w'.trajectoryCompensation env.exp tg k = .ok c ∧ ∀ ax, comp v ax = comp b ax + comp c ax := by
    intro hg
    obtain ⟨cs, hcs, hsum⟩ := hgt hg
    rw [List.filter_append, List.filter_cons_of_pos (by rw [hn']; simpa using hname)] at hcs
    obtain ⟨c1, c2, k1, k2, rfl⟩ := forall2_split hcs
    cases k2 with
    | cons k3 k4 =>
      rename_i c c3
      have zero : ∀ (us : List (Waypoint K)) (ds : List (V3 K)), (∀ u ∈ us, u.modifiers = []) →
          List.Forall₂ (fun w c => w.trajectoryCompensation env.exp tg k = .ok c) (us.filter fun w => w.name ≠ "") ds → ∀ ax, (ds.map fun c => comp c ax).sum = 0 := by
        intro us ds hus hf ax
        refine List.sum_eq_zero fun x hx => ?_
        obtain ⟨d, hd, rfl⟩ := List.mem_map.mp hx
        obtain ⟨u, hu, hud⟩ := forall₂_left hf d hd
        rw [compensation_none _ u tg k d (hus u (List.mem_filter.mp hu).1) hud]
        cases ax <;> rfl
      refine ⟨c, k3, fun ax => ?_⟩
      rw [hsum ax, List.map_append, List.sum_append, List.map_cons, List.sum_cons, zero pre c1 (fun u hu => hm u (by simp [hu])) k1 ax,
        zero post c3 (fun u hu => hm u (by simp [hu])) k4 ax]
      ring
  have value : ∀ f : Axis → K, (∀ ax, (comp m ax).eval env.exp tg k = .ok (f ax)) → 0 < tg → ∀ ax, comp v ax = comp b ax + f ax := by
    intro f hf hg ax
    obtain ⟨c, hc, hsum⟩ := split hg
    obtain ⟨r', hr', hra⟩ := compensationLoop_ok env.exp tg k (fun _ ax => f ax) w'.modifiers (by
      intro m' hm' ax
      rw [hmods] at hm'
      rw [List.mem_singleton.mp hm']
      exact hf ax) V3.zero
    have hc' : Waypoint.compensationLoop env.exp tg k w'.modifiers V3.zero = .ok c := hc
    rw [hr'] at hc'
    rw [hsum ax, ← Except.ok.inj hc', hra ax, hmods]
    have : comp (V3.zero : V3 K) ax = 0 := by cases ax <;> rfl
    rw [this]; simp
  refine ⟨?_, ?_⟩
  · intro hx
    rcases le_or_gt tg 0 with hg | hg
    · exact hle hg
    · have hout : 7 / 6 * (w.time - a) < |tg - w.time| := hx.resolve_left (not_le.mpr hg)
      apply comp_ext
      intro ax
      rw [value (fun _ => 0) (fun ax => ?_) hg ax, add_zero]
      apply eval_outside
      rw [hwid ax]
      show 7 / 2 * ((w.time - a) / 3) < |tg - w.time|
      linarith
  · rintro rfl hg hin ax
    refine value (fun ax => if |comp p ax - comp w.current ax| < 2 / 100 then 0 else
      env.exp (-(9 / 2 * ((tg - w.time) / (w.time - a)) ^ 2)) * (comp p ax - comp w.current ax)) (fun ax => ?_) hg ax
    by_cases hs : |comp p ax - comp w.current ax| < 2 / 100
    · rw [if_pos hs]
      apply eval_small
      rw [hwid ax]
      exact hs
    · rw [if_neg hs]
      have hne : (w.time - a) ≠ 0 := hpos.ne'
      have hq : (w.time - a) / 3 * ((w.time - a) / 3) ≠ 0 := by positivity
      rw [show ((0 : ℕ) : ℤ) = 0 from rfl, (eval_active env.exp (comp m ax) tg (by rw [hwid ax]; exact not_lt.mp hs) (by
        rw [hwid ax]
        show |tg - w.time| ≤ 7 / 2 * ((w.time - a) / 3)
        linarith) (by rw [hwid ax]; exact hq)).1, hwid ax]
      congr 2
      congr 1
      field_simp
      ring

/-- C131: a planner flies a plan, whatever was requested and flown before (the plans taken over by evaluations); none of the plan's waypoints was moved, nothing is
being prepared or computed and no update is queued. One waypoint is called `n`; it is moved to `p`, without replanning. Nothing else is requested, but vehicle
positions are reported, speeds set and references asked for, in any order. When the worker has gone through two phases of its loop, the waypoint is at `p` for
`getDynamicWaypoints`, with its name, time and other constraints, and the other waypoints are as before. It was moved at one of the instants `a` evaluated last.
If that was before the waypoint's time `T`: asked for references at whatever time, `evaluateTrajectory` answers. Further than `7/6 (T - a)` from `T` the answer
is the one before the move. Closer, the position differs from the one before by `exp(-9/2 ((t - T)/(T - a))²)` of the move, except along axes along which the
waypoint was moved by less than two centimetres; there it is the one before. (`t` is the time asked for plus the time compensation; the references of instants
at most 0 do not change at all.) -/
theorem C131_moved (env : Env K) (henv : Segmentwise env) (v : V3 K) (es : List (Event K)) (hes : ∀ e ∈ es, FreshEvent e)
    (s0 : Planner K) (h0 : RunOnTime env (Planner.init v) es s0) (hidle : s0.pc = .top ∧ s0.computing = false) (hq : s0.toModify = [])
    (hm : ∀ u ∈ s0.dyn, u.modifiers = []) (pre post : List (Waypoint K)) (w : Waypoint K) (hdyn : s0.dyn = pre ++ w :: post)
    (hname : w.name ≠ "") (hone : ∀ u ∈ pre ++ post, u.name ≠ w.name) (p : V3 K) (after : List (Event K)) (hr : ∀ x ∈ after, ¬ IsRequest x ∧ ValidEvent x)
    (s : Planner K) (h : Run env s0 (.modifyWaypoint w.name p false :: after) s) (hphases : 2 ≤ workerPhases after) :
    ∃ a ∈ lastEval es :: evalTimes after, ∃ w' : Waypoint K,
      (w'.name = w.name ∧ w'.time = w.time ∧ w'.current = p ∧ ∀ k : ℤ, k ≠ 0 → w'.vertex.getConstraint k = w.vertex.getConstraint k) ∧
      s.getDynamicWaypoints env = .ok (some ((pre ++ w' :: post).map (·.copy), s)) ∧ s.getTimeCompensation = s0.getTimeCompensation ∧
      (0 < a → a < w.time → ∀ t o f, ∃ r s1 r0 s2, s.evaluateTrajectory env t o f = .ok (some (r, s1)) ∧ s0.evaluateTrajectory env t o f = .ok (some (r0, s2)) ∧
        (t + s0.getTimeCompensation ≤ 0 ∨ 7 / 6 * (w.time - a) < |t + s0.getTimeCompensation - w.time| → r = r0) ∧
        (0 < t + s0.getTimeCompensation → |t + s0.getTimeCompensation - w.time| ≤ 7 / 6 * (w.time - a) → ∀ ax,
          comp r.position ax = comp r0.position ax + if |comp p ax - comp w.current ax| < 2 / 100 then 0 else
            env.exp (-(9 / 2 * ((t + s0.getTimeCompensation - w.time) / (w.time - a)) ^ 2)) * (comp p ax - comp w.current ax))) := by
  have hfr0 : ReachableBy FreshEvent env s0 := ⟨v, es, hes, runWhile_run _ _ _ _ _ h0⟩
  have hre0 := reachable_of_fresh hfr0
  have hc0 := reachable_ctl env s0 hre0
  have hk := clock_run env v es s0 h0
  have hs0 : ¬ PlanWaiting s0 := by
    rintro (h | ⟨tr, h⟩) <;> rw [hc0.idle hidle.2] at h <;> cases h
  have hp0 := reachable_plan env henv s0 hre0
  have hwmem : w ∈ s0.dyn := by rw [hdyn]; simp
  obtain ⟨tr, htr⟩ : ∃ tr, s0.traj = some tr := by
    cases ht : s0.traj with
    | none => rw [hp0.none ht] at hwmem; cases hwmem
    | some tr => exact ⟨tr, rfl⟩
  obtain ⟨s1, hs1, hrun⟩ : ∃ s1, s0.step env (.modifyWaypoint w.name p false) = .ok (some s1) ∧ Run env s1 after s := by
    obtain ⟨m, k1, k2⟩ := run_split env s0 [.modifyWaypoint w.name p false] after s h
    obtain ⟨m', k3, k4⟩ := run_snoc_inv env s0 [] _ m k1
    have : m' = s0 := by
      generalize hl : ([] : List (Event K)) = l at k3
      cases k3 with
      | nil => rfl
      | snoc _ _ => simp at hl
    exact ⟨m, by rw [← this]; exact k4, k2⟩
  obtain ⟨c1, i1, i2, i3, i4, _, i6⟩ := moving_run env s0 hc0 hidle hq w.name hname p (lastEval es :: evalTimes after)
    (by rw [hk.global]; exact List.mem_cons_self ..) after (fun e he => (hr e he).1) (by
      rintro x hx t o rfl
      exact List.mem_cons_of_mem _ (List.mem_filterMap.mpr ⟨_, hx, rfl⟩)) s1 s hs1 hrun
  obtain ⟨a, ha, hf⟩ : ∃ a ∈ lastEval es :: evalTimes after, List.Forall₂ (MovedAt w.name p a) s0.dyn s.dyn := by
    rcases i6 with ⟨h, _⟩ | ⟨h, _⟩ | ⟨_, _, _, h⟩
    · omega
    · omega
    · exact h
  rw [hdyn] at hf
  obtain ⟨w', hd', hset⟩ := moved_one w.name p a pre post w rfl hone _ hf
  have hfr : ReachableBy FreshEvent env s := by
    refine ⟨v, es ++ (.modifyWaypoint w.name p false :: after), ?_, run_append' env _ _ _ s0 s (runWhile_run _ _ _ _ _ h0) h⟩
    intro x hx
    rcases List.mem_append.mp hx with hx | hx
    · exact hes x hx
    · rcases List.mem_cons.mp hx with rfl | hx
      · trivial
      · have h1 := hr x hx
        cases x <;> first | exact absurd trivial h1.1 | exact h1.2
  have hre := reachable_of_fresh hfr
  have hwait : ¬ PlanWaiting s := by
    rintro (h | ⟨tr, h⟩) <;> rw [c1.idle i4.1] at h <;> cases h
  have htr' : s.traj = some tr := i1.trans htr
  obtain ⟨vx, m, hvx, hw', hmod⟩ := setCurrentPosition_spec w w' p a hset
  have hbk := (reachable_wp env s0 hre0).dyn w hwmem
  refine ⟨a, ha, w', ⟨by rw [hw'], by rw [hw'], by rw [hw'], ?_⟩, ?_, i3, ?_⟩
  · exact fun k hk => setCurrentPosition_constraints w w' p a hbk hset k hk
  · unfold Planner.getDynamicWaypoints
    rw [check_idle env s hwait (by rw [htr']; simp), ← hd']
    rfl
  · intro hpos hlt t o f
    have hz0 : NoZeroWidth s0.dyn := fun u hu m hmm => by rw [hm u hu] at hmm; cases hmm
    have hz : NoZeroWidth s.dyn := by
      intro u hu m' hm' ax
      rw [hd'] at hu
      by_cases hx : u = w'
      · rw [hx, hw'] at hm'
        simp only [hm w hwmem, List.nil_append, List.mem_singleton] at hm'
        rw [hm', hmod ax]
        have : (w.time - a) / 3 ≠ 0 := by
          have : 0 < (w.time - a) / 3 := by linarith
          exact this.ne'
        have hwd : width w.time a w.lastSigma ax = (w.time - a) / 3 := by cases ax <;> simp [width, hpos]
        simp only [hwd]
        exact mul_ne_zero this this
      · rw [hm u (by
          rw [hdyn]
          rcases List.mem_append.mp hu with hu | hu
          · simp [hu]
          · rcases List.mem_cons.mp hu with hu | hu
            · exact absurd hu hx
            · simp [hu])] at hm'
        cases hm'
    obtain ⟨r, s1', hev⟩ := C40_returns env henv s hre tr htr' hwait hz t o f
    obtain ⟨r0, s2', hev0⟩ := C40_returns env henv s0 hre0 tr htr hs0 hz0 t o f
    obtain ⟨q1, q2⟩ := C40_references env henv s hre tr htr' hwait s.params.gtlg (getMinTime_eq env s (by rw [htr']; simp)) t o f r s1' hev
    obtain ⟨q3, q4⟩ := C40_references env henv s0 hre0 tr htr hs0 s0.params.gtlg (getMinTime_eq env s0 (by rw [htr]; simp)) t o f r0 s2' hev0
    have hcmp : s.getTimeCompensation = s0.getTimeCompensation := i3
    rw [i2, hcmp, hd'] at q1
    rw [hdyn] at q3 hm
    have rel : ∀ (k : ℕ) (x x0 : V3 K), refOrder r k = some x → refOrder r0 k = some x0 → _ := fun k x x0 hx hx0 =>
      references_moved env tr p a pre post w w' hname hm hset hpos hlt _ _ k x x0 (q1 k x hx) (q3 k x0 hx0)
    refine ⟨r, s1', r0, s2', hev, hev0, ?_, ?_⟩
    · intro hout
      have order : ∀ k ≤ 2, refOrder r k = refOrder r0 k := by
        intro k hk
        cases hx : refOrder r k with
        | none =>
          cases hx0 : refOrder r0 k with
          | none => rfl
          | some x0 =>
            have h1 := (q4 k hk).mp (by rw [hx0]; rfl)
            have h2 := (q2 k hk).mpr h1
            rw [hx] at h2; cases h2
        | some x =>
          have h2 := (q4 k hk).mpr ((q2 k hk).mp (by rw [hx]; rfl))
          obtain ⟨x0, hx0⟩ := Option.isSome_iff_exists.mp h2
          rw [hx0, (rel k x x0 hx hx0).1 hout]
      have e0 := Option.some.inj (order 0 (by omega))
      have e1 := order 1 (by omega)
      have e2 := order 2 (by omega)
      cases r; cases r0
      change _ = _ at e0
      simp only [refOrder] at e1 e2
      rw [References.mk.injEq]
      exact ⟨e0, e1, e2⟩
    · intro hg hin ax
      exact (rel 0 r.position r0.position rfl rfl).2 rfl hg hin ax

/-- C131: in particular, at its time the waypoint is reached where it was moved to (except along axes along which it was moved by less than two centimetres: there
where it was); the other waypoints, unless closer in time to it than `7/6` of the time that was left, are reached as planned; and no reference moves further
than the waypoint. -/
theorem C131_reached (env : Env K) (henv : Segmentwise env) (hmeets : MeetsVertices env) (hexp : env.exp 0 = 1) (hexp1 : ∀ x ≤ 0, 0 ≤ env.exp x ∧ env.exp x ≤ 1)
    (v : V3 K) (es : List (Event K)) (hes : ∀ e ∈ es, FreshEvent e)
    (s0 : Planner K) (h0 : RunOnTime env (Planner.init v) es s0) (hidle : s0.pc = .top ∧ s0.computing = false) (hq : s0.toModify = [])
    (hm : ∀ u ∈ s0.dyn, u.modifiers = []) (pre post : List (Waypoint K)) (w : Waypoint K) (hdyn : s0.dyn = pre ++ w :: post)
    (hname : w.name ≠ "") (hone : ∀ u ∈ pre ++ post, u.name ≠ w.name) (p : V3 K) (after : List (Event K)) (hr : ∀ x ∈ after, ¬ IsRequest x ∧ ValidEvent x)
    (s : Planner K) (h : Run env s0 (.modifyWaypoint w.name p false :: after) s) (hphases : 2 ≤ workerPhases after)
    (hahead : ∀ a ∈ lastEval es :: evalTimes after, 0 < a ∧ a < w.time) :
    ∃ a ∈ lastEval es :: evalTimes after,
      (∀ f, ∃ r s', s.evaluateTrajectory env (w.time - s.getTimeCompensation) false f = .ok (some (r, s')) ∧
        ∀ ax, comp r.position ax = if |comp p ax - comp w.current ax| < 2 / 100 then comp w.current ax else comp p ax) ∧
      (∀ u ∈ pre ++ post, 7 / 6 * (w.time - a) < |u.time - w.time| → ∀ f, ∃ r s',
        s.evaluateTrajectory env (u.time - s.getTimeCompensation) false f = .ok (some (r, s')) ∧ r.position = u.current) ∧
      (∀ t o f, ∃ r s1 r0 s2, s.evaluateTrajectory env t o f = .ok (some (r, s1)) ∧ s0.evaluateTrajectory env t o f = .ok (some (r0, s2)) ∧
        ∀ ax, |comp r.position ax - comp r0.position ax| ≤ |comp p ax - comp w.current ax|) := by
  obtain ⟨a, ha, w', _, _, hcmp, hall⟩ := C131_moved env henv v es hes s0 h0 hidle hq hm pre post w hdyn hname hone p after hr s h hphases
  obtain ⟨hpos, hlt⟩ := hahead a ha
  have hall := hall hpos hlt
  have hfr0 : ReachableBy FreshEvent env s0 := ⟨v, es, hes, runWhile_run _ _ _ _ _ h0⟩
  have hre0 := reachable_of_fresh hfr0
  have hc0 := reachable_ctl env s0 hre0
  have hs0 : ¬ PlanWaiting s0 := by
    rintro (h | ⟨tr, h⟩) <;> rw [hc0.idle hidle.2] at h <;> cases h
  have hwmem : w ∈ s0.dyn := by rw [hdyn]; simp
  have hne : s0.traj ≠ none := fun ht => by rw [(reachable_plan env henv s0 hre0).none ht] at hwmem; cases hwmem
  obtain ⟨_, hfl, _⟩ := C129_flown env henv hmeets s0 hfr0 hne hs0 hm
  rw [hcmp]
  refine ⟨a, ha, ?_, ?_, ?_⟩
  · intro f
    obtain ⟨r, s1, r0, s2, e1, e2, _, e4⟩ := hall (w.time - s0.getTimeCompensation) false f
    obtain ⟨i, hi⟩ := List.mem_iff_getElem?.mp hwmem
    obtain ⟨r', s', k1, k2, _⟩ := hfl i w hi f
    rw [k1] at e2
    have e2 := congrArg Prod.fst (Option.some.inj (Except.ok.inj e2))
    have e2 : r' = r0 := e2
    refine ⟨r, s1, e1, fun ax => ?_⟩
    rw [e4 (by rw [sub_add_cancel]; linarith) (by rw [sub_add_cancel, sub_self, abs_zero]; linarith) ax, ← e2, k2, sub_add_cancel, sub_self, zero_div]
    have : (-(9 / 2 * (0 : K) ^ 2)) = 0 := by ring
    rw [this, hexp, one_mul]
    split
    · ring
    · ring
  · intro u hu hfar f
    have humem : u ∈ s0.dyn := by
      rw [hdyn]
      rcases List.mem_append.mp hu with hu | hu <;> simp [hu]
    obtain ⟨r, s1, r0, s2, e1, e2, e3, _⟩ := hall (u.time - s0.getTimeCompensation) false f
    obtain ⟨i, hi⟩ := List.mem_iff_getElem?.mp humem
    obtain ⟨r', s', k1, k2, _⟩ := hfl i u hi f
    rw [k1] at e2
    have e2 := congrArg Prod.fst (Option.some.inj (Except.ok.inj e2))
    have e2 : r' = r0 := e2
    exact ⟨r, s1, e1, by rw [e3 (.inr (by rw [sub_add_cancel]; exact hfar)), ← e2, k2]⟩
  · intro t o f
    obtain ⟨r, s1, r0, s2, e1, e2, e3, e4⟩ := hall t o f
    refine ⟨r, s1, r0, s2, e1, e2, fun ax => ?_⟩
    by_cases hout : t + s0.getTimeCompensation ≤ 0 ∨ 7 / 6 * (w.time - a) < |t + s0.getTimeCompensation - w.time|
    · rw [e3 hout, sub_self, abs_zero]
      exact abs_nonneg _
    · push Not at hout
      rw [e4 hout.1 hout.2 ax, add_sub_cancel_left]
      split
      · rw [abs_zero]; exact abs_nonneg _
      · obtain ⟨g1, g2⟩ := hexp1 (-(9 / 2 * ((t + s0.getTimeCompensation - w.time) / (w.time - a)) ^ 2)) (by
          have : 0 ≤ 9 / 2 * ((t + s0.getTimeCompensation - w.time) / (w.time - a)) ^ 2 := by positivity
          linarith)
        rw [abs_mul, abs_of_nonneg g1]
        exact mul_le_of_le_one_left (abs_nonneg _) g2

end

/-- C131: with the real exponential function, the references of the instants up to the one of the move (counted with the time compensation) change by less than
1.2 percent of the waypoint's move, so that the reference does not jump. -/
theorem C131_jump (env : Env ℝ) (henv : Segmentwise env) (hexp : env.exp = Real.exp) (v : V3 ℝ) (es : List (Event ℝ)) (hes : ∀ e ∈ es, FreshEvent e)
    (s0 : Planner ℝ) (h0 : RunOnTime env (Planner.init v) es s0) (hidle : s0.pc = .top ∧ s0.computing = false) (hq : s0.toModify = [])
    (hm : ∀ u ∈ s0.dyn, u.modifiers = []) (pre post : List (Waypoint ℝ)) (w : Waypoint ℝ) (hdyn : s0.dyn = pre ++ w :: post)
    (hname : w.name ≠ "") (hone : ∀ u ∈ pre ++ post, u.name ≠ w.name) (p : V3 ℝ) (after : List (Event ℝ)) (hr : ∀ x ∈ after, ¬ IsRequest x ∧ ValidEvent x)
    (s : Planner ℝ) (h : Run env s0 (.modifyWaypoint w.name p false :: after) s) (hphases : 2 ≤ workerPhases after)
    (hahead : ∀ a ∈ lastEval es :: evalTimes after, 0 < a ∧ a < w.time) :
    ∃ a ∈ lastEval es :: evalTimes after, ∀ t, t + s0.getTimeCompensation ≤ a → ∀ o f, ∃ r s1 r0 s2, s.evaluateTrajectory env t o f = .ok (some (r, s1)) ∧
      s0.evaluateTrajectory env t o f = .ok (some (r0, s2)) ∧
      ∀ ax, |comp r.position ax - comp r0.position ax| ≤ 12 / 1000 * |comp p ax - comp w.current ax| := by
  obtain ⟨a, ha, w', _, _, _, hall⟩ := C131_moved env henv v es hes s0 h0 hidle hq hm pre post w hdyn hname hone p after hr s h hphases
  obtain ⟨hpos, hlt⟩ := hahead a ha
  refine ⟨a, ha, fun t hta o f => ?_⟩
  obtain ⟨r, s1, r0, s2, e1, e2, e3, e4⟩ := hall hpos hlt t o f
  refine ⟨r, s1, r0, s2, e1, e2, fun ax => ?_⟩
  generalize t + s0.getTimeCompensation = t at hta e3 e4
  by_cases hout : t ≤ 0 ∨ 7 / 6 * (w.time - a) < |t - w.time|
  · rw [e3 hout, sub_self, abs_zero]
    positivity
  · push Not at hout
    rw [e4 hout.1 hout.2 ax, add_sub_cancel_left]
    split
    · rw [abs_zero]; positivity
    · rw [hexp, abs_mul, abs_of_pos (Real.exp_pos _)]
      refine mul_le_mul_of_nonneg_right ?_ (abs_nonneg _)
      have hT : 0 < w.time - a := by linarith
      have h1 : 1 ≤ ((t - w.time) / (w.time - a)) ^ 2 := by
        rw [div_pow, one_le_div (by positivity)]
        nlinarith
      calc Real.exp (-(9 / 2 * ((t - w.time) / (w.time - a)) ^ 2)) ≤ Real.exp (-(9 / 2)) := Real.exp_le_exp.mpr (by linarith)
        _ ≤ 12 / 1000 := by
          have h2 : (Real.exp (9 / 2)) ^ 2 = Real.exp 1 ^ 9 := by
            rw [← Real.exp_nat_mul, ← Real.exp_nat_mul]
            norm_num
          have h3 : (8000 : ℝ) ≤ Real.exp 1 ^ 9 := by
            have := Real.exp_one_gt_d9
            calc (8000 : ℝ) ≤ 2.7182818283 ^ 9 := by norm_num
              _ ≤ Real.exp 1 ^ 9 := by gcongr
          have h4 : (1000 / 12 : ℝ) ≤ Real.exp (9 / 2) := by
            by_contra hx
            push Not at hx
            have := Real.exp_pos (9 / 2)
            nlinarith
          rw [Real.exp_neg]
          calc (Real.exp (9 / 2))⁻¹ ≤ (1000 / 12 : ℝ)⁻¹ := by gcongr
            _ = 12 / 1000 := by norm_num

/-- C131: the same with the optimiser modelled in C85, linear or nonlinear, whatever its numerical solver returns. -/
theorem C131_optimiser (b : OptBackend) (lineal : Bool) (v : V3 ℝ) (es : List (Event ℝ)) (hes : ∀ e ∈ es, FreshEvent e)
    (s0 : Planner ℝ) (h0 : RunOnTime (b.env lineal) (Planner.init v) es s0) (hidle : s0.pc = .top ∧ s0.computing = false) (hq : s0.toModify = [])
    (hm : ∀ u ∈ s0.dyn, u.modifiers = []) (pre post : List (Waypoint ℝ)) (w : Waypoint ℝ) (hdyn : s0.dyn = pre ++ w :: post)
    (hname : w.name ≠ "") (hone : ∀ u ∈ pre ++ post, u.name ≠ w.name) (p : V3 ℝ) (after : List (Event ℝ)) (hr : ∀ x ∈ after, ¬ IsRequest x ∧ ValidEvent x)
    (s : Planner ℝ) (h : Run (b.env lineal) s0 (.modifyWaypoint w.name p false :: after) s) (hphases : 2 ≤ workerPhases after)
    (hahead : ∀ a ∈ lastEval es :: evalTimes after, 0 < a ∧ a < w.time) :
    (∀ f, ∃ r s', s.evaluateTrajectory (b.env lineal) (w.time - s.getTimeCompensation) false f = .ok (some (r, s')) ∧
      ∀ ax, comp r.position ax = if |comp p ax - comp w.current ax| < 2 / 100 then comp w.current ax else comp p ax) ∧
    ∃ a ∈ lastEval es :: evalTimes after, ∀ t, t + s0.getTimeCompensation ≤ a → ∀ o f, ∃ r s1 r0 s2, s.evaluateTrajectory (b.env lineal) t o f = .ok (some (r, s1)) ∧
      s0.evaluateTrajectory (b.env lineal) t o f = .ok (some (r0, s2)) ∧
      ∀ ax, |comp r.position ax - comp r0.position ax| ≤ 12 / 1000 * |comp p ax - comp w.current ax| := by
  refine ⟨?_, C131_jump _ (C85_segmentwise b lineal) rfl v es hes s0 h0 hidle hq hm pre post w hdyn hname hone p after hr s h hphases hahead⟩
  obtain ⟨_, _, h1, _⟩ := C131_reached _ (C85_segmentwise b lineal) (C85_meets_vertices b lineal) Real.exp_zero
    (fun x hx => ⟨(Real.exp_pos x).le, Real.exp_le_one_iff.mpr hx⟩) v es hes s0 h0 hidle hq hm pre post w hdyn hname hone p after hr s h hphases hahead
  exact h1

/-- The hypotheses are met: in flight, at 1/2, waypoint "b" of time 2 is moved by a metre along one axis and by one centimetre along another; the planner then
answers an evaluation at 3/4. The start of the plan is further than 7/6 of the time that was left from "b". -/
example : ∃ s0 s : Planner ℚ, RunOnTime hermiteEnv (Planner.init ⟨0, 0, 0⟩) (history1 ++ [.evaluate (1 / 2) true false]) s0 ∧
    (∀ e ∈ history1 ++ [.evaluate (1 / 2) true false], FreshEvent e) ∧ (s0.pc = .top ∧ s0.computing = false) ∧ s0.toModify = [] ∧
    (∀ u ∈ s0.dyn, u.modifiers = []) ∧ (∃ pre w, s0.dyn = pre ++ w :: [] ∧ w.name = "b" ∧ w.time = 2 ∧ w.current = ⟨2, 1, 0⟩ ∧ (∀ u ∈ pre, u.name ≠ "b") ∧
      ∃ u ∈ pre, 7 / 6 * (w.time - 1 / 2) < |u.time - w.time|) ∧
    Run hermiteEnv s0 (.modifyWaypoint "b" ⟨2 + 1 / 100, 2, 0⟩ false :: [.worker, .worker, .evaluate (3 / 4) true false]) s ∧
    workerPhases [.worker, .worker, (.evaluate (3 / 4) true false : Event ℚ)] = 2 ∧
    lastEval (history1 ++ [.evaluate (1 / 2) true false]) :: evalTimes [.worker, .worker, (.evaluate (3 / 4) true false : Event ℚ)] = [1 / 2, 3 / 4] := by
  obtain ⟨s0, s1, s2, h1, h2, h3, hf⟩ := run3w?_map onTime notTaken _ _ onTime_ok notTaken_ok
    (history1 ++ [.evaluate (1 / 2) true false]) [.modifyWaypoint "b" ⟨2 + 1 / 100, 2, 0⟩ false, .worker, .worker] (.evaluate (3 / 4) true false)
    (fun a _ _ => decide (a.pc = .top ∧ a.computing = false ∧ a.toModify.length = 0 ∧ (∀ u ∈ a.dyn, u.modifiers.length = 0) ∧
      a.dyn.map (fun u => (u.name, u.time, u.current)) = [("", 0, ⟨0, 0, 0⟩), ("a", 1, ⟨1, 0, 0⟩), ("b", 2, ⟨2, 1, 0⟩)])) true (by decide +kernel)
  obtain ⟨k1, k2, k3, k4, k5⟩ := of_decide_eq_true hf
  refine ⟨s0, s2, h1, ?_, ⟨k1, k2⟩, List.length_eq_zero_iff.mp k3, fun u hu => List.length_eq_zero_iff.mp (k4 u hu), ?_, ?_, ?_, ?_⟩
  · simp [history1, planEvents, FreshEvent, wp_bookkept]
  · revert k5
    generalize s0.dyn = d
    intro k5
    match d with
    | [] | [_] | [_, _] | _ :: _ :: _ :: _ :: _ => simp at k5
    | [u0, u1, u2] =>
      simp only [List.map_cons, List.map_nil, List.cons.injEq, Prod.mk.injEq, and_true] at k5
      obtain ⟨⟨a1, a2, a3⟩, ⟨b1, b2, b3⟩, ⟨c1, c2, c3⟩⟩ := k5
      refine ⟨[u0, u1], u2, by simp, c1, c2, c3, ?_, u0, by simp, ?_⟩
      · intro u hu
        rcases List.mem_cons.mp hu with rfl | hu
        · rw [a1]; decide
        · rw [List.mem_singleton.mp hu, b1]; decide
      · rw [a2, c2]; norm_num
  · have := Run.snoc _ (runWhile_run _ _ _ _ _ h2) h3
    simpa using this
  · rfl
  · decide +kernel

end Verif.Properties
