import Mathlib.Tactic.Linarith
import Mathlib.Tactic.Positivity
import Verif.Spec.Plotter
import Verif.Properties.PlannerEval
import Verif.Properties.PlannerTime

/-!
# Properties C97–C99: plotting
-/

set_option linter.unusedSectionVars false

namespace Verif.Properties
open Verif Verif.Spec Verif.Lemmas

variable {K : Type*} [Field K] [LinearOrder K] [IsStrictOrderedRing K] [FloorRing K]

/-! ## C97 what `plotTraj` records -/

theorem sampleLoop_idle (env : Env K) (t0 : K) (s : Planner K) (f : K → References K) (n i : ℕ)
    (hs : ∀ t, s.evaluateTrajectory env t true true = .ok (some (f t, s))) :
    Plotter.sampleLoop env t0 n i s = .ok (some ((List.range n).map fun j => (t0 + ((i + j : ℕ) : K) * (1 / 10), (f (t0 + ((i + j : ℕ) : K) * (1 / 10))).position), s)) := by
  induction n generalizing i with
  | zero => rfl
  | succ n ih =>
    rw [Plotter.sampleLoop]
    simp only [hs, bind, Except.bind, ih (i + 1), pure, Except.pure]
    rw [List.range_succ_eq_map, List.map_cons, List.map_map]
    congr 4
    refine List.map_congr_left fun j _ => ?_
    simp only [Function.comp]
    rw [show i + 1 + j = i + j.succ by omega]

theorem getMinTime_idle (env : Env K) (s : Planner K) (tr : Trajectory K) (htr : s.traj = some tr) :
    s.getMinTime env = .ok (some (s.params.gtlg, s)) := by
  unfold Planner.getMinTime Planner.ensureTrajectory
  simp [htr, bind, Except.bind, pure, Except.pure]

theorem getMaxTime_idle (env : Env K) (s : Planner K) (tr : Trajectory K) (htr : s.traj = some tr) :
    s.getMaxTime env = .ok (some (tr.maxTime + s.params.gtlg, s)) := by
  unfold Planner.getMaxTime Planner.ensureTrajectory
  simp [htr, bind, Except.bind, pure, Except.pure]

theorem usable_maxTime_pos (tr : Trajectory K) (h : Usable tr) : 0 < tr.maxTime := by
  obtain ⟨_, hne, hc, hpos, _⟩ := h
  rw [hc.1]
  unfold duration
  apply List.sum_pos
  · intro x hx
    obtain ⟨s, hs, rfl⟩ := List.mem_map.mp hx
    exact hpos s hs
  · simpa using hne

/-- The plotter after a successful call. -/
def plotted (p : Plotter K) (c : Char) (l : List (K × V3 K)) (ws : List (Waypoint K)) : Plotter K :=
  { p with
    plots3d := Plotter.trim (p.plots3d ++ [⟨l.map (·.2), c, .line⟩] ++ [⟨ws.map (·.current), c, .waypoint⟩])
    plots2d := Plotter.trim (p.plots2d ++ [⟨l, c, .line⟩] ++ [⟨ws.map fun w => (w.time, w.current), c, .uav⟩]) }

theorem plotTraj_eq (env : Env K) (r : ℕ) (p : Plotter K) (hl : p.locked = false) (s s1 s2 s3 s4 : Planner K) (t0 t1 : K) (l : List (K × V3 K))
    (ws : List (Waypoint K)) (h1 : s.getMinTime env = .ok (some (t0, s1))) (h2 : s1.getMaxTime env = .ok (some (t1, s2)))
    (h3 : 0 ≤ (t1 - t0) / (1 / 10)) (h4 : (t1 - t0) / (1 / 10) < 2 ^ 31)
    (h5 : Plotter.sampleLoop env t0 ⌊(t1 - t0) / (1 / 10)⌋₊ 0 s2 = .ok (some (l, s3)))
    (h6 : s3.getDynamicWaypoints env = .ok (some (ws, s4))) :
    Plotter.plotTraj env r s p = (.ok (some s4), plotted p (Plotter.color r) l ws) := by
  unfold Plotter.plotTraj
  rw [h1]
  simp only [h2]
  have h31 : (0 : K) < 2 ^ 31 := by positivity
  rw [if_neg (by push Not; exact ⟨h4, by linarith⟩), hl]
  simp only [Bool.false_eq_true, if_false]
  rw [if_neg (by push Not; linarith), h5]
  simp only [h6]
  unfold plotted
  rw [hl]

/-- C97: with a plan and no new one waiting, `plotTraj` leaves the planner as it is and adds two items to each list (of which `trim` then drops old ones): a line
through `⌊10 T⌋` points, `T` the length of the plan, the `i`-th of which is the position that `evaluateTrajectory` returns for `i / 10` seconds after the start of
the plan; and the current positions of the waypoints at their times. -/
theorem C97_curve (env : Env K) (henv : Segmentwise env) (s : Planner K) (h : Reachable env s) (tr : Trajectory K) (htr : s.traj = some tr)
    (hw : ¬ PlanWaiting s) (hz : NoZeroWidth s.dyn) (hT : tr.maxTime / (1 / 10) < 2 ^ 31) (r : ℕ) (p : Plotter K) (hl : p.locked = false) :
    ∃ (l : List (K × V3 K)) (c : Char) (p' : Plotter K), Plotter.plotTraj env r s p = (.ok (some s), p') ∧
      p'.plots3d = Plotter.trim (p.plots3d ++ [⟨l.map (·.2), c, .line⟩] ++ [⟨s.dyn.map (·.current), c, .waypoint⟩]) ∧
      p'.plots2d = Plotter.trim (p.plots2d ++ [⟨l, c, .line⟩] ++ [⟨s.dyn.map (fun w => (w.time, w.current)), c, .uav⟩]) ∧
      p'.locked = false ∧ (p'.pose, p'.poseTime, p'.refs, p'.refTimes) = (p.pose, p.poseTime, p.refs, p.refTimes) ∧
      l.length = ⌊10 * tr.maxTime⌋₊ ∧
      ∀ (i : ℕ) (t : K) (x : V3 K), l[i]? = some (t, x) → t = s.params.gtlg + i / 10 ∧
        ∃ refs, s.evaluateTrajectory env t true true = .ok (some (refs, s)) ∧ x = refs.position := by
  have hu := traj_usable env henv s (reachable_plan env henv s h) tr htr
  have hpos := usable_maxTime_pos tr hu
  have hev : ∀ t, ∃ rf, s.evaluateTrajectory env t true true = .ok (some (rf, s)) := by
    intro t
    obtain ⟨rf, s', e⟩ := C40_returns env henv s h tr htr hw hz t true false
    exact ⟨rf, (C40_plotting env s hw (by rw [htr]; simp) t true rf s' e).1⟩
  choose f hf using hev
  have e10 : (tr.maxTime + s.params.gtlg - s.params.gtlg) / (1 / 10) = 10 * tr.maxTime := by
    rw [add_sub_cancel_right, div_div_eq_mul_div, div_one, mul_comm]
  have e10' : tr.maxTime / (1 / 10) = 10 * tr.maxTime := by rw [div_div_eq_mul_div, div_one, mul_comm]
  rw [e10'] at hT
  have hdyn : s.getDynamicWaypoints env = .ok (some (s.dyn.map (·.copy), s)) := by
    unfold Planner.getDynamicWaypoints
    rw [check_idle env s hw (by rw [htr]; simp)]
    rfl
  have hloop := sampleLoop_idle env s.params.gtlg s f ⌊10 * tr.maxTime⌋₊ 0 hf
  refine ⟨(List.range ⌊10 * tr.maxTime⌋₊).map fun j => (s.params.gtlg + ((0 + j : ℕ) : K) * (1 / 10),
    (f (s.params.gtlg + ((0 + j : ℕ) : K) * (1 / 10))).position), Plotter.color r, _, plotTraj_eq env r p hl s s s s s _ _ _ _ (getMinTime_idle env s tr htr) (getMaxTime_idle env s tr htr)
    (by rw [e10]; linarith) (by rw [e10]; exact hT) (by rw [e10]; exact hloop) hdyn, ?_, ?_, hl, rfl, by simp, ?_⟩
  · simp only [plotted, List.map_map, Function.comp_def, Waypoint.copy]
  · simp only [plotted, List.map_map, Function.comp_def, Waypoint.copy]
  · intro i t x hi
    simp only [List.getElem?_map, Option.map_eq_some_iff, Prod.mk.injEq] at hi
    obtain ⟨j, hj, h1, h2⟩ := hi
    obtain ⟨hlt, rfl⟩ := List.getElem?_eq_some_iff.mp hj
    rw [List.getElem_range] at h1 h2
    simp only [Nat.zero_add] at h1 h2
    rw [mul_one_div] at h1 h2
    subst h1
    exact ⟨rfl, f _, hf _, h2.symm⟩

/-- C97: the end of the plan is never drawn: all recorded times are at least 0.1 s before it, and the last one is less than 0.2 s before it. -/
theorem C97_end_missing (T : K) (n : ℕ) (hn : n = ⌊10 * T⌋₊) (hT : 0 ≤ T) :
    (∀ i < n, (i : K) / 10 ≤ T - 1 / 10) ∧ (0 < n → T - 2 / 10 < ((n - 1 : ℕ) : K) / 10) := by
  have h10 : 0 ≤ 10 * T := by linarith
  have hle := Nat.floor_le h10
  have hlt := Nat.lt_floor_add_one (10 * T)
  rw [← hn] at hle hlt
  constructor
  · intro i hi
    have : ((i + 1 : ℕ) : K) ≤ n := by exact_mod_cast hi
    push_cast at this
    rw [div_le_iff₀ (by norm_num)]
    linarith
  · intro h0
    rw [Nat.cast_sub h0, lt_div_iff₀ (by norm_num)]
    push_cast
    linarith

/-- C97, the exception: when a new plan waits to be taken over, the times are those of the old plan (start `g` and length `T`), but the positions are those of the
new plan, which is taken over by the first sample. -/
theorem C97_takes_over (env : Env K) (henv : Segmentwise env) (s s1 : Planner K) (h : Reachable env s) (tr : Trajectory K) (htr : s.traj = some tr)
    (ws : List (Waypoint K)) (hd : s.getDynamicWaypoints env = .ok (some (ws, s1))) (hz : NoZeroWidth s1.dyn)
    (hT0 : 1 / 10 ≤ tr.maxTime) (hT : 10 * tr.maxTime < 2 ^ 31) (r : ℕ) (p : Plotter K) (hl : p.locked = false) :
    ∃ (l : List (K × V3 K)) (p' : Plotter K), Plotter.plotTraj env r s p = (.ok (some s1), p') ∧
      p'.plots2d = Plotter.trim (p.plots2d ++ [⟨l, Plotter.color r, .line⟩] ++
        [⟨ws.map (fun w => (w.time, w.current)), Plotter.color r, .uav⟩]) ∧
      l.length = ⌊10 * tr.maxTime⌋₊ ∧
      ∀ (i : ℕ) (t : K) (x : V3 K), l[i]? = some (t, x) → t = s.params.gtlg + i / 10 ∧
        ∃ refs, s1.evaluateTrajectory env t true true = .ok (some (refs, s1)) ∧ x = refs.position := by
  obtain ⟨hc, hws⟩ := getDynamicWaypoints_inv env s s1 ws hd
  have hr1 : Reachable env s1 := by
    obtain ⟨v, es, hv, hrun⟩ := h
    refine ⟨v, es ++ [.getDynamicWaypoints], ?_, .snoc _ hrun (by simp [Planner.step, hd, bind, Except.bind, pure, Except.pure])⟩
    intro e he
    rcases List.mem_append.mp he with he | he
    · exact hv e he
    · rw [List.mem_singleton.mp he]; trivial
  have hw := check_not_waiting env s s1 (reachable_ctl env s h) hc
  have h1 := check_some_traj env s s1 hc (reachable_ctl env s h)
  obtain ⟨tr1, htr1⟩ := Option.ne_none_iff_exists'.mp h1
  have hev : ∀ t, ∃ rf, s1.evaluateTrajectory env t true true = .ok (some (rf, s1)) := by
    intro t
    obtain ⟨rf, s', e⟩ := C40_returns env henv s1 hr1 tr1 htr1 hw hz t true false
    exact ⟨rf, (C40_plotting env s1 hw h1 t true rf s' e).1⟩
  choose f hf using hev
  have e10 : (tr.maxTime + s.params.gtlg - s.params.gtlg) / (1 / 10) = 10 * tr.maxTime := by
    rw [add_sub_cancel_right, div_div_eq_mul_div, div_one, mul_comm]
  have hidle := check_idle env s1 hw h1
  have hdyn : s1.getDynamicWaypoints env = .ok (some (s1.dyn.map (·.copy), s1)) := by
    unfold Planner.getDynamicWaypoints
    rw [hidle]
    rfl
  -- the first evaluation takes over
  have hfirst : ∀ t, s.evaluateTrajectory env t true true = .ok (some (f t, s1)) := by
    intro t
    rw [← hf t]
    unfold Planner.evaluateTrajectory
    rw [hc, hidle]
  obtain ⟨n, hn⟩ : ∃ n, ⌊10 * tr.maxTime⌋₊ = n + 1 := by
    have : 1 ≤ ⌊10 * tr.maxTime⌋₊ := Nat.le_floor (by push_cast; linarith)
    exact ⟨_, (Nat.sub_add_cancel this).symm⟩
  have hloop : Plotter.sampleLoop env s.params.gtlg ⌊10 * tr.maxTime⌋₊ 0 s =
      .ok (some ((List.range ⌊10 * tr.maxTime⌋₊).map fun j => (s.params.gtlg + ((0 + j : ℕ) : K) * (1 / 10),
        (f (s.params.gtlg + ((0 + j : ℕ) : K) * (1 / 10))).position), s1)) := by
    rw [hn, ← sampleLoop_idle env s.params.gtlg s1 f (n + 1) 0 hf, Plotter.sampleLoop, Plotter.sampleLoop]
    simp only [hfirst, hf]
  refine ⟨(List.range ⌊10 * tr.maxTime⌋₊).map fun j => (s.params.gtlg + ((0 + j : ℕ) : K) * (1 / 10),
    (f (s.params.gtlg + ((0 + j : ℕ) : K) * (1 / 10))).position), _, plotTraj_eq env r p hl s s s s1 s1 _ _ _ _ (getMinTime_idle env s tr htr) (getMaxTime_idle env s tr htr)
    (by rw [e10]; linarith) (by rw [e10]; exact hT) (by rw [e10]; exact hloop) hdyn, ?_, by simp, ?_⟩
  · rw [hws]; rfl
  · intro i t x hi
    simp only [List.getElem?_map, Option.map_eq_some_iff, Prod.mk.injEq] at hi
    obtain ⟨j, hj, h1, h2⟩ := hi
    obtain ⟨hlt, rfl⟩ := List.getElem?_eq_some_iff.mp hj
    rw [List.getElem_range] at h1 h2
    simp only [Nat.zero_add] at h1 h2
    rw [mul_one_div] at h1 h2
    subst h1
    exact ⟨rfl, f _, hf _, h2.symm⟩

/-- C97: when the background computation has failed, `plotTraj` is left by the exception with the plotter's mutex held; from then on every call of the plotter
waits for ever. -/
theorem C97_failed_computation (env : Env K) (s : Planner K) (tr : Trajectory K) (htr : s.traj = some tr) (hf : s.future = .failed) (hcomp : s.computing = true)
    (hT0 : 0 ≤ tr.maxTime) (hT : 10 * tr.maxTime < 2 ^ 31) (r : ℕ) (p : Plotter K) (hl : p.locked = false) :
    ∃ p', Plotter.plotTraj env r s p = (.error .exc, p') ∧ p'.locked = true ∧
      (∀ (r' : ℕ) (s' : Planner K) (tr' : Trajectory K), s'.traj = some tr' → 0 ≤ tr'.maxTime → 10 * tr'.maxTime < 2 ^ 31 →
        Plotter.plotTraj env r' s' p' = (.error .hang, p')) ∧
      ∀ refs t, p'.setUAVposition refs t = none := by
  have e10 : ∀ x y : K, (x + y - y) / (1 / 10) = 10 * x := by
    intro x y
    rw [add_sub_cancel_right, div_div_eq_mul_div, div_one, mul_comm]
  have h31 : (0 : K) < 2 ^ 31 := by positivity
  have hlk : ∀ q : Plotter K, q.locked = true → (∀ (r' : ℕ) (s' : Planner K) (tr' : Trajectory K), s'.traj = some tr' → 0 ≤ tr'.maxTime →
        10 * tr'.maxTime < 2 ^ 31 → Plotter.plotTraj env r' s' q = (.error .hang, q)) ∧
      ∀ refs t, q.setUAVposition refs t = none := by
    intro q hq
    constructor
    · intro r' s' tr' h1 h2 h3
      unfold Plotter.plotTraj
      rw [getMinTime_idle env s' tr' h1]
      simp only [getMaxTime_idle env s' tr' h1, e10]
      rw [if_neg (by push Not; exact ⟨h3, by linarith⟩), if_pos hq]
    · intro refs t
      unfold Plotter.setUAVposition
      rw [if_pos hq]
  have hcheck : s.checkTrajectoryGenerated env = .error .exc := by
    unfold Planner.checkTrajectoryGenerated
    simp [htr, hf, hcomp, Future.isReady, Future.valid, bind, Except.bind, Planner.swapTrajectory]
  have hsmall : ∀ t, s.evaluateTrajectory env t true true = .error .exc := by
    intro t
    unfold Planner.evaluateTrajectory
    rw [hcheck]
    rfl
  have hdyn : s.getDynamicWaypoints env = .error .exc := by
    unfold Planner.getDynamicWaypoints
    rw [hcheck]
    rfl
  unfold Plotter.plotTraj
  rw [getMinTime_idle env s tr htr]
  simp only [getMaxTime_idle env s tr htr, e10]
  rw [if_neg (by push Not; exact ⟨hT, by linarith⟩), hl]
  simp only [Bool.false_eq_true, if_false]
  rw [if_neg (by push Not; linarith)]
  cases hn : ⌊10 * tr.maxTime⌋₊ with
  | zero =>
    simp only [Plotter.sampleLoop, hdyn]
    exact ⟨_, rfl, rfl, hlk _ rfl⟩
  | succ n =>
    rw [Plotter.sampleLoop]
    simp only [hsmall, bind, Except.bind]
    exact ⟨_, rfl, rfl, hlk _ rfl⟩

-- A planner with a plan of more than a tenth of a second, and a fresh plotter.
example : ∃ tr, state1.traj = some tr ∧ Reachable hermiteEnv state1 ∧ Segmentwise (hermiteEnv : Env ℚ) ∧ 1 / 10 ≤ tr.maxTime ∧ tr.maxTime / (1 / 10) < 2 ^ 31 ∧
    (Plotter.init : Plotter ℚ).locked = false :=
  ⟨state1.traj.get (by decide +kernel), by decide +kernel, state1_reachable, hermite_segmentwise, by decide +kernel, by decide +kernel, rfl⟩

/-! ## C98 which curves are kept -/

theorem trim_short {α : Type*} (l : List α) (h : l.length ≤ 7) : Plotter.trim l = l := by
  unfold Plotter.trim
  cases hn : l.length with
  | zero => rfl
  | succ n =>
    rw [Plotter.trimLoop.eq_def]
    simp only
    rw [if_neg (by omega)]

theorem trim_kept {α : Type*} (cs : List (α × α)) (l m : α) : Plotter.trim (kept cs ++ [l] ++ [m]) = kept (cs ++ [(l, m)]) := by
  by_cases h2 : cs.length ≤ 2
  · have h3 : kept cs = cs.flatMap fun c => [c.1, c.2] := by rw [kept, if_pos (by omega)]
    have h4 : kept (cs ++ [(l, m)]) = (cs ++ [(l, m)]).flatMap fun c => [c.1, c.2] := by rw [kept, if_pos (by simp; omega)]
    rw [h3, h4, trim_short]
    · simp
    · have : (cs.flatMap fun c => [c.1, c.2]).length = 2 * cs.length := by
        clear h2 h3 h4
        induction cs with
        | nil => rfl
        | cons c cs ih => simp at ih ⊢; omega
      simp only [List.length_append, this, List.length_singleton]
      omega
  · by_cases h3 : cs.length = 3
    · match cs, h3 with
      | [a, b, c], _ => rfl
    · have hd : (cs.drop (cs.length - 3)).length = 3 := by rw [List.length_drop]; omega
      have hk : kept cs = ((cs.head?.map (·.1)).toList) ++ (cs.drop (cs.length - 3)).flatMap fun c => [c.1, c.2] := by
        rw [kept, if_neg (by omega)]
      have hk' : kept (cs ++ [(l, m)]) =
          (((cs ++ [(l, m)]).head?.map (·.1)).toList) ++ (((cs ++ [(l, m)])).drop ((cs ++ [(l, m)]).length - 3)).flatMap fun c => [c.1, c.2] := by
        rw [kept, if_neg (by simp; omega)]
      rw [hk, hk']
      have hdrop : (cs ++ [(l, m)]).drop ((cs ++ [(l, m)]).length - 3) = (cs.drop (cs.length - 3)).drop 1 ++ [(l, m)] := by
        have e : cs.length + 1 - 3 = cs.length - 3 + 1 := by omega
        rw [List.drop_drop, List.length_append, List.length_singleton, e, List.drop_append_of_le_length (by omega)]
      rw [hdrop]
      match cs, h3, hd with
      | a :: cs, _, hd =>
        generalize List.drop ((a :: cs).length - 3) (a :: cs) = ds at hd
        match ds, hd with
        | [x, y, z], _ => rfl

theorem kept_length {α : Type*} (cs : List (α × α)) : (kept cs).length ≤ 7 := by
  have : ∀ ds : List (α × α), (ds.flatMap fun c => [c.1, c.2]).length = 2 * ds.length := by
    intro ds
    induction ds with
    | nil => rfl
    | cons c cs ih => simp at ih ⊢; omega
  unfold kept
  split
  · rw [this]; omega
  · rw [List.length_append, this, List.length_drop]
    have : ((cs.head?.map (·.1)).toList).length ≤ 1 := by cases cs <;> simp
    omega

/-- A successful call, inverted: the plotter was free and what is added does not depend on it. -/
theorem plotTraj_inv (env : Env K) (r : ℕ) (s s' : Planner K) (p p' : Plotter K) (h : Plotter.plotTraj env r s p = (.ok (some s'), p')) :
    p.locked = false ∧ ∃ l ws, p' = plotted p (Plotter.color r) l ws ∧
      ∀ q : Plotter K, q.locked = false → Plotter.plotTraj env r s q = (.ok (some s'), plotted q (Plotter.color r) l ws) := by
  unfold Plotter.plotTraj at h
  cases h1 : s.getMinTime env with
  | error e => rw [h1] at h; cases h
  | ok o =>
    rw [h1] at h
    cases o with
    | none => cases h
    | some x =>
      obtain ⟨t0, s1⟩ := x
      simp only at h
      cases h2 : s1.getMaxTime env with
      | error e => rw [h2] at h; cases h
      | ok o =>
        rw [h2] at h
        cases o with
        | none => cases h
        | some x =>
          obtain ⟨t1, s2⟩ := x
          simp only at h
          split at h
          · cases h
          rename_i hr
          split at h
          · cases h
          rename_i hl
          have hl : p.locked = false := by simpa using hl
          split at h
          · cases h
          rename_i hneg
          cases h3 : Plotter.sampleLoop env t0 ⌊(t1 - t0) / (1 / 10)⌋₊ 0 s2 with
          | error e => rw [h3] at h; cases h
          | ok o =>
            rw [h3] at h
            cases o with
            | none => cases h
            | some x =>
              obtain ⟨l, s3⟩ := x
              simp only at h
              cases h4 : s3.getDynamicWaypoints env with
              | error e => rw [h4] at h; cases h
              | ok o =>
                rw [h4] at h
                cases o with
                | none => cases h
                | some x =>
                  obtain ⟨ws, s4⟩ := x
                  simp only [Prod.mk.injEq, Except.ok.injEq, Option.some.injEq] at h
                  obtain ⟨rfl, rfl⟩ := h
                  refine ⟨hl, l, ws, rfl, ?_⟩
                  intro q hq
                  unfold Plotter.plotTraj
                  rw [h1]
                  simp only [h2]
                  rw [if_neg hr, hq]
                  simp only [Bool.false_eq_true, if_false]
                  rw [if_neg hneg, h3]
                  simp only [h4]
                  unfold plotted
                  rw [hq]

/-- C98: after any history of successful `plotTraj` calls and `setUAVposition` calls, in any order: the plotter holds, of the curves that these calls would have put
on a fresh plotter, exactly those that `kept` says, in both kinds of plots (so at most seven items); the vehicle is where it was reported last; and all reports are
kept in order. -/
theorem C98_kept (env : Env K) (p : Plotter K) (calls : List (ℕ × Planner K)) (us : List (References K × K)) (h : PlotHistory env p calls us) :
    (∃ cs : List (Item3d K × Item3d K), p.plots3d = kept cs ∧
      List.Forall₂ (fun call c => (Plotter.plotTraj env call.1 call.2 Plotter.init).2.plots3d = [c.1, c.2]) calls cs) ∧
    (∃ cs : List (Item2d K × Item2d K), p.plots2d = kept cs ∧
      List.Forall₂ (fun call c => (Plotter.plotTraj env call.1 call.2 Plotter.init).2.plots2d = [c.1, c.2]) calls cs) ∧
    p.plots3d.length ≤ 7 ∧ p.plots2d.length ≤ 7 ∧
    p.refs = us.map (·.1) ∧ p.refTimes = us.map (·.2) ∧
    (p.pose, p.poseTime) = (us.getLast?.map fun u => (u.1.position, u.2)).getD (V3.zero, 0) ∧ p.locked = false := by
  have key : (∃ cs : List (Item3d K × Item3d K), p.plots3d = kept cs ∧
      List.Forall₂ (fun call c => (Plotter.plotTraj env call.1 call.2 Plotter.init).2.plots3d = [c.1, c.2]) calls cs) ∧
    (∃ cs : List (Item2d K × Item2d K), p.plots2d = kept cs ∧
      List.Forall₂ (fun call c => (Plotter.plotTraj env call.1 call.2 Plotter.init).2.plots2d = [c.1, c.2]) calls cs) ∧
    p.refs = us.map (·.1) ∧ p.refTimes = us.map (·.2) ∧
    (p.pose, p.poseTime) = (us.getLast?.map fun u => (u.1.position, u.2)).getD (V3.zero, 0) ∧ p.locked = false := by
    induction h with
    | start => exact ⟨⟨[], rfl, .nil⟩, ⟨[], rfl, .nil⟩, rfl, rfl, rfl, rfl⟩
    | @plot p p' calls us r s s' _ hp ih =>
      obtain ⟨hl, l, ws, rfl, hq⟩ := plotTraj_inv env r s s' p p' hp
      have hi := hq Plotter.init rfl
      obtain ⟨⟨cs, h3, hc⟩, ⟨ds, h4, hd⟩, i1, i2, i3, i4⟩ := ih
      refine ⟨⟨cs ++ [(⟨l.map (·.2), Plotter.color r, .line⟩, ⟨ws.map (·.current), Plotter.color r, .waypoint⟩)], ?_, ?_⟩,
        ⟨ds ++ [(⟨l, Plotter.color r, .line⟩, ⟨ws.map fun w => (w.time, w.current), Plotter.color r, .uav⟩)], ?_, ?_⟩, i1, i2, i3, i4⟩
      · rw [← trim_kept, ← h3]; rfl
      · refine List.rel_append hc (.cons ?_ .nil)
        rw [hi]; rfl
      · rw [← trim_kept, ← h4]; rfl
      · refine List.rel_append hd (.cons ?_ .nil)
        rw [hi]; rfl
    | @position p p' calls us u t _ hp ih =>
      obtain ⟨hc, hd, i1, i2, i3, i4⟩ := ih
      unfold Plotter.setUAVposition at hp
      rw [i4] at hp
      simp only [Bool.false_eq_true, if_false, Option.some.injEq] at hp
      subst hp
      refine ⟨hc, hd, by simp [i1], by simp [i2], by simp, rfl⟩
  obtain ⟨⟨cs, h3, hc⟩, ⟨ds, h4, hd⟩, i1, i2, i3, i4⟩ := key
  exact ⟨⟨cs, h3, hc⟩, ⟨ds, h4, hd⟩, by rw [h3]; exact kept_length cs, by rw [h4]; exact kept_length ds, i1, i2, i3, i4⟩

-- Four plots of the sample plan and two reported positions make a history.
theorem sample_plots (n : ℕ) (hn : n ≤ 4) : ∃ p : Plotter ℚ, PlotHistory hermiteEnv p (List.replicate n (0, state1)) [] := by
  induction n with
  | zero => exact ⟨_, .start⟩
  | succ n ih =>
    obtain ⟨p, hp⟩ := ih (by omega)
    obtain ⟨_, _, _, _, _, _, _, hl⟩ := C98_kept _ _ _ _ hp
    obtain ⟨l, c, p', e, -⟩ := C97_curve hermiteEnv hermite_segmentwise state1 state1_reachable (state1.traj.get (by decide +kernel)) (by decide +kernel)
      (by
        rintro (h | ⟨tr, h⟩)
        · have : state1.future ≠ .failed := by decide +kernel
          exact this h
        · have : state1.future = .invalid := by decide +kernel
          rw [this] at h; cases h)
      (by
        intro w hw m hm
        have : ∀ w ∈ state1.dyn, w.modifiers = [] := by decide +kernel
        rw [this w hw] at hm
        cases hm) (by decide +kernel) 0 p hl
    refine ⟨p', ?_⟩
    rw [List.replicate_succ']
    exact .plot hp e

/-! ## C99 the drawing thread -/

theorem run_append_some (d d' : Drawing K) (es es' : List (Drawing.Event K))
    (h : d.run (es ++ es') = some d') :
    ∃ m, d.run es = some m ∧ m.run es' = some d' := by
  induction es generalizing d with
  | nil => exact ⟨d, rfl, h⟩
  | cons e es ih =>
    simp only [List.cons_append, Drawing.run] at h ⊢
    cases hs : d.step e with
    | none => rw [hs] at h; cases h
    | some d1 => rw [hs] at h; exact ih d1 h

theorem run_append_of (e u : Bool) (es es' : List (Drawing.Event K)) (m d : Drawing K) (h : (Drawing.start e u).run es = some m) (h' : m.run es' = some d) :
    (Drawing.start e u).run (es ++ es') = some d := by
  generalize (Drawing.start e u : Drawing K) = x at h ⊢
  induction es generalizing x with
  | nil => rw [Option.some.inj h]; exact h'
  | cons ev es ih =>
    simp only [List.cons_append, Drawing.run] at h ⊢
    cases hs : x.step ev with
    | none => rw [hs] at h; cases h
    | some d1 => rw [hs] at h; exact ih d1 h

theorem run_concat (d d' : Drawing K) (es : List (Drawing.Event K)) (e : Drawing.Event K) (h : d.run (es ++ [e]) = some d') :
    ∃ m, d.run es = some m ∧ m.step e = some d' := by
  obtain ⟨m, h1, h2⟩ := run_append_some d d' es [e] h
  refine ⟨m, h1, ?_⟩
  simp only [Drawing.run] at h2
  cases hs : m.step e with
  | none => rw [hs] at h2; cases h2
  | some x => rw [hs] at h2; exact h2

theorem latest_other (es : List (Drawing.Event K)) (e : Drawing.Event K) (h : ∀ p, e ≠ .write p) : latest (es ++ [e]) = latest es := by
  unfold latest
  rw [List.filterMap_append]
  cases e with
  | write p => exact absurd rfl (h p)
  | _ => simp

theorem latest_write (es : List (Drawing.Event K)) (p : Plotter K) : latest (es ++ [.write p]) = p := by
  unfold latest
  rw [List.filterMap_append]
  simp

/-- The data is always the latest one. -/
theorem data_latest (e u : Bool) (es : List (Drawing.Event K)) (d : Drawing K) (h : (Drawing.start e u).run es = some d) : d.data = latest es := by
  induction es using List.reverseRecOn generalizing d with
  | nil => rw [← Option.some.inj h]; rfl
  | append_singleton es ev ih =>
    obtain ⟨m, h1, h2⟩ := run_concat _ _ _ _ h
    have := ih m h1
    cases ev with
    | write p =>
      rw [latest_write]
      simp only [Drawing.step] at h2
      split at h2
      · rw [← Option.some.inj h2]
      · cases h2
    | construct | raise | destroy =>
      rw [latest_other _ _ (by simp), ← this]
      simp only [Drawing.step] at h2
      split at h2 <;> first | (cases h2; done) | rw [← Option.some.inj h2]
    | thread =>
      rw [latest_other _ _ (by simp), ← this]
      simp only [Drawing.step] at h2
      split at h2
      · split at h2
        · rw [← Option.some.inj h2]
        · split at h2 <;> rw [← Option.some.inj h2]
      · split at h2
        · cases h2
        · rw [← Option.some.inj h2]
      · rw [← Option.some.inj h2]
      · rw [← Option.some.inj h2]
      · cases h2

/-- `x` is the picture of the data as it was after the first `k` steps. -/
def Shows (es : List (Drawing.Event K)) (x : Option (List (Item3d K) × List (Item2d K))) (k : ℕ) : Prop :=
  x = none ∨ x = some (picture (latest (es.take k)))

theorem Shows.more {es es' : List (Drawing.Event K)} {x : Option (List (Item3d K) × List (Item2d K))} {k : ℕ} (h : Shows es x k) (hk : k ≤ es.length) :
    Shows (es ++ es') x k := by
  unfold Shows
  rwa [List.take_append_of_le_length hk]

theorem shows_step (e u : Bool) (es : List (Drawing.Event K)) (m d : Drawing K) (hm : (Drawing.start e u).run es = some m) (ev : Drawing.Event K)
    (h : m.step ev = some d) (k1 k2 : ℕ) (h12 : k1 ≤ k2) (h2 : k2 ≤ es.length) (hs : Shows es m.screen k1) (hc : Shows es m.canvas k2) :
    ∃ k1' k2', k1 ≤ k1' ∧ k1' ≤ k2' ∧ k2' ≤ (es ++ [ev]).length ∧ Shows (es ++ [ev]) d.screen k1' ∧ Shows (es ++ [ev]) d.canvas k2' := by
  have hl : k2 ≤ (es ++ [ev]).length := by simp; omega
  have same : d.screen = m.screen → d.canvas = m.canvas →
      ∃ k1' k2', k1 ≤ k1' ∧ k1' ≤ k2' ∧ k2' ≤ (es ++ [ev]).length ∧ Shows (es ++ [ev]) d.screen k1' ∧ Shows (es ++ [ev]) d.canvas k2' := by
    intro e1 e2
    refine ⟨k1, k2, le_refl _, h12, hl, ?_, ?_⟩
    · rw [e1]; exact hs.more (by omega)
    · rw [e2]; exact hc.more h2
  cases ev with
  | write p =>
    simp only [Drawing.step] at h
    split at h
    · rw [← Option.some.inj h] at same ⊢; exact same rfl rfl
    · cases h
  | construct | raise | destroy =>
    simp only [Drawing.step] at h
    split at h <;> first | (cases h; done) | (rw [← Option.some.inj h] at same ⊢; exact same rfl rfl)
  | thread =>
    simp only [Drawing.step] at h
    split at h
    · split at h
      · rw [← Option.some.inj h] at same ⊢; exact same rfl rfl
      · split at h <;> (rw [← Option.some.inj h] at same ⊢; exact same rfl rfl)
    · split at h
      · cases h
      · rw [← Option.some.inj h]
        refine ⟨k1, es.length, le_refl _, by omega, by simp, hs.more (by omega), Or.inr ?_⟩
        rw [List.take_left', data_latest e u es m hm]
        · rfl
        · rfl
    · rw [← Option.some.inj h]
      exact ⟨k2, k2, h12, le_refl _, hl, hc.more h2, hc.more h2⟩
    · rw [← Option.some.inj h] at same ⊢; exact same rfl rfl
    · cases h

theorem shows_run (e u : Bool) (es es2 : List (Drawing.Event K)) (m d : Drawing K) (hm : (Drawing.start e u).run es = some m)
    (h : m.run es2 = some d) (k1 k2 : ℕ) (h12 : k1 ≤ k2) (h2 : k2 ≤ es.length) (hs : Shows es m.screen k1) (hc : Shows es m.canvas k2) :
    ∃ k1' k2', k1 ≤ k1' ∧ k1' ≤ k2' ∧ k2' ≤ (es ++ es2).length ∧ Shows (es ++ es2) d.screen k1' ∧ Shows (es ++ es2) d.canvas k2' := by
  induction es2 using List.reverseRecOn generalizing d with
  | nil =>
    rw [← Option.some.inj h, List.append_nil]
    exact ⟨k1, k2, le_refl _, h12, h2, hs, hc⟩
  | append_singleton es2 ev ih =>
    obtain ⟨x, h3, h4⟩ := run_concat _ _ _ _ h
    obtain ⟨j1, j2, a, b, c, f, g⟩ := ih x h3
    have hx : (Drawing.start e u).run (es ++ es2) = some x := run_append_of e u es es2 m x hm h3
    obtain ⟨i1, i2, a', b', c', f', g'⟩ := shows_step e u (es ++ es2) x d hx ev h4 j1 j2 b c f g
    rw [← List.append_assoc]
    exact ⟨i1, i2, by omega, b', c', f', g'⟩

/-- C99: at any time the screen is empty or shows the data as it was at some earlier moment, complete; and it never goes back: what is shown later is the data of
the same or a later moment. -/
theorem C99_never_back (e u : Bool) (es es2 : List (Drawing.Event K)) (m d : Drawing K) (hm : (Drawing.start e u).run es = some m)
    (h : m.run es2 = some d) :
    ∃ k k', k ≤ k' ∧ k ≤ es.length ∧ k' ≤ (es ++ es2).length ∧
      (m.screen = none ∨ m.screen = some (picture (latest ((es ++ es2).take k)))) ∧
      (d.screen = none ∨ d.screen = some (picture (latest ((es ++ es2).take k')))) := by
  obtain ⟨k1, k2, a, b, c, f, g⟩ := shows_run e u [] es (Drawing.start e u) m rfl hm 0 0 (le_refl _) (le_refl _) (Or.inl rfl) (Or.inl rfl)
  rw [List.nil_append] at c f g
  obtain ⟨j1, j2, a', b', c', f', g'⟩ := shows_run e u es es2 m d hm h k1 k2 b c f g
  exact ⟨k1, j1, a', by omega, by omega, f.more (by omega), f'⟩

/-- C99, the property that fails: whenever all calls have returned and the drawing thread waits with nothing to do, the screen shows the newest data. A position
reported between the drawing and the lowering of the flag is lost: it is not shown, and stays so however long the thread runs. -/
theorem C99_lost_refuted : ∃ (es : List (Drawing.Event ℚ)) (d : Drawing ℚ) (p1 p2 : Plotter ℚ) (refs : References ℚ),
    (Drawing.start false false).run es = some d ∧ p1.setUAVposition refs 1 = some p2 ∧
    es = [.construct, .write p1, .raise, .thread, .thread, .write p2, .raise, .thread, .thread] ∧
    d.constructed = true ∧ d.pending = 0 ∧ d.update = false ∧ d.ended = false ∧ d.pc = .top ∧ d.data.locked = false ∧
    latest es = p2 ∧ d.screen ≠ some (picture (latest es)) ∧ ∀ n, d.run (List.replicate n .thread) = some d := by
  let refs : References ℚ := ⟨⟨1, 2, 3⟩, none, none⟩
  let p2 : Plotter ℚ := { (Plotter.init : Plotter ℚ) with pose := ⟨1, 2, 3⟩, poseTime := 1, refs := [refs], refTimes := [1] }
  let d : Drawing ℚ := ⟨p2, false, false, true, 0, .top, some (picture Plotter.init), some (picture Plotter.init)⟩
  refine ⟨[.construct, .write Plotter.init, .raise, .thread, .thread, .write p2, .raise, .thread, .thread], d, Plotter.init, p2, refs, rfl, rfl, rfl, rfl, rfl, rfl, rfl, rfl,
    rfl, rfl, ?_, ?_⟩
  · rw [show latest [.construct, .write Plotter.init, .raise, .thread, .thread, .write p2, .raise, .thread, .thread] = p2 from rfl]
    decide +kernel
  · intro n
    induction n with
    | zero => rfl
    | succ n ih => rw [List.replicate_succ]; exact ih

theorem writes_concat (d m : Drawing K) (es : List (Drawing.Event K)) (ev : Drawing.Event K) (h : WritesBetweenPasses d (es ++ [ev])) (hm : d.run es = some m) :
    WritesBetweenPasses d es ∧ ∀ p, ev = .write p → m.pc ≠ .showing ∧ m.pc ≠ .clearing := by
  induction es generalizing d with
  | nil => rw [← Option.some.inj hm]; exact ⟨trivial, h.1⟩
  | cons e es ih =>
    simp only [Drawing.run] at hm
    cases hs : d.step e with
    | none => rw [hs] at hm; cases hm
    | some d1 =>
      rw [hs] at hm
      obtain ⟨a, b⟩ := ih d1 (h.2 d1 hs) hm
      refine ⟨⟨h.1, ?_⟩, b⟩
      intro d' hd'
      rw [hs] at hd'
      rwa [← Option.some.inj hd']

/-- The invariant behind `C99_newest_partial`. -/
structure DrawInv (es : List (Drawing.Event K)) (d : Drawing K) : Prop where
  active : d.pc ≠ .top → d.pc ≠ .finished → d.update = true
  canvas : d.pc = .showing → d.canvas = some (picture d.data)
  screen : d.pc = .clearing → d.screen = some (picture d.data)
  quiet : d.pending = 0 → d.update = false → HasWrite es → d.screen = some (picture d.data)

theorem hasWrite_other (es : List (Drawing.Event K)) (e : Drawing.Event K) (h : ∀ p, e ≠ .write p) : HasWrite (es ++ [e]) → HasWrite es := by
  rintro ⟨p, hp⟩
  rcases List.mem_append.mp hp with hp | hp
  · exact ⟨p, hp⟩
  · exact absurd (List.mem_singleton.mp hp).symm (h p)

/-- C99: if no call writes between drawing and lowering the flag, the property holds: whenever all calls have returned and no update is requested, the
screen shows the newest data. (The full claim has no such assumption and is refuted above.) -/
theorem C99_newest_partial (e u : Bool) (es : List (Drawing.Event K)) (d : Drawing K) (h : (Drawing.start e u).run es = some d)
    (hw : WritesBetweenPasses (Drawing.start e u) es) (hp : d.pending = 0) (hu : d.update = false) (hne : HasWrite es) :
    d.screen = some (picture (latest es)) := by
  have key : DrawInv es d := by
    clear hp hu hne
    induction es using List.reverseRecOn generalizing d with
    | nil =>
      rw [← Option.some.inj h]
      exact ⟨fun h => absurd rfl h, fun h => (by cases h), fun h => (by cases h), fun _ _ h => (by obtain ⟨_, h⟩ := h; cases h)⟩
    | append_singleton es ev ih =>
      obtain ⟨m, h1, h2⟩ := run_concat _ _ _ _ h
      obtain ⟨hw1, hw2⟩ := writes_concat _ m _ _ hw h1
      obtain ⟨i1, i2, i3, i4⟩ := ih m h1 hw1
      cases ev with
      | write p =>
        obtain ⟨n1, n2⟩ := hw2 p rfl
        simp only [Drawing.step] at h2
        split at h2
        · rw [← Option.some.inj h2]
          exact ⟨i1, fun h => absurd h n1, fun h => absurd h n2, fun h => absurd h (Nat.succ_ne_zero _)⟩
        · cases h2
      | construct =>
        simp only [Drawing.step] at h2
        split at h2
        · cases h2
        · rw [← Option.some.inj h2]
          exact ⟨i1, i2, i3, fun a b c => i4 a b (hasWrite_other _ _ (by simp) c)⟩
      | destroy =>
        simp only [Drawing.step] at h2
        split at h2
        · rw [← Option.some.inj h2]
          exact ⟨i1, i2, i3, fun a b c => i4 a b (hasWrite_other _ _ (by simp) c)⟩
        · cases h2
      | raise =>
        simp only [Drawing.step] at h2
        split at h2
        · rw [← Option.some.inj h2]
          exact ⟨fun _ _ => rfl, i2, i3, fun _ b => by cases b⟩
        · cases h2
      | thread =>
        have hother := hasWrite_other es .thread (by simp)
        simp only [Drawing.step] at h2
        split at h2
        · rename_i hpc
          split at h2
          · rw [← Option.some.inj h2]
            exact ⟨fun _ h => absurd rfl h, fun h => (by cases h), fun h => (by cases h), fun a b c => i4 a b (hother c)⟩
          · split at h2
            · rename_i hup
              rw [← Option.some.inj h2]
              exact ⟨fun _ _ => hup, fun h => (by cases h), fun h => (by cases h), fun a b c => i4 a b (hother c)⟩
            · rw [← Option.some.inj h2]
              exact ⟨i1, i2, i3, fun a b c => i4 a b (hother c)⟩
        · rename_i hpc
          split at h2
          · cases h2
          · have hup := i1 (by rw [hpc]; simp) (by rw [hpc]; simp)
            rw [← Option.some.inj h2]
            exact ⟨fun _ _ => hup, fun _ => rfl, fun h => (by cases h), fun a b => (by simp only at b; rw [hup] at b; cases b)⟩
        · rename_i hpc
          have hup := i1 (by rw [hpc]; simp) (by rw [hpc]; simp)
          rw [← Option.some.inj h2]
          exact ⟨fun _ _ => hup, fun h => (by cases h), fun _ => i2 hpc, fun a b => (by simp only at b; rw [hup] at b; cases b)⟩
        · rename_i hpc
          rw [← Option.some.inj h2]
          exact ⟨fun h => absurd rfl h, fun h => (by cases h), fun h => (by cases h), fun _ _ _ => i3 hpc⟩
        · cases h2
  rw [← data_latest e u es d h]
  exact key.quiet hp hu hne

/-- C99: a requested update is carried out: if the flag is up, the plotter runs and the mutex is free, four steps of the thread bring the newest data on the screen. -/
theorem C99_progress (d : Drawing K) (h1 : d.pc = .top) (h2 : d.update = true) (h3 : d.ended = false) (h4 : d.data.locked = false) :
    ∃ d', d.run [.thread, .thread, .thread, .thread] = some d' ∧ d'.screen = some (picture d.data) ∧ d'.data = d.data ∧ d'.pc = .top ∧ d'.update = false := by
  obtain ⟨data, ended, update, constructed, pending, pc, canvas, screen⟩ := d
  simp only at h1 h2 h3 h4
  subst h1 h2 h3
  simp [Drawing.run, Drawing.step, h4, picture, Plotter.picture3d, Plotter.picture2d]

/-- C99: `ended_` is not initialised before the thread starts. If it happens to be true, a schedule exists in which nothing is ever drawn, whatever is plotted. -/
theorem C99_start_refuted (u : Bool) : ∃ d : Drawing K, (Drawing.start true u).run [.thread, .construct] = some d ∧ d.constructed = true ∧ d.ended = false ∧
    ∀ es d', d.run es = some d' → d'.screen = none := by
  refine ⟨{ (Drawing.start true u : Drawing K) with pc := .finished, constructed := true, ended := false }, rfl, rfl, rfl, ?_⟩
  have key : ∀ (es : List (Drawing.Event K)) (d d' : Drawing K), d.pc = .finished → d.screen = none → d.run es = some d' → d'.screen = none := by
    intro es
    induction es with
    | nil => intro d d' _ h h2; rw [← Option.some.inj h2]; exact h
    | cons ev es ih =>
      intro d d' hp hs h
      simp only [Drawing.run] at h
      cases hst : d.step ev with
      | none => rw [hst] at h; cases h
      | some d1 =>
        rw [hst] at h
        have : d1.pc = .finished ∧ d1.screen = none := by
          cases ev <;> simp only [Drawing.step, hp] at hst <;> (try split at hst) <;> (try cases hst) <;> exact ⟨rfl, hs⟩
        exact ih d1 d' this.1 this.2 h
  intro es d' h
  exact key es _ d' rfl rfl h

/-- C99: if it happens to be false, the thread runs until the destructor. -/
theorem C99_start_partial (u : Bool) (es : List (Drawing.Event K)) (d : Drawing K) (h : (Drawing.start false u).run es = some d) (hd : .destroy ∉ es) :
    d.pc ≠ .finished := by
  have key : ∀ (es : List (Drawing.Event K)) (d d' : Drawing K), d.pc ≠ .finished → d.ended = false → .destroy ∉ es → d.run es = some d' → d'.pc ≠ .finished := by
    intro es
    induction es with
    | nil => intro d d' h _ _ h2; rw [← Option.some.inj h2]; exact h
    | cons ev es ih =>
      intro d d' hp he hn h
      simp only [Drawing.run] at h
      cases hst : d.step ev with
      | none => rw [hst] at h; cases h
      | some d1 =>
        rw [hst] at h
        have hn' : .destroy ∉ es := fun hx => hn (List.mem_cons_of_mem _ hx)
        have : d1.pc ≠ .finished ∧ d1.ended = false := by
          cases ev with
          | destroy => exact absurd List.mem_cons_self hn
          | construct =>
            simp only [Drawing.step] at hst
            split at hst
            · cases hst
            · rw [← Option.some.inj hst]; exact ⟨hp, rfl⟩
          | write p =>
            simp only [Drawing.step] at hst
            split at hst
            · rw [← Option.some.inj hst]; exact ⟨hp, he⟩
            · cases hst
          | raise =>
            simp only [Drawing.step] at hst
            split at hst
            · rw [← Option.some.inj hst]; exact ⟨hp, he⟩
            · cases hst
          | thread =>
            simp only [Drawing.step] at hst
            split at hst
            · rw [if_neg (by rw [he]; simp)] at hst
              split at hst
              · rw [← Option.some.inj hst]; exact ⟨by simp, he⟩
              · rw [← Option.some.inj hst]; exact ⟨hp, he⟩
            · split at hst
              · cases hst
              · rw [← Option.some.inj hst]; exact ⟨by simp, he⟩
            · rw [← Option.some.inj hst]; exact ⟨by simp, he⟩
            · rw [← Option.some.inj hst]; exact ⟨by simp, he⟩
            · cases hst
        exact ih d1 d' this.1 this.2 hn' h
  exact key es _ d (by simp [Drawing.start]) rfl hd h

/-- C99: the destructor, which waits for the thread to finish, returns after at most four steps of the thread if the mutex is free. -/
theorem C99_destructor (d : Drawing K) (h1 : d.ended = true) (h2 : d.data.locked = false) :
    ∃ n ≤ 4, ∃ d', d.run (List.replicate n .thread) = some d' ∧ d'.pc = .finished := by
  obtain ⟨data, ended, update, constructed, pending, pc, canvas, screen⟩ := d
  simp only at h1 h2
  subst h1
  cases pc with
  | top => exact ⟨1, by omega, _, rfl, rfl⟩
  | drawing => exact ⟨4, by omega, (⟨data, true, false, constructed, pending, .finished, some (data.picture3d, data.picture2d),
      some (data.picture3d, data.picture2d)⟩ : Drawing K), by simp [List.replicate, Drawing.run, Drawing.step, h2], rfl⟩
  | showing => exact ⟨3, by omega, _, rfl, rfl⟩
  | clearing => exact ⟨2, by omega, _, rfl, rfl⟩
  | finished => exact ⟨0, by omega, _, rfl, rfl⟩

/-- C99: if a call has been left with the mutex held (C97), a thread that is about to draw stays there for ever: the destructor never returns. -/
theorem C99_destructor_refuted (d : Drawing K) (h1 : d.pc = .drawing) (h2 : d.data.locked = true) (es : List (Drawing.Event K)) (d' : Drawing K)
    (h : d.run es = some d') : d'.pc = .drawing ∧ d'.step .thread = none := by
  have key : d'.pc = .drawing ∧ d'.data.locked = true := by
    induction es using List.reverseRecOn generalizing d' with
    | nil => rw [← Option.some.inj h]; exact ⟨h1, h2⟩
    | append_singleton es ev ih =>
      obtain ⟨m, h3, h4⟩ := run_concat _ _ _ _ h
      obtain ⟨i1, i2⟩ := ih m h3
      cases ev with
      | write p => simp [Drawing.step, i2] at h4
      | thread => simp [Drawing.step, i1, i2] at h4
      | construct | raise | destroy =>
        simp only [Drawing.step] at h4
        split at h4 <;> first | (cases h4; done) | (rw [← Option.some.inj h4]; exact ⟨i1, i2⟩)
  refine ⟨key.1, ?_⟩
  simp [Drawing.step, key.1, key.2]

-- A call fails (C97) while the thread has seen the flag of an earlier one.
example : ∃ d : Drawing ℚ, (Drawing.start false false).run [.construct, .write Plotter.init, .raise, .thread, .write { (Plotter.init : Plotter ℚ) with locked := true }] = some d ∧
    d.pc = .drawing ∧ d.data.locked = true := ⟨_, rfl, rfl, rfl⟩

-- Two writes, the second one after the first pass: shown.
example : ∃ (p : Plotter ℚ) (d : Drawing ℚ), (Drawing.start false false).run [.construct, .write Plotter.init, .raise, .thread, .thread, .thread, .thread, .write p, .raise,
    .thread, .thread, .thread, .thread] = some d ∧ d.pending = 0 ∧ d.update = false ∧ d.screen = some (picture p) ∧ p.pose = ⟨1, 2, 3⟩ :=
  ⟨{ (Plotter.init : Plotter ℚ) with pose := ⟨1, 2, 3⟩ }, _, rfl, rfl, rfl, rfl, rfl⟩

end Verif.Properties
