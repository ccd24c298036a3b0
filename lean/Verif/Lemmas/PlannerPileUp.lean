import Verif.Lemmas.PlannerFail
import Verif.Lemmas.PlannerPile
import Verif.Lemmas.PlannerSample

/-! # A new plan every tenth of a second -/

set_option linter.unusedSectionVars false
set_option linter.unusedSimpArgs false

namespace Verif.Lemmas
open Verif Verif.Spec

section
variable {K : Type*} [Field K] [LinearOrder K] [IsStrictOrderedRing K] [FloorSemiring K]

theorem reachable_snoc {env : Env K} {s s' : Planner K} (e : Event K) (h : Reachable env s) (hv : ValidEvent e)
    (hs : s.step env e = .ok (some s')) : Reachable env s' := by
  obtain ⟨v, es, h1, h2⟩ := h
  refine ⟨v, es ++ [e], ?_, .snoc e h2 hs⟩
  intro x hx
  rcases List.mem_append.mp hx with hx | hx
  · exact h1 x hx
  · rw [List.mem_singleton.mp hx]; exact hv

theorem zoneLoop_far (t z : K) (ws : List (Waypoint K)) (h : ∀ w ∈ ws, w.time > t → w.time - t > z) : Planner.zoneLoop t z ws = false := by
  induction ws with
  | nil => rfl
  | cons w ws ih =>
    unfold Planner.zoneLoop
    split
    · rename_i hc
      rw [if_pos (h w (by simp) hc.2)]
    · exact ih fun w hw => h w (by simp [hw])

theorem stitchPoint_total (env : Env K) (s : Planner K) (tr : Trajectory K) (hu : Usable tr) (hz : NoZeroWidth s.dyn) (l : K) (d : Bool) :
    ∃ w, s.stitchPoint env tr l d = .ok w := by
  cases h : s.stitchPoint env tr l d with
  | ok w => exact ⟨w, rfl⟩
  | error e =>
    obtain ⟨r, hr⟩ := getReferences_total env s tr hu hz (l + s.params.gtlg) l false
    rw [stitchPoint_fail env s tr l d e h] at hr
    cases hr

theorem noZeroWidth_of_none (ws : List (Waypoint K)) (h : ∀ w ∈ ws, w.modifiers = []) : NoZeroWidth ws := by
  intro w hw m hm
  rw [h w hw] at hm
  cases hm

theorem mapM_resetCurrent_frame (ws ws' : List (Waypoint K)) (h : ws.mapM (·.resetWithCurrent) = .ok ws') :
    ws'.map (fun w => (w.name, w.time)) = ws.map (fun w => (w.name, w.time)) ∧ ∀ w ∈ ws', w.modifiers = [] := by
  have h2 := mapM_forall2 _ _ _ h
  clear h
  induction h2 with
  | nil => simp
  | cons hab _ ih =>
    obtain ⟨v, _, rfl⟩ := resetCurrent_frame _ _ hab
    refine ⟨by simp [ih.1], ?_⟩
    intro w hw
    rcases List.mem_cons.mp hw with rfl | hw
    · rfl
    · exact ih.2 w hw

theorem assignTimes_frame (segs : List (Segment K)) (g : K) (ws ws' : List (Waypoint K)) (i : ℕ) (h : assignTimes segs g ws i = .ok ws')
    (hm : ∀ w ∈ ws, w.modifiers = []) : ws'.map (·.name) = ws.map (·.name) ∧ ∀ w ∈ ws', w.modifiers = [] := by
  induction ws generalizing i ws' with
  | nil => rw [← Except.ok.inj h]; simp
  | cons w ws ih =>
    simp only [assignTimes, bind, Except.bind] at h
    split at h
    · cases h
    · split at h
      · cases h
      · rename_i ws1 h1
        obtain ⟨a, b⟩ := ih ws1 _ h1 (fun w hw => hm w (by simp [hw]))
        rw [← Except.ok.inj h]
        refine ⟨by simp [a, Waypoint.setTime, Waypoint.setIndex], ?_⟩
        intro x hx
        rcases List.mem_cons.mp hx with rfl | hx
        · simp [Waypoint.setTime, Waypoint.setIndex, hm w (by simp)]
        · exact b x hx

end

/-- The planner of the examples, idle a tenth of a second after the start of the plan in force. -/
structure Rest (t : ℚ) (names : List String) (s : Planner ℚ) : Prop where
  reach : Reachable hermiteEnv s
  pc : s.pc = .top
  idle : s.computing = false
  traj : s.traj ≠ none
  toSet : s.toSet = []
  toAdd : s.toAdd = []
  toModify : s.toModify = []
  lastGlobal : s.params.lastGlobal = t
  gtlg : s.params.gtlg = t - 1 / 10
  lastLocal : s.params.lastLocal = 1 / 10
  tOffset : s.params.tOffset = 1 / 10
  constant : s.timeConstant = 1 / 100
  names : s.dyn.map (·.name) = names
  plain : ∀ w ∈ s.dyn, w.modifiers = []

theorem optimize_hermite (vs : List (Vertex ℚ)) (sp : ℚ) (tr : Trajectory ℚ) (h : (hermiteEnv : Env ℚ).optimize vs sp = .ok tr) :
    2 ≤ vs.length ∧ tr.segments = hermiteSegments vs ∧ tr.maxTime = (vs.length - 1 : ℕ) := by
  simp only [hermiteEnv, hermiteOptimize] at h
  split at h
  · rename_i hc
    rw [← Except.ok.inj h]
    exact ⟨hc.1, rfl, rfl⟩
  · cases h

theorem rest_plan {t : ℚ} {names : List String} {s : Planner ℚ} (h : Rest t names s) : ∃ tr, s.traj = some tr ∧ Usable tr ∧
    2 ≤ names.length ∧ tr.maxTime = (names.length - 1 : ℕ) ∧ s.dyn.length = names.length ∧
    ∀ (i : ℕ) (w : Waypoint ℚ), s.dyn[i]? = some w → w.time = t - 1 / 10 + i := by
  obtain ⟨tr, htr⟩ := Option.ne_none_iff_exists'.mp h.traj
  obtain ⟨hT, ws, ⟨vs, sp, _, hopt⟩, _, _⟩ := (reachable_plan hermiteEnv hermite_segmentwise s h.reach).taken tr htr
  obtain ⟨h2, hs, hm⟩ := optimize_hermite vs sp tr hopt
  obtain ⟨hu, hl⟩ := hermite_segmentwise vs sp tr hopt
  have hlen : s.dyn.length = names.length := by rw [← h.names, List.length_map]
  have hvl : vs.length = names.length := by rw [← hlen, hT.1, hl]
  refine ⟨tr, htr, hu, by omega, by rw [hm, hvl], hlen, ?_⟩
  intro i w hw
  rw [(hT.2 i w hw).2, h.gtlg, hs, hermite_startOf]
  have hi := (List.getElem?_eq_some_iff.mp hw).1
  rw [hT.1, hs] at hi
  omega

theorem compute_hermite (s : Planner ℚ) (hw : WpInv s) (h2 : 2 ≤ s.next.length) (sp : ℚ) :
    ∃ tr ws, s.computeTrajectory hermiteEnv sp = .ok (tr, ws) := by
  cases h : s.computeTrajectory hermiteEnv sp with
  | ok r => exact ⟨r.1, r.2, rfl⟩
  | error e =>
    exfalso
    obtain ⟨vs, h1, hv2, h3⟩ := computeTrajectory_fail hermiteEnv hermite_segmentwise s hw h2 sp e h
    have hall : ∀ v ∈ vs, ∀ c ∈ v.constraints, c.2.length = 3 := by
      intro v hv c hc
      obtain ⟨⟨_, hwf⟩, hD⟩ := extractVertices_wellFormed s.next vs h1 hw.next v hv
      rw [hwf c hc, hD]
    simp only [hermiteEnv, hermiteOptimize, if_pos (And.intro hv2 hall)] at h3
    cases h3

/-- The waypoints the next plan is prepared from: all but the first. -/
theorem rest_collect {t : ℚ} {names : List String} {s : Planner ℚ} (h : Rest t names s) : ∃ ws,
    s.generateWaypoints = .ok (ws, { s with toSet := [], toAdd := [], toModify := [] }) ∧ ws.map (·.name) = names.tail ∧
    (∀ w ∈ ws, w.modifiers = []) ∧ ∀ w ∈ ws, t + 9 / 10 ≤ w.time := by
  obtain ⟨ws, hws⟩ := generateWaypoints_total s (reachable_wp _ s h.reach)
  refine ⟨ws, hws, ?_⟩
  obtain ⟨tr, _, _, hn2, _, hlen, htime⟩ := rest_plan h
  have hdrop : s.filterPassed (s.dyn.map (·.copy)) = s.dyn.tail.map (·.copy) := by
    unfold Planner.filterPassed
    cases hd : s.dyn with
    | nil => rfl
    | cons w0 rest =>
      have h0 : w0.time = t - 1 / 10 := by simpa using htime 0 w0 (by simp [hd])
      rw [List.map_cons, List.filter_cons_of_neg (by simp [Waypoint.copy, h0, h.lastGlobal]), List.tail_cons, List.filter_eq_self]
      intro w hw
      obtain ⟨a, ha, rfl⟩ := List.mem_map.mp hw
      obtain ⟨i, hi⟩ := List.mem_iff_getElem?.mp ha
      have := htime (i + 1) a (by rw [hd]; exact hi)
      have hc : (0 : ℚ) ≤ i := Nat.cast_nonneg i
      simp only [Waypoint.copy, h.lastGlobal, Bool.not_eq_true', decide_eq_false_iff_not, not_lt]
      rw [this]; push_cast; linarith
  unfold Planner.generateWaypoints at hws
  rw [h.toSet, h.toAdd, h.toModify, hdrop] at hws
  simp only [List.length_nil, if_true, List.map_nil, List.append_nil, resetAll, bind, Except.bind] at hws
  split at hws
  · cases hws
  · rename_i base hb
    cases hws
    obtain ⟨h1, h2⟩ := mapM_resetCurrent_frame _ _ hb
    refine ⟨?_, h2, ?_⟩
    · have := congrArg (List.map Prod.fst) h1
      simp only [List.map_map] at this
      rw [← h.names, ← List.map_tail]
      exact this
    · intro w hw
      have hm : (w.name, w.time) ∈ (s.dyn.tail.map (·.copy)).map (fun w : Waypoint ℚ => (w.name, w.time)) := by
        rw [← h1]; exact List.mem_map.mpr ⟨w, hw, rfl⟩
      simp only [List.mem_map] at hm
      obtain ⟨_, ⟨a, ha, rfl⟩, hp⟩ := hm
      obtain ⟨i, hi⟩ := List.mem_iff_getElem?.mp ha
      rw [List.getElem?_tail] at hi
      have := htime (i + 1) a hi
      have hc : (0 : ℚ) ≤ i := Nat.cast_nonneg i
      have he : a.copy.time = w.time := (Prod.mk.inj hp).2
      have he' : a.time = w.time := he
      rw [← he', this]; push_cast; linarith

theorem rest_again {t : ℚ} {names : List String} {s : Planner ℚ} (h : Rest t names s) : ∃ s',
    Run hermiteEnv s ([.modifyWaypoints []] ++ planEvents (1 / 100) ++ [.evaluate (t + 1 / 10) false false]) s' ∧
    Rest (t + 1 / 10) ("stitching_point" :: "stitching_point" :: names.tail) s' := by
  obtain ⟨tr, htr, hu, hn2, hmax, hlen, htime⟩ := rest_plan h
  have hz : NoZeroWidth s.dyn := noZeroWidth_of_none _ h.plain
  obtain ⟨ws, hws, hwn, hwm, hwt⟩ := rest_collect h
  -- the call
  let s1 : Planner ℚ := { s with generateNew := true }
  have e1 : s.step hermiteEnv (.modifyWaypoints []) = .ok (some s1) := rfl
  -- the worker
  let s2 : Planner ℚ := { s1 with pc := .collect }
  have e2 : s1.step hermiteEnv .worker = .ok (some s2) := by
    have hzone : s1.checkIfTrajectoryCanBeGenerated = true := by
      have hzl : Planner.zoneLoop s.params.lastGlobal (5 * s.computationTime) s.dyn = false := by
        apply zoneLoop_far
        intro w hw hgt
        obtain ⟨i, hi⟩ := List.mem_iff_getElem?.mp hw
        rw [htime i w hi, h.lastGlobal] at hgt ⊢
        unfold Planner.computationTime
        rw [h.constant]
        have h1 : i ≠ 0 := by rintro rfl; norm_num at hgt; linarith
        have h2 : (1 : ℚ) ≤ i := by exact_mod_cast Nat.one_le_iff_ne_zero.mpr h1
        linarith
      show (!s1.checkInSecurityZone && !s1.computing) = true
      have ha : s1.checkInSecurityZone = false := by
        unfold Planner.checkInSecurityZone
        rw [show s1.traj = some tr from htr]
        exact hzl
      have hb : s1.computing = false := h.idle
      rw [ha, hb]; rfl
    show (do let s ← s1.workerStep hermiteEnv; return some s) = _
    have : s1.workerStep hermiteEnv = .ok s2 := by
      unfold Planner.workerStep
      rw [show s1.pc = .top from h.pc]
      simp only [hzone, show s1.generateNew = true from rfl, Bool.and_self, if_true]
      rfl
    rw [this]; rfl
  let s3 : Planner ℚ := { s2 with toSet := [], toAdd := [], toModify := [], next := ws, pc := .collected }
  have e3 : s2.step hermiteEnv .worker = .ok (some s3) := by
    have hg : s2.generateWaypoints = .ok (ws, { s2 with toSet := [], toAdd := [], toModify := [] }) := by
      unfold Planner.generateWaypoints at hws ⊢
      have hf : s2.filterPassed (s2.dyn.map (·.copy)) = s.filterPassed (s.dyn.map (·.copy)) := rfl
      rw [hf, show s2.toSet = s.toSet from rfl, show s2.toAdd = s.toAdd from rfl, show s2.toModify = s.toModify from rfl]
      simp only [h.toSet, List.length_nil, if_true, bind, Except.bind] at hws ⊢
      split at hws
      · cases hws
      · split at hws
        · cases hws
        · rename_i hb0 _ _ hx
          simp only [pure, Except.pure, Except.ok.injEq, Prod.mk.injEq] at hws
          simp only [hb0, hx, hws.1, pure, Except.pure]
    show (do let s ← s2.workerStep hermiteEnv; return some s) = _
    have : s2.workerStep hermiteEnv = .ok s3 := by
      show (do let (ws, s) ← s2.generateWaypoints; return { s with next := ws, pc := .collected }) = _
      rw [hg]; rfl
    rw [this]; rfl
  have hwl : ws.length = names.length - 1 := by rw [← List.length_tail, ← hwn, List.length_map]
  let s4 : Planner ℚ := { s3 with newParams := { s.params with gtlg := s.params.lastGlobal }, pc := .snapshotted }
  have e4 : s3.step hermiteEnv .worker = .ok (some s4) := by
    show (do let s ← s3.workerStep hermiteEnv; return some s) = _
    have : s3.workerStep hermiteEnv = .ok s4 := by
      show (if ws.length = 0 then _ else _) = _
      rw [if_neg (by omega)]
    rw [this]; rfl
  obtain ⟨w0, hw0⟩ := stitchPoint_total hermiteEnv s4 tr hu hz (s4.newParams.lastLocal + s4.params.tOffset) true
  obtain ⟨w1, hw1⟩ := stitchPoint_total hermiteEnv s4 tr hu hz (s4.newParams.lastLocal + s4.params.tOffset + 5 * s4.computationTime) false
  let s5 : Planner ℚ := { s4 with fromScratch := false, next := w0 :: w1 :: ws.map (·.copy), pc := .planned }
  have e5 : s4.step hermiteEnv .worker = .ok (some s5) := by
    have hcs : s4.checkStitchTrajectory = true := by
      unfold Planner.checkStitchTrajectory
      rw [show s4.traj = some tr from htr]
      have hct : s4.computationTime = 2 * (1 / 100) := by
        show 2 * s.timeConstant = _
        rw [h.constant]
      simp only [hct, show s4.params = s.params from rfl, h.gtlg, h.lastGlobal, hmax, Bool.not_eq_true', decide_eq_false_iff_not, not_lt]
      have : (1 : ℚ) ≤ ((names.length - 1 : ℕ) : ℚ) := by exact_mod_cast (by omega : 1 ≤ names.length - 1)
      linarith
    have hst : s4.stitch hermiteEnv ws = .ok (w0 :: w1 :: ws.map (·.copy)) := by
      unfold Planner.stitch
      rw [show s4.traj = some tr from htr]
      simp only [hw0, hw1, bind, Except.bind, pure, Except.pure]
      rw [List.filter_eq_self.mpr]
      intro w hw
      have h1 := hwt w hw
      simp only [Bool.not_eq_true', decide_eq_false_iff_not, not_and_or, not_lt]
      left
      show s.params.lastLocal + s.params.tOffset + 5 * (2 * s.timeConstant) + 5 * (2 * s.timeConstant) + s.params.gtlg ≤ w.time
      rw [h.lastLocal, h.tOffset, h.constant, h.gtlg]
      linarith
    show (do let s ← s4.workerStep hermiteEnv; return some s) = _
    have : s4.workerStep hermiteEnv = .ok s5 := by
      show (if s4.checkStitchTrajectory then _ else _) = _
      rw [if_pos hcs]
      show (do let ws ← s4.stitch hermiteEnv ws; return { s4 with fromScratch := false, next := ws, pc := .planned }) = _
      rw [hst]; rfl
    rw [this]; rfl
  let s6 : Planner ℚ := { s5 with computing := true, pc := .launching }
  have e6 : s5.step hermiteEnv .worker = .ok (some s6) := rfl
  let s7 : Planner ℚ := { s6 with future := .launched, pc := .launched }
  have e7 : s6.step hermiteEnv .worker = .ok (some s7) := rfl
  let s8 : Planner ℚ := { s7 with generateNew := false, pc := .top }
  have e8 : s7.step hermiteEnv .worker = .ok (some s8) := rfl
  let s9 : Planner ℚ := { s8 with future := .running s.params.speed }
  have e9 : s8.step hermiteEnv .asyncStart = .ok (some s9) := rfl
  have r1 : Reachable hermiteEnv s1 := reachable_snoc _ h.reach (by trivial) e1
  have r2 : Reachable hermiteEnv s2 := reachable_snoc _ r1 (by trivial) e2
  have r3 : Reachable hermiteEnv s3 := reachable_snoc _ r2 (by trivial) e3
  have r4 : Reachable hermiteEnv s4 := reachable_snoc _ r3 (by trivial) e4
  have r5 : Reachable hermiteEnv s5 := reachable_snoc _ r4 (by trivial) e5
  have r6 : Reachable hermiteEnv s6 := reachable_snoc _ r5 (by trivial) e6
  have r7 : Reachable hermiteEnv s7 := reachable_snoc _ r6 (by trivial) e7
  have r8 : Reachable hermiteEnv s8 := reachable_snoc _ r7 (by trivial) e8
  have r9 : Reachable hermiteEnv s9 := reachable_snoc _ r8 (by trivial) e9
  -- the computation
  obtain ⟨tr', ws', hcomp⟩ := compute_hermite s9 (reachable_wp _ _ r9) (by show 2 ≤ (w0 :: w1 :: ws.map (·.copy)).length; simp) s.params.speed
  obtain ⟨vs, _, _, hopt, hass⟩ := computeTrajectory_form _ _ _ _ _ hcomp
  obtain ⟨hu', _⟩ := hermite_segmentwise vs _ tr' hopt
  have hplain : ∀ w ∈ w0 :: w1 :: ws.map (·.copy), w.modifiers = [] := by
    intro w hw
    rcases List.mem_cons.mp hw with rfl | hw
    · exact (stitchPoint_spec _ _ _ _ _ _ hw0).choose_spec.2.2.1
    · rcases List.mem_cons.mp hw with rfl | hw
      · exact (stitchPoint_spec _ _ _ _ _ _ hw1).choose_spec.2.2.1
      · obtain ⟨a, ha, rfl⟩ := List.mem_map.mp hw
        exact hwm a ha
  obtain ⟨hnm, hpl⟩ := assignTimes_frame _ _ _ _ _ hass hplain
  let s10 : Planner ℚ := { s9 with next := ws', timeConstant := 1 / 100, future := .ready tr' }
  have e10 : s9.step hermiteEnv (.asyncFinish (1 / 100)) = .ok (some s10) := by
    show s9.asyncFinish hermiteEnv (1 / 100) = _
    unfold Planner.asyncFinish
    rw [show s9.future = .running s.params.speed from rfl]
    simp only [hcomp]
    rfl
  have r10 : Reachable hermiteEnv s10 := reachable_snoc _ r9 (by show (0 : ℚ) ≤ 1 / 100; norm_num) e10
  -- the evaluation
  let s11 : Planner ℚ := { s10 with
    future := .invalid
    newParams := { s10.newParams with tOffset := 1 / 10 }
    params := { s10.newParams with tOffset := 1 / 10 }
    traj := some tr'
    regenerated := true
    dyn := ws'.map (·.copy)
    computing := false
    generateNew := false }
  have hcheck : s10.checkTrajectoryGenerated hermiteEnv = .ok (some s11) := by
    have hz10 : NoZeroWidth s10.dyn := hz
    obtain ⟨target, htarget⟩ := evaluateModified_total hermiteEnv { s10 with traj := some tr, future := .invalid, fromScratch := false } tr hu hz
      (s10.params.lastGlobal + s10.params.tOffset) (s10.params.lastLocal + s10.params.tOffset) 0
    obtain ⟨p, hp⟩ := evaluateModified_total hermiteEnv { s10 with traj := some tr, future := .invalid, fromScratch := false } tr' hu' hz (0 + s10.newParams.gtlg) 0 0
    have hfit : ({ s10 with traj := some tr, future := .invalid, fromScratch := false } : Planner ℚ).timeFitting hermiteEnv tr' target =
        .ok { s10 with traj := some tr, future := .invalid, fromScratch := false, newParams := { s10.newParams with tOffset := 1 / 10 } } := by
      unfold Planner.timeFitting
      have hct : ({ s10 with traj := some tr, future := .invalid, fromScratch := false } : Planner ℚ).computationTime = 2 * (1 / 100) := rfl
      have hceil : ⌈(3 / 2 * (2 * (1 / 100)) / (1 / 10) : ℚ)⌉₊ - 1 = 0 := by
        have : ⌈(3 / 2 * (2 * (1 / 100)) / (1 / 10) : ℚ)⌉₊ ≤ 1 := Nat.ceil_le.mpr (by norm_num)
        omega
      simp only [hct, hceil, hp, bind, Except.bind, Planner.fitLoop, pure, Except.pure]
      have : s10.params.lastGlobal - s10.newParams.gtlg = 0 := sub_self _
      rw [this]
      norm_num
    have hswap : s10.swapTrajectory hermiteEnv = .ok { s10 with
        future := .invalid, newParams := { s10.newParams with tOffset := 1 / 10 }, params := { s10.newParams with tOffset := 1 / 10 },
        traj := some tr', regenerated := true } := by
      unfold Planner.swapTrajectory
      rw [show s10.future = .ready tr' from rfl]
      simp only [show s10.fromScratch = false from rfl, show s10.traj = some tr from htr, Bool.false_eq_true, if_false, htarget, hfit, bind,
        Except.bind, pure, Except.pure]
    unfold Planner.checkTrajectoryGenerated
    have ha : (s10.traj.isNone && !s10.future.isReady) = false := by
      rw [show s10.traj = some tr from htr]; rfl
    have hb : (s10.computing && s10.future.valid && s10.future.isReady) = true := rfl
    rw [ha, hb]
    simp only [Bool.false_eq_true, if_false, if_true, hswap, bind, Except.bind, pure, Except.pure]
    rfl
  have hz11 : NoZeroWidth (ws'.map (·.copy)) := noZeroWidth_of_none _ (by
    intro w hw
    obtain ⟨a, ha, rfl⟩ := List.mem_map.mp hw
    exact hpl a ha)
  let s12 : Planner ℚ := { s11 with params := { s11.params with lastGlobal := t + 1 / 10, lastLocal := t + 1 / 10 - s11.params.gtlg } }
  obtain ⟨r, hr⟩ := getReferences_total hermiteEnv s12 tr' hu' hz11 (t + 1 / 10 + s12.params.tOffset)
    (t + 1 / 10 - s11.params.gtlg + s12.params.tOffset) false
  have e11 : s10.step hermiteEnv (.evaluate (t + 1 / 10) false false) = .ok (some s12) := by
    show (do let r ← s10.evaluateTrajectory hermiteEnv (t + 1 / 10) false false; return r.map (fun x : References ℚ × Planner ℚ => x.2)) = _
    have hnow : s11.evaluateNow hermiteEnv (t + 1 / 10) false false = .ok (r, s12) := by
      unfold Planner.evaluateNow
      rw [show s11.traj = some tr' from rfl]
      simp only [Bool.false_eq_true, if_false]
      show (do let refs ← s12.getReferences hermiteEnv tr' _ _ false; return (refs, s12)) = _
      rw [hr]; rfl
    have : s10.evaluateTrajectory hermiteEnv (t + 1 / 10) false false = .ok (some (r, s12)) := by
      unfold Planner.evaluateTrajectory
      simp only [hcheck, hnow, bind, Except.bind, pure, Except.pure]
    rw [this]; rfl
  have r12 : Reachable hermiteEnv s12 := reachable_snoc _ r10 (by trivial) e11
  refine ⟨s12, ?_, ?_⟩
  · exact .snoc _ (.snoc _ (.snoc _ (.snoc _ (.snoc _ (.snoc _ (.snoc _ (.snoc _ (.snoc _ (.snoc _ (.snoc (es := []) _ .nil e1) e2) e3) e4) e5) e6) e7)
      e8) e9) e10) e11
  · have hg : s11.params.gtlg = t := h.lastGlobal
    refine ⟨r12, rfl, rfl, by simp [s12, s11], rfl, rfl, rfl, rfl, ?_, ?_, rfl, rfl, ?_, ?_⟩
    · show s11.params.gtlg = _
      rw [hg]; ring
    · show t + 1 / 10 - s11.params.gtlg = _
      rw [hg]; ring
    · show (ws'.map (·.copy)).map (·.name) = _
      rw [List.map_map]
      have : ((fun w : Waypoint ℚ => w.name) ∘ fun w : Waypoint ℚ => w.copy) = fun w : Waypoint ℚ => w.name := rfl
      rw [this, hnm]
      show (w0 :: w1 :: ws.map (·.copy)).map (·.name) = _
      rw [List.map_cons, List.map_cons, stitchPoint_name _ _ _ _ _ _ hw0, stitchPoint_name _ _ _ _ _ _ hw1, List.map_map, this, hwn]
    · intro w hw
      obtain ⟨a, ha, rfl⟩ := List.mem_map.mp (show w ∈ ws'.map (·.copy) from hw)
      exact hpl a ha

end Verif.Lemmas
