import Verif.Lemmas.PlannerFail
import Verif.Spec.NotANumber

/-! # Doubles that may be NaN: agreement on numbers, and where a NaN goes -/

set_option linter.unusedSectionVars false

namespace Verif.Lemmas
open Verif Verif.Spec

variable {K : Type*} [Field K] [LinearOrder K] [IsStrictOrderedRing K]

/-! ### Arithmetic -/

@[simp] theorem dbl_add (a b : K) : (some a : Dbl K) + some b = some (a + b) := rfl
@[simp] theorem dbl_sub (a b : K) : (some a : Dbl K) - some b = some (a - b) := rfl
@[simp] theorem dbl_mul (a b : K) : (some a : Dbl K) * some b = some (a * b) := rfl
@[simp] theorem dbl_nan_add (b : Dbl K) : (none : Dbl K) + b = none := rfl
@[simp] theorem dbl_nan_sub (b : Dbl K) : (none : Dbl K) - b = none := rfl
@[simp] theorem dbl_nan_mul (b : Dbl K) : (none : Dbl K) * b = none := rfl
@[simp] theorem dbl_add_nan (a : Dbl K) : a + (none : Dbl K) = none := by cases a <;> rfl
@[simp] theorem dbl_sub_nan (a : Dbl K) : a - (none : Dbl K) = none := by cases a <;> rfl
@[simp] theorem dbl_mul_nan (a : Dbl K) : a * (none : Dbl K) = none := by cases a <;> rfl
@[simp] theorem dbl_lt (a b : K) : Dbl.lt (some a) (some b) = decide (a < b) := rfl
@[simp] theorem dbl_nan_lt (b : Dbl K) : Dbl.lt (none : Dbl K) b = false := rfl
@[simp] theorem dbl_lt_nan (a : Dbl K) : Dbl.lt a (none : Dbl K) = false := by cases a <;> rfl

/-! ### Numbers -/

theorem hornerDbl_some (a : Nat → K) (t : K) (lo n : Nat) (acc : K) :
    hornerDbl a (some t) lo n (some acc) = some (Poly.hornerLoop a t lo n acc) := by
  induction n generalizing acc with
  | zero => rfl
  | succ n ih =>
    unfold hornerDbl Poly.hornerLoop
    split
    · rw [dbl_mul, dbl_add, ih]
    · rfl

theorem polyEvaluateDbl_some (c : Poly K) (t : K) (d : Nat) : Poly.evaluateDbl c (some t) d = (Poly.evaluate c t d).map some := by
  unfold Poly.evaluateDbl Poly.evaluate
  split
  · rfl
  split
  · rfl
  rw [hornerDbl_some]; rfl

theorem findSegmentDbl_some (t : K) (ss : List (Segment K)) (acc : K) (i : Nat) :
    findSegmentDbl (some t) ss acc i = Trajectory.findSegment t ss acc i := by
  induction ss generalizing acc i with
  | nil => rfl
  | cons s ss ih =>
    unfold findSegmentDbl Trajectory.findSegment
    rw [dbl_lt, ih]
    simp [gt_iff_lt]

theorem mapM_map_res {α β γ : Type*} (f : α → Res β) (g : β → γ) (l : List α) :
    (l.mapM fun x => (f x).map g) = (l.mapM f).map (List.map g) := by
  induction l with
  | nil => rfl
  | cons a l ih =>
    rw [List.mapM_cons, List.mapM_cons, ih]
    cases f a with
    | error e => rfl
    | ok b =>
      cases l.mapM f with
      | error e => rfl
      | ok bs => rfl

theorem trajEvaluateDbl_some (tr : Trajectory K) (t : K) (k : Nat) : tr.evaluateDbl (some t) k = (tr.evaluate t k).map (List.map some) := by
  unfold Trajectory.evaluateDbl Trajectory.evaluate
  simp only [findSegmentDbl_some, dbl_lt, decide_eq_true_eq]
  by_cases h : t > (Trajectory.findSegment t tr.segments 0 0).1
  · rw [if_pos h, if_pos h]; simp [Except.map]
  · rw [if_neg h, if_neg h]
    simp only [bind, Except.bind]
    cases at? tr.segments (if tr.segments.length ≤ (Trajectory.findSegment t tr.segments 0 0).2 then tr.segments.length - 1 else
      (Trajectory.findSegment t tr.segments 0 0).2) with
    | error e => rfl
    | ok s =>
      simp only [dbl_sub, polyEvaluateDbl_some, Segment.evaluate]
      exact mapM_map_res _ _ _

theorem clampDbl_some (l m : K) : Planner.clampDbl (some l) m = some (Planner.clampTime l m) := by
  unfold Planner.clampDbl Planner.clampTime
  simp only [dbl_lt, decide_eq_true_eq, gt_iff_lt]
  by_cases h : l < 0
  · simp only [h, if_true, dbl_lt, decide_eq_true_eq]; split <;> rfl
  · simp only [h, if_false, dbl_lt, decide_eq_true_eq]; split <;> rfl

/-- Componentwise. -/
def v3Dbl (v : V3 K) : V3 (Dbl K) := ⟨some v.x, some v.y, some v.z⟩

theorem compensateDbl_some (env : Env K) (t : K) (order : Nat) (ws : List (Waypoint K)) (acc : V3 K) :
    Planner.compensateDbl env t order ws (v3Dbl acc) = (Planner.compensateLoop env t order ws acc).map v3Dbl := by
  induction ws generalizing acc with
  | nil => rfl
  | cons w ws ih =>
    unfold Planner.compensateDbl Planner.compensateLoop
    split
    · exact ih acc
    · simp only [bind, Except.bind]
      cases w.trajectoryCompensation env.exp t order with
      | error e => rfl
      | ok c => exact ih (acc.add c)

theorem ofListDbl_some (l : List K) : V3.ofList (l.map some) = (V3.ofList l).map v3Dbl := by
  match l with
  | [] => rfl
  | [_] => rfl
  | [_, _] => rfl
  | [_, _, _] => rfl
  | _ :: _ :: _ :: _ :: _ => rfl

theorem evaluateModifiedDbl_some (env : Env K) (s : Planner K) (tr : Trajectory K) (g l : K) (order : Nat) :
    s.evaluateModifiedDbl env tr (some g) (some l) order = (s.evaluateModified env tr g l order).map v3Dbl := by
  unfold Planner.evaluateModifiedDbl Planner.evaluateModified
  rw [clampDbl_some, trajEvaluateDbl_some]
  simp only [bind, Except.bind]
  cases tr.evaluate (Planner.clampTime l tr.maxTime) order with
  | error e => rfl
  | ok v =>
    simp only [ofListDbl_some, Except.map]
    cases V3.ofList v with
    | error e => rfl
    | ok r =>
      simp only []
      split
      · exact compensateDbl_some env g order s.dyn r
      · rfl

theorem getReferencesDbl_some (env : Env K) (s : Planner K) (tr : Trajectory K) (g l : K) (o : Bool) :
    s.getReferencesDbl env tr (some g) (some l) o = (s.getReferences env tr g l o).map asDbl := by
  unfold Planner.getReferencesDbl Planner.getReferences
  simp only [evaluateModifiedDbl_some, bind, Except.bind]
  cases s.evaluateModified env tr g l 0 with
  | error e => rfl
  | ok p =>
    simp only [Except.map]
    cases o
    · simp only [Bool.false_eq_true, if_false]
      cases s.evaluateModified env tr g l 1 with
      | error e => rfl
      | ok v =>
        cases s.evaluateModified env tr g l 2 with
        | error e => rfl
        | ok a => rfl
    · rfl

theorem getReferences_dyn (env : Env K) (s s' : Planner K) (h : s.dyn = s'.dyn) (tr : Trajectory K) (g l : K) (o : Bool) :
    s.getReferences env tr g l o = s'.getReferences env tr g l o := by
  unfold Planner.getReferences Planner.evaluateModified
  rw [h]

theorem evaluateNowDbl_some (env : Env K) (s : Planner K) (c : Clocks K) (t : K) (o f : Bool) :
    s.evaluateNowDbl env c (some t) o f
      = (s.evaluateNow env t o f).map fun r => (asDbl r.1, if f then c else clocksOf r.2) := by
  unfold Planner.evaluateNowDbl Planner.evaluateNow
  cases htr : s.traj with
  | none => rfl
  | some tr =>
    simp only [dbl_sub, dbl_add, getReferencesDbl_some]
    cases f with
    | false =>
      simp only [Bool.false_eq_true, if_false]
      rw [getReferences_dyn env { s with params := { s.params with lastGlobal := t, lastLocal := t - s.params.gtlg }, traj := some tr } s rfl]
      simp only [bind, Except.bind]
      cases s.getReferences env tr (t + s.params.tOffset) (t - s.params.gtlg + s.params.tOffset) o with
      | error e => rfl
      | ok r => rfl
    | true =>
      simp only [if_true]
      cases s.getReferences env tr (t + s.params.tOffset) (t - s.params.gtlg + s.params.tOffset) o with
      | error e => rfl
      | ok r => rfl

/-! ### A round of the worker thread on numbers -/

theorem zoneDbl_some (lastT zone : K) (ws : List (Waypoint K)) : Planner.zoneDbl (some lastT) zone ws = Planner.zoneLoop lastT zone ws := by
  induction ws with
  | nil => rfl
  | cons w ws ih =>
    unfold Planner.zoneDbl Planner.zoneLoop
    rw [ih]
    simp only [dbl_lt, dbl_sub, decide_eq_true_eq, gt_iff_lt]

theorem checkStitchDbl_some (s : Planner K) : s.checkStitchDbl (clocksOf s) = s.checkStitchTrajectory := by
  unfold Planner.checkStitchDbl Planner.checkStitchTrajectory clocksOf
  cases s.traj <;> simp

theorem generateWaypointsDbl_some (s : Planner K) :
    s.generateWaypointsDbl (clocksOf s) = s.generateWaypoints.map (·.1) := by
  unfold Planner.generateWaypointsDbl Planner.generateWaypoints Planner.filterPassed clocksOf
  simp only [dbl_lt]
  by_cases h : s.toSet.length = 0
  · simp only [h, if_true, bind, Except.bind]
    cases (List.filter (fun w => !decide (w.time < s.params.lastGlobal)) (s.dyn.map (·.copy))).mapM (·.resetWithCurrent) with
    | error e => rfl
    | ok b =>
      simp only []
      cases resetAll s.toModify (b ++ s.toAdd.map (·.copy)) with
      | error e => rfl
      | ok ws => rfl
  · simp only [h, if_false, bind, Except.bind, pure, Except.pure]
    cases resetAll s.toModify (s.toSet.map (·.copy) ++ s.toAdd.map (·.copy)) with
    | error e => rfl
    | ok ws => rfl

theorem intMap_insert_map (k : Int) (c : List K) (l : List (Int × List K)) :
    IntMap.insert k (c.map (some : K → Dbl K)) (l.map fun c => (c.1, c.2.map some)) = (IntMap.insert k c l).map fun c => (c.1, c.2.map some) := by
  induction l with
  | nil => rfl
  | cons a l ih =>
    obtain ⟨k', v'⟩ := a
    simp only [List.map_cons, IntMap.insert]
    split
    · rfl
    split
    · rfl
    · rw [ih]; rfl

theorem addConstraint_toDbl (v : Vertex K) (k : Int) (c : List K) :
    v.toDbl.addConstraint k (c.map some) = (v.addConstraint k c).map Vertex.toDbl := by
  unfold Vertex.addConstraint
  simp only [List.length_map, Vertex.toDbl]
  split
  · simp only [Except.map, Vertex.toDbl, Except.ok.injEq, Vertex.mk.injEq, true_and]
    exact intMap_insert_map k c v.constraints
  · rfl

theorem restDbl_some (ws : List (Waypoint K)) :
    Planner.restDbl (ws.map (·.vertex.toDbl)) = (extractVertices ws).map (List.map Vertex.toDbl) := by
  unfold Planner.restDbl extractVertices
  rw [List.getLast?_map]
  cases ws.getLast? with
  | none => rfl
  | some w =>
    simp only [Option.map_some]
    have e0 : ([some 0, some 0, some 0] : List (Dbl K)) = ((V3.zero : V3 K).toList).map some := rfl
    rw [e0]
    simp only [addConstraint_toDbl, bind, Except.bind]
    cases w.vertex.addConstraint 1 (V3.zero : V3 K).toList with
    | error e => rfl
    | ok v1 =>
      simp only [Except.map, addConstraint_toDbl]
      cases v1.addConstraint 2 (V3.zero : V3 K).toList with
      | error e => rfl
      | ok v2 =>
        simp only [pure, Except.pure, List.map_append, List.map_dropLast, List.map_map, List.map_cons, List.map_nil]
        rfl

theorem ofVertex_vertex (v : Vertex K) (n : String) (p q r : K) (l : List K) (h : v.getConstraint 0 = some (p :: q :: r :: l)) :
    (Waypoint.ofVertex v n).map (·.vertex.toDbl) = .ok v.toDbl := by
  unfold Waypoint.ofVertex
  rw [h]
  rfl

theorem stitchVertexDbl_some (env : Env K) (s : Planner K) (tr : Trajectory K) (t : K) (b : Bool) :
    s.stitchVertexDbl env tr (some t) b = (s.stitchPoint env tr t b).map (·.vertex.toDbl) := by
  unfold Planner.stitchVertexDbl Planner.stitchPoint
  simp only [dbl_add, getReferencesDbl_some, bind, Except.bind]
  cases s.getReferences env tr (t + s.params.gtlg) t false with
  | error e => rfl
  | ok r =>
    obtain ⟨p, v, a⟩ := r
    cases b with
    | false => rfl
    | true =>
      cases v with
      | none =>
        cases a with
        | none => rfl
        | some a => rfl
      | some v =>
        cases a with
        | none => rfl
        | some a => rfl

theorem stitchDbl_some (env : Env K) (s : Planner K) (h : s.newParams.lastLocal = s.params.lastLocal) (ws : List (Waypoint K)) :
    s.stitchDbl env (clocksOf s) ws = (s.stitch env ws).map (List.map (·.vertex.toDbl)) := by
  unfold Planner.stitchDbl Planner.stitch
  cases s.traj with
  | none => rfl
  | some tr =>
    simp only [clocksOf, dbl_add, dbl_lt, stitchVertexDbl_some, h, bind, Except.bind]
    cases s.stitchPoint env tr (s.params.lastLocal + s.params.tOffset) true with
    | error e => rfl
    | ok w0 =>
      cases s.stitchPoint env tr (s.params.lastLocal + s.params.tOffset + 5 * s.computationTime) false with
      | error e => rfl
      | ok w1 =>
        simp [Except.map, pure, Except.pure, List.map_map, Waypoint.copy]

theorem stitch_dyn (env : Env K) (s s' : Planner K) (h1 : s.traj = s'.traj) (h2 : s.params = s'.params) (h3 : s.newParams.lastLocal = s'.newParams.lastLocal)
    (h4 : s.dyn = s'.dyn) (h5 : s.timeConstant = s'.timeConstant) (ws : List (Waypoint K)) : s.stitch env ws = s'.stitch env ws := by
  unfold Planner.stitch Planner.stitchPoint Planner.computationTime
  simp only [h1, h2, h3, h5, getReferences_dyn env s s' h4]

theorem generateWaypoints_pc (s : Planner K) :
    Planner.generateWaypoints { s with pc := .collect }
      = (s.generateWaypoints.map (·.1)).map fun ws => (ws, { s with toSet := [], toAdd := [], toModify := [], pc := .collect }) := by
  unfold Planner.generateWaypoints Planner.filterPassed
  by_cases h : s.toSet.length = 0
  · simp only [h, if_true, bind, Except.bind]
    cases (List.filter (fun w => !decide (w.time < s.params.lastGlobal)) (s.dyn.map (·.copy))).mapM (·.resetWithCurrent) with
    | error e => rfl
    | ok b =>
      simp only []
      cases resetAll s.toModify (b ++ s.toAdd.map (·.copy)) with
      | error e => rfl
      | ok ws => rfl
  · simp only [h, if_false, bind, Except.bind, pure, Except.pure]
    cases resetAll s.toModify (s.toSet.map (·.copy) ++ s.toAdd.map (·.copy)) with
    | error e => rfl
    | ok ws => rfl

theorem snapshotted_round (env : Env K) (p : Planner K) (hp : p.pc = .snapshotted) :
    (p.workerStep env >>= fun s => extractVertices s.next)
      = if p.checkStitchTrajectory then p.stitch env p.next >>= extractVertices else p.appendDronePosition p.next >>= extractVertices := by
  rw [Planner.workerStep.eq_def]
  split <;> rename_i h <;> rw [hp] at h <;> cases h
  cases p.checkStitchTrajectory with
  | true => simp only [if_true]; cases p.stitch env p.next <;> rfl
  | false => simp only [Bool.false_eq_true, if_false]; cases p.appendDronePosition p.next <;> rfl

theorem roundDbl_some (env : Env K) (s : Planner K) (hpc : s.pc = .top) (hg : s.generateNew = true) (hset : SettledPlan s) :
    s.roundDbl env (clocksOf s) = (plannerRound env s).map (Option.map (List.map Vertex.toDbl)) := by
  obtain ⟨htr, hc⟩ := hset
  have hz : (s.traj.isSome && Planner.zoneDbl (clocksOf s).lastGlobal (5 * s.computationTime) s.dyn) = s.checkInSecurityZone := by
    unfold Planner.checkInSecurityZone
    rw [show (clocksOf s).lastGlobal = some s.params.lastGlobal from rfl, zoneDbl_some]
    cases s.traj <;> simp
  unfold Planner.roundDbl
  rw [hz]
  cases hzz : s.checkInSecurityZone with
  | true =>
    have h1 : ∃ s', s.workerStep env = .ok s' ∧ s'.pc ≠ .collect := by
      unfold Planner.workerStep
      simp only [hpc, hg, Planner.checkIfTrajectoryCanBeGenerated, hzz, hc, Bool.not_true, Bool.false_and, Bool.and_false, Bool.false_eq_true, if_false]
      split
      · exact ⟨_, rfl, by simp⟩
      · exact ⟨s, rfl, by rw [hpc]; simp⟩
    obtain ⟨s', h1, h2⟩ := h1
    simp only [plannerRound, h1, bind, Except.bind, h2, ne_eq, not_false_eq_true, if_true]
    rfl
  | false =>
    have h1 : s.workerStep env = .ok { s with pc := .collect } := by
      rw [Planner.workerStep.eq_def]
      split <;> rename_i hp <;> rw [hpc] at hp <;> cases hp
      rw [if_pos (by simp [hg, Planner.checkIfTrajectoryCanBeGenerated, hzz, hc])]
    have h2 : Planner.workerStep env { s with pc := .collect }
        = (s.generateWaypointsDbl (clocksOf s)).map fun ws => { s with next := ws, toSet := [], toAdd := [], toModify := [], pc := .collected } := by
      rw [generateWaypointsDbl_some]
      show (Planner.generateWaypoints { s with pc := .collect } >>= fun r => pure { r.2 with next := r.1, pc := .collected }) = _
      rw [generateWaypoints_pc]
      cases s.generateWaypoints with
      | error e => rfl
      | ok r => rfl
    simp only [plannerRound, h1, h2, bind, Except.bind, ne_eq, not_true_eq_false, if_false, Bool.false_eq_true]
    cases s.generateWaypointsDbl (clocksOf s) with
    | error e => rfl
    | ok ws =>
      simp only [Except.map]
      by_cases hl : ws.length = 0
      · have h3 : Planner.workerStep env { s with next := ws, toSet := [], toAdd := [], toModify := [], pc := .collected }
            = .ok { s with next := ws, toSet := [], toAdd := [], toModify := [], generateNew := false, pc := .top } := if_pos hl
        simp only [h3, hl, if_true]
        rfl
      · have h3 : Planner.workerStep env { s with next := ws, toSet := [], toAdd := [], toModify := [], pc := .collected }
            = .ok { s with next := ws, toSet := [], toAdd := [], toModify := [], newParams := { s.params with gtlg := s.params.lastGlobal },
                           pc := .snapshotted } := if_neg hl
        simp only [h3, hl, if_false, reduceCtorEq, checkStitchDbl_some]
        have h4 := snapshotted_round env { s with next := ws, toSet := [], toAdd := [], toModify := [], newParams := { s.params with gtlg := s.params.lastGlobal }, pc := .snapshotted } rfl
        have e1 : Planner.checkStitchTrajectory { s with next := ws, toSet := [], toAdd := [], toModify := [], newParams := { s.params with gtlg := s.params.lastGlobal }, pc := .snapshotted } = s.checkStitchTrajectory := rfl
        have e2 : Planner.stitch env { s with next := ws, toSet := [], toAdd := [], toModify := [], newParams := { s.params with gtlg := s.params.lastGlobal }, pc := .snapshotted } ws
            = Planner.stitch env { s with newParams := { s.params with gtlg := s.params.lastGlobal } } ws := stitch_dyn env _ _ rfl rfl rfl rfl rfl ws
        have e3 : s.stitchDbl env (clocksOf s) ws = (Planner.stitch env { s with newParams := { s.params with gtlg := s.params.lastGlobal } } ws).map (List.map (·.vertex.toDbl)) :=
          stitchDbl_some env { s with newParams := { s.params with gtlg := s.params.lastGlobal } } rfl ws
        rw [e1, e2] at h4
        rw [e3]
        generalize Planner.workerStep env { s with next := ws, toSet := [], toAdd := [], toModify := [], newParams := { s.params with gtlg := s.params.lastGlobal }, pc := .snapshotted } = W at h4 ⊢
        generalize Planner.stitch env { s with newParams := { s.params with gtlg := s.params.lastGlobal } } ws = S at h4 ⊢
        have e4 : Planner.appendDronePosition { s with next := ws, toSet := [], toAdd := [], toModify := [], newParams := { s.params with gtlg := s.params.lastGlobal }, pc := .snapshotted } ws
            = s.appendDronePosition ws := rfl
        rw [e4] at h4
        cases hst : s.checkStitchTrajectory with
        | true =>
          rw [hst, if_pos rfl] at h4
          simp only [if_true]
          simp only [bind, Except.bind] at h4
          cases W with
          | error e =>
            cases S with
            | error e' => cases h4; rfl
            | ok ws' =>
              have h6 : extractVertices ws' = .error e := h4.symm
              simp only [Except.map, restDbl_some, h6]
          | ok v =>
            simp only [] at h4
            simp only [h4]
            cases S with
            | error e => rfl
            | ok ws' =>
              simp only [Except.map, restDbl_some]
              cases extractVertices ws' <;> rfl
        | false =>
          rw [hst, if_neg (by simp)] at h4
          simp only [Bool.false_eq_true, if_false]
          generalize s.appendDronePosition ws = S at h4 ⊢
          simp only [bind, Except.bind] at h4
          cases W with
          | error e =>
            cases S with
            | error e' => cases h4; rfl
            | ok ws' =>
              have h6 : extractVertices ws' = .error e := h4.symm
              simp only [Except.map, restDbl_some, h6]
          | ok v =>
            simp only [] at h4
            simp only [h4]
            cases S with
            | error e => rfl
            | ok ws' =>
              simp only [Except.map, restDbl_some]
              cases extractVertices ws' <;> rfl

/-! ### Where a NaN goes -/

theorem hornerDbl_nan (a : Nat → K) (lo n : Nat) (acc : Dbl K) (h : lo < n ∨ acc = none) : hornerDbl a none lo n acc = none := by
  induction n generalizing acc with
  | zero => simpa [hornerDbl] using h
  | succ n ih =>
    unfold hornerDbl
    split
    · exact ih _ (by simp)
    · rcases h with h | h
      · omega
      · exact h

theorem polyEvaluateDbl_nan (c : Poly K) (d : Nat) (h : d + 1 < c.length) (hl : c.length ≤ 22) : Poly.evaluateDbl c none d = .ok none := by
  unfold Poly.evaluateDbl
  rw [if_neg (by omega), if_neg (by unfold kMaxConvolutionSize; omega), hornerDbl_nan _ _ _ _ (Or.inl (by omega))]

theorem findSegmentDbl_nan (ss : List (Segment K)) (acc : K) (i : Nat) : (findSegmentDbl none ss acc i).2 = i + ss.length := by
  induction ss generalizing acc i with
  | nil => rfl
  | cons s ss ih =>
    unfold findSegmentDbl
    rw [dbl_nan_lt, if_neg (by simp), ih]
    simp; omega

theorem trajEvaluateDbl_nan (tr : Trajectory K) (hu : Usable tr) (k : Nat) (hN : k + 1 < tr.N) : tr.evaluateDbl none k = .ok [none, none, none] := by
  obtain ⟨hD, hne, hc, -, hreg⟩ := hu
  unfold Trajectory.evaluateDbl
  simp only [dbl_lt_nan, Bool.false_eq_true, if_false, findSegmentDbl_nan, zero_add, le_refl, if_true, bind, Except.bind, dbl_nan_sub]
  have hpos : 0 < tr.segments.length := List.length_pos_iff.2 hne
  have hi : tr.segments.length - 1 < tr.segments.length := by omega
  unfold at?
  rw [List.getElem?_eq_getElem hi]
  simp only []
  have hm : tr.segments[tr.segments.length - 1] ∈ tr.segments := List.getElem_mem hi
  generalize tr.segments[tr.segments.length - 1] = g at hm
  obtain ⟨hp, h22⟩ := hreg g hm
  obtain ⟨hl, hgN⟩ := hc.2 g hm
  have hev : ∀ p ∈ g.polys, Poly.evaluateDbl p (none : Dbl K) k = .ok none :=
    fun p hpm => polyEvaluateDbl_nan p k (by rw [hp p hpm, hgN]; exact hN) (by rw [hp p hpm]; exact h22)
  rw [hD] at hl
  match hps : g.polys, hl with
  | [a, b, c], _ =>
    rw [hps] at hev
    simp [List.mapM_cons, hev a (by simp), hev b (by simp), hev c (by simp), bind, Except.bind, pure, Except.pure]

theorem clampDbl_nan (m : K) : Planner.clampDbl none m = none := by
  unfold Planner.clampDbl
  simp

theorem evaluateModifiedDbl_nan (env : Env K) (s : Planner K) (tr : Trajectory K) (hu : Usable tr) (k : Nat) (hN : k + 1 < tr.N) :
    s.evaluateModifiedDbl env tr none none k = .ok ⟨none, none, none⟩ := by
  unfold Planner.evaluateModifiedDbl
  rw [clampDbl_nan, trajEvaluateDbl_nan tr hu k hN]
  rfl

theorem getReferencesDbl_nan (env : Env K) (s : Planner K) (tr : Trajectory K) (hu : Usable tr) (hN : 4 ≤ tr.N) (o : Bool) :
    ∃ r, s.getReferencesDbl env tr none none o = .ok r ∧ AllNaN r o := by
  unfold Planner.getReferencesDbl
  rw [evaluateModifiedDbl_nan env s tr hu 0 (by omega), evaluateModifiedDbl_nan env s tr hu 1 (by omega), evaluateModifiedDbl_nan env s tr hu 2 (by omega)]
  cases o <;> exact ⟨_, rfl, rfl⟩

theorem zoneDbl_nan (zone : K) (ws : List (Waypoint K)) : Planner.zoneDbl none zone ws = false := by
  induction ws with
  | nil => rfl
  | cons w ws ih => unfold Planner.zoneDbl; simp [ih]

theorem stitchVertexDbl_nan (env : Env K) (s : Planner K) (tr : Trajectory K) (hu : Usable tr) (hN : 4 ≤ tr.N) (b : Bool) :
    ∃ v, s.stitchVertexDbl env tr none b = .ok v ∧ v.D = 3 ∧ v.getConstraint 0 = some [none, none, none] ∧
      (v.getConstraint 1 = none ∨ v.getConstraint 1 = some [none, none, none]) := by
  unfold Planner.stitchVertexDbl
  rw [dbl_nan_add]
  obtain ⟨r, hr, ha⟩ := getReferencesDbl_nan env s tr hu hN false
  rw [hr]
  unfold AllNaN at ha
  subst ha
  cases b
  · exact ⟨_, rfl, rfl, rfl, Or.inl rfl⟩
  · exact ⟨_, rfl, rfl, rfl, Or.inr rfl⟩

theorem find_insert_other {α : Type*} (k j : Int) (h : j ≠ k) (v : α) (l : List (Int × α)) : IntMap.find j (IntMap.insert k v l) = IntMap.find j l := by
  induction l with
  | nil => simp [IntMap.insert, IntMap.find, h]
  | cons a l ih =>
    obtain ⟨k', v'⟩ := a
    unfold IntMap.insert
    split
    · simp [IntMap.find, h]
    split
    · next h2 => subst h2; simp [IntMap.find, h]
    · simp [IntMap.find, ih]

theorem addConstraint_other {α : Type*} (v w : Vertex α) (k j : Int) (h : j ≠ k) (c : List α) (hw : v.addConstraint k c = .ok w) :
    w.getConstraint j = v.getConstraint j := by
  unfold Vertex.addConstraint at hw
  split at hw
  · cases hw; exact find_insert_other k j h c v.constraints
  · cases hw

/-- The last vertex keeps its position. -/
theorem restDbl_head (v0 v1 : Vertex (Dbl K)) (l vs : List (Vertex (Dbl K))) (h : Planner.restDbl (v0 :: v1 :: l) = .ok vs) :
    ∃ v1' l', vs = v0 :: v1' :: l' ∧ v1'.getConstraint 0 = v1.getConstraint 0 := by
  unfold Planner.restDbl at h
  cases l with
  | nil =>
    simp only [List.getLast?_cons_cons, List.getLast?_singleton, List.dropLast_cons_cons, List.dropLast_singleton, bind, Except.bind, pure, Except.pure] at h
    split at h
    · cases h
    next a ha =>
    split at h
    · cases h
    next b hb =>
    cases h
    exact ⟨b, [], rfl, by rw [addConstraint_other _ _ _ _ (by decide) _ hb, addConstraint_other _ _ _ _ (by decide) _ ha]⟩
  | cons v2 l =>
    split at h
    · cases h
    next v hv =>
    simp only [bind, Except.bind, pure, Except.pure] at h
    split at h
    · cases h
    split at h
    · cases h
    next b hb =>
    cases h
    exact ⟨v1, (v2 :: l).dropLast ++ [b], rfl, rfl⟩

theorem nan_norm (sqrt : K → K) (x y z : Dbl K) : normDbl sqrt [x - none, y - none, z - none] = none := by
  simp [normDbl]

/-- Two vertices without a position: the time between them is not a number. -/
theorem nan_time (sqrt : K → K) (v w : Vertex (Dbl K)) (vMax aMax : K) (ha : aMax ≠ 0) (hv : v.getConstraint 0 = some [none, none, none])
    (hw : w.getConstraint 0 = some [none, none, none]) : nfabianTimeDbl sqrt v w vMax aMax = .ok none := by
  unfold nfabianTimeDbl
  rw [hv, hw]
  have hn : vsub ((some [none, none, none] : Option (List (Dbl K))).getD []) ((some [none, none, none] : Option (List (Dbl K))).getD [])
      = .ok [none, none, none] := rfl
  rw [hn]
  have h2 : normDbl sqrt ([none, none, none] : List (Dbl K)) = none := rfl
  simp only [bind, Except.bind, h2, Dbl.over, if_neg ha]
  split <;> rfl

/-- Three-dimensional, with a position. -/
def HasPlace {α : Type*} (v : Vertex α) : Prop := v.D = 3 ∧ ∃ a b c, v.getConstraint 0 = some [a, b, c]

theorem find_toDbl (k : Int) (l : List (Int × List K)) :
    IntMap.find k (l.map fun c => (c.1, c.2.map (some : K → Dbl K))) = (IntMap.find k l).map (List.map some) := by
  induction l with
  | nil => rfl
  | cons a l ih =>
    simp only [List.map_cons, IntMap.find]
    split
    · rfl
    · exact ih

theorem hasPlace_toDbl {w : Waypoint K} (h : Bookkept w) : HasPlace w.vertex.toDbl := by
  refine ⟨h.1, some w.current.x, some w.current.y, some w.current.z, ?_⟩
  have h0 := h.2.2.1
  unfold Vertex.getConstraint at h0 ⊢
  show IntMap.find 0 (w.vertex.constraints.map fun c => (c.1, c.2.map some)) = _
  rw [find_toDbl, h0]; rfl

theorem over_ok (x : Dbl K) (b : K) (hb : b ≠ 0) : ∃ y, Dbl.over x b = .ok y := by
  cases x with
  | none => exact ⟨_, rfl⟩
  | some a => exact ⟨some (a / b), if_neg hb⟩

theorem nfabianTimeDbl_ok (sqrt : K → K) (v w : Vertex (Dbl K)) (vMax aMax : K) (hv : vMax ≠ 0) (ha : aMax ≠ 0) (h1 : HasPlace v) (h2 : HasPlace w) :
    ∃ t, nfabianTimeDbl sqrt v w vMax aMax = .ok t := by
  obtain ⟨-, a, b, c, h1⟩ := h1
  obtain ⟨-, a', b', c', h2⟩ := h2
  unfold nfabianTimeDbl
  rw [h1, h2]
  have hn : vsub ((some [a', b', c'] : Option (List (Dbl K))).getD []) ((some [a, b, c] : Option (List (Dbl K))).getD [])
      = .ok [a' - a, b' - b, c' - c] := rfl
  rw [hn]
  obtain ⟨y, hy⟩ := over_ok (normDbl sqrt [a' - a, b' - b, c' - c]) vMax hv
  obtain ⟨z, hz⟩ := over_ok (some vMax) aMax ha
  simp only [bind, Except.bind, hy, hz]
  split <;> exact ⟨_, rfl⟩

theorem nfabianLoopDbl_ok (sqrt : K → K) (vMax aMax : K) (hv : vMax ≠ 0) (ha : aMax ≠ 0) (vs : List (Vertex (Dbl K))) (h : ∀ v ∈ vs, HasPlace v) :
    ∃ ts, nfabianLoopDbl sqrt vMax aMax vs = .ok ts := by
  induction vs with
  | nil => exact ⟨[], rfl⟩
  | cons v l ih =>
    cases l with
    | nil => exact ⟨[], rfl⟩
    | cons w l =>
      obtain ⟨t, ht⟩ := nfabianTimeDbl_ok sqrt v w vMax aMax hv ha (h v (by simp)) (h w (by simp))
      obtain ⟨ts, hts⟩ := ih (fun v hv => h v (List.mem_cons_of_mem _ hv))
      refine ⟨t :: ts, ?_⟩
      rw [nfabianLoopDbl, ht]
      simp only [bind, Except.bind, hts]
      rfl

theorem segmentTimesDbl_nan (sqrt : K → K) (vMax aMax : K) (hv : vMax ≠ 0) (ha : aMax ≠ 0) (v w : Vertex (Dbl K)) (l : List (Vertex (Dbl K)))
    (h0 : v.getConstraint 0 = some [none, none, none]) (h1 : w.getConstraint 0 = some [none, none, none])
    (h : ∀ u ∈ v :: w :: l, HasPlace u) : segmentTimesDbl sqrt (v :: w :: l) vMax aMax = .error .check := by
  obtain ⟨ts, hts⟩ := nfabianLoopDbl_ok sqrt vMax aMax hv ha (w :: l) (fun u hu => h u (List.mem_cons_of_mem _ hu))
  unfold segmentTimesDbl
  rw [if_neg (by simp), nfabianLoopDbl, nan_time sqrt v w vMax aMax ha h0 h1]
  simp only [bind, Except.bind, hts]
  rfl

theorem addConstraint_hasPlace {α : Type*} (v : Vertex α) (h : HasPlace v) (k : Int) (hk : k ≠ 0) (a b c : α) :
    ∃ w, v.addConstraint k [a, b, c] = .ok w ∧ HasPlace w := by
  obtain ⟨hD, x, y, z, hp⟩ := h
  have e : v.addConstraint k [a, b, c] = .ok { v with constraints := IntMap.insert k [a, b, c] v.constraints } := by
    unfold Vertex.addConstraint; rw [if_pos (by rw [hD]; rfl)]
  exact ⟨_, e, hD, x, y, z, by rw [addConstraint_other _ _ k 0 (Ne.symm hk) _ e]; exact hp⟩

theorem restDbl_hasPlace (vs : List (Vertex (Dbl K))) (hne : vs ≠ []) (h : ∀ v ∈ vs, HasPlace v) :
    ∃ vs', Planner.restDbl vs = .ok vs' ∧ ∀ v ∈ vs', HasPlace v := by
  unfold Planner.restDbl
  rw [List.getLast?_eq_some_getLast hne]
  obtain ⟨v1, e1, i1⟩ := addConstraint_hasPlace _ (h _ (List.getLast_mem hne)) 1 (by decide) (some (0 : K)) (some 0) (some 0)
  obtain ⟨v2, e2, i2⟩ := addConstraint_hasPlace _ i1 2 (by decide) (some (0 : K)) (some 0) (some 0)
  refine ⟨vs.dropLast ++ [v2], ?_, ?_⟩
  · simp only [e1, e2, bind, Except.bind]; rfl
  · intro v hv
    rcases List.mem_append.mp hv with hv | hv
    · exact h v (List.dropLast_subset _ hv)
    · rw [List.mem_singleton.mp hv]; exact i2

theorem times_bounded (ws : List (Waypoint K)) : ∃ m : K, ∀ w ∈ ws, ¬ w.time < m := by
  induction ws with
  | nil => exact ⟨0, by simp⟩
  | cons w ws ih =>
    obtain ⟨m, hm⟩ := ih
    refine ⟨min m w.time, ?_⟩
    intro u hu
    rcases List.mem_cons.mp hu with rfl | hu
    · simp
    · exact fun h => hm u hu (lt_of_lt_of_le h (min_le_left _ _))

/-- With a NaN as the last evaluated time no waypoint counts as passed. -/
theorem generateWaypointsDbl_nan [FloorSemiring K] (s : Planner K) (hw : WpInv s) (l : Dbl K) (hne : s.dyn ≠ []) :
    ∃ ws, s.generateWaypointsDbl ⟨none, l⟩ = .ok ws ∧ ws ≠ [] ∧ ∀ w ∈ ws, Bookkept w := by
  obtain ⟨m, hm⟩ := times_bounded (s.dyn.map (·.copy))
  have hf : (s.dyn.map (·.copy)).filter (fun w => !Dbl.lt (some w.time) (none : Dbl K)) = s.dyn.map (·.copy) := by
    rw [List.filter_eq_self]; intro w _; simp
  have hf' : (s.dyn.map (·.copy)).filter (fun w => !decide (w.time < m)) = s.dyn.map (·.copy) := by
    rw [List.filter_eq_self]; intro w h; simpa using hm w h
  have e : s.generateWaypointsDbl ⟨none, l⟩
      = Planner.generateWaypointsDbl { s with params := { s.params with lastGlobal := m } }
          (clocksOf { s with params := { s.params with lastGlobal := m } }) := by
    unfold Planner.generateWaypointsDbl clocksOf
    simp only [hf, dbl_lt, hf']
  obtain ⟨ws, hg⟩ := generateWaypoints_total { s with params := { s.params with lastGlobal := m } } ⟨hw.1, hw.2, hw.3, hw.4⟩
  refine ⟨ws, ?_, ?_, ?_⟩
  · rw [e, generateWaypointsDbl_some, hg]; rfl
  · obtain ⟨base, hall, hbase⟩ := generateWaypoints_form _ ws _ hg
    have hl := resetAll_length _ _ _ hall
    intro h0
    rw [h0] at hl
    have hb0 : base = [] := by
      cases base with
      | nil => rfl
      | cons a b => simp at hl
    rcases hbase with ⟨-, hb⟩ | ⟨ht, hb⟩
    · have hlen := hb.length_eq
      rw [hb0] at hlen
      unfold Planner.filterPassed at hlen
      simp only [hf', List.length_map, List.length_nil] at hlen
      exact hne (List.length_eq_zero_iff.mp hlen)
    · rw [hb0] at hb
      exact ht (List.map_eq_nil_iff.mp hb.symm)
  · exact generateWaypoints_pred Bookkept (fun _ => copy_bookkept) (fun w w' p hb hr => reset_bookkept' w w' p hb hr) _ ws _ hg
      (fun w h w' hr => step_bookkept .resetCurrent _ _ hr (copy_bookkept (hw.1 w h))) hw.3 hw.4

theorem roundDbl_nan [FloorSemiring K] (env : Env K) (s : Planner K) (hw : WpInv s) (tr : Trajectory K) (htr : s.traj = some tr) (hu : Usable tr) (hN : 4 ≤ tr.N)
    (hne : s.dyn ≠ []) :
    ∃ v w l, s.roundDbl env ⟨none, none⟩ = .ok (some (v :: w :: l)) ∧ v.getConstraint 0 = some [none, none, none] ∧
      w.getConstraint 0 = some [none, none, none] ∧ ∀ u ∈ v :: w :: l, HasPlace u := by
  obtain ⟨ws, hg, hws, hb⟩ := generateWaypointsDbl_nan s hw none hne
  obtain ⟨v0, h0, d0, p0, -⟩ := stitchVertexDbl_nan env s tr hu hN true
  obtain ⟨v1, h1, d1, p1, -⟩ := stitchVertexDbl_nan env s tr hu hN false
  have hst : s.stitchDbl env ⟨none, none⟩ ws = .ok (v0 :: v1 :: ws.map (·.vertex.toDbl)) := by
    unfold Planner.stitchDbl
    simp only [htr, dbl_nan_add, h0, h1, bind, Except.bind, dbl_lt_nan, Bool.false_and, Bool.not_false]
    rw [List.filter_eq_self.mpr (by simp)]
    rfl
  have hin : ∀ v ∈ v0 :: v1 :: ws.map (·.vertex.toDbl), HasPlace v := by
    intro v hv
    simp only [List.mem_cons, List.mem_map] at hv
    rcases hv with rfl | rfl | ⟨w, hw', rfl⟩
    · exact ⟨d0, _, _, _, p0⟩
    · exact ⟨d1, _, _, _, p1⟩
    · exact hasPlace_toDbl (hb w hw')
  obtain ⟨vs', hr, hi⟩ := restDbl_hasPlace _ (by simp) hin
  obtain ⟨v1', l', rfl, hp⟩ := restDbl_head _ _ _ _ hr
  refine ⟨v0, v1', l', ?_, p0, hp.trans p1, hi⟩
  unfold Planner.roundDbl
  have hck : s.checkStitchDbl ⟨none, none⟩ = true := by
    unfold Planner.checkStitchDbl; rw [htr]; simp
  rw [zoneDbl_nan, Bool.and_false, if_neg (by simp)]
  simp only [hg, bind, Except.bind, hck, if_true, hst, hr]
  rw [if_neg (by simpa using hws)]
  rfl

/-! ### The estimated times of numbers -/

theorem normDbl_some (v : List ℝ) : normDbl Real.sqrt (v.map some) = some (vnorm v) := by
  have h : ((v.map some).map fun x : Dbl ℝ => x * x).foldr (· + ·) (some 0) = some ((v.map (· ^ 2)).sum) := by
    induction v with
    | nil => rfl
    | cons a v ih =>
      simp only [List.map_cons, List.foldr_cons, ih, dbl_mul, dbl_add, List.sum_cons]
      rw [sq]
  unfold normDbl vnorm
  rw [h]; rfl

theorem slowEndDbl_some (v : Vertex ℝ) : slowEndDbl Real.sqrt v.toDbl = slowEnd v := by
  unfold slowEndDbl slowEnd
  have h : v.toDbl.getConstraint 1 = (v.getConstraint 1).map (List.map some) := find_toDbl 1 v.constraints
  rw [h]
  cases v.getConstraint 1 with
  | none => rfl
  | some x => simp only [Option.map_some, normDbl_some, dbl_lt]

theorem vsub_some (a b : List ℝ) : vsub (a.map (some : ℝ → Dbl ℝ)) (b.map some) = (vsub a b).map (List.map some) := by
  unfold vsub
  simp only [List.length_map]
  split
  · simp only [Except.map, Except.ok.injEq]
    rw [List.zipWith_map, List.map_zipWith]
    rfl
  · rfl

theorem nfabianTimeDbl_some (v w : Vertex ℝ) (vMax aMax : ℝ) :
    nfabianTimeDbl Real.sqrt v.toDbl w.toDbl vMax aMax = (nfabianTime v w vMax aMax).map some := by
  unfold nfabianTimeDbl nfabianTime
  have h : ∀ u : Vertex ℝ, (u.toDbl.getConstraint 0).getD [] = ((u.getConstraint 0).getD []).map some := by
    intro u
    have h : u.toDbl.getConstraint 0 = (u.getConstraint 0).map (List.map some) := find_toDbl 0 u.constraints
    rw [h]; cases u.getConstraint 0 <;> rfl
  rw [h, h, vsub_some, slowEndDbl_some, slowEndDbl_some]
  simp only [bind, Except.bind]
  cases vsub ((w.getConstraint 0).getD []) ((v.getConstraint 0).getD []) with
  | error e => rfl
  | ok d =>
    simp only [Except.map, normDbl_some, Dbl.over]
    by_cases hv : vMax = 0
    · simp [hv]
    · simp only [hv, if_false]
      by_cases ha : aMax = 0
      · simp only [ha, if_true]; split <;> simp [pure, Except.pure]
      · simp only [ha, if_false]; split <;> simp [pure, Except.pure]

theorem nfabianLoopDbl_some (vMax aMax : ℝ) (vs : List (Vertex ℝ)) :
    nfabianLoopDbl Real.sqrt vMax aMax (vs.map Vertex.toDbl) = (nfabianLoop vMax aMax vs).map (List.map some) := by
  induction vs with
  | nil => rfl
  | cons v l ih =>
    cases l with
    | nil => rfl
    | cons w l =>
      simp only [List.map_cons] at ih ⊢
      rw [nfabianLoopDbl, nfabianLoop, ih, nfabianTimeDbl_some]
      simp only [bind, Except.bind]
      cases nfabianTime v w vMax aMax with
      | error e => rfl
      | ok t => cases nfabianLoop vMax aMax (w :: l) <;> rfl

end Verif.Lemmas
