import Verif.Lemmas.PlannerEval

/-! # Which events can fail, and how -/

set_option linter.unusedSectionVars false
set_option linter.unusedSimpArgs false

namespace Verif.Lemmas
open Verif Verif.Spec

variable {K : Type*} [Field K] [LinearOrder K] [IsStrictOrderedRing K] [FloorSemiring K]

theorem addConstraint_total (v : Vertex K) (hD : v.D = 3) (hwf : WellFormed v) (k : Int) (p : V3 K) :
    ∃ v', v.addConstraint k p.toList = .ok v' := by
  obtain ⟨w, h1, _⟩ := addConstraint_ok v k p.toList hwf (by rw [hD]; rfl)
  exact ⟨w, h1⟩

theorem reset_total (w : Waypoint K) (hb : Bookkept w) (p : V3 K) : ∃ w', w.reset p = .ok w' := by
  obtain ⟨v, hv⟩ := addConstraint_total w.vertex hb.1 hb.2.1 0 p
  unfold Waypoint.reset Waypoint.resetWithCurrent
  simp only [hv, bind, Except.bind]
  exact ⟨_, rfl⟩

theorem resetThrough_total (n : String) (p : V3 K) (ws : List (Waypoint K)) (hb : ∀ w ∈ ws, Bookkept w) :
    ∃ ws', resetThrough n p ws = .ok ws' := by
  unfold resetThrough
  split
  · exact ⟨_, rfl⟩
  · apply mapM_total
    intro w hw
    split
    · exact reset_total w (hb w hw) p
    · exact ⟨_, rfl⟩

theorem resetThrough_bookkept (n : String) (p : V3 K) (ws ws' : List (Waypoint K)) (h : resetThrough n p ws = .ok ws')
    (hb : ∀ w ∈ ws, Bookkept w) : ∀ w ∈ ws', Bookkept w := by
  intro w hw
  obtain ⟨a, ha, hr⟩ := forall2_mem_right (resetThrough_rel n p ws ws' h) hw
  rcases hr with ⟨_, _, hr⟩ | ⟨_, rfl⟩
  · exact reset_bookkept' a w p (hb a ha) hr
  · exact hb _ ha

theorem resetAll_total (ms : List (String × V3 K)) (ws : List (Waypoint K)) (hb : ∀ w ∈ ws, Bookkept w) :
    ∃ ws', resetAll ms ws = .ok ws' := by
  induction ms generalizing ws with
  | nil => exact ⟨ws, rfl⟩
  | cons m ms ih =>
    obtain ⟨n, p⟩ := m
    obtain ⟨ws1, h1⟩ := resetThrough_total n p ws hb
    simp only [resetAll, h1, bind, Except.bind]
    exact ih ws1 (resetThrough_bookkept n p ws ws1 h1 hb)

theorem generateWaypoints_total (s : Planner K) (hw : WpInv s) : ∃ ws, s.generateWaypoints = .ok (ws, { s with toSet := [], toAdd := [], toModify := [] }) := by
  have tail : ∀ base : List (Waypoint K), (∀ w ∈ base, Bookkept w) → ∃ ws, resetAll s.toModify (base ++ s.toAdd.map (·.copy)) = .ok ws := by
    intro base hb
    apply resetAll_total
    intro w hw'
    rcases List.mem_append.mp hw' with h | h
    · exact hb w h
    · exact map_copy_mem (fun _ => copy_bookkept) hw.toAdd w h
  unfold Planner.generateWaypoints
  by_cases h0 : s.toSet.length = 0
  · simp only [if_pos h0]
    have hbk : ∀ w ∈ s.filterPassed (s.dyn.map (·.copy)), Bookkept w := fun w hw' =>
      map_copy_mem (fun _ => copy_bookkept) hw.dyn w (List.mem_filter.mp hw').1
    obtain ⟨base, hb⟩ := mapM_total (fun w : Waypoint K => w.resetWithCurrent) (s.filterPassed (s.dyn.map (·.copy)))
      (fun w hw' => reset_total w (hbk w hw') w.current)
    have hbb : ∀ w ∈ base, Bookkept w := by
      intro w hw'
      obtain ⟨a, ha, hr⟩ := forall2_mem_right (mapM_forall2 _ _ _ hb) hw'
      exact step_bookkept .resetCurrent _ _ hr (hbk a ha)
    obtain ⟨ws, hws⟩ := tail base hbb
    simp only [hb, hws, bind, Except.bind]
    exact ⟨ws, rfl⟩
  · simp only [if_neg h0]
    obtain ⟨ws, hws⟩ := tail (s.toSet.map (·.copy)) (map_copy_mem (fun _ => copy_bookkept) hw.toSet)
    simp only [hws, bind, Except.bind, pure, Except.pure]
    exact ⟨ws, rfl⟩

theorem ofVertex_total (v : Vertex K) (name : String) (p : V3 K) (h : v.getConstraint 0 = some p.toList) :
    ∃ w, Waypoint.ofVertex v name = .ok w := by
  unfold Waypoint.ofVertex
  simp only [h, bind, Except.bind, V3.toList, at?]
  exact ⟨_, rfl⟩

theorem stitchPoint_fail (env : Env K) (s : Planner K) (tr : Trajectory K) (l : K) (d : Bool) (e : Fail)
    (h : s.stitchPoint env tr l d = .error e) : s.getReferences env tr (l + s.params.gtlg) l false = .error e := by
  cases hr : s.getReferences env tr (l + s.params.gtlg) l false with
  | error e' =>
    unfold Planner.stitchPoint at h
    simp only [hr, bind, Except.bind] at h
    cases h; rfl
  | ok r =>
    exfalso
    unfold Planner.stitchPoint at h
    simp only [hr, bind, Except.bind] at h
    obtain ⟨v0, hv0⟩ := addConstraint_total (Vertex.mk' 3 : Vertex K) rfl (wellFormed_mk' 3) 0 r.position
    obtain ⟨a1, a2, a3⟩ := addConstraint_bookkept _ _ _ _ rfl (wellFormed_mk' 3) hv0
    simp only [hv0] at h
    cases d with
    | false =>
      simp only [Bool.false_eq_true, if_false, pure, Except.pure] at h
      obtain ⟨w, hw⟩ := ofVertex_total v0 "stitching_point" r.position (by rw [a3 0, if_pos rfl])
      rw [hw] at h; cases h
    | true =>
      simp only [if_true] at h
      obtain ⟨v1, hv1⟩ := addConstraint_total v0 a1 a2 1 (r.velocity.getD V3.zero)
      obtain ⟨b1, b2, b3⟩ := addConstraint_bookkept _ _ _ _ a1 a2 hv1
      obtain ⟨v2, hv2⟩ := addConstraint_total v1 b1 b2 2 (r.acceleration.getD V3.zero)
      obtain ⟨c1, c2, c3⟩ := addConstraint_bookkept _ _ _ _ b1 b2 hv2
      simp only [hv1, hv2] at h
      obtain ⟨w, hw⟩ := ofVertex_total v2 "stitching_point" r.position
        (by rw [c3 0, if_neg (by norm_num), b3 0, if_neg (by norm_num), a3 0, if_pos rfl])
      rw [hw] at h; cases h

theorem stitch_fail (env : Env K) (s : Planner K) (tr : Trajectory K) (htr : s.traj = some tr) (ws : List (Waypoint K)) (e : Fail)
    (h : s.stitch env ws = .error e) : ∃ l, s.getReferences env tr (l + s.params.gtlg) l false = .error e := by
  unfold Planner.stitch at h
  rw [htr] at h
  simp only [bind, Except.bind] at h
  split at h
  · rename_i hx; cases h; exact ⟨_, stitchPoint_fail env s tr _ _ _ hx⟩
  · split at h
    · rename_i hx; cases h; exact ⟨_, stitchPoint_fail env s tr _ _ _ hx⟩
    · cases h

theorem setConstraint_total (w : Waypoint K) (hb : Bookkept w) (k : Int) (c : V3 K) : ∃ w', w.setConstraint k c = .ok w' := by
  unfold Waypoint.setConstraint
  split
  · exact reset_total w hb c
  · obtain ⟨v, hv⟩ := addConstraint_total w.vertex hb.1 hb.2.1 k c
    simp only [hv, bind, Except.bind]
    exact ⟨_, rfl⟩

theorem appendDrone_total (s : Planner K) (ws : List (Waypoint K)) : ∃ r, s.appendDronePosition ws = .ok r := by
  unfold Planner.appendDronePosition
  obtain ⟨v, hv⟩ := addConstraint_total (Vertex.mk' 3 : Vertex K) rfl (wellFormed_mk' 3) 0 s.vehicle
  have h1 : ∃ w1, (Waypoint.default V3.zero V3.zero : Waypoint K).reset s.vehicle = .ok w1 := by
    unfold Waypoint.reset Waypoint.resetWithCurrent Waypoint.default
    simp only [hv, bind, Except.bind]
    exact ⟨_, rfl⟩
  obtain ⟨w1, h1⟩ := h1
  have b1 := reset_bookkept _ _ _ rfl (wellFormed_mk' 3) h1
  obtain ⟨w2, h2⟩ := setConstraint_total w1 b1 1 V3.zero
  have b2 := step_bookkept (.constrain 1 V3.zero) _ _ h2 b1
  obtain ⟨w3, h3⟩ := setConstraint_total w2 b2 2 V3.zero
  simp only [h1, h2, h3, bind, Except.bind]
  exact ⟨_, rfl⟩

theorem applyLoop_total (n : String) (p : V3 K) (g : K) (ws : List (Waypoint K)) (hb : ∀ w ∈ ws, Bookkept w) :
    ∃ r, Planner.applyLoop n p g ws = .ok r := by
  induction ws with
  | nil => exact ⟨_, rfl⟩
  | cons w ws ih =>
    obtain ⟨r, hr⟩ := ih (fun w hw => hb w (by simp [hw]))
    simp only [Planner.applyLoop, hr, bind, Except.bind]
    split
    · obtain ⟨w', hw'⟩ := setCurrentPosition_ok w p g (hb w (by simp)).1
      simp only [hw']
      exact ⟨_, rfl⟩
    · exact ⟨_, rfl⟩

theorem applyAll_total (ms : List (String × V3 K)) (s : Planner K) (hb : ∀ w ∈ s.dyn, Bookkept w) : ∃ s', Planner.applyAll ms s = .ok s' := by
  induction ms generalizing s with
  | nil => exact ⟨s, rfl⟩
  | cons m ms ih =>
    obtain ⟨n, p⟩ := m
    obtain ⟨r, hr⟩ := applyLoop_total n p s.params.lastGlobal s.dyn hb
    simp only [Planner.applyAll, Planner.applyWaypointModification, hr, bind, Except.bind]
    apply ih
    intro w hw
    obtain ⟨a, ha, hx⟩ := forall2_mem_right (applyLoop_rel n p _ _ r.1 r.2 hr).1 hw
    rcases hx with ⟨_, _, hx⟩ | ⟨_, rfl⟩
    · exact step_bookkept (.update p _) a w hx (hb a ha)
    · exact hb _ ha

theorem extractVertices_total (ws : List (Waypoint K)) (hne : ws ≠ []) (hb : ∀ w ∈ ws, Bookkept w) : ∃ vs, extractVertices ws = .ok vs := by
  unfold extractVertices
  rw [List.getLast?_eq_some_getLast hne]
  simp only
  have hw := hb _ (List.getLast_mem hne)
  obtain ⟨v1, h1⟩ := addConstraint_total _ hw.1 hw.2.1 1 (V3.zero : V3 K)
  obtain ⟨a1, a2, a3⟩ := addConstraint_bookkept _ _ _ _ hw.1 hw.2.1 h1
  obtain ⟨v2, h2⟩ := addConstraint_total _ a1 a2 2 (V3.zero : V3 K)
  simp only [h1, h2, bind, Except.bind]
  exact ⟨_, rfl⟩

theorem assignTimes_total (segs : List (Segment K)) (g : K) (ws : List (Waypoint K)) (i : ℕ) (h : i + ws.length ≤ segs.length + 1) :
    ∃ ws', assignTimes segs g ws i = .ok ws' := by
  induction ws generalizing i with
  | nil => exact ⟨_, rfl⟩
  | cons w ws ih =>
    simp only [List.length_cons] at h
    obtain ⟨ws1, h1⟩ := ih (i + 1) (by omega)
    simp only [assignTimes, getCummulativeTime_eq segs i (by omega), h1, bind, Except.bind]
    exact ⟨_, rfl⟩

/-- The computation fails exactly as the optimizer does. -/
theorem computeTrajectory_fail (env : Env K) (henv : Segmentwise env) (s : Planner K) (hw : WpInv s) (h2 : 2 ≤ s.next.length) (sp : K) (e : Fail)
    (h : s.computeTrajectory env sp = .error e) : ∃ vs, extractVertices s.next = .ok vs ∧ 2 ≤ vs.length ∧ env.optimize vs sp = .error e := by
  obtain ⟨vs, hvs⟩ := extractVertices_total s.next (by rintro h; rw [h] at h2; simp at h2) hw.next
  have hl := (extractVertices_form _ _ hvs).1
  refine ⟨vs, hvs, by omega, ?_⟩
  unfold Planner.computeTrajectory at h
  simp only [hvs, bind, Except.bind] at h
  rw [if_neg (by omega)] at h
  cases ho : env.optimize vs sp with
  | error e' => rw [ho] at h; cases h; rfl
  | ok tr =>
    rw [ho] at h
    simp only at h
    obtain ⟨ws, hws⟩ := assignTimes_total tr.segments s.newParams.gtlg s.next 0 (by have := (henv vs sp tr ho).2; omega)
    rw [hws] at h
    cases h

theorem ready_usable (env : Env K) (henv : Segmentwise env) (s : Planner K) (hp : PlanInv env s) (tr : Trajectory K) (h : s.future = .ready tr) :
    Usable tr := by
  obtain ⟨_, vs, sp, _, ho⟩ := hp.ready tr h
  exact (henv vs sp tr ho).1

theorem traj_usable (env : Env K) (henv : Segmentwise env) (s : Planner K) (hp : PlanInv env s) (tr : Trajectory K) (h : s.traj = some tr) :
    Usable tr := by
  obtain ⟨_, ws, ⟨vs, sp, _, ho⟩, _⟩ := hp.taken tr h
  exact (henv vs sp tr ho).1

theorem check_fail (env : Env K) (henv : Segmentwise env) (s : Planner K) (hc : Ctl s) (hp : PlanInv env s) (e : Fail)
    (h : s.checkTrajectoryGenerated env = .error e) : e = .nonfinite ∨ (e = .exc ∧ s.future = .failed) := by
  unfold Planner.checkTrajectoryGenerated at h
  split at h
  · cases h
  · split at h
    · rename_i hn hr
      simp only [Bool.and_eq_true] at hr
      obtain ⟨⟨hcomp, hval⟩, hready⟩ := hr
      have hswap : s.swapTrajectory env = .error e := by
        simp only [bind, Except.bind] at h
        cases hs : s.swapTrajectory env with
        | error e' => rw [hs] at h; cases h; rfl
        | ok s' => rw [hs] at h; cases h
      unfold Planner.swapTrajectory at hswap
      cases hf : s.future with
      | invalid => rw [hf] at hready; cases hready
      | launched => rw [hf] at hready; cases hready
      | running sp => rw [hf] at hready; cases hready
      | failed => rw [hf] at hswap; right; cases hswap; exact ⟨rfl, rfl⟩
      | ready new =>
        left
        rw [hf] at hswap
        simp only [bind, Except.bind] at hswap
        have hu := ready_usable env henv s hp new hf
        by_cases hsc : s.fromScratch = true
        · rw [if_pos hsc] at hswap
          cases ht : Planner.timeFitting env { s with future := .invalid } new s.vehicle with
          | error e' => rw [ht] at hswap; cases hswap; exact timeFitting_fail env _ new hu _ _ ht
          | ok s1 => rw [ht] at hswap; cases hswap
        · rw [if_neg hsc] at hswap
          cases htr : s.traj with
          | none => exact absurd htr (hc.scratch (by simpa using hsc))
          | some old =>
            simp only [htr] at hswap
            have huo := traj_usable env henv s hp old htr
            split at hswap
            · rename_i e' hx
              cases hswap
              exact evaluateModified_fail env _ old huo _ _ 0 _ hx
            · split at hswap
              · rename_i hx; cases hswap; exact timeFitting_fail env _ new hu _ _ hx
              · cases hswap
    · cases h

theorem check_some_traj (env : Env K) (s s' : Planner K) (h : s.checkTrajectoryGenerated env = .ok (some s')) (hc : Ctl s) : s'.traj ≠ none := by
  rcases check_micro env .getMaxTime s s' (Or.inr (Or.inl rfl)) h with rfl | hm
  · unfold Planner.checkTrajectoryGenerated at h
    split at h
    · cases h
    · rename_i hn
      intro ht
      rw [ht] at hn
      simp only [Option.isNone_none, Bool.true_and, Bool.not_eq_true', Bool.not_eq_false] at hn
      have hcomp : s'.computing = true := by
        cases hcc : s'.computing with
        | true => rfl
        | false => rw [hc.idle hcc] at hn; cases hn
      have hv : s'.future.valid = true := by
        cases hf : s'.future <;> rw [hf] at hn <;> first | rfl | cases hn
      rw [hcomp, hn, hv] at h
      simp only [Bool.and_self, if_true, bind, Except.bind] at h
      split at h
      · cases h
      · have := congrArg Planner.computing (Option.some.inj (Except.ok.inj h))
        simp only at this
        rw [hcomp] at this
        cases this
  · cases hm with
    | takeOver => simp

end Verif.Lemmas
