import Verif.Lemmas.PlannerPile

/-! # The names in a plan (lemmas for C151) -/

set_option linter.unusedSectionVars false

namespace Verif.Lemmas
open Verif Verif.Spec

variable {K : Type*} [Field K] [LinearOrder K] [IsStrictOrderedRing K] [FloorSemiring K]

/-- The planner's own points of a plan, one that starts the plan or two that join it, come before the waypoints asked for. -/
def OwnFirst (names : List String) : Prop :=
  names = [] ∨ ∃ us : List String, (∀ u ∈ us, ¬ PlannerName u) ∧ (names = "" :: us ∨ names = "stitching_point" :: "stitching_point" :: us)

structure ShapeInv (s : Planner K) : Prop where
  dyn : OwnFirst (s.dyn.map (·.name))
  prepared : s.pc = .planned ∨ s.computing = true → OwnFirst (s.next.map (·.name))

theorem shape_init (v : V3 K) : ShapeInv (Planner.init v) := by
  refine ⟨Or.inl ?_, ?_⟩ <;> simp [Planner.init]

theorem shape_micro (env : Env K) (e : Event K) (s s' : Planner K) (hc : Ctl s) (hi : ShapeInv s)
    (hprep : s.pc = .snapshotted → s'.pc = .planned → OwnFirst (s'.next.map (·.name))) (h : Micro env e s s') : ShapeInv s' := by
  have quiet : ∀ pc, s.pc = pc → pc ≠ .top → pc ≠ .launching → pc ≠ .launched → s.computing = false := by
    intro pc h1 h2 h3 h4
    exact hc.quiet (by rw [h1]; exact h2) (by rw [h1]; exact h3) (by rw [h1]; exact h4)
  cases h with
  | takeOver _ _ new off hcomp hr he hfit =>
    refine ⟨?_, ?_⟩
    · show OwnFirst ((s.next.map (·.copy)).map (·.name))
      rw [List.map_map]
      exact hi.2 (Or.inr hcomp)
    · rintro (h | h)
      · exact hi.2 (Or.inl h)
      · cases h
  | collect _ ws hp hw =>
    refine ⟨hi.1, ?_⟩
    rintro (h | h)
    · cases h
    · rw [show _ = s.computing from rfl, quiet _ hp (by decide) (by decide) (by decide)] at h; cases h
  | stitch _ ws hp hs hw => exact ⟨hi.1, fun _ => hprep hp rfl⟩
  | scratch _ ws hp hs hw => exact ⟨hi.1, fun _ => hprep hp rfl⟩
  | goCollect _ hp hg hz hcomp => exact ⟨hi.1, fun h => hi.2 (Or.inr (by simpa using h))⟩
  | goApply _ hp hm hcomp hno => exact ⟨hi.1, fun h => hi.2 (Or.inr (by simpa using h))⟩
  | nothingToPlan _ hp hn => exact ⟨hi.1, fun h => hi.2 (Or.inr (by simpa using h))⟩
  | snapshot _ hp hn => exact ⟨hi.1, fun h => hi.2 (Or.inr (by simpa using h))⟩
  | planned _ hp => exact ⟨hi.1, fun _ => hi.2 (Or.inl hp)⟩
  | launch _ hp => exact ⟨hi.1, fun h => hi.2 (Or.inr (by simpa using h))⟩
  | launched _ hp => exact ⟨hi.1, fun h => hi.2 (Or.inr (by simpa using h))⟩
  | asyncFinish _ dt sp tr ws hf hco =>
    obtain ⟨vs, _, _, _, ha⟩ := computeTrajectory_form env s sp tr ws hco
    have hnm : ws.map (·.name) = s.next.map (·.name) := forall2_map_eq (fun _ _ h => h.1) (assignTimes_same _ _ _ _ _ ha)
    refine ⟨hi.1, fun h => ?_⟩
    simp only [hnm]; exact hi.2 h
  | apply _ s2 hp ha =>
    obtain ⟨hf, d, r, rfl, _⟩ := applyAll_rel (fun w w' => w'.name = w.name) (fun _ => rfl) (fun _ _ _ h1 h2 => h2.trans h1)
      (fun a c p g hs => by
        unfold Waypoint.setCurrentPosition at hs
        simp only [bind, Except.bind] at hs
        split at hs
        · cases hs
        · rw [← Except.ok.inj hs]) _ s s2 ha
    refine ⟨?_, ?_⟩
    · show OwnFirst (d.map (·.name))
      rw [forall2_map_eq (fun _ _ h => h) hf]; exact hi.1
    · rintro (h | h)
      · cases h
      · exact hi.2 (Or.inr h)
  | _ => exact ⟨hi.1, hi.2⟩

theorem shape_step (env : Env K) (e : Event K) (s s' : Planner K) (hc : Ctl s) (hi : ShapeInv s)
    (hprep : s.pc = .snapshotted → s'.pc = .planned → OwnFirst (s'.next.map (·.name))) (h : s.step env e = .ok (some s')) : ShapeInv s' := by
  rcases step_micro' env e s s' h with ⟨rfl, _⟩ | h | ⟨m, ⟨t, o, rfl⟩, h1, h2⟩
  · exact hi
  · exact shape_micro env e s s' hc hi hprep h
  · have np : ∀ a c : Planner K, Micro env (.evaluate t o false) a c → c.pc = a.pc := by
      intro a c hm
      cases hm <;> rfl
    have hpm := np _ _ h1
    have hps := np _ _ h2
    exact shape_micro env _ m s' (ctl_micro env _ s m hc h1)
      (shape_micro env _ s m hc hi (fun h3 h4 => by rw [hpm, h3] at h4; cases h4) h1) (fun h3 h4 => by rw [hps, h3] at h4; cases h4) h2

theorem shape_prepared (env : Env K) (e : Event K) (s s' : Planner K) (h : s.step env e = .ok (some s')) (hp : s.pc = .snapshotted)
    (hp' : s'.pc = .planned) (hown : ∀ w ∈ s.next, PlannerName w.name → s.checkStitchTrajectory = true ∧ 0 < w.time ∧
      w.time < s.newParams.lastLocal + s.params.tOffset + 5 * s.computationTime + 5 * s.computationTime + s.params.gtlg) :
    OwnFirst (s'.next.map (·.name)) := by
  rcases step_micro' env e s s' h with ⟨rfl, _⟩ | h | ⟨m, ⟨t, o, rfl⟩, h1, h2⟩
  · rw [hp] at hp'; cases hp'
  · cases h with
    | stitch _ ws _ hs hw =>
      obtain ⟨traj, w0, w1, _, hw0, hw1, rfl⟩ := stitch_form env s _ ws hw
      refine Or.inr ⟨_, ?_, Or.inr (by rw [List.map_cons, List.map_cons, stitchPoint_name _ _ _ _ _ _ hw0, stitchPoint_name _ _ _ _ _ _ hw1])⟩
      intro u hu hn
      obtain ⟨w', hw', rfl⟩ := List.mem_map.mp hu
      obtain ⟨w, hw2, rfl⟩ := List.mem_map.mp hw'
      obtain ⟨hm, hk⟩ := List.mem_filter.mp hw2
      obtain ⟨_, h0, h1⟩ := hown w hm hn
      simp [h0, h1] at hk
    | scratch _ ws _ hs hw =>
      obtain ⟨w, rfl, hspec⟩ := appendDrone_spec s _ ws hw
      refine Or.inr ⟨s.next.map (·.name), ?_, Or.inl ?_⟩
      · intro u hu hn
        obtain ⟨w', hw', rfl⟩ := List.mem_map.mp hu
        rw [(hown w' hw' hn).1] at hs; cases hs
      · have : w.name = "" := by tauto
        rw [List.map_cons, this]
    | apply _ s2 hp2 ha => rw [hp] at hp2; cases hp2
    | _ => simp_all [Planner.setWaypoints, Planner.appendWaypoint, Planner.modifyWaypoint, Planner.setSpeed, Planner.updateVehiclePosition]
  · exfalso
    have np : ∀ a c : Planner K, Micro env (.evaluate t o false) a c → c.pc = a.pc := by
      intro a c hm
      cases hm <;> rfl
    rw [np _ _ h2, np _ _ h1, hp] at hp'
    cases hp'

/-! ## Counting -/

theorem askedAhead_eq (ws : List (Waypoint K)) (t : K) :
    askedAhead ws t = (ws.filter fun w => decide (t < w.time)).countP fun w => decide (¬ PlannerName w.name) := by
  unfold askedAhead
  rw [List.countP_filter]
  congr 1
  funext w
  simp

theorem dropped_count (ws : List (Waypoint K)) : (ws.countP fun w => decide (¬ PlannerName w.name)) ≤
    (ws.dropWhile fun w => decide (w.name = "stitching_point")).length := by
  induction ws with
  | nil => simp
  | cons w ws ih =>
    by_cases hn : w.name = "stitching_point"
    · rw [List.dropWhile_cons_of_pos (by simp [hn]), List.countP_cons_of_neg (by simp [hn, PlannerName])]
      exact ih
    · rw [List.dropWhile_cons_of_neg (by simp [hn])]
      exact List.countP_le_length

theorem dropped_users (ws : List (Waypoint K)) (h : ∀ w ∈ ws, ¬ PlannerName w.name) :
    (ws.dropWhile fun w => decide (w.name = "stitching_point")).length = ws.countP fun w => decide (¬ PlannerName w.name) := by
  have h1 : ws.countP (fun w => decide (¬ PlannerName w.name)) = ws.length := List.countP_eq_length.mpr fun w hw => by simpa using h w hw
  rw [h1]
  cases ws with
  | nil => rfl
  | cons w ws =>
    rw [List.dropWhile_cons_of_neg]
    have := h w (by simp)
    simp only [decide_eq_true_eq]
    exact fun hn => this (Or.inr hn)

end Verif.Lemmas
