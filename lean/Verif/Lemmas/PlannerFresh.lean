import Verif.Lemmas.PlannerPlan

/-! # Plans made from waypoints without compensations -/

set_option linter.unusedSectionVars false
set_option linter.unusedSimpArgs false

namespace Verif.Lemmas
open Verif Verif.Spec

variable {K : Type*} [Field K] [LinearOrder K] [IsStrictOrderedRing K] [FloorSemiring K]

/-- `b` is a waypoint of the plan, `a` the waypoint it was computed from. -/
def PlannedFrom (a b : Waypoint K) : Prop :=
  a.current = b.original ∧ ∀ k : Int, k ≠ 0 → b.vertex.getConstraint k = a.vertex.getConstraint k

structure FreshInv (env : Env K) (s : Planner K) : Prop where
  next : ∀ w ∈ s.next, w.modifiers = []
  toAdd : ∀ w ∈ s.toAdd, w.modifiers = []
  toSet : ∀ w ∈ s.toSet, w.modifiers = []
  taken : ∀ tr, s.traj = some tr → ∃ ws, ComputedFrom env tr ws ∧ (∀ w ∈ ws, Bookkept w) ∧ List.Forall₂ PlannedFrom ws s.dyn

theorem fresh_init (env : Env K) (v : V3 K) : FreshInv env (Planner.init v) := by
  constructor <;> simp [Planner.init]

theorem setCurrentPosition_constraints (a c : Waypoint K) (p : V3 K) (g : K) (hb : Bookkept a) (h : a.setCurrentPosition p g = .ok c)
    (k : Int) (hk : k ≠ 0) : c.vertex.getConstraint k = a.vertex.getConstraint k := by
  obtain ⟨v, m, hv, rfl, _⟩ := setCurrentPosition_spec a c p g h
  obtain ⟨_, _, h3⟩ := addConstraint_bookkept a.vertex v 0 p hb.1 hb.2.1 hv
  rw [h3 k, if_neg hk]

theorem applyAll_forall2_mem (R : Waypoint K → Waypoint K → Prop) (hrefl : ∀ w, R w w) (htrans : ∀ a b c, R a b → R b c → R a c)
    (hset : ∀ a c p g, Bookkept a → a.setCurrentPosition p g = .ok c → R a c) (ms : List (String × V3 K)) (s s' : Planner K)
    (hb : ∀ w ∈ s.dyn, Bookkept w) (h : Planner.applyAll ms s = .ok s') : List.Forall₂ R s.dyn s'.dyn := by
  obtain ⟨hf, _⟩ := applyAll_rel (fun a b => Bookkept a → R a b ∧ Bookkept b) (fun w hw => ⟨hrefl w, hw⟩)
    (fun a b c h1 h2 ha => ⟨htrans a b c (h1 ha).1 (h2 (h1 ha).2).1, (h2 (h1 ha).2).2⟩)
    (fun a c p g hs ha => ⟨hset a c p g ha hs, step_bookkept (.update p g) a c hs ha⟩) ms s s' h
  exact forall2_imp_mem hf (fun a ha b hab => (hab (hb a ha)).1)

theorem fresh_micro (env : Env K) (e : Event K) (s s' : Planner K) (hv : FreshEvent e) (hw : WpInv s) (hp : PlanInv env s)
    (hi : FreshInv env s) (h : Micro env e s s') : FreshInv env s' := by
  cases h with
  | setWaypoints _ ws =>
    exact ⟨hi.1, by simp [Planner.setWaypoints], map_copy_mem (fun w h => h) (fun w hw => (hv w hw).2), hi.4⟩
  | append _ w =>
    refine ⟨hi.1, ?_, hi.3, hi.4⟩
    intro w' hw'
    rcases List.mem_append.mp hw' with h | h
    · exact hi.2 w' h
    · rw [List.mem_singleton.mp h]; exact hv.2
  | modify _ n p g => exact ⟨hi.1, hi.2, hi.3, hi.4⟩
  | modifyMany _ ms => exact ⟨hi.1, hi.2, hi.3, hi.4⟩
  | takeOver _ _ new off hc hr _ _ =>
    refine ⟨hi.1, hi.2, hi.3, ?_⟩
    intro tr htr
    rw [← Option.some.inj htr]
    refine ⟨s.next, (hp.ready new hr).2, hw.next, ?_⟩
    refine forall2_imp_mem (forall2_map_copy s.next) (fun a ha b hab => ?_)
    rw [hab]
    exact ⟨((hw.next a ha).2.2.2.1 (hi.next a ha)).symm, fun _ _ => rfl⟩
  | evalTime _ t o ht => exact ⟨hi.1, hi.2, hi.3, hi.4⟩
  | setSpeed _ v => exact ⟨hi.1, hi.2, hi.3, hi.4⟩
  | clearRegenerated _ => exact ⟨hi.1, hi.2, hi.3, hi.4⟩
  | vehicle _ p => exact ⟨hi.1, hi.2, hi.3, hi.4⟩
  | goCollect _ hp hg hz hc => exact ⟨hi.1, hi.2, hi.3, hi.4⟩
  | goApply _ hp hm hc _ => exact ⟨hi.1, hi.2, hi.3, hi.4⟩
  | collect _ ws hp hg =>
    refine ⟨?_, by simp, by simp, hi.4⟩
    refine generateWaypoints_pred (fun w => w.modifiers = []) (fun _ h => h) ?_ s ws _ hg ?_ hi.2 hi.3
    · intro w w' p _ hr
      obtain ⟨v, _, rfl⟩ := reset_frame w w' p hr
      rfl
    · intro w _ w' hr
      obtain ⟨v, _, rfl⟩ := resetCurrent_frame _ w' hr
      rfl
  | nothingToPlan _ hp hn => exact ⟨hi.1, hi.2, hi.3, hi.4⟩
  | snapshot _ hp hn => exact ⟨hi.1, hi.2, hi.3, hi.4⟩
  | stitch _ ws hp hs hst =>
    obtain ⟨traj, w0, w1, htr, h0, h1, hr⟩ := stitch_form env s s.next ws hst
    obtain ⟨_, _, _, b0, _⟩ := stitchPoint_spec env s traj _ _ _ h0
    obtain ⟨_, _, _, b1, _⟩ := stitchPoint_spec env s traj _ _ _ h1
    refine ⟨?_, hi.2, hi.3, hi.4⟩
    intro w hw
    simp only [hr, List.mem_cons] at hw
    rcases hw with rfl | rfl | hw
    · exact b0
    · exact b1
    · exact map_copy_mem (P := fun w => w.modifiers = []) (fun _ h => h) (fun w hw => hi.1 w (List.mem_filter.mp hw).1) w hw
  | scratch _ ws hp hs hst =>
    obtain ⟨w0, hr, _, b0, _⟩ := appendDrone_spec s s.next ws hst
    refine ⟨?_, hi.2, hi.3, hi.4⟩
    intro w hw
    simp only [hr, List.mem_cons] at hw
    rcases hw with rfl | hw
    · exact b0
    · exact hi.1 w hw
  | planned _ hp => exact ⟨hi.1, hi.2, hi.3, hi.4⟩
  | launch _ hp => exact ⟨hi.1, hi.2, hi.3, hi.4⟩
  | launched _ hp => exact ⟨hi.1, hi.2, hi.3, hi.4⟩
  | apply _ s2 hp ha =>
    have hf := applyAll_forall2_mem (fun a b => b.original = a.original ∧ ∀ k : Int, k ≠ 0 → b.vertex.getConstraint k = a.vertex.getConstraint k)
      (fun _ => ⟨rfl, fun _ _ => rfl⟩) (fun a b c h1 h2 => ⟨h2.1.trans h1.1, fun k hk => (h2.2 k hk).trans (h1.2 k hk)⟩)
      (fun a c p g hb hs => ⟨(setCurrentPosition_frame a c p g hs).2.2.1, setCurrentPosition_constraints a c p g hb hs⟩) _ s s2 hw.dyn ha
    obtain ⟨_, d, r, rfl, _⟩ := applyAll_rel (fun _ _ => True) (fun _ => trivial) (fun _ _ _ _ _ => trivial) (fun _ _ _ _ _ => trivial)
      _ s s2 ha
    refine ⟨hi.1, hi.2, hi.3, ?_⟩
    intro tr htr
    obtain ⟨ws, h1, h2, h3⟩ := hi.taken tr htr
    exact ⟨ws, h1, h2, forall2_comp (fun a b c h1 h2 => ⟨h1.1.trans h2.1.symm, fun k hk => (h2.2 k hk).trans (h1.2 k hk)⟩) h3 hf⟩
  | asyncStart _ hf => exact ⟨hi.1, hi.2, hi.3, hi.4⟩
  | asyncFinish _ dt sp traj ws hf hc =>
    obtain ⟨vs, _, _, _, hws⟩ := computeTrajectory_form env s sp traj ws hc
    refine ⟨?_, hi.2, hi.3, hi.4⟩
    intro w hw
    obtain ⟨a, ha, i, t, rfl⟩ := assignTimes_mem _ _ _ _ hws w hw
    simp only [Waypoint.setTime, Waypoint.setIndex, hi.1 a ha, List.map_nil]
  | asyncFail _ dt sp hf hc => exact ⟨hi.1, hi.2, hi.3, hi.4⟩

theorem reachable_freshInv (env : Env K) (henv : Segmentwise env) (s : Planner K) (h : ReachableBy FreshEvent env s) : FreshInv env s := by
  have : Ctl s ∧ WpInv s ∧ PlanInv env s ∧ FreshInv env s :=
    reachableBy_induction FreshEvent env (fun s => Ctl s ∧ WpInv s ∧ PlanInv env s ∧ FreshInv env s)
      (fun v => ⟨ctl_init v, wp_init v, plan_init env v, fresh_init env v⟩)
      (fun e s s' hv hi hm => ⟨ctl_micro env e s s' hi.1 hm, wp_micro env e s s' (fresh_valid hv) hi.2.1 hm,
        plan_micro env henv e s s' hi.1 hi.2.1 hi.2.2.1 hm, fresh_micro env e s s' hv hi.2.1 hi.2.2.1 hi.2.2.2 hm⟩) s h
  exact this.2.2.2

end Verif.Lemmas
