import Verif.Lemmas.PlannerShape
import Verif.Properties.PlannerPile
import Verif.Properties.PlannerTime

/-!
# How many waypoints remain (C151)

`getRemainingWaypoints` after an evaluation, compared with the number of waypoints asked for that lie ahead (`Spec/PlannerPile.lean`
`askedAhead`). What exactly it counts is C59.
-/

set_option linter.unusedSectionVars false

namespace Verif.Properties
open Verif Verif.Spec Verif.Lemmas

section
variable {K : Type*} [Field K] [LinearOrder K] [IsStrictOrderedRing K] [FloorSemiring K]

/-- C151, the claim: after an evaluation at an instant `t` not before the plan's start, `getRemainingWaypoints` is the number of waypoints
asked for that lie after `t`. -/
def C151Full (K : Type*) [Field K] [LinearOrder K] [IsStrictOrderedRing K] [FloorSemiring K] : Prop :=
  ∀ (env : Env K) (v : V3 K) (es : List (Event K)) (s s' : Planner K) (t T : K) (o : Bool) (r : References K),
    Segmentwise env → MeetsVertices env → JoinsSmoothly env → (∀ e ∈ es, FreshEvent e) → (∀ e ∈ es, NamedEvent e) →
    Run env (Planner.init v) es s → s.evaluateTrajectory env t o false = .ok (some (r, s')) →
    s'.getMinTime env = .ok (some (T, s')) → T ≤ t →
    ∃ ws, s'.getDynamicWaypoints env = .ok (some (ws, s')) ∧ s'.getRemainingWaypoints = askedAhead ws t

/-- C151, what holds of every history: it is never too small. A loop that flies on while waypoints remain does not stop early. -/
theorem C151_enough_partial (env : Env K) (henv : Segmentwise env) (s s' : Planner K) (h : Reachable env s) (t : K) (o : Bool) (r : References K)
    (hev : s.evaluateTrajectory env t o false = .ok (some (r, s'))) :
    ∃ ws, s'.getDynamicWaypoints env = .ok (some (ws, s')) ∧ (askedAhead ws t : Int) ≤ s'.getRemainingWaypoints := by
  obtain ⟨ws, h1, _, _, h4⟩ := C59_next env henv s s' h t o r hev
  refine ⟨ws, h1, ?_⟩
  rw [h4, askedAhead_eq]
  exact_mod_cast dropped_count _

/-- C151, where it holds: if, whenever a plan is prepared, enough of the old one is left to join it and the points of the planner's own
that have not been flown lie less than 20 computation times ahead (the condition of `C147_two_partial`). -/
theorem C151_partial (env : Env K) (henv : Segmentwise env) (v : V3 K) (es : List (Event K)) (s s' : Planner K) (t T : K) (o : Bool)
    (r : References K) (hes : ∀ e ∈ es, ValidEvent e)
    (h : RunWhile (fun s _ s' => s.pc = .snapshotted → s'.pc = .planned → ∀ w ∈ s.next, PlannerName w.name → EnoughLeft s ∧ 0 < w.time ∧
      w.time < s.newParams.lastLocal + s.params.gtlg + s.params.tOffset + 20 * s.timeConstant) env (Planner.init v) es s)
    (hev : s.evaluateTrajectory env t o false = .ok (some (r, s'))) (hT : s'.getMinTime env = .ok (some (T, s'))) (hle : T ≤ t) :
    ∃ ws, s'.getDynamicWaypoints env = .ok (some (ws, s')) ∧ s'.getRemainingWaypoints = askedAhead ws t := by
  have hreach : Reachable env s := ⟨v, es, hes, runWhile_run _ env _ _ _ h⟩
  have key : Ctl s ∧ ShapeInv s := by
    clear hev hT hreach hes
    induction h with
    | nil => exact ⟨ctl_init v, shape_init v⟩
    | @snoc es s1 s2 e hrun hs hok ih =>
      obtain ⟨hc, hi⟩ := ih
      refine ⟨ctl_step env e s1 s2 hc hs, shape_step env e s1 s2 hc hi ?_ hs⟩
      intro hp hp'
      refine shape_prepared env e s1 s2 hs hp hp' ?_
      intro w hw hwn
      obtain ⟨h1, h2, h3⟩ := hok hp hp' w hw hwn
      refine ⟨(stitch_iff s1).mpr h1, h2, ?_⟩
      have hb : s1.newParams.lastLocal + s1.params.tOffset + 5 * s1.computationTime + 5 * s1.computationTime + s1.params.gtlg =
          s1.newParams.lastLocal + s1.params.gtlg + s1.params.tOffset + 20 * s1.timeConstant := by unfold Planner.computationTime; ring
      rw [hb]; exact h3
  have hstep := evaluate_step env s s' t o false r hev
  have hpc : s'.pc = s.pc := by
    have np : ∀ a c : Planner K, Micro env (.evaluate t o false) a c → c.pc = a.pc := by
      intro a c hm
      cases hm <;> rfl
    rcases step_micro' env _ s s' hstep with ⟨rfl, _⟩ | hm | ⟨m, ⟨t', o', he⟩, h1, h2⟩
    · rfl
    · exact np _ _ hm
    · cases he
      rw [np _ _ h2, np _ _ h1]
  have hshape : OwnFirst (s'.dyn.map (·.name)) :=
    (shape_step env _ s s' key.1 key.2 (fun h1 h2 => by rw [hpc, h1] at h2; cases h2) hstep).dyn
  obtain ⟨ws, h1, _, _, h4⟩ := C59_next env henv s s' hreach t o r hev
  refine ⟨ws, h1, ?_⟩
  rw [h4, askedAhead_eq]
  have hr' : Reachable env s' := reachableBy_step _ env s s' (.evaluate t o false) hreach trivial hstep
  have htr : s'.traj ≠ none := by
    obtain ⟨r', m, _, hchk, hn⟩ := step_evaluate env s s' t o false hstep
    obtain ⟨hmt, hs'⟩ := evaluateNow_inv env m s' t o false r' hn
    rw [hs']; exact hmt
  have hws : ws = s'.dyn.map (·.copy) := by
    unfold Planner.getDynamicWaypoints at h1
    simp only [bind, Except.bind] at h1
    split at h1
    · cases h1
    · split at h1
      · cases h1
      · simp only [pure, Except.pure, Except.ok.injEq, Option.some.injEq, Prod.mk.injEq] at h1
        rw [← h1.1, h1.2]
  have hTg : T = s'.params.gtlg := by
    rw [getMinTime_eq env s' htr] at hT
    exact ((Prod.mk.inj (Option.some.inj (Except.ok.inj hT))).1).symm
  have hnames : ws.map (·.name) = s'.dyn.map (·.name) := by rw [hws, List.map_map]; rfl
  rw [← hnames] at hshape
  norm_cast
  rcases hshape with h0 | ⟨us, hus, h0 | h0⟩
  · rw [List.map_eq_nil_iff.mp h0]; rfl
  · -- the first point is the start of the plan
    obtain ⟨w0, rest, rfl, hn0, hrest⟩ := List.map_eq_cons_iff.mp h0
    obtain ⟨tr, htr'⟩ := Option.ne_none_iff_exists'.mp htr
    obtain ⟨hTd, _⟩ := (reachable_plan env henv s' hr').taken tr htr'
    cases hd : s'.dyn with
    | nil => rw [hd] at hws; cases hws
    | cons d0 drest =>
      have ht0 := (hTd.2 0 d0 (by rw [hd]; rfl)).2
      rw [startOf_zero, add_zero] at ht0
      rw [hd, List.map_cons, List.cons.injEq] at hws
      have hw0 : w0.time = s'.params.gtlg := by rw [hws.1]; exact ht0
      rw [List.filter_cons_of_neg (by rw [hw0, ← hTg]; simpa using hle)]
      apply dropped_users
      intro w hw
      exact hus _ (by rw [← hrest]; exact List.mem_map.mpr ⟨w, (List.mem_filter.mp hw).1, rfl⟩)
  · obtain ⟨w0, rest0, rfl, hn0, hrest0⟩ := List.map_eq_cons_iff.mp h0
    obtain ⟨w1, rest, rfl, hn1, hrest⟩ := List.map_eq_cons_iff.mp hrest0
    have hu : ∀ w ∈ rest.filter (fun w => decide (t < w.time)), ¬ PlannerName w.name := by
      intro w hw
      exact hus _ (by rw [← hrest]; exact List.mem_map.mpr ⟨w, (List.mem_filter.mp hw).1, rfl⟩)
    have skip : ∀ (w : Waypoint K) (l : List (Waypoint K)), w.name = "stitching_point" →
        ((l.filter fun w => decide (t < w.time)).dropWhile fun w => decide (w.name = "stitching_point")).length =
          (l.filter fun w => decide (t < w.time)).countP (fun w => decide (¬ PlannerName w.name)) →
        (((w :: l).filter fun w => decide (t < w.time)).dropWhile fun w => decide (w.name = "stitching_point")).length =
          ((w :: l).filter fun w => decide (t < w.time)).countP (fun w => decide (¬ PlannerName w.name)) := by
      intro w l hn hl
      by_cases hlt : t < w.time
      · rw [List.filter_cons_of_pos (by simpa using hlt), List.dropWhile_cons_of_pos (by simp [hn]),
          List.countP_cons_of_neg (by simp [hn, PlannerName])]
        exact hl
      · rw [List.filter_cons_of_neg (by simpa using hlt)]
        exact hl
    exact skip _ _ hn0 (skip _ _ hn1 (dropped_users _ hu))

end

/-! ## Concrete histories -/

/-- C151 is false of the code: two waypoints are asked for and a second plan is made at once. The position at which the vehicle started is
then behind the points that join the plans, and is counted: three remain. -/
theorem C151_refuted : ¬ C151Full ℚ := by
  intro h
  have hx : ((run? (history1 ++ [.modifyWaypoints []] ++ planEvents (1 / 100))).bind fun s =>
      match s.evaluateTrajectory hermiteEnv (1 / 10) false false with
      | .ok (some (_, s')) => some ((s'.getRemainingWaypoints, askedAhead s'.dyn (1 / 10)), decide (s'.params.gtlg ≤ 1 / 10) && s'.traj.isSome)
      | _ => none) = some ((3, 2), true) := by decide +kernel
  obtain ⟨s, hs, hx⟩ := Option.bind_eq_some_iff.mp hx
  split at hx
  · rename_i r s' hev
    simp only [Option.some.injEq, Prod.mk.injEq, Bool.and_eq_true, decide_eq_true_eq] at hx
    obtain ⟨⟨h1, h2⟩, h3, h4⟩ := hx
    have hrun := run?_run _ s hs
    have hf : ∀ e ∈ history1 ++ [.modifyWaypoints []] ++ planEvents (1 / 100), FreshEvent e :=
      mem_append_all (mem_append_all history1_fresh (by simp [FreshEvent])) (by simp [planEvents, FreshEvent])
    obtain ⟨ws, hw, hr⟩ := h hermiteEnv ⟨0, 0, 0⟩ _ s s' (1 / 10) s'.params.gtlg false r hermite_segmentwise hermite_meets (hermite_joins _)
      hf (mem_append_all (mem_append_all history1_named (by simp [NamedEvent])) (by simp [planEvents, NamedEvent])) hrun hev
      (getMinTime_eq _ _ (Option.isSome_iff_ne_none.mp h4)) h3
    have hws : askedAhead ws (1 / 10) = askedAhead s'.dyn (1 / 10) := by
      unfold Planner.getDynamicWaypoints at hw
      simp only [bind, Except.bind] at hw
      split at hw
      · cases hw
      · split at hw
        · cases hw
        · simp only [pure, Except.pure, Except.ok.injEq, Option.some.injEq, Prod.mk.injEq] at hw
          rw [← hw.1, hw.2]
          unfold askedAhead
          rw [List.countP_map]
          rfl
    rw [h1, hws, h2] at hr
    norm_num at hr
  · cases hx

/-- Non-vacuity of `C151_partial` (and of `C151_enough_partial`): a plan joined to the first one after its start; evaluated at 1.7 s, two
waypoints asked for remain. -/
example : ∃ (es : List (Event ℚ)) (s s' : Planner ℚ) (T : ℚ) (r : References ℚ), (∀ e ∈ es, ValidEvent e) ∧
    RunWhile (fun s _ s' => s.pc = .snapshotted → s'.pc = .planned → ∀ w ∈ s.next, PlannerName w.name → EnoughLeft s ∧ 0 < w.time ∧
      w.time < s.newParams.lastLocal + s.params.gtlg + s.params.tOffset + 20 * s.timeConstant) hermiteEnv (Planner.init ⟨0, 0, 0⟩) es s ∧
    s.evaluateTrajectory hermiteEnv (17 / 10) false false = .ok (some (r, s')) ∧ s'.getMinTime hermiteEnv = .ok (some (T, s')) ∧ T ≤ 17 / 10 ∧
    s'.getRemainingWaypoints = 2 := by
  have hx : ((execWhile (fun s _ s' => !(decide (s.pc = .snapshotted)) || !(decide (s'.pc = .planned)) ||
      s.next.all fun w => !(decide (PlannerName w.name))) (Planner.init ⟨0, 0, 0⟩)
      (history1 ++ [.evaluate (1 / 2) false false] ++ [.modifyWaypoints []] ++ planEvents (1 / 100))).bind fun s =>
      match s.evaluateTrajectory hermiteEnv (17 / 10) false false with
      | .ok (some (_, s')) => some (s'.getRemainingWaypoints, decide (s'.params.gtlg ≤ 17 / 10) && s'.traj.isSome)
      | _ => none) = some (2, true) := by decide +kernel
  obtain ⟨s, hs, hx⟩ := Option.bind_eq_some_iff.mp hx
  split at hx
  · rename_i r s' hev
    simp only [Option.some.injEq, Prod.mk.injEq, Bool.and_eq_true, decide_eq_true_eq] at hx
    obtain ⟨h1, h3, h4⟩ := hx
    refine ⟨history1 ++ [.evaluate (1 / 2) false false] ++ [.modifyWaypoints []] ++ planEvents (1 / 100), s, s', s'.params.gtlg, r, ?_, ?_, hev, getMinTime_eq _ _ (Option.isSome_iff_ne_none.mp h4), h3, h1⟩
    · have : ∀ e ∈ history1 ++ [.evaluate (1 / 2) false false] ++ [.modifyWaypoints []] ++ planEvents (1 / 100), FreshEvent e :=
        mem_append_all (mem_append_all (mem_append_all history1_fresh (by simp [FreshEvent])) (by simp [FreshEvent])) (by simp [planEvents, FreshEvent])
      exact fun e he => fresh_valid (this e he)
    · refine execWhile_run _ _ ?_ _ _ _ hs
      intro a e b hok hp hp' w hw hwn
      simp only [hp, hp', decide_true, Bool.not_true, Bool.false_or, List.all_eq_true] at hok
      have := hok w hw
      simp [hwn] at this
  · cases hx

end Verif.Properties
