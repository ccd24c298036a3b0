import Verif.Lemmas.PlannerPile
import Verif.Lemmas.PlannerPileUp
import Verif.Lemmas.PlannerRate
import Verif.Lemmas.PlannerSample
import Verif.Properties.PlannerStitch

/-!
# Points of its own that the planner puts into the plan (C147)

For every history of calls, worker phases and computations. A first plan begins with the vehicle's position, a later one with two points
that join it to the plan in force. The specification is `Spec/PlannerPile.lean`.
-/

set_option linter.unusedSectionVars false

namespace Verif.Properties
open Verif Verif.Spec Verif.Lemmas

section
variable {K : Type*} [Field K] [LinearOrder K] [IsStrictOrderedRing K] [FloorSemiring K]

/-- C147, the claim: however often a new plan is made, the plan in force holds the waypoints asked for and at most two points of the
planner's own. -/
def C147Full (K : Type*) [Field K] [LinearOrder K] [IsStrictOrderedRing K] [FloorSemiring K] : Prop :=
  ∀ (env : Env K) (v : V3 K) (es : List (Event K)) (s : Planner K), Segmentwise env → MeetsVertices env → JoinsSmoothly env →
    (∀ e ∈ es, FreshEvent e) → (∀ e ∈ es, NamedEvent e) → Run env (Planner.init v) es s → plannerPoints s.dyn ≤ 2

/-- C147, what holds of every history: two points of the planner's own for every plan computed. -/
theorem C147_partial (env : Env K) (v : V3 K) (es : List (Event K)) (s : Planner K) (hn : ∀ e ∈ es, NamedEvent e)
    (h : Run env (Planner.init v) es s) : plannerPoints s.dyn ≤ 2 * computed es := by
  have key : Ctl s ∧ PileInv (2 * computed es) (2 * computed es + 2) s := by
    induction h with
    | nil => exact ⟨ctl_init v, pile_init v _ _⟩
    | @snoc es s1 s2 e hrun hs ih =>
      obtain ⟨hc, hi⟩ := ih (fun e he => hn e (List.mem_append_left _ he))
      refine ⟨ctl_step env e s1 s2 hc hs, ?_⟩
      have happ : computed (es ++ [e]) = computed es + computed [e] := List.countP_append
      refine pile_step env _ _ _ _ e s1 s2 hc (hn e (by simp)) hi (by omega) (by omega) ?_ ?_ hs
      · rintro x rfl
        have : computed [(Event.asyncFinish x : Event K)] = 1 := rfl
        omega
      · intro hp hp'
        have h1 := pile_prepared env e s1 s2 hs hp hp'
        have h2 := hi.4 (Or.inr hp)
        omega
  exact key.2.3

/-- C147, where it holds: if, whenever a plan is prepared, enough of the old one is left to join it and the points of the planner's own
that have not been flown lie less than 20 computation times ahead, there are never more than two. -/
theorem C147_two_partial (env : Env K) (v : V3 K) (es : List (Event K)) (s : Planner K) (hn : ∀ e ∈ es, NamedEvent e)
    (h : RunWhile (fun s _ s' => s.pc = .snapshotted → s'.pc = .planned → ∀ w ∈ s.next, PlannerName w.name → EnoughLeft s ∧ 0 < w.time ∧
      w.time < s.newParams.lastLocal + s.params.gtlg + s.params.tOffset + 20 * s.timeConstant) env (Planner.init v) es s) :
    plannerPoints s.dyn ≤ 2 := by
  have key : Ctl s ∧ PileInv 2 2 s := by
    induction h with
    | nil => exact ⟨ctl_init v, pile_init v _ _⟩
    | @snoc es s1 s2 e hrun hs hok ih =>
      obtain ⟨hc, hi⟩ := ih (fun e he => hn e (List.mem_append_left _ he))
      refine ⟨ctl_step env e s1 s2 hc hs, ?_⟩
      refine pile_step env _ _ _ _ e s1 s2 hc (hn e (by simp)) hi le_rfl le_rfl (fun _ _ => le_rfl) ?_ hs
      intro hp hp'
      refine pile_prepared_two env e s1 s2 hs hp hp' ?_
      intro w hw hwn
      obtain ⟨h1, h2, h3⟩ := hok hp hp' w hw hwn
      refine ⟨(stitch_iff s1).mpr h1, h2, ?_⟩
      have hb : s1.newParams.lastLocal + s1.params.tOffset + 5 * s1.computationTime + 5 * s1.computationTime + s1.params.gtlg =
          s1.newParams.lastLocal + s1.params.gtlg + s1.params.tOffset + 20 * s1.timeConstant := by unfold Planner.computationTime; ring
      rw [hb]; exact h3
  exact key.2.3

end

/-! ## Concrete histories -/

/-- A new plan is asked for (by an empty list of moves), computed and taken over by an evaluation. -/
def planAgain (t : ℚ) : List (Event ℚ) := [.modifyWaypoints []] ++ planEvents (1 / 100) ++ [.evaluate t false false]

theorem planAgain_fresh (t : ℚ) : ∀ e ∈ planAgain t, FreshEvent e := by
  simp [planAgain, planEvents, FreshEvent]

theorem planAgain_named (t : ℚ) : ∀ e ∈ planAgain t, NamedEvent e := by
  simp [planAgain, planEvents, NamedEvent]

theorem history1_named : ∀ e ∈ history1, NamedEvent e := by
  simp [history1, planEvents, NamedEvent, wp, PlannerName]

theorem mem_append_all {α : Type*} {P : α → Prop} {l l' : List α} (h : ∀ a ∈ l, P a) (h' : ∀ a ∈ l', P a) : ∀ a ∈ l ++ l', P a := by
  intro a ha
  rcases List.mem_append.mp ha with h1 | h1
  · exact h a h1
  · exact h' a h1

/-- C147 is false of the code. With two waypoints ahead, three further plans within three tenths of a second: the plan in force then holds
five points of the planner's own. -/
theorem C147_refuted : ¬ C147Full ℚ := by
  intro h
  obtain ⟨s, hr, hs⟩ := run?_map (history1 ++ planAgain (1 / 10) ++ planAgain (2 / 10) ++ planAgain (3 / 10)) (fun s => plannerPoints s.dyn) 5
    (by decide +kernel)
  have := h hermiteEnv ⟨0, 0, 0⟩ _ s hermite_segmentwise hermite_meets (hermite_joins _)
    (mem_append_all (mem_append_all (mem_append_all history1_fresh (planAgain_fresh _)) (planAgain_fresh _)) (planAgain_fresh _))
    (mem_append_all (mem_append_all (mem_append_all history1_named (planAgain_named _)) (planAgain_named _)) (planAgain_named _)) hr
  omega

/-- C147, what such points do: the plan in force leads back. The vehicle has left the place it
started from and all waypoints asked for lie ahead; the plan first leads through three points joining earlier plans back to that place. -/
theorem C147_leads_back : ∃ (es : List (Event ℚ)) (s : Planner ℚ), (∀ e ∈ es, FreshEvent e) ∧ (∀ e ∈ es, NamedEvent e) ∧
    Run hermiteEnv (Planner.init ⟨0, 0, 0⟩) es s ∧
    s.dyn.map (·.name) = ["stitching_point", "stitching_point", "stitching_point", "stitching_point", "", "a", "b"] ∧
    (s.dyn.map (fun w => decide (s.params.lastGlobal < w.time))) = [false, true, true, true, true, true, true] ∧
    (s.dyn[4]?.map (·.current)) = some ⟨0, 0, 0⟩ ∧ (∃ w, s.dyn[0]? = some w ∧ 0 < w.current.x) := by
  obtain ⟨s, hr, hs⟩ := run?_map (history1 ++ planAgain (1 / 10) ++ planAgain (2 / 10) ++ planAgain (3 / 10))
    (fun s : Planner ℚ => (((s.dyn.map (fun w : Waypoint ℚ => w.name), s.dyn.map (fun w : Waypoint ℚ => decide (s.params.lastGlobal < w.time))),
      (s.dyn[4]?.map (fun w : Waypoint ℚ => w.current)), s.dyn[0]?.map (fun w : Waypoint ℚ => decide (0 < w.current.x))) :
        (List String × List Bool) × Option (V3 ℚ) × Option Bool))
    ((["stitching_point", "stitching_point", "stitching_point", "stitching_point", "", "a", "b"],
      [false, true, true, true, true, true, true]), some ⟨0, 0, 0⟩, some true) (by decide +kernel)
  simp only [Prod.mk.injEq] at hs
  refine ⟨_, s, mem_append_all (mem_append_all (mem_append_all history1_fresh (planAgain_fresh _)) (planAgain_fresh _)) (planAgain_fresh _),
    mem_append_all (mem_append_all (mem_append_all history1_named (planAgain_named _)) (planAgain_named _)) (planAgain_named _), hr,
    hs.1.1, hs.1.2, hs.2.1, ?_⟩
  obtain ⟨w, hw, hp⟩ := Option.map_eq_some_iff.mp hs.2.2
  exact ⟨w, hw, of_decide_eq_true hp⟩

/-- Non-vacuity of `C147_partial`: after four computed plans there are five points of the planner's own, the bound being eight. -/
example : ∃ s, (∀ e ∈ history1 ++ planAgain (1 / 10) ++ planAgain (2 / 10) ++ planAgain (3 / 10), NamedEvent e) ∧
    Run hermiteEnv (Planner.init ⟨0, 0, 0⟩) (history1 ++ planAgain (1 / 10) ++ planAgain (2 / 10) ++ planAgain (3 / 10)) s ∧
    plannerPoints s.dyn = 5 ∧ computed (history1 ++ planAgain (1 / 10) ++ planAgain (2 / 10) ++ planAgain (3 / 10)) = 4 := by
  obtain ⟨s, hr, hs⟩ := run?_map (history1 ++ planAgain (1 / 10) ++ planAgain (2 / 10) ++ planAgain (3 / 10)) (fun s => plannerPoints s.dyn) 5
    (by decide +kernel)
  exact ⟨s, mem_append_all (mem_append_all (mem_append_all history1_named (planAgain_named _)) (planAgain_named _)) (planAgain_named _),
    hr, hs, by decide⟩

/-- Non-vacuity of `C147_two_partial`: two further plans, the second after the points of the first have been flown. -/
example : ∃ s : Planner ℚ, (∀ e ∈ history1 ++ [.evaluate (1 / 2) false false] ++ planAgain (16 / 10) ++ planAgain (17 / 10), NamedEvent e) ∧
    RunWhile (fun s _ s' => s.pc = .snapshotted → s'.pc = .planned → ∀ w ∈ s.next, PlannerName w.name → EnoughLeft s ∧ 0 < w.time ∧
      w.time < s.newParams.lastLocal + s.params.gtlg + s.params.tOffset + 20 * s.timeConstant) hermiteEnv (Planner.init ⟨0, 0, 0⟩)
      (history1 ++ [.evaluate (1 / 2) false false] ++ planAgain (16 / 10) ++ planAgain (17 / 10)) s ∧
    s.dyn.map (·.name) = ["stitching_point", "stitching_point", "a", "b"] := by
  have hx : (execWhile (fun s _ s' => !(decide (s.pc = .snapshotted)) || !(decide (s'.pc = .planned)) ||
      s.next.all fun w => !(decide (PlannerName w.name))) (Planner.init ⟨0, 0, 0⟩)
      (history1 ++ [.evaluate (1 / 2) false false] ++ planAgain (16 / 10) ++ planAgain (17 / 10))).map (fun s => s.dyn.map (·.name)) =
      some ["stitching_point", "stitching_point", "a", "b"] := by decide +kernel
  obtain ⟨s, hs, hn⟩ := Option.map_eq_some_iff.mp hx
  refine ⟨s, mem_append_all (mem_append_all (mem_append_all history1_named (by simp [NamedEvent])) (planAgain_named _)) (planAgain_named _), ?_, hn⟩
  refine execWhile_run _ _ ?_ _ _ _ hs
  intro a e b hok hp hp' w hw hwn
  simp only [hp, hp', decide_true, Bool.not_true, Bool.false_or, List.all_eq_true] at hok
  have := hok w hw
  simp [hwn] at this

/-- The sample history: two waypoints are planned at instant 0, and `n` times, every tenth of a second, a new plan is asked for, computed
and taken over. -/
def replanEvery (n : ℕ) : List (Event ℚ) := history1 ++ (List.range n).flatMap fun k : ℕ => planAgain (((k : ℚ) + 1) / 10)

theorem replanEvery_succ (n : ℕ) : replanEvery (n + 1) = replanEvery n ++ planAgain (((n : ℚ) + 1) / 10) := by
  simp [replanEvery, List.range_succ, List.flatMap_append]

theorem replanEvery_all {P : Event ℚ → Prop} (h1 : ∀ e ∈ history1, P e) (h2 : ∀ t, ∀ e ∈ planAgain t, P e) (n : ℕ) : ∀ e ∈ replanEvery n, P e := by
  induction n with
  | zero => simpa [replanEvery] using h1
  | succ n ih => rw [replanEvery_succ]; exact mem_append_all ih (h2 _)

theorem replanEvery_first : ∃ s, Run hermiteEnv (Planner.init ⟨0, 0, 0⟩) (replanEvery 1) s ∧
    Rest (1 / 10) ["stitching_point", "stitching_point", "", "a", "b"] s := by
  obtain ⟨s, hr, hs⟩ := run?_map (history1 ++ planAgain (1 / 10))
    (fun s : Planner ℚ => (((s.dyn.map (fun w : Waypoint ℚ => w.name), [s.params.lastGlobal, s.params.gtlg, s.params.lastLocal, s.params.tOffset,
        s.timeConstant]), decide (s.pc = .top) && !s.computing && s.traj.isSome && s.toSet.isEmpty && s.toAdd.isEmpty && s.toModify.isEmpty &&
        s.dyn.all (fun w : Waypoint ℚ => w.modifiers.isEmpty)) : (List String × List ℚ) × Bool))
    ((["stitching_point", "stitching_point", "", "a", "b"], [1 / 10, 0, 1 / 10, 1 / 10, 1 / 100]), true) (by decide +kernel)
  have he : replanEvery 1 = history1 ++ planAgain (1 / 10) := by
    rw [replanEvery_succ]; simp [replanEvery]
  simp only [Prod.mk.injEq, List.cons.injEq, and_true, Bool.and_eq_true, decide_eq_true_eq, Bool.not_eq_true', List.isEmpty_iff, List.all_eq_true] at hs
  obtain ⟨⟨a1, a2, a3, a4, a5, a6⟩, ⟨⟨⟨⟨⟨b1, b2⟩, b3⟩, b4⟩, b5⟩, b6⟩, b7⟩ := hs
  refine ⟨s, by rw [he]; exact hr, ⟨?_, b1, b2, Option.isSome_iff_ne_none.mp b3, b4, b5, b6, a2, by rw [a3]; norm_num, a4, a5, a6, a1, b7⟩⟩
  exact reachable_of_fresh ⟨_, _, mem_append_all history1_fresh (planAgain_fresh _), hr⟩

theorem replanEvery_rest (n : ℕ) : ∃ s, Run hermiteEnv (Planner.init ⟨0, 0, 0⟩) (replanEvery (n + 1)) s ∧
    Rest (((n : ℚ) + 1) / 10) (List.replicate (n + 2) "stitching_point" ++ ["", "a", "b"]) s := by
  induction n with
  | zero =>
    obtain ⟨s, h1, h2⟩ := replanEvery_first
    refine ⟨s, h1, ?_⟩
    simpa [List.replicate] using h2
  | succ n ih =>
    obtain ⟨s, h1, h2⟩ := ih
    obtain ⟨s', h3, h4⟩ := rest_again h2
    refine ⟨s', ?_, ?_⟩
    · rw [replanEvery_succ (n + 1)]
      refine run_append _ _ _ _ _ _ h1 ?_
      have ht : ((n : ℚ) + 1) / 10 + 1 / 10 = (((n + 1 : ℕ) : ℚ) + 1) / 10 := by push_cast; ring
      rw [ht] at h3
      exact h3
    · have ht : ((n : ℚ) + 1) / 10 + 1 / 10 = (((n + 1 : ℕ) : ℚ) + 1) / 10 := by push_cast; ring
      rw [ht] at h4
      simpa [List.replicate_succ] using h4

/-- C147, there is no bound: two waypoints ahead, and every tenth of a second a new plan, the plans being followed exactly, give a
plan with one more point of the planner's own for every plan made. -/
theorem C147_unbounded (n : ℕ) : ∃ s : Planner ℚ, (∀ e ∈ replanEvery (n + 1), FreshEvent e) ∧ (∀ e ∈ replanEvery (n + 1), NamedEvent e) ∧
    Run hermiteEnv (Planner.init ⟨0, 0, 0⟩) (replanEvery (n + 1)) s ∧
    s.dyn.map (·.name) = List.replicate (n + 2) "stitching_point" ++ ["", "a", "b"] ∧ plannerPoints s.dyn = n + 3 := by
  obtain ⟨s, h1, h2⟩ := replanEvery_rest n
  refine ⟨s, replanEvery_all history1_fresh planAgain_fresh _, replanEvery_all history1_named planAgain_named _, h1, h2.names, ?_⟩
  have : plannerPoints s.dyn = (s.dyn.map (·.name)).countP fun x => decide (PlannerName x) := by
    unfold plannerPoints; rw [List.countP_map]; rfl
  rw [this, h2.names, List.countP_append, List.countP_replicate]
  have hd : decide (PlannerName "stitching_point") = true := by decide
  rw [if_pos hd]
  have : List.countP (fun x => decide (PlannerName x)) ["", "a", "b"] = 1 := by decide
  omega

/-- C147, the vehicle does not get there: with every such plan the waypoint asked for first, one second ahead at the beginning, moves
further away in time. After `n + 1` further plans, a tenth of a second each, it lies `n + 2.9` seconds ahead. -/
theorem C147_recedes (n : ℕ) : ∃ s : Planner ℚ, Run hermiteEnv (Planner.init ⟨0, 0, 0⟩) (replanEvery (n + 1)) s ∧
    s.params.lastGlobal = ((n : ℚ) + 1) / 10 ∧ (∃ w ∈ s.dyn, w.name = "a") ∧
    ∀ w ∈ s.dyn, w.name = "a" → w.time = s.params.lastGlobal + n + 29 / 10 := by
  obtain ⟨s, h1, h2⟩ := replanEvery_rest n
  obtain ⟨_, _, _, _, _, _, ht⟩ := rest_plan h2
  have hat : ∀ (i : ℕ) (w : Waypoint ℚ), s.dyn[i]? = some w →
      (List.replicate (n + 2) "stitching_point" ++ ["", "a", "b"])[i]? = some w.name := by
    intro i w hw
    rw [← h2.names, List.getElem?_map, hw]; rfl
  refine ⟨s, h1, h2.lastGlobal, ?_, ?_⟩
  · have : "a" ∈ s.dyn.map (·.name) := by rw [h2.names]; simp
    obtain ⟨w, hw, hn⟩ := List.mem_map.mp this
    exact ⟨w, hw, hn⟩
  · intro w hw hn
    obtain ⟨i, hi⟩ := List.mem_iff_getElem?.mp hw
    have hx := hat i w hi
    rw [hn] at hx
    have hi3 : i = n + 3 := by
      rcases Nat.lt_or_ge i (n + 2) with hlt | hge
      · rw [List.getElem?_append_left (by simpa using hlt), List.getElem?_replicate, if_pos hlt] at hx
        simp at hx
      · obtain ⟨j, rfl⟩ := Nat.exists_eq_add_of_le hge
        rw [List.getElem?_append_right (by simp), List.length_replicate, Nat.add_sub_cancel_left] at hx
        match j with
        | 0 => simp at hx
        | 1 => omega
        | 2 => simp at hx
        | j + 3 => simp at hx
    rw [ht i w hi, h2.lastGlobal, hi3]
    push_cast; ring

/-- Before the first of them it is one second ahead. -/
example : ∃ s : Planner ℚ, Run hermiteEnv (Planner.init ⟨0, 0, 0⟩) (replanEvery 0) s ∧
    s.dyn.map (fun w => (w.name, w.time - s.params.lastGlobal)) = [("", 0), ("a", 1), ("b", 2)] := by
  obtain ⟨s, hr, hs⟩ := run?_map history1 (fun s : Planner ℚ => s.dyn.map (fun w : Waypoint ℚ => (w.name, w.time - s.params.lastGlobal)))
    [("", 0), ("a", 1), ("b", 2)] (by decide +kernel)
  exact ⟨s, by simpa [replanEvery] using hr, hs⟩

end Verif.Properties
