import Verif.Properties.PlannerMoves

/-!
# Property C146: what moving waypoints costs in speed
-/

set_option linter.unusedSectionVars false

namespace Verif.Properties
open Verif Verif.Spec Verif.Lemmas

noncomputable section

/-- The largest change of position, velocity and acceleration that a step of length `d` causes if the time `l` was left to the waypoint's time. -/
def kickBound (l d : ℝ) : ℕ → ℝ
  | 0 => |d|
  | 1 => 3 * Real.exp (-(1 / 2)) / l * |d|
  | 2 => 18 * Real.exp (-1) / l ^ 2 * |d|
  | _ => 0

theorem kick_le (k : ℕ) (T a d t : ℝ) (ha : a < T) : |kick Real.exp k T a d t| ≤ kickBound (T - a) d k := by
  have hl : 0 < T - a := by linarith
  have hb : 0 ≤ kickBound (T - a) d k := by
    unfold kickBound
    split <;> positivity
  unfold kick
  split
  · rw [abs_zero]; exact hb
  · set l := T - a with hldef
    set x := t - T
    match k with
    | 0 =>
      show |Real.exp _ * d| ≤ |d|
      rw [abs_mul, abs_of_pos (Real.exp_pos _)]
      refine mul_le_of_le_one_left (abs_nonneg _) (Real.exp_le_one_iff.mpr ?_)
      have : 0 ≤ (x / l) ^ 2 := by positivity
      linarith
    | 1 =>
      show |-(9 * x / l ^ 2) * Real.exp _ * d| ≤ 3 * Real.exp (-(1 / 2)) / l * |d|
      rw [abs_mul, abs_mul, abs_neg, abs_of_pos (Real.exp_pos _)]
      refine mul_le_mul_of_nonneg_right ?_ (abs_nonneg _)
      set u := 3 * |x| / l with hu
      have hx : |9 * x / l ^ 2| = 3 / l * u := by
        rw [abs_div, abs_mul, abs_of_pos (by positivity : (0 : ℝ) < l ^ 2), hu]
        norm_num
        field_simp
        ring
      have he : -(9 / 2 * (x / l) ^ 2) = -(1 / 2) - (u ^ 2 - 1) / 2 := by
        have : u ^ 2 = 9 * (x / l) ^ 2 := by
          rw [hu, div_pow, mul_pow, sq_abs, div_pow]
          ring
        rw [this]; ring
      have h1 : u ≤ Real.exp ((u ^ 2 - 1) / 2) := by
        have := Real.add_one_le_exp ((u ^ 2 - 1) / 2)
        nlinarith [sq_nonneg (u - 1)]
      have h2 : Real.exp (-(1 / 2) - (u ^ 2 - 1) / 2) * u ≤ Real.exp (-(1 / 2)) := by
        rw [Real.exp_sub, div_mul_eq_mul_div, div_le_iff₀ (Real.exp_pos _)]
        exact mul_le_mul_of_nonneg_left h1 (Real.exp_pos _).le
      rw [hx, he]
      calc 3 / l * u * Real.exp (-(1 / 2) - (u ^ 2 - 1) / 2) = 3 / l * (Real.exp (-(1 / 2) - (u ^ 2 - 1) / 2) * u) := by ring
        _ ≤ 3 / l * Real.exp (-(1 / 2)) := mul_le_mul_of_nonneg_left h2 (by positivity)
        _ = 3 * Real.exp (-(1 / 2)) / l := by ring
    | 2 =>
      show |(9 * x / l ^ 2) ^ 2 * Real.exp _ * d| ≤ 18 * Real.exp (-1) / l ^ 2 * |d|
      rw [abs_mul, abs_mul, abs_of_pos (Real.exp_pos _), abs_of_nonneg (sq_nonneg _)]
      refine mul_le_mul_of_nonneg_right ?_ (abs_nonneg _)
      set y := 9 / 2 * (x / l) ^ 2 with hy
      have hx : (9 * x / l ^ 2) ^ 2 = 18 / l ^ 2 * y := by
        rw [hy]; field_simp; ring
      have h1 : y ≤ Real.exp (y - 1) := by
        have := Real.add_one_le_exp (y - 1)
        linarith
      have h2 : Real.exp (-y) * y ≤ Real.exp (-1) := by
        calc Real.exp (-y) * y ≤ Real.exp (-y) * Real.exp (y - 1) := mul_le_mul_of_nonneg_left h1 (Real.exp_pos _).le
          _ = Real.exp (-1) := by rw [← Real.exp_add]; congr 1; ring
      rw [hx]
      calc 18 / l ^ 2 * y * Real.exp (-y) = 18 / l ^ 2 * (Real.exp (-y) * y) := by ring
        _ ≤ 18 / l ^ 2 * Real.exp (-1) := mul_le_mul_of_nonneg_left h2 (by positivity)
        _ = 18 * Real.exp (-1) / l ^ 2 := by ring
    | k + 3 => simp [kickBound]

/-- The sum of these bounds over all steps of a waypoint. -/
def shiftBound (k : ℕ) (done : List (MoveDone ℝ)) (ax : Axis) (w : Waypoint ℝ) : ℝ :=
  ((stepsFrom ax (comp w.current ax) (movesOf done w)).map fun m => kickBound (w.time - m.2) m.1 k).sum

theorem sum_abs_le {α : Type*} (l : List α) (f g : α → ℝ) (h : ∀ x ∈ l, |f x| ≤ g x) : |(l.map f).sum| ≤ (l.map g).sum := by
  induction l with
  | nil => simp
  | cons a l ih =>
    rw [List.map_cons, List.map_cons, List.sum_cons, List.sum_cons]
    exact (abs_add_le _ _).trans (add_le_add (h a (by simp)) (ih fun x hx => h x (by simp [hx])))

/-- C146: as in C145 waypoints are moved while a plan is flown, each move carried out before its waypoint's time. Compared with the references before the moves,
those of any time differ, along every axis, by at most: the lengths of all steps, in position; `3 exp(-1/2)/(T - a)` (that is `1.82/(T - a)`) of them in velocity;
`18 exp(-1)/(T - a)²` (that is `6.63/(T - a)²`) of them in acceleration, where `T - a` is the time that was left. -/
theorem C146_partial (env : Env ℝ) (henv : Segmentwise env) (hexp : env.exp = Real.exp) (v : V3 ℝ) (es : List (Event ℝ)) (hes : ∀ e ∈ es, ValidEvent e)
    (s0 : Planner ℝ) (h0 : RunOnTime env (Planner.init v) es s0) (hplan : s0.traj ≠ none)
    (hidle : s0.pc = .top ∧ s0.computing = false ∧ s0.generateNew = false) (hq : s0.toModify = []) (hz0 : NoZeroWidth s0.dyn)
    (after : List (Event ℝ)) (hr : ∀ e ∈ after, OnlyMoves e ∧ ValidEvent e) (ht : ∀ a ∈ lastEval es :: evalTimes after, 0 < a)
    (s : Planner ℝ) (h : Run env s0 after s) (hahead : ∀ w ∈ s0.dyn, ∀ m ∈ movesOf (deskOf (lastEval es) after).done w, m.2 < w.time) (t : ℝ) (o f : Bool) :
    ∃ r s1 r0 s2, s.evaluateTrajectory env t o f = .ok (some (r, s1)) ∧ s0.evaluateTrajectory env t o f = .ok (some (r0, s2)) ∧
      ∀ k ≤ 2, ∀ x x0, refOrder r k = some x → refOrder r0 k = some x0 → ∀ ax,
        |comp x ax - comp x0 ax| ≤ (s0.dyn.map (shiftBound k (deskOf (lastEval es) after).done ax)).sum := by
  obtain ⟨_, _, hall⟩ := C145_moves env henv v es hes s0 h0 hplan hidle hq after hr ht s h
  obtain ⟨r, s1, r0, s2, e1, e2, e3⟩ := hall hz0 (fun w hw m hm => (hahead w hw m hm).ne) t o f
  refine ⟨r, s1, r0, s2, e1, e2, fun k hk x x0 hx hx0 ax => ?_⟩
  rw [(e3 k hk).2 x x0 hx hx0 ax, add_sub_cancel_left]
  have hw : ∀ w ∈ s0.dyn, ∀ y, |shiftOf env.exp k (deskOf (lastEval es) after).done y ax w| ≤ shiftBound k (deskOf (lastEval es) after).done ax w := by
    intro w hw y
    rw [hexp]
    refine sum_abs_le _ _ _ fun m hm => ?_
    obtain ⟨m', h1, h2⟩ := steps_instants ax _ _ m hm
    exact kick_le k w.time m.2 m.1 y (by rw [← h2]; exact hahead w hw m' h1)
  split
  · exact sum_abs_le _ _ _ fun w hw' => hw w hw' _
  · rw [abs_zero]
    refine List.sum_nonneg fun y hy => ?_
    obtain ⟨w, hw', rfl⟩ := List.mem_map.mp hy
    exact (abs_nonneg _).trans (hw w hw' 0)

/-- The bounds are the best ones possible: a single step of at least two centimetres changes the position at the waypoint's time by its length, the velocity one
third of the time left before by `3 exp(-1/2)/(T - a)` of it, and the acceleration `√2/3` of the time left before by `18 exp(-1)/(T - a)²` of it. -/
theorem C146_attained (T a d : ℝ) (ha : a < T) (hd : 2 / 100 ≤ |d|) (k : ℕ) (hk : k ≤ 2) : ∃ t, a < t ∧ t ≤ T ∧ |kick Real.exp k T a d t| = kickBound (T - a) d k := by
  have hl : 0 < T - a := by linarith
  have inside : ∀ t, a < t → t ≤ T → ¬ (|d| < 2 / 100 ∨ 7 / 6 * (T - a) < |t - T|) := by
    intro t h1 h2
    rw [not_or, not_lt, not_lt, abs_of_nonpos (show t - T ≤ 0 by linarith)]
    exact ⟨hd, by linarith⟩
  match k, hk with
  | 0, _ =>
    refine ⟨T, ha, le_rfl, ?_⟩
    unfold kick
    rw [if_neg (inside T ha le_rfl)]
    simp [kickBound]
  | 1, _ =>
    refine ⟨T - (T - a) / 3, by linarith, by linarith, ?_⟩
    unfold kick
    rw [if_neg (inside _ (by linarith) (by linarith))]
    show |-(9 * (T - (T - a) / 3 - T) / (T - a) ^ 2) * Real.exp (-(9 / 2 * ((T - (T - a) / 3 - T) / (T - a)) ^ 2)) * d| = 3 * Real.exp (-(1 / 2)) / (T - a) * |d|
    have x1 : -(9 * (T - (T - a) / 3 - T) / (T - a) ^ 2) = 3 / (T - a) := by field_simp; ring
    have x2 : -(9 / 2 * ((T - (T - a) / 3 - T) / (T - a)) ^ 2) = -(1 / 2) := by
      have : (T - (T - a) / 3 - T) / (T - a) = -(1 / 3) := by field_simp; ring
      rw [this]; norm_num
    rw [x1, x2, abs_mul, abs_of_pos (by positivity)]
    ring
  | 2, _ =>
    have hs : Real.sqrt 2 ^ 2 = 2 := Real.sq_sqrt (by norm_num)
    have hs0 : 0 ≤ Real.sqrt 2 := Real.sqrt_nonneg 2
    have hs1 : Real.sqrt 2 < 3 := by nlinarith
    refine ⟨T - Real.sqrt 2 / 3 * (T - a), by nlinarith, by nlinarith, ?_⟩
    unfold kick
    rw [if_neg (inside _ (by nlinarith) (by nlinarith))]
    have x0 : T - Real.sqrt 2 / 3 * (T - a) - T = -(Real.sqrt 2 / 3 * (T - a)) := by ring
    rw [x0]
    show |(9 * -(Real.sqrt 2 / 3 * (T - a)) / (T - a) ^ 2) ^ 2 * Real.exp (-(9 / 2 * (-(Real.sqrt 2 / 3 * (T - a)) / (T - a)) ^ 2)) * d| = 18 * Real.exp (-1) / (T - a) ^ 2 * |d|
    have x1 : (9 * -(Real.sqrt 2 / 3 * (T - a)) / (T - a) ^ 2) ^ 2 = 18 / (T - a) ^ 2 := by
      have : (9 * -(Real.sqrt 2 / 3 * (T - a)) / (T - a) ^ 2) ^ 2 = 9 * Real.sqrt 2 ^ 2 / (T - a) ^ 2 := by field_simp; ring
      rw [this, hs]; norm_num
    have x2 : -(9 / 2 * (-(Real.sqrt 2 / 3 * (T - a)) / (T - a)) ^ 2) = -1 := by
      have : (-(Real.sqrt 2 / 3 * (T - a)) / (T - a)) ^ 2 = Real.sqrt 2 ^ 2 / 9 := by field_simp; ring
      rw [this, hs]; norm_num
    rw [x1, x2, abs_mul, abs_of_pos (by positivity)]
    ring

/-- C146 in full: moving waypoints by at most a metre, before their times, changes the velocity references by no more than a bound that depends on the plan only.
Refuted: `C146_refuted`. -/
def C146Full : Prop :=
  ∀ env : Env ℝ, Segmentwise env → MeetsVertices env → env.exp = Real.exp → ∀ (v : V3 ℝ) (es : List (Event ℝ)), (∀ e ∈ es, FreshEvent e) →
    ∀ s0, RunOnTime env (Planner.init v) es s0 → s0.traj ≠ none → (s0.pc = .top ∧ s0.computing = false ∧ s0.generateNew = false) → s0.toModify = [] →
    (∀ w ∈ s0.dyn, w.modifiers = []) →
    ∃ V : ℝ, ∀ (t1 : ℝ) (w : Waypoint ℝ) (p : V3 ℝ), w ∈ s0.dyn → w.name ≠ "" → 0 < t1 → t1 < w.time → (∀ ax, |comp p ax - comp w.current ax| ≤ 1) →
      ∀ s, Run env s0 [.evaluate t1 true false, .modifyWaypoint w.name p false, .worker, .worker] s →
      ∀ t r r0 s1 s2, s.evaluateTrajectory env t false true = .ok (some (r, s1)) → s0.evaluateTrajectory env t false true = .ok (some (r0, s2)) →
      ∀ x x0, r.velocity = some x → r0.velocity = some x0 → ∀ ax, |comp x ax - comp x0 ax| ≤ V

/-- A single step of the waypoint of the sample plan, at the instant `a`. -/
theorem away_step (a : ℝ) (ha : 0 < a) : Run realEnv (awayState (1 / 10) [] 1 [] .top) [.evaluate a true false, .modifyWaypoint "a" ⟨2, 0, 0⟩ false, .worker, .worker]
    (awayState a [awayModifier a 1] 2 [] .top) := by
  have h0 : Run realEnv (awayState 0 [] 1 [] .top) [.evaluate (1 / 10) true false] (awayState (1 / 10) [] 1 [] .top) :=
    Run.snoc (es := []) _ .nil (away_evaluate 0 (1 / 10) 1 [] (away_reach [] (by simp) _ .nil) (by simp))
  have h1 : Run realEnv (awayState (1 / 10) [] 1 [] .top) [.evaluate a true false] (awayState a [] 1 [] .top) :=
    Run.snoc (es := []) _ .nil (away_evaluate (1 / 10) a 1 [] (away_reach _ (by simp [OnlyMoves, ValidEvent]) _ h0) (by simp))
  have h2 := run_append _ _ _ _ _ _ h1 (away_move a 1 2 ha [])
  have e : ([] ++ [awayModifier a (2 - 1)] : List (V3 (Modifier ℝ))) = [awayModifier a 1] := by norm_num
  rw [e] at h2
  exact h2

/-- C146: the full claim does not hold. A waypoint moved by one metre when the time `l` is left to it changes the velocity reference by `1.82/l` metres per second,
which grows beyond every bound as the waypoint comes closer. -/
theorem C146_refuted : ¬ C146Full := by
  intro hfull
  have hfresh : ∀ e ∈ awayHistory, FreshEvent e := by simp [awayHistory, FreshEvent, rwp_bookkept]
  have hvalid : ∀ e ∈ awayHistory, ValidEvent e := by simp [awayHistory, ValidEvent, rwp_bookkept]
  have hne : (awayState (1 / 10) [] 1 [] .top).traj ≠ none := by simp [awayState]
  have hmods : ∀ w ∈ (awayState (1 / 10) [] 1 [] .top).dyn, w.modifiers = [] := by simp [awayState, awayWaypoints]
  obtain ⟨V, hV⟩ := hfull realEnv realEnv_segmentwise realEnv_meets rfl _ _ hfresh _ away_onTime hne ⟨rfl, rfl, rfl⟩ rfl hmods
  -- the time left
  obtain ⟨l, hl0, hl1, hl2⟩ : ∃ l : ℝ, 0 < l ∧ l < 1 ∧ V < 3 * Real.exp (-(1 / 2)) / l * |1| := by
    have he := Real.exp_pos (-(1 / 2))
    refine ⟨min (1 / 2) (3 * Real.exp (-(1 / 2)) / (|V| + 1)), by positivity, lt_of_le_of_lt (min_le_left _ _) (by norm_num), ?_⟩
    have hpos : 0 < min (1 / 2) (3 * Real.exp (-(1 / 2)) / (|V| + 1)) := by positivity
    rw [abs_one, mul_one, lt_div_iff₀ hpos]
    calc V * min (1 / 2) (3 * Real.exp (-(1 / 2)) / (|V| + 1)) ≤ |V| * min (1 / 2) (3 * Real.exp (-(1 / 2)) / (|V| + 1)) :=
          mul_le_mul_of_nonneg_right (le_abs_self V) hpos.le
      _ ≤ |V| * (3 * Real.exp (-(1 / 2)) / (|V| + 1)) := mul_le_mul_of_nonneg_left (min_le_right _ _) (abs_nonneg V)
      _ < (|V| + 1) * (3 * Real.exp (-(1 / 2)) / (|V| + 1)) := mul_lt_mul_of_pos_right (by linarith) (by positivity)
      _ = 3 * Real.exp (-(1 / 2)) := by field_simp
  have ha : 0 < 1 - l := by linarith
  have hlast : lastEval awayHistory = 1 / 10 := by simp [lastEval, evalTimes, awayHistory]
  have hdesk : (deskOf (lastEval awayHistory) [.evaluate (1 - l) true false, .modifyWaypoint "a" ⟨2, 0, 0⟩ false, .worker, .worker]).done = [⟨"a", ⟨2, 0, 0⟩, 1 - l⟩] := by
    simp [deskOf, Desk.on, askMove]
  have hmoves : ∀ w : Waypoint ℝ, w.name = "a" → movesOf [(⟨"a", ⟨2, 0, 0⟩, 1 - l⟩ : MoveDone ℝ)] w = [(⟨2, 0, 0⟩, 1 - l)] := by
    intro w hw; simp [movesOf, hw]
  obtain ⟨_, _, hall⟩ := C145_moves realEnv realEnv_segmentwise _ _ hvalid _ away_onTime hne ⟨rfl, rfl, rfl⟩ rfl _ (by simp [OnlyMoves, ValidEvent]) (by
    rw [hlast]
    simpa [evalTimes] using hl1) _ (away_step (1 - l) ha)
  rw [hdesk] at hall
  obtain ⟨t, ht1, ht2, ht3⟩ := C146_attained 1 (1 - l) 1 (by linarith) (by norm_num) 1 (by omega)
  have hl : (1 : ℝ) - (1 - l) = l := by ring
  rw [hl] at ht3
  obtain ⟨r, s1, r0, s2, e1, e2, e3⟩ := hall (fun w hw m hm => by rw [hmods w hw] at hm; cases hm) (by
    intro w hw m hm
    simp only [awayState, awayWaypoints, List.mem_cons, List.not_mem_nil, or_false] at hw
    rcases hw with rfl | rfl
    · simp [movesOf] at hm
    · rw [hmoves _ rfl] at hm
      rw [List.mem_singleton.mp hm]
      show 1 - l ≠ 1
      linarith) (t - 1 / 10) false true
  obtain ⟨x, hx⟩ : ∃ x, r.velocity = some x := by
    obtain ⟨_, q2⟩ := C40_references realEnv realEnv_segmentwise _ (away_reach _ (by simp [OnlyMoves, ValidEvent]) _ (run_append _ _ _ _ _ _
      (Run.snoc (es := []) _ .nil (away_evaluate 0 (1 / 10) 1 [] (away_reach [] (by simp) _ .nil) (by simp))) (away_step (1 - l) ha))) realPlan rfl
      (by rintro (h | ⟨tr, h⟩) <;> cases h) _ (getMinTime_eq realEnv _ (by simp [awayState])) _ _ _ r s1 e1
    exact Option.isSome_iff_exists.mp ((q2 1 (by omega)).mpr (by simp))
  obtain ⟨x0, hx0⟩ := Option.isSome_iff_exists.mp ((e3 1 (by omega)).1.mp (by show r.velocity.isSome = true; rw [hx]; rfl))
  have hval := (e3 1 (by omega)).2 x x0 hx hx0 .x
  have hx' : t - 1 / 10 + (awayState (1 / 10) [] 1 [] .top).getTimeCompensation = t := by
    simp only [awayState, Planner.getTimeCompensation]; ring
  rw [hx', if_pos (by linarith)] at hval
  have hshift : ((awayState (1 / 10) [] 1 [] .top).dyn.map (shiftOf realEnv.exp 1 [⟨"a", ⟨2, 0, 0⟩, 1 - l⟩] t .x)).sum = kick Real.exp 1 1 (1 - l) 1 t := by
    show shiftOf realEnv.exp 1 _ t .x _ + (shiftOf realEnv.exp 1 _ t .x _ + 0) = _
    unfold shiftOf
    rw [hmoves { vertex := ⟨3, [(0, [1, 0, 0])]⟩, original := ⟨1, 0, 0⟩, current := ⟨1, 0, 0⟩, time := 1, name := "a", index := 1, modifiers := [], lastSigma := 3 / 2 } rfl,
      movesOf_unnamed _ _ rfl]
    show 0 + ((kick Real.exp 1 1 (1 - l) (2 - 1) t + 0) + 0) = _
    rw [show (2 - 1 : ℝ) = 1 by norm_num]
    ring
  rw [hshift] at hval
  have hle := hV (1 - l) _ ⟨2, 0, 0⟩ (List.mem_cons_of_mem _ (List.mem_singleton.mpr rfl)) (by decide) ha (by show 1 - l < 1; linarith) (by
    intro ax; cases ax <;> norm_num [comp]) _ (away_step (1 - l) ha) (t - 1 / 10) r r0 s1 s2 e1 e2 x x0 hx hx0 .x
  rw [hval, add_sub_cancel_left, ht3] at hle
  exact absurd hle (not_le.mpr hl2)

/-- The hypotheses of `C146_partial` are met, by the waypoint that is moved away and back: its moves were carried out at 1/10 and 1/2, before its time 1. -/
example : (∀ w ∈ (awayState (1 / 10) [] 1 [] .top).dyn, ∀ m ∈ movesOf (deskOf (lastEval awayHistory) awayAndBack).done w, m.2 < w.time) ∧
    NoZeroWidth (awayState (1 / 10) [] 1 [] .top).dyn ∧ ∃ w ∈ (awayState (1 / 10) [] 1 [] .top).dyn, movesOf (deskOf (lastEval awayHistory) awayAndBack).done w ≠ [] := by
  have hlast : lastEval awayHistory = 1 / 10 := by simp [lastEval, evalTimes, awayHistory]
  have hdesk : (deskOf (lastEval awayHistory) awayAndBack).done = [⟨"a", ⟨2, 0, 0⟩, 1 / 10⟩, ⟨"a", ⟨1, 0, 0⟩, 1 / 2⟩] := by
    rw [hlast]
    simp [deskOf, awayAndBack, Desk.on, askMove]
  rw [hdesk]
  refine ⟨?_, ?_, _, List.mem_cons_of_mem _ (List.mem_singleton.mpr rfl), by simp [movesOf]⟩
  · intro w hw m hm
    simp only [awayState, awayWaypoints, List.mem_cons, List.not_mem_nil, or_false] at hw
    rcases hw with rfl | rfl
    · simp [movesOf] at hm
    · simp [movesOf] at hm
      rcases hm with rfl | rfl <;> norm_num
  · intro w hw m hm
    simp only [awayState, awayWaypoints, List.mem_cons, List.not_mem_nil, or_false] at hw
    rcases hw with rfl | rfl <;> cases hm

end

end Verif.Properties
