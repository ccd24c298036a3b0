import Verif.Lemmas.Moves
import Verif.Lemmas.PlannerSampleReal
import Verif.Properties.PlannerMove

/-!
# Property C145: waypoints moved again and again
-/

set_option linter.unusedSectionVars false

namespace Verif.Properties
open Verif Verif.Spec Verif.Lemmas

section
variable {K : Type*} [Field K] [LinearOrder K] [IsStrictOrderedRing K] [FloorRing K]

theorem onDesk_run (env : Env K) (s0 : Planner K) (hc0 : Ctl s0) (hidle : s0.pc = .top ∧ s0.computing = false ∧ s0.generateNew = false) (hq : s0.toModify = [])
    (after : List (Event K)) (hr : ∀ e ∈ after, OnlyMoves e) (hp0 : 0 < s0.params.lastGlobal) (ht : ∀ a ∈ evalTimes after, 0 < a) (s : Planner K)
    (h : Run env s0 after s) : Ctl s ∧ OnDesk s0 (deskOf s0.params.lastGlobal after) s ∧ 0 < (deskOf s0.params.lastGlobal after).now := by
  induction h with
  | nil =>
    refine ⟨hc0, ⟨rfl, rfl, rfl, hidle.2, hidle.1, hq, rfl, ?_⟩, hp0⟩
    rw [List.forall₂_same]
    exact fun w _ => movedBy_refl w
  | @snoc es s' s'' e _ hs ih =>
    obtain ⟨c, i, hpos⟩ := ih (fun e he => hr e (by simp [he])) (fun a ha => ht a (by
      unfold evalTimes at ha ⊢
      rw [List.filterMap_append]
      exact List.mem_append_left _ ha))
    have hd : deskOf s0.params.lastGlobal (es ++ [e]) = (deskOf s0.params.lastGlobal es).on e := by
      simp [deskOf, List.foldl_append]
    rw [hd]
    refine ⟨ctl_step env e _ _ c hs, onDesk_step env s0 _ e _ _ (hr e (by simp)) c hpos i hs, ?_⟩
    cases e with
    | evaluate t o f =>
      cases f with
      | true => exact hpos
      | false => exact ht t (by simp [evalTimes])
    | modifyWaypoint n p g =>
      cases g <;> exact hpos
    | worker =>
      show 0 < (if _ then _ else _ : Desk K).now
      split <;> exact hpos
    | _ => exact hpos

/-- C145: a planner at rest flies a plan, whatever was requested and flown before (the plans taken over by evaluations). From then on no new plan is asked for:
waypoints are moved with `modifyWaypoint` without replanning, as often as one likes, to wherever one likes; in between and at the same time the worker goes on,
references are asked for, speeds set and vehicle positions reported. The account `deskOf` says, from these events alone, which moves were carried out and at which
instant. Then every waypoint is, for `getDynamicWaypoints`, where its last move took it, with the name and time it had. And unless a waypoint was moved at
exactly its own time, `evaluateTrajectory` answers for every time, and the answer is the one before all these moves plus, for every single step every waypoint
made, what this step alone is good for (`kick`): the steps add up, and none changes what another does. -/
theorem C145_moves (env : Env K) (henv : Segmentwise env) (v : V3 K) (es : List (Event K)) (hes : ∀ e ∈ es, ValidEvent e)
    (s0 : Planner K) (h0 : RunOnTime env (Planner.init v) es s0) (hplan : s0.traj ≠ none)
    (hidle : s0.pc = .top ∧ s0.computing = false ∧ s0.generateNew = false) (hq : s0.toModify = [])
    (after : List (Event K)) (hr : ∀ e ∈ after, OnlyMoves e ∧ ValidEvent e) (ht : ∀ a ∈ lastEval es :: evalTimes after, 0 < a)
    (s : Planner K) (h : Run env s0 after s) :
    (∃ ws, s.getDynamicWaypoints env = .ok (some (ws, s)) ∧ List.Forall₂ (fun w w' => w'.name = w.name ∧ w'.time = w.time ∧
      w'.current = endsAt w.current (movesOf (deskOf (lastEval es) after).done w)) s0.dyn ws) ∧
    s.getTimeCompensation = s0.getTimeCompensation ∧
    (NoZeroWidth s0.dyn → (∀ w ∈ s0.dyn, ∀ m ∈ movesOf (deskOf (lastEval es) after).done w, m.2 ≠ w.time) →
      ∀ t o f, ∃ r s1 r0 s2, s.evaluateTrajectory env t o f = .ok (some (r, s1)) ∧ s0.evaluateTrajectory env t o f = .ok (some (r0, s2)) ∧
        ∀ k ≤ 2, ((refOrder r k).isSome ↔ (refOrder r0 k).isSome) ∧ ∀ x x0, refOrder r k = some x → refOrder r0 k = some x0 → ∀ ax,
          comp x ax = comp x0 ax + if 0 < t + s0.getTimeCompensation then
            (s0.dyn.map (shiftOf env.exp k (deskOf (lastEval es) after).done (t + s0.getTimeCompensation) ax)).sum else 0) := by
  have hre0 : Reachable env s0 := ⟨v, es, hes, runWhile_run _ _ _ _ _ h0⟩
  have hc0 := reachable_ctl env s0 hre0
  have hk := (clock_run env v es s0 h0).global
  obtain ⟨c1, hd, _⟩ := onDesk_run env s0 hc0 hidle hq after (fun e he => (hr e he).1) (by rw [hk]; exact ht _ (by simp))
    (fun a ha => ht a (by simp [ha])) s h
  rw [hk] at hd
  have hre : Reachable env s := by
    refine ⟨v, es ++ after, ?_, run_append' env _ _ _ s0 s (runWhile_run _ _ _ _ _ h0) h⟩
    intro x hx
    rcases List.mem_append.mp hx with hx | hx
    · exact hes x hx
    · exact (hr x hx).2
  have hs0 : ¬ PlanWaiting s0 := by
    rintro (h | ⟨tr, h⟩) <;> rw [hc0.idle hidle.2.1] at h <;> cases h
  have hwait : ¬ PlanWaiting s := by
    rintro (h | ⟨tr, h⟩) <;> rw [c1.idle hd.flags.1] at h <;> cases h
  obtain ⟨tr, htr⟩ := Option.ne_none_iff_exists'.mp hplan
  have htr' : s.traj = some tr := hd.traj.trans htr
  refine ⟨⟨s.dyn.map (·.copy), ?_, ?_⟩, hd.tOffset, ?_⟩
  · unfold Planner.getDynamicWaypoints
    rw [check_idle env s hwait (by rw [htr']; simp)]
    rfl
  · rw [List.forall₂_map_right_iff]
    exact hd.dyn.imp fun a b hb => ⟨hb.name, hb.time, hb.current⟩
  · intro hz0 hne t o f
    have hz : NoZeroWidth s.dyn := by
      intro w' hw'
      have := hd.dyn
      obtain ⟨w, hw, hww⟩ : ∃ w ∈ s0.dyn, MovedBy (movesOf (deskOf (lastEval es) after).done w) w w' := forall₂_left this w' hw'
      exact movedBy_width _ w w' hww (hne w hw) (hz0 w hw)
    obtain ⟨r, s1', hev⟩ := C40_returns env henv s hre tr htr' hwait hz t o f
    obtain ⟨r0, s2', hev0⟩ := C40_returns env henv s0 hre0 tr htr hs0 hz0 t o f
    obtain ⟨q1, q2⟩ := C40_references env henv s hre tr htr' hwait s.params.gtlg (getMinTime_eq env s (by rw [htr']; simp)) t o f r s1' hev
    obtain ⟨q3, q4⟩ := C40_references env henv s0 hre0 tr htr hs0 s0.params.gtlg (getMinTime_eq env s0 (by rw [htr]; simp)) t o f r0 s2' hev0
    have hcmp : s.getTimeCompensation = s0.getTimeCompensation := hd.tOffset
    rw [hd.gtlg, hcmp] at q1
    refine ⟨r, s1', r0, s2', hev, hev0, fun k hk => ⟨(q2 k hk).trans (q4 k hk).symm, fun x x0 hx hx0 ax => ?_⟩⟩
    obtain ⟨b, b1, b2, b3⟩ := reference_vals env tr s.dyn (q1 k x hx)
    obtain ⟨b', b1', b2', b3'⟩ := reference_vals env tr s0.dyn (q3 k x0 hx0)
    have hbb : comp b ax = comp b' ax := by
      rw [b1] at b1'
      have := Except.ok.inj b1'
      simp only [List.cons.injEq, and_true] at this
      obtain ⟨p1, p2, p3⟩ := this
      cases ax
      · exact p1
      · exact p2
      · exact p3
    by_cases hg : 0 < t + s0.getTimeCompensation
    · rw [if_pos hg, (b3 hg).2 ax, (b3' hg).2 ax, hbb, allMods_moved env.exp _ s0.dyn s.dyn hd.dyn hne k _ ax]
      ring
    · rw [if_neg hg, b2 (not_lt.mp hg), b2' (not_lt.mp hg), hbb, add_zero]

/-! ## What only the present position decides -/

/-- The kick per metre. -/
theorem kick_weight (exp : K → K) (k : ℕ) (T a t : K) : ∃ g, ∀ d, (d = 0 ∨ 2 / 100 ≤ |d|) → kick exp k T a d t = g * d := by
  by_cases h : 7 / 6 * (T - a) < |t - T|
  · exact ⟨0, fun d _ => by unfold kick; rw [if_pos (.inr h), zero_mul]⟩
  · refine ⟨match k with
      | 0 => exp (-(9 / 2 * ((t - T) / (T - a)) ^ 2))
      | 1 => -(9 * (t - T) / (T - a) ^ 2) * exp (-(9 / 2 * ((t - T) / (T - a)) ^ 2))
      | 2 => (9 * (t - T) / (T - a) ^ 2) ^ 2 * exp (-(9 / 2 * ((t - T) / (T - a)) ^ 2))
      | _ => 0, fun d hd => ?_⟩
    unfold kick
    rcases hd with rfl | hd
    · rw [if_pos (.inl (by rw [abs_zero]; norm_num)), mul_zero]
    · rw [if_neg (by rw [not_or]; exact ⟨not_lt.mpr hd, h⟩)]
      match k with
      | 0 => rfl
      | 1 => rfl
      | 2 => rfl
      | k + 3 => exact (zero_mul _).symm

theorem steps_sum (ax : Axis) (p : V3 K) (ms : List (V3 K × K)) : ((stepsFrom ax (comp p ax) ms).map Prod.fst).sum = comp (endsAt p ms) ax - comp p ax := by
  induction ms using List.reverseRecOn with
  | nil => simp [stepsFrom, endsAt]
  | append_singleton ms m ih =>
    rw [stepsFrom_snoc, List.map_append, List.sum_append, ih, endsAt_snoc]
    simp

theorem steps_instants (ax : Axis) (ms : List (V3 K × K)) (x : K) (m : K × K) (h : m ∈ stepsFrom ax x ms) : ∃ m' ∈ ms, m'.2 = m.2 := by
  induction ms generalizing x with
  | nil => cases h
  | cons a ms ih =>
    rcases List.mem_cons.mp h with rfl | hm
    · exact ⟨a, by simp, rfl⟩
    · obtain ⟨m', h1, h2⟩ := ih _ hm
      exact ⟨m', by simp [h1], h2⟩

/-- Moves carried out at one instant, none of them shorter than two centimetres, are worth what the waypoint's way from first to last is worth. -/
theorem shift_once (exp : K → K) (k : ℕ) (done : List (MoveDone K)) (t : K) (ax : Axis) (w : Waypoint K) (a : K) (g : K)
    (hg : ∀ d, (d = 0 ∨ 2 / 100 ≤ |d|) → kick exp k w.time a d t = g * d) (ha : ∀ m ∈ movesOf done w, m.2 = a)
    (hs : ∀ st ∈ stepsFrom ax (comp w.current ax) (movesOf done w), st.1 = 0 ∨ 2 / 100 ≤ |st.1|) :
    shiftOf exp k done t ax w = g * (comp (endsAt w.current (movesOf done w)) ax - comp w.current ax) := by
  unfold shiftOf
  rw [← steps_sum, ← List.sum_map_mul_left]
  congr 1
  rw [List.map_congr_left]
  intro st hst
  obtain ⟨m', h1, h2⟩ := steps_instants ax _ _ st hst
  rw [← h2, ha m' h1]
  exact hg _ (hs st hst)

/-- C145 in full: between two plans the references depend on where the waypoints are, and not on how they came there. For two ways to go on from the same
state, without asking for a plan, after which the waypoints are at the same places, the positions answered are the same. Refuted: `C145_refuted`. -/
def C145Full : Prop :=
  ∀ env : Env ℝ, Segmentwise env → MeetsVertices env → env.exp = Real.exp → ∀ (v : V3 ℝ) (es : List (Event ℝ)), (∀ e ∈ es, FreshEvent e) →
    ∀ s0, RunOnTime env (Planner.init v) es s0 → s0.traj ≠ none → (s0.pc = .top ∧ s0.computing = false ∧ s0.generateNew = false) → s0.toModify = [] →
    (∀ w ∈ s0.dyn, w.modifiers = []) →
    ∀ a1 a2 : List (Event ℝ), (∀ e ∈ a1 ++ a2, OnlyMoves e ∧ ValidEvent e) →
    (∀ w ∈ s0.dyn, w.name ≠ "" → ∀ a ∈ lastEval es :: evalTimes (a1 ++ a2), 0 < a ∧ a < w.time) →
    ∀ s1 s2, Run env s0 a1 s1 → Run env s0 a2 s2 →
    ∀ ws1 ws2 s1' s2', s1.getDynamicWaypoints env = .ok (some (ws1, s1')) → s2.getDynamicWaypoints env = .ok (some (ws2, s2')) →
      ws1.map (·.current) = ws2.map (·.current) →
    ∀ t r1 r2 s1'' s2'', s1.evaluateTrajectory env t true true = .ok (some (r1, s1'')) → s2.evaluateTrajectory env t true true = .ok (some (r2, s2'')) →
      r1.position = r2.position

/-- C145: it does hold if each waypoint's moves, along both ways, were all carried out at one and the same instant (each move by at least two centimetres, or not
at all, along every axis): several moves between two evaluations are worth the last one. Then all references are the same, velocities and accelerations
included. -/
theorem C145_partial (env : Env K) (henv : Segmentwise env) (v : V3 K) (es : List (Event K)) (hes : ∀ e ∈ es, ValidEvent e)
    (s0 : Planner K) (h0 : RunOnTime env (Planner.init v) es s0) (hplan : s0.traj ≠ none)
    (hidle : s0.pc = .top ∧ s0.computing = false ∧ s0.generateNew = false) (hq : s0.toModify = []) (hz0 : NoZeroWidth s0.dyn)
    (a1 a2 : List (Event K)) (hr : ∀ e ∈ a1 ++ a2, OnlyMoves e ∧ ValidEvent e) (ht : ∀ a ∈ lastEval es :: evalTimes (a1 ++ a2), 0 < a)
    (s1 s2 : Planner K) (h1 : Run env s0 a1 s1) (h2 : Run env s0 a2 s2) (instant : Waypoint K → K) (hi : ∀ w ∈ s0.dyn, instant w ≠ w.time)
    (hsame : ∀ d ∈ [deskOf (lastEval es) a1, deskOf (lastEval es) a2], ∀ w ∈ s0.dyn, (∀ m ∈ movesOf d.done w, m.2 = instant w) ∧
      ∀ ax, ∀ st ∈ stepsFrom ax (comp w.current ax) (movesOf d.done w), st.1 = 0 ∨ 2 / 100 ≤ |st.1|)
    (ws1 ws2 : List (Waypoint K)) (s1' s2' : Planner K) (hw1 : s1.getDynamicWaypoints env = .ok (some (ws1, s1')))
    (hw2 : s2.getDynamicWaypoints env = .ok (some (ws2, s2'))) (heq : ws1.map (·.current) = ws2.map (·.current)) (t : K) (o f : Bool) :
    ∃ r u1 u2, s1.evaluateTrajectory env t o f = .ok (some (r, u1)) ∧ s2.evaluateTrajectory env t o f = .ok (some (r, u2)) := by
  have hev : ∀ a ∈ lastEval es :: evalTimes a1, 0 < a := fun a ha => ht a (by
    rcases List.mem_cons.mp ha with rfl | ha
    · simp
    · refine List.mem_cons_of_mem _ ?_
      unfold evalTimes at ha ⊢
      rw [List.filterMap_append]
      exact List.mem_append_left _ ha)
  have hev2 : ∀ a ∈ lastEval es :: evalTimes a2, 0 < a := fun a ha => ht a (by
    rcases List.mem_cons.mp ha with rfl | ha
    · simp
    · refine List.mem_cons_of_mem _ ?_
      unfold evalTimes at ha ⊢
      rw [List.filterMap_append]
      exact List.mem_append_right _ ha)
  obtain ⟨⟨w1, g1, f1⟩, c1, m1⟩ := C145_moves env henv v es hes s0 h0 hplan hidle hq a1 (fun e he => hr e (by simp [he])) hev s1 h1
  obtain ⟨⟨w2, g2, f2⟩, c2, m2⟩ := C145_moves env henv v es hes s0 h0 hplan hidle hq a2 (fun e he => hr e (by simp [he])) hev2 s2 h2
  rw [g1] at hw1
  rw [g2] at hw2
  have e1 : w1 = ws1 := congrArg Prod.fst (Option.some.inj (Except.ok.inj hw1))
  have e2 : w2 = ws2 := congrArg Prod.fst (Option.some.inj (Except.ok.inj hw2))
  subst e1 e2
  have hend : ∀ w ∈ s0.dyn, endsAt w.current (movesOf (deskOf (lastEval es) a1).done w) = endsAt w.current (movesOf (deskOf (lastEval es) a2).done w) := by
    have k1 : w1.map (·.current) = s0.dyn.map fun w => endsAt w.current (movesOf (deskOf (lastEval es) a1).done w) := by
      clear hw1 g1 heq m1 hsame hi hz0 hq hplan
      generalize s0.dyn = l at f1
      induction f1 with
      | nil => rfl
      | cons hx _ ih => rw [List.map_cons, List.map_cons, hx.2.2, ih]
    have k2 : w2.map (·.current) = s0.dyn.map fun w => endsAt w.current (movesOf (deskOf (lastEval es) a2).done w) := by
      clear hw2 g2 heq m2 hsame hi hz0 hq hplan
      generalize s0.dyn = l at f2
      induction f2 with
      | nil => rfl
      | cons hx _ ih => rw [List.map_cons, List.map_cons, hx.2.2, ih]
    rw [k1, k2] at heq
    exact List.map_inj_left.mp heq
  have hne : ∀ d ∈ [deskOf (lastEval es) a1, deskOf (lastEval es) a2], ∀ w ∈ s0.dyn, ∀ m ∈ movesOf d.done w, m.2 ≠ w.time := by
    intro d hd w hw m hm
    rw [(hsame d hd w hw).1 m hm]
    exact hi w hw
  obtain ⟨r1, u1, r0, u0, b1, b2, b3⟩ := m1 hz0 (hne _ (by simp)) t o f
  obtain ⟨r2, u2, r0', u0', d1, d2, d3⟩ := m2 hz0 (hne _ (by simp)) t o f
  rw [b2] at d2
  have e0 : r0 = r0' := congrArg Prod.fst (Option.some.inj (Except.ok.inj d2))
  subst e0
  have hshift : ∀ k x ax, (s0.dyn.map (shiftOf env.exp k (deskOf (lastEval es) a1).done x ax)) = s0.dyn.map (shiftOf env.exp k (deskOf (lastEval es) a2).done x ax) := by
    intro k x ax
    apply List.map_congr_left
    intro w hw
    obtain ⟨g, hg⟩ := kick_weight env.exp k w.time (instant w) x
    have q1 := hsame (deskOf (lastEval es) a1) (by simp) w hw
    have q2 := hsame (deskOf (lastEval es) a2) (by simp) w hw
    rw [shift_once env.exp k _ x ax w (instant w) g hg q1.1 (q1.2 ax), shift_once env.exp k _ x ax w (instant w) g hg q2.1 (q2.2 ax), hend w hw]
  have order : ∀ k ≤ 2, refOrder r1 k = refOrder r2 k := by
    intro k hk
    obtain ⟨b4, b5⟩ := b3 k hk
    obtain ⟨d4, d5⟩ := d3 k hk
    cases hx : refOrder r1 k with
    | none =>
      cases hx2 : refOrder r2 k with
      | none => rfl
      | some x2 =>
        have := b4.mpr (d4.mp (by rw [hx2]; rfl))
        rw [hx] at this; cases this
    | some x =>
      have hs0 := b4.mp (by rw [hx]; rfl)
      obtain ⟨x0, hx0⟩ := Option.isSome_iff_exists.mp hs0
      obtain ⟨x2, hx2⟩ := Option.isSome_iff_exists.mp (d4.mpr hs0)
      rw [hx2]
      congr 1
      apply comp_ext
      intro ax
      rw [b5 x x0 hx hx0 ax, d5 x2 x0 hx2 hx0 ax, hshift]
  have o0 := Option.some.inj (order 0 (by omega))
  have o1 := order 1 (by omega)
  have o2 := order 2 (by omega)
  have : r1 = r2 := by
    cases r1; cases r2
    change _ = _ at o0
    simp only [refOrder] at o1 o2
    rw [References.mk.injEq]
    exact ⟨o0, o1, o2⟩
  subst this
  exact ⟨r1, u1, u2, b1, d1⟩

end

/-! ## A waypoint moved away and back -/

noncomputable section

/-- One waypoint, "a", is planned; the plan is taken over; the instant 1/10 is evaluated. -/
def awayHistory : List (Event ℝ) :=
  [.setWaypoints [rwp "a" 1 0 0], .worker, .worker, .worker, .worker, .worker, .worker, .worker, .asyncStart, .asyncFinish 0,
    .getDynamicWaypoints, .evaluate (1 / 10) true false]

/-- The plan of `awayHistory`, and where its waypoint is. -/
def awayWaypoints (ms : List (V3 (Modifier ℝ))) (x : ℝ) : List (Waypoint ℝ) :=
  [{ vertex := startVertex, original := ⟨0, 0, 0⟩, current := ⟨0, 0, 0⟩, time := 0, name := "", index := 0, modifiers := [], lastSigma := 3 / 2 },
   { vertex := ⟨3, [(0, [x, 0, 0])]⟩, original := ⟨1, 0, 0⟩, current := ⟨x, 0, 0⟩, time := 1, name := "a", index := 1, modifiers := ms, lastSigma := 3 / 2 }]

/-- The plan of `awayHistory` is flown and the last instant evaluated is `t`. -/
def awayState (t : ℝ) (ms : List (V3 (Modifier ℝ))) (x : ℝ) (todo : List (String × V3 ℝ)) (pc : WorkerPc) : Planner ℝ :=
  { params := ⟨t, 1 / 10, t, 0, 0⟩, newParams := ⟨0, 1 / 10, 0, 0, 0⟩, traj := some realPlan, future := .invalid, fromScratch := false, vehicle := ⟨0, 0, 0⟩,
    dyn := awayWaypoints ms x, next := awayWaypoints [] 1,
    toAdd := [], toSet := [], toModify := todo, generateNew := false, computing := false, regenerated := true, timeConstant := 0, pc := pc }

theorem away_taken : exec realEnv (Planner.init ⟨0, 0, 0⟩) (awayHistory.take 11) = .ok (some (awayState 0 [] 1 [] .top)) := by
  have ho := fun sp => realEnv_optimize sp
  unfold startVertex endVertex at ho
  simp [awayHistory, exec, Planner.step, Planner.setWaypoints, Planner.init, Planner.workerStep, Planner.checkIfTrajectoryCanBeGenerated, Planner.checkInSecurityZone, bind,
    Except.bind, pure, Except.pure, Planner.generateWaypoints, resetAll, Planner.checkStitchTrajectory, Planner.appendDronePosition, Waypoint.reset,
    Waypoint.resetWithCurrent, Waypoint.default, Vertex.mk', Vertex.addConstraint, V3.toList, V3.zero, Waypoint.setConstraint, Waypoint.copy, rwp, Planner.asyncStart,
    Planner.asyncFinish, Planner.computeTrajectory, extractVertices, ho, IntMap.insert, assignTimes, realPlan_time0, realPlan_time1, Waypoint.setIndex, Waypoint.setTime,
    Planner.getDynamicWaypoints, Planner.checkTrajectoryGenerated, Planner.swapTrajectory, Planner.swapDynamicWaypoints,
    realPlan_fit, Future.isReady, Future.valid, awayState, awayWaypoints, startVertex, sigmaFixed]

theorem away_reach (es : List (Event ℝ)) (hes : ∀ e ∈ es, OnlyMoves e ∧ ValidEvent e) (s : Planner ℝ) (h : Run realEnv (awayState 0 [] 1 [] .top) es s) :
    Reachable realEnv s := by
  refine ⟨⟨0, 0, 0⟩, awayHistory.take 11 ++ es, ?_, run_append _ _ _ _ _ _ (exec_run _ _ _ _ away_taken) h⟩
  intro e he
  rcases List.mem_append.mp he with he | he
  · have : ∀ e ∈ awayHistory.take 11, ValidEvent e := by simp [awayHistory, ValidEvent, rwp_bookkept]
    exact this e he
  · exact (hes e he).2

/-- An evaluation along the plan. -/
theorem away_evaluate (t t' x : ℝ) (ms : List (V3 (Modifier ℝ))) (hr : Reachable realEnv (awayState t ms x [] .top))
    (hz : ∀ m ∈ ms, ∀ a, (comp m a).sigmaSq ≠ 0) :
    (awayState t ms x [] .top).step realEnv (.evaluate t' true false) = .ok (some (awayState t' ms x [] .top)) := by
  obtain ⟨r, s', h⟩ := C40_returns realEnv realEnv_segmentwise (awayState t ms x [] .top) hr realPlan rfl
    (by rintro (h | ⟨tr, h⟩) <;> cases h) (by
      intro w hw m hm a
      simp only [awayState, awayWaypoints, List.mem_cons, List.not_mem_nil, or_false] at hw
      rcases hw with rfl | rfl
      · cases hm
      · exact hz m hm a) t' true false
  have hstep : (awayState t ms x [] .top).step realEnv (.evaluate t' true false) = .ok (some s') := by
    simp only [Planner.step, h, bind, Except.bind, pure, Except.pure, Option.map_some]
  obtain ⟨r', m, _, hm, hn⟩ := step_evaluate realEnv _ s' t' true false hstep
  have hms : m = awayState t ms x [] .top := by
    rw [check_idle realEnv _ (by rintro (h | ⟨tr, h⟩) <;> cases h) (by simp [awayState])] at hm
    exact (Option.some.inj (Except.ok.inj hm)).symm
  subst hms
  obtain ⟨_, hs'⟩ := evaluateNow_inv realEnv _ s' t' true false r' hn
  rw [hstep, hs']
  simp [awayState]

/-- The compensation of a step of one metre along the first axis, made at instant `a`. -/
def awayModifier (a d : ℝ) : V3 (Modifier ℝ) :=
  ⟨⟨(1 - a) / 3, (1 - a) / 3 * ((1 - a) / 3), 1, d⟩, ⟨(1 - a) / 3, (1 - a) / 3 * ((1 - a) / 3), 1, 0⟩, ⟨(1 - a) / 3, (1 - a) / 3 * ((1 - a) / 3), 1, 0⟩⟩

/-- A move along the first axis, asked for and carried out. -/
theorem away_move (t x y : ℝ) (ht : 0 < t) (ms : List (V3 (Modifier ℝ))) :
    Run realEnv (awayState t ms x [] .top) [.modifyWaypoint "a" ⟨y, 0, 0⟩ false, .worker, .worker] (awayState t (ms ++ [awayModifier t (y - x)]) y [] .top) := by
  apply exec_run
  simp [exec, Planner.step, Planner.modifyWaypoint, Planner.putModification, Planner.workerStep, bind, Except.bind, pure, Except.pure, awayState, awayWaypoints,
    Planner.applyAll, Planner.applyWaypointModification, Planner.applyLoop, Waypoint.setCurrentPosition, Vertex.addConstraint, V3.toList, IntMap.insert,
    Waypoint.axisModifier, ht, Modifier.default, Modifier.setSigma, Modifier.setModifierTime, Modifier.setDifference, awayModifier]

/-- Away and back: moved by a metre at instant 1/10 and back at instant 1/2. -/
def awayAndBack : List (Event ℝ) :=
  [.modifyWaypoint "a" ⟨2, 0, 0⟩ false, .worker, .worker, .evaluate (1 / 2) true false, .modifyWaypoint "a" ⟨1, 0, 0⟩ false, .worker, .worker]

theorem away_start : Run realEnv (Planner.init ⟨0, 0, 0⟩) awayHistory (awayState (1 / 10) [] 1 [] .top) := by
  have h1 := exec_run _ _ _ _ away_taken
  have h2 := Run.snoc (.evaluate (1 / 10) true false) h1 (away_evaluate 0 (1 / 10) 1 [] (away_reach [] (by simp) _ .nil) (by simp))
  exact h2

theorem away_back : Run realEnv (awayState (1 / 10) [] 1 [] .top) awayAndBack (awayState (1 / 2) [awayModifier (1 / 10) 1, awayModifier (1 / 2) (-1)] 1 [] .top) := by
  have h0 : Run realEnv (awayState 0 [] 1 [] .top) [.evaluate (1 / 10) true false] (awayState (1 / 10) [] 1 [] .top) :=
    Run.snoc (es := []) _ .nil (away_evaluate 0 (1 / 10) 1 [] (away_reach [] (by simp) _ .nil) (by simp))
  have h1 := away_move (1 / 10) 1 2 (by norm_num) []
  have hr := away_reach _ (by simp [OnlyMoves, ValidEvent]) _ (run_append _ _ _ _ _ _ h0 h1)
  have h2 := Run.snoc (.evaluate (1 / 2) true false) h1 (away_evaluate (1 / 10) (1 / 2) 2 _ hr (by
    intro m hm a
    simp only [List.nil_append, List.mem_singleton] at hm
    subst hm
    cases a <;> norm_num [awayModifier, comp]))
  have h3 := run_append _ _ _ _ _ _ h2 (away_move (1 / 2) 2 1 (by norm_num) _)
  have e : ([] ++ [awayModifier (1 / 10) (2 - 1)] ++ [awayModifier (1 / 2) (1 - 2)] : List (V3 (Modifier ℝ))) = [awayModifier (1 / 10) 1, awayModifier (1 / 2) (-1)] := by
    norm_num
  rw [e] at h3
  exact h3

theorem unasked_onTime (env : Env ℝ) (v : V3 ℝ) (es : List (Event ℝ)) (s : Planner ℝ) (h : Run env (Planner.init v) es s)
    (hes : ∀ e ∈ es, (∀ t o f, e ≠ .evaluate t o f) ∧ e ≠ .getMaxTime ∧ e ≠ .getMinTime ∧ e ≠ .getDynamicWaypoints) :
    RunOnTime env (Planner.init v) es s ∧ s.traj = none := by
  induction h with
  | nil => exact ⟨.nil, rfl⟩
  | @snoc es s' s'' e _ hs ih =>
    obtain ⟨i1, i2⟩ := ih fun e he => hes e (by simp [he])
    obtain ⟨k1, k2, k3, k4⟩ := hes e (by simp)
    refine ⟨.snoc e i1 hs fun _ => .inl i2, ?_⟩
    rcases step_micro' env e s' s'' hs with ⟨rfl, _⟩ | h | ⟨m, ⟨t, o, rfl⟩, _⟩
    · exact i2
    · cases h with
      | takeOver _ _ new off hcomp hr he _ =>
        rcases he with ⟨t, o, f, rfl⟩ | rfl | rfl | rfl
        · exact absurd rfl (k1 t o f)
        · exact absurd rfl k2
        · exact absurd rfl k3
        · exact absurd rfl k4
      | evalTime _ t o _ => exact absurd rfl (k1 t o false)
      | apply _ s2 hp ha =>
        obtain ⟨_, d, r, hs2, _⟩ := applyAll_rel (fun _ _ => True) (fun _ => trivial) (fun _ _ _ _ _ => trivial)
          (fun _ _ _ _ _ => trivial) _ s' s2 ha
        show s2.traj = none
        rw [hs2]; exact i2
      | _ => exact i2
    · exact absurd rfl (k1 t o false)

theorem away_onTime : RunOnTime realEnv (Planner.init ⟨0, 0, 0⟩) awayHistory (awayState (1 / 10) [] 1 [] .top) := by
  have h1 := exec_run _ _ _ _ away_taken
  obtain ⟨m, h2, h3⟩ := run_snoc_inv realEnv _ (awayHistory.take 10) .getDynamicWaypoints _ h1
  obtain ⟨h4, h5⟩ := unasked_onTime realEnv _ _ m h2 (by simp [awayHistory])
  exact RunWhile.snoc (.evaluate (1 / 10) true false) (RunWhile.snoc .getDynamicWaypoints h4 h3 fun _ => .inl h5)
    (away_evaluate 0 (1 / 10) 1 [] (away_reach [] (by simp) _ .nil) (by simp)) fun _ => .inr ⟨_, _, rfl⟩

theorem realEnv_meets : MeetsVertices realEnv := hermite_meets

/-- C145: the full claim does not hold. Of a waypoint moved away by a metre at instant 1/10 and back at instant 1/2 (of time 1) the references keep a trace: at 13/20
(counted with the time compensation: 3/4) the position is `exp(-25/72) - exp(-9/8)` metres, about 38 centimetres, from where it is if the waypoint was never
moved. -/
theorem C145_refuted : ¬ C145Full := by
  intro hfull
  have hlast : lastEval awayHistory = 1 / 10 := by simp [lastEval, evalTimes, awayHistory]
  have hdesk : (deskOf (lastEval awayHistory) awayAndBack).done = [⟨"a", ⟨2, 0, 0⟩, 1 / 10⟩, ⟨"a", ⟨1, 0, 0⟩, 1 / 2⟩] := by
    rw [hlast]
    simp [deskOf, awayAndBack, Desk.on, askMove]
  have hpos : ∀ a ∈ lastEval awayHistory :: evalTimes awayAndBack, 0 < a := by
    rw [hlast]
    simp [evalTimes, awayAndBack]
  have hfresh : ∀ e ∈ awayHistory, FreshEvent e := by simp [awayHistory, FreshEvent, rwp_bookkept]
  have hvalid : ∀ e ∈ awayHistory, ValidEvent e := by simp [awayHistory, ValidEvent, rwp_bookkept]
  have honly : ∀ e ∈ awayAndBack, OnlyMoves e ∧ ValidEvent e := by simp [awayAndBack, OnlyMoves, ValidEvent]
  have hne : (awayState (1 / 10) [] 1 [] .top).traj ≠ none := by simp [awayState]
  have hmods : ∀ w ∈ (awayState (1 / 10) [] 1 [] .top).dyn, w.modifiers = [] := by simp [awayState, awayWaypoints]
  obtain ⟨⟨ws, g1, g2⟩, _, hall⟩ := C145_moves realEnv realEnv_segmentwise _ _ hvalid _ away_onTime hne ⟨rfl, rfl, rfl⟩ rfl awayAndBack honly hpos _ away_back
  rw [hdesk] at g2 hall
  have hmoves1 : ∀ w : Waypoint ℝ, w.name = "a" → movesOf [(⟨"a", ⟨2, 0, 0⟩, 1 / 10⟩ : MoveDone ℝ), ⟨"a", ⟨1, 0, 0⟩, 1 / 2⟩] w =
      [(⟨2, 0, 0⟩, 1 / 10), (⟨1, 0, 0⟩, 1 / 2)] := by
    intro w hw; simp [movesOf, hw]
  obtain ⟨r, s1, r0, s2, e1, e2, e3⟩ := hall (fun w hw m hm => by rw [hmods w hw] at hm; cases hm) (by
    intro w hw m hm
    simp only [awayState, awayWaypoints, List.mem_cons, List.not_mem_nil, or_false] at hw
    rcases hw with rfl | rfl
    · simp [movesOf] at hm
    · rw [hmoves1 _ rfl] at hm
      simp only [List.mem_cons, List.not_mem_nil, or_false] at hm
      rcases hm with rfl | rfl <;> norm_num) (13 / 20) true true
  have hval := (e3 0 (by omega)).2 r.position r0.position rfl rfl .x
  have hwait : ¬ PlanWaiting (awayState (1 / 10) [] 1 [] .top) := by rintro (h | ⟨tr, h⟩) <;> cases h
  have hg : (awayState (1 / 10) [] 1 [] .top).getDynamicWaypoints realEnv = .ok (some ((awayWaypoints [] 1).map (·.copy), awayState (1 / 10) [] 1 [] .top)) := by
    unfold Planner.getDynamicWaypoints
    rw [check_idle realEnv _ hwait hne]
    rfl
  have heq := hfull realEnv realEnv_segmentwise realEnv_meets rfl _ _ hfresh _ away_onTime hne ⟨rfl, rfl, rfl⟩ rfl hmods awayAndBack []
    (by rw [List.append_nil]; exact honly) (by
      rw [hlast]
      simp [awayState, awayWaypoints, evalTimes, awayAndBack]
      norm_num) _ _ away_back .nil ws _ _ _ g1 hg (by
      simp only [awayState, awayWaypoints] at g2
      obtain ⟨w1, l1, q1, q2, rfl⟩ := List.forall₂_cons_left_iff.mp g2
      obtain ⟨w2, l2, q3, q4, rfl⟩ := List.forall₂_cons_left_iff.mp q2
      rw [List.forall₂_nil_left_iff.mp q4]
      simp [awayWaypoints, Waypoint.copy, q1.2.2, q3.2.2, movesOf, endsAt]) (13 / 20) r r0 s1 s2 e1 e2
  rw [heq] at hval
  have hx : (13 / 20 : ℝ) + (awayState (1 / 10) [] 1 [] .top).getTimeCompensation = 3 / 4 := by
    simp only [awayState, Planner.getTimeCompensation]; norm_num
  rw [hx] at hval
  have k1 : kick Real.exp 0 1 (1 / 10) 1 (3 / 4) = Real.exp (-(25 / 72)) := by
    unfold kick
    rw [if_neg (by norm_num [abs_of_neg])]
    norm_num
  have k2 : kick Real.exp 0 1 (1 / 2) (-1) (3 / 4) = -Real.exp (-(9 / 8)) := by
    unfold kick
    rw [if_neg (by norm_num [abs_of_neg])]
    norm_num
  have hshift : ((awayState (1 / 10) [] 1 [] .top).dyn.map (shiftOf realEnv.exp 0 [⟨"a", ⟨2, 0, 0⟩, 1 / 10⟩, ⟨"a", ⟨1, 0, 0⟩, 1 / 2⟩] (3 / 4) .x)).sum =
      Real.exp (-(25 / 72)) - Real.exp (-(9 / 8)) := by
    show shiftOf realEnv.exp 0 _ (3 / 4) .x _ + (shiftOf realEnv.exp 0 _ (3 / 4) .x _ + 0) = _
    unfold shiftOf
    rw [hmoves1 { vertex := ⟨3, [(0, [1, 0, 0])]⟩, original := ⟨1, 0, 0⟩, current := ⟨1, 0, 0⟩, time := 1, name := "a", index := 1, modifiers := [], lastSigma := 3 / 2 } rfl,
      movesOf_unnamed _ _ rfl]
    show 0 + ((kick Real.exp 0 1 (1 / 10) (2 - 1) (3 / 4) + (kick Real.exp 0 1 (1 / 2) (1 - 2) (3 / 4) + 0)) + 0) = _
    rw [show (2 - 1 : ℝ) = 1 by norm_num, show (1 - 2 : ℝ) = -1 by norm_num, k1, k2]
    ring
  rw [hshift, if_pos (by norm_num)] at hval
  have : Real.exp (-(9 / 8)) < Real.exp (-(25 / 72)) := Real.exp_lt_exp.mpr (by norm_num)
  linarith

/-- The hypotheses of `C145_moves` are met: by the waypoint that is moved away and back, whose way has two steps, made at two instants. -/
example : Segmentwise realEnv ∧ (∀ e ∈ awayHistory, ValidEvent e) ∧ RunOnTime realEnv (Planner.init ⟨0, 0, 0⟩) awayHistory (awayState (1 / 10) [] 1 [] .top) ∧
    (awayState (1 / 10) [] 1 [] .top).traj ≠ none ∧ (∀ e ∈ awayAndBack, OnlyMoves e ∧ ValidEvent e) ∧
    (∀ a ∈ lastEval awayHistory :: evalTimes awayAndBack, 0 < a) ∧ (∃ s, Run realEnv (awayState (1 / 10) [] 1 [] .top) awayAndBack s) ∧
    (deskOf (lastEval awayHistory) awayAndBack).done = [⟨"a", ⟨2, 0, 0⟩, 1 / 10⟩, ⟨"a", ⟨1, 0, 0⟩, 1 / 2⟩] := by
  have hlast : lastEval awayHistory = 1 / 10 := by simp [lastEval, evalTimes, awayHistory]
  refine ⟨realEnv_segmentwise, by simp [awayHistory, ValidEvent, rwp_bookkept], away_onTime, by simp [awayState],
    by simp [awayAndBack, OnlyMoves, ValidEvent], ?_, ⟨_, away_back⟩, ?_⟩
  · rw [hlast]; simp [evalTimes, awayAndBack]
  · rw [hlast]; simp [deskOf, awayAndBack, Desk.on, askMove]

/-- And those of `C145_partial`: by a waypoint moved twice at one instant, once past its place, and the same waypoint moved there at once. -/
example : let a1 : List (Event ℝ) := [.modifyWaypoint "a" ⟨5, 0, 0⟩ false, .worker, .worker] ++ [.modifyWaypoint "a" ⟨2, 0, 0⟩ false, .worker, .worker]
    let a2 : List (Event ℝ) := [.modifyWaypoint "a" ⟨2, 0, 0⟩ false, .worker, .worker]
    (∃ s1 s2, Run realEnv (awayState (1 / 10) [] 1 [] .top) a1 s1 ∧ Run realEnv (awayState (1 / 10) [] 1 [] .top) a2 s2 ∧ s1.dyn.map (·.current) = s2.dyn.map (·.current)) ∧
    (deskOf (1 / 10) a1).done = [⟨"a", ⟨5, 0, 0⟩, 1 / 10⟩, ⟨"a", ⟨2, 0, 0⟩, 1 / 10⟩] ∧ (deskOf (1 / 10) a2).done = [⟨"a", ⟨2, 0, 0⟩, 1 / 10⟩] ∧
    ∀ d ∈ [deskOf (1 / 10) a1, deskOf (1 / 10) a2], ∀ w ∈ (awayState (1 / 10) [] 1 [] .top).dyn, (∀ m ∈ movesOf d.done w, m.2 = 1 / 10) ∧
      ∀ ax, ∀ st ∈ stepsFrom ax (comp w.current ax) (movesOf d.done w), st.1 = 0 ∨ 2 / 100 ≤ |st.1| := by
  intro a1 a2
  have h1 := away_move (1 / 10) 1 5 (by norm_num) []
  have h2 := away_move (1 / 10) 5 2 (by norm_num) ([] ++ [awayModifier (1 / 10) (5 - 1)])
  have d1 : (deskOf (1 / 10) a1).done = [⟨"a", ⟨5, 0, 0⟩, 1 / 10⟩, ⟨"a", ⟨2, 0, 0⟩, 1 / 10⟩] := by simp [a1, deskOf, Desk.on, askMove]
  have d2 : (deskOf (1 / 10) a2).done = [⟨"a", ⟨2, 0, 0⟩, 1 / 10⟩] := by simp [a2, deskOf, Desk.on, askMove]
  refine ⟨⟨_, _, run_append _ _ _ _ _ _ h1 h2, away_move (1 / 10) 1 2 (by norm_num) [], rfl⟩, d1, d2, ?_⟩
  intro d hd w hw
  simp only [awayState, awayWaypoints, List.mem_cons, List.not_mem_nil, or_false] at hw hd
  rcases hd with rfl | rfl
  · rw [d1]
    rcases hw with rfl | rfl
    · simp [movesOf, stepsFrom]
    · refine ⟨by simp [movesOf], ?_⟩
      intro ax st hst
      cases ax <;> simp [movesOf, stepsFrom, comp] at hst <;> rcases hst with rfl | rfl <;> norm_num
  · rw [d2]
    rcases hw with rfl | rfl
    · simp [movesOf, stepsFrom]
    · refine ⟨by simp [movesOf], ?_⟩
      intro ax st hst
      cases ax <;> simp [movesOf, stepsFrom, comp] at hst <;> subst hst <;> norm_num

end

end Verif.Properties
