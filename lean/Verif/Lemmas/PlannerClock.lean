import Verif.Spec.Clock
import Verif.Lemmas.PlannerPipeline
import Verif.Lemmas.PlannerRequests
import Verif.Lemmas.PlannerFail

/-! # The planner's clock, order of waypoint times -/

set_option linter.unusedSectionVars false
set_option linter.unusedSimpArgs false

namespace Verif.Lemmas
open Verif Verif.Spec

variable {K : Type*} [Field K] [LinearOrder K] [IsStrictOrderedRing K] [FloorSemiring K]

theorem step_evaluate (env : Env K) (s s' : Planner K) (t : K) (o f : Bool) (h : s.step env (.evaluate t o f) = .ok (some s')) :
    ∃ r m, s.evaluateTrajectory env t o f = .ok (some (r, s')) ∧ s.checkTrajectoryGenerated env = .ok (some m) ∧
      m.evaluateNow env t o f = .ok (r, s') := by
  simp only [Planner.step, Planner.evaluateTrajectory, bind, Except.bind] at h ⊢
  cases hc : s.checkTrajectoryGenerated env with
  | error e => rw [hc] at h; cases h
  | ok r =>
    rw [hc] at h
    cases r with
    | none => simp [pure, Except.pure] at h
    | some m =>
      simp only at h ⊢
      cases hev : m.evaluateNow env t o f with
      | error e => rw [hev] at h; cases h
      | ok r =>
        rw [hev] at h
        simp only [pure, Except.pure, Option.map] at h
        have h := Option.some.inj (Except.ok.inj h)
        obtain ⟨r1, r2⟩ := r
        subst h
        exact ⟨r1, m, rfl, rfl, hev⟩

theorem evaluate_step (env : Env K) (s s' : Planner K) (t : K) (o f : Bool) (r : References K)
    (h : s.evaluateTrajectory env t o f = .ok (some (r, s'))) : s.step env (.evaluate t o f) = .ok (some s') := by
  simp only [Planner.step, h, bind, Except.bind]; rfl

/-- The record of the last evaluated time is right. -/
structure ClockInv (t : K) (s : Planner K) : Prop where
  global : s.params.lastGlobal = t
  loc : s.params.lastLocal = t - s.params.gtlg
  fresh : s.traj = none → t = 0 ∧ s.params.gtlg = 0 ∧ s.newParams.lastGlobal = 0 ∧ s.newParams.lastLocal = 0 ∧ s.newParams.gtlg = 0

theorem clock_micro (env : Env K) (t : K) (e : Event K) (s s' : Planner K) (h : Micro env e s s') (hi : ClockInv t s)
    (he : ∀ t o, e ≠ .evaluate t o false) (ht : TakesOver s s' → s.traj = none) : ClockInv t s' := by
  obtain ⟨h1, h2, h3⟩ := hi
  cases h with
  | takeOver _ _ new off hc hr he' hfit =>
    obtain ⟨k1, k2, k3, k4, k5⟩ := h3 (ht ⟨hc, rfl⟩)
    exact ⟨by simp [k1, k3], by simp [k1, k4, k5], fun h => (by cases h)⟩
  | evalTime _ t o htr => exact absurd rfl (he _ _)
  | snapshot _ hp hn => exact ⟨h1, h2, fun h => by
      obtain ⟨k1, k2, _⟩ := h3 h
      exact ⟨k1, k2, by simp [h1, k1], by simp [h2, k1, k2], by simp [h1, k1]⟩⟩
  | apply _ s2 hp ha =>
    obtain ⟨_, d, r, rfl, _⟩ := applyAll_rel (fun _ _ => True) (fun _ => trivial) (fun _ _ _ _ _ => trivial)
      (fun _ _ _ _ _ => trivial) _ s s2 ha
    exact ⟨h1, h2, h3⟩
  | _ => exact ⟨h1, h2, h3⟩

theorem lastEval_eval (es : List (Event K)) (t : K) (o : Bool) : lastEval (es ++ [.evaluate t o false]) = t := by
  simp [lastEval, evalTimes, List.filterMap_append]

theorem lastEval_other (es : List (Event K)) (e : Event K) (he : ∀ t o, e ≠ .evaluate t o false) : lastEval (es ++ [e]) = lastEval es := by
  have : evalTimes (es ++ [e]) = evalTimes es := by
    unfold evalTimes
    rw [List.filterMap_append]
    cases e with
    | evaluate t o f =>
      cases f with
      | false => exact absurd rfl (he t o)
      | true => exact List.append_nil _
    | _ => exact List.append_nil _
  unfold lastEval
  rw [this]

theorem clock_step (env : Env K) (es : List (Event K)) (e : Event K) (s s' : Planner K) (h : s.step env e = .ok (some s'))
    (hok : TakesOver s s' → s.traj = none ∨ ∃ t o, e = .evaluate t o false) (hi : ClockInv (lastEval es) s) :
    ClockInv (lastEval (es ++ [e])) s' := by
  by_cases he : ∃ t o, e = .evaluate t o false
  · obtain ⟨t, o, rfl⟩ := he
    rw [lastEval_eval]
    obtain ⟨r, m, _, _, hn⟩ := step_evaluate env s s' t o false h
    obtain ⟨hne, rfl⟩ := evaluateNow_inv env m s' t o false r hn
    exact ⟨rfl, rfl, fun h => absurd h hne⟩
  · have he' : ∀ t o, e ≠ .evaluate t o false := fun t o h => he ⟨t, o, h⟩
    rw [lastEval_other es e he']
    rcases step_micro' env e s s' h with ⟨rfl, _⟩ | h | ⟨m, ⟨t, o, rfl⟩, h1, h2⟩
    · exact hi
    · exact clock_micro env _ e s s' h hi he' (fun ht => (hok ht).resolve_right he)
    · exact absurd rfl (he' t o)

theorem clock_init (v : V3 K) : ClockInv (lastEval []) (Planner.init v) :=
  ⟨rfl, by simp [Planner.init, lastEval, evalTimes], fun _ => ⟨rfl, rfl, rfl, rfl, rfl⟩⟩

theorem clock_run (env : Env K) (v : V3 K) (es : List (Event K)) (s : Planner K) (h : RunOnTime env (Planner.init v) es s) :
    ClockInv (lastEval es) s := by
  induction h with
  | nil => exact clock_init v
  | snoc e _ hs hok ih => exact clock_step env _ e _ _ hs hok ih

/-! ## Order of times -/

theorem timed_sorted (tr : Trajectory K) (hu : Usable tr) (g : K) (ws : List (Waypoint K)) (h : Timed tr g ws) :
    ws.Pairwise (fun a b => a.time < b.time) := by
  rw [List.pairwise_iff_getElem]
  intro i j hi hj hij
  obtain ⟨_, h1⟩ := h.2 i ws[i] (by simp)
  obtain ⟨_, h2⟩ := h.2 j ws[j] (by simp)
  rw [h1, h2]
  have := startOf_lt tr.segments hu.2.2.2.1 i j hij (by have := h.1; omega)
  linarith

theorem timed_le (tr : Trajectory K) (hu : Usable tr) (g : K) (ws : List (Waypoint K)) (h : Timed tr g ws) (w : Waypoint K) (hw : w ∈ ws) :
    g ≤ w.time ∧ w.time ≤ g + tr.maxTime := by
  obtain ⟨i, hi⟩ := List.mem_iff_getElem?.mp hw
  obtain ⟨_, h1⟩ := h.2 i w hi
  have hlt : i < ws.length := (List.getElem?_eq_some_iff.mp hi).1
  have hlen := h.1
  have hpos := hu.2.2.2.1
  rw [h1, hu.2.2.1.1, ← startOf_length]
  constructor
  · rcases Nat.eq_zero_or_pos i with h0 | h0
    · rw [h0, startOf_zero, add_zero]
    · have := startOf_lt tr.segments hpos 0 i h0 (by omega)
      rw [startOf_zero] at this; linarith
  · rcases Nat.lt_or_ge i tr.segments.length with h0 | h0
    · have := startOf_lt tr.segments hpos i _ h0 le_rfl
      linarith
    · have : i = tr.segments.length := by omega
      rw [this]

theorem zoneLoop_iff (L zone : K) (ws : List (Waypoint K)) (h : ws.Pairwise (fun a b => a.time < b.time)) :
    Planner.zoneLoop L zone ws = true ↔ ∃ w ∈ ws, w.name ≠ "" ∧ L < w.time ∧ w.time ≤ L + zone := by
  induction ws with
  | nil => simp [Planner.zoneLoop]
  | cons w ws ih =>
    rw [List.pairwise_cons] at h
    unfold Planner.zoneLoop
    by_cases hw : w.name ≠ "" ∧ w.time > L
    · rw [if_pos hw]
      by_cases hz : w.time - L > zone
      · rw [if_pos hz]
        simp only [Bool.false_eq_true, List.mem_cons, false_iff, not_exists, not_and]
        rintro a (rfl | ha) hn hl
        · linarith
        · have := h.1 a ha; linarith
      · rw [if_neg hz]
        simp only [true_iff]
        exact ⟨w, by simp, hw.1, hw.2, by linarith⟩
    · rw [if_neg hw, ih h.2]
      constructor
      · rintro ⟨a, ha, h1⟩; exact ⟨a, by simp [ha], h1⟩
      · rintro ⟨a, ha, h1, h2, h3⟩
        rcases List.mem_cons.mp ha with rfl | ha
        · exact absurd ⟨h1, h2⟩ hw
        · exact ⟨a, ha, h1, h2, h3⟩

end Verif.Lemmas
