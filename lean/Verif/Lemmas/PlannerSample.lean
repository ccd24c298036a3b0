import Verif.Lemmas.Hermite
import Verif.Lemmas.PlannerPipeline

/-! # Concrete histories, for examples and counterexamples -/

set_option linter.unusedSectionVars false

namespace Verif.Lemmas
open Verif Verif.Spec

variable {K : Type*} [Field K] [LinearOrder K] [IsStrictOrderedRing K] [FloorSemiring K]

/-- Execute a history. -/
def exec (env : Env K) (s : Planner K) : List (Event K) → Res (Option (Planner K))
  | [] => .ok (some s)
  | e :: es => do
    match ← s.step env e with
    | none => return none
    | some s' => exec env s' es

theorem run_append (env : Env K) (s : Planner K) (es es' : List (Event K)) (s' s'' : Planner K) (h : Run env s es s') (h' : Run env s' es' s'') :
    Run env s (es ++ es') s'' := by
  induction h' with
  | nil => simpa using h
  | snoc e _ hs ih => rw [← List.append_assoc]; exact .snoc e ih hs

theorem exec_run (env : Env K) (s : Planner K) (es : List (Event K)) (s' : Planner K) (h : exec env s es = .ok (some s')) :
    Run env s es s' := by
  induction es generalizing s with
  | nil => rw [← Option.some.inj (Except.ok.inj h)]; exact .nil
  | cons e es ih =>
    simp only [exec, bind, Except.bind] at h
    cases hs : s.step env e with
    | error x => rw [hs] at h; cases h
    | ok o =>
      rw [hs] at h
      cases o with
      | none => cases h
      | some s1 => exact run_append env s [e] es _ _ (.snoc (es := []) e .nil hs) (ih s1 h)

/-- A fresh waypoint with a position. -/
def wp (name : String) (x y z : ℚ) : Waypoint ℚ :=
  { vertex := ⟨3, [(0, [x, y, z])]⟩, original := ⟨x, y, z⟩, current := ⟨x, y, z⟩, time := 0, name := name, index := -1, modifiers := [],
    lastSigma := 3 / 2 }

theorem wp_bookkept (name : String) (x y z : ℚ) : Bookkept (wp name x y z) ∧ (wp name x y z).modifiers = [] := by
  refine ⟨⟨rfl, ⟨by simp [wp], by simp [wp]⟩, rfl, fun _ => rfl, by simp [wp], ?_⟩, rfl⟩
  intro a; simp [wp]

/-- The worker goes once through its loop and launches a computation, which then finishes. -/
def planEvents (dt : ℚ) : List (Event ℚ) :=
  [.worker, .worker, .worker, .worker, .worker, .worker, .worker, .asyncStart, .asyncFinish dt]

/-- Two waypoints are requested, planned, and the plan is taken over by an evaluation at time 0. -/
def history1 : List (Event ℚ) :=
  [.setSpeed 2, .updateVehiclePosition ⟨0, 0, 0⟩, .setWaypoints [wp "a" 1 0 0, wp "b" 2 1 0]] ++ planEvents (1 / 100) ++
    [.evaluate 0 false false]

theorem history1_fresh : ∀ e ∈ history1, FreshEvent e := by
  simp [history1, planEvents, FreshEvent, wp_bookkept]

def state1? : Option (Planner ℚ) := ((exec hermiteEnv (Planner.init ⟨0, 0, 0⟩) history1).toOption.getD none)

def state1 : Planner ℚ := state1?.get (by decide +kernel)

theorem state1_run : Run hermiteEnv (Planner.init ⟨0, 0, 0⟩) history1 state1 := by
  apply exec_run
  decide +kernel

theorem state1_fresh : ReachableBy FreshEvent hermiteEnv state1 := ⟨_, _, history1_fresh, state1_run⟩

theorem state1_reachable : Reachable hermiteEnv state1 := reachable_of_fresh state1_fresh

/-- The state after a history of the sample system. -/
def run? (es : List (Event ℚ)) : Option (Planner ℚ) := (exec hermiteEnv (Planner.init ⟨0, 0, 0⟩) es).toOption.getD none

theorem run?_run (es : List (Event ℚ)) (s : Planner ℚ) (h : run? es = some s) : Run hermiteEnv (Planner.init ⟨0, 0, 0⟩) es s := by
  apply exec_run
  unfold run? at h
  cases hx : exec hermiteEnv (Planner.init ⟨0, 0, 0⟩) es with
  | error e => rw [hx] at h; cases h
  | ok o => rw [hx] at h; exact congrArg Except.ok h

theorem run?_map {α : Type*} (es : List (Event ℚ)) (f : Planner ℚ → α) (x : α) (h : (run? es).map f = some x) :
    ∃ s, Run hermiteEnv (Planner.init ⟨0, 0, 0⟩) es s ∧ f s = x := by
  obtain ⟨s, hs, hx⟩ := Option.map_eq_some_iff.mp h
  exact ⟨s, run?_run es s hs, hx⟩

/-- The states before and after a further event. -/
def run2? (es : List (Event ℚ)) (e : Event ℚ) : Option (Planner ℚ × Planner ℚ) :=
  match run? es with
  | none => none
  | some s =>
    match s.step hermiteEnv e with
    | .ok (some s') => some (s, s')
    | _ => none

theorem run2?_map {α : Type*} (es : List (Event ℚ)) (e : Event ℚ) (f : Planner ℚ → Planner ℚ → α) (x : α)
    (h : (run2? es e).map (fun q => f q.1 q.2) = some x) :
    ∃ s s', Run hermiteEnv (Planner.init ⟨0, 0, 0⟩) es s ∧ s.step hermiteEnv e = .ok (some s') ∧ f s s' = x := by
  obtain ⟨⟨s, s'⟩, hs, hx⟩ := Option.map_eq_some_iff.mp h
  unfold run2? at hs
  cases hr : run? es with
  | none => rw [hr] at hs; cases hs
  | some s1 =>
    rw [hr] at hs
    simp only at hs
    cases hst : s1.step hermiteEnv e with
    | error e => rw [hst] at hs; cases hs
    | ok o =>
      rw [hst] at hs
      cases o with
      | none => cases hs
      | some s2 =>
        obtain ⟨h1, h2⟩ := Prod.mk.inj (Option.some.inj hs)
        subst h1 h2
        exact ⟨s1, s2, run?_run es s1 hr, hst, hx⟩

/-- Execute a history of the sample system, checking every step. -/
def execWhile (ok : Planner ℚ → Event ℚ → Planner ℚ → Bool) (s : Planner ℚ) : List (Event ℚ) → Option (Planner ℚ)
  | [] => some s
  | e :: es =>
    match s.step hermiteEnv e with
    | .ok (some s') => if ok s e s' then execWhile ok s' es else none
    | _ => none

theorem runWhile_append (ok : Planner K → Event K → Planner K → Prop) (env : Env K) (s s' s'' : Planner K) (es es' : List (Event K))
    (h : RunWhile ok env s es s') (h' : RunWhile ok env s' es' s'') : RunWhile ok env s (es ++ es') s'' := by
  induction h' with
  | nil => simpa using h
  | snoc e _ hs hok ih => rw [← List.append_assoc]; exact .snoc e ih hs hok

theorem execWhile_run (ok : Planner ℚ → Event ℚ → Planner ℚ → Bool) (P : Planner ℚ → Event ℚ → Planner ℚ → Prop)
    (hP : ∀ s e s', ok s e s' = true → P s e s') (s s' : Planner ℚ) (es : List (Event ℚ))
    (h : execWhile ok s es = some s') : RunWhile P hermiteEnv s es s' := by
  induction es generalizing s with
  | nil => rw [← Option.some.inj h]; exact .nil
  | cons e es ih =>
    simp only [execWhile] at h
    cases hst : s.step hermiteEnv e with
    | error x => rw [hst] at h; cases h
    | ok o =>
      rw [hst] at h
      cases o with
      | none => cases h
      | some s1 =>
        simp only at h
        split at h
        · rename_i hok
          exact runWhile_append P hermiteEnv s s1 s' [e] es (.snoc (es := []) e .nil hst (hP _ _ _ hok)) (ih s1 h)
        · cases h

/-- States after a first history, after a second one (checked), and after one more event. -/
def run3? (ok : Planner ℚ → Event ℚ → Planner ℚ → Bool) (es1 es2 : List (Event ℚ)) (e : Event ℚ) :
    Option (Planner ℚ × Planner ℚ × Planner ℚ) :=
  match run? es1 with
  | none => none
  | some s1 =>
    match execWhile ok s1 es2 with
    | none => none
    | some s =>
      match s.step hermiteEnv e with
      | .ok (some s') => some (s1, s, s')
      | _ => none

theorem run3?_map {α : Type*} (ok : Planner ℚ → Event ℚ → Planner ℚ → Bool) (P : Planner ℚ → Event ℚ → Planner ℚ → Prop)
    (hP : ∀ s e s', ok s e s' = true → P s e s') (es1 es2 : List (Event ℚ)) (e : Event ℚ)
    (f : Planner ℚ → Planner ℚ → Planner ℚ → α) (x : α) (h : (run3? ok es1 es2 e).map (fun q => f q.1 q.2.1 q.2.2) = some x) :
    ∃ s1 s s', Run hermiteEnv (Planner.init ⟨0, 0, 0⟩) es1 s1 ∧ RunWhile P hermiteEnv s1 es2 s ∧ s.step hermiteEnv e = .ok (some s') ∧ f s1 s s' = x := by
  obtain ⟨⟨s1, s, s'⟩, hs, hx⟩ := Option.map_eq_some_iff.mp h
  unfold run3? at hs
  cases hr : run? es1 with
  | none => rw [hr] at hs; cases hs
  | some a =>
    rw [hr] at hs
    simp only at hs
    cases hw : execWhile ok a es2 with
    | none => rw [hw] at hs; cases hs
    | some b =>
      rw [hw] at hs
      simp only at hs
      cases hst : b.step hermiteEnv e with
      | error e => rw [hst] at hs; cases hs
      | ok o =>
        rw [hst] at hs
        cases o with
        | none => cases hs
        | some c =>
          obtain ⟨h1, h2⟩ := Prod.mk.inj (Option.some.inj hs)
          obtain ⟨h2, h3⟩ := Prod.mk.inj h2
          subst h1 h2 h3
          exact ⟨_, _, _, run?_run es1 _ hr, execWhile_run ok P hP _ _ _ hw, hst, hx⟩

end Verif.Lemmas
