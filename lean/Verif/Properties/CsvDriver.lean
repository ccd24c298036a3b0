import Verif.Spec.CsvDriver
import Verif.Lemmas.CsvDriver
import Verif.Lemmas.PlannerSample

/-!
# Property C153: the table the flight of a route is written to
-/

set_option linter.unusedSectionVars false

namespace Verif.Properties
open Verif Verif.Spec Verif.Lemmas Verif.Csv

section
variable {K : Type*} [Field K] [LinearOrder K] [IsStrictOrderedRing K] [FloorRing K]

/-- The full property: the table has one line for each instant 0, `dt`, 2 `dt`, … before `dt` before the end of the flight, and the line for an instant has position,
velocity and acceleration of the flight at that instant; so the first line is the vehicle at rest where it was reported to be. -/
def C153Full (env : Env K) : Prop :=
  ∀ (C : K) (p : V3 K) (speed : K) (ns : List (String × V3 K)) (dt : K) (ls : List (List K)), ns ≠ [] → 0 < dt → Writes env C p speed ns dt ls →
    ∃ tr : Trajectory K, FliesThrough p ns tr ∧ ls.length = ⌈(tr.maxTime - dt) / dt⌉₊ ∧
      ∀ (k : ℕ) (l : List K), ls[k]? = some l → IsLine tr (k * dt) (k * dt) l

theorem loop_lines (env : Env K) (henv : Segmentwise env) (C dt max : K) (hdt : 0 < dt) (tr : Trajectory K) (ws : List (Waypoint K))
    (hm : ∀ w ∈ ws, w.modifiers = []) (off t : K) (s : Planner K) (ls : List (List K)) (hi : Flies env tr ws off s) (h : Loop env C dt max t s ls) :
    ls.length = ⌈(max - dt - t) / dt⌉₊ ∧
    ∀ (k : ℕ) (l : List K), ls[k]? = some l → IsLine tr (t + k * dt) (Max.max 0 (min (t + k * dt + off) tr.maxTime)) l := by
  induction h with
  | @stop t s h =>
    refine ⟨?_, fun k l hl => by simp at hl⟩
    rw [List.length_nil, eq_comm, Nat.ceil_eq_zero]
    exact div_nonpos_of_nonpos_of_nonneg (by linarith [not_lt.mp h]) hdt.le
  | meanwhile e he hs _ ih =>
    obtain ⟨h1, _, h3⟩ := background_not he
    exact ih (flies_step env tr ws off _ _ e h1 h3 hi hs)
  | @line t s s' ls r l ht hs hl _ ih =>
    obtain ⟨x, v, a, s2, hev, hi2, e0, e1, e2⟩ := flies_evaluate env henv tr ws hm off s hi t
    rw [hs] at hev
    obtain ⟨rfl, rfl⟩ := Prod.mk.inj (Option.some.inj (Except.ok.inj hev))
    obtain ⟨k1, k2⟩ := ih hi2
    refine ⟨?_, ?_⟩
    · rw [List.length_cons, k1]
      have : (max - dt - t) / dt = (max - dt - (t + dt)) / dt + 1 := by field_simp; ring
      rw [this]
      have hge : 0 ≤ (max - dt - (t + dt)) / dt + 1 := by
        rw [← this]
        exact div_nonneg (by linarith) hdt.le
      rcases le_or_gt 0 ((max - dt - (t + dt)) / dt) with h0 | h0
      · rw [Nat.ceil_add_one h0]
      · rw [Nat.ceil_eq_zero.mpr h0.le]
        symm
        rw [zero_add, Nat.ceil_eq_iff one_ne_zero]
        have hpos : 0 < (max - dt - (t + dt)) / dt + 1 := by
          rw [← this]
          exact div_pos (by linarith) hdt
        exact ⟨by simpa using hpos, by push_cast; linarith⟩
    · intro k l' hl'
      cases k with
      | zero =>
        rw [List.getElem?_cons_zero] at hl'
        rw [← Option.some.inj hl']
        unfold row at hl
        simp only [Except.ok.injEq] at hl
        rw [Nat.cast_zero, zero_mul, add_zero]
        exact ⟨x, v, a, hl.symm, e0, e1, e2⟩
      | succ k =>
        rw [List.getElem?_cons_succ] at hl'
        have := k2 k l' hl'
        have ha : t + dt + (k : K) * dt = t + ((k + 1 : ℕ) : K) * dt := by push_cast; ring
        rwa [ha] at this

/-- C153, what holds: the table is that of a flight from rest at the reported position through the positions of the route in their order to rest at the last of them,
with the number of lines expected; but the line for the instant `k dt` has the flight 0.1 s later, and later still if the flight is at the position it started from
at a multiple of 0.1 s before three times the duration of the computation (`C` is the longest a computation takes). -/
theorem C153_partial (env : Env K) (henv : Segmentwise env) (hmeets : MeetsVertices env) (C : K) (p : V3 K) (speed : K) (ns : List (String × V3 K)) (dt : K)
    (ls : List (List K)) (hne : ns ≠ []) (hdt : 0 < dt) (h : Writes env C p speed ns dt ls) :
    ∃ (tr : Trajectory K) (i : ℕ), FliesThrough p ns tr ∧ (i = 0 ∨ (i : K) / 10 < 3 * C) ∧ tr.evaluate (min ((i : K) / 10) tr.maxTime) 0 = .ok [p.x, p.y, p.z] ∧
      ls.length = ⌈(tr.maxTime - dt) / dt⌉₊ ∧
      ∀ (k : ℕ) (l : List K), ls[k]? = some l → IsLine tr (k * dt) (min (k * dt + (i : K) / 10 + 1 / 10) tr.maxTime) l := by
  obtain ⟨max, s2, hp, hl⟩ := h
  obtain ⟨tr, ws, i, hfl, hm, rfl, hpos, hthr, hi, hat⟩ := planned_inv env henv hmeets C p speed ns hne max s2 hp
  obtain ⟨k1, k2⟩ := loop_lines env henv C dt tr.maxTime hdt tr ws hm _ 0 s2 ls hfl hl
  refine ⟨tr, i, hthr, hi, hat, by rw [k1, sub_zero], fun k l hkl => ?_⟩
  have := k2 k l hkl
  rw [zero_add] at this
  have hnn : (0 : K) ≤ k * dt + ((i : K) / 10 + 1 / 10) := by positivity
  rwa [max_eq_right (le_min hnn hpos.le), ← add_assoc] at this

/-- C153 when computations take at most a thirtieth of a second: the line for `k dt` has the flight at `k dt` + 0.1 s. -/
theorem C153_fast (env : Env K) (henv : Segmentwise env) (hmeets : MeetsVertices env) (C : K) (hC : C ≤ 1 / 30) (p : V3 K) (speed : K)
    (ns : List (String × V3 K)) (dt : K) (ls : List (List K)) (hne : ns ≠ []) (hdt : 0 < dt) (h : Writes env C p speed ns dt ls) :
    ∃ tr : Trajectory K, FliesThrough p ns tr ∧ ls.length = ⌈(tr.maxTime - dt) / dt⌉₊ ∧
      ∀ (k : ℕ) (l : List K), ls[k]? = some l → IsLine tr (k * dt) (min (k * dt + 1 / 10) tr.maxTime) l := by
  obtain ⟨tr, i, h1, h2, _, h4, h5⟩ := C153_partial env henv hmeets C p speed ns dt ls hne hdt h
  have hi : i = 0 := by
    rcases h2 with h2 | h2
    · exact h2
    · by_contra hh
      have : (1 : K) ≤ i := by exact_mod_cast Nat.one_le_iff_ne_zero.mpr hh
      linarith
  subst hi
  refine ⟨tr, h1, h4, fun k l hl => ?_⟩
  have := h5 k l hl
  rwa [Nat.cast_zero, zero_div, add_zero] at this

/-- C153, the end of the table: with steps of at most 0.05 s the last line is the last position of the route, at rest. -/
theorem C153_end (env : Env K) (henv : Segmentwise env) (hmeets : MeetsVertices env) (C : K) (p : V3 K) (speed : K) (ns : List (String × V3 K)) (dt : K)
    (ls : List (List K)) (hdt : 0 < dt) (hdt2 : dt ≤ 1 / 20) (h : Writes env C p speed ns dt ls) (n : String × V3 K) (hn : ns.getLast? = some n)
    (l : List K) (hl : ls.getLast? = some l) : ∃ t, l = [t, n.2.x, n.2.y, n.2.z, 0, 0, 0, 0, 0, 0] := by
  have hne : ns ≠ [] := by rintro rfl; simp at hn
  obtain ⟨tr, i, ⟨_, _, _, ⟨times, _, hlast, hall⟩, hv, ha⟩, _, _, hlen, h5⟩ := C153_partial env henv hmeets C p speed ns dt ls hne hdt h
  have hlne : ls ≠ [] := by rintro rfl; simp at hl
  rw [List.getLast?_eq_getElem?] at hl
  obtain ⟨x, v, a, rfl, e0, e1, e2⟩ := h5 _ l hl
  have hend : tr.maxTime ≤ ((ls.length - 1 : ℕ) : K) * dt + (i : K) / 10 + 1 / 10 := by
    have h1 := Nat.le_ceil ((tr.maxTime - dt) / dt)
    rw [← hlen, div_le_iff₀ hdt] at h1
    have h2 : ((ls.length - 1 : ℕ) : K) = (ls.length : K) - 1 := by
      rw [Nat.cast_sub (List.length_pos_of_ne_nil hlne), Nat.cast_one]
    rw [h2]
    have : (0 : K) ≤ (i : K) / 10 := by positivity
    linarith
  rw [min_eq_right hend] at e0 e1 e2
  rw [hv] at e1
  rw [ha] at e2
  have hpos : tr.evaluate tr.maxTime 0 = .ok [n.2.x, n.2.y, n.2.z] := by
    have hl1 := hall.length_eq
    rw [List.getLast?_eq_getElem?] at hn hlast
    rw [← hl1] at hlast
    obtain ⟨n', hn', hx⟩ := forall2_get' hall _ _ hlast
    rw [hn] at hn'
    rw [← Option.some.inj hn'] at hx
    exact hx
  rw [hpos] at e0
  have e0 := Except.ok.inj e0
  have e1 := Except.ok.inj e1
  have e2 := Except.ok.inj e2
  simp only [List.cons.injEq, and_true] at e0 e1 e2
  refine ⟨((ls.length - 1 : ℕ) : K) * dt, ?_⟩
  rw [← e0.1, ← e0.2.1, ← e0.2.2, ← e1.1, ← e1.2.1, ← e1.2.2, ← e2.1, ← e2.2.1, ← e2.2.2]

theorem flies_run (env : Env K) (C : K) (tr : Trajectory K) (ws : List (Waypoint K)) (off : K) (s s' : Planner K) (es : List (Event K))
    (hes : ∀ e ∈ es, Background C e ∨ ∃ t, e = .evaluate t false false) (hi : Flies env tr ws off s) (h : Run env s es s') : Flies env tr ws off s' := by
  refine run_induction env s (fun es s' => (∀ e ∈ es, Background C e ∨ ∃ t, e = .evaluate t false false) → Flies env tr ws off s') (fun _ => hi) ?_ es s' h hes
  intro es e m m' ih hs hes
  have f := ih fun e he => hes e (List.mem_append_left _ he)
  rcases hes e (by simp) with hb | ⟨t, rfl⟩
  · obtain ⟨h1, _, h3⟩ := background_not hb
    exact flies_step env tr ws off m m' e h1 h3 f hs
  · exact flies_step env tr ws off m m' (.evaluate t false false) (fun h => h) trivial f hs

/-- C153, the program gets through: once the duration of the plan is known, whatever the planner has done on its own meanwhile and whatever instants were evaluated,
neither the planner fails nor does an evaluation wait or fail, and its line can be written; and for every positive step the loop comes to an end. -/
theorem C153_completes (env : Env K) (henv : Segmentwise env) (hmeets : MeetsVertices env) (C : K) (p : V3 K) (speed : K) (ns : List (String × V3 K))
    (hne : ns ≠ []) (max : K) (s2 : Planner K) (h : Planned env C p speed ns max s2) :
    (∀ (es : List (Event K)) (s : Planner K), (∀ e ∈ es, Background C e ∨ ∃ t, e = .evaluate t false false) → Run env s2 es s →
      (∀ e, Background C e → ∃ o, s.step env e = .ok o) ∧
      ∀ t, ∃ r s' l, s.evaluateTrajectory env t false false = .ok (some (r, s')) ∧ row t r = .ok l) ∧
    ∀ dt, 0 < dt → ∃ ls, Loop env C dt max 0 s2 ls := by
  obtain ⟨tr, ws, i, hfl, hm, rfl, hpos, _⟩ := planned_inv env henv hmeets C p speed ns hne max s2 h
  refine ⟨?_, ?_⟩
  · intro es s hes hrun
    have f := flies_run env C tr ws _ s2 s es hes hfl hrun
    refine ⟨?_, ?_⟩
    · intro e he
      have hidle := (reachable_ctl env s (reachable_of_fresh f.fresh)).idle f.flying.flags.1
      cases he with
      | worker =>
        have : ∃ s', s.workerStep env = .ok s' := by
          unfold Planner.workerStep
          rcases f.flying.pc with hp | hp
          · rw [hp]; exact ⟨_, rfl⟩
          · rw [hp]
            simp only [f.flying.flags.2, f.flying.toModify, List.isEmpty_nil, Bool.not_true, Bool.false_and, Bool.false_eq_true, if_false]
            exact ⟨_, rfl⟩
        obtain ⟨s', hs'⟩ := this
        exact ⟨some s', by simp only [Planner.step, hs', bind, Except.bind]; rfl⟩
      | start => exact ⟨_, rfl⟩
      | finish c _ _ => exact ⟨none, by simp only [Planner.step, Planner.asyncFinish, hidle]⟩
    · intro t
      obtain ⟨x, v, a, s', hev, _⟩ := flies_evaluate env henv tr ws hm _ s f t
      exact ⟨_, s', _, hev, rfl⟩
  · intro dt hdt
    have key : ∀ (n : ℕ) (t : K) (s : Planner K), Flies env tr ws ((i : K) / 10 + 1 / 10) s → (tr.maxTime - dt - t) / dt ≤ n →
        ∃ ls, Loop env C dt tr.maxTime t s ls := by
      intro n
      induction n with
      | zero =>
        intro t s _ hn
        refine ⟨[], .stop ?_⟩
        rw [Nat.cast_zero, div_le_iff₀ hdt, zero_mul] at hn
        exact not_lt.mpr (by linarith)
      | succ n ih =>
        intro t s hs hn
        by_cases ht : t < tr.maxTime - dt
        · obtain ⟨x, v, a, s', hev, hs', _⟩ := flies_evaluate env henv tr ws hm _ s hs t
          obtain ⟨ls, hls⟩ := ih (t + dt) s' hs' (by
            rw [div_le_iff₀ hdt] at hn ⊢
            push_cast at hn
            linarith)
          exact ⟨_, .line ht hev rfl hls⟩
        · exact ⟨[], .stop ht⟩
    exact key _ 0 s2 hfl (Nat.le_ceil _)

/-- C153, the text: if numbers are written without commas and line breaks, what is read from the file line by line and between the commas is the header and the ten
numbers of each line as they were written (and an empty last line). -/
theorem C153_text (write : K → List Char) (hwrite : ∀ x, ',' ∉ write x ∧ '\n' ∉ write x) (ls : List (List K)) (hls : ∀ l ∈ ls, l ≠ []) :
    ((fileText write ls).splitOn '\n').map (·.splitOn ',') =
      ["time", "x", "y", "z", "vx", "vy", "vz", "ax", "ay", "az"].map String.toList :: (ls.map (·.map write) ++ [[[]]]) := by
  have hline : ∀ l : List K, l ≠ [] → (lineText write l).splitOn ',' = l.map write := by
    intro l hl
    unfold lineText
    refine List.splitOn_intercalate ',' ?_ (by simpa using hl)
    intro x hx
    obtain ⟨y, _, rfl⟩ := List.mem_map.mp hx
    exact (hwrite y).1
  have hnl : ∀ l : List K, '\n' ∉ lineText write l := by
    intro l
    unfold lineText
    induction l with
    | nil => simp
    | cons a l ih =>
      cases l with
      | nil => simpa using (hwrite a).2
      | cons b l =>
        rw [List.map_cons, List.map_cons, List.intercalate_cons_cons, ← List.map_cons]
        simp only [List.mem_append, not_or]
        exact ⟨⟨(hwrite a).2, by decide⟩, ih⟩
  have hbody : ∀ ls : List (List K), (ls.flatMap fun l => lineText write l ++ ['\n']).splitOn '\n' = ls.map (lineText write) ++ [[]] := by
    intro ls
    induction ls with
    | nil => rfl
    | cons l ls ih =>
      rw [List.flatMap_cons, List.append_assoc, List.singleton_append, List.splitOn_append_cons_self_of_not_mem (hnl l), ih]
      rfl
  unfold fileText
  rw [List.splitOn_append_cons_self_of_not_mem (by decide), hbody, List.map_cons, List.map_append, List.map_map]
  congr 1
  congr 1
  apply List.map_congr_left
  intro l hl
  exact hline l (hls l hl)

end

/-! ## A run -/

section
variable {K : Type*} [Field K] [LinearOrder K] [IsStrictOrderedRing K] [FloorRing K]

/-- The loop, executed, with nothing happening meanwhile. -/
def csvLoop? (env : Env K) (dt max : K) : ℕ → K → Planner K → Option (List (List K))
  | 0, t, _ => if t < max - dt then none else some []
  | n + 1, t, s =>
    if t < max - dt then
      match s.evaluateTrajectory env t false false with
      | .ok (some (r, s')) =>
        match row t r with
        | .ok l => (csvLoop? env dt max n (t + dt) s').map (l :: ·)
        | .error _ => none
      | _ => none
    else some []

theorem csvLoop?_ok (env : Env K) (C dt max : K) (n : ℕ) (t : K) (s : Planner K) (ls : List (List K)) (h : csvLoop? env dt max n t s = some ls) :
    Loop env C dt max t s ls := by
  induction n generalizing t s ls with
  | zero =>
    unfold csvLoop? at h
    split at h
    · cases h
    · rename_i ht
      rw [← Option.some.inj h]
      exact .stop ht
  | succ n ih =>
    unfold csvLoop? at h
    split at h
    · rename_i ht
      split at h
      · rename_i r s' hs
        split at h
        · rename_i l hl
          obtain ⟨ls', h1, rfl⟩ := Option.map_eq_some_iff.mp h
          exact .line ht hs hl (ih _ _ _ h1)
        · cases h
      · cases h
    · rename_i ht
      rw [← Option.some.inj h]
      exact .stop ht

end

/-- A route of two positions from (0, 0, 0). -/
def csvNames : List (String × V3 ℚ) := [("a", ⟨1, 0, 0⟩), ("b", ⟨2, 1, 0⟩)]

theorem csvNames_waypoints : toWaypoints (⟨7, 7, 7⟩, ⟨8, 8, 8⟩) csvNames = .ok [wp "a" 1 0 0, wp "b" 2 1 0] := by decide +kernel

/-- The events of a run until there is a plan. -/
def csvEvents : List (Event ℚ) :=
  [.worker] ++ .updateVehiclePosition ⟨0, 0, 0⟩ :: ([] ++ .setSpeed 2 :: ([.worker] ++ .setWaypoints [wp "a" 1 0 0, wp "b" 2 1 0] :: planEvents (1 / 100)))

theorem csvSample : ∃ (s2 : Planner ℚ) (ls : List (List ℚ)), Planned hermiteEnv (1 / 100) ⟨0, 0, 0⟩ 2 csvNames 2 s2 ∧
    Writes hermiteEnv (1 / 100) ⟨0, 0, 0⟩ 2 csvNames (1 / 20) ls ∧ ls.length = 39 ∧
    ls.head? = some [0, 22273 / 25000000, 0, 0, 413343 / 10000000, 0, 0, 45927 / 31250, 0, 0] ∧ ls.getLast? = some [19 / 10, 2, 1, 0, 0, 0, 0, 0, 0, 0] := by
  obtain ⟨s1, h1, h⟩ := run?_map csvEvents
    (fun s : Planner ℚ => ((s.getMaxTime hermiteEnv).toOption.join).bind fun r : ℚ × Planner ℚ =>
      (csvLoop? hermiteEnv (1 / 20) r.1 100 0 r.2).map fun ls : List (List ℚ) => decide (r.1 = 2 ∧ ls.length = 39 ∧
        ls.head? = some [0, 22273 / 25000000, 0, 0, 413343 / 10000000, 0, 0, 45927 / 31250, 0, 0] ∧
        ls.getLast? = some [19 / 10, 2, 1, 0, 0, 0, 0, 0, 0, 0]))
    (some true) (by decide +kernel)
  obtain ⟨⟨max, s2⟩, h2, h⟩ := Option.bind_eq_some_iff.mp h
  obtain ⟨ls, h3, h⟩ := Option.map_eq_some_iff.mp h
  obtain ⟨hm, k1, k2, k3⟩ := of_decide_eq_true h
  simp only at hm h3
  subst hm
  have hmax : s1.getMaxTime hermiteEnv = .ok (some (2, s2)) := by
    cases hx : s1.getMaxTime hermiteEnv with
    | error e => rw [hx] at h2; cases h2
    | ok o =>
      rw [hx] at h2
      exact congrArg Except.ok h2
  have hp : Planned hermiteEnv (1 / 100 : ℚ) ⟨0, 0, 0⟩ 2 csvNames 2 s2 := by
    refine .run ⟨0, 0, 0⟩ _ _ csvNames_waypoints [.worker] [] [.worker] (planEvents (1 / 100)) ?_ s1 h1 hmax
    intro e he
    simp only [planEvents, List.cons_append, List.nil_append, List.mem_cons, List.not_mem_nil, or_false] at he
    rcases he with rfl | rfl | rfl | rfl | rfl | rfl | rfl | rfl | rfl | rfl | rfl
    all_goals first
      | exact .worker
      | exact .start
      | exact .finish _ (by norm_num) le_rfl
  exact ⟨s2, ls, hp, ⟨2, s2, hp, csvLoop?_ok _ _ _ _ _ _ _ _ h3⟩, k1, k2, k3⟩

/-- The program does not write the table one expects: the first line, for the instant 0, is already away from the reported position and moving. -/
theorem C153_refuted : ¬ C153Full (K := ℚ) hermiteEnv := by
  intro hfull
  obtain ⟨_, ls, _, hw, _, hh, _⟩ := csvSample
  obtain ⟨tr, hthr, _, hl⟩ := hfull (1 / 100) ⟨0, 0, 0⟩ 2 csvNames (1 / 20) ls (by simp [csvNames]) (by norm_num) hw
  obtain ⟨x, v, a, hx, h0, _⟩ := hl 0 _ (by rw [← List.head?_eq_getElem?]; exact hh)
  rw [Nat.cast_zero, zero_mul, hthr.1] at h0
  have h0 := Except.ok.inj h0
  simp only [List.cons.injEq] at hx h0
  have := hx.2.1.trans h0.1.symm
  norm_num at this

-- The sample run meets the hypotheses of the theorems.
example : ∃ (tr : Trajectory ℚ) (ls : List (List ℚ)), FliesThrough ⟨0, 0, 0⟩ csvNames tr ∧ ls.length = 39 ∧
    (∀ (k : ℕ) (l : List ℚ), ls[k]? = some l → IsLine tr (k * (1 / 20)) (min (k * (1 / 20) + 1 / 10) tr.maxTime) l) ∧
    ∃ t, ls.getLast? = some [t, 2, 1, 0, 0, 0, 0, 0, 0, 0] := by
  obtain ⟨_, ls, _, hw, hlen, _, hlast⟩ := csvSample
  obtain ⟨tr, h1, _, h3⟩ := C153_fast hermiteEnv hermite_segmentwise hermite_meets (1 / 100) (by norm_num) _ _ csvNames (1 / 20) ls (by simp [csvNames])
    (by norm_num) hw
  obtain ⟨t, ht⟩ := C153_end hermiteEnv hermite_segmentwise hermite_meets (1 / 100) _ _ csvNames (1 / 20) ls (by norm_num) (by norm_num) hw _ rfl _ hlast
  exact ⟨tr, ls, h1, hlen, h3, t, by rw [hlast, ht]; rfl⟩

example : ∃ s2 : Planner ℚ, (∀ dt, 0 < dt → ∃ ls, Loop hermiteEnv (1 / 100) dt 2 0 s2 ls) ∧ ∃ o, s2.step hermiteEnv .worker = .ok o := by
  obtain ⟨s2, _, hp, _⟩ := csvSample
  obtain ⟨h1, h2⟩ := C153_completes hermiteEnv hermite_segmentwise hermite_meets (1 / 100) _ _ csvNames (by simp [csvNames]) 2 s2 hp
  exact ⟨s2, h2, (h1 [] s2 (by simp) .nil).1 _ .worker⟩

-- Numbers written in a way that meets the hypotheses of the theorem about the text.
example : ∃ write : ℚ → List Char, (∀ x, ',' ∉ write x ∧ '\n' ∉ write x) ∧
    fileText write [[1, 2]] = "time,x,y,z,vx,vy,vz,ax,ay,az\np,p\n".toList := by
  refine ⟨fun x => if 0 < x then ['p'] else ['n'], ?_, by decide +kernel⟩
  intro x
  by_cases h : 0 < x
  · simp [h]
  · simp [h]

end Verif.Properties
