import Verif.Spec.Moves
import Verif.Lemmas.ModifierCont
import Verif.Lemmas.PlannerRequests
import Verif.Lemmas.PlannerClock

/-! # Lemmas for property C145 -/

set_option linter.unusedSectionVars false

namespace Verif.Lemmas
open Verif Verif.Spec

section
variable {K : Type*} [Field K] [LinearOrder K] [IsStrictOrderedRing K]

/-- What the moves `ms` make of the waypoint `w`. -/
structure MovedBy (ms : List (V3 K × K)) (w w' : Waypoint K) : Prop where
  name : w'.name = w.name
  time : w'.time = w.time
  current : w'.current = endsAt w.current ms
  mods : ∃ added : List (V3 (Modifier K)), w'.modifiers = w.modifiers ++ added ∧ ∀ ax,
    added.map (comp · ax) = (stepsFrom ax (comp w.current ax) ms).map fun m => ⟨(w.time - m.2) / 3, (w.time - m.2) / 3 * ((w.time - m.2) / 3), w.time, m.1⟩

theorem movedBy_refl (w : Waypoint K) : MovedBy [] w w := ⟨rfl, rfl, rfl, [], by simp, by simp [stepsFrom]⟩

theorem endsAt_snoc (p : V3 K) (ms : List (V3 K × K)) (m : V3 K × K) : endsAt p (ms ++ [m]) = m.1 := by simp [endsAt]

theorem stepsFrom_snoc (ax : Axis) (p : V3 K) (ms : List (V3 K × K)) (m : V3 K × K) :
    stepsFrom ax (comp p ax) (ms ++ [m]) = stepsFrom ax (comp p ax) ms ++ [(comp m.1 ax - comp (endsAt p ms) ax, m.2)] := by
  induction ms generalizing p with
  | nil => rfl
  | cons a ms ih =>
    simp only [List.cons_append, stepsFrom]
    rw [ih a.1]
    have : endsAt p (a :: ms) = endsAt a.1 ms := by
      cases hl : ms.getLast? with
      | none => rw [List.getLast?_eq_none_iff.mp hl]; rfl
      | some q => simp [endsAt, List.getLast?_cons, hl]
    rw [this]

theorem movedBy_set (ms : List (V3 K × K)) (w w' w'' : Waypoint K) (p : V3 K) (a : K) (ha : 0 < a) (h : MovedBy ms w w')
    (hs : w'.setCurrentPosition p a = .ok w'') : MovedBy (ms ++ [(p, a)]) w w'' := by
  obtain ⟨h1, h2, h3, added, h4, h5⟩ := h
  obtain ⟨v, m, _, rfl, hm⟩ := setCurrentPosition_spec w' w'' p a hs
  refine ⟨h1, h2, (endsAt_snoc w.current ms (p, a)).symm, added ++ [m], by rw [← List.append_assoc, ← h4], fun ax => ?_⟩
  rw [stepsFrom_snoc, List.map_append, List.map_append, h5 ax, List.map_singleton, List.map_singleton, hm ax, ← h3, ← h2]
  congr 2
  cases ax <;> simp [width, ha]

theorem movesOf_append (d e : List (MoveDone K)) (w : Waypoint K) : movesOf (d ++ e) w = movesOf d w ++ movesOf e w := by
  simp [movesOf, List.filterMap_append]

theorem applyLoop_moved (w0s : List (Waypoint K)) (d : List (MoveDone K)) (n : String) (p : V3 K) (g : K) (hg : 0 < g) :
    ∀ (ws : List (Waypoint K)) (r : Bool × List (Waypoint K)), List.Forall₂ (fun w w' => MovedBy (movesOf d w) w w') w0s ws →
      Planner.applyLoop n p g ws = .ok r → List.Forall₂ (fun w w' => MovedBy (movesOf (d ++ [⟨n, p, g⟩]) w) w w') w0s r.2 := by
  intro ws r h
  induction h generalizing r with
  | nil =>
    intro hr
    rw [← Except.ok.inj hr]
    exact .nil
  | @cons w w' ws0 ws hw _ ih =>
    intro hr
    unfold Planner.applyLoop at hr
    obtain ⟨r1, e1, hr⟩ := bind_ok_split hr
    have i1 := ih r1 e1
    split at hr
    · rename_i hx
      obtain ⟨w'', e2, hr⟩ := bind_ok_split hr
      rw [← Except.ok.inj hr]
      refine .cons ?_ i1
      rw [movesOf_append]
      have : movesOf [(⟨n, p, g⟩ : MoveDone K)] w = [(p, g)] := by
        simp only [movesOf, List.filterMap_cons, List.filterMap_nil]
        rw [if_pos ⟨by rw [← hw.name]; exact hx.1.symm, by rw [← hw.name]; exact hx.2⟩]
      rw [this]
      exact movedBy_set _ w w' w'' p g hg hw e2
    · rename_i hx
      rw [← Except.ok.inj hr]
      refine .cons ?_ i1
      rw [movesOf_append]
      have : movesOf [(⟨n, p, g⟩ : MoveDone K)] w = [] := by
        simp only [movesOf, List.filterMap_cons, List.filterMap_nil]
        rw [if_neg]
        rintro ⟨k1, k2⟩
        exact hx ⟨by rw [hw.name]; exact k1.symm, by rw [hw.name]; exact k2⟩
      rw [this, List.append_nil]
      exact hw

theorem applyAll_moved (w0s : List (Waypoint K)) (ms : List (String × V3 K)) :
    ∀ (d : List (MoveDone K)) (s s' : Planner K), 0 < s.params.lastGlobal → List.Forall₂ (fun w w' => MovedBy (movesOf d w) w w') w0s s.dyn →
      Planner.applyAll ms s = .ok s' →
      List.Forall₂ (fun w w' => MovedBy (movesOf (d ++ ms.map fun m => ⟨m.1, m.2, s.params.lastGlobal⟩) w) w w') w0s s'.dyn := by
  induction ms with
  | nil =>
    intro d s s' _ h hs
    rw [← Except.ok.inj hs]
    simpa using h
  | cons m ms ih =>
    intro d s s' hg h hs
    obtain ⟨n, p⟩ := m
    unfold Planner.applyAll at hs
    obtain ⟨s1, e1, hs⟩ := bind_ok_split hs
    unfold Planner.applyWaypointModification at e1
    obtain ⟨r, e2, e1⟩ := bind_ok_split e1
    have e1 := Except.ok.inj e1
    have k1 := applyLoop_moved w0s d n p s.params.lastGlobal hg s.dyn r h e2
    have hl : s1.params.lastGlobal = s.params.lastGlobal := by rw [← e1]
    have := ih (d ++ [⟨n, p, s.params.lastGlobal⟩]) s1 s' (by rw [hl]; exact hg) (by rw [← e1]; exact k1) hs
    rw [hl] at this
    simpa using this

/-! ## Values -/

theorem kick_eval (exp : K → K) (T a d t : K) (ha : a ≠ T) (k : ℕ) :
    (⟨(T - a) / 3, (T - a) / 3 * ((T - a) / 3), T, d⟩ : Modifier K).eval exp t k = .ok (kick exp k T a d t) := by
  have hne : T - a ≠ 0 := sub_ne_zero.mpr ha.symm
  have hsq : (T - a) / 3 * ((T - a) / 3) ≠ 0 := by
    have : (T - a) / 3 ≠ 0 := div_ne_zero hne (by norm_num)
    exact mul_ne_zero this this
  unfold kick
  by_cases h : |d| < 2 / 100 ∨ 7 / 6 * (T - a) < |t - T|
  · rw [if_pos h]
    rcases h with h | h
    · exact eval_small exp _ t k h
    · refine eval_outside exp _ t k ?_
      show 7 / 2 * ((T - a) / 3) < |t - T|
      linarith
  · rw [if_neg h]
    rw [not_or, not_lt, not_lt] at h
    obtain ⟨e0, e1, e2⟩ := eval_active exp (⟨(T - a) / 3, (T - a) / 3 * ((T - a) / 3), T, d⟩ : Modifier K) t h.1 (by
      show |t - T| ≤ 7 / 2 * ((T - a) / 3)
      linarith [h.2]) hsq
    have x0 : -1 * (t - T) * (t - T) / (2 * ((T - a) / 3 * ((T - a) / 3))) = -(9 / 2 * ((t - T) / (T - a)) ^ 2) := by
      field_simp
      ring
    have x1 : -((t - T) * (t - T)) / (2 * ((T - a) / 3 * ((T - a) / 3))) = -(9 / 2 * ((t - T) / (T - a)) ^ 2) := by
      field_simp
      ring
    have x2 : (t - T) / ((T - a) / 3 * ((T - a) / 3)) = 9 * (t - T) / (T - a) ^ 2 := by
      field_simp
      norm_num
    dsimp only at e0 e1 e2
    match k with
    | 0 =>
      rw [show ((0 : ℕ) : ℤ) = 0 from rfl, e0, x0]
      rfl
    | 1 =>
      rw [show ((1 : ℕ) : ℤ) = 1 from rfl, e1, x1, x2]
      rfl
    | 2 =>
      rw [show ((2 : ℕ) : ℤ) = 2 from rfl, e2, x1, x2, ← pow_two]
      rfl
    | k + 3 => exact eval_other exp _ t _ (by omega) (by omega) (by omega)

theorem movedBy_values (exp : K → K) (ms : List (V3 K × K)) (w w' : Waypoint K) (h : MovedBy ms w w') (hne : ∀ m ∈ ms, m.2 ≠ w.time) (k : ℕ) (t : K) (ax : Axis) :
    (w'.modifiers.map fun m => modVal exp (comp m ax) k t).sum = (w.modifiers.map fun m => modVal exp (comp m ax) k t).sum +
      ((stepsFrom ax (comp w.current ax) ms).map fun m => kick exp k w.time m.2 m.1 t).sum := by
  obtain ⟨_, _, _, added, h4, h5⟩ := h
  rw [h4, List.map_append, List.sum_append]
  congr 1
  have h6 : (added.map fun m => modVal exp (comp m ax) k t) = (added.map (comp · ax)).map fun m => modVal exp m k t := by
    rw [List.map_map]; rfl
  rw [h6, h5 ax, List.map_map]
  congr 1
  apply List.map_congr_left
  intro m hm
  refine modVal_eq (kick_eval exp w.time m.2 m.1 t ?_ k)
  have : ∀ (ms : List (V3 K × K)) (x : K) (m : K × K), m ∈ stepsFrom ax x ms → ∃ m' ∈ ms, m'.2 = m.2 := by
    intro ms
    induction ms with
    | nil => intro x m hm; cases hm
    | cons a ms ih =>
      intro x m hm
      rcases List.mem_cons.mp hm with rfl | hm
      · exact ⟨a, by simp, rfl⟩
      · obtain ⟨m', h1, h2⟩ := ih _ m hm
        exact ⟨m', by simp [h1], h2⟩
  obtain ⟨m', h1, h2⟩ := this _ _ m hm
  rw [← h2]
  exact hne m' h1

theorem movedBy_width (ms : List (V3 K × K)) (w w' : Waypoint K) (h : MovedBy ms w w') (hne : ∀ m ∈ ms, m.2 ≠ w.time)
    (hz : ∀ m ∈ w.modifiers, ∀ ax, (comp m ax).sigmaSq ≠ 0) : ∀ m ∈ w'.modifiers, ∀ ax, (comp m ax).sigmaSq ≠ 0 := by
  obtain ⟨_, _, _, added, h4, h5⟩ := h
  intro m hm ax
  rw [h4] at hm
  rcases List.mem_append.mp hm with hm | hm
  · exact hz m hm ax
  · have : comp m ax ∈ added.map (comp · ax) := List.mem_map.mpr ⟨m, hm, rfl⟩
    rw [h5 ax] at this
    obtain ⟨q, hq, he⟩ := List.mem_map.mp this
    rw [← he]
    have : ∀ (ms : List (V3 K × K)) (x : K) (m : K × K), m ∈ stepsFrom ax x ms → ∃ m' ∈ ms, m'.2 = m.2 := by
      intro ms
      induction ms with
      | nil => intro x m hm; cases hm
      | cons a ms ih =>
        intro x m hm
        rcases List.mem_cons.mp hm with rfl | hm
        · exact ⟨a, by simp, rfl⟩
        · obtain ⟨m', h1, h2⟩ := ih _ m hm
          exact ⟨m', by simp [h1], h2⟩
    obtain ⟨m', h1, h2⟩ := this _ _ q hq
    have hx : w.time - q.2 ≠ 0 := by rw [← h2]; exact sub_ne_zero.mpr (hne m' h1).symm
    have : (w.time - q.2) / 3 ≠ 0 := div_ne_zero hx (by norm_num)
    exact mul_ne_zero this this

theorem movesOf_unnamed (d : List (MoveDone K)) (w : Waypoint K) (h : w.name = "") : movesOf d w = [] := by
  simp [movesOf, h]

/-- The sums over all compensations of named waypoints. -/
theorem allMods_moved (exp : K → K) (d : List (MoveDone K)) (ws ws' : List (Waypoint K)) (h : List.Forall₂ (fun w w' => MovedBy (movesOf d w) w w') ws ws')
    (hne : ∀ w ∈ ws, ∀ m ∈ movesOf d w, m.2 ≠ w.time) (k : ℕ) (t : K) (ax : Axis) :
    ((allMods ws').map fun m => modVal exp (comp m ax) k t).sum = ((allMods ws).map fun m => modVal exp (comp m ax) k t).sum +
      (ws.map (shiftOf exp k d t ax)).sum := by
  induction h with
  | nil => simp [allMods]
  | @cons w w' ws ws' hw _ ih =>
    have ih := ih (fun u hu => hne u (by simp [hu]))
    rw [List.map_cons, List.sum_cons]
    unfold allMods at ih ⊢
    by_cases hn : w.name = ""
    · have hn' : w'.name = "" := hw.name.trans hn
      rw [List.filter_cons_of_neg (by simp [hn']), List.filter_cons_of_neg (by simp [hn]), ih]
      have : shiftOf exp k d t ax w = 0 := by simp [shiftOf, movesOf_unnamed d w hn, stepsFrom]
      rw [this, zero_add]
    · have hn' : w'.name ≠ "" := by rw [hw.name]; exact hn
      rw [List.filter_cons_of_pos (by simp [hn']), List.filter_cons_of_pos (by simp [hn])]
      simp only [List.flatMap_cons, List.map_append, List.sum_append]
      rw [ih, movedBy_values exp _ w w' hw (hne w (by simp)) k t ax]
      unfold shiftOf
      ring

end

/-! ## The account is right -/

section
variable {K : Type*} [Field K] [LinearOrder K] [IsStrictOrderedRing K] [FloorRing K]

structure OnDesk (s0 : Planner K) (d : Desk K) (s : Planner K) : Prop where
  traj : s.traj = s0.traj
  gtlg : s.params.gtlg = s0.params.gtlg
  tOffset : s.params.tOffset = s0.params.tOffset
  flags : s.computing = false ∧ s.generateNew = false
  pc : s.pc = if d.seen then .apply else .top
  waiting : s.toModify = d.waiting
  now : s.params.lastGlobal = d.now
  dyn : List.Forall₂ (fun w w' => MovedBy (movesOf d.done w) w w') s0.dyn s.dyn

theorem askMove_eq (n : String) (p : V3 K) (ms : List (String × V3 K)) : Planner.putModification n p ms = askMove n p ms := by
  induction ms with
  | nil => rfl
  | cons m ms ih =>
    unfold Planner.putModification askMove
    rw [ih]

theorem onDesk_micro (env : Env K) (s0 : Planner K) (d : Desk K) (e : Event K) (s s' : Planner K) (he : OnlyMoves e) (hc : Ctl s) (hpos : 0 < d.now)
    (hi : OnDesk s0 d s) (h : Micro env e s s') : OnDesk s0 (d.on e) s' := by
  obtain ⟨i1, i2, i3, i4, i5, i6, i7, i8⟩ := hi
  have nopc : ∀ {x : WorkerPc}, s.pc = x → x ≠ .top → x ≠ .apply → False := by
    intro x hx h1 h2
    rw [i5] at hx
    split at hx
    · exact h2 hx.symm
    · exact h1 hx.symm
  cases h with
  | setWaypoints _ ws => exact he.elim
  | append _ w => exact he.elim
  | modify _ n p g =>
    have hg : g = false := he
    subst hg
    refine ⟨i1, i2, i3, ⟨i4.1, rfl⟩, i5, ?_, i7, i8⟩
    show Planner.putModification n p s.toModify = _
    rw [askMove_eq, i6]
    rfl
  | modifyMany _ ms => exact he.elim
  | takeOver _ _ new off hcomp hr _ hfit => rw [i4.1] at hcomp; cases hcomp
  | evalTime _ t o htr => exact ⟨i1, i2, i3, i4, i5, i6, rfl, i8⟩
  | goCollect _ hp hg hz hcomp => rw [i4.2] at hg; cases hg
  | goApply _ hp hm hcomp hno =>
    have hseen : d.seen = false := by
      cases hx : d.seen with
      | false => rfl
      | true => rw [i5, hx] at hp; cases hp
    have hd : d.on .worker = { d with seen := true } := by
      have hne : d.waiting.isEmpty = false := by
        rw [← i6]
        cases hl : s.toModify with
        | nil => exact absurd hl hm
        | cons _ _ => rfl
      show (if d.seen then _ else _) = _
      rw [hseen, if_neg (by decide), hne]
      rfl
    rw [hd]
    exact ⟨i1, i2, i3, i4, rfl, i6, i7, i8⟩
  | collect _ ws hp hw => exact (nopc hp (by decide) (by decide)).elim
  | nothingToPlan _ hp _ => exact (nopc hp (by decide) (by decide)).elim
  | snapshot _ hp _ => exact (nopc hp (by decide) (by decide)).elim
  | stitch _ _ hp _ _ => exact (nopc hp (by decide) (by decide)).elim
  | scratch _ _ hp _ _ => exact (nopc hp (by decide) (by decide)).elim
  | planned _ hp => exact (nopc hp (by decide) (by decide)).elim
  | launch _ hp => exact (nopc hp (by decide) (by decide)).elim
  | launched _ hp => exact (nopc hp (by decide) (by decide)).elim
  | apply _ s2 hp ha =>
    have hseen : d.seen = true := by
      cases hx : d.seen with
      | true => rfl
      | false => rw [i5, hx] at hp; cases hp
    obtain ⟨_, dd, r, hs2, _⟩ := applyAll_rel (fun _ _ => True) (fun _ => trivial) (fun _ _ _ _ _ => trivial)
      (fun _ _ _ _ _ => trivial) _ s s2 ha
    have hd : d.on .worker = { waiting := [], seen := false, now := d.now, done := d.done ++ d.waiting.map fun m => ⟨m.1, m.2, d.now⟩ } := by
      show (if d.seen then _ else _) = _
      rw [hseen, if_pos rfl]
    rw [hd]
    have hf := applyAll_moved s0.dyn s.toModify d.done s s2 (by rw [i7]; exact hpos) i8 ha
    rw [i6, i7] at hf
    exact ⟨by rw [hs2]; exact i1, by rw [hs2]; exact i2, by rw [hs2]; exact i3, by rw [hs2]; exact i4, rfl, rfl, by rw [hs2]; exact i7, hf⟩
  | asyncStart _ hf => rw [hc.idle i4.1] at hf; cases hf
  | asyncFinish _ _ _ _ _ hf _ => rw [hc.idle i4.1] at hf; cases hf
  | asyncFail _ _ _ hf _ => rw [hc.idle i4.1] at hf; cases hf
  | setSpeed _ v => exact ⟨i1, i2, i3, i4, i5, i6, i7, i8⟩
  | clearRegenerated _ => exact ⟨i1, i2, i3, i4, i5, i6, i7, i8⟩
  | vehicle _ p => exact ⟨i1, i2, i3, i4, i5, i6, i7, i8⟩

theorem onDesk_step (env : Env K) (s0 : Planner K) (d : Desk K) (e : Event K) (s s' : Planner K) (he : OnlyMoves e) (hc : Ctl s) (hpos : 0 < d.now)
    (hi : OnDesk s0 d s) (h : s.step env e = .ok (some s')) : OnDesk s0 (d.on e) s' := by
  by_cases hev : ∃ t o, e = .evaluate t o false
  · obtain ⟨t, o, rfl⟩ := hev
    obtain ⟨r, m, _, hm, hn⟩ := step_evaluate env s s' t o false h
    have hms : m = s := by
      unfold Planner.checkTrajectoryGenerated at hm
      rw [hi.flags.1] at hm
      simp only [Bool.false_and, Bool.false_eq_true, if_false] at hm
      split at hm
      · cases hm
      · exact (Option.some.inj (Except.ok.inj hm)).symm
    subst hms
    obtain ⟨hne, rfl⟩ := evaluateNow_inv env m s' t o false r hn
    exact onDesk_micro env s0 d _ m _ he hc hpos hi (.evalTime m t o hne)
  · rcases step_micro' env e s s' h with ⟨rfl, hx⟩ | h | ⟨m, ⟨t, o, rfl⟩, h1, h2⟩
    · cases e with
      | worker =>
        obtain ⟨k1, _, k3⟩ := hx rfl
        have hw : d.waiting = [] := by
          rw [← hi.waiting]
          rcases k3 with k3 | k3
          · exact k3
          · rw [hi.flags.1] at k3; cases k3
        have hseen : d.seen = false := by
          cases hx : d.seen with
          | false => rfl
          | true => rw [hi.pc, hx] at k1; cases k1
        have hd : d.on .worker = d := by
          show (if d.seen then _ else _) = _
          rw [hseen, if_neg (by decide), hw]
          cases d
          simp only at hw hseen
          subst hw hseen
          rfl
        rw [hd]
        exact hi
      | modifyWaypoint n p g =>
        have hg : g = false := he
        subst hg
        have h := Option.some.inj (Except.ok.inj h)
        exact onDesk_micro env s0 d _ s' s' he hc hpos hi (by
          conv => rhs; rw [← h]
          exact .modify s' n p false)
      | evaluate t o f =>
        cases f with
        | false => exact absurd ⟨t, o, rfl⟩ hev
        | true => exact hi
      | _ => exact hi
    · exact onDesk_micro env s0 d e s s' he hc hpos hi h
    · exact absurd ⟨t, o, rfl⟩ hev

end

end Verif.Lemmas
