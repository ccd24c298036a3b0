import Verif.Lemmas.PlannerFineSample
import Verif.Spec.Clock

/-!
# C108 to C111: calls of the evaluating thread, step by step, among everything else

`evaluateTrajectory`, `getMaxTime`, `getMinTime` and `getDynamicWaypoints` are cut into the steps that touch shared state once
(`Model/PlannerFine.lean`); between any two of them other threads may request, set, plan, compute and apply updates
(`Spec/PlannerFine.lean`). The evaluating calls themselves are made one after the other.
-/

namespace Verif.Properties
open Verif Verif.Spec Verif.Lemmas

section
variable {K : Type*} [Field K] [LinearOrder K] [IsStrictOrderedRing K] [FloorSemiring K]

/-! ## C108 -/

/-- C108, the claim: all references an `evaluateTrajectory` returns are those of one state the planner was in during the call. -/
def C108Full (K : Type*) [Field K] [LinearOrder K] [IsStrictOrderedRing K] [FloorSemiring K] : Prop :=
  ∀ (env : Env K), Segmentwise env → ∀ (t : K) (onlyPositions forPlotting : Bool) (fs : List (Fine K)) (f : Fine K) (r : References K),
    During env (.evaluate t onlyPositions forPlotting) fs f → f.c = .evaluated r →
    ∃ f' ∈ fs, ∃ tr, f'.p.traj = some tr ∧ ∀ (k : ℕ) (v : V3 K), refOrder r k = some v →
      IsReference env tr f'.p.dyn (t - f'.p.params.gtlg + f'.p.params.tOffset) (t + f'.p.params.tOffset) k v

/-- C108 for each derivative order by itself: whatever other threads do, a returned derivative is the reference of that order in a state
the planner was in during the call, with the plan, start time and time compensation that are in force when the call returns; the orders
asked for are returned. -/
theorem C108_partial (env : Env K) (henv : Segmentwise env) (t : K) (onlyPositions forPlotting : Bool) (fs : List (Fine K)) (f : Fine K)
    (r : References K) (h : During env (.evaluate t onlyPositions forPlotting) fs f) (hr : f.c = .evaluated r) :
    (∀ (k : ℕ) (v : V3 K), refOrder r k = some v → ∃ f' ∈ fs, ¬ TakingOver f'.c ∧
      f'.p.traj = f.p.traj ∧ f'.p.params.gtlg = f.p.params.gtlg ∧ f'.p.params.tOffset = f.p.params.tOffset ∧
      ∃ tr, f.p.traj = some tr ∧ IsReference env tr f'.p.dyn (t - f.p.params.gtlg + f.p.params.tOffset) (t + f.p.params.tOffset) k v) ∧
    (∀ k ≤ 2, (refOrder r k).isSome ↔ (k = 0 ∨ onlyPositions = false)) := by
  have hc := during_call henv h
  unfold CallInv at hc
  rw [hr] at hc
  obtain ⟨_, done, rfl, hall, hlen, _⟩ := hc
  have hget : ∀ (k : ℕ) (v : V3 K), refOrder (referencesOf done) k = some v → done[k]? = some v := by
    intro k v hv
    cases onlyPositions with
    | true =>
      match done, hlen with
      | [p], _ =>
        match k, hv with
        | 0, hv => exact hv
        | 1, hv => cases hv
        | 2, hv => cases hv
        | k + 3, hv => cases hv
    | false =>
      match done, hlen with
      | [p, w, a], _ =>
        match k, hv with
        | 0, hv => exact hv
        | 1, hv => exact hv
        | 2, hv => exact hv
        | k + 3, hv => cases hv
  refine ⟨fun k v hv => hall k v (hget k v hv), ?_⟩
  intro k hk
  cases onlyPositions with
  | true =>
    match done, hlen with
    | [p], _ =>
      match k, hk with
      | 0, _ => simp [refOrder, referencesOf]
      | 1, _ => simp [refOrder, referencesOf]
      | 2, _ => simp [refOrder, referencesOf]
  | false =>
    match done, hlen with
    | [p, w, a], _ =>
      match k, hk with
      | 0, _ => simp [refOrder, referencesOf]
      | 1, _ => simp [refOrder, referencesOf]
      | 2, _ => simp [refOrder, referencesOf]

/-- C108 when the waypoints of the plan are left alone during the call, or only positions are asked for: the references are those of one
state. -/
theorem C108_undisturbed (env : Env K) (henv : Segmentwise env) (t : K) (onlyPositions forPlotting : Bool) (fs : List (Fine K)) (f : Fine K)
    (r : References K) (h : During env (.evaluate t onlyPositions forPlotting) fs f) (hr : f.c = .evaluated r)
    (hu : onlyPositions = true ∨ ∀ f' ∈ fs, ¬ TakingOver f'.c → f'.p.traj = f.p.traj → f'.p.dyn = f.p.dyn) :
    ∃ f' ∈ fs, ∃ tr, f'.p.traj = some tr ∧ ∀ (k : ℕ) (v : V3 K), refOrder r k = some v →
      IsReference env tr f'.p.dyn (t - f'.p.params.gtlg + f'.p.params.tOffset) (t + f'.p.params.tOffset) k v := by
  obtain ⟨h1, h2⟩ := C108_partial env henv t onlyPositions forPlotting fs f r h hr
  obtain ⟨f0, hf0, hn0, g1, g2, g3, tr, g4, g5⟩ := h1 0 r.position rfl
  refine ⟨f0, hf0, tr, g1.trans g4, ?_⟩
  intro k v hv
  obtain ⟨f', hf', hn', e1, e2, e3, tr', e4, e5⟩ := h1 k v hv
  rw [g4] at e4
  obtain rfl := Option.some.inj e4
  rw [g2, g3]
  rcases hu with ho | hd
  · have hk : k = 0 := by
      by_contra hne
      have hk2 : k ≤ 2 := by
        by_contra hk2
        have : refOrder r k = none := by
          match k, hk2 with
          | 0, h | 1, h | 2, h => exact absurd h (by decide)
          | k + 3, _ => rfl
        rw [this] at hv; cases hv
      rcases (h2 k hk2).mp (by rw [hv]; rfl) with h | h
      · exact hne h
      · rw [ho] at h; cases h
    subst hk
    have : v = r.position := (Option.some.inj hv).symm
    subst this
    exact g5
  · rw [hd f0 hf0 hn0 g1, ← hd f' hf' hn' e1]
    exact e5

/-- C108: the instant of the evaluation is recorded (it is where later plans are attached), unless the evaluation is for plotting. -/
theorem C108_recorded (env : Env K) (henv : Segmentwise env) (t : K) (onlyPositions : Bool) (fs : List (Fine K)) (f : Fine K)
    (r : References K) (h : During env (.evaluate t onlyPositions false) fs f) (hr : f.c = .evaluated r) :
    f.p.params.lastGlobal = t ∧ f.p.params.lastLocal = t - f.p.params.gtlg := by
  have hc := during_call henv h
  unfold CallInv at hc
  rw [hr] at hc
  exact hc.1 rfl

theorem during_first {env : Env K} {k : Purpose K} {fs : List (Fine K)} {f : Fine K} (h : During env k fs f) :
    ∃ f0 gs, fs = f0 :: gs ∧ f0.c = .start k := by
  induction h with
  | start _ _ => exact ⟨_, [], rfl, rfl⟩
  | @inside fs f f' _ _ ih =>
    obtain ⟨f0, gs, rfl, hc⟩ := ih
    exact ⟨f0, gs ++ [f'], rfl, hc⟩

/-- C108: a plan that waits when the call begins is taken over by it, whatever other threads do during the call. -/
theorem C108_takes (env : Env K) (t : K) (onlyPositions forPlotting : Bool) (f0 : Fine K) (fs : List (Fine K)) (f : Fine K)
    (r : References K) (h : During env (.evaluate t onlyPositions forPlotting) (f0 :: fs) f) (hr : f.c = .evaluated r) (new : Trajectory K)
    (hn : f0.p.future = .ready new) (hc : f0.p.computing = true) : f.p.traj = some new := by
  have key : ∀ gs f, During env (.evaluate t onlyPositions forPlotting) gs f → gs.head? = some f0 → PlanAt new f := by
    intro gs f hd
    induction hd with
    | start _ _ =>
      intro hh
      obtain rfl := Option.some.inj hh
      exact ⟨hn, hc⟩
    | inside hd hs ih =>
      intro hh
      obtain ⟨f1, hs', rfl, _⟩ := during_first hd
      have hp := ih hh
      have hi := interleaved_inv (during_interleaved hd)
      cases hs with
      | own h =>
        refine planAt_own h (fun k hk => ?_) hp
        have := during_start hd k hk
        subst this
        exact ⟨by simp, by simp⟩
      | other c h => exact planAt_other hi.1 hi.2 h hp
  have := key _ f h rfl
  unfold PlanAt at this
  rw [hr] at this
  exact this

/-- The hypotheses of C108 are met: an evaluation in the course of which a plan is taken over while another thread appends a waypoint. -/
def appending1 : List Act := owns 11 ++ [.other (.appendWaypoint (wp "c" 3 3 3))] ++ owns 15

theorem appending1_ok : ∀ a ∈ appending1, ActOk a ∧ NoCall a := by
  intro a ha
  rcases List.mem_append.mp ha with h | h
  · rcases List.mem_append.mp h with h | h
    · exact owns_ok _ a h
    · rw [List.mem_singleton.mp h]; exact ⟨⟨trivial, (wp_bookkept _ _ _ _).1⟩, trivial⟩
  · exact owns_ok _ a h

example : ∃ (fs : List (Fine ℚ)) (f : Fine ℚ) (r : References ℚ), During hermiteEnv (.evaluate 0 false false) fs f ∧ f.c = .evaluated r ∧
    r.velocity ≠ none ∧ ∃ f0 gs new, fs = f0 :: gs ∧ f0.p.future = .ready new ∧ f0.p.computing = true := by
  obtain ⟨fs, f, hd, hq⟩ := sampleCall_map planned1 appending1 (.evaluate 0 false false) planned1_ok appending1_ok
    (fun (fs : List (Fine ℚ)) (f : Fine ℚ) => ((result? f.c).map fun (r : References ℚ) => decide (r.velocity ≠ none),
      fs.head?.map fun (f0 : Fine ℚ) => waiting? f0.p)) (some true, some true)
    (by decide +kernel)
  obtain ⟨h1, h2⟩ := Prod.mk.inj hq
  obtain ⟨r, hr, hv⟩ := Option.map_eq_some_iff.mp h1
  obtain ⟨f0, gs, rfl, _⟩ := during_first hd
  obtain ⟨new, hn, hc⟩ := waiting?_true (Option.some.inj h2)
  exact ⟨_, f, r, hd, result?_some hr, of_decide_eq_true hv, f0, gs, new, rfl, hn, hc⟩

/-- A waypoint of the plan is moved with `modifyWaypoint(..., false)` ... -/
def moving1 : List Act := flying1 ++ [.other (.modifyWaypoint "a" ⟨1, 5, 0⟩ false)]

theorem moving1_ok : ∀ a ∈ moving1, ActOk a := by
  intro a ha
  rcases List.mem_append.mp ha with h | h
  · exact flying1_ok a h
  · rw [List.mem_singleton.mp h]; exact ⟨trivial, trivial⟩

/-- ... and the worker applies the change after the position and before the velocity has been computed. -/
def torn1 : List Act := owns 9 ++ [.other .worker, .other .worker] ++ owns 4

theorem torn1_ok : ∀ a ∈ torn1, ActOk a ∧ NoCall a := by
  intro a ha
  rcases List.mem_append.mp ha with h | h
  · rcases List.mem_append.mp h with h | h
    · exact owns_ok _ a h
    · rcases List.mem_cons.mp h with rfl | h
      · exact ⟨⟨trivial, trivial⟩, trivial⟩
      · rw [List.mem_singleton.mp h]; exact ⟨⟨trivial, trivial⟩, trivial⟩
  · exact owns_ok _ a h

/-- C108 is false of the code: the position is that of the old waypoint, the velocity that of the moved one. -/
theorem C108_refuted : ¬ C108Full ℚ := by
  intro h
  obtain ⟨fs, f, hd, hq⟩ := sampleCall_map moving1 torn1 (.evaluate (1 / 2) false false) moving1_ok torn1_ok
    (fun fs f => (result? f.c).map fun r => (r.velocity.isSome, fs.all (disagrees (1 / 2) r))) (some (true, true)) (by decide +kernel)
  obtain ⟨r, hr, hv⟩ := Option.map_eq_some_iff.mp hq
  obtain ⟨hv, hall⟩ := Prod.mk.inj hv
  obtain ⟨v, hv⟩ := Option.isSome_iff_exists.mp hv
  obtain ⟨f', hf', tr, htr, h1⟩ := h hermiteEnv hermite_segmentwise (1 / 2) false false fs f r hd (result?_some hr)
  exact disagrees_spec (List.all_eq_true.mp hall f' hf') htr hv (h1 0 r.position rfl) (h1 1 v hv)

/-! ## C109 -/

/-- C109, the claim: whenever an onlooker would be told that the plan has changed (`getWasTrajectoryRegenerated`), or that no new one is
being made (`getComputingNewTrajectoryStatus`), trajectory, start time and waypoints belong together. -/
def C109Full (K : Type*) [Field K] [LinearOrder K] [IsStrictOrderedRing K] [FloorSemiring K] : Prop :=
  ∀ (env : Env K), Segmentwise env → ∀ (f : Fine K), Interleaved env f → ∀ (tr : Trajectory K), f.p.traj = some tr →
    (f.p.regenerated = true ∨ f.p.computing = false) → Timed tr f.p.params.gtlg f.p.dyn

/-- C109 is false of the code: the change is announced (`dt.cpp` 410) before the waypoints are replaced (415-417). -/
theorem C109_refuted : ¬ C109Full ℚ := by
  intro h
  obtain ⟨f, hi, hq⟩ := sample_map (planned1 ++ [.call (.evaluate 0 false false)] ++ owns 14)
    (fun a ha => by
      rcases List.mem_append.mp ha with h | h
      · rcases List.mem_append.mp h with h | h
        · exact planned1_ok a h
        · rw [List.mem_singleton.mp h]; trivial
      · exact (owns_ok 14 a h).1)
    (fun f : Fine ℚ => decide (f.p.traj.isSome = true ∧ f.p.regenerated = true ∧ f.p.dyn = [])) true (by decide +kernel)
  obtain ⟨h1, h2, h3⟩ := of_decide_eq_true hq
  obtain ⟨tr, htr⟩ := Option.isSome_iff_exists.mp h1
  have := (h hermiteEnv hermite_segmentwise f hi tr htr (Or.inl h2)).1
  rw [h3] at this
  simp at this

/-- C109 as far as the status goes: while no new plan is being made the trajectory is usable, every waypoint of the plan is timed by it from
the plan's start on, and every waypoint's bookkeeping is consistent; so it is whenever the evaluating thread is not in the middle of
taking over a plan. -/
theorem C109_partial (env : Env K) (henv : Segmentwise env) (f : Fine K) (h : Interleaved env f)
    (hc : f.p.computing = false ∨ ¬ TakingOver f.c) (tr : Trajectory K) (htr : f.p.traj = some tr) :
    Usable tr ∧ Timed tr f.p.params.gtlg f.p.dyn ∧ ∀ w ∈ f.p.dyn, Bookkept w := by
  obtain ⟨hs, hp⟩ := interleaved_inv h
  have hn : ¬ TakingOver f.c := by
    rcases hc with hc | hc
    · obtain ⟨p, c⟩ := f
      intro ht
      have hh : Held p := by cases c <;> first | exact ht.elim | exact hp.1 | exact hp
      have : p.computing = false := hc
      rw [hh.2.1] at this
      cases this
    · exact hc
  rw [settled_eq hn] at hs
  have hpl := serialised_plan henv hs
  exact ⟨traj_usable env henv _ hpl tr htr, (hpl.taken tr htr).1, (serialised_wp hs).dyn⟩

/-- C109: a take-over that other threads interfere with is as good as one that happens at once. Outside of it the planner is in a state that
complete calls, one after the other, lead to as well. -/
theorem C109_serialised (env : Env K) (f : Fine K) (h : Interleaved env f) (hn : ¬ TakingOver f.c) : Serialised env f.p := by
  have := (interleaved_inv h).1
  rwa [settled_eq hn] at this

example : ∃ f : Fine ℚ, Interleaved hermiteEnv f ∧ f.p.computing = false ∧ ¬ TakingOver f.c ∧ f.p.traj.isSome = true ∧ f.p.dyn.length = 3 := by
  obtain ⟨f, hi, hq⟩ := sample_map flying1 flying1_ok
    (fun f : Fine ℚ => ((result? f.c).isSome, decide (f.p.computing = false ∧ f.p.traj.isSome = true ∧ f.p.dyn.length = 3))) (true, true)
    (by decide +kernel)
  obtain ⟨h1, h2⟩ := Prod.mk.inj hq
  obtain ⟨r, hr⟩ := Option.isSome_iff_exists.mp h1
  obtain ⟨k1, k2, k3⟩ := of_decide_eq_true h2
  exact ⟨f, hi, k1, by rw [result?_some hr]; exact id, k2, k3⟩

/-! ## C110 -/

/-- What may happen between a request and its collection: the worker does not collect, nobody supersedes the route and nobody calls
`modifyWaypoint(..., false)` (C46 shows that these undo requests). -/
def Quiet (p : Planner K) (e : Event K) : Prop := ¬ Collects p e ∧ (∀ ws, e ≠ .setWaypoints ws) ∧ ∀ n x, e ≠ .modifyWaypoint n x false

/-- C110, the claim: a waypoint appended while the status says that no new plan is being made, and the worker is at the top of its loop,
stays requested until it is collected, whatever the evaluating thread is doing. -/
def C110Full (K : Type*) [Field K] [LinearOrder K] [IsStrictOrderedRing K] [FloorSemiring K] : Prop :=
  ∀ (env : Env K) (f : Fine K), Interleaved env f → f.p.pc = .top → f.p.computing = false → ∀ w, Bookkept w →
    ∀ g, Later env Quiet ⟨f.p.appendWaypoint w, f.c⟩ g → g.p.generateNew = true

theorem append_interleaved {env : Env K} {f : Fine K} (h : Interleaved env f) {w : Waypoint K} (hw : Bookkept w) :
    Interleaved env ⟨f.p.appendWaypoint w, f.c⟩ := by
  obtain ⟨p, c⟩ := f
  exact .inside h (.other c (.event (.appendWaypoint w) trivial hw rfl))

/-- C110 when the evaluating thread is not about to clear the request flag at the end of a take-over (`dt.cpp` 679): the request stays
flagged and queued, and a worker that looks while the vehicle is outside the security zone collects it. -/
theorem C110_partial (env : Env K) (f : Fine K) (h : Interleaved env f) (hpc : f.p.pc = .top) (hc : f.p.computing = false)
    (hn : ∀ k, f.c ≠ .clearRequest k) (w : Waypoint K) (hw : Bookkept w) (g : Fine K)
    (hl : Later env Quiet ⟨f.p.appendWaypoint w, f.c⟩ g) :
    g.p.generateNew = true ∧ g.p.computing = false ∧ w.copy ∈ g.p.toAdd ∧ (∀ u ∈ f.p.toAdd, u ∈ g.p.toAdd) ∧
    (g.p.pc = .top → ¬ InZone g.p → ∃ s, g.p.step env .worker = .ok (some s) ∧ s.pc = .collect) := by
  obtain ⟨⟨k1, k2, k3⟩, _, k4⟩ := later_flagged (append_interleaved h hw) ⟨Or.inl hpc, hc, rfl⟩ hn hl
  refine ⟨k3, k2, k4 _ (List.mem_append_right _ (List.mem_singleton.mpr rfl)), fun u hu => k4 _ (List.mem_append_left _ hu), ?_⟩
  intro hp hz
  replace hz := outside_zone _ hz
  refine ⟨{ g.p with pc := .collect }, ?_, rfl⟩
  simp [Planner.step, Planner.workerStep, hp, k3, Planner.checkIfTrajectoryCanBeGenerated, hz, k2, bind, Except.bind, pure, Except.pure]

/-- The evaluating thread has announced the end of the take-over and not yet cleared the request flag. -/
def almost1 : List Act := planned1 ++ [.call (.evaluate 0 false false)] ++ owns 16

theorem almost1_ok : ∀ a ∈ almost1, ActOk a := by
  intro a ha
  rcases List.mem_append.mp ha with h | h
  · rcases List.mem_append.mp h with h | h
    · exact planned1_ok a h
    · rw [List.mem_singleton.mp h]; trivial
  · exact (owns_ok 16 a h).1

/-- C110 is false of the code: a waypoint appended between the two assignments at the end of the take-over is forgotten; from then on no
sequence of steps without a further request leads to a plan, and the waypoint stays queued. -/
theorem C110_lost : ∃ (f f' : Fine ℚ), Interleaved hermiteEnv f ∧ f.p.pc = .top ∧ f.p.computing = false ∧
    Fine.consume hermiteEnv ⟨f.p.appendWaypoint (wp "c" 3 3 3), f.c⟩ = .ok (some f') ∧ f'.p.generateNew = false ∧
    ∀ g, Later hermiteEnv (fun _ e => ¬ IsRequest e) f' g → g.p.pc ≠ .collect ∧ (wp "c" 3 3 3).copy ∈ g.p.toAdd := by
  obtain ⟨f, hi, hq⟩ := sample_map almost1 almost1_ok
    (fun f : Fine ℚ => decide (f.p.pc = .top ∧ f.p.computing = false ∧ f.c = .clearRequest (.evaluate 0 false false))) true
    (by decide +kernel)
  obtain ⟨h1, h2, h3⟩ := of_decide_eq_true hq
  have hst : Fine.consume hermiteEnv ⟨f.p.appendWaypoint (wp "c" 3 3 3), f.c⟩ =
      .ok (some ⟨{ f.p.appendWaypoint (wp "c" 3 3 3) with generateNew := false }, .localTime 0 false false⟩) := by
    rw [h3]; rfl
  refine ⟨f, _, hi, h1, h2, hst, rfl, ?_⟩
  intro g hg
  have hi' := Interleaved.inside (append_interleaved hi (wp_bookkept "c" 3 3 3).1) (.own hst)
  obtain ⟨k1, _, k3⟩ := later_asleep hi' ⟨Or.inl h1, h2, rfl⟩ (fun k => by simp) hg
  refine ⟨?_, ?_⟩
  · rcases k1.1 with h | h <;> rw [h] <;> decide
  · rw [k3]
    exact List.mem_append_right _ (List.mem_singleton.mpr rfl)

theorem C110_refuted : ¬ C110Full ℚ := by
  intro h
  obtain ⟨f, f', hi, h1, h2, h3, h4, _⟩ := C110_lost
  have := h hermiteEnv f hi h1 h2 _ (wp_bookkept "c" 3 3 3).1 f' (.own .refl h3)
  rw [h4] at this
  cases this

-- The hypotheses of C110_partial are met in the middle of an evaluation.
example : ∃ f : Fine ℚ, Interleaved hermiteEnv f ∧ f.p.pc = .top ∧ f.p.computing = false ∧ (∀ k, f.c ≠ .clearRequest k) ∧ f.c.isFree = false := by
  obtain ⟨f, hi, hq⟩ := sample_map (almost1 ++ owns 3) (fun a ha => (List.mem_append.mp ha).elim (almost1_ok a) (fun h => (owns_ok 3 a h).1))
    (fun f : Fine ℚ => decide (f.p.pc = .top ∧ f.p.computing = false ∧ f.c = .shift 0 false (0 - f.p.params.gtlg))) true (by decide +kernel)
  obtain ⟨h1, h2, h3⟩ := of_decide_eq_true hq
  exact ⟨f, hi, h1, h2, fun k => by rw [h3]; simp, by rw [h3]; rfl⟩

/-! ## C111 -/

/-- C111: an evaluating call in progress waits only for the very first plan; in any other situation its next step is possible. -/
theorem C111_waits (env : Env K) (f : Fine K) (h : Interleaved env f) (hc : f.c.isFree = false) (hw : f.consume env = .ok none) :
    f.p.traj = none ∧ f.p.future.isReady = false :=
  (own_waits hw hc (interleaved_inv h).2).2

/-- C111: it is over after finitely many steps of its own, however many steps other threads make in between. -/
theorem C111_finite (env : Env K) (σ : ℕ → Fine K) (h0 : Interleaved env (σ 0)) (hs : ∀ n, InsideStep env (σ n) (σ (n + 1))) :
    ∃ N, ∀ n ≥ N, (σ n).c = (σ N).c := finitely_many σ h0 hs

/-- C111: no interleaving makes a step of it undefined: a step fails only with the exception of a failed computation, or with a value that
is not finite. -/
theorem C111_defined (env : Env K) (henv : Segmentwise env) (f : Fine K) (h : Interleaved env f) (e : Fail) (he : f.consume env = .error e) :
    e = .nonfinite ∨ (e = .exc ∧ f.p.future = .failed) :=
  own_fail henv he (interleaved_inv h).1 (interleaved_inv h).2

-- Both happen: before the first plan a call waits; and endless requests of another thread do not move the evaluating thread.
example : Fine.consume hermiteEnv (⟨Planner.init ⟨0, 0, 0⟩, .wait (.evaluate 0 false false)⟩ : Fine ℚ) = .ok none := rfl

example : ∃ σ : ℕ → Fine ℚ, Interleaved hermiteEnv (σ 0) ∧ (∀ n, InsideStep hermiteEnv (σ n) (σ (n + 1))) ∧ (σ 0).c.isFree = false := by
  obtain ⟨f, hi, hq⟩ := sample_map (almost1 ++ [.request]) (fun a ha => (List.mem_append.mp ha).elim (almost1_ok a)
      (fun h => by rw [List.mem_singleton.mp h]; trivial))
    (fun f : Fine ℚ => decide (f.p.generateNew = true ∧ f.c.isFree = false)) true (by decide +kernel)
  obtain ⟨h1, h2⟩ := of_decide_eq_true hq
  refine ⟨fun _ => f, hi, fun _ => ?_, h2⟩
  obtain ⟨p, c⟩ := f
  have : OtherStep hermiteEnv p { p with generateNew := true } := .request p
  have e : { p with generateNew := true } = p := by rw [← show p.generateNew = true from h1]
  rw [e] at this
  exact .other c this

end
end Verif.Properties
