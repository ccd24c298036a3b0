import Verif.Lemmas.PlannerRate
import Verif.Properties.PlannerOptimiser
import Verif.Properties.PlannerEval
import Verif.Properties.PlannerPlan

/-!
# Property C126: the first route is flown as it was given
-/

set_option linter.unusedSectionVars false

namespace Verif.Properties
open Verif Verif.Spec Verif.Lemmas

section
variable {K : Type*} [Field K] [LinearOrder K] [IsStrictOrderedRing K] [FloorRing K]

/-- The vehicle positions reported in a history, in order. -/
def positionsReported (es : List (Event K)) : List (V3 K) :=
  es.filterMap fun e => match e with
    | .updateVehiclePosition p => some p
    | _ => none

/-- `ws` is a starting point without name, at rest at one of the positions `ps`, followed by the waypoints `route`, none with compensations. -/
def StartsRoute (route : List (Waypoint K)) (ps : List (V3 K)) (ws : List (Waypoint K)) : Prop :=
  ∃ w0 rest, ws = w0 :: rest ∧ w0.name = "" ∧ w0.current ∈ ps ∧ w0.vertex.getConstraint 1 = some [0, 0, 0] ∧ w0.vertex.getConstraint 2 = some [0, 0, 0] ∧
    List.Forall₂ SameWaypoint route rest ∧ ∀ w ∈ ws, w.modifiers = []

theorem StartsRoute.mono {route : List (Waypoint K)} {ps ps' : List (V3 K)} {ws : List (Waypoint K)} (h : StartsRoute route ps ws)
    (hp : ∀ p ∈ ps, p ∈ ps') : StartsRoute route ps' ws := by
  obtain ⟨w0, rest, h1, h2, h3, h4⟩ := h
  exact ⟨w0, rest, h1, h2, hp _ h3, h4⟩

/-- Nothing was asked for yet. -/
structure Unasked (ps : List (V3 K)) (s : Planner K) : Prop where
  vehicle : s.vehicle ∈ ps
  traj : s.traj = none
  queues : s.toAdd = [] ∧ s.toSet = [] ∧ s.toModify = []
  pc : s.pc = .top
  flags : s.computing = false ∧ s.generateNew = false

theorem unasked_micro (env : Env K) (ps : List (V3 K)) (e : Event K) (s s' : Planner K) (he : ¬ IsRequest e) (hv : ∀ p, e = .updateVehiclePosition p → p ∈ ps)
    (hi : Unasked ps s) (h : Micro env e s s') : Unasked ps s' := by
  obtain ⟨h0, h1, h2, h3, h4⟩ := hi
  cases h with
  | setWaypoints _ ws => exact absurd trivial he
  | append _ w => exact absurd trivial he
  | modify _ n p g => exact absurd trivial he
  | modifyMany _ ms => exact absurd trivial he
  | takeOver _ _ new off hcomp hr he hfit => rw [h4.1] at hcomp; cases hcomp
  | goCollect _ hp hg _ _ => rw [h4.2] at hg; cases hg
  | goApply _ hp hm _ _ => exact absurd h2.2.2 hm
  | collect _ ws hp _ => rw [h3] at hp; cases hp
  | nothingToPlan _ hp _ => rw [h3] at hp; cases hp
  | snapshot _ hp _ => rw [h3] at hp; cases hp
  | stitch _ ws hp _ _ => rw [h3] at hp; cases hp
  | scratch _ ws hp _ _ => rw [h3] at hp; cases hp
  | planned _ hp => rw [h3] at hp; cases hp
  | launch _ hp => rw [h3] at hp; cases hp
  | launched _ hp => rw [h3] at hp; cases hp
  | apply _ s2 hp ha => rw [h3] at hp; cases hp
  | evalTime _ t o ht => exact absurd h1 ht
  | vehicle _ p => exact ⟨hv p rfl, h1, h2, h3, h4⟩
  | _ => exact ⟨h0, h1, h2, h3, h4⟩

/-- Where a route given to a planner without a plan can be: queued; collected; being planned; flown. -/
inductive Stage (route : List (Waypoint K)) (ps : List (V3 K)) (s : Planner K) : Prop
  | queued (ht : s.traj = none) (hq : s.toSet = route.map (·.copy)) (hc : s.computing = false) (hp : s.pc = .top ∨ s.pc = .collect)
  | collected (ht : s.traj = none) (hq : s.toSet = []) (hc : s.computing = false) (hp : s.pc = .collected ∨ s.pc = .snapshotted)
      (hn : s.next = route.map (·.copy))
  | planned (ht : s.traj = none) (hq : s.toSet = []) (hc : s.pc = .planned ∨ s.computing = true) (hn : StartsRoute route ps s.next)
  | flown (ht : s.traj ≠ none) (hq : s.toSet = []) (hc : s.computing = false) (hg : s.generateNew = false) (hp : s.pc = .launched ∨ s.pc = .top)
      (hn : StartsRoute route ps s.dyn)

structure OnRoute (route : List (Waypoint K)) (ps : List (V3 K)) (s : Planner K) : Prop where
  vehicle : s.vehicle ∈ ps
  toAdd : s.toAdd = []
  toModify : s.toModify = []
  stage : Stage route ps s

theorem startsRoute_copy {route : List (Waypoint K)} {ps : List (V3 K)} {ws : List (Waypoint K)} (h : StartsRoute route ps ws) :
    StartsRoute route ps (ws.map (·.copy)) := by
  obtain ⟨w0, rest, rfl, h2, h3, h4, h5, h6, h7⟩ := h
  refine ⟨w0.copy, rest.map (·.copy), rfl, h2, h3, h4, h5, forall2_trans same_trans h6 (forall2_same_copy rest), ?_⟩
  exact map_copy_mem (P := fun w => w.modifiers = []) (fun _ h => h) h7

theorem startsRoute_times {route : List (Waypoint K)} {ps : List (V3 K)} {ws ws' : List (Waypoint K)} (h : StartsRoute route ps ws)
    (segs : List (Segment K)) (g : K) (ha : assignTimes segs g ws 0 = .ok ws') : StartsRoute route ps ws' := by
  have hm := assignTimes_mem segs g ws ws' ha
  have hf := assignTimes_same segs g ws ws' 0 ha
  obtain ⟨w0, rest, rfl, h2, h3, h4, h5, h6, h7⟩ := h
  cases hf with
  | cons a b =>
    rename_i w0' rest'
    refine ⟨w0', rest', rfl, a.1.trans h2, by rw [a.2.1]; exact h3, (a.2.2 1).trans h4, (a.2.2 2).trans h5, forall2_trans same_trans h6 b, ?_⟩
    intro w hw
    obtain ⟨u, hu, i, t, rfl⟩ := hm w hw
    show (u.modifiers.map _) = []
    rw [h7 u hu]
    rfl

theorem onRoute_micro (env : Env K) (route : List (Waypoint K)) (hne : route ≠ []) (hm : ∀ w ∈ route, w.modifiers = []) (ps : List (V3 K)) (e : Event K)
    (s s' : Planner K) (he : ¬ IsRequest e) (hv : ∀ p, e = .updateVehiclePosition p → p ∈ ps) (hc : Ctl s) (hi : OnRoute route ps s)
    (h : Micro env e s s') : OnRoute route ps s' := by
  obtain ⟨i1, i2, i3, i4⟩ := hi
  have keep : ∀ s' : Planner K, s'.vehicle ∈ ps → s'.toAdd = s.toAdd → s'.toModify = s.toModify → s'.traj = s.traj → s'.toSet = s.toSet →
      s'.computing = s.computing → s'.generateNew = s.generateNew → s'.pc = s.pc → s'.next = s.next → s'.dyn = s.dyn → OnRoute route ps s' := by
    intro s' e0 e1 e2 e3 e4 e5 e6 e7 e8 e9
    refine ⟨e0, e1.trans i2, e2.trans i3, ?_⟩
    cases i4 with
    | queued a b c d => exact .queued (e3.trans a) (e4.trans b) (e5.trans c) (by rw [e7]; exact d)
    | collected a b c d f => exact .collected (e3.trans a) (e4.trans b) (e5.trans c) (by rw [e7]; exact d) (e8.trans f)
    | planned a b c d => exact .planned (e3.trans a) (e4.trans b) (by rw [e5, e7]; exact c) (by rw [e8]; exact d)
    | flown a b c d f g => exact .flown (by rw [e3]; exact a) (e4.trans b) (e5.trans c) (e6.trans d) (by rw [e7]; exact f) (by rw [e9]; exact g)
  cases h with
  | setWaypoints _ ws => exact absurd trivial he
  | append _ w => exact absurd trivial he
  | modify _ n p g => exact absurd trivial he
  | modifyMany _ ms => exact absurd trivial he
  | takeOver _ _ new off hcomp hr _ hfit =>
    refine ⟨i1, i2, i3, ?_⟩
    cases i4 with
    | queued a b c d => rw [c] at hcomp; cases hcomp
    | collected a b c d f => rw [c] at hcomp; cases hcomp
    | flown a b c d f g => rw [c] at hcomp; cases hcomp
    | planned a b c d =>
      refine .flown (by simp) b rfl rfl ?_ (startsRoute_copy d)
      have hl : s.pc ≠ .launching := fun hl => by rw [(hc.launching hl).2] at hr; cases hr
      by_contra hx
      push Not at hx
      have := hc.quiet hx.2 hl hx.1
      rw [this] at hcomp; cases hcomp
  | goApply _ hp hq _ _ => exact absurd i3 hq
  | goCollect _ hp hg hz hcomp =>
    refine ⟨i1, i2, i3, ?_⟩
    cases i4 with
    | queued a b c d => exact .queued a b c (.inr rfl)
    | collected a b c d f => rcases d with d | d <;> rw [hp] at d <;> cases d
    | planned a b c d =>
      rcases c with c | c
      · rw [hp] at c; cases c
      · rw [hcomp] at c; cases c
    | flown a b c d f g => rw [d] at hg; cases hg
  | collect _ ws hp hw =>
    refine ⟨i1, rfl, rfl, ?_⟩
    have hq := hc.quiet (by rw [hp]; decide) (by rw [hp]; decide) (by rw [hp]; decide)
    cases i4 with
    | queued a b c d =>
      refine .collected a rfl c (.inl rfl) ?_
      obtain ⟨base, hall, hb⟩ := generateWaypoints_form s ws _ hw
      rw [i2, i3, List.map_nil, List.append_nil] at hall
      have hall := Except.ok.inj hall
      rcases hb with ⟨hb, _⟩ | ⟨_, hb⟩
      · rw [b] at hb; exact absurd (List.map_eq_nil_iff.mp hb) hne
      · show ws = _
        rw [← hall, hb, b, List.map_map]
        apply List.map_congr_left
        intro w _
        rfl
    | collected a b c d f => rcases d with d | d <;> rw [hp] at d <;> cases d
    | planned a b c d =>
      rcases c with c | c
      · rw [hp] at c; cases c
      · rw [hq] at c; cases c
    | flown a b c d f g => rcases f with d | d <;> rw [hp] at d <;> cases d
  | nothingToPlan _ hp hn =>
    have hq := hc.quiet (by rw [hp]; decide) (by rw [hp]; decide) (by rw [hp]; decide)
    cases i4 with
    | queued a b c d => rcases d with d | d <;> rw [hp] at d <;> cases d
    | collected a b c d f => rw [f] at hn; exact absurd (List.map_eq_nil_iff.mp hn) hne
    | planned a b c d =>
      rcases c with c | c
      · rw [hp] at c; cases c
      · rw [hq] at c; cases c
    | flown a b c d f g => rcases f with d | d <;> rw [hp] at d <;> cases d
  | snapshot _ hp hn =>
    refine ⟨i1, i2, i3, ?_⟩
    have hq := hc.quiet (by rw [hp]; decide) (by rw [hp]; decide) (by rw [hp]; decide)
    cases i4 with
    | queued a b c d => rcases d with d | d <;> rw [hp] at d <;> cases d
    | collected a b c d f => exact .collected a b c (.inr rfl) f
    | planned a b c d =>
      rcases c with c | c
      · rw [hp] at c; cases c
      · rw [hq] at c; cases c
    | flown a b c d f g => rcases f with d | d <;> rw [hp] at d <;> cases d
  | stitch _ ws hp hs hw =>
    have ht : s.traj ≠ none := by
      intro ht
      unfold Planner.checkStitchTrajectory at hs
      rw [ht] at hs; cases hs
    cases i4 with
    | queued a b c d => exact absurd a ht
    | collected a b c d f => exact absurd a ht
    | planned a b c d => exact absurd a ht
    | flown a b c d f g => rcases f with d | d <;> rw [hp] at d <;> cases d
  | scratch _ ws hp hs hw =>
    refine ⟨i1, i2, i3, ?_⟩
    have hq := hc.quiet (by rw [hp]; decide) (by rw [hp]; decide) (by rw [hp]; decide)
    cases i4 with
    | queued a b c d => rcases d with d | d <;> rw [hp] at d <;> cases d
    | collected a b c d f =>
      refine .planned a b (.inl rfl) ?_
      obtain ⟨w, rfl, _, k1, k2, k3, k4, k5⟩ := appendDrone_spec s s.next ws hw
      refine ⟨w, s.next, rfl, k2, by rw [k3]; exact i1, k4, k5, by rw [f]; exact forall2_same_copy route, ?_⟩
      intro u hu
      rcases List.mem_cons.mp hu with rfl | hu
      · exact k1
      · rw [f] at hu
        exact map_copy_mem (P := fun w => w.modifiers = []) (fun _ h => h) hm u hu
    | planned a b c d =>
      rcases c with c | c
      · rw [hp] at c; cases c
      · rw [hq] at c; cases c
    | flown a b c d f g => rcases f with d | d <;> rw [hp] at d <;> cases d
  | planned _ hp =>
    refine ⟨i1, i2, i3, ?_⟩
    cases i4 with
    | queued a b c d => rcases d with d | d <;> rw [hp] at d <;> cases d
    | collected a b c d f => rcases d with d | d <;> rw [hp] at d <;> cases d
    | planned a b c d => exact .planned a b (.inr rfl) d
    | flown a b c d f g => rcases f with d | d <;> rw [hp] at d <;> cases d
  | launch _ hp =>
    refine ⟨i1, i2, i3, ?_⟩
    cases i4 with
    | queued a b c d => rcases d with d | d <;> rw [hp] at d <;> cases d
    | collected a b c d f => rcases d with d | d <;> rw [hp] at d <;> cases d
    | planned a b c d => exact .planned a b (.inr (hc.launching hp).1) d
    | flown a b c d f g => rcases f with d | d <;> rw [hp] at d <;> cases d
  | launched _ hp =>
    refine ⟨i1, i2, i3, ?_⟩
    cases i4 with
    | queued a b c d => rcases d with d | d <;> rw [hp] at d <;> cases d
    | collected a b c d f => rcases d with d | d <;> rw [hp] at d <;> cases d
    | planned a b c d =>
      rcases c with c | c
      · rw [hp] at c; cases c
      · exact .planned a b (.inr c) d
    | flown a b c d f g => exact .flown a b c rfl (.inr rfl) g
  | apply _ s2 hp ha =>
    have hq := hc.quiet (by rw [hp]; decide) (by rw [hp]; decide) (by rw [hp]; decide)
    cases i4 with
    | queued a b c d => rcases d with d | d <;> rw [hp] at d <;> cases d
    | collected a b c d f => rcases d with d | d <;> rw [hp] at d <;> cases d
    | planned a b c d =>
      rcases c with c | c
      · rw [hp] at c; cases c
      · rw [hq] at c; cases c
    | flown a b c d f g => rcases f with d | d <;> rw [hp] at d <;> cases d
  | asyncFinish _ dt sp tr ws hf hco =>
    refine ⟨i1, i2, i3, ?_⟩
    have hcomp : s.computing = true := by
      by_contra hh
      rw [hc.idle (by simpa using hh)] at hf; cases hf
    cases i4 with
    | queued a b c d => rw [c] at hcomp; cases hcomp
    | collected a b c d f => rw [c] at hcomp; cases hcomp
    | planned a b c d =>
      obtain ⟨vs, _, _, _, ha⟩ := computeTrajectory_form env s sp tr ws hco
      exact .planned a b (.inr hcomp) (startsRoute_times d _ _ ha)
    | flown a b c d f g => rw [c] at hcomp; cases hcomp
  | vehicle _ p => exact keep _ (hv p rfl) rfl rfl rfl rfl rfl rfl rfl rfl rfl
  | _ => exact keep _ i1 rfl rfl rfl rfl rfl rfl rfl rfl rfl

theorem onRoute_step (env : Env K) (route : List (Waypoint K)) (hne : route ≠ []) (hm : ∀ w ∈ route, w.modifiers = []) (ps : List (V3 K)) (e : Event K)
    (s s' : Planner K) (he : ¬ IsRequest e) (hv : ∀ p, e = .updateVehiclePosition p → p ∈ ps) (hc : Ctl s) (hi : OnRoute route ps s)
    (h : s.step env e = .ok (some s')) : Ctl s' ∧ OnRoute route ps s' := by
  rcases step_micro env e s s' h with rfl | h | ⟨m, h1, h2⟩
  · exact ⟨hc, hi⟩
  · exact ⟨ctl_micro env e s s' hc h, onRoute_micro env route hne hm ps e s s' he hv hc hi h⟩
  · have c1 := ctl_micro env e s m hc h1
    exact ⟨ctl_micro env e m s' c1 h2,
      onRoute_micro env route hne hm ps e m s' he hv c1 (onRoute_micro env route hne hm ps e s m he hv hc hi h1) h2⟩

theorem run_nil_inv (env : Env K) (s s' : Planner K) (h : Run env s [] s') : s' = s := by
  generalize hes : ([] : List (Event K)) = es at h
  cases h with
  | nil => rfl
  | snoc e _ _ => simp at hes

theorem run_snoc_inv (env : Env K) (s : Planner K) (es : List (Event K)) (e : Event K) (s' : Planner K) (h : Run env s (es ++ [e]) s') :
    ∃ m, Run env s es m ∧ m.step env e = .ok (some s') := by
  generalize hes : es ++ [e] = es' at h
  cases h with
  | nil => simp at hes
  | snoc e' h1 h2 =>
    obtain ⟨rfl, h⟩ := List.append_inj' hes rfl
    cases h
    exact ⟨_, h1, h2⟩

theorem run_split (env : Env K) (s : Planner K) (es es' : List (Event K)) (s' : Planner K) (h : Run env s (es ++ es') s') :
    ∃ m, Run env s es m ∧ Run env m es' s' := by
  induction es' using List.reverseRecOn generalizing s' with
  | nil => exact ⟨s', by simpa using h, .nil⟩
  | append_singleton l e ih =>
    rw [← List.append_assoc] at h
    obtain ⟨m, h1, h2⟩ := run_snoc_inv env s (es ++ l) e s' h
    obtain ⟨n, k1, k2⟩ := ih m h1
    exact ⟨n, k1, .snoc e k2 h2⟩

/-- From construction to a state after the route was given. -/
theorem onRoute_run (env : Env K) (vehicle : V3 K) (before after : List (Event K)) (route : List (Waypoint K)) (hne : route ≠ [])
    (hm : ∀ w ∈ route, w.modifiers = []) (hr : ∀ e ∈ before ++ after, ¬ IsRequest e) (s : Planner K)
    (h : Run env (Planner.init vehicle) (before ++ .setWaypoints route :: after) s) :
    OnRoute route (vehicle :: positionsReported (before ++ after)) s := by
  generalize hps : vehicle :: positionsReported (before ++ after) = ps
  have hv : ∀ e ∈ before ++ after, ∀ p, e = .updateVehiclePosition p → p ∈ ps := by
    rintro e he p rfl
    rw [← hps]
    exact List.mem_cons_of_mem _ (List.mem_filterMap.mpr ⟨_, he, rfl⟩)
  obtain ⟨m, h1, h2⟩ := run_split env _ before _ s h
  have hm1 : Ctl m ∧ Unasked ps m := by
    refine run_induction env (Planner.init vehicle) (fun es s => (∀ e ∈ es, e ∈ before ++ after) → Ctl s ∧ Unasked ps s)
      (fun _ => ⟨ctl_init vehicle, ⟨by rw [← hps]; exact List.mem_cons_self .., rfl, ⟨rfl, rfl, rfl⟩, rfl, rfl, rfl⟩⟩) ?_ before m h1
      (fun e he => List.mem_append_left _ he)
    intro es e s s' ih hs hes
    obtain ⟨c, u⟩ := ih (fun e he => hes e (List.mem_append_left _ he))
    have hmem := hes e (by simp)
    refine ⟨ctl_step env e s s' c hs, ?_⟩
    rcases step_micro env e s s' hs with rfl | h | ⟨m, h1, h2⟩
    · exact u
    · exact unasked_micro env ps e s s' (hr e hmem) (hv e hmem) u h
    · exact unasked_micro env ps e m s' (hr e hmem) (hv e hmem) (unasked_micro env ps e s m (hr e hmem) (hv e hmem) u h1) h2
  obtain ⟨m2, h3, h4⟩ := run_split env m [.setWaypoints route] after s h2
  have hs3 : m.step env (.setWaypoints route) = .ok (some m2) := by
    obtain ⟨n, k1, k2⟩ := run_snoc_inv env m [] (.setWaypoints route) m2 h3
    rw [run_nil_inv env m n k1] at k2
    exact k2
  have hm2 : Ctl m2 ∧ OnRoute route ps m2 := by
    obtain ⟨c, u⟩ := hm1
    refine ⟨ctl_step env _ m m2 c hs3, ?_⟩
    rw [← Option.some.inj (Except.ok.inj hs3)]
    exact ⟨u.vehicle, rfl, rfl, .queued u.traj rfl u.flags.1 (.inl u.pc)⟩
  refine (run_induction env m2 (fun es s => (∀ e ∈ es, e ∈ before ++ after) → Ctl s ∧ OnRoute route ps s) (fun _ => hm2) ?_ after s h4
    (fun e he => List.mem_append_right _ he)).2
  intro es e s s' ih hs hes
  obtain ⟨c, u⟩ := ih (fun e he => hes e (List.mem_append_left _ he))
  have hmem := hes e (by simp)
  exact onRoute_step env route hne hm ps e s s' (hr e hmem) (hv e hmem) c u hs

/-- C126: a planner without a plan is given a route of waypoints in space (with positions, in any order and with any names); before and after, nothing
else is requested, but vehicle positions are reported, speeds set, references asked for, and the worker and the computation proceed, in any order. Once
`getDynamicWaypoints` returns, it returns a starting point without name at a vehicle position that was reported (or the one at construction), followed by
the waypoints of the route in their order and with their names; the times strictly increase. Asked for the time of any of them (minus the time
compensation), `evaluateTrajectory` answers, with its position, and with the velocity and acceleration it prescribes unless it is the last one; the
starting point is at rest. From the time of the last waypoint on the answer is its position, at rest. -/
theorem C126_first_route (env : Env K) (henv : Segmentwise env) (hmeets : MeetsVertices env) (vehicle : V3 K) (before after : List (Event K))
    (route : List (Waypoint K)) (hne : route ≠ []) (hw : ∀ w ∈ route, Bookkept w ∧ w.modifiers = [])
    (hr : ∀ e ∈ before ++ after, ¬ IsRequest e ∧ ValidEvent e) (s s' : Planner K)
    (h : Run env (Planner.init vehicle) (before ++ .setWaypoints route :: after) s) (ws : List (Waypoint K))
    (hws : s.getDynamicWaypoints env = .ok (some (ws, s'))) :
    (∃ start rest, ws = start :: rest ∧ start.name = "" ∧ start.current ∈ vehicle :: positionsReported (before ++ after) ∧
      start.vertex.getConstraint 1 = some [0, 0, 0] ∧ start.vertex.getConstraint 2 = some [0, 0, 0] ∧ List.Forall₂ SameWaypoint route rest) ∧
    ws.Pairwise (fun a b => a.time < b.time) ∧
    (∀ (i : ℕ) (w : Waypoint K), ws[i]? = some w → ∀ f, ∃ r s'',
      s'.evaluateTrajectory env (w.time - s'.getTimeCompensation) false f = .ok (some (r, s'')) ∧ r.position = w.current ∧
      ∀ (k : ℕ) (v : V3 K), k = 1 ∨ k = 2 → i + 1 < ws.length → w.vertex.getConstraint k = some [v.x, v.y, v.z] → refOrder r k = some v) ∧
    (∀ (w : Waypoint K) (t : K), ws.getLast? = some w → w.time ≤ t + s'.getTimeCompensation → ∀ f, ∃ r s'',
      s'.evaluateTrajectory env t false f = .ok (some (r, s'')) ∧ r.position = w.current ∧ r.velocity = some ⟨0, 0, 0⟩ ∧ r.acceleration = some ⟨0, 0, 0⟩) := by
  have hs : s.step env .getDynamicWaypoints = .ok (some s') := by
    simp only [Planner.step, hws, bind, Except.bind]; rfl
  have hrun' : Run env (Planner.init vehicle) (before ++ .setWaypoints route :: (after ++ [.getDynamicWaypoints])) s' := by
    have := Run.snoc .getDynamicWaypoints h hs
    simpa using this
  have hpos : positionsReported (before ++ (after ++ [Event.getDynamicWaypoints])) = positionsReported (before ++ after) := by
    simp [positionsReported]
  have hon := onRoute_run env vehicle before (after ++ [.getDynamicWaypoints]) route hne (fun w hx => (hw w hx).2) (by
    intro e he
    rcases List.mem_append.mp he with he | he
    · exact (hr e (List.mem_append_left _ he)).1
    · rcases List.mem_append.mp he with he | he
      · exact (hr e (List.mem_append_right _ he)).1
      · rw [List.mem_singleton.mp he]; exact fun h => h) s' hrun'
  rw [hpos] at hon
  have hfr : ReachableBy FreshEvent env s' := by
    refine ⟨vehicle, _, ?_, hrun'⟩
    intro e he
    have nonreq : ∀ e : Event K, ¬ IsRequest e → ValidEvent e → FreshEvent e := by
      intro e h1 h2
      cases e <;> first | exact absurd trivial h1 | exact h2
    rcases List.mem_append.mp he with he | he
    · exact nonreq e (hr e (List.mem_append_left _ he)).1 (hr e (List.mem_append_left _ he)).2
    · rcases List.mem_cons.mp he with rfl | he
      · exact hw
      · rcases List.mem_append.mp he with he | he
        · exact nonreq e (hr e (List.mem_append_right _ he)).1 (hr e (List.mem_append_right _ he)).2
        · rw [List.mem_singleton.mp he]; trivial
  have hre := reachable_of_fresh hfr
  have hreS : Reachable env s := by
    refine ⟨vehicle, _, ?_, h⟩
    intro e he
    rcases List.mem_append.mp he with he | he
    · exact (hr e (List.mem_append_left _ he)).2
    · rcases List.mem_cons.mp he with rfl | he
      · exact fun w hx => (hw w hx).1
      · exact (hr e (List.mem_append_right _ he)).2
  obtain ⟨hchk, rfl⟩ := getDynamicWaypoints_inv env s s' ws hws
  have hne' := check_some_traj env s s' hchk (reachable_ctl env s hreS)
  obtain ⟨a, b, ha, hb, _, _, htimes, _, hlast⟩ := C54_times env henv s hreS _ s' hws
  obtain ⟨hstart, hidle⟩ : StartsRoute route (vehicle :: positionsReported (before ++ after)) s'.dyn ∧ s'.computing = false := by
    cases hon.stage with
    | queued a b c d => exact absurd a hne'
    | collected a b c d f => exact absurd a hne'
    | planned a b c d => exact absurd a hne'
    | flown a b c d f g => exact ⟨g, c⟩
  have hwait : ¬ PlanWaiting s' := by
    have := (reachable_ctl env s' hre).idle hidle
    rintro (h | ⟨tr, h⟩) <;> rw [this] at h <;> cases h
  have hm : ∀ w ∈ s'.dyn, w.modifiers = [] := by
    obtain ⟨_, _, _, _, _, _, _, _, hm⟩ := hstart
    exact hm
  obtain ⟨tr, htr⟩ : ∃ tr, s'.traj = some tr := Option.ne_none_iff_exists'.mp hne'
  have hz : NoZeroWidth s'.dyn := fun w hx m hmm => by rw [hm w hx] at hmm; cases hmm
  have hu := traj_usable env henv s' (reachable_plan env henv s' hre) tr htr
  have hmin := getMinTime_eq env s' hne'
  obtain ⟨⟨hlen, hti⟩, _⟩ := (reachable_plan env henv s' hre).taken tr htr
  refine ⟨?_, ?_, ?_, ?_⟩
  · obtain ⟨w0, rest, k1, k2, k3, k4, k5, k6, _⟩ := startsRoute_copy hstart
    exact ⟨w0, rest, k1, k2, k3, k4, k5, k6⟩
  · rw [List.pairwise_iff_getElem]
    intro i j hi hj hij
    exact htimes i j _ _ (List.getElem?_eq_getElem hi) (List.getElem?_eq_getElem hj) hij
  · intro i w hi f
    obtain ⟨u, hu1, hu2⟩ : ∃ u, s'.dyn[i]? = some u ∧ u.copy = w := by
      rw [List.getElem?_map] at hi
      cases hd : s'.dyn[i]? with
      | none => rw [hd] at hi; cases hi
      | some u => rw [hd] at hi; exact ⟨u, rfl, Option.some.inj hi⟩
    have hwt : w.time = u.time := by rw [← hu2]; rfl
    have hwc : w.current = u.current := by rw [← hu2]; rfl
    have hwv : w.vertex = u.vertex := by rw [← hu2]; rfl
    obtain ⟨r, s2, hev⟩ := C40_returns env henv s' hre tr htr hwait hz (w.time - s'.getTimeCompensation) false f
    refine ⟨r, s2, hev, ?_⟩
    obtain ⟨href, hsome⟩ := C40_references env henv s' hre tr htr hwait s'.params.gtlg hmin _ false f r s2 hev
    have hlt : i < s'.dyn.length := (List.getElem?_eq_some_iff.mp hu1).1
    have htl : max 0 (min (w.time - s'.getTimeCompensation - s'.params.gtlg + s'.getTimeCompensation) tr.maxTime) = u.time - s'.params.gtlg := by
      have e1 : w.time - s'.getTimeCompensation - s'.params.gtlg + s'.getTimeCompensation = startOf tr.segments i := by
        rw [hwt, (hti i u hu1).2]; ring
      have e2 : u.time - s'.params.gtlg = startOf tr.segments i := by rw [(hti i u hu1).2]; ring
      have e3 : startOf tr.segments i ≤ tr.maxTime := by
        rw [hu.2.2.1.1, ← startOf_length]
        rcases Nat.lt_or_ge i tr.segments.length with hx | hx
        · exact (startOf_lt tr.segments hu.2.2.2.1 i _ hx le_rfl).le
        · rw [show i = tr.segments.length by omega]
      have e4 : 0 ≤ startOf tr.segments i := by
        rcases Nat.eq_zero_or_pos i with rfl | hx
        · rw [startOf_zero]
        · have := startOf_lt tr.segments hu.2.2.2.1 0 i hx (by omega)
          rw [startOf_zero] at this
          exact this.le
      rw [e1, e2, min_eq_left e3, max_eq_right e4]
    obtain ⟨p1, p2⟩ := C54_positions env henv hmeets s' hfr tr htr s'.params.gtlg hmin i u hu1
    have hbk := (reachable_wp env s' hre).dyn u (List.mem_of_getElem? hu1)
    have hcur : u.original = u.current := (hbk.2.2.2.1 (hm u (List.mem_of_getElem? hu1)))
    refine ⟨?_, ?_⟩
    · have := reference_base env tr s'.dyn hm (href 0 r.position rfl)
      rw [htl, p1] at this
      have := Except.ok.inj this
      rw [hwc, ← hcur]
      simp only [List.cons.injEq, and_true] at this
      obtain ⟨q1, q2, q3⟩ := this
      apply comp_ext
      intro ax
      cases ax
      · exact q1.symm
      · exact q2.symm
      · exact q3.symm
    · intro k v hk hlt2 hcon
      obtain ⟨x, hx⟩ := Option.isSome_iff_exists.mp ((hsome k (by omega)).mpr (.inr rfl))
      have hb2 := reference_base env tr s'.dyn hm (href k x hx)
      rw [List.length_map] at hlt2
      rw [hwv] at hcon
      rw [htl, p2 k _ (by omega) (by omega) (.inl hlt2) hcon] at hb2
      have := Except.ok.inj hb2
      simp only [List.cons.injEq, and_true] at this
      obtain ⟨q1, q2, q3⟩ := this
      rw [hx]
      congr 1
      apply comp_ext
      intro ax
      cases ax
      · exact q1.symm
      · exact q2.symm
      · exact q3.symm
  · intro w t hlw ht f
    obtain ⟨r, s2, hev⟩ := C40_returns env henv s' hre tr htr hwait hz t false f
    have hbt := hlast w hlw
    obtain ⟨j1, j2, j3⟩ := C55_hover env henv hmeets s' hfr hwait hm b hb t (by rw [← hbt]; exact ht) r s2 f hev
    refine ⟨r, s2, hev, ?_, j2, j3⟩
    rw [List.getLast?_map] at hlw
    cases hl : s'.dyn.getLast? with
    | none => rw [hl] at hlw; cases hlw
    | some u =>
      rw [hl] at hlw
      rw [← Option.some.inj hlw, j1 u hl]
      rfl

/-- A plan is flown and nothing is asked for. -/
structure Flying (tr : Option (Trajectory K)) (ws : List (Waypoint K)) (s : Planner K) : Prop where
  traj : s.traj = tr
  some : tr ≠ none
  dyn : s.dyn = ws
  toModify : s.toModify = []
  flags : s.computing = false ∧ s.generateNew = false
  pc : s.pc = .launched ∨ s.pc = .top

theorem flying_micro (env : Env K) (tr : Option (Trajectory K)) (ws : List (Waypoint K)) (e : Event K) (s s' : Planner K) (he : ¬ IsRequest e) (hc : Ctl s)
    (hi : Flying tr ws s) (h : Micro env e s s') : Flying tr ws s' := by
  obtain ⟨i1, i2, i3, i4, i5, i6⟩ := hi
  cases h with
  | setWaypoints _ ws => exact absurd trivial he
  | append _ w => exact absurd trivial he
  | modify _ n p g => exact absurd trivial he
  | modifyMany _ ms => exact absurd trivial he
  | takeOver _ _ new off hcomp hr _ hfit => rw [i5.1] at hcomp; cases hcomp
  | goApply _ hp hq _ _ => exact absurd i4 hq
  | goCollect _ hp hg hz hcomp => rw [i5.2] at hg; cases hg
  | collect _ ws hp hw => rcases i6 with d | d <;> rw [hp] at d <;> cases d
  | nothingToPlan _ hp hn => rcases i6 with d | d <;> rw [hp] at d <;> cases d
  | snapshot _ hp hn => rcases i6 with d | d <;> rw [hp] at d <;> cases d
  | stitch _ ws hp hs hw => rcases i6 with d | d <;> rw [hp] at d <;> cases d
  | scratch _ ws hp hs hw => rcases i6 with d | d <;> rw [hp] at d <;> cases d
  | planned _ hp => rcases i6 with d | d <;> rw [hp] at d <;> cases d
  | launch _ hp => rcases i6 with d | d <;> rw [hp] at d <;> cases d
  | launched _ hp => exact ⟨i1, i2, i3, i4, ⟨i5.1, rfl⟩, .inr rfl⟩
  | apply _ s2 hp ha => rcases i6 with d | d <;> rw [hp] at d <;> cases d
  | asyncFinish _ dt sp tr ws hf hco => rw [hc.idle i5.1] at hf; cases hf
  | _ => exact ⟨i1, i2, i3, i4, i5, i6⟩

/-- C126: while nothing else is requested, this plan stays: trajectory and waypoints are the same, `getDynamicWaypoints` answers with them, without taking
anything over. -/
theorem C126_stays (env : Env K) (vehicle : V3 K) (before after more : List (Event K)) (route : List (Waypoint K)) (hne : route ≠ [])
    (hw : ∀ w ∈ route, w.modifiers = []) (hr : ∀ e ∈ before ++ after ++ more, ¬ IsRequest e) (s s2 : Planner K)
    (h : Run env (Planner.init vehicle) (before ++ .setWaypoints route :: after) s) (hp : s.traj ≠ none) (h2 : Run env s more s2) :
    s2.traj = s.traj ∧ s2.getDynamicWaypoints env = .ok (some (s.dyn.map (·.copy), s2)) := by
  have hon := onRoute_run env vehicle before after route hne hw (fun e he => hr e (List.mem_append_left _ he)) s h
  have hc : Ctl s := run_induction env (Planner.init vehicle) (fun _ s => Ctl s) (ctl_init vehicle) (fun _ e s s' ih hs => ctl_step env e s s' ih hs) _ s h
  have hfl : Flying s.traj s.dyn s := by
    suffices hx : (s.computing = false ∧ s.generateNew = false) ∧ (s.pc = .launched ∨ s.pc = .top) from ⟨rfl, hp, rfl, hon.toModify, hx.1, hx.2⟩
    cases hon.stage with
    | queued a b c d => exact absurd a hp
    | collected a b c d f => exact absurd a hp
    | planned a b c d => exact absurd a hp
    | flown a b c d f g => exact ⟨⟨c, d⟩, f⟩
  have hend : Ctl s2 ∧ Flying s.traj s.dyn s2 := by
    refine run_induction env s (fun es s' => (∀ e ∈ es, ¬ IsRequest e) → Ctl s' ∧ Flying s.traj s.dyn s') (fun _ => ⟨hc, hfl⟩) ?_ more s2 h2
      (fun e he => hr e (List.mem_append_right _ he))
    intro es e m m' ih hs hes
    obtain ⟨c, u⟩ := ih (fun e he => hes e (List.mem_append_left _ he))
    have hmem := hes e (by simp)
    refine ⟨ctl_step env e m m' c hs, ?_⟩
    rcases step_micro env e m m' hs with rfl | h | ⟨n, h1, h2⟩
    · exact u
    · exact flying_micro env _ _ e m m' hmem c u h
    · exact flying_micro env _ _ e n m' hmem (ctl_micro env e m n c h1) (flying_micro env _ _ e m n hmem c u h1) h2
  obtain ⟨c2, f2⟩ := hend
  refine ⟨f2.traj, ?_⟩
  rw [← f2.dyn]
  unfold Planner.getDynamicWaypoints
  rw [check_idle env s2 (by
    have := c2.idle f2.flags.1
    rintro (h | ⟨tr, h⟩) <;> rw [this] at h <;> cases h) (by rw [f2.traj]; exact hp)]
  rfl

end

/-- C126: the same with the optimiser modelled in C85, linear or nonlinear, whatever its numerical solver returns. -/
theorem C126_optimiser (b : OptBackend) (lineal : Bool) (vehicle : V3 ℝ) (before after : List (Event ℝ))
    (route : List (Waypoint ℝ)) (hne : route ≠ []) (hw : ∀ w ∈ route, Bookkept w ∧ w.modifiers = [])
    (hr : ∀ e ∈ before ++ after, ¬ IsRequest e ∧ ValidEvent e) (s s' : Planner ℝ)
    (h : Run (b.env lineal) (Planner.init vehicle) (before ++ .setWaypoints route :: after) s) (ws : List (Waypoint ℝ))
    (hws : s.getDynamicWaypoints (b.env lineal) = .ok (some (ws, s'))) :
    (∃ start rest, ws = start :: rest ∧ start.name = "" ∧ start.current ∈ vehicle :: positionsReported (before ++ after) ∧
      start.vertex.getConstraint 1 = some [0, 0, 0] ∧ start.vertex.getConstraint 2 = some [0, 0, 0] ∧ List.Forall₂ SameWaypoint route rest) ∧
    ws.Pairwise (fun a b => a.time < b.time) ∧
    (∀ (i : ℕ) (w : Waypoint ℝ), ws[i]? = some w → ∀ f, ∃ r s'',
      s'.evaluateTrajectory (b.env lineal) (w.time - s'.getTimeCompensation) false f = .ok (some (r, s'')) ∧ r.position = w.current ∧
      ∀ (k : ℕ) (v : V3 ℝ), k = 1 ∨ k = 2 → i + 1 < ws.length → w.vertex.getConstraint k = some [v.x, v.y, v.z] → refOrder r k = some v) ∧
    (∀ (w : Waypoint ℝ) (t : ℝ), ws.getLast? = some w → w.time ≤ t + s'.getTimeCompensation → ∀ f, ∃ r s'',
      s'.evaluateTrajectory (b.env lineal) t false f = .ok (some (r, s'')) ∧ r.position = w.current ∧ r.velocity = some ⟨0, 0, 0⟩ ∧
      r.acceleration = some ⟨0, 0, 0⟩) :=
  C126_first_route _ (C85_segmentwise b lineal) (C85_meets_vertices b lineal) vehicle before after route hne hw hr s s' h ws hws

/-- The hypotheses are met: the speed is set, the vehicle reports a position, two waypoints are given, the plan is computed and taken over. -/
example : ∃ (before after : List (Event ℚ)) (ws : List (Waypoint ℚ)), history1 = before ++ .setWaypoints [wp "a" 1 0 0, wp "b" 2 1 0] :: after ∧
    (∀ e ∈ before ++ after, ¬ IsRequest e ∧ ValidEvent e) ∧ (∀ w ∈ [wp "a" 1 0 0, wp "b" 2 1 0], Bookkept w ∧ w.modifiers = []) ∧
    state1.getDynamicWaypoints hermiteEnv = .ok (some (ws, state1)) ∧ ws.map (fun w => (w.name, w.current)) =
      [("", ⟨0, 0, 0⟩), ("a", ⟨1, 0, 0⟩), ("b", ⟨2, 1, 0⟩)] ∧ state1.traj ≠ none := by
  refine ⟨[.setSpeed 2, .updateVehiclePosition ⟨0, 0, 0⟩], planEvents (1 / 100) ++ [.evaluate 0 false false], state1.dyn.map (·.copy), rfl, ?_, ?_, ?_, ?_, ?_⟩
  · simp [planEvents, IsRequest, ValidEvent]
  · simp [wp_bookkept]
  · decide +kernel
  · decide +kernel
  · decide +kernel

end Verif.Properties
