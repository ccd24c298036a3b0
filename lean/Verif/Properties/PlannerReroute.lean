import Verif.Properties.PlannerRoute
import Verif.Properties.PlannerStitch

/-!
# Property C129: a route given in flight is flown as it was given
-/

set_option linter.unusedSectionVars false

namespace Verif.Properties
open Verif Verif.Spec Verif.Lemmas

section
variable {K : Type*} [Field K] [LinearOrder K] [IsStrictOrderedRing K] [FloorRing K]

/-- C129: whatever plan is in force, and whatever was requested and flown before, as long as none of its waypoints was moved: the times of its waypoints
strictly increase; asked for the time of any of them (minus the time compensation), `evaluateTrajectory` answers, with its position, and with the velocity and
acceleration it prescribes unless it is the last one; and from the time of the last one on the answer is its position, at rest. -/
theorem C129_flown (env : Env K) (henv : Segmentwise env) (hmeets : MeetsVertices env) (s : Planner K) (h : ReachableBy FreshEvent env s)
    (hne : s.traj ≠ none) (hwait : ¬ PlanWaiting s) (hm : ∀ w ∈ s.dyn, w.modifiers = []) :
    s.dyn.Pairwise (fun a b => a.time < b.time) ∧
    (∀ (i : ℕ) (w : Waypoint K), s.dyn[i]? = some w → ∀ f, ∃ r s',
      s.evaluateTrajectory env (w.time - s.getTimeCompensation) false f = .ok (some (r, s')) ∧ r.position = w.current ∧
      ∀ (k : ℕ) (v : V3 K), k = 1 ∨ k = 2 → i + 1 < s.dyn.length → w.vertex.getConstraint k = some [v.x, v.y, v.z] → refOrder r k = some v) ∧
    (∀ (w : Waypoint K) (t : K), s.dyn.getLast? = some w → w.time ≤ t + s.getTimeCompensation → ∀ f, ∃ r s',
      s.evaluateTrajectory env t false f = .ok (some (r, s')) ∧ r.position = w.current ∧ r.velocity = some ⟨0, 0, 0⟩ ∧ r.acceleration = some ⟨0, 0, 0⟩) := by
  have hre := reachable_of_fresh h
  have hws : s.getDynamicWaypoints env = .ok (some (s.dyn.map (·.copy), s)) := by
    unfold Planner.getDynamicWaypoints
    rw [check_idle env s hwait hne]
    rfl
  obtain ⟨a, b, ha, hb, _, _, htimes, _, hlast⟩ := C54_times env henv s hre _ s hws
  obtain ⟨tr, htr⟩ : ∃ tr, s.traj = some tr := Option.ne_none_iff_exists'.mp hne
  have hz : NoZeroWidth s.dyn := fun w hx m hmm => by rw [hm w hx] at hmm; cases hmm
  have hu := traj_usable env henv s (reachable_plan env henv s hre) tr htr
  have hmin := getMinTime_eq env s hne
  obtain ⟨⟨hlen, hti⟩, _⟩ := (reachable_plan env henv s hre).taken tr htr
  refine ⟨?_, ?_, ?_⟩
  · rw [List.pairwise_iff_getElem]
    intro i j hi hj hij
    have := htimes i j (s.dyn[i]).copy (s.dyn[j]).copy (by simp [List.getElem?_eq_getElem hi]) (by simp [List.getElem?_eq_getElem hj]) hij
    exact this
  · intro i u hu1 f
    obtain ⟨r, s2, hev⟩ := C40_returns env henv s hre tr htr hwait hz (u.time - s.getTimeCompensation) false f
    refine ⟨r, s2, hev, ?_⟩
    obtain ⟨href, hsome⟩ := C40_references env henv s hre tr htr hwait s.params.gtlg hmin _ false f r s2 hev
    have hlt : i < s.dyn.length := (List.getElem?_eq_some_iff.mp hu1).1
    have htl : max 0 (min (u.time - s.getTimeCompensation - s.params.gtlg + s.getTimeCompensation) tr.maxTime) = u.time - s.params.gtlg := by
      have e1 : u.time - s.getTimeCompensation - s.params.gtlg + s.getTimeCompensation = startOf tr.segments i := by
        rw [(hti i u hu1).2]; ring
      have e2 : u.time - s.params.gtlg = startOf tr.segments i := by rw [(hti i u hu1).2]; ring
      have e3 : startOf tr.segments i ≤ tr.maxTime := by
        rw [hu.2.2.1.1, ← startOf_length]
        rcases Nat.lt_or_ge i tr.segments.length with hx | hx
        · exact (startOf_lt tr.segments hu.2.2.2.1 i _ hx le_rfl).le
        · rw [show i = tr.segments.length by omega]
      have e4 : 0 ≤ startOf tr.segments i := by
        rcases Nat.eq_zero_or_pos i with rfl | hx
        · rw [startOf_zero]
        · have := startOf_lt tr.segments hu.2.2.2.1 0 i hx (by omega)
          rw [startOf_zero] at this
          exact this.le
      rw [e1, e2, min_eq_left e3, max_eq_right e4]
    obtain ⟨p1, p2⟩ := C54_positions env henv hmeets s h tr htr s.params.gtlg hmin i u hu1
    have hbk := (reachable_wp env s hre).dyn u (List.mem_of_getElem? hu1)
    have hcur : u.original = u.current := (hbk.2.2.2.1 (hm u (List.mem_of_getElem? hu1)))
    refine ⟨?_, ?_⟩
    · have := reference_base env tr s.dyn hm (href 0 r.position rfl)
      rw [htl, p1] at this
      have := Except.ok.inj this
      rw [← hcur]
      simp only [List.cons.injEq, and_true] at this
      obtain ⟨q1, q2, q3⟩ := this
      apply comp_ext
      intro ax
      cases ax
      · exact q1.symm
      · exact q2.symm
      · exact q3.symm
    · intro k v hk hlt2 hcon
      obtain ⟨x, hx⟩ := Option.isSome_iff_exists.mp ((hsome k (by omega)).mpr (.inr rfl))
      have hb2 := reference_base env tr s.dyn hm (href k x hx)
      rw [htl, p2 k _ (by omega) (by omega) (.inl hlt2) hcon] at hb2
      have := Except.ok.inj hb2
      simp only [List.cons.injEq, and_true] at this
      obtain ⟨q1, q2, q3⟩ := this
      rw [hx]
      congr 1
      apply comp_ext
      intro ax
      cases ax
      · exact q1.symm
      · exact q2.symm
      · exact q3.symm
  · intro w t hlw ht f
    obtain ⟨r, s2, hev⟩ := C40_returns env henv s hre tr htr hwait hz t false f
    have hbt : w.time = b := hlast w.copy (by rw [List.getLast?_map, hlw]; rfl)
    obtain ⟨j1, j2, j3⟩ := C55_hover env henv hmeets s h hwait hm b hb t (by rw [← hbt]; exact ht) r s2 f hev
    exact ⟨r, s2, hev, j1 w hlw, j2, j3⟩

/-- The waypoint `w` is at a point of the plan in force in `s`: where `evaluateTrajectory` puts the vehicle at some time; with the velocity and acceleration
it answers for that time, if `derivatives`. -/
def PointOf (env : Env K) (s : Planner K) (derivatives : Bool) (w : Waypoint K) : Prop :=
  ∃ t r, s.evaluateTrajectory env t false true = .ok (some (r, s)) ∧ w.current = r.position ∧
    (derivatives = true → w.vertex.getConstraint 1 = r.velocity.map V3.toList ∧ w.vertex.getConstraint 2 = r.acceleration.map V3.toList)

/-- `ws` are the waypoints `route` in their order, none with compensations, after a beginning: a point without name at one of the positions `ps`, at rest; or
two points of the plan in force in `s0`, called "stitching_point", the first with velocity and acceleration. -/
def ContinuesRoute (env : Env K) (s0 : Planner K) (route : List (Waypoint K)) (ps : List (V3 K)) (ws : List (Waypoint K)) : Prop :=
  ∃ pre rest, ws = pre ++ rest ∧ List.Forall₂ SameWaypoint route rest ∧ (∀ w ∈ ws, w.modifiers = []) ∧
    ((∃ w0, pre = [w0] ∧ w0.name = "" ∧ w0.current ∈ ps ∧ w0.vertex.getConstraint 1 = some [0, 0, 0] ∧ w0.vertex.getConstraint 2 = some [0, 0, 0]) ∨
     (∃ w0 w1, pre = [w0, w1] ∧ w0.name = "stitching_point" ∧ w1.name = "stitching_point" ∧ PointOf env s0 true w0 ∧ PointOf env s0 false w1))

theorem pointOf_same {env : Env K} {s0 : Planner K} {d : Bool} {w w' : Waypoint K} (h : PointOf env s0 d w) (hs : SameWaypoint w w') : PointOf env s0 d w' := by
  obtain ⟨t, r, h1, h2, h3⟩ := h
  exact ⟨t, r, h1, hs.2.1.trans h2, fun hd => ⟨(hs.2.2 1).trans (h3 hd).1, (hs.2.2 2).trans (h3 hd).2⟩⟩

theorem continuesRoute_same {env : Env K} {s0 : Planner K} {route : List (Waypoint K)} {ps : List (V3 K)} {ws ws' : List (Waypoint K)}
    (h : ContinuesRoute env s0 route ps ws) (hs : List.Forall₂ SameWaypoint ws ws') (hm : ∀ w ∈ ws', w.modifiers = []) : ContinuesRoute env s0 route ps ws' := by
  obtain ⟨pre, rest, rfl, h2, _, h4⟩ := h
  rcases h4 with ⟨w0, rfl, k1, k2, k3, k4⟩ | ⟨w0, w1, rfl, k1, k2, k3, k4⟩
  · cases hs with
    | cons a b =>
      rename_i w0' rest'
      exact ⟨[w0'], rest', rfl, forall2_trans same_trans h2 b, hm, .inl ⟨w0', rfl, a.1.trans k1, by rw [a.2.1]; exact k2, (a.2.2 1).trans k3, (a.2.2 2).trans k4⟩⟩
  · cases hs with
    | cons a b =>
      cases b with
      | cons b c =>
        rename_i w0' w1' rest'
        exact ⟨[w0', w1'], rest', rfl, forall2_trans same_trans h2 c, hm, .inr ⟨w0', w1', rfl, a.1.trans k1, b.1.trans k2, pointOf_same k3 a, pointOf_same k4 b⟩⟩

theorem continuesRoute_copy {env : Env K} {s0 : Planner K} {route : List (Waypoint K)} {ps : List (V3 K)} {ws : List (Waypoint K)}
    (h : ContinuesRoute env s0 route ps ws) : ContinuesRoute env s0 route ps (ws.map (·.copy)) := by
  refine continuesRoute_same h (forall2_same_copy ws) ?_
  obtain ⟨_, _, _, _, hm, _⟩ := h
  exact map_copy_mem (P := fun w => w.modifiers = []) (fun _ h => h) hm

theorem continuesRoute_times {env : Env K} {s0 : Planner K} {route : List (Waypoint K)} {ps : List (V3 K)} {ws ws' : List (Waypoint K)}
    (h : ContinuesRoute env s0 route ps ws) (segs : List (Segment K)) (g : K) (ha : assignTimes segs g ws 0 = .ok ws') :
    ContinuesRoute env s0 route ps ws' := by
  refine continuesRoute_same h (assignTimes_same segs g ws ws' 0 ha) ?_
  obtain ⟨_, _, _, _, hm, _⟩ := h
  intro w hw
  obtain ⟨u, hu, i, t, rfl⟩ := assignTimes_mem segs g ws ws' ha w hw
  show (u.modifiers.map _) = []
  rw [hm u hu]
  rfl

/-- The plan in force and its place in time are those of `s0`. -/
structure SamePlan (s0 s : Planner K) : Prop where
  traj : s.traj = s0.traj
  dyn : s.dyn = s0.dyn
  gtlg : s.params.gtlg = s0.params.gtlg
  tOffset : s.params.tOffset = s0.params.tOffset

/-- Where a route given to the idle planner `s0` can be before its plan is taken over: queued; collected; being planned. -/
inductive Early (env : Env K) (s0 : Planner K) (route : List (Waypoint K)) (ps : List (V3 K)) (s : Planner K) : Prop
  | queued (hq : s.toSet = route.map (·.copy)) (hc : s.computing = false) (hp : s.pc = .top ∨ s.pc = .collect)
  | collected (hc : s.computing = false) (hp : s.pc = .collected ∨ s.pc = .snapshotted) (hn : s.next = route.map (·.copy))
  | planned (hc : s.pc = .planned ∨ s.computing = true) (hn : ContinuesRoute env s0 route ps s.next)

structure Rerouting (env : Env K) (s0 : Planner K) (route : List (Waypoint K)) (ps : List (V3 K)) (s : Planner K) : Prop where
  same : SamePlan s0 s
  vehicle : s.vehicle ∈ ps
  toAdd : s.toAdd = []
  toModify : s.toModify = []
  early : Early env s0 route ps s

theorem stitch_points (env : Env K) (s0 s : Planner K) (hs0 : ¬ PlanWaiting s0) (hi : SamePlan s0 s) (tr : Trajectory K) (htr : s.traj = some tr)
    (l : K) (d : Bool) (w : Waypoint K) (h : s.stitchPoint env tr l d = .ok w) :
    w.modifiers = [] ∧ w.name = "stitching_point" ∧ PointOf env s0 d w := by
  obtain ⟨r, hr, _, k1, k2, k3, k4⟩ := stitchPoint_spec env s tr l d w h
  refine ⟨k1, k2, l + s0.params.gtlg - s0.params.tOffset, r, ?_, k3, k4⟩
  have htr0 : s0.traj = some tr := hi.traj ▸ htr
  have hr0 : s0.getReferences env tr (l + s0.params.gtlg) l false = .ok r := by
    have : s.getReferences env tr (l + s.params.gtlg) l false = s0.getReferences env tr (l + s0.params.gtlg) l false := by
      unfold Planner.getReferences Planner.evaluateModified
      rw [hi.dyn, hi.gtlg]
    rw [← this, hr]
  unfold Planner.evaluateTrajectory
  rw [check_idle env s0 hs0 (by rw [htr0]; simp)]
  simp only [bind, Except.bind]
  rw [evaluateNow_eq env s0 tr htr0]
  rw [show l + s0.params.gtlg - s0.params.tOffset + s0.params.tOffset = l + s0.params.gtlg by ring,
    show l + s0.params.gtlg - s0.params.tOffset - s0.params.gtlg + s0.params.tOffset = l by ring, hr0]
  rfl

theorem rerouting_micro (env : Env K) (s0 : Planner K) (hs0 : ¬ PlanWaiting s0) (route : List (Waypoint K)) (hne : route ≠ [])
    (hm : ∀ w ∈ route, w.modifiers = [] ∧ w.time = 0) (ps : List (V3 K)) (e : Event K)
    (s s' : Planner K) (he : ¬ IsRequest e) (hv : ∀ p, e = .updateVehiclePosition p → p ∈ ps) (hc : Ctl s) (hi : Rerouting env s0 route ps s)
    (h : Micro env e s s') :
    (Rerouting env s0 route ps s' ∧ (s.computing = true → s'.computing = true)) ∨
    (s.computing = true ∧ Flying s'.traj s'.dyn s' ∧ ContinuesRoute env s0 route ps s'.dyn) := by
  obtain ⟨i0, i1, i2, i3, i4⟩ := hi
  have keep : ∀ s' : Planner K, SamePlan s0 s' → s'.vehicle ∈ ps → s'.toAdd = s.toAdd → s'.toModify = s.toModify → s'.toSet = s.toSet →
      s'.computing = s.computing → s'.pc = s.pc → s'.next = s.next →
      (Rerouting env s0 route ps s' ∧ (s.computing = true → s'.computing = true)) ∨
      (s.computing = true ∧ Flying s'.traj s'.dyn s' ∧ ContinuesRoute env s0 route ps s'.dyn) := by
    intro s' e00 e0 e1 e2 e4 e5 e7 e8
    refine .inl ⟨⟨e00, e0, e1.trans i2, e2.trans i3, ?_⟩, fun h => e5.trans h⟩
    cases i4 with
    | queued b c d => exact .queued (e4.trans b) (e5.trans c) (by rw [e7]; exact d)
    | collected c d f => exact .collected (e5.trans c) (by rw [e7]; exact d) (e8.trans f)
    | planned c d => exact .planned (by rw [e5, e7]; exact c) (by rw [e8]; exact d)
  cases h with
  | setWaypoints _ ws => exact absurd trivial he
  | append _ w => exact absurd trivial he
  | modify _ n p g => exact absurd trivial he
  | modifyMany _ ms => exact absurd trivial he
  | takeOver _ _ new off hcomp hr _ hfit =>
    refine .inr ⟨hcomp, ?_, ?_⟩
    · refine ⟨rfl, by simp, rfl, i3, ⟨rfl, rfl⟩, ?_⟩
      have hl : s.pc ≠ .launching := fun hl => by rw [(hc.launching hl).2] at hr; cases hr
      by_contra hx
      push Not at hx
      have := hc.quiet hx.2 hl hx.1
      rw [this] at hcomp; cases hcomp
    · cases i4 with
      | queued b c d => rw [c] at hcomp; cases hcomp
      | collected c d f => rw [c] at hcomp; cases hcomp
      | planned c d => exact continuesRoute_copy d
  | goApply _ hp hq _ _ => exact absurd i3 hq
  | goCollect _ hp hg hz hcomp =>
    refine .inl ⟨⟨⟨i0.1, i0.2, i0.3, i0.4⟩, i1, i2, i3, ?_⟩, fun h => h⟩
    cases i4 with
    | queued b c d => exact .queued b c (.inr rfl)
    | collected c d f => rcases d with d | d <;> rw [hp] at d <;> cases d
    | planned c d =>
      rcases c with c | c
      · rw [hp] at c; cases c
      · rw [hcomp] at c; cases c
  | collect _ ws hp hw =>
    refine .inl ⟨⟨⟨i0.1, i0.2, i0.3, i0.4⟩, i1, rfl, rfl, ?_⟩, fun h => h⟩
    have hq := hc.quiet (by rw [hp]; decide) (by rw [hp]; decide) (by rw [hp]; decide)
    cases i4 with
    | queued b c d =>
      refine .collected c (.inl rfl) ?_
      obtain ⟨base, hall, hb⟩ := generateWaypoints_form s ws _ hw
      rw [i2, i3, List.map_nil, List.append_nil] at hall
      have hall := Except.ok.inj hall
      rcases hb with ⟨hb, _⟩ | ⟨_, hb⟩
      · rw [b] at hb; exact absurd (List.map_eq_nil_iff.mp hb) hne
      · show ws = _
        rw [← hall, hb, b, List.map_map]
        apply List.map_congr_left
        intro w _
        rfl
    | collected c d f => rcases d with d | d <;> rw [hp] at d <;> cases d
    | planned c d =>
      rcases c with c | c
      · rw [hp] at c; cases c
      · rw [hq] at c; cases c
  | nothingToPlan _ hp hn =>
    have hq := hc.quiet (by rw [hp]; decide) (by rw [hp]; decide) (by rw [hp]; decide)
    cases i4 with
    | queued b c d => rcases d with d | d <;> rw [hp] at d <;> cases d
    | collected c d f => rw [f] at hn; exact absurd (List.map_eq_nil_iff.mp hn) hne
    | planned c d =>
      rcases c with c | c
      · rw [hp] at c; cases c
      · rw [hq] at c; cases c
  | snapshot _ hp hn =>
    refine .inl ⟨⟨⟨i0.1, i0.2, i0.3, i0.4⟩, i1, i2, i3, ?_⟩, fun h => h⟩
    have hq := hc.quiet (by rw [hp]; decide) (by rw [hp]; decide) (by rw [hp]; decide)
    cases i4 with
    | queued b c d => rcases d with d | d <;> rw [hp] at d <;> cases d
    | collected c d f => exact .collected c (.inr rfl) f
    | planned c d =>
      rcases c with c | c
      · rw [hp] at c; cases c
      · rw [hq] at c; cases c
  | stitch _ ws hp hs hw =>
    refine .inl ⟨⟨⟨i0.1, i0.2, i0.3, i0.4⟩, i1, i2, i3, ?_⟩, fun h => h⟩
    have hq := hc.quiet (by rw [hp]; decide) (by rw [hp]; decide) (by rw [hp]; decide)
    cases i4 with
    | queued b c d => rcases d with d | d <;> rw [hp] at d <;> cases d
    | collected c d f =>
      refine .planned (.inl rfl) ?_
      obtain ⟨tr, w0, w1, htr, h0, h1, rfl⟩ := stitch_form env s s.next ws hw
      obtain ⟨a1, a2, a3⟩ := stitch_points env s0 s hs0 i0 tr htr _ _ w0 h0
      obtain ⟨b1, b2, b3⟩ := stitch_points env s0 s hs0 i0 tr htr _ _ w1 h1
      have hall : (s.next.filter fun w => !decide (w.time < s.newParams.lastLocal + s.params.tOffset + 5 * s.computationTime
        + 5 * s.computationTime + s.params.gtlg ∧ w.time > 0)) = s.next := by
        rw [List.filter_eq_self]
        intro w hx
        rw [f] at hx
        obtain ⟨u, hu, rfl⟩ := List.mem_map.mp hx
        have : u.copy.time = 0 := (hm u hu).2
        simp [this]
      refine ⟨[w0, w1], s.next.map (·.copy), by rw [hall]; rfl, ?_, ?_, .inr ⟨w0, w1, rfl, a2, b2, a3, b3⟩⟩
      · rw [f]
        exact forall2_trans same_trans (forall2_same_copy route) (forall2_same_copy _)
      · intro u hu
        rcases List.mem_cons.mp hu with rfl | hu
        · exact a1
        rcases List.mem_cons.mp hu with rfl | hu
        · exact b1
        rw [hall] at hu
        refine map_copy_mem (P := fun w => w.modifiers = []) (fun _ h => h) ?_ u hu
        rw [f]
        exact map_copy_mem (P := fun w => w.modifiers = []) (fun _ h => h) fun w hx => (hm w hx).1
    | planned c d =>
      rcases c with c | c
      · rw [hp] at c; cases c
      · rw [hq] at c; cases c
  | scratch _ ws hp hs hw =>
    refine .inl ⟨⟨⟨i0.1, i0.2, i0.3, i0.4⟩, i1, i2, i3, ?_⟩, fun h => h⟩
    have hq := hc.quiet (by rw [hp]; decide) (by rw [hp]; decide) (by rw [hp]; decide)
    cases i4 with
    | queued b c d => rcases d with d | d <;> rw [hp] at d <;> cases d
    | collected c d f =>
      refine .planned (.inl rfl) ?_
      obtain ⟨w, rfl, _, k1, k2, k3, k4, k5⟩ := appendDrone_spec s s.next ws hw
      refine ⟨[w], s.next, rfl, by rw [f]; exact forall2_same_copy route, ?_, .inl ⟨w, rfl, k2, by rw [k3]; exact i1, k4, k5⟩⟩
      intro u hu
      rcases List.mem_cons.mp hu with rfl | hu
      · exact k1
      · rw [f] at hu
        exact map_copy_mem (P := fun w => w.modifiers = []) (fun _ h => h) (fun w hx => (hm w hx).1) u hu
    | planned c d =>
      rcases c with c | c
      · rw [hp] at c; cases c
      · rw [hq] at c; cases c
  | planned _ hp =>
    refine .inl ⟨⟨⟨i0.1, i0.2, i0.3, i0.4⟩, i1, i2, i3, ?_⟩, fun _ => rfl⟩
    cases i4 with
    | queued b c d => rcases d with d | d <;> rw [hp] at d <;> cases d
    | collected c d f => rcases d with d | d <;> rw [hp] at d <;> cases d
    | planned c d => exact .planned (.inr rfl) d
  | launch _ hp =>
    refine .inl ⟨⟨⟨i0.1, i0.2, i0.3, i0.4⟩, i1, i2, i3, ?_⟩, fun h => h⟩
    cases i4 with
    | queued b c d => rcases d with d | d <;> rw [hp] at d <;> cases d
    | collected c d f => rcases d with d | d <;> rw [hp] at d <;> cases d
    | planned c d => exact .planned (.inr (hc.launching hp).1) d
  | launched _ hp =>
    refine .inl ⟨⟨⟨i0.1, i0.2, i0.3, i0.4⟩, i1, i2, i3, ?_⟩, fun h => h⟩
    cases i4 with
    | queued b c d => rcases d with d | d <;> rw [hp] at d <;> cases d
    | collected c d f => rcases d with d | d <;> rw [hp] at d <;> cases d
    | planned c d =>
      rcases c with c | c
      · rw [hp] at c; cases c
      · exact .planned (.inr c) d
  | apply _ s2 hp ha =>
    have hq := hc.quiet (by rw [hp]; decide) (by rw [hp]; decide) (by rw [hp]; decide)
    cases i4 with
    | queued b c d => rcases d with d | d <;> rw [hp] at d <;> cases d
    | collected c d f => rcases d with d | d <;> rw [hp] at d <;> cases d
    | planned c d =>
      rcases c with c | c
      · rw [hp] at c; cases c
      · rw [hq] at c; cases c
  | asyncFinish _ dt sp tr ws hf hco =>
    refine .inl ⟨⟨⟨i0.1, i0.2, i0.3, i0.4⟩, i1, i2, i3, ?_⟩, fun h => h⟩
    have hcomp : s.computing = true := by
      by_contra hh
      rw [hc.idle (by simpa using hh)] at hf; cases hf
    cases i4 with
    | queued b c d => rw [c] at hcomp; cases hcomp
    | collected c d f => rw [c] at hcomp; cases hcomp
    | planned c d =>
      obtain ⟨vs, _, _, _, ha⟩ := computeTrajectory_form env s sp tr ws hco
      exact .planned (.inr hcomp) (continuesRoute_times d _ _ ha)
  | vehicle _ p => exact keep _ ⟨i0.1, i0.2, i0.3, i0.4⟩ (hv p rfl) rfl rfl rfl rfl rfl rfl
  | _ => exact keep _ ⟨i0.1, i0.2, i0.3, i0.4⟩ i1 rfl rfl rfl rfl rfl rfl

theorem rerouting_step (env : Env K) (s0 : Planner K) (hs0 : ¬ PlanWaiting s0) (route : List (Waypoint K)) (hne : route ≠ [])
    (hm : ∀ w ∈ route, w.modifiers = [] ∧ w.time = 0) (ps : List (V3 K)) (e : Event K)
    (s s' : Planner K) (he : ¬ IsRequest e) (hv : ∀ p, e = .updateVehiclePosition p → p ∈ ps) (hc : Ctl s) (hi : Rerouting env s0 route ps s)
    (h : s.step env e = .ok (some s')) :
    (Rerouting env s0 route ps s' ∧ ¬ TakesOver s s') ∨
    (TakesOver s s' ∧ Flying s'.traj s'.dyn s' ∧ ContinuesRoute env s0 route ps s'.dyn) := by
  rcases step_micro' env e s s' h with ⟨rfl, _⟩ | h | ⟨m, ⟨t, o, rfl⟩, h1, h2⟩
  · exact .inl ⟨hi, fun ht => by have := ht.1; rw [ht.2] at this; cases this⟩
  · rcases rerouting_micro env s0 hs0 route hne hm ps e s s' he hv hc hi h with ⟨k1, k2⟩ | ⟨k1, k2, k3⟩
    · exact .inl ⟨k1, fun ht => by have := k2 ht.1; rw [ht.2] at this; cases this⟩
    · exact .inr ⟨⟨k1, k2.flags.1⟩, k2, k3⟩
  · have c1 := ctl_micro env _ s m hc h1
    rcases rerouting_micro env s0 hs0 route hne hm ps _ s m he hv hc hi h1 with ⟨k1, k2⟩ | ⟨k1, k2, k3⟩
    · rcases rerouting_micro env s0 hs0 route hne hm ps _ m s' he hv c1 k1 h2 with ⟨j1, j2⟩ | ⟨j1, j2, j3⟩
      · exact .inl ⟨j1, fun ht => by have := j2 (k2 ht.1); rw [ht.2] at this; cases this⟩
      · refine .inr ⟨⟨?_, j2.flags.1⟩, j2, j3⟩
        by_contra hx
        cases h1 with
        | takeOver _ _ new off hcomp hr _ hfit => exact hx hcomp
        | evalTime _ _ _ _ => exact hx j1
    · have f2 := flying_micro env _ _ _ m s' he c1 k2 h2
      refine .inr ⟨⟨k1, f2.flags.1⟩, ?_, ?_⟩
      · exact ⟨rfl, by rw [f2.traj]; exact f2.some, rfl, f2.toModify, f2.flags, f2.pc⟩
      · rw [f2.dyn]; exact k3

/-- Before the plan for the route is taken over the old one is in force; afterwards the new one. -/
theorem rerouting_run (env : Env K) (s0 : Planner K) (hc0 : Ctl s0) (hidle : s0.pc = .top ∧ s0.computing = false) (route : List (Waypoint K)) (hne : route ≠ [])
    (hm : ∀ w ∈ route, w.modifiers = [] ∧ w.time = 0) (ps : List (V3 K)) (hps : s0.vehicle ∈ ps) (after : List (Event K)) (hr : ∀ e ∈ after, ¬ IsRequest e)
    (hv : ∀ e ∈ after, ∀ p, e = .updateVehiclePosition p → p ∈ ps) (s : Planner K) (h : RunBefore env s0 (.setWaypoints route :: after) s) :
    Ctl s ∧ Rerouting env s0 route ps s := by
  have hs0 : ¬ PlanWaiting s0 := by
    rintro (h | ⟨tr, h⟩) <;> rw [hc0.idle hidle.2] at h <;> cases h
  obtain ⟨s1, h1, _, h2⟩ := runWhile_cons _ _ _ _ _ _ h
  have hb : Ctl s1 ∧ Rerouting env s0 route ps s1 := by
    refine ⟨ctl_step env _ s0 s1 hc0 h1, ?_⟩
    rw [← Option.some.inj (Except.ok.inj h1)]
    exact ⟨⟨rfl, rfl, rfl, rfl⟩, hps, rfl, rfl, .queued rfl hidle.2 (.inl hidle.1)⟩
  clear h h1
  induction h2 with
  | nil => exact hb
  | snoc e _ hs hok ih =>
    obtain ⟨c, i⟩ := ih (fun e he => hr e (by simp [he])) (fun e he => hv e (by simp [he]))
    refine ⟨ctl_step env e _ _ c hs, ?_⟩
    rcases rerouting_step env s0 hs0 route hne hm ps e _ _ (hr e (by simp)) (hv e (by simp)) c i hs with ⟨k, _⟩ | ⟨k, _⟩
    · exact k
    · exact absurd k hok

theorem run_append' (env : Env K) (s : Planner K) (es es' : List (Event K)) (m s' : Planner K) (h : Run env s es m) (h' : Run env m es' s') :
    Run env s (es ++ es') s' := by
  induction h' with
  | nil => simpa using h
  | snoc e _ hs ih =>
    rw [← List.append_assoc]
    exact .snoc e ih hs

/-- C129: a planner at rest (nothing is being prepared or computed), whatever was requested and flown before, is given a route of new waypoints. Nothing else is
requested, but vehicle positions are reported, speeds set, references asked for, and the worker and the computation proceed, in any order. From the call that
takes the next plan over, `getDynamicWaypoints` returns the waypoints of the route, all of them, in their order and with their names, after a beginning: a point
at rest at the vehicle's position, or two points of the old plan, the first with velocity and acceleration. The times strictly increase. Asked for the time of
any of them (minus the time compensation), `evaluateTrajectory` answers, with its position, and with the velocity and acceleration it prescribes unless it is
the last one. From the time of the last waypoint on the answer is its position, at rest. Nothing is taken over any more. -/
theorem C129_route (env : Env K) (henv : Segmentwise env) (hmeets : MeetsVertices env) (s0 : Planner K) (h0 : ReachableBy FreshEvent env s0)
    (hidle : s0.pc = .top ∧ s0.computing = false) (route : List (Waypoint K)) (hne : route ≠ [])
    (hw : ∀ w ∈ route, Bookkept w ∧ w.modifiers = [] ∧ w.time = 0) (after more : List (Event K)) (e : Event K)
    (hr : ∀ x ∈ after ++ e :: more, ¬ IsRequest x ∧ ValidEvent x) (s1 s2 s s' : Planner K)
    (h1 : RunBefore env s0 (.setWaypoints route :: after) s1) (h2 : s1.step env e = .ok (some s2)) (ht : TakesOver s1 s2) (h3 : Run env s2 more s)
    (ws : List (Waypoint K)) (hws : s.getDynamicWaypoints env = .ok (some (ws, s'))) :
    s' = s ∧ ContinuesRoute env s0 route (s0.vehicle :: positionsReported after) ws ∧
    ws.Pairwise (fun a b => a.time < b.time) ∧
    (∀ (i : ℕ) (w : Waypoint K), ws[i]? = some w → ∀ f, ∃ r s'',
      s'.evaluateTrajectory env (w.time - s'.getTimeCompensation) false f = .ok (some (r, s'')) ∧ r.position = w.current ∧
      ∀ (k : ℕ) (v : V3 K), k = 1 ∨ k = 2 → i + 1 < ws.length → w.vertex.getConstraint k = some [v.x, v.y, v.z] → refOrder r k = some v) ∧
    (∀ (w : Waypoint K) (t : K), ws.getLast? = some w → w.time ≤ t + s'.getTimeCompensation → ∀ f, ∃ r s'',
      s'.evaluateTrajectory env t false f = .ok (some (r, s'')) ∧ r.position = w.current ∧ r.velocity = some ⟨0, 0, 0⟩ ∧ r.acceleration = some ⟨0, 0, 0⟩) := by
  have hc0 := reachable_ctl env s0 (reachable_of_fresh h0)
  have hs0 : ¬ PlanWaiting s0 := by
    rintro (h | ⟨tr, h⟩) <;> rw [hc0.idle hidle.2] at h <;> cases h
  have hm : ∀ w ∈ route, w.modifiers = [] ∧ w.time = 0 := fun w hx => (hw w hx).2
  obtain ⟨c1, r1⟩ := rerouting_run env s0 hc0 hidle route hne hm (s0.vehicle :: positionsReported after) (List.mem_cons_self ..) after
    (fun x hx => (hr x (by simp [hx])).1) (by
      rintro x hx p rfl
      exact List.mem_cons_of_mem _ (List.mem_filterMap.mpr ⟨_, hx, rfl⟩)) s1 h1
  -- the call that takes over reports no vehicle position
  have hv : ∀ p, e = .updateVehiclePosition p → p ∈ s0.vehicle :: positionsReported after := by
    rintro p rfl
    exfalso
    rw [← Option.some.inj (Except.ok.inj h2)] at ht
    have h4 := ht.1
    have h5 : s1.computing = false := ht.2
    rw [h5] at h4
    cases h4
  obtain ⟨f2, cr⟩ : Flying s2.traj s2.dyn s2 ∧ ContinuesRoute env s0 route (s0.vehicle :: positionsReported after) s2.dyn := by
    rcases rerouting_step env s0 hs0 route hne hm _ e s1 s2 (hr e (by simp)).1 hv c1 r1 h2 with ⟨_, k⟩ | ⟨_, k1, k2⟩
    · exact absurd ht k
    · exact ⟨k1, k2⟩
  have c2 := ctl_step env e s1 s2 c1 h2
  obtain ⟨c3, f3⟩ : Ctl s ∧ Flying s2.traj s2.dyn s := by
    refine run_induction env s2 (fun es s' => (∀ e ∈ es, ¬ IsRequest e) → Ctl s' ∧ Flying s2.traj s2.dyn s') (fun _ => ⟨c2, f2⟩) ?_ more s h3
      (fun e he => (hr e (by simp [he])).1)
    intro es e m m' ih hs hes
    obtain ⟨c, u⟩ := ih (fun e he => hes e (List.mem_append_left _ he))
    have hmem := hes e (by simp)
    refine ⟨ctl_step env e m m' c hs, ?_⟩
    rcases step_micro env e m m' hs with rfl | h | ⟨n, h1, h2⟩
    · exact u
    · exact flying_micro env _ _ e m m' hmem c u h
    · exact flying_micro env _ _ e n m' hmem (ctl_micro env e m n c h1) (flying_micro env _ _ e m n hmem c u h1) h2
  have hwait : ¬ PlanWaiting s := by
    rintro (h | ⟨tr, h⟩) <;> rw [c3.idle f3.flags.1] at h <;> cases h
  have htr : s.traj ≠ none := by rw [f3.traj]; exact f3.some
  have hfr : ReachableBy FreshEvent env s := by
    obtain ⟨v, es, h4, h5⟩ := h0
    have nonreq : ∀ e : Event K, ¬ IsRequest e → ValidEvent e → FreshEvent e := by
      intro e h1 h2
      cases e <;> first | exact absurd trivial h1 | exact h2
    refine ⟨v, es ++ (.setWaypoints route :: after ++ [e] ++ more), ?_, run_append' env _ _ _ s0 s h5 (run_append' env _ _ _ s2 s (.snoc e (runWhile_run _ _ _ _ _ h1) h2) h3)⟩
    intro x hx
    rcases List.mem_append.mp hx with hx | hx
    · exact h4 x hx
    · rcases List.mem_append.mp hx with hx | hx
      · rcases List.mem_append.mp hx with hx | hx
        · rcases List.mem_cons.mp hx with rfl | hx
          · exact fun w hx => ⟨(hw w hx).1, (hw w hx).2.1⟩
          · exact nonreq x (hr x (by simp [hx])).1 (hr x (by simp [hx])).2
        · obtain rfl := List.mem_singleton.mp hx
          exact nonreq x (hr x (by simp)).1 (hr x (by simp)).2
      · exact nonreq x (hr x (by simp [hx])).1 (hr x (by simp [hx])).2
  have hans : s.getDynamicWaypoints env = .ok (some (s.dyn.map (·.copy), s)) := by
    unfold Planner.getDynamicWaypoints
    rw [check_idle env s hwait htr]
    rfl
  rw [hans] at hws
  have hws := Option.some.inj (Except.ok.inj hws)
  obtain rfl : s = s' := congrArg Prod.snd hws
  obtain rfl : s.dyn.map (·.copy) = ws := congrArg Prod.fst hws
  rw [f3.dyn]
  have hmods : ∀ w ∈ s.dyn, w.modifiers = [] := by
    obtain ⟨_, _, _, _, hm, _⟩ := cr
    rw [f3.dyn]
    exact hm
  obtain ⟨g1, g2, g3⟩ := C129_flown env henv hmeets s hfr htr hwait hmods
  rw [f3.dyn] at g1 g2 g3
  refine ⟨rfl, continuesRoute_copy cr, ?_, ?_, ?_⟩
  · rw [List.pairwise_map]
    exact g1
  · intro i w hi f
    rw [List.getElem?_map] at hi
    cases hd : s2.dyn[i]? with
    | none => rw [hd] at hi; cases hi
    | some u =>
      rw [hd] at hi
      obtain rfl : u.copy = w := Option.some.inj hi
      obtain ⟨r, s'', k1, k2, k3⟩ := g2 i u hd f
      exact ⟨r, s'', k1, k2, fun k v hk hl => k3 k v hk (by simpa using hl)⟩
  · intro w t hl
    rw [List.getLast?_map] at hl
    cases hd : s2.dyn.getLast? with
    | none => rw [hd] at hl; cases hl
    | some u =>
      rw [hd] at hl
      obtain rfl : u.copy = w := Option.some.inj hl
      exact g3 u t hd

end

/-- C129: the same with the optimiser modelled in C85, linear or nonlinear, whatever its numerical solver returns. -/
theorem C129_optimiser (b : OptBackend) (lineal : Bool) (s0 : Planner ℝ) (h0 : ReachableBy FreshEvent (b.env lineal) s0)
    (hidle : s0.pc = .top ∧ s0.computing = false) (route : List (Waypoint ℝ)) (hne : route ≠ [])
    (hw : ∀ w ∈ route, Bookkept w ∧ w.modifiers = [] ∧ w.time = 0) (after more : List (Event ℝ)) (e : Event ℝ)
    (hr : ∀ x ∈ after ++ e :: more, ¬ IsRequest x ∧ ValidEvent x) (s1 s2 s s' : Planner ℝ)
    (h1 : RunBefore (b.env lineal) s0 (.setWaypoints route :: after) s1) (h2 : s1.step (b.env lineal) e = .ok (some s2)) (ht : TakesOver s1 s2)
    (h3 : Run (b.env lineal) s2 more s) (ws : List (Waypoint ℝ)) (hws : s.getDynamicWaypoints (b.env lineal) = .ok (some (ws, s'))) :
    s' = s ∧ ContinuesRoute (b.env lineal) s0 route (s0.vehicle :: positionsReported after) ws ∧
    ws.Pairwise (fun a b => a.time < b.time) ∧
    (∀ (i : ℕ) (w : Waypoint ℝ), ws[i]? = some w → ∀ f, ∃ r s'',
      s'.evaluateTrajectory (b.env lineal) (w.time - s'.getTimeCompensation) false f = .ok (some (r, s'')) ∧ r.position = w.current ∧
      ∀ (k : ℕ) (v : V3 ℝ), k = 1 ∨ k = 2 → i + 1 < ws.length → w.vertex.getConstraint k = some [v.x, v.y, v.z] → refOrder r k = some v) ∧
    (∀ (w : Waypoint ℝ) (t : ℝ), ws.getLast? = some w → w.time ≤ t + s'.getTimeCompensation → ∀ f, ∃ r s'',
      s'.evaluateTrajectory (b.env lineal) t false f = .ok (some (r, s'')) ∧ r.position = w.current ∧ r.velocity = some ⟨0, 0, 0⟩ ∧
      r.acceleration = some ⟨0, 0, 0⟩) :=
  C129_route _ (C85_segmentwise b lineal) (C85_meets_vertices b lineal) s0 h0 hidle route hne hw after more e hr s1 s2 s s' h1 h2 ht h3 ws hws

/-- The hypotheses are met: in flight, a new route of one waypoint is given, its plan is computed and taken over, attached to the old one. -/
example : ∃ s0 s1 s2 : Planner ℚ, Run hermiteEnv (Planner.init ⟨0, 0, 0⟩) (history1 ++ [.evaluate (1 / 2) true false]) s0 ∧
    (∀ e ∈ history1 ++ [.evaluate (1 / 2) true false], FreshEvent e) ∧
    (s0.pc = .top ∧ s0.computing = false) ∧ RunBefore hermiteEnv s0 (.setWaypoints [wp "c" 3 3 3] :: planEvents (1 / 100)) s1 ∧
    s1.step hermiteEnv .getDynamicWaypoints = .ok (some s2) ∧ TakesOver s1 s2 ∧
    (∀ x ∈ planEvents (1 / 100) ++ [.getDynamicWaypoints], ¬ IsRequest x ∧ ValidEvent x) ∧
    (Bookkept (wp "c" 3 3 3) ∧ (wp "c" 3 3 3 : Waypoint ℚ).modifiers = [] ∧ (wp "c" 3 3 3 : Waypoint ℚ).time = 0) ∧
    s2.dyn.map (·.name) = ["stitching_point", "stitching_point", "c"] := by
  obtain ⟨s0, s1, s2, h1, h2, h3, hf⟩ := run3w?_map (fun _ _ _ => true) notTaken (fun _ _ _ => True) (fun s _ s' => ¬ TakesOver s s') (fun _ _ _ _ => trivial) notTaken_ok
    (history1 ++ [.evaluate (1 / 2) true false]) (.setWaypoints [wp "c" 3 3 3] :: planEvents (1 / 100)) .getDynamicWaypoints
    (fun a b c => decide (a.pc = .top ∧ a.computing = false ∧ b.computing = true ∧ c.computing = false ∧
      c.dyn.map (·.name) = ["stitching_point", "stitching_point", "c"])) true (by decide +kernel)
  obtain ⟨k1, k2, k3, k4, k5⟩ := of_decide_eq_true hf
  refine ⟨s0, s1, s2, runWhile_run _ _ _ _ _ h1, ?_, ⟨k1, k2⟩, h2, h3, ⟨k3, k4⟩, ?_, ⟨(wp_bookkept _ _ _ _).1, rfl, rfl⟩, k5⟩
  · simp [history1, planEvents, FreshEvent, wp_bookkept]
  · simp [planEvents, IsRequest, ValidEvent]

end Verif.Properties
