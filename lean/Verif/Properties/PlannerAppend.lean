import Verif.Properties.PlannerReroute

/-!
# Property C130: waypoints appended in flight are flown after those that are still ahead
-/

set_option linter.unusedSectionVars false

namespace Verif.Properties
open Verif Verif.Spec Verif.Lemmas

section
variable {K : Type*} [Field K] [LinearOrder K] [IsStrictOrderedRing K] [FloorRing K]

/-- The references of the planner in state `s` follow the waypoints `ws`: their times strictly increase; asked for the time of any of them (minus the time
compensation), `evaluateTrajectory` answers, with its position, and with the velocity and acceleration it prescribes unless it is the last one; and from the time
of the last one on the answer is its position, at rest. -/
def FliesThrough (env : Env K) (s : Planner K) (ws : List (Waypoint K)) : Prop :=
  ws.Pairwise (fun a b => a.time < b.time) ∧
  (∀ (i : ℕ) (w : Waypoint K), ws[i]? = some w → ∀ f, ∃ r s',
    s.evaluateTrajectory env (w.time - s.getTimeCompensation) false f = .ok (some (r, s')) ∧ r.position = w.current ∧
    ∀ (k : ℕ) (v : V3 K), k = 1 ∨ k = 2 → i + 1 < ws.length → w.vertex.getConstraint k = some [v.x, v.y, v.z] → refOrder r k = some v) ∧
  (∀ (w : Waypoint K) (t : K), ws.getLast? = some w → w.time ≤ t + s.getTimeCompensation → ∀ f, ∃ r s',
    s.evaluateTrajectory env t false f = .ok (some (r, s')) ∧ r.position = w.current ∧ r.velocity = some ⟨0, 0, 0⟩ ∧ r.acceleration = some ⟨0, 0, 0⟩)

theorem fliesThrough_copy {env : Env K} {s : Planner K} {ws : List (Waypoint K)} (h : FliesThrough env s ws) : FliesThrough env s (ws.map (·.copy)) := by
  obtain ⟨g1, g2, g3⟩ := h
  refine ⟨?_, ?_, ?_⟩
  · rw [List.pairwise_map]
    exact g1
  · intro i w hi f
    rw [List.getElem?_map] at hi
    cases hd : ws[i]? with
    | none => rw [hd] at hi; cases hi
    | some u =>
      rw [hd] at hi
      obtain rfl : u.copy = w := Option.some.inj hi
      obtain ⟨r, s'', k1, k2, k3⟩ := g2 i u hd f
      exact ⟨r, s'', k1, k2, fun k v hk hl => k3 k v hk (by simpa using hl)⟩
  · intro w t hl
    rw [List.getLast?_map] at hl
    cases hd : ws.getLast? with
    | none => rw [hd] at hl; cases hl
    | some u =>
      rw [hd] at hl
      obtain rfl : u.copy = w := Option.some.inj hl
      exact g3 u t hd

/-- What `getDynamicWaypoints` answers of a plan in force whose waypoints were not moved, and how it is flown. -/
theorem answer_flown (env : Env K) (henv : Segmentwise env) (hmeets : MeetsVertices env) (s : Planner K) (h : ReachableBy FreshEvent env s)
    (hne : s.traj ≠ none) (hwait : ¬ PlanWaiting s) (hm : ∀ w ∈ s.dyn, w.modifiers = []) :
    s.getDynamicWaypoints env = .ok (some (s.dyn.map (·.copy), s)) ∧ FliesThrough env s (s.dyn.map (·.copy)) := by
  refine ⟨?_, fliesThrough_copy (C129_flown env henv hmeets s h hne hwait hm)⟩
  unfold Planner.getDynamicWaypoints
  rw [check_idle env s hwait hne]
  rfl

theorem taken_over_micro (env : Env K) (e : Event K) (s s' : Planner K) (hf : FreshInv env s) (h : Micro env e s s') (ht : TakesOver s s') :
    s'.traj ≠ none ∧ ∀ w ∈ s'.dyn, w.modifiers = [] := by
  obtain ⟨h1, h2⟩ := ht
  cases h with
  | takeOver _ _ new off hcomp hr _ hfit =>
    exact ⟨by simp, map_copy_mem (P := fun w => w.modifiers = []) (fun _ h => h) hf.next⟩
  | apply _ s2 hp ha =>
    obtain ⟨_, d, r, rfl, _⟩ := applyAll_rel (fun _ _ => True) (fun _ => trivial) (fun _ _ _ _ _ => trivial)
      (fun _ _ _ _ _ => trivial) _ s s2 ha
    simp_all
  | _ => simp_all [Planner.setWaypoints, Planner.appendWaypoint, Planner.modifyWaypoint, Planner.setSpeed, Planner.updateVehiclePosition]

theorem dyn_micro (env : Env K) (e : Event K) (s s' : Planner K) (h : Micro env e s s') (ht : ¬ TakesOver s s') (ha : ¬ Applies s e) :
    s'.dyn = s.dyn ∧ s'.traj = s.traj := by
  cases h with
  | takeOver _ _ new off hcomp hr _ hfit => exact absurd ⟨hcomp, rfl⟩ ht
  | apply _ s2 hp _ => exact absurd ⟨rfl, hp⟩ ha
  | _ => exact ⟨rfl, rfl⟩

/-- C130: whatever was requested and flown before, every plan that is taken over is flown through all its waypoints, until a waypoint is moved or the next plan is
taken over: `getDynamicWaypoints` answers with them and `evaluateTrajectory` follows them. -/
theorem C130_every_plan (env : Env K) (henv : Segmentwise env) (hmeets : MeetsVertices env) (s : Planner K) (h : ReachableBy FreshEvent env s)
    (e : Event K) (he : FreshEvent e) (s1 : Planner K) (h1 : s.step env e = .ok (some s1)) (ht : TakesOver s s1)
    (more : List (Event K)) (hmore : ∀ x ∈ more, FreshEvent x) (s2 : Planner K)
    (h2 : RunWhile (fun a x b => ¬ TakesOver a b ∧ ¬ Applies a x) env s1 more s2) (hwait : ¬ PlanWaiting s2) :
    s2.getDynamicWaypoints env = .ok (some (s1.dyn.map (·.copy), s2)) ∧ FliesThrough env s2 (s1.dyn.map (·.copy)) := by
  have hf := reachable_freshInv env henv s h
  have hre := reachable_of_fresh h
  have taken : s1.traj ≠ none ∧ ∀ w ∈ s1.dyn, w.modifiers = [] := by
    rcases step_micro' env e s s1 h1 with ⟨rfl, _⟩ | h | ⟨m, ⟨t, o, rfl⟩, k1, k2⟩
    · have := ht.1; rw [ht.2] at this; cases this
    · exact taken_over_micro env e s s1 hf h ht
    · have hfm := fresh_micro env _ s m he (reachable_wp env s hre) (reachable_plan env henv s hre) hf k1
      cases k2 with
      | takeOver _ _ new off hcomp hr _ hfit =>
        exact ⟨by simp, map_copy_mem (P := fun w => w.modifiers = []) (fun _ h => h) hfm.next⟩
      | evalTime _ _ _ hne =>
        have ht' : TakesOver s m := ⟨ht.1, ht.2⟩
        exact taken_over_micro env _ s m hf k1 ht'
  have same : s2.dyn = s1.dyn ∧ s2.traj = s1.traj := by
    clear hwait hmore
    induction h2 with
    | nil => exact ⟨rfl, rfl⟩
    | snoc x _ hs hok ih =>
      rename_i a b _
      obtain ⟨i1, i2⟩ := ih
      have : b.dyn = a.dyn ∧ b.traj = a.traj := by
        rcases step_micro' env x a b hs with ⟨rfl, _⟩ | h | ⟨m, ⟨t, o, rfl⟩, k1, k2⟩
        · exact ⟨rfl, rfl⟩
        · exact dyn_micro env x a b h hok.1 hok.2
        · have nt : ¬ TakesOver a m ∧ ¬ TakesOver m b := by
            cases k2 with
            | takeOver _ _ new off hcomp hr _ hfit =>
              refine ⟨fun h => ?_, fun _ => ?_⟩
              · rw [h.2] at hcomp; cases hcomp
              · cases k1 with
                | takeOver _ _ new off hcomp2 hr _ hfit => exact hok.1 ⟨hcomp2, rfl⟩
                | evalTime _ _ _ hne => exact hok.1 ⟨hcomp, rfl⟩
            | evalTime _ _ _ hne => exact ⟨fun h => hok.1 ⟨h.1, h.2⟩, fun h => by have := h.1; have h5 : m.computing = false := h.2; rw [h5] at this; cases this⟩
          obtain ⟨a1, a2⟩ := dyn_micro env _ a m k1 nt.1 hok.2
          obtain ⟨b1, b2⟩ := dyn_micro env _ m b k2 nt.2 (fun h => by cases h.1)
          exact ⟨b1.trans a1, b2.trans a2⟩
      exact ⟨this.1.trans i1, this.2.trans i2⟩
  have hfr : ReachableBy FreshEvent env s2 := by
    obtain ⟨v, es, h4, h5⟩ := h
    refine ⟨v, es ++ [e] ++ more, ?_, run_append' env _ _ _ s1 s2 (.snoc e h5 h1) (runWhile_run _ _ _ _ _ h2)⟩
    intro x hx
    rcases List.mem_append.mp hx with hx | hx
    · rcases List.mem_append.mp hx with hx | hx
      · exact h4 x hx
      · rw [List.mem_singleton.mp hx]; exact he
    · exact hmore x hx
  have := answer_flown env henv hmeets s2 hfr (by rw [same.2]; exact taken.1) hwait (by rw [same.1]; exact taken.2)
  rwa [same.1] at this

/-- `ws` are, after a beginning, waypoints of the plan in force in `s0` that are still ahead, then the waypoints `added`, each in their order, none with
compensations. The beginning is a point without name at one of the positions `ps`, at rest, and all the waypoints of the old plan are there whose time was not
over at one of the instants `ts`; or it is two points of the old plan, called "stitching_point", the first with velocity and acceleration, and of the waypoints
of the old plan those are left out that come less than 20 computation times after the instant flown at one of the instants `ts` (unless their time is 0). -/
def ContinuesPlan (env : Env K) (s0 : Planner K) (added : List (Waypoint K)) (ts : List K) (ps : List (V3 K)) (ws : List (Waypoint K)) : Prop :=
  ∃ pre old new, ws = pre ++ old ++ new ∧ List.Forall₂ SameWaypoint added new ∧ (∀ w ∈ ws, w.modifiers = []) ∧ ∃ t1 ∈ ts,
    ((∃ w0, pre = [w0] ∧ w0.name = "" ∧ w0.current ∈ ps ∧ w0.vertex.getConstraint 1 = some [0, 0, 0] ∧ w0.vertex.getConstraint 2 = some [0, 0, 0] ∧
       List.Forall₂ SameWaypoint (s0.dyn.filter fun w => t1 ≤ w.time) old) ∨
     (∃ w0 w1, pre = [w0, w1] ∧ w0.name = "stitching_point" ∧ w1.name = "stitching_point" ∧ PointOf env s0 true w0 ∧ PointOf env s0 false w1 ∧
       ∃ t2 ∈ ts, List.Forall₂ SameWaypoint (s0.dyn.filter fun w => t1 ≤ w.time ∧
         (w.time ≤ 0 ∨ t2 + s0.getTimeCompensation + 20 * s0.timeConstant ≤ w.time)) old))

theorem continuesPlan_same {env : Env K} {s0 : Planner K} {added : List (Waypoint K)} {ts : List K} {ps : List (V3 K)} {ws ws' : List (Waypoint K)}
    (h : ContinuesPlan env s0 added ts ps ws) (hs : List.Forall₂ SameWaypoint ws ws') (hm : ∀ w ∈ ws', w.modifiers = []) :
    ContinuesPlan env s0 added ts ps ws' := by
  obtain ⟨pre, old, new, rfl, h2, _, t1, ht1, h4⟩ := h
  obtain ⟨ab, new', s1, s2, rfl⟩ := forall2_split hs
  obtain ⟨pre', old', s3, s4, rfl⟩ := forall2_split s1
  refine ⟨pre', old', new', rfl, forall2_trans same_trans h2 s2, hm, t1, ht1, ?_⟩
  rcases h4 with ⟨w0, rfl, k1, k2, k3, k4, k5⟩ | ⟨w0, w1, rfl, k1, k2, k3, k4, t2, ht2, k5⟩
  · cases s3 with
    | cons a b =>
      cases b
      rename_i w0'
      exact .inl ⟨w0', rfl, a.1.trans k1, by rw [a.2.1]; exact k2, (a.2.2 1).trans k3, (a.2.2 2).trans k4, forall2_trans same_trans k5 s4⟩
  · cases s3 with
    | cons a b =>
      cases b with
      | cons b c =>
        cases c
        rename_i w0' w1'
        exact .inr ⟨w0', w1', rfl, a.1.trans k1, b.1.trans k2, pointOf_same k3 a, pointOf_same k4 b, t2, ht2, forall2_trans same_trans k5 s4⟩

theorem continuesPlan_copy {env : Env K} {s0 : Planner K} {added : List (Waypoint K)} {ts : List K} {ps : List (V3 K)} {ws : List (Waypoint K)}
    (h : ContinuesPlan env s0 added ts ps ws) : ContinuesPlan env s0 added ts ps (ws.map (·.copy)) := by
  refine continuesPlan_same h (forall2_same_copy ws) ?_
  obtain ⟨_, _, _, _, _, hm, _⟩ := h
  exact map_copy_mem (P := fun w => w.modifiers = []) (fun _ h => h) hm

theorem continuesPlan_times {env : Env K} {s0 : Planner K} {added : List (Waypoint K)} {ts : List K} {ps : List (V3 K)} {ws ws' : List (Waypoint K)}
    (h : ContinuesPlan env s0 added ts ps ws) (segs : List (Segment K)) (g : K) (ha : assignTimes segs g ws 0 = .ok ws') :
    ContinuesPlan env s0 added ts ps ws' := by
  refine continuesPlan_same h (assignTimes_same segs g ws ws' 0 ha) ?_
  obtain ⟨_, _, _, _, _, hm, _⟩ := h
  intro w hw
  obtain ⟨u, hu, i, t, rfl⟩ := assignTimes_mem segs g ws ws' ha w hw
  show (u.modifiers.map _) = []
  rw [hm u hu]
  rfl

/-- The worker has collected the waypoints of the old plan and the new ones. -/
def Gathered (s0 : Planner K) (added : List (Waypoint K)) (ts : List K) (ws : List (Waypoint K)) : Prop :=
  ∃ old, ws = old ++ added.map (·.copy) ∧ (∀ w ∈ ws, w.modifiers = []) ∧ ∃ t1 ∈ ts,
    List.Forall₂ (fun u w => SameWaypoint u w ∧ w.time = u.time) (s0.dyn.filter fun w => t1 ≤ w.time) old

/-- Where waypoints appended to the idle planner `s0` can be before their plan is taken over. -/
inductive EarlyA (env : Env K) (s0 : Planner K) (added : List (Waypoint K)) (ts : List K) (ps : List (V3 K)) (s : Planner K) : Prop
  | queued (hq : s.toAdd = added.map (·.copy)) (hc : s.computing = false) (hp : s.pc = .top ∨ s.pc = .collect)
  | collected (hc : s.computing = false) (hp : s.pc = .collected) (hn : Gathered s0 added ts s.next)
  | noted (hc : s.computing = false) (hp : s.pc = .snapshotted) (hn : Gathered s0 added ts s.next) (hl : ∃ t ∈ ts, s.newParams.lastLocal = t - s0.params.gtlg)
  | planned (hc : s.pc = .planned ∨ s.computing = true) (hn : ContinuesPlan env s0 added ts ps s.next)

structure Appending (env : Env K) (s0 : Planner K) (added : List (Waypoint K)) (ts : List K) (ps : List (V3 K)) (s : Planner K) : Prop where
  same : SamePlan s0 s
  vehicle : s.vehicle ∈ ps
  toSet : s.toSet = []
  toModify : s.toModify = []
  constant : s.computing = false → s.timeConstant = s0.timeConstant
  last : s.computing = false → s.params.lastGlobal ∈ ts ∧ s.params.lastLocal = s.params.lastGlobal - s0.params.gtlg
  early : EarlyA env s0 added ts ps s

theorem forall2_filter_time (p : K → Prop) [DecidablePred p] (us ws : List (Waypoint K)) (h : List.Forall₂ (fun u w => SameWaypoint u w ∧ w.time = u.time) us ws) :
    List.Forall₂ SameWaypoint (us.filter fun w => p w.time) (ws.filter fun w => p w.time) := by
  induction h with
  | nil => exact .nil
  | cons a b ih =>
    rename_i u w us ws
    by_cases hp : p u.time
    · rw [List.filter_cons_of_pos (by simpa using hp), List.filter_cons_of_pos (by rw [a.2]; simpa using hp)]
      exact .cons a.1 ih
    · rw [List.filter_cons_of_neg (by simpa using hp), List.filter_cons_of_neg (by rw [a.2]; simpa using hp)]
      exact ih

theorem appending_micro (env : Env K) (s0 : Planner K) (hs0 : ¬ PlanWaiting s0) (hb0 : ∀ w ∈ s0.dyn, Bookkept w) (added : List (Waypoint K)) (hne : added ≠ [])
    (hm : ∀ w ∈ added, w.modifiers = [] ∧ w.time = 0) (ts : List K) (ps : List (V3 K)) (e : Event K)
    (s s' : Planner K) (he : ¬ IsRequest e) (hv : ∀ p, e = .updateVehiclePosition p → p ∈ ps) (ht : s.computing = false → ∀ t o, e = .evaluate t o false → t ∈ ts)
    (hc : Ctl s) (hi : Appending env s0 added ts ps s) (h : Micro env e s s') :
    (Appending env s0 added ts ps s' ∧ (s.computing = true → s'.computing = true)) ∨
    (s.computing = true ∧ Flying s'.traj s'.dyn s' ∧ ContinuesPlan env s0 added ts ps s'.dyn) := by
  obtain ⟨i0, i1, i2, i3, i5, i6, i4⟩ := hi
  have keep : ∀ s' : Planner K, SamePlan s0 s' → s'.vehicle ∈ ps → s'.toAdd = s.toAdd → s'.toModify = s.toModify → s'.toSet = s.toSet →
      s'.computing = s.computing → s'.pc = s.pc → s'.next = s.next → s'.timeConstant = s.timeConstant →
      (s'.computing = false → s'.params.lastGlobal ∈ ts ∧ s'.params.lastLocal = s'.params.lastGlobal - s0.params.gtlg) →
      s'.newParams.lastLocal = s.newParams.lastLocal →
      (Appending env s0 added ts ps s' ∧ (s.computing = true → s'.computing = true)) ∨
      (s.computing = true ∧ Flying s'.traj s'.dyn s' ∧ ContinuesPlan env s0 added ts ps s'.dyn) := by
    intro s' e00 e0 e1 e2 e4 e5 e7 e8 e9 e10 e11
    refine .inl ⟨⟨e00, e0, e4.trans i2, e2.trans i3, fun h => e9.trans (i5 (e5 ▸ h)), e10, ?_⟩, fun h => e5.trans h⟩
    cases i4 with
    | queued b c d => exact .queued (e1.trans b) (e5.trans c) (by rw [e7]; exact d)
    | collected c d f => exact .collected (e5.trans c) (by rw [e7]; exact d) (by rw [e8]; exact f)
    | noted c d f g => exact .noted (e5.trans c) (by rw [e7]; exact d) (by rw [e8]; exact f) (by rw [e11]; exact g)
    | planned c d => exact .planned (by rw [e5, e7]; exact c) (by rw [e8]; exact d)
  cases h with
  | setWaypoints _ ws => exact absurd trivial he
  | append _ w => exact absurd trivial he
  | modify _ n p g => exact absurd trivial he
  | modifyMany _ ms => exact absurd trivial he
  | takeOver _ _ new off hcomp hr _ hfit =>
    refine .inr ⟨hcomp, ?_, ?_⟩
    · refine ⟨rfl, by simp, rfl, i3, ⟨rfl, rfl⟩, ?_⟩
      have hl : s.pc ≠ .launching := fun hl => by rw [(hc.launching hl).2] at hr; cases hr
      by_contra hx
      push Not at hx
      have := hc.quiet hx.2 hl hx.1
      rw [this] at hcomp; cases hcomp
    · cases i4 with
      | queued b c d => rw [c] at hcomp; cases hcomp
      | collected c d f => rw [c] at hcomp; cases hcomp
      | noted c d f g => rw [c] at hcomp; cases hcomp
      | planned c d => exact continuesPlan_copy d
  | goApply _ hp hq _ _ => exact absurd i3 hq
  | goCollect _ hp hg hz hcomp =>
    refine .inl ⟨⟨⟨i0.1, i0.2, i0.3, i0.4⟩, i1, i2, i3, i5, i6, ?_⟩, fun h => h⟩
    cases i4 with
    | queued b c d => exact .queued b c (.inr rfl)
    | collected c d f => rw [hp] at d; cases d
    | noted c d f g => rw [hp] at d; cases d
    | planned c d =>
      rcases c with c | c
      · rw [hp] at c; cases c
      · rw [hcomp] at c; cases c
  | collect _ ws hp hw =>
    refine .inl ⟨⟨⟨i0.1, i0.2, i0.3, i0.4⟩, i1, rfl, rfl, i5, i6, ?_⟩, fun h => h⟩
    have hq := hc.quiet (by rw [hp]; decide) (by rw [hp]; decide) (by rw [hp]; decide)
    cases i4 with
    | queued b c d =>
      refine .collected c rfl ?_
      obtain ⟨base, hall, hb⟩ := generateWaypoints_form s ws _ hw
      rw [i3] at hall
      have hall := Except.ok.inj hall
      rcases hb with ⟨_, hf⟩ | ⟨hb, _⟩
      swap
      · exact absurd i2 hb
      have hfil : s.filterPassed (s.dyn.map (·.copy)) = (s0.dyn.filter (fun w => s.params.lastGlobal ≤ w.time)).map (·.copy) := by
        unfold Planner.filterPassed
        rw [List.filter_map, i0.dyn]
        congr 1
        apply List.filter_congr
        intro w _
        simp only [Function.comp]
        rw [← decide_not, decide_eq_decide, not_lt]; rfl
      rw [hfil, List.forall₂_map_left_iff] at hf
      have hmod : ∀ w ∈ base, w.modifiers = [] := by
        intro w hx
        obtain ⟨a, _, hr⟩ := forall2_mem_right hf hx
        obtain ⟨v', _, rfl⟩ := resetCurrent_frame _ _ hr
        rfl
      have hadd : s.toAdd.map (·.copy) = added.map (·.copy) := by
        rw [b, List.map_map]
        apply List.map_congr_left
        intro w _
        rfl
      rw [hadd] at hall
      refine ⟨base, hall.symm, ?_, s.params.lastGlobal, (i6 hq).1, ?_⟩
      · show ∀ w ∈ ws, _
        rw [← hall]
        intro w hx
        rcases List.mem_append.mp hx with hx | hx
        · exact hmod w hx
        · exact map_copy_mem (P := fun w => w.modifiers = []) (fun _ h => h) (fun w hx => (hm w hx).1) w hx
      · refine forall2_imp_mem hf ?_
        intro a ha b hab
        have hab' := hb0 a (List.mem_filter.mp ha).1
        obtain ⟨v', hv', rfl⟩ := resetCurrent_frame _ _ hab
        obtain ⟨_, _, h3⟩ := addConstraint_bookkept a.vertex v' 0 a.current hab'.1 hab'.2.1 hv'
        refine ⟨⟨rfl, rfl, fun k => (h3 k).trans ?_⟩, rfl⟩
        split
        · rename_i hk; rw [hk, hab'.2.2.1]; rfl
        · rfl
    | collected c d f => rw [hp] at d; cases d
    | noted c d f g => rw [hp] at d; cases d
    | planned c d =>
      rcases c with c | c
      · rw [hp] at c; cases c
      · rw [hq] at c; cases c
  | nothingToPlan _ hp hn =>
    have hq := hc.quiet (by rw [hp]; decide) (by rw [hp]; decide) (by rw [hp]; decide)
    cases i4 with
    | queued b c d => rcases d with d | d <;> rw [hp] at d <;> cases d
    | collected c d f =>
      obtain ⟨old, f, _⟩ := f
      rw [f] at hn
      exact absurd (List.map_eq_nil_iff.mp (List.append_eq_nil_iff.mp hn).2) hne
    | noted c d f g => rw [hp] at d; cases d
    | planned c d =>
      rcases c with c | c
      · rw [hp] at c; cases c
      · rw [hq] at c; cases c
  | snapshot _ hp hn =>
    refine .inl ⟨⟨⟨i0.1, i0.2, i0.3, i0.4⟩, i1, i2, i3, i5, i6, ?_⟩, fun h => h⟩
    have hq := hc.quiet (by rw [hp]; decide) (by rw [hp]; decide) (by rw [hp]; decide)
    cases i4 with
    | queued b c d => rcases d with d | d <;> rw [hp] at d <;> cases d
    | collected c d f => exact .noted c rfl f ⟨_, (i6 c).1, (i6 c).2⟩
    | noted c d f g => rw [hp] at d; cases d
    | planned c d =>
      rcases c with c | c
      · rw [hp] at c; cases c
      · rw [hq] at c; cases c
  | stitch _ ws hp hs hw =>
    refine .inl ⟨⟨⟨i0.1, i0.2, i0.3, i0.4⟩, i1, i2, i3, i5, i6, ?_⟩, fun h => h⟩
    have hq := hc.quiet (by rw [hp]; decide) (by rw [hp]; decide) (by rw [hp]; decide)
    cases i4 with
    | queued b c d => rcases d with d | d <;> rw [hp] at d <;> cases d
    | collected c d f => rw [hp] at d; cases d
    | noted c d f g =>
      refine .planned (.inl rfl) ?_
      obtain ⟨t2, ht2, hl⟩ := g
      obtain ⟨old, f1, f2, t1, ht1, f3⟩ := f
      obtain ⟨tr, w0, w1, htr, h0, h1, rfl⟩ := stitch_form env s s.next ws hw
      obtain ⟨a1, a2, a3⟩ := stitch_points env s0 s hs0 i0 tr htr _ _ w0 h0
      obtain ⟨b1, b2, b3⟩ := stitch_points env s0 s hs0 i0 tr htr _ _ w1 h1
      have hfil : (s.next.filter fun w => !decide (w.time < s.newParams.lastLocal + s.params.tOffset + 5 * s.computationTime
        + 5 * s.computationTime + s.params.gtlg ∧ w.time > 0)) =
          (old.filter fun w => w.time ≤ 0 ∨ t2 + s0.getTimeCompensation + 20 * s0.timeConstant ≤ w.time) ++ added.map (·.copy) := by
        rw [f1, List.filter_append]
        congr 1
        · apply List.filter_congr
          intro w _
          have e1 : s.newParams.lastLocal + s.params.tOffset + 5 * s.computationTime + 5 * s.computationTime + s.params.gtlg =
              t2 + s0.getTimeCompensation + 20 * s0.timeConstant := by
            unfold Planner.computationTime Planner.getTimeCompensation
            rw [hl, i0.tOffset, i0.gtlg, i5 hq]; ring
          rw [e1, ← decide_not, decide_eq_decide, not_and_or, not_lt, not_lt, or_comm]
        · rw [List.filter_eq_self]
          intro w hx
          obtain ⟨u, hu, rfl⟩ := List.mem_map.mp hx
          have : u.copy.time = 0 := (hm u hu).2
          simp [this]
      have hold := forall2_filter_time (fun t => t ≤ 0 ∨ t2 + s0.getTimeCompensation + 20 * s0.timeConstant ≤ t) _ _ f3
      rw [List.filter_filter] at hold
      refine ⟨[w0, w1], (old.filter fun w => w.time ≤ 0 ∨ t2 + s0.getTimeCompensation + 20 * s0.timeConstant ≤ w.time).map (·.copy), (added.map (·.copy)).map (·.copy),
        by rw [hfil, List.map_append]; rfl, forall2_trans same_trans (forall2_same_copy added) (forall2_same_copy _), ?_, t1, ht1,
        .inr ⟨w0, w1, rfl, a2, b2, a3, b3, t2, ht2, ?_⟩⟩
      · intro u hu
        rcases List.mem_cons.mp hu with rfl | hu
        · exact a1
        rcases List.mem_cons.mp hu with rfl | hu
        · exact b1
        exact map_copy_mem (P := fun w => w.modifiers = []) (fun _ h => h) (fun w hx => f2 w (List.mem_filter.mp hx).1) u hu
      · refine forall2_trans same_trans ?_ (forall2_same_copy _)
        have hsame : (s0.dyn.filter fun w => t1 ≤ w.time ∧ (w.time ≤ 0 ∨ t2 + s0.getTimeCompensation + 20 * s0.timeConstant ≤ w.time)) =
            s0.dyn.filter fun w => decide (w.time ≤ 0 ∨ t2 + s0.getTimeCompensation + 20 * s0.timeConstant ≤ w.time) && decide (t1 ≤ w.time) := by
          apply List.filter_congr
          intro w _
          rw [Bool.eq_iff_iff]
          simp only [decide_eq_true_eq, Bool.and_eq_true]
          exact and_comm
        rw [hsame]
        exact hold
    | planned c d =>
      rcases c with c | c
      · rw [hp] at c; cases c
      · rw [hq] at c; cases c
  | scratch _ ws hp hs hw =>
    refine .inl ⟨⟨⟨i0.1, i0.2, i0.3, i0.4⟩, i1, i2, i3, i5, i6, ?_⟩, fun h => h⟩
    have hq := hc.quiet (by rw [hp]; decide) (by rw [hp]; decide) (by rw [hp]; decide)
    cases i4 with
    | queued b c d => rcases d with d | d <;> rw [hp] at d <;> cases d
    | collected c d f => rw [hp] at d; cases d
    | noted c d f g =>
      refine .planned (.inl rfl) ?_
      obtain ⟨old, f1, f2, t1, ht1, f3⟩ := f
      obtain ⟨w, rfl, _, k1, k2, k3, k4, k5⟩ := appendDrone_spec s s.next ws hw
      refine ⟨[w], old, added.map (·.copy), by rw [f1]; rfl, forall2_same_copy added, ?_, t1, ht1,
        .inl ⟨w, rfl, k2, by rw [k3]; exact i1, k4, k5, f3.imp fun _ _ h => h.1⟩⟩
      intro u hu
      rcases List.mem_cons.mp hu with rfl | hu
      · exact k1
      · exact f2 u hu
    | planned c d =>
      rcases c with c | c
      · rw [hp] at c; cases c
      · rw [hq] at c; cases c
  | planned _ hp =>
    refine .inl ⟨⟨⟨i0.1, i0.2, i0.3, i0.4⟩, i1, i2, i3, fun h => (by cases h), fun h => (by cases h), ?_⟩, fun _ => rfl⟩
    cases i4 with
    | queued b c d => rcases d with d | d <;> rw [hp] at d <;> cases d
    | collected c d f => rw [hp] at d; cases d
    | noted c d f g => rw [hp] at d; cases d
    | planned c d => exact .planned (.inr rfl) d
  | launch _ hp =>
    refine .inl ⟨⟨⟨i0.1, i0.2, i0.3, i0.4⟩, i1, i2, i3, i5, i6, ?_⟩, fun h => h⟩
    cases i4 with
    | queued b c d => rcases d with d | d <;> rw [hp] at d <;> cases d
    | collected c d f => rw [hp] at d; cases d
    | noted c d f g => rw [hp] at d; cases d
    | planned c d => exact .planned (.inr (hc.launching hp).1) d
  | launched _ hp =>
    refine .inl ⟨⟨⟨i0.1, i0.2, i0.3, i0.4⟩, i1, i2, i3, i5, i6, ?_⟩, fun h => h⟩
    cases i4 with
    | queued b c d => rcases d with d | d <;> rw [hp] at d <;> cases d
    | collected c d f => rw [hp] at d; cases d
    | noted c d f g => rw [hp] at d; cases d
    | planned c d =>
      rcases c with c | c
      · rw [hp] at c; cases c
      · exact .planned (.inr c) d
  | apply _ s2 hp ha =>
    have hq := hc.quiet (by rw [hp]; decide) (by rw [hp]; decide) (by rw [hp]; decide)
    cases i4 with
    | queued b c d => rcases d with d | d <;> rw [hp] at d <;> cases d
    | collected c d f => rw [hp] at d; cases d
    | noted c d f g => rw [hp] at d; cases d
    | planned c d =>
      rcases c with c | c
      · rw [hp] at c; cases c
      · rw [hq] at c; cases c
  | asyncFinish _ dt sp tr ws hf hco =>
    have hcomp : s.computing = true := by
      by_contra hh
      rw [hc.idle (by simpa using hh)] at hf; cases hf
    refine .inl ⟨⟨⟨i0.1, i0.2, i0.3, i0.4⟩, i1, i2, i3, fun h => (by have h : s.computing = false := h; rw [hcomp] at h; cases h), i6, ?_⟩, fun h => h⟩
    cases i4 with
    | queued b c d => rw [c] at hcomp; cases hcomp
    | collected c d f => rw [c] at hcomp; cases hcomp
    | noted c d f g => rw [c] at hcomp; cases hcomp
    | planned c d =>
      obtain ⟨vs, _, _, _, ha⟩ := computeTrajectory_form env s sp tr ws hco
      exact .planned (.inr hcomp) (continuesPlan_times d _ _ ha)
  | vehicle _ p => exact keep _ ⟨i0.1, i0.2, i0.3, i0.4⟩ (hv p rfl) rfl rfl rfl rfl rfl rfl rfl i6 rfl
  | evalTime _ t o hne => exact keep _ ⟨i0.1, i0.2, i0.3, i0.4⟩ i1 rfl rfl rfl rfl rfl rfl rfl (fun h => ⟨ht h t o rfl, by rw [← i0.gtlg]⟩) rfl
  | _ => exact keep _ ⟨i0.1, i0.2, i0.3, i0.4⟩ i1 rfl rfl rfl rfl rfl rfl rfl i6 rfl

theorem appending_step (env : Env K) (s0 : Planner K) (hs0 : ¬ PlanWaiting s0) (hb0 : ∀ w ∈ s0.dyn, Bookkept w) (added : List (Waypoint K)) (hne : added ≠ [])
    (hm : ∀ w ∈ added, w.modifiers = [] ∧ w.time = 0) (ts : List K) (ps : List (V3 K)) (e : Event K)
    (s s' : Planner K) (he : ¬ IsRequest e) (hv : ∀ p, e = .updateVehiclePosition p → p ∈ ps) (ht : s.computing = false → ∀ t o, e = .evaluate t o false → t ∈ ts)
    (hc : Ctl s) (hi : Appending env s0 added ts ps s) (h : s.step env e = .ok (some s')) :
    (Appending env s0 added ts ps s' ∧ ¬ TakesOver s s') ∨
    (TakesOver s s' ∧ Flying s'.traj s'.dyn s' ∧ ContinuesPlan env s0 added ts ps s'.dyn) := by
  rcases step_micro' env e s s' h with ⟨rfl, _⟩ | h | ⟨m, ⟨t, o, rfl⟩, h1, h2⟩
  · exact .inl ⟨hi, fun ht => by have := ht.1; rw [ht.2] at this; cases this⟩
  · rcases appending_micro env s0 hs0 hb0 added hne hm ts ps e s s' he hv ht hc hi h with ⟨k1, k2⟩ | ⟨k1, k2, k3⟩
    · exact .inl ⟨k1, fun ht => by have := k2 ht.1; rw [ht.2] at this; cases this⟩
    · exact .inr ⟨⟨k1, k2.flags.1⟩, k2, k3⟩
  · have c1 := ctl_micro env _ s m hc h1
    rcases appending_micro env s0 hs0 hb0 added hne hm ts ps _ s m he hv ht hc hi h1 with ⟨k1, k2⟩ | ⟨k1, k2, k3⟩
    · have ht2 : m.computing = false → ∀ t' o', Event.evaluate t o false = .evaluate t' o' false → t' ∈ ts := by
        intro hx
        refine ht ?_
        by_contra hy
        have := k2 (by simpa using hy)
        rw [hx] at this; cases this
      rcases appending_micro env s0 hs0 hb0 added hne hm ts ps _ m s' he hv ht2 c1 k1 h2 with ⟨j1, j2⟩ | ⟨j1, j2, j3⟩
      · exact .inl ⟨j1, fun ht => by have := j2 (k2 ht.1); rw [ht.2] at this; cases this⟩
      · refine .inr ⟨⟨?_, j2.flags.1⟩, j2, j3⟩
        by_contra hx
        cases h1 with
        | takeOver _ _ new off hcomp hr _ hfit => exact hx hcomp
        | evalTime _ _ _ _ => exact hx j1
    · have f2 := flying_micro env _ _ _ m s' he c1 k2 h2
      refine .inr ⟨⟨k1, f2.flags.1⟩, ?_, ?_⟩
      · exact ⟨rfl, by rw [f2.traj]; exact f2.some, rfl, f2.toModify, f2.flags, f2.pc⟩
      · rw [f2.dyn]; exact k3

theorem append_all (env : Env K) (added : List (Waypoint K)) (after : List (Event K)) (s s1 : Planner K)
    (h : RunBefore env s (added.map .appendWaypoint ++ after) s1) :
    ∃ s' g, RunBefore env s' after s1 ∧ s' = { s with toAdd := s.toAdd ++ added.map (·.copy), generateNew := g } := by
  induction added generalizing s with
  | nil => exact ⟨s, s.generateNew, h, by simp⟩
  | cons w added ih =>
    obtain ⟨m, h1, _, h2⟩ := runWhile_cons _ _ _ _ _ _ h
    obtain ⟨s', g, k1, k2⟩ := ih m h2
    refine ⟨s', g, k1, ?_⟩
    rw [k2, ← Option.some.inj (Except.ok.inj h1)]
    simp [Planner.appendWaypoint]

theorem appending_run (env : Env K) (s0 : Planner K) (hc0 : Ctl s0) (hidle : s0.pc = .top ∧ s0.computing = false) (hb0 : ∀ w ∈ s0.dyn, Bookkept w)
    (hq : s0.toSet = [] ∧ s0.toAdd = [] ∧ s0.toModify = []) (added : List (Waypoint K)) (hne : added ≠ [])
    (hm : ∀ w ∈ added, w.modifiers = [] ∧ w.time = 0) (ts : List K) (hts : s0.params.lastGlobal ∈ ts)
    (hloc : s0.params.lastLocal = s0.params.lastGlobal - s0.params.gtlg) (ps : List (V3 K)) (hps : s0.vehicle ∈ ps)
    (after : List (Event K)) (hr : ∀ e ∈ after, ¬ IsRequest e)
    (hv : ∀ e ∈ after, ∀ p, e = .updateVehiclePosition p → p ∈ ps) (ht : ∀ e ∈ after, ∀ t o, e = .evaluate t o false → t ∈ ts) (s : Planner K)
    (h : RunBefore env s0 (added.map .appendWaypoint ++ after) s) :
    Ctl s ∧ Appending env s0 added ts ps s := by
  have hs0 : ¬ PlanWaiting s0 := by
    rintro (h | ⟨tr, h⟩) <;> rw [hc0.idle hidle.2] at h <;> cases h
  obtain ⟨s1, g, h2, hs1⟩ := append_all env added after s0 s h
  have hb : Ctl s1 ∧ Appending env s0 added ts ps s1 := by
    rw [hs1]
    refine ⟨⟨hc0.1, hc0.2, hc0.3, hc0.4, hc0.5, hc0.6, hc0.7⟩, ⟨rfl, rfl, rfl, rfl⟩, hps, hq.1, hq.2.2, fun _ => rfl, fun _ => ⟨hts, hloc⟩, .queued ?_ hidle.2 (.inl hidle.1)⟩
    show s0.toAdd ++ _ = _
    rw [hq.2.1]; rfl
  clear h hs1
  induction h2 with
  | nil => exact hb
  | snoc e _ hs hok ih =>
    obtain ⟨c, i⟩ := ih (fun e he => hr e (by simp [he])) (fun e he => hv e (by simp [he])) (fun e he => ht e (by simp [he]))
    refine ⟨ctl_step env e _ _ c hs, ?_⟩
    rcases appending_step env s0 hs0 hb0 added hne hm ts ps e _ _ (hr e (by simp)) (hv e (by simp)) (fun _ => ht e (by simp)) c i hs with ⟨k, _⟩ | ⟨k, _⟩
    · exact k
    · exact absurd k hok

/-- C130: a planner with no requests queued and nothing being prepared or computed, whatever was requested and flown before (the plans taken over by evaluations).
One or more new waypoints are appended. Nothing else is requested, but vehicle positions are reported, speeds set, references asked for, and the worker and the
computation proceed, in any order. From the call that takes the next plan over, `getDynamicWaypoints` returns the waypoints of the old plan that are still ahead
(see `ContinuesPlan` for which these are exactly), at their current positions, then the appended ones, after a beginning made by the planner; and
`evaluateTrajectory` follows them. -/
theorem C130_appended (env : Env K) (henv : Segmentwise env) (hmeets : MeetsVertices env) (v : V3 K) (es : List (Event K)) (hes : ∀ e ∈ es, FreshEvent e)
    (s0 : Planner K) (h0 : RunOnTime env (Planner.init v) es s0) (hidle : s0.pc = .top ∧ s0.computing = false)
    (hq : s0.toSet = [] ∧ s0.toAdd = [] ∧ s0.toModify = []) (added : List (Waypoint K)) (hne : added ≠ [])
    (hw : ∀ w ∈ added, Bookkept w ∧ w.modifiers = [] ∧ w.time = 0) (after more : List (Event K)) (e : Event K)
    (hr : ∀ x ∈ after ++ e :: more, ¬ IsRequest x ∧ ValidEvent x) (s1 s2 s s' : Planner K)
    (h1 : RunBefore env s0 (added.map .appendWaypoint ++ after) s1) (h2 : s1.step env e = .ok (some s2)) (ht : TakesOver s1 s2) (h3 : Run env s2 more s)
    (ws : List (Waypoint K)) (hws : s.getDynamicWaypoints env = .ok (some (ws, s'))) :
    s' = s ∧ ContinuesPlan env s0 added (lastEval es :: evalTimes after) (s0.vehicle :: positionsReported after) ws ∧ FliesThrough env s ws := by
  have hfr0 : ReachableBy FreshEvent env s0 := ⟨v, es, hes, runWhile_run _ _ _ _ _ h0⟩
  have hre0 := reachable_of_fresh hfr0
  have hc0 := reachable_ctl env s0 hre0
  have hb0 := (reachable_wp env s0 hre0).dyn
  have hk := clock_run env v es s0 h0
  have hs0 : ¬ PlanWaiting s0 := by
    rintro (h | ⟨tr, h⟩) <;> rw [hc0.idle hidle.2] at h <;> cases h
  have hm : ∀ w ∈ added, w.modifiers = [] ∧ w.time = 0 := fun w hx => (hw w hx).2
  obtain ⟨c1, r1⟩ := appending_run env s0 hc0 hidle hb0 hq added hne hm (lastEval es :: evalTimes after) (by rw [hk.global]; exact List.mem_cons_self ..)
    (by rw [hk.loc, hk.global]) (s0.vehicle :: positionsReported after) (List.mem_cons_self ..) after
    (fun x hx => (hr x (by simp [hx])).1) (by
      rintro x hx p rfl
      exact List.mem_cons_of_mem _ (List.mem_filterMap.mpr ⟨_, hx, rfl⟩)) (by
      rintro x hx t o rfl
      exact List.mem_cons_of_mem _ (List.mem_filterMap.mpr ⟨_, hx, rfl⟩)) s1 h1
  have hv : ∀ p, e = .updateVehiclePosition p → p ∈ s0.vehicle :: positionsReported after := by
    rintro p rfl
    exfalso
    rw [← Option.some.inj (Except.ok.inj h2)] at ht
    have h4 := ht.1
    have h5 : s1.computing = false := ht.2
    rw [h5] at h4
    cases h4
  obtain ⟨f2, cr⟩ : Flying s2.traj s2.dyn s2 ∧ ContinuesPlan env s0 added (lastEval es :: evalTimes after) (s0.vehicle :: positionsReported after) s2.dyn := by
    rcases appending_step env s0 hs0 hb0 added hne hm _ _ e s1 s2 (hr e (by simp)).1 hv (fun hx => by have := ht.1; rw [hx] at this; cases this) c1 r1 h2 with ⟨_, k⟩ | ⟨_, k1, k2⟩
    · exact absurd ht k
    · exact ⟨k1, k2⟩
  have c2 := ctl_step env e s1 s2 c1 h2
  obtain ⟨c3, f3⟩ : Ctl s ∧ Flying s2.traj s2.dyn s := by
    refine run_induction env s2 (fun es s' => (∀ e ∈ es, ¬ IsRequest e) → Ctl s' ∧ Flying s2.traj s2.dyn s') (fun _ => ⟨c2, f2⟩) ?_ more s h3
      (fun e he => (hr e (by simp [he])).1)
    intro es e m m' ih hs hes
    obtain ⟨c, u⟩ := ih (fun e he => hes e (List.mem_append_left _ he))
    have hmem := hes e (by simp)
    refine ⟨ctl_step env e m m' c hs, ?_⟩
    rcases step_micro env e m m' hs with rfl | h | ⟨n, h1, h2⟩
    · exact u
    · exact flying_micro env _ _ e m m' hmem c u h
    · exact flying_micro env _ _ e n m' hmem (ctl_micro env e m n c h1) (flying_micro env _ _ e m n hmem c u h1) h2
  have hwait : ¬ PlanWaiting s := by
    rintro (h | ⟨tr, h⟩) <;> rw [c3.idle f3.flags.1] at h <;> cases h
  have htr : s.traj ≠ none := by rw [f3.traj]; exact f3.some
  have hfr : ReachableBy FreshEvent env s := by
    obtain ⟨v, es, h4, h5⟩ := hfr0
    have nonreq : ∀ e : Event K, ¬ IsRequest e → ValidEvent e → FreshEvent e := by
      intro e h1 h2
      cases e <;> first | exact absurd trivial h1 | exact h2
    refine ⟨v, es ++ ((added.map Event.appendWaypoint ++ after) ++ [e] ++ more), ?_,
      run_append' env _ _ _ s0 s h5 (run_append' env _ _ _ s2 s (.snoc e (runWhile_run _ _ _ _ _ h1) h2) h3)⟩
    intro x hx
    rcases List.mem_append.mp hx with hx | hx
    · exact h4 x hx
    · rcases List.mem_append.mp hx with hx | hx
      · rcases List.mem_append.mp hx with hx | hx
        · rcases List.mem_append.mp hx with hx | hx
          · obtain ⟨w, hwx, rfl⟩ := List.mem_map.mp hx
            exact ⟨(hw w hwx).1, (hw w hwx).2.1⟩
          · exact nonreq x (hr x (by simp [hx])).1 (hr x (by simp [hx])).2
        · obtain rfl := List.mem_singleton.mp hx
          exact nonreq x (hr x (by simp)).1 (hr x (by simp)).2
      · exact nonreq x (hr x (by simp [hx])).1 (hr x (by simp [hx])).2
  have hmods : ∀ w ∈ s.dyn, w.modifiers = [] := by
    obtain ⟨_, _, _, _, _, hm, _⟩ := cr
    rw [f3.dyn]
    exact hm
  obtain ⟨hans, hfl⟩ := answer_flown env henv hmeets s hfr htr hwait hmods
  rw [hans] at hws
  have hws := Option.some.inj (Except.ok.inj hws)
  obtain rfl : s = s' := congrArg Prod.snd hws
  obtain rfl : s.dyn.map (·.copy) = ws := congrArg Prod.fst hws
  refine ⟨rfl, ?_, hfl⟩
  rw [f3.dyn]
  exact continuesPlan_copy cr

/-- C130: in particular, if the references are asked for with times up to `T` until then, every waypoint of the old plan that comes later than `T`, and at least 20
computation times after the instant flown at `T`, is flown, at its current position, before the appended ones. -/
theorem C130_upcoming_kept (env : Env K) (henv : Segmentwise env) (hmeets : MeetsVertices env) (v : V3 K) (es : List (Event K)) (hes : ∀ e ∈ es, FreshEvent e)
    (s0 : Planner K) (h0 : RunOnTime env (Planner.init v) es s0) (hidle : s0.pc = .top ∧ s0.computing = false)
    (hq : s0.toSet = [] ∧ s0.toAdd = [] ∧ s0.toModify = []) (added : List (Waypoint K)) (hne : added ≠ [])
    (hw : ∀ w ∈ added, Bookkept w ∧ w.modifiers = [] ∧ w.time = 0) (after more : List (Event K)) (e : Event K)
    (hr : ∀ x ∈ after ++ e :: more, ¬ IsRequest x ∧ ValidEvent x) (s1 s2 s s' : Planner K)
    (h1 : RunBefore env s0 (added.map .appendWaypoint ++ after) s1) (h2 : s1.step env e = .ok (some s2)) (ht : TakesOver s1 s2) (h3 : Run env s2 more s)
    (ws : List (Waypoint K)) (hws : s.getDynamicWaypoints env = .ok (some (ws, s'))) (T : K) (hT : ∀ t ∈ lastEval es :: evalTimes after, t ≤ T)
    (u : Waypoint K) (hu : u ∈ s0.dyn) (hu1 : T ≤ u.time) (hu2 : T + s0.getTimeCompensation + 20 * s0.timeConstant ≤ u.time) :
    ∃ w ∈ ws.take (ws.length - added.length), w.name = u.name ∧ w.current = u.current ∧
      ∀ f, ∃ r s'', s.evaluateTrajectory env (w.time - s.getTimeCompensation) false f = .ok (some (r, s'')) ∧ r.position = u.current := by
  obtain ⟨_, ⟨pre, old, new, rfl, hnew, _, t1, ht1, hcase⟩, hfl⟩ :=
    C130_appended env henv hmeets v es hes s0 h0 hidle hq added hne hw after more e hr s1 s2 s s' h1 h2 ht h3 ws hws
  have htake : (pre ++ old ++ new).take ((pre ++ old ++ new).length - added.length) = pre ++ old := by
    rw [hnew.length_eq, show (pre ++ old ++ new).length - new.length = (pre ++ old).length by simp [List.length_append]; omega]
    exact List.take_left
  rw [htake]
  have hold : ∃ w ∈ old, SameWaypoint u w := by
    have hfrom : ∀ from_ : List (Waypoint K), u ∈ from_ → List.Forall₂ SameWaypoint from_ old → ∃ w ∈ old, SameWaypoint u w := by
      intro from_ hmem hfk
      obtain ⟨j, hj⟩ := List.mem_iff_getElem?.mp hmem
      obtain ⟨w', hw', hsame⟩ := forall2_get hfk j u hj
      exact ⟨w', List.mem_of_getElem? hw', hsame⟩
    rcases hcase with ⟨w0, _, _, _, _, _, hf⟩ | ⟨w0, w1, _, _, _, _, _, t2, ht2, hf⟩
    · exact hfrom _ (List.mem_filter.mpr ⟨hu, decide_eq_true ((hT t1 ht1).trans hu1)⟩) hf
    · refine hfrom _ (List.mem_filter.mpr ⟨hu, decide_eq_true ⟨(hT t1 ht1).trans hu1, .inr ?_⟩⟩) hf
      have := hT t2 ht2
      linarith
  obtain ⟨w, hwo, hsame⟩ := hold
  refine ⟨w, List.mem_append_right _ hwo, hsame.1, hsame.2.1, fun f => ?_⟩
  obtain ⟨i, hi⟩ := List.mem_iff_getElem?.mp (List.mem_append_left new (List.mem_append_right pre hwo))
  obtain ⟨r, s'', k1, k2, _⟩ := hfl.2.1 i w hi f
  exact ⟨r, s'', k1, k2.trans hsame.2.1⟩

end

/-- C130: the same with the optimiser modelled in C85, linear or nonlinear, whatever its numerical solver returns. -/
theorem C130_optimiser (b : OptBackend) (lineal : Bool) (v : V3 ℝ) (es : List (Event ℝ)) (hes : ∀ e ∈ es, FreshEvent e)
    (s0 : Planner ℝ) (h0 : RunOnTime (b.env lineal) (Planner.init v) es s0) (hidle : s0.pc = .top ∧ s0.computing = false)
    (hq : s0.toSet = [] ∧ s0.toAdd = [] ∧ s0.toModify = []) (added : List (Waypoint ℝ)) (hne : added ≠ [])
    (hw : ∀ w ∈ added, Bookkept w ∧ w.modifiers = [] ∧ w.time = 0) (after more : List (Event ℝ)) (e : Event ℝ)
    (hr : ∀ x ∈ after ++ e :: more, ¬ IsRequest x ∧ ValidEvent x) (s1 s2 s s' : Planner ℝ)
    (h1 : RunBefore (b.env lineal) s0 (added.map .appendWaypoint ++ after) s1) (h2 : s1.step (b.env lineal) e = .ok (some s2)) (ht : TakesOver s1 s2)
    (h3 : Run (b.env lineal) s2 more s) (ws : List (Waypoint ℝ)) (hws : s.getDynamicWaypoints (b.env lineal) = .ok (some (ws, s'))) :
    s' = s ∧ ContinuesPlan (b.env lineal) s0 added (lastEval es :: evalTimes after) (s0.vehicle :: positionsReported after) ws ∧ FliesThrough (b.env lineal) s ws :=
  C130_appended _ (C85_segmentwise b lineal) (C85_meets_vertices b lineal) v es hes s0 h0 hidle hq added hne hw after more e hr s1 s2 s s' h1 h2 ht h3 ws hws

/-- The hypotheses are met: in flight, half a second before waypoint "a", two waypoints are appended; the new plan is attached to the old one and has the two
waypoints that are ahead and the two appended ones. "a" comes at 1, more than 20 computation times after the instant flown at 1/2. -/
example : ∃ s0 s1 s2 : Planner ℚ, RunOnTime hermiteEnv (Planner.init ⟨0, 0, 0⟩) (history1 ++ [.evaluate (1 / 2) true false]) s0 ∧
    (∀ e ∈ history1 ++ [.evaluate (1 / 2) true false], FreshEvent e) ∧
    (s0.pc = .top ∧ s0.computing = false) ∧ (s0.toSet = [] ∧ s0.toAdd = [] ∧ s0.toModify = []) ∧
    RunBefore hermiteEnv s0 ([wp "c" 3 3 3, wp "d" 4 4 4].map Event.appendWaypoint ++ planEvents (1 / 100)) s1 ∧
    s1.step hermiteEnv (.evaluate (3 / 5) true false) = .ok (some s2) ∧ TakesOver s1 s2 ∧
    (∀ x ∈ planEvents (1 / 100) ++ [.evaluate (3 / 5) true false], ¬ IsRequest x ∧ ValidEvent x) ∧
    s2.dyn.map (·.name) = ["stitching_point", "stitching_point", "a", "b", "c", "d"] ∧
    s0.dyn.map (fun u => (u.name, decide (1 / 2 ≤ u.time ∧ 1 / 2 + s0.getTimeCompensation + 20 * s0.timeConstant ≤ u.time))) = [("", false), ("a", true), ("b", true)] := by
  obtain ⟨s0, s1, s2, h1, h2, h3, hf⟩ := run3w?_map onTime notTaken _ _ onTime_ok notTaken_ok
    (history1 ++ [.evaluate (1 / 2) true false]) ([wp "c" 3 3 3, wp "d" 4 4 4].map Event.appendWaypoint ++ planEvents (1 / 100)) (.evaluate (3 / 5) true false)
    (fun a b c => decide (a.pc = .top ∧ a.computing = false ∧ b.computing = true ∧ c.computing = false ∧
      c.dyn.map (·.name) = ["stitching_point", "stitching_point", "a", "b", "c", "d"] ∧
      (a.toSet.length = 0 ∧ a.toAdd.length = 0 ∧ a.toModify.length = 0) ∧
      a.dyn.map (fun u => (u.name, decide (1 / 2 ≤ u.time ∧ 1 / 2 + a.getTimeCompensation + 20 * a.timeConstant ≤ u.time))) =
        [("", false), ("a", true), ("b", true)])) true (by decide +kernel)
  obtain ⟨k1, k2, k3, k4, k5, ⟨k6, k7, k8⟩, k9⟩ := of_decide_eq_true hf
  refine ⟨s0, s1, s2, h1, ?_, ⟨k1, k2⟩, ⟨List.length_eq_zero_iff.mp k6, List.length_eq_zero_iff.mp k7, List.length_eq_zero_iff.mp k8⟩, h2, h3, ⟨k3, k4⟩, ?_, k5, k9⟩
  · simp [history1, planEvents, FreshEvent, wp_bookkept]
  · simp [planEvents, IsRequest, ValidEvent]

end Verif.Properties
