import Verif.Properties.PlannerMove

/-!
# Property C132: waypoints moved with replanning are flown at their new positions
-/

set_option linter.unusedSectionVars false

namespace Verif.Properties
open Verif Verif.Spec Verif.Lemmas

section
variable {K : Type*} [Field K] [LinearOrder K] [IsStrictOrderedRing K] [FloorRing K]

/-- In the new plan `w` is the waypoint `u` of the old one, at the position of the last of the moves `ms` that names it (if any). -/
def ReplannedAs (ms : List (String × V3 K)) (u w : Waypoint K) : Prop := ∃ u', Becomes (updateFor ms u) u u' ∧ SameWaypoint u' w

/-- The old plan, before or after the moves `ms` were applied to its waypoints, at one of the instants `ts`. -/
def OldPlan (s0 : Planner K) (ms : List (String × V3 K)) (ts : List K) (s : Planner K) : Prop :=
  s = s0 ∨ ∃ a ∈ ts, ∃ ds, s = { s0 with dyn := ds } ∧ List.Forall₂ (fun w w' => Becomes (updateFor ms w) w w' ∧
    (updateFor ms w = none → w' = w) ∧ ∀ p, updateFor ms w = some p → w.setCurrentPosition p a = .ok w') s0.dyn ds

/-- `ws` are, after a beginning, waypoints of the plan in force in `s0` that are still ahead, moved according to `ms`, none with compensations. The beginning is a
point without name at one of the positions `ps`, at rest, and all the waypoints of the old plan are there whose time was not over at one of the instants `ts`; or
it is two points of the old plan, called "stitching_point", the first with velocity and acceleration, and of the waypoints of the old plan those are left out
that come less than 20 computation times after the instant flown at one of the instants `ts` (unless their time is 0). -/
def RevisesPlan (env : Env K) (s0 : Planner K) (ms : List (String × V3 K)) (ts : List K) (ps : List (V3 K)) (ws : List (Waypoint K)) : Prop :=
  ∃ pre old, ws = pre ++ old ∧ (∀ w ∈ ws, w.modifiers = []) ∧ ∃ t1 ∈ ts,
    ((∃ w0, pre = [w0] ∧ w0.name = "" ∧ w0.current ∈ ps ∧ w0.vertex.getConstraint 1 = some [0, 0, 0] ∧ w0.vertex.getConstraint 2 = some [0, 0, 0] ∧
       List.Forall₂ (ReplannedAs ms) (s0.dyn.filter fun w => t1 ≤ w.time) old) ∨
     (∃ w0 w1, pre = [w0, w1] ∧ w0.name = "stitching_point" ∧ w1.name = "stitching_point" ∧
       (∃ m, OldPlan s0 ms ts m ∧ PointOf env m true w0 ∧ PointOf env m false w1) ∧
       ∃ t2 ∈ ts, List.Forall₂ (ReplannedAs ms) (s0.dyn.filter fun w => t1 ≤ w.time ∧
         (w.time ≤ 0 ∨ t2 + s0.getTimeCompensation + 20 * s0.timeConstant ≤ w.time)) old))

theorem replanned_trans (ms : List (String × V3 K)) (a b c : Waypoint K) (h1 : ReplannedAs ms a b) (h2 : SameWaypoint b c) : ReplannedAs ms a c := by
  obtain ⟨u, h3, h4⟩ := h1
  exact ⟨u, h3, same_trans _ _ _ h4 h2⟩

theorem revisesPlan_same {env : Env K} {s0 : Planner K} {ms : List (String × V3 K)} {ts : List K} {ps : List (V3 K)} {ws ws' : List (Waypoint K)}
    (h : RevisesPlan env s0 ms ts ps ws) (hs : List.Forall₂ SameWaypoint ws ws') (hm : ∀ w ∈ ws', w.modifiers = []) :
    RevisesPlan env s0 ms ts ps ws' := by
  obtain ⟨pre, old, rfl, _, t1, ht1, h4⟩ := h
  obtain ⟨pre', old', s3, s4, rfl⟩ := forall2_split hs
  refine ⟨pre', old', rfl, hm, t1, ht1, ?_⟩
  rcases h4 with ⟨w0, rfl, k1, k2, k3, k4, k5⟩ | ⟨w0, w1, rfl, k1, k2, ⟨m, k0, k3, k4⟩, t2, ht2, k5⟩
  · cases s3 with
    | cons a b =>
      cases b
      rename_i w0'
      exact .inl ⟨w0', rfl, a.1.trans k1, by rw [a.2.1]; exact k2, (a.2.2 1).trans k3, (a.2.2 2).trans k4, forall2_comp (replanned_trans ms) k5 s4⟩
  · cases s3 with
    | cons a b =>
      cases b with
      | cons b c =>
        cases c
        rename_i w0' w1'
        exact .inr ⟨w0', w1', rfl, a.1.trans k1, b.1.trans k2, ⟨m, k0, pointOf_same k3 a, pointOf_same k4 b⟩, t2, ht2, forall2_comp (replanned_trans ms) k5 s4⟩

theorem revisesPlan_copy {env : Env K} {s0 : Planner K} {ms : List (String × V3 K)} {ts : List K} {ps : List (V3 K)} {ws : List (Waypoint K)}
    (h : RevisesPlan env s0 ms ts ps ws) : RevisesPlan env s0 ms ts ps (ws.map (·.copy)) := by
  refine revisesPlan_same h (forall2_same_copy ws) ?_
  obtain ⟨_, _, _, hm, _⟩ := h
  exact map_copy_mem (P := fun w => w.modifiers = []) (fun _ h => h) hm

theorem revisesPlan_times {env : Env K} {s0 : Planner K} {ms : List (String × V3 K)} {ts : List K} {ps : List (V3 K)} {ws ws' : List (Waypoint K)}
    (h : RevisesPlan env s0 ms ts ps ws) (segs : List (Segment K)) (g : K) (ha : assignTimes segs g ws 0 = .ok ws') :
    RevisesPlan env s0 ms ts ps ws' := by
  refine revisesPlan_same h (assignTimes_same segs g ws ws' 0 ha) ?_
  obtain ⟨_, _, _, hm, _⟩ := h
  intro w hw
  obtain ⟨u, hu, i, t, rfl⟩ := assignTimes_mem segs g ws ws' ha w hw
  show (u.modifiers.map _) = []
  rw [hm u hu]
  rfl

/-- The worker has collected the waypoints of the old plan, moved. -/
def Revised (s0 : Planner K) (ms : List (String × V3 K)) (ts : List K) (ws : List (Waypoint K)) : Prop :=
  (∀ w ∈ ws, w.modifiers = []) ∧ ∃ t1 ∈ ts, List.Forall₂ (fun u w => Becomes (updateFor ms u) u w) (s0.dyn.filter fun w => t1 ≤ w.time) ws

/-- Where moves requested of the idle planner `s0` with replanning can be before the plan is taken over. -/
inductive EarlyR (env : Env K) (s0 : Planner K) (ms : List (String × V3 K)) (ts : List K) (ps : List (V3 K)) (s : Planner K) : Prop
  | queued (hd : s.dyn = s0.dyn) (hn : (s.toModify.map Prod.fst).Nodup) (hl : ∀ n, lookupMod n s.toModify = lastUpdate ms n) (hc : s.computing = false)
      (hp : s.pc = .top ∨ s.pc = .collect ∨ s.pc = .apply)
  | applied (hd : List.Forall₂ (fun w w' => Becomes (updateFor ms w) w w') s0.dyn s.dyn) (hb : ∀ w ∈ s.dyn, Bookkept w) (hm : s.toModify = []) (hc : s.computing = false) (hp : s.pc = .top ∨ s.pc = .collect)
  | dropped (hg : s.generateNew = false) (hm : s.toModify = []) (hc : s.computing = false) (hp : s.pc = .top)
  | collected (hm : s.toModify = []) (hc : s.computing = false) (hp : s.pc = .collected) (hn : Revised s0 ms ts s.next)
  | noted (hm : s.toModify = []) (hc : s.computing = false) (hp : s.pc = .snapshotted) (hn : Revised s0 ms ts s.next) (hl : ∃ t ∈ ts, s.newParams.lastLocal = t - s0.params.gtlg)
  | planned (hm : s.toModify = []) (hc : s.pc = .planned ∨ s.computing = true) (hn : RevisesPlan env s0 ms ts ps s.next)

structure Revising (env : Env K) (s0 : Planner K) (ms : List (String × V3 K)) (ts : List K) (ps : List (V3 K)) (s : Planner K) : Prop where
  same : ∃ m, OldPlan s0 ms ts m ∧ SamePlan m s
  vehicle : s.vehicle ∈ ps
  toSet : s.toSet = []
  toAdd : s.toAdd = []
  constant : s.computing = false → s.timeConstant = s0.timeConstant
  last : s.computing = false → s.params.lastGlobal ∈ ts ∧ s.params.lastLocal = s.params.lastGlobal - s0.params.gtlg
  early : EarlyR env s0 ms ts ps s

theorem oldPlan_frame {s0 m : Planner K} {ms : List (String × V3 K)} {ts : List K} (h : OldPlan s0 ms ts m) : m.traj = s0.traj ∧ m.params = s0.params ∧ m.future = s0.future ∧
    m.computing = s0.computing := by
  rcases h with rfl | ⟨_, _, _, rfl, _⟩
  · exact ⟨rfl, rfl, rfl, rfl⟩
  · exact ⟨rfl, rfl, rfl, rfl⟩

/-- A waypoint reset to its position or to a new one. -/
theorem rpBecomes_reset (w w' : Waypoint K) (hb : Bookkept w) (p : V3 K) (h : w.reset p = .ok w') : Becomes (some p) w w' ∧ w'.modifiers = [] ∧ Bookkept w' := by
  have hb' := reset_bookkept' w w' p hb h
  obtain ⟨v', hv', rfl⟩ := reset_frame _ _ _ h
  obtain ⟨_, _, h3⟩ := addConstraint_bookkept w.vertex v' 0 p hb.1 hb.2.1 hv'
  refine ⟨⟨rfl, rfl, rfl, ?_, fun k hk => ?_⟩, rfl, hb'⟩
  · exact (h3 0).trans (if_pos rfl)
  · exact (h3 k).trans (if_neg hk)

theorem rpBecomes_set (w w' : Waypoint K) (hb : Bookkept w) (p : V3 K) (a : K) (h : w.setCurrentPosition p a = .ok w') : Becomes (some p) w w' := by
  obtain ⟨v', m, hv', rfl, _⟩ := setCurrentPosition_spec w w' p a h
  obtain ⟨_, _, h3⟩ := addConstraint_bookkept w.vertex v' 0 p hb.1 hb.2.1 hv'
  exact ⟨rfl, rfl, rfl, (h3 0).trans (if_pos rfl), fun k hk => (h3 k).trans (if_neg hk)⟩

theorem rpBecomes_none (w : Waypoint K) (hb : Bookkept w) : Becomes none w w := ⟨rfl, rfl, rfl, hb.2.2.1, fun _ _ => rfl⟩

theorem rpBecomes_trans (u : Option (V3 K)) (a b c : Waypoint K) (h1 : Becomes u a b) (h2 : Becomes (some b.current) b c) : Becomes u a c := by
  obtain ⟨a1, a2, a3, a4, a5⟩ := h1
  obtain ⟨b1, b2, b3, b4, b5⟩ := h2
  exact ⟨b1.trans a1, b2.trans a2, b3.trans a3, b4, fun k hk => (b5 k hk).trans (a5 k hk)⟩

theorem rpBecomes_over (u : Option (V3 K)) (a b c : Waypoint K) (p : V3 K) (h1 : Becomes u a b) (h2 : Becomes (some p) b c) : Becomes (some p) a c := by
  obtain ⟨a1, a2, a3, a4, a5⟩ := h1
  obtain ⟨b1, b2, b3, b4, b5⟩ := h2
  exact ⟨b1.trans a1, b2.trans a2, b3, b4, fun k hk => (b5 k hk).trans (a5 k hk)⟩

theorem forall2_filter_becomes (p : K → Prop) [DecidablePred p] (ms : List (String × V3 K)) (us ws : List (Waypoint K))
    (h : List.Forall₂ (fun u w => Becomes (updateFor ms u) u w) us ws) :
    List.Forall₂ (fun u w => Becomes (updateFor ms u) u w) (us.filter fun w => p w.time) (ws.filter fun w => p w.time) := by
  induction h with
  | nil => exact .nil
  | cons a b ih =>
    rename_i u w us ws
    by_cases hp : p u.time
    · rw [List.filter_cons_of_pos (by simpa using hp), List.filter_cons_of_pos (by rw [a.2.1]; simpa using hp)]
      exact .cons a ih
    · rw [List.filter_cons_of_neg (by simpa using hp), List.filter_cons_of_neg (by rw [a.2.1]; simpa using hp)]
      exact ih

/-- What the worker collects while moves are queued, or after they were applied. -/
theorem revised_collect (s0 : Planner K) (hb0 : ∀ w ∈ s0.dyn, Bookkept w) (ms : List (String × V3 K)) (ts : List K) (s : Planner K) (hset : s.toSet = []) (hadd : s.toAdd = [])
    (hlast : s.params.lastGlobal ∈ ts)
    (hcase : (s.dyn = s0.dyn ∧ (s.toModify.map Prod.fst).Nodup ∧ ∀ n, lookupMod n s.toModify = lastUpdate ms n) ∨
      (List.Forall₂ (fun w w' => Becomes (updateFor ms w) w w') s0.dyn s.dyn ∧ (∀ w ∈ s.dyn, Bookkept w) ∧ s.toModify = []))
    (ws : List (Waypoint K)) (s' : Planner K) (h : s.generateWaypoints = .ok (ws, s')) : Revised s0 ms ts ws := by
  obtain ⟨base, hall, hb⟩ := generateWaypoints_form s ws _ h
  rcases hb with ⟨_, hf⟩ | ⟨hb, _⟩
  swap
  · exact absurd hset hb
  rw [hadd, List.map_nil, List.append_nil] at hall
  have hfil : s.filterPassed (s.dyn.map (·.copy)) = (s.dyn.filter (fun w => s.params.lastGlobal ≤ w.time)).map (·.copy) := by
    unfold Planner.filterPassed
    rw [List.filter_map]
    congr 1
    apply List.filter_congr
    intro w _
    simp only [Function.comp]
    rw [← decide_not, decide_eq_decide, not_lt]; rfl
  rw [hfil, List.forall₂_map_left_iff] at hf
  have hbs : ∀ w ∈ s.dyn, Bookkept w := by
    rcases hcase with ⟨h1, _⟩ | ⟨_, h1, _⟩
    · rw [h1]; exact hb0
    · exact h1
  have hbase : List.Forall₂ (fun u w => Becomes none u w ∧ w.modifiers = [] ∧ Bookkept w) (s.dyn.filter fun w => s.params.lastGlobal ≤ w.time) base := by
    refine forall2_imp_mem hf ?_
    intro a ha b hab
    have hab' : Bookkept a.copy := hbs a (List.mem_filter.mp ha).1
    obtain ⟨⟨k1, k2, k3, k4, k5⟩, k6, k7⟩ := rpBecomes_reset a.copy b hab' a.copy.current hab
    exact ⟨⟨k1, k2, k3, k4, k5⟩, k6, k7⟩
  rcases hcase with ⟨hd, hn, hl⟩ | ⟨hd, _, hm⟩
  · rw [hd] at hbase
    have hres := resetAll_rel _ hn _ _ hall
    have hboth := forall2_comp (T := fun u w => Becomes (updateFor ms u) u w ∧ w.modifiers = []) (fun a b c h1 h2 => by
      obtain ⟨h1, h3, h4⟩ := h1
      have hname : b.name = a.name := h1.1
      rcases h2 with ⟨h5, rfl⟩ | ⟨h5, ⟨h6, rfl⟩ | ⟨p, h6, h7⟩⟩
      · refine ⟨?_, h3⟩
        rw [updateFor, if_pos (by rw [← hname]; exact h5)]
        exact h1
      · refine ⟨?_, h3⟩
        rw [updateFor, if_neg (by rw [← hname]; exact h5), ← hname, ← hl, h6]
        exact h1
      · obtain ⟨k1, k2, _⟩ := rpBecomes_reset b c h4 p h7
        refine ⟨?_, k2⟩
        rw [updateFor, if_neg (by rw [← hname]; exact h5), ← hname, ← hl, h6]
        exact rpBecomes_over none a b c p h1 k1) hbase hres
    refine ⟨fun w hw => ?_, s.params.lastGlobal, hlast, hboth.imp fun _ _ h => h.1⟩
    obtain ⟨_, _, hr⟩ := forall2_mem_right hboth hw
    exact hr.2
  · rw [hm] at hall
    obtain rfl := Except.ok.inj hall
    have hfb := forall2_filter_becomes (fun t => s.params.lastGlobal ≤ t) ms _ _ hd
    have hboth := forall2_comp (T := fun u w => Becomes (updateFor ms u) u w ∧ w.modifiers = []) (fun a b c h1 h2 => by
      obtain ⟨⟨b1, b2, b3, b4, b5⟩, h3, h4⟩ := h2
      exact ⟨rpBecomes_trans _ a b c h1 ⟨b1, b2, b3, b4, b5⟩, h3⟩) hfb hbase
    refine ⟨fun w hw => ?_, s.params.lastGlobal, hlast, hboth.imp fun _ _ h => h.1⟩
    obtain ⟨_, _, hr⟩ := forall2_mem_right hboth hw
    exact hr.2

theorem revising_micro (env : Env K) (s0 : Planner K) (hs0 : ¬ PlanWaiting s0) (hb0 : ∀ w ∈ s0.dyn, Bookkept w) (ms : List (String × V3 K))
    (ts : List K) (ps : List (V3 K)) (e : Event K)
    (s s' : Planner K) (he : ¬ IsRequest e) (hv : ∀ p, e = .updateVehiclePosition p → p ∈ ps) (ht : s.computing = false → ∀ t o, e = .evaluate t o false → t ∈ ts)
    (hc : Ctl s) (hi : Revising env s0 ms ts ps s) (h : Micro env e s s') :
    (Revising env s0 ms ts ps s' ∧ (s.computing = true → s'.computing = true)) ∨
    (s.computing = true ∧ Flying s'.traj s'.dyn s' ∧ RevisesPlan env s0 ms ts ps s'.dyn) := by
  obtain ⟨⟨m, im, i0⟩, i1, i2, i3, i5, i6, i4⟩ := hi
  obtain ⟨f1, f2, f3, f4⟩ := oldPlan_frame im
  have hm0 : ¬ PlanWaiting m := by
    intro hx
    apply hs0
    rcases hx with hx | hx
    · exact .inl (f3 ▸ hx)
    · exact .inr (f3 ▸ hx)
  have hgt : s.params.gtlg = s0.params.gtlg := by rw [i0.gtlg, f2]
  have hto : s.params.tOffset = s0.params.tOffset := by rw [i0.tOffset, f2]
  have keep : ∀ s' : Planner K, SamePlan m s' → s'.vehicle ∈ ps → s'.toAdd = s.toAdd → s'.toModify = s.toModify → s'.toSet = s.toSet →
      s'.computing = s.computing → s'.pc = s.pc → s'.next = s.next → s'.timeConstant = s.timeConstant →
      (s'.computing = false → s'.params.lastGlobal ∈ ts ∧ s'.params.lastLocal = s'.params.lastGlobal - s0.params.gtlg) →
      s'.newParams.lastLocal = s.newParams.lastLocal → s'.dyn = s.dyn → s'.generateNew = s.generateNew →
      (Revising env s0 ms ts ps s' ∧ (s.computing = true → s'.computing = true)) ∨
      (s.computing = true ∧ Flying s'.traj s'.dyn s' ∧ RevisesPlan env s0 ms ts ps s'.dyn) := by
    intro s' e00 e0 e1 e2 e4 e5 e7 e8 e9 e10 e11 e12 e13
    refine .inl ⟨⟨⟨m, im, e00⟩, e0, e4.trans i2, e1.trans i3, fun h => e9.trans (i5 (e5 ▸ h)), e10, ?_⟩, fun h => e5.trans h⟩
    cases i4 with
    | queued a b b' c d => exact .queued (e12.trans a) (by rw [e2]; exact b) (by rw [e2]; exact b') (e5.trans c) (by rw [e7]; exact d)
    | applied a a' b c d => exact .applied (by rw [e12]; exact a) (by rw [e12]; exact a') (by rw [e2]; exact b) (e5.trans c) (by rw [e7]; exact d)
    | dropped a b c d => exact .dropped (e13.trans a) (by rw [e2]; exact b) (e5.trans c) (by rw [e7]; exact d)
    | collected b c d f => exact .collected (by rw [e2]; exact b) (e5.trans c) (by rw [e7]; exact d) (by rw [e8]; exact f)
    | noted b c d f g => exact .noted (by rw [e2]; exact b) (e5.trans c) (by rw [e7]; exact d) (by rw [e8]; exact f) (by rw [e11]; exact g)
    | planned b c d => exact .planned (by rw [e2]; exact b) (by rw [e5, e7]; exact c) (by rw [e8]; exact d)
  cases h with
  | setWaypoints _ ws => exact absurd trivial he
  | append _ w => exact absurd trivial he
  | modify _ n p g => exact absurd trivial he
  | modifyMany _ ms => exact absurd trivial he
  | takeOver _ _ new off hcomp hr _ hfit =>
    obtain ⟨hm, hn⟩ : s.toModify = [] ∧ RevisesPlan env s0 ms ts ps s.next := by
      cases i4 with
      | queued a b b' c d => rw [c] at hcomp; cases hcomp
      | applied a a' b c d => rw [c] at hcomp; cases hcomp
      | dropped a b c d => rw [c] at hcomp; cases hcomp
      | collected b c d f => rw [c] at hcomp; cases hcomp
      | noted b c d f g => rw [c] at hcomp; cases hcomp
      | planned b c d => exact ⟨b, d⟩
    refine .inr ⟨hcomp, ?_, revisesPlan_copy hn⟩
    refine ⟨rfl, by simp, rfl, hm, ⟨rfl, rfl⟩, ?_⟩
    have hl : s.pc ≠ .launching := fun hl => by rw [(hc.launching hl).2] at hr; cases hr
    by_contra hx
    push Not at hx
    have := hc.quiet hx.2 hl hx.1
    rw [this] at hcomp; cases hcomp
  | goApply _ hp hq hcomp _ =>
    refine .inl ⟨⟨⟨m, im, ⟨i0.1, i0.2, i0.3, i0.4⟩⟩, i1, i2, i3, i5, i6, ?_⟩, fun h => h⟩
    cases i4 with
    | queued a b b' c d => exact .queued a b b' c (.inr (.inr rfl))
    | applied a a' b c d => exact absurd b hq
    | dropped a b c d => exact absurd b hq
    | collected b c d f => exact absurd b hq
    | noted b c d f g => exact absurd b hq
    | planned b c d => exact absurd b hq
  | goCollect _ hp hg hz hcomp =>
    refine .inl ⟨⟨⟨m, im, ⟨i0.1, i0.2, i0.3, i0.4⟩⟩, i1, i2, i3, i5, i6, ?_⟩, fun h => h⟩
    cases i4 with
    | queued a b b' c d => exact .queued a b b' c (.inr (.inl rfl))
    | applied a a' b c d => exact .applied a a' b c (.inr rfl)
    | dropped a b c d => rw [a] at hg; cases hg
    | collected b c d f => rw [hp] at d; cases d
    | noted b c d f g => rw [hp] at d; cases d
    | planned b c d =>
      rcases c with c | c
      · rw [hp] at c; cases c
      · rw [hcomp] at c; cases c
  | collect _ ws hp hw =>
    refine .inl ⟨⟨⟨m, im, ⟨i0.1, i0.2, i0.3, i0.4⟩⟩, i1, rfl, rfl, i5, i6, ?_⟩, fun h => h⟩
    have hq := hc.quiet (by rw [hp]; decide) (by rw [hp]; decide) (by rw [hp]; decide)
    refine .collected rfl hq rfl (revised_collect s0 hb0 ms ts s i2 i3 (i6 hq).1 ?_ ws _ hw)
    cases i4 with
    | queued a b b' c d => exact .inl ⟨a, b, b'⟩
    | applied a a' b c d => exact .inr ⟨a, a', b⟩
    | dropped a b c d => rw [hp] at d; cases d
    | collected b c d f => rw [hp] at d; cases d
    | noted b c d f g => rw [hp] at d; cases d
    | planned b c d =>
      rcases c with c | c
      · rw [hp] at c; cases c
      · rw [hq] at c; cases c
  | nothingToPlan _ hp hn =>
    have hq := hc.quiet (by rw [hp]; decide) (by rw [hp]; decide) (by rw [hp]; decide)
    refine .inl ⟨⟨⟨m, im, ⟨i0.1, i0.2, i0.3, i0.4⟩⟩, i1, i2, i3, i5, i6, ?_⟩, fun h => h⟩
    cases i4 with
    | queued a b b' c d => rcases d with d | d | d <;> rw [hp] at d <;> cases d
    | applied a a' b c d => rcases d with d | d <;> rw [hp] at d <;> cases d
    | dropped a b c d => rw [hp] at d; cases d
    | collected b c d f => exact .dropped rfl b c rfl
    | noted b c d f g => rw [hp] at d; cases d
    | planned b c d =>
      rcases c with c | c
      · rw [hp] at c; cases c
      · rw [hq] at c; cases c
  | snapshot _ hp hn =>
    have hq := hc.quiet (by rw [hp]; decide) (by rw [hp]; decide) (by rw [hp]; decide)
    refine .inl ⟨⟨⟨m, im, ⟨i0.1, i0.2, i0.3, i0.4⟩⟩, i1, i2, i3, i5, i6, ?_⟩, fun h => h⟩
    cases i4 with
    | queued a b b' c d => rcases d with d | d | d <;> rw [hp] at d <;> cases d
    | applied a a' b c d => rcases d with d | d <;> rw [hp] at d <;> cases d
    | dropped a b c d => rw [hp] at d; cases d
    | collected b c d f => exact .noted b c rfl f ⟨_, (i6 c).1, (i6 c).2⟩
    | noted b c d f g => rw [hp] at d; cases d
    | planned b c d =>
      rcases c with c | c
      · rw [hp] at c; cases c
      · rw [hq] at c; cases c
  | stitch _ ws hp hs hw =>
    have hq := hc.quiet (by rw [hp]; decide) (by rw [hp]; decide) (by rw [hp]; decide)
    refine .inl ⟨⟨⟨m, im, ⟨i0.1, i0.2, i0.3, i0.4⟩⟩, i1, i2, i3, i5, i6, ?_⟩, fun h => h⟩
    cases i4 with
    | queued a b b' c d => rcases d with d | d | d <;> rw [hp] at d <;> cases d
    | applied a a' b c d => rcases d with d | d <;> rw [hp] at d <;> cases d
    | dropped a b c d => rw [hp] at d; cases d
    | collected b c d f => rw [hp] at d; cases d
    | noted b c d f g =>
      refine .planned b (.inl rfl) ?_
      obtain ⟨t2, ht2, hl⟩ := g
      obtain ⟨f2', t1, ht1, f3'⟩ := f
      obtain ⟨tr, w0, w1, htr, h0, h1, rfl⟩ := stitch_form env s s.next ws hw
      obtain ⟨a1, a2, a3⟩ := stitch_points env m s hm0 i0 tr htr _ _ w0 h0
      obtain ⟨b1, b2, b3⟩ := stitch_points env m s hm0 i0 tr htr _ _ w1 h1
      have hfil : (s.next.filter fun w => !decide (w.time < s.newParams.lastLocal + s.params.tOffset + 5 * s.computationTime
        + 5 * s.computationTime + s.params.gtlg ∧ w.time > 0)) =
          (s.next.filter fun w => w.time ≤ 0 ∨ t2 + s0.getTimeCompensation + 20 * s0.timeConstant ≤ w.time) := by
        apply List.filter_congr
        intro w _
        have e1 : s.newParams.lastLocal + s.params.tOffset + 5 * s.computationTime + 5 * s.computationTime + s.params.gtlg =
            t2 + s0.getTimeCompensation + 20 * s0.timeConstant := by
          unfold Planner.computationTime Planner.getTimeCompensation
          rw [hl, hto, hgt, i5 hq]; ring
        rw [e1, ← decide_not, decide_eq_decide, not_and_or, not_lt, not_lt, or_comm]
      have hold := forall2_filter_becomes (fun t => t ≤ 0 ∨ t2 + s0.getTimeCompensation + 20 * s0.timeConstant ≤ t) ms _ _ f3'
      rw [List.filter_filter] at hold
      refine ⟨[w0, w1], (s.next.filter fun w => w.time ≤ 0 ∨ t2 + s0.getTimeCompensation + 20 * s0.timeConstant ≤ w.time).map (·.copy),
        by rw [hfil]; rfl, ?_, t1, ht1, .inr ⟨w0, w1, rfl, a2, b2, ⟨m, im, a3, b3⟩, t2, ht2, ?_⟩⟩
      · intro u hu
        rcases List.mem_cons.mp hu with rfl | hu
        · exact a1
        rcases List.mem_cons.mp hu with rfl | hu
        · exact b1
        exact map_copy_mem (P := fun w => w.modifiers = []) (fun _ h => h) (fun w hx => f2' w (List.mem_filter.mp hx).1) u hu
      · refine forall2_comp (fun a b c h1 h2 => ⟨b, h1, h2⟩) ?_ (forall2_same_copy _)
        have hsame : (s0.dyn.filter fun w => t1 ≤ w.time ∧ (w.time ≤ 0 ∨ t2 + s0.getTimeCompensation + 20 * s0.timeConstant ≤ w.time)) =
            s0.dyn.filter fun w => decide (w.time ≤ 0 ∨ t2 + s0.getTimeCompensation + 20 * s0.timeConstant ≤ w.time) && decide (t1 ≤ w.time) := by
          apply List.filter_congr
          intro w _
          rw [Bool.eq_iff_iff]
          simp only [decide_eq_true_eq, Bool.and_eq_true]
          exact and_comm
        rw [hsame]
        exact hold
    | planned b c d =>
      rcases c with c | c
      · rw [hp] at c; cases c
      · rw [hq] at c; cases c
  | scratch _ ws hp hs hw =>
    have hq := hc.quiet (by rw [hp]; decide) (by rw [hp]; decide) (by rw [hp]; decide)
    refine .inl ⟨⟨⟨m, im, ⟨i0.1, i0.2, i0.3, i0.4⟩⟩, i1, i2, i3, i5, i6, ?_⟩, fun h => h⟩
    cases i4 with
    | queued a b b' c d => rcases d with d | d | d <;> rw [hp] at d <;> cases d
    | applied a a' b c d => rcases d with d | d <;> rw [hp] at d <;> cases d
    | dropped a b c d => rw [hp] at d; cases d
    | collected b c d f => rw [hp] at d; cases d
    | noted b c d f g =>
      refine .planned b (.inl rfl) ?_
      obtain ⟨f2', t1, ht1, f3'⟩ := f
      obtain ⟨w, rfl, _, k1, k2, k3, k4, k5⟩ := appendDrone_spec s s.next ws hw
      refine ⟨[w], s.next, rfl, ?_, t1, ht1,
        .inl ⟨w, rfl, k2, by rw [k3]; exact i1, k4, k5, f3'.imp fun _ b h => ⟨b, h, rfl, rfl, fun _ => rfl⟩⟩⟩
      intro u hu
      rcases List.mem_cons.mp hu with rfl | hu
      · exact k1
      · exact f2' u hu
    | planned b c d =>
      rcases c with c | c
      · rw [hp] at c; cases c
      · rw [hq] at c; cases c
  | planned _ hp =>
    refine .inl ⟨⟨⟨m, im, ⟨i0.1, i0.2, i0.3, i0.4⟩⟩, i1, i2, i3, fun h => (by cases h), fun h => (by cases h), ?_⟩, fun _ => rfl⟩
    cases i4 with
    | queued a b b' c d => rcases d with d | d | d <;> rw [hp] at d <;> cases d
    | applied a a' b c d => rcases d with d | d <;> rw [hp] at d <;> cases d
    | dropped a b c d => rw [hp] at d; cases d
    | collected b c d f => rw [hp] at d; cases d
    | noted b c d f g => rw [hp] at d; cases d
    | planned b c d => exact .planned b (.inr rfl) d
  | launch _ hp =>
    refine .inl ⟨⟨⟨m, im, ⟨i0.1, i0.2, i0.3, i0.4⟩⟩, i1, i2, i3, i5, i6, ?_⟩, fun h => h⟩
    cases i4 with
    | queued a b b' c d => rcases d with d | d | d <;> rw [hp] at d <;> cases d
    | applied a a' b c d => rcases d with d | d <;> rw [hp] at d <;> cases d
    | dropped a b c d => rw [hp] at d; cases d
    | collected b c d f => rw [hp] at d; cases d
    | noted b c d f g => rw [hp] at d; cases d
    | planned b c d => exact .planned b (.inr (hc.launching hp).1) d
  | launched _ hp =>
    refine .inl ⟨⟨⟨m, im, ⟨i0.1, i0.2, i0.3, i0.4⟩⟩, i1, i2, i3, i5, i6, ?_⟩, fun h => h⟩
    cases i4 with
    | queued a b b' c d => rcases d with d | d | d <;> rw [hp] at d <;> cases d
    | applied a a' b c d => rcases d with d | d <;> rw [hp] at d <;> cases d
    | dropped a b c d => rw [hp] at d; cases d
    | collected b c d f => rw [hp] at d; cases d
    | noted b c d f g => rw [hp] at d; cases d
    | planned b c d =>
      rcases c with c | c
      · rw [hp] at c; cases c
      · exact .planned b (.inr c) d
  | apply _ s2 hp ha =>
    have hq := hc.quiet (by rw [hp]; decide) (by rw [hp]; decide) (by rw [hp]; decide)
    cases i4 with
    | queued a b b' c d =>
      obtain ⟨_, ds, r, hs2, _⟩ := applyAll_rel (fun _ _ => True) (fun _ => trivial) (fun _ _ _ _ _ => trivial)
        (fun _ _ _ _ _ => trivial) _ s s2 ha
      obtain ⟨hf, _⟩ := applyAll_exact _ b s s2 ha
      have hf' : List.Forall₂ (fun w w' => (Becomes (updateFor ms w) w w' ∧ Bookkept w') ∧
          (updateFor ms w = none → w' = w) ∧ ∀ p, updateFor ms w = some p → w.setCurrentPosition p s.params.lastGlobal = .ok w') s0.dyn ds := by
        have hf : List.Forall₂ (ApplyAllRel s.params.lastGlobal s.toModify) s0.dyn ds := by rw [hs2, a] at hf; exact hf
        refine forall2_imp_mem hf ?_
        intro w hw w' hr
        have hbw := hb0 w hw
        rcases hr with ⟨h5, rfl⟩ | ⟨h5, ⟨h6, rfl⟩ | ⟨p, h6, h7⟩⟩
        · rw [updateFor, if_pos h5]
          exact ⟨⟨rpBecomes_none _ hbw, hbw⟩, fun _ => rfl, fun p hx => by cases hx⟩
        · rw [updateFor, if_neg h5, ← b', h6]
          exact ⟨⟨rpBecomes_none _ hbw, hbw⟩, fun _ => rfl, fun p hx => by cases hx⟩
        · rw [updateFor, if_neg h5, ← b', h6]
          refine ⟨⟨rpBecomes_set w w' hbw p _ h7, ?_⟩, fun hx => (by cases hx), fun q hx => by rw [← Option.some.inj hx]; exact h7⟩
          exact step_bookkept (.update p s.params.lastGlobal) w w' h7 hbw
      have hold : OldPlan s0 ms ts { s0 with dyn := ds } :=
        .inr ⟨s.params.lastGlobal, (i6 hq).1, ds, rfl, hf'.imp fun _ _ h => ⟨h.1.1, h.2.1, h.2.2⟩⟩
      refine .inl ⟨⟨⟨_, hold, ?_⟩, by rw [hs2]; exact i1, by rw [hs2]; exact i2, by rw [hs2]; exact i3, by rw [hs2]; exact i5, by rw [hs2]; exact i6, ?_⟩, by rw [hs2]; exact fun h => h⟩
      · rw [hs2]
        exact ⟨i0.traj.trans f1, rfl, hgt, hto⟩
      · refine .applied ?_ ?_ rfl (by rw [hs2]; exact c) (.inl rfl)
        · rw [hs2]
          exact hf'.imp fun _ _ h => h.1.1
        · rw [hs2]
          intro w hw
          obtain ⟨_, _, hr⟩ := forall2_mem_right hf' hw
          exact hr.1.2
    | applied a a' b c d => rcases d with d | d <;> rw [hp] at d <;> cases d
    | dropped a b c d => rw [hp] at d; cases d
    | collected b c d f => rw [hp] at d; cases d
    | noted b c d f g => rw [hp] at d; cases d
    | planned b c d =>
      rcases c with c | c
      · rw [hp] at c; cases c
      · rw [hq] at c; cases c
  | asyncFinish _ dt sp tr ws hf hco =>
    have hcomp : s.computing = true := by
      by_contra hh
      rw [hc.idle (by simpa using hh)] at hf; cases hf
    refine .inl ⟨⟨⟨m, im, ⟨i0.1, i0.2, i0.3, i0.4⟩⟩, i1, i2, i3, fun h => (by have h : s.computing = false := h; rw [hcomp] at h; cases h), i6, ?_⟩, fun h => h⟩
    cases i4 with
    | queued a b b' c d => rw [c] at hcomp; cases hcomp
    | applied a a' b c d => rw [c] at hcomp; cases hcomp
    | dropped a b c d => rw [c] at hcomp; cases hcomp
    | collected b c d f => rw [c] at hcomp; cases hcomp
    | noted b c d f g => rw [c] at hcomp; cases hcomp
    | planned b c d =>
      obtain ⟨vs, _, _, _, ha⟩ := computeTrajectory_form env s sp tr ws hco
      exact .planned b (.inr hcomp) (revisesPlan_times d _ _ ha)
  | vehicle _ p => exact keep _ ⟨i0.1, i0.2, i0.3, i0.4⟩ (hv p rfl) rfl rfl rfl rfl rfl rfl rfl i6 rfl rfl rfl
  | evalTime _ t o hne => exact keep _ ⟨i0.1, i0.2, i0.3, i0.4⟩ i1 rfl rfl rfl rfl rfl rfl rfl (fun h => ⟨ht h t o rfl, by rw [← hgt]⟩) rfl rfl rfl
  | _ => exact keep _ ⟨i0.1, i0.2, i0.3, i0.4⟩ i1 rfl rfl rfl rfl rfl rfl rfl i6 rfl rfl rfl

theorem revising_step (env : Env K) (s0 : Planner K) (hs0 : ¬ PlanWaiting s0) (hb0 : ∀ w ∈ s0.dyn, Bookkept w) (ms : List (String × V3 K))
    (ts : List K) (ps : List (V3 K)) (e : Event K)
    (s s' : Planner K) (he : ¬ IsRequest e) (hv : ∀ p, e = .updateVehiclePosition p → p ∈ ps) (ht : s.computing = false → ∀ t o, e = .evaluate t o false → t ∈ ts)
    (hc : Ctl s) (hi : Revising env s0 ms ts ps s) (h : s.step env e = .ok (some s')) :
    (Revising env s0 ms ts ps s' ∧ ¬ TakesOver s s') ∨
    (TakesOver s s' ∧ Flying s'.traj s'.dyn s' ∧ RevisesPlan env s0 ms ts ps s'.dyn) := by
  rcases step_micro' env e s s' h with ⟨rfl, _⟩ | h | ⟨m, ⟨t, o, rfl⟩, h1, h2⟩
  · exact .inl ⟨hi, fun ht => by have := ht.1; rw [ht.2] at this; cases this⟩
  · rcases revising_micro env s0 hs0 hb0 ms ts ps e s s' he hv ht hc hi h with ⟨k1, k2⟩ | ⟨k1, k2, k3⟩
    · exact .inl ⟨k1, fun ht => by have := k2 ht.1; rw [ht.2] at this; cases this⟩
    · exact .inr ⟨⟨k1, k2.flags.1⟩, k2, k3⟩
  · have c1 := ctl_micro env _ s m hc h1
    rcases revising_micro env s0 hs0 hb0 ms ts ps _ s m he hv ht hc hi h1 with ⟨k1, k2⟩ | ⟨k1, k2, k3⟩
    · have ht2 : m.computing = false → ∀ t' o', Event.evaluate t o false = .evaluate t' o' false → t' ∈ ts := by
        intro hx
        refine ht ?_
        by_contra hy
        have := k2 (by simpa using hy)
        rw [hx] at this; cases this
      rcases revising_micro env s0 hs0 hb0 ms ts ps _ m s' he hv ht2 c1 k1 h2 with ⟨j1, j2⟩ | ⟨j1, j2, j3⟩
      · exact .inl ⟨j1, fun ht => by have := j2 (k2 ht.1); rw [ht.2] at this; cases this⟩
      · refine .inr ⟨⟨?_, j2.flags.1⟩, j2, j3⟩
        by_contra hx
        cases h1 with
        | takeOver _ _ new off hcomp hr _ hfit => exact hx hcomp
        | evalTime _ _ _ _ => exact hx j1
    · have f2 := flying_micro env _ _ _ m s' he c1 k2 h2
      refine .inr ⟨⟨k1, f2.flags.1⟩, ?_, ?_⟩
      · exact ⟨rfl, by rw [f2.traj]; exact f2.some, rfl, f2.toModify, f2.flags, f2.pc⟩
      · rw [f2.dyn]; exact k3

theorem revising_run (env : Env K) (s0 : Planner K) (hc0 : Ctl s0) (hidle : s0.pc = .top ∧ s0.computing = false) (hb0 : ∀ w ∈ s0.dyn, Bookkept w)
    (hq : s0.toSet = [] ∧ s0.toAdd = [] ∧ s0.toModify = []) (ms : List (String × V3 K)) (ts : List K) (hts : s0.params.lastGlobal ∈ ts)
    (hloc : s0.params.lastLocal = s0.params.lastGlobal - s0.params.gtlg) (ps : List (V3 K)) (hps : s0.vehicle ∈ ps)
    (after : List (Event K)) (hr : ∀ e ∈ after, ¬ IsRequest e)
    (hv : ∀ e ∈ after, ∀ p, e = .updateVehiclePosition p → p ∈ ps) (ht : ∀ e ∈ after, ∀ t o, e = .evaluate t o false → t ∈ ts) (s : Planner K)
    (h : RunBefore env (s0.modifyWaypoints ms) after s) :
    Ctl s ∧ Revising env s0 ms ts ps s := by
  have hs0 : ¬ PlanWaiting s0 := by
    rintro (h | ⟨tr, h⟩) <;> rw [hc0.idle hidle.2] at h <;> cases h
  have hb : Ctl (s0.modifyWaypoints ms) ∧ Revising env s0 ms ts ps (s0.modifyWaypoints ms) := by
    refine ⟨ctl_step env (.modifyWaypoints ms) s0 _ hc0 rfl, ?_⟩
    have hfold : ∀ (ms : List (String × V3 K)) (s : Planner K), ∃ g, ms.foldl (fun s m => s.modifyWaypoint m.1 m.2 false) s =
        { s with toModify := ms.foldl (fun l m => Planner.putModification m.1 m.2 l) s.toModify, generateNew := g } := by
      intro ms
      induction ms with
      | nil => exact fun s => ⟨s.generateNew, rfl⟩
      | cons m ms ih =>
        intro s
        obtain ⟨g, hg⟩ := ih (s.modifyWaypoint m.1 m.2 false)
        exact ⟨g, by rw [List.foldl_cons, hg]; rfl⟩
    obtain ⟨g, hg⟩ := hfold ms s0
    have hstate : s0.modifyWaypoints ms = { s0 with toModify := ms.foldl (fun l m => Planner.putModification m.1 m.2 l) s0.toModify, generateNew := true } := by
      unfold Planner.modifyWaypoints
      rw [hg]
    obtain ⟨k1, k2⟩ := tracks_put (⟨[], [], []⟩ : Requests K) s0 ⟨hq.1, hq.2.1, by rw [hq.2.2]; simp, by rw [hq.2.2]; intro n; rfl⟩ ms
    rw [hstate]
    refine ⟨⟨s0, .inl rfl, ⟨rfl, rfl, rfl, rfl⟩⟩, hps, hq.1, hq.2.1, fun _ => rfl, fun _ => ⟨hts, hloc⟩, .queued rfl k1 k2 hidle.2 (.inl hidle.1)⟩
  induction h with
  | nil => exact hb
  | snoc e _ hs hok ih =>
    obtain ⟨c, i⟩ := ih (fun e he => hr e (by simp [he])) (fun e he => hv e (by simp [he])) (fun e he => ht e (by simp [he]))
    refine ⟨ctl_step env e _ _ c hs, ?_⟩
    rcases revising_step env s0 hs0 hb0 ms ts ps e _ _ (hr e (by simp)) (hv e (by simp)) (fun _ => ht e (by simp)) c i hs with ⟨k, _⟩ | ⟨k, _⟩
    · exact k
    · exact absurd k hok

/-- C132: a planner with no requests queued and nothing being prepared or computed, whatever was requested and flown before (the plans taken over by evaluations).
`modifyWaypoints` is called with the moves `ms`. Nothing else is requested, but vehicle positions are reported, speeds set, references asked for, and the worker
and the computation proceed, in any order. From the call that takes the next plan over, `getDynamicWaypoints` returns the waypoints of the old plan that are
still ahead (see `RevisesPlan` for which these are exactly), those named in `ms` at the position given last for their name and the others at their current
positions, after a beginning made by the planner; and `evaluateTrajectory` follows them. (The old plan, of which the beginning can be made of, may have been
flown with the moves as compensations in between.) -/
theorem C132_replanned (env : Env K) (henv : Segmentwise env) (hmeets : MeetsVertices env) (v : V3 K) (es : List (Event K)) (hes : ∀ e ∈ es, FreshEvent e)
    (s0 : Planner K) (h0 : RunOnTime env (Planner.init v) es s0) (hidle : s0.pc = .top ∧ s0.computing = false)
    (hq : s0.toSet = [] ∧ s0.toAdd = [] ∧ s0.toModify = []) (ms : List (String × V3 K)) (after more : List (Event K)) (e : Event K)
    (hr : ∀ x ∈ after ++ e :: more, ¬ IsRequest x ∧ ValidEvent x) (s1 s2 s s' : Planner K)
    (h1 : RunBefore env s0 (.modifyWaypoints ms :: after) s1) (h2 : s1.step env e = .ok (some s2)) (ht : TakesOver s1 s2) (h3 : Run env s2 more s)
    (ws : List (Waypoint K)) (hws : s.getDynamicWaypoints env = .ok (some (ws, s'))) :
    s' = s ∧ RevisesPlan env s0 ms (lastEval es :: evalTimes after) (s0.vehicle :: positionsReported after) ws ∧ FliesThrough env s ws := by
  have hfr0 : ReachableBy FreshEvent env s0 := ⟨v, es, hes, runWhile_run _ _ _ _ _ h0⟩
  have hre0 := reachable_of_fresh hfr0
  have hc0 := reachable_ctl env s0 hre0
  have hb0 := (reachable_wp env s0 hre0).dyn
  have hk := clock_run env v es s0 h0
  have hs0 : ¬ PlanWaiting s0 := by
    rintro (h | ⟨tr, h⟩) <;> rw [hc0.idle hidle.2] at h <;> cases h
  obtain ⟨m, hm1, _, hm2⟩ := runWhile_cons _ _ _ _ _ _ h1
  have hm1 : s0.modifyWaypoints ms = m := Option.some.inj (Except.ok.inj hm1)
  rw [← hm1] at hm2
  obtain ⟨c1, r1⟩ := revising_run env s0 hc0 hidle hb0 hq ms (lastEval es :: evalTimes after) (by rw [hk.global]; exact List.mem_cons_self ..)
    (by rw [hk.loc, hk.global]) (s0.vehicle :: positionsReported after) (List.mem_cons_self ..) after
    (fun x hx => (hr x (by simp [hx])).1) (by
      rintro x hx p rfl
      exact List.mem_cons_of_mem _ (List.mem_filterMap.mpr ⟨_, hx, rfl⟩)) (by
      rintro x hx t o rfl
      exact List.mem_cons_of_mem _ (List.mem_filterMap.mpr ⟨_, hx, rfl⟩)) s1 hm2
  have hv : ∀ p, e = .updateVehiclePosition p → p ∈ s0.vehicle :: positionsReported after := by
    rintro p rfl
    exfalso
    rw [← Option.some.inj (Except.ok.inj h2)] at ht
    have h4 := ht.1
    have h5 : s1.computing = false := ht.2
    rw [h5] at h4
    cases h4
  obtain ⟨f2, cr⟩ : Flying s2.traj s2.dyn s2 ∧ RevisesPlan env s0 ms (lastEval es :: evalTimes after) (s0.vehicle :: positionsReported after) s2.dyn := by
    rcases revising_step env s0 hs0 hb0 ms _ _ e s1 s2 (hr e (by simp)).1 hv (fun hx => by have := ht.1; rw [hx] at this; cases this) c1 r1 h2 with ⟨_, k⟩ | ⟨_, k1, k2⟩
    · exact absurd ht k
    · exact ⟨k1, k2⟩
  have c2 := ctl_step env e s1 s2 c1 h2
  obtain ⟨c3, f3⟩ : Ctl s ∧ Flying s2.traj s2.dyn s := by
    refine run_induction env s2 (fun es s' => (∀ e ∈ es, ¬ IsRequest e) → Ctl s' ∧ Flying s2.traj s2.dyn s') (fun _ => ⟨c2, f2⟩) ?_ more s h3
      (fun e he => (hr e (by simp [he])).1)
    intro es e m m' ih hs hes
    obtain ⟨c, u⟩ := ih (fun e he => hes e (List.mem_append_left _ he))
    have hmem := hes e (by simp)
    refine ⟨ctl_step env e m m' c hs, ?_⟩
    rcases step_micro env e m m' hs with rfl | h | ⟨n, h1, h2⟩
    · exact u
    · exact flying_micro env _ _ e m m' hmem c u h
    · exact flying_micro env _ _ e n m' hmem (ctl_micro env e m n c h1) (flying_micro env _ _ e m n hmem c u h1) h2
  have hwait : ¬ PlanWaiting s := by
    rintro (h | ⟨tr, h⟩) <;> rw [c3.idle f3.flags.1] at h <;> cases h
  have htr : s.traj ≠ none := by rw [f3.traj]; exact f3.some
  have hfr : ReachableBy FreshEvent env s := by
    obtain ⟨v, es, h4, h5⟩ := hfr0
    have nonreq : ∀ e : Event K, ¬ IsRequest e → ValidEvent e → FreshEvent e := by
      intro e h1 h2
      cases e <;> first | exact absurd trivial h1 | exact h2
    refine ⟨v, es ++ ((.modifyWaypoints ms :: after) ++ [e] ++ more), ?_,
      run_append' env _ _ _ s0 s h5 (run_append' env _ _ _ s2 s (.snoc e (runWhile_run _ _ _ _ _ h1) h2) h3)⟩
    intro x hx
    rcases List.mem_append.mp hx with hx | hx
    · exact h4 x hx
    · rcases List.mem_append.mp hx with hx | hx
      · rcases List.mem_append.mp hx with hx | hx
        · rcases List.mem_cons.mp hx with rfl | hx
          · trivial
          · exact nonreq x (hr x (by simp [hx])).1 (hr x (by simp [hx])).2
        · obtain rfl := List.mem_singleton.mp hx
          exact nonreq x (hr x (by simp)).1 (hr x (by simp)).2
      · exact nonreq x (hr x (by simp [hx])).1 (hr x (by simp [hx])).2
  have hmods : ∀ w ∈ s.dyn, w.modifiers = [] := by
    obtain ⟨_, _, _, hm, _⟩ := cr
    rw [f3.dyn]
    exact hm
  obtain ⟨hans, hfl⟩ := answer_flown env henv hmeets s hfr htr hwait hmods
  rw [hans] at hws
  have hws := Option.some.inj (Except.ok.inj hws)
  obtain rfl : s = s' := congrArg Prod.snd hws
  obtain rfl : s.dyn.map (·.copy) = ws := congrArg Prod.fst hws
  refine ⟨rfl, ?_, hfl⟩
  rw [f3.dyn]
  exact revisesPlan_copy cr

/-- C132: in particular, if the references are asked for with times up to `T` until then, every waypoint of the old plan that comes later than `T`, and at least 20
computation times after the instant flown at `T`, is flown: at the position given last for its name, if there is one, else where it was. The same holds of a
single waypoint moved with `modifyWaypoint`, with replanning. -/
theorem C132_upcoming_moved (env : Env K) (henv : Segmentwise env) (hmeets : MeetsVertices env) (v : V3 K) (es : List (Event K)) (hes : ∀ e ∈ es, FreshEvent e)
    (s0 : Planner K) (h0 : RunOnTime env (Planner.init v) es s0) (hidle : s0.pc = .top ∧ s0.computing = false)
    (hq : s0.toSet = [] ∧ s0.toAdd = [] ∧ s0.toModify = []) (request : Event K) (ms : List (String × V3 K))
    (hrequest : request = .modifyWaypoints ms ∨ ∃ n p, request = .modifyWaypoint n p true ∧ ms = [(n, p)]) (after more : List (Event K)) (e : Event K)
    (hr : ∀ x ∈ after ++ e :: more, ¬ IsRequest x ∧ ValidEvent x) (s1 s2 s s' : Planner K)
    (h1 : RunBefore env s0 (request :: after) s1) (h2 : s1.step env e = .ok (some s2)) (ht : TakesOver s1 s2) (h3 : Run env s2 more s)
    (ws : List (Waypoint K)) (hws : s.getDynamicWaypoints env = .ok (some (ws, s'))) (T : K) (hT : ∀ t ∈ lastEval es :: evalTimes after, t ≤ T)
    (u : Waypoint K) (hu : u ∈ s0.dyn) (hu1 : T ≤ u.time) (hu2 : T + s0.getTimeCompensation + 20 * s0.timeConstant ≤ u.time) :
    ∃ w ∈ ws, w.name = u.name ∧ w.current = (updateFor ms u).getD u.current ∧
      ∀ f, ∃ r s'', s.evaluateTrajectory env (w.time - s.getTimeCompensation) false f = .ok (some (r, s'')) ∧ r.position = w.current := by
  have h1' : RunBefore env s0 (.modifyWaypoints ms :: after) s1 := by
    rcases hrequest with rfl | ⟨n, p, rfl, rfl⟩
    · exact h1
    · obtain ⟨m, hm1, hm2, hm3⟩ := runWhile_cons _ _ _ _ _ _ h1
      exact runWhile_append _ _ _ _ _ _ _ (.snoc (es := []) (.modifyWaypoints [(n, p)]) .nil hm1 hm2) hm3
  obtain ⟨_, ⟨pre, old, rfl, _, t1, ht1, hcase⟩, hfl⟩ :=
    C132_replanned env henv hmeets v es hes s0 h0 hidle hq ms after more e hr s1 s2 s s' h1' h2 ht h3 ws hws
  have hold : ∃ w ∈ old, ReplannedAs ms u w := by
    have hfrom : ∀ from_ : List (Waypoint K), u ∈ from_ → List.Forall₂ (ReplannedAs ms) from_ old → ∃ w ∈ old, ReplannedAs ms u w := by
      intro from_ hmem hfk
      obtain ⟨j, hj⟩ := List.mem_iff_getElem?.mp hmem
      obtain ⟨w', hw', hsame⟩ := forall2_get hfk j u hj
      exact ⟨w', List.mem_of_getElem? hw', hsame⟩
    rcases hcase with ⟨w0, _, _, _, _, _, hf⟩ | ⟨w0, w1, _, _, _, _, t2, ht2, hf⟩
    · exact hfrom _ (List.mem_filter.mpr ⟨hu, decide_eq_true ((hT t1 ht1).trans hu1)⟩) hf
    · refine hfrom _ (List.mem_filter.mpr ⟨hu, decide_eq_true ⟨(hT t1 ht1).trans hu1, .inr ?_⟩⟩) hf
      have := hT t2 ht2
      linarith
  obtain ⟨w, hwo, u', hbec, hsame⟩ := hold
  refine ⟨w, List.mem_append_right _ hwo, hsame.1.trans hbec.1, hsame.2.1.trans hbec.2.2.1, fun f => ?_⟩
  obtain ⟨i, hi⟩ := List.mem_iff_getElem?.mp (List.mem_append_right pre hwo)
  obtain ⟨r, s'', k1, k2, _⟩ := hfl.2.1 i w hi f
  exact ⟨r, s'', k1, k2⟩

end

/-- C132: the same with the optimiser modelled in C85, linear or nonlinear, whatever its numerical solver returns. -/
theorem C132_optimiser (b : OptBackend) (lineal : Bool) (v : V3 ℝ) (es : List (Event ℝ)) (hes : ∀ e ∈ es, FreshEvent e)
    (s0 : Planner ℝ) (h0 : RunOnTime (b.env lineal) (Planner.init v) es s0) (hidle : s0.pc = .top ∧ s0.computing = false)
    (hq : s0.toSet = [] ∧ s0.toAdd = [] ∧ s0.toModify = []) (ms : List (String × V3 ℝ)) (after more : List (Event ℝ)) (e : Event ℝ)
    (hr : ∀ x ∈ after ++ e :: more, ¬ IsRequest x ∧ ValidEvent x) (s1 s2 s s' : Planner ℝ)
    (h1 : RunBefore (b.env lineal) s0 (.modifyWaypoints ms :: after) s1) (h2 : s1.step (b.env lineal) e = .ok (some s2)) (ht : TakesOver s1 s2)
    (h3 : Run (b.env lineal) s2 more s) (ws : List (Waypoint ℝ)) (hws : s.getDynamicWaypoints (b.env lineal) = .ok (some (ws, s'))) :
    s' = s ∧ RevisesPlan (b.env lineal) s0 ms (lastEval es :: evalTimes after) (s0.vehicle :: positionsReported after) ws ∧ FliesThrough (b.env lineal) s ws :=
  C132_replanned _ (C85_segmentwise b lineal) (C85_meets_vertices b lineal) v es hes s0 h0 hidle hq ms after more e hr s1 s2 s s' h1 h2 ht h3 ws hws

/-- The hypotheses are met: in flight, half a second before waypoint "a", both waypoints are moved, "b" twice; the new plan is attached to the old one and passes
through the new positions. -/
example : ∃ s0 s1 s2 : Planner ℚ, RunOnTime hermiteEnv (Planner.init ⟨0, 0, 0⟩) (history1 ++ [.evaluate (1 / 2) true false]) s0 ∧
    (∀ e ∈ history1 ++ [.evaluate (1 / 2) true false], FreshEvent e) ∧
    (s0.pc = .top ∧ s0.computing = false) ∧ (s0.toSet = [] ∧ s0.toAdd = [] ∧ s0.toModify = []) ∧
    RunBefore hermiteEnv s0 (.modifyWaypoints [("b", ⟨9, 9, 9⟩), ("a", ⟨1, 1, 1⟩), ("b", ⟨3, 3, 3⟩)] :: planEvents (1 / 100)) s1 ∧
    s1.step hermiteEnv (.evaluate (3 / 5) true false) = .ok (some s2) ∧ TakesOver s1 s2 ∧
    (∀ x ∈ planEvents (1 / 100) ++ [.evaluate (3 / 5) true false], ¬ IsRequest x ∧ ValidEvent x) ∧
    (s2.dyn.map fun w => (w.name, w.current)).drop 2 = [("a", ⟨1, 1, 1⟩), ("b", ⟨3, 3, 3⟩)] ∧
    s0.dyn.map (fun u => (u.name, decide (1 / 2 ≤ u.time ∧ 1 / 2 + s0.getTimeCompensation + 20 * s0.timeConstant ≤ u.time))) = [("", false), ("a", true), ("b", true)] := by
  obtain ⟨s0, s1, s2, h1, h2, h3, hf⟩ := run3w?_map onTime notTaken _ _ onTime_ok notTaken_ok
    (history1 ++ [.evaluate (1 / 2) true false]) (.modifyWaypoints [("b", ⟨9, 9, 9⟩), ("a", ⟨1, 1, 1⟩), ("b", ⟨3, 3, 3⟩)] :: planEvents (1 / 100)) (.evaluate (3 / 5) true false)
    (fun a b c => decide (a.pc = .top ∧ a.computing = false ∧ b.computing = true ∧ c.computing = false ∧
      (c.dyn.map fun w => (w.name, w.current)).drop 2 = [("a", ⟨1, 1, 1⟩), ("b", ⟨3, 3, 3⟩)] ∧
      (a.toSet.length = 0 ∧ a.toAdd.length = 0 ∧ a.toModify.length = 0) ∧
      a.dyn.map (fun u => (u.name, decide (1 / 2 ≤ u.time ∧ 1 / 2 + a.getTimeCompensation + 20 * a.timeConstant ≤ u.time))) =
        [("", false), ("a", true), ("b", true)])) true (by decide +kernel)
  obtain ⟨k1, k2, k3, k4, k5, ⟨k6, k7, k8⟩, k9⟩ := of_decide_eq_true hf
  refine ⟨s0, s1, s2, h1, ?_, ⟨k1, k2⟩, ⟨List.length_eq_zero_iff.mp k6, List.length_eq_zero_iff.mp k7, List.length_eq_zero_iff.mp k8⟩, h2, h3, ⟨k3, k4⟩, ?_, k5, k9⟩
  · simp [history1, planEvents, FreshEvent, wp_bookkept]
  · simp [planEvents, IsRequest, ValidEvent]

end Verif.Properties
