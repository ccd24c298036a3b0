import Verif.Properties.PlannerServed
import Verif.Properties.PlannerReroute

/-!
# Property C133: a route given in flight is planned without failure
-/

set_option linter.unusedSectionVars false

namespace Verif.Properties
open Verif Verif.Spec Verif.Lemmas OptBackend LinOpt

section
variable {K : Type*} [Field K] [LinearOrder K] [IsStrictOrderedRing K] [FloorRing K]

/-- How far the plan for a route given in flight has got, `es` being what happened since the route was given, before it is taken over. -/
inductive InFlight (es : List (Event K)) (s : Planner K) : Prop
  | waiting (hf : s.future = .invalid) (hs : .asyncStart ∉ es) (hd : ∀ dt, .asyncFinish dt ∉ es) (hg : s.pc = .top → s.generateNew = true)
  | launched (hf : s.future = .launched) (hs : .asyncStart ∉ es) (hd : ∀ dt, .asyncFinish dt ∉ es)
  | running (speed : K) (hf : s.future = .running speed) (hs : .asyncStart ∈ es) (hd : ∀ dt, .asyncFinish dt ∉ es)
  | ready (tr : Trajectory K) (hf : s.future = .ready tr) (hs : .asyncStart ∈ es) (hd : ∃ dt, .asyncFinish dt ∈ es)

theorem InFlight.more {es : List (Event K)} {s : Planner K} (h : InFlight es s) (e : Event K) (h2 : e ≠ .asyncStart)
    (h3 : ∀ dt, e ≠ .asyncFinish dt) : InFlight (es ++ [e]) s := by
  have hs : .asyncStart ∉ es → .asyncStart ∉ es ++ [e] := fun h => by simp [h, h2.symm]
  have hd : (∀ dt, .asyncFinish dt ∉ es) → ∀ dt, .asyncFinish dt ∉ es ++ [e] := fun h dt => by simp [h dt, (h3 dt).symm]
  cases h with
  | waiting b c d g => exact .waiting b (hs c) (hd d) g
  | launched b c d => exact .launched b (hs c) (hd d)
  | running sp b c d => exact .running sp b (by simp [c]) (hd d)
  | ready tr b c d => exact .ready tr b (by simp [c]) (by obtain ⟨dt, d⟩ := d; exact ⟨dt, by simp [d]⟩)

theorem inFlight_congr {es : List (Event K)} {s s' : Planner K} (h : InFlight es s) (e2 : s'.future = s.future) (e3 : s'.pc = s.pc)
    (e4 : s'.generateNew = s.generateNew) : InFlight es s' := by
  cases h with
  | waiting b c d g => exact .waiting (e2.trans b) c d (by rw [e3, e4]; exact g)
  | launched b c d => exact .launched (e2.trans b) c d
  | running sp b c d => exact .running sp (e2.trans b) c d
  | ready tr b c d => exact .ready tr (e2.trans b) c d

/-- What a step that is neither a request nor one of worker and computation leaves alone, if nothing is taken over. -/
theorem quiet_micro (env : Env K) (e : Event K) (s s' : Planner K) (he : ¬ IsRequest e) (h1 : e ≠ .worker) (h2 : e ≠ .asyncStart)
    (h3 : ∀ dt, e ≠ .asyncFinish dt) (h : Micro env e s s') :
    (s.computing = true ∧ s'.computing = false) ∨
    (s'.computing = s.computing ∧ s'.future = s.future ∧ s'.pc = s.pc ∧ s'.generateNew = s.generateNew ∧
      (s'.params.speed = s.params.speed ∨ e = .setSpeed s'.params.speed)) := by
  cases h with
  | setWaypoints _ ws => exact absurd trivial he
  | append _ w => exact absurd trivial he
  | modify _ n p g => exact absurd trivial he
  | modifyMany _ ms => exact absurd trivial he
  | takeOver _ _ new off hcomp hr _ hfit => exact .inl ⟨hcomp, rfl⟩
  | evalTime _ t o ht => exact .inr ⟨rfl, rfl, rfl, rfl, .inl rfl⟩
  | setSpeed _ v => exact .inr ⟨rfl, rfl, rfl, rfl, .inr rfl⟩
  | clearRegenerated _ => exact .inr ⟨rfl, rfl, rfl, rfl, .inl rfl⟩
  | vehicle _ p => exact .inr ⟨rfl, rfl, rfl, rfl, .inl rfl⟩
  | asyncStart _ hf => exact absurd rfl h2
  | asyncFinish _ dt sp tr ws hf hco => exact absurd rfl (h3 dt)
  | asyncFail _ dt sp hf hco => exact absurd rfl (h3 dt)
  | _ => exact absurd rfl h1

theorem quiet_step (env : Env K) (e : Event K) (s s' : Planner K) (he : ¬ IsRequest e) (h1 : e ≠ .worker) (h2 : e ≠ .asyncStart)
    (h3 : ∀ dt, e ≠ .asyncFinish dt) (hc : Ctl s) (h : s.step env e = .ok (some s')) (hno : ¬ TakesOver s s') :
    s'.future = s.future ∧ s'.pc = s.pc ∧ s'.generateNew = s.generateNew ∧ (s'.params.speed = s.params.speed ∨ e = .setSpeed s'.params.speed) := by
  rcases step_micro' env e s s' h with ⟨rfl, _⟩ | hm | ⟨m, ⟨t, o, rfl⟩, m1, m2⟩
  · exact ⟨rfl, rfl, rfl, .inl rfl⟩
  · rcases quiet_micro env e s s' he h1 h2 h3 hm with k | ⟨_, k⟩
    · exact absurd k hno
    · exact k
  · have noSpeed : ∀ v, Event.evaluate t o false ≠ .setSpeed v := fun v hx => by cases hx
    rcases quiet_micro env _ s m he h1 h2 h3 m1 with k | ⟨j0, j1, j2, j3, j4⟩
    · rcases quiet_micro env _ m s' he h1 h2 h3 m2 with k' | ⟨j0, _⟩
      · rw [k.2] at k'; cases k'.1
      · exact absurd ⟨k.1, j0.trans k.2⟩ hno
    · rcases quiet_micro env _ m s' he h1 h2 h3 m2 with k | ⟨i0, i1, i2, i3, i4⟩
      · exact absurd ⟨j0 ▸ k.1, k.2⟩ hno
      · exact ⟨i1.trans j1, i2.trans j2, i3.trans j3, .inl ((i4.resolve_right (noSpeed _)).trans (j4.resolve_right (noSpeed _)))⟩

/-- The worker's step: the computation it has launched is not touched; on the way there, a phase is done, except where the worker waits at the beginning. -/
theorem inFlight_worker (env : Env K) (s0 : Planner K) (route : List (Waypoint K)) (hne : route ≠ []) (ps : List (V3 K)) (es : List (Event K)) (s s' : Planner K)
    (hc : Ctl s) (hon : Rerouting env s0 route ps s) (hi : InFlight es s) (h : s.step env .worker = .ok (some s')) :
    InFlight (es ++ [.worker]) s' ∧ s'.params.speed = s.params.speed ∧ (s.future ≠ .invalid → s'.future = s.future) ∧
    (s.future = .invalid → s'.future = .invalid → (s.pc ≠ .top ∨ s.checkInSecurityZone = false) →
      s'.pc ≠ .top ∧ phasesDone s.pc + 1 ≤ phasesDone s'.pc) := by
  have hs : .asyncStart ∉ es → .asyncStart ∉ es ++ [Event.worker] := fun h => by simp [h]
  have hd : (∀ dt, .asyncFinish dt ∉ es) → ∀ dt, .asyncFinish dt ∉ es ++ [Event.worker] := fun h dt => by simp [h dt]
  have hother : s'.params.speed = s.params.speed ∧ (s'.future = s.future ∨ (s.pc = .launching ∧ s'.future = .launched)) := by
    rcases step_micro' env _ s s' h with ⟨rfl, _⟩ | hm | ⟨m, ⟨t, o, hx⟩, _⟩
    · exact ⟨rfl, .inl rfl⟩
    · cases hm with
      | takeOver _ _ new off hcomp hr hx hfit => simp at hx
      | apply _ s2 hp ha =>
        obtain ⟨_, d, r, rfl, _⟩ := applyAll_rel (fun _ _ => True) (fun _ => trivial) (fun _ _ _ _ _ => trivial) (fun _ _ _ _ _ => trivial) _ s s2 ha
        exact ⟨rfl, .inl rfl⟩
      | launch _ hp => exact ⟨rfl, .inr ⟨hp, rfl⟩⟩
      | _ => exact ⟨rfl, .inl rfl⟩
    · cases hx
  obtain ⟨o1, o2⟩ := hother
  have hq : s.future ≠ .invalid → s'.future = s.future := fun hne => o2.resolve_right fun hp => hne (hc.launching hp.1).2
  cases hi with
  | launched b c d => exact ⟨.launched ((hq (by rw [b]; simp)).trans b) (hs c) (hd d), o1, hq, fun hx => by rw [b] at hx; cases hx⟩
  | running sp b c d => exact ⟨.running sp ((hq (by rw [b]; simp)).trans b) (by simp [c]) (hd d), o1, hq, fun hx => by rw [b] at hx; cases hx⟩
  | ready tr b c d =>
    exact ⟨.ready tr ((hq (by rw [b]; simp)).trans b) (by simp [c]) (by obtain ⟨dt, d⟩ := d; exact ⟨dt, by simp [d]⟩), o1, hq, fun hx => by rw [b] at hx; cases hx⟩
  | waiting b c d g =>
    have htop : s.pc = .top → s.computing = false := by
      intro hp
      by_contra hcomp
      exact hc.busy (by simpa using hcomp) (by rw [hp]; simp) b
    have step : ∀ s' : Planner K, s'.future = s.future → s'.params.speed = s.params.speed → s'.pc ≠ .top → phasesDone s.pc + 1 ≤ phasesDone s'.pc →
        InFlight (es ++ [.worker]) s' ∧ s'.params.speed = s.params.speed ∧ (s.future ≠ .invalid → s'.future = s.future) ∧
        (s.future = .invalid → s'.future = .invalid → (s.pc ≠ .top ∨ s.checkInSecurityZone = false) →
          s'.pc ≠ .top ∧ phasesDone s.pc + 1 ≤ phasesDone s'.pc) :=
      fun s' e1 e2 e3 e4 => ⟨.waiting (e1.trans b) (hs c) (hd d) fun hp => absurd hp e3, e2, fun _ => e1, fun _ _ _ => ⟨e3, e4⟩⟩
    rcases step_micro' env _ s s' h with ⟨rfl, hno⟩ | hm | ⟨m, ⟨t, o, hx⟩, _⟩
    · refine ⟨.waiting b (hs c) (hd d) g, o1, hq, ?_⟩
      intro _ _ hz
      exfalso
      obtain ⟨hp, hgen, _⟩ := hno rfl
      have hz := hz.resolve_left (fun hx => hx hp)
      unfold Planner.checkIfTrajectoryCanBeGenerated at hgen
      rw [hz, g hp, htop hp] at hgen
      cases hgen
    · cases hm with
      | takeOver _ _ new off hcomp hr hx hfit => simp at hx
      | goCollect _ hp hg hz hcomp => exact step _ rfl rfl (by simp) (by rw [hp]; show 0 + 1 ≤ 1; decide)
      | goApply _ hp hm hcomp hno => exact absurd hon.toModify hm
      | collect _ ws hp hw2 => exact step _ rfl rfl (by simp) (by rw [hp]; show 1 + 1 ≤ 2; decide)
      | nothingToPlan _ hp hn =>
        exfalso
        cases hon.early with
        | queued _ _ k => rcases k with k | k <;> rw [hp] at k <;> cases k
        | collected _ _ k => rw [hn] at k; exact hne (by simpa using k.symm)
        | planned k _ =>
          rcases k with k | k
          · rw [hp] at k; cases k
          · have := hc.quiet (by rw [hp]; simp) (by rw [hp]; simp) (by rw [hp]; simp)
            rw [k] at this
            cases this
      | snapshot _ hp hn => exact step _ rfl rfl (by simp) (by rw [hp]; show 2 + 1 ≤ 3; decide)
      | stitch _ ws hp hst hw2 => exact step _ rfl rfl (by simp) (by rw [hp]; show 3 + 1 ≤ 4; decide)
      | scratch _ ws hp hst hw2 => exact step _ rfl rfl (by simp) (by rw [hp]; show 3 + 1 ≤ 4; decide)
      | planned _ hp => exact step _ rfl rfl (by simp) (by rw [hp]; show 4 + 1 ≤ 5; decide)
      | launch _ hp => exact ⟨.launched rfl (hs c) (hd d), rfl, fun hh => absurd b hh, fun _ hx => (by cases hx)⟩
      | launched _ hp =>
        exfalso
        cases hon.early with
        | queued _ _ k => rcases k with k | k <;> rw [hp] at k <;> cases k
        | collected _ k _ => rcases k with k | k <;> rw [hp] at k <;> cases k
        | planned k _ =>
          rcases k with k | k
          · rw [hp] at k; cases k
          · exact hc.busy k (by rw [hp]; simp) b
      | apply _ s2 hp ha =>
        exfalso
        cases hon.early with
        | queued _ _ k => rcases k with k | k <;> rw [hp] at k <;> cases k
        | collected _ k _ => rcases k with k | k <;> rw [hp] at k <;> cases k
        | planned k _ =>
          rcases k with k | k
          · rw [hp] at k; cases k
          · exact hc.busy k (by rw [hp]; simp) b
    · cases hx

theorem ready_takes (env : Env K) (s s' : Planner K) (hc : s.computing = true)
    (tr : Trajectory K) (hf : s.future = .ready tr) (h : s.checkTrajectoryGenerated env = .ok (some s')) : s'.computing = false := by
  unfold Planner.checkTrajectoryGenerated at h
  rw [hf, hc] at h
  simp only [Future.isReady, Future.valid, Bool.not_true, Bool.and_false, Bool.false_eq_true, if_false, Bool.and_true, if_true, bind, Except.bind] at h
  cases hs : s.swapTrajectory env with
  | error e => rw [hs] at h; cases h
  | ok s1 =>
    rw [hs] at h
    rw [← Option.some.inj (Except.ok.inj h)]

end

/-! ## Estimated times that are too short -/

theorem mapM_error {α β : Type*} (f : α → Res β) (l : List α) (e : Fail) (h : l.mapM f = .error e) : ∃ a ∈ l, f a = .error e := by
  induction l with
  | nil => cases h
  | cons a l ih =>
    rw [List.mapM_cons] at h
    simp only [bind, Except.bind] at h
    cases ha : f a with
    | error x => rw [ha] at h; cases h; exact ⟨a, by simp, ha⟩
    | ok y =>
      rw [ha] at h
      simp only at h
      cases hl : l.mapM f with
      | error x => rw [hl] at h; cases h; obtain ⟨b, hb, k⟩ := ih hl; exact ⟨b, by simp [hb], k⟩
      | ok y => rw [hl] at h; cases h

theorem segmentMatrices_error (h d : ℕ) (hd : d < h) (hN : h + h ≤ 22) (ts : List ℝ) (x : Fail) (hx : LinOpt.segmentMatrices (h := h) d ts = .error x) :
    x = .check ∨ x = .nonfinite := by
  unfold LinOpt.segmentMatrices at hx
  obtain ⟨t, _, ht⟩ := mapM_error _ _ _ hx
  split at ht
  · rename_i h0
    rw [computeQuadraticCostJacobian_ok h d t (by omega) hN] at ht
    rcases lt_or_ge t Poly.dblEps with hlt | hge
    · obtain ⟨A, hA, hAi⟩ := mapping_tiny h t (by omega) hN (by rw [abs_of_pos h0]; exact hlt)
      rw [hA] at ht
      simp only [bind, Except.bind] at ht
      rw [hAi] at ht
      cases ht
      exact .inr rfl
    · rw [setupMappingMatrix_ok h t hN (by rw [abs_of_pos h0]; exact hge)] at ht
      simp only [bind, Except.bind] at ht
      rw [invertMappingMatrix_ok h t h0.ne'] at ht
      cases ht
  · cases ht
    exact .inl rfl

/-- With a time estimate below `2⁻⁵²` the optimisation fails: a check aborts the program, or numbers are not finite. -/
theorem optimize_short (b : OptBackend) (hA : 0 < b.aMax) (lineal : Bool) (vs : List (Vertex ℝ)) (speed : ℝ) (hv : Handed3 vs speed)
    (hshort : ¬ EachEstimate b vs speed (1 / 2 ^ 52 ≤ ·)) : ∃ x, (b.env lineal).optimize vs speed = .error x ∧ (x = .check ∨ x = .nonfinite) := by
  obtain ⟨ts, e, hl, _, hts⟩ := handed_times b hA vs speed hv
  have hnot : ¬ ∀ t ∈ ts, Poly.dblEps ≤ t := by
    intro hall
    apply hshort
    intro i v w p q h1 h2 h3 h4
    exact hall _ (List.mem_of_getElem? (hts i v w p q h1 h2 h3 h4))
  obtain ⟨x, hx, hk⟩ : ∃ x, (LinOpt.init 5 ℝ 3).setupFromVertices vs ts 2 = .error x ∧ (x = .check ∨ x = .nonfinite) := by
    cases hm : LinOpt.segmentMatrices (h := 5) 2 ts with
    | ok ms => exact absurd ((segmentMatrices_ok_iff (h := 5) 2 ts (by omega) (by omega)).mp ⟨ms, hm⟩) hnot
    | error x =>
      refine ⟨x, ?_, segmentMatrices_error 5 2 (by omega) (by omega) ts x hm⟩
      unfold LinOpt.setupFromVertices
      have hv2 := hv.1
      rw [if_neg (by omega), if_neg (by omega), if_neg (by omega)]
      obtain ⟨vs', hvs'⟩ := mapM_total (LinOpt.filterVertex 5 (LinOpt.init 5 ℝ 3).dimension) vs (fun v hm =>
        (filterVertex_ok_iff _ v (hv.2.2 v hm).1).mpr (fun k c _ hc => by
          obtain ⟨h1, h2, _⟩ := hv.2.2 v hm
          exact (constraint_length h1 hc).trans h2))
      simp only [bind, Except.bind]
      rw [hvs']
      simp only [LinOpt.updateSegmentTimes]
      rw [if_neg (by omega)]
      simp only [bind, Except.bind]
      rw [show ((2 : Int).toNat) = 2 from rfl, hm]
  refine ⟨x, ?_, hk⟩
  cases lineal with
  | true =>
    show b.linear vs speed = _
    unfold linear
    rw [e]
    simp only [bind, Except.bind]
    rw [hx]
  | false =>
    show b.nonlinear vs speed = _
    unfold nonlinear prepare
    rw [e]
    simp only [bind, Except.bind, NonLin.setupFromVertices]
    rw [show (NonLin.init 5 3 OptBackend.params).poly = LinOpt.init 5 ℝ 3 from rfl, hx]

/-- So a computation begun with a positive speed ends with a plan if the time estimated for each two consecutive waypoints is at least `2⁻⁵²`; otherwise it aborts. -/
theorem computes_or_aborts (b : OptBackend) (hA : 0 < b.aMax) (lineal : Bool) (hN : lineal = false → NloptKeepsBounds b) (s : Planner ℝ)
    (h : Reachable (b.env lineal) s) (speed : ℝ) (hf : s.future = .running speed) (hs : 0 < speed) (vs : List (Vertex ℝ)) (hvs : extractVertices s.next = .ok vs) (dt : ℝ) :
    (EachEstimate b vs speed (1 / 2 ^ 52 ≤ ·) → ∃ s' tr, s.step (b.env lineal) (.asyncFinish dt) = .ok (some s') ∧ s'.future = .ready tr) ∧
    (¬ EachEstimate b vs speed (1 / 2 ^ 52 ≤ ·) → ∃ x, s.step (b.env lineal) (.asyncFinish dt) = .error x) := by
  refine ⟨fun ht => C128_computes b hA lineal hN s h speed hf hs vs hvs ht dt, fun ht => ?_⟩
  obtain ⟨vs', hvs', hv2, hv⟩ := running_vertices _ s h speed hf
  obtain rfl : vs = vs' := Except.ok.inj (hvs.symm.trans hvs')
  obtain ⟨x, hx, hk⟩ := optimize_short b hA lineal vs speed ⟨hv2, hs, hv⟩ ht
  have hco : s.computeTrajectory (b.env lineal) speed = .error x := by
    unfold Planner.computeTrajectory
    simp only [hvs, bind, Except.bind]
    rw [if_neg (by omega), hx]
  refine ⟨x, ?_⟩
  show s.asyncFinish _ dt = _
  unfold Planner.asyncFinish
  rw [hf]
  simp only
  rw [hco]
  rcases hk with rfl | rfl <;> rfl

/-- Neither waypoint is one at rest, and at this speed it takes less than `2⁻⁵²` seconds from one to the other. -/
def TooClose (speed : ℝ) (u w : Waypoint ℝ) : Prop :=
  ¬ AtRest u.vertex ∧ ¬ AtRest w.vertex ∧
  Real.sqrt ((u.current.x - w.current.x) ^ 2 + (u.current.y - w.current.y) ^ 2 + (u.current.z - w.current.z) ^ 2) < speed / 2 ^ 52

theorem eachEstimate_iff (b : OptBackend) (hA : 0 < b.aMax) (ws : List (Waypoint ℝ)) (hb : ∀ w ∈ ws, Bookkept w) (vs : List (Vertex ℝ))
    (hvs : extractVertices ws = .ok vs) (speed : ℝ) (hs : b.aMax / 2 ^ 52 ≤ speed) :
    EachEstimate b vs speed (1 / 2 ^ 52 ≤ ·) ↔
      ∀ (i : ℕ) (u w : Waypoint ℝ), ws[i]? = some u → ws[i + 1]? = some w → i + 2 < ws.length → ¬ TooClose speed u w := by
  have h52 : (0 : ℝ) < 2 ^ 52 := by positivity
  have hpos : 0 < speed := lt_of_lt_of_le (div_pos hA h52) hs
  have hacc : 1 / 2 ^ 52 ≤ speed / b.aMax := by
    rw [div_le_div_iff₀ h52 hA]
    rw [div_le_iff₀ h52] at hs
    linarith
  have hrest : ∀ x : Vertex ℝ, x.getConstraint 1 = some [0, 0, 0] → AtRest x := fun x hx => ⟨_, hx, by norm_num⟩
  have hlen := (extractVertices_form _ vs hvs).1
  have hcongr : ∀ x y : Vertex ℝ, x.getConstraint 1 = y.getConstraint 1 → (AtRest x ↔ AtRest y) := fun x y hxy => by
    unfold AtRest
    rw [hxy]
  -- the pair of vertices for a pair of waypoints
  have pair : ∀ (i : ℕ) (u w : Waypoint ℝ), ws[i]? = some u → ws[i + 1]? = some w → ∃ v v', vs[i]? = some v ∧ vs[i + 1]? = some v' ∧
      v.getConstraint 0 = some [u.current.x, u.current.y, u.current.z] ∧ v'.getConstraint 0 = some [w.current.x, w.current.y, w.current.z] ∧
      (1 / 2 ^ 52 ≤ estimate v v' [u.current.x, u.current.y, u.current.z] [w.current.x, w.current.y, w.current.z] speed b.aMax ↔
        (i + 2 < ws.length → ¬ TooClose speed u w)) := by
    intro i u w hu hw
    obtain ⟨v, hv, hcv, _⟩ := extractVertices_position _ vs hvs hb i u hu
    obtain ⟨v', hv', hcw, hlw⟩ := extractVertices_position _ vs hvs hb (i + 1) w hw
    have hi1 : i + 1 < ws.length := (List.getElem?_eq_some_iff.mp hw).1
    refine ⟨v, v', hv, hv', ?_, ?_, ?_⟩
    · rw [hcv 0 (.inr ⟨by decide, by decide⟩), (hb u (List.mem_of_getElem? hu)).2.2.1]
    · rw [hcw 0 (.inr ⟨by decide, by decide⟩), (hb w (List.mem_of_getElem? hw)).2.2.1]
    · have hdd : distance [u.current.x, u.current.y, u.current.z] [w.current.x, w.current.y, w.current.z] =
          Real.sqrt ((u.current.x - w.current.x) ^ 2 + (u.current.y - w.current.y) ^ 2 + (u.current.z - w.current.z) ^ 2) := by
        simp [distance, add_assoc]
      unfold estimate
      rw [hdd]
      have hsq := Real.sqrt_nonneg ((u.current.x - w.current.x) ^ 2 + (u.current.y - w.current.y) ^ 2 + (u.current.z - w.current.z) ^ 2)
      unfold TooClose
      generalize Real.sqrt ((u.current.x - w.current.x) ^ 2 + (u.current.y - w.current.y) ^ 2 + (u.current.z - w.current.z) ^ 2) = d at *
      have hd : 0 ≤ d / speed := div_nonneg hsq hpos.le
      have hrv : AtRest v ↔ AtRest u.vertex := hcongr _ _ (hcv 1 (.inl hi1))
      by_cases hi2 : i + 2 < ws.length
      · have hrw : AtRest v' ↔ AtRest w.vertex := hcongr _ _ (hcw 1 (.inl hi2))
        by_cases hr : AtRest v ∨ AtRest v'
        · rw [if_pos hr]
          constructor
          · intro _ _ hx
            rw [← hrv, ← hrw] at hx
            exact hr.elim hx.1 hx.2.1
          · intro _
            linarith
        · rw [if_neg hr, add_zero, div_le_div_iff₀ h52 hpos]
          push Not at hr
          rw [hrv, hrw] at hr
          constructor
          · rintro hx _ ⟨_, _, hy⟩
            rw [lt_div_iff₀ h52] at hy
            linarith
          · intro hx
            have := hx hi2
            push Not at this
            have := this hr.1 hr.2
            rw [div_le_iff₀ h52] at this
            linarith
      · rw [if_pos (.inr (hrest _ (hlw (by omega)).1))]
        exact ⟨fun _ h => absurd h hi2, fun _ => by linarith⟩
  constructor
  · intro hest i u w hu hw hi
    obtain ⟨v, v', h1, h2, h3, h4, h5⟩ := pair i u w hu hw
    exact h5.mp (hest i v v' _ _ h1 h2 h3 h4) hi
  · intro hall i v v' p q h1 h2 h3 h4
    have hi : i + 1 < vs.length := (List.getElem?_eq_some_iff.mp h2).1
    obtain ⟨v2, v2', k1, k2, k3, k4, k5⟩ := pair i _ _ (List.getElem?_eq_getElem (show i < ws.length by omega)) (List.getElem?_eq_getElem (show i + 1 < ws.length by omega))
    rw [h1] at k1
    rw [h2] at k2
    cases k1
    cases k2
    rw [h3] at k3
    rw [h4] at k4
    cases k3
    cases k4
    exact k5.mpr fun hi2 => hall i _ _ (List.getElem?_eq_getElem _) (List.getElem?_eq_getElem _) hi2

/-- The plan `ws` for the route begins with two points of the plan in force in `s0`, and at this speed it takes less than `2⁻⁵²` seconds from the first of them to
the second, or from the second to the first waypoint of the route (of more than one), none of the two at rest. -/
def AttachedTooClose (env : Env ℝ) (s0 : Planner ℝ) (route : List (Waypoint ℝ)) (speed : ℝ) (ws : List (Waypoint ℝ)) : Prop :=
  ∃ w0 w1 rest, ws = w0 :: w1 :: rest ∧ w0.name = "stitching_point" ∧ w1.name = "stitching_point" ∧ PointOf env s0 true w0 ∧ PointOf env s0 false w1 ∧
    (TooClose speed w0 w1 ∨ ∃ u v more, route = u :: v :: more ∧ TooClose speed w1 u)

theorem tooClose_congr {speed : ℝ} {u u' w w' : Waypoint ℝ} (h1 : SameWaypoint u u') (h2 : SameWaypoint w w') : TooClose speed u' w' ↔ TooClose speed u w := by
  unfold TooClose AtRest
  rw [h1.2.1, h2.2.1, h1.2.2 1, h2.2.2 1]

theorem flight_estimates (b : OptBackend) (hA : 0 < b.aMax) (env : Env ℝ) (s0 : Planner ℝ) (route : List (Waypoint ℝ)) (hne : route ≠ []) (ps : List (V3 ℝ))
    (ws : List (Waypoint ℝ)) (hst : ContinuesRoute env s0 route ps ws) (hb : ∀ w ∈ ws, Bookkept w) (vs : List (Vertex ℝ)) (hvs : extractVertices ws = .ok vs)
    (speed : ℝ) (hs : b.aMax / 2 ^ 52 ≤ speed) (hsp : Spaced route speed) :
    EachEstimate b vs speed (1 / 2 ^ 52 ≤ ·) ↔ ¬ AttachedTooClose env s0 route speed ws := by
  rw [eachEstimate_iff b hA ws hb vs hvs speed hs]
  obtain ⟨pre, rest, rfl, hsame, _, hpre⟩ := hst
  have hrl := hsame.length_eq
  have hrefl : ∀ w : Waypoint ℝ, SameWaypoint w w := fun w => ⟨rfl, rfl, fun _ => rfl⟩
  -- waypoints of the route are far apart
  have far : ∀ (i : ℕ) (u w : Waypoint ℝ), rest[i]? = some u → rest[i + 1]? = some w → i + 2 < rest.length → ¬ TooClose speed u w := by
    intro i u w hu hw hi hx
    obtain ⟨u1, hu1, su1⟩ := forall2_get' hsame i _ hu
    obtain ⟨u2, hu2, su2⟩ := forall2_get' hsame (i + 1) _ hw
    rw [tooClose_congr su1 su2] at hx
    have := hsp i u1 u2 hu1 hu2 (by omega)
    exact absurd hx.2.2 (not_lt.mpr this)
  rcases hpre with ⟨w0, rfl, hname, _, h1, _⟩ | ⟨w0, w1, rfl, n0, n1, p0, p1⟩
  · constructor
    · rintro _ ⟨x0, x1, xr, hx, hxn, _⟩
      have : w0 = x0 := (List.cons.inj hx).1
      rw [← this, hname] at hxn
      exact absurd hxn (by decide)
    · intro _ i u w hu hw hi
      cases i with
      | zero =>
        obtain rfl : w0 = u := by simpa using hu
        intro hx
        exact hx.1 ⟨_, h1, by norm_num⟩
      | succ i =>
        exact far i u w (by simpa using hu) (by simpa using hw) (by simp at hi; omega)
  · constructor
    · rintro hall ⟨x0, x1, xr, hx, _, _, _, _, hclose⟩
      simp only [List.cons_append, List.nil_append, List.cons.injEq] at hx
      obtain ⟨rfl, rfl, rfl⟩ := hx
      rcases hclose with hc | ⟨u, v, more, rfl, hc⟩
      · refine hall 0 w0 w1 rfl rfl ?_ hc
        have := List.length_pos_iff.mpr hne
        simp
        omega
      · obtain ⟨u', hu', su'⟩ : ∃ u', rest[0]? = some u' ∧ SameWaypoint u u' := by
          cases hsame with
          | cons a _ => exact ⟨_, rfl, a⟩
        refine hall 1 w1 u' rfl (by simpa using hu') ?_ ((tooClose_congr (hrefl w1) su').mpr hc)
        simp at hrl ⊢
        omega
    · intro hno i u w hu hw hi hx
      cases i with
      | zero =>
        obtain rfl : w0 = u := by simpa using hu
        obtain rfl : w1 = w := by simpa using hw
        exact hno ⟨w0, w1, rest, rfl, n0, n1, p0, p1, .inl hx⟩
      | succ i =>
        cases i with
        | zero =>
          obtain rfl : w1 = u := by simpa using hu
          have hw : rest[0]? = some w := by simpa using hw
          cases hsame with
          | nil => cases hw
          | cons a c =>
            cases c with
            | nil => simp at hi
            | cons a' c =>
              obtain rfl := Option.some.inj hw
              exact hno ⟨w0, w1, _, rfl, n0, n1, p0, p1, .inr ⟨_, _, _, rfl, (tooClose_congr (hrefl w1) a).mp hx⟩⟩
        | succ i =>
          exact far i u w (by simpa using hu) (by simpa using hw) (by simp at hi; omega) hx

/-- Nothing is left of the worker's phases before the launch, unless the computation was launched. -/
def Advanced {K : Type*} (k : ℕ) (s : Planner K) : Prop := s.future = .invalid → s.pc ≠ .top ∧ k ≤ phasesDone s.pc

section
variable (b : OptBackend) (hA : 0 < b.aMax) (lineal : Bool) (hN : lineal = false → NloptKeepsBounds b) (s0 : Planner ℝ) (h0 : Reachable (b.env lineal) s0)
  (hidle : s0.pc = .top ∧ s0.computing = false) (hz : NoZeroWidth s0.dyn) (route : List (Waypoint ℝ)) (hne : route ≠ [])
  (hw : ∀ w ∈ route, Bookkept w ∧ w.modifiers = [] ∧ w.time = 0)

/-- What is known before the plan for the route is taken over; `speeds` are those that were set. -/
structure Unharmed (env : Env ℝ) (s0 : Planner ℝ) (route : List (Waypoint ℝ)) (ps : List (V3 ℝ)) (speeds : List ℝ) (es : List (Event ℝ)) (s : Planner ℝ) : Prop where
  reachable : Reachable env s
  rerouting : Rerouting env s0 route ps s
  phase : InFlight es s
  speed : s.params.speed ∈ speeds
  began : ∀ sp, s.future = .running sp → sp ∈ speeds

include hA hN h0 hidle hne hw

/-- The computation for a route given in flight ends with a plan, or aborts if the plan is attached too close. -/
theorem flight_computes (ps : List (V3 ℝ)) (s : Planner ℝ) (hre : Reachable (b.env lineal) s) (hon : Rerouting (b.env lineal) s0 route ps s) (speed : ℝ)
    (hf : s.future = .running speed) (hs : b.aMax / 2 ^ 52 ≤ speed ∧ Spaced route speed) (dt : ℝ) :
    (¬ AttachedTooClose (b.env lineal) s0 route speed s.next → ∃ s' tr, s.step (b.env lineal) (.asyncFinish dt) = .ok (some s') ∧ s'.future = .ready tr) ∧
    (AttachedTooClose (b.env lineal) s0 route speed s.next → ∃ x, s.step (b.env lineal) (.asyncFinish dt) = .error x) := by
  have h52 : (0 : ℝ) < 2 ^ 52 := by positivity
  obtain ⟨vs, hvs, _⟩ := running_vertices _ s hre speed hf
  have hc := reachable_ctl _ s hre
  have hcomp : s.computing ≠ false := fun hh => by rw [hc.idle hh] at hf; cases hf
  have hst : ContinuesRoute (b.env lineal) s0 route ps s.next := by
    cases hon.early with
    | queued _ k _ => exact absurd k hcomp
    | collected k _ _ => exact absurd k hcomp
    | planned _ k => exact k
  obtain ⟨k1, k2⟩ := computes_or_aborts b hA lineal hN s hre speed hf (lt_of_lt_of_le (div_pos hA h52) hs.1) vs hvs dt
  have hiff := flight_estimates b hA _ s0 route hne ps s.next hst (reachable_wp _ s hre).next vs hvs speed hs.1 hs.2
  exact ⟨fun h => k1 (hiff.mpr h), fun h => k2 fun hx => hiff.mp hx h⟩

theorem unharmed_step (ps : List (V3 ℝ)) (speeds : List ℝ) (hpos : ∀ v ∈ speeds, b.aMax / 2 ^ 52 ≤ v ∧ Spaced route v) (es : List (Event ℝ)) (e : Event ℝ)
    (hreq : ¬ IsRequest e) (hval : ValidEvent e) (hv : ∀ p, e = .updateVehiclePosition p → p ∈ ps) (hspd : ∀ v, e = .setSpeed v → v ∈ speeds) (s s' : Planner ℝ)
    (hi : Unharmed (b.env lineal) s0 route ps speeds es s) (h : s.step (b.env lineal) e = .ok (some s')) (hno : ¬ TakesOver s s') :
    Unharmed (b.env lineal) s0 route ps speeds (es ++ [e]) s' ∧ ∀ k, Advanced k s → Advanced (k + workerSteps [e]) s' := by
  have hc0 := reachable_ctl _ s0 h0
  have hs0 : ¬ PlanWaiting s0 := by
    rintro (h | ⟨tr, h⟩) <;> rw [hc0.idle hidle.2] at h <;> cases h
  obtain ⟨hre, hon, hph, hsp, hbeg⟩ := hi
  have hc := reachable_ctl _ s hre
  have hre' := reachableBy_step ValidEvent _ s s' e hre hval h
  have hon' : Rerouting (b.env lineal) s0 route ps s' := by
    rcases rerouting_step _ s0 hs0 route hne (fun w hx => (hw w hx).2) ps e s s' hreq hv hc hon h with ⟨k, _⟩ | ⟨k, _⟩
    · exact k
    · exact absurd k hno
  by_cases hst : e = .asyncStart
  · subst hst
    have hs' : s.asyncStart = some s' := Except.ok.inj h
    unfold Planner.asyncStart at hs'
    split at hs'
    · rename_i hf
      have es' := Option.some.inj hs'
      have hd : (∀ dt, .asyncFinish dt ∉ es) → ∀ dt, .asyncFinish dt ∉ es ++ [Event.asyncStart] := fun h dt => by simp [h dt]
      refine ⟨⟨hre', hon', ?_, ?_, ?_⟩, ?_⟩
      · rw [← es']
        cases hph with
        | waiting k => rw [k] at hf; cases hf
        | launched k2 k3 k4 => exact .running s.params.speed rfl (by simp) (hd k4)
        | running _ k => rw [k] at hf; cases hf
        | ready _ k => rw [k] at hf; cases hf
      · rw [← es']; exact hsp
      · intro sp hh
        rw [← es'] at hh
        cases hh
        exact hsp
      · intro k _ hx
        rw [← es'] at hx
        cases hx
    · cases hs'
  · by_cases hfin : ∃ dt, e = .asyncFinish dt
    · obtain ⟨dt, rfl⟩ := hfin
      have hs' : s.asyncFinish (b.env lineal) dt = .ok (some s') := h
      cases hf : s.future with
      | running sp =>
        obtain ⟨j1, j2⟩ := flight_computes b hA lineal hN s0 h0 hidle route hne hw ps s hre hon sp hf (hpos sp (hbeg sp hf)) dt
        obtain ⟨tr, htr⟩ : ∃ tr, s'.future = .ready tr := by
          by_cases hcl : AttachedTooClose (b.env lineal) s0 route sp s.next
          · obtain ⟨x, hx⟩ := j2 hcl
            rw [h] at hx
            cases hx
          · obtain ⟨s2, tr, k1, k2⟩ := j1 hcl
            rw [h] at k1
            rw [← Option.some.inj (Except.ok.inj k1)] at k2
            exact ⟨tr, k2⟩
        have hspeed : s'.params = s.params := by
          unfold Planner.asyncFinish at hs'
          rw [hf] at hs'
          simp only at hs'
          split at hs'
          · rw [← Option.some.inj (Except.ok.inj hs')]
          · rw [← Option.some.inj (Except.ok.inj hs')]
          · cases hs'
        refine ⟨⟨hre', hon', ?_, by rw [hspeed]; exact hsp, fun sp hh => by rw [htr] at hh; cases hh⟩, fun k _ hx => by rw [htr] at hx; cases hx⟩
        cases hph with
        | waiting k => rw [k] at hf; cases hf
        | launched k => rw [k] at hf; cases hf
        | running sp' k2 k3 k4 => exact .ready tr htr (by simp [k3]) ⟨dt, by simp⟩
        | ready _ k => rw [k] at hf; cases hf
      | _ =>
        unfold Planner.asyncFinish at hs'
        rw [hf] at hs'
        cases hs'
    · push Not at hfin
      by_cases hwk : e = .worker
      · subst hwk
        obtain ⟨k1, k2, k3, k4⟩ := inFlight_worker _ s0 route hne ps es s s' hc hon hph h
        refine ⟨⟨hre', hon', k1, by rw [k2]; exact hsp, ?_⟩, ?_⟩
        · intro sp hh
          by_cases hx : s.future = .invalid
          · cases k1 with
            | waiting hy => rw [hy] at hh; cases hh
            | launched hy => rw [hy] at hh; cases hh
            | running _ _ hm _ =>
              cases hph with
              | waiting _ hm' _ _ => simp at hm; exact absurd hm hm'
              | launched hy => rw [hx] at hy; cases hy
              | running _ hy => rw [hx] at hy; cases hy
              | ready _ hy => rw [hx] at hy; cases hy
            | ready _ hy => rw [hy] at hh; cases hh
          · exact hbeg sp (k3 hx ▸ hh)
        intro k hk hinv
        have hsinv : s.future = .invalid := by
          by_contra hx
          exact hx ((k3 hx) ▸ hinv)
        obtain ⟨m1, m2⟩ := hk hsinv
        obtain ⟨n1, n2⟩ := k4 hsinv hinv (.inl m1)
        exact ⟨n1, by show k + 1 ≤ _; omega⟩
      · obtain ⟨k1, k2, k3, k4⟩ := quiet_step _ e s s' hreq hwk hst hfin hc h hno
        refine ⟨⟨hre', hon', inFlight_congr (hph.more e hst hfin) k1 k2 k3, ?_, fun sp hh => hbeg sp (k1 ▸ hh)⟩, ?_⟩
        · rcases k4 with k4 | k4
          · rw [k4]; exact hsp
          · exact hspd _ k4
        · intro k hk hx
          obtain ⟨m1, m2⟩ := hk (k1 ▸ hx)
          have hw0 : workerSteps [e] = 0 := by
            unfold workerSteps
            cases e <;> simp_all
          rw [k2, hw0]
          exact ⟨m1, m2⟩

theorem unharmed_run (after : List (Event ℝ)) (hr : ∀ e ∈ after, ¬ IsRequest e ∧ ValidEvent e) (speeds : List ℝ)
    (hpos : ∀ v ∈ speeds, b.aMax / 2 ^ 52 ≤ v ∧ Spaced route v) (hs : s0.getSpeed ∈ speeds) (hset : ∀ v ∈ speedsSet after, v ∈ speeds) (ps : List (V3 ℝ))
    (hps : s0.vehicle ∈ ps) (hrep : ∀ p ∈ positionsReported after, p ∈ ps) (s : Planner ℝ) (h : RunBefore (b.env lineal) s0 (.setWaypoints route :: after) s) :
    Unharmed (b.env lineal) s0 route ps speeds after s := by
  have hc0 := reachable_ctl _ s0 h0
  obtain ⟨s1, h1, _, h2⟩ := runWhile_cons _ _ _ _ _ _ h
  have hb : Unharmed (b.env lineal) s0 route ps speeds [] s1 := by
    have es := Option.some.inj (Except.ok.inj h1)
    refine ⟨reachableBy_step ValidEvent _ s0 s1 (.setWaypoints route) h0 (fun w hx => (hw w hx).1) h1, ?_, ?_, ?_, ?_⟩
    · rw [← es]
      exact ⟨⟨rfl, rfl, rfl, rfl⟩, hps, rfl, rfl, .queued rfl hidle.2 (.inl hidle.1)⟩
    · rw [← es]
      exact .waiting (hc0.idle hidle.2) (by simp) (by simp) (fun _ => rfl)
    · rw [← es]; exact hs
    · intro sp hh
      rw [← es] at hh
      have : s0.future = .running sp := hh
      rw [hc0.idle hidle.2] at this
      cases this
  clear h h1
  induction h2 with
  | nil => exact hb
  | snoc e _ hs' hok ih =>
    have hi := ih (fun e he => hr e (by simp [he])) (fun v hv => hset v (by unfold speedsSet at *; rw [List.filterMap_append]; exact List.mem_append_left _ hv))
      (fun p hp => hrep p (by unfold positionsReported at *; rw [List.filterMap_append]; exact List.mem_append_left _ hp))
    refine (unharmed_step b hA lineal hN s0 h0 hidle route hne hw ps speeds hpos _ e (hr e (by simp)).1 (hr e (by simp)).2 ?_ ?_ _ _ hi hs' hok).1
    · rintro p rfl
      exact hrep p (List.mem_filterMap.mpr ⟨.updateVehiclePosition p, by simp, rfl⟩)
    · rintro v rfl
      exact hset v (List.mem_filterMap.mpr ⟨.setSpeed v, by simp, rfl⟩)

theorem advanced_run (speeds : List ℝ) (hpos : ∀ v ∈ speeds, b.aMax / 2 ^ 52 ≤ v ∧ Spaced route v) (ps : List (V3 ℝ)) (es more : List (Event ℝ))
    (hr : ∀ e ∈ more, ¬ IsRequest e ∧ ValidEvent e) (hset : ∀ v ∈ speedsSet more, v ∈ speeds) (hrep : ∀ p ∈ positionsReported more, p ∈ ps)
    (k : ℕ) (m s : Planner ℝ) (hm : Unharmed (b.env lineal) s0 route ps speeds es m) (hk : Advanced k m) (h : RunBefore (b.env lineal) m more s) :
    Unharmed (b.env lineal) s0 route ps speeds (es ++ more) s ∧ Advanced (k + workerSteps more) s := by
  unfold RunBefore at h
  induction h with
  | nil => simpa [workerSteps] using ⟨hm, hk⟩
  | @snoc es' _ _ e _ hs' hok ih =>
    obtain ⟨hi, hj⟩ := ih (fun e he => hr e (by simp [he]))
      (fun v hv => hset v (by unfold speedsSet at *; rw [List.filterMap_append]; exact List.mem_append_left _ hv))
      (fun p hp => hrep p (by unfold positionsReported at *; rw [List.filterMap_append]; exact List.mem_append_left _ hp))
    obtain ⟨j1, j2⟩ := unharmed_step b hA lineal hN s0 h0 hidle route hne hw ps speeds hpos _ e (hr e (by simp)).1 (hr e (by simp)).2 (by
      rintro p rfl
      exact hrep p (List.mem_filterMap.mpr ⟨.updateVehiclePosition p, by simp, rfl⟩)) (by
      rintro v rfl
      exact hset v (List.mem_filterMap.mpr ⟨.setSpeed v, by simp, rfl⟩)) _ _ hi hs' hok
    refine ⟨by rw [← List.append_assoc]; exact j1, ?_⟩
    have hw' : workerSteps (es' ++ [e]) = workerSteps es' + workerSteps [e] := by
      unfold workerSteps
      rw [List.countP_append]
    rw [hw', ← Nat.add_assoc]
    exact j2 _ hj

/-- C133: once a route was given in flight, and as soon as the last evaluation is outside the security zone, the computation of its plan can begin after six
phases of the worker, unless it has. -/
theorem C133_launched (after more : List (Event ℝ)) (hr : ∀ e ∈ after ++ .worker :: more, ¬ IsRequest e ∧ ValidEvent e)
    (hpos : ∀ v ∈ s0.getSpeed :: speedsSet (after ++ .worker :: more), b.aMax / 2 ^ 52 ≤ v ∧ Spaced route v) (m s : Planner ℝ)
    (h1 : RunBefore (b.env lineal) s0 (.setWaypoints route :: after) m) (hzone : ¬ InZone m) (h2 : RunBefore (b.env lineal) m (.worker :: more) s)
    (h5 : 5 ≤ workerSteps more) (hno : .asyncStart ∉ after ++ .worker :: more) : ∃ s', s.step (b.env lineal) .asyncStart = .ok (some s') := by
  have hsp : speedsSet (after ++ .worker :: more) = speedsSet after ++ speedsSet more := by
    unfold speedsSet
    simp
  have hu := unharmed_run b hA lineal hN s0 h0 hidle route hne hw after (fun e he => hr e (by simp [he])) (s0.getSpeed :: speedsSet (after ++ .worker :: more)) hpos
    (List.mem_cons_self ..) (fun v hv => by rw [hsp]; simp [hv]) (s0.vehicle :: positionsReported after ++ positionsReported more) (by simp)
    (fun p hp => by simp [hp]) m h1
  obtain ⟨m', k1, k2, k3⟩ := runWhile_cons _ _ _ _ _ _ h2
  obtain ⟨hu', _⟩ := unharmed_step b hA lineal hN s0 h0 hidle route hne hw _ _ hpos after .worker (by simp [IsRequest]) trivial (by simp) (by simp) m m' hu k1 k2
  have hadv : Advanced 1 m' := by
    intro hinv
    obtain ⟨_, _, j3, j4⟩ := inFlight_worker _ s0 route hne _ after m m' (reachable_ctl _ m hu.reachable) hu.rerouting hu.phase k1
    have hminv : m.future = .invalid := by
      by_contra hx
      exact hx ((j3 hx) ▸ hinv)
    obtain ⟨i1, i2⟩ := j4 hminv hinv (.inr (by
      cases hcz : m.checkInSecurityZone with
      | false => rfl
      | true => exact absurd ((zone_iff _ (C85_segmentwise b lineal) m hu.reachable).mp hcz) hzone))
    exact ⟨i1, by omega⟩
  obtain ⟨hus, has⟩ := advanced_run b hA lineal hN s0 h0 hidle route hne hw _ hpos _ (after ++ [.worker]) more (fun e he => hr e (by simp [he]))
    (fun v hv => by rw [hsp]; simp [hv]) (fun p hp => by simp [hp]) 1 m' s hu' hadv k3
  rw [List.append_assoc] at hus
  cases hus.phase with
  | waiting hf _ _ _ =>
    obtain ⟨_, hle⟩ := has hf
    have : phasesDone s.pc ≤ 5 := by cases s.pc <;> decide
    omega
  | launched hf _ _ =>
    refine ⟨{ s with future := .running s.params.speed }, ?_⟩
    show Except.ok s.asyncStart = _
    unfold Planner.asyncStart
    rw [hf]
  | running _ _ k _ => exact absurd k (by simpa using hno)
  | ready _ _ k _ => exact absurd k (by simpa using hno)

include hz

/-- C133: a planner at rest (nothing is being prepared or computed), whatever was requested and flown before, is given a route of new waypoints. Nothing else is
requested, but vehicle positions are reported, speeds set, references asked for, and worker and computation proceed, in any order. All speeds are positive (at
least the speed reached in `2⁻⁵²` seconds) and the waypoints are not closer than it takes `2⁻⁵²` seconds to fly. Until the plan is taken over: a call, a step of the
worker or of the computation fails if and only if it is the end of the computation and the plan is attached too close; once the computation has begun it can end,
unless it has or the plan is attached too close; once it has ended every call returns, `evaluateTrajectory` and `getDynamicWaypoints` with the new plan. -/
theorem C133_served_partial (after : List (Event ℝ)) (hr : ∀ e ∈ after, ¬ IsRequest e ∧ ValidEvent e)
    (hpos : ∀ v ∈ s0.getSpeed :: speedsSet after, b.aMax / 2 ^ 52 ≤ v ∧ Spaced route v) (s : Planner ℝ)
    (h : RunBefore (b.env lineal) s0 (.setWaypoints route :: after) s) :
    (∀ e, (∃ x, s.step (b.env lineal) e = .error x) ↔
      ∃ dt speed, e = .asyncFinish dt ∧ s.future = .running speed ∧ AttachedTooClose (b.env lineal) s0 route speed s.next) ∧
    (.asyncStart ∈ after → (∀ dt, .asyncFinish dt ∉ after) → ∃ speed ∈ s0.getSpeed :: speedsSet after, s.future = .running speed ∧
      (¬ AttachedTooClose (b.env lineal) s0 route speed s.next → ∀ dt, ∃ s', s.step (b.env lineal) (.asyncFinish dt) = .ok (some s'))) ∧
    ((∃ dt, .asyncFinish dt ∈ after) →
      (∀ t o f, ∃ r s', s.evaluateTrajectory (b.env lineal) t o f = .ok (some (r, s')) ∧ TakesOver s s') ∧
      (∃ ws s', s.getDynamicWaypoints (b.env lineal) = .ok (some (ws, s')) ∧ TakesOver s s') ∧
      (∃ r, s.getMaxTime (b.env lineal) = .ok (some r)) ∧ ∃ r, s.getMinTime (b.env lineal) = .ok (some r)) := by
  have henv := C85_segmentwise b lineal
  obtain ⟨hre, hon, hph, hsp, hbeg⟩ := unharmed_run b hA lineal hN s0 h0 hidle route hne hw after hr _ hpos (List.mem_cons_self ..) (fun v hv => List.mem_cons_of_mem _ hv)
    (s0.vehicle :: positionsReported after) (List.mem_cons_self ..) (fun p hp => List.mem_cons_of_mem _ hp) s h
  have hc := reachable_ctl _ s hre
  have hdyn : NoZeroWidth s.dyn := by rw [hon.same.dyn]; exact hz
  have hnext : PlanWaiting s → NoZeroWidth s.next := by
    intro hwt
    have hcomp : s.computing ≠ false := fun hh => by
      rcases hwt with hx | ⟨tr, hx⟩ <;> rw [hc.idle hh] at hx <;> cases hx
    cases hon.early with
    | queued _ k _ => exact absurd k hcomp
    | collected k _ _ => exact absurd k hcomp
    | planned _ k =>
      obtain ⟨_, _, _, _, k, _⟩ := k
      intro w hx m hm
      rw [k w hx] at hm
      cases hm
  have hnf : s.future ≠ .failed := by
    intro hx
    cases hph with
    | waiting k => rw [k] at hx; cases hx
    | launched k => rw [k] at hx; cases hx
    | running _ k => rw [k] at hx; cases hx
    | ready _ k => rw [k] at hx; cases hx
  have hcompute := fun sp (hf : s.future = .running sp) dt => flight_computes b hA lineal hN s0 h0 hidle route hne hw _ s hre hon sp hf (hpos sp (hbeg sp hf)) dt
  have hfail : ∀ e, (∃ x, s.step (b.env lineal) e = .error x) ↔
      ∃ dt speed, e = .asyncFinish dt ∧ s.future = .running speed ∧ AttachedTooClose (b.env lineal) s0 route speed s.next := by
    intro e
    constructor
    · rintro ⟨x, hx⟩
      obtain ⟨dt, sp, vs, rfl, hf, _, _⟩ := C128_defined _ henv s hre hdyn hnext hnf e x hx
      refine ⟨dt, sp, rfl, hf, ?_⟩
      by_contra hcl
      obtain ⟨s', tr, k, _⟩ := (hcompute sp hf dt).1 hcl
      rw [k] at hx
      cases hx
    · rintro ⟨dt, sp, rfl, hf, hcl⟩
      exact (hcompute sp hf dt).2 hcl
  refine ⟨hfail, ?_, ?_⟩
  · intro hs hno
    cases hph with
    | waiting _ k _ _ => exact absurd hs k
    | launched _ k _ => exact absurd hs k
    | running sp k _ _ =>
      refine ⟨sp, hbeg sp k, k, fun hcl dt => ?_⟩
      obtain ⟨s', _, k, _⟩ := (hcompute sp k dt).1 hcl
      exact ⟨s', k⟩
    | ready _ _ _ k => obtain ⟨dt, k⟩ := k; exact absurd k (hno dt)
  · rintro ⟨dt, hd⟩
    obtain ⟨tr, hf⟩ : ∃ tr, s.future = .ready tr := by
      cases hph with
      | waiting _ _ k _ => exact absurd hd (k dt)
      | launched _ _ k => exact absurd hd (k dt)
      | running _ _ _ k => exact absurd hd (k dt)
      | ready tr k _ _ => exact ⟨tr, k⟩
    have hcomp : s.computing = true := by
      by_contra hh
      rw [hc.idle (by simpa using hh)] at hf
      cases hf
    have hok : ∀ e x, (∀ dt, e ≠ .asyncFinish dt) → s.step (b.env lineal) e ≠ .error x := by
      intro e x he hx
      obtain ⟨dt, _, k, _⟩ := (hfail e).mp ⟨x, hx⟩
      exact he dt k
    have hblock := fun t o f => C61_does_not_block (b.env lineal) s (.inr (.inr ⟨tr, hf⟩)) t o f
    refine ⟨fun t o f => ?_, ?_, ?_, ?_⟩
    · cases hx : s.evaluateTrajectory (b.env lineal) t o f with
      | error x => exact absurd (by show Except.bind _ _ = _; rw [hx]; rfl) (hok (.evaluate t o f) x (by simp))
      | ok r =>
        cases r with
        | none => exact absurd hx (hblock t o f).1
        | some r =>
          refine ⟨r.1, r.2, rfl, hcomp, ?_⟩
          unfold Planner.evaluateTrajectory at hx
          simp only [bind, Except.bind] at hx
          cases hch : s.checkTrajectoryGenerated (b.env lineal) with
          | error x => rw [hch] at hx; cases hx
          | ok o' =>
            rw [hch] at hx
            cases o' with
            | none => cases hx
            | some s1 =>
              simp only at hx
              have h1 := ready_takes _ s s1 hcomp tr hf hch
              unfold Planner.evaluateNow at hx
              split at hx
              · cases hx
              · rename_i q hq
                split at hq
                · cases hq
                · simp only [bind, Except.bind] at hq
                  split at hq
                  · cases hq
                  · cases hq
                    cases hx
                    split
                    · exact h1
                    · exact h1
    · cases hx : s.getDynamicWaypoints (b.env lineal) with
      | error x => exact absurd (by show Except.bind _ _ = _; rw [hx]; rfl) (hok .getDynamicWaypoints x (by simp))
      | ok r =>
        cases r with
        | none => exact absurd hx (hblock 0 true true).2.2.2
        | some r => exact ⟨r.1, r.2, rfl, hcomp, ready_takes _ s r.2 hcomp tr hf (getDynamicWaypoints_inv _ s r.2 r.1 hx).1⟩
    · cases hx : s.getMaxTime (b.env lineal) with
      | error x => exact absurd (by show Except.bind _ _ = _; rw [hx]; rfl) (hok .getMaxTime x (by simp))
      | ok r =>
        cases r with
        | none => exact absurd hx (hblock 0 true true).2.1
        | some r => exact ⟨r, rfl⟩
    · cases hx : s.getMinTime (b.env lineal) with
      | error x => exact absurd (by show Except.bind _ _ = _; rw [hx]; rfl) (hok .getMinTime x (by simp))
      | ok r =>
        cases r with
        | none => exact absurd hx (hblock 0 true true).2.2.1
        | some r => exact ⟨r, rfl⟩

/-- C133: and from the call that takes the plan over nothing fails at all. -/
theorem C133_flown (after more : List (Event ℝ)) (e : Event ℝ) (hr : ∀ x ∈ after ++ e :: more, ¬ IsRequest x ∧ ValidEvent x)
    (hpos : ∀ v ∈ s0.getSpeed :: speedsSet after, b.aMax / 2 ^ 52 ≤ v ∧ Spaced route v) (s1 s2 s : Planner ℝ)
    (h1 : RunBefore (b.env lineal) s0 (.setWaypoints route :: after) s1) (h2 : s1.step (b.env lineal) e = .ok (some s2)) (ht : TakesOver s1 s2)
    (h3 : Run (b.env lineal) s2 more s) (e' : Event ℝ) (x : Fail) : s.step (b.env lineal) e' ≠ .error x := by
  have henv := C85_segmentwise b lineal
  have hc0 := reachable_ctl _ s0 h0
  have hs0 : ¬ PlanWaiting s0 := by
    rintro (h | ⟨tr, h⟩) <;> rw [hc0.idle hidle.2] at h <;> cases h
  obtain ⟨hre, hon, _, _, _⟩ := unharmed_run b hA lineal hN s0 h0 hidle route hne hw after (fun e he => hr e (by simp [he])) _ hpos (List.mem_cons_self ..)
    (fun v hv => List.mem_cons_of_mem _ hv) (s0.vehicle :: positionsReported after) (List.mem_cons_self ..) (fun p hp => List.mem_cons_of_mem _ hp) s1 h1
  have c1 := reachable_ctl _ s1 hre
  have hv : ∀ p, e = .updateVehiclePosition p → p ∈ s0.vehicle :: positionsReported after := by
    rintro p rfl
    exfalso
    rw [← Option.some.inj (Except.ok.inj h2)] at ht
    have h4 := ht.1
    have h5 : s1.computing = false := ht.2
    rw [h5] at h4
    cases h4
  obtain ⟨f2, cr⟩ : Flying s2.traj s2.dyn s2 ∧ ContinuesRoute (b.env lineal) s0 route (s0.vehicle :: positionsReported after) s2.dyn := by
    rcases rerouting_step _ s0 hs0 route hne (fun w hx => (hw w hx).2) _ e s1 s2 (hr e (by simp)).1 hv c1 hon h2 with ⟨_, k⟩ | ⟨_, k1, k2⟩
    · exact absurd ht k
    · exact ⟨k1, k2⟩
  have hre2 := reachableBy_step ValidEvent _ s1 s2 e hre (hr e (by simp)).2 h2
  obtain ⟨hre3, f3⟩ : Reachable (b.env lineal) s ∧ Flying s2.traj s2.dyn s := by
    refine run_induction _ s2 (fun es s' => (∀ e ∈ es, ¬ IsRequest e ∧ ValidEvent e) → Reachable (b.env lineal) s' ∧ Flying s2.traj s2.dyn s') (fun _ => ⟨hre2, f2⟩) ?_
      more s h3 (fun e he => hr e (by simp [he]))
    intro es e m m' ih hs hes
    obtain ⟨r, u⟩ := ih (fun e he => hes e (List.mem_append_left _ he))
    obtain ⟨hmem, hval⟩ := hes e (by simp)
    have c := reachable_ctl _ m r
    refine ⟨reachableBy_step ValidEvent _ m m' e r hval hs, ?_⟩
    rcases step_micro _ e m m' hs with rfl | h | ⟨n, h1, h2⟩
    · exact u
    · exact flying_micro _ _ _ e m m' hmem c u h
    · exact flying_micro _ _ _ e n m' hmem (ctl_micro _ e m n c h1) (flying_micro _ _ _ e m n hmem c u h1) h2
  have c3 := reachable_ctl _ s hre3
  have hf := c3.idle f3.flags.1
  intro hx
  obtain ⟨_, sp, _, _, k, _⟩ := C128_defined _ henv s hre3 (by
    rw [f3.dyn]
    obtain ⟨_, _, _, _, k, _⟩ := cr
    intro w hx m hm
    rw [k w hx] at hm
    cases hm) (by
      rintro (h | ⟨tr, h⟩) <;> rw [hf] at h <;> cases h) (by rw [hf]; simp) e' x hx
  rw [hf] at k
  cases k

end

section
variable {K : Type*} [Field K] [LinearOrder K] [IsStrictOrderedRing K] [FloorRing K]

theorem stitchPoint_plain (env : Env K) (s : Planner K) (traj : Trajectory K) (l : K) (w : Waypoint K) (h : s.stitchPoint env traj l false = .ok w) :
    w.vertex.getConstraint 1 = none := by
  unfold Planner.stitchPoint at h
  simp only [bind, Except.bind] at h
  split at h
  · cases h
  · rename_i r hr
    split at h
    · cases h
    · rename_i v0 hv0
      obtain ⟨_, _, a3⟩ := addConstraint_bookkept _ _ _ _ rfl (wellFormed_mk' 3) hv0
      simp only [Bool.false_eq_true, if_false, pure, Except.pure] at h
      have hw : w.vertex = v0 := by
        unfold Waypoint.ofVertex at h
        rw [a3 0, if_pos rfl] at h
        simp [bind, Except.bind, at?, V3.toList] at h
        rw [← Except.ok.inj h]
      rw [hw, a3 1, if_neg (by norm_num)]
      rfl

/-- Six phases of the worker, then the computation begins. -/
def launchEvents : List (Event K) := [.worker, .worker, .worker, .worker, .worker, .worker, .asyncStart]

/-- The planner after three phases of the worker: the route was collected, the parameters copied. -/
def snapshotted (s0 : Planner K) (route : List (Waypoint K)) : Planner K :=
  { s0.setWaypoints route with
    toSet := [], toAdd := [], toModify := [], next := (route.map (·.copy)).map (·.copy), newParams := { s0.params with gtlg := s0.params.lastGlobal },
    pc := .snapshotted }

/-- From an idle planner outside the security zone a computation gets under way. -/
theorem launch_run (env : Env K) (henv : Segmentwise env) (s0 : Planner K) (h0 : Reachable env s0) (hidle : s0.pc = .top ∧ s0.computing = false)
    (hzone : ¬ InZone s0) (route : List (Waypoint K)) (hne : route ≠ []) (scratch : Bool) (r : List (Waypoint K))
    (hstep : (snapshotted s0 route).workerStep env = .ok { snapshotted s0 route with fromScratch := scratch, next := r, pc := .planned }) :
    ∃ s1, RunBefore env s0 (.setWaypoints route :: launchEvents) s1 ∧ s1.future = .running s0.getSpeed ∧ s1.next = r ∧ s1.timeConstant = s0.timeConstant := by
  let n1 : Planner K := s0.setWaypoints route
  let n2 : Planner K := { n1 with pc := .collect }
  let ws : List (Waypoint K) := (route.map (·.copy)).map (·.copy)
  let n3 : Planner K := { n2 with toSet := [], toAdd := [], toModify := [], next := ws, pc := .collected }
  let n4 : Planner K := { n3 with newParams := { n3.params with gtlg := n3.params.lastGlobal }, pc := .snapshotted }
  let n5 : Planner K := { n4 with fromScratch := scratch, next := r, pc := .planned }
  let n6 : Planner K := { n5 with computing := true, pc := .launching }
  let n7 : Planner K := { n6 with future := .launched, pc := .launched }
  let n8 : Planner K := { n7 with future := .running n7.params.speed }
  have k1 : s0.step env (.setWaypoints route) = .ok (some n1) := rfl
  have hsec : s0.checkInSecurityZone = false := by
    cases hcz : s0.checkInSecurityZone with
    | false => rfl
    | true => exact absurd ((zone_iff env henv s0 h0).mp hcz) hzone
  have k2 : n1.step env .worker = .ok (some n2) := by
    have hw : n1.workerStep env = .ok n2 := by
      unfold Planner.workerStep
      rw [show n1.pc = .top from hidle.1]
      simp only
      rw [if_pos]
      have h1 : n1.generateNew = true := rfl
      have h2 : n1.checkIfTrajectoryCanBeGenerated = true := by
        unfold Planner.checkIfTrajectoryCanBeGenerated
        rw [show n1.checkInSecurityZone = s0.checkInSecurityZone from rfl, hsec, show n1.computing = s0.computing from rfl, hidle.2]
        rfl
      rw [h1, h2]
      rfl
    show Except.bind _ _ = _
    rw [hw]
    rfl
  have k3 : n2.step env .worker = .ok (some n3) := by
    have hw : n2.workerStep env = .ok n3 := by
      unfold Planner.workerStep
      simp only [show n2.pc = .collect from rfl]
      have hg : n2.generateWaypoints = .ok (ws, { n2 with toSet := [], toAdd := [], toModify := [] }) := by
        unfold Planner.generateWaypoints
        have hl : n2.toSet.length ≠ 0 := by
          show (route.map (·.copy)).length ≠ 0
          rw [List.length_map]
          exact fun h => hne (List.length_eq_zero_iff.mp h)
        rw [if_neg hl]
        simp only [pure, Except.pure, bind, Except.bind]
        rw [show n2.toAdd = [] from rfl, show n2.toModify = [] from rfl, List.map_nil, List.append_nil]
        rfl
      rw [hg]
      rfl
    show Except.bind _ _ = _
    rw [hw]
    rfl
  have k4 : n3.step env .worker = .ok (some n4) := by
    have hw : n3.workerStep env = .ok n4 := by
      unfold Planner.workerStep
      simp only [show n3.pc = .collected from rfl]
      rw [if_neg]
      show ((route.map (·.copy)).map (·.copy)).length ≠ 0
      rw [List.length_map, List.length_map]
      exact fun h => hne (List.length_eq_zero_iff.mp h)
    show Except.bind _ _ = _
    rw [hw]
    rfl
  have k5 : n4.step env .worker = .ok (some n5) := by
    show Except.bind _ _ = _
    rw [show n4.workerStep env = .ok n5 from hstep]
    rfl
  have k6 : n5.step env .worker = .ok (some n6) := rfl
  have k7 : n6.step env .worker = .ok (some n7) := rfl
  have k8 : n7.step env .asyncStart = .ok (some n8) := rfl
  have hno : ∀ a b : Planner K, a.computing = false → ¬ TakesOver a b := fun a b h1 h2 => by have := h2.1; rw [h1] at this; cases this
  have hno' : ∀ a b : Planner K, b.computing = true → ¬ TakesOver a b := fun a b h1 h2 => by have := h2.2; rw [h1] at this; cases this
  refine ⟨n8, ?_, rfl, rfl, rfl⟩
  have hidle' := hidle.2
  have r1 : RunBefore env s0 [.setWaypoints route] n1 := .snoc (es := []) _ .nil k1 (hno _ _ hidle')
  have r2 : RunBefore env s0 ([.setWaypoints route] ++ [.worker]) n2 := .snoc _ r1 k2 (hno _ _ hidle')
  have r3 : RunBefore env s0 ([.setWaypoints route] ++ [.worker] ++ [.worker]) n3 := .snoc _ r2 k3 (hno _ _ hidle')
  have r4 : RunBefore env s0 ([.setWaypoints route] ++ [.worker] ++ [.worker] ++ [.worker]) n4 := .snoc _ r3 k4 (hno _ _ hidle')
  have r5 : RunBefore env s0 ([.setWaypoints route] ++ [.worker] ++ [.worker] ++ [.worker] ++ [.worker]) n5 := .snoc _ r4 k5 (hno _ _ hidle')
  have r6 : RunBefore env s0 ([.setWaypoints route] ++ [.worker] ++ [.worker] ++ [.worker] ++ [.worker] ++ [.worker]) n6 := .snoc _ r5 k6 (hno _ _ hidle')
  have r7 : RunBefore env s0 ([.setWaypoints route] ++ [.worker] ++ [.worker] ++ [.worker] ++ [.worker] ++ [.worker] ++ [.worker]) n7 := .snoc _ r6 k7 (hno' _ _ rfl)
  have r8 : RunBefore env s0 ([.setWaypoints route] ++ [.worker] ++ [.worker] ++ [.worker] ++ [.worker] ++ [.worker] ++ [.worker] ++ [.asyncStart]) n8 :=
    .snoc _ r7 k8 (hno' _ _ rfl)
  exact r8

/-- With enough of the plan left, the route is attached to it: to the points at the time compensation after the last evaluation, and ten time constants later. -/
theorem attach_run (env : Env K) (henv : Segmentwise env) (s0 : Planner K) (h0 : Reachable env s0) (hidle : s0.pc = .top ∧ s0.computing = false)
    (hz : NoZeroWidth s0.dyn) (tr : Trajectory K) (htr : s0.traj = some tr) (hzone : ¬ InZone s0)
    (hleft : s0.params.lastGlobal + 4 * s0.timeConstant ≤ tr.maxTime + s0.params.gtlg) (route : List (Waypoint K)) (hne : route ≠ []) :
    ∃ s1 w0 w1 rest, RunBefore env s0 (.setWaypoints route :: launchEvents) s1 ∧ s1.future = .running s0.getSpeed ∧ s1.next = w0 :: w1 :: rest ∧
      s0.stitchPoint env tr (s0.params.lastLocal + s0.params.tOffset) true = .ok w0 ∧
      s0.stitchPoint env tr (s0.params.lastLocal + s0.params.tOffset + 10 * s0.timeConstant) false = .ok w1 := by
  have hp := reachable_plan env henv s0 h0
  obtain ⟨r, hr⟩ := stitch_total env (snapshotted s0 route) tr htr (traj_usable env henv s0 hp tr htr) hz (snapshotted s0 route).next
  obtain ⟨s1, k1, k2, k3, _⟩ := launch_run env henv s0 h0 hidle hzone route hne false r (by
    unfold Planner.workerStep
    simp only [show (snapshotted s0 route).pc = .snapshotted from rfl]
    rw [if_pos]
    · show Except.bind ((snapshotted s0 route).stitch env (snapshotted s0 route).next) _ = _
      rw [hr]
      rfl
    · unfold Planner.checkStitchTrajectory
      rw [show (snapshotted s0 route).traj = some tr from htr]
      simp only [Bool.not_eq_true', decide_eq_false_iff_not, not_lt]
      show 2 * s0.computationTime ≤ tr.maxTime + s0.params.gtlg - s0.params.lastGlobal
      unfold Planner.computationTime
      linarith)
  obtain ⟨tr', w0, w1, htr', g0, g1, hform⟩ := stitch_form env (snapshotted s0 route) _ r hr
  obtain rfl : tr = tr' := Option.some.inj (htr.symm.trans htr')
  refine ⟨s1, w0, w1, _, k1, k2, k3.trans hform, g0, ?_⟩
  have : 5 * (snapshotted s0 route).computationTime = 10 * s0.timeConstant := by
    show 5 * (2 * s0.timeConstant) = _
    ring
  rw [this] at g1
  exact g1

/-- With too little of the plan left, the new plan begins where the vehicle was last reported. -/
theorem detach_run (env : Env K) (henv : Segmentwise env) (s0 : Planner K) (h0 : Reachable env s0) (hidle : s0.pc = .top ∧ s0.computing = false)
    (tr : Trajectory K) (htr : s0.traj = some tr) (hzone : ¬ InZone s0)
    (hleft : tr.maxTime + s0.params.gtlg < s0.params.lastGlobal + 4 * s0.timeConstant) (route : List (Waypoint K)) (hne : route ≠ []) :
    ∃ s1 w0 rest, RunBefore env s0 (.setWaypoints route :: launchEvents) s1 ∧ s1.future = .running s0.getSpeed ∧ s1.next = w0 :: rest ∧ w0.name = "" := by
  obtain ⟨r, hr⟩ := appendDrone_total (snapshotted s0 route) (snapshotted s0 route).next
  obtain ⟨s1, k1, k2, k3, _⟩ := launch_run env henv s0 h0 hidle hzone route hne true r (by
    unfold Planner.workerStep
    simp only [show (snapshotted s0 route).pc = .snapshotted from rfl]
    rw [if_neg]
    · show Except.bind ((snapshotted s0 route).appendDronePosition (snapshotted s0 route).next) _ = _
      rw [hr]
      rfl
    · unfold Planner.checkStitchTrajectory
      rw [show (snapshotted s0 route).traj = some tr from htr]
      simp only [Bool.not_eq_true', decide_eq_false_iff_not, not_lt]
      show ¬ 2 * s0.computationTime ≤ tr.maxTime + s0.params.gtlg - s0.params.lastGlobal
      unfold Planner.computationTime
      linarith)
  obtain ⟨w0, hw, _, _, hn, _⟩ := appendDrone_spec _ _ r hr
  exact ⟨s1, w0, _, k1, k2, k3.trans hw, hn⟩

end

theorem runWhile_snoc_inv {K : Type*} [Field K] [LinearOrder K] [IsStrictOrderedRing K] [FloorRing K] (ok : Planner K → Event K → Planner K → Prop) (env : Env K)
    (s : Planner K) (es : List (Event K)) (e : Event K) (s' : Planner K) (h : RunWhile ok env s (es ++ [e]) s') : ∃ m, RunWhile ok env s es m := by
  generalize hes : es ++ [e] = es' at h
  cases h with
  | nil => simp at hes
  | snoc e' h1 _ _ =>
    obtain ⟨rfl, _⟩ := List.append_inj' hes rfl
    exact ⟨_, h1⟩

/-- C133: how a plan gets attached too close, whatever was requested and flown before. The last evaluation was for a time so near to the end of the plan that the
second point at which the new plan is attached would lie behind it, but the security zone, which leaves the time compensation out, is not entered. Then a route
that begins where the old plan ends, without prescribing a velocity there, brings the program down: the computation begins as usual, and its end fails. -/
theorem C133_window (b : OptBackend) (hA : 0 < b.aMax) (lineal : Bool) (hN : lineal = false → NloptKeepsBounds b) (s : Planner ℝ)
    (h : ReachableBy FreshEvent (b.env lineal) s) (hidle : s.pc = .top ∧ s.computing = false) (hne : s.traj ≠ none) (hm : ∀ w ∈ s.dyn, w.modifiers = [])
    (T : ℝ) (hT : s.getMaxTime (b.env lineal) = .ok (some (T, s))) (t : ℝ) (o : Bool)
    (hzone : ∀ w ∈ s.dyn, w.name ≠ "" → w.time ≤ t ∨ t + 10 * s.timeConstant < w.time) (hleft : t + 4 * s.timeConstant ≤ T)
    (hwin : T ≤ t + s.getTimeCompensation + 10 * s.timeConstant) (last : Waypoint ℝ) (hlast : s.dyn.getLast? = some last)
    (u v : Waypoint ℝ) (rest : List (Waypoint ℝ)) (hw : ∀ w ∈ u :: v :: rest, Bookkept w ∧ w.modifiers = [] ∧ w.time = 0)
    (hsp : b.aMax / 2 ^ 52 ≤ s.getSpeed ∧ Spaced (u :: v :: rest) s.getSpeed) (hu : u.current = last.current) (hu1 : u.vertex.getConstraint 1 = none) :
    ∃ r s0 s1, s.evaluateTrajectory (b.env lineal) t o false = .ok (some (r, s0)) ∧ (s0.pc = .top ∧ s0.computing = false) ∧ s0.dyn = s.dyn ∧
      s0.getSpeed = s.getSpeed ∧ RunBefore (b.env lineal) s0 (.setWaypoints (u :: v :: rest) :: launchEvents) s1 ∧
      ∀ dt, ∃ x, s1.step (b.env lineal) (.asyncFinish dt) = .error x := by
  have henv := C85_segmentwise b lineal
  have hre := reachable_of_fresh h
  have hc := reachable_ctl _ s hre
  have hfut := hc.idle hidle.2
  have hwait : ¬ PlanWaiting s := by
    rintro (h | ⟨tr, h⟩) <;> rw [hfut] at h <;> cases h
  have hz : NoZeroWidth s.dyn := by
    intro w hx m hmem
    rw [hm w hx] at hmem
    cases hmem
  obtain ⟨r, s0, hev⟩ := C40_returns _ henv s hre _ (Option.some_get (Option.isSome_iff_ne_none.mpr hne)).symm hwait hz t o false
  cases htr : s.traj with
  | none => exact absurd htr hne
  | some tr =>
    have hs0 : s0 = { s with params := { s.params with lastGlobal := t, lastLocal := t - s.params.gtlg } } := by
      have hev' := hev
      unfold Planner.evaluateTrajectory at hev'
      rw [check_idle _ s hwait hne] at hev'
      simp only [bind, Except.bind] at hev'
      rw [evaluateNow_eq _ s tr htr] at hev'
      split at hev'
      · cases hev'
      · rename_i q hq
        split at hq
        · cases hq
        · cases hq
          have := Option.some.inj (Except.ok.inj hev')
          exact (congrArg Prod.snd this).symm
    have hTe : T = tr.maxTime + s.params.gtlg := by
      unfold Planner.getMaxTime Planner.ensureTrajectory at hT
      simp only [htr, bind, Except.bind] at hT
      simp only [Option.isSome_some, if_true] at hT
      rw [htr] at hT
      exact (congrArg Prod.fst (Option.some.inj (Except.ok.inj hT))).symm
    have hre0 : Reachable (b.env lineal) s0 := reachableBy_step ValidEvent _ s s0 (.evaluate t o false) hre trivial (by
      show Except.bind _ _ = _
      rw [hev]
      rfl)
    obtain ⟨s1, w0, w1, more, k1, k2, k3, k4, k5⟩ := attach_run _ henv s0 hre0 (by rw [hs0]; exact hidle) (by rw [hs0]; exact hz) tr (by rw [hs0]; exact htr) (by
      rw [hs0]
      rintro ⟨_, w, hx, hn, h1, h2⟩
      rcases hzone w hx hn with k | k
      · exact absurd h1 (not_lt.mpr k)
      · exact absurd h2 (not_le.mpr k)) (by
      rw [hs0]
      show t + 4 * s.timeConstant ≤ tr.maxTime + s.params.gtlg
      rw [← hTe]
      exact hleft) (u :: v :: rest) (by simp)
    refine ⟨r, s0, s1, hev, by rw [hs0]; exact hidle, by rw [hs0], by rw [hs0]; rfl, k1, fun dt => ?_⟩
    have hspeed : s0.getSpeed = s.getSpeed := by rw [hs0]; rfl
    have hidle0 : s0.pc = .top ∧ s0.computing = false := by rw [hs0]; exact hidle
    have hset : speedsSet (launchEvents : List (Event ℝ)) = [] := rfl
    refine ((C133_served_partial b hA lineal hN s0 hre0 hidle0 (by rw [hs0]; exact hz) (u :: v :: rest) (by simp) hw launchEvents (by simp [launchEvents, IsRequest, ValidEvent])
      (by rw [hset, hspeed]; simpa using hsp) s1 k1).1 (.asyncFinish dt)).mpr ⟨dt, s.getSpeed, rfl, by rw [k2, hspeed], ?_⟩
    have hs0w : ¬ PlanWaiting s0 := by
      rintro (h | ⟨tr, h⟩) <;> rw [hs0] at h
      · have h : s.future = .failed := h
        rw [hfut] at h; cases h
      · have h : s.future = .ready tr := h
        rw [hfut] at h; cases h
    have htr0 : s0.traj = some tr := by rw [hs0]; exact htr
    obtain ⟨_, a2, a3⟩ := stitch_points _ s0 s0 hs0w ⟨rfl, rfl, rfl, rfl⟩ tr htr0 _ _ w0 k4
    obtain ⟨_, b2, b3⟩ := stitch_points _ s0 s0 hs0w ⟨rfl, rfl, rfl, rfl⟩ tr htr0 _ _ w1 k5
    refine ⟨w0, w1, more, k3, a2, b2, a3, b3, .inr ⟨u, v, rest, rfl, ?_, ?_, ?_⟩⟩
    · rintro ⟨x, hx, _⟩
      rw [stitchPoint_plain _ _ _ _ w1 k5] at hx
      cases hx
    · rintro ⟨x, hx, _⟩
      rw [hu1] at hx
      cases hx
    · -- the second point is where the plan ends
      have hpos1 : w1.current = last.current := by
        obtain ⟨q, hq, _, _, _, hcur, _⟩ := stitchPoint_spec _ s0 tr _ _ w1 k5
        obtain ⟨_, _, hfl⟩ := C129_flown _ henv (C85_meets_vertices b lineal) s h hne hwait hm
        have hlt : last.time = T := by
          have hws : s.getDynamicWaypoints (b.env lineal) = .ok (some (s.dyn.map (·.copy), s)) := by
            unfold Planner.getDynamicWaypoints
            rw [check_idle _ s hwait hne]
            rfl
          obtain ⟨_, c, _, hb, _, _, _, _, hl⟩ := C54_times _ henv s hre _ s hws
          rw [hT] at hb
          have hTc : T = c := congrArg Prod.fst (Option.some.inj (Except.ok.inj hb))
          rw [hTc]
          exact hl last.copy (by rw [List.getLast?_map, hlast]; rfl)
        obtain ⟨q', s'', he, hp', _, _⟩ := hfl last (t + 10 * s.timeConstant) hlast (by rw [hlt]; linarith) true
        rw [hcur, ← hp']
        unfold Planner.evaluateTrajectory at he
        rw [check_idle _ s hwait hne] at he
        simp only [bind, Except.bind] at he
        rw [evaluateNow_eq _ s tr htr] at he
        have hsame : s.getReferences (b.env lineal) tr (t + 10 * s.timeConstant + s.params.tOffset) (t + 10 * s.timeConstant - s.params.gtlg + s.params.tOffset) false = .ok q := by
          rw [← hq, hs0]
          show _ = s.getReferences (b.env lineal) tr (t - s.params.gtlg + s.params.tOffset + 10 * s.timeConstant + s.params.gtlg)
            (t - s.params.gtlg + s.params.tOffset + 10 * s.timeConstant) false
          congr 1 <;> ring
        rw [hsame] at he
        have := Option.some.inj (Except.ok.inj he)
        have hqq : q = q' := congrArg Prod.fst this
        rw [hqq]
      rw [hpos1, ← hu]
      have h52 : (0 : ℝ) < 2 ^ 52 := by positivity
      have : 0 < s.getSpeed := lt_of_lt_of_le (div_pos hA h52) hsp.1
      simp
      positivity

/-- The full property: a route given to a planner at rest is planned, and nothing fails on the way. -/
def C133Full : Prop :=
  ∀ (b : OptBackend), 0 < b.aMax → ∀ lineal : Bool, (lineal = false → NloptKeepsBounds b) → ∀ s0 : Planner ℝ, Reachable (b.env lineal) s0 →
    s0.pc = .top ∧ s0.computing = false → NoZeroWidth s0.dyn → ∀ route : List (Waypoint ℝ), route ≠ [] →
    (∀ w ∈ route, Bookkept w ∧ w.modifiers = [] ∧ w.time = 0) → ∀ after : List (Event ℝ), (∀ e ∈ after, ¬ IsRequest e ∧ ValidEvent e) →
    (∀ v ∈ s0.getSpeed :: speedsSet after, b.aMax / 2 ^ 52 ≤ v ∧ Spaced route v) → ∀ s : Planner ℝ,
    RunBefore (b.env lineal) s0 (.setWaypoints route :: after) s → ∀ e x, s.step (b.env lineal) e ≠ .error x

/-- The speed is set, a waypoint is given, the worker launches the computation, and it begins. -/
theorem first_launch (env : Env ℝ) : ∃ s, Run env (Planner.init ⟨0, 0, 0⟩) ([.setSpeed 1] ++ .setWaypoints [realWp "a" 1 2 3] ::
    [.worker, .worker, .worker, .worker, .worker, .worker, .worker, .asyncStart]) s ∧ s.future = .running 1 ∧ s.pc = .top ∧ s.getSpeed = 1 ∧
    s.newParams.speed = 1 ∧ s.newParams.gtlg = 0 ∧ s.params.lastGlobal = 0 ∧
    s.next.map (fun w => (w.name, w.modifiers.length, w.current)) = [("", 0, ⟨0, 0, 0⟩), ("a", 0, ⟨1, 2, 3⟩)] := by
  have h := (Run.snoc _ (.snoc _ (.snoc _ (.snoc _ (.snoc _ (.snoc _ (.snoc _ (.snoc _ (.snoc _ (.snoc (es := []) _ .nil rfl) rfl) rfl) rfl) rfl) rfl) rfl) rfl) rfl) rfl :
    Run env (Planner.init ⟨0, 0, 0⟩) ([] ++ [.setSpeed 1] ++ [.setWaypoints [realWp "a" 1 2 3]] ++ [.worker] ++ [.worker] ++ [.worker] ++ [.worker] ++ [.worker] ++
      [.worker] ++ [.worker] ++ [.asyncStart]) _)
  exact ⟨_, h, rfl, rfl, rfl, rfl, rfl, rfl, rfl⟩

/-- The first plan is taken over, after a computation of a hundredth of a second. -/
theorem first_flight (lineal : Bool) : ∃ (s : Planner ℝ) (w0 last : Waypoint ℝ) (T : ℝ), ReachableBy FreshEvent (idleBackend.env lineal) s ∧
    s.pc = .top ∧ s.computing = false ∧ s.traj ≠ none ∧ s.dyn = [w0, last] ∧ w0.name = "" ∧ w0.modifiers = [] ∧ last.modifiers = [] ∧
    last.current = ⟨1, 2, 3⟩ ∧ s.getMaxTime (idleBackend.env lineal) = .ok (some (T, s)) ∧ last.time = T ∧ s.timeConstant = 1 / 100 ∧ s.getSpeed = 1 ∧
    1 / 10 ≤ s.getTimeCompensation := by
  have henv := C85_segmentwise idleBackend lineal
  obtain ⟨s7, h7, hf, hpc, _, hnsp, hng, hlg, hnext⟩ := first_launch (idleBackend.env lineal)
  have hw : ∀ w ∈ [realWp "a" 1 2 3], Bookkept w ∧ w.modifiers = [] := by
    intro w hw
    rw [List.mem_singleton.mp hw]
    exact ⟨realWp_bookkept .., rfl⟩
  have hspaced : ∀ v, Spaced [realWp "a" 1 2 3] v := by
    intro v i u w _ h
    simp at h
  have hone : ((2 : ℝ) ^ 52)⁻¹ ≤ 1 := by norm_num
  have served := fun after hr hpos s h => C128_served idleBackend one_pos lineal (fun _ => idle_keepsBounds) ⟨0, 0, 0⟩ [.setSpeed 1]
    [realWp "a" 1 2 3] (by simp) hw (by simp [speedsSet]) after hr hpos s h
  obtain ⟨s8, h8⟩ := (served _ (by simp [IsRequest, ValidEvent]) (by simp [speedsSet, hspaced, idleBackend, hone]) s7 h7).2.2.1 (by simp) (by simp) (1 / 100)
  have r8 := Run.snoc _ h7 h8
  rw [List.append_assoc, List.cons_append] at r8
  obtain ⟨⟨ws, s9⟩, h9⟩ := ((served _ (by simp [IsRequest, ValidEvent]) (by simp [speedsSet, hspaced, idleBackend, hone]) s8 r8).2.2.2 ⟨1 / 100, by simp⟩).2.2.2
  have hfresh : ∀ e ∈ ([.setSpeed 1] ++ .setWaypoints [realWp "a" 1 2 3] ::
      ([.worker, .worker, .worker, .worker, .worker, .worker, .worker, .asyncStart] ++ [.asyncFinish (1 / 100)]) : List (Event ℝ)), FreshEvent e := by
    simp [FreshEvent, realWp_bookkept]
    rfl
  have f8 : ReachableBy FreshEvent (idleBackend.env lineal) s8 := ⟨_, _, hfresh, r8⟩
  have hstep : s8.step (idleBackend.env lineal) .getDynamicWaypoints = .ok (some s9) := by
    show Except.bind _ _ = _
    rw [h9]
    rfl
  have f9 : ReachableBy FreshEvent (idleBackend.env lineal) s9 := reachableBy_step _ _ s8 s9 .getDynamicWaypoints f8 trivial hstep
  obtain ⟨hchk, hws⟩ := getDynamicWaypoints_inv _ s8 s9 ws h9
  -- the end of the computation
  obtain ⟨tr, ns, hco, he8⟩ : ∃ tr ns, s7.computeTrajectory (idleBackend.env lineal) 1 = .ok (tr, ns) ∧ s8 = { s7 with next := ns, timeConstant := 1 / 100, future := .ready tr } := by
    have h8 : s7.asyncFinish (idleBackend.env lineal) (1 / 100) = .ok (some s8) := h8
    unfold Planner.asyncFinish at h8
    rw [hf] at h8
    simp only at h8
    cases hq : s7.computeTrajectory (idleBackend.env lineal) 1 with
    | error x =>
      exfalso
      rw [hq] at h8
      cases x <;> simp at h8
      rw [← h8] at hchk
      obtain ⟨o, ho⟩ : ∃ o, ({ s7 with future := .failed } : Planner ℝ).checkTrajectoryGenerated (idleBackend.env lineal) = .ok o := ⟨_, hchk⟩
      have c7 := reachable_ctl _ s7 ⟨_, _, by simp [ValidEvent, realWp_bookkept], h7⟩
      have hcomp : s7.computing = true := by
        cases hcc : s7.computing with
        | true => rfl
        | false => have := c7.idle hcc; rw [hf] at this; cases this
      unfold Planner.checkTrajectoryGenerated at ho
      simp [Future.isReady, Future.valid, hcomp, Planner.swapTrajectory, bind, Except.bind] at ho
    | ok q =>
      rw [hq] at h8
      exact ⟨q.1, q.2, rfl, (Option.some.inj (Except.ok.inj h8)).symm⟩
  obtain ⟨vs, _, _, _, htimes⟩ := computeTrajectory_form _ s7 1 tr ns hco
  have hmap := assignTimes_map (fun w : Waypoint ℝ => (w.name, w.modifiers.length, w.current)) (fun w _ t => by simp [Waypoint.setTime, Waypoint.setIndex]) _ _ _ _ _ htimes
  rw [hnext] at hmap
  have c8 := reachable_ctl _ s8 (reachable_of_fresh f8)
  have hcomp8 : s8.computing = true := by
    cases hcc : s8.computing with
    | true => rfl
    | false => have := c8.idle hcc; rw [he8] at this; cases this
  have htake : TakesOver s8 s9 := ⟨hcomp8, ready_takes _ s8 s9 hcomp8 tr (by rw [he8]) hchk⟩
  have hne9 := check_some_traj _ s8 s9 hchk c8
  obtain ⟨_, _, i, _, _, hcompens, _⟩ := C56_recorded _ henv s8 s9 (reachable_of_fresh f8) _ hstep htake _ (getMinTime_eq _ s9 hne9)
  obtain ⟨off, new, he9⟩ : ∃ off new, s9 = { s8 with
        future := .invalid, fromScratch := false, newParams := { s8.newParams with tOffset := off },
        params := { s8.newParams with tOffset := off }, traj := some new, regenerated := true, dyn := s8.next.map (·.copy),
        computing := false, generateNew := false } := by
    rcases check_micro _ .getDynamicWaypoints s8 s9 (by simp) hchk with h | h
    · exfalso
      have := htake.2
      rw [h, hcomp8] at this
      cases this
    · cases h with
      | takeOver _ _ new off _ _ _ _ => exact ⟨off, new, rfl⟩
  have hdyn : s9.dyn = ns.map (·.copy) := by rw [he9, he8]
  have hmap9 : s9.dyn.map (fun w => (w.name, w.modifiers.length, w.current)) = [("", 0, ⟨0, 0, 0⟩), ("a", 0, ⟨1, 2, 3⟩)] := by
    rw [hdyn, List.map_map, ← hmap]
    rfl
  obtain ⟨w0, last, hd2⟩ : ∃ w0 last, s9.dyn = [w0, last] := by
    have hl := congrArg List.length hmap9
    rw [List.length_map] at hl
    exact List.length_eq_two.mp hl
  rw [hd2] at hmap9
  simp only [List.map_cons, List.map_nil, List.cons.injEq, Prod.mk.injEq, and_true] at hmap9
  obtain ⟨_, c, _, hT, _, _, _, _, hl⟩ := C54_times _ henv s8 (reachable_of_fresh f8) ws s9 h9
  refine ⟨s9, w0, last, c, f9, by rw [he9, he8]; exact hpc, htake.2, hne9, hd2, hmap9.1.1, List.length_eq_zero_iff.mp hmap9.1.2.1, List.length_eq_zero_iff.mp hmap9.2.2.1, hmap9.2.2.2, hT, ?_, by rw [he9, he8], by
    rw [he9, he8]; exact hnsp, ?_⟩
  · exact hl last.copy (by rw [hws, hd2]; rfl)
  · have := hcompens 0
    rw [show s9.params.gtlg = 0 by rw [he9, he8]; exact hng, show s8.params.lastGlobal = 0 by rw [he8]; exact hlg] at this
    have hi : (0 : ℝ) ≤ (i : ℝ) / 10 := by positivity
    linarith

/-- C133 refuted: a plan to the waypoint (1, 2, 3) was flown almost to its end, when a route is given that begins there. The program aborts. -/
theorem C133_refuted : ¬ C133Full := by
  intro hfull
  obtain ⟨s, w0, last, T, h1, h2, h3, h4, h5, h6, h7, h8, h9, h10, h11, h12, h13, h14⟩ := first_flight true
  have hw : ∀ w ∈ [realWp "c" 1 2 3, realWp "d" 4 5 6], Bookkept w ∧ w.modifiers = [] ∧ w.time = 0 := by
    intro w hw
    rcases List.mem_cons.mp hw with rfl | hw
    · exact ⟨realWp_bookkept .., rfl, rfl⟩
    · rw [List.mem_singleton.mp hw]
      exact ⟨realWp_bookkept .., rfl, rfl⟩
  have hspaced : ∀ v, Spaced [realWp "c" 1 2 3, realWp "d" 4 5 6] v := by
    intro v i u w _ _ h
    simp at h
  have hone : idleBackend.aMax / 2 ^ 52 ≤ s.getSpeed := by
    rw [h13]
    norm_num [idleBackend]
  obtain ⟨r, s0, s1, k1, k2, k3, k4, k5, k6⟩ := C133_window idleBackend one_pos true (fun _ => idle_keepsBounds) s h1 ⟨h2, h3⟩ h4
    (by rw [h5]; simp [h7, h8]) T h10 (T - 3 / 20) true (by
      rw [h5, h12]
      intro w hw hn
      rcases List.mem_cons.mp hw with rfl | hw
      · exact absurd h6 hn
      · rw [List.mem_singleton.mp hw, h11]
        exact .inr (by linarith)) (by rw [h12]; linarith) (by rw [h12]; linarith) last (by rw [h5]; rfl) (realWp "c" 1 2 3) (realWp "d" 4 5 6) []
    hw ⟨hone, hspaced _⟩ (by rw [h9]; rfl) rfl
  obtain ⟨x, hx⟩ := k6 1
  have hre0 : Reachable (idleBackend.env true) s0 := reachableBy_step ValidEvent _ s s0 (.evaluate (T - 3 / 20) true false) (reachable_of_fresh h1) trivial (by
    show Except.bind _ _ = _
    rw [k1]
    rfl)
  exact hfull idleBackend one_pos true (fun _ => idle_keepsBounds) s0 hre0 k2 (by
      rw [k3, h5]
      intro w hw m hm
      rcases List.mem_cons.mp hw with rfl | hw
      · rw [h7] at hm; cases hm
      · rw [List.mem_singleton.mp hw, h8] at hm; cases hm) [realWp "c" 1 2 3, realWp "d" 4 5 6] (by simp) hw launchEvents
    (by simp [launchEvents, IsRequest, ValidEvent]) (by simpa [launchEvents, speedsSet, k4] using ⟨hone, hspaced _⟩) s1 k5 _ x hx

/-- The hypotheses are met, for the linear and for the nonlinear optimisation: the first plan was flown to its end, and a route is given. The computation begins,
it ends, an evaluation takes the plan over, and then nothing fails. -/
example (lineal : Bool) : ∃ (s0 s1 s2 s3 : Planner ℝ) (route : List (Waypoint ℝ)) (after : List (Event ℝ)), Reachable (idleBackend.env lineal) s0 ∧ s0.traj ≠ none ∧
    RunBefore (idleBackend.env lineal) s0 (.setWaypoints route :: after) s1 ∧ s1.step (idleBackend.env lineal) (.asyncFinish (1 / 100)) = .ok (some s2) ∧
    s2.step (idleBackend.env lineal) (.evaluate 0 true true) = .ok (some s3) ∧ TakesOver s2 s3 ∧
    (∃ m, RunBefore (idleBackend.env lineal) s0 (.setWaypoints route :: [.worker, .worker, .worker, .worker, .worker, .worker]) m ∧
      ∃ m', m.step (idleBackend.env lineal) .asyncStart = .ok (some m')) ∧
    ∀ e x, s3.step (idleBackend.env lineal) e ≠ .error x := by
  have henv := C85_segmentwise idleBackend lineal
  obtain ⟨s, w0, last, T, h1, h2, h3, h4, h5, h6, h7, h8, h9, h10, h11, h12, h13, h14⟩ := first_flight lineal
  have hre := reachable_of_fresh h1
  have hz : NoZeroWidth s.dyn := by
    rw [h5]
    intro w hw m hm
    rcases List.mem_cons.mp hw with rfl | hw
    · rw [h7] at hm; cases hm
    · rw [List.mem_singleton.mp hw, h8] at hm; cases hm
  have hwait : ¬ PlanWaiting s := by
    rintro (h | ⟨tr, h⟩) <;> rw [(reachable_ctl _ s hre).idle h3] at h <;> cases h
  obtain ⟨tr, htr⟩ := Option.ne_none_iff_exists'.mp h4
  obtain ⟨r, s0, hev⟩ := C40_returns _ henv s hre tr htr hwait hz (T + 1) true false
  have hs0 : s0 = { s with params := { s.params with lastGlobal := T + 1, lastLocal := T + 1 - s.params.gtlg } } := by
    have hev' := hev
    unfold Planner.evaluateTrajectory at hev'
    rw [check_idle _ s hwait h4] at hev'
    simp only [bind, Except.bind] at hev'
    rw [evaluateNow_eq _ s tr htr] at hev'
    split at hev'
    · cases hev'
    · rename_i q hq
      split at hq
      · cases hq
      · cases hq
        exact (congrArg Prod.snd (Option.some.inj (Except.ok.inj hev'))).symm
  have hre0 : Reachable (idleBackend.env lineal) s0 := reachableBy_step ValidEvent _ s s0 (.evaluate (T + 1) true false) hre trivial (by
    show Except.bind _ _ = _
    rw [hev]
    rfl)
  have hT : T = tr.maxTime + s.params.gtlg := by
    rw [getMaxTime_eq _ s tr htr] at h10
    exact (congrArg Prod.fst (Option.some.inj (Except.ok.inj h10))).symm
  have hw : ∀ w ∈ [realWp "c" 1 2 3, realWp "d" 4 5 6], Bookkept w ∧ w.modifiers = [] ∧ w.time = 0 := by
    intro w hw
    rcases List.mem_cons.mp hw with rfl | hw
    · exact ⟨realWp_bookkept .., rfl, rfl⟩
    · rw [List.mem_singleton.mp hw]
      exact ⟨realWp_bookkept .., rfl, rfl⟩
  have hspaced : ∀ v, Spaced [realWp "c" 1 2 3, realWp "d" 4 5 6] v := by
    intro v i u w _ _ h
    simp at h
  have hone : idleBackend.aMax / 2 ^ 52 ≤ s0.getSpeed := by
    rw [show s0.getSpeed = s.getSpeed by rw [hs0]; rfl, h13]
    norm_num [idleBackend]
  have hidle0 : s0.pc = .top ∧ s0.computing = false := by rw [hs0]; exact ⟨h2, h3⟩
  have hz0 : NoZeroWidth s0.dyn := by rw [hs0]; exact hz
  have hzone : ¬ InZone s0 := by
    rw [hs0]
    rintro ⟨_, w, hx, hn, k1, _⟩
    have hx : w ∈ s.dyn := hx
    have k1 : T + 1 < w.time := k1
    rw [h5] at hx
    rcases List.mem_cons.mp hx with rfl | hx
    · exact hn h6
    · rw [List.mem_singleton.mp hx, h11] at k1
      linarith
  obtain ⟨s1, w0', rest, k1, k2, k3, k4⟩ := detach_run _ henv s0 hre0 hidle0 tr (by rw [hs0]; exact htr) hzone (by
    rw [hs0]
    show tr.maxTime + s.params.gtlg < T + 1 + 4 * s.timeConstant
    rw [h12]
    linarith) [realWp "c" 1 2 3, realWp "d" 4 5 6] (by simp)
  have hsame : ∀ es : List (Event ℝ), speedsSet es = [] → ∀ v ∈ s0.getSpeed :: speedsSet es,
      idleBackend.aMax / 2 ^ 52 ≤ v ∧ Spaced [realWp "c" 1 2 3, realWp "d" 4 5 6] v := by
    intro es he v hv
    rw [he] at hv
    rw [List.mem_singleton.mp hv]
    exact ⟨hone, hspaced _⟩
  have served := C133_served_partial idleBackend one_pos lineal (fun _ => idle_keepsBounds) s0 hre0 hidle0 hz0 [realWp "c" 1 2 3, realWp "d" 4 5 6] (by simp) hw
  obtain ⟨sp, _, m2, m3⟩ := (served launchEvents (by simp [launchEvents, IsRequest, ValidEvent]) (hsame _ rfl) s1 k1).2.1 (by simp [launchEvents]) (by simp [launchEvents])
  obtain ⟨s2, m4⟩ := m3 (by
    rintro ⟨a, b', more, n1, n2, _⟩
    rw [k3] at n1
    rw [← (List.cons.inj n1).1, k4] at n2
    exact absurd n2 (by decide)) (1 / 100)
  have m5 : RunBefore (idleBackend.env lineal) s0 (.setWaypoints [realWp "c" 1 2 3, realWp "d" 4 5 6] :: (launchEvents ++ [.asyncFinish (1 / 100)])) s2 := by
    refine RunWhile.snoc _ k1 m4 ?_
    intro ht
    have h1 := ht.1
    have h2 := ht.2
    rcases step_micro' _ _ _ _ m4 with ⟨h, _⟩ | h | ⟨m, ⟨t, o, h⟩, _⟩
    · rw [h, h1] at h2; cases h2
    · cases h with
      | takeOver _ _ _ _ _ _ he _ => simp at he
      | asyncFinish _ _ _ _ _ _ _ => rw [show _ = s1.computing from rfl, h1] at h2; cases h2
      | asyncFail _ _ _ _ _ => rw [show _ = s1.computing from rfl, h1] at h2; cases h2
    · cases h
  obtain ⟨q, s3, m6, m7⟩ := ((served _ (by simp [launchEvents, IsRequest, ValidEvent]) (hsame _ rfl) s2 m5).2.2 ⟨1 / 100, by simp⟩).1 0 true true
  have m8 : s2.step (idleBackend.env lineal) (.evaluate 0 true true) = .ok (some s3) := by
    show Except.bind _ _ = _
    rw [m6]
    rfl
  refine ⟨s0, s1, s2, s3, _, _, hre0, by rw [hs0]; exact h4, k1, m4, m8, m7, ?_, fun e x => ?_⟩
  · obtain ⟨m, hm⟩ := runWhile_snoc_inv _ _ s0 (.setWaypoints [realWp "c" 1 2 3, realWp "d" 4 5 6] :: [.worker, .worker, .worker, .worker, .worker, .worker]) .asyncStart s1 k1
    obtain ⟨a, j1, j2, j3⟩ := runWhile_cons _ _ _ _ _ _ hm
    have ha : a = s0.setWaypoints [realWp "c" 1 2 3, realWp "d" 4 5 6] := (Option.some.inj (Except.ok.inj j1)).symm
    exact ⟨m, hm, C133_launched idleBackend one_pos lineal (fun _ => idle_keepsBounds) s0 hre0 hidle0 [realWp "c" 1 2 3, realWp "d" 4 5 6] (by simp) hw []
      [.worker, .worker, .worker, .worker, .worker] (by simp [IsRequest, ValidEvent]) (hsame _ rfl) a m (.snoc (es := []) _ .nil j1 j2) (by rw [ha]; exact hzone) j3
      (by simp [workerSteps]) (by simp)⟩
  exact C133_flown idleBackend one_pos lineal (fun _ => idle_keepsBounds) s0 hre0 hidle0 hz0 _ (by simp) hw (launchEvents ++ [.asyncFinish (1 / 100)]) []
    (.evaluate 0 true true) (by simp [launchEvents, IsRequest, ValidEvent]) (hsame _ rfl) s2 s3 s3 m5 m8 m7 .nil e x

end Verif.Properties
