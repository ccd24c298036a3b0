import Verif.Lemmas.PlannerSample
import Verif.Lemmas.PlannerFresh

/-!
# What a plan looks like once it was taken over (C54, C55, C72)

For every state that any history leads to, and for every optimizer that fulfils its contract.
-/

set_option linter.unusedSectionVars false
set_option linter.unusedSimpArgs false

namespace Verif.Properties
open Verif Verif.Spec Verif.Lemmas

section
variable {K : Type*} [Field K] [LinearOrder K] [IsStrictOrderedRing K] [FloorSemiring K]

theorem reachableBy_step (V : Event K → Prop) (env : Env K) (s s' : Planner K) (e : Event K) (h : ReachableBy V env s) (hv : V e)
    (hs : s.step env e = .ok (some s')) : ReachableBy V env s' := by
  obtain ⟨v, es, hes, hr⟩ := h
  refine ⟨v, es ++ [e], ?_, .snoc e hr hs⟩
  intro x hx
  rcases List.mem_append.mp hx with hx | hx
  · exact hes x hx
  · rw [List.mem_singleton.mp hx]; exact hv

theorem getMinTime_eq (env : Env K) (s : Planner K) (h : s.traj ≠ none) : s.getMinTime env = .ok (some (s.params.gtlg, s)) := by
  unfold Planner.getMinTime Planner.ensureTrajectory
  cases ht : s.traj with
  | none => exact absurd ht h
  | some tr => simp [ht, bind, Except.bind, pure, Except.pure]

theorem getMaxTime_eq (env : Env K) (s : Planner K) (tr : Trajectory K) (h : s.traj = some tr) :
    s.getMaxTime env = .ok (some (tr.maxTime + s.params.gtlg, s)) := by
  unfold Planner.getMaxTime Planner.ensureTrajectory
  simp [h, bind, Except.bind, pure, Except.pure]

theorem getDynamicWaypoints_inv (env : Env K) (s s' : Planner K) (ws : List (Waypoint K)) (h : s.getDynamicWaypoints env = .ok (some (ws, s'))) :
    s.checkTrajectoryGenerated env = .ok (some s') ∧ ws = s'.dyn.map (·.copy) := by
  unfold Planner.getDynamicWaypoints at h
  simp only [bind, Except.bind] at h
  cases hc : s.checkTrajectoryGenerated env with
  | error e => rw [hc] at h; cases h
  | ok o =>
    rw [hc] at h
    cases o with
    | none => cases h
    | some s1 =>
      obtain ⟨h1, h2⟩ := Prod.mk.inj (Option.some.inj (Except.ok.inj h))
      rw [h2] at h1 ⊢
      exact ⟨rfl, h1.symm⟩

/-! ## C54 -/

/-- C54: the waypoints that `getDynamicWaypoints` returns are numbered from 0, their times strictly increase, the first one's is
`getMinTime` and the last one's `getMaxTime`. -/
theorem C54_times (env : Env K) (henv : Segmentwise env) (s : Planner K) (h : Reachable env s) (ws : List (Waypoint K)) (s' : Planner K)
    (hws : s.getDynamicWaypoints env = .ok (some (ws, s'))) :
    ∃ a b, s'.getMinTime env = .ok (some (a, s')) ∧ s'.getMaxTime env = .ok (some (b, s')) ∧ 2 ≤ ws.length ∧
      (∀ (i : ℕ) (w : Waypoint K), ws[i]? = some w → w.index = i) ∧
      (∀ (i j : ℕ) (w w' : Waypoint K), ws[i]? = some w → ws[j]? = some w' → i < j → w.time < w'.time) ∧
      (∀ w, ws.head? = some w → w.time = a) ∧ (∀ w, ws.getLast? = some w → w.time = b) := by
  obtain ⟨hc, rfl⟩ := getDynamicWaypoints_inv env s s' ws hws
  have hr' : Reachable env s' := reachableBy_step _ env s s' .getDynamicWaypoints h trivial (by
    simp only [Planner.step, hws, bind, Except.bind]; rfl)
  have hne := check_some_traj env s s' hc (reachable_ctl env s h)
  have hp := reachable_plan env henv s' hr'
  cases htr : s'.traj with
  | none => exact absurd htr hne
  | some tr =>
    have hu := traj_usable env henv s' hp tr htr
    obtain ⟨⟨hlen, hti⟩, _⟩ := hp.taken tr htr
    have hti' : ∀ (i : ℕ) (w : Waypoint K), (s'.dyn.map (·.copy))[i]? = some w → w.index = i ∧ w.time = s'.params.gtlg + startOf tr.segments i ∧ i ≤ tr.segments.length := by
      intro i w hw
      rw [List.getElem?_map] at hw
      cases hd : s'.dyn[i]? with
      | none => rw [hd] at hw; cases hw
      | some u =>
        rw [hd] at hw
        have := Option.some.inj hw
        subst this
        obtain ⟨k1, k2⟩ := hti i u hd
        have hlt := (List.getElem?_eq_some_iff.mp hd).1
        exact ⟨k1, k2, by omega⟩
    have hpos := List.length_pos_iff.mpr hu.2.1
    refine ⟨_, _, getMinTime_eq env s' hne, getMaxTime_eq env s' tr htr, ?_, ?_, ?_, ?_, ?_⟩
    · rw [List.length_map, hlen]; omega
    · exact fun i w hw => (hti' i w hw).1
    · intro i j w w' hw hw' hij
      obtain ⟨_, h1, _⟩ := hti' i w hw
      obtain ⟨_, h2, h3⟩ := hti' j w' hw'
      rw [h1, h2]
      have := startOf_lt tr.segments hu.2.2.2.1 i j hij h3
      linarith
    · intro w hw
      rw [List.head?_eq_getElem?] at hw
      rw [(hti' 0 w hw).2.1, startOf_zero, add_zero]
    · intro w hw
      rw [List.getLast?_eq_getElem?] at hw
      rw [List.length_map, hlen] at hw
      rw [(hti' _ w hw).2.1]
      simp only [Nat.add_sub_cancel]
      rw [startOf_length, hu.2.2.1.1, add_comm]

/-- C54: at the time of each waypoint the unmodified trajectory is at the waypoint's planned position, and has every further derivative (up
to order 4) that the waypoint prescribes; for the last waypoint velocity and acceleration are excepted (they are 0, C55). -/
theorem C54_positions (env : Env K) (henv : Segmentwise env) (hmeets : MeetsVertices env) (s : Planner K) (h : ReachableBy FreshEvent env s)
    (tr : Trajectory K) (htr : s.traj = some tr) (g : K) (hg : s.getMinTime env = .ok (some (g, s))) (i : ℕ) (w : Waypoint K)
    (hw : s.dyn[i]? = some w) :
    tr.evaluate (w.time - g) 0 = .ok [w.original.x, w.original.y, w.original.z] ∧
    ∀ (k : ℕ) (c : List K), 1 ≤ k → k ≤ 4 → (i + 1 < s.dyn.length ∨ 2 < k) → w.vertex.getConstraint k = some c →
      tr.evaluate (w.time - g) k = .ok c := by
  have hp := reachable_plan env henv s (reachable_of_fresh h)
  have hf := reachable_freshInv env henv s h
  obtain ⟨⟨hlen, hti⟩, _⟩ := hp.taken tr htr
  obtain ⟨ws, ⟨vs, sp, hvs, ho⟩, hb, h2⟩ := hf.taken tr htr
  obtain ⟨a, ha, hcur, hcon⟩ := forall2_get' h2 i w hw
  obtain ⟨v, hv, hsame, _⟩ := extractVertices_position ws vs hvs hb i a ha
  have hgv : g = s.params.gtlg := by
    rw [getMinTime_eq env s (by rw [htr]; simp)] at hg
    exact (congrArg Prod.fst (Option.some.inj (Except.ok.inj hg))).symm
  have htime : w.time - g = startOf tr.segments i := by
    rw [(hti i w hw).2, hgv]; ring
  rw [htime]
  refine ⟨?_, ?_⟩
  · apply hmeets vs sp tr ho (fun v hv => (extractVertices_wellFormed ws vs hvs hb v hv).1) i v hv 0 _ (by omega)
    have := hsame 0 (Or.inr ⟨by norm_num, by norm_num⟩)
    rw [show ((0 : ℕ) : Int) = 0 from rfl, this, (hb a (List.mem_of_getElem? ha)).2.2.1, hcur]
  · intro k c hk1 hk4 hk hc
    apply hmeets vs sp tr ho (fun v hv => (extractVertices_wellFormed ws vs hvs hb v hv).1) i v hv k c hk4
    rw [hsame k (by
      rcases hk with hk | hk
      · left; rw [h2.length_eq]; exact hk
      · right; constructor <;> omega), ← hcon k (by omega), hc]

example : ∃ ws, state1.getDynamicWaypoints hermiteEnv = .ok (some (ws, state1)) ∧ ws.length = 3 ∧
    ws.map (fun w => w.time) = [0, 1, 2] := by
  refine ⟨state1.dyn.map (·.copy), ?_⟩
  decide +kernel

example : Segmentwise (hermiteEnv : Env ℚ) ∧ MeetsVertices (hermiteEnv : Env ℚ) ∧ ReachableBy FreshEvent hermiteEnv state1 ∧
    state1.traj.isSome ∧ (state1.dyn[1]?.map fun w => (w.name, w.original, w.time)) = some ("a", ⟨1, 0, 0⟩, 1) :=
  ⟨hermite_segmentwise, hermite_meets, state1_fresh, by decide +kernel, by decide +kernel⟩

/-! ## C55 -/

/-- C55: at `getMaxTime` velocity and acceleration of the unmodified trajectory are zero. -/
theorem C55_ends_at_rest (env : Env K) (henv : Segmentwise env) (hmeets : MeetsVertices env) (s : Planner K) (h : Reachable env s)
    (tr : Trajectory K) (htr : s.traj = some tr) (a b : K) (ha : s.getMinTime env = .ok (some (a, s)))
    (hb : s.getMaxTime env = .ok (some (b, s))) (k : ℕ) (hk : k = 1 ∨ k = 2) : tr.evaluate (b - a) k = .ok [0, 0, 0] := by
  have hp := reachable_plan env henv s h
  have hu := traj_usable env henv s hp tr htr
  obtain ⟨⟨hlen, _⟩, ws, ⟨vs, sp, hvs, ho⟩, hbk, h2⟩ := hp.taken tr htr
  have hba : b - a = startOf tr.segments tr.segments.length := by
    rw [getMinTime_eq env s (by rw [htr]; simp)] at ha
    rw [getMaxTime_eq env s tr htr] at hb
    rw [← (Prod.mk.inj (Option.some.inj (Except.ok.inj ha))).1, ← (Prod.mk.inj (Option.some.inj (Except.ok.inj hb))).1,
      startOf_length, hu.2.2.1.1]
    ring
  have hwl : ws.length = tr.segments.length + 1 := h2.length_eq.trans hlen
  obtain ⟨v, hv, _, hlast⟩ := extractVertices_position ws vs hvs hbk tr.segments.length ws[tr.segments.length] (by simp)
  obtain ⟨l1, l2⟩ := hlast hwl.symm
  rw [hba]
  rcases hk with rfl | rfl
  · exact hmeets vs sp tr ho (fun v hv => (extractVertices_wellFormed ws vs hvs hbk v hv).1) _ v hv 1 _ (by norm_num) l1
  · exact hmeets vs sp tr ho (fun v hv => (extractVertices_wellFormed ws vs hvs hbk v hv).1) _ v hv 2 _ (by norm_num) l2

/-- C55, seen by the caller: as long as no waypoint was moved, every evaluation at or after the end returns the last waypoint's position,
velocity zero and acceleration zero. -/
theorem C55_hover (env : Env K) (henv : Segmentwise env) (hmeets : MeetsVertices env) (s : Planner K) (h : ReachableBy FreshEvent env s)
    (hw : ¬ PlanWaiting s) (hm : ∀ w ∈ s.dyn, w.modifiers = []) (b : K) (hb : s.getMaxTime env = .ok (some (b, s))) (t : K)
    (ht : b ≤ t + s.getTimeCompensation) (r : References K) (s' : Planner K) (f : Bool)
    (hr : s.evaluateTrajectory env t false f = .ok (some (r, s'))) :
    (∀ w, s.dyn.getLast? = some w → r.position = w.current) ∧ r.velocity = some ⟨0, 0, 0⟩ ∧ r.acceleration = some ⟨0, 0, 0⟩ := by
  have hR := reachable_of_fresh h
  have hp := reachable_plan env henv s hR
  cases htr : s.traj with
  | none =>
    unfold Planner.getMaxTime Planner.ensureTrajectory at hb
    rw [htr] at hb
    simp only [Option.isSome_none, Bool.false_eq_true, if_false, bind, Except.bind] at hb
    cases hc : s.checkTrajectoryGenerated env with
    | error e => rw [hc] at hb; cases hb
    | ok o =>
      rw [hc] at hb
      cases o with
      | none => cases hb
      | some s1 =>
        have := check_some_traj env s s1 hc (reachable_ctl env s hR)
        simp only at hb
        cases ht1 : s1.traj with
        | none => exact absurd ht1 this
        | some tr =>
          rw [ht1] at hb
          have := (Prod.mk.inj (Option.some.inj (Except.ok.inj hb))).2
          rw [this, htr] at ht1; cases ht1
  | some tr =>
    have hu := traj_usable env henv s hp tr htr
    have ha := getMinTime_eq env s (by rw [htr]; simp)
    have hbv : b = tr.maxTime + s.params.gtlg := by
      rw [getMaxTime_eq env s tr htr] at hb
      exact (congrArg Prod.fst (Option.some.inj (Except.ok.inj hb))).symm
    have hlocal : max 0 (min (t - s.params.gtlg + s.getTimeCompensation) tr.maxTime) = b - s.params.gtlg := by
      rw [min_eq_right (by rw [hbv] at ht; linarith), max_eq_right (usable_maxTime_nonneg hu), hbv]; ring
    unfold Planner.evaluateTrajectory Planner.checkTrajectoryGenerated at hr
    have hready : s.future.isReady = false := by
      cases hf : s.future with
      | ready tr => exact absurd (Or.inr ⟨tr, hf⟩) hw
      | failed => exact absurd (Or.inl hf) hw
      | invalid => rfl
      | launched => rfl
      | running _ => rfl
    rw [hready, htr] at hr
    simp only [Option.isNone_some, Bool.false_and, Bool.and_false, Bool.false_eq_true, if_false, bind, Except.bind] at hr
    have hev : ∃ s2, s.evaluateNow env t false f = .ok (r, s2) := by
      cases hx : s.evaluateNow env t false f with
      | error e => rw [hx] at hr; cases hr
      | ok q =>
        rw [hx] at hr
        have := Option.some.inj (Except.ok.inj hr)
        rw [this]; exact ⟨_, rfl⟩
    obtain ⟨s2, hev⟩ := hev
    have hrefs : s.getReferences env tr (t + s.params.tOffset) (t - s.params.gtlg + s.params.tOffset) false = .ok r := by
      unfold Planner.evaluateNow at hev
      cases f with
      | true =>
        simp only [htr, if_true, bind, Except.bind] at hev
        cases hx : s.getReferences env tr (t + s.params.tOffset) (t - s.params.gtlg + s.params.tOffset) false with
        | error e => rw [hx] at hev; cases hev
        | ok q => rw [hx] at hev; rw [(Prod.mk.inj (Except.ok.inj hev)).1]
      | false =>
        simp only [htr, Bool.false_eq_true, if_false, bind, Except.bind] at hev
        have hsame : Planner.getReferences env { s with
            params := { s.params with lastGlobal := t, lastLocal := t - s.params.gtlg }, traj := some tr } tr
            (t + s.params.tOffset) (t - s.params.gtlg + s.params.tOffset) false
            = s.getReferences env tr (t + s.params.tOffset) (t - s.params.gtlg + s.params.tOffset) false := rfl
        rw [hsame] at hev
        cases hx : s.getReferences env tr (t + s.params.tOffset) (t - s.params.gtlg + s.params.tOffset) false with
        | error e => rw [hx] at hev; cases hev
        | ok q => rw [hx] at hev; rw [(Prod.mk.inj (Except.ok.inj hev)).1]
    obtain ⟨vel, acc, hv1, hv2, h0, h1, h2⟩ := getReferences_full env s tr _ _ r hrefs
    -- without compensations the references are the trajectory's values
    have plain : ∀ (k : ℕ) (x : V3 K) (y : List K), s.evaluateModified env tr (t + s.params.tOffset) (t - s.params.gtlg + s.params.tOffset) k = .ok x →
        tr.evaluate (b - s.params.gtlg) k = .ok y → y = [x.x, x.y, x.z] := by
      intro k x y hx hy
      obtain ⟨base, hb1, hb2, hb3⟩ := evaluateModified_ok env s tr hu _ _ k x hx
      rw [show (t - s.params.gtlg + s.params.tOffset) = t - s.params.gtlg + s.getTimeCompensation from rfl, hlocal, hy] at hb1
      have hbase := Except.ok.inj hb1
      rw [hbase]
      have : x = base := by
        rcases le_or_gt (t + s.params.tOffset) 0 with hle | hgt
        · exact hb2 hle
        · obtain ⟨cs, hcs, hsum⟩ := hb3 hgt
          apply comp_ext
          intro ax
          rw [hsum ax]
          have hz : ∀ c ∈ cs, c = V3.zero := by
            intro c hc
            obtain ⟨u, hu', huc⟩ := forall2_mem_right hcs hc
            have hum := hm u (List.mem_filter.mp hu').1
            unfold Waypoint.trajectoryCompensation at huc
            rw [hum] at huc
            exact (Except.ok.inj huc).symm
          have : (cs.map fun c => comp c ax).sum = 0 := by
            apply List.sum_eq_zero
            intro y hy
            obtain ⟨c, hc, rfl⟩ := List.mem_map.mp hy
            rw [hz c hc]
            cases ax <;> rfl
          rw [this, add_zero]
      rw [this]
    have e1 := plain 1 vel _ h1 (C55_ends_at_rest env henv hmeets s hR tr htr _ b ha hb 1 (Or.inl rfl))
    have e2 := plain 2 acc _ h2 (C55_ends_at_rest env henv hmeets s hR tr htr _ b ha hb 2 (Or.inr rfl))
    simp only [List.cons.injEq, and_true] at e1 e2
    refine ⟨?_, ?_, ?_⟩
    · intro w hwl
      rw [List.getLast?_eq_getElem?] at hwl
      obtain ⟨⟨hlen, hti⟩, _⟩ := hp.taken tr htr
      have h54 := (C54_positions env henv hmeets s h tr htr _ ha _ w hwl).1
      have htime : w.time = b := by
        rw [(hti _ w hwl).2, hlen, Nat.add_sub_cancel, startOf_length, hbv, hu.2.2.1.1, add_comm]
      rw [htime] at h54
      have e0 := plain 0 r.position _ h0 h54
      have hwm := List.mem_of_getElem? hwl
      have hoc := ((reachable_wp env s hR).dyn w hwm).2.2.2.1 (hm w hwm)
      rw [hoc] at e0
      simp only [List.cons.injEq, and_true] at e0
      apply comp_ext
      intro ax
      cases ax
      · exact e0.1.symm
      · exact e0.2.1.symm
      · exact e0.2.2.symm
    · rw [hv1]; congr 1
      apply comp_ext
      intro ax
      cases ax
      · exact e1.1.symm
      · exact e1.2.1.symm
      · exact e1.2.2.symm
    · rw [hv2]; congr 1
      apply comp_ext
      intro ax
      cases ax
      · exact e2.1.symm
      · exact e2.2.1.symm
      · exact e2.2.2.symm

-- The sample plan lasts from 0 to 2; with the offset 1/10 the evaluation at 5 is after the end.
example : state1.getMaxTime hermiteEnv = .ok (some (2, state1)) ∧ (∀ w ∈ state1.dyn, w.modifiers = []) ∧
    (2 : ℚ) ≤ 5 + state1.getTimeCompensation ∧
    (state1.evaluateTrajectory hermiteEnv 5 false true).map (Option.map fun q => q.1) =
      .ok (some ⟨⟨2, 1, 0⟩, some ⟨0, 0, 0⟩, some ⟨0, 0, 0⟩⟩) := by
  refine ⟨?_, ?_, ?_, ?_⟩ <;> decide +kernel

/-! ## C72 -/

/-- C72, the claim: an evaluation at a (named) waypoint's time returns the waypoint's current position, also after position updates. -/
def C72Full (K : Type*) [Field K] [LinearOrder K] [IsStrictOrderedRing K] [FloorSemiring K] : Prop :=
  ∀ env : Env K, Segmentwise env → MeetsVertices env → env.exp 0 = 1 → ∀ s, ReachableBy FreshEvent env s → ¬ PlanWaiting s →
    ∀ w ∈ s.dyn, w.name ≠ "" → 0 < w.time → NoZeroWidth s.dyn →
    (∀ m ∈ w.modifiers, ∀ a, 0 < (comp m a).sigma ∧ ((comp m a).increment = 0 ∨ 2 / 100 ≤ |(comp m a).increment|)) →
    ∀ r s', s.evaluateTrajectory env (w.time - s.getTimeCompensation) true true = .ok (some (r, s')) → r.position = w.current

theorem eval_at_mu (exp : K → K) (hexp : exp 0 = 1) (m : Modifier K) (hs : 0 < m.sigma) (hq : m.sigmaSq ≠ 0)
    (h : m.increment = 0 ∨ 2 / 100 ≤ |m.increment|) : m.eval exp m.mu 0 = .ok m.increment := by
  rcases h with h | h
  · rw [eval_small _ _ _ _ (by rw [h]; norm_num), h]
  · rw [(eval_active exp m m.mu h (by simp; linarith) hq).1]
    simp [hexp]

/-- The exact value: the waypoint's current position plus what the compensations of the other named waypoints contribute at that time. -/
theorem C72_exact (env : Env K) (henv : Segmentwise env) (hmeets : MeetsVertices env) (hexp : env.exp 0 = 1) (s : Planner K)
    (h : ReachableBy FreshEvent env s) (hw : ¬ PlanWaiting s) (pre post : List (Waypoint K)) (w : Waypoint K) (hsplit : s.dyn = pre ++ w :: post)
    (hn : w.name ≠ "") (hpos : 0 < w.time) (hz : NoZeroWidth s.dyn)
    (hmod : ∀ m ∈ w.modifiers, ∀ a, 0 < (comp m a).sigma ∧ ((comp m a).increment = 0 ∨ 2 / 100 ≤ |(comp m a).increment|))
    (r : References K) (s' : Planner K)
    (hr : s.evaluateTrajectory env (w.time - s.getTimeCompensation) true true = .ok (some (r, s'))) :
    ∃ cs, List.Forall₂ (fun u c => u.trajectoryCompensation env.exp w.time 0 = .ok c)
        ((pre ++ post).filter fun u => u.name ≠ "") cs ∧
      ∀ a, comp r.position a = comp w.current a + (cs.map fun c => comp c a).sum := by
  have hR := reachable_of_fresh h
  have hp := reachable_plan env henv s hR
  have hwmem : w ∈ s.dyn := by rw [hsplit]; simp
  have htr : ∃ tr, s.traj = some tr := by
    cases ht : s.traj with
    | none => rw [hp.none ht] at hwmem; cases hwmem
    | some tr => exact ⟨tr, rfl⟩
  obtain ⟨tr, htr⟩ := htr
  have hu := traj_usable env henv s hp tr htr
  have hg := getMinTime_eq env s (by rw [htr]; simp)
  have hidx : s.dyn[pre.length]? = some w := by rw [hsplit]; simp
  obtain ⟨⟨hlen, hti⟩, _⟩ := hp.taken tr htr
  have h54 := (C54_positions env henv hmeets s h tr htr _ hg _ w hidx).1
  -- the reference
  have href : s.evaluateModified env tr w.time (w.time - s.params.gtlg) 0 = .ok r.position := by
    unfold Planner.evaluateTrajectory Planner.checkTrajectoryGenerated at hr
    have hready : s.future.isReady = false := by
      cases hf : s.future with
      | ready tr => exact absurd (Or.inr ⟨tr, hf⟩) hw
      | failed => exact absurd (Or.inl hf) hw
      | invalid => rfl
      | launched => rfl
      | running _ => rfl
    rw [hready, htr] at hr
    simp only [Option.isNone_some, Bool.false_and, Bool.and_false, Bool.false_eq_true, if_false, bind, Except.bind] at hr
    unfold Planner.evaluateNow Planner.getReferences at hr
    simp only [htr, if_true, bind, Except.bind] at hr
    have e1 : w.time - s.getTimeCompensation + s.params.tOffset = w.time := by unfold Planner.getTimeCompensation; ring
    have e2 : w.time - s.getTimeCompensation - s.params.gtlg + s.params.tOffset = w.time - s.params.gtlg := by
      unfold Planner.getTimeCompensation; ring
    rw [e1, e2] at hr
    cases hx : s.evaluateModified env tr w.time (w.time - s.params.gtlg) 0 with
    | error e => rw [hx] at hr; cases hr
    | ok q =>
      rw [hx] at hr
      rw [← (Prod.mk.inj (Option.some.inj (Except.ok.inj hr))).1]
  obtain ⟨base, hb1, _, hb3⟩ := evaluateModified_ok env s tr hu _ _ 0 _ href
  have hlt := (List.getElem?_eq_some_iff.mp hidx).1
  have hst : w.time - s.params.gtlg = startOf tr.segments pre.length := by rw [(hti _ w hidx).2]; ring
  have h0 : 0 ≤ startOf tr.segments pre.length := duration_nonneg _ (fun x hx => (hu.2.2.2.1 x (List.mem_of_mem_take hx)).le)
  have h1 : startOf tr.segments pre.length ≤ tr.maxTime := by
    rw [hu.2.2.1.1, ← startOf_length]
    rcases Nat.lt_or_ge pre.length tr.segments.length with hl | hl
    · exact (startOf_lt _ hu.2.2.2.1 _ _ hl le_rfl).le
    · have : pre.length = tr.segments.length := by omega
      rw [this]
  rw [hst] at h54 hb1
  rw [min_eq_left h1, max_eq_right h0, h54] at hb1
  have hbase : base = w.original := by
    have := Except.ok.inj hb1
    simp only [List.cons.injEq, and_true] at this
    apply comp_ext
    intro ax
    cases ax
    · exact this.1.symm
    · exact this.2.1.symm
    · exact this.2.2.symm
  obtain ⟨cs, hcs, hsum⟩ := hb3 hpos
  rw [hsplit, List.filter_append, List.filter_cons_of_pos (by simpa using hn)] at hcs
  obtain ⟨c1, c2, hc1, hc2, rfl⟩ := forall2_split hcs
  cases hc2 with
  | cons hcw hc2 =>
    rename_i c cs2
    refine ⟨c1 ++ cs2, ?_, ?_⟩
    · rw [List.filter_append]
      exact List.rel_append hc1 hc2
    · intro a
      rw [hsum a, hbase]
      have hbk := (reachable_wp env s hR).dyn w hwmem
      obtain ⟨r', hr', hra⟩ := compensationLoop_ok env.exp w.time 0 (fun m a => (comp m a).increment) w.modifiers
        (fun m hm a => by
          rw [← hbk.2.2.2.2.1 m hm a]
          exact eval_at_mu env.exp hexp _ (hmod m hm a).1 (hz w hwmem m hm a) (hmod m hm a).2) V3.zero
      unfold Waypoint.trajectoryCompensation at hcw
      have hcw' : Waypoint.compensationLoop env.exp w.time 0 w.modifiers V3.zero = .ok c := hcw
      rw [hr'] at hcw'
      have hcr := Except.ok.inj hcw'
      have hcomp : comp c a = comp w.current a - comp w.original a := by
        rw [← hcr, hra a, ← hbk.2.2.2.2.2 a]
        have : comp (V3.zero : V3 K) a = 0 := by cases a <;> rfl
        rw [this]; ring
      simp only [List.map_append, List.map_cons, List.sum_append, List.sum_cons]
      rw [hcomp]
      ring

/-- C72 holds when no other named waypoint has a compensation active at that time; in particular when no other waypoint was moved. -/
theorem C72_alone_partial (env : Env K) (henv : Segmentwise env) (hmeets : MeetsVertices env) (hexp : env.exp 0 = 1) (s : Planner K)
    (h : ReachableBy FreshEvent env s) (hw : ¬ PlanWaiting s) (pre post : List (Waypoint K)) (w : Waypoint K) (hsplit : s.dyn = pre ++ w :: post)
    (hn : w.name ≠ "") (hpos : 0 < w.time) (hz : NoZeroWidth s.dyn)
    (hmod : ∀ m ∈ w.modifiers, ∀ a, 0 < (comp m a).sigma ∧ ((comp m a).increment = 0 ∨ 2 / 100 ≤ |(comp m a).increment|))
    (halone : ∀ u ∈ pre ++ post, u.name ≠ "" → ∀ m ∈ u.modifiers, ∀ a, 7 / 2 * (comp m a).sigma < |w.time - u.time|)
    (r : References K) (s' : Planner K)
    (hr : s.evaluateTrajectory env (w.time - s.getTimeCompensation) true true = .ok (some (r, s'))) : r.position = w.current := by
  obtain ⟨cs, hcs, hsum⟩ := C72_exact env henv hmeets hexp s h hw pre post w hsplit hn hpos hz hmod r s' hr
  apply comp_ext
  intro a
  rw [hsum a]
  have : (cs.map fun c => comp c a).sum = 0 := by
    apply List.sum_eq_zero
    intro y hy
    obtain ⟨c, hc, rfl⟩ := List.mem_map.mp hy
    obtain ⟨u, hu, huc⟩ := forall2_mem_right hcs hc
    obtain ⟨hu1, hu2⟩ := List.mem_filter.mp hu
    have humem : u ∈ s.dyn := by
      rw [hsplit]; rcases List.mem_append.mp hu1 with h | h <;> simp [h]
    have hbk := (reachable_wp env s (reachable_of_fresh h)).dyn u humem
    obtain ⟨r', hr', hra⟩ := compensationLoop_ok env.exp w.time 0 (fun _ _ => (0 : K)) u.modifiers
      (fun m hm a => eval_outside _ _ _ _ (by
        rw [hbk.2.2.2.2.1 m hm a]
        exact halone u hu1 (by simpa using hu2) m hm a)) V3.zero
    have huc' : Waypoint.compensationLoop env.exp w.time 0 u.modifiers V3.zero = .ok c := huc
    rw [hr'] at huc'
    rw [← Except.ok.inj huc', hra a]
    have : comp (V3.zero : V3 K) a = 0 := by cases a <;> rfl
    rw [this]; simp
  rw [this, add_zero]

end

/-- The sample plan, then both waypoints are moved in one go. -/
def history2 : List (Event ℚ) :=
  history1 ++ [.evaluate (1 / 2) false false, .modifyWaypoint "a" ⟨1, 1, 0⟩ false, .modifyWaypoint "b" ⟨2, 2, 0⟩ false, .worker, .worker]

def state2 : Planner ℚ := ((exec hermiteEnv (Planner.init ⟨0, 0, 0⟩) history2).toOption.getD none).get (by decide +kernel)

theorem state2_run : Run hermiteEnv (Planner.init ⟨0, 0, 0⟩) history2 state2 := by
  apply exec_run
  decide +kernel

theorem state2_fresh : ReachableBy FreshEvent hermiteEnv state2 :=
  ⟨_, history2, by simp [history2, history1, planEvents, FreshEvent, wp_bookkept], state2_run⟩

/-- C72: false in general. Two neighbouring waypoints are moved; at the time of the first one the second one's compensation is also added. -/
theorem C72_refuted : ¬ C72Full ℚ := by
  intro H
  let w : Waypoint ℚ := state2.dyn[1]?.get (by decide +kernel)
  have hpos := H hermiteEnv hermite_segmentwise hermite_meets rfl state2 state2_fresh
    (by
      have : state2.future = .invalid := by decide +kernel
      rintro (h | ⟨_, h⟩) <;> rw [this] at h <;> cases h)
    w (List.mem_of_getElem? (i := 1) (by decide +kernel)) (by decide +kernel) (by decide +kernel)
    (by
      have : ∀ w ∈ state2.dyn, ∀ m ∈ w.modifiers, m.x.sigmaSq ≠ 0 ∧ m.y.sigmaSq ≠ 0 ∧ m.z.sigmaSq ≠ 0 := by decide +kernel
      intro w hw m hm a
      obtain ⟨h1, h2, h3⟩ := this w hw m hm
      cases a <;> assumption)
    (by
      have : ∀ m ∈ w.modifiers, (0 < m.x.sigma ∧ (m.x.increment = 0 ∨ 2 / 100 ≤ |m.x.increment|)) ∧
          (0 < m.y.sigma ∧ (m.y.increment = 0 ∨ 2 / 100 ≤ |m.y.increment|)) ∧
          (0 < m.z.sigma ∧ (m.z.increment = 0 ∨ 2 / 100 ≤ |m.z.increment|)) := by decide +kernel
      intro m hm a
      obtain ⟨h1, h2, h3⟩ := this m hm
      cases a <;> assumption)
    (((state2.evaluateTrajectory hermiteEnv (w.time - state2.getTimeCompensation) true true).toOption.getD none).get (by decide +kernel)).1
    state2 (by decide +kernel)
  revert hpos
  decide +kernel

/-- The sample plan, then only the second waypoint is moved. -/
def history3 : List (Event ℚ) :=
  history1 ++ [.evaluate (1 / 2) false false, .modifyWaypoint "b" ⟨2, 2, 0⟩ false, .worker, .worker]

def state3 : Planner ℚ := ((exec hermiteEnv (Planner.init ⟨0, 0, 0⟩) history3).toOption.getD none).get (by decide +kernel)

-- `C72_alone_partial` applies to the moved waypoint: the others have no modifiers.
example : state3.dyn.map (fun w => (w.name, w.current, w.time, w.modifiers.length)) =
    [("", ⟨0, 0, 0⟩, 0, 0), ("a", ⟨1, 0, 0⟩, 1, 0), ("b", ⟨2, 2, 0⟩, 2, 1)] ∧ state3.future = .invalid ∧
    (state3.evaluateTrajectory hermiteEnv (2 - state3.getTimeCompensation) true true).map (Option.map fun q => q.1.position)
      = .ok (some ⟨2, 2, 0⟩) := by
  refine ⟨?_, ?_, ?_⟩ <;> decide +kernel

end Verif.Properties
