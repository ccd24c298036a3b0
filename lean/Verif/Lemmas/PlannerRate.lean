import Verif.Lemmas.TrajectoryRate
import Verif.Lemmas.PlannerFail
import Verif.Lemmas.Hermite

/-!
# How fast references can change

Helper lemmas for C120 and C121: without compensations two references of the same plan differ by at most the bound on the next derivative times the time between them.
-/

set_option linter.unusedSectionVars false

namespace Verif.Lemmas
open Verif Verif.Spec

variable {K : Type*} [Field K] [LinearOrder K] [IsStrictOrderedRing K] [FloorRing K]

theorem compensation_none (exp : K → K) (w : Waypoint K) (t : K) (k : ℤ) (c : V3 K) (hm : w.modifiers = []) (h : w.trajectoryCompensation exp t k = .ok c) :
    c = ⟨0, 0, 0⟩ := by
  unfold Waypoint.trajectoryCompensation at h
  rw [hm] at h
  exact (Except.ok.inj h).symm

theorem forall₂_left {α β : Type*} {R : α → β → Prop} {l : List α} {m : List β} (h : List.Forall₂ R l m) (c : β) (hc : c ∈ m) : ∃ w ∈ l, R w c := by
  induction h with
  | nil => cases hc
  | cons hr _ ih =>
    rcases List.mem_cons.mp hc with rfl | hc
    · exact ⟨_, by simp, hr⟩
    · obtain ⟨w, hw, hwc⟩ := ih hc
      exact ⟨w, by simp [hw], hwc⟩

theorem usable_maxTime (tr : Trajectory K) (hu : Usable tr) : 0 ≤ tr.maxTime := by
  obtain ⟨-, -, hcons, hT, -⟩ := hu
  rw [hcons.1]
  exact duration_nonneg _ fun s hs => (hT s hs).le

theorem rateBound_nonneg (tr : Trajectory K) (hu : Usable tr) (k : ℕ) (V : K) (hV : RateBound k tr V) : 0 ≤ V := by
  have hM := usable_maxTime tr hu
  obtain ⟨hD, hne, hcons, hT, hR⟩ := hu
  obtain ⟨j, s1, τ, hj1, _, _, _, he⟩ := locate tr hcons hne hT hR 0 le_rfl hM
  have hq' := he k
  have hlen : s1.polys.length = 3 := by rw [(hcons.2 s1 (List.mem_of_getElem? hj1)).1, hD]
  obtain ⟨p, hp⟩ : ∃ p, s1.polys[0]? = some p := ⟨_, List.getElem?_eq_getElem (by omega)⟩
  exact (abs_nonneg _).trans (hV 0 le_rfl hM _ hq' _ (List.mem_of_getElem? (segDeriv_get hp k τ)))

/-- The plan's own value changes by at most `V` times the time, whatever the two times: outside the plan it stands still. -/
theorem base_rate (tr : Trajectory K) (hu : Usable tr) (k : ℕ) (V : K) (hj : PiecesMeet k tr) (hV : RateBound (k + 1) tr V) {tl tl' : K} {b b' : V3 K}
    (h : tr.evaluate (max 0 (min tl tr.maxTime)) k = .ok [b.x, b.y, b.z]) (h' : tr.evaluate (max 0 (min tl' tr.maxTime)) k = .ok [b'.x, b'.y, b'.z]) (a : Axis) :
    |comp b a - comp b' a| ≤ V * |tl - tl'| := by
  have hM := usable_maxTime tr hu
  have hVn := rateBound_nonneg tr hu (k + 1) V hV
  obtain ⟨hD, hne, hcons, hT, hR⟩ := hu
  have key : ∀ x y : K, 0 ≤ x → x ≤ tr.maxTime → 0 ≤ y → y ≤ tr.maxTime → ∀ vx vy : List K, tr.evaluate x k = .ok vx → tr.evaluate y k = .ok vy →
      ∀ (d : ℕ) (c c' : K), vx[d]? = some c → vy[d]? = some c' → |c - c'| ≤ V * |x - y| := by
    intro x y x0 x1 y0 y1 vx vy ex ey d c c' hc hc'
    rcases le_total x y with hxy | hxy
    · rw [abs_sub_comm, abs_sub_comm x, abs_of_nonneg (show 0 ≤ y - x by linarith)]
      exact rate_between hcons hne hT hR hV hj x0 hxy y1 ex ey d c c' hc hc'
    · rw [abs_of_nonneg (show 0 ≤ x - y by linarith)]
      exact rate_between hcons hne hT hR hV hj y0 hxy x1 ey ex d c' c hc' hc
  have hclamp : ∀ x y : K, |max 0 (min x tr.maxTime) - max 0 (min y tr.maxTime)| ≤ |x - y| := fun x y => by
    have h1 := abs_max_sub_max_le_abs (min x tr.maxTime) (min y tr.maxTime) 0
    rw [max_comm, max_comm _ (0 : K)] at h1
    refine h1.trans ?_
    have h2 := abs_min_sub_min_le_max x tr.maxTime y tr.maxTime
    rwa [sub_self, abs_zero, max_eq_left (abs_nonneg _)] at h2
  have hb : ∀ x : K, 0 ≤ max 0 (min x tr.maxTime) ∧ max 0 (min x tr.maxTime) ≤ tr.maxTime := fun x => ⟨le_max_left _ _, max_le hM (min_le_right _ _)⟩
  refine le_trans ?_ (mul_le_mul_of_nonneg_left (hclamp tl tl') hVn)
  exact key _ _ (hb _).1 (hb _).2 (hb _).1 (hb _).2 _ _ h h' (match a with | .x => 0 | .y => 1 | .z => 2) _ _ (by cases a <;> rfl) (by cases a <;> rfl)

/-- Without compensations the reference is the plan's own value. -/
theorem reference_base (env : Env K) (tr : Trajectory K) (ws : List (Waypoint K)) (hm : ∀ w ∈ ws, w.modifiers = []) {tl tg : K} {k : ℕ} {v : V3 K}
    (h : IsReference env tr ws tl tg k v) : tr.evaluate (max 0 (min tl tr.maxTime)) k = .ok [v.x, v.y, v.z] := by
  obtain ⟨b, hb, hle, hgt⟩ := h
  have hvb : v = b := by
    rcases le_or_gt tg 0 with hh | hh
    · exact hle hh
    · obtain ⟨cs, hcs, hsum⟩ := hgt hh
      have hz : ∀ c ∈ cs, c = ⟨0, 0, 0⟩ := by
        intro c hc
        obtain ⟨w, hw', hwc⟩ := forall₂_left hcs c hc
        exact compensation_none _ w tg k c (hm w (List.mem_filter.mp hw').1) hwc
      have hs : ∀ a, (cs.map fun c => comp c a).sum = 0 := by
        intro a
        refine List.sum_eq_zero fun x hx => ?_
        obtain ⟨c, hc, rfl⟩ := List.mem_map.mp hx
        rw [hz c hc]; cases a <;> rfl
      have e : ∀ a, comp v a = comp b a := fun a => by rw [hsum a, hs a, add_zero]
      have ex := e .x
      have ey := e .y
      have ez := e .z
      cases v; cases b
      simp only [comp] at ex ey ez
      rw [ex, ey, ez]
  rw [hvb]; exact hb

theorem reference_rate (env : Env K) (tr : Trajectory K) (hu : Usable tr) (ws : List (Waypoint K)) (hm : ∀ w ∈ ws, w.modifiers = []) (k : ℕ) (V : K)
    (hj : PiecesMeet k tr) (hV : RateBound (k + 1) tr V) {tl tg tl' tg' : K} {v v' : V3 K} (h : IsReference env tr ws tl tg k v)
    (h' : IsReference env tr ws tl' tg' k v') (a : Axis) : |comp v a - comp v' a| ≤ V * |tl - tl'| :=
  base_rate tr hu k V hj hV (reference_base env tr ws hm h) (reference_base env tr ws hm h') a

/-- The plan of a reachable state has the property the optimizer guarantees. -/
theorem plan_joins (env : Env K) (henv : Segmentwise env) (hj : JoinsSmoothly env) (s : Planner K) (h : Reachable env s) (tr : Trajectory K) (htr : s.traj = some tr)
    (k : ℕ) (hk : k ≤ 4) : PiecesMeet k tr := by
  obtain ⟨_, ws, ⟨vs, sp, _, ho⟩, _⟩ := (reachable_plan env henv s h).taken tr htr
  exact hj vs sp tr ho k hk

/-! ### The optimizer of the examples -/

theorem hermite_joins (exp : K → K) : JoinsSmoothly (⟨exp, hermiteOptimize⟩ : Env K) := by
  intro vs speed tr h k hk
  simp only [hermiteOptimize] at h
  split at h
  · rw [← Except.ok.inj h]
    intro i s s' h1 h2
    simp only at h1 h2
    have hl := hermiteSegments_length vs
    have hi : i + 1 < vs.length - 1 := by rw [← hl]; exact (List.getElem?_eq_some_iff.mp h2).1
    have e1 := hermiteSegments_get vs i _ _ (List.getElem?_eq_getElem (show i < vs.length by omega)) (List.getElem?_eq_getElem (show i + 1 < vs.length by omega))
    have e2 := hermiteSegments_get vs (i + 1) _ _ (List.getElem?_eq_getElem (show i + 1 < vs.length by omega)) (List.getElem?_eq_getElem (show i + 1 + 1 < vs.length by omega))
    rw [h1] at e1
    rw [h2] at e2
    rw [Option.some.inj e1, Option.some.inj e2]
    simp only [segDeriv, hermiteSegment, List.map_cons, List.map_nil, hermite_start _ _ k hk, hermite_end _ _ k hk]
  · cases h

end Verif.Lemmas
