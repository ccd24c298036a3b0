import Verif.Lemmas.PlannerPlan

/-! # Evaluation: closed form, totality, possible failures -/

set_option linter.unusedSectionVars false
set_option linter.unusedSimpArgs false

namespace Verif.Lemmas
open Verif Verif.Spec

variable {K : Type*} [Field K] [LinearOrder K] [IsStrictOrderedRing K] [FloorSemiring K]

theorem clampTime_eq (l T : K) (hT : 0 ≤ T) : Planner.clampTime l T = max 0 (min l T) := by
  unfold Planner.clampTime
  by_cases h0 : l < 0
  · simp only [h0, if_true]
    rw [if_neg (not_lt.mpr hT), max_eq_left]
    exact (min_le_left _ _).trans h0.le
  · simp only [h0, if_false]
    push Not at h0
    by_cases h1 : l > T
    · rw [if_pos h1, min_eq_right h1.le, max_eq_right hT]
    · rw [if_neg h1, min_eq_left (not_lt.mp h1), max_eq_right h0]

theorem usable_maxTime_nonneg {tr : Trajectory K} (h : Usable tr) : 0 ≤ tr.maxTime := by
  rw [h.2.2.1.1]
  exact duration_nonneg _ (fun s hs => (h.2.2.2.1 s hs).le)

theorem usable_evaluate {tr : Trajectory K} (h : Usable tr) (t : K) (k : ℕ) (h0 : 0 ≤ t) (h1 : t ≤ tr.maxTime) :
    ∃ v : V3 K, tr.evaluate t k = .ok [v.x, v.y, v.z] := by
  obtain ⟨hD, hne, hc, hpos, hreg⟩ := h
  obtain ⟨x, hx, hl⟩ := evaluate_total tr t k hc (fun s hs => (hpos s hs).le) hreg hne h0 (by rw [← hc.1]; exact h1)
  rw [hD] at hl
  match x, hl with
  | [a, b, c], _ => exact ⟨⟨a, b, c⟩, hx⟩

theorem clamp_mem (l T : K) (hT : 0 ≤ T) : 0 ≤ max 0 (min l T) ∧ max 0 (min l T) ≤ T :=
  ⟨le_max_left _ _, max_le hT (min_le_right _ _)⟩

theorem compensateLoop_ok (env : Env K) (t : K) (k : ℕ) (ws : List (Waypoint K)) (acc v : V3 K)
    (h : Planner.compensateLoop env t k ws acc = .ok v) : ∃ cs : List (V3 K),
      List.Forall₂ (fun w c => w.trajectoryCompensation env.exp t k = .ok c) (ws.filter fun w => w.name ≠ "") cs ∧
      ∀ a, comp v a = comp acc a + (cs.map fun c => comp c a).sum := by
  induction ws generalizing acc with
  | nil => rw [← Except.ok.inj h]; exact ⟨[], .nil, by simp⟩
  | cons w ws ih =>
    unfold Planner.compensateLoop at h
    by_cases hn : w.name = ""
    · rw [if_pos hn] at h
      rw [List.filter_cons_of_neg (by simp [hn])]
      exact ih acc h
    · rw [if_neg hn] at h
      rw [List.filter_cons_of_pos (by simp [hn])]
      simp only [bind, Except.bind] at h
      split at h
      · cases h
      · rename_i c hc
        obtain ⟨cs, h1, h2⟩ := ih _ h
        refine ⟨c :: cs, .cons hc h1, ?_⟩
        intro a
        rw [h2 a]
        cases a <;> simp [comp, V3.add] <;> ring

theorem evaluateModified_ok (env : Env K) (s : Planner K) (tr : Trajectory K) (hu : Usable tr) (g l : K) (k : ℕ) (v : V3 K)
    (h : s.evaluateModified env tr g l k = .ok v) : IsReference env tr s.dyn l g k v := by
  unfold Planner.evaluateModified at h
  rw [clampTime_eq l _ (usable_maxTime_nonneg hu)] at h
  obtain ⟨b, hb⟩ := usable_evaluate hu (max 0 (min l tr.maxTime)) k (clamp_mem _ _ (usable_maxTime_nonneg hu)).1 (clamp_mem _ _ (usable_maxTime_nonneg hu)).2
  rw [hb] at h
  simp only [bind, Except.bind, V3.ofList] at h
  refine ⟨b, hb, ?_, ?_⟩
  · intro hg
    rw [if_neg (not_lt.mpr hg)] at h
    exact (Except.ok.inj h).symm
  · intro hg
    rw [if_pos hg] at h
    exact compensateLoop_ok env g k s.dyn b v h

/-! ### Totality -/

theorem eval_total (exp : K → K) (m : Modifier K) (t : K) (k : Int) (h : m.sigmaSq ≠ 0) : ∃ x, m.eval exp t k = .ok x := by
  unfold Modifier.eval
  split
  · exact ⟨_, rfl⟩
  · split
    · exact ⟨_, rfl⟩
    · split
      · exact ⟨_, rfl⟩
      · split
        · exact ⟨_, rfl⟩
        · exact ⟨_, rfl⟩

theorem compensation_total (exp : K → K) (w : Waypoint K) (t : K) (k : Int) (h : ∀ m ∈ w.modifiers, ∀ a, (comp m a).sigmaSq ≠ 0) :
    ∃ c, w.trajectoryCompensation exp t k = .ok c := by
  unfold Waypoint.trajectoryCompensation
  have : ∀ (ms : List (V3 (Modifier K))) (acc : V3 K), (∀ m ∈ ms, ∀ a, (comp m a).sigmaSq ≠ 0) →
      ∃ c, Waypoint.compensationLoop exp t k ms acc = .ok c := by
    intro ms
    induction ms with
    | nil => exact fun acc _ => ⟨acc, rfl⟩
    | cons m ms ih =>
      intro acc hm
      obtain ⟨a, ha⟩ := eval_total exp m.x t k (hm m (by simp) .x)
      obtain ⟨b, hb⟩ := eval_total exp m.y t k (hm m (by simp) .y)
      obtain ⟨c, hc⟩ := eval_total exp m.z t k (hm m (by simp) .z)
      simp only [Waypoint.compensationLoop, bind, Except.bind, ha, hb, hc]
      exact ih _ (fun m' hm' => hm m' (by simp [hm']))
  exact this w.modifiers _ h

theorem compensateLoop_total (env : Env K) (t : K) (k : ℕ) (ws : List (Waypoint K)) (acc : V3 K) (h : NoZeroWidth ws) :
    ∃ v, Planner.compensateLoop env t k ws acc = .ok v := by
  induction ws generalizing acc with
  | nil => exact ⟨acc, rfl⟩
  | cons w ws ih =>
    unfold Planner.compensateLoop
    split
    · exact ih acc (fun w hw => h w (by simp [hw]))
    · obtain ⟨c, hc⟩ := compensation_total env.exp w t k (h w (by simp))
      simp only [hc, bind, Except.bind]
      exact ih _ (fun w hw => h w (by simp [hw]))

theorem evaluateModified_total (env : Env K) (s : Planner K) (tr : Trajectory K) (hu : Usable tr) (hz : NoZeroWidth s.dyn) (g l : K) (k : ℕ) :
    ∃ v, s.evaluateModified env tr g l k = .ok v := by
  unfold Planner.evaluateModified
  rw [clampTime_eq l _ (usable_maxTime_nonneg hu)]
  obtain ⟨b, hb⟩ := usable_evaluate hu (max 0 (min l tr.maxTime)) k (clamp_mem _ _ (usable_maxTime_nonneg hu)).1 (clamp_mem _ _ (usable_maxTime_nonneg hu)).2
  rw [hb]
  simp only [bind, Except.bind, V3.ofList]
  split
  · exact compensateLoop_total env g k s.dyn _ hz
  · exact ⟨_, rfl⟩

theorem getReferences_total (env : Env K) (s : Planner K) (tr : Trajectory K) (hu : Usable tr) (hz : NoZeroWidth s.dyn) (g l : K) (o : Bool) :
    ∃ v, s.getReferences env tr g l o = .ok v := by
  obtain ⟨p, hp⟩ := evaluateModified_total env s tr hu hz g l 0
  obtain ⟨v, hv⟩ := evaluateModified_total env s tr hu hz g l 1
  obtain ⟨a, ha⟩ := evaluateModified_total env s tr hu hz g l 2
  unfold Planner.getReferences
  simp only [hp, hv, ha, bind, Except.bind]
  split
  · exact ⟨_, rfl⟩
  · exact ⟨_, rfl⟩

/-! ### Failures -/

theorem eval_fail (exp : K → K) (m : Modifier K) (t : K) (k : Int) (e : Fail) (h : m.eval exp t k = .error e) : e = .nonfinite := by
  unfold Modifier.eval at h
  split at h
  · cases h
  · split at h
    · split at h
      · cases h; rfl
      · cases h
    · split at h
      · split at h
        · cases h; rfl
        · cases h
      · split at h
        · split at h
          · cases h; rfl
          · cases h
        · cases h

theorem compensation_fail (exp : K → K) (w : Waypoint K) (t : K) (k : Int) (e : Fail) (h : w.trajectoryCompensation exp t k = .error e) :
    e = .nonfinite := by
  unfold Waypoint.trajectoryCompensation at h
  have : ∀ (ms : List (V3 (Modifier K))) (acc : V3 K), Waypoint.compensationLoop exp t k ms acc = .error e → e = .nonfinite := by
    intro ms
    induction ms with
    | nil => intro acc h; cases h
    | cons m ms ih =>
      intro acc h
      simp only [Waypoint.compensationLoop, bind, Except.bind] at h
      split at h
      · rename_i hx; cases h; exact eval_fail exp _ t k _ hx
      · split at h
        · rename_i hx; cases h; exact eval_fail exp _ t k _ hx
        · split at h
          · rename_i hx; cases h; exact eval_fail exp _ t k _ hx
          · exact ih _ h
  exact this _ _ h

theorem compensateLoop_fail (env : Env K) (t : K) (k : ℕ) (ws : List (Waypoint K)) (acc : V3 K) (e : Fail)
    (h : Planner.compensateLoop env t k ws acc = .error e) : e = .nonfinite := by
  induction ws generalizing acc with
  | nil => cases h
  | cons w ws ih =>
    unfold Planner.compensateLoop at h
    split at h
    · exact ih acc h
    · simp only [bind, Except.bind] at h
      split at h
      · rename_i hx; cases h; exact compensation_fail env.exp w t k _ hx
      · exact ih _ h

theorem evaluateModified_fail (env : Env K) (s : Planner K) (tr : Trajectory K) (hu : Usable tr) (g l : K) (k : ℕ) (e : Fail)
    (h : s.evaluateModified env tr g l k = .error e) : e = .nonfinite := by
  unfold Planner.evaluateModified at h
  rw [clampTime_eq l _ (usable_maxTime_nonneg hu)] at h
  obtain ⟨b, hb⟩ := usable_evaluate hu (max 0 (min l tr.maxTime)) k (clamp_mem _ _ (usable_maxTime_nonneg hu)).1 (clamp_mem _ _ (usable_maxTime_nonneg hu)).2
  rw [hb] at h
  simp only [bind, Except.bind, V3.ofList] at h
  split at h
  · exact compensateLoop_fail env g k s.dyn _ e h
  · cases h

theorem getReferences_fail (env : Env K) (s : Planner K) (tr : Trajectory K) (hu : Usable tr) (g l : K) (o : Bool) (e : Fail)
    (h : s.getReferences env tr g l o = .error e) : e = .nonfinite := by
  unfold Planner.getReferences at h
  simp only [bind, Except.bind] at h
  split at h
  · rename_i hx; cases h; exact evaluateModified_fail env s tr hu g l 0 _ hx
  · split at h
    · cases h
    · split at h
      · rename_i hx; cases h; exact evaluateModified_fail env s tr hu g l 1 _ hx
      · split at h
        · rename_i hx; cases h; exact evaluateModified_fail env s tr hu g l 2 _ hx
        · cases h

theorem fitLoop_fail (env : Env K) (s : Planner K) (tr : Trajectory K) (hu : Usable tr) (target : V3 K) (n i : ℕ) (d m : K) (e : Fail)
    (h : s.fitLoop env tr target n i d m = .error e) : e = .nonfinite := by
  induction n generalizing i d m with
  | zero => cases h
  | succ n ih =>
    simp only [Planner.fitLoop, bind, Except.bind] at h
    split at h
    · rename_i hx; cases h; exact evaluateModified_fail env s tr hu _ _ 0 _ hx
    · split at h
      · exact ih _ _ _ h
      · exact ih _ _ _ h

theorem timeFitting_fail (env : Env K) (s : Planner K) (tr : Trajectory K) (hu : Usable tr) (target : V3 K) (e : Fail)
    (h : s.timeFitting env tr target = .error e) : e = .nonfinite := by
  unfold Planner.timeFitting at h
  simp only [bind, Except.bind] at h
  split at h
  · rename_i hx; cases h; exact evaluateModified_fail env s tr hu _ _ 0 _ hx
  · split at h
    · rename_i hx; cases h; exact fitLoop_fail env s tr hu target _ _ _ _ _ hx
    · cases h

end Verif.Lemmas
