import Mathlib.Tactic.FieldSimp
import Mathlib.Tactic.Linarith
import Mathlib.Tactic.Ring
import Mathlib.Tactic.Positivity
import Verif.Spec.Waypoint
import Verif.Lemmas.Vertex

/-! # Lemmas about waypoints and compensations -/

set_option linter.unusedSectionVars false
set_option linter.unusedSimpArgs false

namespace Verif.Lemmas
open Verif Verif.Spec

theorem comp_ext {α : Type*} {v w : V3 α} (h : ∀ a, comp v a = comp w a) : v = w := by
  have hx := h .x; have hy := h .y; have hz := h .z
  cases v; cases w
  simp only [comp] at hx hy hz
  subst hx hy hz; rfl

section
variable {K : Type*} [Field K] [LinearOrder K] [IsStrictOrderedRing K] (exp : K → K)

theorem setCurrentPosition_eq (w w' : Waypoint K) (p : V3 K) (a : K) (h : w.setCurrentPosition p a = .ok w') :
    ∃ v, w.vertex.addConstraint 0 p.toList = .ok v ∧
      w' = { w with
        vertex := v, current := p,
        modifiers := w.modifiers ++ [⟨(Waypoint.axisModifier w.time a w.lastSigma (p.x - w.current.x)).1,
          (Waypoint.axisModifier w.time a (Waypoint.axisModifier w.time a w.lastSigma (p.x - w.current.x)).2 (p.y - w.current.y)).1,
          (Waypoint.axisModifier w.time a (Waypoint.axisModifier w.time a
            (Waypoint.axisModifier w.time a w.lastSigma (p.x - w.current.x)).2 (p.y - w.current.y)).2 (p.z - w.current.z)).1⟩],
        lastSigma := (Waypoint.axisModifier w.time a (Waypoint.axisModifier w.time a
            (Waypoint.axisModifier w.time a w.lastSigma (p.x - w.current.x)).2 (p.y - w.current.y)).2 (p.z - w.current.z)).2 } := by
  unfold Waypoint.setCurrentPosition at h
  cases hv : w.vertex.addConstraint 0 p.toList with
  | error e => rw [hv] at h; simp [bind, Except.bind] at h
  | ok v =>
    rw [hv] at h
    exact ⟨v, rfl, (Except.ok.inj h).symm⟩

theorem addConstraint_inv {v v' : Vertex K} {k : Int} {c : List K} (h : v.addConstraint k c = .ok v') :
    c.length = v.D ∧ v'.D = v.D ∧ v'.constraints = IntMap.insert k c v.constraints := by
  unfold Vertex.addConstraint at h
  split at h
  · rename_i hl
    rw [← Except.ok.inj h]
    exact ⟨hl, rfl, rfl⟩
  · cases h

theorem addConstraint3 (v : Vertex K) (k : Int) (p : V3 K) (h : v.D = 3) :
    ∃ v', v.addConstraint k p.toList = .ok v' ∧ v'.D = 3 := by
  unfold Vertex.addConstraint
  rw [if_pos (by simp [V3.toList, h])]
  exact ⟨_, rfl, h⟩

/-- The width the code gives to each axis of an update. -/
def width (T τ lastSigma : K) : Axis → K
  | .x => if 0 < τ then (T - τ) / 3 else lastSigma * sigmaCoefficient
  | .y => if 0 < τ then (T - τ) / 3 else lastSigma * sigmaCoefficient * sigmaCoefficient
  | .z => if 0 < τ then (T - τ) / 3 else lastSigma * sigmaCoefficient * sigmaCoefficient * sigmaCoefficient

theorem setCurrentPosition_spec (w w' : Waypoint K) (p : V3 K) (τ : K) (h : w.setCurrentPosition p τ = .ok w') :
    ∃ v m, w.vertex.addConstraint 0 p.toList = .ok v ∧ w' = { w with
        vertex := v, current := p, modifiers := w.modifiers ++ [m],
        lastSigma := if 0 < τ then w.lastSigma else w.lastSigma * sigmaCoefficient * sigmaCoefficient * sigmaCoefficient } ∧
      ∀ a, comp m a = ⟨width w.time τ w.lastSigma a, width w.time τ w.lastSigma a * width w.time τ w.lastSigma a, w.time,
        comp p a - comp w.current a⟩ := by
  obtain ⟨v, hv, rfl⟩ := setCurrentPosition_eq w w' p τ h
  let g : Axis → Modifier K := fun a =>
    ⟨width w.time τ w.lastSigma a, width w.time τ w.lastSigma a * width w.time τ w.lastSigma a, w.time,
        comp p a - comp w.current a⟩
  refine ⟨v, ⟨g .x, g .y, g .z⟩, hv, ?_, by intro a; cases a <;> rfl⟩
  unfold Waypoint.axisModifier
  by_cases hτ : 0 < τ
  · simp [hτ, g, width, comp, Modifier.setSigma, Modifier.setModifierTime, Modifier.setDifference, Modifier.default]
  · simp [hτ, g, width, comp, Modifier.setSigma, Modifier.setModifierTime, Modifier.setDifference, Modifier.default]

theorem setCurrentPosition_ok (w : Waypoint K) (p : V3 K) (τ : K) (h : w.vertex.D = 3) : ∃ w', w.setCurrentPosition p τ = .ok w' := by
  obtain ⟨v, hv, _⟩ := addConstraint3 w.vertex 0 p h
  unfold Waypoint.setCurrentPosition
  rw [hv]
  exact ⟨_, rfl⟩

theorem compensationLoop_append (t : K) (k : Int) (ms ns : List (V3 (Modifier K))) (acc : V3 K) :
    Waypoint.compensationLoop exp t k (ms ++ ns) acc
      = (do let r ← Waypoint.compensationLoop exp t k ms acc; Waypoint.compensationLoop exp t k ns r) := by
  induction ms generalizing acc with
  | nil => rfl
  | cons m ms ih =>
    simp only [List.cons_append, Waypoint.compensationLoop, bind, Except.bind]
    cases m.x.eval exp t k <;> simp only
    cases m.y.eval exp t k <;> simp only
    cases m.z.eval exp t k <;> simp only
    exact ih _

theorem comp_eval_cons (t : K) (k : Int) (m : V3 (Modifier K)) (ms : List (V3 (Modifier K))) (acc d : V3 K)
    (h : ∀ a, (comp m a).eval exp t k = .ok (comp d a)) :
    Waypoint.compensationLoop exp t k (m :: ms) acc = Waypoint.compensationLoop exp t k ms (acc.add d) := by
  have hx := h .x; have hy := h .y; have hz := h .z
  simp only [comp] at hx hy hz
  simp only [Waypoint.compensationLoop, bind, Except.bind, hx, hy, hz]
  rfl

theorem compensationLoop_ok (t : K) (k : Int) (f : V3 (Modifier K) → Axis → K) (ms : List (V3 (Modifier K)))
    (h : ∀ m ∈ ms, ∀ a, (comp m a).eval exp t k = .ok (f m a)) (acc : V3 K) :
    ∃ r, Waypoint.compensationLoop exp t k ms acc = .ok r ∧ ∀ a, comp r a = comp acc a + (ms.map (fun m => f m a)).sum := by
  induction ms generalizing acc with
  | nil => exact ⟨acc, rfl, by simp⟩
  | cons m ms ih =>
    rw [comp_eval_cons exp t k m ms acc ⟨f m .x, f m .y, f m .z⟩ (by
      intro a; rw [h m (by simp) a]; cases a <;> rfl)]
    obtain ⟨r, hr, hra⟩ := ih (fun m' hm' => h m' (by simp [hm'])) (acc.add ⟨f m .x, f m .y, f m .z⟩)
    refine ⟨r, hr, ?_⟩
    intro a
    rw [hra a]
    cases a <;> simp [comp, V3.add, add_assoc]

/-- Effect of one appended modifier on the compensation. -/
theorem compensation_append (w w' : Waypoint K) (m : V3 (Modifier K)) (hm : w'.modifiers = w.modifiers ++ [m]) (t : K) (k : Int)
    (c : V3 K) (hc : w.trajectoryCompensation exp t k = .ok c) (d : V3 K) (hd : ∀ a, (comp m a).eval exp t k = .ok (comp d a)) :
    w'.trajectoryCompensation exp t k = .ok (c.add d) := by
  unfold Waypoint.trajectoryCompensation at hc ⊢
  rw [hm, compensationLoop_append, hc]
  simp only [bind, Except.bind]
  rw [comp_eval_cons exp t k m [] c d hd]
  rfl

theorem eval_outside (m : Modifier K) (t : K) (k : Int) (h : 7 / 2 * m.sigma < |t - m.mu|) : m.eval exp t k = .ok 0 := by
  unfold Modifier.eval
  rw [if_pos (Or.inr h)]

theorem eval_small (m : Modifier K) (t : K) (k : Int) (h : |m.increment| < 2 / 100) : m.eval exp t k = .ok 0 := by
  unfold Modifier.eval
  rw [if_pos (Or.inl h)]

theorem eval_active (m : Modifier K) (t : K) (hi : 2 / 100 ≤ |m.increment|) (hw : |t - m.mu| ≤ 7 / 2 * m.sigma) (hs : m.sigmaSq ≠ 0) :
    m.eval exp t 0 = .ok (exp (-1 * (t - m.mu) * (t - m.mu) / (2 * m.sigmaSq)) * m.increment) ∧
    m.eval exp t 1 = .ok (-((t - m.mu) / m.sigmaSq) * exp (-((t - m.mu) * (t - m.mu)) / (2 * m.sigmaSq)) * m.increment) ∧
    m.eval exp t 2 = .ok (((t - m.mu) / m.sigmaSq) * ((t - m.mu) / m.sigmaSq)
      * exp (-((t - m.mu) * (t - m.mu)) / (2 * m.sigmaSq)) * m.increment) := by
  unfold Modifier.eval
  have h : ¬ (|m.increment| < 2 / 100 ∨ |t - m.mu| > 7 / 2 * m.sigma) := by
    rw [not_or]; exact ⟨not_lt.mpr hi, not_lt.mpr hw⟩
  simp only [if_neg h, if_neg hs]
  refine ⟨?_, ?_, ?_⟩ <;> simp

theorem eval_other (m : Modifier K) (t : K) (k : Int) (h0 : k ≠ 0) (h1 : k ≠ 1) (h2 : k ≠ 2) : m.eval exp t k = .ok 0 := by
  unfold Modifier.eval
  split
  · rfl
  · simp [h0, h1, h2]

end

section
variable {K : Type*} [Field K] [LinearOrder K] [IsStrictOrderedRing K]

theorem addConstraint_bookkept (v v' : Vertex K) (k : Int) (c : V3 K) (hD : v.D = 3) (hwf : WellFormed v)
    (h : v.addConstraint k c.toList = .ok v') : v'.D = 3 ∧ WellFormed v' ∧
      ∀ j, v'.getConstraint j = if j = k then some c.toList else v.getConstraint j := by
  obtain ⟨w, h1, h2, h3, h4⟩ := addConstraint_ok v k c.toList hwf (by rw [hD]; rfl)
  rw [h] at h1
  rw [Except.ok.inj h1]
  exact ⟨h2.trans hD, h3, h4⟩

theorem sum_increment_retime (ms : List (V3 (Modifier K))) (t : K) (a : Axis) :
    ((ms.map fun m => (⟨m.x.setModifierTime t, m.y.setModifierTime t, m.z.setModifierTime t⟩ : V3 (Modifier K))).map
      (fun m => (comp m a).increment)) = ms.map (fun m => (comp m a).increment) := by
  rw [List.map_map]
  apply List.map_congr_left
  intro m _
  cases a <;> rfl

theorem reset_bookkept (w w' : Waypoint K) (p : V3 K) (hD : w.vertex.D = 3) (hwf : WellFormed w.vertex) (h : w.reset p = .ok w') :
    Bookkept w' := by
  unfold Waypoint.reset Waypoint.resetWithCurrent at h
  simp only [bind, Except.bind] at h
  cases hv : w.vertex.addConstraint 0 p.toList with
  | error e => rw [hv] at h; cases h
  | ok v =>
    rw [hv] at h
    rw [← Except.ok.inj h]
    obtain ⟨g1, g2, g3⟩ := addConstraint_bookkept _ _ _ _ hD hwf hv
    exact ⟨g1, g2, by simp only; rw [g3 0, if_pos rfl]; rfl, fun _ => rfl, by simp, by simp⟩

theorem step_bookkept (o : WaypointOp K) (w w' : Waypoint K) (h : o.run w = .ok w') (hb : Bookkept w) : Bookkept w' := by
  obtain ⟨b1, b2, b3, b4, b5, b6⟩ := hb
  cases o with
  | update p τ =>
    obtain ⟨v, m, hv, rfl, hma⟩ := setCurrentPosition_spec w w' p τ h
    obtain ⟨g1, g2, g3⟩ := addConstraint_bookkept _ _ _ _ b1 b2 hv
    refine ⟨g1, g2, by simp only; rw [g3 0, if_pos rfl]; rfl, by simp, ?_, ?_⟩
    · intro m' hm' a
      rcases List.mem_append.mp hm' with h | h
      · exact b5 m' h a
      · rw [List.mem_singleton.mp h, hma a]
    · intro a
      simp only [List.map_append, List.map_cons, List.map_nil, List.sum_append, List.sum_cons, List.sum_nil, hma a]
      rw [← b6 a]; ring
  | setTime t =>
    rw [← Except.ok.inj h]
    refine ⟨b1, b2, b3, ?_, ?_, ?_⟩
    · intro h; exact b4 (by simpa [Waypoint.setTime] using h)
    · intro m hm a
      obtain ⟨m', _, rfl⟩ := List.mem_map.mp hm
      cases a <;> rfl
    · intro a
      simp only [Waypoint.setTime]
      rw [sum_increment_retime, b6 a]
  | setIndex i => rw [← Except.ok.inj h]; exact ⟨b1, b2, b3, b4, b5, b6⟩
  | displaceIndex i => rw [← Except.ok.inj h]; exact ⟨b1, b2, b3, b4, b5, b6⟩
  | setName i => rw [← Except.ok.inj h]; exact ⟨b1, b2, b3, b4, b5, b6⟩
  | resetCurrent => exact reset_bookkept w w' w.current b1 b2 h
  | reset p => exact reset_bookkept w w' p b1 b2 h
  | constrain k c =>
    simp only [WaypointOp.run, Waypoint.setConstraint] at h
    split at h
    · exact reset_bookkept w w' c b1 b2 h
    · rename_i hk
      simp only [bind, Except.bind] at h
      cases hv : w.vertex.addConstraint k c.toList with
      | error e => rw [hv] at h; cases h
      | ok v =>
        rw [hv] at h
        rw [← Except.ok.inj h]
        obtain ⟨g1, g2, g3⟩ := addConstraint_bookkept _ _ _ _ b1 b2 hv
        refine ⟨g1, g2, ?_, b4, b5, b6⟩
        simp only
        rw [g3 0, if_neg (fun h => hk h.symm)]
        exact b3
  | copy => rw [← Except.ok.inj h]; exact ⟨b1, b2, b3, b4, b5, b6⟩

theorem ofVertex_bookkept (v : Vertex K) (name : String) (hD : v.D = 3) (hwf : WellFormed v) (w : Waypoint K)
    (h : Waypoint.ofVertex v name = .ok w) : Bookkept w := by
  unfold Waypoint.ofVertex at h
  cases hp : v.getConstraint 0 with
  | none => rw [hp] at h; cases h
  | some p =>
    have hlen : p.length = 3 := by
      rw [← hD]
      exact hwf.2 (0, p) ((represents_getConstraint v hwf 0 p).mpr hp)
    match p, hlen with
    | [a, b, c], _ =>
      rw [hp] at h
      simp [bind, Except.bind, at?] at h
      rw [← Except.ok.inj h]
      exact ⟨hD, hwf, hp, fun _ => rfl, by simp, by simp⟩

end

theorem eval_at_center (m : Modifier ℝ) (hs : 0 < m.sigma) (hq : m.sigmaSq ≠ 0) (t : ℝ) (ht : t = m.mu)
    (h : m.increment = 0 ∨ 2 / 100 ≤ |m.increment|) : m.eval Real.exp t 0 = .ok m.increment := by
  rcases h with h | h
  · rw [eval_small _ _ _ _ (by rw [h]; norm_num), h]
  · rw [(eval_active Real.exp m t h (by rw [ht]; simp; linarith) hq).1, ht]
    simp

end Verif.Lemmas
