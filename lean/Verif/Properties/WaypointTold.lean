import Verif.Spec.WaypointTold
import Verif.Lemmas.Waypoint

/-!
# Property C154: what a waypoint says about itself is what it was told last
-/

set_option linter.unusedSectionVars false

namespace Verif.Properties
open Verif Verif.Spec Verif.Lemmas

section
variable {K : Type*} [Field K] [LinearOrder K] [IsStrictOrderedRing K]

/-- One constraint set. -/
theorem constrained_reads (w : Waypoint K) (r : ToldWaypoint K) (hD : w.vertex.D = 3) (hwf : WellFormed w.vertex) (hr : ReadsAs w r) (k : Int) (c : V3 K) :
    ∃ v, w.vertex.addConstraint k c.toList = .ok v ∧ v.D = 3 ∧ WellFormed v ∧
      ∀ j : Int, v.getConstraint j = ((r.constrained k c).constraint j).map fun c => [c.x, c.y, c.z] := by
  obtain ⟨v, h1, h2, h3, h4⟩ := addConstraint_ok w.vertex k c.toList hwf (by rw [hD]; rfl)
  refine ⟨v, h1, h2.trans hD, h3, fun j => ?_⟩
  rw [h4 j]
  unfold ToldWaypoint.constrained
  by_cases hj : j = k
  · simp only [if_pos hj]; rfl
  · simp only [if_neg hj]; exact hr.constraint j

theorem told_step (o : WaypointOp K) (w : Waypoint K) (r : ToldWaypoint K) (hD : w.vertex.D = 3) (hwf : WellFormed w.vertex) (hr : ReadsAs w r) :
    ∃ w', o.run w = .ok w' ∧ w'.vertex.D = 3 ∧ WellFormed w'.vertex ∧ ReadsAs w' (r.after o) := by
  have replan : ∀ p : V3 K, ∃ w', w.reset p = .ok w' ∧ w'.vertex.D = 3 ∧ WellFormed w'.vertex ∧ ReadsAs w' (r.replanned p) := by
    intro p
    obtain ⟨v, h1, h2, h3, h4⟩ := constrained_reads w r hD hwf hr 0 p
    refine ⟨{ w with current := p, original := p, vertex := v, modifiers := [] }, ?_, h2, h3, ⟨hr.name, hr.index, hr.time, rfl, rfl, rfl, h4⟩⟩
    unfold Waypoint.reset Waypoint.resetWithCurrent
    simp only [h1, bind, Except.bind, pure, Except.pure]
  cases o with
  | update p a =>
    obtain ⟨v, h1, h2, h3, h4⟩ := constrained_reads w r hD hwf hr 0 p
    simp only [WaypointOp.run, Waypoint.setCurrentPosition, h1, bind, Except.bind, pure, Except.pure]
    refine ⟨_, rfl, h2, h3, ⟨hr.name, hr.index, hr.time, hr.planned, rfl, ?_, h4⟩⟩
    simp [Waypoint.hasModifiers, ToldWaypoint.after]
  | setTime t =>
    refine ⟨_, rfl, hD, hwf, ⟨hr.name, hr.index, rfl, hr.planned, hr.current, ?_, hr.constraint⟩⟩
    rw [show (r.after (.setTime t)).moved = r.moved from rfl, ← hr.moved]
    simp [Waypoint.hasModifiers, Waypoint.setTime]
  | setIndex i => exact ⟨_, rfl, hD, hwf, ⟨hr.name, rfl, hr.time, hr.planned, hr.current, hr.moved, hr.constraint⟩⟩
  | displaceIndex d => exact ⟨_, rfl, hD, hwf, ⟨hr.name, congrArg (· + d) hr.index, hr.time, hr.planned, hr.current, hr.moved, hr.constraint⟩⟩
  | setName n => exact ⟨_, rfl, hD, hwf, ⟨rfl, hr.index, hr.time, hr.planned, hr.current, hr.moved, hr.constraint⟩⟩
  | resetCurrent =>
    obtain ⟨w', h⟩ := replan w.current
    refine ⟨w', h.1, h.2.1, h.2.2.1, ?_⟩
    show ReadsAs w' (r.replanned r.current)
    rw [← hr.current]
    exact h.2.2.2
  | reset p => exact replan p
  | constrain k c =>
    by_cases hk : k = 0
    · simp only [WaypointOp.run, Waypoint.setConstraint, ToldWaypoint.after, if_pos hk]
      exact replan c
    · obtain ⟨v, h1, h2, h3, h4⟩ := constrained_reads w r hD hwf hr k c
      simp only [WaypointOp.run, Waypoint.setConstraint, ToldWaypoint.after, if_neg hk, h1, bind, Except.bind, pure, Except.pure]
      exact ⟨_, rfl, h2, h3, ⟨hr.name, hr.index, hr.time, hr.planned, hr.current, hr.moved, h4⟩⟩
  | copy => exact ⟨_, rfl, hD, hwf, ⟨hr.name, hr.index, hr.time, hr.planned, hr.current, hr.moved, hr.constraint⟩⟩

/-- C154: no operation on a waypoint in space fails, and after any sequence of operations the waypoint reads as the record of what it was told says. -/
theorem C154_told (ops : List (WaypointOp K)) (w : Waypoint K) (r : ToldWaypoint K) (hD : w.vertex.D = 3) (hwf : WellFormed w.vertex) (hr : ReadsAs w r) :
    ∃ w', runOps ops w = .ok w' ∧ ReadsAs w' (ops.foldl ToldWaypoint.after r) := by
  induction ops generalizing w r with
  | nil => exact ⟨w, rfl, hr⟩
  | cons o os ih =>
    obtain ⟨w1, h1, h2, h3, h4⟩ := told_step o w r hD hwf hr
    obtain ⟨w', h5, h6⟩ := ih w1 (r.after o) h2 h3 h4
    exact ⟨w', by simp only [runOps, h1, bind, Except.bind]; exact h5, h6⟩

/-- C154 from construction without arguments: no name, the index -1, the time 0, no compensations and no constraints; the positions are whatever was in memory. -/
theorem C154_from_nothing (ops : List (WaypointOp K)) (o c : V3 K) :
    ∃ w, runOps ops (Waypoint.default o c) = .ok w ∧ ReadsAs w (ops.foldl ToldWaypoint.after ⟨"", -1, 0, o, c, false, fun _ => none⟩) :=
  C154_told ops _ _ rfl (wellFormed_mk' 3) ⟨rfl, rfl, rfl, rfl, rfl, rfl, fun _ => rfl⟩

/-- C154 from construction with a vertex in space and an index: the waypoint has them, the name given, the time 0 and the position of the vertex; without an index it
has the index -1; a vertex without a position cannot be used. -/
theorem C154_from_vertex (ops : List (WaypointOp K)) (v : Vertex K) (hD : v.D = 3) (hwf : WellFormed v) (name : String) (index : Int) :
    (∀ (p : V3 K) (cs : Int → Option (V3 K)), (∀ k, v.getConstraint k = (cs k).map fun c => [c.x, c.y, c.z]) → cs 0 = some p →
      (∃ w w', Waypoint.ofVertexIndex v index name = .ok w ∧ runOps ops w = .ok w' ∧ ReadsAs w' (ops.foldl ToldWaypoint.after ⟨name, index, 0, p, p, false, cs⟩)) ∧
      ∃ w w', Waypoint.ofVertex v name = .ok w ∧ runOps ops w = .ok w' ∧ ReadsAs w' (ops.foldl ToldWaypoint.after ⟨name, -1, 0, p, p, false, cs⟩)) ∧
    (v.getConstraint 0 = none → Waypoint.ofVertexIndex v index name = .error .ub ∧ Waypoint.ofVertex v name = .error .ub) := by
  refine ⟨?_, ?_⟩
  · intro p cs hcs hp
    have h0 := hcs 0
    rw [hp] at h0
    have h1 : Waypoint.ofVertex v name = .ok ⟨v, p, p, 0, name, -1, [], sigmaFixed⟩ := by
      simp only [Waypoint.ofVertex, h0, Option.map_some]
      rfl
    have h2 : Waypoint.ofVertexIndex v index name = .ok ⟨v, p, p, 0, name, index, [], sigmaFixed⟩ := by
      unfold Waypoint.ofVertexIndex
      rw [h1]
      rfl
    obtain ⟨w1, k1, k2⟩ := C154_told ops (⟨v, p, p, 0, name, index, [], sigmaFixed⟩ : Waypoint K) ⟨name, index, 0, p, p, false, cs⟩ hD hwf
      ⟨rfl, rfl, rfl, rfl, rfl, rfl, hcs⟩
    obtain ⟨w2, k3, k4⟩ := C154_told ops (⟨v, p, p, 0, name, -1, [], sigmaFixed⟩ : Waypoint K) ⟨name, -1, 0, p, p, false, cs⟩ hD hwf
      ⟨rfl, rfl, rfl, rfl, rfl, rfl, hcs⟩
    exact ⟨⟨_, w1, h2, k1, k2⟩, _, w2, h1, k3, k4⟩
  · intro h0
    have h1 : Waypoint.ofVertex v name = .error .ub := by
      simp only [Waypoint.ofVertex, h0]
      rfl
    refine ⟨?_, h1⟩
    unfold Waypoint.ofVertexIndex
    rw [h1]
    rfl

-- A sequence of operations and what it leaves.
example : ∃ w : Waypoint ℚ, runOps [.setName "gate", .reset ⟨1, 2, 3⟩, .setIndex 4, .displaceIndex (-2), .setTime 7, .update ⟨2, 2, 3⟩ 1, .constrain 1 ⟨0, 0, 1⟩, .copy]
      (Waypoint.default ⟨9, 9, 9⟩ ⟨8, 8, 8⟩) = .ok w ∧ w.name = "gate" ∧ w.index = 2 ∧ w.time = 7 ∧ w.original = ⟨1, 2, 3⟩ ∧ w.current = ⟨2, 2, 3⟩ ∧
    w.hasModifiers = true ∧ w.vertex.getConstraint 1 = some [0, 0, 1] := by
  obtain ⟨w, h1, h2⟩ := C154_from_nothing (K := ℚ) [.setName "gate", .reset ⟨1, 2, 3⟩, .setIndex 4, .displaceIndex (-2), .setTime 7, .update ⟨2, 2, 3⟩ 1,
    .constrain 1 ⟨0, 0, 1⟩, .copy] ⟨9, 9, 9⟩ ⟨8, 8, 8⟩
  exact ⟨w, h1, h2.name, h2.index, h2.time, h2.planned, h2.current, h2.moved, h2.constraint 1⟩

-- A vertex with a position and a velocity.
example : ∃ v : Vertex ℚ, v.D = 3 ∧ WellFormed v ∧
    ∀ k, v.getConstraint k = ((fun k : Int => if k = 0 then some (⟨1, 2, 3⟩ : V3 ℚ) else if k = 1 then some ⟨0, 0, 1⟩ else none) k).map fun c => [c.x, c.y, c.z] := by
  obtain ⟨v1, _, h2, h3, h4⟩ := addConstraint_ok (Vertex.mk' 3 : Vertex ℚ) 0 [1, 2, 3] (wellFormed_mk' 3) rfl
  obtain ⟨v2, _, k2, k3, k4⟩ := addConstraint_ok v1 1 [0, 0, 1] h3 (by rw [h2]; rfl)
  refine ⟨v2, k2.trans h2, k3, fun k => ?_⟩
  rw [k4 k]
  by_cases h : k = 1
  · subst h; rfl
  · rw [if_neg h, h4 k]
    by_cases h' : k = 0
    · subst h'; rfl
    · simp only [if_neg h', if_neg h]; rfl

end

end Verif.Properties
