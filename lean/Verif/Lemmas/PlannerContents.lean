import Verif.Lemmas.PlannerFail
import Verif.Lemmas.PlannerRequests

/-!
# What the waypoints collected for a plan are
-/

set_option linter.unusedSectionVars false
set_option linter.unusedSimpArgs false

namespace Verif.Lemmas
open Verif Verif.Spec

variable {K : Type*} [Field K] [LinearOrder K] [IsStrictOrderedRing K] [FloorSemiring K]

theorem becomes_of_reset (u w w' : Waypoint K) (p : V3 K) (hb : Bookkept u) (hn : u.name = w.name) (ht : u.time = w.time)
    (hc : ∀ k : Int, k ≠ 0 → u.vertex.getConstraint k = w.vertex.getConstraint k) (h : u.reset p = .ok w') : Becomes (some p) w w' := by
  obtain ⟨v, hv, rfl⟩ := reset_frame u w' p h
  obtain ⟨_, _, h3⟩ := addConstraint_bookkept u.vertex v 0 p hb.1 hb.2.1 hv
  refine ⟨hn, ht, rfl, ?_, ?_⟩
  · exact (h3 0).trans (if_pos rfl)
  · intro k hk
    exact ((h3 k).trans (if_neg hk)).trans (hc k hk)

theorem becomes_of_same (u w : Waypoint K) (hb : Bookkept u) (hn : u.name = w.name) (ht : u.time = w.time) (hcur : u.current = w.current)
    (hc : ∀ k : Int, k ≠ 0 → u.vertex.getConstraint k = w.vertex.getConstraint k) : Becomes none w u :=
  ⟨hn, ht, hcur, hb.2.2.1, hc⟩

theorem generated_contents (s s' : Planner K) (g : Requests K) (ht : Tracks g s) (hw : WpInv s) (ws : List (Waypoint K))
    (hg : s.generateWaypoints = .ok (ws, s')) :
    List.Forall₂ (fun w w' => Becomes (updateFor g.updates w) w w')
      ((if g.route.isEmpty then s.dyn.filter (fun w => s.params.lastGlobal ≤ w.time) else g.route) ++ g.appended) ws := by
  obtain ⟨base, hall, hbase⟩ := generateWaypoints_form s ws _ hg
  have hrel := resetAll_rel s.toModify ht.nodup _ _ hall
  -- the waypoints before the updates
  have hsrc : List.Forall₂ (fun w u : Waypoint K => Bookkept u ∧ u.name = w.name ∧ u.time = w.time ∧ u.current = w.current ∧
      ∀ k : Int, k ≠ 0 → u.vertex.getConstraint k = w.vertex.getConstraint k)
      ((if g.route.isEmpty then s.dyn.filter (fun w => s.params.lastGlobal ≤ w.time) else g.route) ++ g.appended)
      (base ++ s.toAdd.map (·.copy)) := by
    apply List.rel_append
    · rcases hbase with ⟨h0, hf⟩ | ⟨h0, rfl⟩
      · have hroute : g.route = [] := by
          have := ht.toSet.symm.trans h0
          simpa using this
        rw [hroute]
        simp only [List.isEmpty_nil, if_true]
        have hfil : s.filterPassed (s.dyn.map (·.copy)) = (s.dyn.filter (fun w => s.params.lastGlobal ≤ w.time)).map (·.copy) := by
          unfold Planner.filterPassed
          rw [List.filter_map]
          congr 1
          apply List.filter_congr
          intro w _
          simp only [Function.comp]
          rw [← decide_not, decide_eq_decide, not_lt]; rfl
        rw [hfil] at hf
        rw [List.forall₂_map_left_iff] at hf
        refine forall2_imp_mem hf ?_
        intro a ha b hab
        have hab' := hw.dyn a (List.mem_filter.mp ha).1
        obtain ⟨v', hv', rfl⟩ := resetCurrent_frame _ _ hab
        obtain ⟨_, _, h3⟩ := addConstraint_bookkept a.vertex v' 0 a.current hab'.1 hab'.2.1 hv'
        exact ⟨step_bookkept .resetCurrent a.copy _ hab (copy_bookkept hab'), rfl, rfl, rfl, fun k hk => (h3 k).trans (if_neg hk)⟩
      · have hroute : g.route ≠ [] := by
          intro hr
          apply h0
          rw [ht.toSet, hr]; rfl
        have hne : g.route.isEmpty = false := by simpa using hroute
        rw [hne]
        simp only [Bool.false_eq_true, if_false]
        rw [ht.toSet, List.map_map, List.forall₂_map_right_iff, List.forall₂_same]
        intro w hwm
        refine ⟨?_, rfl, rfl, rfl, fun _ _ => rfl⟩
        have := hw.toSet w.copy (by rw [ht.toSet]; exact List.mem_map.mpr ⟨w, hwm, rfl⟩)
        exact copy_bookkept this
    · rw [ht.toAdd, List.map_map, List.forall₂_map_right_iff, List.forall₂_same]
      intro w hwm
      refine ⟨?_, rfl, rfl, rfl, fun _ _ => rfl⟩
      have := hw.toAdd w.copy (by rw [ht.toAdd]; exact List.mem_map.mpr ⟨w, hwm, rfl⟩)
      exact copy_bookkept this
  refine forall2_comp ?_ hsrc hrel
  intro w u w' ⟨hb, hn, htm, hcur, hcon⟩ hr
  unfold updateFor
  rcases hr with ⟨h0, rfl⟩ | ⟨h0, ⟨hl, rfl⟩ | ⟨p, hl, hres⟩⟩
  · rw [if_pos (hn ▸ h0)]
    exact becomes_of_same w' w hb hn htm hcur hcon
  · rw [if_neg (hn ▸ h0), ← ht.lookup, ← hn, hl]
    exact becomes_of_same w' w hb hn htm hcur hcon
  · rw [if_neg (hn ▸ h0), ← ht.lookup, ← hn, hl]
    exact becomes_of_reset u w w' p hb hn htm hcon hres

end Verif.Lemmas
