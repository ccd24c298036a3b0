import Verif.Lemmas.PlannerStitch
import Verif.Lemmas.PlannerRate

/-!
# Lemmas: the current plan between the preparation of the next one and its take-over
-/

set_option linter.unusedSectionVars false

namespace Verif.Lemmas
open Verif Verif.Spec

section
variable {K : Type*} [Field K] [LinearOrder K] [IsStrictOrderedRing K] [FloorSemiring K]

/-- The same plan with the same clock. -/
def SamePlan (s s' : Planner K) : Prop :=
  s'.traj = s.traj ∧ s'.params.gtlg = s.params.gtlg ∧ s'.params.tOffset = s.params.tOffset ∧ s'.dyn = s.dyn

theorem samePlan_refl (s : Planner K) : SamePlan s s := ⟨rfl, rfl, rfl, rfl⟩

theorem samePlan_trans {s s' s'' : Planner K} (h : SamePlan s s') (h' : SamePlan s' s'') : SamePlan s s'' :=
  ⟨h'.1.trans h.1, h'.2.1.trans h.2.1, h'.2.2.1.trans h.2.2.1, h'.2.2.2.trans h.2.2.2⟩

/-- The next plan is prepared or being computed. -/
def Underway (s : Planner K) : Prop := s.pc = .planned ∨ s.computing = true

theorem keep_micro (env : Env K) (e : Event K) (s s' : Planner K) (hc : Ctl s) (hi : Underway s) (h : Micro env e s s') :
    (SamePlan s s' ∧ Underway s') ∨ TakesOver s s' := by
  have quiet : ∀ {pc : WorkerPc}, s.pc = pc → pc ≠ .top → pc ≠ .launching → pc ≠ .launched → pc ≠ .planned → False := by
    intro pc hp h1 h2 h3 h4
    rcases hi with hi | hi
    · exact h4 (hp.symm.trans hi)
    · have := hc.quiet (by rw [hp]; exact h1) (by rw [hp]; exact h2) (by rw [hp]; exact h3)
      rw [hi] at this; cases this
  cases h with
  | takeOver _ _ new off hcomp hr he hfit => exact Or.inr ⟨hcomp, rfl⟩
  | collect _ ws' hp hw => exact (quiet hp (by decide) (by decide) (by decide) (by decide)).elim
  | goCollect _ hp hg hz hcomp =>
    rcases hi with hi | hi
    · rw [hp] at hi; cases hi
    · rw [hi] at hcomp; cases hcomp
  | goApply _ hp hm hcomp hno =>
    rcases hi with hi | hi
    · rw [hp] at hi; cases hi
    · rw [hi] at hcomp; cases hcomp
  | apply _ s2 hp ha => exact (quiet hp (by decide) (by decide) (by decide) (by decide)).elim
  | nothingToPlan _ hp hn => exact (quiet hp (by decide) (by decide) (by decide) (by decide)).elim
  | snapshot _ hp hn => exact (quiet hp (by decide) (by decide) (by decide) (by decide)).elim
  | stitch _ ws' hp hs hw => exact (quiet hp (by decide) (by decide) (by decide) (by decide)).elim
  | scratch _ ws' hp hs hw => exact (quiet hp (by decide) (by decide) (by decide) (by decide)).elim
  | planned _ hp => exact Or.inl ⟨⟨rfl, rfl, rfl, rfl⟩, Or.inr rfl⟩
  | launch _ hp => exact Or.inl ⟨⟨rfl, rfl, rfl, rfl⟩, Or.inr (hc.launching hp).1⟩
  | launched _ hp =>
    refine Or.inl ⟨⟨rfl, rfl, rfl, rfl⟩, Or.inr ?_⟩
    rcases hi with hi | hi
    · rw [hp] at hi; cases hi
    · exact hi
  | _ => exact Or.inl ⟨⟨rfl, rfl, rfl, rfl⟩, hi⟩

theorem keep_step (env : Env K) (e : Event K) (s s' : Planner K) (hc : Ctl s) (hi : Underway s) (h : s.step env e = .ok (some s')) (hn : ¬ TakesOver s s') :
    SamePlan s s' ∧ Underway s' := by
  rcases step_micro' env e s s' h with ⟨rfl, _⟩ | h | ⟨m, ⟨t, o, rfl⟩, h1, h2⟩
  · exact ⟨samePlan_refl _, hi⟩
  · exact (keep_micro env e s s' hc hi h).resolve_right hn
  · have hcm := ctl_micro env _ s m hc h1
    have after : TakesOver s m → TakesOver s s' := by
      rintro ⟨ha, hb⟩
      cases h2 with
      | takeOver _ _ new off hcomp hr he hfit => rw [hb] at hcomp; cases hcomp
      | evalTime _ _ _ ht => exact ⟨ha, hb⟩
    obtain ⟨a1, a2⟩ := (keep_micro env _ s m hc hi h1).resolve_right fun h => hn (after h)
    have hn' : ¬ TakesOver m s' := by
      rintro ⟨ha, hb⟩
      refine hn ⟨?_, hb⟩
      cases h1 with
      | takeOver _ _ new off hcomp hr he hfit => cases ha
      | evalTime _ _ _ ht => exact ha
    obtain ⟨b1, b2⟩ := (keep_micro env _ m s' hcm a2 h2).resolve_right hn'
    exact ⟨samePlan_trans a1 b1, b2⟩

theorem keep_run (env : Env K) (s s' : Planner K) (es : List (Event K)) (hc : Ctl s) (hi : Underway s) (h : RunBefore env s es s') :
    SamePlan s s' ∧ Underway s' ∧ Ctl s' := by
  induction h with
  | nil => exact ⟨samePlan_refl _, hi, hc⟩
  | snoc e _ hs hn ih =>
    obtain ⟨h1, h2⟩ := keep_step env e _ _ ih.2.2 ih.2.1 hs hn
    exact ⟨samePlan_trans ih.1 h1, h2, ctl_step env e _ _ ih.2.2 hs⟩

/-- What the worker does after noting the parameters leaves the current plan alone. -/
theorem prepare_same (env : Env K) (s s1 : Planner K) (hpc : s.pc = .snapshotted) (h1 : s.step env .worker = .ok (some s1)) : SamePlan s s1 ∧ Underway s1 := by
  simp only [Planner.step, Planner.workerStep, hpc, bind, Except.bind] at h1
  by_cases hst : s.checkStitchTrajectory = true
  · rw [if_pos hst] at h1
    cases hw : s.stitch env s.next with
    | error e => rw [hw] at h1; cases h1
    | ok ws =>
      rw [hw] at h1
      rw [← Option.some.inj (Except.ok.inj h1)]
      exact ⟨⟨rfl, rfl, rfl, rfl⟩, Or.inl rfl⟩
  · rw [if_neg hst] at h1
    cases hw : s.appendDronePosition s.next with
    | error e => rw [hw] at h1; cases h1
    | ok ws =>
      rw [hw] at h1
      rw [← Option.some.inj (Except.ok.inj h1)]
      exact ⟨⟨rfl, rfl, rfl, rfl⟩, Or.inl rfl⟩

/-- References read from the same plan. -/
theorem samePlan_references (env : Env K) (s s' : Planner K) (h : SamePlan s s') (tr : Trajectory K) (g l : K) (o : Bool) :
    s'.getReferences env tr g l o = s.getReferences env tr g l o := by
  unfold Planner.getReferences Planner.evaluateModified
  rw [h.2.2.2]

end

section
variable {K : Type*} [Field K] [LinearOrder K] [IsStrictOrderedRing K]

theorem comp_sq_le (a b : V3 K) (i : Axis) : (comp a i - comp b i) ^ 2 ≤ sqDist a b := by
  unfold sqDist
  have hx := sq_nonneg (a.x - b.x)
  have hy := sq_nonneg (a.y - b.y)
  have hz := sq_nonneg (a.z - b.z)
  cases i <;> simp only [comp] <;> linarith

theorem comp_le_of_sqDist (a b : V3 K) (d : K) (hd : 0 ≤ d) (h : sqDist a b ≤ d ^ 2) (i : Axis) : |comp a i - comp b i| ≤ d :=
  abs_le_of_sq_le_sq ((comp_sq_le a b i).trans h) hd

theorem sqDist_le_of_comp (a b : V3 K) (d : K) (h : ∀ i, |comp a i - comp b i| ≤ d) : sqDist a b ≤ (2 * d) ^ 2 := by
  have key : ∀ y : K, |y| ≤ d → y ^ 2 ≤ d ^ 2 := fun y hy => by
    rw [← sq_abs]; exact pow_le_pow_left₀ (abs_nonneg _) hy 2
  have hx := key _ (h .x)
  have hy := key _ (h .y)
  have hz := key _ (h .z)
  simp only [comp] at hx hy hz
  unfold sqDist
  nlinarith [sq_nonneg d]

end
end Verif.Lemmas
