import Verif.Model.PlannerDirect
import Verif.Lemmas.PlannerFresh

/-!
# What the list of the next plan holds while nothing is planned
-/

set_option linter.unusedSectionVars false

namespace Verif.Lemmas
open Verif Verif.Spec

variable {K : Type*} [Field K] [LinearOrder K] [IsStrictOrderedRing K] [FloorSemiring K]

/-- The worker is not preparing a plan. -/
def NotPreparing (s : Planner K) : Prop := s.computing = false ∧ (s.pc = .top ∨ s.pc = .collect ∨ s.pc = .apply ∨ s.pc = .launched)

structure Leftover (env : Env K) (s : Planner K) : Prop where
  nothing : NotPreparing s → s.traj = none → s.next = []
  again : NotPreparing s → ∀ tr, s.traj = some tr → s.next = [] ∨ (ComputedFrom env tr s.next ∧
    List.Forall₂ (fun a b => b.name = a.name ∧ b.original = a.original) s.next s.dyn ∧ s.newParams.gtlg = s.params.gtlg)

theorem leftover_init (env : Env K) (v : V3 K) : Leftover env (Planner.init v) := ⟨fun _ _ => rfl, fun _ tr h => by cases h⟩

theorem leftover_micro (env : Env K) (e : Event K) (s s' : Planner K) (hc : Ctl s) (hp : PlanInv env s) (hi : Leftover env s)
    (h : Micro env e s s') : Leftover env s' := by
  cases h with
  | setWaypoints _ ws => exact ⟨hi.1, hi.2⟩
  | append _ w => exact ⟨hi.1, hi.2⟩
  | modify _ n p g => exact ⟨hi.1, hi.2⟩
  | modifyMany _ ms => exact ⟨hi.1, hi.2⟩
  | takeOver _ _ new off hcomp hr _ _ =>
    refine ⟨fun _ h => (by cases h), fun _ tr htr => Or.inr ?_⟩
    rw [← Option.some.inj htr]
    exact ⟨(hp.ready new hr).2, (forall2_map_copy s.next).imp (fun a b h => by rw [h]; exact ⟨rfl, rfl⟩), rfl⟩
  | evalTime _ t o ht => exact ⟨hi.1, hi.2⟩
  | setSpeed _ v => exact ⟨hi.1, hi.2⟩
  | clearRegenerated _ => exact ⟨hi.1, hi.2⟩
  | vehicle _ p => exact ⟨hi.1, hi.2⟩
  | goCollect _ hpc hg hz hcm => exact ⟨fun _ => hi.1 ⟨hcm, Or.inl hpc⟩, fun _ => hi.2 ⟨hcm, Or.inl hpc⟩⟩
  | goApply _ hpc hm hcm _ => exact ⟨fun _ => hi.1 ⟨hcm, Or.inl hpc⟩, fun _ => hi.2 ⟨hcm, Or.inl hpc⟩⟩
  | collect _ ws hpc hw => exact ⟨fun h => (by simp [NotPreparing] at h), fun h => (by simp [NotPreparing] at h)⟩
  | nothingToPlan _ hpc hn => exact ⟨fun _ _ => hn, fun _ _ _ => Or.inl hn⟩
  | snapshot _ hpc hn => exact ⟨fun h => (by simp [NotPreparing] at h), fun h => (by simp [NotPreparing] at h)⟩
  | stitch _ ws hpc hs hw => exact ⟨fun h => (by simp [NotPreparing] at h), fun h => (by simp [NotPreparing] at h)⟩
  | scratch _ ws hpc hs hw => exact ⟨fun h => (by simp [NotPreparing] at h), fun h => (by simp [NotPreparing] at h)⟩
  | planned _ hpc => exact ⟨fun h => (by simp [NotPreparing] at h), fun h => (by simp [NotPreparing] at h)⟩
  | launch _ hpc =>
    have := (hc.launching hpc).1
    exact ⟨fun h => (by simp [NotPreparing, this] at h), fun h => (by simp [NotPreparing, this] at h)⟩
  | launched _ hpc =>
    exact ⟨fun h => hi.1 ⟨h.1, Or.inr (Or.inr (Or.inr hpc))⟩, fun h => hi.2 ⟨h.1, Or.inr (Or.inr (Or.inr hpc))⟩⟩
  | apply _ s2 hpc ha =>
    obtain ⟨hf, d, r, rfl, _⟩ := applyAll_rel (fun a b => b.name = a.name ∧ b.original = a.original) (fun _ => ⟨rfl, rfl⟩)
      (fun _ _ _ h1 h2 => ⟨h2.1.trans h1.1, h2.2.trans h1.2⟩)
      (fun a c p g hs => ⟨(setCurrentPosition_frame a c p g hs).2.2.2.1, (setCurrentPosition_frame a c p g hs).2.2.1⟩) _ s s2 ha
    refine ⟨fun h => hi.1 ⟨h.1, Or.inr (Or.inr (Or.inl hpc))⟩, fun h tr htr => ?_⟩
    rcases hi.2 ⟨h.1, Or.inr (Or.inr (Or.inl hpc))⟩ tr htr with h | ⟨h1, h2, h3⟩
    · exact Or.inl h
    · exact Or.inr ⟨h1, forall2_comp (fun _ _ _ a b => ⟨b.1.trans a.1, b.2.trans a.2⟩) h2 hf, h3⟩
  | asyncStart _ hf =>
    have hcm : s.computing = true := by
      by_contra hcm
      rw [hc.idle (by simpa using hcm)] at hf
      cases hf
    exact ⟨fun h => (by simp [NotPreparing, hcm] at h), fun h => (by simp [NotPreparing, hcm] at h)⟩
  | asyncFinish _ dt sp traj ws hf hcomp =>
    have hcm : s.computing = true := by
      by_contra hcm
      rw [hc.idle (by simpa using hcm)] at hf
      cases hf
    exact ⟨fun h => (by simp [NotPreparing, hcm] at h), fun h => (by simp [NotPreparing, hcm] at h)⟩
  | asyncFail _ dt sp hf hcomp => exact ⟨hi.1, hi.2⟩

theorem reachable_leftover (env : Env K) (henv : Segmentwise env) (s : Planner K) (h : Reachable env s) : Leftover env s := by
  have : Ctl s ∧ WpInv s ∧ PlanInv env s ∧ Leftover env s :=
    reachable_induction env (fun s => Ctl s ∧ WpInv s ∧ PlanInv env s ∧ Leftover env s)
      (fun v => ⟨ctl_init v, wp_init v, plan_init env v, leftover_init env v⟩)
      (fun e s s' hv hi hm => ⟨ctl_micro env e s s' hi.1 hm, wp_micro env e s s' hv hi.2.1 hm,
        plan_micro env henv e s s' hi.1 hi.2.1 hi.2.2.1 hm, leftover_micro env e s s' hi.1 hi.2.2.1 hi.2.2.2 hm⟩) s h
  exact this.2.2.2

end Verif.Lemmas
