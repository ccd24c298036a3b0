import Verif.Spec.PlannerStored
import Verif.Lemmas.PlannerFresh
import Verif.Lemmas.PlannerFail
import Verif.Lemmas.PlannerRequests
import Verif.Lemmas.PlannerRate

/-! # Compensations stored for a waypoint -/

set_option linter.unusedSectionVars false
set_option linter.unusedSimpArgs false

namespace Verif.Lemmas
open Verif Verif.Spec

variable {K : Type*} [Field K] [LinearOrder K] [IsStrictOrderedRing K] [FloorSemiring K]

theorem updatesFor_append (us vs : List (String × V3 K)) (n : String) : updatesFor (us ++ vs) n = updatesFor us n + updatesFor vs n :=
  List.countP_append

theorem updatesFor_cons (u : String × V3 K) (us : List (String × V3 K)) (n : String) :
    updatesFor (u :: us) n = updatesFor us n + if u.1 = n then 1 else 0 := by
  unfold updatesFor
  rw [List.countP_cons]
  simp

theorem updatesFor_put (name : String) (p : V3 K) (ms : List (String × V3 K)) (n : String) :
    updatesFor (Planner.putModification name p ms) n ≤ updatesFor ms n + if name = n then 1 else 0 := by
  induction ms with
  | nil => simp [Planner.putModification, updatesFor]
  | cons m ms ih =>
    unfold Planner.putModification
    split
    · rename_i h
      rw [updatesFor_cons, updatesFor_cons, h]
      simp only
      omega
    · rw [updatesFor_cons, updatesFor_cons]
      omega

theorem updatesFor_put_all (us ms : List (String × V3 K)) (n : String) :
    updatesFor (us.foldl (fun l m => Planner.putModification m.1 m.2 l) ms) n ≤ updatesFor ms n + updatesFor us n := by
  induction us generalizing ms with
  | nil => exact Nat.le_add_right _ _
  | cons u us ih =>
    rw [List.foldl_cons, updatesFor_cons]
    have h1 := ih (Planner.putModification u.1 u.2 ms)
    have h2 := updatesFor_put u.1 u.2 ms n
    omega

/-- The waypoint after the updates. -/
def GotUpdates (ms : List (String × V3 K)) (a c : Waypoint K) : Prop :=
  c.name = a.name ∧ c.time = a.time ∧ c.modifiers.length = a.modifiers.length + if a.name = "" then 0 else updatesFor ms a.name

theorem applyLoop_stored (n : String) (p : V3 K) (g : K) (ws : List (Waypoint K)) (b : Bool) (ws' : List (Waypoint K))
    (h : Planner.applyLoop n p g ws = .ok (b, ws')) : List.Forall₂ (GotUpdates [(n, p)]) ws ws' := by
  refine (applyLoop_rel n p g ws b ws' h).1.imp fun a c hac => ?_
  rcases hac with ⟨h1, h2, hs⟩ | ⟨hno, rfl⟩
  · obtain ⟨v, m, _, rfl, _⟩ := setCurrentPosition_spec a c p g hs
    refine ⟨rfl, rfl, ?_⟩
    rw [if_neg h2, updatesFor_cons, if_pos h1.symm]
    simp [updatesFor]
  · refine ⟨rfl, rfl, ?_⟩
    split
    · rfl
    · rename_i hne
      rw [updatesFor_cons, if_neg (fun hn => hno ⟨hn.symm, hne⟩)]
      simp [updatesFor]

theorem applyAll_stored (ms : List (String × V3 K)) (s s' : Planner K) (h : Planner.applyAll ms s = .ok s') :
    List.Forall₂ (GotUpdates ms) s.dyn s'.dyn := by
  induction ms generalizing s with
  | nil =>
    rw [← Except.ok.inj h]
    refine List.forall₂_same.mpr fun w _ => ⟨rfl, rfl, ?_⟩
    simp [updatesFor]
  | cons m ms ih =>
    obtain ⟨n, p⟩ := m
    simp only [Planner.applyAll, bind, Except.bind] at h
    cases hm : s.applyWaypointModification n p with
    | error e => rw [hm] at h; cases h
    | ok s1 =>
      rw [hm] at h
      have i1 := ih s1 h
      unfold Planner.applyWaypointModification at hm
      simp only [bind, Except.bind] at hm
      cases hl : Planner.applyLoop n p s.params.lastGlobal s.dyn with
      | error e => rw [hl] at hm; cases hm
      | ok q =>
        obtain ⟨b, ws⟩ := q
        rw [hl] at hm
        have hm := Except.ok.inj hm
        have j1 := applyLoop_stored n p _ _ _ _ hl
        subst hm
        refine forall2_comp (fun a b c h1 h2 => ⟨h2.1.trans h1.1, h2.2.1.trans h1.2.1, ?_⟩) j1 i1
        rw [h2.2.2, h1.2.2, h1.1, updatesFor_cons (n, p) ms, updatesFor_cons (n, p) []]
        by_cases hn : a.name = ""
        · simp [hn]
        · simp [hn, updatesFor]
          omega

/-- The account: the updates pending, and those pending and those stored for a waypoint together. -/
structure Stored (B : String → ℕ) (s : Planner K) : Prop where
  pending : ∀ n, updatesFor s.toModify n ≤ B n
  dyn : ∀ w ∈ s.dyn, w.modifiers.length + updatesFor s.toModify w.name ≤ B w.name

theorem stored_weaken {B B' : String → ℕ} {s : Planner K} (h : Stored B s) (hB : ∀ n, B n ≤ B' n) : Stored B' s :=
  ⟨fun n => (h.pending n).trans (hB n), fun w hw => (h.dyn w hw).trans (hB _)⟩

/-- The updates an event asks for. -/
theorem updatesIn_single (e : Event K) : updatesIn [e] = match e with
    | .modifyWaypoint n p _ => [(n, p)]
    | .modifyWaypoints ms => ms
    | _ => [] := by
  cases e <;> simp [updatesIn]

theorem updatesIn_append (es es' : List (Event K)) : updatesIn (es ++ es') = updatesIn es ++ updatesIn es' := by
  simp [updatesIn]

theorem stored_micro (env : Env K) (B : String → ℕ) (e : Event K) (s s' : Planner K) (hf : ∀ w ∈ s.next, w.modifiers = []) (hi : Stored B s)
    (h : Micro env e s s') : Stored (fun n => B n + updatesFor (updatesIn [e]) n) s' := by
  have hw := stored_weaken hi (B' := fun n => B n + updatesFor (updatesIn [e]) n) (fun n => Nat.le_add_right _ _)
  cases h with
  | setWaypoints _ ws =>
    exact ⟨fun n => by simp [Planner.setWaypoints, updatesFor], fun w hm => by
      have := hw.dyn w hm
      simp only [Planner.setWaypoints, updatesFor, List.countP_nil] at this ⊢
      omega⟩
  | append _ w => exact ⟨hw.1, hw.2⟩
  | modify _ n p g =>
    rw [updatesIn_single]
    refine ⟨fun m => ?_, fun w hm => ?_⟩
    · have h1 := updatesFor_put n p s.toModify m
      have h2 := hi.pending m
      have h3 : updatesFor [(n, p)] m = if n = m then 1 else 0 := by rw [updatesFor_cons]; simp [updatesFor]
      show updatesFor (Planner.putModification n p s.toModify) m ≤ _
      simp only [h3]
      omega
    · have h1 := updatesFor_put n p s.toModify w.name
      have h2 := hi.dyn w hm
      have h3 : updatesFor [(n, p)] w.name = if n = w.name then 1 else 0 := by rw [updatesFor_cons]; simp [updatesFor]
      show w.modifiers.length + updatesFor (Planner.putModification n p s.toModify) w.name ≤ _
      simp only [h3]
      omega
  | modifyMany _ ms =>
    rw [updatesIn_single]
    refine ⟨fun m => ?_, fun w hm => ?_⟩
    · have h1 := updatesFor_put_all ms s.toModify m
      have h2 := hi.pending m
      exact h1.trans (by simp only; omega)
    · have h1 := updatesFor_put_all ms s.toModify w.name
      have h2 := hi.dyn w hm
      simp only at h1 h2 ⊢
      omega
  | takeOver _ _ new off hc hr _ _ =>
    refine ⟨hw.1, fun w hm => ?_⟩
    have h0 : w.modifiers = [] := map_copy_mem (P := fun w => w.modifiers = []) (fun _ h => h) hf w hm
    rw [h0]
    simpa using hw.pending w.name
  | collect _ ws hp hg =>
    exact ⟨fun n => by simp [updatesFor], fun w hm => by
      have := hw.dyn w hm
      simp only [updatesFor, List.countP_nil] at this ⊢
      omega⟩
  | apply _ s2 hp ha =>
    have hst := applyAll_stored _ s s2 ha
    refine ⟨fun n => by simp [updatesFor], fun w hm => ?_⟩
    obtain ⟨a, hma, h1, _, h2⟩ := forall₂_left hst w hm
    have h3 := hw.dyn a hma
    rw [h2, h1]
    simp only [updatesFor, List.countP_nil] at h3 ⊢
    split <;> omega
  | _ => exact ⟨hw.1, hw.2⟩

theorem stored_step (env : Env K) (B : String → ℕ) (e : Event K) (s s' : Planner K) (hf : ∀ w ∈ s.next, w.modifiers = []) (hi : Stored B s)
    (h : s.step env e = .ok (some s')) : Stored (fun n => B n + updatesFor (updatesIn [e]) n) s' := by
  rcases step_micro' env e s s' h with ⟨rfl, _⟩ | hm | ⟨m, ⟨t, o, rfl⟩, h1, h2⟩
  · exact stored_weaken hi (fun n => Nat.le_add_right _ _)
  · exact stored_micro env B e s s' hf hi hm
  · have i1 := stored_micro env B _ s m hf hi h1
    have hf2 : ∀ w ∈ m.next, w.modifiers = [] := by
      cases h1 <;> exact hf
    have i2 := stored_micro env _ _ m s' hf2 i1 h2
    refine stored_weaken i2 (fun n => ?_)
    simp [updatesIn_single, updatesFor]

theorem stored_run (env : Env K) (henv : Segmentwise env) (B : String → ℕ) (s : Planner K) (hr : ReachableBy FreshEvent env s) (hi : Stored B s)
    (es : List (Event K)) (hes : ∀ e ∈ es, FreshEvent e) (s' : Planner K) (h : Run env s es s') :
    ReachableBy FreshEvent env s' ∧ Stored (fun n => B n + updatesFor (updatesIn es) n) s' := by
  induction h with
  | nil => exact ⟨hr, stored_weaken hi (fun n => Nat.le_add_right _ _)⟩
  | @snoc es s1 s2 e hrun hs ih =>
    obtain ⟨r1, i1⟩ := ih (fun x hx => hes x (by simp [hx]))
    have hf := (reachable_freshInv env henv s1 r1).next
    refine ⟨?_, ?_⟩
    · obtain ⟨v, es0, h0, hr0⟩ := r1
      refine ⟨v, es0 ++ [e], fun x hx => ?_, .snoc e hr0 hs⟩
      rcases List.mem_append.mp hx with hx | hx
      · exact h0 x hx
      · rw [List.mem_singleton.mp hx]; exact hes e (by simp)
    · refine stored_weaken (stored_step env _ e s1 s2 hf i1 hs) (fun n => ?_)
      rw [updatesIn_append, updatesFor_append]
      omega

/-- A move carried out by a planner at rest. -/
theorem move_once (env : Env K) (s : Planner K) (hw : ∀ w ∈ s.dyn, Bookkept w) (hpc : s.pc = .top) (hc : s.computing = false)
    (hq : s.toModify = []) (n : String) (p : V3 K) :
    ∃ s', Run env s [.modifyWaypoint n p false, .worker, .worker] s' ∧ s'.pc = .top ∧ s'.computing = false ∧ s'.generateNew = false ∧
      s'.toModify = [] ∧ List.Forall₂ (GotUpdates [(n, p)]) s.dyn s'.dyn := by
  let s1 : Planner K := s.modifyWaypoint n p false
  have hq1 : s1.toModify = [(n, p)] := by
    show Planner.putModification n p s.toModify = _
    rw [hq]; rfl
  let s2 : Planner K := { s1 with pc := .apply }
  obtain ⟨s3, h3⟩ := applyAll_total s2.toModify s2 hw
  have hf := applyAll_stored _ s2 s3 h3
  obtain ⟨_, d, r, rfl, _⟩ := applyAll_rel (fun _ _ => True) (fun _ => trivial) (fun _ _ _ _ _ => trivial) (fun _ _ _ _ _ => trivial) _ s2 s3 h3
  have e1 : s.step env (.modifyWaypoint n p false) = .ok (some s1) := rfl
  have e2 : s1.step env .worker = .ok (some s2) := by
    show (s1.workerStep env).map some = _
    unfold Planner.workerStep
    rw [show s1.pc = .top from hpc]
    have hg1 : s1.generateNew = false := rfl
    have hc1 : s1.computing = false := hc
    have hno : ¬ ((s1.generateNew && s1.checkIfTrajectoryCanBeGenerated) = true) := by rw [hg1]; simp
    have hyes : (!s1.toModify.isEmpty && !s1.computing) = true := by rw [hq1, hc1]; rfl
    simp only [if_neg hno, if_pos hyes]
    rfl
  let s4 : Planner K := { s2 with dyn := d, regenerated := r, toModify := [], pc := .top }
  refine ⟨s4, .snoc (es := [_, _]) .worker (.snoc (es := [_]) .worker (.snoc (es := []) _ .nil e1) e2) ?_, ?_, ?_, ?_, ?_, ?_⟩
  · show (s2.workerStep env).map some = _
    unfold Planner.workerStep
    rw [show s2.pc = .apply from rfl]
    simp only [h3, bind, Except.bind]
    rfl
  · rfl
  · exact hc
  · rfl
  · rfl
  · rw [← hq1]; exact hf

end Verif.Lemmas
