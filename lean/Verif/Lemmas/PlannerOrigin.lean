import Verif.Lemmas.PlannerOnePlan
import Verif.Lemmas.PlannerThreadsReq
import Verif.Lemmas.PlannerThreadsFail
import Verif.Lemmas.PlannerThreadsPhases
import Verif.Spec.PlannerOrigin

/-! # Where the waypoints of a plan come from -/

set_option linter.unusedSectionVars false
set_option linter.unusedSimpArgs false

namespace Verif.Lemmas
open Verif Verif.Spec

variable {K : Type*} [Field K] [LinearOrder K] [IsStrictOrderedRing K] [FloorSemiring K]

/-! ## A predicate carried through the lists -/

/-- What the planner does to waypoints respects `T`, for updates with `U` and vehicle positions with `V`. -/
structure Closed (T : Waypoint K → Prop) (U : String × V3 K → Prop) (V : V3 K → Prop) : Prop where
  copy : ∀ w, T w → T w.copy
  setTime : ∀ w t, T w → T (w.setTime t)
  setIndex : ∀ w i, T w → T (w.setIndex i)
  renew : ∀ w w', T w → w.resetWithCurrent = .ok w' → T w'
  reset : ∀ w w' x, T w → w.name ≠ "" → U (w.name, x) → w.reset x = .ok w' → T w'
  move : ∀ w w' x t, T w → w.name ≠ "" → U (w.name, x) → w.setCurrentPosition x t = .ok w' → T w'
  drone : ∀ (p : Planner K) ws r, V p.vehicle → p.appendDronePosition ws = .ok r → ∃ w, r = w :: ws ∧ T w
  attach : ∀ refs b w, attachPoint refs b = .ok w → T w

/-- The worker's local lists. -/
def OriginLocal (T : Waypoint K → Prop) (U : String × V3 K → Prop) : WorkerAt K → Prop
  | .filter ws => ∀ w ∈ ws, T w
  | .merge ws => ∀ w ∈ ws, T w
  | .convert _ ws => ∀ w ∈ ws, T w
  | .plain _ _ ws _ => ∀ w ∈ ws, T w
  | .compensate _ _ ws _ _ => ∀ w ∈ ws, T w
  | .rest _ ws => ∀ w ∈ ws, T w
  | .modification ms => ∀ m ∈ ms, U m
  | .waypoints n x ms done rest => U (n, x) ∧ (∀ m ∈ ms, U m) ∧ (∀ w ∈ done, T w) ∧ ∀ w ∈ rest, T w
  | _ => True

/-- All lists but those of the plan in force. -/
structure Conveyed (T : Waypoint K → Prop) (U : String × V3 K → Prop) (V : V3 K → Prop) (s : Whole K) : Prop where
  toSet : ∀ w ∈ s.p.toSet, T w
  toAdd : ∀ w ∈ s.p.toAdd, T w
  toModify : ∀ m ∈ s.p.toModify, U m
  next : ∀ w ∈ s.p.next, T w
  vehicle : V s.p.vehicle
  worker : OriginLocal T U s.w

/-- The plan in force, and what was last copied from it. -/
def InForce (T : Waypoint K → Prop) (s : Whole K) : Prop := (∀ w ∈ s.p.dyn, T w) ∧ ∀ ws, s.c = .copied ws → ∀ w ∈ ws, T w

theorem Conveyed.mono {T T' : Waypoint K → Prop} {U U' : String × V3 K → Prop} {V V' : V3 K → Prop} {s : Whole K} (hT : ∀ w, T w → T' w) (hU : ∀ m, U m → U' m)
    (hV : ∀ x, V x → V' x) (h : Conveyed T U V s) : Conveyed T' U' V' s := by
  refine ⟨fun w hw => hT w (h.toSet w hw), fun w hw => hT w (h.toAdd w hw), fun w hw => hU w (h.toModify w hw), fun w hw => hT w (h.next w hw), hV _ h.vehicle, ?_⟩
  have := h.worker
  cases hw : s.w <;> rw [hw] at this <;> first
    | trivial
    | exact fun w h => hT w (this w h)
    | exact fun w h => hU w (this w h)
    | exact ⟨hU _ this.1, fun m hm => hU m (this.2.1 m hm), fun w h => hT w (this.2.2.1 w h), fun w h => hT w (this.2.2.2 w h)⟩

theorem InForce.mono {T T' : Waypoint K → Prop} {s : Whole K} (hT : ∀ w, T w → T' w) (h : InForce T s) : InForce T' s :=
  ⟨fun w hw => hT w (h.1 w hw), fun ws hc w hw => hT w (h.2 ws hc w hw)⟩

variable {T : Waypoint K → Prop} {U : String × V3 K → Prop} {V : V3 K → Prop}

theorem carried_copies (hC : Closed T U V) {l : List (Waypoint K)} (h : ∀ w ∈ l, T w) : ∀ w ∈ l.map (·.copy), T w := map_copy_mem hC.copy h

theorem carried_resetAll (hC : Closed T U V) (ms : List (String × V3 K)) (hm : ∀ m ∈ ms, U m) (ws ws' : List (Waypoint K)) (h : resetAll ms ws = .ok ws')
    (hws : ∀ w ∈ ws, T w) : ∀ w ∈ ws', T w := by
  induction ms generalizing ws with
  | nil => rw [← Except.ok.inj h]; exact hws
  | cons m ms ih =>
    obtain ⟨n, x⟩ := m
    simp only [resetAll, bind, Except.bind] at h
    cases hr : resetThrough n x ws with
    | error e => rw [hr] at h; cases h
    | ok ws1 =>
      rw [hr] at h
      refine ih (fun m h => hm m (List.mem_cons_of_mem _ h)) ws1 h ?_
      intro w hw
      obtain ⟨a, ha, hrel⟩ := forall2_mem_right (resetThrough_rel n x ws ws1 hr) hw
      rcases hrel with ⟨h1, h2, hre⟩ | ⟨_, rfl⟩
      · exact hC.reset a w x (hws a ha) (by rw [h1]; exact h2) (by rw [h1]; exact hm _ List.mem_cons_self) hre
      · exact hws _ ha

theorem carried_assign (hC : Closed T U V) (segs : List (Segment K)) (g : K) (ws ws' : List (Waypoint K)) (i : ℕ) (h : assignTimes segs g ws i = .ok ws')
    (hws : ∀ w ∈ ws, T w) : ∀ w ∈ ws', T w := by
  obtain ⟨h1, h2⟩ := assignTimes_rel segs g ws ws' i h
  intro w hw
  obtain ⟨j, hj⟩ := List.mem_iff_getElem?.mp hw
  have hlt : j < ws.length := by
    rw [← h1]
    exact (List.getElem?_eq_some_iff.mp hj).1
  obtain ⟨t, _, e⟩ := h2 j ws[j] (List.getElem?_eq_getElem hlt)
  rw [hj] at e
  rw [Option.some.inj e]
  exact hC.setTime _ _ (hC.setIndex _ _ (hws _ (List.getElem_mem hlt)))

/-! ## Steps -/

/-- What the evaluating thread does to the plan in force. -/
theorem own_inForce {env : Env K} {p p' : Planner K} {c c' : Consumer K} (h : Fine.consume env ⟨p, c⟩ = .ok (some ⟨p', c'⟩)) :
    ((∃ k, c = .swap k ∧ c' = .clearComputing k) ∧ p'.dyn = p.next.map (·.copy) ∧ p'.computing = p.computing) ∨
    ((∃ k, c = .clearComputing k ∧ c' = .clearRequest k) ∧ p'.dyn = p.dyn) ∨
    ((∀ k, c' ≠ .clearComputing k) ∧ p'.dyn = p.dyn ∧ p'.computing = p.computing ∧ ∀ ws, c' = .copied ws → ws = p.dyn.map (·.copy)) := by
  have simple : ∀ {q : Planner K} {d : Consumer K}, (Except.ok (some (⟨q, d⟩ : Fine K)) : Res (Option (Fine K))) = .ok (some ⟨p', c'⟩) → p' = q ∧ c' = d :=
    fun h => by
      have := Option.some.inj (Except.ok.inj h)
      injection this with h1 h2
      exact ⟨h1.symm, h2.symm⟩
  have plain : ∀ {q : Planner K} {d : Consumer K}, p' = q ∧ c' = d → (∀ k, d ≠ .clearComputing k) → q.dyn = p.dyn → q.computing = p.computing →
      (∀ ws, d ≠ .copied ws) → (((∃ k, c = .swap k ∧ c' = .clearComputing k) ∧ p'.dyn = p.next.map (·.copy) ∧ p'.computing = p.computing) ∨
    ((∃ k, c = .clearComputing k ∧ c' = .clearRequest k) ∧ p'.dyn = p.dyn) ∨
    ((∀ k, c' ≠ .clearComputing k) ∧ p'.dyn = p.dyn ∧ p'.computing = p.computing ∧ ∀ ws, c' = .copied ws → ws = p.dyn.map (·.copy))) := by
    rintro q d ⟨rfl, rfl⟩ h1 h2 h3 h4
    exact .inr (.inr ⟨h1, h2, h3, fun ws hw => absurd hw (h4 ws)⟩)
  have after1 : ∀ (k : Purpose K) (j : Purpose K), k.after ≠ .clearComputing j := by intro k j; cases k <;> simp [Purpose.after]
  have after2 : ∀ (k : Purpose K) (ws : List (Waypoint K)), k.after ≠ .copied ws := by intro k j; cases k <;> simp [Purpose.after]
  cases c with
  | free => cases h
  | evaluated r => cases h
  | copied ws => cases h
  | time x => cases h
  | start k =>
    cases k with
    | maxTime =>
      refine plain (simple h) ?_ rfl rfl ?_ <;> (intro k; split <;> simp)
    | minTime =>
      refine plain (simple h) ?_ rfl rfl ?_ <;> (intro k; split <;> simp)
    | waypoints => exact plain (simple h) (by simp) rfl rfl (by simp)
    | evaluate t o f => exact plain (simple h) (by simp) rfl rfl (by simp)
  | wait k =>
    simp only [Fine.consume] at h
    split at h
    · exact plain (simple h) (by simp) rfl rfl (by simp)
    · cases h
  | valid k => exact plain (simple h) (by simp) rfl rfl (by simp)
  | busy k v =>
    refine plain (simple h) ?_ rfl rfl ?_ <;> (intro j; split <;> simp [after1, after2])
  | ready k =>
    simp only [Fine.consume] at h
    split at h
    · refine plain (simple h) ?_ rfl rfl ?_ <;> (intro j; split <;> simp [after1, after2])
    · cases h
  | get k =>
    simp only [Fine.consume] at h
    split at h
    · exact plain (simple h) (by simp) rfl rfl (by simp)
    · cases h
    · cases h
    · cases h
  | target k new =>
    simp only [Fine.consume] at h
    split at h <;> exact plain (simple h) (by simp) rfl rfl (by simp)
  | old k new g l =>
    simp only [Fine.consume] at h
    split at h
    · cases h
    · simp only [bind, Except.bind] at h
      split at h
      · cases h
      · exact plain (simple h) (by simp) rfl rfl (by simp)
  | fit0 k new s x =>
    simp only [Fine.consume, bind, Except.bind] at h
    split at h
    · cases h
    · exact plain (simple h) (by simp) rfl rfl (by simp)
  | fit k new s x n i d m =>
    cases n with
    | zero => exact plain (simple h) (by simp) rfl rfl (by simp)
    | succ n =>
      simp only [Fine.consume, bind, Except.bind] at h
      split at h
      · cases h
      · split at h <;> exact plain (simple h) (by simp) rfl rfl (by simp)
  | fitted k new s => refine plain (simple h) (by simp) ?_ ?_ (by simp) <;> (cases s <;> rfl)
  | note t o f l => refine plain (simple h) (by simp) ?_ ?_ (by simp) <;> (cases f <;> rfl)
  | plain o g l done =>
    simp only [Fine.consume] at h
    split at h
    · cases h
    · simp only [bind, Except.bind] at h
      split at h
      · cases h
      · split at h
        · cases h
        · exact plain (simple h) (by simp) rfl rfl (by simp)
  | compensate o g l done base =>
    obtain ⟨v, _, hv⟩ := compensate_step h
    injection hv with h1 h2
    refine plain ⟨h1, h2⟩ ?_ rfl rfl ?_ <;> (intro k; unfold nextOrder; split <;> simp)
  | length m =>
    simp only [Fine.consume] at h
    split at h
    · cases h
    · exact plain (simple h) (by simp) rfl rfl (by simp)
  | swap k => obtain ⟨rfl, rfl⟩ := simple h; exact .inl ⟨⟨k, rfl, rfl⟩, rfl, rfl⟩
  | clearComputing k => obtain ⟨rfl, rfl⟩ := simple h; exact .inr (.inl ⟨⟨k, rfl, rfl⟩, rfl⟩)
  | clearRequest k => exact plain (simple h) (after1 k) rfl rfl (after2 k)
  | copy =>
    obtain ⟨rfl, rfl⟩ := simple h
    exact .inr (.inr ⟨by simp, rfl, rfl, fun ws hw => (Consumer.copied.inj hw).symm⟩)
  | _ => exact plain (simple h) (by simp) rfl rfl (by simp)

/-- The worker's steps. -/
theorem work_carried {env : Env K} {s s' : Whole K} (hC : Closed T U V) (h : s.work env = .ok s') (hc : Conveyed T U V s)
    (hd : s.p.pc = .collect ∨ s.p.pc = .apply → ∀ w ∈ s.p.dyn, T w) :
    Conveyed T U V s' ∧ s'.c = s.c ∧ ((∀ w ∈ s.p.dyn, T w) → ∀ w ∈ s'.p.dyn, T w) := by
  obtain ⟨p, c, w⟩ := s
  have hc' := hc
  obtain ⟨c1, c2, c3, c4, c5, c6⟩ := hc
  -- only the worker's position changes
  have stay : ∀ {w' : WorkerAt K}, (Except.ok ⟨p, c, w'⟩ : Res (Whole K)) = .ok s' → OriginLocal T U w' → Conveyed T U V s' ∧ s'.c = c ∧ ((∀ w ∈ p.dyn, T w) → ∀ w ∈ s'.p.dyn, T w) := by
    intro w' h hw
    rw [← Except.ok.inj h]
    exact ⟨⟨c1, c2, c3, c4, c5, hw⟩, rfl, id⟩
  cases hpc : p.pc with
  | top =>
    cases w with
    | begin => simp only [Whole.work, hpc] at h; refine stay h ?_; split <;> trivial
    | zone => simp only [Whole.work, hpc] at h; refine stay h ?_; split <;> trivial
    | zoneRead => simp only [Whole.work, hpc] at h; exact stay h trivial
    | zoneLoop ws clock => simp only [Whole.work, hpc] at h; exact stay h trivial
    | status z =>
      simp only [Whole.work, hpc] at h
      split at h
      · rw [← Except.ok.inj h]; exact ⟨⟨c1, c2, c3, c4, c5, trivial⟩, rfl, id⟩
      · exact stay h trivial
    | queue => simp only [Whole.work, hpc] at h; refine stay h ?_; split <;> trivial
    | queueStatus =>
      simp only [Whole.work, hpc] at h
      split at h
      · rw [← Except.ok.inj h]; exact ⟨⟨c1, c2, c3, c4, c5, trivial⟩, rfl, id⟩
      · exact stay h trivial
    | _ => simp [Whole.work, hpc] at h
  | collect =>
    have hd := hd (.inl hpc)
    cases w with
    | begin =>
      simp only [Whole.work, hpc] at h
      refine stay h ?_
      split
      · exact carried_copies hC hd
      · exact carried_copies hC c1
    | filter ws =>
      simp only [Whole.work, hpc, bind, Except.bind] at h
      split at h
      · cases h
      · rename_i base hb
        refine stay h ?_
        intro w hw
        obtain ⟨a, ha, hr⟩ := forall2_mem_right (mapM_forall2 _ _ _ hb) hw
        exact hC.renew a w (c6 a (List.mem_of_mem_filter ha)) hr
    | merge ws =>
      simp only [Whole.work, hpc, bind, Except.bind] at h
      split at h
      · cases h
      · rename_i all hb
        rw [← Except.ok.inj h]
        refine ⟨⟨by simp, by simp, by simp, ?_, c5, trivial⟩, rfl, id⟩
        refine carried_resetAll hC _ c3 _ _ hb ?_
        intro w hw
        rcases List.mem_append.mp hw with hw | hw
        · exact c6 w hw
        · exact carried_copies hC c2 w hw
    | _ => simp [Whole.work, hpc] at h
  | apply =>
    have hd := hd (.inr hpc)
    cases w with
    | begin => simp only [Whole.work, hpc] at h; exact stay h c3
    | modification ms =>
      cases ms with
      | nil =>
        simp only [Whole.work, hpc] at h
        rw [← Except.ok.inj h]; exact ⟨⟨c1, c2, by simp, c4, c5, trivial⟩, rfl, id⟩
      | cons m ms =>
        simp only [Whole.work, hpc] at h
        exact stay h ⟨c6 _ List.mem_cons_self, fun m h => c6 m (List.mem_cons_of_mem _ h), by simp, hd⟩
    | waypoints name x ms done rest =>
      obtain ⟨u1, u2, u3, u4⟩ := c6
      cases rest with
      | nil =>
        simp only [Whole.work, hpc] at h
        rw [← Except.ok.inj h]; exact ⟨⟨c1, c2, c3, c4, c5, u2⟩, rfl, fun _ => u3⟩
      | cons a rest =>
        simp only [Whole.work, hpc] at h
        split at h
        · rename_i hn
          simp only [bind, Except.bind] at h
          split at h
          · cases h
          · rename_i a' ha
            rw [← Except.ok.inj h]
            refine ⟨⟨c1, c2, c3, c4, c5, u1, u2, ?_, fun w hw => u4 w (List.mem_cons_of_mem _ hw)⟩, rfl, id⟩
            intro w hw
            rcases List.mem_append.mp hw with hw | hw
            · exact u3 w hw
            · rw [List.mem_singleton.mp hw]
              exact hC.move a a' x _ (u4 a List.mem_cons_self) hn.2 (by rw [hn.1]; exact u1) ha
        · refine stay h ⟨u1, u2, ?_, fun w hw => u4 w (List.mem_cons_of_mem _ hw)⟩
          intro w hw
          rcases List.mem_append.mp hw with hw | hw
          · exact u3 w hw
          · rw [List.mem_singleton.mp hw]
            exact u4 a List.mem_cons_self
    | _ => simp [Whole.work, hpc] at h
  | snapshotted =>
    cases w with
    | begin => simp only [Whole.work, hpc] at h; refine stay h ?_; split <;> trivial
    | stitchParams => simp only [Whole.work, hpc] at h; exact stay h trivial
    | stitchTime clock start =>
      simp only [Whole.work, hpc] at h
      split at h
      · cases h
      · refine stay h ?_; split <;> trivial
    | attach =>
      simp only [Whole.work, hpc] at h
      rw [← Except.ok.inj h]; exact ⟨⟨c1, c2, c3, c4, c5, trivial⟩, rfl, id⟩
    | point0 => simp only [Whole.work, hpc] at h; exact stay h (by simp [OriginLocal])
    | convert t points => simp only [Whole.work, hpc] at h; exact stay h c6
    | plain g t points done =>
      simp only [Whole.work, hpc] at h
      split at h
      · cases h
      · simp only [bind, Except.bind] at h
        split at h
        · cases h
        · split at h
          · cases h
          · exact stay h c6
    | compensate g t points done base =>
      have extend : ∀ {a}, T a → ∀ w ∈ points ++ [a], T w := by
        intro a ha w hw
        rcases List.mem_append.mp hw with hw | hw
        · exact c6 w hw
        · rw [List.mem_singleton.mp hw]; exact ha
      simp only [Whole.work, hpc, bind, Except.bind] at h
      split at h
      · split at h
        · cases h
        · split at h
          · exact stay h c6
          · split at h
            · cases h
            · rename_i a ha
              split at h <;> exact stay h (extend (hC.attach _ _ _ ha))
      · simp only [pure, Except.pure] at h
        split at h
        · exact stay h c6
        · split at h
          · cases h
          · rename_i a ha
            split at h <;> exact stay h (extend (hC.attach _ _ _ ha))
    | rest t points =>
      simp only [Whole.work, hpc] at h
      rw [← Except.ok.inj h]
      refine ⟨⟨c1, c2, c3, ?_, c5, trivial⟩, rfl, id⟩
      intro w hw
      rcases List.mem_append.mp hw with hw | hw
      · exact c6 w hw
      · exact carried_copies hC (fun w hw => c4 w (List.mem_of_mem_filter hw)) w hw
    | drone =>
      simp only [Whole.work, hpc] at h
      rw [← Except.ok.inj h]; exact ⟨⟨c1, c2, c3, c4, c5, trivial⟩, rfl, id⟩
    | vehicle =>
      simp only [Whole.work, hpc, bind, Except.bind] at h
      split at h
      · cases h
      · rename_i ws hws
        rw [← Except.ok.inj h]
        obtain ⟨a, rfl, ha⟩ := hC.drone p _ _ c5 hws
        refine ⟨⟨c1, c2, c3, ?_, c5, trivial⟩, rfl, id⟩
        intro w hw
        rcases List.mem_cons.mp hw with rfl | hw
        · exact ha
        · exact c4 w hw
    | _ => simp [Whole.work, hpc] at h
  | collected =>
    cases w with
    | begin =>
      simp only [Whole.work, hpc, bind, Except.bind, Planner.workerStep] at h
      split at h
      · rename_i hh
        split at hh <;> cases hh
      · rename_i q hh
        rw [← Except.ok.inj h]
        split at hh <;> (rw [← Except.ok.inj hh]; exact ⟨⟨c1, c2, c3, c4, c5, trivial⟩, rfl, id⟩)
    | _ => simp [Whole.work, hpc] at h
  | planned =>
    cases w with
    | begin =>
      simp only [Whole.work, hpc, bind, Except.bind, Planner.workerStep] at h
      rw [← Except.ok.inj h]; exact ⟨⟨c1, c2, c3, c4, c5, trivial⟩, rfl, id⟩
    | _ => simp [Whole.work, hpc] at h
  | launching =>
    cases w with
    | begin =>
      simp only [Whole.work, hpc, bind, Except.bind, Planner.workerStep] at h
      rw [← Except.ok.inj h]; exact ⟨⟨c1, c2, c3, c4, c5, trivial⟩, rfl, id⟩
    | _ => simp [Whole.work, hpc] at h
  | launched =>
    cases w with
    | begin =>
      simp only [Whole.work, hpc, bind, Except.bind, Planner.workerStep] at h
      rw [← Except.ok.inj h]; exact ⟨⟨c1, c2, c3, c4, c5, trivial⟩, rfl, id⟩
    | _ => simp [Whole.work, hpc] at h

/-- The computation's steps. -/
theorem task_carried {env : Env K} {s : Whole K} {p' : Planner K} {e : Event K} (hC : Closed T U V) (ht : ByTask e) (h : s.p.step env e = .ok (some p'))
    (hc : Conveyed T U V s) : Conveyed T U V ⟨p', s.c, s.w⟩ ∧ p'.dyn = s.p.dyn ∧ p'.computing = s.p.computing ∧ p'.next.length = s.p.next.length := by
  obtain ⟨c1, c2, c3, c4, c5, c6⟩ := hc
  cases e with
  | asyncStart =>
    simp only [Planner.step, Planner.asyncStart] at h
    split at h
    · rw [← Option.some.inj (Except.ok.inj h)]; exact ⟨⟨c1, c2, c3, c4, c5, c6⟩, rfl, rfl, rfl⟩
    · cases h
  | asyncFinish dt =>
    simp only [Planner.step, Planner.asyncFinish] at h
    split at h
    · rename_i speed _
      split at h
      · rename_i tr ws hcomp
        rw [← Option.some.inj (Except.ok.inj h)]
        refine (fun (hh : (∀ w ∈ ws, T w) ∧ ws.length = s.p.next.length) => ⟨⟨c1, c2, c3, hh.1, c5, c6⟩, rfl, rfl, hh.2⟩) ?_
        unfold Planner.computeTrajectory at hcomp
        simp only [bind, Except.bind] at hcomp
        split at hcomp
        · cases hcomp
        · split at hcomp
          · cases hcomp
          · split at hcomp
            · cases hcomp
            · split at hcomp
              · cases hcomp
              · rename_i ws' hws'
                obtain ⟨-, rfl⟩ := Prod.mk.inj (Except.ok.inj hcomp)
                exact ⟨carried_assign hC _ _ _ _ _ hws' c4, (assignTimes_rel _ _ _ _ _ hws').1⟩
      · rw [← Option.some.inj (Except.ok.inj h)]; exact ⟨⟨c1, c2, c3, c4, c5, c6⟩, rfl, rfl, rfl⟩
      · cases h
    · cases h
  | _ => exact ht.elim

theorem mem_putModification {n : String} {x : V3 K} {ms : List (String × V3 K)} {m : String × V3 K} (h : m ∈ Planner.putModification n x ms) :
    m = (n, x) ∨ m ∈ ms := by
  induction ms with
  | nil => exact .inl (List.mem_singleton.mp h)
  | cons a ms ih =>
    simp only [Planner.putModification] at h
    split at h
    · rcases List.mem_cons.mp h with h | h
      · exact .inl h
      · exact .inr (List.mem_cons_of_mem _ h)
    · rcases List.mem_cons.mp h with h | h
      · exact .inr (by rw [h]; exact List.mem_cons_self)
      · exact (ih h).imp id (List.mem_cons_of_mem _)

end Verif.Lemmas
