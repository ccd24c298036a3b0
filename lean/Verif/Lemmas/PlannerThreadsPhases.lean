import Verif.Lemmas.PlannerThreadsReq
import Verif.Lemmas.PlannerContents

/-!
# Phases of the worker in any interleaving of all threads
-/

set_option linter.unusedSectionVars false
set_option linter.unusedSimpArgs false

namespace Verif.Lemmas
open Verif Verif.Spec

variable {K : Type*} [Field K] [LinearOrder K] [IsStrictOrderedRing K] [FloorSemiring K]

/-- While the worker plans or applies updates the other threads leave the plan alone. -/
theorem step_beside {env : Env K} {l : Label K} {s s' : Whole K} (h : ThreadStep env l s s') (ht : Threads env s) (hl : l ≠ .worker)
    (hpc : s.p.pc = .collect ∨ s.p.pc = .snapshotted ∨ s.p.pc = .apply) : Beside s.holdsTodo s.p s'.p ∧ s'.w = s.w := by
  have hinv := interleaved_inv (threads_inv ht).1
  have idle : s.p.computing = false ∧ s.p.future = .invalid := by
    have := phase_idle hinv (by rcases hpc with h | h | h <;> simp [h])
    exact ⟨this.1, this.2.1⟩
  cases h with
  | evaluator w h => exact ⟨own_beside h hinv.2 idle.1 _, rfl⟩
  | worker h => exact absurd rfl hl
  | user e hu _ hq h => exact ⟨user_beside hu hq h, rfl⟩
  | request => exact ⟨⟨rfl, rfl, rfl, rfl, rfl, rfl, rfl, rfl, rfl, rfl, rfl, fun _ => rfl, fun _ => rfl, fun _ => rfl⟩, rfl⟩
  | task e hk _ h => exact absurd idle.2 (task_pc hk h).2

theorem stretch_mem {env : Env K} {ok : Whole K → Label K → Whole K → Prop} {s0 s : Whole K} {ss : List (Whole K)}
    (h : Stretch env ok s0 ss s) : s ∈ ss := by
  cases h <;> simp

theorem stretch_first {env : Env K} {ok : Whole K → Label K → Whole K → Prop} {s0 s : Whole K} {ss : List (Whole K)}
    (h : Stretch env ok s0 ss s) : s0 ∈ ss := by
  induction h with
  | start => simp
  | call k _ _ ih => exact List.mem_append_left _ ih
  | step _ _ _ ih => exact List.mem_append_left _ ih

/-! ## Collecting the waypoints of a plan -/

/-- What the worker has collected rests on the clock of one of the states of the phase. -/
theorem collecting {env : Env K} {s0 s : Whole K} {ss : List (Whole K)} (h0 : Threads env s0) (hpc : s0.p.pc = .collect) (hw : s0.w = .begin)
    (h : Stretch env (fun _ _ b => b.p.pc = .collect) s0 ss s) :
    s.p.pc = .collect ∧ (∀ m ∈ ss, m.p.dyn = s.p.dyn) ∧ ∀ base, s.w = .merge base → ∃ m ∈ ss, Base s.p m.p.params.lastGlobal base := by
  induction h with
  | start => exact ⟨hpc, by simp, fun base hb => by rw [hw] at hb; cases hb⟩
  | @call ss s k hs hf ih =>
    obtain ⟨h1, h2, h3⟩ := ih
    refine ⟨h1, ?_, ?_⟩
    · intro m hm
      rcases List.mem_append.mp hm with hm | hm
      · exact h2 m hm
      · rw [List.mem_singleton.mp hm]
    · intro base hb
      obtain ⟨m, hm, hB⟩ := h3 base hb
      exact ⟨m, List.mem_append_left _ hm, hB⟩
  | @step ss l s s' hs hst hok ih =>
    obtain ⟨h1, h2, h3⟩ := ih
    have ht := stretch_threads h0 hs
    by_cases hl : l = .worker
    · subst hl
      have hloc := (threads_inv ht).2
      cases hst with
      | worker h =>
        obtain ⟨p, c, w⟩ := s
        replace h1 : p.pc = .collect := h1
        unfold Local at hloc
        simp only [h1] at hloc
        simp only at h2 h3
        have keep : s'.p = p → ∀ m ∈ ss ++ [s'], m.p.dyn = s'.p.dyn := by
          intro hp m hm
          rcases List.mem_append.mp hm with hm | hm
          · rw [h2 m hm, hp]
          · rw [List.mem_singleton.mp hm]
        cases w <;> simp only at hloc <;> simp only [Whole.work, h1] at h
        case begin =>
          rw [← Except.ok.inj h]
          refine ⟨h1, by have := keep; rw [← Except.ok.inj h] at this; exact this rfl, ?_⟩
          intro base hb
          simp only at hb
          split at hb
          · cases hb
          · rename_i hts
            injection hb with hb
            subst hb
            exact ⟨_, List.mem_append_left _ (stretch_mem hs), by unfold Base; rw [if_neg hts]; rfl⟩
        case filter ws =>
          simp only [bind, Except.bind] at h
          split at h
          · cases h
          · rename_i base hb
            rw [← Except.ok.inj h]
            refine ⟨h1, by have := keep; rw [← Except.ok.inj h] at this; exact this rfl, ?_⟩
            intro base' hb'
            injection hb' with hb'
            subst hb'
            refine ⟨_, List.mem_append_left _ (stretch_mem hs), ?_⟩
            unfold Base
            rw [if_pos (by rw [hloc.2]; rfl), ← hloc.1]
            exact hb
        case merge base =>
          simp only [bind, Except.bind] at h
          split at h
          · cases h
          · rw [← Except.ok.inj h] at hok
            cases hok
    · obtain ⟨hb, hw'⟩ := step_beside hst ht hl (Or.inl h1)
      refine ⟨hok, ?_, ?_⟩
      · intro m hm
        rcases List.mem_append.mp hm with hm | hm
        · rw [h2 m hm, hb.dyn]
        · rw [List.mem_singleton.mp hm]
      · intro base hbase
        rw [hw'] at hbase
        obtain ⟨m, hm, hB⟩ := h3 base hbase
        have hh : s.holdsTodo = true := by unfold Whole.holdsTodo; rw [hbase]
        rw [hh] at hb
        exact ⟨m, List.mem_append_left _ hm, base_congr hb hB⟩

/-- The step with which the collection ends. -/
theorem collect_ends {env : Env K} {l : Label K} {s s' : Whole K} (h : ThreadStep env l s s') (ht : Threads env s) (hpc : s.p.pc = .collect)
    (hpc' : s'.p.pc = .collected) : ∃ base all, s.w = .merge base ∧ resetAll s.p.toModify (base ++ s.p.toAdd.map (·.copy)) = .ok all ∧
      s'.p = { s.p with toSet := [], toAdd := [], toModify := [], next := all, pc := .collected } := by
  by_cases hl : l = .worker
  · subst hl
    have hloc := (threads_inv ht).2
    cases h with
    | worker h =>
      obtain ⟨p, c, w⟩ := s
      replace hpc : p.pc = .collect := hpc
      unfold Local at hloc
      simp only [hpc] at hloc
      cases w <;> simp only at hloc <;> simp only [Whole.work, hpc] at h
      case begin => rw [← Except.ok.inj h] at hpc'; rw [hpc] at hpc'; cases hpc'
      case filter ws =>
        simp only [bind, Except.bind] at h
        split at h
        · cases h
        · rw [← Except.ok.inj h] at hpc'; rw [hpc] at hpc'; cases hpc'
      case merge base =>
        simp only [bind, Except.bind] at h
        split at h
        · cases h
        · rename_i all ha
          exact ⟨base, all, rfl, ha, by rw [← Except.ok.inj h]⟩
  · have := (step_beside h ht hl (Or.inl hpc)).1.pc
    rw [hpc, hpc'] at this
    cases this

theorem base_generate {p : Planner K} {clock : K} {base all : List (Waypoint K)} (hb : Base p clock base)
    (ha : resetAll p.toModify (base ++ p.toAdd.map (·.copy)) = .ok all) :
    ∃ q, Planner.generateWaypoints { p with params := { p.params with lastGlobal := clock } } = .ok (all, q) := by
  unfold Base at hb
  unfold Planner.generateWaypoints
  by_cases ht : p.toSet.length = 0
  · rw [if_pos ht] at hb
    simp only [if_pos ht, bind, Except.bind]
    rw [hb]
    simp only [ha]
    exact ⟨_, rfl⟩
  · rw [if_neg ht] at hb
    simp only [if_neg ht, bind, Except.bind]
    rw [hb]
    simp only [ha]
    exact ⟨_, rfl⟩

/-! ## Attaching the plan -/

/-- Whether a plan is attached to the old one was decided in one of the states of the phase. -/
def Decided (ss : List (Whole K)) (s : Whole K) : Prop :=
  match s.w with
  | .stitchTime clock start => ∃ m ∈ ss, clock = m.p.params.lastGlobal ∧ start = m.p.params.gtlg
  | .attach | .point0 | .convert _ _ | .plain _ _ _ _ | .compensate _ _ _ _ _ | .rest _ _ => ∃ m ∈ ss, EnoughLeft m.p
  | .drone | .vehicle => ∃ m ∈ ss, ¬ EnoughLeft m.p
  | _ => True

theorem attaching {env : Env K} {s0 s : Whole K} {ss : List (Whole K)} (h0 : Threads env s0) (hpc : s0.p.pc = .snapshotted) (hw : s0.w = .begin)
    (h : Stretch env (fun _ _ b => b.p.pc = .snapshotted) s0 ss s) :
    s.p.pc = .snapshotted ∧ (∀ m ∈ ss, m.p.traj = s.p.traj ∧ m.p.dyn = s.p.dyn ∧ m.p.next = s.p.next ∧ m.p.timeConstant = s.p.timeConstant ∧
      m.p.params.gtlg = s.p.params.gtlg ∧ m.p.params.tOffset = s.p.params.tOffset ∧ m.p.newParams.lastLocal = s.p.newParams.lastLocal) ∧ Decided ss s := by
  induction h with
  | start => exact ⟨hpc, by simp, by unfold Decided; rw [hw]; trivial⟩
  | @call ss s k hs hf ih =>
    obtain ⟨h1, h2, h3⟩ := ih
    refine ⟨h1, ?_, ?_⟩
    · intro m hm
      rcases List.mem_append.mp hm with hm | hm
      · exact h2 m hm
      · rw [List.mem_singleton.mp hm]; exact ⟨rfl, rfl, rfl, rfl, rfl, rfl, rfl⟩
    · unfold Decided at h3 ⊢
      cases hw : s.w <;> rw [hw] at h3 <;> simp only at h3 ⊢ <;>
        first | trivial | (obtain ⟨m, hm, hh⟩ := h3; exact ⟨m, List.mem_append_left _ hm, hh⟩)
  | @step ss l s s' hs hst hok ih =>
    obtain ⟨h1, h2, h3⟩ := ih
    have ht := stretch_threads h0 hs
    by_cases hl : l = .worker
    · subst hl
      have hloc := (threads_inv ht).2
      cases hst with
      | worker h =>
        obtain ⟨p, c, w⟩ := s
        replace h1 : p.pc = .snapshotted := h1
        unfold Local at hloc
        simp only [h1] at hloc
        simp only at h2 h3
        have keep : ∀ q : Whole K, q.p = p ∨ (∃ b, q.p = { p with fromScratch := b }) → ∀ m ∈ ss ++ [q], m.p.traj = q.p.traj ∧ m.p.dyn = q.p.dyn ∧
            m.p.next = q.p.next ∧ m.p.timeConstant = q.p.timeConstant ∧ m.p.params.gtlg = q.p.params.gtlg ∧
            m.p.params.tOffset = q.p.params.tOffset ∧ m.p.newParams.lastLocal = q.p.newParams.lastLocal := by
          intro q hp m hm
          rcases List.mem_append.mp hm with hm | hm
          · rcases hp with hp | ⟨b, hp⟩ <;> (rw [hp]; exact h2 m hm)
          · rw [List.mem_singleton.mp hm]; exact ⟨rfl, rfl, rfl, rfl, rfl, rfl, rfl⟩
        have earlier : ∀ (P : Whole K → Prop) (q : Whole K), (∃ m ∈ ss, P m) → ∃ m ∈ ss ++ [q], P m :=
          fun P q ⟨m, hm, hP⟩ => ⟨m, List.mem_append_left _ hm, hP⟩
        have hin := stretch_mem hs
        cases w <;> simp only at hloc <;> simp only [Whole.work, h1] at h
        case begin =>
          rw [← Except.ok.inj h]
          refine ⟨h1, keep _ (Or.inl rfl), ?_⟩
          cases htr : p.traj with
          | none => exact ⟨_, List.mem_append_left _ hin, fun ⟨tr, h, _⟩ => by rw [htr] at h; cases h⟩
          | some tr => trivial
        case stitchParams =>
          rw [← Except.ok.inj h]
          exact ⟨h1, keep _ (Or.inl rfl), _, List.mem_append_left _ hin, rfl, rfl⟩
        case stitchTime clock start =>
          unfold Decided at h3
          simp only at h3
          obtain ⟨m, hm, rfl, rfl⟩ := h3
          obtain ⟨e1, _, _, e4, e5, _⟩ := h2 m hm
          split at h
          · cases h
          · rename_i tr htr
            rw [← Except.ok.inj h]
            refine ⟨h1, keep _ (Or.inl rfl), ?_⟩
            have hiff : EnoughLeft m.p ↔ ¬ (tr.maxTime + m.p.params.gtlg - m.p.params.lastGlobal < 2 * p.computationTime) := by
              unfold EnoughLeft Planner.computationTime
              rw [e1, htr, e4]
              constructor
              · rintro ⟨tr', h, hle⟩
                obtain rfl := Option.some.inj h
                rw [not_lt]
                linarith
              · intro hlt
                exact ⟨tr, rfl, by linarith [not_lt.mp hlt]⟩
            by_cases hlt : tr.maxTime + m.p.params.gtlg - m.p.params.lastGlobal < 2 * p.computationTime
            · unfold Decided
              simp only [if_pos hlt]
              exact ⟨m, List.mem_append_left _ hm, fun hh => hiff.mp hh hlt⟩
            · unfold Decided
              simp only [if_neg hlt]
              exact ⟨m, List.mem_append_left _ hm, hiff.mpr hlt⟩
        case attach =>
          rw [← Except.ok.inj h]
          have := keep ⟨{ p with fromScratch := false }, c, .point0⟩ (Or.inr ⟨false, rfl⟩)
          simp only [h1] at this
          exact ⟨rfl, this, earlier _ _ h3⟩
        case point0 =>
          rw [← Except.ok.inj h]
          exact ⟨h1, keep _ (Or.inl rfl), earlier _ _ h3⟩
        case convert t points =>
          rw [← Except.ok.inj h]
          exact ⟨h1, keep _ (Or.inl rfl), earlier _ _ h3⟩
        case plain g t points done =>
          split at h
          · cases h
          · simp only [bind, Except.bind] at h
            split at h
            · cases h
            · split at h
              · cases h
              · rw [← Except.ok.inj h]
                exact ⟨h1, keep _ (Or.inl rfl), earlier _ _ h3⟩
        case compensate g t points done base =>
          have key : s'.p = p ∧ ((∃ a b c d, s'.w = .plain a b c d) ∨ (∃ a b, s'.w = .convert a b) ∨ ∃ a b, s'.w = .rest a b) := by
            split at h
            · simp only [bind, Except.bind] at h
              split at h
              · cases h
              · split at h
                · rw [← Except.ok.inj h]; exact ⟨rfl, Or.inl ⟨_, _, _, _, rfl⟩⟩
                · split at h
                  · cases h
                  · split at h <;> rw [← Except.ok.inj h]
                    · exact ⟨rfl, Or.inr (Or.inl ⟨_, _, rfl⟩)⟩
                    · exact ⟨rfl, Or.inr (Or.inr ⟨_, _, rfl⟩)⟩
            · simp only [bind, Except.bind, pure, Except.pure] at h
              split at h
              · rw [← Except.ok.inj h]; exact ⟨rfl, Or.inl ⟨_, _, _, _, rfl⟩⟩
              · split at h
                · cases h
                · split at h <;> rw [← Except.ok.inj h]
                  · exact ⟨rfl, Or.inr (Or.inl ⟨_, _, rfl⟩)⟩
                  · exact ⟨rfl, Or.inr (Or.inr ⟨_, _, rfl⟩)⟩
          refine ⟨by rw [key.1]; exact h1, keep _ (Or.inl key.1), ?_⟩
          unfold Decided
          rcases key.2 with ⟨_, _, _, _, e⟩ | ⟨_, _, e⟩ | ⟨_, _, e⟩ <;> rw [e] <;> exact earlier _ _ h3
        case rest t points => rw [← Except.ok.inj h] at hok; cases hok
        case drone =>
          rw [← Except.ok.inj h]
          have := keep ⟨{ p with fromScratch := true }, c, .vehicle⟩ (Or.inr ⟨true, rfl⟩)
          simp only [h1] at this
          exact ⟨rfl, this, earlier _ _ h3⟩
        case vehicle =>
          simp only [bind, Except.bind] at h
          split at h
          · cases h
          · rw [← Except.ok.inj h] at hok; cases hok
    · obtain ⟨hb, hw'⟩ := step_beside hst ht hl (Or.inr (Or.inl h1))
      refine ⟨hok, ?_, ?_⟩
      · intro m hm
        rcases List.mem_append.mp hm with hm | hm
        · obtain ⟨e1, e2, e3, e4, e5, e6, e7⟩ := h2 m hm
          exact ⟨e1.trans hb.traj.symm, e2.trans hb.dyn.symm, e3.trans hb.next.symm, e4.trans hb.timeConstant.symm, e5.trans hb.gtlg.symm,
            e6.trans hb.tOffset.symm, e7.trans hb.newLocal.symm⟩
        · rw [List.mem_singleton.mp hm]; exact ⟨rfl, rfl, rfl, rfl, rfl, rfl, rfl⟩
      · unfold Decided at h3 ⊢
        rw [hw']
        cases hw : s.w <;> rw [hw] at h3 <;> simp only at h3 ⊢ <;>
          first | trivial | (obtain ⟨m, hm, hh⟩ := h3; exact ⟨m, List.mem_append_left _ hm, hh⟩)

/-- The step with which the attaching ends. -/
theorem attach_ends {env : Env K} {l : Label K} {s s' : Whole K} (h : ThreadStep env l s s') (ht : Threads env s) (hpc : s.p.pc = .snapshotted)
    (hpc' : s'.p.pc = .planned) :
    (∃ t points, s.w = .rest t points ∧ s.p.fromScratch = false ∧ s.p.stitch env s.p.next = .ok s'.p.next ∧
      s'.p = { s.p with next := s'.p.next, pc := .planned }) ∨
    (s.w = .vehicle ∧ s.p.fromScratch = true ∧ s.p.appendDronePosition s.p.next = .ok s'.p.next ∧ s'.p = { s.p with next := s'.p.next, pc := .planned }) := by
  by_cases hl : l = .worker
  · subst hl
    have hloc := (threads_inv ht).2
    cases h with
    | worker h =>
      obtain ⟨p, c, w⟩ := s
      replace hpc : p.pc = .snapshotted := hpc
      unfold Local at hloc
      simp only [hpc] at hloc
      have no : ∀ q : Planner K, s'.p = q → q.pc = .snapshotted → False := by
        intro q h1 h2
        rw [h1, h2] at hpc'
        cases hpc'
      cases w <;> simp only at hloc <;> simp only [Whole.work, hpc] at h
      case begin => exact (no p (by rw [← Except.ok.inj h]) hpc).elim
      case stitchParams => exact (no p (by rw [← Except.ok.inj h]) hpc).elim
      case stitchTime =>
        split at h
        · cases h
        · exact (no p (by rw [← Except.ok.inj h]) hpc).elim
      case attach => exact (no _ (by rw [← Except.ok.inj h]) rfl).elim
      case point0 => exact (no p (by rw [← Except.ok.inj h]) hpc).elim
      case convert => exact (no p (by rw [← Except.ok.inj h]) hpc).elim
      case plain =>
        split at h
        · cases h
        · simp only [bind, Except.bind] at h
          split at h
          · cases h
          · split at h
            · cases h
            · exact (no p (by rw [← Except.ok.inj h]) hpc).elim
      case compensate g t points done base =>
        refine (no p ?_ hpc).elim
        split at h
        · simp only [bind, Except.bind] at h
          split at h
          · cases h
          · split at h
            · rw [← Except.ok.inj h]
            · split at h
              · cases h
              · split at h <;> rw [← Except.ok.inj h]
        · simp only [bind, Except.bind, pure, Except.pure] at h
          split at h
          · rw [← Except.ok.inj h]
          · split at h
            · cases h
            · split at h <;> rw [← Except.ok.inj h]
      case rest t points =>
        left
        obtain ⟨h1, tr, h2, h3, h4⟩ := hloc
        rw [← Except.ok.inj h]
        match points, h3 with
        | [w0, w1], _ =>
          obtain ⟨k1, k2, k3⟩ : p.stitchPoint env tr (p.newParams.lastLocal + p.params.tOffset) true = .ok w0 ∧
            p.stitchPoint env tr (p.newParams.lastLocal + p.params.tOffset + 5 * p.computationTime) false = .ok w1 ∧
            t = p.newParams.lastLocal + p.params.tOffset + 5 * p.computationTime + 5 * p.computationTime := h4
          refine ⟨t, [w0, w1], rfl, h1, ?_, rfl⟩
          unfold Planner.stitch
          rw [h2]
          simp only [k1, k2, bind, Except.bind]
          rw [k3]
          rfl
      case drone => exact (no _ (by rw [← Except.ok.inj h]) rfl).elim
      case vehicle =>
        right
        simp only [bind, Except.bind] at h
        split at h
        · cases h
        · rename_i ws hws
          rw [← Except.ok.inj h]
          exact ⟨rfl, hloc, hws, rfl⟩
  · have := (step_beside h ht hl (Or.inr (Or.inl hpc))).1.pc
    rw [hpc, hpc'] at this
    cases this

/-! ## Applying updates -/

/-- Each waypoint has been updated by at most one of the updates, at the clock of one of the states. -/
def AppliedBy (ss : List (Whole K)) (us : List (String × V3 K)) (w w' : Waypoint K) : Prop :=
  ∃ m ∈ ss, ApplyAllRel m.p.params.lastGlobal us w w'

/-- One update, so far. -/
def UpdatedBy (ss : List (Whole K)) (name : String) (x : V3 K) (w w' : Waypoint K) : Prop :=
  (w.name = name ∧ w.name ≠ "" ∧ ∃ m ∈ ss, w.setCurrentPosition x m.p.params.lastGlobal = .ok w') ∨ (¬ (w.name = name ∧ w.name ≠ "") ∧ w' = w)

def Applying (ws : List (Waypoint K)) (ss : List (Whole K)) (s : Whole K) : Prop :=
  match s.w with
  | .begin => s.p.dyn = ws
  | .modification ms => ∃ us, s.p.toModify = us ++ ms ∧ List.Forall₂ (AppliedBy ss us) ws s.p.dyn
  | .waypoints name x ms done rest => ∃ us pre, s.p.toModify = us ++ (name, x) :: ms ∧ List.Forall₂ (AppliedBy ss us) ws s.p.dyn ∧
      s.p.dyn = pre ++ rest ∧ List.Forall₂ (UpdatedBy ss name x) pre done
  | _ => False

theorem lookup_append (n : String) (us vs : List (String × V3 K)) :
    lookupMod n (us ++ vs) = match lookupMod n us with
      | some x => some x
      | none => lookupMod n vs := by
  induction us with
  | nil => rfl
  | cons u us ih =>
    simp only [List.cons_append, lookupMod]
    split
    · rfl
    · exact ih

theorem applied_grows {ss : List (Whole K)} (s : Whole K) {us : List (String × V3 K)} {ws ws' : List (Waypoint K)}
    (h : List.Forall₂ (AppliedBy ss us) ws ws') : List.Forall₂ (AppliedBy (ss ++ [s]) us) ws ws' :=
  h.imp fun _ _ ⟨m, hm, hh⟩ => ⟨m, List.mem_append_left _ hm, hh⟩

theorem updated_grows {ss : List (Whole K)} (s : Whole K) {n : String} {x : V3 K} {ws ws' : List (Waypoint K)}
    (h : List.Forall₂ (UpdatedBy ss n x) ws ws') : List.Forall₂ (UpdatedBy (ss ++ [s]) n x) ws ws' :=
  h.imp fun _ _ hh => hh.imp (fun ⟨h1, h2, m, hm, h3⟩ => ⟨h1, h2, m, List.mem_append_left _ hm, h3⟩) id

theorem applying_grows {ws : List (Waypoint K)} {ss : List (Whole K)} {s : Whole K} {p' : Planner K} {c' : Consumer K}
    (hd : p'.dyn = s.p.dyn) (hm : s.holdsTodo = true → p'.toModify = s.p.toModify) (h : Applying ws ss s) (q : Whole K) :
    Applying ws (ss ++ [q]) ⟨p', c', s.w⟩ := by
  obtain ⟨p, c, w⟩ := s
  unfold Applying at h ⊢
  simp only at hd h ⊢
  cases w <;> simp only at h ⊢ <;> try exact h
  case begin => rw [hd]; exact h
  case modification ms =>
    obtain ⟨us, h1, h2⟩ := h
    exact ⟨us, by rw [hm rfl]; exact h1, by rw [hd]; exact applied_grows q h2⟩
  case waypoints name x ms done rest =>
    obtain ⟨us, pre, h1, h2, h3, h4⟩ := h
    exact ⟨us, pre, by rw [hm rfl]; exact h1, by rw [hd]; exact applied_grows q h2, by rw [hd]; exact h3, updated_grows q h4⟩

/-- One update more. -/
theorem applied_updated {ss : List (Whole K)} {us : List (String × V3 K)} {n : String} {x : V3 K} (hn : n ∉ us.map Prod.fst)
    {ws ws1 ws2 : List (Waypoint K)} (h1 : List.Forall₂ (AppliedBy ss us) ws ws1) (h2 : List.Forall₂ (UpdatedBy ss n x) ws1 ws2) :
    List.Forall₂ (AppliedBy ss (us ++ [(n, x)])) ws ws2 := by
  refine forall2_comp ?_ h1 h2
  rintro a b c ⟨m, hm, hab⟩ hbc
  have hname : b.name = a.name := by
    rcases hab with ⟨_, rfl⟩ | ⟨_, ⟨_, rfl⟩ | ⟨p, _, hs⟩⟩
    · rfl
    · rfl
    · exact (setCurrentPosition_frame a b p _ hs).2.2.2.1
  by_cases ha : a.name = n ∧ a.name ≠ ""
  · have hl : lookupMod a.name us = none := by rw [ha.1]; exact lookup_none n us hn
    have hb : b = a := by
      rcases hab with ⟨_, h⟩ | ⟨_, ⟨_, h⟩ | ⟨p, hp, _⟩⟩
      · exact h
      · exact h
      · rw [hl] at hp; cases hp
    subst hb
    rcases hbc with ⟨_, _, m', hm', hs⟩ | ⟨hno, _⟩
    · refine ⟨m', hm', Or.inr ⟨ha.2, Or.inr ⟨x, ?_, hs⟩⟩⟩
      rw [lookup_append, hl]
      simp only [lookupMod]
      rw [if_pos ha.1.symm]
    · exact absurd ha hno
  · have hcb : c = b := by
      rcases hbc with ⟨h1, h2, _⟩ | ⟨_, h⟩
      · rw [hname] at h1 h2; exact absurd ⟨h1, h2⟩ ha
      · exact h
    subst hcb
    refine ⟨m, hm, ?_⟩
    rcases hab with h | ⟨h0, h | ⟨p, hp, hs⟩⟩
    · exact Or.inl h
    · refine Or.inr ⟨h0, Or.inl ⟨?_, h.2⟩⟩
      rw [lookup_append, h.1]
      simp only [lookupMod]
      rw [if_neg (fun hh => ha ⟨hh.symm, h0⟩)]
    · refine Or.inr ⟨h0, Or.inr ⟨p, ?_, hs⟩⟩
      rw [lookup_append, hp]

theorem applying {env : Env K} {s0 s : Whole K} {ss : List (Whole K)} (h0 : Threads env s0) (hpc : s0.p.pc = .apply) (hw : s0.w = .begin)
    (h : Stretch env (fun _ _ b => b.p.pc = .apply) s0 ss s) :
    s.p.pc = .apply ∧ s.p.next = s0.p.next ∧ Applying s0.p.dyn ss s := by
  induction h with
  | start => exact ⟨hpc, rfl, by unfold Applying; rw [hw]⟩
  | @call ss s k hs hf ih =>
    obtain ⟨h1, h2, h3⟩ := ih
    exact ⟨h1, h2, applying_grows (s := s) rfl (fun _ => rfl) h3 _⟩
  | @step ss l s s' hs hst hok ih =>
    obtain ⟨h1, h2, h3⟩ := ih
    have ht := stretch_threads h0 hs
    by_cases hl : l = .worker
    · subst hl
      have hloc := (threads_inv ht).2
      obtain ⟨g, hg⟩ := threads_pending ht
      have hnd := (pending_tracks hg).2.nodup
      cases hst with
      | worker h =>
        obtain ⟨p, c, w⟩ := s
        replace h1 : p.pc = .apply := h1
        have hin := stretch_mem hs
        unfold Local at hloc
        simp only [h1] at hloc
        unfold Applying at h3
        simp only at h2 h3 hnd
        cases w <;> simp only at hloc h3 <;> simp only [Whole.work, h1] at h
        case begin =>
          rw [← Except.ok.inj h]
          refine ⟨h1, h2, [], rfl, ?_⟩
          simp only
          rw [← h3, List.forall₂_same]
          intro a _
          refine ⟨_, List.mem_append_left _ hin, ?_⟩
          by_cases ha : a.name = ""
          · exact Or.inl ⟨ha, rfl⟩
          · exact Or.inr ⟨ha, Or.inl ⟨rfl, rfl⟩⟩
        case modification ms =>
          cases ms with
          | nil => rw [← Except.ok.inj h] at hok; cases hok
          | cons m ms =>
            obtain ⟨us, e1, e2⟩ := h3
            rw [← Except.ok.inj h]
            exact ⟨h1, h2, us, [], e1, applied_grows _ e2, rfl, .nil⟩
        case waypoints name x ms done rest =>
          obtain ⟨us, pre, e1, e2, e3, e4⟩ := h3
          cases rest with
          | nil =>
            rw [List.append_nil] at e3
            rw [← Except.ok.inj h]
            refine ⟨rfl, h2, us ++ [(name, x)], by rw [List.append_assoc]; exact e1, ?_⟩
            rw [e1] at hnd
            rw [← e3] at e4
            refine applied_updated ?_ (applied_grows _ e2) (updated_grows _ e4)
            intro hm
            rw [List.map_append, List.map_cons, List.nodup_append] at hnd
            exact hnd.2.2 _ hm _ List.mem_cons_self rfl
          | cons a rest =>
            simp only at h
            have happ : ∀ (q : Whole K) (b : Waypoint K), UpdatedBy ss name x a b →
                ∃ pre', p.dyn = pre' ++ rest ∧ List.Forall₂ (UpdatedBy (ss ++ [q]) name x) pre' (done ++ [b]) :=
              fun q b hb => ⟨pre ++ [a], by rw [e3]; simp, updated_grows q (List.rel_append e4 (.cons hb .nil))⟩
            split at h
            · rename_i hn
              simp only [bind, Except.bind] at h
              split at h
              · cases h
              · rename_i a' ha
                rw [← Except.ok.inj h]
                obtain ⟨pre', k1, k2⟩ := happ _ a' (Or.inl ⟨hn.1, hn.2, _, hin, ha⟩)
                exact ⟨rfl, h2, us, pre', e1, applied_grows _ e2, k1, k2⟩
            · rename_i hn
              rw [← Except.ok.inj h]
              obtain ⟨pre', k1, k2⟩ := happ _ a (Or.inr ⟨hn, rfl⟩)
              exact ⟨h1, h2, us, pre', e1, applied_grows _ e2, k1, k2⟩
    · obtain ⟨hb, hw'⟩ := step_beside hst ht hl (Or.inr (Or.inr h1))
      refine ⟨hok, hb.next.trans h2, ?_⟩
      have := applying_grows (c' := s'.c) hb.dyn hb.toModify h3 s'
      rw [← hw'] at this
      exact this

/-- The step with which the updating ends. -/
theorem apply_ends {env : Env K} {l : Label K} {s s' : Whole K} (h : ThreadStep env l s s') (ht : Threads env s) (hpc : s.p.pc = .apply)
    (hpc' : s'.p.pc ≠ .apply) : s.w = .modification [] ∧ s'.p = { s.p with toModify := [], pc := .top } := by
  by_cases hl : l = .worker
  · subst hl
    have hloc := (threads_inv ht).2
    cases h with
    | worker h =>
      obtain ⟨p, c, w⟩ := s
      replace hpc : p.pc = .apply := hpc
      unfold Local at hloc
      simp only [hpc] at hloc
      cases w <;> simp only at hloc <;> simp only [Whole.work, hpc] at h
      case begin => exact absurd (by rw [← Except.ok.inj h]; exact hpc) hpc'
      case modification ms =>
        cases ms with
        | nil => exact ⟨rfl, by rw [← Except.ok.inj h]⟩
        | cons m ms => exact absurd (by rw [← Except.ok.inj h]; exact hpc) hpc'
      case waypoints name x ms done rest =>
        refine absurd ?_ hpc'
        cases rest with
        | nil => rw [← Except.ok.inj h]
        | cons a rest =>
          simp only at h
          split at h
          · simp only [bind, Except.bind] at h
            split at h
            · cases h
            · rw [← Except.ok.inj h]
          · rw [← Except.ok.inj h]; exact hpc
  · exact absurd ((step_beside h ht hl (Or.inr (Or.inr hpc))).1.pc.trans hpc) hpc'

end Verif.Lemmas
