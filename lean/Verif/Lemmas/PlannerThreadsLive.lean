import Verif.Spec.PlannerForever
import Verif.Lemmas.PlannerThreadsCarry

/-!
# Requests are carried out in the end: progress of all threads
-/

set_option linter.unusedSectionVars false
set_option linter.unusedSimpArgs false

namespace Verif.Lemmas
open Verif Verif.Spec

variable {K : Type*} [Field K] [LinearOrder K] [IsStrictOrderedRing K] [FloorSemiring K]

/-- Nothing decreases forever. -/
theorem no_descent {α : Type*} [LinearOrder α] [WellFoundedLT α] (r : ℕ → α) (W : ℕ → Prop) (N : ℕ) (h1 : ∀ n ≥ N, r (n + 1) ≤ r n)
    (h2 : ∀ n ≥ N, W n → r (n + 1) < r n) (h3 : ∀ n ≥ N, ∃ m ≥ n, W m) : False := by
  have mono : ∀ n ≥ N, ∀ d, r (n + d) ≤ r n := by
    intro n hn d
    induction d with
    | zero => exact le_refl _
    | succ d ih => exact (h1 (n + d) (by omega)).trans ih
  have key : ∀ a : α, ∀ n ≥ N, r n = a → False := by
    intro a
    induction a using WellFoundedLT.induction with
    | ind a ih =>
      intro n hn ha
      obtain ⟨m, hm, hW⟩ := h3 n hn
      have := mono n hn (m - n)
      rw [Nat.add_sub_cancel' hm] at this
      exact ih (r (m + 1)) (by rw [← ha]; exact (h2 m (by omega) hW).trans_le this) (m + 1) (by omega) rfl
  exact key (r N) N (le_refl N) rfl

/-- While no computation is in progress the others leave the plan alone. -/
theorem idle_beside {env : Env K} {l : Label K} {s s' : Whole K} (h : ThreadStep env l s s') (ht : Threads env s) (hl : l ≠ .worker)
    (hc : s.p.computing = false) : Beside false s.p s'.p ∧ s'.w = s.w := by
  have hinv := interleaved_inv (threads_inv ht).1
  cases h with
  | evaluator w h => exact ⟨own_beside h hinv.2 hc _, rfl⟩
  | worker h => exact absurd rfl hl
  | user e hu _ hq h =>
    have hb := user_beside hu hq h
    exact ⟨⟨hb.1, hb.2, hb.3, hb.4, hb.5, hb.6, hb.7, hb.8, hb.9, hb.10, hb.11, fun h => (by cases h), fun h => (by cases h),
      fun h => (by cases h)⟩, rfl⟩
  | request => exact ⟨⟨rfl, rfl, rfl, rfl, rfl, rfl, rfl, rfl, rfl, rfl, rfl, fun _ => rfl, fun _ => rfl, fun _ => rfl⟩, rfl⟩
  | task e hk _ h => exact absurd (threads_idle ht hc).2.1 (task_pc hk h).2

/-! ## Until the requests are taken -/

/-- How far the worker is from taking the requests, outside the security zone. -/
def rank1 (s : Whole K) : ℕ ×ₗ ℕ :=
  match s.p.pc, s.w with
  | .top, .begin => toLex (0, 10)
  | .top, .zone => toLex (0, 9)
  | .top, .zoneRead => toLex (0, 8)
  | .top, .zoneLoop ws clock => if Planner.zoneLoop clock (5 * s.p.computationTime) ws then toLex (6, 0) else toLex (0, 7)
  | .top, .status b => if b then toLex (5, 0) else toLex (0, 6)
  | .top, .queue => toLex (4, 0)
  | .top, .queueStatus => toLex (3, 0)
  | .apply, .begin => toLex (2, 0)
  | .apply, .modification ms => toLex (1, ms.length * (s.p.dyn.length + 2))
  | .apply, .waypoints _ _ ms _ rest => toLex (1, ms.length * (s.p.dyn.length + 2) + rest.length + 1)
  | .collect, .begin => toLex (0, 5)
  | .collect, .filter _ => toLex (0, 4)
  | _, _ => toLex (0, 3)

theorem rank1_beside {s s' : Whole K} {b : Bool} (h : Beside b s.p s'.p) (hw : s'.w = s.w) : rank1 s' = rank1 s := by
  have hct : s'.p.computationTime = s.p.computationTime := by unfold Planner.computationTime; rw [h.timeConstant]
  unfold rank1
  rw [h.pc, hw, h.dyn, hct]

theorem lex1 {a b : ℕ} (h : a < b) (c : ℕ) : toLex (c, a) < toLex (c, b) := Prod.Lex.toLex_lt_toLex.mpr (Or.inr ⟨rfl, h⟩)

theorem lex0 {a b : ℕ} (h : a < b) (c d : ℕ) : toLex (a, c) < toLex (b, d) := Prod.Lex.toLex_lt_toLex.mpr (Or.inl h)

theorem rank1_work {env : Env K} (henv : Segmentwise env) {s s' : Whole K} (h : s.work env = .ok s') (ht : Threads env s)
    (hpc : s.p.pc = .top ∨ s.p.pc = .apply ∨ s.p.pc = .collect) (hn : ¬ (s.p.pc = .collect ∧ s'.p.pc = .collected))
    (hc : s.p.computing = false) (hg : s.p.generateNew = true) (hz : ¬ InZone s.p) : rank1 s' < rank1 s := by
  have hloc := (threads_inv ht).2
  have hnone := (serialised_plan henv (threads_idle ht hc).1).none
  obtain ⟨p, c, w⟩ := s
  replace hpc : p.pc = .top ∨ p.pc = .apply ∨ p.pc = .collect := hpc
  replace hnone : p.traj = none → p.dyn = [] := hnone
  replace hc : p.computing = false := hc
  replace hg : p.generateNew = true := hg
  replace hz : ¬ InZone p := hz
  unfold Local at hloc
  have same : ∀ {q : Whole K}, (Except.ok q : Res (Whole K)) = .ok s' → s' = q := fun h => (Except.ok.inj h).symm
  rcases hpc with hpc | hpc | hpc <;> simp only [hpc] at hloc <;> cases w <;> simp only at hloc <;> simp only [Whole.work, hpc] at h
  case inl.begin =>
    rw [hg] at h
    rw [same h]
    simp only [rank1, hpc, if_true]
    exact lex1 (by norm_num) 0
  case inl.zone =>
    split at h
    · rw [same h]
      simp only [rank1, hpc]
      exact lex1 (by norm_num) 0
    · rw [same h]
      simp only [rank1, hpc, Bool.false_eq_true, if_false]
      exact lex1 (by norm_num) 0
  case inl.zoneRead =>
    rw [same h]
    have hf : Planner.zoneLoop p.params.lastGlobal (5 * p.computationTime) p.dyn = false := by
      cases htr : p.traj with
      | none => rw [hnone htr]; rfl
      | some tr =>
        have := outside_zone p hz
        unfold Planner.checkInSecurityZone at this
        rw [htr] at this
        exact this
    simp only [rank1, hpc]
    rw [hf]
    exact lex1 (by norm_num) 0
  case inl.zoneLoop ws clock =>
    rw [same h]
    simp only [rank1, hpc]
    split
    · exact lex0 (by norm_num) _ _
    · exact lex1 (by norm_num) 0
  case inl.status b =>
    rw [hc] at h
    cases b with
    | true =>
      simp only [Bool.not_true, Bool.false_and, Bool.false_eq_true, if_false] at h
      rw [same h]
      simp only [rank1, hpc, if_true]
      exact lex0 (by norm_num) _ _
    | false =>
      simp only [Bool.not_false, Bool.and_self, if_true] at h
      rw [same h]
      simp only [rank1, hpc, Bool.false_eq_true, if_false]
      exact lex1 (by norm_num) 0
  case inl.queue =>
    split at h <;> (rw [same h]; simp only [rank1, hpc]; exact lex0 (by norm_num) _ _)
  case inl.queueStatus =>
    rw [hc] at h
    simp only [Bool.not_false, if_true] at h
    rw [same h]
    simp only [rank1, hpc]
    exact lex0 (by norm_num) _ _
  case inr.inl.begin =>
    rw [same h]
    simp only [rank1, hpc]
    exact lex0 (by norm_num) _ _
  case inr.inl.modification ms =>
    cases ms with
    | nil =>
      rw [same h]
      simp only [rank1, hpc]
      exact lex0 (by norm_num) _ _
    | cons u ms =>
      obtain ⟨name, x⟩ := u
      rw [same h]
      simp only [rank1, hpc]
      refine lex1 ?_ 1
      simp only [List.length_cons]
      nlinarith
  case inr.inl.waypoints name x ms done rest =>
    cases rest with
    | nil =>
      rw [same h]
      simp only [rank1, hpc]
      obtain ⟨pre, h1, h2⟩ := hloc
      rw [h1, List.append_nil, ← h2.length_eq]
      exact lex1 (by simp) 1
    | cons a rest =>
      simp only at h
      split at h
      · simp only [bind, Except.bind] at h
        split at h
        · cases h
        · rw [same h]
          simp only [rank1, hpc]
          exact lex1 (by simp) 1
      · rw [same h]
        simp only [rank1, hpc]
        exact lex1 (by simp) 1
  case inr.inr.begin =>
    split at h <;> (rw [same h]; simp only [rank1, hpc]; exact lex1 (by norm_num) 0)
  case inr.inr.filter ws =>
    simp only [bind, Except.bind] at h
    split at h
    · cases h
    · rw [same h]
      simp only [rank1, hpc]
      exact lex1 (by norm_num) 0
  case inr.inr.merge base =>
    simp only [bind, Except.bind] at h
    split at h
    · cases h
    · have := same h
      exact absurd ⟨hpc, by rw [this]⟩ hn

/-! ## Until the computation is launched -/

/-- How far the worker is from launching the computation. -/
def rank2 (s : Whole K) : ℕ :=
  match s.p.pc, s.w with
  | .collected, _ => 50
  | .snapshotted, .begin => 49
  | .snapshotted, .stitchParams => 48
  | .snapshotted, .stitchTime _ _ => 47
  | .snapshotted, .attach => 46
  | .snapshotted, .point0 => 45
  | .snapshotted, .convert _ points => 22 + (1 - points.length) * 10
  | .snapshotted, .plain _ _ points done => 15 + (1 - points.length) * 10 + (6 - 2 * done.length)
  | .snapshotted, .compensate _ _ points done _ => 15 + (1 - points.length) * 10 + (5 - 2 * done.length)
  | .snapshotted, .rest _ _ => 14
  | .snapshotted, .drone => 13
  | .snapshotted, .vehicle => 12
  | _, _ => 11

theorem rank2_same {s s' : Whole K} (hpc : s'.p.pc = s.p.pc) (hw : s'.w = s.w) : rank2 s' = rank2 s := by
  unfold rank2
  rw [hpc, hw]

theorem rank2_work {env : Env K} {s s' : Whole K} (h : s.work env = .ok s') (ht : Threads env s) (hpc : s.p.pc = .snapshotted) :
    rank2 s' < rank2 s := by
  have hloc := (threads_inv ht).2
  obtain ⟨p, c, w⟩ := s
  replace hpc : p.pc = .snapshotted := hpc
  unfold Local at hloc
  simp only [hpc] at hloc
  have same : ∀ {q : Whole K}, (Except.ok q : Res (Whole K)) = .ok s' → s' = q := fun h => (Except.ok.inj h).symm
  cases w <;> simp only at hloc <;> simp only [Whole.work, hpc] at h
  case «begin» =>
    split at h <;> (rw [same h]; simp only [rank2, hpc]; norm_num)
  case stitchParams => rw [same h]; simp only [rank2, hpc]; norm_num
  case stitchTime clock start =>
    split at h
    · cases h
    · split at h <;> (rw [same h]; simp only [rank2, hpc]; norm_num)
  case attach => rw [same h]; simp only [rank2, hpc]; norm_num
  case point0 => rw [same h]; simp only [rank2, hpc]; norm_num
  case convert t points => rw [same h]; simp only [rank2, hpc, List.length_nil]; omega
  case plain g t points done =>
    obtain ⟨_, _, _, _, _, _, hd, _⟩ := hloc
    split at h
    · cases h
    · simp only [bind, Except.bind] at h
      split at h
      · cases h
      · split at h
        · cases h
        · rw [same h]; simp only [rank2, hpc]; omega
  case compensate g t points done base =>
    obtain ⟨_, _, _, hp, _, _, hd, _⟩ := hloc
    have key : s'.p.pc = .snapshotted ∧ ((done.length < 2 ∧ ∃ g' t' v, s'.w = .plain g' t' points (done ++ [v])) ∨
        (¬ done.length < 2 ∧ ((points.length < 1 ∧ ∃ t' w, s'.w = .convert t' (points ++ [w])) ∨
          (∃ t' w, s'.w = .rest t' (points ++ [w]))))) := by
      split at h
      · simp only [bind, Except.bind] at h
        split at h
        · cases h
        · split at h
          · rename_i hlt
            rw [same h]; exact ⟨hpc, Or.inl ⟨hlt, _, _, _, rfl⟩⟩
          · rename_i hlt
            split at h
            · cases h
            · split at h
              · rename_i hp1
                rw [same h]; exact ⟨hpc, Or.inr ⟨hlt, Or.inl ⟨hp1, _, _, rfl⟩⟩⟩
              · rw [same h]; exact ⟨hpc, Or.inr ⟨hlt, Or.inr ⟨_, _, rfl⟩⟩⟩
      · simp only [bind, Except.bind, pure, Except.pure] at h
        split at h
        · rename_i hlt
          rw [same h]; exact ⟨hpc, Or.inl ⟨hlt, _, _, _, rfl⟩⟩
        · rename_i hlt
          split at h
          · cases h
          · split at h
            · rename_i hp1
              rw [same h]; exact ⟨hpc, Or.inr ⟨hlt, Or.inl ⟨hp1, _, _, rfl⟩⟩⟩
            · rw [same h]; exact ⟨hpc, Or.inr ⟨hlt, Or.inr ⟨_, _, rfl⟩⟩⟩
    obtain ⟨k1, ⟨k2, _, _, _, k3⟩ | ⟨k2, ⟨k3, _, _, k4⟩ | ⟨_, _, k4⟩⟩⟩ := key
    · simp only [rank2, hpc, k1, k3, List.length_append, List.length_singleton]; omega
    · simp only [rank2, hpc, k1, k4, List.length_append, List.length_singleton]; omega
    · simp only [rank2, hpc, k1, k4]; omega
  case rest t points => rw [same h]; simp only [rank2, hpc]; norm_num
  case drone => rw [same h]; simp only [rank2, hpc]; norm_num
  case vehicle =>
    simp only [bind, Except.bind] at h
    split at h
    · cases h
    · rw [same h]; simp only [rank2, hpc]; norm_num

/-! ## Until the plan is taken over -/

/-- What the evaluating thread does to the future. -/
theorem own_future {env : Env K} {p p' : Planner K} {c c' : Consumer K} (h : Fine.consume env ⟨p, c⟩ = .ok (some ⟨p', c'⟩)) :
    (∃ new, p.future = .ready new ∧ TakingOver c') ∨
    ((∀ k, c ≠ .get k) ∧ p'.future = p.future ∧ (TakingOver c → TakingOver c' ∨ p'.computing = false)) := by
  have simple : ∀ {q : Planner K} {d : Consumer K}, (Except.ok (some (⟨q, d⟩ : Fine K)) : Res (Option (Fine K))) = .ok (some ⟨p', c'⟩) →
      p' = q ∧ c' = d :=
    fun h => by
      have := Option.some.inj (Except.ok.inj h)
      injection this with h1 h2
      exact ⟨h1.symm, h2.symm⟩
  have plain : ∀ {q : Planner K} {d : Consumer K}, (Except.ok (some (⟨q, d⟩ : Fine K)) : Res (Option (Fine K))) = .ok (some ⟨p', c'⟩) →
      (∀ k, c ≠ .get k) → q.future = p.future → (TakingOver c → TakingOver d) →
      (∃ new, p.future = .ready new ∧ TakingOver c') ∨
      ((∀ k, c ≠ .get k) ∧ p'.future = p.future ∧ (TakingOver c → TakingOver c' ∨ p'.computing = false)) := by
    intro q d h3 h0 h1 h2
    obtain ⟨rfl, rfl⟩ := simple h3
    exact Or.inr ⟨h0, h1, fun h => Or.inl (h2 h)⟩
  cases c with
  | free => cases h
  | evaluated r => cases h
  | copied ws => cases h
  | time x => cases h
  | get k =>
    simp only [Fine.consume] at h
    split at h
    · rename_i new hnew
      obtain ⟨rfl, rfl⟩ := simple h
      exact Or.inl ⟨new, hnew, trivial⟩
    · cases h
    · cases h
    · cases h
  | clearComputing k =>
    obtain ⟨rfl, rfl⟩ := simple h
    exact Or.inr ⟨by simp, rfl, fun _ => Or.inr rfl⟩
  | start k => cases k <;> exact plain h (by simp) rfl (fun hh => hh.elim)
  | wait k =>
    simp only [Fine.consume] at h
    split at h
    · exact plain h (by simp) rfl (fun hh => hh.elim)
    · cases h
  | valid k => exact plain h (by simp) rfl (fun hh => hh.elim)
  | busy k v => exact plain h (by simp) rfl (fun hh => hh.elim)
  | ready k =>
    simp only [Fine.consume] at h
    split at h
    · exact plain h (by simp) rfl (fun hh => hh.elim)
    · cases h
  | target k new =>
    simp only [Fine.consume] at h
    split at h <;> exact plain h (by simp) rfl (fun _ => trivial)
  | old k new g l =>
    simp only [Fine.consume] at h
    split at h
    · cases h
    · simp only [bind, Except.bind] at h
      split at h
      · cases h
      · exact plain h (by simp) rfl (fun _ => trivial)
  | fit0 k new s x =>
    simp only [Fine.consume, bind, Except.bind] at h
    split at h
    · cases h
    · exact plain h (by simp) rfl (fun _ => trivial)
  | fit k new s x n i d m =>
    cases n with
    | zero => exact plain h (by simp) rfl (fun _ => trivial)
    | succ n =>
      simp only [Fine.consume, bind, Except.bind] at h
      split at h
      · cases h
      · split at h <;> exact plain h (by simp) rfl (fun _ => trivial)
  | offset k new s x m => exact plain h (by simp) rfl (fun _ => trivial)
  | fitted k new s => refine plain h (by simp) ?_ (fun _ => trivial); cases s <;> rfl
  | params k new => exact plain h (by simp) rfl (fun _ => trivial)
  | traj k new => exact plain h (by simp) rfl (fun _ => trivial)
  | mark k => exact plain h (by simp) rfl (fun _ => trivial)
  | swap k => exact plain h (by simp) rfl (fun _ => trivial)
  | clearRequest k => exact plain h (by simp) rfl (fun hh => hh.elim)
  | localTime t o f => exact plain h (by simp) rfl (fun hh => hh.elim)
  | note t o f l => refine plain h (by simp) ?_ (fun hh => hh.elim); cases f <;> rfl
  | shift t o l => exact plain h (by simp) rfl (fun hh => hh.elim)
  | plain o g l done =>
    simp only [Fine.consume] at h
    split at h
    · cases h
    · simp only [bind, Except.bind] at h
      split at h
      · cases h
      · split at h
        · cases h
        · exact plain h (by simp) rfl (fun hh => hh.elim)
  | compensate o g l done base =>
    obtain ⟨v, _, hv⟩ := compensate_step h
    injection hv with h1 h2
    rw [h1]
    exact Or.inr ⟨by simp, rfl, fun hh => hh.elim⟩
  | copy => exact plain h (by simp) rfl (fun hh => hh.elim)
  | length m =>
    simp only [Fine.consume] at h
    split at h
    · cases h
    · exact plain h (by simp) rfl (fun hh => hh.elim)
  | globalTime x => exact plain h (by simp) rfl (fun hh => hh.elim)

/-- What the computation does to the future. -/
theorem task_future {env : Env K} {p p' : Planner K} {e : Event K} (ht : ByTask e) (h : p.step env e = .ok (some p')) :
    (p.future = .launched ∧ ∃ v, p'.future = .running v) ∨ ((∃ v, p.future = .running v) ∧ p'.future.isReady = true) := by
  cases e with
  | asyncStart =>
    simp only [Planner.step, Planner.asyncStart] at h
    split at h
    · rename_i hf
      rw [← Option.some.inj (Except.ok.inj h)]
      exact Or.inl ⟨hf, _, rfl⟩
    · cases h
  | asyncFinish dt =>
    simp only [Planner.step, Planner.asyncFinish] at h
    split at h
    · rename_i hf
      split at h
      · rw [← Option.some.inj (Except.ok.inj h)]
        exact Or.inr ⟨⟨_, hf⟩, rfl⟩
      · rw [← Option.some.inj (Except.ok.inj h)]
        exact Or.inr ⟨⟨_, hf⟩, rfl⟩
      · cases h
    · cases h
  | _ => exact ht.elim

/-! ## Executions -/

theorem forever_threads {env : Env K} {σ : ℕ → Whole K} {L : ℕ → Option (Label K)} (h : Forever env σ L) (n : ℕ) : Threads env (σ n) := by
  induction n with
  | zero => obtain ⟨v, hv⟩ := h.init; rw [hv]; exact .init v
  | succ n ih =>
    cases hl : L n with
    | none => obtain ⟨hf, k, hk⟩ := h.call n hl; rw [hk]; exact .call k ih hf
    | some l => exact .step ih (h.step n l hl)

theorem forever_pending {env : Env K} {σ : ℕ → Whole K} {L : ℕ → Option (Label K)} (h : Forever env σ L) {ex : Prop} {name : String}
    (hex : ex → ∀ n x b, L n ≠ some (.user (.modifyWaypoint name x b))) (n : ℕ) :
    ∃ g, Pending env g (σ n) ∧ (ex → ∀ u ∈ g.updates, u.1 ≠ name) := by
  induction n with
  | zero => obtain ⟨v, hv⟩ := h.init; rw [hv]; exact ⟨_, .init v, fun _ u hu => by cases hu⟩
  | succ n ih =>
    obtain ⟨g, hg, hx⟩ := ih
    cases hl : L n with
    | none => obtain ⟨hf, k, hk⟩ := h.call n hl; rw [hk]; exact ⟨g, .call k hg hf, hx⟩
    | some l =>
      have hs := h.step n l hl
      by_cases hu : ∃ e, l = .user e
      · obtain ⟨e, rfl⟩ := hu
        refine ⟨_, .user e hg hs, fun hxx u hu => ?_⟩
        have hby : ByUsers e := by
          generalize σ (n + 1) = s' at hs
          cases hs
          assumption
        cases e with
        | setWaypoints ws => cases hu
        | modifyWaypoint m x b =>
          rcases List.mem_append.mp hu with h | h
          · exact hx hxx u h
          · rw [List.mem_singleton.mp h]
            rintro rfl
            exact hex hxx n x b hl
        | _ => first | exact hx hxx u hu | exact hby.elim
      · by_cases h1 : TakesRequests (σ n) l (σ (n + 1))
        · exact ⟨_, .taken hg hs h1, fun _ u hu => by cases hu⟩
        · by_cases h2 : FinishesUpdates (σ n) l (σ (n + 1))
          · exact ⟨_, .updated hg hs h2, fun _ u hu => by cases hu⟩
          · exact ⟨g, .other hg hs (fun e he => hu ⟨e, he⟩) h1 h2, hx⟩

/-- A plan is asked for, and the request will not be cleared by the end of a take-over. -/
def Flag (s : Whole K) : Prop := s.p.generateNew = true ∧ ∀ k, s.c ≠ .clearRequest k

theorem flag_step {env : Env K} {l : Label K} {s s' : Whole K} (hf : Flag s) (ht : Threads env s) (h : ThreadStep env l s s')
    (hpc : s.p.pc = .top ∨ s.p.pc = .apply ∨ s.p.pc = .collect) (hc : s.p.computing = false) (hn : ¬ TakesRequests s l s')
    (hm : ∀ m x, l ≠ .user (.modifyWaypoint m x false)) : Flag s' := by
  have hinv := interleaved_inv (threads_inv ht).1
  obtain ⟨h1, h2⟩ := hf
  cases h with
  | evaluator w h =>
    obtain ⟨⟨q, hq⟩, h3⟩ := own_idle h hinv.2 hc h2
    exact ⟨by simp only at hq ⊢; rw [hq]; exact h1, h3⟩
  | worker h =>
    obtain ⟨_, _, h3, h4⟩ := work_resting h ht hpc (fun hh => hn ⟨rfl, hh⟩)
    exact ⟨h3.trans h1, by rw [h4]; exact h2⟩
  | user e hu _ _ h =>
    refine ⟨?_, h2⟩
    cases e with
    | setWaypoints ws => rw [← Option.some.inj (Except.ok.inj h)]; rfl
    | appendWaypoint u => rw [← Option.some.inj (Except.ok.inj h)]; rfl
    | modifyWaypoint m x b =>
      cases b with
      | true => rw [← Option.some.inj (Except.ok.inj h)]; rfl
      | false => exact absurd rfl (hm m x)
    | setSpeed v => rw [← Option.some.inj (Except.ok.inj h)]; exact h1
    | getWasTrajectoryRegenerated => rw [← Option.some.inj (Except.ok.inj h)]; exact h1
    | updateVehiclePosition x => rw [← Option.some.inj (Except.ok.inj h)]; exact h1
    | _ => exact hu.elim
  | request => exact ⟨rfl, h2⟩
  | task e hk _ h => exact absurd (threads_idle ht hc).2.1 (task_pc hk h).2

/-- The request on its way, until a plan is taken over. -/
def OnItsWay (env : Env K) (ex : Prop) (w : Waypoint K) (s : Whole K) : Prop :=
  (Queued env ex w s ∧ Flag s) ∨ ∃ w0, w0.name = w.name ∧ (ex → Becomes none w w0) ∧ Carried w0 s

theorem way_step {env : Env K} {ex : Prop} {w : Waypoint K} {l : Label K} {s s' : Whole K} (hnew : w.time = 0) (ht : Threads env s)
    (hw : OnItsWay env ex w s) (h : ThreadStep env l s s') (hto : ¬ TakesOver s.p s'.p) (hns : ∀ ws, l ≠ .user (.setWaypoints ws))
    (hm : ∀ m x, l ≠ .user (.modifyWaypoint m x false)) (hex : ex → ∀ x b, l ≠ .user (.modifyWaypoint w.name x b)) :
    OnItsWay env ex w s' := by
  rcases hw with ⟨hq, hf⟩ | ⟨w0, h1, h2, h3⟩
  · obtain ⟨_, k1, k2⟩ := queued_whole hq hnew h hns hex
    by_cases htr : TakesRequests s l s'
    · exact Or.inr (k2 htr)
    · obtain ⟨g, _, hpc, hc, _⟩ := hq
      exact Or.inl ⟨k1 htr, flag_step hf ht h hpc hc htr hm⟩
  · exact Or.inr ⟨w0, h1, h2, (carried_step ht h3 h).2 hto⟩

theorem way_call {env : Env K} {ex : Prop} {w : Waypoint K} {s : Whole K} (k : Purpose K) (hw : OnItsWay env ex w s)
    (hf : s.c.isFree = true) : OnItsWay env ex w ⟨s.p, .start k, s.w⟩ := by
  rcases hw with ⟨⟨g, hg, h1, h2, h3, h4⟩, hfl, _⟩ | ⟨w0, h1, h2, h3⟩
  · exact Or.inl ⟨⟨g, .call k hg hf, h1, h2, h3, h4⟩, hfl, fun k => by simp⟩
  · refine Or.inr ⟨w0, h1, h2, ?_⟩
    rcases h3 with h3 | ⟨h3, h4, _⟩
    · exact Or.inl h3
    · exact Or.inr ⟨h3, h4, fun k hk => by cases hk⟩

section
variable {env : Env K} {σ : ℕ → Whole K} {L : ℕ → Option (Label K)}

/-- A computation in progress stays in progress until it is taken over. -/
theorem busy_stays {n2 : ℕ} (hno : ∀ n ≥ n2, ¬ TakenOver σ n) (hc : (σ n2).p.computing = true) :
    ∀ n ≥ n2, (σ n).p.computing = true := by
  intro n hn
  induction n, hn using Nat.le_induction with
  | base => exact hc
  | succ n hn ih =>
    by_contra hcon
    exact hno n hn ⟨ih, by simpa using hcon⟩

/-- If a computation is in progress, it is taken over. -/
theorem busy_taken (h : Forever env σ L) (hW : WorkerRuns L) (hT : TaskRuns σ L) (hE : KeepsEvaluating σ L) {n2 : ℕ}
    (hno : ∀ n ≥ n2, ¬ TakenOver σ n) (hc2 : (σ n2).p.computing = true) : False := by
  have hcomp := busy_stays hno hc2
  have hth := forever_threads h
  -- the worker launches it
  obtain ⟨n3, hn3, hpc3⟩ : ∃ n3 ≥ n2, (σ n3).p.pc ≠ .launching := by
    by_contra hcon
    push Not at hcon
    obtain ⟨m, hm, hl⟩ := hW n2
    have hs := h.step m _ hl
    cases hs with
    | worker hs => exact (work_busy hs (hth m) (hcomp m hm)).2.2.2.2.1 (hcon (m + 1) (by omega))
  have hpc : ∀ n ≥ n3, (σ n).p.pc ≠ .launching := by
    intro n hn
    induction n, hn using Nat.le_induction with
    | base => exact hpc3
    | succ n hn ih =>
      cases hl : L n with
      | none => obtain ⟨_, k, hk⟩ := h.call n hl; rw [hk]; exact ih
      | some l =>
        have hs := h.step n l hl
        generalize σ (n + 1) = s' at hs ⊢
        have hcn := hcomp n (by omega)
        have htn := hth n
        generalize σ n = s at hs ih hcn htn
        cases hs with
        | evaluator w hs => simp only at ih ⊢; rw [own_pc hs]; exact ih
        | worker hs => exact (work_busy hs htn hcn).2.2.2.2.1
        | user e hu _ hq hs => simp only; rw [(user_beside hu hq hs).pc]; exact ih
        | request => exact ih
        | task e hk _ hs => simp only; rw [(task_pc hk hs).1]; exact ih
  -- what a step does to the future
  have hfut : ∀ n ≥ n3, (∃ e, L n = some (.task e) ∧ (((σ n).p.future = .launched ∧ ∃ v, (σ (n + 1)).p.future = .running v) ∨
        ((∃ v, (σ n).p.future = .running v) ∧ (σ (n + 1)).p.future.isReady = true)) ∧ (σ (n + 1)).c = (σ n).c) ∨
      ((∀ e, L n ≠ some (.task e)) ∧ (σ (n + 1)).p.future = (σ n).p.future ∧ (TakingOver (σ n).c → TakingOver (σ (n + 1)).c)) ∨
      ((∀ e, L n ≠ some (.task e)) ∧ (∃ new, (σ n).p.future = .ready new) ∧ TakingOver (σ (n + 1)).c) := by
    intro n hn
    cases hl : L n with
    | none =>
      obtain ⟨hf, k, hk⟩ := h.call n hl
      right; left
      rw [hk]
      refine ⟨by simp, rfl, fun ht => ?_⟩
      cases hcc : (σ n).c <;> rw [hcc] at hf ht <;> first | exact ht.elim | cases hf
    | some l =>
      have hs := h.step n l hl
      have hnn := hno n (by omega)
      have hcn' := hcomp (n + 1) (by omega)
      unfold TakenOver at hnn
      have hpcn := hpc n hn
      have hcn := hcomp n (by omega)
      have htn := hth n
      generalize σ (n + 1) = s' at hs hnn hcn' ⊢
      generalize σ n = s at hs hnn hpcn hcn htn ⊢
      cases hs with
      | evaluator w hs =>
        simp only at hcn'
        rcases own_future hs with ⟨new, h1, h2⟩ | ⟨_, h1, h2⟩
        · exact Or.inr (Or.inr ⟨by simp, ⟨new, h1⟩, h2⟩)
        · refine Or.inr (Or.inl ⟨by simp, h1, fun ht => ?_⟩)
          rcases h2 ht with h | h
          · exact h
          · rw [hcn'] at h; cases h
      | worker hs =>
        have hb := work_busy hs htn hcn
        exact Or.inr (Or.inl ⟨by simp, hb.2.2.2.2.2 hpcn, fun ht => by rw [hb.2.2.2.1]; exact ht⟩)
      | user e hu _ hq hs => exact Or.inr (Or.inl ⟨by simp, (user_beside hu hq hs).future, fun ht => ht⟩)
      | request => exact Or.inr (Or.inl ⟨by simp, rfl, fun ht => ht⟩)
      | task e hk _ hs => exact Or.inl ⟨e, rfl, task_future hk hs, rfl⟩
  -- it ends, or is being taken over
  have hvalid : ∀ n ≥ n3, TakingOver (σ n).c ∨ (σ n).p.future ≠ .invalid := by
    intro n hn
    by_cases ht : TakingOver (σ n).c
    · exact Or.inl ht
    · right
      have hs := (interleaved_inv (threads_inv (hth n)).1).1
      rw [settled_eq (f := ⟨(σ n).p, (σ n).c⟩) ht] at hs
      exact (serialised_ctl hs).busy (hcomp n (by omega)) (hpc n hn)
  obtain ⟨n4, hn4, hJ4⟩ : ∃ n4 ≥ n3, (σ n4).p.future.isReady = true ∨ TakingOver (σ n4).c := by
    by_contra hcon
    push Not at hcon
    have hun : ∀ n ≥ n3, (σ n).p.future = .launched ∨ ∃ v, (σ n).p.future = .running v := by
      intro n hn
      obtain ⟨h1, h2⟩ := hcon n hn
      have h3 := (hvalid n hn).resolve_left h2
      cases hf : (σ n).p.future with
      | invalid => exact absurd hf h3
      | launched => exact Or.inl rfl
      | running v => exact Or.inr ⟨v, rfl⟩
      | ready tr => rw [hf] at h1; exact absurd rfl h1
      | failed => rw [hf] at h1; exact absurd rfl h1
    refine no_descent (fun n => match (σ n).p.future with | .launched => 2 | .running _ => 1 | _ => 0) (fun n => ∃ e, L n = some (.task e)) n3
      ?_ ?_ ?_
    · intro n hn
      rcases hfut n hn with ⟨_, _, ⟨h1, v, h2⟩ | ⟨⟨v, h1⟩, h2⟩, _⟩ | ⟨_, h1, _⟩ | ⟨_, _, h1⟩
      · simp only [h1, h2]; norm_num
      · exact absurd h2 (hcon (n + 1) (by omega)).1
      · simp only [h1]; exact le_refl _
      · exact absurd h1 (hcon (n + 1) (by omega)).2
    · intro n hn ⟨e, he⟩
      rcases hfut n hn with ⟨_, _, ⟨h1, v, h2⟩ | ⟨⟨v, h1⟩, h2⟩, _⟩ | ⟨h0, _⟩ | ⟨h0, _⟩
      · simp only [h1, h2]; norm_num
      · exact absurd h2 (hcon (n + 1) (by omega)).1
      · exact absurd he (h0 e)
      · exact absurd he (h0 e)
    · intro n hn
      exact hT n (hun n hn)
  have hJ : ∀ n ≥ n4, (σ n).p.future.isReady = true ∨ TakingOver (σ n).c := by
    intro n hn
    induction n, hn using Nat.le_induction with
    | base => exact hJ4
    | succ n hn ih =>
      rcases hfut n (by omega) with ⟨_, _, ⟨h1, v, h2⟩ | ⟨⟨v, h1⟩, h2⟩, h3⟩ | ⟨_, h1, h2⟩ | ⟨_, _, h1⟩
      · rw [h1] at ih
        rcases ih with ih | ih
        · cases ih
        · right; rw [h3]; exact ih
      · exact Or.inl h2
      · rw [h1]
        exact ih.imp id h2
      · exact Or.inr h1
  -- the next evaluation takes it over
  obtain ⟨m, hm, hcall, t, o, f, hst⟩ := hE n4
  have hI : ∀ n ≥ m + 1, TakingOver (σ n).c ∨ ((σ n).p.future.isReady = true ∧ ∃ t o f, (σ n).c = .start (.evaluate t o f) ∨
      (σ n).c = .wait (.evaluate t o f) ∨ (σ n).c = .valid (.evaluate t o f) ∨ (σ n).c = .busy (.evaluate t o f) true ∨
      (σ n).c = .ready (.evaluate t o f) ∨ (σ n).c = .get (.evaluate t o f)) := by
    intro n hn
    induction n, hn using Nat.le_induction with
    | base =>
      right
      refine ⟨?_, t, o, f, Or.inl hst⟩
      refine (hJ (m + 1) (by omega)).resolve_right ?_
      rw [hst]
      exact id
    | succ n hn ih =>
      have hJn := hJ (n + 1) (by omega)
      have hnn := hno n (by omega)
      unfold TakenOver at hnn
      have hcn := hcomp n (by omega)
      have htn := hth n
      cases hl : L n with
      | none =>
        exfalso
        obtain ⟨hf, _⟩ := h.call n hl
        rcases ih with ih | ⟨_, t, o, f, ih⟩
        · cases hcc : (σ n).c <;> rw [hcc] at hf ih <;> first | exact ih.elim | cases hf
        · rcases ih with ih | ih | ih | ih | ih | ih <;> rw [ih] at hf <;> cases hf
      | some l =>
        by_cases hTO : TakingOver (σ (n + 1)).c
        · exact Or.inl hTO
        right
        have hr := hJn.resolve_right hTO
        refine ⟨hr, ?_⟩
        have hs := h.step n l hl
        have hsame : (σ (n + 1)).c = (σ n).c → ¬ TakingOver (σ n).c := fun hh => by rw [← hh]; exact hTO
        by_cases hev : l = .evaluator
        · subst hev
          have hcn' := hcomp (n + 1) (by omega)
          generalize σ (n + 1) = s' at hs hnn hcn' hTO hr ⊢
          generalize σ n = s at hs hnn hcn htn ih
          cases hs with
          | @evaluator p p' c c' w hs =>
            simp only at hTO hr hcn hcn' ih ⊢
            rcases ih with ih | ⟨hready, t, o, f, ih⟩
            · exfalso
              rcases own_future hs with ⟨_, _, h2⟩ | ⟨_, _, h2⟩
              · exact hTO h2
              · rcases h2 ih with h | h
                · exact hTO h
                · rw [hcn'] at h; cases h
            · have hval : p.future.valid = true := by
                cases hf : p.future <;> rw [hf] at hready <;> first | rfl | cases hready
              have simple : ∀ {q : Planner K} {d : Consumer K},
                  (Except.ok (some (⟨q, d⟩ : Fine K)) : Res (Option (Fine K))) = .ok (some ⟨p', c'⟩) → c' = d :=
                fun h => by
                  have := Option.some.inj (Except.ok.inj h)
                  injection this with h1 h2
                  exact h2.symm
              refine ⟨t, o, f, ?_⟩
              rcases ih with rfl | rfl | rfl | rfl | rfl | rfl
              · exact Or.inr (Or.inl (simple hs))
              · simp only [Fine.consume, hready, Bool.or_true, if_true] at hs
                exact Or.inr (Or.inr (Or.inl (simple hs)))
              · simp only [Fine.consume, hval] at hs
                exact Or.inr (Or.inr (Or.inr (Or.inl (simple hs))))
              · simp only [Fine.consume, hcn, Bool.and_self, if_true] at hs
                exact Or.inr (Or.inr (Or.inr (Or.inr (Or.inl (simple hs)))))
              · simp only [Fine.consume, hval, hready, if_true] at hs
                exact Or.inr (Or.inr (Or.inr (Or.inr (Or.inr (simple hs)))))
              · exfalso
                rcases own_future hs with ⟨_, _, h2⟩ | ⟨h0, _⟩
                · exact hTO h2
                · exact h0 _ rfl
        · have hceq : (σ (n + 1)).c = (σ n).c := by
            generalize σ (n + 1) = s' at hs ⊢
            generalize σ n = s at hs hcn htn ⊢
            cases hs with
            | evaluator => exact absurd rfl hev
            | worker hs => exact (work_busy hs htn hcn).2.2.2.1
            | user => rfl
            | request => rfl
            | task => rfl
          rw [hceq]
          obtain ⟨_, hh⟩ := ih.resolve_left (hsame hceq)
          exact hh
  obtain ⟨m', hm', hcall', _⟩ := hE (m + 1)
  obtain ⟨hf, _⟩ := h.call m' hcall'
  rcases hI m' hm' with ih | ⟨_, t, o, f, ih⟩
  · cases hcc : (σ m').c <;> rw [hcc] at hf ih <;> first | exact ih.elim | cases hf
  · rcases ih with ih | ih | ih | ih | ih | ih <;> rw [ih] at hf <;> cases hf

/-- A plan in preparation is launched. -/
theorem carried_launched (h : Forever env σ L) (hW : WorkerRuns L) {n1 : ℕ} (hno : ∀ n ≥ n1, ¬ TakenOver σ n) {w0 : Waypoint K}
    (hc : Carried w0 (σ n1)) : ∃ n ≥ n1, (σ n).p.computing = true := by
  by_contra hcon
  push Not at hcon
  replace hcon : ∀ n ≥ n1, (σ n).p.computing = false := fun n hn => by simpa using hcon n hn
  have hth := forever_threads h
  have hcar : ∀ n ≥ n1, Carried w0 (σ n) := by
    intro n hn
    induction n, hn using Nat.le_induction with
    | base => exact hc
    | succ n hn ih =>
      cases hl : L n with
      | none =>
        obtain ⟨hf, k, hk⟩ := h.call n hl
        rw [hk]
        rcases ih with h3 | ⟨h3, h4, _⟩
        · exact Or.inl h3
        · exact Or.inr ⟨h3, h4, fun k hk => by cases hk⟩
      | some l => exact (carried_step (hth n) ih (h.step n l hl)).2 (hno n hn)
  refine no_descent (fun n => rank2 (σ n)) (fun n => L n = some .worker) n1 ?_ ?_ (fun n _ => hW n)
  all_goals
    intro n hn
    have hother : L n ≠ some .worker → rank2 (σ (n + 1)) = rank2 (σ n) := by
      intro hne
      cases hl : L n with
      | none => obtain ⟨_, k, hk⟩ := h.call n hl; rw [hk]; exact rank2_same rfl rfl
      | some l =>
        obtain ⟨hb, hw⟩ := idle_beside (h.step n l hl) (hth n) (fun he => hne (by rw [hl, he])) (hcon n hn)
        exact rank2_same hb.pc hw
    have hwork : L n = some .worker → rank2 (σ (n + 1)) < rank2 (σ n) := by
      intro hl
      have hs := h.step n _ hl
      cases hs with
      | worker hs =>
        rcases hcar n hn with ⟨hp | hp, hw⟩ | ⟨hp, _⟩
        · obtain ⟨k1, k2, _⟩ := work_collected hs (hth n) hp (by obtain ⟨w', hw', _⟩ := hw; exact List.ne_nil_of_mem hw')
          unfold rank2
          rw [k1, k2, hp]
          norm_num
        · exact rank2_work hs (hth n) hp
        · rcases hp with hp | hp
          · have := (work_planned hs (hth n) hp).2.2.1
            rw [hcon (n + 1) (by omega)] at this
            cases this
          · rw [hcon n hn] at hp; cases hp
  · by_cases hl : L n = some .worker
    · exact (hwork hl).le
    · exact (hother hl).le
  · exact hwork

/-- Requests are taken. -/
theorem queued_taken (henv : Segmentwise env) (h : Forever env σ L) (hW : WorkerRuns L) {ex : Prop} {w : Waypoint K} {n1 : ℕ}
    (hz : ∃ N, ∀ n ≥ N, ¬ InZone (σ n).p) (hway : ∀ n ≥ n1, OnItsWay env ex w (σ n)) :
    ∃ n ≥ n1, ∃ w0, Carried w0 (σ n) := by
  by_contra hcon
  push Not at hcon
  have hq : ∀ n ≥ n1, Queued env ex w (σ n) ∧ Flag (σ n) := by
    intro n hn
    rcases hway n hn with h | ⟨w0, _, _, h⟩
    · exact h
    · exact absurd h (hcon n hn w0)
  have hth := forever_threads h
  obtain ⟨N, hz⟩ := hz
  refine no_descent (fun n => rank1 (σ n)) (fun n => L n = some .worker) (max N n1) ?_ ?_ (fun n _ => hW n)
  all_goals
    intro n hn
    have hn1 : n ≥ n1 := le_trans (le_max_right _ _) hn
    have hnN : n ≥ N := le_trans (le_max_left _ _) hn
    obtain ⟨⟨g, _, hpc, hc, _⟩, hfl⟩ := hq n hn1
    have hother : L n ≠ some .worker → rank1 (σ (n + 1)) = rank1 (σ n) := by
      intro hne
      cases hl : L n with
      | none => obtain ⟨_, k, hk⟩ := h.call n hl; rw [hk]; exact rank1_beside (Beside.refl false _) rfl
      | some l =>
        obtain ⟨hb, hw⟩ := idle_beside (h.step n l hl) (hth n) (fun he => hne (by rw [hl, he])) hc
        exact rank1_beside hb hw
    have hwork : L n = some .worker → rank1 (σ (n + 1)) < rank1 (σ n) := by
      intro hl
      have hs := h.step n _ hl
      cases hs with
      | worker hs =>
        refine rank1_work henv hs (hth n) hpc ?_ hc hfl.1 (hz n hnN)
        rintro ⟨_, h2⟩
        obtain ⟨⟨_, _, hpc', _⟩, _⟩ := hq (n + 1) (by omega)
        rw [h2] at hpc'
        rcases hpc' with h | h | h <;> cases h
  · by_cases hl : L n = some .worker
    · exact (hwork hl).le
    · exact (hother hl).le
  · exact hwork

/-- What was handed over is in the next plan taken over, and there is one. -/
theorem request_taken (henv : Segmentwise env) (h : Forever env σ L) (hW : WorkerRuns L) (hT : TaskRuns σ L) (hE : KeepsEvaluating σ L)
    (hz : ∃ N, ∀ n ≥ N, ¬ InZone (σ n).p) {n0 : ℕ} {r : Event K} {w : Waypoint K} (hr : L n0 = some (.user r)) (hw : HandsOver r w)
    (hnew : w.time = 0) (hpc : (σ n0).p.pc = .top ∨ (σ n0).p.pc = .apply ∨ (σ n0).p.pc = .collect) (hc : (σ n0).p.computing = false)
    (hcr : ∀ k, (σ n0).c ≠ .clearRequest k) {ex : Prop} (hex : ex → ∀ n x b, L n ≠ some (.user (.modifyWaypoint w.name x b)))
    (hkeep : ∀ n > n0, (∀ m, n0 < m → m < n → ¬ TakenOver σ m) →
      (∀ ws, L n ≠ some (.user (.setWaypoints ws))) ∧ ∀ m x, L n ≠ some (.user (.modifyWaypoint m x false))) :
    ∃ m > n0, TakenOver σ m ∧ (∀ i, n0 < i → i < m → ¬ TakenOver σ i) ∧
      ∃ w0, w0.name = w.name ∧ (ex → Becomes none w w0) ∧ ∃ w' ∈ (σ (m + 1)).p.dyn, SameWaypoint w0 w' := by
  have hth := forever_threads h
  have hfirst : OnItsWay env ex w (σ (n0 + 1)) := by
    left
    obtain ⟨g, hg, hgx⟩ := forever_pending h hex n0
    have hs := h.step n0 _ hr
    have hst := hs
    have hpcs : (σ (n0 + 1)).p.pc = (σ n0).p.pc ∧ (σ (n0 + 1)).p.computing = (σ n0).p.computing ∧ (σ (n0 + 1)).c = (σ n0).c ∧
        (σ (n0 + 1)).p.generateNew = true := by
      generalize σ (n0 + 1) = s' at hs ⊢
      cases hs with
      | user _ hu _ hq hs =>
        have hb := user_beside hu hq hs
        refine ⟨hb.pc, hb.computing, rfl, ?_⟩
        rcases hw with rfl | ⟨ws, rfl, _⟩ <;> (rw [← Option.some.inj (Except.ok.inj hs)]; rfl)
    refine ⟨⟨_, .user r hg hst, by rw [hpcs.1]; exact hpc, hpcs.2.1.trans hc, ?_, ?_⟩, hpcs.2.2.2, by rw [hpcs.2.2.1]; exact hcr⟩
    · rcases hw with rfl | ⟨ws, rfl, hmem⟩
      · exact List.mem_append_right _ (List.mem_append_right _ (List.mem_singleton.mpr rfl))
      · exact List.mem_append_left _ hmem
    · intro hx u hu
      rcases hw with rfl | ⟨ws, rfl, _⟩
      · exact hgx hx u hu
      · cases hu
  have hway : ∀ n ≥ n0 + 1, (∀ m, n0 < m → m < n → ¬ TakenOver σ m) → OnItsWay env ex w (σ n) := by
    intro n hn
    induction n, hn using Nat.le_induction with
    | base => exact fun _ => hfirst
    | succ n hn ih =>
      intro hno
      have hprev := ih (fun m h1 h2 => hno m h1 (by omega))
      obtain ⟨k1, k2⟩ := hkeep n (by omega) (fun m h1 h2 => hno m h1 (by omega))
      cases hl : L n with
      | none => obtain ⟨hf, k, hk⟩ := h.call n hl; rw [hk]; exact way_call k hprev hf
      | some l =>
        refine way_step hnew (hth n) hprev (h.step n l hl) (hno n (by omega) (by omega)) ?_ ?_ ?_
        · rintro ws rfl; exact k1 ws hl
        · rintro m x rfl; exact k2 m x hl
        · rintro hx x b rfl; exact hex hx n x b hl
  have hex' : ∃ m, m > n0 ∧ TakenOver σ m := by
    by_contra hcon
    push Not at hcon
    obtain ⟨n1, hn1, w0, hcar⟩ := queued_taken henv h hW (n1 := n0 + 1) hz
      (fun n hn => hway n hn (fun m h1 _ => hcon m h1))
    obtain ⟨n2, hn2, hbusy⟩ := carried_launched h hW (n1 := n1) (fun n hn => hcon n (by omega)) hcar
    exact busy_taken h hW hT hE (n2 := n2) (fun n hn => hcon n (by omega)) hbusy
  classical
  obtain ⟨hm1, hm2⟩ := Nat.find_spec hex'
  have hmin : ∀ i, n0 < i → i < Nat.find hex' → ¬ TakenOver σ i := fun i h1 h2 h3 => Nat.find_min hex' h2 ⟨h1, h3⟩
  refine ⟨Nat.find hex', hm1, hm2, hmin, ?_⟩
  generalize Nat.find hex' = m at hm1 hm2 hmin
  have hwm := hway m (by omega) hmin
  cases hl : L m with
  | none =>
    obtain ⟨_, k, hk⟩ := h.call m hl
    unfold TakenOver at hm2
    rw [hk] at hm2
    have := hm2.2
    simp only at this
    rw [hm2.1] at this
    cases this
  | some l =>
    rcases hwm with ⟨⟨g, _, _, hcf, _⟩, _⟩ | ⟨w0, h1, h2, h3⟩
    · rw [hm2.1] at hcf; cases hcf
    · exact ⟨w0, h1, h2, (carried_step (hth m) h3 (h.step m l hl)).1 hm2⟩

end

end Verif.Lemmas
