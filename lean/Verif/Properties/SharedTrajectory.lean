import Mathlib.Algebra.BigOperators.Fin
import Mathlib.Tactic.Linarith
import Verif.Spec.SharedTrajectory

/-!
# Property C100: trajectory handles shared by threads
-/

set_option linter.unusedSectionVars false

namespace Verif.Properties
open Verif Verif.Spec Verif.Shared

variable {n : ℕ} {ι π : Type*} [DecidableEq ι] [DecidableEq π]

/-- Who holds which mutex. -/
structure MutexInv (s : State n ι π) : Prop where
  ev : ∀ o i, s.evalOwner o = some i ↔ (s.threads i).pc ≠ .start ∧ ∃ c cs, (s.threads i).calls = c :: cs ∧ c.evalMutex = some o
  tm : ∀ o i, s.timeOwner o = some i ↔ ((s.threads i).pc = .inside ∨ (s.threads i).pc = .leaving) ∧
    ∃ c cs, (s.threads i).calls = c :: cs ∧ c.timeMutex = some o

theorem lock_spec (owner e : ι → Option (Fin n)) (i : Fin n) (m : Option ι) (h : lock owner i m = some e) (o : ι) :
    e o = if m = some o then some i else owner o := by
  cases m with
  | none => simp only [lock, Option.some.injEq] at h; simp [h]
  | some x =>
    simp only [lock] at h
    split at h
    · rw [← Option.some.inj h]
      by_cases hx : x = o
      · subst hx; simp
      · rw [Function.update_of_ne (Ne.symm hx), if_neg (by simpa using hx)]
    · cases h

theorem lock_free (owner e : ι → Option (Fin n)) (i : Fin n) (o : ι) (h : lock owner i (some o) = some e) : owner o = none := by
  simp only [lock] at h
  split at h
  · assumption
  · cases h

theorem unlock_spec (owner : ι → Option (Fin n)) (m : Option ι) (o : ι) : unlock owner m o = if m = some o then none else owner o := by
  cases m with
  | none => simp [unlock]
  | some x =>
    by_cases hx : x = o
    · subst hx; simp [unlock]
    · simp [unlock, Function.update_of_ne (Ne.symm hx), hx]

/-- The five kinds of steps. -/
theorem step_cases (s s' : State n ι π) (i : Fin n) (h : step s i = some (.ok s')) :
    ∃ c cs, (s.threads i).calls = c :: cs ∧
     (((s.threads i).pc = .start ∧ ∃ e, lock s.evalOwner i c.evalMutex = some e ∧
        s' = { s with evalOwner := e, threads := Function.update s.threads i ⟨c :: cs, .half, (s.threads i).results⟩ }) ∨
      ((s.threads i).pc = .half ∧ ∃ e, lock s.timeOwner i c.timeMutex = some e ∧
        s' = { s with timeOwner := e, threads := Function.update s.threads i ⟨c :: cs, .inside, (s.threads i).results⟩ }) ∨
      ((s.threads i).pc = .inside ∧ ∃ r, perform s.ptr c = .ok r ∧
        s' = { s with ptr := r.1, threads := Function.update s.threads i ⟨c :: cs, .leaving, (s.threads i).results ++ [(c, r.2)]⟩ }) ∨
      ((s.threads i).pc = .leaving ∧
        s' = { s with timeOwner := unlock s.timeOwner c.timeMutex, threads := Function.update s.threads i ⟨c :: cs, .left, (s.threads i).results⟩ }) ∨
      ((s.threads i).pc = .left ∧
        s' = { s with evalOwner := unlock s.evalOwner c.evalMutex, threads := Function.update s.threads i ⟨cs, .start, (s.threads i).results⟩ })) := by
  unfold step at h
  simp only at h
  cases hc : (s.threads i).calls with
  | nil => rw [hc] at h; cases h
  | cons c cs =>
    rw [hc] at h
    simp only at h
    refine ⟨c, cs, rfl, ?_⟩
    cases hp : (s.threads i).pc with
    | start =>
      rw [hp] at h
      simp only [Option.map_eq_some_iff] at h
      obtain ⟨e, he, h⟩ := h
      exact Or.inl ⟨rfl, e, he, (Except.ok.inj h).symm⟩
    | half =>
      rw [hp] at h
      simp only [Option.map_eq_some_iff] at h
      obtain ⟨e, he, h⟩ := h
      exact Or.inr (Or.inl ⟨rfl, e, he, (Except.ok.inj h).symm⟩)
    | inside =>
      rw [hp] at h
      simp only [Option.some.injEq, bind, Except.bind] at h
      cases hr : perform s.ptr c with
      | error e => rw [hr] at h; cases h
      | ok r =>
        rw [hr] at h
        exact Or.inr (Or.inr (Or.inl ⟨rfl, r, rfl, (Except.ok.inj h).symm⟩))
    | leaving =>
      rw [hp] at h
      exact Or.inr (Or.inr (Or.inr (Or.inl ⟨rfl, (Except.ok.inj (Option.some.inj h)).symm⟩)))
    | left =>
      rw [hp] at h
      exact Or.inr (Or.inr (Or.inr (Or.inr ⟨rfl, (Except.ok.inj (Option.some.inj h)).symm⟩)))

theorem inv_init (ptr : ι → Option π) (calls : Fin n → List (Call ι)) : MutexInv (State.init ptr calls) := by
  constructor <;> intro o i <;> simp [State.init]

theorem inv_step (s s' : State n ι π) (i : Fin n) (hi : MutexInv s) (h : step s i = some (.ok s')) : MutexInv s' := by
  obtain ⟨c, cs, hc, h | h | h | h | h⟩ := step_cases s s' i h
  · obtain ⟨hp, e, he, rfl⟩ := h
    constructor
    · intro o j
      show e o = some j ↔ _
      rw [lock_spec _ _ _ _ he]
      by_cases hj : j = i
      · subst hj
        simp only [Function.update_self]
        have := hi.ev o j
        rw [hp] at this
        by_cases hm : c.evalMutex = some o
        · simp [hm]
        · simp [hm, this]
      · simp only [Function.update_of_ne hj]
        rw [← hi.ev o j]
        by_cases hm : c.evalMutex = some o
        · rw [hm] at he
          rw [if_pos hm, lock_free _ _ _ _ he]
          simp [Ne.symm hj]
        · rw [if_neg hm]
    · intro o j
      rw [hi.tm o j]
      by_cases hj : j = i
      · subst hj; simp [hp]
      · simp only [Function.update_of_ne hj]
  · obtain ⟨hp, e, he, rfl⟩ := h
    constructor
    · intro o j
      rw [hi.ev o j]
      by_cases hj : j = i
      · subst hj; simp [hp, hc]
      · simp only [Function.update_of_ne hj]
    · intro o j
      show e o = some j ↔ _
      rw [lock_spec _ _ _ _ he]
      by_cases hj : j = i
      · subst hj
        simp only [Function.update_self]
        have := hi.tm o j
        rw [hp] at this
        by_cases hm : c.timeMutex = some o
        · simp [hm]
        · simp [hm, this]
      · simp only [Function.update_of_ne hj]
        rw [← hi.tm o j]
        by_cases hm : c.timeMutex = some o
        · rw [hm] at he
          rw [if_pos hm, lock_free _ _ _ _ he]
          simp [Ne.symm hj]
        · rw [if_neg hm]
  · obtain ⟨hp, r, _, rfl⟩ := h
    constructor
    · intro o j
      rw [hi.ev o j]
      by_cases hj : j = i
      · subst hj; simp [hp, hc]
      · simp only [Function.update_of_ne hj]
    · intro o j
      rw [hi.tm o j]
      by_cases hj : j = i
      · subst hj; simp [hp, hc]
      · simp only [Function.update_of_ne hj]
  · obtain ⟨hp, rfl⟩ := h
    constructor
    · intro o j
      rw [hi.ev o j]
      by_cases hj : j = i
      · subst hj; simp [hp, hc]
      · simp only [Function.update_of_ne hj]
    · intro o j
      show unlock _ _ o = some j ↔ _
      rw [unlock_spec]
      have hown : c.timeMutex = some o → s.timeOwner o = some i := fun hm => (hi.tm o i).mpr ⟨Or.inr hp, c, cs, hc, hm⟩
      by_cases hj : j = i
      · subst hj
        simp only [Function.update_self]
        have := hi.tm o j
        rw [hp, hc] at this
        by_cases hm : c.timeMutex = some o
        · simp [hm]
        · simp [hm, this]
      · simp only [Function.update_of_ne hj]
        rw [← hi.tm o j]
        by_cases hm : c.timeMutex = some o
        · rw [if_pos hm, hown hm]
          simp [Ne.symm hj]
        · rw [if_neg hm]
  · obtain ⟨hp, rfl⟩ := h
    constructor
    · intro o j
      show unlock _ _ o = some j ↔ _
      rw [unlock_spec]
      have hown : c.evalMutex = some o → s.evalOwner o = some i := fun hm => (hi.ev o i).mpr ⟨by rw [hp]; simp, c, cs, hc, hm⟩
      by_cases hj : j = i
      · subst hj
        simp only [Function.update_self]
        have := hi.ev o j
        rw [hp, hc] at this
        by_cases hm : c.evalMutex = some o
        · simp [hm]
        · simp [hm, this]
      · simp only [Function.update_of_ne hj]
        rw [← hi.ev o j]
        by_cases hm : c.evalMutex = some o
        · rw [if_pos hm, hown hm]
          simp [Ne.symm hj]
        · rw [if_neg hm]
    · intro o j
      rw [hi.tm o j]
      by_cases hj : j = i
      · subst hj; simp [hp]
      · simp only [Function.update_of_ne hj]

theorem run_cons (s s' : State n ι π) (i : Fin n) (is : List (Fin n)) (h : Shared.run s (i :: is) = some (.ok s')) :
    ∃ m, step s i = some (.ok m) ∧ Shared.run m is = some (.ok s') := by
  simp only [Shared.run] at h
  cases hs : step s i with
  | none => rw [hs] at h; cases h
  | some r =>
    rw [hs] at h
    cases r with
    | error e => cases h
    | ok m => exact ⟨m, rfl, h⟩

/-- Induction over schedules. -/
theorem run_induction (P : State n ι π → Prop) (hstep : ∀ s s' i, P s → step s i = some (.ok s') → P s') (s s' : State n ι π) (is : List (Fin n)) (h0 : P s)
    (h : Shared.run s is = some (.ok s')) : P s' := by
  induction is generalizing s with
  | nil => rw [← Except.ok.inj (Option.some.inj h)]; exact h0
  | cons i is ih =>
    obtain ⟨m, h1, h2⟩ := run_cons s s' i is h
    exact ih m (hstep s m i h0 h1) h2

theorem reachable_inv (ptr : ι → Option π) (calls : Fin n → List (Call ι)) (s : State n ι π) (h : SharedReachable ptr calls s) : MutexInv s := by
  obtain ⟨is, h⟩ := h
  exact run_induction MutexInv (fun s s' i hi hs => inv_step s s' i hi hs) _ s is (inv_init ptr calls) h

theorem writes_mutex (c : Call ι) (o : ι) (h : Writes c o) : c.evalMutex = some o ∧ c.timeMutex = some o := by
  obtain ⟨x, rfl⟩ := h
  exact ⟨rfl, rfl⟩

/-- C100: the only data races are those with a read for which the call takes no mutex of the handle read: the source of an assignment to another handle, and the
comparisons. (The full claim, that there are none, is refuted below.) -/
theorem C100_races_partial (ptr : ι → Option π) (calls : Fin n → List (Call ι)) (s : State n ι π) (h : SharedReachable ptr calls s) (o : ι) (c d : Call ι)
    (hr : Race s o c d) : UnlockedRead d o := by
  obtain ⟨i, j, hij, ⟨hpi, cs, hci⟩, ⟨hpj, ds, hdj⟩, hw, hd⟩ := hr
  have hi := reachable_inv ptr calls s h
  obtain ⟨he, ht⟩ := writes_mutex c o hw
  have e1 : s.evalOwner o = some i := (hi.ev o i).mpr ⟨by rw [hpi]; simp, c, cs, hci, he⟩
  have t1 : s.timeOwner o = some i := (hi.tm o i).mpr ⟨Or.inl hpi, c, cs, hci, ht⟩
  have ne : ¬ d.evalMutex = some o := by
    intro hm
    have := (hi.ev o j).mpr ⟨by rw [hpj]; simp, d, ds, hdj, hm⟩
    rw [e1] at this
    exact hij (Option.some.inj this)
  have nt : ¬ d.timeMutex = some o := by
    intro hm
    have := (hi.tm o j).mpr ⟨Or.inl hpj, d, ds, hdj, hm⟩
    rw [t1] at this
    exact hij (Option.some.inj this)
  rcases hd with hd | hd
  · rcases hd with ⟨x, rfl⟩ | rfl | rfl | rfl | ⟨b, hb⟩
    · refine Or.inl ⟨x, ?_, rfl⟩
      rintro rfl
      exact ne rfl
    · exact absurd rfl ne
    · exact absurd rfl nt
    · exact Or.inr (Or.inl rfl)
    · exact Or.inr (Or.inr ⟨b, hb⟩)
  · exact absurd (writes_mutex d o hd).1 ne

/-- C100, the property that fails: one thread copies a handle while another one assigns to it: both access the pointer at the same time, although each holds
mutexes. -/
theorem C100_races_refuted : ∃ (calls : Fin 2 → List (Call ℕ)) (s : State 2 ℕ ℕ),
    SharedReachable (fun o => some o) calls s ∧ Race s 1 (.assign 1 2) (.assign 0 1) :=
  ⟨![[.assign 1 2], [.assign 0 1]], _, ⟨[0, 0, 1, 1], rfl⟩, 0, 1, by decide, ⟨rfl, [], rfl⟩, ⟨rfl, [], rfl⟩, ⟨2, rfl⟩, Or.inl (Or.inl ⟨0, rfl⟩)⟩

/-- C100: while a thread is inside a call that locks a mutex of the handle, no other thread changes the handle's pointer. -/
theorem C100_stable (ptr : ι → Option π) (calls : Fin n → List (Call ι)) (s s' : State n ι π) (h : SharedReachable ptr calls s) (i j : Fin n) (hij : i ≠ j)
    (o : ι) (c : Call ι) (cs : List (Call ι)) (hc : (s.threads i).calls = c :: cs)
    (hpc : (c.evalMutex = some o ∧ (s.threads i).pc ≠ .start) ∨ (c.timeMutex = some o ∧ ((s.threads i).pc = .inside ∨ (s.threads i).pc = .leaving)))
    (hs : step s j = some (.ok s')) : s'.ptr o = s.ptr o := by
  have hi := reachable_inv ptr calls s h
  obtain ⟨d, ds, hd, h | h | h | h | h⟩ := step_cases s s' j hs
  · obtain ⟨_, e, _, rfl⟩ := h; rfl
  · obtain ⟨_, e, _, rfl⟩ := h; rfl
  · obtain ⟨hp, r, hr, rfl⟩ := h
    show r.1 o = s.ptr o
    cases d with
    | assign x y =>
      simp only [perform, Except.ok.injEq] at hr
      rw [← hr]
      by_cases hx : x = o
      · subst hx
        exfalso
        rcases hpc with ⟨hm, hp'⟩ | ⟨hm, hp'⟩
        · have e1 := (hi.ev x i).mpr ⟨hp', c, cs, hc, hm⟩
          have e2 := (hi.ev x j).mpr ⟨by rw [hp]; simp, _, ds, hd, rfl⟩
          rw [e1] at e2
          exact hij (Option.some.inj e2)
        · have e1 := (hi.tm x i).mpr ⟨hp', c, cs, hc, hm⟩
          have e2 := (hi.tm x j).mpr ⟨Or.inl hp, _, ds, hd, rfl⟩
          rw [e1] at e2
          exact hij (Option.some.inj e2)
      · simp [Function.update_of_ne (Ne.symm hx)]
    | evaluate x | time x =>
      simp only [perform] at hr
      split at hr
      · cases hr
      · rw [← Except.ok.inj hr]
    | isNull x | same x y | destroy x => rw [← Except.ok.inj hr]
  · obtain ⟨_, rfl⟩ := h; rfl
  · obtain ⟨_, rfl⟩ := h; rfl

/-- C100: no deadlock: as long as some thread has calls left, some thread can take a step. -/
theorem C100_no_deadlock (ptr : ι → Option π) (calls : Fin n → List (Call ι)) (s : State n ι π) (h : SharedReachable ptr calls s) (hn : ¬ AllDone s) :
    ∃ i, step s i ≠ none := by
  have hi := reachable_inv ptr calls s h
  -- a thread past its first two positions can always step
  have hgo : ∀ i c cs, (s.threads i).calls = c :: cs → (s.threads i).pc ≠ .start → (s.threads i).pc ≠ .half → step s i ≠ none := by
    intro i c cs hc h1 h2
    unfold step
    simp only [hc]
    cases hp : (s.threads i).pc with
    | start => exact absurd hp h1
    | half => exact absurd hp h2
    | inside | leaving | left => simp
  -- a thread before its second mutex, or the owner of that mutex
  have hhalf : ∀ i c cs, (s.threads i).calls = c :: cs → (s.threads i).pc = .half → ∃ j, step s j ≠ none := by
    intro i c cs hc hp
    cases hl : lock s.timeOwner i c.timeMutex with
    | some e =>
      refine ⟨i, ?_⟩
      unfold step
      simp [hc, hp, hl]
    | none =>
      cases hm : c.timeMutex with
      | none => rw [hm] at hl; cases hl
      | some o =>
        rw [hm] at hl
        simp only [lock] at hl
        split at hl
        · cases hl
        · rename_i hne
          obtain ⟨j, hj⟩ := Option.ne_none_iff_exists'.mp hne
          obtain ⟨hpj, d, ds, hd, _⟩ := (hi.tm o j).mp hj
          exact ⟨j, hgo j d ds hd (by rcases hpj with h | h <;> rw [h] <;> simp) (by rcases hpj with h | h <;> rw [h] <;> simp)⟩
  have hany : ∀ i c cs, (s.threads i).calls = c :: cs → (s.threads i).pc ≠ .start → ∃ j, step s j ≠ none := by
    intro i c cs hc hp
    by_cases hh : (s.threads i).pc = .half
    · exact hhalf i c cs hc hh
    · exact ⟨i, hgo i c cs hc hp hh⟩
  unfold AllDone at hn
  push Not at hn
  obtain ⟨i, hne⟩ := hn
  obtain ⟨c, cs, hc⟩ := List.exists_cons_of_ne_nil hne
  by_cases hp : (s.threads i).pc = .start
  · cases hl : lock s.evalOwner i c.evalMutex with
    | some e =>
      refine ⟨i, ?_⟩
      unfold step
      simp [hc, hp, hl]
    | none =>
      cases hm : c.evalMutex with
      | none => rw [hm] at hl; cases hl
      | some o =>
        rw [hm] at hl
        simp only [lock] at hl
        split at hl
        · cases hl
        · rename_i hne
          obtain ⟨j, hj⟩ := Option.ne_none_iff_exists'.mp hne
          obtain ⟨hpj, d, ds, hd, _⟩ := (hi.ev o j).mp hj
          exact hany j d ds hd hpj
  · exact hany i c cs hc hp

/-- Steps thread `t` has still to take. -/
def remaining (t : Thread ι π) : ℕ :=
  5 * t.calls.length - (match t.pc with | .start => 0 | .half => 1 | .inside => 2 | .leaving => 3 | .left => 4)

/-- C100: every call returns: whatever the scheduler does, the threads take at most five steps per call. -/
theorem C100_terminates (ptr : ι → Option π) (calls : Fin n → List (Call ι)) (s : State n ι π) (is : List (Fin n))
    (h : Shared.run (State.init ptr calls) is = some (.ok s)) : is.length ≤ 5 * ∑ i, (calls i).length := by
  have key : ∀ (s s' : State n ι π) (is : List (Fin n)), Shared.run s is = some (.ok s') → is.length + ∑ i, remaining (s'.threads i) = ∑ i, remaining (s.threads i) := by
    intro s s' is h
    induction is generalizing s with
    | nil => rw [Except.ok.inj (Option.some.inj h)]; simp
    | cons i is ih =>
      obtain ⟨m, h1, h2⟩ := run_cons s s' i is h
      have := ih m h2
      have hm : ∑ j, remaining (m.threads j) + 1 = ∑ j, remaining (s.threads j) := by
        have hth : ∃ t, m.threads = Function.update s.threads i t ∧ remaining t + 1 = remaining (s.threads i) := by
          obtain ⟨c, cs, hc, h | h | h | h | h⟩ := step_cases s m i h1
          · obtain ⟨hp, e, _, rfl⟩ := h
            exact ⟨_, rfl, by simp only [remaining, hc, hp, List.length_cons]; omega⟩
          · obtain ⟨hp, e, _, rfl⟩ := h
            exact ⟨_, rfl, by simp only [remaining, hc, hp, List.length_cons]; omega⟩
          · obtain ⟨hp, e, _, rfl⟩ := h
            exact ⟨_, rfl, by simp only [remaining, hc, hp, List.length_cons]; omega⟩
          · obtain ⟨hp, rfl⟩ := h
            exact ⟨_, rfl, by simp only [remaining, hc, hp, List.length_cons]; omega⟩
          · obtain ⟨hp, rfl⟩ := h
            exact ⟨_, rfl, by simp only [remaining, hc, hp, List.length_cons]; omega⟩
        obtain ⟨t, ht, hr⟩ := hth
        rw [ht, ← Finset.add_sum_erase _ _ (Finset.mem_univ i), ← Finset.add_sum_erase _ (fun j => remaining (s.threads j)) (Finset.mem_univ i)]
        rw [Function.update_self, ← hr]
        have : ∑ x ∈ Finset.univ.erase i, remaining (Function.update s.threads i t x) = ∑ x ∈ Finset.univ.erase i, remaining (s.threads x) := by
          refine Finset.sum_congr rfl fun x hx => ?_
          rw [Function.update_of_ne (Finset.ne_of_mem_erase hx)]
        rw [this]
        omega
      rw [List.length_cons]
      omega
  have := key _ s is h
  have h0 : ∑ i, remaining ((State.init ptr calls).threads i) = 5 * ∑ i, (calls i).length := by
    rw [Finset.mul_sum]
    exact Finset.sum_congr rfl fun i _ => by simp [State.init, remaining]
  omega

theorem perform_oneCall (ptr : ι → Option π) (c : Call ι) (r : (ι → Option π) × Option π × Bool) (h : perform ptr c = .ok r) : OneCall ptr c r.2 r.1 := by
  cases c with
  | assign x y =>
    rw [← Except.ok.inj h]
    have : (Function.update ptr x (ptr y)) = fun o => if o = x then ptr y else ptr o := by
      funext o
      by_cases ho : o = x
      · subst ho; simp
      · simp [ho]
    show OneCall ptr _ (none, false) (Function.update ptr x (ptr y))
    rw [this]
    exact .assign ptr x y
  | evaluate x =>
    simp only [perform] at h
    split at h
    · cases h
    · rename_i p hp
      rw [← Except.ok.inj h]; exact .evaluate ptr x p hp
  | time x =>
    simp only [perform] at h
    split at h
    · cases h
    · rename_i p hp
      rw [← Except.ok.inj h]; exact .time ptr x p hp
  | isNull x => rw [← Except.ok.inj h]; exact .isNull ptr x _ Option.isNone_iff_eq_none
  | same x y => rw [← Except.ok.inj h]; exact .same ptr x y _ (by simp)
  | destroy x => rw [← Except.ok.inj h]; exact .destroy ptr x

/-- C100: whatever the threads do between two states, it is what the same calls do when made one after the other in some order: the pointers change as in that
sequence, every call returns what it returns there, and each thread's calls appear in the order in which the thread makes them. As this holds between any two states, a call that
ends before another one begins comes first. -/
theorem C100_sequential (s s' : State n ι π) (is : List (Fin n)) (h : Shared.run s is = some (.ok s')) :
    ∃ H : List (Fin n × Call ι × Option π × Bool), OneAfterTheOther s.ptr H s'.ptr ∧
      ∀ i, (s'.threads i).results = (s.threads i).results ++ ofThread H i ∧ pending (s.threads i) = (ofThread H i).map (·.1) ++ pending (s'.threads i) := by
  induction is generalizing s with
  | nil => rw [Except.ok.inj (Option.some.inj h)]; exact ⟨[], .nil _, fun i => by simp [ofThread]⟩
  | cons i is ih =>
    obtain ⟨m, h1, h2⟩ := run_cons s s' i is h
    obtain ⟨H, hH, hT⟩ := ih m h2
    have quiet : m.ptr = s.ptr → (∀ j, (m.threads j).results = (s.threads j).results ∧ pending (m.threads j) = pending (s.threads j)) →
        ∃ H : List (Fin n × Call ι × Option π × Bool), OneAfterTheOther s.ptr H s'.ptr ∧
          ∀ i, (s'.threads i).results = (s.threads i).results ++ ofThread H i ∧ pending (s.threads i) = (ofThread H i).map (·.1) ++ pending (s'.threads i) := by
      intro hp hq
      refine ⟨H, hp ▸ hH, fun j => ?_⟩
      rw [← (hq j).1, ← (hq j).2]
      exact hT j
    have upd : ∀ (t : Thread ι π), t.results = (s.threads i).results → pending t = pending (s.threads i) → ∀ j,
        (Function.update s.threads i t j).results = (s.threads j).results ∧ pending (Function.update s.threads i t j) = pending (s.threads j) := by
      intro t a b j
      by_cases hj : j = i
      · subst hj; rw [Function.update_self]; exact ⟨a, b⟩
      · rw [Function.update_of_ne hj]; exact ⟨rfl, rfl⟩
    obtain ⟨c, cs, hc, h | h | h | h | h⟩ := step_cases s m i h1
    · obtain ⟨hp, e, _, rfl⟩ := h
      exact quiet rfl (upd _ rfl (by simp [pending, hp, hc]))
    · obtain ⟨hp, e, _, rfl⟩ := h
      exact quiet rfl (upd _ rfl (by simp [pending, hp, hc]))
    · obtain ⟨hp, r, hr, rfl⟩ := h
      refine ⟨(i, c, r.2) :: H, .cons (perform_oneCall _ _ _ hr) hH, fun j => ?_⟩
      obtain ⟨a, b⟩ := hT j
      by_cases hj : j = i
      · subst hj
        simp only [Function.update_self] at a b
        refine ⟨by rw [a]; simp [ofThread], ?_⟩
        have : pending (s.threads j) = c :: cs := by simp [pending, hp, hc]
        rw [this]
        simp only [pending, List.tail_cons] at b
        simp only [ofThread, List.filter_cons, decide_true, if_true, List.map_cons, List.cons_append, List.cons.injEq, true_and]
        exact b
      · simp only [Function.update_of_ne hj] at a b
        have : ofThread ((i, c, r.2) :: H) j = ofThread H j := by
          simp [ofThread, Ne.symm hj]
        rw [this]
        exact ⟨a, b⟩
    · obtain ⟨hp, rfl⟩ := h
      exact quiet rfl (upd _ rfl (by simp [pending, hp, hc]))
    · obtain ⟨hp, rfl⟩ := h
      exact quiet rfl (upd _ rfl (by simp [pending, hp, hc]))

-- Two threads whose calls overlap: the assignment waits for the evaluation.
example : ∃ s : State 2 ℕ ℕ, Shared.run (State.init (fun o => some o) ![[.evaluate 0, .time 0], [.assign 0 1]]) [0, 0, 0, 0, 0, 1, 1, 1, 0, 1, 1, 0, 0, 0, 0] = some (.ok s) ∧
    (s.threads 0).results = [(.evaluate 0, some 0, false), (.time 0, some 1, false)] := ⟨_, rfl, rfl⟩

/-- C100: the results: what `evaluate`, `getMaxTime` and the like return belongs to one of the trajectories the handles held at the beginning, and each handle holds one of
these (or nothing) at any time; moving from a handle leaves it unchanged. -/
theorem C100_results (ptr : ι → Option π) (calls : Fin n → List (Call ι)) (s : State n ι π) (h : SharedReachable ptr calls s) :
    (∀ o, ∃ o0, s.ptr o = ptr o0) ∧ ∀ i c p b, (c, some p, b) ∈ (s.threads i).results → ∃ o0, ptr o0 = some p := by
  obtain ⟨is, h⟩ := h
  refine run_induction (fun s => (∀ o, ∃ o0, s.ptr o = ptr o0) ∧ ∀ i c p b, (c, some p, b) ∈ (s.threads i).results → ∃ o0, ptr o0 = some p) ?_ _ s is ?_ h
  · intro s s' i hi hs
    have same : ∀ (t : Thread ι π), t.results = (s.threads i).results → ∀ j c p b, (c, some p, b) ∈ (Function.update s.threads i t j).results →
        ∃ o0, ptr o0 = some p := by
      intro t ht j c p b hm
      by_cases hj : j = i
      · subst hj
        rw [Function.update_self, ht] at hm
        exact hi.2 j c p b hm
      · rw [Function.update_of_ne hj] at hm
        exact hi.2 j c p b hm
    obtain ⟨c, cs, hc, h | h | h | h | h⟩ := step_cases s s' i hs
    · obtain ⟨_, e, _, rfl⟩ := h; exact ⟨hi.1, same _ rfl⟩
    · obtain ⟨_, e, _, rfl⟩ := h; exact ⟨hi.1, same _ rfl⟩
    · obtain ⟨hp, r, hr, rfl⟩ := h
      have hr' : (∀ o, ∃ o0, r.1 o = ptr o0) ∧ ∀ p, r.2.1 = some p → ∃ o0, ptr o0 = some p := by
        cases c with
        | assign x y =>
          simp only [perform, Except.ok.injEq] at hr
          rw [← hr]
          refine ⟨fun o => ?_, fun p h => by cases h⟩
          by_cases hx : o = x
          · subst hx; simpa using hi.1 y
          · simpa [Function.update_of_ne hx] using hi.1 o
        | evaluate x | time x =>
          simp only [perform] at hr
          split at hr
          · cases hr
          · rename_i p hp
            rw [← Except.ok.inj hr]
            refine ⟨hi.1, fun q hq => ?_⟩
            obtain ⟨o0, h0⟩ := hi.1 x
            exact ⟨o0, by rw [← h0, hp]; exact hq⟩
        | isNull x | same x y | destroy x =>
          rw [← Except.ok.inj hr]
          exact ⟨hi.1, fun p h => by cases h⟩
      refine ⟨hr'.1, ?_⟩
      intro j d p b hm
      by_cases hj : j = i
      · subst hj
        simp only [Function.update_self] at hm
        rcases List.mem_append.mp hm with hm | hm
        · exact hi.2 j d p b hm
        · rw [List.mem_singleton] at hm
          obtain ⟨_, hm⟩ := Prod.mk.inj hm
          exact hr'.2 p (by rw [← hm])
      · simp only [Function.update_of_ne hj] at hm
        exact hi.2 j d p b hm
    · obtain ⟨_, rfl⟩ := h; exact ⟨hi.1, same _ rfl⟩
    · obtain ⟨_, rfl⟩ := h; exact ⟨hi.1, same _ rfl⟩
  · exact ⟨fun o => ⟨o, rfl⟩, fun i c p b hm => by simp [State.init] at hm⟩

/-- C100: if all handles hold a trajectory at the beginning, no schedule leads to undefined behaviour. -/
theorem C100_null (ptr : ι → Option π) (calls : Fin n → List (Call ι)) (hp : ∀ o, ptr o ≠ none) (is : List (Fin n)) (e : Fail) :
    Shared.run (State.init ptr calls) is ≠ some (.error e) := by
  have key : ∀ (is : List (Fin n)) (s : State n ι π), (∀ o, s.ptr o ≠ none) → Shared.run s is ≠ some (.error e) := by
    intro is
    induction is with
    | nil => intro s _ h; cases h
    | cons i is ih =>
      intro s hs h
      simp only [Shared.run] at h
      cases hst : step s i with
      | none => rw [hst] at h; cases h
      | some r =>
        rw [hst] at h
        cases r with
        | error e' =>
          unfold step at hst
          simp only at hst
          cases hc : (s.threads i).calls with
          | nil => rw [hc] at hst; cases hst
          | cons c cs =>
            rw [hc] at hst
            simp only at hst
            cases hpc : (s.threads i).pc with
            | start | half =>
              rw [hpc] at hst
              simp only [Option.map_eq_some_iff] at hst
              obtain ⟨_, _, hx⟩ := hst
              cases hx
            | leaving | left => rw [hpc] at hst; cases hst
            | inside =>
              rw [hpc] at hst
              simp only [Option.some.injEq, bind, Except.bind] at hst
              have : ∃ r, perform s.ptr c = .ok r := by
                cases c with
                | evaluate x | time x =>
                  obtain ⟨p, hx⟩ := Option.ne_none_iff_exists'.mp (hs x)
                  exact ⟨(s.ptr, some p, false), by simp [perform, hx]⟩
                | assign x y | isNull x | same x y | destroy x => exact ⟨_, rfl⟩
              obtain ⟨r, hr⟩ := this
              rw [hr] at hst
              cases hst
        | ok m =>
          refine ih m ?_ h
          intro o
          obtain ⟨c, cs, hc, h | h | h | h | h⟩ := step_cases s m i hst
          · obtain ⟨_, e, _, rfl⟩ := h; exact hs o
          · obtain ⟨_, e, _, rfl⟩ := h; exact hs o
          · obtain ⟨_, r, hr, rfl⟩ := h
            show r.1 o ≠ none
            cases c with
            | assign x y =>
              simp only [perform, Except.ok.injEq] at hr
              rw [← hr]
              by_cases hx : o = x
              · subst hx; simpa using hs y
              · simpa [Function.update_of_ne hx] using hs o
            | evaluate x | time x =>
              simp only [perform] at hr
              split at hr
              · cases hr
              · rw [← Except.ok.inj hr]; exact hs o
            | isNull x | same x y | destroy x => rw [← Except.ok.inj hr]; exact hs o
          · obtain ⟨_, rfl⟩ := h; exact hs o
          · obtain ⟨_, rfl⟩ := h; exact hs o
  exact key is _ hp

/-- C100: the length and a value read one after the other may belong to different trajectories. -/
theorem C100_not_together_refuted : ∃ (calls : Fin 2 → List (Call ℕ)) (s : State 2 ℕ ℕ), SharedReachable (fun o => some o) calls s ∧ AllDone s ∧
    (s.threads 0).results = [(.time 0, some 0, false), (.evaluate 0, some 1, false)] :=
  ⟨![[.time 0, .evaluate 0], [.assign 0 1]], _, ⟨[0, 0, 0, 0, 0, 1, 1, 1, 1, 1, 0, 0, 0, 0, 0], rfl⟩, Fin.forall_fin_two.mpr ⟨rfl, rfl⟩, rfl⟩

-- A handle used before anything was assigned to it.
example : Shared.run (State.init (fun _ => none) ![[.time 0]] : State 1 ℕ ℕ) [0, 0, 0] = some (.error .ub) := rfl

-- Three threads, two of which evaluate the handle that the third one replaces; the last one waits for the first.
example : ∃ s : State 3 ℕ ℕ, SharedReachable (fun o => some o) ![[.evaluate 0], [.time 0], [.assign 0 1]] s ∧ ¬ AllDone s ∧ step s 2 = none :=
  ⟨_, ⟨[0, 0, 1, 1], rfl⟩, by intro h; exact absurd (h 0) (List.cons_ne_nil _ _), rfl⟩

end Verif.Properties
