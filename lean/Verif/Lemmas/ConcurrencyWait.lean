import Verif.Lemmas.ConcurrencyReach

/-!
# Waiting, races and requests in states that satisfy the invariant
-/
set_option linter.unusedSectionVars false
set_option linter.unusedVariables false

namespace Verif.Conc

variable {solo : Bool} {σ τ : State} {al : Tid → LState} {st : Stage} {i j : Tid} {k : List Prog}

/-- What the rules demand of the next action; the state may forget what is not needed for it. -/
theorem next_ok (h : Inv solo σ al st) {x : Act} (hn : Next σ i x) :
    ∃ a b, (al i).le a = true ∧ postAct solo (role solo i) a x = some b ∧
      Inv solo σ (upd al i a) st := by
  obtain ⟨k, hk⟩ := hn
  have hc := h.code i
  rw [hk] at hc
  cases hc with
  | @cons _ b _ _ hp hc =>
  obtain ⟨a, b', h1, h2, h3⟩ := hp.act_inv
  refine ⟨a, b', h1, h2, inv_weaken h h1 ?_⟩
  rw [hk]
  exact .cons (.act h2) (hc.weaken h3)

theorem postAct_core {ro : Role} {a b : LState} {x : Act} (h : postAct solo ro a x = some b) :
    x.access.all (permits solo ro a) = true ∧ postCore solo ro a x = some b := by
  unfold postAct at h
  split at h
  · rename_i e
    exact ⟨e, h⟩
  · cases h

/-! ### Waiting -/

/-- Thread `i` is held up, at this level. -/
def BlockedAt (σ : State) (i : Tid) (l : Nat) : Prop :=
  (∃ m, Next σ i (.lock m) ∧ l = rank m) ∨
  ((Next σ i .futWait ∨ Next σ i .futGet ∨ Next σ i .launch ∨ Next σ i .dropFuture) ∧ l = 4) ∨
  (Next σ i .join ∧ l = 0)

theorem BlockedAt.le {l : Nat} (h : BlockedAt σ i l) : l ≤ 9 := by
  rcases h with ⟨m, _, rfl⟩ | ⟨_, rfl⟩ | ⟨_, rfl⟩
  · cases m <;> decide
  · decide
  · decide

/-- A thread that holds a mutex waits only at higher levels. -/
theorem blocked_above (h : Inv solo σ al st) {m : Mutex} (hm : m ∈ (al i).held) {l : Nat}
    (hb : BlockedAt σ i l) : rank m < l := by
  rcases hb with ⟨m', hn, rfl⟩ | ⟨hn, rfl⟩ | ⟨hn, rfl⟩
  · obtain ⟨a, b, h1, h2, _⟩ := next_ok h hn
    rw [(LState.le_iff.1 h1).1] at hm
    have := (postAct_core h2).2
    simp only [postCore] at this
    split at this
    · rename_i e
      simp only [Bool.and_eq_true, List.all_eq_true, decide_eq_true_eq] at e
      exact e.1 m hm
    · cases this
  · have key : ∀ a : LState, (al i).le a = true → canWait a = true → rank m < 4 := by
      intro a h1 h2
      rw [(LState.le_iff.1 h1).1] at hm
      simp only [canWait, List.all_eq_true, decide_eq_true_eq] at h2
      exact h2 m hm
    rcases hn with hn | hn | hn | hn <;> obtain ⟨a, b, h1, h2, _⟩ := next_ok h hn <;>
      have := (postAct_core h2).2 <;> simp only [postCore] at this <;> split at this <;>
      try cases this
    · rename_i e
      exact key a h1 e.2.1
    · rename_i e
      exact key a h1 e.2.1
    · rename_i e
      exact key a h1 e.2.1
    · rename_i e
      rw [(LState.le_iff.1 h1).1, e.1] at hm
      cases hm
  · obtain ⟨a, b, h1, h2, _⟩ := next_ok h hn
    have := (postAct_core h2).2
    simp only [postCore] at this
    split at this
    · rename_i e
      rw [(LState.le_iff.1 h1).1, e.1] at hm
      cases hm
    · cases this

/-- A computation waits only at levels above that of waiting for a computation. -/
theorem blocked_comp (h : Inv solo σ al st) {n l : Nat} (hb : BlockedAt σ (.comp n) l) : 4 < l := by
  rcases hb with ⟨m', hn, rfl⟩ | ⟨hn, rfl⟩ | ⟨hn, rfl⟩
  · obtain ⟨a, b, h1, h2, _⟩ := next_ok h hn
    have := (postAct_core h2).2
    simp only [postCore] at this
    split at this
    · rename_i e
      rw [Bool.and_eq_true] at e
      simpa [role] using e.2
    · cases this
  · rcases hn with hn | hn | hn | hn <;> obtain ⟨a, b, h1, h2, _⟩ := next_ok h hn <;>
      have := (postAct_core h2).2 <;> simp [postCore, role] at this
  · obtain ⟨a, b, h1, h2, _⟩ := next_ok h hn
    have := (postAct_core h2).2
    simp [postCore, role] at this

/-- The worker does not wait for itself. -/
theorem blocked_worker (h : Inv solo σ al st) {l : Nat} (hb : BlockedAt σ .worker l) : 0 < l := by
  rcases hb with ⟨m', hn, rfl⟩ | ⟨hn, rfl⟩ | ⟨hn, rfl⟩
  · cases m' <;> decide
  · decide
  · obtain ⟨a, b, h1, h2, _⟩ := next_ok h hn
    have := (postAct_core h2).2
    simp [postCore, role] at this

/-- When an action has to wait. -/
theorem stepAct_none {x : Act} {c : Bool} (h : stepAct σ i c x k = none) :
    (∃ m j, x = .lock m ∧ σ.owner m = some j) ∨
    (∃ n, (x = .futWait ∨ x = .futGet ∨ x = .launch ∨ x = .dropFuture) ∧ σ.fut = .pending n) ∨
    (x = .join ∧ σ.code .worker ≠ []) := by
  cases x with
  | lock m =>
    simp only [stepAct] at h
    split at h
    · cases h
    · rename_i j hj
      exact .inl ⟨m, j, rfl, hj⟩
  | futWait =>
    simp only [stepAct] at h
    split at h
    · cases h
    · rename_i n hn
      exact .inr (.inl ⟨n, .inl rfl, hn⟩)
    · cases h
  | futGet =>
    simp only [stepAct] at h
    split at h
    · cases h
    · rename_i n hn
      exact .inr (.inl ⟨n, .inr (.inl rfl), hn⟩)
    · cases h
  | launch =>
    simp only [stepAct] at h
    split at h
    · rename_i n hn
      exact .inr (.inl ⟨n, .inr (.inr (.inl rfl)), hn⟩)
    · cases h
  | dropFuture =>
    simp only [stepAct] at h
    split at h
    · rename_i n hn
      exact .inr (.inl ⟨n, .inr (.inr (.inr rfl)), hn⟩)
    · cases h
  | join =>
    simp only [stepAct] at h
    split at h
    · cases h
    · rename_i e
      exact .inr (.inr ⟨rfl, e⟩)
  | unlock m =>
    simp only [stepAct] at h
    split at h <;> cases h
  | load r s =>
    simp only [stepAct] at h
    split at h <;> cases h
  | complete =>
    simp only [stepAct] at h
    split at h <;> cases h
  | deref =>
    simp only [stepAct] at h
    split at h <;> cases h
  | _ => simp [stepAct] at h

/-- A thread inside a program can go on, or waits for another one that is inside a program and, if it
waits too, does so at a higher level. -/
theorem busy_cases (h : Inv solo σ al st) (hu : σ.ub = false) (hb : Busy σ i) :
    CanStep σ i ∨ ∃ j l, BlockedAt σ i l ∧ Waits σ i j ∧ Busy σ j ∧
      ∀ l', BlockedAt σ j l' → l < l' := by
  by_cases hc : CanStep σ i
  · exact .inl hc
  right
  obtain ⟨p, k, hk⟩ := List.exists_cons_of_ne_nil hb
  have hno : stepProg σ i true p k = none := by
    by_contra e
    refine hc ⟨true, ?_⟩
    simp only [step, hu, hk, Bool.false_eq_true, if_false]
    exact Option.isSome_iff_ne_none.2 e
  cases p with
  | act x =>
    have hx : Next σ i x := ⟨k, hk⟩
    rcases stepAct_none hno with ⟨m, j, rfl, ho⟩ | ⟨n, hf, hn⟩ | ⟨rfl, hw⟩
    · have hm : m ∈ (al j).held := (h.locks.1 j m).1 ho
      refine ⟨j, rank m, .inl ⟨m, hx, rfl⟩, .inl ⟨m, hx, ho⟩, ?_, fun l' hl => blocked_above h hm hl⟩
      intro e
      have := h.code j
      rw [e] at this
      cases this with
      | nil h1 h2 h3 =>
        rw [h1] at hm
        cases hm
    · have hx' : Next σ i .futWait ∨ Next σ i .futGet ∨ Next σ i .launch ∨ Next σ i .dropFuture := by
        rcases hf with rfl | rfl | rfl | rfl
        · exact .inl hx
        · exact .inr (.inl hx)
        · exact .inr (.inr (.inl hx))
        · exact .inr (.inr (.inr hx))
      have hp : (al (.comp n)).phase = .working := by
        have hst := h.stage
        cases st with
        | off => rw [hst.2.1] at hn; cases hn
        | prep => rw [hst.2.1] at hn; cases hn
        | pending m => rw [hst.2.1] at hn; cases hn; exact hst.2.2.1
        | ready m => rw [hst.2.1] at hn; cases hn
        | taken u m => rw [hst.2.1] at hn; cases hn
      refine ⟨.comp n, 4, .inr (.inl ⟨hx', rfl⟩), .inr (.inl ⟨n, hx', hn, rfl⟩), ?_,
        fun l' hl => blocked_comp h hl⟩
      intro e
      have := h.code (.comp n)
      rw [e] at this
      cases this with
      | nil h1 h2 h3 =>
        rw [hp] at h2
        cases h2
    · exact ⟨.worker, 0, .inr (.inr ⟨hx, rfl⟩), .inr (.inr ⟨hx, rfl⟩), hw,
        fun l' hl => blocked_worker h hl⟩
  | _ => simp [stepProg] at hno

/-- Following who waits for whom leads to a thread that can go on. -/
theorem wait_ends (h : Inv solo σ al st) (hu : σ.ub = false) (d : Nat) :
    ∀ i, Busy σ i → (∀ l, BlockedAt σ i l → 10 ≤ l + d) →
      ∃ j, Relation.ReflTransGen (Waits σ) i j ∧ CanStep σ j := by
  induction d with
  | zero =>
    intro i hb hl
    rcases busy_cases h hu hb with hc | ⟨j, l, h1, _⟩
    · exact ⟨i, .refl, hc⟩
    · have := hl l h1
      have := h1.le
      omega
  | succ d ih =>
    intro i hb hl
    rcases busy_cases h hu hb with hc | ⟨j, l, h1, h2, h3, h4⟩
    · exact ⟨i, .refl, hc⟩
    · obtain ⟨j', h5, h6⟩ := ih j h3 fun l' hl' => by
        have := hl l h1
        have := h4 l' hl'
        omega
      exact ⟨j', .head h2 h5, h6⟩

/-! ### Races -/

/-- The thread that may change the plan in the making. -/
theorem same_owner (h : Inv solo σ al st)
    (hi : planning (role solo i) (al i) = true ∨ (al i).phase = .working ∨ (al i).phase.taking = true)
    (hj : planning (role solo j) (al j) = true ∨ (al j).phase = .working ∨ (al j).phase.taking = true) :
    i = j := by
  have key : ∀ i, (planning (role solo i) (al i) = true ∨ (al i).phase = .working ∨
      (al i).phase.taking = true) → (i = .worker ∧ (st = .off ∨ st = .prep)) ∨
      (∃ n, st = .pending n ∧ i = .comp n) ∨ ∃ u n, st = .taken u n ∧ i = .user u := by
    intro i hi
    rcases hi with hi | hi | hi
    · exact .inl (planning_stage h hi)
    · exact .inr (.inl (stage_working h.stage hi))
    · exact .inr (.inr (stage_taking h.stage hi))
  rcases key i hi with ⟨e, hs⟩ | ⟨n, hs, e⟩ | ⟨u, n, hs, e⟩ <;>
    rcases key j hj with ⟨e', hs'⟩ | ⟨n', hs', e'⟩ | ⟨u', n', hs', e'⟩ <;> subst e e'
  · rfl
  · rcases hs with rfl | rfl <;> cases hs'
  · rcases hs with rfl | rfl <;> cases hs'
  · rcases hs' with rfl | rfl <;> cases hs
  · rw [hs] at hs'; cases hs'; rfl
  · rw [hs] at hs'; cases hs'
  · rcases hs' with rfl | rfl <;> cases hs
  · rw [hs] at hs'; cases hs'
  · rw [hs] at hs'; cases hs'; rfl

/-- A thread that may write and one that may access are the same. -/
theorem perm_excl (h : Inv solo σ al st) {v : Var} {w : Bool}
    (hi : perm solo (role solo i) (al i) v true = true)
    (hj : perm solo (role solo j) (al j) v w = true) : i = j := by
  have solo2 : ∀ {i j}, role solo i = .user true → solo = true ∧ role solo j = .user true → i = j := by
    intro i j hi hj
    rw [role_solo hj.1 hi, role_solo hj.1 hj.2]
  cases hg : v.guard with
  | some m => exact held_unique h (held_guard hi hg) (held_guard hj hg)
  | none =>
    cases v with
    | nextWps =>
      simp [perm, hg] at hi hj
      exact same_owner h (by rcases hi with hi | hi <;> simp [hi]) (by
        rcases hj with (hj | hj) | ⟨_, hj⟩ <;> simp [hj])
    | nStart =>
      simp [perm, hg] at hi hj
      exact same_owner h (by rcases hi with hi | hi <;> simp [hi]) (by
        rcases hj with (hj | hj) | ⟨_, hj⟩ <;> simp [hj])
    | nOffset =>
      simp [perm, hg] at hi hj
      exact same_owner h (by rcases hi with (hi | hi) | hi <;> simp [hi]) (by
        rcases hj with (hj | hj) | hj <;> simp [hj])
    | dynWps =>
      simp [perm, hg] at hi hj
      obtain ⟨hi1, hi2⟩ := hi
      have hi3 : planning (role solo i) (al i) = true ∨ (al i).phase = .working ∨
          (al i).phase.taking = true := by rcases hi2 with hi | hi <;> simp [hi]
      cases w with
      | true => exact held_unique h hi1 (by simpa using And.left (by simpa using hj))
      | false =>
        simp at hj
        rcases hj with (hj | hj) | hj
        · exact held_unique h hi1 hj
        · exact same_owner h hi3 (by simp [hj])
        · exact same_owner h hi3 (by simp [hj])
    | pOffset =>
      simp [perm, hg] at hi hj
      obtain ⟨⟨hi1, hi2⟩, hi3⟩ := hi
      cases w with
      | true => exact held_unique h hi1 (And.left (And.left (by simpa using hj)))
      | false =>
        simp at hj
        rcases hj with ((hj | hj) | hj) | hj
        · exact held_unique h hi1 hj
        · exact same_owner h (by simp [hi2]) (by simp [hj])
        · exact same_owner h (by simp [hi2]) (by simp [hj])
        · exact solo2 hi3 hj
    | trajPtr =>
      simp [perm, hg] at hi hj
      obtain ⟨⟨⟨hi1, hi4⟩, hi2⟩, hi3⟩ := hi
      cases w with
      | true =>
        exact held_unique h hi1 (And.left (And.left (And.left (by simpa using hj))))
      | false =>
        simp at hj
        rcases hj with (((hj | hj) | hj) | hj) | hj
        · exact held_unique h hi1 hj
        · exact held_unique h hi4 hj
        · exact same_owner h (by simp [hi2]) (by simp [hj])
        · exact same_owner h (by simp [hi2]) (by simp [hj])
        · exact solo2 hi3 hj
    | _ => cases hg

/-- Only consumers write the plan in use and its offset. -/
theorem perm_consumer {ro : Role} {a : LState} {v : Var} (hv : v = .trajPtr ∨ v = .pOffset)
    (h : perm solo ro a v true = true) : ro = .user true := by
  rcases hv with rfl | rfl <;> simp [perm, Var.guard] at h
  · exact h.2
  · exact h.2

/-- What is known of two threads about to access the same member. -/
theorem race_cases (h : Inv solo σ al st) {v : Var} {s s' : Site} (hr : RaceAt σ v s s') :
    (v = .modList ∧ (s = .modifiedSize ∨ s' = .modifiedSize)) ∨
    (v = .pLast ∧ (s = .lastTime ∨ s' = .lastTime)) ∨
    (v = .trajPtr ∧ (s = .zoneNull ∨ s' = .zoneNull)) ∨
    (solo = false ∧ v = .trajPtr ∧ (s = .userNull ∨ s' = .userNull)) ∨
    (solo = false ∧ v = .pOffset ∧ (s = .userOffset ∨ s' = .userOffset)) := by
  have main : ∀ (i j : Tid) (x y : Act) (s s' : Site) (w : Bool), i ≠ j → Next σ i x → Next σ j y →
      x.access = some (s, v, true) → y.access = some (s', v, w) →
      (v = .modList ∧ s' = .modifiedSize) ∨ (v = .pLast ∧ s' = .lastTime) ∨
      (v = .trajPtr ∧ s' = .zoneNull) ∨ (solo = false ∧ v = .trajPtr ∧ s' = .userNull) ∨
      (solo = false ∧ v = .pOffset ∧ s' = .userOffset) := by
    intro i j x y s s' w hij hx hy ax ay
    obtain ⟨a, b, h1, h2, h3⟩ := next_ok h hx
    obtain ⟨a', b', h1', h2', h3'⟩ := next_ok h3 hy
    have e1 : upd (upd al i a) j a' i = a := by rw [upd_ne _ _ hij, upd_self]
    have e2 : upd (upd al i a) j a' j = a' := upd_self _ _ _
    have p := (postAct_core h2).1
    have p' := (postAct_core h2').1
    rw [ax] at p
    rw [ay] at p'
    simp only [Option.all_some] at p p'
    have hpw : perm solo (role solo i) a v true = true := by
      cases s with
      | plain => exact p
      | _ => simp [permits] at p
    have sol : ∀ (_ : v = .trajPtr ∨ v = .pOffset), role solo j = .user true → solo = false := by
      intro hv hj
      by_contra e
      have e : solo = true := by simpa using e
      exact hij ((role_solo e (perm_consumer hv hpw)).trans (role_solo e hj).symm)
    cases s' with
    | plain =>
      refine absurd (perm_excl h3' (i := i) (j := j) (v := v) (w := w) ?_ ?_) hij
      · rw [e1]; exact hpw
      · rw [e2]; exact p'
    | modifiedSize =>
      simp [permits] at p'
      exact .inl ⟨p'.2, rfl⟩
    | lastTime =>
      simp [permits] at p'
      exact .inr (.inl ⟨p'.2, rfl⟩)
    | zoneNull =>
      simp [permits] at p'
      exact .inr (.inr (.inl ⟨p'.2, rfl⟩))
    | userNull =>
      simp [permits] at p'
      exact .inr (.inr (.inr (.inl ⟨sol (.inl p'.1.2) p'.2, p'.1.2, rfl⟩)))
    | userOffset =>
      simp [permits] at p'
      exact .inr (.inr (.inr (.inr ⟨sol (.inr p'.1.2) p'.2, p'.1.2, rfl⟩)))
  obtain ⟨i, j, x, y, w, w', hij, hx, hy, ax, ay, hw⟩ := hr
  rcases hw with rfl | rfl
  · rcases main i j x y s s' w' hij hx hy ax ay with e | e | e | e | e
    · exact .inl ⟨e.1, .inr e.2⟩
    · exact .inr (.inl ⟨e.1, .inr e.2⟩)
    · exact .inr (.inr (.inl ⟨e.1, .inr e.2⟩))
    · exact .inr (.inr (.inr (.inl ⟨e.1, e.2.1, .inr e.2.2⟩)))
    · exact .inr (.inr (.inr (.inr ⟨e.1, e.2.1, .inr e.2.2⟩)))
  · rcases main j i y x s' s w (Ne.symm hij) hy hx ay ax with e | e | e | e | e
    · exact .inl ⟨e.1, .inl e.2⟩
    · exact .inr (.inl ⟨e.1, .inl e.2⟩)
    · exact .inr (.inr (.inl ⟨e.1, .inl e.2⟩))
    · exact .inr (.inr (.inr (.inl ⟨e.1, e.2.1, .inl e.2.2⟩)))
    · exact .inr (.inr (.inr (.inr ⟨e.1, e.2.1, .inl e.2.2⟩)))

/-- Who is about to access the plan in the making owns it. -/
theorem access_plan (h : Inv solo σ al st) {x : Act} {v : Var} {s : Site} {w : Bool}
    (hx : Next σ i x) (ha : x.access = some (s, v, w))
    (hv : v = .nextWps ∨ v = .nStart ∨ v = .nOffset) :
    (i = .worker ∧ (st = .off ∨ st = .prep)) ∨
      (∃ n, st = .pending n ∧ i = .comp n) ∨ ∃ u n, st = .taken u n ∧ i = .user u := by
  obtain ⟨a, b, h1, h2, h3⟩ := next_ok h hx
  have p := (postAct_core h2).1
  rw [ha] at p
  simp only [Option.all_some] at p
  have hp : perm solo (role solo i) a v w = true := by
    rcases hv with rfl | rfl | rfl <;> cases s with
    | plain => exact p
    | _ => simp [permits] at p
  have e1 : upd al i a i = a := upd_self _ _ _
  have : planning (role solo i) a = true ∨ a.phase = .working ∨ a.phase.taking = true := by
    rcases hv with rfl | rfl | rfl <;> simp [perm, Var.guard] at hp
    · rcases hp with (hp | hp) | ⟨_, hp⟩ <;> simp [hp]
    · rcases hp with (hp | hp) | ⟨_, hp⟩ <;> simp [hp]
    · rcases hp with (hp | hp) | hp <;> simp [hp]
  rcases this with hp | hp | hp
  · exact .inl (planning_stage (i := i) h3 (by rw [e1]; exact hp))
  · exact .inr (.inl (stage_working (i := i) h3.stage (by rw [e1]; exact hp)))
  · exact .inr (.inr (stage_taking (i := i) h3.stage (by rw [e1]; exact hp)))

/-! ### Requests for modifications -/

/-- The pending modifications are those of the log. -/
def ModsOk (σ : State) : Prop := σ.mods = pendingMods σ.log ∧ BatchesRight σ.log

theorem mods_act {x : Act} {c : Bool} (h : ModsOk σ) (hs : stepAct σ i c x k = some τ) :
    ModsOk τ := by
  obtain ⟨h1, h2⟩ := h
  cases x with
  | lock m =>
    simp only [stepAct] at hs
    split at hs <;> cases hs
    exact ⟨h1, h2⟩
  | unlock m =>
    simp only [stepAct] at hs
    split at hs <;> cases hs <;> exact ⟨h1, h2⟩
  | load r s =>
    simp only [stepAct] at hs
    split at hs <;> cases hs <;> exact ⟨h1, h2⟩
  | setFlag f v =>
    simp only [stepAct] at hs
    cases hs
    unfold ModsOk
    dsimp only
    split
    · exact ⟨h1, h2⟩
    · exact ⟨h1, h2⟩
  | futWait =>
    simp only [stepAct] at hs
    split at hs <;> cases hs <;> exact ⟨h1, h2⟩
  | futGet =>
    simp only [stepAct] at hs
    split at hs <;> cases hs <;> exact ⟨h1, h2⟩
  | launch =>
    simp only [stepAct] at hs
    split at hs <;> cases hs <;> exact ⟨h1, h2⟩
  | complete =>
    simp only [stepAct] at hs
    split at hs <;> cases hs <;> exact ⟨h1, h2⟩
  | deref =>
    simp only [stepAct] at hs
    split at hs <;> cases hs <;> exact ⟨h1, h2⟩
  | join =>
    simp only [stepAct] at hs
    split at hs <;> cases hs
    exact ⟨h1, h2⟩
  | dropFuture =>
    simp only [stepAct] at hs
    split at hs <;> cases hs
    exact ⟨h1, h2⟩
  | pushMod n =>
    simp only [stepAct] at hs
    cases hs
    exact ⟨by simp only [pendingMods, h1], h2⟩
  | takeMods =>
    simp only [stepAct] at hs
    cases hs
    exact ⟨rfl, h1, h2⟩
  | clearMods =>
    simp only [stepAct] at hs
    cases hs
    exact ⟨rfl, h2⟩
  | _ =>
    simp only [stepAct] at hs
    cases hs
    exact ⟨h1, h2⟩

theorem mods_prog {p : Prog} {c : Bool} (h : ModsOk σ) (hs : stepProg σ i c p k = some τ) :
    ModsOk τ := by
  cases p with
  | act x => exact mods_act h hs
  | _ =>
    simp only [stepProg] at hs
    cases hs
    exact h

theorem mods_reach {users : Nat → Api → Prop} (h : Reach users σ) : ModsOk σ := by
  induction h with
  | init => exact ⟨rfl, trivial⟩
  | step _ _ hs ih =>
    unfold step at hs
    split at hs
    · cases hs
    · split at hs
      · split at hs
        · cases hs
          exact ih
        · cases hs
      · exact mods_prog ih hs
      · cases hs

end Verif.Conc
