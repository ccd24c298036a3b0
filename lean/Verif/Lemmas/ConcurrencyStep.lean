import Verif.Lemmas.ConcurrencyInv

/-!
# Every step keeps the invariant
-/
set_option linter.unusedSectionVars false
set_option linter.unusedVariables false

namespace Verif.Conc

variable {solo : Bool} {σ τ : State} {al : Tid → LState} {st : Stage} {i : Tid} {b : LState}
  {k : List Prog}

/-- A step that changes one thread's program and abstract state, and shared components. -/
theorem inv_step {st' : Stage} (h : Inv solo σ al st)
    (hc : ∀ j, j ≠ i → τ.code j = σ.code j) (hr : τ.regs = σ.regs)
    (locks : Locks τ.owner fun j => (upd al i b j).held)
    (stable : ∀ j, j ≠ i → ∀ f, Holds solo j σ.traj σ.fut (σ.flag .computing) f →
      Holds solo j τ.traj τ.fut (τ.flag .computing) f)
    (own : ∀ x ∈ b.facts, ItemHolds solo i τ.traj τ.fut (τ.flag .computing) (σ.regs i) x)
    (ch : Chain solo (role solo i) b (τ.code i))
    (stage : st'.ok τ (upd al i b))
    (idle : ∀ n, i = .comp n → b.phase = .idle → τ.code i = [])
    (scratch : Scratch (τ.flag .fromScratch) τ.traj (upd al i b))
    (speeds : Speeds τ.pSpeed τ.nSpeed τ.log (upd al i b)) :
    Inv solo τ (upd al i b) st' := by
  refine ⟨locks, ?_, ?_, stage, ?_, scratch, speeds⟩
  · intro j x hx
    rw [hr]
    by_cases e : j = i
    · subst e
      rw [upd_self] at hx
      exact own x hx
    · rw [upd_ne _ _ e] at hx
      have := h.items j x hx
      cases x with
      | know f => exact stable j e f this
      | reg r v f => exact fun er => stable j e f (this er)
  · intro j
    by_cases e : j = i
    · subst e
      rw [upd_self]
      exact ch
    · rw [upd_ne _ _ e, hc j e]
      exact h.code j
  · intro n hn
    by_cases e : Tid.comp n = i
    · rw [e, upd_self] at hn
      rw [e]
      exact idle n e.symm hn
    · rw [hc _ e]
      rw [upd_ne _ _ e] at hn
      exact h.idle n hn

theorem item_mono {i : Tid} {traj traj' : Option Nat} {fut fut' : Fut} {c c' : Bool}
    {regs : Reg → Bool} {x : Item}
    (H : ∀ f, Holds solo i traj fut c f → Holds solo i traj' fut' c' f)
    (h : ItemHolds solo i traj fut c regs x) : ItemHolds solo i traj' fut' c' regs x := by
  cases x with
  | know f => exact H f h
  | reg r v f => exact fun e => H f (h e)

/-- Only the thread that holds it holds a mutex. -/
theorem held_unique (h : Inv solo σ al st) {m : Mutex} {j : Tid} (hi : m ∈ (al i).held)
    (hj : m ∈ (al j).held) : i = j := by
  have h1 := (h.locks.1 i m).2 hi
  have h2 := (h.locks.1 j m).2 hj
  rw [h1] at h2
  exact Option.some.inj h2

theorem speeds_held (h : Speeds σ.pSpeed σ.nSpeed σ.log al) {hd : List Mutex}
    (hm : (al i).spd ≠ none → .parameters ∈ hd) :
    Speeds σ.pSpeed σ.nSpeed σ.log (upd al i { al i with held := hd }) := by
  obtain ⟨h1, h2, h3, h4⟩ := h
  have ks := keep (g := LState.spd) (al := al) (i := i) (b := { al i with held := hd }) rfl
  refine ⟨h1, h2, fun j x hj => ?_, fun hj => ?_⟩
  · rw [ks] at hj
    refine ⟨?_, (h3 j x hj).2⟩
    by_cases e : j = i
    · subst e
      rw [upd_self]
      exact hm (by rw [hj]; simp)
    · rw [upd_ne _ _ e]
      exact (h3 j x hj).1
  · simp only [ks] at hj
    exact h4 hj

theorem scratch_keep {fs : Bool} {traj : Option Nat} (h : Scratch fs traj al)
    (bp : b.phase = (al i).phase) (bc : b.clean = (al i).clean) :
    Scratch fs traj (upd al i b) := by
  have kp := keep (g := LState.phase) (al := al) bp
  have kc := keep (g := LState.clean) (al := al) bc
  refine ⟨fun e => ?_, fun j hj => ?_⟩
  · simp only [kp]
    exact h.1 e
  · rw [kc] at hj
    rw [kp]
    exact h.2 j hj

theorem speeds_keep {p n : Nat} {log : List Event} (h : Speeds p n log al)
    (bh : b.held = (al i).held) (bs : b.spd = (al i).spd) : Speeds p n log (upd al i b) := by
  have kh := keep (g := LState.held) (al := al) bh
  have ks := keep (g := LState.spd) (al := al) bs
  obtain ⟨h1, h2, h3, h4⟩ := h
  refine ⟨h1, h2, fun j x hj => ?_, fun hj => ?_⟩
  · rw [ks] at hj
    rw [kh]
    exact h3 j x hj
  · simp only [ks] at hj
    exact h4 hj

theorem locks_keep (h : Inv solo σ al st) (bh : b.held = (al i).held) :
    Locks σ.owner fun j => (upd al i b j).held := by
  have kh := keep (g := LState.held) (al := al) bh
  simp only [kh]
  exact h.locks

/-- The thread's program after a step. -/
theorem chain_upd {ro : Role} {b : LState} {f : Tid → List Prog} (c : Chain solo ro b k) :
    Chain solo ro b (upd f i k i) := by
  rw [upd_self]
  exact c

/-! ### The stage and the threads -/

theorem stage_off (h : st.ok σ al) (hc : σ.flag .computing = false) : st = .off := by
  cases st with
  | off => rfl
  | prep => rw [h.1] at hc; cases hc
  | pending n => rw [h.1] at hc; cases hc
  | ready n => rw [h.1] at hc; cases hc
  | taken u n => rw [h.1] at hc; cases hc

theorem stage_busy (h : st.ok σ al) (hp : (al i).phase ≠ .idle) :
    (st = .prep ∧ i = .worker ∧ (al i).phase = .committed) ∨
    (∃ n, st = .pending n ∧ i = .comp n ∧ (al i).phase = .working) ∨
    (∃ u n, st = .taken u n ∧ i = .user u ∧ ((al i).phase = .got ∨ (al i).phase = .gotDone)) := by
  cases st with
  | off => exact absurd (h.2.2.1 i) hp
  | prep =>
    left
    obtain ⟨_, _, h3, h4, _⟩ := h
    by_cases e : i = .worker
    · exact ⟨rfl, e, by rw [e]; exact h3⟩
    · exact absurd (h4 i e) hp
  | pending n =>
    right; left
    obtain ⟨_, _, h3, h4, _⟩ := h
    by_cases e : i = .comp n
    · exact ⟨n, rfl, e, by rw [e]; exact h3⟩
    · exact absurd (h4 i e) hp
  | ready n => exact absurd (h.2.2.1 i) hp
  | taken u n =>
    right; right
    obtain ⟨_, _, h3, _, _, _, h4⟩ := h
    by_cases e : i = .user u
    · refine ⟨u, n, rfl, e, ?_⟩
      rw [e]
      exact h4.imp And.left And.left
    · exact absurd (h3 i e) hp

theorem stage_committed (h : st.ok σ al) (hp : (al i).phase = .committed) :
    st = .prep ∧ i = .worker := by
  rcases stage_busy h (i := i) (by rw [hp]; decide) with ⟨h1, h2, _⟩ | ⟨n, _, _, h3⟩ | ⟨u, n, _, _, h3⟩
  · exact ⟨h1, h2⟩
  · rw [hp] at h3; cases h3
  · rw [hp] at h3; rcases h3 with h3 | h3 <;> cases h3

theorem stage_working (h : st.ok σ al) (hp : (al i).phase = .working) :
    ∃ n, st = .pending n ∧ i = .comp n := by
  rcases stage_busy h (i := i) (by rw [hp]; decide) with ⟨_, _, h3⟩ | ⟨n, h1, h2, _⟩ | ⟨u, n, _, _, h3⟩
  · rw [hp] at h3; cases h3
  · exact ⟨n, h1, h2⟩
  · rw [hp] at h3; rcases h3 with h3 | h3 <;> cases h3

theorem stage_taking (h : st.ok σ al) (hp : (al i).phase.taking = true) :
    ∃ u n, st = .taken u n ∧ i = .user u := by
  rcases stage_busy h (i := i) (by intro e; rw [e] at hp; cases hp) with
    ⟨_, _, h3⟩ | ⟨n, h1, h2, h3⟩ | ⟨u, n, h1, h2, _⟩
  · rw [h3] at hp; cases hp
  · rw [h3] at hp; cases hp
  · exact ⟨u, n, h1, h2⟩

theorem know_holds (h : Inv solo σ al st) {f : Fact} (hf : (al i).knows f = true) :
    Holds solo i σ.traj σ.fut (σ.flag .computing) f :=
  h.items i (.know f) (by simpa [LState.knows] using hf)

theorem known_holds (h : Inv solo σ al st) {f : Fact} (hf : f ∈ (al i).known) :
    Holds solo i σ.traj σ.fut (σ.flag .computing) f :=
  know_holds h (List.mem_filter.1 hf).2

theorem planning_stage (h : Inv solo σ al st) (hp : planning (role solo i) (al i) = true) :
    i = .worker ∧ (st = .off ∨ st = .prep) := by
  simp only [planning, Bool.and_eq_true, decide_eq_true_eq, Bool.or_eq_true] at hp
  obtain ⟨hr, hf | hc⟩ := hp
  · obtain ⟨h1, h2⟩ := know_holds h hf
    exact ⟨h1, .inl (stage_off h.stage h2)⟩
  · obtain ⟨h1, h2⟩ := stage_committed h.stage hc
    exact ⟨h2, .inr h1⟩

theorem role_solo (hs : solo = true) (h : role solo i = .user true) : i = .user 0 := by
  subst hs
  cases i with
  | worker => cases h
  | user n =>
    simp only [role, Bool.not_true, Bool.false_or, Role.user.injEq, beq_iff_eq] at h
    rw [h]
  | comp n => cases h

theorem role_worker (h : role solo i = .worker) : i = .worker := by
  cases i with
  | worker => rfl
  | user n => cases h
  | comp n => cases h

theorem role_comp (h : role solo i = .comp) : ∃ n, i = .comp n := by
  cases i with
  | worker => cases h
  | user n => cases h
  | comp n => exact ⟨n, rfl⟩

theorem role_user {c : Bool} (h : role solo i = .user c) : ∃ n, i = .user n := by
  cases i with
  | worker => cases h
  | user n => exact ⟨n, rfl⟩
  | comp n => cases h

/-! ### Mutexes -/

theorem inv_lock (h : Inv solo σ al st) {m : Mutex} (hk : σ.code i = .act (.lock m) :: k)
    (ho : σ.owner m = none) (ch : Chain solo (role solo i) { al i with held := m :: (al i).held } k) :
    Inv solo { σ with code := upd σ.code i k, owner := upd σ.owner m (some i) }
      (upd al i { al i with held := m :: (al i).held }) st := by
  have hm : ∀ j, m ∉ (al j).held := fun j hj => by
    have := (h.locks.1 j m).2 hj
    rw [ho] at this
    cases this
  refine inv_step h (fun j hj => upd_ne _ _ hj) rfl ⟨fun j m' => ?_, fun j => ?_⟩
    (fun _ _ _ x => x) (h.items i) (chain_upd ch)
    (Stage.ok_same h.stage
      ⟨rfl, rfl, rfl, rfl, rfl, rfl, rfl, rfl, rfl, rfl, rfl, rfl, rfl, rfl, id⟩
      (keep (g := LState.phase) rfl))
    (fun n hn e => absurd e (not_idle h hk n hn)) (scratch_keep h.scratch rfl rfl)
    (speeds_held h.speeds fun hs => ?_)
  · show upd σ.owner m (some i) m' = some j ↔ m' ∈ (upd al i _ j).held
    by_cases em : m' = m
    · subst em
      rw [upd_self]
      by_cases e : j = i
      · subst e
        rw [upd_self]
        simp
      · rw [upd_ne _ _ e]
        constructor
        · intro e'
          exact absurd (Option.some.inj e').symm e
        · intro hj
          exact absurd hj (hm j)
    · rw [upd_ne _ _ em]
      by_cases e : j = i
      · subst e
        rw [upd_self]
        simp only [List.mem_cons, em, false_or]
        exact h.locks.1 j m'
      · rw [upd_ne _ _ e]
        exact h.locks.1 j m'
  · by_cases e : j = i
    · subst e
      simp only [upd_self]
      exact List.nodup_cons.2 ⟨hm j, h.locks.2 j⟩
    · simp only [upd_ne _ _ e]
      exact h.locks.2 j
  · obtain ⟨x, hx⟩ := Option.ne_none_iff_exists'.1 hs
    exact List.mem_cons_of_mem _ (h.speeds.2.2.1 i x hx).1

theorem inv_unlock (h : Inv solo σ al st) {m : Mutex} (hk : σ.code i = .act (.unlock m) :: k)
    (hm : m ∈ (al i).held) (hs : m = .parameters → (al i).spd = none)
    (ch : Chain solo (role solo i) { al i with held := (al i).held.erase m } k) :
    Inv solo { σ with code := upd σ.code i k, owner := upd σ.owner m none }
      (upd al i { al i with held := (al i).held.erase m }) st := by
  have nd : ((al i).held).Nodup := h.locks.2 i
  refine inv_step h (fun j hj => upd_ne _ _ hj) rfl ⟨fun j m' => ?_, fun j => ?_⟩
    (fun _ _ _ x => x) (h.items i) (chain_upd ch)
    (Stage.ok_same h.stage
      ⟨rfl, rfl, rfl, rfl, rfl, rfl, rfl, rfl, rfl, rfl, rfl, rfl, rfl, rfl, id⟩
      (keep (g := LState.phase) rfl))
    (fun n hn e => absurd e (not_idle h hk n hn)) (scratch_keep h.scratch rfl rfl)
    (speeds_held h.speeds fun hsp => ?_)
  · show upd σ.owner m none m' = some j ↔ m' ∈ (upd al i _ j).held
    by_cases em : m' = m
    · subst em
      rw [upd_self]
      by_cases e : j = i
      · subst e
        rw [upd_self]
        simp [nd.not_mem_erase]
      · rw [upd_ne _ _ e]
        constructor
        · intro e'
          cases e'
        · intro hj
          exact absurd (held_unique h hj hm) e
    · rw [upd_ne _ _ em]
      by_cases e : j = i
      · subst e
        rw [upd_self]
        rw [List.mem_erase_of_ne em]
        exact h.locks.1 j m'
      · rw [upd_ne _ _ e]
        exact h.locks.1 j m'
  · by_cases e : j = i
    · subst e
      simp only [upd_self]
      exact nd.erase _
    · simp only [upd_ne _ _ e]
      exact h.locks.2 j
  · obtain ⟨x, hx⟩ := Option.ne_none_iff_exists'.1 hsp
    have hp := (h.speeds.2.2.1 i x hx).1
    have hne : Mutex.parameters ≠ m := fun e => by
      rw [hs e.symm] at hx
      cases hx
    exact (List.mem_erase_of_ne hne).2 hp

/-! ### Local variables -/

theorem loads_sound (h : Inv solo σ al st) {s : Src} {t f : List Fact} {c v : Bool}
    (hl : loads solo (role solo i) (al i) s = some (t, f)) (hv : s.value σ c = some v) :
    ∀ x ∈ (if v then t else f), Holds solo i σ.traj σ.fut (σ.flag .computing) x := by
  have base : ∀ x ∈ (al i).known, Holds solo i σ.traj σ.fut (σ.flag .computing) x :=
    fun x hx => known_holds h hx
  have sure : σ.traj ≠ none → ∀ x ∈ [Fact.sure, Fact.either],
      Holds solo i σ.traj σ.fut (σ.flag .computing) x := by
    intro e x hx
    simp only [List.mem_cons, List.not_mem_nil, or_false] at hx
    rcases hx with rfl | rfl
    · exact e
    · exact .inl e
  have either : (al i).knows .either = true → (∀ n, σ.fut ≠ .ready n) → σ.traj ≠ none := by
    intro e hf
    rcases know_holds h e with e | ⟨_, n, e⟩
    · exact e
    · exact absurd e (hf n)
  cases s with
  | flag fl =>
    cases fl with
    | computing =>
      simp only [loads, Option.some.injEq, Prod.mk.injEq] at hl
      simp only [Src.value, Option.some.injEq] at hv
      obtain ⟨rfl, rfl⟩ := hl
      cases v with
      | true => exact base
      | false =>
        have hoff := stage_off h.stage hv
        subst hoff
        intro x hx
        simp only [Bool.false_eq_true, if_false, List.mem_append] at hx
        rcases hx with (hx | hx) | hx
        · simp only [onlyIf] at hx
          split at hx
          · rename_i e
            simp only [List.mem_cons, List.not_mem_nil, or_false] at hx
            subst hx
            exact ⟨role_worker (of_decide_eq_true e), hv⟩
          · cases hx
        · simp only [onlyIf] at hx
          split at hx
          · rename_i e
            exact sure (either e (fun n en => by rw [h.stage.2.1] at en; cases en)) x hx
          · cases hx
        · exact base x hx
    | fromScratch =>
      simp only [loads, Option.some.injEq, Prod.mk.injEq] at hl
      simp only [Src.value, Option.some.injEq] at hv
      obtain ⟨rfl, rfl⟩ := hl
      cases v with
      | true => exact base
      | false =>
        intro x hx
        simp only [Bool.false_eq_true, if_false, List.mem_append] at hx
        rcases hx with hx | hx
        · simp only [onlyIf] at hx
          split at hx
          · rename_i e
            exact sure ((h.scratch.2 i e).2 hv) x hx
          · cases hx
        · exact base x hx
    | generate | stop | regenerated =>
      simp only [loads, Option.some.injEq, Prod.mk.injEq] at hl
      obtain ⟨rfl, rfl⟩ := hl
      simpa using base
  | trajNull s =>
    simp only [loads, Option.some.injEq, Prod.mk.injEq] at hl
    simp only [Src.value, Option.some.injEq] at hv
    obtain ⟨rfl, rfl⟩ := hl
    cases v with
    | true => exact base
    | false =>
      intro x hx
      simp only [Bool.false_eq_true, if_false, List.mem_append] at hx
      rcases hx with hx | hx
      · refine sure (fun e => ?_) x hx
        rw [e] at hv
        cases hv
      · exact base x hx
  | futValid =>
    simp only [loads] at hl
    split at hl
    · rename_i ro
      simp only [Option.some.injEq, Prod.mk.injEq] at hl
      simp only [Src.value, Option.some.injEq] at hv
      obtain ⟨rfl, rfl⟩ := hl
      cases v with
      | true =>
        intro x hx
        simp only [if_true, List.mem_append] at hx
        rcases hx with hx | hx
        · simp only [onlyIf] at hx
          split at hx
          · rename_i e
            simp only [List.mem_cons, List.not_mem_nil, or_false] at hx
            subst hx
            exact ⟨⟨e, role_solo e ro⟩, by simpa using hv⟩
          · cases hx
        · exact base x hx
      | false =>
        intro x hx
        simp only [Bool.false_eq_true, if_false, List.mem_append] at hx
        rcases hx with hx | hx
        · simp only [onlyIf] at hx
          split at hx
          · rename_i e
            refine sure (either e (fun n en => ?_)) x hx
            rw [en] at hv
            revert hv
            simp
          · cases hx
        · exact base x hx
    · cases hl
  | futReady =>
    simp only [loads] at hl
    split at hl
    · rename_i ro
      simp only [Option.some.injEq, Prod.mk.injEq] at hl
      obtain ⟨rfl, rfl⟩ := hl
      cases v with
      | true =>
        intro x hx
        simp only [if_true, List.mem_append] at hx
        have hr : ∃ n, σ.fut = .ready n := by
          simp only [Src.value] at hv
          split at hv
          · cases hv
          · cases hv
          · rename_i n e
            exact ⟨n, e⟩
        rcases hx with hx | hx
        · simp only [onlyIf] at hx
          split at hx
          · rename_i e
            have hs : solo = true ∧ i = .user 0 := ⟨e, role_solo e ro.1⟩
            simp only [List.mem_cons, List.not_mem_nil, or_false] at hx
            rcases hx with rfl | rfl | rfl
            · exact ⟨hs, hr⟩
            · obtain ⟨n, hn⟩ := hr
              exact ⟨hs, by rw [hn]; intro e; cases e⟩
            · exact .inr ⟨hs, hr⟩
          · cases hx
        · exact base x hx
      | false =>
        intro x hx
        simp only [Bool.false_eq_true, if_false, List.mem_append] at hx
        rcases hx with hx | hx
        · simp only [onlyIf] at hx
          split at hx
          · rename_i e
            refine sure (either e (fun n en => ?_)) x hx
            simp only [Src.value, en] at hv
            cases hv
          · cases hx
        · exact base x hx
    · cases hl
  | modsPending s =>
    simp only [loads, Option.some.injEq, Prod.mk.injEq] at hl
    obtain ⟨rfl, rfl⟩ := hl
    simpa using base
  | any =>
    simp only [loads, Option.some.injEq, Prod.mk.injEq] at hl
    obtain ⟨rfl, rfl⟩ := hl
    simpa using base

/-- A local variable gets a new value. -/
theorem inv_setReg (h : Inv solo σ al st) {p : Prog} (hk : σ.code i = p :: k) {r : Reg} {v : Bool}
    {t f : List Fact}
    (hv : ∀ x ∈ (if v then t else f), Holds solo i σ.traj σ.fut (σ.flag .computing) x)
    (ch : Chain solo (role solo i) ((al i).setReg r t f) k) :
    Inv solo { σ with code := upd σ.code i k, regs := upd σ.regs i (upd (σ.regs i) r v) }
      (upd al i ((al i).setReg r t f)) st := by
  refine inv_same h same_regs rfl (fun j hj => upd_ne _ _ hj) (fun j hj => upd_ne _ _ hj) rfl rfl rfl
    id ?_ (chain_upd ch) (not_idle h hk)
  intro x hx
  simp only [upd_self]
  simp only [LState.setReg, List.mem_append, List.mem_map, List.mem_filter] at hx
  rcases hx with (⟨g, hg, rfl⟩ | ⟨g, hg, rfl⟩) | ⟨hx, hn⟩
  · intro e
    rw [upd_self] at e
    subst e
    exact hv g hg
  · intro e
    rw [upd_self] at e
    subst e
    exact hv g hg
  · have := h.items i x hx
    cases x with
    | know g => exact this
    | reg r' b g =>
      intro e
      have hr : r' ≠ r := by simpa [LState.otherReg] using hn
      rw [upd_ne _ _ hr] at e
      exact this e

/-- A step that only moves on in the program. -/
theorem inv_move (h : Inv solo σ al st) {p : Prog} {k' : List Prog} (hk : σ.code i = p :: k')
    (ch : Chain solo (role solo i) (al i) k) :
    Inv solo { σ with code := upd σ.code i k } (upd al i (al i)) st :=
  inv_same h same_code rfl (fun j hj => upd_ne _ _ hj) (fun _ _ => rfl) rfl rfl rfl id (h.items i)
    (chain_upd ch) (not_idle h hk)

end Verif.Conc
