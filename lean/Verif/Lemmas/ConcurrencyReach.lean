import Verif.Lemmas.ConcurrencyPreserve

/-!
# Every reachable state satisfies the invariant
-/
set_option linter.unusedSectionVars false
set_option linter.unusedVariables false

namespace Verif.Conc

variable {solo : Bool} {σ τ : State} {al : Tid → LState} {st : Stage} {i : Tid} {b : LState}
  {k : List Prog}

/-- The new state satisfies the invariant, and with a single evaluating thread there was no undefined
behaviour. -/
def Good (solo : Bool) (σ τ : State) : Prop :=
  (∃ al st, Inv solo τ al st) ∧ (solo = true → σ.ub = false → τ.ub = false)

/-- Undefined behaviour leaves the rest of the state alone. -/
theorem good_bad (h : Inv solo σ al st) (hs : solo = false) :
    Good solo σ { σ with ub := true } :=
  ⟨⟨al, st, ⟨h.locks, h.items, h.code, (by cases st <;> exact h.stage), h.idle, h.scratch, h.speeds⟩⟩,
    fun e => by rw [hs] at e; cases e⟩

theorem good_move (h : Inv solo σ al st) {p : Prog} {k' : List Prog} (hk : σ.code i = p :: k')
    (ch : Chain solo (role solo i) (al i) k) : Good solo σ { σ with code := upd σ.code i k } :=
  ⟨⟨_, _, inv_move h hk ch⟩, fun _ e => e⟩

/-- A step that learns facts. -/
theorem good_learn (h : Inv solo σ al st) {p : Prog} {k' : List Prog} (hk : σ.code i = p :: k')
    {l : List Fact} (hl : ∀ f ∈ l, Holds solo i σ.traj σ.fut (σ.flag .computing) f)
    (ch : Chain solo (role solo i) ((al i).learn l) k) :
    Good solo σ { σ with code := upd σ.code i k } := by
  refine ⟨⟨upd al i ((al i).learn l), st, inv_same h same_code rfl (fun j hj => upd_ne _ _ hj)
    (fun _ _ => rfl) rfl rfl rfl id ?_ (chain_upd ch) (not_idle h hk)⟩, fun _ e => e⟩
  intro x hx
  rcases (LState.mem_learn (a := al i)).1 hx with ⟨f, hf, rfl⟩ | hx
  · exact hl f hf
  · exact h.items i x hx

/-- A step that only writes to the log. -/
theorem good_log (h : Inv solo σ al st) {p : Prog} {k' : List Prog} (hk : σ.code i = p :: k')
    {e : Event} {ms : List Nat}
    (he : startedPlans (e :: σ.log) = startedPlans σ.log ∧
      finishedPlans (e :: σ.log) = finishedPlans σ.log ∧ takenPlans (e :: σ.log) = takenPlans σ.log ∧
      lastSpeed (e :: σ.log) = lastSpeed σ.log ∧ (SpeedsRight σ.log → SpeedsRight (e :: σ.log)))
    (ch : Chain solo (role solo i) (al i) k) :
    Good solo σ { σ with code := upd σ.code i k, mods := ms, log := e :: σ.log } :=
  ⟨⟨upd al i (al i), st, inv_same h
    ⟨rfl, rfl, rfl, rfl, rfl, rfl, rfl, rfl, rfl, rfl, he.1, he.2.1, he.2.2.1, he.2.2.2.1, he.2.2.2.2⟩
    rfl (fun j hj => upd_ne _ _ hj) (fun _ _ => rfl) rfl rfl rfl id (h.items i) (chain_upd ch)
    (not_idle h hk)⟩, fun _ e => e⟩

theorem held_guard {ro : Role} {a : LState} {v : Var} {w : Bool} {m : Mutex}
    (hp : perm solo ro a v w = true) (hg : v.guard = some m) : m ∈ a.held := by
  unfold perm at hp
  rw [hg] at hp
  simpa using hp

theorem good_act (h : Inv solo σ al st) {x : Act} {c : Bool} (hk : σ.code i = .act x :: k)
    (hb : postAct solo (role solo i) (al i) x = some b) (ch : Chain solo (role solo i) b k)
    (hs : stepAct σ i c x k = some τ) : Good solo σ τ := by
  unfold postAct at hb
  split at hb
  case isFalse => cases hb
  rename_i acc
  have perms : ∀ {v : Var} {w : Bool}, x.access = some (.plain, v, w) →
      perm solo (role solo i) (al i) v w = true := by
    intro v w e
    rw [e] at acc
    exact acc
  cases x with
  | lock m =>
    simp only [postCore] at hb
    split at hb
    case isFalse => cases hb
    cases hb
    simp only [stepAct] at hs
    split at hs
    · rename_i ho
      cases hs
      exact ⟨⟨_, _, inv_lock h hk ho ch⟩, fun _ e => e⟩
    · cases hs
  | unlock m =>
    simp only [postCore] at hb
    split at hb
    case isFalse => cases hb
    rename_i hm
    cases hb
    simp only [stepAct] at hs
    rw [if_pos ((h.locks.1 i m).2 hm.1)] at hs
    cases hs
    exact ⟨⟨_, _, inv_unlock h hk hm.1 hm.2 ch⟩, fun _ e => e⟩
  | read s v =>
    simp only [postCore] at hb
    cases hb
    simp only [stepAct] at hs
    cases hs
    exact good_move h hk ch
  | write v =>
    simp only [postCore] at hb
    cases hb
    simp only [stepAct] at hs
    cases hs
    exact ⟨⟨_, _, inv_write h hk (perms rfl) ch⟩, fun _ e => e⟩
  | load r s =>
    simp only [postCore, Option.map_eq_some_iff] at hb
    obtain ⟨⟨t, f⟩, hl, rfl⟩ := hb
    simp only [stepAct] at hs
    split at hs
    · rename_i v hv
      cases hs
      refine ⟨⟨_, _, inv_setReg h hk ?_ ch⟩, fun _ e => e⟩
      exact loads_sound h hl hv
    · rename_i hv
      cases hs
      refine good_bad h ?_
      cases s with
      | futReady =>
        simp only [loads] at hl
        split at hl
        · rename_i ro
          by_contra e
          have e' : solo = true := by simpa using e
          have hne : σ.fut ≠ .empty := (know_holds h (ro.2 e')).2
          simp only [Src.value] at hv
          split at hv
          · rename_i hf
            exact hne hf
          · cases hv
          · cases hv
        · cases hl
      | _ => simp [Src.value] at hv
  | const r v =>
    simp only [postCore] at hb
    cases hb
    simp only [stepAct] at hs
    cases hs
    refine ⟨⟨_, _, inv_setReg h hk ?_ ch⟩, fun _ e => e⟩
    intro x hx
    cases v <;> exact known_holds h hx
  | setFlag f v =>
    simp only [stepAct] at hs
    cases f with
    | computing =>
      simp only [reduceCtorEq, false_and, if_false] at hs
      cases hs
      cases v with
      | true =>
        simp only [postCore] at hb
        split at hb
        case isFalse => cases hb
        rename_i e
        cases hb
        exact ⟨⟨_, _, inv_commit (v := true) h hk e.1 e.2.1 e.2.2 ch⟩, fun _ e => e⟩
      | false =>
        simp only [postCore] at hb
        split at hb
        case isFalse => cases hb
        rename_i e
        cases hb
        exact ⟨⟨_, _, inv_release h hk e ch⟩, fun _ e => e⟩
    | fromScratch =>
      simp only [reduceCtorEq, false_and, if_false] at hs
      cases hs
      cases v with
      | true =>
        simp only [postCore] at hb
        split at hb
        case isFalse => cases hb
        cases hb
        exact ⟨⟨_, _, inv_scratch_worker h hk (fun e => by cases e) ch⟩, fun _ e => e⟩
      | false =>
        simp only [postCore] at hb
        split at hb
        · split at hb
          case isFalse => cases hb
          rename_i e
          cases hb
          exact ⟨⟨_, _, inv_scratch_worker h hk (fun _ => e) ch⟩, fun _ e => e⟩
        · split at hb
          case isFalse => cases hb
          rename_i e
          cases hb
          exact ⟨⟨_, _, inv_scratch_user h hk e ch⟩, fun _ e => e⟩
        · cases hb
    | generate =>
      simp only [postCore] at hb
      cases hb
      cases hs
      exact ⟨⟨_, _, inv_flag h hk (by decide) (by decide) ch⟩, fun _ e => e⟩
    | stop =>
      simp only [postCore] at hb
      cases hb
      cases hs
      exact ⟨⟨_, _, inv_flag h hk (by decide) (by decide) ch⟩, fun _ e => e⟩
    | regenerated =>
      simp only [postCore] at hb
      cases hb
      cases hs
      exact ⟨⟨_, _, inv_flag h hk (by decide) (by decide) ch⟩, fun _ e => e⟩
  | futWait =>
    simp only [postCore] at hb
    split at hb
    case isFalse => cases hb
    rename_i e
    cases hb
    simp only [stepAct] at hs
    split at hs
    · rename_i hf
      cases hs
      refine good_bad h ?_
      by_contra e'
      exact (know_holds h (e.2.2 (by simpa using e'))).2 hf
    · cases hs
    · rename_i n hf
      cases hs
      refine good_learn h hk ?_ ch
      intro f hfm
      simp only [onlyIf] at hfm
      split at hfm
      · rename_i es
        have hi := role_solo es e.1
        simp only [List.mem_cons, List.not_mem_nil, or_false] at hfm
        rcases hfm with rfl | rfl | rfl
        · exact ⟨⟨es, hi⟩, n, hf⟩
        · exact ⟨⟨es, hi⟩, by rw [hf]; intro e; cases e⟩
        · exact .inr ⟨⟨es, hi⟩, n, hf⟩
      · cases hfm
  | futGet =>
    simp only [postCore] at hb
    split at hb
    case isFalse => cases hb
    rename_i e
    cases hb
    simp only [stepAct] at hs
    split at hs
    · rename_i hf
      cases hs
      refine good_bad h ?_
      by_contra e'
      obtain ⟨_, n, hn⟩ := know_holds h (e.2.2.2 (by simpa using e'))
      rw [hf] at hn
      cases hn
    · cases hs
    · rename_i n hf
      cases hs
      obtain ⟨st', h'⟩ := inv_get h hk e.1 hf ch
      exact ⟨⟨_, _, h'⟩, fun _ e => e⟩
  | launch =>
    simp only [postCore] at hb
    split at hb
    case isFalse => cases hb
    rename_i e
    cases hb
    have hf : σ.fut = .empty := by
      have := (stage_committed h.stage e.2.2).1
      subst this
      exact h.stage.2.1
    simp only [stepAct, hf] at hs
    cases hs
    exact ⟨inv_launch h hk e.2.2 ch, fun _ e => e⟩
  | complete =>
    simp only [postCore] at hb
    split at hb
    case isFalse => cases hb
    rename_i e
    cases hb
    obtain ⟨n, hn⟩ := role_comp e.1
    simp only [stepAct, hn] at hs
    cases hs
    obtain ⟨st', h'⟩ := inv_complete h hn e.2.1 e.2.2.1 e.2.2.2
    rw [hn] at h'
    exact ⟨⟨_, _, h'⟩, fun _ e => e⟩
  | setTraj =>
    simp only [postCore] at hb
    split at hb
    case isFalse => cases hb
    rename_i e
    cases hb
    simp only [stepAct] at hs
    cases hs
    exact ⟨⟨_, _, inv_setTraj h hk e ch⟩, fun _ e => e⟩
  | deref =>
    simp only [postCore] at hb
    split at hb
    case isFalse => cases hb
    rename_i e
    cases hb
    simp only [stepAct] at hs
    split at hs
    · rename_i ht
      cases hs
      refine good_bad h ?_
      rcases e with e | e
      · have : σ.traj ≠ none := know_holds h e
        exact absurd (by simpa using ht) this
      · exact e.1
    · cases hs
      exact good_move h hk ch
  | join =>
    simp only [postCore] at hb
    split at hb
    case isFalse => cases hb
    cases hb
    simp only [stepAct] at hs
    split at hs
    · cases hs
      exact good_move h hk ch
    · cases hs
  | dropFuture =>
    simp only [postCore] at hb
    split at hb
    case isFalse => cases hb
    cases hb
    simp only [stepAct] at hs
    split at hs
    · cases hs
    · cases hs
      exact good_move h hk ch
  | pushMod n =>
    simp only [postCore] at hb
    cases hb
    simp only [stepAct] at hs
    cases hs
    exact good_log h hk ⟨rfl, rfl, rfl, rfl, id⟩ ch
  | takeMods =>
    simp only [postCore] at hb
    cases hb
    simp only [stepAct] at hs
    cases hs
    exact good_log h hk ⟨rfl, rfl, rfl, rfl, id⟩ ch
  | clearMods =>
    simp only [postCore] at hb
    cases hb
    simp only [stepAct] at hs
    cases hs
    exact good_log h hk ⟨rfl, rfl, rfl, rfl, id⟩ ch
  | speedP x =>
    simp only [postCore] at hb
    split at hb
    case isFalse => cases hb
    cases hb
    simp only [stepAct] at hs
    cases hs
    exact ⟨⟨_, _, inv_speedP h hk (held_guard (perms rfl) rfl) ch⟩, fun _ e => e⟩
  | speedN x =>
    simp only [postCore] at hb
    split at hb
    case isFalse => cases hb
    rename_i e
    cases hb
    simp only [stepAct] at hs
    cases hs
    exact ⟨⟨_, _, inv_speedN h hk e ch⟩, fun _ e => e⟩
  | speedPN =>
    simp only [postCore] at hb
    split at hb
    case isFalse => cases hb
    rename_i e
    cases hb
    simp only [stepAct] at hs
    cases hs
    simpa only [speeds_equal h (held_guard (perms rfl) rfl) e] using good_move h hk ch
  | speedNP =>
    simp only [postCore] at hb
    split at hb
    case isFalse => cases hb
    rename_i e
    cases hb
    simp only [stepAct] at hs
    cases hs
    simpa only [speeds_equal h (held_guard (perms rfl) rfl) e] using good_move h hk ch
  | speedOut =>
    simp only [postCore] at hb
    cases hb
    simp only [stepAct] at hs
    cases hs
    exact good_log h hk ⟨rfl, rfl, rfl, rfl, fun e => ⟨h.speeds.1, e⟩⟩ ch
  | report r =>
    simp only [postCore] at hb
    cases hb
    simp only [stepAct] at hs
    cases hs
    exact good_log h hk ⟨rfl, rfl, rfl, rfl, id⟩ ch

/-- A branch learns from its condition. -/
theorem good_assume (h : Inv solo σ al st) {p : Prog} {k' : List Prog} (hk : σ.code i = p :: k')
    {r : Reg} {v : Bool} (hv : σ.regs i r = v)
    (ch : Chain solo (role solo i) ((al i).assume r v) k) :
    Good solo σ { σ with code := upd σ.code i k } := by
  refine good_learn h hk ?_ ch
  intro f hf
  simp only [List.mem_filter, Fact.mem_list, true_and, decide_eq_true_eq] at hf
  exact h.items i _ hf hv

/-- A step of a thread that is inside a program. -/
theorem good_prog (h : Inv solo σ al st) {p : Prog} {c : Bool} (hk : σ.code i = p :: k)
    (hs : stepProg σ i c p k = some τ) : Good solo σ τ := by
  have hch := h.code i
  rw [hk] at hch
  cases hch with
  | @cons _ b _ _ hp hc =>
  cases p with
  | skip =>
    simp only [stepProg] at hs
    cases hs
    exact good_move h hk (hc.weaken hp.skip_inv)
  | act x =>
    obtain ⟨a', b', h1, h2, h3⟩ := hp.act_inv
    have hc' : Chain solo (role solo i) b' k := hc.weaken h3
    have h' : Inv solo σ (upd al i a') st := inv_weaken h h1 (by
      rw [hk]
      exact .cons (.act h2) hc')
    refine good_act (b := b') h' hk ?_ hc' hs
    rw [upd_self]
    exact h2
  | seq p q =>
    obtain ⟨d, h1, h2⟩ := hp.seq_inv
    simp only [stepProg] at hs
    cases hs
    exact good_move h hk (.cons h1 (.cons h2 hc))
  | br r p q =>
    obtain ⟨h1, h2⟩ := hp.br_inv
    simp only [stepProg] at hs
    cases hs
    cases hr : σ.regs i r with
    | true => exact good_assume h hk hr (.cons h1 hc)
    | false => exact good_assume h hk hr (.cons h2 hc)
  | loopWhile r pre body =>
    obtain ⟨d, h1, h2⟩ := hp.loop_inv
    simp only [stepProg] at hs
    cases hs
    exact good_move h hk (.cons h1 (.cons h2 hc))
  | many body =>
    obtain ⟨h0, d, h1, h2⟩ := hp.many_inv
    simp only [stepProg] at hs
    cases hs
    cases c with
    | true => exact good_move h hk (.cons h1 (.cons h2 hc))
    | false => exact good_move h hk (hc.weaken h0)

/-! ### The programs keep the rules -/

/-- The analysis accepts the program, which ends with nothing held. -/
def checks (solo : Bool) (ro : Role) (a : LState) (p : Prog) : Bool :=
  (post solo ro a p).any fun b => decide (b.held = [] ∧ b.phase = .idle ∧ b.spd = none)

theorem chain_checks {ro : Role} {a : LState} {p : Prog} (h : checks solo ro a p = true) :
    Chain solo ro a [p] := by
  rw [checks, Option.any_eq_true_iff_get] at h
  obtain ⟨h1, h2⟩ := h
  simp only [decide_eq_true_eq] at h2
  exact .cons (post_sound _ (Option.some_get h1).symm) (.nil h2.1 h2.2.1 h2.2.2)

theorem chain_worker : Chain solo .worker .start [workerLoop] := by
  apply chain_checks
  cases solo <;> decide +kernel

theorem hoare_modifyWaypoint {c : Bool} (n : Nat) (v : Bool) :
    Hoare solo (.user c) .start (modifyWaypoint n v) .start := by
  refine .seq (.act (b := { LState.start with held := [.todo] }) rfl)
    (.seq (.seq (.act (b := { LState.start with held := [.todo] }) rfl)
      (.act (b := { LState.start with held := [.todo] }) rfl)) (.act ?_))
  rfl

theorem hoare_modifyWaypoints {c : Bool} (ns : List Nat) :
    Hoare solo (.user c) .start (modifyWaypoints ns) .start := by
  induction ns with
  | nil => exact .act rfl
  | cons n ns ih => exact .seq (hoare_modifyWaypoint n false) ih

theorem hoare_setSpeed {c : Bool} (x : Nat) :
    Hoare solo (.user c) .start (Api.setSpeed x).prog .start := by
  refine .seq (.act (b := { LState.start with held := [.parameters] }) rfl)
    (.seq (.seq (.act (b := { LState.start with held := [.parameters], spd := some x }) rfl)
      (.act (b := { LState.start with held := [.parameters] }) ?_)) (.act rfl))
  show (if some x = some x then _ else _) = _
  rw [if_pos rfl]
  rfl

theorem chain_api (a : Api) {c : Bool} (h : a.consumes = true → c = true) :
    Chain solo (.user c) .start [a.prog] := by
  cases a with
  | modifyWaypoint n v => exact .cons (hoare_modifyWaypoint n v) (.nil rfl rfl rfl)
  | modifyWaypoints ns => exact .cons (hoare_modifyWaypoints ns) (.nil rfl rfl rfl)
  | setSpeed x => exact .cons (hoare_setSpeed x) (.nil rfl rfl rfl)
  | evaluateTrajectory =>
    rw [h rfl]
    apply chain_checks
    cases solo <;> decide +kernel
  | getMaxTime =>
    rw [h rfl]
    apply chain_checks
    cases solo <;> decide +kernel
  | getDynamicWaypoints =>
    rw [h rfl]
    apply chain_checks
    cases solo <;> decide +kernel
  | _ =>
    apply chain_checks
    cases solo <;> cases c <;> decide +kernel

theorem inv_init : Inv solo .init (fun _ => .start) .off where
  locks := ⟨fun i m => ⟨fun e => (by cases e), fun e => by cases e⟩, fun i => List.nodup_nil⟩
  items := fun i x hx => by cases hx
  code := fun i => by
    cases i with
    | worker => exact chain_worker
    | user n => exact .nil rfl rfl rfl
    | comp n => exact .nil rfl rfl rfl
  stage := ⟨rfl, rfl, fun _ => rfl, ⟨rfl, rfl, rfl, rfl⟩, rfl⟩
  idle := fun n _ => rfl
  scratch := ⟨fun e => (by cases e), fun i e => by cases e⟩
  speeds := ⟨rfl, trivial, fun i x e => (by cases e), fun _ => rfl⟩

/-- A user starts a call. -/
theorem good_call (h : Inv solo σ al st) {u : Nat} {a : Api} (hk : σ.code (.user u) = [])
    (ha : a.consumes = true → (!solo || u == 0) = true) :
    Good solo σ { σ with code := upd σ.code (.user u) [a.prog] } := by
  have hc := h.code (.user u)
  rw [hk] at hc
  cases hc with
  | nil h1 h2 h3 =>
  have hle : (al (.user u)).le .start = true :=
    LState.le_iff.2 ⟨h1, h2, h3, fun e => (by cases e), fun x hx => by cases hx⟩
  refine ⟨⟨upd al (.user u) (al (.user u)), st, inv_same h same_code rfl
    (fun j hj => upd_ne _ _ hj) (fun _ _ => rfl) rfl rfl rfl id (h.items _)
    (chain_upd ((chain_api a ha).weaken hle)) (fun n e => by cases e)⟩, fun _ e => e⟩

theorem good_step {ch : Choice} {users : Nat → Api → Prop} (h : Inv solo σ al st)
    (hu : ∀ u a, users u a → a.consumes = true → (!solo || u == 0) = true)
    (hc : ch.ok users i) (hs : step σ i ch = some τ) : Good solo σ τ := by
  unfold step at hs
  split at hs
  · cases hs
  · split at hs
    · split at hs
      · rename_i a _ u hk
        cases hs
        exact good_call h hk (hu u a (hc u rfl))
      · cases hs
    · rename_i hk
      exact good_prog h hk hs
    · cases hs

/-- Every reachable state satisfies the invariant; with a single evaluating thread there is no
undefined behaviour. -/
theorem reach_inv {users : Nat → Api → Prop}
    (hu : ∀ u a, users u a → a.consumes = true → (!solo || u == 0) = true) (h : Reach users σ) :
    (∃ al st, Inv solo σ al st) ∧ (solo = true → σ.ub = false) := by
  induction h with
  | init => exact ⟨⟨_, _, inv_init⟩, fun _ => rfl⟩
  | step _ hc hs ih =>
    obtain ⟨⟨al, st, h⟩, hub⟩ := ih
    obtain ⟨h1, h2⟩ := good_step h hu hc hs
    exact ⟨h1, fun e => h2 e (hub e)⟩

theorem reach_any (h : Reach anyUsers σ) : ∃ al st, Inv false σ al st :=
  (reach_inv (solo := false) (fun _ _ _ _ => rfl) h).1

theorem reach_one (h : Reach oneConsumer σ) : (∃ al st, Inv true σ al st) ∧ σ.ub = false := by
  have := reach_inv (solo := true) (fun u a hu ha => by simpa using hu ha) h
  exact ⟨this.1, this.2 rfl⟩

end Verif.Conc
