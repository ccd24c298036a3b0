import Verif.Lemmas.Concurrency

/-!
# The invariant of the planner's threads

What holds in every state that some interleaving reaches, with the abstract states of the threads and
the stage of the plan in the making as ghosts.
-/
set_option linter.unusedSectionVars false
set_option linter.unusedVariables false

namespace Verif.Conc

theorem upd_self {α β : Type} [DecidableEq α] (f : α → β) (a : α) (b : β) : upd f a b a = b := by
  simp [upd]

theorem upd_ne {α β : Type} [DecidableEq α] (f : α → β) {a x : α} (b : β) (h : x ≠ a) :
    upd f a b x = f x := by
  simp [upd, h]

/-- What a fact means for thread `i`. -/
def Holds (solo : Bool) (i : Tid) (traj : Option Nat) (fut : Fut) (computing : Bool) : Fact → Prop
  | .sure => traj ≠ none
  | .ready => (solo = true ∧ i = .user 0) ∧ ∃ n, fut = .ready n
  | .valid => (solo = true ∧ i = .user 0) ∧ fut ≠ .empty
  | .either => traj ≠ none ∨ ((solo = true ∧ i = .user 0) ∧ ∃ n, fut = .ready n)
  | .free => i = .worker ∧ computing = false

/-- What an item means. -/
def ItemHolds (solo : Bool) (i : Tid) (traj : Option Nat) (fut : Fut) (computing : Bool)
    (regs : Reg → Bool) : Item → Prop
  | .know f => Holds solo i traj fut computing f
  | .reg r b f => regs r = b → Holds solo i traj fut computing f

/-- The mutexes are held by whom the abstract states say. -/
def Locks (owner : Mutex → Option Tid) (hd : Tid → List Mutex) : Prop :=
  (∀ i m, owner m = some i ↔ m ∈ hd i) ∧ ∀ i, (hd i).Nodup

/-- What is known is true. -/
def Items (solo : Bool) (σ : State) (al : Tid → LState) : Prop :=
  ∀ i, ∀ x ∈ (al i).facts, ItemHolds solo i σ.traj σ.fut (σ.flag .computing) (σ.regs i) x

/-- The two speeds. -/
def Speeds (p n : Nat) (log : List Event) (al : Tid → LState) : Prop :=
  p = lastSpeed log ∧ SpeedsRight log ∧
    (∀ i x, (al i).spd = some x → .parameters ∈ (al i).held ∧ p = x) ∧
    ((∀ i, (al i).spd = none) → n = p)

/-- The flag `fromScratch`. -/
def Scratch (fs : Bool) (traj : Option Nat) (al : Tid → LState) : Prop :=
  (fs = false → traj ≠ none ∨ ∃ u, (al (.user u)).phase = .got) ∧
    ∀ i, (al i).clean = true → (al i).phase = .got ∧ (fs = false → traj ≠ none)

/-- The stage of the plan in the making. -/
inductive Stage
  | off | prep | pending (n : Nat) | ready (n : Nat) | taken (u n : Nat)
  deriving DecidableEq

/-- The plan before plan `n`. -/
def prev : Nat → Option Nat
  | 0 => none
  | n + 1 => some n

/-- The numbers of computations started, finished and taken over. -/
def Counts (σ : State) (l f t : Nat) : Prop :=
  σ.launched = l ∧ startedPlans σ.log = List.range l ∧ finishedPlans σ.log = List.range f ∧
    takenPlans σ.log = List.range t

/-- The state is at this stage. -/
def Stage.ok (σ : State) (al : Tid → LState) : Stage → Prop
  | .off => σ.flag .computing = false ∧ σ.fut = .empty ∧ (∀ i, (al i).phase = .idle) ∧
      Counts σ σ.launched σ.launched σ.launched ∧ σ.traj = prev σ.launched
  | .prep => σ.flag .computing = true ∧ σ.fut = .empty ∧ (al .worker).phase = .committed ∧
      (∀ i, i ≠ .worker → (al i).phase = .idle) ∧
      Counts σ σ.launched σ.launched σ.launched ∧ σ.traj = prev σ.launched
  | .pending n => σ.flag .computing = true ∧ σ.fut = .pending n ∧
      (al (.comp n)).phase = .working ∧ (∀ i, i ≠ .comp n → (al i).phase = .idle) ∧
      Counts σ (n + 1) n n ∧ σ.traj = prev n
  | .ready n => σ.flag .computing = true ∧ σ.fut = .ready n ∧ (∀ i, (al i).phase = .idle) ∧
      Counts σ (n + 1) (n + 1) n ∧ σ.traj = prev n ∧ σ.planVer = σ.doneVer
  | .taken u n => σ.flag .computing = true ∧ σ.fut = .empty ∧
      (∀ i, i ≠ .user u → (al i).phase = .idle) ∧
      Counts σ (n + 1) (n + 1) (n + 1) ∧ σ.got (.user u) = n ∧ σ.planVer = σ.doneVer ∧
      (((al (.user u)).phase = .got ∧ σ.traj = prev n) ∨
        ((al (.user u)).phase = .gotDone ∧ σ.traj = some n))

/-- The invariant. -/
structure Inv (solo : Bool) (σ : State) (al : Tid → LState) (st : Stage) : Prop where
  locks : Locks σ.owner fun i => (al i).held
  items : Items solo σ al
  code : ∀ i, Chain solo (role solo i) (al i) (σ.code i)
  stage : st.ok σ al
  idle : ∀ n, (al (.comp n)).phase = .idle → σ.code (.comp n) = []
  scratch : Scratch (σ.flag .fromScratch) σ.traj al
  speeds : Speeds σ.pSpeed σ.nSpeed σ.log al

/-- Two states that agree on all that the invariant speaks of, programs and local variables aside. -/
structure Same (σ τ : State) : Prop where
  computing : τ.flag .computing = σ.flag .computing
  fromScratch : τ.flag .fromScratch = σ.flag .fromScratch
  fut : τ.fut = σ.fut
  traj : τ.traj = σ.traj
  launched : τ.launched = σ.launched
  planVer : τ.planVer = σ.planVer
  doneVer : τ.doneVer = σ.doneVer
  pSpeed : τ.pSpeed = σ.pSpeed
  nSpeed : τ.nSpeed = σ.nSpeed
  got : τ.got = σ.got
  started : startedPlans τ.log = startedPlans σ.log
  finished : finishedPlans τ.log = finishedPlans σ.log
  taken : takenPlans τ.log = takenPlans σ.log
  lastSpeed : lastSpeed τ.log = lastSpeed σ.log
  speedsRight : SpeedsRight σ.log → SpeedsRight τ.log

variable {solo : Bool} {σ τ : State} {al : Tid → LState} {st : Stage} {i : Tid} {b : LState}

theorem Counts.same {l f t : Nat} (h : Counts σ l f t) (s : Same σ τ) : Counts τ l f t := by
  obtain ⟨h1, h2, h3, h4⟩ := h
  exact ⟨s.launched.trans h1, s.started.trans h2, s.finished.trans h3, s.taken.trans h4⟩

/-- The stage depends on the phases and the compared components only. -/
theorem Stage.ok_same {al' : Tid → LState} (h : st.ok σ al) (s : Same σ τ)
    (hp : ∀ j, (al' j).phase = (al j).phase) : st.ok τ al' := by
  cases st with
  | off =>
    obtain ⟨h1, h2, h3, h4, h5⟩ := h
    refine ⟨s.computing.trans h1, s.fut.trans h2, fun j => (hp j).trans (h3 j), ?_, ?_⟩
    · rw [s.launched]; exact h4.same s
    · rw [s.launched, s.traj]; exact h5
  | prep =>
    obtain ⟨h1, h2, h3, h6, h4, h5⟩ := h
    refine ⟨s.computing.trans h1, s.fut.trans h2, (hp _).trans h3,
      fun j hj => (hp j).trans (h6 j hj), ?_, ?_⟩
    · rw [s.launched]; exact h4.same s
    · rw [s.launched, s.traj]; exact h5
  | pending n =>
    obtain ⟨h1, h2, h3, h6, h4, h5⟩ := h
    exact ⟨s.computing.trans h1, s.fut.trans h2, (hp _).trans h3,
      fun j hj => (hp j).trans (h6 j hj), h4.same s, s.traj.trans h5⟩
  | ready n =>
    obtain ⟨h1, h2, h3, h4, h5, h6⟩ := h
    exact ⟨s.computing.trans h1, s.fut.trans h2, fun j => (hp j).trans (h3 j), h4.same s,
      s.traj.trans h5, by rw [s.planVer, s.doneVer]; exact h6⟩
  | taken u n =>
    obtain ⟨h1, h2, h3, h4, h5, h6, h7⟩ := h
    refine ⟨s.computing.trans h1, s.fut.trans h2, fun j hj => (hp j).trans (h3 j hj), h4.same s,
      by rw [s.got]; exact h5, by rw [s.planVer, s.doneVer]; exact h6, ?_⟩
    rw [hp, s.traj]
    exact h7

/-- A change of one abstract state that keeps a component keeps it everywhere. -/
theorem keep {β : Type} {g : LState → β} (h : g b = g (al i)) (j : Tid) :
    g (upd al i b j) = g (al j) := by
  by_cases e : j = i
  · rw [e, upd_self, h]
  · rw [upd_ne _ _ e]

/-- A step that changes nothing but the thread's own program, local variables and knowledge. -/
theorem inv_same (h : Inv solo σ al st) (s : Same σ τ) (so : τ.owner = σ.owner)
    (hc : ∀ j, j ≠ i → τ.code j = σ.code j) (hr : ∀ j, j ≠ i → τ.regs j = σ.regs j)
    (bh : b.held = (al i).held) (bp : b.phase = (al i).phase) (bs : b.spd = (al i).spd)
    (bc : b.clean = true → (al i).clean = true)
    (bf : ∀ x ∈ b.facts, ItemHolds solo i σ.traj σ.fut (σ.flag .computing) (τ.regs i) x)
    (ch : Chain solo (role solo i) b (τ.code i)) (hi : ∀ n, i = .comp n → b.phase ≠ .idle) :
    Inv solo τ (upd al i b) st := by
  have kh := keep (g := LState.held) (al := al) bh
  have kp := keep (g := LState.phase) (al := al) bp
  have ks := keep (g := LState.spd) (al := al) bs
  refine ⟨?_, ?_, ?_, Stage.ok_same h.stage s kp, ?_, ?_, ?_⟩
  · rw [so]
    simp only [kh]
    exact h.locks
  · intro j x hx
    rw [s.traj, s.fut, s.computing]
    by_cases e : j = i
    · subst e
      rw [upd_self] at hx
      exact bf x hx
    · rw [upd_ne _ _ e] at hx
      rw [hr j e]
      exact h.items j x hx
  · intro j
    by_cases e : j = i
    · subst e
      rw [upd_self]
      exact ch
    · rw [upd_ne _ _ e, hc j e]
      exact h.code j
  · intro n hn
    by_cases e : Tid.comp n = i
    · rw [e, upd_self] at hn
      exact absurd hn (hi n e.symm)
    · rw [hc _ e]
      rw [upd_ne _ _ e] at hn
      exact h.idle n hn
  · rw [s.fromScratch, s.traj]
    refine ⟨fun e => ?_, fun j hj => ?_⟩
    · simp only [kp]
      exact h.scratch.1 e
    · rw [kp]
      refine h.scratch.2 j ?_
      by_cases e : j = i
      · subst e
        rw [upd_self] at hj
        exact bc hj
      · rwa [upd_ne _ _ e] at hj
  · obtain ⟨h1, h2, h3, h4⟩ := h.speeds
    refine ⟨?_, s.speedsRight h2, fun j x hj => ?_, fun hj => ?_⟩
    · rw [s.pSpeed, s.lastSpeed]; exact h1
    · rw [ks] at hj
      rw [kh, s.pSpeed]
      exact h3 j x hj
    · simp only [ks] at hj
      rw [s.pSpeed, s.nSpeed]
      exact h4 hj

/-- Forgetting what a thread knows. -/
theorem inv_weaken (h : Inv solo σ al st) (hle : (al i).le b = true)
    (ch : Chain solo (role solo i) b (σ.code i)) : Inv solo σ (upd al i b) st := by
  obtain ⟨h1, h2, h3, h4, h5⟩ := LState.le_iff.1 hle
  have kh := keep (g := LState.held) (al := al) h1.symm
  have kp := keep (g := LState.phase) (al := al) h2.symm
  have ks := keep (g := LState.spd) (al := al) h3.symm
  have s : Same σ σ := ⟨rfl, rfl, rfl, rfl, rfl, rfl, rfl, rfl, rfl, rfl, rfl, rfl, rfl, rfl, id⟩
  refine ⟨?_, ?_, ?_, Stage.ok_same h.stage s kp, ?_, ?_, ?_⟩
  · simp only [kh]
    exact h.locks
  · intro j x hx
    by_cases e : j = i
    · subst e
      rw [upd_self] at hx
      exact h.items j x (h5 x hx)
    · rw [upd_ne _ _ e] at hx
      exact h.items j x hx
  · intro j
    by_cases e : j = i
    · subst e
      rw [upd_self]
      exact ch
    · rw [upd_ne _ _ e]
      exact h.code j
  · intro n hn
    rw [kp] at hn
    exact h.idle n hn
  · refine ⟨fun e => ?_, fun j hj => ?_⟩
    · simp only [kp]
      exact h.scratch.1 e
    · rw [kp]
      refine h.scratch.2 j ?_
      by_cases e : j = i
      · subst e
        rw [upd_self] at hj
        exact h4 hj
      · rwa [upd_ne _ _ e] at hj
  · obtain ⟨h1, h2, h3, h4⟩ := h.speeds
    refine ⟨h1, h2, fun j x hj => ?_, fun hj => ?_⟩
    · rw [ks] at hj
      rw [kh]
      exact h3 j x hj
    · simp only [ks] at hj
      exact h4 hj

theorem same_code {k : Tid → List Prog} : Same σ { σ with code := k } :=
  ⟨rfl, rfl, rfl, rfl, rfl, rfl, rfl, rfl, rfl, rfl, rfl, rfl, rfl, rfl, id⟩

theorem same_regs {k : Tid → List Prog} {r : Tid → Reg → Bool} :
    Same σ { σ with code := k, regs := r } :=
  ⟨rfl, rfl, rfl, rfl, rfl, rfl, rfl, rfl, rfl, rfl, rfl, rfl, rfl, rfl, id⟩

/-- A thread with something to do is no computation at rest. -/
theorem not_idle (h : Inv solo σ al st) {p : Prog} {k : List Prog} (hk : σ.code i = p :: k) :
    ∀ n, i = .comp n → (al i).phase ≠ .idle := by
  rintro n rfl e
  rw [h.idle n e] at hk
  cases hk

end Verif.Conc
