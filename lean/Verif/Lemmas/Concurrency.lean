import Verif.Spec.Concurrency
import Mathlib.Data.List.Range
import Mathlib.Tactic.Common

/-!
# An analysis of the planner's threads

A thread-local abstract state (`LState`: mutexes held, part played in the hand-over of a plan, facts
known) with a computable transfer function `post`, and the rules `Hoare` that it is an instance of.
-/
set_option linter.unusedSectionVars false
set_option linter.unusedVariables false

namespace Verif.Conc

/-- The part a thread plays in producing and taking over a plan. -/
inductive Phase
  /-- none -/
  | idle
  /-- the worker has raised `computing` and not started the computation yet -/
  | committed
  /-- a computation that runs -/
  | working
  /-- a user has got the new plan -/
  | got
  /-- it has moreover put the plan to use -/
  | gotDone
  deriving DecidableEq, Repr

/-- Facts a thread can rely on whatever the others do. -/
inductive Fact
  /-- there is a plan in use -/
  | sure
  /-- the future is ready -/
  | ready
  /-- the future has shared state -/
  | valid
  /-- `sure` or `ready` -/
  | either
  /-- no computation is under way -/
  | free
  deriving DecidableEq, Repr

/-- All facts. -/
def Fact.list : List Fact := [.sure, .ready, .valid, .either, .free]

theorem Fact.mem_list (f : Fact) : f ∈ Fact.list := by cases f <;> decide

/-- What is known: a fact, or a fact if a local variable has some value. -/
inductive Item
  | know (f : Fact)
  | reg (r : Reg) (b : Bool) (f : Fact)
  deriving DecidableEq, Repr

/-- The abstract state of a thread. -/
structure LState where
  held : List Mutex
  phase : Phase
  facts : List Item
  /-- a speed written to `parameters_` and not yet to `new_parameters_` -/
  spd : Option Nat
  /-- in phase `got`: if `fromScratch` is down there is a plan in use -/
  clean : Bool

namespace LState
/-- Nothing held, nothing known. -/
def start : LState := ⟨[], .idle, [], none, false⟩
/-- A computation at its start. -/
def startComp : LState := ⟨[], .working, [], none, false⟩

/-- The fact is known. -/
def knows (a : LState) (f : Fact) : Bool := decide (Item.know f ∈ a.facts)

/-- The facts known. -/
def known (a : LState) : List Fact := Fact.list.filter a.knows

/-- What is known in both. -/
def join (a b : LState) : Option LState :=
  if a.held = b.held ∧ a.phase = b.phase ∧ a.spd = b.spd then
    some { a with
      facts := a.facts.filter fun x => decide (x ∈ b.facts)
      clean := a.clean && b.clean }
  else none

/-- `a` knows all that `b` knows. -/
def le (a b : LState) : Bool :=
  decide (a.held = b.held) && decide (a.phase = b.phase) && decide (a.spd = b.spd) &&
    (!b.clean || a.clean) && b.facts.all fun x => decide (x ∈ a.facts)

/-- Learn facts. -/
def learn (a : LState) (l : List Fact) : LState :=
  { a with facts := (l.filter fun f => !a.knows f).map Item.know ++ a.facts }

/-- The local variable `r` has the value `b`. -/
def assume (a : LState) (r : Reg) (b : Bool) : LState :=
  a.learn (Fact.list.filter fun f => decide (Item.reg r b f ∈ a.facts))

/-- The item is about another local variable. -/
def otherReg (r : Reg) : Item → Bool
  | .know _ => true
  | .reg r' _ _ => decide (r' ≠ r)

/-- Record what a new value of a local variable tells. -/
def setReg (a : LState) (r : Reg) (t f : List Fact) : LState :=
  { a with
    facts := t.map (Item.reg r true) ++ f.map (Item.reg r false) ++ a.facts.filter (otherReg r) }

/-- What remains known when the plan is got from the future. -/
def keepGet (l : List Item) : Item → Bool
  | .know .ready | .know .valid | .reg _ _ .ready | .reg _ _ .valid => false
  | .know .either => decide (Item.know .sure ∈ l)
  | .reg r b .either => decide (Item.reg r b .sure ∈ l)
  | _ => true

/-- What remains known when the plan is got from the future. -/
def afterGet (a : LState) : LState := { a with facts := a.facts.filter (keepGet a.facts) }

/-- What remains known when a computation is announced. -/
def keepCommit : Item → Bool
  | .know .free | .reg _ _ .free => false
  | _ => true

/-- What remains known when a computation is announced. -/
def afterCommit (a : LState) : LState := { a with facts := a.facts.filter keepCommit }
end LState

/-- The kinds of thread; a user thread that evaluates or one that does not. -/
inductive Role
  | worker | user (consumer : Bool) | comp
  deriving DecidableEq, Repr

/-- The kind of a thread; with `solo`, only user 0 evaluates. -/
def role (solo : Bool) : Tid → Role
  | .worker => .worker
  | .user n => .user (!solo || n == 0)
  | .comp _ => .comp

/-- The order in which mutexes are taken; 4 is the place of waiting for a computation. -/
def rank : Mutex → Nat
  | .todo => 1
  | .dynamic => 2
  | .future => 3
  | .parameters => 5
  | .vehicle => 6
  | .time => 7
  | .trajEval => 8
  | .trajTime => 9

/-- The mutex that protects a member on its own. -/
def Var.guard : Var → Option Mutex
  | .setList | .addList | .modList => some .todo
  | .pSpeed | .pLast | .pStart | .nSpeed => some .parameters
  | .vehPos => some .vehicle
  | .timeConst | .startTime => some .time
  | .futureObj => some .future
  | .dynWps | .nextWps | .pOffset | .nOffset | .nStart | .trajPtr => none

/-- A phase between getting a plan and clearing `computing`. -/
def Phase.taking : Phase → Bool
  | .got | .gotDone => true
  | _ => false

/-- The worker while it prepares a computation. -/
def planning (ro : Role) (a : LState) : Bool :=
  decide (ro = .worker) && (a.knows .free || decide (a.phase = .committed))

/-- A thread in this state may access `v`. -/
def perm (solo : Bool) (ro : Role) (a : LState) (v : Var) (w : Bool) : Bool :=
  match v.guard with
  | some m => decide (m ∈ a.held)
  | none =>
    match v with
    | .nextWps | .nStart => planning ro a || decide (a.phase = .working) || (!w && a.phase.taking)
    | .nOffset => planning ro a || decide (a.phase = .working) || a.phase.taking
    | .dynWps =>
      if w then decide (.dynamic ∈ a.held) && (planning ro a || a.phase.taking)
      else decide (.dynamic ∈ a.held) || planning ro a || a.phase.taking
    | .pOffset =>
      if w then decide (.parameters ∈ a.held) && a.phase.taking && decide (ro = .user true)
      else decide (.parameters ∈ a.held) || planning ro a || a.phase.taking
        || (solo && decide (ro = .user true))
    | .trajPtr =>
      if w then decide (.trajEval ∈ a.held) && decide (.trajTime ∈ a.held) && a.phase.taking
        && decide (ro = .user true)
      else decide (.trajEval ∈ a.held) || decide (.trajTime ∈ a.held) || planning ro a
        || a.phase.taking || (solo && decide (ro = .user true))
    | _ => false

/-- A thread in this state may make an access at this place. -/
def permits (solo : Bool) (ro : Role) (a : LState) : Site × Var × Bool → Bool
  | (.plain, v, w) => perm solo ro a v w
  | (.userNull, v, w) => !w && decide (v = .trajPtr) && decide (ro = .user true)
  | (.userOffset, v, w) => !w && decide (v = .pOffset) && decide (ro = .user true)
  | (.modifiedSize, v, w) => !w && decide (v = .modList)
  | (.lastTime, v, w) => !w && decide (v = .pLast)
  | (.zoneNull, v, w) => !w && decide (v = .trajPtr)

/-- All held mutexes come before waiting for a computation. -/
def canWait (a : LState) : Bool := a.held.all fun m => decide (rank m < 4)

/-- If. -/
def onlyIf (c : Bool) (l : List Fact) : List Fact := if c then l else []

/-- What a `load` tells: for the values true and false. -/
def loads (solo : Bool) (ro : Role) (a : LState) : Src → Option (List Fact × List Fact)
  | .flag .computing =>
    some (a.known, onlyIf (decide (ro = .worker)) [.free] ++
      onlyIf (a.knows .either) [.sure, .either] ++ a.known)
  | .flag .fromScratch =>
    some (a.known, onlyIf a.clean [.sure, .either] ++ a.known)
  | .flag _ => some (a.known, a.known)
  | .trajNull _ => some (a.known, [.sure, .either] ++ a.known)
  | .futValid =>
    if ro = .user true then
      some (onlyIf solo [.valid] ++ a.known, onlyIf (a.knows .either) [.sure, .either] ++ a.known)
    else none
  | .futReady =>
    if ro = .user true ∧ (solo = true → a.knows .valid = true) then
      some (onlyIf solo [.ready, .valid, .either] ++ a.known,
        onlyIf (a.knows .either) [.sure, .either] ++ a.known)
    else none
  | .modsPending _ => some (a.known, a.known)
  | .any => some (a.known, a.known)

/-- The effect of an action, accesses aside. -/
def postCore (solo : Bool) (ro : Role) (a : LState) : Act → Option LState
  | .lock m =>
    if (a.held.all fun m' => decide (rank m' < rank m)) && (decide (ro ≠ .comp) || decide (4 < rank m))
    then some { a with held := m :: a.held } else none
  | .unlock m =>
    if m ∈ a.held ∧ (m = .parameters → a.spd = none) then
      some { a with held := a.held.erase m } else none
  | .read _ _ => some a
  | .write _ => some a
  | .load r s => (loads solo ro a s).map fun x => a.setReg r x.1 x.2
  | .const r b => some (a.setReg r (if b then a.known else Fact.list) (if b then Fact.list else a.known))
  | .setFlag .computing true =>
    if ro = .worker ∧ a.knows .free = true ∧ a.phase = .idle then
      some { a.afterCommit with phase := .committed } else none
  | .setFlag .computing false =>
    if a.phase = .gotDone then some { a with phase := .idle } else none
  | .setFlag .fromScratch false =>
    match ro with
    | .worker => if a.knows .sure then some a else none
    | .user _ => if a.phase = .got then some { a with clean := false } else none
    | .comp => none
  | .setFlag .fromScratch true => if ro = .worker then some a else none
  | .setFlag _ _ => some a
  | .futWait =>
    if ro = .user true ∧ canWait a ∧ (solo = true → a.knows .valid = true) then
      some (a.learn (onlyIf solo [.ready, .valid, .either])) else none
  | .futGet =>
    if ro = .user true ∧ canWait a ∧ a.phase = .idle ∧ (solo = true → a.knows .ready = true) then
      some { a.afterGet with phase := .got, clean := true } else none
  | .launch =>
    if ro = .worker ∧ canWait a ∧ a.phase = .committed then some { a with phase := .idle } else none
  | .complete =>
    if ro = .comp ∧ a.phase = .working ∧ a.held = [] ∧ a.spd = none then
      some { a with phase := .idle } else none
  | .setTraj =>
    if a.phase = .got then
      some { a.learn [.sure, .either] with phase := .gotDone, clean := false } else none
  | .deref =>
    if a.knows .sure = true ∨ (solo = false ∧ ro = .user true) then some a else none
  | .join => if a.held = [] ∧ ro ≠ .worker ∧ ro ≠ .comp then some a else none
  | .dropFuture => if a.held = [] ∧ ro ≠ .comp then some a else none
  | .pushMod _ => some a
  | .takeMods => some a
  | .clearMods => some a
  | .speedP x => if a.spd = none then some { a with spd := some x } else none
  | .speedN x => if a.spd = some x then some { a with spd := none } else none
  | .speedPN => if a.spd = none then some a else none
  | .speedNP => if a.spd = none then some a else none
  | .speedOut => some a
  | .report _ => some a

/-- The effect of an action. -/
def postAct (solo : Bool) (ro : Role) (a : LState) (x : Act) : Option LState :=
  if x.access.all (permits solo ro a) then postCore solo ro a x else none

/-- The effect of a program. -/
def post (solo : Bool) (ro : Role) : LState → Prog → Option LState
  | a, .skip => some a
  | a, .act x => postAct solo ro a x
  | a, .seq p q => (post solo ro a p).bind fun b => post solo ro b q
  | a, .br r p q =>
    (post solo ro (a.assume r true) p).bind fun b =>
      (post solo ro (a.assume r false) q).bind fun c => b.join c
  | a, .loopWhile r pre body =>
    (post solo ro a pre).bind fun b =>
    (post solo ro (b.assume r true) body).bind fun c =>
    (a.join c).bind fun h =>
    (post solo ro h pre).bind fun b' =>
    (post solo ro (b'.assume r true) body).bind fun c' =>
      if c'.le h && a.le h then some (b'.assume r false) else none
  | a, .many body =>
    (post solo ro a body).bind fun c =>
    (a.join c).bind fun h =>
    (post solo ro h body).bind fun c' =>
      if c'.le h && a.le h then some h else none

/-! ### Rules -/

/-- `p`, started in `a`, keeps the rules and ends in `b`. -/
inductive Hoare (solo : Bool) (ro : Role) : LState → Prog → LState → Prop
  | skip (a) : Hoare solo ro a .skip a
  | act {a b x} : postAct solo ro a x = some b → Hoare solo ro a (.act x) b
  | seq {a b c p q} : Hoare solo ro a p b → Hoare solo ro b q c → Hoare solo ro a (.seq p q) c
  | br {a b r p q} : Hoare solo ro (a.assume r true) p b → Hoare solo ro (a.assume r false) q b →
      Hoare solo ro a (.br r p q) b
  | loop {h b r pre body} : Hoare solo ro h pre b → Hoare solo ro (b.assume r true) body h →
      Hoare solo ro h (.loopWhile r pre body) (b.assume r false)
  | many {h body} : Hoare solo ro h body h → Hoare solo ro h (.many body) h
  | weaken {a a' b b' p} : a.le a' = true → Hoare solo ro a' p b' → b'.le b = true →
      Hoare solo ro a p b

theorem LState.le_iff {a b : LState} : a.le b = true ↔
    a.held = b.held ∧ a.phase = b.phase ∧ a.spd = b.spd ∧ (b.clean = true → a.clean = true) ∧
    ∀ x ∈ b.facts, x ∈ a.facts := by
  simp only [le, Bool.and_eq_true, decide_eq_true_eq, List.all_eq_true, and_assoc, Bool.or_eq_true,
    Bool.not_eq_true']
  cases b.clean <;> simp

theorem LState.le_refl (a : LState) : a.le a = true :=
  LState.le_iff.2 ⟨rfl, rfl, rfl, fun h => h, fun _ h => h⟩

theorem LState.le_trans {a b c : LState} (h : a.le b = true) (h' : b.le c = true) :
    a.le c = true := by
  rw [LState.le_iff] at *
  obtain ⟨h1, h2, h3, h5, h4⟩ := h
  obtain ⟨k1, k2, k3, k5, k4⟩ := h'
  exact ⟨h1.trans k1, h2.trans k2, h3.trans k3, fun e => h5 (k5 e), fun x hx => h4 x (k4 x hx)⟩

theorem LState.mem_learn {a : LState} {l : List Fact} {x : Item} :
    x ∈ (a.learn l).facts ↔ (∃ f ∈ l, x = .know f) ∨ x ∈ a.facts := by
  simp only [learn, List.mem_append, List.mem_map, List.mem_filter, knows]
  constructor
  · rintro (⟨f, ⟨h1, _⟩, rfl⟩ | h)
    · exact .inl ⟨f, h1, rfl⟩
    · exact .inr h
  · rintro (⟨f, h1, rfl⟩ | h)
    · by_cases h : Item.know f ∈ a.facts
      · exact .inr h
      · exact .inl ⟨f, ⟨h1, by simpa using h⟩, rfl⟩
    · exact .inr h

theorem LState.mem_assume {a : LState} {r : Reg} {b : Bool} {x : Item} :
    x ∈ (a.assume r b).facts ↔ (∃ f, Item.reg r b f ∈ a.facts ∧ x = .know f) ∨ x ∈ a.facts := by
  rw [assume, mem_learn]
  simp only [List.mem_filter, Fact.mem_list, true_and, decide_eq_true_eq]

theorem LState.assume_mono {a b : LState} (h : a.le b = true) (r : Reg) (v : Bool) :
    (a.assume r v).le (b.assume r v) = true := by
  rw [LState.le_iff] at *
  obtain ⟨h1, h2, h3, h5, h4⟩ := h
  refine ⟨h1, h2, h3, h5, fun x hx => ?_⟩
  rw [LState.mem_assume] at *
  rcases hx with ⟨f, hf, e⟩ | hx
  · exact .inl ⟨f, h4 _ hf, e⟩
  · exact .inr (h4 _ hx)

theorem LState.join_le {a b c : LState} (h : a.join b = some c) :
    a.le c = true ∧ b.le c = true := by
  simp only [join] at h
  split at h
  · rename_i e
    obtain ⟨e1, e2, e3⟩ := e
    rw [← Option.some.inj h]
    constructor <;> rw [LState.le_iff]
    · exact ⟨rfl, rfl, rfl, fun e => ((Bool.and_eq_true _ _).mp e).1,
        fun x hx => (List.mem_filter.1 hx).1⟩
    · exact ⟨e1.symm, e2.symm, e3.symm, fun e => ((Bool.and_eq_true _ _).mp e).2, fun x hx => by
        simpa using (List.mem_filter.1 hx).2⟩
  · cases h

/-- The analysis is an instance of the rules. -/
theorem post_sound {solo : Bool} {ro : Role} (p : Prog) :
    ∀ {a b : LState}, post solo ro a p = some b → Hoare solo ro a p b := by
  induction p with
  | skip =>
    intro a b h
    rw [← Option.some.inj h]
    exact .skip a
  | act x =>
    intro a b h
    exact .act h
  | seq p q ihp ihq =>
    intro a b h
    simp only [post, Option.bind_eq_some_iff] at h
    obtain ⟨c, h1, h2⟩ := h
    exact .seq (ihp h1) (ihq h2)
  | br r p q ihp ihq =>
    intro a b h
    simp only [post, Option.bind_eq_some_iff] at h
    obtain ⟨c, h1, d, h2, h3⟩ := h
    have := LState.join_le h3
    exact .br (.weaken (LState.le_refl _) (ihp h1) this.1)
      (.weaken (LState.le_refl _) (ihq h2) this.2)
  | loopWhile r pre body ihp ihb =>
    intro a b h
    simp only [post, Option.bind_eq_some_iff] at h
    obtain ⟨b1, h1, c, h2, hd, h3, b2, h4, c2, h5, h6⟩ := h
    split at h6
    · rename_i e
      simp only [Bool.and_eq_true] at e
      rw [← Option.some.inj h6]
      exact .weaken e.2 (.loop (ihp h4) (.weaken (LState.le_refl _) (ihb h5) e.1))
        (LState.le_refl _)
    · cases h6
  | many body ih =>
    intro a b h
    simp only [post, Option.bind_eq_some_iff] at h
    obtain ⟨c, h1, hd, h2, c2, h3, h4⟩ := h
    split at h4
    · rename_i e
      simp only [Bool.and_eq_true] at e
      rw [← Option.some.inj h4]
      exact .weaken e.2 (.many (.weaken (LState.le_refl _) (ih h3) e.1)) (LState.le_refl _)
    · cases h4

/-! ### Inversion -/

variable {solo : Bool} {ro : Role}

theorem Hoare.skip_inv {a b : LState} (h : Hoare solo ro a .skip b) : a.le b = true := by
  generalize hp : Prog.skip = p at h
  induction h with
  | skip a => exact LState.le_refl _
  | weaken h1 _ h3 ih => exact LState.le_trans h1 (LState.le_trans (ih hp) h3)
  | _ => cases hp

theorem Hoare.act_inv {a b : LState} {x : Act} (h : Hoare solo ro a (.act x) b) :
    ∃ a' b', a.le a' = true ∧ postAct solo ro a' x = some b' ∧ b'.le b = true := by
  generalize hp : Prog.act x = p at h
  induction h with
  | act h => cases hp; exact ⟨_, _, LState.le_refl _, h, LState.le_refl _⟩
  | weaken h1 _ h3 ih =>
    obtain ⟨a', b', k1, k2, k3⟩ := ih hp
    exact ⟨a', b', LState.le_trans h1 k1, k2, LState.le_trans k3 h3⟩
  | _ => cases hp

theorem Hoare.seq_inv {a b : LState} {p q : Prog} (h : Hoare solo ro a (.seq p q) b) :
    ∃ c, Hoare solo ro a p c ∧ Hoare solo ro c q b := by
  generalize hp : Prog.seq p q = s at h
  induction h with
  | seq h h' => cases hp; exact ⟨_, h, h'⟩
  | weaken h1 _ h3 ih =>
    obtain ⟨c, k1, k2⟩ := ih hp
    exact ⟨c, .weaken h1 k1 (LState.le_refl _), .weaken (LState.le_refl _) k2 h3⟩
  | _ => cases hp

theorem Hoare.br_inv {a b : LState} {r : Reg} {p q : Prog} (h : Hoare solo ro a (.br r p q) b) :
    Hoare solo ro (a.assume r true) p b ∧ Hoare solo ro (a.assume r false) q b := by
  generalize hp : Prog.br r p q = s at h
  induction h with
  | br h h' => cases hp; exact ⟨h, h'⟩
  | weaken h1 _ h3 ih =>
    obtain ⟨k1, k2⟩ := ih hp
    exact ⟨.weaken (LState.assume_mono h1 _ _) k1 h3, .weaken (LState.assume_mono h1 _ _) k2 h3⟩
  | _ => cases hp

theorem Hoare.loop_inv {a b : LState} {r : Reg} {pre body : Prog}
    (h : Hoare solo ro a (.loopWhile r pre body) b) :
    ∃ c, Hoare solo ro a pre c ∧
      Hoare solo ro c (.br r (.seq body (.loopWhile r pre body)) .skip) b := by
  generalize hp : Prog.loopWhile r pre body = s at h
  induction h with
  | loop h h' =>
    cases hp
    exact ⟨_, h, .br (.seq h' (.loop h h')) (.skip _)⟩
  | weaken h1 _ h3 ih =>
    obtain ⟨c, k1, k2⟩ := ih hp
    cases hp
    exact ⟨c, .weaken h1 k1 (LState.le_refl _), .weaken (LState.le_refl _) k2 h3⟩
  | _ => cases hp

theorem Hoare.many_inv {a b : LState} {body : Prog} (h : Hoare solo ro a (.many body) b) :
    a.le b = true ∧ ∃ c, Hoare solo ro a body c ∧ Hoare solo ro c (.many body) b := by
  generalize hp : Prog.many body = s at h
  induction h with
  | many h => cases hp; exact ⟨LState.le_refl _, _, h, .many h⟩
  | weaken h1 _ h3 ih =>
    obtain ⟨k0, c, k1, k2⟩ := ih hp
    cases hp
    exact ⟨LState.le_trans h1 (LState.le_trans k0 h3), c, .weaken h1 k1 (LState.le_refl _),
      .weaken (LState.le_refl _) k2 h3⟩
  | _ => cases hp

/-- The rest of a thread's program keeps the rules, and ends with nothing held. -/
inductive Chain (solo : Bool) (ro : Role) : LState → List Prog → Prop
  | nil {a} : a.held = [] → a.phase = .idle → a.spd = none → Chain solo ro a []
  | cons {a b p k} : Hoare solo ro a p b → Chain solo ro b k → Chain solo ro a (p :: k)

theorem Chain.weaken {a a' : LState} {k : List Prog} (h : a.le a' = true)
    (c : Chain solo ro a' k) : Chain solo ro a k := by
  cases c with
  | nil h1 h2 h3 =>
    obtain ⟨e1, e2, e3, _⟩ := LState.le_iff.1 h
    exact .nil (e1.trans h1) (e2.trans h2) (e3.trans h3)
  | cons h1 h2 => exact .cons (.weaken h h1 (LState.le_refl _)) h2

end Verif.Conc
