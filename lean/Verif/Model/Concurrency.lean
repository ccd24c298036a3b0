/-!
# The threads of the planner

Models the synchronisation structure of `src/dynamic_trajectory.cpp` and
`include/dynamic_trajectory_generator/{dynamic_trajectory,thread_safe_trajectory}.hpp`: the user
threads, the worker thread started by the constructor and the computations started with
`std::async`, interleaved at the granularity of single mutex operations, single accesses to atomic
flags, single operations on the future and single accesses to other shared members.

Simplifications.  Atomic flags are sequentially consistent (as `std::atomic_bool` is by default).
Numerical data is not carried: a condition that depends on it is resolved by an arbitrary choice
(`Src.any`), a loop over waypoints runs an arbitrary number of times (`Prog.many`).  What is carried
is: every flag, the future, whether and which plan is in use, the pending modifications (by name),
the speed, and version counters for the waypoint list being planned.  A thread that executes
undefined behaviour (second `get`, null trajectory, unlocking a mutex it does not hold) sets `ub`,
after which nothing is said.  Exceptions and sleeping are not modelled; the public
`generateTrajectory` is not among the calls (it is called by the worker).
-/
namespace Verif.Conc

/-- The mutexes: `todo_mutex`, `dynamic_waypoints_mutex_`, `future_mutex_`, `parameters_mutex_`,
`vehicle_position_mutex_`, `time_measure_mutex_` (`dynamic_trajectory.hpp` lines 96–103) and the two
mutexes of the shared `traj_` (`thread_safe_trajectory.hpp` lines 16–17). -/
inductive Mutex
  | todo | dynamic | future | parameters | vehicle | time | trajEval | trajTime
  deriving DecidableEq, Repr

/-- The shared members that are not atomic (`dynamic_trajectory.hpp` lines 82–117): the three request
lists, the waypoints in use, the waypoints being planned, the fields of `parameters_` and
`new_parameters_` (`speed`; both `last_*_time_evaluated`; `t_offset`;
`global_time_last_trajectory_generated`, which for `new_parameters_` is grouped with its last times),
the pointer in `traj_`, the vehicle position, `time_constant_`, `inital_time_traj_generation_` and
the future. -/
inductive Var
  | setList | addList | modList
  | dynWps | nextWps
  | pSpeed | pLast | pOffset | pStart
  | nSpeed | nOffset | nStart
  | trajPtr | vehPos | timeConst | startTime | futureObj
  deriving DecidableEq, Repr

/-- The atomic flags `generate_new_traj_`, `computing_new_trajectory_`, `stop_process_`,
`trajectory_regenerated_`, `from_scratch_` (`dynamic_trajectory.hpp` lines 93, 114–117). -/
inductive Flag
  | generate | computing | stop | regenerated | fromScratch
  deriving DecidableEq, Repr

/-- Local boolean variables and intermediate values of conditions. -/
inductive Reg
  | cond | brk | null | valid | ready | comp | zone | can | stitch | empty | run
  deriving DecidableEq, Repr

/-- Where an access to a shared member is written.  `plain` stands for all places but these, which
access a member without its mutex: `modifiedSize` is `waypoints_to_be_modified_.size()` (line 280),
`lastTime` is `parameters_.last_local_time_evaluated` (line 268), `zoneNull` is `traj_ == nullptr` in
`checkInSecurityZone` (line 698), `userNull` is `traj_ == nullptr` or `!= nullptr` in the calls of a
user (lines 162, 171, 653), `userOffset` is `parameters_.t_offset` (lines 133, 134). -/
inductive Site
  | plain | modifiedSize | lastTime | zoneNull | userNull | userOffset
  deriving DecidableEq, Repr

/-- What can be read into a local variable. -/
inductive Src
  /-- an atomic flag -/
  | flag (f : Flag)
  /-- `traj_ == nullptr` (`thread_safe_trajectory.hpp` lines 101–108) -/
  | trajNull (s : Site)
  /-- `future_traj_.valid()` -/
  | futValid
  /-- `future_traj_.wait_for(0ms) == ready` -/
  | futReady
  /-- `waypoints_to_be_modified_.size()` is not zero, read at the given place -/
  | modsPending (s : Site)
  /-- a condition on data that the model does not carry -/
  | any
  deriving DecidableEq, Repr

/-- The atomic actions of a thread. -/
inductive Act
  /-- lock a mutex -/
  | lock (m : Mutex)
  /-- unlock a mutex -/
  | unlock (m : Mutex)
  /-- read a shared member -/
  | read (s : Site) (v : Var)
  /-- write a shared member -/
  | write (v : Var)
  /-- read something into a local variable -/
  | load (r : Reg) (s : Src)
  /-- assign a constant to a local variable -/
  | const (r : Reg) (b : Bool)
  /-- write an atomic flag -/
  | setFlag (f : Flag) (b : Bool)
  /-- `future_traj_.wait()` -/
  | futWait
  /-- `future_traj_.get()` -/
  | futGet
  /-- `future_traj_ = std::async(...)` -/
  | launch
  /-- the function started with `std::async` returns -/
  | complete
  /-- `traj_.trajectory_ptr_` is replaced -/
  | setTraj
  /-- `traj_.trajectory_ptr_->...` -/
  | deref
  /-- join the worker thread -/
  | join
  /-- the future is destroyed -/
  | dropFuture
  /-- a modification is added to `waypoints_to_be_modified_` -/
  | pushMod (k : Nat)
  /-- all modifications are carried out and the list is cleared -/
  | takeMods
  /-- the modifications are cleared -/
  | clearMods
  /-- `parameters_.speed = x` -/
  | speedP (x : Nat)
  /-- `new_parameters_.speed = x` -/
  | speedN (x : Nat)
  /-- `new_parameters_.speed = parameters_.speed` -/
  | speedPN
  /-- `parameters_.speed = new_parameters_.speed` -/
  | speedNP
  /-- `getSpeed` reads `parameters_.speed` and returns it -/
  | speedOut
  /-- `getWasTrajectoryRegenerated` returns the value of a local variable -/
  | report (r : Reg)
  deriving DecidableEq, Repr

/-- Programs. -/
inductive Prog
  | skip
  | act (a : Act)
  | seq (p q : Prog)
  /-- `if (r) p else q` -/
  | br (r : Reg) (p q : Prog)
  /-- `while (pre, r) body` -/
  | loopWhile (r : Reg) (pre body : Prog)
  /-- `body`, any number of times -/
  | many (body : Prog)
  deriving DecidableEq, Repr

/-- `p; q` -/
infixr:60 " ;; " => Prog.seq

open Act

instance : Coe Act Prog := ⟨Prog.act⟩

/-- A read at an unremarkable place. -/
abbrev rd (v : Var) : Prog := .act (.read .plain v)
/-- A write. -/
abbrev wr (v : Var) : Prog := .act (.write v)
/-- Lock. -/
abbrev lk (m : Mutex) : Prog := .act (.lock m)
/-- Unlock. -/
abbrev ul (m : Mutex) : Prog := .act (.unlock m)
/-- Read into a local variable. -/
abbrev ld (r : Reg) (s : Src) : Prog := .act (.load r s)
/-- Write a flag. -/
abbrev fl (f : Flag) (b : Bool) : Prog := .act (.setFlag f b)
/-- Assign a local variable. -/
abbrev ct (r : Reg) (b : Bool) : Prog := .act (.const r b)

/-- A critical section. -/
abbrev crit (m : Mutex) (p : Prog) : Prog := lk m ;; p ;; ul m

/-- If some condition on data, `p`. -/
abbrev maybe (p : Prog) : Prog := ld .cond .any ;; .br .cond p .skip

/-- `traj_.getMaxTime()`, `traj_.getMinTime()`: `thread_safe_trajectory.hpp` lines 82–91. -/
def trajTime : Prog := crit .trajTime (.act deref)

/-- `traj_.evaluate(...)`: `thread_safe_trajectory.hpp` lines 110–114. -/
def trajEvaluate : Prog := crit .trajEval (.act deref)

/-- `convertFromGlobalTime`, `convertIntoGlobalTime`: `dynamic_trajectory.cpp` lines 225–235. -/
def convertTime : Prog := crit .parameters (rd .pStart)

/-- `TRAJECTORY_COMPUTATION_TIME` and the like: `dynamic_trajectory.hpp` lines 30–40, 222–226: the
argument `dynamic_waypoints_.size()` is read, then `time_constant_` under its mutex. -/
def computationTime : Prog := rd .dynWps ;; crit .time (rd .timeConst)

/-- The compensation part of `evaluateModifiedTrajectory`: `dynamic_trajectory.cpp` lines 440–452. -/
def compensation : Prog := maybe (crit .dynamic (.many (rd .dynWps)))

/-- `evaluateModifiedTrajectory(traj_, ...)`: `dynamic_trajectory.cpp` lines 421–454. -/
def evaluateModified : Prog := trajTime ;; maybe trajTime ;; trajEvaluate ;; compensation

/-- `evaluateModifiedTrajectory` on a trajectory that only this thread knows (its own mutexes are
free): `dynamic_trajectory.cpp` lines 421–454. -/
def evaluateModifiedLocal : Prog := compensation

/-- `getReferences(traj_, ...)`: `dynamic_trajectory.cpp` lines 141–154. -/
def getReferences : Prog := evaluateModified ;; maybe (evaluateModified ;; evaluateModified)

/-- `timeFittingWithVehiclePosition`: `dynamic_trajectory.cpp` lines 727–771. -/
def timeFitting : Prog :=
  computationTime ;; rd .nStart ;; evaluateModifiedLocal ;;
  .many (rd .nStart ;; evaluateModifiedLocal) ;;
  crit .parameters (rd .pLast ;; rd .nStart ;; wr .nOffset) ;;
  rd .nOffset

/-- `swapTrajectory`: `dynamic_trajectory.cpp` lines 378–411; the assignment of `traj_` is
`thread_safe_trajectory.hpp` lines 21–26. -/
def swapTrajectory : Prog :=
  crit .future (.act futGet) ;;
  ld .cond (.flag .fromScratch) ;;
  .br .cond
    (crit .vehicle (rd .vehPos) ;; timeFitting ;; fl .fromScratch false)
    (crit .parameters (rd .pLast ;; rd .pOffset) ;; evaluateModified ;; timeFitting) ;;
  crit .parameters
    (rd .nStart ;; rd .nOffset ;; .act speedNP ;; wr .pLast ;; wr .pOffset ;; wr .pStart) ;;
  crit .trajEval (crit .trajTime (.act setTraj)) ;;
  fl .regenerated true

/-- `swapDynamicWaypoints`: `dynamic_trajectory.cpp` lines 413–419. -/
def swapDynamicWaypoints : Prog := crit .dynamic (rd .nextWps ;; wr .dynWps)

/-- `checkTrajectoryGenerated`: `dynamic_trajectory.cpp` lines 651–683.  The `break` of line 660 is
the local variable `brk`. -/
def checkTrajectoryGenerated : Prog :=
  ct .brk false ;;
  .loopWhile .cond
    (.br .brk (ct .cond false) (ld .cond (.trajNull .userNull)))
    (crit .future (ld .valid .futValid ;; .br .valid (.act futWait ;; ct .brk true) .skip)) ;;
  crit .future (ld .valid .futValid) ;;
  ld .comp (.flag .computing) ;;
  .br .comp
    (.br .valid
      (crit .future (ld .ready .futReady) ;;
        .br .ready
          (swapTrajectory ;; swapDynamicWaypoints ;;
            fl .computing false ;; fl .generate false)
          .skip)
      .skip)
    .skip

/-- `modifyWaypoint`: `dynamic_trajectory.cpp` lines 82–102. -/
def modifyWaypoint (k : Nat) (b : Bool) : Prog :=
  crit .todo (.act (pushMod k) ;; fl .generate b)

/-- `modifyWaypoints`: `dynamic_trajectory.cpp` lines 104–113. -/
def modifyWaypoints : List Nat → Prog
  | [] => fl .generate true
  | k :: ks => modifyWaypoint k false ;; modifyWaypoints ks

/-- The calls a user can make; a modification is known by the name it is for, a speed by a number. -/
inductive Api
  | setWaypoints | appendWaypoint
  | modifyWaypoint (k : Nat) (b : Bool) | modifyWaypoints (ks : List Nat)
  | evaluateTrajectory | getMaxTime | getDynamicWaypoints
  | getSpeed | setSpeed (x : Nat) | getTimeCompensation | getWasTrajectoryRegenerated
  | getGenerateNewTraj | updateVehiclePosition | getNextTrajectoryWaypoints
  | getComputingNewTrajectoryStatus | destroy
  deriving DecidableEq, Repr

/-- What the calls do. -/
def Api.prog : Api → Prog
  /- `setWaypoints`: `dynamic_trajectory.cpp` lines 60–73. -/
  | .setWaypoints =>
    crit .todo (wr .setList ;; .act clearMods ;; wr .addList ;; wr .setList ;; fl .generate true)
  /- `appendWaypoint`: `dynamic_trajectory.cpp` lines 75–80. -/
  | .appendWaypoint => crit .todo (wr .addList ;; fl .generate true)
  | .modifyWaypoint k b => Conc.modifyWaypoint k b
  | .modifyWaypoints ks => Conc.modifyWaypoints ks
  /- `evaluateTrajectory`: `dynamic_trajectory.cpp` lines 115–139. -/
  | .evaluateTrajectory =>
    checkTrajectoryGenerated ;; convertTime ;; maybe (crit .parameters (wr .pLast)) ;;
    .act (.read .userOffset .pOffset) ;; .act (.read .userOffset .pOffset) ;; getReferences
  /- `getMaxTime` and `getMinTime`: `dynamic_trajectory.cpp` lines 160–176. -/
  | .getMaxTime =>
    ld .null (.trajNull .userNull) ;; .br .null checkTrajectoryGenerated .skip ;;
    trajTime ;; convertTime
  /- `getDynamicWaypoints`: `dynamic_trajectory.cpp` lines 178–183. -/
  | .getDynamicWaypoints => checkTrajectoryGenerated ;; crit .dynamic (rd .dynWps)
  /- `getSpeed`: `dynamic_trajectory.cpp` lines 185–189. -/
  | .getSpeed => crit .parameters (.act speedOut)
  /- `setSpeed`: `dynamic_trajectory.cpp` lines 198–203. -/
  | .setSpeed x => crit .parameters (.act (speedP x) ;; .act (speedN x))
  /- `getTimeCompensation`: `dynamic_trajectory.cpp` lines 205–209. -/
  | .getTimeCompensation => crit .parameters (rd .pOffset)
  /- `getWasTrajectoryRegenerated`: `dynamic_trajectory.cpp` lines 211–216. -/
  | .getWasTrajectoryRegenerated =>
    ld .cond (.flag .regenerated) ;; fl .regenerated false ;; .act (report .cond)
  /- `getGenerateNewTraj`: `dynamic_trajectory.cpp` lines 217–220. -/
  | .getGenerateNewTraj => ld .cond (.flag .generate)
  /- `updateVehiclePosition`: `dynamic_trajectory.hpp` lines 189–192. -/
  | .updateVehiclePosition => crit .vehicle (wr .vehPos)
  /- `getNextTrajectoryWaypoints`, and `getRemainingWaypoints` which calls it:
  `dynamic_trajectory.hpp` lines 132–165. -/
  | .getNextTrajectoryWaypoints => crit .parameters (rd .pLast) ;; crit .dynamic (rd .dynWps)
  /- `getComputingNewTrajectoryStatus`: `dynamic_trajectory.hpp` lines 148–150. -/
  | .getComputingNewTrajectoryStatus => ld .cond (.flag .computing)
  /- The destructor, and the destructor of the future: `dynamic_trajectory.hpp` lines 127–130. -/
  | .destroy => fl .stop true ;; .act join ;; .act dropFuture

/-- `checkInSecurityZone`: `dynamic_trajectory.cpp` lines 696–720. -/
def checkInSecurityZone : Prog :=
  ld .cond (.trajNull .zoneNull) ;;
  .br .cond (ct .zone false)
    (crit .dynamic
      (crit .parameters (rd .pLast) ;;
        .many (rd .dynWps ;; maybe computationTime) ;;
        ld .zone .any))

/-- `generateWaypointsForTheNextTrajectory` and the assignment of its result:
`dynamic_trajectory.cpp` lines 579–612, 560–564, 243. -/
def generateWaypoints : Prog :=
  crit .todo
    (rd .setList ;;
      ld .cond .any ;;
      .br .cond (rd .dynWps ;; crit .parameters (rd .pLast)) (rd .setList) ;;
      rd .addList ;; .act takeMods ;; wr .setList ;; wr .addList) ;;
  wr .nextWps

/-- `checkStitchTrajectory`: `dynamic_trajectory.cpp` lines 628–649. -/
def checkStitchTrajectory : Prog :=
  ld .cond (.trajNull .plain) ;;
  .br .cond (ct .stitch false)
    (crit .parameters (rd .pLast ;; rd .pStart) ;; trajTime ;; computationTime ;;
      ld .stitch .any)

/-- `stitchActualTrajectoryWithNewWaypoints` with its caller's argument and the assignment of its
result: `dynamic_trajectory.cpp` lines 474–532, 267–268. -/
def stitch : Prog :=
  .act (.read .lastTime .pLast) ;; rd .nextWps ;; rd .nStart ;; rd .pOffset ;;
  .many (convertTime ;; getReferences ;; computationTime) ;;
  convertTime ;; wr .nextWps

/-- `generateTrajectory`: `dynamic_trajectory.cpp` lines 369–376. -/
def generateTrajectory : Prog :=
  fl .computing true ;; crit .future (rd .nextWps ;; .act launch)

/-- The planning branch of the worker: `dynamic_trajectory.cpp` lines 243–277. -/
def plan : Prog :=
  generateWaypoints ;; rd .nextWps ;;
  ld .empty .any ;;
  .br .empty (fl .generate false)
    (crit .parameters
        (rd .pLast ;; rd .pOffset ;; rd .pStart ;; .act speedPN ;; wr .nOffset ;; wr .nStart) ;;
      crit .time (wr .startTime) ;;
      checkStitchTrajectory ;;
      .br .stitch
        (fl .fromScratch false ;; stitch)
        (fl .fromScratch true ;; crit .vehicle (rd .vehPos) ;; wr .nextWps) ;;
      generateTrajectory ;;
      fl .generate false)

/-- `applyWaypointModification`: `dynamic_trajectory.cpp` lines 456–472. -/
def applyModification : Prog :=
  crit .dynamic
    (.many (rd .dynWps ;;
      maybe (crit .parameters (rd .pLast ;; wr .dynWps ;; fl .regenerated true))))

/-- The modifying branch of the worker: `dynamic_trajectory.cpp` lines 283–288. -/
def applyModifications : Prog :=
  crit .todo (rd .modList ;; .many applyModification ;; .act takeMods)

/-- One round of `todoThreadLoop`: `dynamic_trajectory.cpp` lines 241–293, 722–725. -/
def workerRound : Prog :=
  ld .cond (.flag .generate) ;;
  .br .cond
    (checkInSecurityZone ;;
      .br .zone (ct .can false)
        (ld .comp (.flag .computing) ;;
          .br .comp (ct .can false) (ct .can true)))
    (ct .can false) ;;
  .br .can plan
    (ld .cond (.modsPending .modifiedSize) ;;
      .br .cond
        (ld .comp (.flag .computing) ;;
          .br .comp .skip applyModifications)
        .skip)

/-- `todoThreadLoop`: `dynamic_trajectory.cpp` lines 237–295. -/
def workerLoop : Prog :=
  .loopWhile .run
    (ld .cond (.flag .stop) ;; .br .cond (ct .run false) (ct .run true))
    workerRound

/-- `computeTrajectory`: `dynamic_trajectory.cpp` lines 298–367. -/
def computeTrajectory : Prog :=
  crit .parameters (rd .pSpeed) ;;
  rd .nextWps ;;
  .many (rd .nextWps ;; rd .nStart ;; wr .nextWps) ;;
  crit .time (rd .startTime ;; wr .timeConst) ;;
  .act complete

/-- The threads: the worker, the users and the computations in the order they are started. -/
inductive Tid
  | worker | user (n : Nat) | comp (n : Nat)
  deriving DecidableEq, Repr

/-- The future: without shared state, with the shared state of computation `n` that still runs, or
that has finished. -/
inductive Fut
  | empty | pending (n : Nat) | ready (n : Nat)
  deriving DecidableEq, Repr

/-- What happened. -/
inductive Event
  /-- a modification for this name was requested -/
  | pushed (k : Nat)
  /-- pending modifications were dropped -/
  | cleared
  /-- the worker took these modifications -/
  | batch (ks : List Nat)
  | speedSet (x : Nat)
  | speedRead (x : Nat)
  /-- the flag of `getWasTrajectoryRegenerated` was raised -/
  | changed
  /-- `getWasTrajectoryRegenerated` returned this -/
  | reported (b : Bool)
  | started (n : Nat)
  | finished (n : Nat)
  | takenOver (n : Nat)
  deriving DecidableEq, Repr

/-- The state of the planner object and its threads. -/
structure State where
  owner : Mutex → Option Tid
  flag : Flag → Bool
  fut : Fut
  /-- the number of the plan in use -/
  traj : Option Nat
  /-- how many computations were started -/
  launched : Nat
  /-- counts the changes of the waypoint list being planned and its start time -/
  planVer : Nat
  /-- the value of `planVer` when the last computation finished -/
  doneVer : Nat
  mods : List Nat
  pSpeed : Nat
  nSpeed : Nat
  code : Tid → List Prog
  regs : Tid → Reg → Bool
  /-- the local variable `new_trajectory` of `swapTrajectory` -/
  got : Tid → Nat
  /-- newest first -/
  log : List Event
  ub : Bool

/-- Change a function at one point. -/
def upd {α β : Type} [DecidableEq α] (f : α → β) (a : α) (b : β) : α → β :=
  fun x => if x = a then b else f x

/-- A freshly constructed planner: `dynamic_trajectory.hpp` lines 82–126 (members and their
initialisers, worker started). -/
def State.init : State where
  owner := fun _ => none
  flag := fun f => f == .fromScratch
  fut := .empty
  traj := none
  launched := 0
  planVer := 0
  doneVer := 0
  mods := []
  pSpeed := 0
  nSpeed := 0
  code := fun i => if i = .worker then [workerLoop] else []
  regs := fun _ _ => false
  got := fun _ => 0
  log := []
  ub := false

/-- The value read by a `load`; `none` is undefined behaviour (`wait_for` on an invalid future). -/
def Src.value (σ : State) (c : Bool) : Src → Option Bool
  | .flag f => some (σ.flag f)
  | .trajNull _ => some σ.traj.isNone
  | .futValid => some (σ.fut != .empty)
  | .futReady =>
    match σ.fut with
    | .empty => none
    | .pending _ => some false
    | .ready _ => some true
  | .modsPending _ => some (!σ.mods.isEmpty)
  | .any => some c

/-- Adding a modification: `dynamic_trajectory.cpp` lines 89–100. -/
def push (k : Nat) (ks : List Nat) : List Nat := if k ∈ ks then ks else ks ++ [k]

/-- Whether a change of this member is counted in `planVer`. -/
def Var.planned (v : Var) : Bool := v == .nextWps || v == .nStart

/-- An action of thread `i` that leaves it with the program `k`; `none` if it has to wait. -/
def stepAct (σ : State) (i : Tid) (c : Bool) (a : Act) (k : List Prog) : Option State :=
  let τ : State := { σ with code := upd σ.code i k }
  let bad : Option State := some { σ with ub := true }
  match a with
  | .lock m =>
    match σ.owner m with
    | none => some { τ with owner := upd σ.owner m (some i) }
    | some _ => none
  | .unlock m =>
    if σ.owner m = some i then some { τ with owner := upd σ.owner m none } else bad
  | .read _ _ => some τ
  | .write v => some { τ with planVer := if v.planned then σ.planVer + 1 else σ.planVer }
  | .load r s =>
    match s.value σ c with
    | some b => some { τ with regs := upd σ.regs i (upd (σ.regs i) r b) }
    | none => bad
  | .const r b => some { τ with regs := upd σ.regs i (upd (σ.regs i) r b) }
  | .setFlag f b =>
    some { τ with
      flag := upd σ.flag f b
      log := if f = .regenerated ∧ b = true then .changed :: σ.log else σ.log }
  | .futWait =>
    match σ.fut with
    | .empty => bad
    | .pending _ => none
    | .ready _ => some τ
  | .futGet =>
    match σ.fut with
    | .empty => bad
    | .pending _ => none
    | .ready n =>
      some { τ with fut := .empty, got := upd σ.got i n, log := .takenOver n :: σ.log }
  | .launch =>
    match σ.fut with
    | .pending _ => none
    | _ =>
      some { τ with
        fut := .pending σ.launched
        launched := σ.launched + 1
        code := upd (upd σ.code i k) (.comp σ.launched) [computeTrajectory]
        log := .started σ.launched :: σ.log }
  | .complete =>
    match i with
    | .comp n =>
      some { τ with
        fut := if σ.fut = .pending n then .ready n else σ.fut
        doneVer := σ.planVer
        code := upd σ.code i []
        log := .finished n :: σ.log }
    | _ => bad
  | .setTraj => some { τ with traj := some (σ.got i) }
  | .deref => if σ.traj.isNone then bad else some τ
  | .join => if σ.code .worker = [] then some τ else none
  | .dropFuture =>
    match σ.fut with
    | .pending _ => none
    | _ => some τ
  | .pushMod n => some { τ with mods := push n σ.mods, log := .pushed n :: σ.log }
  | .takeMods => some { τ with mods := [], log := .batch σ.mods :: σ.log }
  | .clearMods => some { τ with mods := [], log := .cleared :: σ.log }
  | .speedP x => some { τ with pSpeed := x, log := .speedSet x :: σ.log }
  | .speedN x => some { τ with nSpeed := x }
  | .speedPN => some { τ with nSpeed := σ.pSpeed }
  | .speedNP => some { τ with pSpeed := σ.nSpeed }
  | .speedOut => some { τ with log := .speedRead σ.pSpeed :: σ.log }
  | .report r => some { τ with log := .reported (σ.regs i r) :: σ.log }

/-- A step of thread `i`, which is about to execute `p` and then `k`. -/
def stepProg (σ : State) (i : Tid) (c : Bool) (p : Prog) (k : List Prog) : Option State :=
  match p with
  | .skip => some { σ with code := upd σ.code i k }
  | .act a => stepAct σ i c a k
  | .seq p q => some { σ with code := upd σ.code i (p :: q :: k) }
  | .br r p q => some { σ with code := upd σ.code i ((if σ.regs i r then p else q) :: k) }
  | .loopWhile r pre body =>
    some { σ with
      code := upd σ.code i (pre :: .br r (.seq body (.loopWhile r pre body)) .skip :: k) }
  | .many body =>
    some { σ with code := upd σ.code i (if c then body :: .many body :: k else k) }

/-- What the scheduler decides: a thread goes on (with a decision where its program leaves one open),
or a user thread that is in no call starts one. -/
inductive Choice
  | go (c : Bool)
  | call (a : Api)
  deriving DecidableEq, Repr

/-- A step of the system: thread `i` moves.  `none`: it cannot. -/
def step (σ : State) (i : Tid) (ch : Choice) : Option State :=
  if σ.ub then none
  else
    match σ.code i, ch with
    | [], .call a =>
      match i with
      | .user _ => some { σ with code := upd σ.code i [a.prog] }
      | _ => none
    | p :: k, .go c => stepProg σ i c p k
    | _, _ => none

/-- Run a schedule. -/
def exec : State → List (Tid × Choice) → Option State
  | σ, [] => some σ
  | σ, (i, ch) :: s =>
    match step σ i ch with
    | some τ => exec τ s
    | none => none

end Verif.Conc
