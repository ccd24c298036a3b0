import Mathlib.Algebra.Order.Floor.Ring
import Verif.Model.Planner

/-!
# `TrajectoryPlotter`

Source: `include/dynamic_trajectory_generator/utils/plotting_utils.hpp` (`pu.hpp`). The calls of matplotlib are not modelled: a pass of the drawing thread is
represented by the items it draws. The parallel vectors of times and coordinates of one item are one list of (time, position). The random colour is a parameter.
-/

namespace Verif

/-- `pu.hpp` 31 `PlotMode`. -/
inductive PlotMode where
  | line
  | waypoint
  | uav
  deriving DecidableEq, Repr

/-- `pu.hpp` 60-66: one entry of `static_plots_3d_`. -/
structure Item3d (K : Type*) where
  points : List (V3 K)
  color : Char
  mode : PlotMode
  deriving DecidableEq, Repr

/-- `pu.hpp` 68-75: one entry of `static_plots_2d_`: points with times. -/
structure Item2d (K : Type*) where
  points : List (K × V3 K)
  color : Char
  mode : PlotMode
  deriving DecidableEq, Repr

/-- `pu.hpp` 53-82: the members of `TrajectoryPlotter` shared between the threads (`ended_` and `update_plot_` are in `Drawing`). `locked`: the mutex is held by a call
that did not release it. -/
structure Plotter (K : Type*) where
  plots3d : List (Item3d K)
  plots2d : List (Item2d K)
  pose : V3 K
  poseTime : K
  refs : List (References K)
  refTimes : List K
  locked : Bool
  deriving DecidableEq

namespace Plotter
variable {K : Type*} [Field K] [LinearOrder K] [IsStrictOrderedRing K]

/-- `pu.hpp` 33-43: the constructor (`std::vector<double>(1)` holds one zero). -/
def init : Plotter K := ⟨[], [], V3.zero, 0, [], [], false⟩

/-- `pu.hpp` 21 `dist`. -/
def palette : List Char := ['r', 'g', 'b', 'c', 'm', 'y', 'k']

/-- `pu.hpp` 105-106: a colour, for the result `r` of `rand()`. -/
def color (r : Nat) : Char := palette.getD (r % 7) 'r'

/-- `pu.hpp` 134-137: `while (size > 2 * N_PLOTS_SIMULTANEOUSLY + 1) erase(begin() + 1)`; the second entry goes. The fuel is the length, which the loop decreases. -/
def trimLoop {α : Type*} : Nat → List α → List α
  | 0, l => l
  | n + 1, l =>
    if l.length > 2 * 3 + 1 then
      match l with
      | x :: _ :: rest => trimLoop n (x :: rest)
      | l => l
    else l

/-- `pu.hpp` 134-137. -/
def trim {α : Type*} (l : List α) : List α := trimLoop l.length l

/-- `pu.hpp` 96-103: the loop that samples the trajectory, `n` samples left, the next one with index `i`; `none`: the call waits. -/
def sampleLoop [FloorSemiring K] (env : Env K) (t0 : K) : Nat → Nat → Planner K → Res (Option (List (K × V3 K) × Planner K))
  | 0, _, s => .ok (some ([], s))
  | n + 1, i, s => do
    let t : K := t0 + i * (1 / 10)
    match ← s.evaluateTrajectory env t true true with
    | none => return none
    | some (r, s) => do
      match ← sampleLoop env t0 n (i + 1) s with
      | none => return none
      | some (l, s) => return some ((t, r.position) :: l, s)

/-- `pu.hpp` 84-141 `plotTraj`, with the result `r` of `rand()`. The planner's state after the call, or how the call ends otherwise; and the plotter. The mutex is
locked by hand (89), so it stays locked when the call is left by an exception (90, 98, 111) or waits. `int n_samples` (88): out of range is undefined behaviour; a negative number
makes the vector constructors throw (90). `getMinTime` and `getMaxTime` run before the mutex is taken. -/
def plotTraj [FloorRing K] (env : Env K) (r : Nat) (s : Planner K) (p : Plotter K) : Res (Option (Planner K)) × Plotter K :=
  match s.getMinTime env with
  | .error e => (.error e, p)
  | .ok none => (.ok none, p)
  | .ok (some (t0, s)) =>
    match s.getMaxTime env with
    | .error e => (.error e, p)
    | .ok none => (.ok none, p)
    | .ok (some (t1, s)) =>
      if 2 ^ 31 ≤ (t1 - t0) / (1 / 10) ∨ (t1 - t0) / (1 / 10) ≤ -2 ^ 31 - 1 then (.error .ub, p)
      else if p.locked then (.error .hang, p)
      else if (t1 - t0) / (1 / 10) ≤ -1 then (.error .exc, { p with locked := true })
      else
        match sampleLoop env t0 ⌊(t1 - t0) / (1 / 10)⌋₊ 0 s with
        | .error e => (.error e, { p with locked := true })
        | .ok none => (.ok none, { p with locked := true })
        | .ok (some (l, s)) =>
          let c := color r
          let p : Plotter K := { p with plots3d := p.plots3d ++ [⟨l.map (·.2), c, .line⟩], plots2d := p.plots2d ++ [⟨l, c, .line⟩] }
          match s.getDynamicWaypoints env with
          | .error e => (.error e, { p with locked := true })
          | .ok none => (.ok none, { p with locked := true })
          | .ok (some (ws, s)) =>
            (.ok (some s), { p with
              plots3d := trim (p.plots3d ++ [⟨ws.map (·.current), c, .waypoint⟩])
              plots2d := trim (p.plots2d ++ [⟨ws.map fun w => (w.time, w.current), c, .uav⟩]) })

/-- `pu.hpp` 143-153 `setUAVposition` (without the flag, which is in `Drawing`); `none`: the call waits for the mutex for ever. -/
def setUAVposition (p : Plotter K) (refs : References K) (time : K) : Option (Plotter K) :=
  if p.locked then none
  else some { p with pose := refs.position, poseTime := time, refs := p.refs ++ [refs], refTimes := p.refTimes ++ [time] }

/-- `pu.hpp` 278-281, 287: what one pass of the drawing thread draws in space, in this order: all stored items and the vehicle. -/
def picture3d (p : Plotter K) : List (Item3d K) := p.plots3d ++ [⟨[p.pose], 'r', .uav⟩]

/-- `pu.hpp` 282-285, 288: what one pass of the drawing thread draws over time. -/
def picture2d (p : Plotter K) : List (Item2d K) := p.plots2d ++ [⟨[(p.poseTime, p.pose)], 'r', .uav⟩]

end Plotter

/-! ### The drawing thread -/

/-- Position of the drawing thread (`pu.hpp` 264-298). -/
inductive DrawPc where
  | top
  | drawing
  | showing
  | clearing
  | finished
  deriving DecidableEq, Repr

/-- The plotter with its threads. `pending`: calls that have left the mutex but not yet raised `update_plot_` (140, 152). `constructed`: the constructor has written
`ended_` (46), which happens after the thread was started (45). -/
structure Drawing (K : Type*) where
  data : Plotter K
  ended : Bool
  update : Bool
  constructed : Bool
  pending : Nat
  pc : DrawPc
  canvas : Option (List (Item3d K) × List (Item2d K))
  screen : Option (List (Item3d K) × List (Item2d K))

namespace Drawing
variable {K : Type*} [Field K] [LinearOrder K] [IsStrictOrderedRing K]

/-- `pu.hpp` 45: the thread has been started. `ended_` and `update_plot_` (77-78) are not initialised: their values are parameters. -/
def start (ended update : Bool) : Drawing K := ⟨Plotter.init, ended, update, false, 0, .top, none, none⟩

/-- What can happen next. -/
inductive Event (K : Type*) where
  /-- `pu.hpp` 46: the constructor sets `ended_`. -/
  | construct
  /-- the critical section of a user's call leaves the data `p` behind (89-139, 144-151) -/
  | write (p : Plotter K)
  /-- `pu.hpp` 140, 152: a user's call raises `update_plot_` and returns -/
  | raise
  /-- `pu.hpp` 49: the destructor sets `ended_`. -/
  | destroy
  /-- a step of the drawing thread -/
  | thread

/-- One step; `none`: not possible in this state. -/
def step (d : Drawing K) : Event K → Option (Drawing K)
  | .construct => if d.constructed then none else some { d with constructed := true, ended := false }
  | .write p => if d.constructed ∧ d.data.locked = false then some { d with data := p, pending := d.pending + 1 } else none
  | .raise => if 0 < d.pending then some { d with pending := d.pending - 1, update := true } else none
  | .destroy => if d.constructed then some { d with ended := true } else none
  | .thread =>
    match d.pc with
    -- `pu.hpp` 268-272
    | .top =>
      if d.ended then some { d with pc := .finished }
      else if d.update then some { d with pc := .drawing }
      else some d
    -- `pu.hpp` 274-289: the mutex is held for the whole pass
    | .drawing => if d.data.locked then none else some { d with canvas := some (d.data.picture3d, d.data.picture2d), pc := .showing }
    -- `pu.hpp` 291
    | .showing => some { d with screen := d.canvas, pc := .clearing }
    -- `pu.hpp` 292
    | .clearing => some { d with update := false, pc := .top }
    | .finished => none

/-- A sequence of steps. -/
def run (d : Drawing K) : List (Event K) → Option (Drawing K)
  | [] => some d
  | e :: es => match d.step e with
    | none => none
    | some d => run d es

end Drawing

end Verif
