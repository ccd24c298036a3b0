import Verif.Model.Plotter

/-!
# Specification: what a plotter keeps and shows
-/

namespace Verif.Spec

/-- What is kept of the curves `(line, markers)` plotted so far: everything of the first three; afterwards the very first line, without its markers, and the last
three curves. -/
def kept {α : Type*} (cs : List (α × α)) : List α :=
  if cs.length ≤ 3 then cs.flatMap fun c => [c.1, c.2]
  else ((cs.head?.map (·.1)).toList) ++ (cs.drop (cs.length - 3)).flatMap fun c => [c.1, c.2]

variable {K : Type*} [Field K] [LinearOrder K] [IsStrictOrderedRing K]

/-- A history of calls of one plotter: `calls` are the successful calls of `plotTraj` with the colour and the state of the planner, `us` the vehicle positions with
their times, oldest first. -/
inductive PlotHistory [FloorRing K] (env : Env K) : Plotter K → List (ℕ × Planner K) → List (References K × K) → Prop
  | start : PlotHistory env Plotter.init [] []
  | plot {p p' : Plotter K} {calls us} {r : ℕ} {s s' : Planner K} :
      PlotHistory env p calls us → Plotter.plotTraj env r s p = (.ok (some s'), p') → PlotHistory env p' (calls ++ [(r, s)]) us
  | position {p p' : Plotter K} {calls us} {u : References K} {t : K} :
      PlotHistory env p calls us → p.setUAVposition u t = some p' → PlotHistory env p' calls (us ++ [(u, t)])

/-- The data of the plotter after a sequence of steps: the last written one. -/
def latest (es : List (Drawing.Event K)) : Plotter K :=
  (es.filterMap fun e => match e with
    | .write p => some p
    | _ => none).getLast?.getD Plotter.init

/-- The pictures of a state of the data: all plots in order, and the vehicle as a red dot. -/
def picture (p : Plotter K) : List (Item3d K) × List (Item2d K) := 
  (p.plots3d ++ [⟨[p.pose], 'r', .uav⟩], p.plots2d ++ [⟨[(p.poseTime, p.pose)], 'r', .uav⟩])

/-- The steps `es` from `d` on, in which no user's call writes between the moment the drawing thread has drawn the data and the moment it lowers `update_plot_`. -/
def WritesBetweenPasses (d : Drawing K) : List (Drawing.Event K) → Prop
  | [] => True
  | e :: es => (∀ p, e = .write p → d.pc ≠ .showing ∧ d.pc ≠ .clearing) ∧ ∀ d', d.step e = some d' → WritesBetweenPasses d' es

/-- A user's call has written data. -/
def HasWrite (es : List (Drawing.Event K)) : Prop := ∃ p, .write p ∈ es

end Verif.Spec
