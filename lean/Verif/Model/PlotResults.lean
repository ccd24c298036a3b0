import Mathlib.Data.Real.Sqrt
import Mathlib.Data.List.SplitOn

/-!
# `tests/plot_results.py`: the table of a flight is drawn

Line numbers are those of `tests/plot_results.py`. `parse` is how pandas reads a number. A figure is what its curves go through; colours, sizes, grids and legends are
left out. Simplified: pandas fills short lines with gaps, the model takes any line of the wrong length for an error; names in the header are taken to differ.
-/

namespace Verif.PlotResults

/-- Line 43 `pd.read_csv`: blank lines are skipped, the first line has the names, and every column is a name and its numbers from top to bottom. -/
def readCsv (parse : List Char → Option ℝ) (text : List Char) : Option (List (List Char × List ℝ)) :=
  match (text.splitOn '\n').filter (· ≠ []) with
  | [] => none
  | head :: lines => do
    let names := head.splitOn ','
    let rows ← lines.mapM fun l => if (l.splitOn ',').length = names.length then (l.splitOn ',').mapM parse else none
    return names.zipIdx.map fun n => (n.1, rows.map fun r => r.getD n.2 0)

/-- Lines 46-49 `data[name].to_numpy()`; a `KeyError` if there is no such column. -/
def column (data : List (List Char × List ℝ)) (name : String) : Option (List ℝ) := data.lookup name.toList

/-- A curve of a panel: its label and the points it goes through. -/
structure Curve where
  label : String
  points : List (ℝ × ℝ)

/-- The two figures of the script: the panels one below the other, each with its title, and the path in space. -/
structure Figures where
  panels : List (String × List Curve)
  path : List (ℝ × ℝ × ℝ)

/-- Lines 52-53 `np.sqrt(vx**2 + vy**2 + vz**2)`, element by element. -/
noncomputable def magnitude (a b c : List ℝ) : List ℝ :=
  List.zipWith (fun ab c => Real.sqrt (ab + c ^ 2)) (List.zipWith (fun a b => a ^ 2 + b ^ 2) a b) c

/-- Lines 43-114: the script. -/
noncomputable def plotResults (parse : List Char → Option ℝ) (text : List Char) : Option Figures := do
  let data ← readCsv parse text
  let time ← column data "time"
  let x ← column data "x"
  let y ← column data "y"
  let z ← column data "z"
  let vx ← column data "vx"
  let vy ← column data "vy"
  let vz ← column data "vz"
  let ax ← column data "ax"
  let ay ← column data "ay"
  let az ← column data "az"
  let plot := fun (label : String) (c : List ℝ) => Curve.mk label (time.zip c)
  return {
    panels := [
      ("Position", [plot "x" x, plot "y" y, plot "z" z]),
      ("Velocity", [plot "vx" vx, plot "vy" vy, plot "vz" vz]),
      ("Acceleration", [plot "ax" ax, plot "ay" ay, plot "az" az]),
      ("Velocity Magnitude", [plot "|v|" (magnitude vx vy vz)]),
      ("Acceleration Magnitude", [plot "|a|" (magnitude ax ay az)])]
    path := x.zip (y.zip z) }

end Verif.PlotResults
