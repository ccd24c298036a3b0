import Verif.Model.PlotResults
import Mathlib.Analysis.InnerProductSpace.PiL2

/-!
# Specification: figures that show a flight
-/

namespace Verif.Spec

open Verif.PlotResults

/-- What is known of a flight at an instant. -/
structure FlightSample where
  time : ℝ
  position : EuclideanSpace ℝ (Fin 3)
  velocity : EuclideanSpace ℝ (Fin 3)
  acceleration : EuclideanSpace ℝ (Fin 3)

/-- The curve with a label in the panel with a title. -/
def curveIn (f : Figures) (title label : String) : Option (List (ℝ × ℝ)) :=
  (f.panels.lookup title).bind fun cs => (cs.find? fun c => c.label = label).map (·.points)

/-- The figures show the flight: every component of position, velocity and acceleration over time, the magnitudes of velocity and acceleration over time, and the path. -/
structure ShowsFlight (f : Figures) (ss : List FlightSample) : Prop where
  position : ∀ i : Fin 3, curveIn f "Position" (["x", "y", "z"][i]) = some (ss.map fun s => (s.time, s.position i))
  velocity : ∀ i : Fin 3, curveIn f "Velocity" (["vx", "vy", "vz"][i]) = some (ss.map fun s => (s.time, s.velocity i))
  acceleration : ∀ i : Fin 3, curveIn f "Acceleration" (["ax", "ay", "az"][i]) = some (ss.map fun s => (s.time, s.acceleration i))
  speed : curveIn f "Velocity Magnitude" "|v|" = some (ss.map fun s => (s.time, ‖s.velocity‖))
  thrust : curveIn f "Acceleration Magnitude" "|a|" = some (ss.map fun s => (s.time, ‖s.acceleration‖))
  path : f.path = ss.map fun s => (s.position 0, s.position 1, s.position 2)

end Verif.Spec
