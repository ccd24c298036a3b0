import Verif.Model.IO
import Verif.Spec.Sampling

/-!
# Specification vocabulary for saved trajectories
-/

namespace Verif.Spec

variable {K : Type} [Field K] [LinearOrder K]

/-- The numbers of the segment fit the integer types of the file format. -/
structure Storable (s : Segment K) : Prop where
  coefficients : s.N < 2 ^ 31
  dimensions : s.polys.length < 2 ^ 31
  nonneg : 0 ≤ s.time
  fits : s.time * 1000000000 < 2 ^ 64

/-- The number of coefficients is the declared one in every dimension. -/
def Declared (s : Segment K) : Prop := ∀ p ∈ s.polys, p.length = s.N

/-- `s'` is `s` with the duration rounded down to whole nanoseconds. -/
structure ReadsBackAs (s s' : Segment K) : Prop where
  coefficients : s'.N = s.N
  polynomials : s'.polys = s.polys
  whole : ∃ n : ℕ, s'.time = n / 1000000000
  le : s'.time ≤ s.time
  lt : s.time < s'.time + 1 / 1000000000

/-- One row of the table of sampled states: time in nanoseconds, position, velocity, acceleration, jerk, snap, orientation (real part
first), angular velocity, angular acceleration, and a last entry. -/
structure TableRow (st : Mav.TrajectoryPoint) (last : ℝ) (row : List ℝ) : Prop where
  columns : row.length = 27
  time : row[0]? = some (st.timeFromStartNs : ℝ)
  position : ∀ i : Fin 3, row[1 + (i : ℕ)]? = some (st.position i)
  velocity : ∀ i : Fin 3, row[4 + (i : ℕ)]? = some (st.velocity i)
  acceleration : ∀ i : Fin 3, row[7 + (i : ℕ)]? = some (st.acceleration i)
  jerk : ∀ i : Fin 3, row[10 + (i : ℕ)]? = some (st.jerk i)
  snap : ∀ i : Fin 3, row[13 + (i : ℕ)]? = some (st.snap i)
  orientation : row[16]? = some st.orientation.re ∧ row[17]? = some st.orientation.imI ∧ row[18]? = some st.orientation.imJ ∧
    row[19]? = some st.orientation.imK
  angularVelocity : ∀ i : Fin 3, row[20 + (i : ℕ)]? = some (st.angularVelocity i)
  angularAcceleration : ∀ i : Fin 3, row[23 + (i : ℕ)]? = some (st.angularAcceleration i)
  last : row[26]? = some last

end Verif.Spec
