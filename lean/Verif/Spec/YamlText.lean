import Verif.Model.YamlText
import Verif.Spec.IO

/-!
# Specification vocabulary for the text of saved trajectories
-/

namespace Verif.Spec

open Verif.IO

variable {K : Type}

/-- Floating point numbers are written as digits, signs, points and `e`; they read back as what was written; and one that is written like a whole number is that whole number. -/
structure Faithful [Ring K] (nt : NumberText K) : Prop where
  read_write : ∀ x, nt.read (nt.write x) = some x
  whole : ∀ x z, readInt (nt.write x) = some z → x = z
  nonempty : ∀ x, nt.write x ≠ []
  chars : ∀ x, ∀ c ∈ nt.write x, c.isDigit = true ∨ c ∈ ['.', '-', '+', 'e']

end Verif.Spec
