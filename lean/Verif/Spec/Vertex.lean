import Verif.Model.Vertex

/-!
# Specification vocabulary for vertices

A vertex is meant to be a finite map from derivative orders to vectors of dimension `D`. Only the data type of the model is used.
-/

namespace Verif.Spec

variable {K : Type*}

/-- A well-formed constraint store: keys strictly increasing (so each order occurs once), every vector of dimension `D`. Property C19
shows that every sequence of operations leads to such a store. -/
def WellFormed (v : Vertex K) : Prop :=
  v.constraints.Pairwise (fun a b => a.1 < b.1) ∧ ∀ x ∈ v.constraints, x.2.length = v.D

/-- The vertex's constraints are exactly the finite map `m`. -/
def Represents (v : Vertex K) (m : Int → Option (List K)) : Prop :=
  ∀ (k : Int) (c : List K), (k, c) ∈ v.constraints ↔ m k = some c

end Verif.Spec
