import Verif.Model.MotionDefines
import Mathlib.Tactic.IntervalCases

/-!
# Property C66: derivative names
-/

namespace Verif.Properties

open MotionDefines

/-- The five derivatives of the position with their names. -/
def positionNames : List (Int × String) :=
  [(0, "position"), (1, "velocity"), (2, "acceleration"), (3, "jerk"), (4, "snap")]

/-- The three derivatives of the orientation with their names. -/
def orientationNames : List (Int × String) :=
  [(0, "orientation"), (1, "angular_velocity"), (2, "angular_acceleration")]

/-- C66: for every integer: the name of the derivative, or "invalid" if there is none. -/
theorem C66_position_name (d : Int) (s : String) :
    positionDerivativeToString d = s ↔ (d, s) ∈ positionNames ∨ (s = "invalid" ∧ ∀ x ∈ positionNames, x.1 ≠ d) := by
  unfold positionDerivativeToString
  by_cases h : 0 ≤ d ∧ d ≤ 4
  · rw [if_pos h]
    obtain ⟨h0, h4⟩ := h
    interval_cases d <;> simp [positionNames, eq_comm]
  · rw [if_neg h]
    have : ∀ x ∈ positionNames, x.1 ≠ d := by
      simp only [positionNames, List.mem_cons, List.not_mem_nil, or_false, forall_eq_or_imp, forall_eq]
      omega
    constructor
    · intro e; exact .inr ⟨e.symm, this⟩
    · rintro (h1 | ⟨h1, _⟩)
      · exact absurd rfl (this _ h1)
      · exact h1.symm

/-- C66: for every string: the derivative of that name, or -1 if there is none. -/
theorem C66_position_number (s : String) (d : Int) :
    positionDerivativeToInt s = d ↔ (d, s) ∈ positionNames ∨ (d = -1 ∧ ∀ x ∈ positionNames, x.2 ≠ s) := by
  unfold positionDerivativeToInt
  simp only [positionNames, List.mem_cons, List.not_mem_nil, or_false, forall_eq_or_imp, forall_eq, Prod.mk.injEq]
  by_cases h0 : s = "position"
  · subst h0; simp [eq_comm]
  by_cases h1 : s = "velocity"
  · subst h1; simp [eq_comm]
  by_cases h2 : s = "acceleration"
  · subst h2; simp [eq_comm]
  by_cases h3 : s = "jerk"
  · subst h3; simp [eq_comm]
  by_cases h4 : s = "snap"
  · subst h4; simp [eq_comm]
  simp [h0, h1, h2, h3, h4, Ne.symm h0, Ne.symm h1, Ne.symm h2, Ne.symm h3, Ne.symm h4, eq_comm]

/-- C66: the same for the orientation. -/
theorem C66_orientation_name (d : Int) (s : String) :
    orintationDerivativeToString d = s ↔ (d, s) ∈ orientationNames ∨ (s = "invalid" ∧ ∀ x ∈ orientationNames, x.1 ≠ d) := by
  unfold orintationDerivativeToString
  by_cases h : 0 ≤ d ∧ d ≤ 2
  · rw [if_pos h]
    obtain ⟨h0, h4⟩ := h
    interval_cases d <;> simp [orientationNames, eq_comm]
  · rw [if_neg h]
    have : ∀ x ∈ orientationNames, x.1 ≠ d := by
      simp only [orientationNames, List.mem_cons, List.not_mem_nil, or_false, forall_eq_or_imp, forall_eq]
      omega
    constructor
    · intro e; exact .inr ⟨e.symm, this⟩
    · rintro (h1 | ⟨h1, _⟩)
      · exact absurd rfl (this _ h1)
      · exact h1.symm

theorem C66_orientation_number (s : String) (d : Int) :
    orientationDerivativeToInt s = d ↔ (d, s) ∈ orientationNames ∨ (d = -1 ∧ ∀ x ∈ orientationNames, x.2 ≠ s) := by
  unfold orientationDerivativeToInt
  simp only [orientationNames, List.mem_cons, List.not_mem_nil, or_false, forall_eq_or_imp, forall_eq, Prod.mk.injEq]
  by_cases h0 : s = "orientation"
  · subst h0; simp [eq_comm]
  by_cases h1 : s = "angular_velocity"
  · subst h1; simp [eq_comm]
  by_cases h2 : s = "angular_acceleration"
  · subst h2; simp [eq_comm]
  simp [h0, h1, h2, Ne.symm h0, Ne.symm h1, Ne.symm h2, eq_comm]

/-- C66: name and number are inverse to each other on the valid ones, and only on those. -/
theorem C66_round_trip (d : Int) (s : String) :
    (positionDerivativeToInt (positionDerivativeToString d) = d ↔ 0 ≤ d ∧ d ≤ 4 ∨ d = -1) ∧
    (positionDerivativeToString (positionDerivativeToInt s) = s ↔ s = "invalid" ∨ ∃ d, (d, s) ∈ positionNames) ∧
    (orientationDerivativeToInt (orintationDerivativeToString d) = d ↔ 0 ≤ d ∧ d ≤ 2 ∨ d = -1) ∧
    (orintationDerivativeToString (orientationDerivativeToInt s) = s ↔ s = "invalid" ∨ ∃ d, (d, s) ∈ orientationNames) := by
  refine ⟨?_, ?_, ?_, ?_⟩
  · by_cases h : 0 ≤ d ∧ d ≤ 4
    · obtain ⟨h0, h4⟩ := h
      interval_cases d <;> simp [positionDerivativeToString, positionDerivativeToInt]
    · rw [(C66_position_name d "invalid").mpr (.inr ⟨rfl, by
        simp only [positionNames, List.mem_cons, List.not_mem_nil, or_false, forall_eq_or_imp, forall_eq]; omega⟩)]
      simp only [positionDerivativeToInt]
      simp
      omega
  · by_cases h : ∃ d, (d, s) ∈ positionNames
    · obtain ⟨d, hd⟩ := h
      rw [(C66_position_number s d).mpr (.inl hd), (C66_position_name d s).mpr (.inl hd)]
      simp [show ∃ d, (d, s) ∈ positionNames from ⟨d, hd⟩]
    · rw [(C66_position_number s (-1)).mpr (.inr ⟨rfl, fun x hx e => h ⟨x.1, e ▸ hx⟩⟩)]
      simp [positionDerivativeToString, h, eq_comm]
  · by_cases h : 0 ≤ d ∧ d ≤ 2
    · obtain ⟨h0, h4⟩ := h
      interval_cases d <;> simp [orintationDerivativeToString, orientationDerivativeToInt]
    · rw [(C66_orientation_name d "invalid").mpr (.inr ⟨rfl, by
        simp only [orientationNames, List.mem_cons, List.not_mem_nil, or_false, forall_eq_or_imp, forall_eq]; omega⟩)]
      simp only [orientationDerivativeToInt]
      simp
      omega
  · by_cases h : ∃ d, (d, s) ∈ orientationNames
    · obtain ⟨d, hd⟩ := h
      rw [(C66_orientation_number s d).mpr (.inl hd), (C66_orientation_name d s).mpr (.inl hd)]
      simp [show ∃ d, (d, s) ∈ orientationNames from ⟨d, hd⟩]
    · rw [(C66_orientation_number s (-1)).mpr (.inr ⟨rfl, fun x hx e => h ⟨x.1, e ▸ hx⟩⟩)]
      simp [orintationDerivativeToString, h, eq_comm]

/-- Concrete cases. -/
example : positionDerivativeToString 3 = "jerk" ∧ positionDerivativeToInt "orientation" = -1 ∧ orintationDerivativeToString 3 = "invalid" := by
  simp [positionDerivativeToString, positionDerivativeToInt, orintationDerivativeToString]

end Verif.Properties
