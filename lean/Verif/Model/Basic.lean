/-!
# Outcomes

Every modelled function that can fail to return a value uses `Res`. The C++ code has four ways not to return, and they
are kept apart, and a fifth constructor marks where exact arithmetic stops being a model of `double`:

* `check`  – a glog `CHECK*` macro fails, the process aborts;
* `exc`    – a C++ exception leaves the function;
* `ub`     – undefined behaviour (out-of-bounds index, null or empty container dereference, ...);
* `hang`   – the call never returns;
* `nonfinite` – the code goes on with an infinity or a NaN (division by zero), which the model does not follow.
-/

namespace Verif

/-- The ways in which a modelled C++ function does not return a value. -/
inductive Fail where
  | check
  | exc
  | ub
  | hang
  | nonfinite
  deriving DecidableEq, Repr

/-- Result of a modelled C++ function: a value, or one of the failures. -/
abbrev Res (α : Type _) := Except Fail α

/-- `std::vector::operator[]` (no bounds check): undefined behaviour outside the vector. -/
def at? {α : Type _} (l : List α) (i : Nat) : Res α :=
  match l[i]? with
  | some a => .ok a
  | none => .error .ub

end Verif
