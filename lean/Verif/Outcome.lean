/-!
# Outcomes of C++ calls

abo is C++: a call can return, throw an exception, or run into undefined
behaviour.  Model functions that can do anything but return have the result type
`Except Fault α`.
-/

namespace Verif

/-- The ways in which a modelled call can end other than by returning a value. -/
inductive Fault
  /-- undefined behaviour: out-of-range `operator[]`/`back()` on a `std::vector`
  (e.g. `/repo/src/util/cudd_helpers.cpp:526`), integer division or modulo by zero,
  conversion of a negative or NaN `double` to an integer type -/
  | ub
  /-- `std::invalid_argument`, e.g. `/repo/src/util/cudd_helpers.cpp:441-443` -/
  | invalidArgument
  /-- `std::logic_error`, e.g. `/repo/src/approximation_operators/approximation_operators.cpp` -/
  | logicError
  /-- `std::out_of_range`, from `vector::at` (`/repo/src/util/function.cpp`) -/
  | outOfRange
  /-- a failed `assert` in a build without `NDEBUG` -/
  | assertion
  /-- a floating point division by zero or an overflow of `pow`: the code goes on with an IEEE
  infinity or NaN, e.g. `/repo/src/error_metrics/worst_case_error.cpp:65` for `f.size() == 0` -/
  | nonFinite
  /-- not an outcome of the code: the model's iteration budget for a loop without a bound, e.g.
  `/repo/src/error_metrics/worst_case_relative_error.cpp:108-144`, is used up -/
  | fuel
  deriving DecidableEq, Repr

/-- `std::vector::operator[]`: reading outside the vector is undefined behaviour. -/
def vget {α : Type _} : List α → Nat → Except Fault α
  | [], _ => .error .ub
  | a :: _, 0 => .ok a
  | _ :: as, n + 1 => vget as n

/-- `std::vector::back()`: undefined behaviour on an empty vector. -/
def vback {α : Type _} : List α → Except Fault α
  | [] => .error .ub
  | [a] => .ok a
  | _ :: b :: as => vback (b :: as)

end Verif
