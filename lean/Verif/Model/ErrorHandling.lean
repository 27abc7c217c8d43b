import Verif.Model.Outcome

/-!
# Assertions: `ShivaErrorHandling.hpp`, `ShivaMacros.hpp`
-/

namespace Verif

/-- Build and evaluation context of an expression.
Used for ShivaErrorHandling.hpp 34, CArray.hpp 233, ShivaMacros.hpp 119-137. -/
structure Config where
  /-- `SHIVA_ENABLE_BOUNDS_CHECK` is defined -/
  boundsCheck : Bool
  /-- the expression is being constant evaluated (ShivaMacros.hpp 119-137).  Simplification: the
  compiler is assumed to have `__builtin_is_constant_evaluated`; the fallback and the CUDA device
  branch, where the macro is always `false`, are `constEval := false`. -/
  constEval : Bool
  /-- compiled for a device (`__CUDA_ARCH__` or `__HIP_DEVICE_COMPILE__`) -/
  device : Bool
  deriving DecidableEq, Repr

/-- Run-time host evaluation with bounds checking.  Used for CArray.hpp 233. -/
def checkedHost : Config := ⟨true, false, false⟩
/-- Run-time host evaluation without bounds checking.  Used for CArray.hpp 233. -/
def uncheckedHost : Config := ⟨false, false, false⟩
/-- Constant evaluation with bounds checking enabled.  Used for ShivaMacros.hpp 119-137. -/
def checkedConst : Config := ⟨true, true, false⟩

/-- Number of conversion specifications of a `printf` format.  Simplification: every `%` starts a
conversion except that `%%` is a literal percent sign.  Used for ShivaErrorHandling.hpp 36, 47. -/
def formatConversions : List Char → Nat
  | '%' :: '%' :: cs => formatConversions cs
  | '%' :: cs => formatConversions cs + 1
  | _ :: cs => formatConversions cs
  | [] => 0

/-- Outcome of `printf`-style formatting with `nargs` variadic arguments: too few arguments is
undefined behaviour (C11 7.21.6.1).  Simplification: argument types are not checked.
Used for ShivaErrorHandling.hpp 36, 47. -/
def formatOutcome (fmt : String) (nargs : Nat) : Res Unit :=
  if formatConversions fmt.toList ≤ nargs then .ok () else .ub

/-- include/shiva/common/ShivaErrorHandling.hpp 31-58 `shivaAssertionFailed`.  The printed text is
not modelled.  On a device the message is printed with no arguments (line 36) and the program traps
whatever `callAbort` says; on the host it is formatted with its arguments and aborts on request. -/
def shivaAssertionFailed (cfg : Config) (callAbort : Bool) (fmt : String) (nargs : Nat) : Res Unit :=
  if cfg.device then do
    let _ ← formatOutcome fmt 0
    .abort
  else do
    let _ ← formatOutcome fmt nargs
    if callAbort then .abort else .ok ()

/-- include/shiva/common/ShivaMacros.hpp 146-153 `SHIVA_ASSERT_MSG`. -/
def shivaAssertMsg (cfg : Config) (cond : Bool) (fmt : String) (nargs : Nat) : Res Unit :=
  if cond then .ok ()
  else if cfg.constEval then .ok ()
  else shivaAssertionFailed cfg true fmt nargs

/-- The message of both bounds checks (CArrayHelper.hpp 117-120, CArray.hpp 235-238). -/
def boundsFmt : String := "Index out of bounds: 0 < index(%jd) < dim(%jd)"

/-- The `#if defined( SHIVA_ENABLE_BOUNDS_CHECK )` blocks of CArrayHelper.hpp 116-121 and
CArray.hpp 233-239: assert `index >= 0 && index < DIM` if bounds checking is enabled. -/
def boundsAssert (cfg : Config) (index dim : Int) : Res Unit :=
  if cfg.boundsCheck then
    shivaAssertMsg cfg (decide (0 ≤ index ∧ index < dim)) boundsFmt 2
  else .ok ()

end Verif
