import Mathlib.Tactic.Linarith
import Mathlib.Tactic.NormNum
import Mathlib.Algebra.Order.Ring.Abs
import Mathlib.Algebra.Order.Archimedean.Real.Basic
import Verif.Model.Pmpl
import Verif.Model.ErrorHandling

/-!
# C57-C59: tolerance comparison, kernel wrappers and assertions
-/

namespace Verif.Props

open Verif.Pmpl

/-! ### C57 -/

/-- In exact arithmetic `check` is the strict comparison of the distance with the tolerance. -/
theorem C57_check (a b tol : ℝ) :
    check (exactArith ℝ) (· < ·) a b tol ↔ |a - b| < |tol| := by
  simp only [check, exactArith]
  rw [← pow_two, ← pow_two]
  exact sq_lt_sq

/-- Symmetry, zero tolerance, sign of the tolerance. -/
theorem C57_consequences (a b tol : ℝ) :
    (check (exactArith ℝ) (· < ·) a b tol ↔ check (exactArith ℝ) (· < ·) b a tol) ∧
    ¬ check (exactArith ℝ) (· < ·) a b 0 ∧
    (check (exactArith ℝ) (· < ·) a b tol ↔ check (exactArith ℝ) (· < ·) a b (-tol)) := by
  refine ⟨?_, ?_, ?_⟩
  · rw [C57_check, C57_check, abs_sub_comm]
  · rw [C57_check, abs_zero]
    exact not_lt.2 (abs_nonneg _)
  · rw [C57_check, C57_check, abs_neg]

/-- The same consequences hold in floating point for every rounding function that is odd and
monotone. -/
theorem C57_rounded (fl : ℝ → ℝ) (hodd : ∀ x, fl (-x) = -fl x) (hmono : Monotone fl)
    (a b tol : ℝ) :
    (check (roundedArith fl) (· < ·) a b tol ↔ check (roundedArith fl) (· < ·) b a tol) ∧
    ¬ check (roundedArith fl) (· < ·) a b 0 ∧
    (check (roundedArith fl) (· < ·) a b tol ↔ check (roundedArith fl) (· < ·) a b (-tol)) := by
  refine ⟨?_, ?_, ?_⟩
  · simp only [check, roundedArith]
    rw [(neg_sub a b).symm, hodd, neg_mul_neg]
  · simp only [check, roundedArith, not_lt]
    exact hmono (by rw [mul_zero]; exact mul_self_nonneg _)
  · simp only [check, roundedArith, neg_mul_neg]

/-- In floating point the exact characterisation is lost: as soon as the square of the tolerance
rounds to zero, even equal numbers do not compare equal. -/
theorem C57_rounded_underflow (fl : ℝ → ℝ) (h0 : fl 0 = 0) (a tol : ℝ) (h : fl (tol * tol) = 0) :
    ¬ check (roundedArith fl) (· < ·) a a tol := by
  simp [check, roundedArith, h0, h]

/-- Rounding to zero everything below one tenth: equal numbers and tolerance `1/10`. -/
example : ¬ check (roundedArith fun x => if |x| < 1 / 10 then 0 else x) (· < ·) 3 3 (1 / 10) :=
  C57_rounded_underflow _ (by norm_num) _ _ (by norm_num [abs_lt])

/-- Truncation toward zero to multiples of one is odd and monotone, as `C57_rounded` asks. -/
example :
    let fl : ℝ → ℝ := fun x => if 0 ≤ x then (⌊x⌋ : ℝ) else (⌈x⌉ : ℝ)
    (∀ x, fl (-x) = -fl x) ∧ Monotone fl := by
  intro fl
  refine ⟨fun x => ?_, fun x y h => ?_⟩
  · simp only [fl]
    rcases lt_trichotomy x 0 with h | h | h
    · rw [if_pos (by linarith), if_neg (by linarith), Int.floor_neg]; push_cast; rfl
    · subst h; simp
    · rw [if_neg (by linarith), if_pos (by linarith), Int.ceil_neg]; push_cast; rfl
  · simp only [fl]
    by_cases hx : 0 ≤ x
    · rw [if_pos hx, if_pos (le_trans hx h)]; exact_mod_cast Int.floor_le_floor h
    · rw [if_neg hx]
      by_cases hy : 0 ≤ y
      · rw [if_pos hy]
        have h1 : ⌈x⌉ ≤ 0 := Int.ceil_le.2 (by push_cast; linarith)
        have h2 : 0 ≤ ⌊y⌋ := Int.floor_nonneg.2 hy
        exact_mod_cast h1.trans h2
      · rw [if_neg hy]; exact_mod_cast Int.ceil_le_ceil h

example : check (exactArith ℝ) (· < ·) 1 (9 / 10) (1 / 5) := by
  rw [C57_check]; norm_num [abs_lt]

example : ¬ check (exactArith ℝ) (· < ·) 1 (1 / 2) (1 / 2) := by
  rw [C57_check]; norm_num

/-! ### C58 -/

/-- When every device call succeeds and the kernel finishes, host and CUDA builds leave the caller's
array exactly as running the kernel on its `N` elements would, return, and leave no device memory
behind. -/
theorem C58_same_effect {R : Type} (b : Backend) (hb : b ≠ .hip) (e : Env R) (he : e.AllOk) (N : Nat)
    (func : Kernel R) (abortOnError : Bool) (data rest d : List R) (live : List Nat)
    (hN : data.length = N) (hk : func data = .ok d) :
    genericKernelWrapperData b e N func abortOnError ⟨data ++ rest, live⟩ =
      ⟨⟨d ++ rest, live⟩, .ok ()⟩ := by
  obtain ⟨h1, h2, h3, h4, h5⟩ := he
  have ht : (data ++ rest).take N = data := by rw [← hN]; simp
  have hd : (data ++ rest).drop N = rest := by rw [← hN]; simp
  cases b with
  | host => simp [genericKernelWrapperData, genericKernelHost, ht, hd, hk]
  | hip => exact absurd rfl hb
  | cuda =>
    simp [genericKernelWrapperData, launchAndSync, ht, hd, hk, h1, h2, h3, h4, h5, reportError]

/-- On every path that returns or aborts, the device memory is released, whatever the other device
calls and the kernel did. -/
theorem C58_no_leak {R : Type} (b : Backend) (e : Env R) (hfree : e.freeOk = true) (N : Nat)
    (func : Kernel R) (abortOnError : Bool) (w : World R)
    (hend : (genericKernelWrapperData b e N func abortOnError w).res = .ok () ∨
      (genericKernelWrapperData b e N func abortOnError w).res = .abort) :
    (genericKernelWrapperData b e N func abortOnError w).world.live = w.live := by
  cases b with
  | host =>
    simp only [genericKernelWrapperData, genericKernelHost] at hend ⊢
    cases h : func (w.host.take N) <;> simp
  | hip => rfl
  | cuda =>
    simp only [genericKernelWrapperData] at hend ⊢
    by_cases hm : e.mallocOk = true
    · simp only [hm, if_true, hfree] at hend ⊢
      generalize (if e.copyInOk = true then w.host.take N else e.fresh) = dev at hend ⊢
      by_cases hl : e.launchOk = true
      · cases h : func dev <;> simp [launchAndSync, hl, h] at hend ⊢
      · simp [launchAndSync, hl]
    · simp [hm]

/-- In the CUDA build, with every device call successful, the wrapper aborts exactly when the kernel
traps and aborting was requested; a trap without that request returns. -/
theorem C58_abort_iff {R : Type} (e : Env R) (he : e.AllOk) (N : Nat)
    (func : Kernel R) (abortOnError : Bool) (w : World R) :
    ((genericKernelWrapperData .cuda e N func abortOnError w).res = .abort ↔
      func (w.host.take N) = .abort ∧ abortOnError = true) ∧
    ((genericKernelWrapperData .cuda e N func abortOnError w).res = .ok () ↔
      (∃ d, func (w.host.take N) = .ok d) ∨
        (func (w.host.take N) = .abort ∧ abortOnError = false)) := by
  obtain ⟨h1, h2, h3, h4, h5⟩ := he
  cases h : func (w.host.take N) <;> cases abortOnError <;>
    simp [genericKernelWrapperData, launchAndSync, h1, h2, h3, h, reportError]

/-- The wrapper without data: same effect in all three builds when the kernel is started and
finishes. -/
theorem C58_same_effect_no_data {σ : Type} (b : Backend) (wreck : σ → σ) (func : σ → Res σ)
    (abortOnError : Bool) (s s' : σ) (hk : func s = .ok s') :
    genericKernelWrapper b true wreck func abortOnError s = (s', .ok ()) := by
  cases b <;> simp [genericKernelWrapper, hk]

/-- The wrapper without data: in device builds it aborts exactly when a started kernel traps and
aborting was requested. -/
theorem C58_abort_iff_no_data {σ : Type} (b : Backend) (hb : b ≠ .host) (launchOk : Bool)
    (wreck : σ → σ) (func : σ → Res σ) (abortOnError : Bool) (s : σ) :
    (genericKernelWrapper b launchOk wreck func abortOnError s).2 = .abort ↔
      launchOk = true ∧ func s = .abort ∧ abortOnError = true := by
  cases b with
  | host => exact absurd rfl hb
  | cuda =>
    cases h : func s <;> cases abortOnError <;> cases launchOk <;>
      simp [genericKernelWrapper, h, reportError]
  | hip =>
    cases h : func s <;> cases abortOnError <;> cases launchOk <;>
      simp [genericKernelWrapper, h, reportError]

/-- `deallocateData` releases a block obtained the way the build obtains its data, and only that
block. -/
theorem C58_deallocateData (b : Backend) (p : Nat) (live : List (Nat × Origin)) :
    let o := if b = .host then Origin.newArray else Origin.device
    (p, o) ∈ live → deallocateData b (p, o) live = .ok (live.erase (p, o)) := by
  cases b <;> intro o h <;> simp_all [deallocateData, o]

/-- In the HIP build the wrapper with data does not compile, so the claim fails there: the kernel
that doubles its single element leaves the array unchanged. -/
theorem C58_hip_violated :
    ¬ ∀ (e : Env Int) (_ : e.AllOk) (func : Kernel Int) (data d : List Int),
      func data = .ok d →
      genericKernelWrapperData .hip e data.length func true ⟨data, []⟩ = ⟨⟨d, []⟩, .ok ()⟩ := by
  intro h
  have := h ⟨true, 0, [], true, true, id, true, true⟩ ⟨rfl, rfl, rfl, rfl, rfl⟩
    (fun l => .ok (l.map (2 * ·))) [3] [6] rfl
  simp [genericKernelWrapperData] at this

/-- A kernel that is never started is not detected: the wrapper returns normally, although aborting
on error was requested, and the array is unchanged. -/
theorem C58_launch_failure_violated :
    ¬ ∀ (e : Env Int) (_ : e.launchOk = false) (func : Kernel Int) (data : List Int),
      e.mallocOk = true → e.copyInOk = true → e.copyOutOk = true → e.freeOk = true →
      (genericKernelWrapperData .cuda e data.length func true ⟨data, []⟩).res = .abort := by
  intro h
  have := h ⟨true, 0, [], true, false, id, true, true⟩ rfl
    (fun l => .ok (l.map (2 * ·))) [3] rfl rfl rfl rfl
  simp [genericKernelWrapperData, launchAndSync, reportError] at this

/-- The doubling kernel on two of three elements, in the CUDA build. -/
example : genericKernelWrapperData .cuda ⟨true, 7, [0, 0], true, true, id, true, true⟩ 2
    (fun l => .ok (l.map (2 * ·))) true ⟨[3, 4] ++ [5], [1]⟩ = ⟨⟨[6, 8] ++ [5], [1]⟩, .ok ()⟩ :=
  C58_same_effect .cuda (by decide) _ ⟨rfl, rfl, rfl, rfl, rfl⟩ 2 _ true [3, 4] [5] [6, 8] [1]
    rfl rfl

/-- A trapping kernel aborts on request, after its memory was released. -/
example :
    let f := genericKernelWrapperData (R := Int) .cuda
      ⟨true, 7, [0], true, true, fun _ => [9], true, true⟩ 1 (fun _ => .abort) true ⟨[3], [1]⟩
    f.res = .abort ∧ f.world.live = [1] := by decide

/-! ### C59 -/

/-- `SHIVA_ASSERT_MSG` has no effect when the condition holds or during constant evaluation. -/
theorem C59_no_effect (cfg : Config) (cond : Bool) (fmt : String) (nargs : Nat)
    (h : cond = true ∨ cfg.constEval = true) : shivaAssertMsg cfg cond fmt nargs = .ok () := by
  rcases h with h | h
  · simp [shivaAssertMsg, h]
  · cases cond <;> simp [shivaAssertMsg, h]

/-- A violated assertion terminates the program, on the host if the message has enough arguments,
and on a device if the message has no conversion at all. -/
theorem C59_terminates_partial (cfg : Config) (hc : cfg.constEval = false) (fmt : String)
    (nargs : Nat) (hf : formatConversions fmt.toList ≤ if cfg.device then 0 else nargs) :
    shivaAssertMsg cfg false fmt nargs = .abort := by
  by_cases hd : cfg.device = true
  · have hf : formatConversions fmt.toList = 0 := by simpa [hd] using hf
    simp [shivaAssertMsg, hd, hc, shivaAssertionFailed, formatOutcome, hf]
  · have hf : formatConversions fmt.toList ≤ nargs := by simpa [hd] using hf
    simp [shivaAssertMsg, hd, hc, shivaAssertionFailed, formatOutcome, hf]

/-- A violated assertion evaluated at run time never lets the program continue, in any
configuration and for any message. -/
theorem C59_never_continues (cfg : Config) (hc : cfg.constEval = false) (fmt : String)
    (nargs : Nat) : shivaAssertMsg cfg false fmt nargs ≠ .ok () := by
  by_cases hd : cfg.device = true
  · by_cases hf : formatConversions fmt.toList ≤ 0 <;>
      simp_all [shivaAssertMsg, shivaAssertionFailed, formatOutcome]
  · by_cases hf : formatConversions fmt.toList ≤ nargs <;>
      simp [shivaAssertMsg, shivaAssertionFailed, formatOutcome, hd, hc, hf]

/-- `shivaAssertionFailed` returns exactly on the host, without the abort request, and with enough
arguments for its message. -/
theorem C59_returns_iff (cfg : Config) (callAbort : Bool) (fmt : String) (nargs : Nat) :
    shivaAssertionFailed cfg callAbort fmt nargs = .ok () ↔
      cfg.device = false ∧ callAbort = false ∧ formatConversions fmt.toList ≤ nargs := by
  by_cases hd : cfg.device = true
  · by_cases hf : formatConversions fmt.toList = 0 <;>
      simp [shivaAssertionFailed, formatOutcome, hd, hf]
  · by_cases hf : formatConversions fmt.toList ≤ nargs <;> cases callAbort <;>
      simp [shivaAssertionFailed, formatOutcome, hd, hf]

/-- The built-in bounds checks pass as many arguments as their message has conversions. -/
theorem C59_builtin_format : formatConversions boundsFmt.toList = 2 := by decide +kernel

/-- The built-in checks, at run time on the host with bounds checking: abort exactly when the index is
outside its extent. -/
theorem C59_builtin_check (index dim : Int) :
    boundsAssert checkedHost index dim = if 0 ≤ index ∧ index < dim then .ok () else .abort := by
  by_cases h : 0 ≤ index ∧ index < dim
  · simp [boundsAssert, checkedHost, shivaAssertMsg, h]
  · rw [if_neg h]
    simp only [boundsAssert, checkedHost, if_true, h, decide_false]
    exact C59_terminates_partial _ rfl _ _ C59_builtin_format.le

/-- The device branch formats the message without its arguments: a failed built-in check is
undefined there and does not merely terminate. -/
theorem C59_device_format_violated :
    ¬ ∀ (cfg : Config) (index dim : Int), cfg.boundsCheck = true → cfg.constEval = false →
      ¬ (0 ≤ index ∧ index < dim) → boundsAssert cfg index dim = .abort := by
  intro h
  have := h ⟨true, false, true⟩ 3 3 rfl rfl (by decide)
  revert this
  decide +kernel

example : boundsAssert checkedHost 3 3 = .abort ∧ boundsAssert checkedHost 2 3 = .ok () ∧
    boundsAssert checkedConst 3 3 = .ok () := by decide +kernel

end Verif.Props
