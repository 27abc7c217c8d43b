import Verif.Model.Arith

/-!
# The portability layer: `pmpl.hpp`

`check` compares two numbers; the kernel wrappers run a callable on the host or through a device.
Device calls may fail, so they are modelled with an environment that says what each of them did.
-/

namespace Verif

namespace Pmpl

/-- include/shiva/common/pmpl.hpp 71-75 `check`: `( a - b ) * ( a - b ) < tolerance * tolerance`.
The comparison of the real type is a parameter. -/
def check {R : Type} (A : Arith R) (lt : R → R → Prop) (a b tolerance : R) : Prop :=
  lt (A.mul (A.sub a b) (A.sub a b)) (A.mul tolerance tolerance)

/-- The three builds distinguished by pmpl.hpp 30-52: no device, CUDA, HIP (ROCm, where no `cuda…`
name is declared). -/
inductive Backend where
  | host
  | cuda
  | hip
  deriving DecidableEq, Repr

/-- What the device run time does during one wrapper call (any combination is possible).
Used for pmpl.hpp 32-50, 161-168. -/
structure Env (R : Type) where
  /-- `deviceMalloc` reports success -/
  mallocOk : Bool
  /-- the address it returns -/
  address : Nat
  /-- the contents of the new memory -/
  fresh : List R
  /-- the copy to the device reports success -/
  copyInOk : Bool
  /-- the kernel is started; the synchronous error of a launch that is not started is reported by
  `cudaGetLastError`, which pmpl.hpp never calls, and not by the later synchronisation -/
  launchOk : Bool
  /-- what a kernel that traps leaves in its memory -/
  wreck : List R → List R
  /-- the copy from the device reports success -/
  copyOutOk : Bool
  /-- `deviceFree` reports success -/
  freeOk : Bool

/-- Every device call reports success.  Used for pmpl.hpp 107, 169. -/
def Env.AllOk {R : Type} (e : Env R) : Prop :=
  e.mallocOk = true ∧ e.copyInOk = true ∧ e.launchOk = true ∧ e.copyOutOk = true ∧ e.freeOk = true

/-- The state a wrapper call changes: the caller's array and the live device allocations.
Used for pmpl.hpp 156-168. -/
structure World (R : Type) where
  host : List R
  live : List Nat

/-- The state when the call returns or the process terminates, and which of the two happened.
Used for pmpl.hpp 106-117, 166-179. -/
structure Finish (R : Type) where
  world : World R
  res : Res Unit

/-- A kernel with a data pointer, as a function of the elements it touches.  It may abort (trap) or
have undefined behaviour.  Used for pmpl.hpp 137-140. -/
abbrev Kernel (R : Type) := List R → Res (List R)

/-- include/shiva/common/pmpl.hpp 136-140 `genericKernel` on the host: run the callable on the first
elements of the caller's array. -/
def genericKernelHost {R : Type} (N : Nat) (func : Kernel R) (w : World R) : Finish R :=
  match func (w.host.take N) with
  | .ok d => ⟨{ w with host := d ++ w.host.drop N }, .ok ()⟩
  | .illFormed => ⟨w, .illFormed⟩
  | .ub => ⟨w, .ub⟩
  | .abort => ⟨w, .abort⟩
  | .nonfinite => ⟨w, .nonfinite⟩

/-- include/shiva/common/pmpl.hpp 136-140 `genericKernel` launched with one thread, followed by the
synchronisation: the contents of device memory and whether the synchronisation reports success. -/
def launchAndSync {R : Type} (e : Env R) (func : Kernel R) (dev : List R) : Res (List R × Bool) :=
  if e.launchOk then
    match func dev with
    | .ok d => .ok (d, true)
    | .abort => .ok (e.wreck dev, false)
    | .illFormed => .illFormed
    | .ub => .ub
    | .nonfinite => .nonfinite
  else .ok (dev, true)

/-- pmpl.hpp 107-117 and 172-181: report a failed synchronisation and abort on request. -/
def reportError (err : Bool) (abortOnError : Bool) : Res Unit :=
  if err then (if abortOnError then .abort else .ok ()) else .ok ()

/-- include/shiva/common/pmpl.hpp 155-185 `genericKernelWrapper( N, hostData, func, abortOnError )`.

The results of allocation, copies and deallocation are ignored by the code.  After a failed
allocation the uninitialised pointer `deviceData` is passed on, which is undefined.  Line 162 names
`cudaMemcpyHostToDevice` in every device build, so the HIP build does not compile.
Simplification: `N` is not negative (a negative `N` becomes a huge allocation size). -/
def genericKernelWrapperData {R : Type} (b : Backend) (e : Env R) (N : Nat) (func : Kernel R)
    (abortOnError : Bool) (w : World R) : Finish R :=
  match b with
  | .host => genericKernelHost N func w
  | .hip => ⟨w, .illFormed⟩
  | .cuda =>
    if e.mallocOk then
      let live := e.address :: w.live
      let dev := if e.copyInOk then w.host.take N else e.fresh
      match launchAndSync e func dev with
      | .ok (dev, ok) =>
        let host := if e.copyOutOk then dev ++ w.host.drop N else w.host
        let live := if e.freeOk then live.erase e.address else live
        ⟨⟨host, live⟩, reportError (!ok) abortOnError⟩
      | .illFormed => ⟨{ w with live := live }, .illFormed⟩
      | .ub => ⟨{ w with live := live }, .ub⟩
      | .abort => ⟨{ w with live := live }, .abort⟩
      | .nonfinite => ⟨{ w with live := live }, .nonfinite⟩
    else ⟨w, .ub⟩

/-- include/shiva/common/pmpl.hpp 99-122 `genericKernelWrapper( func, abortOnError )`: a callable
without data pointer, as a function of the memory `σ` it reaches through its captures. -/
def genericKernelWrapper {σ : Type} (b : Backend) (launchOk : Bool) (wreck : σ → σ)
    (func : σ → Res σ) (abortOnError : Bool) (s : σ) : σ × Res Unit :=
  match b with
  | .host =>
    match func s with
    | .ok s' => (s', .ok ())
    | .illFormed => (s, .illFormed)
    | .ub => (s, .ub)
    | .abort => (s, .abort)
    | .nonfinite => (s, .nonfinite)
  | _ =>
    if launchOk then
      match func s with
      | .ok s' => (s', .ok ())
      | .abort => (wreck s, reportError true abortOnError)
      | .illFormed => (s, .illFormed)
      | .ub => (s, .ub)
      | .nonfinite => (s, .nonfinite)
    else (s, .ok ())

/-- How a block of memory was obtained: `new[]` or `deviceMalloc`/`deviceMallocManaged`.
Used for pmpl.hpp 161, 193-200. -/
inductive Origin where
  | newArray
  | device
  deriving DecidableEq, Repr

/-- include/shiva/common/pmpl.hpp 192-200 `deallocateData`: `deviceFree` in device builds, `delete[]`
otherwise.  `live` lists the live blocks.  `delete[]` of anything else than a live `new[]` block is
undefined; `deviceFree` of anything else than a live device block reports an error that is ignored. -/
def deallocateData (b : Backend) (p : Nat × Origin) (live : List (Nat × Origin)) :
    Res (List (Nat × Origin)) :=
  match b with
  | .host => if p.2 = .newArray ∧ p ∈ live then .ok (live.erase p) else .ub
  | _ => if p.2 = .device ∧ p ∈ live then .ok (live.erase p) else .ok live

end Pmpl

end Verif
