import Verif.Model.CArrayHelper
import Verif.Spec.History

/-!
# `include/shiva/common/CArray.hpp`

A CArray is a list of dimensions and a position in a block of memory.  For an owning array
(`CArrayNd`) the block is the array's own buffer and the position is 0; for a view (`CArrayViewNd`
and slices) it is the position of the pointer in the underlying buffer.
-/

namespace Verif

/-- CArray.hpp 41-42, 219-221 `CArray< T, DATA_BUFFER, DIMS... >` with its `m_data` pointer. -/
structure View where
  dims : List Int
  off : Int
  deriving DecidableEq, Repr

/-- What an `operator[]` chain denotes: a sub-array or an element (as its position in the block).
Used for CArray.hpp 241-250. -/
inductive Ref where
  | sub (v : View)
  | elem (addr : Int)
  deriving DecidableEq, Repr

namespace CArray

variable {R : Type}

/-- CArray.hpp 54 `rank`. -/
def rank (v : View) : Int := v.dims.length

/-- CArray.hpp 57-58 `extent< INDEX >`. -/
def extent (v : View) (k : Int) : Res Int := CArrayHelper.get k v.dims

/-- CArray.hpp 61 `size`. -/
def size (v : View) : Res Int := CArrayHelper.size v.dims

/-- `m_data[ k ]` as an lvalue in a block of `len` elements: undefined outside the block.
Used for CArray.hpp 117, 130, 144, 158. -/
def element (len : Nat) (v : View) (k : Int) : Res Int :=
  if 0 ≤ v.off + k ∧ v.off + k < len then .ok (v.off + k) else .ub

/-- `&m_data[ k ]` as a pointer into a block of `len` elements: one past the end is allowed.
Used for CArray.hpp 245. -/
def pointer (len : Nat) (v : View) (k : Int) : Res Int :=
  if 0 ≤ v.off + k ∧ v.off + k ≤ len then .ok (v.off + k) else .ub

/-- CArray.hpp 112-131 `operator()< INDICES... >()`; the position of the denoted element. -/
def parenCT (len : Nat) (v : View) (idx : List Int) : Res Int := do
  let _ ← Res.staticAssert (idx.length = v.dims.length)
  let k ← CArrayHelper.evalCT v.dims idx
  element len v k

/-- CArray.hpp 139-159 `operator()( indices... )`; the position of the denoted element. -/
def parenRT (cfg : Config) (len : Nat) (v : View) (idx : List Int) : Res Int := do
  let _ ← Res.staticAssert (idx.length = v.dims.length)
  let k ← CArrayHelper.evalRT cfg v.dims idx
  element len v k

/-- CArray.hpp 194-216, 225-251 `operator[]` through `squareBracketOperatorHelper`. -/
def bracket (cfg : Config) (len : Nat) (v : View) (i : Int) : Res Ref :=
  match v.dims with
  | [] => .illFormed
  | d :: ds => do
    let _ ← boundsAssert cfg i d
    match ds with
    | [] => do
      let a ← parenRT cfg len v [i]
      .ok (.elem a)
    | e :: es => do
      let s ← CArrayHelper.stride ((d :: e :: es) ++ [1])
      let k ← imul i s
      let p ← pointer len v k
      .ok (.sub ⟨e :: es, p⟩)

/-- A chain `a[i][j]...` of `operator[]`. An element has no `operator[]`.  Used for CArray.hpp 194-216. -/
def bracketChain (cfg : Config) (len : Nat) : Ref → List Int → Res Ref
  | r, [] => .ok r
  | .elem _, _ :: _ => .illFormed
  | .sub v, i :: is => do
    let r ← bracket cfg len v i
    bracketChain cfg len r is

/-- Reading an element of the block.  Used for CArray.hpp 127, 155. -/
def load (mem : List R) (addr : Int) : Res R :=
  if h : 0 ≤ addr ∧ addr < mem.length then .ok (mem[addr.toNat]'(by omega)) else .ub

/-- Writing an element of the block.  Used for CArray.hpp 114, 141. -/
def store (mem : List R) (addr : Int) (x : R) : Res (List R) :=
  if 0 ≤ addr ∧ addr < mem.length then .ok (mem.set addr.toNat x) else .ub

/-- `a( idx )` as an rvalue.  Used for CArray.hpp 153-159. -/
def read (cfg : Config) (mem : List R) (v : View) (idx : List Int) : Res R := do
  let a ← parenRT cfg mem.length v idx
  load mem a

/-- `a( idx ) = x`.  Used for CArray.hpp 139-145. -/
def write (cfg : Config) (mem : List R) (v : View) (idx : List Int) (x : R) : Res (List R) := do
  let a ← parenRT cfg mem.length v idx
  store mem a x

/-- `a[i][j].. ` as an rvalue, for a chain ending at an element.  Used for CArray.hpp 194-198. -/
def readBracket (cfg : Config) (mem : List R) (v : View) (idx : List Int) : Res R := do
  match ← bracketChain cfg mem.length (.sub v) idx with
  | .elem a => load mem a
  | .sub _ => .illFormed

/-- `a[i][j].. = x`, for a chain ending at an element.  Used for CArray.hpp 205-216. -/
def writeBracket (cfg : Config) (mem : List R) (v : View) (idx : List Int) (x : R) :
    Res (List R) := do
  match ← bracketChain cfg mem.length (.sub v) idx with
  | .elem a => store mem a x
  | .sub _ => .illFormed

/-- Executing one assignment of a history, `a( idx ) = val` or `a[i][j].. = val`.  Used for CArray.hpp 141, 206. -/
def assign (cfg : Config) (v : View) (mem : List R) (w : Spec.Assign R) : Res (List R) :=
  match w.style with
  | .paren => write cfg mem v w.idx w.val
  | .bracket => writeBracket cfg mem v w.idx w.val

/-- Executing a history of assignments from left to right.  Used for CArray.hpp 141, 206. -/
def runHistory (cfg : Config) (v : View) : List R → List (Spec.Assign R) → Res (List R)
  | mem, [] => .ok mem
  | mem, w :: ws => do
    let mem' ← assign cfg v mem w
    runHistory cfg v mem' ws

/-- CArray.hpp 89-91 `CArray( U... args ) : m_data{ args... }` for an owning array: aggregate
initialisation of `T[size]`.  `zero` is the value-initialised element; more initialisers than
elements, or a size that is not positive, is ill-formed. -/
def listInit (zero : R) (dims : List Int) (args : List R) : Res (List R) := do
  let n ← (CArrayHelper.size dims).constexpr
  let _ ← Res.staticAssert (0 < n)
  let _ ← Res.staticAssert ((args.length : Int) ≤ n)
  .ok (args ++ List.replicate (n.toNat - args.length) zero)

/-- CArray.hpp 266 `CArrayNd< T, DIMS... >`: the view of an owning array onto its own buffer. -/
def whole (dims : List Int) : View := ⟨dims, 0⟩

end CArray
end Verif
