import Verif.Model.CArray

/-!
# Types of the expressions formed with `include/shiva/common/CArray.hpp`

`Model/CArray.lean` says which element an access denotes; this file says whether the access compiles and
whether its result can be assigned to.  Simplification: the element type is an arithmetic type, so that
it has no `operator[]` of its own.
-/

namespace Verif.CArrayTypes

/-- The template argument `DATA_BUFFER` of CArray.hpp 41: `T[N]`, `T * const`, or plain `T`. -/
inductive Buffer where
  | owned | pointer | value
  deriving DecidableEq, Repr

/-- The type of an lvalue or temporary of type `CArray< T, DATA_BUFFER, DIMS... >`.  Used for CArray.hpp 41-42. -/
structure ArrTy where
  buffer : Buffer
  /-- `T` is const-qualified -/
  elemConst : Bool
  /-- the array expression itself is const-qualified -/
  objConst : Bool
  rank : Nat
  deriving DecidableEq, Repr

/-- CArray.hpp 257-258 `Scalar< T >`. -/
def scalar (elemConst objConst : Bool) : ArrTy := ⟨.owned, elemConst, objConst, 1⟩
/-- CArray.hpp 265-266 `CArrayNd< T, DIMS... >`. -/
def carrayNd (elemConst objConst : Bool) (rank : Nat) : ArrTy := ⟨.owned, elemConst, objConst, rank⟩
/-- CArray.hpp 273-274 `ScalarView< T >`, which is `CArray< T, T, 1 >`. -/
def scalarView (elemConst objConst : Bool) : ArrTy := ⟨.value, elemConst, objConst, 1⟩
/-- CArray.hpp 281-282 `CArrayViewNd< T, DIMS... >`. -/
def carrayViewNd (elemConst objConst : Bool) (rank : Nat) : ArrTy :=
  ⟨.pointer, elemConst, objConst, rank⟩

/-- The type of an expression reached from an array: an array, or an element that is const or not.
Used for CArray.hpp 41-48. -/
inductive Ty where
  | arr (a : ArrTy)
  | elem (isConst : Bool)
  deriving DecidableEq, Repr

/-- `m_data[ k ]` is well-formed for arrays and pointers, not for an arithmetic type.
Used for CArray.hpp 117, 221, 245. -/
def Buffer.subscriptable : Buffer → Bool
  | .owned | .pointer => true
  | .value => false

/-- CArray.hpp 112-159 `operator()` with the right number of indices: `T &`, or `add_const_t< T > &` on a
const array. -/
def parenTy (a : ArrTy) : Option Ty :=
  if a.buffer.subscriptable then some (.elem (if a.objConst then true else a.elemConst)) else none

/-- CArray.hpp 166-176, 194-216, 225-251 `operator[]`.  A const array uses `const_type`, whose element type
is `T const`, or the const `operator()`; a non-const one uses `type`, or casts the const away again.  A
slice is a temporary, hence not const. -/
def bracketTy (a : ArrTy) : Option Ty :=
  if a.buffer.subscriptable then
    match a.rank with
    | 0 => none
    | 1 => some (.elem (if a.objConst then true else a.elemConst))
    | n + 2 => some (.arr ⟨.pointer, if a.objConst then true else a.elemConst, false, n + 1⟩)
  else none

/-- CArray.hpp 97-105 `data()`, followed by taking an element: `data()[k]` for an array or pointer
buffer, `data()` itself for a plain value.  Constness of the array makes the pointer const, which it is
anyway, not what it points to. -/
def dataTy (a : ArrTy) : Ty :=
  match a.buffer with
  | .owned | .value => .elem (if a.objConst then true else a.elemConst)
  | .pointer => .elem a.elemConst

/-- What a program can do with an array expression and still refer to the same elements.
Used for CArray.hpp 97-216. -/
inductive Step where
  /-- `x( i, j, .. )` -/
  | paren
  /-- `x[ i ]` -/
  | bracket
  /-- bind the array to a const name -/
  | bindConst
  /-- `auto y = x;`, which refers to the same elements only for a view -/
  | copy
  /-- `x.data()` -/
  | data
  deriving DecidableEq, Repr

/-- The type after one step; `none` if it does not compile or does not refer to the same elements.
Used for CArray.hpp 97-216. -/
def step : Ty → Step → Option Ty
  | .elem _, _ => none
  | .arr a, .paren => parenTy a
  | .arr a, .bracket => bracketTy a
  | .arr a, .bindConst => some (.arr { a with objConst := true })
  | .arr a, .copy => if a.buffer = .pointer then some (.arr { a with objConst := false }) else none
  | .arr a, .data => some (dataTy a)

/-- The type after a sequence of steps.  Used for CArray.hpp 97-216. -/
def path : Ty → List Step → Option Ty
  | t, [] => some t
  | t, s :: ss => (step t s).bind fun t' => path t' ss

/-! ### Views of built-in arrays -/

/-- CArray.hpp 69-91: constructing a `CArrayViewNd< T, DIMS... >` from a built-in array of `n` elements.
The two wrapping constructors take a reference to an array of exactly `size` elements, const (lines
69-73) or not (78-82).  If neither matches, the array decays to a pointer and the list-initialisation
constructor (89-91) takes it: `m_data{ pointer }`.  All three need the pointer conversion
`buffer element * -> T *`. -/
def viewOfArray (viewConst bufConst : Bool) (dims : List Int) (n : Nat) : Res View := do
  let size ← (CArrayHelper.size dims).constexpr
  let _ ← Res.staticAssert (0 < size)
  if (n : Int) = size then
    if bufConst then
      let _ ← Res.staticAssert (viewConst = true)
      .ok ⟨dims, 0⟩
    else .ok ⟨dims, 0⟩
  else
    let _ ← Res.staticAssert (bufConst = true → viewConst = true)
    .ok ⟨dims, 0⟩

end Verif.CArrayTypes
