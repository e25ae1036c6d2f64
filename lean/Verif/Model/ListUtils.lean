import Verif.Model.Py
/-!
# Nested lists: `xii/linalg/list_utils.py`
-/
namespace Verif.ListUtils
open Verif

/-- A Python value as seen by `list_utils.py`: a `list` (`node`) or anything
else (`leaf`).  xii/linalg/list_utils.py:6-43 only ever asks
`isinstance(lst, list)`. -/
inductive NL (α : Type) where
  | leaf : α → NL α
  | node : List (NL α) → NL α

namespace NL

variable {α β : Type}

mutual
/-- `shape_list`, xii/linalg/list_utils.py:6-14.  `AssertionError` when the
items have different shapes.  `set(map(shape_list, lst)).pop()` followed by
`assert not items_shape` is: all shapes equal the first one. -/
def shapeList : NL α → Py (List Nat)
  | .leaf _ => .ok []
  | .node [] => .ok []
  | .node (x :: xs) => do
      let s ← shapeList x
      let ss ← shapeLists xs
      pyAssert (ss.all (· == s))
      return (xs.length + 1) :: s
/-- `map(shape_list, lst)` in xii/linalg/list_utils.py:10. -/
def shapeLists : List (NL α) → Py (List (List Nat))
  | [] => .ok []
  | x :: xs => do
      let s ← shapeList x
      let ss ← shapeLists xs
      return s :: ss
end

/-- The items of the outer list as concatenable lists; `[] + item` raises
`TypeError` for an item which is not a list.  xii/linalg/list_utils.py:23. -/
def sumItems : List (NL α) → Py (List (NL α))
  | [] => .ok []
  | .leaf _ :: _ => .error .typeError
  | .node ys :: xs => do
      let r ← sumItems xs
      return ys ++ r

/-- `sum(lst, [])`, xii/linalg/list_utils.py:23. -/
def sumLists : NL α → Py (NL α)
  | .leaf _ => .error .typeError
  | .node xs => do
      let r ← sumItems xs
      return .node r

/-- The `while len(fshape) > 1` loop of `flatten_list`,
xii/linalg/list_utils.py:22-24. -/
def flattenLoop : List Nat → NL α → Py (NL α)
  | a :: b :: rest, lst => do
      let lst' ← sumLists lst
      flattenLoop (a * b :: rest) lst'
  | _, lst => .ok lst
termination_by s => s.length

/-- `flatten_list`, xii/linalg/list_utils.py:17-25. -/
def flattenList (lst : NL α) : Py (NL α) := do
  let s ← shapeList lst
  flattenLoop s lst

/-- Python `lst[:c]` (a negative `c` counts from the end). -/
def sliceTo (lst : List α) (c : Int) : List α :=
  if 0 ≤ c then lst.take c.toNat else lst.take (lst.length - (-c).toNat)

/-- Python `lst[c:]` (a negative `c` counts from the end). -/
def sliceFrom (lst : List α) (c : Int) : List α :=
  if 0 ≤ c then lst.drop c.toNat else lst.drop (lst.length - (-c).toNat)

/-- `package`, xii/linalg/list_utils.py:41-43.  Fuel stands for the recursion. -/
def package : Nat → List (NL α) → Int → Py (List (NL α))
  | 0, _, _ => .error .outOfFuel
  | fuel + 1, lst, c =>
      if lst.isEmpty then .ok [] else do
        let r ← package fuel (sliceFrom lst c) c
        return .node (sliceTo lst c) :: r

/-- The `while len(shape) > 1` loop of `reshape_list`,
xii/linalg/list_utils.py:34-37.  The shape is passed reversed, so `shape[-1]`
is the head and `shape[:-1]` the tail. -/
def reshapeLoop (fuel : Nat) : List Int → NL α → Py (NL α)
  | c :: d :: rest, .node lst => do
      let r ← package fuel lst c
      reshapeLoop fuel (d :: rest) (.node r)
  | _ :: _ :: _, .leaf _ => .error .typeError
  | _, lst => .ok lst

/-- `reduce(lambda x, y: x*y, shape)`: `TypeError` for the empty tuple.
xii/linalg/list_utils.py:31. -/
def prodShape : List Int → Py Int
  | [] => .error .typeError
  | x :: xs => .ok (xs.foldl (· * ·) x)

/-- `reshape_list`, xii/linalg/list_utils.py:28-38.  Extents of the requested
shape are Python integers, possibly negative. -/
def reshapeList (fuel : Nat) (lst : NL α) (shape : List Int) : Py (NL α) := do
  let oldShape ← shapeList lst
  let p ← prodShape (oldShape.map Int.ofNat)
  let q ← prodShape shape
  pyAssert (p == q)
  let flat ← flattenList lst
  reshapeLoop fuel shape.reverse flat

/-- `list(map(assemble, flatten_list(form)))` for items which are forms or
numbers, xii/assembler/xii_assembly.py:65.  An item which is an (empty) list is
passed to `assemble` again, where line 62-65 raises `TypeError` (`reduce` of an
empty tuple). -/
def mapItems (f : α → Py β) : List (NL α) → Py (List (NL β))
  | [] => .ok []
  | .leaf a :: xs => do
      let b ← f a
      let r ← mapItems f xs
      return .leaf b :: r
  | .node _ :: _ => .error .typeError

/-- The branch of `ii_assemble` which handles lists of forms,
xii/assembler/xii_assembly.py:58-67.  `f` is the assembly of a single form (or
the identity on numbers).  The final wrapping in `block_vec`/`block_mat` does not
change the entries and is left out. -/
def assembleNested (fuel : Nat) (f : α → Py β) : NL α → Py (NL β)
  | .leaf a => do
      let b ← f a
      return .leaf b
  | .node xs => do
      let shape ← shapeList (.node xs)
      let flat ← flattenList (.node xs)
      match flat with
      | .leaf _ => .error .typeError
      | .node items => do
          let blocks ← mapItems f items
          reshapeList fuel (.node blocks) (shape.map Int.ofNat)

end NL
end Verif.ListUtils
