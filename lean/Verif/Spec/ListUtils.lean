import Mathlib.Data.List.Forall2
import Verif.Model.ListUtils
/-!
# Specification of nested lists

Independent of the functions in `list_utils.py`: what it means for a nested list
to be an array of a given shape, its entries, and numpy's row-major numbering.
-/
namespace Verif.ListUtils.NL

variable {α β : Type}

/-- `l` is an array of shape `s` with positive extents (numpy sense). -/
def IsArray : List Nat → NL α → Prop
  | [], .leaf _ => True
  | [], .node _ => False
  | _ :: _, .leaf _ => False
  | n :: s, .node xs => 0 < n ∧ xs.length = n ∧ ∀ x ∈ xs, IsArray s x

/-- Python indexing `l[i0][i1]...`. -/
def get? : NL α → List Nat → Option (NL α)
  | l, [] => some l
  | .leaf _, _ :: _ => none
  | .node xs, i :: is =>
      match xs[i]? with
      | none => none
      | some x => get? x is

/-- `idx` is a valid multi-index of an array of shape `s`. -/
def InBounds : List Nat → List Nat → Prop
  | [], [] => True
  | n :: s, i :: is => i < n ∧ InBounds s is
  | _, _ => False

/-- numpy's row-major (C order) position of a multi-index. -/
def rowMajor : List Nat → List Nat → Nat
  | _ :: s, i :: is => i * s.prod + rowMajor s is
  | _, _ => 0

/-- Apply `f` to every entry, keeping the layout. -/
inductive Mapped (f : α → Py β) : NL α → NL β → Prop
  | leaf {a b} : f a = .ok b → Mapped f (.leaf a) (.leaf b)
  | node {xs ys} : List.Forall₂ (Mapped f) xs ys → Mapped f (.node xs) (.node ys)

/-- `l` is rectangular of shape `s`, where an empty list counts as a scalar. A
list is ragged when no `s` fits. -/
inductive Shaped : List Nat → NL α → Prop
  | leaf (a : α) : Shaped [] (.leaf a)
  | empty : Shaped [] (.node [])
  | node (xs : List (NL α)) (s : List Nat) : xs ≠ [] → (∀ x ∈ xs, Shaped s x) →
      Shaped (xs.length :: s) (.node xs)

end Verif.ListUtils.NL
