import Verif.Model.BlockOps
/-!
# `ii_Function`, xii/linalg/function.py

Coefficient vectors live in a heap, so that functions which share a vector can be told apart from
functions with equal coefficients.
-/
namespace Verif.IIFunction
open Verif BlockOps

variable {K : Type}

/-- Coefficient vectors by address; addresses from `next` on are unused. -/
structure Heap (K : Type) where
  next : Nat
  vec : Nat → List K

/-- Overwrite the vector at an address. -/
def Heap.put (h : Heap K) (a : Nat) (v : List K) : Heap K :=
  ⟨h.next, fun b => if b = a then v else h.vec b⟩

/-- A function space: its identity and its dimension. -/
structure Space where
  id : Nat
  dim : Nat
  deriving DecidableEq

/-- A dolfin `Function`: its space and the address of its coefficient vector. -/
structure Fn where
  space : Space
  addr : Nat
  deriving DecidableEq

/-- An item of `components`: a function or a vector. -/
inductive Component where
  | fn : Fn → Component
  | vec : Nat → Component
  deriving DecidableEq

/-- `list(map(Function, W))`, xii/linalg/function.py:23: dolfin makes a new zero vector for each function. -/
def create [Zero K] : List Space → Heap K → List Fn × Heap K
  | [], h => ([], h)
  | s :: W, h =>
      let r := create W ⟨h.next + 1, fun b => if b = h.next then List.replicate s.dim 0 else h.vec b⟩
      (⟨s, h.next⟩ :: r.1, r.2)

/-- `c.function_space()`, xii/linalg/function.py:28; vectors do not have the attribute. -/
def asFn : Component → Py Fn
  | .fn f => .ok f
  | .vec _ => .error .attributeError

/-- The generator in `all(…)`, xii/linalg/function.py:33; `all` stops at the first `False`.  Functions do not
have the attribute `size`. -/
def checkSizes (h : Heap K) : List (Component × Space) → Py Unit
  | [] => .ok ()
  | (.vec a, s) :: rest => if (h.vec a).length = s.dim then checkSizes h rest else .error .assertion
  | (.fn _, _) :: _ => .error .attributeError

/-- `[Function(Wi, c) for c, Wi in zip(components, W)]`, xii/linalg/function.py:35: the new function shares the
vector `c`. -/
def wrap : Component × Space → Py Fn
  | (.vec a, s) => .ok ⟨s, a⟩
  | (.fn _, _) => .error .typeError

/-- `__init__` with components, xii/linalg/function.py:25-35.  The list asserted in line 28 is not empty, so the
assertion holds whatever the comparisons say. -/
def initComponents (h : Heap K) (W : List Space) : List Component → Py (List Fn)
  | [] => do
      pyAssert (W.length == 0)
      .error .stopIteration
  | .fn f :: cs => do
      pyAssert ((Component.fn f :: cs).length == W.length)
      pyMap asFn (Component.fn f :: cs)
  | .vec a :: cs => do
      pyAssert ((Component.vec a :: cs).length == W.length)
      let _ ← checkSizes h ((Component.vec a :: cs).zip W)
      pyMap wrap ((Component.vec a :: cs).zip W)

/-- `__init__`, xii/linalg/function.py:21-37; returns `self.functions` and the heap.  That `self.functions` is the
list given by the caller, and not a copy of it, is the subject of `IIFunctionMore`. -/
def init [Zero K] (h : Heap K) (W : List Space) : Option (List Component) → Py (List Fn × Heap K)
  | none => .ok (create W h)
  | some cs => do
      let fs ← initComponents h W cs
      .ok (fs, h)

/-- `vectors`, xii/linalg/function.py:45-47, with their present values. -/
def vectors (h : Heap K) (fs : List Fn) : List (List K) := fs.map (fun f => h.vec f.addr)

/-- Values of `vector()`, xii/linalg/function.py:49-63 and 10-16: a nested vector refers to the vectors of the
components. -/
def nestValues (h : Heap K) (fs : List Fn) : List K := (vectors h fs).flatten

/-- Assignment of entry `k` of the vector `vector()`, xii/linalg/function.py:49-63 and 10-16, by its user. -/
def setEntry (h : Heap K) : List Fn → Nat → K → Py (Heap K)
  | [], _, _ => .error .indexError
  | f :: fs, k, v =>
      if k < (h.vec f.addr).length then .ok (h.put f.addr ((h.vec f.addr).set k v))
      else setEntry h fs (k - (h.vec f.addr).length) v

/-- `__getitem__` of an int, xii/linalg/function.py:69-71. -/
def getInt (fs : List Fn) (i : Int) : Py Fn := do
  pyAssert (decide (0 ≤ i) && decide (i < fs.length))
  pyGet fs i.toNat

/-- `__getitem__` of an index which is not an int (e.g. a numpy integer), xii/linalg/function.py:73-74: lists
count negative indices from the end.  Slices are in `IIFunctionMore`. -/
def getOther (fs : List Fn) (i : Int) : Py Fn :=
  if 0 ≤ i then pyGet fs i.toNat
  else if 0 ≤ i + fs.length then pyGet fs (i + fs.length).toNat
  else .error .indexError

/-- Something that can be interpolated: a function, whose coefficients are read when it is interpolated, or an
expression. -/
inductive Source (K : Type) where
  | fn : Fn → Source K
  | expr : (Space → Py (List K)) → Source K

/-- `df.interpolate(gi, fi.function_space())`, xii/linalg/function.py:84.  `transfer s t v` are the coefficients in
`t` of the interpolant of the function in `s` with coefficients `v`. -/
def interpolant (transfer : Space → Space → List K → Py (List K)) (h : Heap K) (t : Space) :
    Source K → Py (List K)
  | .fn g => transfer g.space t (h.vec g.addr)
  | .expr e => e t

/-- The list comprehension of `interpolate`, xii/linalg/function.py:84.  The heap is returned also when an
interpolation raises: components before it have been assigned. -/
def interpolateLoop (transfer : Space → Space → List K → Py (List K)) :
    List (Fn × Source K) → Heap K → Heap K × Py Unit
  | [], h => (h, .ok ())
  | (f, g) :: rest, h =>
      match interpolant transfer h f.space g with
      | .ok v => interpolateLoop transfer rest (h.put f.addr v)
      | .error e => (h, .error e)

/-- `interpolate`, xii/linalg/function.py:79-86. -/
def interpolate (transfer : Space → Space → List K → Py (List K)) (fs : List Fn) (g : List (Source K))
    (h : Heap K) : Heap K × Py Unit :=
  if fs.length = g.length then interpolateLoop transfer (fs.zip g) h else (h, .error .assertion)

end Verif.IIFunction
