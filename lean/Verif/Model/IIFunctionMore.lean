import Verif.Model.IIFunction
/-!
# `ii_Function`, xii/linalg/function.py: slices, names, random coefficients and the list of the caller
-/
namespace Verif.IIFunction
open Verif BlockOps
variable {K : Type}

/-- An end of a slice as python reads it, for `lower ≤ .. ≤ upper` and a list with `n` items; `dflt` if it is not given. -/
def sliceEnd (n : Nat) (lower upper dflt : Int) : Option Int → Int
  | none => dflt
  | some i => if i < 0 then max (i + n) lower else min i upper

/-- The numbers of items in a slice `start:stop:step` of a list with `n` items. -/
def sliceItems (n : Nat) (start stop step : Option Int) : Py (List Int) :=
  let s := step.getD 1
  if s = 0 then .error .valueError
  else if 0 < s then
    let a := sliceEnd n 0 n 0 start
    let b := sliceEnd n 0 n n stop
    .ok ((List.range ((b - a + s - 1) / s).toNat).map (fun k : Nat => a + k * s))
  else
    let a := sliceEnd n (-1) (n - 1) (n - 1) start
    let b := sliceEnd n (-1) (n - 1) (-1) stop
    .ok ((List.range ((a - b - s - 1) / (-s)).toNat).map (fun k : Nat => a + k * s))

/-- `__getitem__` of a slice, xii/linalg/function.py:73-74: the list's own. -/
def getSlice (fs : List Fn) (start stop step : Option Int) : Py (List Fn) := do
  let is ← sliceItems fs.length start stop step
  pyMap (fun (i : Int) => pyGet fs i.toNat) is

/-- The list comprehension of `rename`, xii/linalg/function.py:39-40, over `zip(self, names)`.  Functions are given by the
    identities of the objects, which have labels; `rename` of dolfin returns `None`. -/
def rename {Name : Type} : List Nat → List Name → (Nat → Name) → (Nat → Name) × List Unit
  | o :: os, m :: names, labels =>
      let r := rename os names (fun p => if p = o then m else labels p)
      (r.1, () :: r.2)
  | _, _, labels => (labels, [])

/-- `randomize`, xii/linalg/function.py:88-93.  `draw k n` is the result of call number `k` of `np.random.randn(n)`;
    `set_local` overwrites the vector. -/
def randomize (draw : Nat → Nat → List K) : List Fn → Nat → Heap K → Heap K
  | [], _, h => h
  | f :: fs, k, h => randomize draw fs (k + 1) (h.put f.addr (draw k (h.vec f.addr).length))

/-- Lists by address. -/
structure Lists where
  next : Nat
  list : Nat → List Component

/-- `__init__`, xii/linalg/function.py:21-37, with `components` the list at an address: the address of `self.functions`.  Line 29
    keeps the list of the caller, lines 23 and 35 make a new one. -/
def initList [Zero K] (h : Heap K) (ls : Lists) (W : List Space) : Option Nat → Py (Nat × Lists × Heap K)
  | none =>
      let r := create W h
      .ok (ls.next, ⟨ls.next + 1, fun b => if b = ls.next then r.1.map Component.fn else ls.list b⟩, r.2)
  | some a => do
      let fs ← initComponents h W (ls.list a)
      match ls.list a with
      | .fn _ :: _ => .ok (a, ls, h)
      | _ => .ok (ls.next, ⟨ls.next + 1, fun b => if b = ls.next then fs.map Component.fn else ls.list b⟩, h)

/-- The caller assigns to the list (`comps[:] = …`, `append`, `pop`). -/
def Lists.put (ls : Lists) (a : Nat) (l : List Component) : Lists := ⟨ls.next, fun b => if b = a then l else ls.list b⟩

end Verif.IIFunction
