import Verif.Model.Ufl
import Verif.Model.BlockOps
import Mathlib.Data.List.Dedup
import Mathlib.Data.Rat.Defs
import Mathlib.Algebra.Order.Ring.Unbundled.Rat
/-!
# `xii/assembler/block_form.py`
-/
namespace Verif.BlockForm
open Verif Ufl BlockOps

variable {S : Type} [DecidableEq S]

/-- An integral: the integrand and everything else (domain, type, subdomain, metadata). -/
structure Integral (S : Type) where
  integrand : UExpr S
  rest : Nat := 0

/-- What is stored in a block: a number (dolfin's `Constant` is not distinguished from it) or a form, the sum of its
integrals. -/
inductive Entry (S : Type) where
  | num (c : ℚ)
  | form (is : List (Integral S))

/-- Spaces of the arguments with number `n` among terminals. -/
def spacesIn (n : Nat) : List (Term S) → List S
  | [] => []
  | ⟨.argument k V, _⟩ :: ts => if k = n then V :: spacesIn n ts else spacesIn n ts
  | _ :: ts => spacesIn n ts

/-- `test_function` (`n = 0`) and `trial_function` (`n = 1`) of a form, xii/assembler/block_form.py:24-37: the spaces of
its arguments without repetition. -/
def functions (n : Nat) (is : List (Integral S)) : List S :=
  (is.flatMap (fun I => spacesIn n (argsOf (traverseTerminals I.integrand)))).dedup

/-- Addition of forms and numbers (UFL): zero is neutral, other numbers cannot be added to a form. -/
def addEntry : Entry S → Entry S → Py (Entry S)
  | .form a, .form b => .ok (.form (a ++ b))
  | .num c, .form b => if c = 0 then .ok (.form b) else .error .typeError
  | .form a, .num c => if c = 0 then .ok (.form a) else .error .typeError
  | .num a, .num b => .ok (.num (a + b))

/-- The checks of `__setitem__` for a row of a bilinear form: the row has test space `V`, the column trial space
`Q`, xii/assembler/block_form.py:88-90. -/
def settable2 (V Q : S) : Entry S → Bool
  | .num _ => true
  | .form is => functions 0 is = [V] && functions 1 is = [Q]

/-- The check of `__setitem__` for a linear form, xii/assembler/block_form.py:84-86. -/
def settable1 (V : S) : Entry S → Bool
  | .num _ => true
  | .form is => functions 0 is = [V]

/-- `next(dropwhile(...))`: index of the first equal space, xii/assembler/block_form.py:105 and 115-118. -/
def spaceIndex (W : List S) (V : S) : Py Nat :=
  if V ∈ W then .ok (W.idxOf V) else .error .stopIteration

/-- Unpacking a tuple of length one. -/
def theOne {α : Type} : List α → Py α
  | [x] => .ok x
  | _ => .error .valueError

/-- Writing entry `(i, j)`. -/
def setAt (rows : List (List (Entry S))) (i j : Nat) (e : Entry S) : List (List (Entry S)) :=
  rows.set i ((rows.getD i []).set j e)

/-- `self[i][j] = value`, xii/assembler/block_form.py:82-91; the test space of the row is `V0[i]` (line 80). -/
def assign2 (W : List S) (rows : List (List (Entry S))) (i j : Nat) (e : Entry S) : Py (List (List (Entry S))) := do
  let V ← pyGet W i
  let Q ← pyGet W j
  pyAssert (settable2 V Q e)
  .ok (setAt rows i j e)

/-- `self[i] = value` of a linear form, xii/assembler/block_form.py:82-86. -/
def assign1 (W : List S) (es : List (Entry S)) (i : Nat) (e : Entry S) : Py (List (Entry S)) := do
  let V ← pyGet W i
  pyAssert (settable1 V e)
  .ok (es.set i e)

/-- `add` of one integral to a bilinear form, xii/assembler/block_form.py:110-121. -/
def addOne2 (W : List S) (rows : List (List (Entry S))) (I : Integral S) : Py (List (List (Entry S))) := do
  let test ← theOne (functions 0 [I])
  let trial ← theOne (functions 1 [I])
  let col ← spaceIndex W trial
  let row ← spaceIndex W test
  let r ← pyGet rows row
  let old ← pyGet r col
  let new ← addEntry old (.form [I])
  assign2 W rows row col new

/-- `add` of one integral to a linear form, xii/assembler/block_form.py:99-108. -/
def addOne1 (W : List S) (es : List (Entry S)) (I : Integral S) : Py (List (Entry S)) := do
  pyAssert (functions 1 [I] = [])
  let test ← theOne (functions 0 [I])
  let i ← spaceIndex W test
  let old ← pyGet es i
  let new ← addEntry old (.form [I])
  assign1 W es i new

/-- Adding integrals one by one; the integrals added before an exception stay, xii/assembler/block_form.py:95-96. -/
def addMany {σ : Type} (one : σ → Integral S → Py σ) : σ → List (Integral S) → σ × Option PyErr
  | s, [] => (s, none)
  | s, I :: is =>
      match one s I with
      | .ok s' => addMany one s' is
      | .error e => (s, some e)

/-- `add` of a form, xii/assembler/block_form.py:93-121: state after the call and the exception, if any.  A form
without integrals has no test function to unpack. -/
def add {σ : Type} (one : σ → Integral S → Py σ) (s : σ) (form : List (Integral S)) : σ × Option PyErr :=
  if form = [] then (s, some .valueError) else addMany one s form

/-- A history of calls of `add`, exceptions being caught by the caller. -/
def history {σ : Type} (one : σ → Integral S → Py σ) : σ → List (List (Integral S)) → σ
  | s, [] => s
  | s, f :: fs => history one (add one s f).1 fs

/-- Calls which change a bilinear form: `add(form)` and `self[i][j] = value`. -/
inductive Call (S : Type) where
  | add (form : List (Integral S))
  | assign (i j : Nat) (e : Entry S)

/-- The state after a call, exceptions being caught by the caller, xii/assembler/block_form.py:82-121. -/
def call2 (W : List S) (rows : List (List (Entry S))) : Call S → List (List (Entry S))
  | .add form => (add (addOne2 W) rows form).1
  | .assign i j e =>
      match assign2 W rows i j e with
      | .ok rows' => rows'
      | .error _ => rows

/-- `block_form(W, 2)`, xii/assembler/block_form.py:152. -/
def start2 (W : List S) : List (List (Entry S)) :=
  List.replicate W.length (List.replicate W.length (.num 0))

/-- `block_form(W, 1)`, xii/assembler/block_form.py:147-151; `null V` are the integrals of the zero form on `V`. -/
def start1 (null : S → List (Integral S)) (W : List S) : List (Entry S) := W.map (fun V => .form (null V))

/-- Block forms. -/
inductive BForm (S : Type) where
  | lin (W : List S) (es : List (Entry S))
  | bil (W : List S) (rows : List (List (Entry S)))

/-- `_block_form(forms, W)` of lists of forms, xii/assembler/block_form.py:68-80: the rows are paired with spaces. -/
def mkBil (rows : List (List (Entry S))) (W : List S) : Py (BForm S) :=
  if rows = [] then .error .stopIteration else .ok (.bil W ((rows.zip W).map Prod.fst))

/-- `_block_form(forms, W)` of forms. -/
def mkLin (es : List (Entry S)) (W : List S) : Py (BForm S) :=
  if es = [] then .error .stopIteration else .ok (.lin W es)

/-- Entry of a bilinear form. -/
def at2 (rows : List (List (Entry S))) (i j : Nat) : Py (Entry S) := do
  let r ← pyGet rows i
  pyGet r j

/-- `__add__`, xii/assembler/block_form.py:123-134. -/
def addForms : BForm S → BForm S → Py (BForm S)
  | .lin W es, .lin W' es' =>
      if W = W' then do
        let sums ← pyMap (fun i => do
          let a ← pyGet es i
          let b ← pyGet es' i
          addEntry a b) (List.range W.length)
        mkLin sums W
      else .error .assertion
  | .bil W rows, .bil W' rows' =>
      if W = W' then do
        let sums ← pyMap (fun i => pyMap (fun j => do
          let a ← at2 rows i j
          let b ← at2 rows' i j
          addEntry a b) (List.range W.length)) (List.range W.length)
        mkBil sums W
      else .error .assertion
  | _, _ => .error .assertion

/-- `np.diff`. -/
def diffs : List Int → List Int
  | a :: b :: l => (b - a) :: diffs (b :: l)
  | _ => []

/-- The checks on the ordering, xii/assembler/block_form.py:242-247. -/
def checkOrdering (n : Nat) (p : List Int) : Py Unit := do
  let step ← theOne (diffs (p.mergeSort (· ≤ ·))).dedup
  pyAssert (step = 1 ∨ step = -1)
  pyAssert (p.length = n)
  pyAssert (p.min? = some 0 ∧ p.max? = some (n - 1 : Int))

/-- `permute` by indices, xii/assembler/block_form.py:239-255.  After the checks all indices are natural numbers. -/
def permute (f : BForm S) (p : List Int) : Py (BForm S) :=
  match f with
  | .lin W es => do
      checkOrdering W.length p
      let W' ← pyMap (fun i : Int => pyGet W i.toNat) p
      let es' ← pyMap (fun i : Int => pyGet es i.toNat) p
      mkLin es' W'
  | .bil W rows => do
      checkOrdering W.length p
      let W' ← pyMap (fun i : Int => pyGet W i.toNat) p
      let rows' ← pyMap (fun i : Int => pyMap (fun j : Int => at2 rows i.toNat j.toNat) p) p
      mkBil rows' W'

/-- The spaces of a block form. -/
def BForm.spaces : BForm S → List S
  | .lin W _ => W
  | .bil W _ => W

/-- `permute` by spaces, xii/assembler/block_form.py:235-236: `list.index` raises `ValueError`. -/
def permuteSpaces (f : BForm S) (Ws : List S) : Py (BForm S) := do
  let p ← pyMap (fun V => if V ∈ f.spaces then (.ok ((f.spaces.idxOf V : Nat) : Int) : Py Int) else .error .valueError) Ws
  permute f p

/-- `is_null`, xii/assembler/block_form.py:155-164. -/
def isNull (eps : ℚ) : Entry S → Bool
  | .num c => |c| < eps
  | .form _ => false

/-- `form_adjoint` of a block, xii/assembler/block_form.py:179-188. -/
def adjointEntry (order : List (Term S) → List (Term S)) : Entry S → Py (Entry S)
  | .num c => .ok (.num c)
  | .form is => do
      let is' ← pyMap (fun I : Integral S => do
        let e ← adjointExpr order I.integrand
        .ok (⟨e, I.rest⟩ : Integral S)) is
      .ok (.form is')

/-- Pairs `j < i < n` in the order of the loops. -/
def lowerPairs (n : Nat) : List (Nat × Nat) := (List.range n).flatMap (fun i => (List.range i).map (fun j => (i, j)))

/-- `is_upper_triangular`, xii/assembler/block_form.py:167-170. -/
def isUpper (eps : ℚ) (n : Nat) (rows : List (List (Entry S))) : Bool :=
  (lowerPairs n).all (fun p => match at2 rows p.1 p.2 with | .ok e => isNull eps e | .error _ => false)

/-- `is_lower_triangular`, xii/assembler/block_form.py:173-176. -/
def isLower (eps : ℚ) (n : Nat) (rows : List (List (Entry S))) : Bool :=
  (lowerPairs n).all (fun p => match at2 rows p.2 p.1 with | .ok e => isNull eps e | .error _ => false)

/-- The loops `bform[dst] = form_adjoint(bform[src])`. -/
def fillLoop (order : List (Term S) → List (Term S)) (W : List S) :
    List ((Nat × Nat) × (Nat × Nat)) → List (List (Entry S)) → Py (List (List (Entry S)))
  | [], rows => .ok rows
  | (dst, src) :: ps, rows => do
      let e ← at2 rows src.1 src.2
      let e' ← adjointEntry order e
      let rows ← assign2 W rows dst.1 dst.2 e'
      fillLoop order W ps rows

/-- `make_selfadjoint`, xii/assembler/block_form.py:211-229.  Linear forms are not triangular. -/
def makeSelfadjoint (order : List (Term S) → List (Term S)) (eps : ℚ) : BForm S → Py (BForm S)
  | .lin _ _ => .error .valueError
  | .bil W rows =>
      let n := W.length
      if isUpper eps n rows then do
        let rows ← fillLoop order W ((lowerPairs n).map (fun p => (p, (p.2, p.1)))) rows
        .ok (.bil W rows)
      else if isLower eps n rows then do
        let rows ← fillLoop order W ((lowerPairs n).map (fun p => ((p.2, p.1), p))) rows
        .ok (.bil W rows)
      else .error .valueError

end Verif.BlockForm
