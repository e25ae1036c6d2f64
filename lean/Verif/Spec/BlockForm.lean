import Verif.Model.BlockForm
import Verif.Spec.Ufl
/-! # Where integrals belong -/
namespace Verif.BlockForm
open Verif Ufl

variable {S : Type} [DecidableEq S]

/-- Entry `(i, j)` of a table. -/
def get2 {α : Type} (rows : List (List α)) (i j : Nat) : Option α := (rows[i]?).bind (fun r => r[j]?)

/-- An `n × n` table. -/
def Square {α : Type} (n : Nat) (rows : List (List α)) : Prop := rows.length = n ∧ ∀ r ∈ rows, r.length = n

/-- The integral has exactly one test (`n = 0`) or trial (`n = 1`) function, possibly occurring many times, and it is
from the space `V`. -/
def OnlyArg (n : Nat) (V : S) (I : Integral S) : Prop :=
  (∃ t ∈ terms I.integrand, t.base = .argument n V) ∧
  ∀ t ∈ terms I.integrand, ∀ Q, t.base = .argument n Q → Q = V

/-- The same for a form: some integral has a test (trial) function and all of them are from the space `V`. -/
def FormArg (n : Nat) (V : S) (is : List (Integral S)) : Prop :=
  (∃ I ∈ is, ∃ t ∈ terms I.integrand, t.base = .argument n V) ∧
  ∀ I ∈ is, ∀ t ∈ terms I.integrand, ∀ Q, t.base = .argument n Q → Q = V

/-- What may be in block `(i, j)`: a number, or a form with test functions from `W[i]` and trial functions from `W[j]`. -/
def Fits (W : List S) (i j : Nat) : Entry S → Prop
  | .num _ => True
  | .form is => ∃ V Q, W[i]? = some V ∧ W[j]? = some Q ∧ FormArg 0 V is ∧ FormArg 1 Q is

/-- What may be in block `i` of a linear form. -/
def FitsLinear (W : List S) (i : Nat) : Entry S → Prop
  | .num _ => True
  | .form is => ∃ V, W[i]? = some V ∧ FormArg 0 V is

/-- No such function. -/
def NoArg (n : Nat) (I : Integral S) : Prop := ∀ t ∈ terms I.integrand, ∀ Q, t.base ≠ .argument n Q

/-- `V` is at position `i` in the list for the first time. -/
def FirstAt (W : List S) (V : S) (i : Nat) : Prop := W[i]? = some V ∧ ∀ k, k < i → W[k]? ≠ some V

/-- The integral belongs to block `(i, j)`: its test function is from `W[i]`, its trial function from `W[j]`.
(With equal spaces in the list: the first ones.) -/
def Belongs2 (W : List S) (i j : Nat) (I : Integral S) : Prop :=
  ∃ V Q, OnlyArg 0 V I ∧ OnlyArg 1 Q I ∧ FirstAt W V i ∧ FirstAt W Q j

/-- The integral of a linear form belongs to block `i`. -/
def Belongs1 (W : List S) (i : Nat) (I : Integral S) : Prop :=
  ∃ V, OnlyArg 0 V I ∧ NoArg 1 I ∧ FirstAt W V i

/-- A sum of integrals; the empty sum is the number zero. -/
def sumOf : List (Integral S) → Entry S
  | [] => .num 0
  | l => .form l

open Classical in
/-- Of a form the integrals before the first one which belongs nowhere are accepted. -/
noncomputable def accepted (belongs : Integral S → Prop) (form : List (Integral S)) : List (Integral S) :=
  form.takeWhile (fun I => belongs I)

/-- The integrals of a block. -/
def integrals : Entry S → List (Integral S)
  | .num _ => []
  | .form l => l

/-- Zero or a form: what blocks of a block form are. -/
def Plain : Entry S → Prop
  | .num c => c = 0
  | .form _ => True

/-- The adjoint of a block. -/
def swapEntry : Entry S → Entry S
  | .num c => .num c
  | .form is => .form (is.map (fun I => ⟨swap I.integrand, I.rest⟩))

/-- Block `(i, j)` holds a number or integrals with one test function from `V` and one trial function from `Q`,
each annotated in one way by traces, restrictions or averages. -/
def BlockIs (V Q : S) : Entry S → Prop
  | .num _ => True
  | .form is => is ≠ [] ∧ ∀ I ∈ is, ∃ v u : Term S, v.base = .argument 0 V ∧ u.base = .argument 1 Q ∧
      PlainAttrs v ∧ PlainAttrs u ∧ HasArgs v u I.integrand

/-- `0, 1, ..., n-1`. -/
def ints (n : Nat) : List Int := (List.range n).map (fun i : Nat => (i : Int))

/-- `q` is the inverse of the ordering `p`. -/
def Inverse (p q : List Int) : Prop := ∀ (i : Nat) (k : Int), q[i]? = some k → p[k.toNat]? = some (i : Int)

/-- The blocks below the diagonal are numbers smaller than `eps`. -/
def NullBelow (eps : ℚ) (n : Nat) (rows : List (List (Entry S))) : Prop :=
  ∀ i j, j < i → i < n → ∃ c, get2 rows i j = some (.num c) ∧ |c| < eps

/-- The blocks above the diagonal are numbers smaller than `eps`. -/
def NullAbove (eps : ℚ) (n : Nat) (rows : List (List (Entry S))) : Prop :=
  ∀ i j, j < i → i < n → ∃ c, get2 rows j i = some (.num c) ∧ |c| < eps

/-- The off-diagonal blocks hold integrals over their spaces. -/
def WellPlaced (W : List S) (rows : List (List (Entry S))) : Prop :=
  ∀ (i j : Nat) (V Q : S) (e : Entry S), i ≠ j → W[i]? = some V → W[j]? = some Q → get2 rows i j = some e → BlockIs V Q e

end Verif.BlockForm
