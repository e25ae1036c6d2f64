import Verif.Model.Elements
/-!
# Elements of UFL
-/
namespace Verif.Elements
open Verif

mutual
/-- Elements of UFL on one cell with `gdim` coordinates: `FiniteElement`s and others are scalars, vectors with `gdim` or tensors with
    `gdim × gdim` components. -/
def Natural (c : UCell) : Elem → Prop
  | .finite _ c' _ s | .other _ c' _ s => c' = c ∧ (s = [] ∨ s = [c.gdim] ∨ s = [c.gdim, c.gdim])
  | .tensor _ c' _ s => c' = c ∧ s.length = 2
  | .vector sub _ => Natural c sub
  | .mixed subs => subs ≠ [] ∧ NaturalAll c subs
/-- All of them. -/
def NaturalAll (c : UCell) : List Elem → Prop
  | [] => True
  | e :: es => Natural c e ∧ NaturalAll c es
end

mutual
/-- Every tensor element in it is square, with as many rows as there are coordinates. -/
def SquareTensors (gdim : Nat) : Elem → Prop
  | .finite _ _ _ _ | .other _ _ _ _ => True
  | .tensor _ _ _ s => s = [gdim, gdim]
  | .vector sub _ => SquareTensors gdim sub
  | .mixed subs => SquareTensorsAll gdim subs
/-- All of them. -/
def SquareTensorsAll (gdim : Nat) : List Elem → Prop
  | [] => True
  | e :: es => SquareTensors gdim e ∧ SquareTensorsAll gdim es
end

mutual
/-- Functions of the two elements have the same parts, in the same order, with the same shapes and degrees. -/
def Alike : Elem → Elem → Prop
  | .mixed es, .mixed es' => AlikeAll es es'
  | .vector e n, .vector e' n' => n = n' ∧ Alike e e'
  | e, e' => e.shape = e'.shape ∧ e.degree = e'.degree
/-- Part by part. -/
def AlikeAll : List Elem → List Elem → Prop
  | [], [] => True
  | e :: es, e' :: es' => Alike e e' ∧ AlikeAll es es'
  | _, _ => False
end

mutual
/-- All parts which are not mixed are on the cell, and are scalars, vectors or tensors with as many components in each axis as
    there are coordinates. -/
def Standard (c : UCell) : Elem → Prop
  | .mixed es => es ≠ [] ∧ StandardAll c es
  | e => e.cell = some c ∧ (e.shape = [] ∨ e.shape = [c.gdim] ∨ e.shape = [c.gdim, c.gdim])
/-- All of them. -/
def StandardAll (c : UCell) : List Elem → Prop
  | [] => True
  | e :: es => Standard c e ∧ StandardAll c es
end

mutual
/-- All parts which are not mixed are on the cell. -/
def OnCell (c : UCell) : Elem → Prop
  | .mixed es => es ≠ [] ∧ OnCellAll c es
  | e => e.cell = some c
/-- All of them. -/
def OnCellAll (c : UCell) : List Elem → Prop
  | [] => True
  | e :: es => OnCell c e ∧ OnCellAll c es
end

mutual
/-- All parts are continuous. -/
def Continuous : Elem → Prop
  | .mixed es => ContinuousAll es
  | e => e.family = "Lagrange"
/-- All of them. -/
def ContinuousAll : List Elem → Prop
  | [] => True
  | e :: es => Continuous e ∧ ContinuousAll es
end

mutual
/-- All parts are discontinuous polynomials. -/
def Discontinuous : Elem → Prop
  | .mixed es => DiscontinuousAll es
  | .vector sub _ => Discontinuous sub
  | e => e.family = "Discontinuous Lagrange"
/-- All of them. -/
def DiscontinuousAll : List Elem → Prop
  | [] => True
  | e :: es => Discontinuous e ∧ DiscontinuousAll es
end

end Verif.Elements
