import Verif.Model.Newton
import Mathlib.Analysis.Calculus.Deriv.Basic
import Verif.Spec.Jacobian
import Verif.Spec.Workflow
/-!
# Newton's method

Functions have values in a normed space `W`, see `Verif.Spec.Jacobian`.  The basis functions of the space of the function
with coefficients at address `a` are `φ a 0, φ a 1, …`.
-/
namespace Verif.Newton
open Verif Ufl BlockOps BlockForm Collapse IIFunction Workflow Reduced ListUtils Program Jacobian Finset

variable {S : Type} [DecidableEq S] {W : Type} [NormedAddCommGroup W] [NormedSpace ℝ W]

/-- The functions with the coefficients in `h`. -/
noncomputable def field (φ : Nat → Nat → W) (h : Heap ℝ) (a : Nat) : W :=
  ∑ d ∈ range (h.vec a).length, fnOf (h.vec a) d • φ a d

/-- The functions on the way from `u` to `u'`. -/
def between (u u' : Nat → W) (ε : ℝ) : Nat → W := fun a => u a + ε • (u' a - u a)

/-- The residual `f` of the functions `u` tested by `v`. -/
noncomputable def residual (M : World S W) (K : Kinds S) (f : List (Integral S)) (v : W) (u : Nat → W) : ℝ :=
  M.form (M.env K u v 0) f

/-- A property of the residuals `F` of all basis functions of their spaces. -/
def Tests (F : List (List (Integral S))) (up : List Fn) (ns : List Nat) (φ : Nat → Nat → W)
    (P : List (Integral S) → W → Prop) : Prop :=
  ∀ (i : Nat) f u n, F[i]? = some f → up[i]? = some u → ns[i]? = some n → ∀ d, d < n → P f (φ u.addr d)

/-- A step of Newton's method from the coefficients `h` to `h'`: the linearisation of the residuals at the old functions
vanishes at the new functions; coefficients of other functions, with addresses below `next`, stay. -/
structure Step (M : World S W) (K : Kinds S) (φ : Nat → Nat → W) (F : List (List (Integral S))) (up : List Fn)
    (ns : List Nat) (next : Nat) (h h' : Heap ℝ) : Prop where
  linearised : Tests F up ns φ (fun f v =>
    HasDerivAt (fun ε : ℝ => residual M K f v (between (field φ h) (field φ h') ε)) (-residual M K f v (field φ h)) 0)
  sizes : (vectors h' up).map List.length = ns
  others : ∀ a, a < next → (∀ u ∈ up, u.addr ≠ a) → h'.vec a = h.vec a

/-- The Euclidean distance of coefficients. -/
noncomputable def change (xs ys : List (List ℝ)) : ℝ :=
  √(List.zipWith (fun x y => (List.zipWith (fun a b => (b - a) ^ 2) x y).sum) xs ys).sum

/-- Consecutive steps of Newton's method, with the sizes of their changes. -/
def Iterates (M : World S W) (K : Kinds S) (φ : Nat → Nat → W) (F : List (List (Integral S))) (up : List Fn)
    (ns : List Nat) (next : Nat) : Heap ℝ → List (ℝ × Heap ℝ) → Prop
  | _, [] => True
  | h, (eps, h') :: rest =>
      Step M K φ F up ns next h h' ∧ eps = change (vectors h up) (vectors h' up) ∧ Iterates M K φ F up ns next h' rest

/-- The terminals of a form which are unknown functions, annotated or not. -/
noncomputable def unknowns (K : Kinds S) (up : List Fn) (f : List (Integral S)) : Finset (Term S) :=
  open Classical in (formTerms f).toFinset.filter (fun t => ∃ u ∈ up, Shares K u.addr t)

/-- The integrands are differentiable functions of the values of the unknown functions at `u`. -/
def SmoothAt (M : World S W) (K : Kinds S) (F : List (List (Integral S))) (up : List Fn) (u : Nat → W) : Prop :=
  ∀ f ∈ F, ∀ I ∈ f, ∀ v w, Smooth M I.integrand (M.env K u v w) (unknowns K up f)

/-- The residuals `F` for the unknown functions `up`, which are `x` in the forms; vectors have addresses below `next`. -/
structure Setup (K : Kinds S) (fresh : Nat → Nat → Nat → Nat) (F : List (List (Integral S))) (x : List (Term S))
    (up : List Fn) (next : Nat) : Prop where
  kinds : K.Ok
  nonempty : x ≠ []
  residuals : F.length = x.length
  functions : up.length = x.length
  functional : ∀ (i : Nat) f, F[i]? = some f → ∃ v, isOkayFunctional f = .ok v ∧
    (∀ y, x[i]? = some y → ∃ V, SpaceIs K v V ∧ SpaceIs K y V) ∧ ∃ V, v.base = .argument 0 V
  plain : ∀ (i : Nat) y u, x[i]? = some y → up[i]? = some u → Plain K y u.addr
  supported : ∀ (i j : Nat) f u, F[i]? = some f → up[j]? = some u → Supported K (fresh i j) f u.addr
  unshared : Unshared up
  old : ∀ u ∈ up, u.addr < next
  below : ∀ f ∈ F, ∀ t ∈ formTerms f, ∀ a, Shares K a t → a < next

/-- What is assembled is made of the values for basis functions. -/
structure Assembles (M : World S W) (K : Kinds S) (φ : Nat → Nat → W) (asm : Assemble S) (F : List (List (Integral S)))
    (dF : List (List (Entry S))) (up : List Fn) (ns : List Nat) : Prop where
  number : ∀ h c, asm h (.num c) = .ok (.num c)
  vec : ∀ h (i : Nat) f u n t, F[i]? = some f → up[i]? = some u → ns[i]? = some n → asm h (.form f) = .ok t →
    ∃ b, t = .vec n b ∧ ∀ d, d < n → b d = M.form (M.env K (field φ h) (φ u.addr d) 0) f
  mat : ∀ h (i j : Nat) row J u w n m t, dF[i]? = some row → row[j]? = some (.form J) → up[i]? = some u → up[j]? = some w →
    ns[i]? = some n → ns[j]? = some m → asm h (.form J) = .ok t →
    ∃ A : Mat ℝ, t = .mat A ∧ A.rows = n ∧ A.cols = m ∧
      ∀ d e, d < n → e < m → A.e d e = M.form (M.env K (field φ h) (φ u.addr d) (φ w.addr e)) J

/-- The residuals along the segment from the old to the new functions have derivatives which differ from that at the old
functions by at most `L` times the part of the way. -/
def Lipschitz (M : World S W) (K : Kinds S) (φ : Nat → Nat → W) (F : List (List (Integral S))) (up : List Fn)
    (ns : List Nat) (L : ℝ) (h h' : Heap ℝ) : Prop :=
  Tests F up ns φ (fun f v => ∃ p : ℝ → ℝ, ∀ ε, 0 ≤ ε → ε ≤ 1 →
    HasDerivAt (fun ε : ℝ => residual M K f v (between (field φ h) (field φ h') ε)) (p ε) ε ∧ |p ε - p 0| ≤ L * ε)

/-- The linearised problem at `h` is stable: if the residuals change at a rate of at most `r` in the direction of other
coefficients, these are at a distance of at most `β r`. -/
def Stable (M : World S W) (K : Kinds S) (φ : Nat → Nat → W) (F : List (List (Integral S))) (up : List Fn)
    (ns : List Nat) (next : Nat) (β : ℝ) (h : Heap ℝ) : Prop :=
  ∀ (s : Heap ℝ) (r : ℝ), (vectors s up).map List.length = ns →
    (∀ a, a < next → (∀ u ∈ up, u.addr ≠ a) → s.vec a = h.vec a) →
    Tests F up ns φ (fun f v => ∃ m, |m| ≤ r ∧
      HasDerivAt (fun ε : ℝ => residual M K f v (between (field φ h) (field φ s) ε)) m 0) →
    change (vectors h up) (vectors s up) ≤ β * r

/-- All residuals and all derivatives can be assembled, for functions with any coefficients. -/
def Total (asm : Assemble S) (F : List (List (Integral S))) (dF : List (List (Entry S))) : Prop :=
  ∀ h, (∀ f ∈ F, ∃ t, asm h (.form f) = .ok t) ∧ ∀ row ∈ dF, ∀ e ∈ row, ∃ t, asm h e = .ok t

/-- There is just one step of Newton's method from `h`. -/
def Regular (M : World S W) (K : Kinds S) (φ : Nat → Nat → W) (F : List (List (Integral S))) (up : List Fn)
    (ns : List Nat) (next : Nat) (h : Heap ℝ) : Prop :=
  ∃ h', Step M K φ F up ns next h h' ∧ ∀ h'', Step M K φ F up ns next h h'' → vectors h'' up = vectors h' up

end Verif.Newton
