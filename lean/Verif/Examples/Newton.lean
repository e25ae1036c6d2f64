import Verif.Props.NewtonReturns
import Verif.Props.Workflow
/-!
# Newton's method for a concrete problem

Unknown functions `u` (vector 50) and `p` (vector 60), with one degree of freedom each; the trace doubles.  The residuals are
`u v + u T(u) T(u) v + p T(v) - v` and `T(u) q - q`.
-/
namespace Verif.Examples.Newton
open Verif Ufl BlockOps BlockForm Collapse IIFunction Workflow Reduced ListUtils Program Jacobian Verif.Newton

def kinds : Kinds Nat where
  coefficient i := i = 5 || i = 6 || i = 8
  constant _ := false
  space i := if i = 8 then 2 else 1
  vector i := if i = 5 ∨ i = 6 then some 50 else if i = 8 then some 60 else none

/-- Operators multiply, operator `6` also changes the sign; an annotation doubles, integrals are the identity. -/
noncomputable def world : World Nat ℝ where
  op k l := if k = 6 then -l.prod else l.prod
  ann as := if as = [] then .id ℝ ℝ else (2 : ℝ) • .id ℝ ℝ
  integrate _ := .id ℝ ℝ
  other _ := 1

def u : UExpr Nat := .term ⟨.other 5, []⟩
def Tu : UExpr Nat := .term ⟨.other 6, [("trace_", 1)]⟩
def p : UExpr Nat := .term ⟨.other 8, []⟩
def v : UExpr Nat := .term ⟨.argument 0 1, []⟩
def Tv : UExpr Nat := .term ⟨.argument 0 1, [("trace_", 1)]⟩
def q : UExpr Nat := .term ⟨.argument 0 2, []⟩

def f0 : List (Integral Nat) :=
  [⟨.node 5 [u, v], 0⟩, ⟨.node 5 [u, Tu, Tu, v], 0⟩, ⟨.node 5 [p, Tv], 0⟩, ⟨.node 6 [v], 0⟩]
def f1 : List (Integral Nat) := [⟨.node 5 [Tu, q], 0⟩, ⟨.node 6 [q], 0⟩]
def F : List (List (Integral Nat)) := [f0, f1]
def x : List (Term Nat) := [⟨.other 5, []⟩, ⟨.other 8, []⟩]
def fresh : Nat → Nat → Nat → Nat := fun i j n => 100 + 20 * i + 10 * j + n
def up : List Fn := [⟨⟨1, 1⟩, 50⟩, ⟨⟨2, 1⟩, 60⟩]
def V : List IIFunction.Space := [⟨1, 1⟩, ⟨2, 1⟩]
def φ : Nat → Nat → ℝ := fun _ _ => 1

def hasTrial (f : List (Integral Nat)) : Bool :=
  (formTerms f).any (fun t => match t.base with | .argument 1 _ => true | _ => false)

noncomputable def asm : Assemble Nat := fun h e =>
  match e with
  | .num c => .ok (.num c)
  | .form f =>
      let val := world.form (world.env kinds (field φ h) 1 1) f
      if hasTrial f then .ok (.mat (Mat.of 1 1 (fun _ _ => val)))
      else .ok (.vec 1 (fun _ => world.form (world.env kinds (field φ h) 1 0) f))

theorem kinds_ok : kinds.Ok := by
  intro i a h
  simp only [kinds] at h ⊢
  split at h
  · rename_i h1
    rcases h1 with h1 | h1 <;> simp [h1]
  · split at h
    · rename_i h1; simp [h1]
    · cases h

theorem terms_f0 : ∀ t ∈ formTerms f0, t = ⟨.other 5, []⟩ ∨ t = ⟨.other 6, [("trace_", 1)]⟩ ∨ t = ⟨.other 8, []⟩ ∨
    t = ⟨.argument 0 1, []⟩ ∨ t = ⟨.argument 0 1, [("trace_", 1)]⟩ := by
  intro t ht
  simp only [formTerms, f0, List.flatMap_cons, List.flatMap_nil, terms, termsAll, u, Tu, p, v, Tv, List.append_nil,
    List.cons_append, List.nil_append, List.mem_cons, List.not_mem_nil, or_false] at ht
  tauto

theorem terms_f1 : ∀ t ∈ formTerms f1, t = ⟨.other 6, [("trace_", 1)]⟩ ∨ t = ⟨.argument 0 2, []⟩ := by
  intro t ht
  simp only [formTerms, f1, List.flatMap_cons, List.flatMap_nil, terms, termsAll, Tu, q, List.append_nil,
    List.cons_append, List.nil_append, List.mem_cons, List.not_mem_nil, or_false] at ht
  tauto

theorem supported0 (j a : Nat) : Supported kinds (fresh 0 j) f0 a where
  vec c hc i hi h1 _ := by
    rcases terms_f0 c hc with rfl | rfl | rfl | rfl | rfl <;> cases hi <;> simp [kinds]
  obj t ht t' ht' h hb := by
    rcases terms_f0 t ht with rfl | rfl | rfl | rfl | rfl <;> rcases terms_f0 t' ht' with rfl | rfl | rfl | rfl | rfl <;>
      simp [isCoefficient] at hb h ⊢
  fresh n t ht := by
    rcases terms_f0 t ht with rfl | rfl | rfl | rfl | rfl <;> simp [fresh] <;> omega
  ann c hc := by
    have : c ∈ formTerms f0 := by
      classical
      exact List.mem_toFinset.1 (Finset.mem_filter.1 hc).1
    rcases terms_f0 c this with rfl | rfl | rfl | rfl | rfl <;> simp

theorem supported1 (j a : Nat) : Supported kinds (fresh 1 j) f1 a where
  vec c hc i hi h1 _ := by
    rcases terms_f1 c hc with rfl | rfl <;> cases hi <;> simp [kinds]
  obj t ht t' ht' h hb := by
    rcases terms_f1 t ht with rfl | rfl <;> rcases terms_f1 t' ht' with rfl | rfl <;> simp [isCoefficient] at hb h ⊢
  fresh n t ht := by
    rcases terms_f1 t ht with rfl | rfl <;> simp [fresh] <;> omega
  ann c hc := by
    have : c ∈ formTerms f1 := by
      classical
      exact List.mem_toFinset.1 (Finset.mem_filter.1 hc).1
    rcases terms_f1 c this with rfl | rfl <;> simp

theorem setup {next : Nat} (hn : 60 < next) : Setup kinds fresh F x up next where
  kinds := kinds_ok
  nonempty := by simp [x]
  residuals := rfl
  functions := rfl
  functional i f hf := by
    match i with
    | 0 =>
        obtain rfl : f0 = f := by simpa [F] using hf
        refine ⟨⟨.argument 0 1, []⟩, rfl, ?_, 1, rfl⟩
        intro y hy
        obtain rfl : (⟨.other 5, []⟩ : Term Nat) = y := by simpa [x] using hy
        exact ⟨1, Or.inl ⟨0, rfl⟩, Or.inr ⟨5, rfl, rfl⟩⟩
    | 1 =>
        obtain rfl : f1 = f := by simpa [F] using hf
        refine ⟨⟨.argument 0 2, []⟩, rfl, ?_, 2, rfl⟩
        intro y hy
        obtain rfl : (⟨.other 8, []⟩ : Term Nat) = y := by simpa [x] using hy
        exact ⟨2, Or.inl ⟨0, rfl⟩, Or.inr ⟨8, rfl, rfl⟩⟩
    | i + 2 => simp [F] at hf
  plain i y u hy hu := by
    match i with
    | 0 =>
        obtain rfl : (⟨.other 5, []⟩ : Term Nat) = y := by simpa [x] using hy
        obtain rfl : (⟨⟨1, 1⟩, 50⟩ : Fn) = u := by simpa [up] using hu
        exact ⟨⟨5, rfl, rfl⟩, by simp [Term.attr]⟩
    | 1 =>
        obtain rfl : (⟨.other 8, []⟩ : Term Nat) = y := by simpa [x] using hy
        obtain rfl : (⟨⟨2, 1⟩, 60⟩ : Fn) = u := by simpa [up] using hu
        exact ⟨⟨8, rfl, rfl⟩, by simp [Term.attr]⟩
    | i + 2 => simp [x] at hy
  supported i j f u hf hu := by
    match i with
    | 0 =>
        obtain rfl : f0 = f := by simpa [F] using hf
        exact supported0 j _
    | 1 =>
        obtain rfl : f1 = f := by simpa [F] using hf
        exact supported1 j _
    | i + 2 => simp [F] at hf
  unshared := by simp [Unshared, up]
  old u hu := by
    simp [up] at hu
    rcases hu with rfl | rfl <;> simp <;> omega
  below f hf t ht a ha := by
    obtain ⟨i, h1, h2⟩ := ha
    simp only [kinds] at h2
    split at h2
    · injection h2 with h2; omega
    · split at h2
      · injection h2 with h2; omega
      · cases h2

theorem residual0 (w : Nat → ℝ) : residual world kinds f0 1 w = w 50 + 4 * w 50 ^ 3 + 2 * w 60 - 1 := by
  simp [Verif.Newton.residual, World.form, f0, eval, evalAll, cdType, world, World.env, kinds, u, Tu, p, v, Tv]
  ring

theorem residual1 (w : Nat → ℝ) : residual world kinds f1 1 w = 2 * w 50 - 1 := by
  simp [Verif.Newton.residual, World.form, f1, eval, evalAll, cdType, world, World.env, kinds, Tu, q]
  ring

theorem smooth (w : Nat → ℝ) : SmoothAt world kinds F up w := by
  intro f hf I hI v' w'
  refine Differentiable.differentiableAt ?_
  have hd := fun t => differentiable_over (world.env kinds w v' w') (unknowns kinds up f) t
  simp only [F, List.mem_cons, List.not_mem_nil, or_false] at hf
  rcases hf with rfl | rfl
  · simp only [f0, List.mem_cons, List.not_mem_nil, or_false] at hI
    rcases hI with rfl | rfl | rfl | rfl <;>
    simp only [eval, evalAll, world, cdType, List.map_cons, List.map_nil, List.prod_cons, List.prod_nil, mul_one, u, Tu, p, v,
      Tv, show ¬ (5 = 0) by decide, show ¬ (6 = 0) by decide, show ¬ (5 = 6) by decide, if_false, if_true]
    · exact (hd _).mul (hd _)
    · exact (hd _).mul ((hd _).mul ((hd _).mul (hd _)))
    · exact (hd _).mul (hd _)
    · exact (hd _).neg
  · simp only [f1, List.mem_cons, List.not_mem_nil, or_false] at hI
    rcases hI with rfl | rfl <;>
    simp only [eval, evalAll, world, cdType, List.map_cons, List.map_nil, List.prod_cons, List.prod_nil, mul_one, Tu, q,
      show ¬ (5 = 0) by decide, show ¬ (6 = 0) by decide, show ¬ (5 = 6) by decide, if_false, if_true]
    · exact (hd _).mul (hd _)
    · exact (hd _).neg

theorem trials : (match blockJacobian kinds fresh F x with
    | .ok dF => dF.all (fun row => row.all (fun e => match e with | .form J => hasTrial J | .num _ => true))
    | .error _ => false) = true := by decide

theorem tests : ∀ f ∈ F, hasTrial f = false := by decide

theorem assembles (dF : List (List (Entry Nat))) (hJ : blockJacobian kinds fresh F x = .ok dF) :
    Assembles world kinds φ asm F dF up (V.map (fun s => s.dim)) ∧ Total asm F dF := by
  have ht := trials
  rw [hJ] at ht
  simp only [List.all_eq_true] at ht
  have hdim : ∀ {i n : Nat}, (V.map (fun s => s.dim))[i]? = some n → n = 1 := by
    intro i n h
    have := List.mem_of_getElem? h
    simp [V] at this
    exact this
  refine ⟨⟨fun _ _ => rfl, ?_, ?_⟩, fun h => ⟨fun f hf => ?_, fun row hrow e he => ?_⟩⟩
  · intro h i f u n t hf hu hn hok
    obtain rfl := hdim hn
    simp only [asm, tests f (List.mem_of_getElem? hf)] at hok
    injection hok with hok
    exact ⟨_, hok.symm, fun d hd => rfl⟩
  · intro h i j row J u w n m t hrow hJ' hu hw hn hm hok
    obtain rfl := hdim hn
    obtain rfl := hdim hm
    have := ht row (List.mem_of_getElem? hrow) _ (List.mem_of_getElem? hJ')
    simp only at this
    simp only [asm, this, if_true] at hok
    injection hok with hok
    exact ⟨_, hok.symm, rfl, rfl, fun d e hd he => if_pos ⟨hd, he⟩⟩
  · simp only [asm]
    split <;> exact ⟨_, rfl⟩
  · cases e with
    | num c => exact ⟨_, rfl⟩
    | form f =>
        simp only [asm]
        split <;> exact ⟨_, rfl⟩

theorem field_one {h : Heap ℝ} {a : Nat} {c : ℝ} (ha : h.vec a = [c]) : field φ h a = c := by
  simp [field, ha, φ, fnOf]

theorem coefficients {h : Heap ℝ} (hsz : (vectors h up).map List.length = [1, 1]) :
    ∃ a c, h.vec 50 = [a] ∧ h.vec 60 = [c] := by
  simp only [vectors, up, List.map_cons, List.map_nil, List.cons.injEq, and_true] at hsz
  obtain ⟨a, ha⟩ := List.length_eq_one_iff.1 hsz.1
  obtain ⟨c, hc⟩ := List.length_eq_one_iff.1 hsz.2
  exact ⟨a, c, ha, hc⟩

theorem lin (s t ε : ℝ) : HasDerivAt (fun ε : ℝ => s + ε * t) t ε := by
  simpa using ((hasDerivAt_id ε).mul_const t).const_add s

theorem derivative0 {h h' : Heap ℝ} {a c a' c' : ℝ} (ha : h.vec 50 = [a]) (hc : h.vec 60 = [c]) (ha' : h'.vec 50 = [a'])
    (hc' : h'.vec 60 = [c']) (ε : ℝ) :
    HasDerivAt (fun ε : ℝ => residual world kinds f0 1 (between (field φ h) (field φ h') ε))
      ((1 + 12 * (a + ε * (a' - a)) ^ 2) * (a' - a) + 2 * (c' - c)) ε := by
  have e0 : (fun ε : ℝ => residual world kinds f0 1 (between (field φ h) (field φ h') ε)) =
      fun ε : ℝ => (a + ε * (a' - a)) + 4 * (a + ε * (a' - a)) ^ 3 + 2 * (c + ε * (c' - c)) - 1 := by
    funext ε
    rw [residual0]
    simp only [between, field_one ha, field_one hc, field_one ha', field_one hc', smul_eq_mul]
  rw [e0]
  have := (((lin a (a' - a) ε).add (((lin a (a' - a) ε).pow 3).const_mul 4)).add
    ((lin c (c' - c) ε).const_mul 2)).sub_const 1
  refine this.congr_deriv ?_
  norm_num
  ring

theorem derivative1 {h h' : Heap ℝ} {a a' : ℝ} (ha : h.vec 50 = [a]) (ha' : h'.vec 50 = [a']) (ε : ℝ) :
    HasDerivAt (fun ε : ℝ => residual world kinds f1 1 (between (field φ h) (field φ h') ε)) (2 * (a' - a)) ε := by
  have e1 : (fun ε : ℝ => residual world kinds f1 1 (between (field φ h) (field φ h') ε)) =
      fun ε : ℝ => 2 * (a + ε * (a' - a)) - 1 := by
    funext ε
    rw [residual1]
    simp only [between, field_one ha, field_one ha', smul_eq_mul]
  rw [e1]
  exact ((lin a (a' - a) ε).const_mul 2).sub_const 1

/-- What is tested. -/
theorem tests_iff (P : List (Integral Nat) → ℝ → Prop) : Tests F up [1, 1] φ P ↔ P f0 1 ∧ P f1 1 := by
  constructor
  · intro h
    exact ⟨h 0 f0 ⟨⟨1, 1⟩, 50⟩ 1 rfl rfl rfl 0 one_pos, h 1 f1 ⟨⟨2, 1⟩, 60⟩ 1 rfl rfl rfl 0 one_pos⟩
  · rintro ⟨h0, h1⟩ i f w n hf hw hn d hd
    match i with
    | 0 =>
        obtain rfl : f0 = f := by simpa [F] using hf
        exact h0
    | 1 =>
        obtain rfl : f1 = f := by simpa [F] using hf
        exact h1
    | i + 2 => simp [F] at hf

/-- Steps of Newton's method for the problem. -/
theorem step_iff {h h' : Heap ℝ} {a c a' c' : ℝ} (ha : h.vec 50 = [a]) (hc : h.vec 60 = [c]) (ha' : h'.vec 50 = [a'])
    (hc' : h'.vec 60 = [c']) (next : Nat) (ho : ∀ b, b < next → (∀ u ∈ up, u.addr ≠ b) → h'.vec b = h.vec b) :
    Step world kinds φ F up [1, 1] next h h' ↔
      (1 + 12 * a ^ 2) * (a' - a) + 2 * (c' - c) = -(a + 4 * a ^ 3 + 2 * c - 1) ∧ 2 * (a' - a) = -(2 * a - 1) := by
  have d0 := derivative0 ha hc ha' hc' 0
  have d1 := derivative1 ha ha' 0
  rw [zero_mul, add_zero] at d0
  have r0 : residual world kinds f0 1 (field φ h) = a + 4 * a ^ 3 + 2 * c - 1 := by
    rw [residual0, field_one ha, field_one hc]
  have r1 : residual world kinds f1 1 (field φ h) = 2 * a - 1 := by
    rw [residual1, field_one ha]
  constructor
  · intro hst
    obtain ⟨h0, h1⟩ := (tests_iff _).1 hst.linearised
    exact ⟨by rw [← r0]; exact d0.unique h0, by rw [← r1]; exact d1.unique h1⟩
  · rintro ⟨h0, h1⟩
    refine ⟨(tests_iff _).2 ⟨?_, ?_⟩, by simp [vectors, up, ha', hc'], ho⟩
    · rw [r0, ← h0]
      exact d0
    · rw [r1, ← h1]
      exact d1

theorem regular (next : Nat) (h : Heap ℝ) (hsz : (vectors h up).map List.length = [1, 1]) :
    Regular world kinds φ F up [1, 1] next h := by
  obtain ⟨a, c, ha, hc⟩ := coefficients hsz
  let c' := c + (-(a + 4 * a ^ 3 + 2 * c - 1) - (1 + 12 * a ^ 2) * (1 / 2 - a)) / 2
  have h1 : ((h.put 60 [c']).put 50 [1 / 2]).vec 50 = [1 / 2] := by simp [Heap.put]
  have h2 : ((h.put 60 [c']).put 50 [1 / 2]).vec 60 = [c'] := by simp [Heap.put]
  have ho : ∀ b, b < next → (∀ u ∈ up, u.addr ≠ b) → ((h.put 60 [c']).put 50 [1 / 2]).vec b = h.vec b := by
    intro b _ hb
    simp only [up, List.mem_cons, List.not_mem_nil, or_false, forall_eq_or_imp, forall_eq] at hb
    simp only [Heap.put]
    rw [if_neg (Ne.symm hb.1), if_neg (Ne.symm hb.2)]
  refine ⟨_, (step_iff ha hc h1 h2 next ho).2 ⟨by simp only [c']; ring, by ring⟩, fun h'' hst => ?_⟩
  obtain ⟨a', c'', ha', hc'⟩ := coefficients hst.sizes
  obtain ⟨g0, g1⟩ := (step_iff ha hc ha' hc' next hst.others).1 hst
  have e1 : a' = 1 / 2 := by linarith
  have e2 : c'' = c' := by
    subst e1
    simp only [c']
    linarith
  simp only [vectors, up, List.map_cons, List.map_nil, ha', hc', h1, h2, e1, e2]

/-- The loop returns from all coefficients. -/
theorem returns (h : Heap ℝ) (hn : 60 < h.next) (hsz : (vectors h up).map List.length = [1, 1]) (tol : ℝ) (maxiter : Nat) :
    ∃ hist g0, ∀ g, g0 ≤ g → newton kinds fresh asm noTiny g oracle F x V up tol maxiter h = .ok hist :=
  newton_returns (V := V) (setup hn) hsz assembles oracle_exact oracle_regular noTiny tol maxiter (fun s => smooth _)
    (fun s hs => regular h.next s hs)

/-- Its passes are steps of Newton's method. -/
theorem iterates (h : Heap ℝ) (hn : 60 < h.next) (hsz : (vectors h up).map List.length = [1, 1]) {tol : ℝ} {maxiter g : Nat}
    {hist : List (ℝ × Heap ℝ)} (hrun : newton kinds fresh asm noTiny g oracle F x V up tol maxiter h = .ok hist) :
    Iterates world kinds φ F up [1, 1] h.next h hist :=
  newton_iterates (V := V) (setup hn) hsz (fun dF hJ => (assembles dF hJ).1) oracle_exact hrun (fun s _ => smooth _)

/-- The second step reaches the solution `u = 1 / 2`, `p = 0` from any coefficients. -/
theorem solved {next : Nat} {h h' h'' : Heap ℝ} (hsz : (vectors h up).map List.length = [1, 1])
    (hst : Step world kinds φ F up [1, 1] next h h') (hst' : Step world kinds φ F up [1, 1] next h' h'') :
    vectors h'' up = [[1 / 2], [0]] := by
  obtain ⟨a, c, ha, hc⟩ := coefficients hsz
  obtain ⟨a', c', ha', hc'⟩ := coefficients hst.sizes
  obtain ⟨a'', c'', ha'', hc''⟩ := coefficients hst'.sizes
  obtain ⟨_, g1⟩ := (step_iff ha hc ha' hc' next hst.others).1 hst
  obtain ⟨k0, k1⟩ := (step_iff ha' hc' ha'' hc'' next hst'.others).1 hst'
  have e1 : a' = 1 / 2 := by linarith
  subst e1
  have e2 : a'' = 1 / 2 := by linarith
  subst e2
  have e3 : c'' = 0 := by norm_num at k0; linarith
  simp [vectors, up, ha'', hc'', e3]

theorem change_eq {h h' : Heap ℝ} {a c a' c' : ℝ} (ha : h.vec 50 = [a]) (hc : h.vec 60 = [c]) (ha' : h'.vec 50 = [a'])
    (hc' : h'.vec 60 = [c']) : change (vectors h up) (vectors h' up) = √((a' - a) ^ 2 + (c' - c) ^ 2) := by
  simp [change, vectors, up, ha, hc, ha', hc']

/-- Derivatives are Lipschitz when coefficients are bounded. -/
theorem lipschitz {h h' : Heap ℝ} {a c a' c' B : ℝ} (ha : h.vec 50 = [a]) (hc : h.vec 60 = [c]) (ha' : h'.vec 50 = [a'])
    (hc' : h'.vec 60 = [c']) (hB : |a| ≤ B) (hB' : |a' - a| ≤ B) :
    Lipschitz world kinds φ F up [1, 1] (36 * B * change (vectors h up) (vectors h' up) ^ 2) h h' := by
  have hB0 : 0 ≤ B := (abs_nonneg _).trans hB
  have hch : change (vectors h up) (vectors h' up) ^ 2 = (a' - a) ^ 2 + (c' - c) ^ 2 := by
    rw [change_eq ha hc ha' hc', Real.sq_sqrt (by positivity)]
  refine (tests_iff _).2 ⟨⟨_, fun ε e0 e1 => ⟨derivative0 ha hc ha' hc' ε, ?_⟩⟩,
    ⟨_, fun ε e0 e1 => ⟨derivative1 ha ha' ε, ?_⟩⟩⟩
  · rw [hch]
    have e : (1 + 12 * (a + ε * (a' - a)) ^ 2) * (a' - a) + 2 * (c' - c) -
        ((1 + 12 * (a + 0 * (a' - a)) ^ 2) * (a' - a) + 2 * (c' - c)) =
        12 * ε * (a' - a) ^ 2 * (2 * a + ε * (a' - a)) := by ring
    rw [e, abs_mul]
    have h1 : |2 * a + ε * (a' - a)| ≤ 3 * B := by
      calc |2 * a + ε * (a' - a)| ≤ |2 * a| + |ε * (a' - a)| := abs_add_le _ _
        _ = 2 * |a| + ε * |a' - a| := by rw [abs_mul, abs_mul, abs_two, abs_of_nonneg e0]
        _ ≤ 2 * B + 1 * B := by gcongr
        _ = 3 * B := by ring
    have h2 : |12 * ε * (a' - a) ^ 2| = 12 * ε * (a' - a) ^ 2 := abs_of_nonneg (by positivity)
    rw [h2]
    calc 12 * ε * (a' - a) ^ 2 * |2 * a + ε * (a' - a)| ≤ 12 * ε * (a' - a) ^ 2 * (3 * B) := by gcongr
      _ = 36 * B * (a' - a) ^ 2 * ε := by ring
      _ ≤ 36 * B * ((a' - a) ^ 2 + (c' - c) ^ 2) * ε := by
          gcongr
          exact le_add_of_nonneg_right (sq_nonneg _)
  · rw [sub_self, abs_zero, hch]
    positivity

/-- The linearised problems at `u = 1 / 2` are stable. -/
theorem stable {next : Nat} {h : Heap ℝ} {c : ℝ} (ha : h.vec 50 = [1 / 2]) (hc : h.vec 60 = [c]) :
    Stable world kinds φ F up [1, 1] next 2 h := by
  intro s r hsz _ ht
  obtain ⟨a', c', ha', hc'⟩ := coefficients hsz
  obtain ⟨⟨m0, b0, h0⟩, ⟨m1, b1, h1⟩⟩ := (tests_iff _).1 ht
  have e0 := h0.unique (derivative0 ha hc ha' hc' 0)
  have e1 := h1.unique (derivative1 ha ha' 0)
  subst e0 e1
  have hr : 0 ≤ r := (abs_nonneg _).trans b1
  rw [change_eq ha hc ha' hc']
  refine Real.sqrt_le_iff.2 ⟨by positivity, ?_⟩
  rw [abs_le] at b0 b1
  norm_num at b0 b1
  have p1 : (a' - 1 / 2) ^ 2 ≤ (r / 2) ^ 2 := by
    rw [sq_le_sq, abs_of_nonneg (by positivity : (0 : ℝ) ≤ r / 2), abs_le]
    constructor <;> linarith
  have p2 : (c' - c) ^ 2 ≤ (3 / 2 * r) ^ 2 := by
    rw [sq_le_sq, abs_of_nonneg (by positivity : (0 : ℝ) ≤ 3 / 2 * r), abs_le]
    constructor <;> linarith
  nlinarith

theorem half {next : Nat} : ∀ (hist : List (ℝ × Heap ℝ)) (h : Heap ℝ), (vectors h up).map List.length = [1, 1] →
    Iterates world kinds φ F up [1, 1] next h hist → ∀ s ∈ hist.map Prod.snd, s.vec 50 = [1 / 2] ∧ ∃ c, s.vec 60 = [c]
  | [], _, _, _, s, hs => by simp at hs
  | (e, h') :: rest, h, hsz, ⟨h1, _, h3⟩, s, hs => by
      rcases List.mem_cons.1 hs with rfl | hs
      · obtain ⟨a, c, ha, hc⟩ := coefficients hsz
        obtain ⟨a', c', ha', hc'⟩ := coefficients h1.sizes
        obtain ⟨_, g1⟩ := (step_iff ha hc ha' hc' next h1.others).1 h1
        have : a' = 1 / 2 := by linarith
        subst this
        exact ⟨ha', c', hc'⟩
      · exact half rest h' h1.sizes h3 s hs

/-- The hypotheses of `newton_terminates` hold when the loop starts from `u = 1 / 2`. -/
theorem terminates (h : Heap ℝ) (hn : 60 < h.next) {c : ℝ} (ha : h.vec 50 = [1 / 2]) (hc : h.vec 60 = [c]) {tol : ℝ}
    {maxiter g : Nat} {hist : List (ℝ × Heap ℝ)}
    (hrun : newton kinds fresh asm noTiny g oracle F x V up tol maxiter h = .ok hist) {q : ℝ}
    (hq : ∀ r, hist.head? = some r → 18 * r.1 ≤ q) :
    (∀ (k : Nat) r, hist[k]? = some r → 18 * r.1 ≤ q ^ 2 ^ k) ∧
      (q ^ 2 ^ (maxiter - 1) ≤ 18 * tol → ∀ r, hist.getLast? = some r → r.1 ≤ tol) := by
  have hsz : (vectors h up).map List.length = [1, 1] := by simp [vectors, up, ha, hc]
  have hhalf := half hist h hsz (iterates h hn hsz hrun)
  have hall : ∀ s ∈ h :: hist.map Prod.snd, s.vec 50 = [1 / 2] ∧ ∃ c, s.vec 60 = [c] := by
    intro s hs
    rcases List.mem_cons.1 hs with rfl | hs
    · exact ⟨ha, c, hc⟩
    · exact hhalf s hs
  have := newton_terminates (V := V) (setup hn) hsz (fun dF hJ => (assembles dF hJ).1) oracle_exact hrun (fun s _ => smooth _)
    (L := 36 * (1 / 2)) (β := 2) (q := q) (by norm_num)
    (fun s s' hs hs' _ => by
      obtain ⟨h1, c1, h2⟩ := hall s hs
      obtain ⟨h3, c2, h4⟩ := hhalf s' hs'
      exact lipschitz h1 h2 h3 h4 (by rw [abs_of_pos] <;> norm_num) (by norm_num))
    (fun s hs => by
      obtain ⟨h1, c1, h2⟩ := hhalf s hs
      exact stable h1 h2)
    (fun r hr => by have := hq r hr; linarith)
  norm_num at this ⊢
  exact this

example {B : List (List (Entry Nat))} (h : blockJacobian kinds fresh F x = .ok B) := block_jacobian_accepts h

/-- Residuals after a step, by `newton_residual`. -/
example {h h' : Heap ℝ} {next : Nat} {a c a' c' : ℝ} (ha : h.vec 50 = [a]) (hc : h.vec 60 = [c]) (ha' : h'.vec 50 = [a'])
    (hc' : h'.vec 60 = [c']) (hB : |a| ≤ 1) (hB' : |a' - a| ≤ 1) (hst : Step world kinds φ F up [1, 1] next h h') :=
  newton_residual hst (lipschitz ha hc ha' hc' hB hB')

end Verif.Examples.Newton
