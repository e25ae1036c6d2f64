import Verif.Model.CollapseIter
import Verif.Lemmas.Collapse
import Verif.Lemmas.BlockOps
import Mathlib.Tactic.Ring
/-!
# The operations of the iterative collapse
-/
namespace Verif.CollapseIter
open Verif Collapse BlockOps

variable {K : Type} [CommRing K]

/-- Size of a product, numbers do not count. -/
def comb : Dims → Dims → Dims
  | none, t => t
  | t, none => t
  | some (m, _), some (_, n) => some (m, n)

theorem comb_assoc (a b c : Dims) : comb (comb a b) c = comb a (comb b c) := by
  rcases a with _ | ⟨_, _⟩ <;> rcases b with _ | ⟨_, _⟩ <;> rcases c with _ | ⟨_, _⟩ <;> rfl

theorem comb_none (a : Dims) : comb a none = a := by
  rcases a with _ | ⟨_, _⟩ <;> rfl

mutual
/-- Size of the result, if there is one. -/
def size : Expr K → Dims
  | .num _ => none
  | .mat M => some (M.rows, M.cols)
  | .op (.ok M) => some (M.rows, M.cols)
  | .op (.error _) => none
  | .mul chain => sizeAll chain
  | .add a b => match size a with
      | none => size b
      | d => d
  | .sub a b => match size a with
      | none => size b
      | d => d
  | .tr a => match size a with
      | none => none
      | some (m, n) => some (n, m)
/-- Size of a product. -/
def sizeAll : List (Expr K) → Dims
  | [] => none
  | e :: es => comb (size e) (sizeAll es)
end

theorem sizeAll_append (as bs : List (Expr K)) : sizeAll (as ++ bs) = comb (sizeAll as) (sizeAll bs) := by
  induction as with
  | nil => simp [sizeAll, comb]
  | cons a as ih => simp [sizeAll, ih, comb_assoc]

theorem size_val (v : Val K) : size v.expr = v.dims := by cases v <;> simp [Val.expr, size, Val.dims]

/-- Expressions with the same action, the same action of the transpose, and the same size. -/
def Eqv (e f : Expr K) : Prop := e.act = f.act ∧ e.actT = f.actT ∧ size e = size f

theorem Eqv.refl (e : Expr K) : Eqv e e := ⟨rfl, rfl, rfl⟩
theorem Eqv.symm {e f : Expr K} (h : Eqv e f) : Eqv f e := ⟨h.1.symm, h.2.1.symm, h.2.2.symm⟩
theorem Eqv.trans {e f g : Expr K} (h : Eqv e f) (h' : Eqv f g) : Eqv e g :=
  ⟨h.1.trans h'.1, h.2.1.trans h'.2.1, h.2.2.trans h'.2.2⟩

theorem Eqv.add {a a' b b' : Expr K} (ha : Eqv a a') (hb : Eqv b b') : Eqv (.add a b) (.add a' b') := by
  refine ⟨?_, ?_, ?_⟩
  · funext x i; simp only [Expr.act, ha.1, hb.1]
  · funext x i; simp only [Expr.actT, ha.2.1, hb.2.1]
  · simp only [size, ha.2.2, hb.2.2]

theorem Eqv.sub {a a' b b' : Expr K} (ha : Eqv a a') (hb : Eqv b b') : Eqv (.sub a b) (.sub a' b') := by
  refine ⟨?_, ?_, ?_⟩
  · funext x i; simp only [Expr.act, ha.1, hb.1]
  · funext x i; simp only [Expr.actT, ha.2.1, hb.2.1]
  · simp only [size, ha.2.2, hb.2.2]

theorem Eqv.tr {a a' : Expr K} (ha : Eqv a a') : Eqv (.tr a) (.tr a') := by
  refine ⟨?_, ?_, ?_⟩
  · funext x; simp only [Expr.act, ha.2.1]
  · funext x; simp only [Expr.actT, ha.1]
  · simp only [size, ha.2.2]

theorem Eqv.mul {a a' b b' : Expr K} (ha : Eqv a a') (hb : Eqv b b') : Eqv (.mul [a, b]) (.mul [a', b']) := by
  refine ⟨?_, ?_, ?_⟩
  · funext x; simp only [Expr.act, actChain, ha.1, hb.1]
  · funext x; simp only [Expr.actT, actTChain, ha.2.1, hb.2.1]
  · simp only [size, sizeAll, ha.2.2, hb.2.2]

theorem actTChain_append (as bs : List (Expr K)) (x : Nat → K) :
    actTChain (as ++ bs) x = actTChain bs (actTChain as x) := by
  induction as generalizing x with
  | nil => simp [actTChain]
  | cons a as ih => simp [actTChain, ih]

theorem exprAll_append (as bs : List (OExpr K)) : exprAll (as ++ bs) = exprAll as ++ exprAll bs := by
  induction as with
  | nil => simp [exprAll]
  | cons a as ih => simp [exprAll, ih]

/-- Flattening does not change a product. -/
theorem eqv_flat (c : List (OExpr K)) : Eqv (.mul (exprAll (c.flatMap OExpr.flat))) (.mul (exprAll c)) := by
  induction c with
  | nil => exact Eqv.refl _
  | cons a c ih =>
      obtain ⟨h1, h2, h3⟩ := ih
      have hx : Eqv (.mul (exprAll a.flat)) a.expr := by
        cases a <;> simp only [OExpr.flat, OExpr.expr, exprAll] <;>
          refine ⟨?_, ?_, ?_⟩ <;> (try funext x) <;>
          simp [Expr.act, Expr.actT, actChain, actTChain, size, sizeAll, comb_none]
      rw [List.flatMap_cons, exprAll_append]
      refine ⟨?_, ?_, ?_⟩
      · funext x
        have := congrFun h1 x
        simp only [Expr.act] at this ⊢
        rw [actChain_append, this, exprAll, actChain, ← hx.1]
        simp only [Expr.act]
      · funext x
        simp only [Expr.actT]
        rw [actTChain_append, exprAll, actTChain, ← hx.2.1]
        have := congrFun h2 (actTChain (exprAll a.flat) x)
        simp only [Expr.actT] at this ⊢
        exact this
      · simp only [size] at h3 ⊢
        rw [sizeAll_append, h3, exprAll, sizeAll, ← hx.2.2]
        simp only [size]

/-! ### Matrices -/

theorem mul_tr (A B : Mat K) (h : A.cols = B.rows) : (A.mul B).tr = B.tr.mul A.tr := by
  apply Mat.ext'
  · rfl
  · rfl
  · intro i j _ _
    simp only [Mat.tr, Mat.mul, h]
    exact Finset.sum_congr rfl (fun k _ => mul_comm _ _)

theorem axpy_tr (c : K) (A B : Mat K) : (Mat.axpy c A B).tr = Mat.axpy c A.tr B.tr := by
  apply Mat.ext'
  · rfl
  · rfl
  · intro i j _ _
    simp only [Mat.tr, Mat.axpy, Mat.of_e, and_comm]

theorem scale_tr (c : K) (A : Mat K) : (A.scale c).tr = A.tr.scale c := rfl

/-- A number is not tiny unless it is zero. -/
def NumOk (tiny : Tiny K) : Val K → Prop
  | .num c => tiny c = true → c = 0
  | .mat _ => True

theorem matAxpy_eqv {c : K} {M N : Mat K} {v : Val K} (h : matAxpy c M N = .ok v) :
    (∀ x i, v.expr.act x i = M.act x i + c * N.act x i) ∧
      (∀ x i, v.expr.actT x i = M.tr.act x i + c * N.tr.act x i) ∧ v.dims = some (M.rows, M.cols) ∧
      ∃ P, v = .mat P := by
  unfold matAxpy at h
  split at h
  · rename_i hs
    cases h
    refine ⟨fun x i => ?_, fun x i => ?_, rfl, _, rfl⟩
    · simp only [Val.expr, Expr.act]; exact Mat.axpy_act c M N hs.1 hs.2 x i
    · simp only [Val.expr, Expr.actT, axpy_tr]; exact Mat.axpy_act c M.tr N.tr hs.2 hs.1 x i
  · cases h

theorem opAdd_eqv {tiny : Tiny K} {a b v : Val K} (ha : NumOk tiny a) (hb : NumOk tiny b)
    (h : opAdd tiny a b = .ok v) : Eqv v.expr (.add a.expr b.expr) ∧ NumOk tiny v := by
  cases a with
  | num c =>
      cases b with
      | num d => simp [opAdd] at h
      | mat M =>
          simp only [opAdd] at h
          split at h
          · rename_i ht
            cases h
            have hc : c = 0 := ha ht
            subst hc
            refine ⟨⟨?_, ?_, ?_⟩, trivial⟩
            · funext x i; simp [Val.expr, Expr.act]
            · funext x i; simp [Val.expr, Expr.actT]
            · simp [Val.expr, size]
          · cases h
  | mat M =>
      cases b with
      | num c =>
          simp only [opAdd] at h
          split at h
          · rename_i ht
            cases h
            have hc : c = 0 := hb ht
            subst hc
            refine ⟨⟨?_, ?_, ?_⟩, trivial⟩
            · funext x i; simp [Val.expr, Expr.act]
            · funext x i; simp [Val.expr, Expr.actT]
            · simp [Val.expr, size]
          · cases h
      | mat N =>
          obtain ⟨h1, h2, h3, P, hP⟩ := matAxpy_eqv h
          refine ⟨⟨?_, ?_, ?_⟩, by rw [hP]; trivial⟩
          · funext x i; rw [h1]; simp [Val.expr, Expr.act]
          · funext x i; rw [h2]; simp [Val.expr, Expr.actT]
          · rw [size_val, h3]; simp [Val.expr, size]

theorem opSub_eqv {tiny : Tiny K} {a b v : Val K}
    (h : opSub a b = .ok v) : Eqv v.expr (.sub a.expr b.expr) ∧ NumOk tiny v := by
  cases a with
  | num c => cases b <;> simp [opSub] at h
  | mat M =>
      cases b with
      | num c => simp [opSub] at h
      | mat N =>
          obtain ⟨h1, h2, h3, P, hP⟩ := matAxpy_eqv h
          refine ⟨⟨?_, ?_, ?_⟩, by rw [hP]; trivial⟩
          · funext x i; rw [h1]; simp [Val.expr, Expr.act, sub_eq_add_neg]
          · funext x i; rw [h2]; simp [Val.expr, Expr.actT, sub_eq_add_neg]
          · rw [size_val, h3]; simp [Val.expr, size]

theorem opTr_eqv {tiny : Tiny K} {a v : Val K} (ha : NumOk tiny a)
    (h : opTr a = .ok v) : Eqv v.expr (.tr a.expr) ∧ NumOk tiny v := by
  cases a with
  | num c =>
      cases h
      exact ⟨⟨by funext x; simp [Val.expr, Expr.act, Expr.actT], by funext x; simp [Val.expr, Expr.act, Expr.actT],
        by simp [Val.expr, size]⟩, ha⟩
  | mat M =>
      cases h
      exact ⟨⟨by funext x; simp [Val.expr, Expr.act, Expr.actT], by funext x; simp [Val.expr, Expr.act, Expr.actT],
        by simp [Val.expr, size, Mat.tr]⟩, trivial⟩

theorem opMul_eqv {tiny : Tiny K} {a b v : Val K}
    (h : opMul a b = .ok v) : Eqv v.expr (.mul [a.expr, b.expr]) ∧ NumOk tiny v := by
  cases a with
  | num c =>
      cases b with
      | num d => simp [opMul] at h
      | mat M =>
          cases h
          refine ⟨⟨?_, ?_, ?_⟩, trivial⟩
          · funext x i; simp [Val.expr, Expr.act, actChain, Mat.scale_act]
          · funext x i; simp [Val.expr, Expr.actT, actTChain, scale_tr, Mat.scale_act, Mat.act_smul]
          · simp [Val.expr, size, sizeAll, comb, Mat.scale]
  | mat M =>
      cases b with
      | num c =>
          cases h
          refine ⟨⟨?_, ?_, ?_⟩, trivial⟩
          · funext x i; simp [Val.expr, Expr.act, actChain, Mat.scale_act, Mat.act_smul]
          · funext x i; simp [Val.expr, Expr.actT, actTChain, scale_tr, Mat.scale_act]
          · simp [Val.expr, size, sizeAll, comb, Mat.scale]
      | mat N =>
          simp only [opMul, matMul] at h
          split at h
          · rename_i hs
            cases h
            refine ⟨⟨?_, ?_, ?_⟩, trivial⟩
            · funext x; simp [Val.expr, Expr.act, actChain, Mat.mul_act _ _ hs]
            · funext x
              simp only [Val.expr, Expr.actT, actTChain, mul_tr _ _ hs]
              exact Mat.mul_act _ _ hs.symm x
            · simp [Val.expr, size, sizeAll, comb, Mat.mul]
          · cases h

/-! ### Operators and their children -/

/-- The expressions of the children. -/
def kids (p : OExpr K) : List (Expr K) := (children 0 p).map OExpr.expr

theorem kids_eq (f : Nat) (p : OExpr K) : (children f p).map OExpr.expr = kids p := by
  unfold kids children
  cases p with
  | mul i chain =>
      rcases chain with _ | ⟨a, _ | ⟨b, _ | ⟨c, r⟩⟩⟩ <;> simp [OExpr.expr]
  | _ => simp

/-- Applying an operator to values of its children. -/
theorem applyOp_eqv {tiny : Tiny K} {p : OExpr K} {vals : List (Val K)} {v : Val K}
    (hv : List.Forall₂ (fun (w : Val K) c => Eqv w.expr c ∧ NumOk tiny w) vals (kids p))
    (h : applyOp tiny (.op p) vals = .ok v) : Eqv v.expr p.expr ∧ NumOk tiny v := by
  cases p with
  | num c => simp [applyOp] at h
  | mat M => simp [applyOp] at h
  | other i r => simp [applyOp] at h
  | add i a b =>
      simp only [kids, children, List.map_cons, List.map_nil] at hv
      cases hv with
      | cons h1 hv =>
        cases hv with
        | cons h2 hv =>
          cases hv
          obtain ⟨r1, r2⟩ := opAdd_eqv h1.2 h2.2 h
          exact ⟨r1.trans (Eqv.add h1.1 h2.1), r2⟩
  | sub i a b =>
      simp only [kids, children, List.map_cons, List.map_nil] at hv
      cases hv with
      | cons h1 hv =>
        cases hv with
        | cons h2 hv =>
          cases hv
          obtain ⟨r1, r2⟩ := opSub_eqv h
          exact ⟨r1.trans (Eqv.sub h1.1 h2.1), r2⟩
  | tr i a =>
      simp only [kids, children, List.map_cons, List.map_nil] at hv
      cases hv with
      | cons h1 hv =>
        cases hv
        obtain ⟨r1, r2⟩ := opTr_eqv h1.2 h
        exact ⟨r1.trans (Eqv.tr h1.1), r2⟩
  | mul i chain =>
      rcases chain with _ | ⟨a, _ | ⟨b, _ | ⟨c, r⟩⟩⟩
      · simp only [kids, children, List.map_nil] at hv
        cases hv
        simp [applyOp] at h
      · simp only [kids, children, List.map_cons, List.map_nil] at hv
        cases hv with
        | cons h1 hv => cases hv; simp [applyOp] at h
      · simp only [kids, children, List.map_cons, List.map_nil] at hv
        cases hv with
        | cons h1 hv =>
          cases hv with
          | cons h2 hv =>
            cases hv
            obtain ⟨r1, r2⟩ := opMul_eqv h
            exact ⟨r1.trans (Eqv.mul h1.1 h2.1), r2⟩
      · simp only [kids, children, List.map_cons, List.map_nil] at hv
        cases hv with
        | cons h1 hv =>
          cases hv with
          | cons h2 hv =>
            cases hv
            obtain ⟨r1, r2⟩ := opMul_eqv h
            refine ⟨r1.trans ((Eqv.mul h1.1 h2.1).trans ?_), r2⟩
            have hf := eqv_flat (b :: c :: r)
            simp only [OExpr.expr] at hf ⊢
            refine (Eqv.mul (Eqv.refl _) hf).trans ⟨?_, ?_, ?_⟩
            · funext x; simp [Expr.act, actChain, exprAll]
            · funext x; simp [Expr.actT, actTChain, exprAll]
            · simp [size, sizeAll, exprAll, comb_none]

end Verif.CollapseIter
