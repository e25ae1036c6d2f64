import Verif.Lemmas.CollapseIter5
import Verif.Spec.CollapseIter
/-!
# Conforming expressions
-/
namespace Verif.CollapseIter
open Verif Collapse BlockOps

variable {K : Type} [CommRing K]

mutual
theorem size_of_conforms {tiny : Tiny K} : ∀ {e : OExpr K} {d : Dims}, Conforms tiny e d → size e.expr = d
  | _, _, .num c => by simp [OExpr.expr, size]
  | _, _, .mat M => by simp [OExpr.expr, size]
  | _, _, .tr i (d := d) h => by
      simp only [OExpr.expr, size, size_of_conforms h]; rcases d with _ | ⟨m, n⟩ <;> rfl
  | _, _, .add i h1 _ => by simp [OExpr.expr, size, size_of_conforms h1]
  | _, _, .addNum i h1 _ => by simp [OExpr.expr, size, size_of_conforms h1]
  | _, _, .numAdd i h1 _ => by simp [OExpr.expr, size, size_of_conforms h1]
  | _, _, .sub i h1 _ => by simp [OExpr.expr, size, size_of_conforms h1]
  | _, _, .mul i h => by rw [OExpr.expr, size, size_of_factors h]
theorem size_of_factors {tiny : Tiny K} : ∀ {es : List (OExpr K)} {d : Dims}, Factors tiny es d → sizeAll (exprAll es) = d
  | _, _, .single h _ => by simp [exprAll, sizeAll, size_of_conforms h, comb_none]
  | _, _, .scale h1 _ h2 => by simp [exprAll, sizeAll, size_of_conforms h1, size_of_factors h2, comb]
  | _, _, .scaled h1 _ h2 => by simp [exprAll, sizeAll, size_of_conforms h1, size_of_factors h2, comb]
  | _, _, .times h1 _ h2 => by simp [exprAll, sizeAll, size_of_conforms h1, size_of_factors h2, comb]
end

theorem flat_of_notProduct {a : OExpr K} (h : NotProduct a) : a.flat = [a] := by
  cases a <;> simp [OExpr.flat, NotProduct] at h ⊢

theorem flat_of_factors {tiny : Tiny K} : ∀ {es : List (OExpr K)} {d : Dims}, Factors tiny es d →
    es.flatMap OExpr.flat = es
  | _, _, .single _ h => by simp [flat_of_notProduct h]
  | _, _, .scale _ h h2 => by simp [flat_of_notProduct h, flat_of_factors h2]
  | _, _, .scaled _ h h2 => by simp [flat_of_notProduct h, flat_of_factors h2]
  | _, _, .times _ h h2 => by simp [flat_of_notProduct h, flat_of_factors h2]

/-- Children of conforming products. -/
theorem factors_children {tiny : Tiny K} {f i : Nat} {a b : OExpr K} {rest : List (OExpr K)} {d : Dims}
    (h : Factors tiny (a :: b :: rest) d) : ∃ c, children f (.mul i (a :: b :: rest)) = [a, c] ∧
      ∃ d1 d2, Conforms tiny a d1 ∧ Conforms tiny c d2 ∧
        ((d1 = none ∧ ∃ m n, d2 = some (m, n)) ∨ (d2 = none ∧ ∃ m n, d1 = some (m, n)) ∨
          ∃ m k n, d1 = some (m, k) ∧ d2 = some (k, n)) := by
  have key : ∀ d2, Factors tiny (b :: rest) d2 →
      ∃ c, children f (.mul i (a :: b :: rest)) = [a, c] ∧ Conforms tiny c d2 := by
    intro d2 h2
    cases rest with
    | nil =>
        refine ⟨b, rfl, ?_⟩
        cases h2 with
        | single h _ => exact h
        | scale _ _ h => cases h
        | scaled _ _ h => cases h
        | times _ _ h => cases h
    | cons e rest =>
        refine ⟨.mul f ((b :: e :: rest).flatMap OExpr.flat), rfl, ?_⟩
        rw [flat_of_factors h2]
        exact .mul f h2
  cases h with
  | scale h1 _ h2 =>
      obtain ⟨c, hc, h3⟩ := key _ h2
      exact ⟨c, hc, _, _, h1, h3, .inl ⟨rfl, _, _, rfl⟩⟩
  | scaled h1 _ h2 =>
      obtain ⟨c, hc, h3⟩ := key _ h2
      exact ⟨c, hc, _, _, h1, h3, .inr (.inl ⟨rfl, _, _, rfl⟩)⟩
  | times h1 _ h2 =>
      obtain ⟨c, hc, h3⟩ := key _ h2
      exact ⟨c, hc, _, _, h1, h3, .inr (.inr ⟨_, _, _, rfl, rfl⟩)⟩

theorem children_conforms {tiny : Tiny K} {p : OExpr K} {d : Dims} (h : Conforms tiny p d) (f : Nat) :
    ∀ c ∈ children f p, ∃ d', Conforms tiny c d' := by
  cases h with
  | num c => simp [children]
  | mat M => simp [children]
  | tr i h => simp only [children, List.mem_singleton, forall_eq]; exact ⟨_, h⟩
  | add i h1 h2 =>
      simp only [children, List.mem_cons, List.not_mem_nil, or_false, forall_eq_or_imp, forall_eq]
      exact ⟨⟨_, h1⟩, ⟨_, h2⟩⟩
  | addNum i h1 h2 =>
      simp only [children, List.mem_cons, List.not_mem_nil, or_false, forall_eq_or_imp, forall_eq]
      exact ⟨⟨_, h1⟩, ⟨_, .num _⟩⟩
  | numAdd i h1 h2 =>
      simp only [children, List.mem_cons, List.not_mem_nil, or_false, forall_eq_or_imp, forall_eq]
      exact ⟨⟨_, .num _⟩, ⟨_, h1⟩⟩
  | sub i h1 h2 =>
      simp only [children, List.mem_cons, List.not_mem_nil, or_false, forall_eq_or_imp, forall_eq]
      exact ⟨⟨_, h1⟩, ⟨_, h2⟩⟩
  | mul i h =>
      obtain ⟨c, hc, d1, d2, h1, h2, -⟩ := factors_children (f := f) (i := i) h
      rw [hc]
      simp only [List.mem_cons, List.not_mem_nil, or_false, forall_eq_or_imp, forall_eq]
      exact ⟨⟨_, h1⟩, ⟨_, h2⟩⟩

/-- Values of a given size. -/
theorem dims_none {v : Val K} (h : v.dims = none) : ∃ c, v = .num c := by
  cases v with
  | num c => exact ⟨c, rfl⟩
  | mat M => simp [Val.dims] at h

theorem dims_some {v : Val K} {m n : Nat} (h : v.dims = some (m, n)) : ∃ M, v = .mat M ∧ M.rows = m ∧ M.cols = n := by
  cases v with
  | num c => simp [Val.dims] at h
  | mat M => simp [Val.dims] at h; exact ⟨M, rfl, h.1, h.2⟩

theorem dims_of_eqv {tiny : Tiny K} {v : Val K} {e : OExpr K} {d : Dims} (h : Eqv v.expr e.expr) (hc : Conforms tiny e d) :
    v.dims = d := by
  rw [← size_val, h.2.2, size_of_conforms hc]

theorem num_of_eqv {v : Val K} {c : K} (h : Eqv v.expr (.num c)) : v = .num c := by
  obtain ⟨c', rfl⟩ := dims_none (v := v) (by rw [← size_val, h.2.2]; simp [size])
  have := congrFun (congrFun h.1 (fun _ => 1)) 0
  simp only [Val.expr, Expr.act, mul_one] at this
  rw [this]

/-- Operators of conforming expressions are applied without an exception. -/
theorem applyOp_ok {tiny : Tiny K} {p : OExpr K} {d : Dims} (hp : Conforms tiny p d) (ht : p.terminal = none)
    {vals : List (Val K)} (hv : List.Forall₂ (fun (w : Val K) c => Eqv w.expr c) vals (kids p)) :
    ∃ v, applyOp tiny (.op p) vals = .ok v := by
  cases hp with
  | num c => simp [OExpr.terminal] at ht
  | mat M => simp [OExpr.terminal] at ht
  | tr i h =>
      simp only [kids, children, List.map_cons, List.map_nil] at hv
      cases hv with
      | cons h1 hv =>
        cases hv
        rename_i w
        simp only [applyOp]
        cases w <;> exact ⟨_, rfl⟩
  | add i ha hb =>
      simp only [kids, children, List.map_cons, List.map_nil] at hv
      cases hv with
      | cons h1 hv =>
        cases hv with
        | cons h2 hv =>
          cases hv
          obtain ⟨M, rfl, h3, h4⟩ := dims_some (dims_of_eqv h1 ha)
          obtain ⟨N, rfl, h5, h6⟩ := dims_some (dims_of_eqv h2 hb)
          simp only [applyOp, opAdd, matAxpy]
          rw [if_pos ⟨by omega, by omega⟩]
          exact ⟨_, rfl⟩
  | addNum i ha hb =>
      simp only [kids, children, List.map_cons, List.map_nil] at hv
      cases hv with
      | cons h1 hv =>
        cases hv with
        | cons h2 hv =>
          cases hv
          obtain ⟨M, rfl, h3, h4⟩ := dims_some (dims_of_eqv h1 ha)
          obtain rfl := num_of_eqv h2
          simp only [applyOp, opAdd, hb, if_true]
          exact ⟨_, rfl⟩
  | numAdd i ha hb =>
      simp only [kids, children, List.map_cons, List.map_nil] at hv
      cases hv with
      | cons h1 hv =>
        cases hv with
        | cons h2 hv =>
          cases hv
          obtain ⟨M, rfl, h3, h4⟩ := dims_some (dims_of_eqv h2 ha)
          obtain rfl := num_of_eqv h1
          simp only [applyOp, opAdd, hb, if_true]
          exact ⟨_, rfl⟩
  | sub i ha hb =>
      simp only [kids, children, List.map_cons, List.map_nil] at hv
      cases hv with
      | cons h1 hv =>
        cases hv with
        | cons h2 hv =>
          cases hv
          obtain ⟨M, rfl, h3, h4⟩ := dims_some (dims_of_eqv h1 ha)
          obtain ⟨N, rfl, h5, h6⟩ := dims_some (dims_of_eqv h2 hb)
          simp only [applyOp, opSub, matAxpy]
          rw [if_pos ⟨by omega, by omega⟩]
          exact ⟨_, rfl⟩
  | mul i h =>
      obtain ⟨c, hc, d1, d2, ha, hb, hd⟩ := factors_children (f := 0) (i := i) h
      simp only [kids, hc, List.map_cons, List.map_nil] at hv
      cases hv with
      | cons h1 hv =>
        cases hv with
        | cons h2 hv =>
          cases hv
          have e1 := dims_of_eqv h1 ha
          have e2 := dims_of_eqv h2 hb
          rcases hd with ⟨rfl, m, n, rfl⟩ | ⟨rfl, m, n, rfl⟩ | ⟨m, k, n, rfl, rfl⟩
          · obtain ⟨c1, rfl⟩ := dims_none e1
            obtain ⟨M, rfl, -⟩ := dims_some e2
            exact ⟨_, rfl⟩
          · obtain ⟨c1, rfl⟩ := dims_none e2
            obtain ⟨M, rfl, -⟩ := dims_some e1
            exact ⟨_, rfl⟩
          · obtain ⟨M, rfl, -, h3⟩ := dims_some e1
            obtain ⟨N, rfl, h4, -⟩ := dims_some e2
            simp only [applyOp, opMul, matMul]
            rw [if_pos (by omega)]
            exact ⟨_, rfl⟩

theorem kids_pos {tiny : Tiny K} {p : OExpr K} {d : Dims} (h : Conforms tiny p d) (ht : p.terminal = none) :
    0 < (kids p).length := by
  cases h with
  | num c => simp [OExpr.terminal] at ht
  | mat M => simp [OExpr.terminal] at ht
  | mul i h =>
      obtain ⟨c, hc, -⟩ := factors_children (f := 0) (i := i) h
      simp [kids, hc]
  | _ => simp [kids, children]

/-! ### A rank which decreases from operators to their children -/

mutual
/-- Size of an expression. -/
def rank : OExpr K → Nat
  | .num _ => 0
  | .mat _ => 0
  | .other _ _ => 1
  | .mul _ chain => 1 + rankAll chain
  | .add _ a b => 1 + rank a + rank b
  | .sub _ a b => 1 + rank a + rank b
  | .tr _ a => 1 + rank a
/-- The same for lists; every member counts. -/
def rankAll : List (OExpr K) → Nat
  | [] => 0
  | e :: es => 1 + rank e + rankAll es
end

/-- Sum of ranks. -/
def rankSum (l : List (OExpr K)) : Nat := (l.map rank).sum

theorem rankAll_append (as bs : List (OExpr K)) : rankAll (as ++ bs) = rankAll as + rankAll bs := by
  induction as with
  | nil => simp [rankAll]
  | cons a as ih => simp [rankAll, ih]; omega

theorem rankAll_flat (l : List (OExpr K)) : rankAll (l.flatMap OExpr.flat) ≤ rankAll l := by
  induction l with
  | nil => simp
  | cons a l ih =>
      have : rankAll a.flat ≤ 1 + rank a := by
        cases a <;> simp [OExpr.flat, rankAll, rank]
        omega
      rw [List.flatMap_cons, rankAll_append, rankAll]
      omega

theorem rankSum_children (f : Nat) {p : OExpr K} (h : p.terminal = none) : rankSum (children f p) < rank p := by
  cases p with
  | num c => simp [OExpr.terminal] at h
  | mat M => simp [OExpr.terminal] at h
  | other i r => simp [children, rankSum, rank]
  | add i a b => simp only [children, rankSum, rank, List.map_cons, List.map_nil, List.sum_cons, List.sum_nil]; omega
  | sub i a b => simp only [children, rankSum, rank, List.map_cons, List.map_nil, List.sum_cons, List.sum_nil]; omega
  | tr i a => simp [children, rankSum, rank]
  | mul i chain =>
      rcases chain with _ | ⟨a, _ | ⟨b, _ | ⟨c, r⟩⟩⟩
      · simp [children, rankSum, rank]
      · simp [children, rankSum, rank, rankAll]
        try omega
      · simp [children, rankSum, rank, rankAll]
        try omega
      · have := rankAll_flat (b :: c :: r)
        simp only [children, rankSum, rank, rankAll, List.map_cons, List.map_nil, List.sum_cons, List.sum_nil] at this ⊢
        omega

theorem rank_le_sum {l : List (OExpr K)} {c : OExpr K} (h : c ∈ l) : rank c ≤ rankSum l := by
  induction l with
  | nil => simp at h
  | cons a l ih =>
      simp only [rankSum, List.map_cons, List.sum_cons] at ih ⊢
      rcases List.mem_cons.1 h with rfl | h
      · omega
      · have := ih h; omega

theorem rank_children (f : Nat) {p c : OExpr K} (h : p.terminal = none) (hc : c ∈ children f p) : rank c < rank p :=
  lt_of_le_of_lt (rank_le_sum hc) (rankSum_children f h)

end Verif.CollapseIter
