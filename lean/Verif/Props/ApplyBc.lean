import Verif.Lemmas.ApplyBc
import Mathlib.Algebra.Order.BigOperators.Group.Finset
import Mathlib.Algebra.Order.BigOperators.Ring.Finset
/-!
# C10-C14: boundary conditions of block systems
-/
namespace Verif.ApplyBc
open Verif BlockOps Collapse
open Finset (mem_range sum_congr)

section block
variable {K : Type} [CommRing K]

/-- All that is known about `apply_bc` of a block system. -/
theorem applyBc_block (tiny : Tiny K) {ns : List Nat} {blocks : List (List (Expr K))}
    (hA : Conforming ns ns blocks) {b : SysVec K} {bs : List (List K)} (hb : VecIs ns b bs)
    {bcs : BcArg K} {data : List (List (Nat × K))} (hbc : BlockBcs ns.length bcs data)
    (hr : InRange ns data) (hc : Constrains data) (diag : K) (sym : Bool) :
    ∃ gs groups AA x A' b', groupsOf ns.length false bcs = .ok gs ∧ pyMap normGroup gs = .ok groups ∧
      AA.rows = ns.sum ∧ AA.cols = ns.sum ∧
      (∀ xs : List (List K), xs.map List.length = ns →
        ∀ i, AA.act (fnOf xs.flatten) i = fnOf (blockAct ns blocks xs).flatten i) ∧
      x.length = ns.sum ∧
      (∀ i, i < ns.sum → fnOf x i = (lastVal (globals 0 ns data) i).getD 0) ∧
      asBlockMat (eliminate sym ((globals 0 ns data).map Prod.fst) diag AA x bs.flatten).1 (strides 0 ns) = .ok A' ∧
      b'.map List.length = ns ∧
      b'.flatten = (eliminate sym ((globals 0 ns data).map Prod.fst) diag AA x bs.flatten).2 ∧
      bs.map List.length = ns ∧ data.length = ns.length ∧
      ∃ f, ∀ g, f ≤ g → ∀ ret, applyBc tiny g (.block ns ns blocks) b bcs diag sym ret =
        finish false sym ret A' b' ⟨AA, (globals 0 ns data).map Prod.fst, groups, ns⟩ := by
  obtain ⟨hn, hl, gs, h1, h2, h3⟩ := blockBcs_groups hbc hc
  obtain ⟨groups, h4, h5, h6⟩ := normGroups_ok h3
  have hbs : bs.map List.length = ns ∧ b.wrap false ns = .ok bs := by
    cases hb with
    | block h => exact ⟨h, rfl⟩
    | none => exact ⟨by simp [Function.comp_def], rfl⟩
  obtain ⟨AA, x, A', b', a1, a2, a3, a4, a5, a6, a7, a8, f, hf⟩ :=
    applyGroups_ok tiny hA hbs.1 h5 hl hr hc diag sym
  refine ⟨gs, groups, AA, x, A', b', h1, h4, a1, a2, a3, a4, a5, a6, a7, a8, hbs.1, hl, f, ?_⟩
  intro g hg ret
  have hbl : bs.length = ns.length := by rw [← hbs.1]; simp
  simp only [applyBc, hn, SysMat.wrap, hbs.2, py_bind_ok, hA.1, h1, hbl, h2, and_self, decide_true,
    pyAssert_true, h4, h6 hc, Bool.false_eq_true, if_false, Bool.not_true]
  exact hf g hg false ret
end block

section solve
variable {K : Type} [Field K]

/-- **C11** (and C10).  For a block system the solutions of what `apply_bc` returns are, in both
modes, exactly the vectors with the prescribed values which satisfy the equations of the other
dofs. -/
theorem applyBc_solutions (tiny : Tiny K) (ns : List Nat) (blocks : List (List (Expr K)))
    (hA : Conforming ns ns blocks) (b : SysVec K) (bs : List (List K)) (hb : VecIs ns b bs)
    (bcs : BcArg K) (data : List (List (Nat × K))) (hbc : BlockBcs ns.length bcs data)
    (hr : InRange ns data) (hc : Constrains data) (diag : K) (hd : diag ≠ 0) (sym : Bool) :
    ∃ (A' : List (List (Mat K))) (b' : List (List K)), MatLayout ns A' ∧ b'.map List.length = ns ∧
      (∃ f, ∀ g, f ≤ g →
        applyBc tiny g (.block ns ns blocks) b bcs diag sym false = .ok (.block A' b')) ∧
      ∀ ys : List (List K), ys.map List.length = ns →
        (blockAct ns (matBlocks A') ys = b' ↔ IsConstrainedSolution ns blocks bs data ys) := by
  obtain ⟨_, _, AA, x, A', b', _, _, a1, a2, a3, _, a5, a6, a7, a8, hbs, hl, f, hf⟩ :=
    applyBc_block tiny hA hb hbc hr hc diag sym
  have hE : (eliminate sym ((globals 0 ns data).map Prod.fst) diag AA x bs.flatten).1.rows = ns.sum ∧
      (eliminate sym ((globals 0 ns data).map Prod.fst) diag AA x bs.flatten).1.cols = ns.sum := by
    cases sym <;> simp [eliminate, zeroRowsMat, zeroRowsColumnsMat, a1, a2]
  refine ⟨A', b', (blocks_act hE.1 hE.2 a6).1, a7, ⟨f, fun g hg => by rw [hf g hg]; rfl⟩, ?_⟩
  exact solutions_iff hA hbs hl hr hd sym a1 a2 a3 a5 a6 a7 a8

/-- **C10** Every solution of the returned block system has the prescribed values. -/
theorem applyBc_imposes (tiny : Tiny K) (ns : List Nat) (blocks : List (List (Expr K)))
    (hA : Conforming ns ns blocks) (b : SysVec K) (bs : List (List K)) (hb : VecIs ns b bs)
    (bcs : BcArg K) (data : List (List (Nat × K))) (hbc : BlockBcs ns.length bcs data)
    (hr : InRange ns data) (hc : Constrains data) (diag : K) (hd : diag ≠ 0) (sym : Bool) :
    ∃ (A' : List (List (Mat K))) (b' : List (List K)),
      (∃ f, ∀ g, f ≤ g →
        applyBc tiny g (.block ns ns blocks) b bcs diag sym false = .ok (.block A' b')) ∧
      ∀ ys : List (List K), ys.map List.length = ns → blockAct ns (matBlocks A') ys = b' →
        ∀ k d v, prescribed data k d = some v → entry ys k d = some v := by
  obtain ⟨A', b', _, _, h, h'⟩ := applyBc_solutions tiny ns blocks hA b bs hb bcs data hbc hr hc diag hd sym
  exact ⟨A', b', h, fun ys hy hs => ((h' ys hy).1 hs).1⟩

/-- **C10** A system which is not square, or whose right-hand side has another length, is refused: nothing is eliminated. -/
theorem applyBc_rejects_sizes (tiny : Tiny K) (rs cs : List Nat) (blocks : List (List (Expr K)))
    (hA : Conforming rs cs blocks) (bs : List (List K)) (hb : bs.length = blocks.length) (bcs : BcArg K)
    (data : List (List (Nat × K))) (hbc : BlockBcs blocks.length bcs data) (hc : Constrains data)
    (h : ¬(rs.sum = cs.sum ∧ cs.sum = (bs.map List.length).sum)) (diag : K) (sym ret : Bool) :
    ∃ f, ∀ g, f ≤ g → applyBc tiny g (.block rs cs blocks) (.block bs) bcs diag sym ret = .error .assertion := by
  obtain ⟨hn, hl, gs, h1, h2, h3⟩ := blockBcs_groups hbc hc
  obtain ⟨groups, h4, h5, h6⟩ := normGroups_ok h3
  obtain ⟨AA, hrr, hcc, ⟨f, hf⟩, _⟩ := convert_acts_partial tiny rs cs blocks hA
  refine ⟨f, fun g hg => ?_⟩
  simp only [applyBc, hn, SysMat.wrap, SysVec.wrap, py_bind_ok, h1, hb, h2, and_self, decide_true,
    pyAssert_true, h4, h6 hc, Bool.false_eq_true, if_false, Bool.not_true, applyGroups, hf g hg, hrr, hcc, h,
    decide_false, pyAssert_false, py_bind_error]

/-- **C10** The same for a matrix and a vector which are not block objects. -/
theorem applyBc_plain_rejects_sizes (tiny : Tiny K) (M : Mat K) (b : List K) (bcs : BcArg K) (d : List (Nat × K))
    (hbc : PlainBcs bcs d) (hc : d ≠ []) (h : ¬(M.rows = M.cols ∧ M.cols = b.length)) (diag : K) (sym ret : Bool) :
    ∃ f, ∀ g, f ≤ g → applyBc tiny g (.plain M) (.plain b) bcs diag sym ret = .error .assertion := by
  obtain ⟨hn, gs, h1, h2, h3⟩ := plainBcs_groups hbc hc
  obtain ⟨groups, h4, h5, h6⟩ := normGroups_ok h3
  have hA : Conforming [M.rows] [M.cols] [[Expr.mat M]] := by
    refine ⟨rfl, ?_⟩
    intro i row r hi hr
    match i with
    | 0 =>
      simp only [List.getElem?_cons_zero, Option.some.injEq] at hi hr
      subst hi hr
      refine ⟨rfl, fun j e c he hc => ?_⟩
      match j with
      | 0 =>
        simp only [List.getElem?_cons_zero, Option.some.injEq] at he hc
        subst he hc
        exact .inl (.mat M)
      | j + 1 => simp at he
    | i + 1 => simp at hi
  have hcon : Constrains [d] := ⟨d, by simp, hc⟩
  obtain ⟨AA, hrr, hcc, ⟨f, hf⟩, _⟩ := convert_acts_partial tiny [M.rows] [M.cols] _ hA
  have h' : ¬([M.rows].sum = [M.cols].sum ∧ [M.cols].sum = [b.length].sum) := by simpa using h
  refine ⟨f, fun g hg => ?_⟩
  simp only [applyBc, hn, SysMat.wrap, SysVec.wrap, py_bind_ok, h1, h2, List.length_singleton, and_self,
    decide_true, pyAssert_true, h4, h6 hcon, Bool.false_eq_true, if_false, if_true, Bool.not_true, applyGroups, hf g hg, hrr, hcc,
    List.map_cons, List.map_nil, h', decide_false, pyAssert_false, py_bind_error]

/-- **C10** Conditions for blocks which do not exist are refused: a dictionary with a key outside `0, …, n - 1`, or a list
with some `DirichletBC` whose length is not the number of blocks. -/
theorem applyBc_rejects_blocks (tiny : Tiny K) (fuel : Nat) (rs cs : List Nat) (blocks : List (List (Expr K)))
    (bs : List (List K)) (diag : K) (sym ret : Bool) :
    (∀ (m : List (Int × BcArg K)) (k : Int), k ∈ m.map Prod.fst → k < 0 ∨ (blocks.length : Int) ≤ k →
      applyBc tiny fuel (.block rs cs blocks) (.block bs) (.map m) diag sym ret = .error .assertion) ∧
    (∀ (l : List (BcArg K)) (d : List (Nat × K)), .dir d ∈ l → l.length ≠ blocks.length →
      applyBc tiny fuel (.block rs cs blocks) (.block bs) (.list l) diag sym ret = .error .assertion) := by
  refine ⟨fun m k hk h => ?_, fun l d hl h => ?_⟩
  · obtain ⟨p, hp, rfl⟩ := List.mem_map.1 hk
    have hn : nothing (.map m : BcArg K) = false := by
      cases m with
      | nil => simp at hp
      | cons a m => rfl
    have ha : m.all (fun p => decide (0 ≤ p.1 ∧ p.1 < (blocks.length : Int))) = false := by
      rw [List.all_eq_false]
      exact ⟨p, hp, by simp; omega⟩
    have hg : groupsOf blocks.length false (.map m : BcArg K) = .error .assertion := by
      simp only [groupsOf, ha, pyAssert_false, py_bind_error]
    simp only [applyBc, hn, Bool.false_eq_true, if_false, SysMat.wrap, SysVec.wrap, py_bind_ok, hg, py_bind_error]
  · have hn : nothing (.list l : BcArg K) = false := by
      have : l.any BcArg.truthy = true := List.any_eq_true.2 ⟨_, hl, rfl⟩
      simp [nothing, this]
    have ha : ¬(blocks.length = bs.length ∧ bs.length = l.length) := by omega
    simp only [applyBc, hn, Bool.false_eq_true, if_false, SysMat.wrap, SysVec.wrap, py_bind_ok, groupsOf, ha, decide_false,
      pyAssert_false, py_bind_error]

/-- **C10** `apply_bc(A, None, bcs)` of a matrix treats the zero right-hand side. -/
theorem applyBc_no_rhs (tiny : Tiny K) (fuel : Nat) (M : Mat K) (bcs : BcArg K) (diag : K) (sym ret : Bool) :
    applyBc tiny fuel (.plain M) .none bcs diag sym ret =
      applyBc tiny fuel (.plain M) (.plain (List.replicate M.cols 0)) bcs diag sym ret := rfl

/-- **C10/C11** for a matrix and vector which are not block objects; the flag `return_apply_b` is
ignored. -/
theorem applyBc_plain_solutions (tiny : Tiny K) (n : Nat) (M : Mat K) (hM : M.rows = n ∧ M.cols = n)
    (b : List K) (hb : b.length = n) (bcs : BcArg K) (d : List (Nat × K)) (hbc : PlainBcs bcs d)
    (hr : ∀ p ∈ d, p.1 < n) (hc : d ≠ []) (diag : K) (hd : diag ≠ 0) (sym ret : Bool) :
    ∃ (M' : Mat K) (b' : List K), M'.rows = n ∧ M'.cols = n ∧ b'.length = n ∧
      (∃ f, ∀ g, f ≤ g → applyBc tiny g (.plain M) (.plain b) bcs diag sym ret = .ok (.plain M' b')) ∧
      ∀ y : List K, y.length = n →
        ((∀ i, i < n → M'.act (fnOf y) i = fnOf b' i) ↔
          (∀ i v, lastVal d i = some v → y[i]? = some v) ∧
          (∀ i, i < n → lastVal d i = none → M.act (fnOf y) i = fnOf b i)) := by
  obtain ⟨hn, gs, h1, h2, h3⟩ := plainBcs_groups hbc hc
  obtain ⟨groups, h4, h5, h6⟩ := normGroups_ok h3
  have hA : Conforming [n] [n] [[Expr.mat M]] := layout_conforming (A := [[M]]) ⟨rfl, by
    intro i row r hi hr
    match i with
    | 0 => simp at hi hr; subst hi hr; simp [hM]
    | i + 1 => simp at hi⟩
  have hin : InRange [n] [d] := by
    intro k e v m hm hk
    match k with
    | 0 => simp at hm hk; subst hk; exact hr (e, v) hm
    | k + 1 => simp at hk
  have hcon : Constrains [d] := ⟨d, by simp, hc⟩
  obtain ⟨AA, x, A', b', a1, a2, a3, a4, a5, a6, a7, a8, f, hf⟩ :=
    applyGroups_ok tiny hA (bs := [b]) (by simp [hb]) h5 rfl hin hcon diag sym
  have hE : (eliminate sym ((globals 0 [n] [d]).map Prod.fst) diag AA x [b].flatten).1.rows = [n].sum ∧
      (eliminate sym ((globals 0 [n] [d]).map Prod.fst) diag AA x [b].flatten).1.cols = [n].sum := by
    cases sym <;> simp [eliminate, zeroRowsMat, zeroRowsColumnsMat, a1, a2]
  have hlay := (blocks_act hE.1 hE.2 a6).1
  have hAshape : ∃ M', A' = [[M']] ∧ M'.rows = n ∧ M'.cols = n := by
    obtain ⟨l1, l2⟩ := hlay
    match A', l1 with
    | [row], _ =>
      obtain ⟨r1, r2⟩ := l2 0 row n (by simp) (by simp)
      match row, r2 with
      | [M'], r2 => exact ⟨M', rfl, r1 M' (by simp), by simpa using r2⟩
  obtain ⟨M', rfl, hM1, hM2⟩ := hAshape
  have hbshape : ∃ c, b' = [c] ∧ c.length = n := by
    match b', a7 with
    | [c], h => exact ⟨c, rfl, by simpa using h⟩
  obtain ⟨c, rfl, hcl⟩ := hbshape
  refine ⟨M', c, hM1, hM2, hcl, ⟨f, ?_⟩, ?_⟩
  · intro g hg
    have := hf g hg true ret
    simp only [applyBc, hn, SysMat.wrap, SysVec.wrap, py_bind_ok, h1, h2, List.length_singleton, and_self,
      decide_true, pyAssert_true, h4, h6 hcon, Bool.false_eq_true, if_false, if_true, Bool.not_true, hM.1, hM.2]
    rw [this]; rfl
  · intro y hy
    have := solutions_iff hA (bs := [b]) (by simp [hb]) rfl hin hd sym a1 a2 a3 a5 a6 a7 a8 [y] (by simp [hy])
    have e1 : blockAct [n] (matBlocks [[M']]) [y] = [c] ↔ ∀ i, i < n → M'.act (fnOf y) i = fnOf c i := by
      rw [bvec_eq_iff (ns := [n]) (blockAct_lengths [n] _ [y] rfl) (by simp [hcl])]
      simp only [List.sum_singleton, blockAct, matBlocks, List.map_cons, List.map_nil, List.zip_cons_cons,
        List.zip_nil_right, List.flatten_cons, List.flatten_nil, List.append_nil]
      refine forall_congr' (fun i => imp_congr_right (fun hi => ?_))
      rw [fnOf_map_range _ _ _ hi]
      simp [rowAct, Expr.act]
    rw [← e1, this]
    have e2 : ∀ i, prescribed [d] 0 i = lastVal d i := fun i => rfl
    have e3 : ∀ (z : List K) i, entry [z] 0 i = z[i]? := fun z i => by simp [entry]
    have e4 : ∀ i, entry (blockAct [n] [[Expr.mat M]] [y]) 0 i = if i < n then some (M.act (fnOf y) i) else none := by
      intro i
      simp only [blockAct, List.zip_cons_cons, List.zip_nil_right, List.map_cons, List.map_nil, e3]
      by_cases hi : i < n
      · simp [rowAct, Expr.act, hi]
      · simp [hi]
    constructor
    · rintro ⟨s1, s2⟩
      refine ⟨fun i v h => by simpa [e3] using s1 0 i v h, fun i hi h => ?_⟩
      have := s2 0 i h
      rw [e4, if_pos hi, e3] at this
      simp [fnOf, ← this]
    · rintro ⟨s1, s2⟩
      refine ⟨?_, ?_⟩
      · intro k i v h
        match k with
        | 0 => rw [e3]; exact s1 i v h
        | k + 1 => simp [prescribed, lastVal] at h
      · intro k i h
        match k with
        | 0 =>
          rw [e4, e3]
          by_cases hi : i < n
          · rw [if_pos hi, s2 i hi h]
            simp [fnOf, hb, hi]
          · simp [hb, hi]
        | k + 1 => simp [entry, blockAct]

/-! A block system with two blocks of sizes 1 and 2 and boundary conditions on both. -/
example : Conforming [1, 2] [1, 2]
    [[.mat (Mat.lit 1 1 [[1]]), .mat (Mat.lit 1 2 [[2, 3]])],
     [.num 0, .num (7 : ℚ)]] := by
  refine ⟨rfl, ?_⟩
  intro i row r hi hr
  match i with
  | 0 =>
      simp only [List.getElem?_cons_zero, Option.some.injEq] at hi hr
      subst hi hr
      refine ⟨rfl, ?_⟩
      intro j e c he hc
      match j with
      | 0 => simp only [List.getElem?_cons_zero, Option.some.injEq] at he hc; subst he hc
             exact Or.inl (.mat _)
      | 1 => simp at he hc; subst he hc; exact Or.inl (.mat _)
      | j + 2 => simp at he
  | 1 =>
      simp at hi hr
      subst hi hr
      refine ⟨rfl, ?_⟩
      intro j e c he hc
      match j with
      | 0 => simp at he hc; subst he hc; exact Or.inr (Or.inl rfl)
      | 1 => simp at he hc; subst he hc; exact Or.inr (Or.inr ⟨⟨7, rfl⟩, rfl, rfl⟩)
      | j + 2 => simp at he
  | i + 2 => simp at hi

example : BlockBcs 2 (.list [.dir [(0, 5)], .list [.dir [(1, 6)], .dict [(1, (7 : ℚ))]]])
    [[(0, 5)], [(1, 6), (1, 7)]] :=
  .list rfl (.cons (.dir _) (.cons (.list (ds := [[(1, 6)], [(1, 7)]]) (.cons (.dir _) (.cons (.dict _) .nil))) .nil))

example : BlockBcs 2 (.map [(1, .list [.dir [(1, (6 : ℚ))]])]) [[], [(1, 6)]] := by
  refine .map (by simp) (by simp) (by simp) rfl ?_
  intro k hk
  match k, hk with
  | 0, _ => simp
  | 1, _ =>
    refine ⟨?_, fun h => absurd (h (.list [.dir [(1, (6 : ℚ))]])) (by simp)⟩
    intro g hg
    simp at hg; subst hg
    exact .list (ds := [[(1, 6)]]) (.cons (.dir _) .nil)

example : InRange [1, 2] [[(0, 5)], [(1, 6), (1, (7 : ℚ))]] ∧
    Constrains [[(0, 5)], [(1, 6), (1, (7 : ℚ))]] ∧
    prescribed [[(0, 5)], [(1, 6), (1, (7 : ℚ))]] 1 1 = some 7 := by
  refine ⟨?_, ⟨[(0, 5)], by simp, by simp⟩, by decide⟩
  intro k d v n h1 h2
  match k with
  | 0 => simp at h1 h2; omega
  | 1 => simp at h1 h2; omega
  | k + 2 => simp at h2

/-- A matrix with one row and two columns is refused. -/
example (tiny : Tiny ℚ) : ∃ f, ∀ g, f ≤ g → applyBc tiny g (.plain (Mat.lit 1 2 [[2, 3]])) (.plain [4, 5]) (.dir [(0, 1)]) 1
    true false = .error .assertion :=
  applyBc_plain_rejects_sizes tiny _ _ _ _ (.group (.dir _)) (by simp) (by simp [Mat.lit]) _ _ _

end solve

section forms

/-- **C12** Symmetric elimination keeps symmetry. -/
theorem applyBc_symmetric {K : Type} [CommRing K] (tiny : Tiny K) (ns : List Nat)
    (blocks : List (List (Expr K))) (hA : Conforming ns ns blocks) (b : SysVec K) (bs : List (List K))
    (hb : VecIs ns b bs) (bcs : BcArg K) (data : List (List (Nat × K))) (hbc : BlockBcs ns.length bcs data)
    (hr : InRange ns data) (hc : Constrains data) (diag : K) (hs : SymmetricBlock ns blocks) :
    ∃ (A' : List (List (Mat K))) (b' : List (List K)),
      (∃ f, ∀ g, f ≤ g →
        applyBc tiny g (.block ns ns blocks) b bcs diag true false = .ok (.block A' b')) ∧
      SymmetricBlock ns (matBlocks A') := by
  obtain ⟨_, _, AA, x, A', b', _, _, a1, a2, a3, _, a5, a6, a7, a8, hbs, hl, f, hf⟩ :=
    applyBc_block tiny hA hb hbc hr hc diag true
  refine ⟨A', b', ⟨f, fun g hg => by rw [hf g hg]; rfl⟩, ?_⟩
  intro ys zs hy hz
  obtain ⟨ys', hy', ey⟩ := exists_block ns (clear ((globals 0 ns data).map Prod.fst) (fnOf ys.flatten))
  obtain ⟨zs', hz', ez⟩ := exists_block ns (clear ((globals 0 ns data).map Prod.fst) (fnOf zs.flatten))
  rw [eliminated_form hA.1 a1 a2 a3 a6 hy hz hy' hz' ey ez, eliminated_form hA.1 a1 a2 a3 a6 hz hy hz' hy' ez ey,
    hs ys' zs' hy' hz']
  congr 1
  exact sum_congr rfl (fun i _ => by rw [mul_comm (fnOf ys.flatten i)])

/-- **C12** Symmetric elimination with a positive `diag_val` keeps positive definiteness. -/
theorem applyBc_posDef {K : Type} [Field K] [LinearOrder K] [IsStrictOrderedRing K] (tiny : Tiny K) (ns : List Nat)
    (blocks : List (List (Expr K))) (hA : Conforming ns ns blocks) (b : SysVec K) (bs : List (List K))
    (hb : VecIs ns b bs) (bcs : BcArg K) (data : List (List (Nat × K))) (hbc : BlockBcs ns.length bcs data)
    (hr : InRange ns data) (hc : Constrains data) (diag : K) (hd : 0 < diag) (hs : PosDefBlock ns blocks) :
    ∃ (A' : List (List (Mat K))) (b' : List (List K)),
      (∃ f, ∀ g, f ≤ g →
        applyBc tiny g (.block ns ns blocks) b bcs diag true false = .ok (.block A' b')) ∧
      PosDefBlock ns (matBlocks A') := by
  obtain ⟨_, _, AA, x, A', b', _, _, a1, a2, a3, _, a5, a6, a7, a8, hbs, hl, f, hf⟩ :=
    applyBc_block tiny hA hb hbc hr hc diag true
  refine ⟨A', b', ⟨f, fun g hg => by rw [hf g hg]; rfl⟩, ?_⟩
  intro ys hy hne
  set R := (globals 0 ns data).map Prod.fst with hR
  obtain ⟨ys', hy', ey⟩ := exists_block ns (clear R (fnOf ys.flatten))
  rw [eliminated_form hA.1 a1 a2 a3 a6 hy hy hy' hy' ey ey]
  have nn : ∀ i ∈ Finset.range ns.sum,
      0 ≤ (if i ∈ R then diag * (fnOf ys.flatten i * fnOf ys.flatten i) else 0) := by
    intro i _
    split
    · exact mul_nonneg hd.le (mul_self_nonneg _)
    · exact le_refl _
  by_cases hz : ∃ x ∈ ys', ∃ a ∈ x, a ≠ 0
  · exact add_pos_of_nonneg_of_pos (Finset.sum_nonneg nn) (hs ys' hy' hz)
  · push Not at hz
    have z1 : ∀ i, fnOf ys'.flatten i = 0 := by
      intro i
      by_cases hi : i < ys'.flatten.length
      · have : ys'.flatten[i] ∈ ys'.flatten := List.getElem_mem hi
        obtain ⟨l, hl1, hl2⟩ := List.mem_flatten.mp this
        have := hz l hl1 _ hl2
        simp only [fnOf, List.getD_eq_getElem?_getD, List.getElem?_eq_getElem hi, Option.getD_some, this]
      · exact fnOf_ge _ _ (by omega)
    have z2 : bdot ys' (blockAct ns blocks ys') = 0 := by
      rw [bdot_act hA.1 a3 hy' hy']
      exact Finset.sum_eq_zero (fun i _ => by rw [z1]; ring)
    rw [z2, add_zero]
    obtain ⟨x, hx, a, ha, hane⟩ := hne
    have hmem : a ∈ ys.flatten := List.mem_flatten.mpr ⟨x, hx, ha⟩
    obtain ⟨i, hi, hia⟩ := List.getElem_of_mem hmem
    have hin : i < ns.sum := by rw [← hy, ← List.length_flatten]; exact hi
    have hfi : fnOf ys.flatten i = a := by
      simp only [fnOf, List.getD_eq_getElem?_getD, List.getElem?_eq_getElem hi, Option.getD_some, hia]
    have hiR : i ∈ R := by
      by_contra hiR
      have := ey i hin
      rw [z1, clear, if_neg hiR, hfi] at this
      exact hane this.symm
    refine Finset.sum_pos' nn ⟨i, mem_range.mpr hin, ?_⟩
    rw [if_pos hiR, hfi]
    exact mul_pos hd (mul_self_pos.mpr hane)

/-! The identity is symmetric and positive definite. -/
example : SymmetricBlock [1, 1] [[.num 1, .num 0], [.num 0, .num (2 : ℚ)]] := by
  intro xs ys hx hy
  match xs, ys, hx, hy with
  | [[a], [b]], [[c], [d]], _, _ =>
    simp [blockAct, rowAct, Expr.act, bdot, dot, fnOf]; ring

example : PosDefBlock [1, 1] [[.num 1, .num 0], [.num 0, .num (2 : ℚ)]] := by
  intro xs hx hne
  match xs, hx with
  | [[a], [b]], _ =>
    simp [blockAct, rowAct, Expr.act, bdot, dot, fnOf]
    simp at hne
    rcases hne with h | h
    · have := mul_self_pos.mpr h
      nlinarith [mul_self_nonneg b]
    · have := mul_self_pos.mpr h
      nlinarith [mul_self_nonneg a]

end forms

/-! ### C13: the updater of the right-hand side -/
section updater
variable {K : Type} [CommRing K]

theorem dirichlet_data (bcs : List (List (List (Nat × K)))) :
    List.Forall₂ GroupIs (dirichlet bcs) (bcs.map List.flatten) := by
  induction bcs with
  | nil => exact .nil
  | cons l bcs ih =>
      refine .cons (.list ?_) ih
      induction l with
      | nil => exact .nil
      | cons d l ih' => exact .cons (.dir d) ih'

theorem dirichlet_norm (bcs : List (List (List (Nat × K)))) :
    pyMap normGroup (dirichlet bcs) = .ok (dirichlet bcs) := by
  have := pyMap_ok (f := normGroup) (g := fun x : BcArg K => x) (xs := dirichlet bcs) (by
    intro g hg
    obtain ⟨l, _, rfl⟩ := List.mem_map.mp hg
    rfl)
  simpa using this

theorem updatedValues_dirichlet (bcs : List (List (List (Nat × K)))) :
    updatedValues (dirichlet bcs) = (bcs.map List.flatten).flatten.map Prod.snd := by
  simp only [updatedValues, dirichlet, List.map_map, Function.comp_def, List.map_flatten]

theorem globals_snd : ∀ (data : List (List (Nat × K))) (s : Nat) (ns : List Nat), data.length = ns.length →
    (globals s ns data).map Prod.snd = data.flatten.map Prod.snd
  | [], s, ns, h => by
      have : ns = [] := by simpa using h.symm
      subst this; rfl
  | d :: ds, s, n :: ns, h => by
      simp [globals, globals_snd ds (s + n) ns (by simpa using h), Function.comp_def]

theorem globals_fst : ∀ (data data' : List (List (Nat × K))) (s : Nat) (ns : List Nat),
    data.map (·.map Prod.fst) = data'.map (·.map Prod.fst) →
    (globals s ns data).map Prod.fst = (globals s ns data').map Prod.fst
  | [], data', s, ns, h => by
      have : data' = [] := by simpa using h.symm
      subst this; rfl
  | d :: ds, d' :: ds', s, ns, h => by
      simp only [List.map_cons, List.cons.injEq] at h
      cases ns with
      | nil => rfl
      | cons n ns =>
        have := globals_fst ds ds' (s + n) ns h.2
        have e : d.map (fun p => s + p.1) = d'.map (fun p => s + p.1) := by
          have := congrArg (List.map (s + ·)) h.1
          simpa [Function.comp_def] using this
        simp [globals, this, Function.comp_def, e]

theorem sameDofs_data {bcs bcs' : List (List (List (Nat × K)))} (h : SameDofs bcs bcs') :
    (bcs.map List.flatten).map (·.map Prod.fst) = (bcs'.map List.flatten).map (·.map Prod.fst) := by
  have := congrArg (List.map List.flatten) h
  simpa [Function.comp_def, List.map_flatten] using this

theorem sameDofs_inRange {ns : List Nat} {data data' : List (List (Nat × K))}
    (h : data.map (·.map Prod.fst) = data'.map (·.map Prod.fst)) (hr : InRange ns data) : InRange ns data' := by
  intro k d v n hm hk
  have e : (data.getD k []).map Prod.fst = (data'.getD k []).map Prod.fst := by
    have := congrArg (fun l => l.getD k []) h
    simp only [List.getD_eq_getElem?_getD, List.getElem?_map] at this ⊢
    cases h1 : data[k]? <;> cases h2 : data'[k]? <;> simp_all
  have : d ∈ (data.getD k []).map Prod.fst := by rw [e]; exact List.mem_map_of_mem hm
  obtain ⟨p, hp, rfl⟩ := List.mem_map.mp this
  exact hr k p.1 p.2 n hp hk

theorem sameDofs_constrains {data data' : List (List (Nat × K))}
    (h : data.map (·.map Prod.fst) = data'.map (·.map Prod.fst)) (hc : Constrains data) : Constrains data' := by
  obtain ⟨l, hl, hne⟩ := hc
  have : l.map Prod.fst ∈ data'.map (·.map Prod.fst) := by rw [← h]; exact List.mem_map_of_mem hl
  obtain ⟨l', hl', e⟩ := List.mem_map.mp this
  refine ⟨l', hl', ?_⟩
  rintro rfl
  simp at e
  exact hne e

/-- **C13**, for `diag_val = 1` and `DirichletBC`s.  `apply_bc(A, b, bcs, return_apply_b=True)` returns a
function which, called with a right-hand side `c` when the boundary values have changed to those of `bcs'`,
gives the right-hand side which `apply_bc(A, c, bcs')` would give.  Missing: other values of `diag_val` and
dictionaries, for which it is false (`updater_ignores_diag`, `updater_fails_dict`). -/
theorem updater_agrees_partial (tiny : Tiny K) (ns : List Nat) (blocks : List (List (Expr K)))
    (hA : Conforming ns ns blocks) (bs cs : List (List K)) (hb : bs.map List.length = ns)
    (hc : cs.map List.length = ns) (bcs bcs' : List (List (List (Nat × K)))) (hn : bcs.length = ns.length)
    (hsame : SameDofs bcs bcs') (hr : InRange ns (bcs.map List.flatten))
    (hcon : Constrains (bcs.map List.flatten)) :
    ∃ (A' : List (List (Mat K))) (b' c' : List (List K)) (u : Updater K) (f : Nat), ∀ g, f ≤ g →
      applyBc tiny g (.block ns ns blocks) (.block bs) (.list (dirichlet bcs)) 1 true true = .ok (.triple A' b' u) ∧
      applyBc tiny g (.block ns ns blocks) (.block cs) (.list (dirichlet bcs')) 1 true false = .ok (.block A' c') ∧
      u.apply (dirichlet bcs') cs = .ok c' := by
  have hd := sameDofs_data hsame
  have hn' : bcs'.length = ns.length := by
    have := congrArg List.length hsame
    simp at this; omega
  set data := bcs.map List.flatten with hdata
  set data' := bcs'.map List.flatten with hdata'
  have hr' := sameDofs_inRange hd hr
  have hcon' := sameDofs_constrains hd hcon
  have hl' : data'.length = ns.length := by simp [hdata', hn']
  obtain ⟨gs, groups, AA, x, A', b', g1, g2, a1, a2, a3, a4, a5, a6, a7, a8, _, _, f, hf⟩ :=
    applyBc_block tiny hA (.block hb) (.list (by simp [dirichlet, hn]) (dirichlet_data bcs)) hr hcon 1 true
  obtain ⟨gs', groups', AA', x', A'', c', g1', g2', e1, e2, e3, e4, e5, e6, e7, e8, _, _, f', hf'⟩ :=
    applyBc_block tiny hA (.block hc) (.list (by simp [dirichlet, hn']) (dirichlet_data bcs')) hr' hcon' 1 true
  have hAA : AA = AA' := by
    refine Mat.eq_of_act AA AA' (by omega) (by omega) ?_
    intro y i
    obtain ⟨ys, hy, hyy⟩ := exists_block ns y
    rw [act_congr AA y (fnOf ys.flatten) (fun k hk => (hyy k (by omega)).symm),
      act_congr AA' y (fnOf ys.flatten) (fun k hk => (hyy k (by omega)).symm), a3 ys hy, e3 ys hy]
  subst hAA
  have hR : (globals 0 ns data).map Prod.fst = (globals 0 ns data').map Prod.fst := globals_fst _ _ 0 ns hd
  have hA'' : A' = A'' := by
    have : (eliminate true ((globals 0 ns data).map Prod.fst) 1 AA x bs.flatten).1 =
        (eliminate true ((globals 0 ns data').map Prod.fst) 1 AA x' cs.flatten).1 := by
      simp [eliminate, hR]
    rw [this, e6] at a6
    exact (Except.ok.inj a6).symm
  subst hA''
  refine ⟨A', b', c', ⟨AA, (globals 0 ns data).map Prod.fst, groups, ns⟩, max f f', fun g hg => ⟨?_, ?_, ?_⟩⟩
  · rw [hf g (by omega)]; rfl
  · rw [hf' g (by omega)]; rfl
  · have hv : updatedValues (dirichlet bcs') = (globals 0 ns data').map Prod.snd := by
      rw [updatedValues_dirichlet, globals_snd _ 0 ns hl']
    have hz : ((globals 0 ns data').map Prod.fst).zip ((globals 0 ns data').map Prod.snd) = globals 0 ns data' := by
      rw [List.zip_map']
      simp
    simp only [Updater.apply, hv, hR, List.length_map, if_true, hz]
    have hlt : ∀ p ∈ globals 0 ns data', p.1 < ns.sum := fun p hp => by
      simpa using (globals_lt data' 0 ns hr' p hp).2
    obtain ⟨w, w1, w2, w3⟩ := setValues_ok (globals 0 ns data') (List.replicate AA.cols (0 : K)) (by
      intro p hp; simpa [a2] using hlt p hp)
    have lc : cs.flatten.length = ns.sum := by rw [List.length_flatten, hc]
    obtain ⟨v, v1, v2, v3⟩ := setValues_ok (globals 0 ns data') ((List.range cs.flatten.length).map
      (fun i => cs.flatten.getD i 0 - AA.act (fun j => w.getD j 0) i)) (by
      intro p hp; simpa [lc] using hlt p hp)
    simp only [w1, py_bind_ok, convertVec, v1]
    obtain ⟨c'', q1, q2, q3⟩ := convert_asBlock_vec v ns (by rw [v2]; simp [lc])
    rw [q1]
    congr 1
    refine flatten_inj (q2.trans e7.symm) ?_
    simp only [convertVec] at q3
    rw [q3, e8]
    have hw : ∀ j, j < ns.sum → w.getD j 0 = (lastVal (globals 0 ns data') j).getD 0 := by
      intro j hj
      rw [List.getD_eq_getElem?_getD, w3 j (by simpa [a2] using hj), List.getElem?_replicate, if_pos (by omega)]
      cases lastVal (globals 0 ns data') j <;> simp
    refine List.ext_getElem? (fun i => ?_)
    by_cases hi : i < ns.sum
    · rw [v3 i (by simpa [lc] using hi)]
      simp only [eliminate, if_true, zeroRowsColumnsVec]
      rw [List.getElem?_map, List.getElem?_range (by omega), List.getElem?_map, List.getElem?_range (by omega)]
      simp only [Option.map_some]
      by_cases hiR : i ∈ (globals 0 ns data').map Prod.fst
      · rw [if_pos hiR]
        have hne : lastVal (globals 0 ns data') i ≠ none := by
          rw [Ne, lastVal_eq_none]; exact not_not.mpr hiR
        obtain ⟨val, hval⟩ := Option.ne_none_iff_exists'.mp hne
        have := e5 i hi
        simp only [fnOf] at this
        rw [this, hval]
        simp
      · rw [if_neg hiR, lastVal_eq_none.mpr hiR]
        simp only [Option.none_or, Option.some.injEq]
        congr 1
        rw [Mat.act]
        refine sum_congr rfl (fun j hj => ?_)
        have hj := mem_range.mp hj
        rw [hw j (by omega)]
        have := e5 j (by omega)
        simp only [fnOf] at this
        by_cases hjR : j ∈ (globals 0 ns data').map Prod.fst
        · rw [if_pos hjR, this]
        · rw [if_neg hjR, lastVal_eq_none.mpr hjR]; simp
    · rw [List.getElem?_eq_none (by rw [v2]; simp [lc]; omega), List.getElem?_eq_none]
      simp [eliminate, zeroRowsColumnsVec, lc]; omega

end updater

/-! ### Where the updater disagrees -/

/-- The 1x1 system `1*x = 0`. -/
def oneByOne : SysMat ℚ := .block [1] [1] [[.mat (Mat.lit 1 1 [[1]])]]

def noTiny : Tiny ℚ := fun _ => false

/-- Its monolithic matrix. -/
def oneAA : Mat ℚ := vcat 1 [hcat 1 [Mat.lit 1 1 [[1]]]]

theorem oneAA_convert (fuel : Nat) :
    convertMat noTiny (fuel + 1) [1] [1] [[.mat (Mat.lit 1 1 [[1]])]] = .ok oneAA := by
  have := convertMat_mats noTiny fuel [1] [[Mat.lit 1 1 [[1]]]] ⟨rfl, by
    intro i row r hi hr
    match i with
    | 0 => simp at hi hr; subst hi hr; simp [Mat.lit]
    | i + 1 => simp at hi⟩
  simpa [matBlocks, oneAA] using this

theorem oneAA_block (diag : ℚ) : asBlockMat (zeroRowsColumnsMat [0] diag oneAA) (strides 0 [1]) =
    .ok [[Mat.block (zeroRowsColumnsMat [0] diag oneAA) 0 1 0 1]] :=
  asBlockMat_eq _ [1] rfl rfl

/-- **C13** is false for `diag_val = 2`: with the boundary value 1, `apply_bc` gives the right-hand
side 2 while the updater gives 1 (which has the wrong solution 1/2). -/
theorem updater_ignores_diag : ∃ (A' : List (List (Mat ℚ))) (u : Updater ℚ), ∀ fuel,
    applyBc noTiny (fuel + 1) oneByOne (.block [[0]]) (.list (dirichlet [[[(0, 1)]]])) 2 true true =
      .ok (.triple A' [[2]] u) ∧
    u.apply (dirichlet [[[(0, 1)]]]) [[0]] = .ok [[1]] := by
  refine ⟨[[Mat.block (zeroRowsColumnsMat [0] 2 oneAA) 0 1 0 1]], ⟨oneAA, [0], dirichlet [[[(0, 1)]]], [1]⟩,
    fun fuel => ⟨?_, ?_⟩⟩
  · have e : applyBc noTiny (fuel + 1) oneByOne (.block [[0]]) (.list (dirichlet [[[(0, 1)]]])) 2 true true =
        applyGroups noTiny (fuel + 1) false [1] [1] [[.mat (Mat.lit 1 1 [[1]])]] [[0]] (dirichlet [[[(0, 1)]]])
          2 true true := rfl
    have e1 : globalData 0 [1] (dirichlet [[[(0, 1)]]]) = .ok [(0, (1 : ℚ))] := rfl
    have e2 : setValues [(0 : ℚ)] [(0, 1)] = .ok [1] := rfl
    have e3 : zeroRowsColumnsVec [0] 2 oneAA [1] [0] = [(2 : ℚ)] := by simp [zeroRowsColumnsVec]
    have e4 : asBlockVec [(2 : ℚ)] (strides 0 [1]) = .ok [[2]] := rfl
    have e5 : oneAA.rows = 1 := rfl
    have e6 : oneAA.cols = 1 := rfl
    rw [e, applyGroups, oneAA_convert]
    simp [e1, e2, e3, e4, e5, e6, eliminate, convertVec, applyGroups.pyAssertValue, finish, oneAA_block]
  · rfl

/-- **C13** is false for dictionaries: the updater raises. -/
theorem updater_fails_dict : ∃ (A' : List (List (Mat ℚ))) (u : Updater ℚ), ∀ fuel,
    applyBc noTiny (fuel + 1) oneByOne (.block [[0]]) (.list [.list [.dict [(0, 1)]]]) 1 true true =
      .ok (.triple A' [[1]] u) ∧
    u.apply [.list [.dict [(0, 1)]]] [[0]] = .error .valueError := by
  refine ⟨[[Mat.block (zeroRowsColumnsMat [0] 1 oneAA) 0 1 0 1]], ⟨oneAA, [0], [.list [.dict [(0, 1)]]], [1]⟩,
    fun fuel => ⟨?_, ?_⟩⟩
  · have e : applyBc noTiny (fuel + 1) oneByOne (.block [[0]]) (.list [.list [.dict [(0, 1)]]]) 1 true true =
        applyGroups noTiny (fuel + 1) false [1] [1] [[.mat (Mat.lit 1 1 [[1]])]] [[0]] ([.list [.dict [(0, 1)]]])
          1 true true := rfl
    have e1 : globalData 0 [1] ([.list [.dict [(0, 1)]]]) = .ok [(0, (1 : ℚ))] := rfl
    have e2 : setValues [(0 : ℚ)] [(0, 1)] = .ok [1] := rfl
    have e3 : zeroRowsColumnsVec [0] 1 oneAA [1] [0] = [(1 : ℚ)] := by simp [zeroRowsColumnsVec]
    have e4 : asBlockVec [(1 : ℚ)] (strides 0 [1]) = .ok [[1]] := rfl
    have e5 : oneAA.rows = 1 := rfl
    have e6 : oneAA.cols = 1 := rfl
    rw [e, applyGroups, oneAA_convert]
    simp [e1, e2, e3, e4, e5, e6, eliminate, convertVec, applyGroups.pyAssertValue, finish, oneAA_block]
  · rfl

/-! ### C14: what is returned -/
section contract
variable {K : Type} [CommRing K]

/-- **C14** Empty boundary conditions - `None`, an empty list or dictionary, a list of empty lists - leave
the system unchanged. -/
theorem applyBc_nothing (tiny : Tiny K) (fuel : Nat) (A : SysMat K) (b : SysVec K) (diag : K) (sym ret : Bool)
    (bcs : BcArg K) (h : bcs = .none ∨ bcs = .map [] ∨ bcs = .dict [] ∨ ∃ n, bcs = .list (List.replicate n (.list []))) :
    applyBc tiny fuel A b bcs diag sym ret = .ok .same := by
  rcases h with rfl | rfl | rfl | ⟨n, rfl⟩
  · rfl
  · rfl
  · rfl
  · have : nothing (.list (List.replicate n (.list [])) : BcArg K) = true := by
      simp only [nothing, Bool.not_eq_true', List.any_eq_false]
      intro x hx
      rw [List.eq_of_mem_replicate hx]
      simp [BcArg.truthy]
    simp [applyBc, this]

/-- **C14** A block system with boundary conditions gives a pair of block objects, or with
`return_apply_b` in the symmetric mode a triple.  Missing: `return_apply_b` without `symmetric`, for
plain matrices and for empty conditions, where the contract is broken (`return_apply_b_unbound`,
`return_apply_b_plain_ignored`, `return_apply_b_empty_ignored`). -/
theorem applyBc_contract_partial (tiny : Tiny K) (ns : List Nat) (blocks : List (List (Expr K)))
    (hA : Conforming ns ns blocks) (b : SysVec K) (bs : List (List K)) (hb : VecIs ns b bs)
    (bcs : BcArg K) (data : List (List (Nat × K))) (hbc : BlockBcs ns.length bcs data)
    (hr : InRange ns data) (hc : Constrains data) (diag : K) (sym : Bool) :
    ∃ (A' : List (List (Mat K))) (b' : List (List K)) (u : Updater K) (f : Nat), MatLayout ns A' ∧
      b'.map List.length = ns ∧ ∀ g, f ≤ g →
      applyBc tiny g (.block ns ns blocks) b bcs diag sym false = .ok (.block A' b') ∧
      (sym = true → applyBc tiny g (.block ns ns blocks) b bcs diag sym true = .ok (.triple A' b' u)) := by
  obtain ⟨_, groups, AA, x, A', b', _, _, a1, a2, a3, _, a5, a6, a7, a8, hbs, hl, f, hf⟩ :=
    applyBc_block tiny hA hb hbc hr hc diag sym
  have hE : (eliminate sym ((globals 0 ns data).map Prod.fst) diag AA x bs.flatten).1.rows = ns.sum ∧
      (eliminate sym ((globals 0 ns data).map Prod.fst) diag AA x bs.flatten).1.cols = ns.sum := by
    cases sym <;> simp [eliminate, zeroRowsMat, zeroRowsColumnsMat, a1, a2]
  refine ⟨A', b', ⟨AA, (globals 0 ns data).map Prod.fst, groups, ns⟩, f, (blocks_act hE.1 hE.2 a6).1, a7, fun g hg => ⟨?_, ?_⟩⟩
  · rw [hf g hg]; rfl
  · rintro rfl
    rw [hf g hg]; rfl

/-- **C14** is false for `return_apply_b` in the nonsymmetric mode: always `UnboundLocalError`. -/
theorem return_apply_b_unbound (tiny : Tiny K) (ns : List Nat) (blocks : List (List (Expr K)))
    (hA : Conforming ns ns blocks) (b : SysVec K) (bs : List (List K)) (hb : VecIs ns b bs)
    (bcs : BcArg K) (data : List (List (Nat × K))) (hbc : BlockBcs ns.length bcs data)
    (hr : InRange ns data) (hc : Constrains data) (diag : K) :
    ∃ f, ∀ g, f ≤ g → applyBc tiny g (.block ns ns blocks) b bcs diag false true = .error .unboundLocal := by
  obtain ⟨_, _, AA, x, A', b', _, _, a1, a2, a3, _, a5, a6, a7, a8, hbs, hl, f, hf⟩ :=
    applyBc_block tiny hA hb hbc hr hc diag false
  exact ⟨f, fun g hg => by rw [hf g hg]; rfl⟩

/-- **C14** is false for matrices which are not block matrices: a pair is returned although a triple
was asked for. -/
theorem return_apply_b_plain_ignored {F : Type} [Field F] (tiny : Tiny F) (n : Nat) (M : Mat F)
    (hM : M.rows = n ∧ M.cols = n)
    (b : List F) (hb : b.length = n) (bcs : BcArg F) (d : List (Nat × F)) (hbc : PlainBcs bcs d)
    (hr : ∀ p ∈ d, p.1 < n) (hc : d ≠ []) (sym : Bool) :
    ∃ M' b' f, ∀ g, f ≤ g →
      applyBc tiny g (.plain M) (.plain b) bcs 1 sym true = .ok (.plain M' b') := by
  obtain ⟨M', b', _, _, _, ⟨f, hf⟩, _⟩ :=
    applyBc_plain_solutions tiny n M hM b hb bcs d hbc hr hc 1 one_ne_zero sym true
  exact ⟨M', b', f, hf⟩

/-- **C14** is false for empty conditions: a pair is returned although a triple was asked for. -/
theorem return_apply_b_empty_ignored (tiny : Tiny K) (fuel : Nat) (A : SysMat K) (b : SysVec K) (diag : K)
    (sym : Bool) : applyBc tiny fuel A b (.list []) diag sym true = .ok .same :=
  applyBc_nothing tiny fuel A b diag sym true _ (Or.inr (Or.inr (Or.inr ⟨0, rfl⟩)))

/-- **C14** is false for the dictionary `{0: []}` and a plain matrix: block objects are returned. -/
theorem empty_dict_changes_kind (tiny : Tiny K) (fuel : Nat) (M : Mat K) (b : List K) (diag : K) (sym ret : Bool) :
    applyBc tiny fuel (.plain M) (.plain b) (.map [(0, .list [])]) diag sym ret = .ok .wrapped := rfl

/-- Boundary conditions without a single dof (e.g. a `DirichletBC` on an empty part of the boundary)
are not "nothing": `ValueError`. -/
theorem applyBc_no_dofs (tiny : Tiny K) (ns : List Nat) (blocks : List (List (Expr K)))
    (hA : Conforming ns ns blocks) (bs : List (List K)) (hb : bs.map List.length = ns) (n : Nat)
    (hn : ns.length = n + 1) (diag : K) (sym ret : Bool) :
    ∃ f, ∀ g, f ≤ g → applyBc tiny g (.block ns ns blocks) (.block bs)
      (.list (.dir [] :: List.replicate n (.list []))) diag sym ret = .error .valueError := by
  obtain ⟨AA, hrr, hcc, ⟨f, hf⟩, hact⟩ := convert_acts_partial tiny ns ns blocks hA
  refine ⟨f, fun g hg => ?_⟩
  have hbl : bs.length = ns.length := by rw [← hb]; simp
  have e0 : pyMap normGroup (List.replicate n (.list []) : List (BcArg K)) = .ok (List.replicate n (.list [])) := by
    have := pyMap_ok (f := normGroup) (g := fun x : BcArg K => x) (xs := List.replicate n (.list [])) (by
      intro g hg; rw [List.eq_of_mem_replicate hg]; rfl)
    simpa using this
  have e1 : pyMap normGroup (.dir [] :: List.replicate n (.list []) : List (BcArg K)) =
      .ok (.list [.dir []] :: List.replicate n (.list [])) := by
    simp [pyMap, normGroup, e0]
  have e2 : ∀ (m : Nat) (s : Nat) (ks : List Nat),
      globalData s ks (List.replicate m (.list []) : List (BcArg K)) = .ok [] := by
    intro m
    induction m with
    | zero => intro s ks; cases ks <;> rfl
    | succ m ih =>
        intro s ks
        cases ks with
        | nil => rfl
        | cons k ks => simp [List.replicate_succ, globalData, groupData, pyMap, ih]
  have e3 : globalData 0 ns (.list [.dir []] :: List.replicate n (.list []) : List (BcArg K)) = .ok [] := by
    cases ns with
    | nil => rfl
    | cons k ks => simp [globalData, groupData, pyMap, itemData, e2]
  have e4 : nothing (.list (.dir [] :: List.replicate n (.list [])) : BcArg K) = false := rfl
  have e5 : ∀ m, groupsOf m false (.list (.dir [] :: List.replicate n (.list [])) : BcArg K) =
      .ok (.dir [] :: List.replicate n (.list [])) := fun _ => rfl
  have e6 : (List.any (.list [.dir []] :: List.replicate n (.list []) : List (BcArg K)) BcArg.truthy) = true := rfl
  simp only [applyBc, e4, SysMat.wrap, SysVec.wrap, py_bind_ok, hA.1, e5, hbl, List.length_cons, List.length_replicate,
    hn, and_self, decide_true, pyAssert_true, e1, e6, Bool.false_eq_true, if_false, Bool.not_true, applyGroups,
    hf g hg, hb, hrr, hcc, e3, List.isEmpty_nil, applyGroups.pyAssertValue, py_bind_error]

end contract
end Verif.ApplyBc
