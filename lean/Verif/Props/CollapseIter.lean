import Verif.Lemmas.CollapseIter9
import Verif.Props.Collapse
import Verif.Spec.CollapseIter
import Mathlib.Tactic.IntervalCases
/-!
# C06, C07: the iterative collapse
-/
namespace Verif.CollapseIter
open Verif Collapse BlockOps

variable {K : Type} [CommRing K]

/-- **C06** Whatever the iterative collapse returns acts as the expression does, in any order of rewriting.  Partial: all
operator objects in the expression are different, `str` gives different names to different matrices, numbers below the
tolerance of `collapse_add` are zero. -/
theorem collapse_acts_partial (tiny : Tiny K) (name : Nat → Val K → Nat) (hname : GoodNames name)
    (sched : Nat → List (Tree K) → List (Tree K)) (hs : AnyOrder sched) (fuel : Nat) (e : OExpr K)
    (hids : e.ids.Nodup) (hnums : e.expr.NumsIn (fun c => tiny c = true → c = 0)) (v : Val K)
    (h : collapse tiny name sched fuel e = .ok v) : v.ActsAs e.expr :=
  (actsAs_iff v e.expr).2 (collapse_eqv hname hs hids hnums h).1

/-- **C06** The iterative collapse of a conforming expression ends, in any order of rewriting and after a number of rounds
which does not depend on it, without an exception; what is returned acts as the expression.  Partial: the operator objects
in the expression are different, `str` gives a new name in every step, numbers below the tolerance are zero. -/
theorem collapse_returns_partial (tiny : Tiny K) (e : OExpr K) (d : Dims) (hc : Conforms tiny e d) (hids : e.ids.Nodup)
    (hnums : e.expr.NumsIn (fun c => tiny c = true → c = 0)) :
    ∃ N, ∀ name, FreshNames name → ∀ sched, AnyOrder sched → ∀ fuel, N ≤ fuel →
      ∃ v, collapse tiny name sched fuel e = .ok v ∧ v.ActsAs e.expr := by
  obtain ⟨N, hN⟩ := collapse_total hids hnums hc
  refine ⟨N, fun name hname sched hs fuel hf => ?_⟩
  obtain ⟨v, hv⟩ := hN name hname sched hs fuel hf
  exact ⟨v, hv, collapse_acts_partial tiny name (fun k k' w w' h => .inl (hname k k' w w' h)) sched hs fuel e hids hnums v hv⟩

/-- **C06** Two orders of rewriting, with whatever names, give the same matrix. -/
theorem orders_agree_partial (tiny : Tiny K) (e : OExpr K) (hids : e.ids.Nodup)
    (hnums : e.expr.NumsIn (fun c => tiny c = true → c = 0)) (name name' : Nat → Val K → Nat) (hname : GoodNames name)
    (hname' : GoodNames name') (sched sched' : Nat → List (Tree K) → List (Tree K)) (hs : AnyOrder sched)
    (hs' : AnyOrder sched') (fuel fuel' : Nat) (M N : Mat K) (h : collapse tiny name sched fuel e = .ok (.mat M))
    (h' : collapse tiny name' sched' fuel' e = .ok (.mat N)) : M = N := by
  obtain ⟨h1, -, h2⟩ := collapse_eqv hname hs hids hnums h
  obtain ⟨h3, -, h4⟩ := collapse_eqv hname' hs' hids hnums h'
  rw [size_val] at h2 h4
  rw [← h4] at h2
  simp only [Val.dims, Option.some.injEq, Prod.mk.injEq] at h2
  refine Mat.eq_of_act M N h2.1 h2.2 (fun x i => ?_)
  have := congrFun (congrFun (h1.trans h3.symm) x) i
  simpa [Val.expr, Expr.act] using this

/-- **C06** The transpose of what is returned acts as the transpose of the expression. -/
theorem collapse_acts_transposed_partial (tiny : Tiny K) (name : Nat → Val K → Nat) (hname : GoodNames name)
    (sched : Nat → List (Tree K) → List (Tree K)) (hs : AnyOrder sched) (fuel : Nat) (e : OExpr K)
    (hids : e.ids.Nodup) (hnums : e.expr.NumsIn (fun c => tiny c = true → c = 0)) (M : Mat K)
    (h : collapse tiny name sched fuel e = .ok (.mat M)) (x : Nat → K) : M.tr.act x = e.expr.actT x := by
  have := (collapse_eqv hname hs hids hnums h).2.1
  rw [← this]
  simp [Val.expr, Expr.actT]

/-- **C07** When both algorithms return a matrix it is the same matrix. -/
theorem algorithms_agree_partial (tiny : Tiny K) (S : Submonoid K) (hS : ∀ c ∈ S, tiny c = true → c = 0)
    (name : Nat → Val K → Nat) (hname : GoodNames name) (sched : Nat → List (Tree K) → List (Tree K))
    (hs : AnyOrder sched) (fuel fuel' : Nat) (e : OExpr K) (hids : e.ids.Nodup) (hnums : e.expr.NumsIn (· ∈ S))
    (M N : Mat K) (h : collapse tiny name sched fuel e = .ok (.mat M))
    (h' : Collapse.collapse tiny fuel' e.expr = .ok (.mat N)) : M = N := by
  have hn : Nums tiny e.expr := numsIn_mono (fun c hc => hS c hc) e.expr hnums
  obtain ⟨h1, -, h3⟩ := collapse_eqv hname hs hids hn h
  have h2 := collapse_acts tiny S hS fuel' e.expr hnums (.mat N) h'
  have h4 := (collapse_size tiny fuel').1 e.expr (.mat N) h'
  rw [size_val, ← h4] at h3
  simp only [Val.dims, Option.some.injEq, Prod.mk.injEq] at h3
  refine Mat.eq_of_act M N h3.1 h3.2 (fun x i => ?_)
  rw [h2 x i, ← h1]
  simp [Val.expr, Expr.act]

/-- **C06** Blocks of a block matrix are collapsed to what they stand for. -/
theorem blocks_act_partial (tiny : Tiny K) (name : Nat → Val K → Nat) (hname : GoodNames name)
    (sched : Nat → List (Tree K) → List (Tree K)) (hs : AnyOrder sched) (fuel : Nat) (blocks : List (List (OExpr K)))
    (hids : ∀ row ∈ blocks, ∀ e ∈ row, e.ids.Nodup)
    (hnums : ∀ row ∈ blocks, ∀ e ∈ row, e.expr.NumsIn (fun c => tiny c = true → c = 0)) (vals : List (List (Val K)))
    (h : collapseBlocks tiny name sched fuel blocks = .ok vals) :
    List.Forall₂ (List.Forall₂ (fun (e : OExpr K) v => v.ActsAs e.expr)) blocks vals := by
  refine (blocks_eqv hname hs hids hnums h).imp (fun _ _ h => h.imp (fun _ _ h => (actsAs_iff _ _).2 h.1.1))

/-- **C06** `monolithic` of a conforming block matrix acts on block vectors as the block matrix does. -/
theorem monolithic_acts_partial (tiny : Tiny K) (name : Nat → Val K → Nat) (hname : GoodNames name)
    (sched : Nat → List (Tree K) → List (Tree K)) (hs : AnyOrder sched) (fuel : Nat) (rs cs : List Nat)
    (blocks : List (List (OExpr K))) (hids : ∀ row ∈ blocks, ∀ e ∈ row, e.ids.Nodup)
    (hnums : ∀ row ∈ blocks, ∀ e ∈ row, e.expr.NumsIn (fun c => tiny c = true → c = 0))
    (hc : Conforming rs cs (blocks.map (fun row => row.map OExpr.expr))) (M : Mat K)
    (h : monolithic tiny name sched fuel rs cs blocks = .ok M) :
    M.rows = rs.sum ∧ M.cols = cs.sum ∧ ∀ xs : List (List K), xs.map List.length = cs → ∀ i,
      M.act (fnOf (convertVec xs)) i =
        fnOf (convertVec (blockAct rs (blocks.map (fun row => row.map OExpr.expr)) xs)) i := by
  simp only [monolithic] at h
  obtain ⟨vals, hv, h⟩ := py_bind_eq_ok.1 h
  have he := blocks_eqv hname hs hids hnums hv
  obtain ⟨N, h1, h2, ⟨f, hf⟩, h3⟩ := convert_acts_partial tiny rs cs _ (conforming_vals hc he)
  have hMN : M = N := by
    have := (convertMat_fuel tiny rs cs (vals.map (fun row => row.map Val.expr)) (Nat.le_max_left fuel f)) M h
    rw [hf _ (Nat.le_max_right fuel f)] at this
    cases this
    rfl
  subst hMN
  refine ⟨h1, h2, fun xs hxs i => ?_⟩
  rw [h3 xs hxs i, blockAct_vals rs xs he]

/-! ### Samples -/

/-- Integers: the only tiny one is zero. -/
def intTiny : Tiny ℤ := fun c => c = 0

/-- A new name in every step. -/
def newName : Nat → Val ℤ → Nat := fun k _ => k

theorem newName_good : GoodNames newName := fun _ _ _ _ h => .inl h

/-- Names of matrices by their size, as in `<PETScMatrix of size 3 x 2>`. -/
def sizeName : Nat → Val ℤ → Nat
  | _, .num _ => 0
  | _, .mat M => 100 * M.rows + M.cols

/-- The entry of a result. -/
def entry (i j : Nat) : Py (Val ℤ) → Option ℤ
  | .ok (.mat M) => some (M.e i j)
  | _ => none

/-- A row matrix. -/
abbrev row (l : List ℤ) : OExpr ℤ := .mat (Mat.lit 1 l.length [l])

/-- `2*A*(B' - C') + 0`. -/
def sample : OExpr ℤ :=
  .add 0 (.mul 1 [.num 2, row [1, 2], .sub 2 (.tr 3 (row [3, 4])) (.tr 4 (row [5, 7]))]) (.num 0)

/-- `2*A + B`. -/
def smallSample : OExpr ℤ := .add 0 (.mul 1 [.num 2, row [5]]) (row [3])

theorem mat_of_entry {i j : Nat} {r : Py (Val ℤ)} {c : ℤ} (h : entry i j r = some c) :
    ∃ M : Mat ℤ, r = .ok (.mat M) ∧ M.e i j = c := by
  unfold entry at h
  split at h
  · rename_i M; exact ⟨M, rfl, by simpa using h⟩
  · cases h

theorem sample_returns : entry 0 0 (collapse intTiny newName (fun _ ts => ts.reverse) 20 sample) = some (-16) := by
  decide +kernel

/-- The hypotheses of `collapse_acts_partial` are met. -/
example : sample.ids.Nodup ∧ sample.expr.NumsIn (fun c => intTiny c = true → c = 0) ∧
    AnyOrder (fun _ (ts : List (Tree ℤ)) => ts.reverse) ∧
    ∃ v, collapse intTiny newName (fun _ ts => ts.reverse) 20 sample = .ok v := by
  refine ⟨by decide, ?_, fun _ ts => List.reverse_perm ts, ?_⟩
  · simp [sample, OExpr.expr, exprAll, Expr.NumsIn, numsInChain, intTiny, row]
  · obtain ⟨M, hM, -⟩ := mat_of_entry sample_returns
    exact ⟨_, hM⟩

/-- The hypotheses of `collapse_returns_partial` are met. -/
example : Conforms intTiny sample (some (1, 1)) ∧ FreshNames newName :=
  ⟨.addNum _ (.mul _ (.scale (.num 2) trivial (.times (.mat _) trivial
    (.single (.sub _ (.tr _ (.mat _)) (.tr _ (.mat _))) trivial)))) rfl, fun _ _ _ _ h => h⟩

/-- The hypotheses of `orders_agree_partial` are met. -/
example : GoodNames newName ∧ (∃ M, collapse intTiny newName (fun _ ts => ts.reverse) 20 sample = .ok (.mat M)) ∧
    ∃ N, collapse intTiny newName (fun _ ts => ts) 20 sample = .ok (.mat N) := by
  have h : entry 0 0 (collapse intTiny newName (fun _ ts => ts) 20 sample) = some (-16) := by decide +kernel
  obtain ⟨M, hM, -⟩ := mat_of_entry sample_returns
  obtain ⟨N, hN, -⟩ := mat_of_entry h
  exact ⟨newName_good, ⟨M, hM⟩, N, hN⟩

/-- The hypotheses of `algorithms_agree_partial` are met. -/
example : sample.expr.NumsIn (fun c : ℤ => c ∈ (⊤ : Submonoid ℤ)) ∧ (∀ c ∈ (⊤ : Submonoid ℤ), intTiny c = true → c = 0) ∧
    entry 0 0 (Collapse.collapse intTiny 20 sample.expr) = some (-16) := by
  refine ⟨?_, by simp [intTiny], by decide +kernel⟩
  simp [sample, OExpr.expr, exprAll, Expr.NumsIn, numsInChain, row]

/-- The hypotheses of `monolithic_acts_partial` are met. -/
example : Conforming [1, 1] [1, 1] ([[smallSample, .num 0], [.num 0, .num 3]].map (fun row => row.map OExpr.expr)) ∧
    ∃ M, monolithic intTiny newName (fun _ ts => ts) 20 [1, 1] [1, 1] [[smallSample, .num 0], [.num 0, .num 3]] = .ok M := by
  refine ⟨⟨rfl, ?_⟩, ?_⟩
  · intro i row r hrow hr
    have hi : i < 2 := by
      have := (List.getElem?_eq_some_iff.1 hr).1; simpa using this
    interval_cases i
    · simp only [List.map_cons, List.map_nil, List.getElem?_cons_zero, Option.some.injEq] at hrow hr
      subst hrow; subst hr
      refine ⟨rfl, ?_⟩
      intro j e c he hc
      have hj : j < 2 := by
        have := (List.getElem?_eq_some_iff.1 hc).1; simpa using this
      interval_cases j
      · simp only [List.getElem?_cons_zero, Option.some.injEq] at he hc
        subst he; subst hc
        left
        exact .add (.mul (.cons (.num 2) (.single (.mat _)) rfl) rfl) (.mat _)
      · simp [OExpr.expr] at he hc
        subst he; subst hc
        exact .inr (.inl rfl)
    · simp only [List.map_cons, List.map_nil, List.getElem?_cons_zero, List.getElem?_cons_succ, Option.some.injEq] at hrow hr
      subst hrow; subst hr
      refine ⟨rfl, ?_⟩
      intro j e c he hc
      have hj : j < 2 := by
        have := (List.getElem?_eq_some_iff.1 hc).1; simpa using this
      interval_cases j
      · simp [OExpr.expr] at he hc
        subst he; subst hc
        exact .inr (.inl rfl)
      · simp [OExpr.expr] at he hc
        subst he; subst hc
        exact .inr (.inr ⟨⟨3, rfl⟩, rfl, rfl⟩)
  · have : (monolithic intTiny newName (fun _ ts => ts) 20 [1, 1] [1, 1]
        [[smallSample, .num 0], [.num 0, .num 3]]).toOption.map (fun M => M.e 0 0) = some 13 := by decide +kernel
    cases h : monolithic intTiny newName (fun _ ts => ts) 20 [1, 1] [1, 1] [[smallSample, .num 0], [.num 0, .num 3]] with
    | ok M => exact ⟨M, rfl⟩
    | error e => rw [h] at this; simp [Except.toOption] at this

/-! ### Where it fails -/

/-- `(T1*(C + D))' * ((A + B)*T2)'`. -/
def collide : OExpr ℤ :=
  .mul 0 [.tr 1 (.mul 2 [.mat (Mat.lit 3 1 [[1], [0], [0]]), .add 3 (row [1, 2]) (row [0, 0])]),
    .tr 4 (.mul 5 [.add 6 (row [5, 7]) (row [0, 0]), .mat (Mat.lit 2 3 [[1, 0, 0], [0, 1, 0]])])]

/-- The first unit vector. -/
def unit0 : Nat → ℤ := fun k => if k = 0 then 1 else 0

/-- An entry of a result applied to a vector. -/
def actEntry (x : Nat → ℤ) (i : Nat) : Py (Val ℤ) → Option ℤ
  | .ok (.mat M) => some (M.act x i)
  | _ => none

/-- Names by sizes give a wrong matrix: `A + B` is looked up where `C + D` should be. -/
theorem names_collide : ∃ v, collapse intTiny sizeName (fun _ ts => ts) 30 collide = .ok v ∧ ¬ v.ActsAs collide.expr := by
  have h1 : actEntry unit0 0 (collapse intTiny sizeName (fun _ ts => ts) 30 collide) = some 1 := by decide +kernel
  have h2 : collide.expr.act unit0 0 = 5 := by decide +kernel
  unfold actEntry at h1
  split at h1
  · rename_i M hM
    refine ⟨_, hM, fun h => ?_⟩
    have h3 := h unit0 0
    rw [h2] at h3
    simp only [Option.some.injEq] at h1
    omega
  · cases h1

/-- `((A + B)*T2 + O)*(T1*(C + D) + O)`. -/
def disagree : OExpr ℤ :=
  .mul 0 [.add 1 (.mul 2 [.add 3 (row [5, 7]) (row [0, 0]), .mat (Mat.lit 2 3 [[1, 0, 0], [0, 1, 0]])]) (row [0, 0, 0]),
    .add 4 (.mul 5 [.mat (Mat.lit 3 1 [[1], [0], [0]]), .add 6 (row [1, 2]) (row [0, 0])])
      (.mat (Mat.lit 3 2 [[0, 0], [0, 0], [0, 0]]))]

/-- **C07** is false with such names: both algorithms return matrices, which are different. -/
theorem algorithms_disagree : ∃ M N, collapse intTiny sizeName (fun _ ts => ts) 30 disagree = .ok (.mat M) ∧
    Collapse.collapse intTiny 30 disagree.expr = .ok (.mat N) ∧ M ≠ N := by
  have h1 : actEntry unit0 0 (collapse intTiny sizeName (fun _ ts => ts) 30 disagree) = some 25 := by decide +kernel
  have h2 : actEntry unit0 0 (Collapse.collapse intTiny 30 disagree.expr) = some 5 := by decide +kernel
  unfold actEntry at h1 h2
  split at h1
  · rename_i M hM
    split at h2
    · rename_i N hN
      refine ⟨M, N, hM, hN, ?_⟩
      rintro rfl
      simp only [Option.some.injEq] at h1 h2
      omega
    · cases h2
  · cases h1

/-- The exception. -/
def err {α : Type} : Py α → Option PyErr
  | .ok _ => none
  | .error e => some e

/-- `B = A*C`. -/
def shared : OExpr ℤ := .mul 2 [row [1], row [2]]

/-- An operator object which occurs twice gets all its arguments twice: `B + B'` of a product `B` raises. -/
theorem shared_raises : err (collapse intTiny newName (fun _ ts => ts) 30 (.add 0 shared (.tr 1 shared))) = some .typeError := by
  decide +kernel

/-- `A + 0` is the object `A`, so that two such operands have one name and become one node: `(A + 0)*(A + 0)` raises if `str`
depends on the object. -/
theorem same_object_raises : err (collapse intTiny sizeName (fun _ ts => ts) 30
    (.mul 0 [.add 1 (row [1]) (.num 0), .add 2 (row [1]) (.num 0)])) = some .typeError := by
  decide +kernel

/-- Products are evaluated from the right: two numbers after the last matrix raise, though `(A*2)*3` is a matrix. -/
theorem numbers_last_raise (tiny : Tiny K) (name : Nat → Val K → Nat) (fuel : Nat) (M : Mat K) (a b : K) :
    collapse tiny name (fun _ ts => ts) (fuel + 4) (.mul 0 [.mat M, .num a, .num b]) = .error .valueError := by
  simp [collapse, OExpr.terminal, expr2graph, addChildren, children, addEdge, collapseLoop, collapsableTrees, sources,
    Node.key, OExpr.id, OExpr.ids, idsAll, OExpr.flat, (by decide : (Name.A 1 == Name.A 2) = false), outEdges, isLeaf, collapseTrees, collapseTree, successors, pyMap,
    lookup, List.insertionSort, List.orderedInsert, applyOp, opMul, List.lookup]

/-- Objects other than the four operators, which `ii_convert` handles, are looked up in vain. -/
theorem other_raises (tiny : Tiny K) (name : Nat → Val K → Nat) (fuel i j : Nat) (hij : i ≠ j) (r : Py (Mat K)) (M : Mat K) :
    collapse tiny name (fun _ ts => ts) (fuel + 3) (.add i (.other j r) (.mat M)) = .error .keyError := by
  simp [collapse, OExpr.terminal, expr2graph, addChildren, children, addEdge, collapseLoop, collapsableTrees, sources, hij,
    Node.key, OExpr.id, outEdges, isLeaf, collapseTrees, collapseTree, successors, pyMap, lookup, List.insertionSort]

/-- On such an object alone the loop never ends. -/
theorem other_diverges (tiny : Tiny K) (name : Nat → Val K → Nat) (fuel i : Nat) (r : Py (Mat K)) :
    collapse tiny name (fun _ ts => ts) fuel (.other i r) = .error .outOfFuel := by
  have hl : ∀ f, collapseLoop tiny name (fun _ ts => ts) f ⟨[], [], 0, false⟩ = .error .outOfFuel := by
    intro f
    induction f with
    | zero => rfl
    | succ f ih => simpa [collapseLoop, collapsableTrees, sources, collapseTrees] using ih
  rcases fuel with _ | _ | fuel
  · simp [collapse, OExpr.terminal, expr2graph]
  · simp [collapse, OExpr.terminal, expr2graph, addChildren, children]
  · simp [collapse, OExpr.terminal, expr2graph, addChildren, children, hl]

end Verif.CollapseIter
