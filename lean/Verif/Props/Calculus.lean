import Verif.Spec.Calculus
import Mathlib.Algebra.BigOperators.Group.List.Lemmas
import Mathlib.Algebra.Group.Pi.Basic
import Mathlib.Algebra.Group.Prod
import Mathlib.Algebra.Group.Int.Defs
/-!
# C125: gradients, divergences and code of symbolic expressions

`values()` of a matrix of sympy leaves out zeros, and the divergence of a tensor forgets the variables.
-/
namespace Verif.Calculus
open Verif Verif.BlockOps Finset
variable {S E : Type}

/-- The gradient of a scalar in two variables. -/
theorem grad_scalar (isZero : E → Bool) (D : S → E → E) (x y : S) (f : E) :
    ∃ G, grad isZero D [x, y] (.scalar f) = .ok G ∧ G.rows = 2 ∧ G.cols = 1 ∧ G.entries = [D x f, D y f] :=
  ⟨_, rfl, rfl, rfl, rfl⟩

theorem filter_all {isZero : E → Bool} {l : List E} (h : ∀ e ∈ l, isZero e = false) :
    l.filter (fun e => !isZero e) = l :=
  List.filter_eq_self.2 (fun e he => by simp [h e he])

theorem getElem?_flatten_const {n : Nat} : ∀ (l : List (List E)), (∀ r ∈ l, r.length = n) → ∀ (i j : Nat), j < n →
    l.flatten[i * n + j]? = (l[i]?.getD [])[j]?
  | [], _, i, j, _ => by simp
  | r :: l, h, 0, j, hj => by
      have hr := h r (by simp)
      simp [List.getElem?_append_left (hr ▸ hj : j < r.length)]
  | r :: l, h, i + 1, j, hj => by
      have hr := h r (by simp)
      have ih := getElem?_flatten_const l (fun r hr => h r (List.mem_cons_of_mem _ hr)) i j hj
      have e : (i + 1) * n + j = r.length + (i * n + j) := by rw [hr, Nat.succ_mul]; omega
      rw [List.flatten_cons, e, List.getElem?_append_right (by omega)]
      simpa using ih

/-- The gradient of a vector is returned exactly if sympy knows no component to be zero: zero components have no rows in
    the result. -/
theorem grad_vector_iff [Zero E] (isZero : E → Bool) (D : S → E → E) (X : List S) {f : SMat E}
    (hv : isVector f = true) (hf : f.entries ≠ []) :
    (∃ G, grad isZero D X (.mat f) = .ok G ∧ IsGradient D X f.entries G) ↔ ∀ e ∈ f.entries, isZero e = false := by
  simp only [grad, hv, pyAssert_true, py_bind_ok, Except.ok.injEq, exists_eq_left']
  constructor
  · intro h e he
    have h1 := h.rows
    simp only [ofRows, List.length_map, values] at h1
    have h2 := List.filter_eq_self.1 (List.length_filter_eq_length_iff.1 h1 |> List.filter_eq_self.2) e he
    simpa using h2
  · intro h
    have hval : values isZero f = f.entries := filter_all h
    rw [hval]
    have hcols : (ofRows (f.entries.map (fun fi => X.map (fun xj => D xj fi)))).cols = X.length := by
      cases hfe : f.entries with
      | nil => exact absurd hfe hf
      | cons a l => simp [ofRows]
    refine ⟨by simp [ofRows], hcols, fun i j fi xj hi hj => ?_⟩
    have hj' : j < X.length := (List.getElem?_eq_some_iff.1 hj).1
    rw [SMat.entry, hcols, List.getD_eq_getElem?_getD]
    simp only [ofRows]
    rw [getElem?_flatten_const (n := X.length) _ (by simp) i j hj']
    simp [hi, hj]

/-- Matrices with more than one row and column are refused. -/
theorem grad_refuses (isZero : E → Bool) (D : S → E → E) (X : List S) {f : SMat E} (hv : isVector f = false) :
    grad isZero D X (.mat f) = .error .assertion := by
  simp [grad, hv]

section
variable [AddCommMonoid E] {isZero : E → Bool} {D : S → E → E}

theorem divergence_cons (x : S) (X : List S) (f : Nat → E) :
    divergence D (x :: X) f = D x (f 0) + divergence D X (fun i => f (i + 1)) := by
  simp only [divergence, List.length_cons, sum_range_succ', List.getElem?_cons_succ, List.getElem?_cons_zero]
  rw [add_comm]

theorem divergence_zero (hD : ∀ x, D x 0 = 0) (X : List S) {f : Nat → E} (hf : ∀ i, f i = 0) : divergence D X f = 0 := by
  refine sum_eq_zero fun i _ => ?_
  cases X[i]? <;> simp [hf, hD]

theorem foldl_eq_sum (l : List E) : l.foldl (· + ·) 0 = l.sum := by
  rw [List.sum_eq_foldl]

theorem divVector_values (hs : ∀ e, isZero e = true → e = 0) (hD : ∀ x, D x 0 = 0) {f : SMat E} (X : List S)
    (hz : ZerosLast isZero f.entries) :
    divVector isZero D X f = divergence D X (fun i => f.entries.getD i 0) := by
  obtain ⟨nz, zs, he, h1, h2⟩ := hz
  have hval : values isZero f = nz := by
    rw [values, he, List.filter_append, filter_all h1, List.filter_eq_nil_iff.2 (fun e h => by simp [h2 e h]),
      List.append_nil]
  rw [divVector, hval, he, foldl_eq_sum]
  clear hval he h1
  induction X generalizing nz with
  | nil => simp [divergence]
  | cons x X ih =>
    cases nz with
    | nil =>
      rw [divergence_zero hD]
      · simp
      · intro i
        rw [List.nil_append, List.getD_eq_getElem?_getD]
        cases hi : zs[i]? with
        | none => rfl
        | some e => exact hs e (h2 e (List.mem_of_getElem? hi))
    | cons a nz =>
      rw [divergence_cons, List.zip_cons_cons, List.map_cons, List.sum_cons, ih]
      simp

/-- The divergence of a vector whose zero components come last. -/
theorem div_vector_partial (hs : ∀ e, isZero e = true → e = 0) (hD : ∀ x, D x 0 = 0) {f : SMat E}
    (hv : isVector f = true) (X0 X : List S) (hz : ZerosLast isZero f.entries) :
    div isZero D X0 X (.mat f) = .ok (.scalar (divergence D X (fun i => f.entries.getD i 0))) := by
  simp only [div, hv, if_true, divVector_values hs hD X hz]

/-- If the first of two components is known to be zero then the second is differentiated by the first variable. -/
theorem div_vector_wrong (hD : ∀ x, D x 0 = 0) {f : SMat E} (hv : isVector f = true) (X0 : List S) (x y : S) {g : E}
    (h0 : isZero 0 = true) (hg : isZero g = false) (hf : f.entries = [0, g]) :
    div isZero D X0 [x, y] (.mat f) = .ok (.scalar (D x g)) ∧
      divergence D [x, y] (fun i => f.entries.getD i 0) = D y g := by
  constructor
  · simp [div, hv, divVector, values, hf, h0, hg]
  · simp [hf, divergence, sum_range_succ, hD]

/-- The divergence of a tensor in the default variables, if the zeros of every row come last. -/
theorem div_tensor_partial (hs : ∀ e, isZero e = true → e = 0) (hD : ∀ x, D x 0 = 0) {f : SMat E}
    (hv : isVector f = false) (hr : 0 < f.rows) {X0 : List S} (hX : X0.length = f.cols) (X : List S)
    (hz : ∀ i, i < f.rows → ZerosLast isZero (rowOf f i).entries) :
    ∃ G, div isZero D X0 X (.mat f) = .ok (.mat G) ∧ G.rows = f.rows ∧ G.cols = 1 ∧
      ∀ i, i < f.rows → G.entry i 0 = divergence D X0 (f.entry i) := by
  have hc : (column ((List.range f.rows).map (fun i => divVector isZero D X0 (rowOf f i)))).cols = 1 := by
    simp only [column, List.isEmpty_iff, List.map_eq_nil_iff, List.range_eq_nil]
    rw [if_neg (by omega)]
  refine ⟨_, by simp only [div, hv]; rfl, by simp [column], hc, fun i hi => ?_⟩
  rw [SMat.entry, hc]
  simp only [column, List.getD_eq_getElem?_getD, mul_one, add_zero, List.getElem?_map,
    List.getElem?_range hi, Option.map_some, Option.getD_some]
  rw [divVector_values hs hD X0 (hz i hi)]
  refine sum_congr rfl fun j hj => ?_
  have hj' : j < f.cols := by rw [← hX]; exact mem_range.1 hj
  have : (rowOf f i).entries.getD j 0 = f.entry i j := by
    simp only [rowOf, SMat.entry, List.getD_eq_getElem?_getD, List.getElem?_take, hj', if_true, List.getElem?_drop]
  cases X0[j]? with
  | none => rfl
  | some x => simp only [this]

/-- The variables given to the divergence of a tensor are ignored. -/
theorem div_tensor_ignores {f : SMat E} (hv : isVector f = false) (X0 X X' : List S) :
    div isZero D X0 X (.mat f) = div isZero D X0 X' (.mat f) := by
  simp [div, hv]

/-- The divergence of a tensor in which the default variables do not occur is zero, whatever variables are given. -/
theorem div_tensor_other_variables {f : SMat E} (hv : isVector f = false) (X0 X : List S)
    (h : ∀ x ∈ X0, ∀ e ∈ f.entries, D x e = 0) :
    ∃ G, div isZero D X0 X (.mat f) = .ok (.mat G) ∧ G.rows = f.rows ∧ ∀ e ∈ G.entries, e = 0 := by
  refine ⟨_, by simp only [div, hv]; rfl, by simp [column], fun e he => ?_⟩
  simp only [column, List.mem_map] at he
  obtain ⟨i, _, rfl⟩ := he
  rw [divVector, foldl_eq_sum]
  refine List.sum_eq_zero fun e he => ?_
  obtain ⟨p, hp, rfl⟩ := List.mem_map.1 he
  refine h _ (List.of_mem_zip hp).2 _ ?_
  have := (List.of_mem_zip hp).1
  simp only [values, rowOf, List.mem_filter] at this
  exact List.mem_of_mem_drop (List.mem_of_mem_take this.1)

end

/-- Code is produced exactly if no entry is known to be zero, and then it is the code of the entries in their order. -/
theorem asExpr_returns_iff {C : Type} (isZero : E → Bool) (code : E → C) {f : SMat E} (hf : f.WF) (hne : f.entries ≠ [])
    (r : List Nat × List C) :
    asExpr isZero code (.mat f) = .ok r ↔ (∀ e ∈ f.entries, isZero e = false) ∧
      r = (if f.rows = 1 ∨ f.cols = 1 then [f.entries.length] else [f.rows, f.cols], f.entries.map code) := by
  have hlen : 0 < f.entries.length := List.length_pos_iff.2 hne
  have hshape : (if isVector f then [max f.rows f.cols] else [f.rows, f.cols]) =
      if f.rows = 1 ∨ f.cols = 1 then [f.entries.length] else [f.rows, f.cols] := by
    by_cases h1 : f.rows = 1
    · have : f.entries.length = f.cols := by rw [hf, h1, one_mul]
      simp only [isVector, h1, this]
      simp only [beq_self_eq_true, Bool.true_or, if_true, true_or]
      rw [max_eq_right (by omega)]
    · by_cases h2 : f.cols = 1
      · have : f.entries.length = f.rows := by rw [hf, h2, mul_one]
        simp only [isVector, h2, this]
        simp only [beq_self_eq_true, Bool.or_true, if_true, or_true]
        rw [max_eq_left (by omega)]
      · simp [isVector, h1, h2]
  have hprod : (if f.rows = 1 ∨ f.cols = 1 then [f.entries.length] else [f.rows, f.cols]).prod = f.entries.length := by
    split
    · simp
    · rw [hf]; simp
  rw [asExpr, reshape, hshape, hprod]
  constructor
  · intro h
    split at h
    · rename_i hl
      rw [List.length_map, values] at hl
      have hall : ∀ e ∈ f.entries, isZero e = false := by
        intro e he
        have := List.length_filter_eq_length_iff.1 hl e he
        simpa using this
      have hval : values isZero f = f.entries := filter_all hall
      rw [hval] at h
      exact ⟨hall, (Except.ok.inj h).symm⟩
    · cases h
  · rintro ⟨h, rfl⟩
    have hval : values isZero f = f.entries := filter_all h
    rw [hval, List.length_map, if_pos rfl]

/-- Expressions `c + ∑ aᵢ x[i]` in four variables. -/
abbrev Affine := Int × Int × Int × Int × Int
/-- Their derivatives. -/
def affineD : Fin 4 → Affine → Affine
  | 0, e => (e.2.1, 0)
  | 1, e => (e.2.2.1, 0)
  | 2, e => (e.2.2.2.1, 0)
  | 3, e => (e.2.2.2.2, 0)
def affineZero (e : Affine) : Bool := decide (e = 0)
/-- The variable `x[i]`. -/
def var : Fin 4 → Affine
  | 0 => (0, 1, 0, 0, 0)
  | 1 => (0, 0, 1, 0, 0)
  | 2 => (0, 0, 0, 1, 0)
  | 3 => (0, 0, 0, 0, 1)

theorem affineD_zero (x : Fin 4) : affineD x 0 = 0 := by revert x; decide

/-- The divergence of `(0, x[1])` is said to be 0 instead of 1. -/
example : div affineZero affineD [0, 1] [0, 1] (.mat (column [0, var 1])) = .ok (.scalar 0) ∧
    divergence affineD [0, 1] (fun i => [0, var 1].getD i 0) = (1, 0) := by
  have h := div_vector_wrong (isZero := affineZero) (D := affineD) affineD_zero (f := column [0, var 1]) rfl [0, 1]
    0 1 (g := var 1) rfl rfl rfl
  exact ⟨h.1, h.2⟩

/-- Its gradient has one row. -/
example : ¬ ∃ G, grad affineZero affineD [0, 1] (.mat (column [0, var 1])) = .ok G ∧
    IsGradient affineD [0, 1] [0, var 1] G := by
  intro h
  have := (grad_vector_iff affineZero affineD [0, 1] (f := column [0, var 1]) rfl (by simp [column])).1 h
  revert this
  decide

/-- The gradient of `(x[1], x[0] + 2 x[1])`. -/
example : ∃ G, grad affineZero affineD [0, 1] (.mat (column [var 1, var 0 + var 1 + var 1])) = .ok G ∧
    IsGradient affineD [0, 1] [var 1, var 0 + var 1 + var 1] G := by
  refine (grad_vector_iff affineZero affineD [0, 1] (f := column [var 1, var 0 + var 1 + var 1]) rfl
    (by simp [column])).2 ?_
  decide

/-- The divergence of `((x[0], x[1]), (x[1], 0))`. -/
example : ∃ G, div affineZero affineD [0, 1] [2, 3] (.mat ⟨2, 2, [var 0, var 1, var 1, 0]⟩) = .ok (.mat G) ∧
    G.entry 0 0 = (2, 0) ∧ G.entry 1 0 = 0 := by
  obtain ⟨G, h, _, _, hG⟩ := div_tensor_partial (isZero := affineZero) (D := affineD) (X0 := [0, 1])
    (fun e h => of_decide_eq_true h) affineD_zero (f := ⟨2, 2, [var 0, var 1, var 1, 0]⟩) rfl (by decide) rfl [2, 3]
    (fun i hi => by
      match i, hi with
      | 0, _ => exact ⟨[var 0, var 1], [], rfl, by decide, by simp⟩
      | 1, _ => exact ⟨[var 1], [0], rfl, by decide, by decide⟩)
  exact ⟨G, h, (hG 0 (by decide)).trans (by decide), (hG 1 (by decide)).trans (by decide)⟩

/-- In the variables 2 and 3 the result is zero: the assertions at the end of the file, which use other symbols than the
    default ones, fail. -/
example : ∃ G, div affineZero affineD [0, 1] [2, 3] (.mat ⟨2, 2, [var 2, var 3, var 3, var 2]⟩) = .ok (.mat G) ∧
    G.rows = 2 ∧ ∀ e ∈ G.entries, e = 0 :=
  div_tensor_other_variables rfl [0, 1] [2, 3] (by decide)

example : asExpr affineZero (fun e => e.1) (.mat (column [var 0, (7, 0)])) = .ok ([2], [0, 7]) :=
  (asExpr_returns_iff affineZero _ (f := column [var 0, (7, 0)]) (by simp [SMat.WF, column]) (by simp [column]) _).2
    ⟨by decide, by simp [column, var]⟩

end Verif.Calculus
