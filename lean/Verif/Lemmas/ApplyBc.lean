import Verif.Spec.ApplyBc
import Verif.Props.AsBlock
import Verif.Props.Collapse
/-! # Lemmas about `apply_bc` -/
namespace Verif.ApplyBc
open Verif BlockOps Collapse
open Finset (mem_range sum_congr)

section values
variable {K : Type}

theorem lastVal_nil (i : Nat) : lastVal ([] : List (Nat × K)) i = none := rfl

theorem lastVal_append (l l' : List (Nat × K)) (j : Nat) :
    lastVal (l ++ l') j = (lastVal l' j).or (lastVal l j) := by
  simp only [lastVal, List.filter_append, List.getLast?_append]
  cases (l'.filter (fun p => p.1 = j)).getLast? <;> simp

theorem lastVal_cons (p : Nat × K) (l : List (Nat × K)) (j : Nat) :
    lastVal (p :: l) j = (lastVal l j).or (if p.1 = j then some p.2 else none) := by
  have := lastVal_append [p] l j
  rw [List.singleton_append] at this
  rw [this]
  congr 1
  by_cases h : p.1 = j <;> simp [lastVal, h]

theorem lastVal_eq_none {l : List (Nat × K)} {j : Nat} : lastVal l j = none ↔ j ∉ l.map Prod.fst := by
  induction l with
  | nil => simp [lastVal_nil]
  | cons p l ih =>
      rw [lastVal_cons]
      by_cases h : p.1 = j
      · simp [h]
      · have h' : ¬ j = p.1 := fun e => h e.symm
        simp [h, ih, h']

theorem lastVal_shift (s : Nat) (l : List (Nat × K)) (j : Nat) :
    lastVal (l.map (fun p => (s + p.1, p.2))) (s + j) = lastVal l j := by
  induction l with
  | nil => rfl
  | cons p l ih => rw [List.map_cons, lastVal_cons, lastVal_cons, ih]; simp

theorem setValues_ok : ∀ (l : List (Nat × K)) (x : List K), (∀ p ∈ l, p.1 < x.length) →
    ∃ x', setValues x l = .ok x' ∧ x'.length = x.length ∧
      ∀ i, i < x.length → x'[i]? = (lastVal l i).or x[i]?
  | [], x, _ => ⟨x, rfl, rfl, fun i _ => by simp [lastVal_nil]⟩
  | (i, v) :: l, x, h => by
      have hi := h (i, v) (by simp)
      obtain ⟨x', h1, h2, h3⟩ := setValues_ok l (x.set i v) (by
        intro p hp; simpa using h p (by simp [hp]))
      refine ⟨x', by simp only [setValues]; rw [if_pos hi]; exact h1, by simpa using h2, ?_⟩
      intro j hj
      rw [h3 j (by simpa using hj), lastVal_cons]
      by_cases hij : i = j
      · subst hij; cases lastVal l i <;> simp [hj]
      · cases lastVal l j <;> simp [hij]

theorem setValues_fails : ∀ (l : List (Nat × K)) (x : List K), (∃ p ∈ l, x.length ≤ p.1) →
    setValues x l = .error .runtimeError
  | (i, v) :: l, x, h => by
      simp only [setValues]
      split
      · rename_i hi
        refine setValues_fails l _ ?_
        obtain ⟨p, hp, hl⟩ := h
        rcases List.mem_cons.mp hp with rfl | hp
        · simp at hl; omega
        · exact ⟨p, hp, by simpa using hl⟩
      · rfl

end values

section position
variable {α : Type}

/-- Offset of block `k`. -/
def offset (ns : List Nat) (k : Nat) : Nat := (ns.take k).sum

theorem offset_lt {ns : List Nat} {k n d : Nat} (h : ns[k]? = some n) (hd : d < n) :
    offset ns k + d < ns.sum := by
  induction ns generalizing k with
  | nil => simp at h
  | cons m ns ih =>
      cases k with
      | zero => simp at h; simp [offset]; omega
      | succ k =>
          have := ih (by simpa using h)
          simp only [offset, List.take_succ_cons, List.sum_cons] at this ⊢
          omega

theorem exists_pos {ns : List Nat} {i : Nat} (h : i < ns.sum) :
    ∃ k n d, ns[k]? = some n ∧ d < n ∧ i = offset ns k + d := by
  induction ns generalizing i with
  | nil => simp at h
  | cons m ns ih =>
      by_cases hi : i < m
      · exact ⟨0, m, i, by simp, hi, by simp [offset]⟩
      · obtain ⟨k, n, d, h1, h2, h3⟩ := ih (i := i - m) (by simp at h; omega)
        exact ⟨k + 1, n, d, by simpa using h1, h2, by
          simp only [offset, List.take_succ_cons, List.sum_cons] at h3 ⊢; omega⟩

theorem flatten_pos {xs : List (List α)} {k d : Nat} {n : Nat} (h : (xs.map List.length)[k]? = some n)
    (hd : d < n) : xs.flatten[offset (xs.map List.length) k + d]? = entry xs k d := by
  induction xs generalizing k with
  | nil => simp at h
  | cons x xs ih =>
      cases k with
      | zero =>
          simp at h
          simp [offset, entry, List.getElem?_append, h, hd]
      | succ k =>
          have := ih (k := k) (by simpa using h)
          simp only [offset, List.take_succ_cons, List.map_cons, List.sum_cons, List.flatten_cons] at this ⊢
          rw [Nat.add_assoc, List.getElem?_append_right (by omega), Nat.add_sub_cancel_left, this]
          simp [entry]

theorem entry_ge {xs : List (List α)} {ns : List Nat} (h : xs.map List.length = ns) {k d : Nat}
    (hn : ∀ n, ns[k]? = some n → n ≤ d) : entry xs k d = none := by
  subst h
  unfold entry
  cases hk : xs[k]? with
  | none => rfl
  | some x =>
      have := hn x.length (by simp [hk])
      simpa using this

theorem entry_some {xs : List (List α)} {ns : List Nat} (h : xs.map List.length = ns) {k d n : Nat}
    (hn : ns[k]? = some n) (hd : d < n) : ∃ v, entry xs k d = some v := by
  subst h
  simp only [List.getElem?_map, Option.map_eq_some_iff] at hn
  obtain ⟨x, hx, rfl⟩ := hn
  exact ⟨x[d], by simp [entry, hx, hd]⟩

/-- Block vectors of equal sizes are equal iff their components are. -/
theorem flatten_inj {xs ys : List (List α)} (h : xs.map List.length = ys.map List.length)
    (h' : xs.flatten = ys.flatten) : xs = ys := by
  induction xs generalizing ys with
  | nil => cases ys <;> simp_all
  | cons x xs ih =>
      match ys, h with
      | y :: ys, h =>
        simp only [List.map_cons, List.cons.injEq] at h
        simp only [List.flatten_cons] at h'
        obtain ⟨h1, h2⟩ := List.append_inj h' h.1
        rw [h1, ih h.2 h2]

end position

section global
variable {K : Type}

/-- The global (dof, value) pairs. -/
def globals : Nat → List Nat → List (List (Nat × K)) → List (Nat × K)
  | s, n :: ns, d :: ds => d.map (fun p => (s + p.1, p.2)) ++ globals (s + n) ns ds
  | _, _, _ => []

theorem globalData_ok : ∀ (gs : List (BcArg K)) (data : List (List (Nat × K))) (s : Nat) (ns : List Nat),
    List.Forall₂ (fun g d => groupData g = .ok d) gs data → globalData s ns gs = .ok (globals s ns data)
  | [], _, _, ns, h => by cases h; cases ns <;> rfl
  | _ :: _, _, _, [], h => by cases h; rfl
  | g :: gs, _, s, n :: ns, h => by
      cases h with
      | cons h1 h2 =>
        simp [globalData, h1, globalData_ok gs _ (s + n) ns h2, globals]

theorem globals_lt : ∀ (data : List (List (Nat × K))) (s : Nat) (ns : List Nat), InRange ns data →
    ∀ p ∈ globals s ns data, s ≤ p.1 ∧ p.1 < s + ns.sum
  | [], _, ns, _, p, hp => by cases ns <;> simp [globals] at hp
  | _ :: _, _, [], _, p, hp => by simp [globals] at hp
  | d :: ds, s, n :: ns, h, p, hp => by
      simp only [globals, List.mem_append, List.mem_map] at hp
      rcases hp with ⟨q, hq, rfl⟩ | hp
      · have := h 0 q.1 q.2 n (by simpa using hq) (by simp)
        simp; omega
      · have := globals_lt ds (s + n) ns (fun k d v m h1 h2 => h (k + 1) d v m (by simpa using h1)
          (by simpa using h2)) p hp
        simp; omega

theorem lastVal_of_ge {l : List (Nat × K)} {j s : Nat} (h : ∀ p ∈ l, s ≤ p.1) (hj : j < s) :
    lastVal l j = none := by
  rw [lastVal_eq_none]
  intro hm
  obtain ⟨p, hp, rfl⟩ := List.mem_map.mp hm
  exact absurd (h p hp) (by omega)

theorem globals_lastVal : ∀ (data : List (List (Nat × K))) (s : Nat) (ns : List Nat), InRange ns data →
    data.length = ns.length → ∀ k n d, ns[k]? = some n → d < n →
    lastVal (globals s ns data) (s + (offset ns k + d)) = prescribed data k d
  | [], s, ns, _, hl, k, n, d, hk, hd => by
      have : ns = [] := by simpa using hl.symm
      subst this; simp at hk
  | l :: ds, s, m :: ns, h, hl, 0, n, d, hk, hd => by
      have h' : InRange ns ds := fun k d v m h1 h2 => h (k + 1) d v m (by simpa using h1) (by simpa using h2)
      have hn : m = n := by simpa using hk
      subst hn
      simp only [globals, lastVal_append, offset, List.take_zero, List.sum_nil, Nat.zero_add]
      rw [lastVal_of_ge (s := s + m) (fun p hp => (globals_lt ds (s + m) ns h' p hp).1) (by omega), lastVal_shift]
      simp [prescribed]
  | l :: ds, s, m :: ns, h, hl, k + 1, n, d, hk, hd => by
      have h' : InRange ns ds := fun k d v m h1 h2 => h (k + 1) d v m (by simpa using h1) (by simpa using h2)
      have ih := globals_lastVal ds (s + m) ns h' (by simpa using hl) k n d (by simpa using hk) hd
      simp only [globals, lastVal_append]
      have e : s + (offset (m :: ns) (k + 1) + d) = s + m + (offset ns k + d) := by
        simp [offset]; omega
      rw [e, ih]
      have : lastVal (l.map (fun p => (s + p.1, p.2))) (s + m + (offset ns k + d)) = none := by
        rw [lastVal_eq_none]
        intro hm
        simp only [List.map_map, List.mem_map, Function.comp] at hm
        obtain ⟨p, hp, hpe⟩ := hm
        have := h 0 p.1 p.2 m (by simpa using hp) (by simp)
        omega
      rw [this]
      simp [prescribed]

theorem prescribed_none_of {ns : List Nat} {data : List (List (Nat × K))} (h : InRange ns data)
    (hl : data.length = ns.length) {k d : Nat} (hn : ∀ n, ns[k]? = some n → n ≤ d) :
    prescribed data k d = none := by
  rw [prescribed, lastVal_eq_none]
  intro hm
  obtain ⟨p, hp, rfl⟩ := List.mem_map.mp hm
  by_cases hk : k < ns.length
  · have := h k p.1 p.2 ns[k] hp (by simp [hk])
    have := hn ns[k] (by simp [hk])
    omega
  · rw [List.getD_eq_getElem?_getD, List.getElem?_eq_none (by omega)] at hp
    simp at hp

theorem globals_ne_nil : ∀ (data : List (List (Nat × K))) (s : Nat) (ns : List Nat), data.length = ns.length →
    Constrains data → globals s ns data ≠ []
  | [], _, _, _, h => by simp [Constrains] at h
  | l :: ds, s, n :: ns, hl, h => by
      obtain ⟨m, hm, hne⟩ := h
      rcases List.mem_cons.mp hm with rfl | hm
      · simp [globals, hne]
      · have := globals_ne_nil ds (s + n) ns (by simpa using hl) ⟨m, hm, hne⟩
        simp [globals, this]

end global

section flat
variable {K : Type} [CommRing K]

theorem fnOf_map_range (n : Nat) (f : Nat → K) (i : Nat) (h : i < n) :
    fnOf ((List.range n).map f) i = f i := by simp [fnOf, h]

theorem zeroRowsColumns_act_row (R : List Nat) (diag : K) (A : Mat K) (hA : A.rows = A.cols)
    (y : Nat → K) (i : Nat) (hi : i < A.rows) (hR : i ∈ R) :
    (zeroRowsColumnsMat R diag A).act y i = diag * y i := by
  rw [zeroRowsColumnsMat, Mat.of_act, if_pos hi, Finset.sum_eq_single i]
  · simp [hR]
  · intro j _ hj; simp [hR, Ne.symm hj]
  · intro h; exact absurd (mem_range.mpr (hA ▸ hi)) h

theorem zeroRowsColumns_act_other (R : List Nat) (diag : K) (A : Mat K)
    (y : Nat → K) (i : Nat) (hi : i < A.rows) (hR : i ∉ R) :
    (zeroRowsColumnsMat R diag A).act y i =
      ∑ j ∈ Finset.range A.cols, if j ∈ R then 0 else A.e i j * y j := by
  rw [zeroRowsColumnsMat, Mat.of_act, if_pos hi]
  refine sum_congr rfl (fun j _ => ?_)
  by_cases hj : j ∈ R
  · have : i ≠ j := fun e => hR (e ▸ hj)
    simp [hj, this]
  · simp [hj, hR]

theorem act_split (R : List Nat) (A : Mat K) (y : Nat → K) (i : Nat) :
    A.act y i = (∑ j ∈ Finset.range A.cols, if j ∈ R then 0 else A.e i j * y j) +
      ∑ j ∈ Finset.range A.cols, if j ∈ R then A.e i j * y j else 0 := by
  rw [Mat.act, ← Finset.sum_add_distrib]
  refine sum_congr rfl (fun j _ => ?_)
  split <;> simp

theorem zeroRows_act_row (R : List Nat) (diag : K) (A : Mat K) (hA : A.rows = A.cols)
    (y : Nat → K) (i : Nat) (hi : i < A.rows) (hR : i ∈ R) :
    (zeroRowsMat R diag A).act y i = diag * y i := by
  rw [zeroRowsMat, Mat.of_act, if_pos hi, Finset.sum_eq_single i]
  · simp [hR]
  · intro j _ hj; simp [hR, Ne.symm hj]
  · intro h; exact absurd (mem_range.mpr (hA ▸ hi)) h

theorem zeroRows_act_other (R : List Nat) (diag : K) (A : Mat K)
    (y : Nat → K) (i : Nat) (hi : i < A.rows) (hR : i ∉ R) :
    (zeroRowsMat R diag A).act y i = A.act y i := by
  rw [zeroRowsMat, Mat.of_act, if_pos hi, Mat.act]
  exact sum_congr rfl (fun j _ => by rw [if_neg hR])

end flat

section solve
variable {K : Type} [Field K]

/-- Solutions of the eliminated system, both modes. -/
theorem eliminate_solutions (sym : Bool) (R : List Nat) (diag : K) (hd : diag ≠ 0) (A : Mat K)
    (hA : A.rows = A.cols) (x b : List K) (hb : b.length = A.rows) (y : Nat → K) :
    (∀ i, i < A.rows → (eliminate sym R diag A x b).1.act y i = fnOf (eliminate sym R diag A x b).2 i) ↔
      (∀ i, i < A.rows → i ∈ R → y i = fnOf x i) ∧ (∀ i, i < A.rows → i ∉ R → A.act y i = fnOf b i) := by
  have key : ∀ i, i < A.rows → i ∈ R →
      ((eliminate sym R diag A x b).1.act y i = fnOf (eliminate sym R diag A x b).2 i ↔ y i = fnOf x i) := by
    intro i hi hR
    cases sym
    · simp only [eliminate, Bool.false_eq_true, if_false]
      rw [zeroRows_act_row R diag A hA y i hi hR, zeroRowsVec, fnOf_map_range _ _ _ (by omega), if_pos hR]
      exact ⟨fun h => mul_left_cancel₀ hd h, fun h => by rw [h]; rfl⟩
    · simp only [eliminate, if_true]
      rw [zeroRowsColumns_act_row R diag A hA y i hi hR, zeroRowsColumnsVec, fnOf_map_range _ _ _ (by omega), if_pos hR]
      exact ⟨fun h => mul_left_cancel₀ hd h, fun h => by rw [h]; rfl⟩
  have other : (∀ i, i < A.rows → i ∈ R → y i = fnOf x i) → ∀ i, i < A.rows → i ∉ R →
      ((eliminate sym R diag A x b).1.act y i = fnOf (eliminate sym R diag A x b).2 i ↔ A.act y i = fnOf b i) := by
    intro hy i hi hR
    cases sym
    · simp only [eliminate, Bool.false_eq_true, if_false]
      rw [zeroRows_act_other R diag A y i hi hR, zeroRowsVec, fnOf_map_range _ _ _ (by omega), if_neg hR]
      rfl
    · simp only [eliminate, if_true]
      rw [zeroRowsColumns_act_other R diag A y i hi hR, zeroRowsColumnsVec, fnOf_map_range _ _ _ (by omega),
        if_neg hR, eq_sub_iff_add_eq, act_split R A y i]
      have : (∑ j ∈ Finset.range A.cols, if j ∈ R then A.e i j * x.getD j 0 else 0) =
          ∑ j ∈ Finset.range A.cols, if j ∈ R then A.e i j * y j else 0 := by
        refine sum_congr rfl (fun j hj => ?_)
        by_cases h : j ∈ R
        · rw [if_pos h, if_pos h, hy j (hA ▸ mem_range.mp hj) h]; rfl
        · rw [if_neg h, if_neg h]
      rw [this]
      rfl
  constructor
  · intro h
    have h1 : ∀ i, i < A.rows → i ∈ R → y i = fnOf x i := fun i hi hR => (key i hi hR).1 (h i hi)
    exact ⟨h1, fun i hi hR => (other h1 i hi hR).1 (h i hi)⟩
  · rintro ⟨h1, h2⟩ i hi
    by_cases hR : i ∈ R
    · exact (key i hi hR).2 (h1 i hi hR)
    · exact (other h1 i hi hR).2 (h2 i hi hR)
end solve

section groups
variable {K : Type}

theorem itemData_ok {g : BcArg K} {d} (h : ItemIs g d) : itemData g = .ok d := by cases h <;> rfl

/-- Lists of groups after `normGroup`. -/
theorem normGroup_ok {g : BcArg K} {d} (h : GroupIs g d) :
    ∃ l ds, normGroup g = .ok (.list l) ∧ List.Forall₂ ItemIs l ds ∧ d = ds.flatten := by
  cases h with
  | dir d => exact ⟨[.dir d], [d], rfl, .cons (.dir d) .nil, by simp⟩
  | list h => exact ⟨_, _, rfl, h, rfl⟩

theorem groupData_ok {l : List (BcArg K)} {ds} (h : List.Forall₂ ItemIs l ds) :
    groupData (.list l) = .ok ds.flatten := by
  have : pyMap itemData l = .ok ds := pyMap_eq_ok.mpr (h.imp (fun _ _ h => itemData_ok h))
  simp [groupData, this]

theorem normGroups_ok {gs : List (BcArg K)} {data} (h : List.Forall₂ GroupIs gs data) :
    ∃ gs', pyMap normGroup gs = .ok gs' ∧ List.Forall₂ (fun g d => groupData g = .ok d) gs' data ∧
      (Constrains data → gs'.any BcArg.truthy = true) := by
  induction h with
  | nil => exact ⟨[], rfl, .nil, by simp [Constrains]⟩
  | @cons g d gs data h hs ih =>
      obtain ⟨gs', h1, h2, h3⟩ := ih
      obtain ⟨l, ds, hl, hds, rfl⟩ := normGroup_ok h
      refine ⟨.list l :: gs', by simp [pyMap, hl, h1], .cons (groupData_ok hds) h2, ?_⟩
      rintro ⟨m, hm, hne⟩
      rcases List.mem_cons.mp hm with rfl | hm
      · cases hds with
        | nil => simp at hne
        | cons => simp [BcArg.truthy]
      · simp [h3 ⟨m, hm, hne⟩]

theorem groupIs_truthy {g : BcArg K} {d} (h : GroupIs g d) (hd : d ≠ []) : g.truthy = true := by
  cases h with
  | dir d => rfl
  | list h => cases h with
    | nil => simp at hd
    | cons => rfl

theorem forall₂_truthy {gs : List (BcArg K)} {data} (h : List.Forall₂ GroupIs gs data)
    (hc : Constrains data) : gs.any BcArg.truthy = true := by
  induction h with
  | nil => simp [Constrains] at hc
  | cons h hs ih =>
      obtain ⟨m, hm, hne⟩ := hc
      rcases List.mem_cons.mp hm with rfl | hm
      · simp [groupIs_truthy h hne]
      · simp only [List.any_cons, Bool.or_eq_true]
        exact Or.inr (ih ⟨m, hm, hne⟩)

theorem mapGet_mem {m : List (Int × BcArg K)} {k : Nat} {g : BcArg K} (hn : (m.map Prod.fst).Nodup)
    (h : ((k : Int), g) ∈ m) : mapGet m k = g := by
  unfold mapGet
  induction m with
  | nil => simp at h
  | cons p m ih =>
      rcases List.mem_cons.mp h with rfl | h
      · simp
      · simp only [List.map_cons, List.nodup_cons] at hn
        have : p.1 ≠ (k : Int) := fun e => hn.1 (e ▸ List.mem_map_of_mem h)
        rw [List.find?_cons_of_neg (by simpa using this)]
        exact ih hn.2 h

theorem mapGet_not_mem {m : List (Int × BcArg K)} {k : Nat} (h : ∀ g, ((k : Int), g) ∉ m) :
    mapGet m k = .list [] := by
  unfold mapGet
  have : m.find? (fun p => p.1 = (k : Int)) = none := by
    rw [List.find?_eq_none]
    rintro ⟨a, g⟩ hp
    simp only [decide_eq_true_eq]
    rintro rfl
    exact h g hp
  simp [this]

theorem blockBcs_groups {n : Nat} {bcs : BcArg K} {data} (h : BlockBcs n bcs data) (hc : Constrains data) :
    nothing bcs = false ∧ data.length = n ∧
    ∃ gs, groupsOf n false bcs = .ok gs ∧ gs.length = n ∧ List.Forall₂ GroupIs gs data := by
  cases h with
  | list hl hg =>
      refine ⟨?_, hg.length_eq ▸ hl, _, rfl, hl, hg⟩
      simp only [nothing, Bool.not_eq_false']
      exact forall₂_truthy hg hc
  | @map m _ h1 h2 h3 h4 h5 =>
      refine ⟨?_, h4, (List.range n).map (mapGet m), ?_, by simp, ?_⟩
      · simp only [nothing, BcArg.truthy, Bool.not_not]
        cases m with
        | cons => rfl
        | nil =>
          exfalso
          obtain ⟨l, hl, hne⟩ := hc
          obtain ⟨k, hk, rfl⟩ := List.getElem_of_mem hl
          have := (h5 k (by omega)).2 (by simp)
          simp [List.getD_eq_getElem?_getD, hk] at this
          exact hne this
      · have a1 : m.all (fun p => decide (0 ≤ p.1 ∧ p.1 < (n : Int))) = true := by
          simp only [List.all_eq_true, decide_eq_true_eq]; exact h1
        have a2 : m.all (fun p => p.2.isList) = true := by
          simp only [List.all_eq_true]
          intro p hp
          obtain ⟨l, hl⟩ := h2 p hp
          rw [hl]; rfl
        simp only [groupsOf, a1, a2, pyAssert_true, py_bind_ok]
      · refine List.forall₂_iff_get.mpr ⟨by simp [h4], ?_⟩
        intro k hk1 hk2
        have hk : k < n := by simpa using hk1
        simp only [List.get_eq_getElem, List.getElem_map, List.getElem_range]
        obtain ⟨ha, hb⟩ := h5 k hk
        simp only [List.getD_eq_getElem?_getD, List.getElem?_eq_getElem hk2, Option.getD_some] at ha hb
        by_cases hm : ∃ g, ((k : Int), g) ∈ m
        · obtain ⟨g, hg⟩ := hm
          rw [mapGet_mem h3 hg]
          exact ha g hg
        · rw [mapGet_not_mem (not_exists.mp hm)]
          have := hb (not_exists.mp hm)
          rw [this]
          exact GroupIs.list (ds := []) .nil

theorem plainBcs_groups {bcs : BcArg K} {d} (h : PlainBcs bcs d) (hd : d ≠ []) :
    nothing bcs = false ∧ ∃ gs, groupsOf 1 true bcs = .ok gs ∧ gs.length = 1 ∧
      List.Forall₂ GroupIs gs [d] := by
  cases h with
  | group h =>
      cases h with
      | dir d => exact ⟨rfl, _, rfl, rfl, .cons (.dir d) .nil⟩
      | list h =>
          refine ⟨?_, _, rfl, rfl, .cons (.list h) .nil⟩
          simp only [nothing, Bool.not_eq_false']
          induction h with
          | nil => simp at hd
          | @cons a d' l ds hh hs ih =>
              by_cases hds : ds.flatten = []
              · have hd' : d' ≠ [] := by rintro rfl; simp [hds] at hd
                cases hh with
                | dir => simp [BcArg.truthy]
                | dict => simp [BcArg.truthy, hd']
              · simp only [List.any_cons, Bool.or_eq_true]
                exact Or.inr (ih hds)
  | @map g d hl hg =>
      obtain ⟨l, rfl⟩ := hl
      refine ⟨rfl, [.list l], ?_, rfl, .cons hg .nil⟩
      simp [groupsOf, BcArg.isList, mapGet, List.range_succ]
end groups

section core
variable {K : Type} [CommRing K]

theorem blockAct_lengths (ns : List Nat) (blocks : List (List (Expr K))) (xs : List (List K))
    (h : blocks.length = ns.length) : (blockAct ns blocks xs).map List.length = ns := by
  simp only [blockAct, List.map_map]
  have : (List.length ∘ fun p : Nat × List (Expr K) => List.map (rowAct p.2 xs) (List.range p.1)) = Prod.fst := by
    funext p; simp
  rw [this, List.map_fst_zip (by omega)]

theorem layout_conforming {ns : List Nat} {A : List (List (Mat K))} (h : MatLayout ns A) :
    Conforming ns ns (matBlocks A) := by
  refine ⟨by simpa [matBlocks] using h.1, ?_⟩
  intro i row r hi hr
  simp only [matBlocks, List.getElem?_map, Option.map_eq_some_iff] at hi
  obtain ⟨ms, hms, rfl⟩ := hi
  obtain ⟨h1, h2⟩ := h.2 i ms r hms hr
  refine ⟨by rw [← h2]; simp, ?_⟩
  intro j e c he hc
  simp only [List.getElem?_map, Option.map_eq_some_iff] at he
  obtain ⟨M, hM, rfl⟩ := he
  left
  have e1 : M.rows = r := h1 M (List.mem_of_getElem? hM)
  have e2 : M.cols = c := by
    rw [← h2] at hc
    simpa [hM] using hc
  subst e1 e2
  exact HasDims.mat M

/-- Blocks of a matrix act as the matrix. -/
theorem blocks_act {ns : List Nat} {M : Mat K} (hr : M.rows = ns.sum) (hc : M.cols = ns.sum)
    {A : List (List (Mat K))} (h : asBlockMat M (strides 0 ns) = .ok A) :
    MatLayout ns A ∧ ∀ xs : List (List K), xs.map List.length = ns →
      ∀ i, M.act (fnOf xs.flatten) i = fnOf (blockAct ns (matBlocks A) xs).flatten i := by
  have tiny : Tiny K := fun _ => false
  have hl : MatLayout ns A := by
    obtain ⟨A', h1, h2, _⟩ := convert_asBlock_mat tiny 0 M ns hr hc
    rw [h] at h1; cases h1; exact h2
  refine ⟨hl, ?_⟩
  obtain ⟨M', _, _, ⟨f, hf⟩, hact⟩ := convert_acts_partial tiny ns ns (matBlocks A) (layout_conforming hl)
  obtain ⟨A', h1, _, h3⟩ := convert_asBlock_mat tiny f M ns hr hc
  rw [h] at h1; cases h1
  rw [hf (f + 1) (by omega)] at h3
  cases h3
  exact hact

theorem bvec_eq_iff {ns : List Nat} {xs ys : List (List K)} (hx : xs.map List.length = ns)
    (hy : ys.map List.length = ns) :
    xs = ys ↔ ∀ i, i < ns.sum → fnOf xs.flatten i = fnOf ys.flatten i := by
  constructor
  · rintro rfl i _; rfl
  · intro h
    refine flatten_inj (hx.trans hy.symm) ?_
    have lx : xs.flatten.length = ns.sum := by rw [List.length_flatten, hx]
    have ly : ys.flatten.length = ns.sum := by rw [List.length_flatten, hy]
    refine List.ext_getElem (by omega) ?_
    intro i h1 h2
    have := h i (by omega)
    simp only [fnOf, List.getD_eq_getElem?_getD, List.getElem?_eq_getElem h1, List.getElem?_eq_getElem h2,
      Option.getD_some] at this
    exact this

theorem fnOf_pos {ns : List Nat} {xs : List (List K)} (hx : xs.map List.length = ns) {k d n : Nat}
    (hn : ns[k]? = some n) (hd : d < n) (v : K) :
    fnOf xs.flatten (offset ns k + d) = v ↔ entry xs k d = some v := by
  subst hx
  obtain ⟨w, hw⟩ := entry_some rfl hn hd
  have := flatten_pos hn hd
  rw [hw] at this
  simp [fnOf, this, hw]

/-- The eliminated system of the monolithic matrix, cut into blocks. -/
theorem applyGroups_ok (tiny : Tiny K) {ns : List Nat} {blocks : List (List (Expr K))}
    (hA : Conforming ns ns blocks) {bs : List (List K)} (hb : bs.map List.length = ns)
    {groups : List (BcArg K)} {data : List (List (Nat × K))}
    (hg : List.Forall₂ (fun g d => groupData g = .ok d) groups data) (hl : data.length = ns.length)
    (hr : InRange ns data) (hc : Constrains data) (diag : K) (sym : Bool) :
    ∃ (AA : Mat K) (x : List K) (A' : List (List (Mat K))) (b' : List (List K)),
      AA.rows = ns.sum ∧ AA.cols = ns.sum ∧
      (∀ xs : List (List K), xs.map List.length = ns →
        ∀ i, AA.act (fnOf xs.flatten) i = fnOf (blockAct ns blocks xs).flatten i) ∧
      x.length = ns.sum ∧
      (∀ i, i < ns.sum → fnOf x i = (lastVal (globals 0 ns data) i).getD 0) ∧
      asBlockMat (eliminate sym ((globals 0 ns data).map Prod.fst) diag AA x bs.flatten).1 (strides 0 ns) = .ok A' ∧
      b'.map List.length = ns ∧
      b'.flatten = (eliminate sym ((globals 0 ns data).map Prod.fst) diag AA x bs.flatten).2 ∧
      ∃ f, ∀ g, f ≤ g → ∀ wrapped ret, applyGroups tiny g wrapped ns ns blocks bs groups diag sym ret =
        finish wrapped sym ret A' b' ⟨AA, (globals 0 ns data).map Prod.fst, groups, ns⟩ := by
  obtain ⟨AA, hrr, hcc, ⟨f, hf⟩, hact⟩ := convert_acts_partial tiny ns ns blocks hA
  obtain ⟨x, hx1, hx2, hx3⟩ := setValues_ok (globals 0 ns data) (List.replicate ns.sum (0 : K)) (by
    intro p hp
    have := globals_lt data 0 ns hr p hp
    simpa using this.2)
  have lb : bs.flatten.length = ns.sum := by rw [List.length_flatten, hb]
  have hE : (eliminate sym ((globals 0 ns data).map Prod.fst) diag AA x bs.flatten).1.rows = ns.sum ∧
      (eliminate sym ((globals 0 ns data).map Prod.fst) diag AA x bs.flatten).1.cols = ns.sum ∧
      (eliminate sym ((globals 0 ns data).map Prod.fst) diag AA x bs.flatten).2.length = ns.sum := by
    cases sym <;> simp [eliminate, zeroRowsMat, zeroRowsColumnsMat, zeroRowsVec, zeroRowsColumnsVec, hrr, hcc,
      List.length_flatten, hb]
  obtain ⟨A', hA', _, _⟩ := convert_asBlock_mat tiny 0 _ ns hE.1 hE.2.1
  obtain ⟨b', hb', hbl, hbf⟩ := convert_asBlock_vec _ ns hE.2.2
  refine ⟨AA, x, A', b', hrr, hcc, hact, by simpa using hx2, ?_, hA', hbl, hbf, f, ?_⟩
  · intro i hi
    have := hx3 i (by simpa using hi)
    rw [List.getElem?_replicate, if_pos hi] at this
    simp only [fnOf, List.getD_eq_getElem?_getD, this]
    cases lastVal (globals 0 ns data) i <;> simp
  · intro g hg' wrapped ret
    have hne := globals_ne_nil data 0 ns hl hc
    have hne' : (!(globals 0 ns data).isEmpty) = true := by simpa using hne
    simp only [applyGroups, hf g hg', py_bind_ok, hb, hrr, hcc, and_self, decide_true, pyAssert_true,
      globalData_ok groups data 0 ns hg, hne', applyGroups.pyAssertValue, if_true, hx1, convertVec]
    rw [hb', py_bind_ok, hA', py_bind_ok]

end core

section solutions
variable {K : Type} [Field K]

/-- Solutions of the system with boundary conditions, in components. -/
theorem solutions_iff {ns : List Nat} {blocks : List (List (Expr K))} (hA : Conforming ns ns blocks)
    {bs : List (List K)} (hb : bs.map List.length = ns) {data : List (List (Nat × K))}
    (hl : data.length = ns.length) (hr : InRange ns data) {diag : K} (hd : diag ≠ 0) (sym : Bool)
    {AA : Mat K} (hrr : AA.rows = ns.sum) (hcc : AA.cols = ns.sum)
    (hact : ∀ xs : List (List K), xs.map List.length = ns →
        ∀ i, AA.act (fnOf xs.flatten) i = fnOf (blockAct ns blocks xs).flatten i)
    {x : List K} (hx : ∀ i, i < ns.sum → fnOf x i = (lastVal (globals 0 ns data) i).getD 0)
    {A' : List (List (Mat K))} {b' : List (List K)}
    (hA' : asBlockMat (eliminate sym ((globals 0 ns data).map Prod.fst) diag AA x bs.flatten).1 (strides 0 ns) = .ok A')
    (hbl : b'.map List.length = ns)
    (hbf : b'.flatten = (eliminate sym ((globals 0 ns data).map Prod.fst) diag AA x bs.flatten).2)
    (ys : List (List K)) (hy : ys.map List.length = ns) :
    blockAct ns (matBlocks A') ys = b' ↔ IsConstrainedSolution ns blocks bs data ys := by
  have lb : bs.flatten.length = ns.sum := by rw [List.length_flatten, hb]
  have hE : (eliminate sym ((globals 0 ns data).map Prod.fst) diag AA x bs.flatten).1.rows = ns.sum ∧
      (eliminate sym ((globals 0 ns data).map Prod.fst) diag AA x bs.flatten).1.cols = ns.sum := by
    cases sym <;> simp [eliminate, zeroRowsMat, zeroRowsColumnsMat, hrr, hcc]
  obtain ⟨hlay, hact'⟩ := blocks_act hE.1 hE.2 hA'
  rw [bvec_eq_iff (blockAct_lengths ns _ ys (by simpa [matBlocks] using hlay.1)) hbl]
  have e1 : (∀ i, i < ns.sum → fnOf (blockAct ns (matBlocks A') ys).flatten i = fnOf b'.flatten i) ↔
      ∀ i, i < AA.rows → (eliminate sym ((globals 0 ns data).map Prod.fst) diag AA x bs.flatten).1.act
        (fnOf ys.flatten) i = fnOf (eliminate sym ((globals 0 ns data).map Prod.fst) diag AA x bs.flatten).2 i := by
    rw [hrr, hbf]
    exact forall_congr' (fun i => imp_congr_right (fun _ => by rw [hact' ys hy i]))
  rw [e1, eliminate_solutions sym _ diag hd AA (by omega) x bs.flatten (by omega)]
  have key : ∀ k n d, ns[k]? = some n → d < n →
      lastVal (globals 0 ns data) (offset ns k + d) = prescribed data k d := by
    intro k n d h1 h2
    have := globals_lastVal data 0 ns hr hl k n d h1 h2
    simpa using this
  constructor
  · rintro ⟨h1, h2⟩
    constructor
    · intro k d v hp
      have : ∃ n, ns[k]? = some n ∧ d < n := by
        by_contra hcon
        push Not at hcon
        rw [prescribed_none_of hr hl hcon] at hp
        simp at hp
      obtain ⟨n, hn, hdn⟩ := this
      have hi := offset_lt hn hdn
      rw [← fnOf_pos hy hn hdn, h1 _ (by omega), hx _ hi, key k n d hn hdn, hp]
      · rfl
      · have : ¬ lastVal (globals 0 ns data) (offset ns k + d) = none := by
          rw [key k n d hn hdn, hp]; simp
        rw [lastVal_eq_none] at this
        exact not_not.mp this
    · intro k d hp
      by_cases hin : ∃ n, ns[k]? = some n ∧ d < n
      · obtain ⟨n, hn, hdn⟩ := hin
        have hi := offset_lt hn hdn
        obtain ⟨v, hv⟩ := entry_some hb hn hdn
        rw [hv, ← fnOf_pos (blockAct_lengths ns _ ys hA.1) hn hdn, ← hact ys hy, h2 _ (by omega),
          fnOf_pos hb hn hdn, hv]
        rw [← lastVal_eq_none, key k n d hn hdn, hp]
      · push Not at hin
        rw [entry_ge hb hin, entry_ge (blockAct_lengths ns _ ys hA.1) hin]
  · rintro ⟨h1, h2⟩
    constructor
    · intro i hi hR
      obtain ⟨k, n, d, hn, hdn, rfl⟩ := exists_pos (ns := ns) (i := i) (by omega)
      have hne : lastVal (globals 0 ns data) (offset ns k + d) ≠ none := by
        rw [Ne, lastVal_eq_none]; exact not_not.mpr hR
      obtain ⟨v, hv⟩ := Option.ne_none_iff_exists'.mp hne
      rw [hx _ (by omega), hv, fnOf_pos hy hn hdn]
      rw [key k n d hn hdn] at hv
      exact h1 k d v hv
    · intro i hi hR
      obtain ⟨k, n, d, hn, hdn, rfl⟩ := exists_pos (ns := ns) (i := i) (by omega)
      have := h2 k d (by rw [← key k n d hn hdn, lastVal_eq_none]; exact hR)
      obtain ⟨v, hv⟩ := entry_some hb hn hdn
      rw [hact ys hy, (fnOf_pos hb hn hdn v).2 hv, fnOf_pos (blockAct_lengths ns _ ys hA.1) hn hdn, this, hv]

end solutions

section forms
variable {K : Type} [CommRing K]

theorem dot_eq_sum : ∀ (x y : List K), x.length = y.length →
    dot x y = ∑ i ∈ Finset.range x.length, fnOf x i * fnOf y i
  | [], [], _ => by simp [dot]
  | a :: x, b :: y, h => by
      have ih := dot_eq_sum x y (by simpa using h)
      rw [List.length_cons, Finset.sum_range_succ']
      have e : ∀ (l : List K) (c : K) (i : Nat), fnOf (c :: l) (i + 1) = fnOf l i := by
        intro l c i; simp [fnOf]
      simp only [e, ← ih]
      simp [dot, fnOf, add_comm]

theorem bdot_eq_sum {ns : List Nat} {xs ys : List (List K)} (hx : xs.map List.length = ns)
    (hy : ys.map List.length = ns) :
    bdot xs ys = ∑ i ∈ Finset.range ns.sum, fnOf xs.flatten i * fnOf ys.flatten i := by
  rw [← dot_flatten xs ys (hx.trans hy.symm), dot_eq_sum _ _ (by
    rw [List.length_flatten, List.length_flatten, hx, hy]), List.length_flatten, hx]

/-- Set the constrained components to zero. -/
def clear (R : List Nat) (y : Nat → K) (i : Nat) : K := if i ∈ R then 0 else y i

/-- The form of the matrix after symmetric elimination. -/
theorem zeroRowsColumns_form (R : List Nat) (diag : K) (A : Mat K) (hA : A.rows = A.cols) (y z : Nat → K) :
    ∑ i ∈ Finset.range A.rows, y i * (zeroRowsColumnsMat R diag A).act z i =
      (∑ i ∈ Finset.range A.rows, if i ∈ R then diag * (y i * z i) else 0) +
        ∑ i ∈ Finset.range A.rows, clear R y i * A.act (clear R z) i := by
  rw [← Finset.sum_add_distrib]
  refine sum_congr rfl (fun i hi => ?_)
  have hi := mem_range.mp hi
  by_cases hR : i ∈ R
  · rw [zeroRowsColumns_act_row R diag A hA z i hi hR]
    simp [hR, clear]; ring
  · rw [zeroRowsColumns_act_other R diag A z i hi hR]
    rw [if_neg hR, zero_add, clear, if_neg hR, Mat.act]
    congr 1
    refine sum_congr rfl (fun j _ => ?_)
    by_cases hj : j ∈ R <;> simp [clear, hj]

/-- Every vector is the flattening of a block vector. -/
theorem exists_block (ns : List Nat) (y : Nat → K) : ∃ ys : List (List K), ys.map List.length = ns ∧
    ∀ i, i < ns.sum → fnOf ys.flatten i = y i := by
  obtain ⟨ys, h1, h2⟩ := exists_pieces ns ((List.range ns.sum).map y) (by simp)
  exact ⟨ys, h1, fun i hi => by rw [h2, fnOf_map_range _ _ _ hi]⟩

/-- The block form equals the form of the monolithic matrix. -/
theorem bdot_act {ns : List Nat} {blocks : List (List (Expr K))} (hbl : blocks.length = ns.length) {AA : Mat K}
    (hact : ∀ xs : List (List K), xs.map List.length = ns →
        ∀ i, AA.act (fnOf xs.flatten) i = fnOf (blockAct ns blocks xs).flatten i)
    {xs ys : List (List K)} (hx : xs.map List.length = ns) (hy : ys.map List.length = ns) :
    bdot xs (blockAct ns blocks ys) = ∑ i ∈ Finset.range ns.sum, fnOf xs.flatten i * AA.act (fnOf ys.flatten) i := by
  rw [bdot_eq_sum hx (blockAct_lengths ns blocks ys hbl)]
  exact sum_congr rfl (fun i _ => by rw [hact ys hy])

/-- The form of the eliminated block matrix. -/
theorem eliminated_form {ns : List Nat} {blocks : List (List (Expr K))} (hbl : blocks.length = ns.length)
    {AA : Mat K} (hrr : AA.rows = ns.sum) (hcc : AA.cols = ns.sum)
    (hact : ∀ xs : List (List K), xs.map List.length = ns →
        ∀ i, AA.act (fnOf xs.flatten) i = fnOf (blockAct ns blocks xs).flatten i)
    {R : List Nat} {diag : K} {x b : List K} {A' : List (List (Mat K))}
    (hA' : asBlockMat (eliminate true R diag AA x b).1 (strides 0 ns) = .ok A')
    {ys zs ys' zs' : List (List K)} (hy : ys.map List.length = ns) (hz : zs.map List.length = ns)
    (hy' : ys'.map List.length = ns) (hz' : zs'.map List.length = ns)
    (ey : ∀ i, i < ns.sum → fnOf ys'.flatten i = clear R (fnOf ys.flatten) i)
    (ez : ∀ i, i < ns.sum → fnOf zs'.flatten i = clear R (fnOf zs.flatten) i) :
    bdot ys (blockAct ns (matBlocks A') zs) =
      (∑ i ∈ Finset.range ns.sum, if i ∈ R then diag * (fnOf ys.flatten i * fnOf zs.flatten i) else 0) +
        bdot ys' (blockAct ns blocks zs') := by
  obtain ⟨hlay, hact'⟩ := blocks_act (M := (eliminate true R diag AA x b).1)
    (by simp [eliminate, zeroRowsColumnsMat, hrr]) (by simp [eliminate, zeroRowsColumnsMat, hcc]) hA'
  rw [bdot_act (by simpa [matBlocks] using hlay.1) hact' hy hz, bdot_act hbl hact hy' hz']
  have := zeroRowsColumns_form R diag AA (by omega) (fnOf ys.flatten) (fnOf zs.flatten)
  rw [hrr] at this
  simp only [eliminate, if_true]
  rw [this]
  congr 1
  refine sum_congr rfl (fun i hi => ?_)
  rw [ey i (mem_range.mp hi)]
  congr 1
  have := act_congr AA (clear R (fnOf zs.flatten)) (fnOf zs'.flatten) (fun k hk => (ez k (by omega)).symm)
  rw [this]

end forms
end Verif.ApplyBc
