import Mathlib.Data.List.Basic
import Mathlib.Algebra.BigOperators.Group.List.Basic
import Mathlib.Algebra.Order.Group.Nat
import Mathlib.Tactic.Ring
import Mathlib.Tactic.Linarith
import Verif.Spec.ListUtils
/-! Helper lemmas for nested lists. -/
namespace Verif.ListUtils.NL

variable {α β : Type}

mutual
/-- Entries of a nested list in depth-first order. -/
def leaves : NL α → List α
  | .leaf a => [a]
  | .node xs => leavesL xs
def leavesL : List (NL α) → List α
  | [] => []
  | x :: xs => leaves x ++ leavesL xs
end

theorem leavesL_append (xs ys : List (NL α)) :
    leavesL (xs ++ ys) = leavesL xs ++ leavesL ys := by
  induction xs with
  | nil => simp [leavesL]
  | cons x xs ih => simp [leavesL, ih]

theorem leavesL_map_leaf (as : List α) : leavesL (as.map NL.leaf) = as := by
  induction as with
  | nil => simp [leavesL]
  | cons x xs ih => simp [leavesL, leaves, ih]

theorem IsArray.nil_leaf {x : NL α} (h : IsArray [] x) : ∃ a, x = .leaf a := by
  cases x with
  | leaf a => exact ⟨a, rfl⟩
  | node _ => exact h.elim

theorem IsArray.cons_node {n : Nat} {s : List Nat} {x : NL α} (h : IsArray (n :: s) x) :
    ∃ xs, x = .node xs ∧ 0 < n ∧ xs.length = n ∧ ∀ y ∈ xs, IsArray s y := by
  cases x with
  | leaf a => exact h.elim
  | node xs => exact ⟨xs, rfl, h.1, h.2.1, h.2.2⟩

theorem shapeLists_of {s : List Nat} :
    ∀ {xs : List (NL α)}, (∀ x ∈ xs, shapeList x = .ok s) →
      shapeLists xs = .ok (List.replicate xs.length s)
  | [], _ => rfl
  | x :: xs, h => by
      have hx := h x (by simp)
      have := shapeLists_of (xs := xs) (fun y hy => h y (by simp [hy]))
      simp [shapeLists, hx, this, List.replicate_succ, bind, Except.bind, pure, Except.pure]

theorem shapeList_of_isArray : ∀ {s : List Nat} {l : NL α}, IsArray s l → shapeList l = .ok s
  | [], l, h => by
      obtain ⟨a, rfl⟩ := h.nil_leaf
      rfl
  | n :: s, l, h => by
      obtain ⟨xs, rfl, hn, hl, hx⟩ := h.cons_node
      cases xs with
      | nil => simp at hl; omega
      | cons x xs =>
        have h1 := shapeList_of_isArray (hx x (by simp))
        have h2 := shapeLists_of (xs := xs)
          (fun y hy => shapeList_of_isArray (hx y (by simp [hy])))
        simp only [List.length_cons] at hl
        simp [shapeList, h1, h2, bind, Except.bind, pure, Except.pure, hl]

theorem leaves_length : ∀ {s : List Nat} {l : NL α}, IsArray s l → (leaves l).length = s.prod
  | [], l, h => by
      obtain ⟨a, rfl⟩ := h.nil_leaf
      simp [leaves]
  | n :: s, l, h => by
      obtain ⟨xs, rfl, hn, hl, hx⟩ := h.cons_node
      have : ∀ ys : List (NL α), (∀ y ∈ ys, IsArray s y) →
          (leavesL ys).length = ys.length * s.prod := by
        intro ys
        induction ys with
        | nil => intro; simp [leavesL]
        | cons y ys ih =>
          intro hy
          have h1 := leaves_length (hy y (by simp))
          have h2 := ih (fun z hz => hy z (by simp [hz]))
          simp [leavesL, h1, h2]; ring
      simp [leaves, this xs hx, hl]

theorem leavesL_length {s : List Nat} {ys : List (NL α)} (h : ∀ y ∈ ys, IsArray s y) :
    (leavesL ys).length = ys.length * s.prod := by
  induction ys with
  | nil => simp [leavesL]
  | cons y ys ih =>
    have h1 := leaves_length (h y (by simp))
    have h2 := ih (fun z hz => h z (by simp [hz]))
    simp [leavesL, h1, h2]; ring

theorem prod_pos_of_isArray : ∀ {s : List Nat} {l : NL α}, IsArray s l → ∀ n ∈ s, 0 < n
  | [], _, _ => by simp
  | n :: s, l, h => by
      obtain ⟨xs, rfl, hn, hl, hx⟩ := h.cons_node
      cases xs with
      | nil => simp at hl; omega
      | cons x xs =>
        intro m hm
        rcases List.mem_cons.1 hm with rfl | hm
        · exact hn
        · exact prod_pos_of_isArray (hx x (by simp)) m hm

theorem sumItems_of {b : Nat} {t : List Nat} :
    ∀ {xs : List (NL α)}, (∀ x ∈ xs, IsArray (b :: t) x) →
      ∃ ys, sumItems xs = .ok ys ∧ (∀ y ∈ ys, IsArray t y) ∧ leavesL ys = leavesL xs
  | [], _ => ⟨[], rfl, by simp, rfl⟩
  | x :: xs, h => by
      obtain ⟨zs, rfl, hn, hl, hx⟩ := (h x (by simp)).cons_node
      obtain ⟨ys, h1, h2, h3⟩ := sumItems_of (xs := xs) (fun y hy => h y (by simp [hy]))
      refine ⟨zs ++ ys, ?_, ?_, ?_⟩
      · simp [sumItems, h1, bind, Except.bind, pure, Except.pure]
      · intro y hy
        rcases List.mem_append.1 hy with hy | hy
        · exact hx y hy
        · exact h2 y hy
      · simp [leavesL_append, leavesL, leaves, h3]

theorem eq_map_leaf : ∀ {xs : List (NL α)}, (∀ x ∈ xs, IsArray [] x) →
    xs = (leavesL xs).map NL.leaf
  | [], _ => rfl
  | x :: xs, h => by
      obtain ⟨a, rfl⟩ := (h x (by simp)).nil_leaf
      have := eq_map_leaf (xs := xs) (fun y hy => h y (by simp [hy]))
      simp [leavesL, leaves, ← this]

theorem flattenLoop_of : ∀ (s : List Nat) (n : Nat) (xs : List (NL α)),
    (∀ x ∈ xs, IsArray s x) →
      flattenLoop (n :: s) (.node xs) = .ok (.node ((leavesL xs).map NL.leaf))
  | [], n, xs, h => by rw [flattenLoop]; rw [← eq_map_leaf h]; simp
  | b :: t, n, xs, h => by
      obtain ⟨ys, h1, h2, h3⟩ := sumItems_of h
      have := flattenLoop_of t (n * b) ys h2
      rw [flattenLoop]
      simp [sumLists, h1, bind, Except.bind, pure, Except.pure, this, h3]

theorem flattenList_of {n : Nat} {s : List Nat} {l : NL α} (h : IsArray (n :: s) l) :
    flattenList l = .ok (.node ((leaves l).map NL.leaf)) := by
  have hs := shapeList_of_isArray h
  obtain ⟨xs, rfl, hn, hl, hx⟩ := h.cons_node
  simp [flattenList, hs, bind, Except.bind, flattenLoop_of s n xs hx, leaves]

theorem package_of {k : Nat} (hk : 0 < k) {t : List Nat} :
    ∀ (m fuel : Nat) (xs : List (NL α)), m < fuel → xs.length = m * k →
      (∀ x ∈ xs, IsArray t x) →
      ∃ ys, package fuel xs (k : Int) = .ok ys ∧ ys.length = m ∧
        (∀ y ∈ ys, IsArray (k :: t) y) ∧ leavesL ys = leavesL xs
  | 0, fuel + 1, xs, _, hl, _ => by
      have : xs = [] := by simpa using hl
      subst this
      exact ⟨[], by simp [package], rfl, by simp, rfl⟩
  | m + 1, fuel + 1, xs, hf, hl, hx => by
      have hlen : xs.length = m * k + k := by rw [hl]; ring
      have hne : xs ≠ [] := by rintro rfl; simp at hlen; omega
      obtain ⟨ys, h1, h2, h3, h4⟩ := package_of hk m fuel (xs.drop k) (by omega)
        (by simp [hlen]) (fun x hxd => hx x (List.mem_of_mem_drop hxd))
      refine ⟨.node (xs.take k) :: ys, ?_, by simp [h2], ?_, ?_⟩
      · simp [package, hne, sliceFrom, sliceTo, h1, bind, Except.bind, pure, Except.pure]
      · intro y hy
        rcases List.mem_cons.1 hy with rfl | hy
        · refine ⟨hk, ?_, fun x hxt => hx x (List.mem_of_mem_take hxt)⟩
          simp [hlen]
        · exact h3 y hy
      · simp only [leavesL, leaves, h4]
        rw [← leavesL_append, List.take_append_drop]

theorem reshapeLoop_of (fuel : Nat) : ∀ (rest : List Nat) (c : Nat) (t : List Nat)
    (xs : List (NL α)), (∀ d ∈ c :: rest, 0 < d) → xs.length = (c :: rest).prod →
      xs.length < fuel →
      (∀ x ∈ xs, IsArray t x) →
      ∃ l, reshapeLoop fuel ((c :: rest).map Int.ofNat) (.node xs) = .ok l ∧
        IsArray ((c :: rest).reverse ++ t) l ∧ leaves l = leavesL xs
  | [], c, t, xs, hpos, hl, hf, hx => by
      refine ⟨.node xs, by simp [reshapeLoop], ?_, rfl⟩
      simp at hl
      exact ⟨hpos c (by simp), hl, hx⟩
  | d :: rest, c, t, xs, hpos, hl, hf, hx => by
      have hc : 0 < c := hpos c (by simp)
      have hl' : xs.length = (d :: rest).prod * c := by rw [hl]; simp; ring
      have hlt : (d :: rest).prod < fuel := by
        have : (d :: rest).prod ≤ xs.length := by
          rw [hl']; exact Nat.le_mul_of_pos_right _ hc
        omega
      obtain ⟨ys, h1, h2, h3, h4⟩ := package_of hc _ fuel xs hlt hl' hx
      obtain ⟨l, g1, g2, g3⟩ := reshapeLoop_of fuel rest d (c :: t) ys
        (fun e he => hpos e (by simp at he ⊢; tauto)) h2 (by omega) h3
      refine ⟨l, ?_, ?_, by rw [g3, h4]⟩
      · simp only [List.map_cons] at g1 ⊢
        rw [reshapeLoop]
        have h1' : package fuel xs (Int.ofNat c) = .ok ys := h1
        simp only [h1', bind, Except.bind]
        exact g1
      · simpa using g2

theorem foldl_mul_eq (xs : List Int) (x : Int) : xs.foldl (· * ·) x = x * xs.prod := by
  induction xs generalizing x with
  | nil => simp
  | cons y ys ih => simp [ih, mul_assoc]

theorem prod_ofNat (s : List Nat) : (s.map Int.ofNat).prod = ((s.prod : Nat) : Int) := by
  induction s with
  | nil => simp
  | cons x xs ih => simp [ih]

theorem prodShape_ofNat (n : Nat) (s : List Nat) :
    prodShape ((n :: s).map Int.ofNat) = .ok (((n :: s).prod : Nat) : Int) := by
  simp only [List.map_cons, prodShape, foldl_mul_eq, prod_ofNat]
  simp

/-- Reshaping an array into a shape with the same number of entries. -/
theorem reshapeList_of {n m : Nat} {s s' : List Nat} {l : NL α} {fuel : Nat}
    (h : IsArray (n :: s) l) (hpos : ∀ d ∈ m :: s', 0 < d)
    (hprod : (n :: s).prod = (m :: s').prod) (hf : (n :: s).prod < fuel) :
    ∃ r, reshapeList fuel l ((m :: s').map Int.ofNat) = .ok r ∧ IsArray (m :: s') r ∧
      leaves r = leaves l := by
  have hs := shapeList_of_isArray h
  have hfl := flattenList_of h
  have hlen := leaves_length h
  obtain ⟨c, rest, hcr⟩ : ∃ c rest, (m :: s').reverse = c :: rest := by
    cases hh : (m :: s').reverse with
    | nil => simp at hh
    | cons c rest => exact ⟨c, rest, rfl⟩
  have hp : (c :: rest).prod = (n :: s).prod := by
    rw [← hcr, List.prod_reverse, hprod]
  obtain ⟨r, h1, h2, h3⟩ := reshapeLoop_of fuel rest c [] ((leaves l).map NL.leaf)
    (by intro d hd; rw [← hcr] at hd; exact hpos d (List.mem_reverse.1 hd))
    (by rw [List.length_map, hlen, hp]) (by rw [List.length_map, hlen]; exact hf)
    (by intro x hx; obtain ⟨a, _, rfl⟩ := List.mem_map.1 hx; trivial)
  refine ⟨r, ?_, ?_, ?_⟩
  · rw [reshapeList]
    simp only [hs, prodShape_ofNat, hprod, hfl, bind, Except.bind, beq_self_eq_true,
      pyAssert_true]
    rw [← List.map_reverse, hcr]
    exact h1
  · rw [← hcr] at h2; simpa using h2
  · rw [h3, leavesL_map_leaf]

theorem mapItems_of {f : α → Py β} : ∀ {as : List α} {bs : List β},
    List.Forall₂ (fun a b => f a = .ok b) as bs →
      mapItems f (as.map NL.leaf) = .ok (bs.map NL.leaf)
  | _, _, .nil => rfl
  | _, _, .cons h t => by
      simp [mapItems, h, mapItems_of t, bind, Except.bind, pure, Except.pure]

theorem mapped_of_leaves {f : α → Py β} : ∀ {s : List Nat} {l : NL α} {r : NL β},
    IsArray s l → IsArray s r →
      List.Forall₂ (fun a b => f a = .ok b) (leaves l) (leaves r) → Mapped f l r
  | [], l, r, hl, hr, h => by
      obtain ⟨a, rfl⟩ := hl.nil_leaf
      obtain ⟨b, rfl⟩ := hr.nil_leaf
      simp [leaves] at h
      exact .leaf h
  | n :: s, l, r, hl, hr, h => by
      obtain ⟨xs, rfl, _, hxl, hx⟩ := hl.cons_node
      obtain ⟨ys, rfl, _, hyl, hy⟩ := hr.cons_node
      refine .node ?_
      simp only [leaves] at h
      have hlen : xs.length = ys.length := by omega
      clear hl hr hxl hyl
      induction xs generalizing ys with
      | nil =>
        have : ys = [] := by simpa using hlen.symm
        subst this; exact .nil
      | cons x xs ih =>
        cases ys with
        | nil => simp at hlen
        | cons y ys =>
          simp only [leavesL] at h
          have hle : (leaves x).length = (leaves y).length := by
            rw [leaves_length (hx x (by simp)), leaves_length (hy y (by simp))]
          have h1 := List.forall₂_take (leaves x).length h
          have h2 := List.forall₂_drop (leaves x).length h
          rw [List.take_left, hle, List.take_left] at h1
          rw [List.drop_left, hle, List.drop_left] at h2
          exact .cons (mapped_of_leaves (hx x (by simp)) (hy y (by simp)) h1)
            (ih (fun z hz => hx z (by simp [hz])) ys h2 (fun z hz => hy z (by simp [hz]))
              (by simpa using hlen))

theorem mapped_isArray {f : α → Py β} : ∀ {s : List Nat} {l : NL α} {r : NL β},
    IsArray s l → Mapped f l r →
      List.Forall₂ (fun a b => f a = .ok b) (leaves l) (leaves r) ∧ IsArray s r
  | [], l, r, hl, hm => by
      obtain ⟨a, rfl⟩ := hl.nil_leaf
      cases hm with
      | leaf h => simpa [leaves, IsArray] using h
  | n :: s, l, r, hl, hm => by
      obtain ⟨xs, rfl, hn, hxl, hx⟩ := hl.cons_node
      cases hm with
      | @node _ ys h =>
        have key : List.Forall₂ (fun a b => f a = .ok b) (leavesL xs) (leavesL ys) ∧
            ∀ y ∈ ys, IsArray s y := by
          clear hl hxl
          induction h with
          | nil => exact ⟨.nil, by simp⟩
          | @cons x y xs ys hxy _ ih =>
            obtain ⟨h1, h2⟩ := ih (fun z hz => hx z (by simp [hz]))
            obtain ⟨g1, g2⟩ := mapped_isArray (hx x (by simp)) hxy
            refine ⟨List.rel_append g1 h1, ?_⟩
            intro z hz
            rcases List.mem_cons.1 hz with rfl | hz
            · exact g2
            · exact h2 z hz
        exact ⟨key.1, hn, by rw [← h.length_eq, hxl], key.2⟩

/-- Row-major numbering of the entries. -/
theorem get?_leaves : ∀ {s : List Nat} {l : NL α} {idx : List Nat},
    IsArray s l → InBounds s idx →
      ∃ a, get? l idx = some (.leaf a) ∧ (leaves l)[rowMajor s idx]? = some a
  | [], l, [], hl, _ => by
      obtain ⟨a, rfl⟩ := hl.nil_leaf
      exact ⟨a, by simp [get?], by simp [leaves, rowMajor]⟩
  | [], _, _ :: _, _, h => h.elim
  | _ :: _, _, [], _, h => h.elim
  | n :: s, l, i :: is, hl, h => by
      obtain ⟨xs, rfl, hn, hxl, hx⟩ := hl.cons_node
      obtain ⟨hi, his⟩ := h
      have hi' : i < xs.length := by omega
      obtain ⟨a, h1, h2⟩ := get?_leaves (hx xs[i] (List.getElem_mem hi')) his
      refine ⟨a, by simp [get?, hi', h1], ?_⟩
      have hsplit : xs = xs.take i ++ xs[i] :: xs.drop (i + 1) := by simp
      have hlt : rowMajor s is < (leaves xs[i]).length := by
        by_contra hcon
        rw [List.getElem?_eq_none (by omega)] at h2
        cases h2
      have hlen : (leavesL (xs.take i)).length = i * s.prod := by
        rw [leavesL_length (fun y hy => hx y (List.mem_of_mem_take hy))]
        simp; left; omega
      simp only [leaves, rowMajor]
      conv_lhs => rw [hsplit]
      rw [leavesL_append, List.getElem?_append_right (by omega), hlen]
      simp only [leavesL, Nat.add_sub_cancel_left]
      rw [List.getElem?_append_left hlt, h2]

/-! ### Rejection and termination -/

theorem shapeLists_sound {xs : List (NL α)} {ss : List (List Nat)}
    (ih : ∀ x ∈ xs, ∀ s, shapeList x = .ok s → Shaped s x)
    (h : shapeLists xs = .ok ss) : List.Forall₂ (fun x s => Shaped s x) xs ss := by
  induction xs generalizing ss with
  | nil => simp [shapeLists] at h; subst h; exact .nil
  | cons x xs ihx =>
    simp only [shapeLists, bind, Except.bind, pure, Except.pure] at h
    cases h1 : shapeList x with
    | error e => simp [h1] at h
    | ok s =>
      cases h2 : shapeLists xs with
      | error e => simp [h1, h2] at h
      | ok ss' =>
        simp [h1, h2] at h
        subst h
        exact .cons (ih x (by simp) s h1) (ihx (fun y hy => ih y (by simp [hy])) h2)

mutual
theorem shapeList_sound : ∀ (l : NL α) (s : List Nat), shapeList l = .ok s → Shaped s l
  | .leaf a, s, h => by simp [shapeList] at h; subst h; exact .leaf a
  | .node [], s, h => by simp [shapeList] at h; subst h; exact .empty
  | .node (x :: xs), s, h => by
      simp only [shapeList, bind, Except.bind, pure, Except.pure] at h
      cases h1 : shapeList x with
      | error e => simp [h1] at h
      | ok s1 =>
        cases h2 : shapeLists xs with
        | error e => simp [h1, h2] at h
        | ok ss =>
          simp only [h1, h2] at h
          cases h3 : ss.all (· == s1) with
          | false => simp [h3] at h
          | true =>
            simp only [h3, pyAssert_true] at h
            have hx := shapeList_sound x s1 h1
            have hxs := shapeListL_sound xs ss h2
            cases h
            refine .node (x :: xs) s1 (by simp) ?_
            intro y hy
            rcases List.mem_cons.1 hy with rfl | hy
            · exact hx
            · have : ∀ (xs : List (NL α)) ss, List.Forall₂ (fun x s => Shaped s x) xs ss →
                  (∀ s ∈ ss, s = s1) → ∀ y ∈ xs, Shaped s1 y := by
                intro xs ss hf
                induction hf with
                | nil => intro _ y hy; simp at hy
                | cons hab _ ih =>
                  intro hs y hy
                  rcases List.mem_cons.1 hy with rfl | hy
                  · exact hs _ (List.mem_cons_self) ▸ hab
                  · exact ih (fun s hs' => hs s (by simp [hs'])) y hy
              exact this xs ss hxs (by simpa using h3) y hy
theorem shapeListL_sound : ∀ (xs : List (NL α)) (ss : List (List Nat)),
    shapeLists xs = .ok ss → List.Forall₂ (fun x s => Shaped s x) xs ss
  | [], ss, h => by simp [shapeLists] at h; subst h; exact .nil
  | x :: xs, ss, h => by
      simp only [shapeLists, bind, Except.bind, pure, Except.pure] at h
      cases h1 : shapeList x with
      | error e => simp [h1] at h
      | ok s =>
        cases h2 : shapeLists xs with
        | error e => simp [h1, h2] at h
        | ok ss' =>
          simp [h1, h2] at h
          subst h
          exact .cons (shapeList_sound x s h1) (shapeListL_sound xs ss' h2)
end

theorem shapeList_complete {s : List Nat} {l : NL α} (h : Shaped s l) :
    shapeList l = .ok s := by
  induction h with
  | leaf a => rfl
  | empty => rfl
  | node xs s hne _ ih =>
    cases xs with
    | nil => exact absurd rfl hne
    | cons x xs =>
      have h2 := shapeLists_of (xs := xs) (fun y hy => ih y (by simp [hy]))
      simp [shapeList, ih x (by simp), h2, bind, Except.bind, pure, Except.pure]

mutual
theorem shapeList_error : ∀ (l : NL α) (e : PyErr), shapeList l = .error e → e = .assertion
  | .leaf a, e, h => by simp [shapeList] at h
  | .node [], e, h => by simp [shapeList] at h
  | .node (x :: xs), e, h => by
      simp only [shapeList, bind, Except.bind, pure, Except.pure] at h
      cases h1 : shapeList x with
      | error e' => simp [h1] at h; subst h; exact shapeList_error x e' h1
      | ok s1 =>
        cases h2 : shapeLists xs with
        | error e' => simp [h1, h2] at h; subst h; exact shapeListL_error xs e' h2
        | ok ss =>
          simp only [h1, h2] at h
          cases h3 : ss.all (· == s1) with
          | true => simp [h3] at h
          | false => simp [h3] at h; exact h.symm
theorem shapeListL_error : ∀ (xs : List (NL α)) (e : PyErr),
    shapeLists xs = .error e → e = .assertion
  | [], e, h => by simp [shapeLists] at h
  | x :: xs, e, h => by
      simp only [shapeLists, bind, Except.bind, pure, Except.pure] at h
      cases h1 : shapeList x with
      | error e' => simp [h1] at h; subst h; exact shapeList_error x e' h1
      | ok s =>
        cases h2 : shapeLists xs with
        | error e' => simp [h1, h2] at h; subst h; exact shapeListL_error xs e' h2
        | ok ss' => simp [h1, h2] at h
end

theorem shaped_pos {s : List Nat} {l : NL α} (h : Shaped s l) : ∀ n ∈ s, 0 < n := by
  induction h with
  | leaf => simp
  | empty => simp
  | node xs s hne _ ih =>
    intro n hn
    rcases List.mem_cons.1 hn with rfl | hn'
    · exact List.length_pos_of_ne_nil hne
    · cases xs with
      | nil => exact absurd rfl hne
      | cons x xs => exact ih x (by simp) n hn'

theorem package_terminates {c : Int} (hc : 0 < c) : ∀ (fuel : Nat) (xs : List (NL α)),
    xs.length < fuel → ∃ ys, package fuel xs c = .ok ys ∧ ys.length ≤ xs.length
  | 0, xs, h => by omega
  | fuel + 1, [], _ => ⟨[], by simp [package], by simp⟩
  | fuel + 1, x :: xs, h => by
      have hcn : 0 < c.toNat := by omega
      have hd : ((x :: xs).drop c.toNat).length ≤ xs.length := by
        simp only [List.length_drop, List.length_cons]; omega
      obtain ⟨ys, h1, h2⟩ := package_terminates hc fuel ((x :: xs).drop c.toNat)
        (by simp only [List.length_cons] at h; omega)
      refine ⟨.node (sliceTo (x :: xs) c) :: ys, ?_, ?_⟩
      · have : sliceFrom (x :: xs) c = (x :: xs).drop c.toNat := by
          simp [sliceFrom, hc.le]
        simp [package, this, h1, bind, Except.bind, pure, Except.pure]
      · simp only [List.length_cons]; omega

theorem reshapeLoop_terminates (fuel : Nat) : ∀ (rev : List Int) (xs : List (NL α)),
    (∀ c ∈ rev, 0 < c) → xs.length < fuel →
      ∃ l, reshapeLoop fuel rev (.node xs) = .ok l
  | [], xs, _, _ => ⟨.node xs, by simp [reshapeLoop]⟩
  | [c], xs, _, _ => ⟨.node xs, by simp [reshapeLoop]⟩
  | c :: d :: rest, xs, hp, hf => by
      obtain ⟨ys, h1, h2⟩ := package_terminates (hp c (by simp)) fuel xs hf
      obtain ⟨l, h3⟩ := reshapeLoop_terminates fuel (d :: rest) ys
        (fun e he => hp e (by simp at he ⊢; tauto)) (by omega)
      exact ⟨l, by simp [reshapeLoop, h1, h3, bind, Except.bind]⟩

theorem sumItems_error : ∀ (xs : List (NL α)) (e : PyErr), sumItems xs = .error e → e = .typeError
  | [], e, h => by simp [sumItems] at h
  | .leaf _ :: _, e, h => by simp [sumItems] at h; exact h.symm
  | .node ys :: xs, e, h => by
      simp only [sumItems, bind, Except.bind, pure, Except.pure] at h
      cases h1 : sumItems xs with
      | error e' => simp [h1] at h; subst h; exact sumItems_error xs e' h1
      | ok r => simp [h1] at h

theorem flattenLoop_error : ∀ (s : List Nat) (l : NL α) (e : PyErr),
    flattenLoop s l = .error e → e = .typeError
  | [], l, e, h => by simp [flattenLoop] at h
  | [a], l, e, h => by simp [flattenLoop] at h
  | a :: b :: rest, l, e, h => by
      rw [flattenLoop] at h
      simp only [bind, Except.bind] at h
      cases h1 : sumLists l with
      | error e' =>
        simp [h1] at h; subst h
        cases l with
        | leaf _ => simp [sumLists] at h1; exact h1.symm
        | node xs =>
          simp only [sumLists, bind, Except.bind, pure, Except.pure] at h1
          cases h2 : sumItems xs with
          | error e2 => simp [h2] at h1; subst h1; exact sumItems_error xs _ h2
          | ok r => simp [h2] at h1
      | ok l' =>
        simp [h1] at h
        exact flattenLoop_error (a * b :: rest) l' e h
termination_by s => s.length

end Verif.ListUtils.NL
