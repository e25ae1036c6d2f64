import Verif.Spec.Gmsh
import Verif.Lemmas.BlockOps
import Verif.Lemmas.Embedded
/-!
# Lemmas about the import from gmsh
-/
namespace Verif.Gmsh
open Verif Verif.BlockOps Verif.Embedded
variable {K : Type}

theorem eq_range_of_lt {l : List Nat} (hs : l.Pairwise (· ≤ ·)) (hn : l.Nodup) (h : ∀ x ∈ l, x < l.length) :
    l = List.range l.length := by
  have hp : l.Perm (List.range l.length) := by
    apply List.Subperm.perm_of_length_le
    · exact List.subperm_of_subset hn (fun x hx => List.mem_range.2 (h x hx))
    · simp
  exact hp.eq_of_pairwise (fun a b _ _ h1 h2 => Nat.le_antisymm h1 h2) hs
    (List.pairwise_le_range)

theorem npUnique_sorted (l : List Nat) : (npUnique l).Pairwise (· ≤ ·) := List.pairwise_insertionSort _ _

theorem nodeMap_eq_ok {U : List Nat} {c v : Nat} : nodeMap U c = .ok v ↔ U[c]? = some v := by
  unfold nodeMap
  cases h : U[c]? <;> simp

theorem nodeMap_range {n c : Nat} (h : c < n) : nodeMap (List.range n) c = .ok c := by
  rw [nodeMap_eq_ok]
  simp [h]

theorem mapRow_lt {U row r : List Nat} (h : pyMap (nodeMap U) row = .ok r) : ∀ c ∈ row, c < U.length := by
  rw [pyMap_eq_ok] at h
  induction h with
  | nil => simp
  | cons hc _ ih =>
      intro c hcm
      rcases List.mem_cons.1 hcm with rfl | hcm
      · rw [nodeMap_eq_ok] at hc
        exact (List.getElem?_eq_some_iff.1 hc).1
      · exact ih c hcm

theorem mapRow_range {n : Nat} {row : List Nat} (h : ∀ c ∈ row, c < n) : pyMap (nodeMap (List.range n)) row = .ok row := by
  have := pyMap_ok (f := nodeMap (List.range n)) (g := id) (xs := row) (fun x hx => nodeMap_range (h x hx))
  rwa [List.map_id] at this

theorem mapRows_lt {U : List Nat} {rows rs : List (List Nat)} (h : pyMap (pyMap (nodeMap U)) rows = .ok rs) :
    ∀ c ∈ rows.flatten, c < U.length := by
  rw [pyMap_eq_ok] at h
  induction h with
  | nil => simp
  | cons hc _ ih =>
      intro c hcm
      rw [List.flatten_cons, List.mem_append] at hcm
      rcases hcm with hcm | hcm
      · exact mapRow_lt hc c hcm
      · exact ih c hcm

theorem mapRows_range {n : Nat} {rows : List (List Nat)} (h : ∀ c ∈ rows.flatten, c < n) :
    pyMap (pyMap (nodeMap (List.range n))) rows = .ok rows := by
  have := pyMap_ok (f := pyMap (nodeMap (List.range n))) (g := id) (xs := rows)
    (fun x hx => mapRow_range (fun c hc => h c (List.mem_flatten.2 ⟨x, hx, hc⟩)))
  rwa [List.map_id] at this

/-- If the renumbering does not raise then it does nothing. -/
theorem unique_range {rows rs : List (List Nat)} (h : pyMap (pyMap (nodeMap (npUnique rows.flatten))) rows = .ok rs) :
    npUnique rows.flatten = List.range (npUnique rows.flatten).length ∧ rs = rows := by
  have hlt := mapRows_lt h
  have hr := eq_range_of_lt (npUnique_sorted _) (npUnique_nodup _) (fun x hx => hlt x (mem_npUnique.1 hx))
  refine ⟨hr, ?_⟩
  rw [hr, mapRows_range hlt] at h
  injection h with h
  exact h.symm

theorem unique_of_closed {rows : List (List Nat)} (h : ∀ n ∈ rows.flatten, ∀ m < n, m ∈ rows.flatten) :
    npUnique rows.flatten = List.range (npUnique rows.flatten).length := by
  apply eq_range_of_lt (npUnique_sorted _) (npUnique_nodup _)
  intro x hx
  have hsub : (List.range (x + 1)).Subperm (npUnique rows.flatten) := by
    apply List.subperm_of_subset List.nodup_range
    intro m hm
    rw [mem_npUnique] at hx ⊢
    rw [List.mem_range] at hm
    rcases Nat.lt_or_ge m x with h1 | h1
    · exact h x hx m h1
    · have : m = x := by omega
      rw [this]; exact hx
  have := hsub.length_le
  simp at this
  omega

theorem pyMap_keyError {rows : List (List Nat)} {U : List Nat} (h : ∃ c ∈ rows.flatten, U.length ≤ c) :
    pyMap (pyMap (nodeMap U)) rows = .error .keyError := by
  have aux : ∀ row : List Nat, (∃ c ∈ row, U.length ≤ c) → pyMap (nodeMap U) row = .error .keyError := by
    intro row
    induction row with
    | nil => rintro ⟨c, hc, _⟩; simp at hc
    | cons a l ih =>
        rintro ⟨c, hc, hge⟩
        unfold pyMap
        by_cases ha : a < U.length
        · have : nodeMap U a = .ok U[a] := by rw [nodeMap_eq_ok]; exact List.getElem?_eq_getElem ha
          rw [this, py_bind_ok, ih ?_, py_bind_error]
          rcases List.mem_cons.1 hc with rfl | hc
          · omega
          · exact ⟨c, hc, hge⟩
        · have : nodeMap U a = .error .keyError := by
            unfold nodeMap
            rw [List.getElem?_eq_none (by omega)]
          rw [this, py_bind_error]
  have aux2 : ∀ row : List Nat, (∀ c ∈ row, c < U.length) → ∃ r, pyMap (nodeMap U) row = .ok r := by
    intro row hrow
    refine ⟨row.map (fun c => U.getD c 0), pyMap_ok (g := fun c => U.getD c 0) ?_⟩
    intro c hc
    rw [nodeMap_eq_ok, List.getD_eq_getElem?_getD, List.getElem?_eq_getElem (hrow c hc)]
    rfl
  induction rows with
  | nil => simp at h
  | cons row l ih =>
      obtain ⟨c, hc, hge⟩ := h
      unfold pyMap
      by_cases hrow : ∃ c ∈ row, U.length ≤ c
      · rw [aux row hrow, py_bind_error]
      · obtain ⟨r, hr⟩ := aux2 row (by
          intro c hc
          by_contra hcon
          exact hrow ⟨c, hc, by omega⟩)
        rw [hr, py_bind_ok, ih ?_, py_bind_error]
        rw [List.flatten_cons, List.mem_append] at hc
        rcases hc with hc | hc
        · exact absurd ⟨c, hc, hge⟩ hrow
        · exact ⟨c, hc, hge⟩

/-! ## Tags of entities -/

theorem mem_common {es : List (List Nat)} {entity : List Nat} {e : Nat} :
    e ∈ common es entity ↔ ∃ vs, es[e]? = some vs ∧ ∀ v ∈ entity, v ∈ vs := by
  unfold common
  simp only [List.mem_filter, List.mem_range, List.all_eq_true, decide_eq_true_eq]
  constructor
  · rintro ⟨h, h2⟩
    refine ⟨es[e], List.getElem?_eq_getElem h, ?_⟩
    rw [List.getD_eq_getElem?_getD, List.getElem?_eq_getElem h] at h2
    exact h2
  · rintro ⟨vs, h, h2⟩
    refine ⟨(List.getElem?_eq_some_iff.1 h).1, ?_⟩
    rw [List.getD_eq_getElem?_getD, h]
    exact h2

/-- The last tag of a matching element, `d` if there is none. -/
def lastOr (elements : List (List Nat × Nat)) (vs : List Nat) (d : Nat) : Nat :=
  (((elements.filter (fun p => p.1.toFinset = vs.toFinset)).getLast?).map (fun p => p.2)).getD d

theorem lastOr_cons (row : List Nat) (tag : Nat) (l : List (List Nat × Nat)) (vs : List Nat) (d : Nat) :
    lastOr ((row, tag) :: l) vs d = lastOr l vs (if row.toFinset = vs.toFinset then tag else d) := by
  unfold lastOr
  by_cases h : row.toFinset = vs.toFinset
  · rw [List.filter_cons_of_pos (by simpa using h), if_pos h, List.getLast?_cons]
    cases (l.filter (fun p => p.1.toFinset = vs.toFinset)).getLast? <;> simp
  · rw [List.filter_cons_of_neg (by simpa using h), if_neg h]

theorem row_of_tagLoop {β : Type} {n : Nat} {row : List Nat} {k : List Nat → Py β} {y : β}
    (h : (pyMap (nodeMap (List.range n)) row >>= k) = .ok y) : pyMap (nodeMap (List.range n)) row = .ok row := by
  obtain ⟨entity, he, _⟩ := py_bind_eq_ok.1 h
  apply mapRow_range
  have := mapRow_lt he
  simpa using this

theorem tagLoop_ok {n : Nat} {es : List (List Nat)} {l : List (List Nat × Nat)} {f f' : List Nat}
    (hf : f.length = es.length) (h : tagLoop (List.range n) es l f = .ok f') :
    f'.length = es.length ∧ ∀ (e : Nat) vs, es[e]? = some vs → f'[e]? = some (lastOr l vs (f.getD e 0)) := by
  induction l generalizing f with
  | nil =>
      injection h with h
      subst h
      refine ⟨hf, fun e vs he => ?_⟩
      have := (List.getElem?_eq_some_iff.1 he).1
      rw [List.getElem?_eq_getElem (by omega), List.getD_eq_getElem?_getD, List.getElem?_eq_getElem (by omega)]
      rfl
  | cons p l ih =>
      obtain ⟨row, tag⟩ := p
      unfold tagLoop at h
      rw [row_of_tagLoop h, py_bind_ok] at h
      by_cases hr : row = []
      · rw [if_pos hr] at h; simp at h
      rw [if_neg hr, py_bind_ok] at h
      split at h
      · rename_i e0 hc
        rw [py_bind_eq_ok] at h
        obtain ⟨_, ha, h⟩ := h
        rw [pyAssert_eq_ok, decide_eq_true_eq] at ha
        obtain ⟨hlen, hval⟩ := ih (f := f.set e0 tag) (by simpa using hf) h
        refine ⟨hlen, fun e vs he => ?_⟩
        rw [hval e vs he, lastOr_cons]
        congr 2
        have he0 : e0 ∈ common es row := by rw [hc]; simp
        obtain ⟨vs0, hvs0, _⟩ := mem_common.1 he0
        have hlt' := (List.getElem?_eq_some_iff.1 he).1
        by_cases hm : row.toFinset = vs.toFinset
        · have : e ∈ common es row := mem_common.2 ⟨vs, he, fun v hv => by
            have := List.mem_toFinset.2 hv
            rw [hm] at this
            exact List.mem_toFinset.1 this⟩
          rw [hc, List.mem_singleton] at this
          subst this
          rw [if_pos hm, List.getD_eq_getElem?_getD, List.getElem?_set_self (by omega)]
          rfl
        · rw [if_neg hm, List.getD_eq_getElem?_getD, List.getD_eq_getElem?_getD, List.getElem?_set_ne]
          rintro rfl
          rw [List.getD_eq_getElem?_getD, he] at ha
          exact hm ha
      · simp at h

theorem tagLoop_total {n : Nat} {es : List (List Nat)} {l : List (List Nat × Nat)} {f : List Nat}
    (hlt : ∀ p ∈ l, ∀ c ∈ p.1, c < n) (hne : ∀ p ∈ l, p.1 ≠ [])
    (hex : ∀ p ∈ l, ∃ e, common es p.1 = [e] ∧ p.1.toFinset = (es.getD e []).toFinset) :
    ∃ f', tagLoop (List.range n) es l f = .ok f' := by
  induction l generalizing f with
  | nil => exact ⟨f, rfl⟩
  | cons p l ih =>
      obtain ⟨row, tag⟩ := p
      obtain ⟨e, he, hfs⟩ := hex (row, tag) (List.mem_cons_self ..)
      obtain ⟨f', hf'⟩ := ih (f := f.set e tag) (fun p hp => hlt p (List.mem_cons_of_mem _ hp))
        (fun p hp => hne p (List.mem_cons_of_mem _ hp)) (fun p hp => hex p (List.mem_cons_of_mem _ hp))
      refine ⟨f', ?_⟩
      unfold tagLoop
      rw [mapRow_range (hlt (row, tag) (List.mem_cons_self ..)), py_bind_ok,
        if_neg (hne (row, tag) (List.mem_cons_self ..)), py_bind_ok]
      dsimp only at he hfs
      simp only [he]
      rw [decide_eq_true hfs, pyAssert_true, py_bind_ok]
      exact hf'

theorem npMin_pos {l : List Nat} (hne : l ≠ []) (h : ∀ t ∈ l, 0 < t) : ∃ m, npMin l = .ok m ∧ 0 < m := by
  cases l with
  | nil => exact absurd rfl hne
  | cons a l =>
      refine ⟨_, rfl, ?_⟩
      have key : ∀ (l : List Nat) (a : Nat), 0 < a → (∀ t ∈ l, 0 < t) → 0 < l.foldl min a := by
        intro l
        induction l with
        | nil => intro a ha _; exact ha
        | cons b l ih =>
            intro a ha hl
            exact ih (min a b) (by have := hl b (List.mem_cons_self ..); omega) (fun t ht => hl t (List.mem_cons_of_mem _ ht))
      exact key l a (h a (List.mem_cons_self ..)) (fun t ht => h t (List.mem_cons_of_mem _ ht))

theorem tags_ne {elm : Nat} {b : Block} (h : BlockOK elm b) : b.tags ≠ [] := by
  intro e
  have h1 := h.length
  rw [e] at h1
  exact h.ne (List.eq_nil_of_length_eq_zero h1.symm)

end Verif.Gmsh
