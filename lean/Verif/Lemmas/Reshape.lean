import Verif.Spec.Reshape
import Verif.Lemmas.BlockOps
import Verif.Lemmas.CenterVec
import Mathlib.Tactic.Ring
/-!
# Lemmas on grouped matrices
-/
namespace Verif.Reshape
open Verif Verif.BlockOps
variable {α V : Type}

theorem pairs_get : ∀ (offs : List Nat) (f k a b : Nat),
    (offsetPairs f offs)[k]? = some (a, b) ↔ (f :: offs)[k]? = some a ∧ offs[k]? = some b
  | [], f, k, a, b => by simp [offsetPairs]
  | l :: rest, f, 0, a, b => by simp [offsetPairs]
  | l :: rest, f, k + 1, a, b => by
    rw [offsetPairs, List.getElem?_cons_succ, List.getElem?_cons_succ, List.getElem?_cons_succ]
    exact pairs_get rest l k a b

theorem pairs_length : ∀ (offs : List Nat) (f : Nat), (offsetPairs f offs).length = offs.length
  | [], f => rfl
  | l :: rest, f => by simp [offsetPairs, pairs_length rest l]

theorem pairs_mem {offs : List Nat} {f : Nat} (h : (f :: offs).Pairwise (· < ·)) {n : Nat} (hn : offs.getLast? = some n) :
    ∀ p ∈ offsetPairs f offs, f ≤ p.1 ∧ p.1 < p.2 ∧ p.2 ≤ n := by
  induction offs generalizing f with
  | nil => simp [offsetPairs]
  | cons l rest ih =>
    intro p hp
    have h1 : f < l := (List.pairwise_cons.1 h).1 l (by simp)
    have h2 := (List.pairwise_cons.1 h).2
    have hln : l ≤ n := by
      cases rest with
      | nil => simp at hn; omega
      | cons m r =>
        have : n ∈ m :: r := List.mem_of_getLast? (by simpa using hn)
        exact le_of_lt ((List.pairwise_cons.1 h2).1 n this)
    rw [offsetPairs] at hp
    rcases List.mem_cons.1 hp with rfl | hp
    · exact ⟨le_rfl, h1, hln⟩
    · cases rest with
      | nil => simp [offsetPairs] at hp
      | cons m r =>
        have := ih h2 (by simpa using hn) p hp
        exact ⟨by omega, this.2⟩

theorem slice_get (l : List α) (a b i : Nat) : (slice l (a, b))[i]? = if i < b - a then l[a + i]? else none := by
  unfold slice
  by_cases h : i < b - a
  · rw [if_pos h, List.getElem?_take_of_lt h, List.getElem?_drop]
  · rw [if_neg h, List.getElem?_take, if_neg h]

theorem slice_length {l : List α} {p : Nat × Nat} (h : p.2 ≤ l.length) : (slice l p).length = p.2 - p.1 := by
  unfold slice
  rw [List.length_take, List.length_drop]
  omega

theorem slice_sum [AddCommMonoid V] : ∀ (offs : List Nat) (f : Nat) (z : List V), (f :: offs).Pairwise (· < ·) →
    offs.getLast? = some z.length → ((offsetPairs f offs).map (fun c => (slice z c).sum)).sum = (z.drop f).sum
  | [], f, z, _, h => by simp at h
  | [l], f, z, h, hl => by
    simp at hl
    simp only [offsetPairs, slice, List.map_cons, List.map_nil, List.sum_cons, List.sum_nil, add_zero]
    rw [List.take_of_length_le (by rw [List.length_drop]; omega)]
  | l :: m :: rest, f, z, h, hl => by
    have h1 : f < l := (List.pairwise_cons.1 h).1 l (by simp)
    rw [offsetPairs, List.map_cons, List.sum_cons, slice_sum (m :: rest) l z (List.pairwise_cons.1 h).2 (by simpa using hl)]
    have e : z.drop l = (z.drop f).drop (l - f) := by
      rw [List.drop_drop]; congr 1; omega
    rw [e]
    unfold slice
    exact List.sum_take_add_sum_drop _ _

theorem slice_zipWith {β γ : Type} (g : α → β → γ) (l : List α) (m : List β) (p : Nat × Nat) :
    List.zipWith g (slice l p) (slice m p) = slice (List.zipWith g l m) p := by
  unfold slice
  rw [List.drop_zipWith, List.take_zipWith]

/-- What is known of a block of the result. -/
def Good (A : List (List α)) (r c : Nat × Nat) (e : Entry α) : Prop :=
  (∀ i j, e.at i j = if i < r.2 - r.1 ∧ j < c.2 - c.1 then A[r.1 + i]?.bind (·[c.1 + j]?) else none) ∧
  (r.2 - r.1 = 1 ∧ c.2 - c.1 = 1 → ∃ a, e = .one a) ∧ (¬ (r.2 - r.1 = 1 ∧ c.2 - c.1 = 1) → e = .blk (slices A r c))

theorem slices_at (A : List (List α)) (r c : Nat × Nat) (i j : Nat) :
    (Entry.blk (slices A r c)).at i j = if i < r.2 - r.1 ∧ j < c.2 - c.1 then A[r.1 + i]?.bind (·[c.1 + j]?) else none := by
  obtain ⟨a, b⟩ := r
  obtain ⟨p, q⟩ := c
  show ((slices A (a, b) (p, q))[i]?).bind (·[j]?) = _
  unfold slices
  rw [List.getElem?_map, slice_get]
  by_cases hi : i < b - a
  · rw [if_pos hi]
    cases hA : A[a + i]? with
    | none => simp
    | some row =>
      simp only [Option.map_some, Option.bind_some, slice_get]
      by_cases hj : j < q - p <;> simp [hi, hj]
  · simp [hi]

theorem entry_good {A : List (List α)} (hA : Square A) {r c : Nat × Nat} (hr : r.1 < r.2 ∧ r.2 ≤ A.length) (hc : c.1 < c.2 ∧ c.2 ≤ A.length) :
    ∃ e, reshapeEntry A r c = .ok e ∧ Good A r c e := by
  unfold reshapeEntry
  by_cases h : r.2 - r.1 = 1 ∧ c.2 - c.1 = 1
  · have h1 : r.1 < A.length := by omega
    have h2 : c.1 < (A[r.1]).length := by rw [hA _ (List.getElem_mem h1)]; omega
    refine ⟨.one (A[r.1][c.1]), ?_, ?_, fun _ => ⟨_, rfl⟩, fun h' => absurd h h'⟩
    · rw [if_pos h]
      simp [item, pyGet, List.getElem?_eq_getElem h1, List.getElem?_eq_getElem h2]
    · intro i j
      rw [h.1, h.2]
      show (if i = 0 ∧ j = 0 then _ else _) = _
      by_cases hij : i = 0 ∧ j = 0
      · obtain ⟨rfl, rfl⟩ := hij
        simp [List.getElem?_eq_getElem h1, List.getElem?_eq_getElem h2]
      · rw [if_neg hij, if_neg (by omega)]
  · refine ⟨_, by rw [if_neg h], slices_at A r c, fun h' => absurd h' h, fun _ => rfl⟩

theorem reshape_good {A : List (List α)} (hA : Square A) {offsets : List Nat} (ho : Offsets offsets A.length) :
    ∃ M, blockReshape A offsets = .ok M ∧ List.Forall₂ (fun r row => List.Forall₂ (Good A r) (offsetPairs 0 offsets) row) (offsetPairs 0 offsets) M := by
  unfold blockReshape
  apply CenterVec.pyMap_exists
  intro r hr
  apply CenterVec.pyMap_exists
  intro c hc
  exact entry_good hA (pairs_mem ho.1 ho.2 r hr).2 (pairs_mem ho.1 ho.2 c hc).2

theorem forall₂_get {β γ : Type} {R : β → γ → Prop} : ∀ {l : List β} {m : List γ}, List.Forall₂ R l m → ∀ {i : Nat} {a : β},
    l[i]? = some a → ∃ b, m[i]? = some b ∧ R a b
  | _, _, .nil, i, a, h => by simp at h
  | _, _, .cons h _, 0, a, e => by
      injection e with e
      subst e
      exact ⟨_, rfl, h⟩
  | _, _, .cons _ h, i + 1, a, e => by
      obtain ⟨b, h1, h2⟩ := forall₂_get h (i := i) (a := a) (by simpa using e)
      exact ⟨b, by simpa using h1, h2⟩

theorem offsets_ne {offsets : List Nat} {n : Nat} (h : Offsets offsets n) : offsets ≠ [] := by
  rintro rfl
  have := h.2
  simp at this

/-- Regrouped vectors with groups of several blocks only. -/
theorem regrouped_many {offsets : List Nat} {x : List V} (ho : Offsets offsets x.length)
    (hm : ∀ k a b, Group offsets k a b → b ≠ a + 1) {y : List (Part V)} (hy : Regrouped offsets x y) :
    y = (offsetPairs 0 offsets).map (fun c => .many (slice x c)) := by
  apply List.ext_getElem?
  intro k
  rw [List.getElem?_map]
  cases hk : (offsetPairs 0 offsets)[k]? with
  | none =>
    rw [List.getElem?_eq_none_iff, pairs_length] at hk
    simp [hy.1, hk]
  | some c =>
    obtain ⟨a, b⟩ := c
    have hg : Group offsets k a b := (pairs_get _ _ _ _ _).1 hk
    obtain ⟨vs, h1, h2, h3⟩ := (hy.2 k a b hg).2 (hm k a b hg)
    rw [h1]
    simp only [Option.map_some, Option.some.injEq, Part.many.injEq]
    apply List.ext_getElem?
    intro i
    rw [slice_get]
    by_cases hi : i < b - a
    · rw [if_pos hi, h3 i hi]
    · rw [if_neg hi, List.getElem?_eq_none_iff]
      omega

/-- With groups of one block, group `k` starts with `k`. -/
theorem group_single {offsets : List Nat} (h1 : ∀ k a b, Group offsets k a b → b = a + 1) : ∀ k a b, Group offsets k a b → a = k := by
  intro k
  induction k with
  | zero =>
    intro a b h
    have := h.1
    simp at this
    omega
  | succ k ih =>
    intro a b h
    have h' : offsets[k]? = some a := by simpa using h.1
    have hk : k < (0 :: offsets).length := by
      have := (List.getElem?_eq_some_iff.1 h').1
      simp; omega
    have hg : Group offsets k (0 :: offsets)[k] a := ⟨List.getElem?_eq_getElem hk, h'⟩
    have e1 := ih _ _ hg
    have e2 := h1 _ _ _ hg
    omega

theorem single_length {offsets : List Nat} {n : Nat} (ho : Offsets offsets n) (h1 : ∀ k a b, Group offsets k a b → b = a + 1) :
    offsets.length = n := by
  have hne := offsets_ne ho
  have hl : offsets.length - 1 < offsets.length := by
    have := List.length_pos_iff.2 hne
    omega
  have h2 : offsets[offsets.length - 1]? = some n := by
    rw [← List.getLast?_eq_getElem?]; exact ho.2
  have hk : offsets.length - 1 < (0 :: offsets).length := by simp
  have hg : Group offsets (offsets.length - 1) (0 :: offsets)[offsets.length - 1] n := ⟨List.getElem?_eq_getElem hk, h2⟩
  have e1 := group_single h1 _ _ _ hg
  have e2 := h1 _ _ _ hg
  omega

theorem group_of_lt {offsets : List Nat} {k : Nat} (hk : k < offsets.length) : ∃ a b, Group offsets k a b :=
  ⟨_, _, List.getElem?_eq_getElem (by simp; omega), List.getElem?_eq_getElem hk⟩

theorem regrouped_single {offsets : List Nat} {x : List V} (ho : Offsets offsets x.length)
    (h1 : ∀ k a b, Group offsets k a b → b = a + 1) {y : List (Part V)} (hy : Regrouped offsets x y) : y = x.map .one := by
  have hl := single_length ho h1
  apply List.ext_getElem?
  intro k
  rw [List.getElem?_map]
  by_cases hk : k < offsets.length
  · obtain ⟨a, b, hg⟩ := group_of_lt hk
    obtain ⟨v, e1, e2⟩ := (hy.2 k a b hg).1 (h1 k a b hg)
    rw [group_single h1 k a b hg] at e1
    rw [e1, e2]; rfl
  · rw [List.getElem?_eq_none_iff.2 (by rw [hy.1]; omega), List.getElem?_eq_none_iff.2 (by omega)]
    rfl

theorem reshape_single {A : List (List α)} (hA : Square A) {offsets : List Nat} (ho : Offsets offsets A.length)
    (h1 : ∀ k a b, Group offsets k a b → b = a + 1) : blockReshape A offsets = .ok (A.map (fun row => row.map Entry.one)) := by
  obtain ⟨M, hM, hf⟩ := reshape_good hA ho
  rw [hM]
  congr 1
  have hl := single_length ho h1
  have hp : ∀ k, k < A.length → (offsetPairs 0 offsets)[k]? = some (k, k + 1) := by
    intro k hk
    obtain ⟨a, b, hg⟩ := group_of_lt (offsets := offsets) (k := k) (by omega)
    have e1 := group_single h1 k a b hg
    have e2 := h1 k a b hg
    subst e1; subst e2
    exact (pairs_get _ _ _ _ _).2 hg
  apply List.ext_getElem?
  intro k
  rw [List.getElem?_map]
  by_cases hk : k < A.length
  · obtain ⟨row, e1, hrow⟩ := forall₂_get hf (hp k hk)
    rw [e1, List.getElem?_eq_getElem hk]
    simp only [Option.map_some, Option.some.injEq]
    have hlen := hA _ (List.getElem_mem hk)
    apply List.ext_getElem?
    intro l
    rw [List.getElem?_map]
    by_cases hl' : l < A.length
    · obtain ⟨e, e2, he, ho', -⟩ := forall₂_get hrow (hp l hl')
      obtain ⟨a, rfl⟩ := ho' (by simp)
      have := he 0 0
      have hlk : l < A[k].length := by omega
      simp [Entry.at, List.getElem?_eq_getElem hk, List.getElem?_eq_getElem hlk] at this
      rw [e2, List.getElem?_eq_getElem hlk, this]; rfl
    · rw [List.getElem?_eq_none_iff.2 (by rw [← hrow.length_eq, pairs_length]; omega), List.getElem?_eq_none_iff.2 (by omega)]
      rfl
  · rw [List.getElem?_eq_none_iff.2 (by rw [← hf.length_eq, pairs_length]; omega), List.getElem?_eq_none_iff.2 (by omega)]
    rfl

theorem reshape_many {A : List (List α)} {offsets : List Nat} (h1 : ∀ k a b, Group offsets k a b → b ≠ a + 1)
    (ho : Offsets offsets A.length) :
    blockReshape A offsets = .ok ((offsetPairs 0 offsets).map (fun r => (offsetPairs 0 offsets).map (fun c => .blk (slices A r c)))) := by
  unfold blockReshape
  apply pyMap_ok
  intro r hr
  apply pyMap_ok
  intro c hc
  unfold reshapeEntry
  rw [if_neg]
  intro h
  obtain ⟨k, hk⟩ := List.getElem?_of_mem hr
  have hm := pairs_mem ho.1 ho.2 r hr
  exact h1 k r.1 r.2 ((pairs_get _ _ _ _ _).1 hk) (by omega)

section
variable [AddCommMonoid V] (act : α → V → V)

theorem rowApplyParts_one : ∀ (row : List α) (x : List V), row ≠ [] → row.length = x.length →
    rowApplyParts act (row.map Entry.one) (x.map Part.one) = some (.one (rowApply act row x))
  | [], _, h, _ => absurd rfl h
  | [a], [v], _, _ => by simp [rowApplyParts, Entry.apply, rowApply]
  | [a], [], _, h => by simp at h
  | [a], v :: w :: x, _, h => by simp at h
  | a :: b :: row, [], _, h => by simp at h
  | a :: b :: row, [v], _, h => by simp at h
  | a :: b :: row, v :: w :: x, _, h => by
    have ih := rowApplyParts_one (b :: row) (w :: x) (by simp) (by simpa using h)
    simp only [List.map_cons] at ih ⊢
    rw [rowApplyParts]
    · rw [ih]
      simp [Entry.apply, Part.add, rowApply]
    · simp

theorem rowApplyParts_many (R : List (List α)) (x : List V) : ∀ (cs : List (Nat × Nat)), cs ≠ [] →
    rowApplyParts act (cs.map (fun c => Entry.blk (R.map (fun row => slice row c)))) (cs.map (fun c => Part.many (slice x c))) =
      some (.many (R.map (fun row => (cs.map (fun c => rowApply act (slice row c) (slice x c))).sum)))
  | [], h => absurd rfl h
  | [c], _ => by simp [rowApplyParts, Entry.apply, Reshape.apply]
  | c :: d :: cs, _ => by
    have ih := rowApplyParts_many R x (d :: cs) (by simp)
    simp only [List.map_cons] at ih ⊢
    rw [rowApplyParts]
    · rw [ih]
      simp [Entry.apply, Part.add, Reshape.apply, List.zipWith_map_left, List.zipWith_map_right]
    · simp

theorem rowApplyParts_none : ∀ (es : List (Entry α)) (ps : List (Part V)) (k : Nat) (e : Entry α) (p : Part V),
    es[k]? = some e → ps[k]? = some p → e.apply act p = none → rowApplyParts act es ps = none
  | [], _, k, e, p, h, _, _ => by simp at h
  | _ :: _, [], k, e, p, _, h, _ => by simp at h
  | [e'], [p'], 0, e, p, h1, h2, h3 => by
    simp at h1 h2; subst h1; subst h2
    simpa [rowApplyParts] using h3
  | [e'], [p'], k + 1, e, p, h1, _, _ => by simp at h1
  | [e'], p' :: q :: ps, k, e, p, h1, h2, h3 => by
    rw [rowApplyParts]
    · cases he : e'.apply act p' <;> simp [rowApplyParts]
    · simp
  | e' :: f :: es, p' :: ps, 0, e, p, h1, h2, h3 => by
    simp at h1 h2; subst h1; subst h2
    rw [rowApplyParts]
    · simp [h3]
    · simp
  | e' :: f :: es, p' :: ps, k + 1, e, p, h1, h2, h3 => by
    have ih := rowApplyParts_none (f :: es) ps k e p (by simpa using h1) (by simpa using h2) h3
    rw [rowApplyParts]
    · rw [ih]
      cases he : e'.apply act p' <;> simp
    · simp
end

theorem mapM_some {β γ : Type} {f : β → Option γ} {g : β → γ} : ∀ {l : List β}, (∀ x ∈ l, f x = some (g x)) → l.mapM f = some (l.map g)
  | [], _ => rfl
  | x :: l, h => by
    rw [List.mapM_cons, h x (by simp), mapM_some (l := l) (fun y hy => h y (by simp [hy]))]
    rfl

theorem mapM_none {β γ : Type} {f : β → Option γ} : ∀ {l : List β} {x : β}, x ∈ l → f x = none → l.mapM f = none
  | [], _, h, _ => by simp at h
  | y :: l, x, h, hx => by
    rw [List.mapM_cons]
    rcases List.mem_cons.1 h with rfl | h
    · rw [hx]; rfl
    · rw [mapM_none h hx]
      cases f y <;> rfl

theorem sizes_eq {K : Type} {rows : List (List K)} {n : Nat} (hne : rows ≠ []) (h : ∀ r ∈ rows, r.length = n) : sizes rows = [n] := by
  unfold sizes
  have : rows.map List.length = List.replicate rows.length n := by
    rw [List.eq_replicate_iff]
    refine ⟨by simp, fun b hb => ?_⟩
    obtain ⟨r, hr, rfl⟩ := List.mem_map.1 hb
    exact h r hr
  rw [this]
  exact List.replicate_dedup (by simpa using hne)

theorem flatten_length {K : Type} {rows : List (List K)} {n : Nat} (h : ∀ r ∈ rows, r.length = n) : rows.flatten.length = rows.length * n := by
  induction rows with
  | nil => simp
  | cons r rows ih =>
    rw [List.flatten_cons, List.length_append, ih (fun s hs => h s (by simp [hs])), h r (by simp), List.length_cons]
    ring

theorem flatten_get {K : Type} {rows : List (List K)} {n : Nat} (h : ∀ r ∈ rows, r.length = n) (i j : Nat) (hj : j < n) :
    rows.flatten[i * n + j]? = rows[i]?.bind (·[j]?) := by
  induction rows generalizing i with
  | nil => simp
  | cons r rows ih =>
    have hr := h r (by simp)
    cases i with
    | zero =>
      rw [List.flatten_cons, List.getElem?_append_left (by omega)]
      simp
    | succ i =>
      rw [List.flatten_cons, List.getElem?_append_right (by rw [hr, Nat.add_mul]; omega), hr]
      have : (i + 1) * n + j - n = i * n + j := by rw [Nat.add_mul]; omega
      rw [this, ih (fun s hs => h s (by simp [hs]))]
      simp

theorem cumsum_length : ∀ (s : Nat) (l : List Nat), (cumsum s l).length = l.length
  | _, [] => rfl
  | s, x :: l => by simp [cumsum, cumsum_length (s + x) l]

theorem cumsum_ge : ∀ (s : Nat) (l : List Nat), ∀ x ∈ cumsum s l, s ≤ x
  | _, [], x, h => by simp [cumsum] at h
  | s, y :: l, x, h => by
    rw [cumsum] at h
    rcases List.mem_cons.1 h with rfl | h
    · omega
    · have := cumsum_ge (s + y) l x h
      omega

theorem cumsum_mono : ∀ (s : Nat) (l : List Nat), (cumsum s l).Pairwise (· ≤ ·)
  | _, [] => .nil
  | s, x :: l => by
    rw [cumsum]
    exact .cons (cumsum_ge _ _) (cumsum_mono _ l)

theorem cumsum_replicate (n : Nat) : ∀ (m s i : Nat), i < m → (cumsum s (List.replicate m n)).getD i 0 = s + (i + 1) * n
  | 0, s, i, h => by omega
  | m + 1, s, 0, _ => by simp [List.replicate_succ, cumsum]
  | m + 1, s, i + 1, h => by
    rw [List.replicate_succ, cumsum, List.getD_cons_succ, cumsum_replicate n m (s + n) i (by omega)]
    ring

theorem indptr_get {m n i : Nat} (h : i ≤ m) : (cumsum 0 (0 :: List.replicate m n)).getD i 0 = i * n := by
  rw [cumsum]
  cases i with
  | zero => simp
  | succ i => rw [List.getD_cons_succ, cumsum_replicate n m _ i (by omega)]; ring

end Verif.Reshape
