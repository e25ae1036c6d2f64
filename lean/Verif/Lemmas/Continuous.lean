import Verif.Spec.Continuous
import Mathlib.Tactic.Push
/-! # Lemmas on continuous meshes -/
namespace Verif.Continuous
open Relation

/-- Neighbouring blocks: they have a common element. -/
def Share (n : Nat) (I : Nat → List Nat) (a b : Nat) : Prop := a < n ∧ b < n ∧ ∃ v, v ∈ I a ∧ v ∈ I b

/-- Elements of a common block. -/
def Common (n : Nat) (I : Nat → List Nat) (v w : Nat) : Prop := ∃ c, c < n ∧ v ∈ I c ∧ w ∈ I c

theorem rtg_of {R S : Nat → Nat → Prop} (h : ∀ a b, R a b → ReflTransGen S a b) {a b : Nat}
    (hr : ReflTransGen R a b) : ReflTransGen S a b := by
  induction hr with
  | refl => exact .refl
  | tail _ h1 ih => exact ih.trans (h _ _ h1)

theorem dual_to {n : Nat} {I : Nat → List Nat} {v w : Nat} (h : ReflTransGen (Common n I) v w) {c c' : Nat}
    (hc : c < n) (hc' : c' < n) (hv : v ∈ I c) (hw : w ∈ I c') : ReflTransGen (Share n I) c c' := by
  induction h generalizing c' with
  | refl => exact .single ⟨hc, hc', v, hv, hw⟩
  | tail _ h1 ih =>
      obtain ⟨d, hd, hb, hw'⟩ := h1
      exact (ih hd hb).tail ⟨hd, hc', _, hw', hw⟩

theorem dual_from {n : Nat} {I : Nat → List Nat} {c c' : Nat} (h : ReflTransGen (Share n I) c c') (hc : c < n)
    {v w : Nat} (hv : v ∈ I c) (hw : w ∈ I c') : ReflTransGen (Common n I) v w := by
  induction h generalizing w with
  | refl => exact .single ⟨c, hc, hv, hw⟩
  | tail _ h1 ih =>
      obtain ⟨_, hd, u, hu, hu'⟩ := h1
      exact (ih hu).tail ⟨_, hd, hu', hw⟩

theorem pairs_mem {l : List Nat} {p : Nat × Nat} (h : p ∈ pairs l) : p.1 ∈ l ∧ p.2 ∈ l := by
  induction l with
  | nil => simp [pairs] at h
  | cons a l ih =>
      cases l with
      | nil => simp [pairs] at h
      | cons b l =>
          simp only [pairs, List.mem_cons] at h
          rcases h with rfl | h
          · simp
          · have := ih h
            exact ⟨List.mem_cons_of_mem _ this.1, List.mem_cons_of_mem _ this.2⟩

theorem pairs_head {S : Nat → Nat → Prop} {a b : Nat} {l : List Nat}
    (h : ∀ p ∈ pairs (a :: l), S p.1 p.2) (hb : b ∈ a :: l) : ReflTransGen S a b := by
  induction l generalizing a with
  | nil =>
      simp at hb
      subst hb
      exact .refl
  | cons c l ih =>
      rcases List.mem_cons.1 hb with rfl | hb
      · exact .refl
      · exact .head (h (a, c) (by simp [pairs])) (ih (fun p hp => h p (by simp [pairs, hp])) hb)

theorem rtg_symm {S : Nat → Nat → Prop} (hS : ∀ a b, S a b → S b a) {a b : Nat} (h : ReflTransGen S a b) :
    ReflTransGen S b a := by
  induction h with
  | refl => exact .refl
  | tail _ h1 ih => exact .head (hS _ _ h1) ih

theorem pairs_joined {S : Nat → Nat → Prop} (hS : ∀ a b, S a b → S b a) {l : List Nat} (h : ∀ p ∈ pairs l, S p.1 p.2)
    {a b : Nat} (ha : a ∈ l) (hb : b ∈ l) : ReflTransGen S a b := by
  cases l with
  | nil => simp at ha
  | cons c l => exact (rtg_symm hS (pairs_head h ha)).trans (pairs_head h hb)

theorem pairs_node {l : List Nat} {a b : Nat} (ha : a ∈ l) (hb : b ∈ l) (hab : a ≠ b) :
    ∃ p ∈ pairs l, a = p.1 ∨ a = p.2 := by
  induction l generalizing b with
  | nil => simp at ha
  | cons c l ih =>
      cases l with
      | nil =>
          simp at ha hb
          omega
      | cons d l =>
          by_cases h1 : a = c
          · exact ⟨(c, d), by simp [pairs], Or.inl h1⟩
          · by_cases h2 : a = d
            · exact ⟨(c, d), by simp [pairs], Or.inr h2⟩
            · have ha' : a ∈ d :: l := by
                rcases List.mem_cons.1 ha with h | h
                · exact absurd h h1
                · exact h
              obtain ⟨p, hp, hq⟩ := ih ha' (b := d) (by simp) h2
              exact ⟨p, by simp [pairs, hp], hq⟩

theorem cellsJoined_one {n : Nat} {I : Nat → List Nat} :
    CellsJoined 1 n I ↔ 0 < n ∧ ∀ c c', c < n → c' < n → ReflTransGen (Share n I) c c' := by
  have : ∀ a b, (a < n ∧ b < n ∧ ∃ vs : List Nat, vs.Nodup ∧ vs.length = 1 ∧ ∀ v ∈ vs, v ∈ I a ∧ v ∈ I b) ↔
      Share n I a b := by
    intro a b
    refine and_congr_right fun _ => and_congr_right fun _ => ⟨?_, ?_⟩
    · rintro ⟨vs, _, hl, hv⟩
      obtain ⟨v, rfl⟩ := List.length_eq_one_iff.1 hl
      exact ⟨v, hv v (by simp)⟩
    · rintro ⟨v, h⟩
      exact ⟨[v], by simp, rfl, by simpa using h⟩
  unfold CellsJoined
  simp only [this]

theorem curve_iff {M : Mesh} (h : Curve M) : oneComponent (graphEdges M) ↔ CellsJoined 1 M.numCells M.c2v := by
  have hE : ∀ a b, (a, b) ∈ graphEdges M ↔ ∃ c, c < M.numCells ∧ M.c2v c = [a, b] := by
    intro a b
    rw [graphEdges, if_pos h.tdim, List.mem_filterMap]
    constructor
    · rintro ⟨c, hc, he⟩
      have hc := List.mem_range.1 hc
      obtain ⟨x, y, hxy⟩ := List.length_eq_two.1 (h.cells c hc)
      simp [hxy, cellEdge] at he
      exact ⟨c, hc, by rw [hxy, he.1, he.2]⟩
    · rintro ⟨c, hc, he⟩
      exact ⟨c, List.mem_range.2 hc, by simp [he, cellEdge]⟩
  have hnode : ∀ a, (∃ e ∈ graphEdges M, a = e.1 ∨ a = e.2) ↔ ∃ c, c < M.numCells ∧ a ∈ M.c2v c := by
    intro a
    constructor
    · rintro ⟨⟨x, y⟩, he, ha⟩
      obtain ⟨c, hc, hxy⟩ := (hE x y).1 he
      exact ⟨c, hc, by rw [hxy]; rcases ha with rfl | rfl <;> simp⟩
    · rintro ⟨c, hc, ha⟩
      obtain ⟨x, y, hxy⟩ := List.length_eq_two.1 (h.cells c hc)
      refine ⟨(x, y), (hE x y).2 ⟨c, hc, hxy⟩, ?_⟩
      rw [hxy] at ha
      simpa using ha
  have hto : ∀ a b, ((a, b) ∈ graphEdges M ∨ (b, a) ∈ graphEdges M) →
      ReflTransGen (Common M.numCells M.c2v) a b := by
    rintro a b (hab | hab)
    · obtain ⟨c, hc, he⟩ := (hE _ _).1 hab
      exact .single ⟨c, hc, by simp [he], by simp [he]⟩
    · obtain ⟨c, hc, he⟩ := (hE _ _).1 hab
      exact .single ⟨c, hc, by simp [he], by simp [he]⟩
  have hfrom : ∀ a b, Common M.numCells M.c2v a b →
      ReflTransGen (fun x y => (x, y) ∈ graphEdges M ∨ (y, x) ∈ graphEdges M) a b := by
    rintro a b ⟨c, hc, ha, hb⟩
    obtain ⟨x, y, hxy⟩ := List.length_eq_two.1 (h.cells c hc)
    have he := (hE x y).2 ⟨c, hc, hxy⟩
    rw [hxy] at ha hb
    simp at ha hb
    rcases ha with rfl | rfl <;> rcases hb with rfl | rfl
    · exact .refl
    · exact .single (Or.inl he)
    · exact .single (Or.inr he)
    · exact .refl
  rw [cellsJoined_one]
  constructor
  · rintro ⟨hne, hj⟩
    constructor
    · obtain ⟨⟨a, b⟩, he⟩ := List.exists_mem_of_ne_nil _ hne
      obtain ⟨c, hc, _⟩ := (hE a b).1 he
      omega
    · intro c c' hc hc'
      obtain ⟨x, y, hxy⟩ := List.length_eq_two.1 (h.cells c hc)
      obtain ⟨x', y', hxy'⟩ := List.length_eq_two.1 (h.cells c' hc')
      exact dual_to (rtg_of hto (hj x x' ((hnode x).2 ⟨c, hc, by simp [hxy]⟩) ((hnode x').2 ⟨c', hc', by simp [hxy']⟩)))
        hc hc' (by simp [hxy]) (by simp [hxy'])
  · rintro ⟨h0, hj⟩
    constructor
    · obtain ⟨x, y, hxy⟩ := List.length_eq_two.1 (h.cells 0 h0)
      exact List.ne_nil_of_mem ((hE x y).2 ⟨0, h0, hxy⟩)
    · intro a b ha hb
      obtain ⟨c, hc, ha⟩ := (hnode a).1 ha
      obtain ⟨c', hc', hb⟩ := (hnode b).1 hb
      exact rtg_of hfrom (dual_from (hj c c' hc hc') hc ha hb)

theorem surface_iff {M : Mesh} {n : Nat} {e2v : Nat → List Nat} (h : Surface M n e2v) :
    oneComponent (graphEdges M) ↔ CellsJoined 1 M.numCells M.c2v := by
  have hv : ∀ e v, e < n → v ∈ e2v e → v < M.numVertices := by
    intro e v he hm
    obtain ⟨c, hc, _, _, hs⟩ := h.edges e he
    exact (h.cells c hc).2.2 v (hs v hm)
  have hE : ∀ p : Nat × Nat, p ∈ graphEdges M ↔ ∃ v, v < M.numVertices ∧ p ∈ pairs ((M.v2e v).insertionSort (· ≤ ·)) := by
    intro p
    rw [graphEdges, if_neg (by rw [h.tdim]; decide), List.mem_flatMap]
    simp only [List.mem_range]
  -- nodes of the graph are the edges of the mesh
  have hnode : ∀ a, (∃ e ∈ graphEdges M, a = e.1 ∨ a = e.2) ↔ a < n := by
    intro a
    constructor
    · rintro ⟨p, hp, ha⟩
      obtain ⟨v, hvn, hp⟩ := (hE p).1 hp
      have := pairs_mem hp
      simp only [List.mem_insertionSort] at this
      rcases ha with rfl | rfl
      · exact ((h.incidence v _ hvn).1 this.1).1
      · exact ((h.incidence v _ hvn).1 this.2).1
    · intro ha
      obtain ⟨c, hc, hnd, hl, hs⟩ := h.edges a ha
      obtain ⟨x, y, hxy⟩ := List.length_eq_two.1 hl
      obtain ⟨hcn, hcl, hcv⟩ := h.cells c hc
      -- a third vertex of the triangle
      have hw : ∃ w ∈ M.c2v c, w ∉ e2v a := by
        by_contra hno
        push Not at hno
        have := (List.subperm_of_subset hcn hno).length_le
        omega
      obtain ⟨w, hw, hwa⟩ := hw
      have hxa : x ∈ e2v a := by simp [hxy]
      have hxw : x ≠ w := fun e => hwa (e ▸ hxa)
      obtain ⟨b, hb, hxb, hwb⟩ := h.sides c hc x (hs x hxa) w hw hxw
      have hab : a ≠ b := fun e => hwa (e ▸ hwb)
      have hxn := hv a x ha hxa
      obtain ⟨p, hp, hq⟩ := pairs_node (l := (M.v2e x).insertionSort (· ≤ ·)) (a := a) (b := b)
        (by simpa using (h.incidence x a hxn).2 ⟨ha, hxa⟩) (by simpa using (h.incidence x b hxn).2 ⟨hb, hxb⟩) hab
      exact ⟨p, (hE p).2 ⟨x, hxn, hp⟩, hq⟩
  have hto : ∀ a b, ((a, b) ∈ graphEdges M ∨ (b, a) ∈ graphEdges M) → ReflTransGen (Share n e2v) a b := by
    have key : ∀ p ∈ graphEdges M, p.1 < n ∧ p.2 < n ∧ ∃ v, v ∈ e2v p.1 ∧ v ∈ e2v p.2 := by
      intro p hp
      obtain ⟨v, hvn, hp⟩ := (hE p).1 hp
      have := pairs_mem hp
      simp only [List.mem_insertionSort] at this
      have h1 := (h.incidence v _ hvn).1 this.1
      have h2 := (h.incidence v _ hvn).1 this.2
      exact ⟨h1.1, h2.1, v, h1.2, h2.2⟩
    rintro a b (hab | hab)
    · exact .single (key _ hab)
    · obtain ⟨h1, h2, v, h3, h4⟩ := key _ hab
      exact .single ⟨h2, h1, v, h4, h3⟩
  have hfrom : ∀ a b, Share n e2v a b →
      ReflTransGen (fun x y => (x, y) ∈ graphEdges M ∨ (y, x) ∈ graphEdges M) a b := by
    rintro a b ⟨ha, hb, v, hva, hvb⟩
    have hvn := hv a v ha hva
    refine pairs_joined (l := (M.v2e v).insertionSort (· ≤ ·)) (fun x y hxy => hxy.symm) ?_
      (by simpa using (h.incidence v a hvn).2 ⟨ha, hva⟩) (by simpa using (h.incidence v b hvn).2 ⟨hb, hvb⟩)
    intro p hp
    exact Or.inl ((hE p).2 ⟨v, hvn, hp⟩)
  have hup : ∀ v w, Common n e2v v w → ReflTransGen (Common M.numCells M.c2v) v w := by
    rintro v w ⟨e, he, hve, hwe⟩
    obtain ⟨c, hc, _, _, hs⟩ := h.edges e he
    exact .single ⟨c, hc, hs v hve, hs w hwe⟩
  have hdown : ∀ v w, Common M.numCells M.c2v v w → ReflTransGen (Common n e2v) v w := by
    rintro v w ⟨c, hc, hvc, hwc⟩
    by_cases hvw : v = w
    · subst hvw
      exact .refl
    · obtain ⟨e, he, h1, h2⟩ := h.sides c hc v hvc w hwc hvw
      exact .single ⟨e, he, h1, h2⟩
  -- every cell has an edge
  have hcell : ∀ c, c < M.numCells → ∃ v e, v ∈ M.c2v c ∧ e < n ∧ v ∈ e2v e := by
    intro c hc
    obtain ⟨hcn, hcl, _⟩ := h.cells c hc
    obtain ⟨x, y, z, hxyz⟩ := List.length_eq_three.1 hcl
    rw [hxyz] at hcn
    simp at hcn
    obtain ⟨e, he, h1, _⟩ := h.sides c hc x (by simp [hxyz]) y (by simp [hxyz]) (by tauto)
    exact ⟨x, e, by simp [hxyz], he, h1⟩
  rw [cellsJoined_one]
  constructor
  · rintro ⟨hne, hj⟩
    constructor
    · obtain ⟨p, hp⟩ := List.exists_mem_of_ne_nil _ hne
      obtain ⟨c, hc, _⟩ := h.edges p.1 ((hnode p.1).1 ⟨p, hp, Or.inl rfl⟩)
      omega
    · intro c c' hc hc'
      obtain ⟨v, e, hvc, he, hve⟩ := hcell c hc
      obtain ⟨w, e', hwc, he', hwe⟩ := hcell c' hc'
      have h1 := rtg_of hto (hj e e' ((hnode e).2 he) ((hnode e').2 he'))
      exact dual_to (rtg_of hup (dual_from h1 he hve hwe)) hc hc' hvc hwc
  · rintro ⟨h0, hj⟩
    constructor
    · obtain ⟨v, e, _, he, _⟩ := hcell 0 h0
      obtain ⟨p, hp, _⟩ := (hnode e).2 he
      exact List.ne_nil_of_mem hp
    · intro a b ha hb
      have ha := (hnode a).1 ha
      have hb := (hnode b).1 hb
      obtain ⟨c, hc, _, hl, hs⟩ := h.edges a ha
      obtain ⟨c', hc', _, hl', hs'⟩ := h.edges b hb
      obtain ⟨x, y, hxy⟩ := List.length_eq_two.1 hl
      obtain ⟨x', y', hxy'⟩ := List.length_eq_two.1 hl'
      have h1 := dual_from (hj c c' hc hc') hc (hs x (by simp [hxy])) (hs' x' (by simp [hxy']))
      exact rtg_of hfrom (dual_to (rtg_of hdown h1) ha hb (by simp [hxy]) (by simp [hxy']))

theorem isContinuous_ok {M : Mesh} (hg : M.tdim < M.gdim) :
    ∃ r, isContinuous M = .ok r ∧ (r = true ↔ oneComponent (graphEdges M)) := by
  unfold isContinuous
  simp only [hg, decide_true, pyAssert_true, py_bind_ok]
  exact ⟨_, rfl, @decide_eq_true_iff _ (Classical.propDecidable _)⟩

end Verif.Continuous
