import Verif.Lemmas.Embedded2
import Mathlib.Data.List.Sections
/-! A decidable check of `Topo.Simplicial` and `IsEmbedding`, for concrete meshes. -/
namespace Verif.Embedded
open Verif

/-- A mesh by lists. -/
def Topo.ofLists (c2v e2v c2e e2c : List (List Nat)) : Topo :=
  ⟨c2v.length, e2v.length, fun c => c2v.getD c [], fun e => e2v.getD e [], fun c => c2e.getD c [],
    fun e => e2c.getD e []⟩

def Topo.check (T : Topo) (k : Nat) : Bool :=
  ((List.range T.numEntities).all fun e => decide (T.e2v e).Nodup && decide ((T.e2v e).length = k + 1)) &&
  ((List.range T.numEntities).all fun e => (List.range T.numEntities).all fun e' =>
    !setEq (T.e2v e) (T.e2v e') || decide (e = e')) &&
  ((List.range T.numCells).all fun c => (List.sections (List.replicate (k + 1) (T.c2v c))).all fun l =>
    !decide l.Nodup || (List.range T.numEntities).any fun e => setEq (T.e2v e) l) &&
  ((List.range T.numCells).all fun c => decide (T.c2e c).Nodup &&
    setEq (T.c2e c) ((List.range T.numEntities).filter fun e => (T.e2v e).all fun v => decide (v ∈ T.c2v c))) &&
  ((List.range T.numEntities).all fun e =>
    setEq (T.e2c e) ((List.range T.numCells).filter fun c => (T.e2v e).all fun v => decide (v ∈ T.c2v c)))

theorem forall₂_replicate {l m : List Nat} : ∀ {n : Nat}, l.length = n → (∀ v ∈ l, v ∈ m) →
    List.Forall₂ (· ∈ ·) l (List.replicate n m) := by
  induction l with
  | nil => intro n h _; simp at h; subst h; exact .nil
  | cons a l ih =>
      intro n h hm
      match n, h with
      | n + 1, h =>
        exact .cons (hm a (by simp)) (ih (by simpa using h) (fun v hv => hm v (by simp [hv])))

theorem Topo.simplicial_of_check {T : Topo} {k : Nat} (h : T.check k = true) : T.Simplicial k := by
  unfold Topo.check at h
  simp only [Bool.and_eq_true, List.all_eq_true, List.mem_range, decide_eq_true_eq, Bool.or_eq_true,
    Bool.not_eq_true', decide_eq_false_iff_not] at h
  obtain ⟨⟨⟨⟨h1, h2⟩, h3⟩, h4⟩, h5⟩ := h
  refine ⟨h1, ?_, ?_, ?_, ?_⟩
  · intro e he e' he' hs
    rcases h2 e he e' he' with h | h
    · rw [setEq_iff.2 hs] at h; simp at h
    · exact h
  · intro c hc l hn hl hm
    rcases h3 c hc l (List.mem_sections.2 (forall₂_replicate hl hm)) with h | h
    · exact absurd hn h
    · obtain ⟨e, he, hs⟩ := List.any_eq_true.1 h
      exact ⟨e, List.mem_range.1 he, setEq_iff.1 hs⟩
  · intro c hc
    refine ⟨(h4 c hc).1, fun e => ?_⟩
    rw [setEq_iff.1 (h4 c hc).2]
    simp [List.mem_filter]
  · intro e he c
    rw [setEq_iff.1 (h5 e he)]
    simp [List.mem_filter]

def embeddingCheck (parent child : Topo) (vmap cmap : List Nat) : Bool :=
  decide vmap.Nodup && decide cmap.Nodup && decide (cmap.length = child.numCells) &&
  (cmap.all fun c => decide (c < parent.numCells)) &&
  ((List.range child.numCells).all fun c => (child.c2v c).all fun v => decide (v < vmap.length)) &&
  ((List.range cmap.length).all fun c =>
    setEq (parent.c2v (cmap.getD c 0)) ((child.c2v c).filterMap fun v => vmap[v]?)) &&
  ((List.range child.numEntities).all fun e => decide (child.e2c e ≠ []))

theorem embedding_of_check {parent child : Topo} {vmap cmap : List Nat}
    (h : embeddingCheck parent child vmap cmap = true) : IsEmbedding parent child vmap cmap := by
  unfold embeddingCheck at h
  simp only [Bool.and_eq_true, List.all_eq_true, List.mem_range, decide_eq_true_eq] at h
  obtain ⟨⟨⟨⟨⟨⟨h1, h2⟩, h3⟩, h4⟩, h5⟩, h6⟩, h7⟩ := h
  refine ⟨h1, h2, h3, h4, h5, ?_, h7⟩
  intro c pc hc w
  have hlt := (List.getElem?_eq_some_iff.1 hc).1
  have := setEq_iff.1 (h6 c hlt) w
  rw [List.getD_eq_getElem?_getD, hc] at this
  rw [show parent.c2v pc = parent.c2v ((some pc).getD 0) from rfl, this, List.mem_filterMap]

/-- The two triangles 0-1-2 and 1-2-3. -/
def twoTriangles : Topo := .ofLists [[0, 1, 2], [1, 2, 3]] [[0, 1], [0, 2], [1, 2], [1, 3], [2, 3]]
  [[2, 1, 0], [4, 3, 2]] [[0], [0], [0, 1], [1], [1]]
/-- The second triangle. -/
def oneTriangle : Topo := .ofLists [[0, 1, 2]] [[0, 1], [0, 2], [1, 2]] [[2, 1, 0]] [[0], [0], [0]]

end Verif.Embedded
