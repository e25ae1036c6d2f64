import Verif.Lemmas.DualConform
import Verif.Props.Dual
/-!
# C57 Dual meshes of conforming meshes are conforming
-/
namespace Verif.Dual
open Verif Verif.BlockOps
variable {K E : Type} [Field K] [LinearOrder K] [IsStrictOrderedRing K] [AddCommGroup E] [Module K E]
variable {topo : TMesh E → Topo} {order : List Nat → List Nat} {center : List E → Py E}

/-- Neighbouring cells match: if the mesh is conforming and all centres are in the interior of their cells, then the dual mesh is
    conforming. -/
theorem dual_once_conforming {M M' : TMesh E} {vmap : List (Nat × Nat)} {cmap : List Nat} {nrefs : Nat} (hn : nrefs ≤ 1)
    (hM : M.OK) (hT : TopoOK M (topo M)) (hS : SharedFacets (topo M)) (ho : ∀ l, (order l).Perm l)
    (hc : ∀ k a b c z, M.At k a b c → center [a, b, c] = .ok z → Inside K z a b c) (hC : Conforming K M)
    (h : dualMesh K topo order center 2 nrefs M = .ok (M', vmap, cmap)) : Conforming K M' := by
  unfold dualMesh at h
  rw [if_pos rfl, py_bind_ok] at h
  obtain ⟨⟨M0, vmap0, cmap0⟩, h1, h⟩ := py_bind_eq_ok.1 h
  dsimp only at h
  have hz : nrefs - 1 = 0 := by omega
  rw [hz] at h
  simp only [dualLoop, py_bind_ok] at h
  injection h with h
  rw [Prod.mk.injEq, Prod.mk.injEq] at h
  obtain ⟨rfl, rfl, rfl⟩ := h
  exact made_conforming hT hM hS ho hc (dualTriangle_ok h1).2 hC

theorem centroid_inside (a b c z : E) (h : centroid K [a, b, c] = .ok z) : Inside K z a b c := by
  unfold centroid at h
  injection h with h
  refine ⟨1 / 3, 1 / 3, 1 / 3, by positivity, by positivity, by positivity, by norm_num, ?_⟩
  rw [← h, smul_add, smul_add]

theorem dualLoop_conforming (hT : ∀ M : TMesh E, M.OK → TopoOK M (topo M)) (hS : ∀ M : TMesh E, M.OK → SharedFacets (topo M))
    (ho : ∀ l, (order l).Perm l) {M : TMesh E} (n : Nat) {M0 M1 : TMesh E} {refs cmap0 refs1 cmap1 : List Nat}
    (hI : Inv K M M0 refs cmap0) (hC : Conforming K M0)
    (h : dualLoop K topo order (centroid K) (List.range M.verts.length) n M0 refs cmap0 = .ok (M1, refs1, cmap1)) :
    Conforming K M1 := by
  induction n generalizing M0 refs cmap0 with
  | zero =>
      injection h with h
      rw [Prod.mk.injEq, Prod.mk.injEq] at h
      obtain ⟨rfl, rfl, rfl⟩ := h
      exact hC
  | succ n ih =>
      unfold dualLoop at h
      obtain ⟨⟨M2, refs2, cmap2⟩, h1, h⟩ := py_bind_eq_ok.1 h
      dsimp only at h
      obtain ⟨hI2, c, hm, hcm⟩ := dualStep_ok hT ho centroid_in hI h1
      exact ih hI2 (made_conforming (hT M0 hI.ok) hI.ok (hS M0 hI.ok) ho
        (fun _ a b c z _ hz => centroid_inside a b c z hz) hm hC) h

/-- The same for any number of refinements with centroids. -/
theorem dual_refined_conforming {M M' : TMesh E} {vmap : List (Nat × Nat)} {cmap : List Nat} (hM : M.OK)
    (hT : ∀ M : TMesh E, M.OK → TopoOK M (topo M)) (hS : ∀ M : TMesh E, M.OK → SharedFacets (topo M))
    (ho : ∀ l, (order l).Perm l) (nrefs : Nat) (hC : Conforming K M)
    (h : dualMesh K topo order (centroid K) 2 nrefs M = .ok (M', vmap, cmap)) : Conforming K M' := by
  unfold dualMesh at h
  rw [if_pos rfl, py_bind_ok] at h
  obtain ⟨⟨M0, vmap0, cmap0⟩, h1, h⟩ := py_bind_eq_ok.1 h
  dsimp only at h
  obtain ⟨⟨M1, refs1, cmap1⟩, h2, h⟩ := py_bind_eq_ok.1 h
  injection h with h
  rw [Prod.mk.injEq, Prod.mk.injEq] at h
  obtain ⟨rfl, rfl, rfl⟩ := h
  obtain ⟨rfl, hm⟩ := dualTriangle_ok h1
  have hI : Inv K M M0 (List.range M.verts.length) cmap0 :=
    ⟨made_ok (hT M hM) hM ho hm, made_subdivides (hT M hM) hM ho (fun k a b c z _ => centroid_in a b c z) hm, rfl⟩
  rw [List.length_range] at h2
  exact dualLoop_conforming hT hS ho (nrefs - 1) hI (made_conforming (hT M hM) hM (hS M hM) ho
    (fun _ a b c z _ hz => centroid_inside a b c z hz) hm hC) h2

/-! ## A connectivity with shared facets -/

/-- The edges of a cell, smaller vertex first. -/
def cellEdges : List Nat → List (Nat × Nat)
  | [a, b, c] => [(min b c, max b c), (min a c, max a c), (min a b, max a b)]
  | _ => []

/-- All edges, each listed once. -/
def allEdges {E : Type} (M : TMesh E) : List (Nat × Nat) := (M.cells.flatMap cellEdges).dedup

def edgeTopo {E : Type} (M : TMesh E) : Topo where
  nf := (allEdges M).length
  c2f k := (cellEdges (M.cells.getD k [])).map (fun e => (allEdges M).idxOf e)
  f2v f := match (allEdges M)[f]? with
    | some e => [e.1, e.2]
    | none => []

theorem pair_minmax (a b : Nat) : ({min a b, max a b} : Finset Nat) = {a, b} := by
  rcases Nat.le_total a b with h | h
  · rw [Nat.min_eq_left h, Nat.max_eq_right h]
  · rw [Nat.min_eq_right h, Nat.max_eq_left h, Finset.pair_comm]

theorem edgeTopo_f2v {E : Type} (M : TMesh E) {e : Nat × Nat} (he : e ∈ allEdges M) :
    (allEdges M).idxOf e < (edgeTopo M).nf ∧ (edgeTopo M).f2v ((allEdges M).idxOf e) = [e.1, e.2] := by
  have hl := List.idxOf_lt_length_of_mem he
  refine ⟨hl, ?_⟩
  simp only [edgeTopo, List.getElem?_eq_getElem hl, List.getElem_idxOf hl]

theorem edgeTopo_ok {E : Type} (M : TMesh E) : TopoOK M (edgeTopo M) := by
  intro k a b c hk
  have hmem : ∀ e ∈ cellEdges [a, b, c], e ∈ allEdges M := fun e he =>
    List.mem_dedup.2 (List.mem_flatMap.2 ⟨_, List.mem_of_getElem? hk, he⟩)
  have hc : (edgeTopo M).c2f k = (cellEdges [a, b, c]).map (fun e => (allEdges M).idxOf e) := by
    simp only [edgeTopo, List.getD_eq_getElem?_getD, hk, Option.getD_some]
  constructor
  · rw [hc, List.map_map]
    have : (cellEdges [a, b, c]).map ((fun f => ((edgeTopo M).f2v f).toFinset) ∘ fun e => (allEdges M).idxOf e) =
        (cellEdges [a, b, c]).map (fun e => ({e.1, e.2} : Finset Nat)) := by
      apply List.map_congr_left
      intro e he
      simp only [Function.comp, (edgeTopo_f2v M (hmem e he)).2]
      simp
    rw [this]
    simp only [cellEdges, List.map_cons, List.map_nil, pair_minmax]
    exact List.Perm.refl _
  · intro f hf
    rw [hc] at hf
    obtain ⟨e, he, rfl⟩ := List.mem_map.1 hf
    obtain ⟨h1, h2⟩ := edgeTopo_f2v M (hmem e he)
    exact ⟨h1, by rw [h2]; rfl⟩

theorem edge_le {E : Type} (M : TMesh E) {e : Nat × Nat} (he : e ∈ allEdges M) :
    e.1 ≤ e.2 ∧ ∃ cell ∈ M.cells, e.1 ∈ cell ∧ e.2 ∈ cell := by
  obtain ⟨cell, hc, he⟩ := List.mem_flatMap.1 (List.mem_dedup.1 he)
  unfold cellEdges at he
  split at he
  · next a b c =>
    simp only [List.mem_cons, List.not_mem_nil, or_false] at he
    rcases he with rfl | rfl | rfl
    all_goals
      refine ⟨by simp only; omega, _, hc, ?_, ?_⟩
      · simp only [List.mem_cons, List.not_mem_nil, or_false]; omega
      · simp only [List.mem_cons, List.not_mem_nil, or_false]; omega
  · simp at he

theorem edgeTopo_shared {E : Type} (M : TMesh E) : SharedFacets (edgeTopo M) := by
  intro f g hf hg hp
  change f < (allEdges M).length at hf
  change g < (allEdges M).length at hg
  simp only [edgeTopo, List.getElem?_eq_getElem hf, List.getElem?_eq_getElem hg] at hp
  have h1 := (edge_le M (List.getElem_mem hf)).1
  have h2 := (edge_le M (List.getElem_mem hg)).1
  have m1 : (allEdges M)[f].1 ∈ [(allEdges M)[g].1, (allEdges M)[g].2] := hp.mem_iff.1 (by simp)
  have m2 : (allEdges M)[f].2 ∈ [(allEdges M)[g].1, (allEdges M)[g].2] := hp.mem_iff.1 (by simp)
  have m3 : (allEdges M)[g].1 ∈ [(allEdges M)[f].1, (allEdges M)[f].2] := hp.mem_iff.2 (by simp)
  have m4 : (allEdges M)[g].2 ∈ [(allEdges M)[f].1, (allEdges M)[f].2] := hp.mem_iff.2 (by simp)
  simp only [List.mem_cons, List.not_mem_nil, or_false] at m1 m2 m3 m4
  have e : (allEdges M)[f] = (allEdges M)[g] := Prod.ext (by omega) (by omega)
  exact (List.Nodup.getElem_inj_iff (List.nodup_dedup _)).1 e

theorem edgeTopo_facets {E : Type} (M : TMesh E) (hM : M.OK) : FacetsOK M (edgeTopo M) := by
  intro f hf
  change f < (allEdges M).length at hf
  obtain ⟨_, cell, hc, h1, h2⟩ := edge_le M (List.getElem_mem hf)
  obtain ⟨a, b, c, rfl, _, _, _, ha, hb, hcl⟩ := hM.2 cell hc
  refine ⟨(allEdges M)[f].1, (allEdges M)[f].2, ?_, ?_, ?_⟩
  · simp only [edgeTopo, List.getElem?_eq_getElem hf]
  · simp only [List.mem_cons, List.not_mem_nil, or_false] at h1
    omega
  · simp only [List.mem_cons, List.not_mem_nil, or_false] at h2
    omega

theorem square_coords {k : Nat} {p : ℚ × ℚ} {w : Nat → ℚ} (h : square.Coords k p w) :
    (∀ n, 0 ≤ w n) ∧ (∀ n, 4 ≤ n → w n = 0) ∧ w 0 + w 1 + w 2 + w 3 = 1 ∧ p = (w 1 + w 2, w 2 + w 3) ∧
      ((k = 0 ∧ w 3 = 0) ∨ (k = 1 ∧ w 1 = 0)) := by
  obtain ⟨i, j, l, a, b, c, h1, h2, h3, h4, h5, h6, h7, h8⟩ := h
  have hk : k = 0 ∨ k = 1 := by
    have := (List.getElem?_eq_some_iff.1 h1).1
    change k < 2 at this
    omega
  rcases hk with rfl | rfl
  · simp only [square, List.getElem?_cons_zero, Option.some.injEq, List.cons.injEq, and_true] at h1
    obtain ⟨rfl, rfl, rfl⟩ := h1
    simp only [square, List.getElem?_cons_zero, List.getElem?_cons_succ, Option.some.injEq] at h2 h3 h4
    subst h2 h3 h4
    have h9 := h6 3 (by decide) (by decide) (by decide)
    refine ⟨h5, fun n hn => h6 n (by omega) (by omega) (by omega), by rw [h9, h7]; norm_num, ?_, .inl ⟨rfl, h9⟩⟩
    rw [h8, h9]
    simp
  · simp only [square, List.getElem?_cons_zero, List.getElem?_cons_succ, Option.some.injEq, List.cons.injEq, and_true] at h1
    obtain ⟨rfl, rfl, rfl⟩ := h1
    simp only [square, List.getElem?_cons_zero, List.getElem?_cons_succ, Option.some.injEq] at h2 h3 h4
    subst h2 h3 h4
    have h9 := h6 1 (by decide) (by decide) (by decide)
    refine ⟨h5, fun n hn => h6 n (by omega) (by omega) (by omega), by rw [h9, ← h7]; ring, ?_, .inr ⟨rfl, h9⟩⟩
    rw [h8, h9]
    simp

theorem square_conforming : Conforming ℚ square := by
  refine Inj.conforming square_ok ?_ ?_
  · intro k k' p w w' h h'
    obtain ⟨h0, h1, h2, h3, h4⟩ := square_coords h
    obtain ⟨h0', h1', h2', h3', h4'⟩ := square_coords h'
    rw [h3] at h3'
    simp only [Prod.mk.injEq] at h3'
    obtain ⟨e1, e2⟩ := h3'
    have p1 := h0 1
    have p3 := h0 3
    have p1' := h0' 1
    have p3' := h0' 3
    have key : w 0 = w' 0 ∧ w 1 = w' 1 ∧ w 2 = w' 2 ∧ w 3 = w' 3 := by
      rcases h4 with ⟨_, h4⟩ | ⟨_, h4⟩ <;> rcases h4' with ⟨_, h4'⟩ | ⟨_, h4'⟩ <;>
        refine ⟨by linarith, by linarith, by linarith, by linarith⟩
    funext n
    match n with
    | 0 => exact key.1
    | 1 => exact key.2.1
    | 2 => exact key.2.2.1
    | 3 => exact key.2.2.2
    | n + 4 => rw [h1 _ (by omega), h1' _ (by omega)]
  · intro k k' c c' h h' hp
    have hl := (List.getElem?_eq_some_iff.1 h).1
    have hl' := (List.getElem?_eq_some_iff.1 h').1
    change k < 2 at hl
    change k' < 2 at hl'
    interval_cases k <;> interval_cases k' <;> simp [square] at h h' <;> subst h h' <;> first | rfl | (exact absurd hp (by decide))

/-- An acute triangle. -/
def acute : TMesh (ℚ × ℚ) := ⟨[(0, 0), (4, 0), (2, 4)], [[0, 1, 2]]⟩

theorem acute_ok : acute.OK := by
  refine ⟨by decide, ?_⟩
  intro cell hc
  simp only [acute, List.mem_singleton] at hc
  subst hc
  exact ⟨0, 1, 2, rfl, by decide, by decide, by decide, by decide, by decide, by decide⟩

theorem acute_conforming : Conforming ℚ acute := by
  have hk : ∀ {k : Nat} {c : List Nat}, acute.cells[k]? = some c → k = 0 := by
    intro k c h
    have := (List.getElem?_eq_some_iff.1 h).1
    simpa [acute] using this
  refine Inj.conforming acute_ok ?_ (fun k k' c c' h h' _ => by rw [hk h, hk h'])
  have hw : ∀ {k : Nat} {p : ℚ × ℚ} {w : Nat → ℚ}, acute.Coords k p w →
      (∀ n, 3 ≤ n → w n = 0) ∧ w 0 + w 1 + w 2 = 1 ∧ p = (4 * w 1 + 2 * w 2, 4 * w 2) := by
    rintro k p w ⟨i, j, l, a, b, c, h1, h2, h3, h4, h5, h6, h7, h8⟩
    obtain rfl := hk h1
    simp only [acute, List.getElem?_cons_zero, Option.some.injEq, List.cons.injEq, and_true] at h1
    obtain ⟨rfl, rfl, rfl⟩ := h1
    simp only [acute, List.getElem?_cons_zero, List.getElem?_cons_succ, Option.some.injEq] at h2 h3 h4
    subst h2 h3 h4
    refine ⟨fun n hn => h6 n (by omega) (by omega) (by omega), h7, ?_⟩
    rw [h8]
    simp [mul_comm]
  intro k k' p w w' h h'
  obtain ⟨h1, h2, h3⟩ := hw h
  obtain ⟨h1', h2', h3'⟩ := hw h'
  rw [h3] at h3'
  simp only [Prod.mk.injEq] at h3'
  funext n
  match n with
  | 0 => linarith [h3'.1, h3'.2]
  | 1 => linarith [h3'.1, h3'.2]
  | 2 => linarith [h3'.1, h3'.2]
  | n + 3 => rw [h1 _ (by omega), h1' _ (by omega)]

/-- `dual_once_conforming` with circumcentres. -/
example : ∃ M' vmap cmap, dualMesh ℚ edgeTopo id circum 2 1 acute = .ok (M', vmap, cmap) ∧ Conforming ℚ M' := by
  have h : ∃ r, dualMesh ℚ edgeTopo id circum 2 1 acute = .ok r := by
    refine ⟨(⟨[(0, 0), (4, 0), (2, 4), (2, 3 / 2), (3, 2), (1, 2), (2, 0)],
      [[3, 4, 1], [3, 4, 2], [3, 5, 0], [3, 5, 2], [3, 6, 0], [3, 6, 1]]⟩, [(0, 0), (1, 1), (2, 2)], [0, 0, 0, 0, 0, 0]), ?_⟩
    decide +kernel
  obtain ⟨⟨M', vmap, cmap⟩, h⟩ := h
  refine ⟨M', vmap, cmap, h, dual_once_conforming (by decide) acute_ok (edgeTopo_ok _) (edgeTopo_shared _)
    (fun l => List.Perm.refl l) ?_ acute_conforming h⟩
  rintro k a b c z ⟨i, j, l, h1, h2, h3, h4⟩ hz
  have hk : k = 0 := by
    have := (List.getElem?_eq_some_iff.1 h1).1
    simpa [acute] using this
  subst hk
  simp only [acute, List.getElem?_cons_zero, Option.some.injEq, List.cons.injEq, and_true] at h1
  obtain ⟨rfl, rfl, rfl⟩ := h1
  simp only [acute, List.getElem?_cons_zero, List.getElem?_cons_succ, Option.some.injEq] at h2 h3 h4
  subst h2 h3 h4
  have e : circum [((0 : ℚ), (0 : ℚ)), (4, 0), (2, 4)] = .ok (2, 3 / 2) := by decide +kernel
  rw [e] at hz
  injection hz with hz
  subst hz
  exact ⟨5 / 16, 5 / 16, 3 / 8, by norm_num, by norm_num, by norm_num, by norm_num, by norm_num⟩

/-- The square after three refinements. -/
example : ∃ M' vmap cmap, dualMesh ℚ edgeTopo id (centroid ℚ) 2 3 square = .ok (M', vmap, cmap) ∧ Conforming ℚ M' := by
  obtain ⟨M', cmap, h, _⟩ := dual_refined (K := ℚ) (topo := edgeTopo) (order := id) square_ok (fun M _ => edgeTopo_ok M)
    (fun M hM => edgeTopo_facets M hM) (fun l => List.Perm.refl l) 3
  exact ⟨M', _, cmap, h, dual_refined_conforming square_ok (fun M _ => edgeTopo_ok M) (fun M _ => edgeTopo_shared M)
    (fun l => List.Perm.refl l) 3 square_conforming h⟩

end Verif.Dual
