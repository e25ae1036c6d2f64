import Verif.Spec.RefineConform
import Verif.Lemmas.Refine2
import Mathlib.Tactic.Linarith
import Mathlib.Tactic.Module
import Mathlib.Data.List.Perm.Subperm
import Mathlib.Algebra.BigOperators.Group.List.Basic
import Mathlib.Algebra.BigOperators.Ring.List
/-!
# Refined meshes are conforming
-/
namespace Verif.Refine
open Verif Verif.BlockOps
variable {K E : Type} [Field K] [LinearOrder K] [IsStrictOrderedRing K] [AddCommGroup E] [Module K E]

/-! ## Coordinates -/

omit [LinearOrder K] [IsStrictOrderedRing K] in
theorem comb_map {x : List E} (w : Nat → K) {cell : List Nat} {l : List E}
    (h : List.Forall₂ (fun (v : Nat) p => x[v]? = some p) cell l) :
    comb K (cell.map w) l = (cell.map (fun v => w v • x.getD v 0)).sum := by
  induction h with
  | nil => rfl
  | cons h _ ih =>
      simp only [comb, List.map_cons, List.zipWith_cons_cons, List.sum_cons] at ih ⊢
      rw [ih, List.getD_eq_getElem?_getD, h]
      rfl

theorem forall₂_points {x : List E} {cell : List Nat} (h : ∀ v ∈ cell, v < x.length) :
    ∃ l, List.Forall₂ (fun (v : Nat) p => x[v]? = some p) cell l := by
  induction cell with
  | nil => exact ⟨[], .nil⟩
  | cons a cell ih =>
      obtain ⟨l, hl⟩ := ih (fun v hv => h v (List.mem_cons_of_mem _ hv))
      exact ⟨x[a]'(h a List.mem_cons_self) :: l, .cons (List.getElem?_eq_getElem _) hl⟩

theorem forall₂_lt {x : List E} {cell : List Nat} {l : List E}
    (h : List.Forall₂ (fun (v : Nat) p => x[v]? = some p) cell l) : ∀ v ∈ cell, v < x.length := by
  induction h with
  | nil => simp
  | cons h _ ih =>
      intro v hv
      rcases List.mem_cons.1 hv with rfl | hv
      · exact (List.getElem?_eq_some_iff.1 h).1
      · exact ih v hv

omit [IsStrictOrderedRing K] in
theorem Coords_iff {M : RMesh E} {c : Nat} {p : E} {w : Nat → K} {cell : List Nat} (hc : M.cells[c]? = some cell)
    (hv : ∀ v ∈ cell, v < M.coords.length) : M.Coords c p w ↔
      (∀ v, 0 ≤ w v) ∧ (∀ v, v ∉ cell → w v = 0) ∧ (cell.map w).sum = 1 ∧
      (cell.map (fun v => w v • M.coords.getD v 0)).sum = p := by
  constructor
  · rintro ⟨cell', l, h1, h2, h3, h4, h5, h6⟩
    rw [hc] at h1
    injection h1 with h1
    subst h1
    exact ⟨h3, h4, h5, by rw [← comb_map w h2]; exact h6⟩
  · rintro ⟨h3, h4, h5, h6⟩
    obtain ⟨l, hl⟩ := forall₂_points hv
    exact ⟨cell, l, hc, hl, h3, h4, h5, by rw [comb_map w hl]; exact h6⟩

omit [LinearOrder K] [IsStrictOrderedRing K] in
theorem exists_weights {cell : List Nat} (hn : cell.Nodup) : ∀ {ws : List K}, ws.length = cell.length →
    ∃ w : Nat → K, cell.map w = ws ∧ ∀ v, v ∉ cell → w v = 0 := by
  induction cell with
  | nil =>
      intro ws h
      exact ⟨fun _ => 0, by rw [List.length_eq_zero_iff.1 h]; rfl, fun _ _ => rfl⟩
  | cons a cell ih =>
      intro ws h
      match ws, h with
      | b :: ws, h =>
          rw [List.nodup_cons] at hn
          obtain ⟨w, h1, h2⟩ := ih hn.2 (ws := ws) (by simpa using h)
          refine ⟨fun v => if v = a then b else w v, ?_, ?_⟩
          · rw [List.map_cons, if_pos rfl, ← h1]
            congr 1
            apply List.map_congr_left
            intro v hv
            have hne : v ≠ a := fun e => hn.1 (e ▸ hv)
            exact (if_neg hne).symm ▸ rfl
          · intro v hv
            rw [List.mem_cons, not_or] at hv
            exact (if_neg hv.1).trans (h2 v hv.2)

omit [IsStrictOrderedRing K] in
theorem hull_coords {M : RMesh E} {c : Nat} {l : List E} {p : E} (hn : ∀ cell ∈ M.cells, cell.Nodup) (hl : IsCell M c l)
    (h : Hull K l p) : ∃ w : Nat → K, M.Coords c p w := by
  obtain ⟨cell, hc, hf⟩ := hl
  obtain ⟨ws, h1, h2, h3, h4⟩ := h
  obtain ⟨w, hw, h0⟩ := exists_weights (hn cell (List.mem_of_getElem? hc)) (ws := ws) (by rw [h1, hf.length_eq])
  refine ⟨w, cell, l, hc, hf, ?_, h0, by rw [hw]; exact h3, by rw [hw]; exact h4⟩
  intro v
  by_cases hv : v ∈ cell
  · exact h2 _ (by rw [← hw]; exact List.mem_map_of_mem hv)
  · rw [h0 v hv]

omit [IsStrictOrderedRing K] in
theorem coords_hull {M : RMesh E} {c : Nat} {p : E} {w : Nat → K} (h : M.Coords c p w) : ∃ l, IsCell M c l ∧ Hull K l p := by
  obtain ⟨cell, l, h1, h2, h3, h4, h5, h6⟩ := h
  refine ⟨l, ⟨cell, h1, h2⟩, cell.map w, by rw [List.length_map, h2.length_eq], ?_, h5, h6⟩
  intro a ha
  obtain ⟨v, -, rfl⟩ := List.mem_map.1 ha
  exact h3 v

/-- A point has one set of coordinates. -/
def Inj (K : Type) [Field K] [LinearOrder K] {E : Type} [AddCommGroup E] [Module K E] (M : RMesh E) : Prop :=
  ∀ c c' p (w w' : Nat → K), M.Coords c p w → M.Coords c' p w' → w = w'

omit [IsStrictOrderedRing K] in
theorem Conforming.inj {M : RMesh E} (h : M.Conforming K) : Inj K M := by
  intro c c' p w w' hw hw'
  obtain ⟨l, hl, hp⟩ := coords_hull hw
  obtain ⟨l', hl', hp'⟩ := coords_hull hw'
  obtain ⟨u, h1, h2⟩ := h.meet c c' l l' p hl hl' hp hp'
  rw [h.simplex c p w u hw h1, h.simplex c' p w' u hw' h2]

omit [IsStrictOrderedRing K] in
theorem Inj.conforming {M : RMesh E} (h : Inj K M) (hn : ∀ cell ∈ M.cells, cell.Nodup)
    (hd : ∀ (c c' : Nat) cell cell', M.cells[c]? = some cell → M.cells[c']? = some cell' → cell.Perm cell' → c = c') :
    M.Conforming K := by
  refine ⟨hn, fun c p w w' => h c c p w w', ?_, hd⟩
  intro c c' l l' p hl hl' hp hp'
  obtain ⟨w, hw⟩ := hull_coords hn hl hp
  obtain ⟨w', hw'⟩ := hull_coords hn hl' hp'
  have := h c c' p w w' hw hw'
  subst this
  exact ⟨w, hw, hw'⟩

/-- Coordinates inside. -/
def Center (M : RMesh E) (c : Nat) (p : E) (w : Nat → K) : Prop :=
  M.Coords c p w ∧ ∀ cell, M.cells[c]? = some cell → ∀ v ∈ cell, 0 < w v

omit [IsStrictOrderedRing K] in
theorem openHull_center {M : RMesh E} {c : Nat} {l : List E} {p : E} (hn : ∀ cell ∈ M.cells, cell.Nodup) (hl : IsCell M c l)
    (h : OpenHull K l p) : ∃ w : Nat → K, Center M c p w := by
  obtain ⟨cell, hc, hf⟩ := hl
  obtain ⟨ws, h1, h2, h3, h4⟩ := h
  obtain ⟨w, hw, h0⟩ := exists_weights (hn cell (List.mem_of_getElem? hc)) (ws := ws) (by rw [h1, hf.length_eq])
  have hpos : ∀ v ∈ cell, 0 < w v := fun v hv => h2 _ (by rw [← hw]; exact List.mem_map_of_mem hv)
  refine ⟨w, ⟨cell, l, hc, hf, ?_, h0, by rw [hw]; exact h3, by rw [hw]; exact h4⟩, ?_⟩
  · intro v
    by_cases hv : v ∈ cell
    · exact (hpos v hv).le
    · rw [h0 v hv]
  · intro cell' hc'
    rw [hc] at hc'
    injection hc' with hc'
    subst hc'
    exact hpos

/-! ## Children -/

theorem perm_eraseIdx {α : Type} {l : List α} {i : Nat} (hi : i < l.length) : l.Perm (l[i] :: l.eraseIdx i) := by
  induction l generalizing i with
  | nil => simp at hi
  | cons a l ih =>
      rcases i with _ | i
      · simp
      · simp only [List.getElem_cons_succ, List.eraseIdx_cons_succ]
        exact ((ih (by simpa using hi)).cons a).trans (List.Perm.swap _ _ _)

theorem not_mem_eraseIdx {α : Type} {l : List α} (hn : l.Nodup) {i : Nat} (hi : i < l.length) : l[i] ∉ l.eraseIdx i := by
  have := (perm_eraseIdx hi).nodup_iff.1 hn
  exact (List.nodup_cons.1 this).1

theorem mem_eraseIdx {α : Type} {l : List α} {i : Nat} (hi : i < l.length) {v : α} (hv : v ∈ l) (h : v ≠ l[i]) :
    v ∈ l.eraseIdx i := by
  rcases List.mem_cons.1 ((perm_eraseIdx hi).mem_iff.1 hv) with h' | h'
  · exact absurd h' h
  · exact h'

/-- The coordinates in the parent. -/
def parentW (N c : Nat) (lam w : Nat → K) (v : Nat) : K := (if v < N then w v else 0) + w (N + c) * lam v

/-- One refinement, with numbers of vertices. -/
structure IStep (M F : RMesh E) (n : Nat) (x : Nat → E) : Prop where
  ncells : F.cells.length = M.cells.length * n
  pos : 0 < n
  new : ∀ c, c < M.cells.length → F.coords[M.coords.length + c]? = some (x c)
  coords : M.coords <+: F.coords
  cell : ∀ (c : Nat) cell, M.cells[c]? = some cell → ∀ j, j < n →
    F.cells[c * n + j]? = some (cell.eraseIdx (n - 1 - j) ++ [M.coords.length + c])

omit [IsStrictOrderedRing K] in
theorem istep {area : List E → K} {newPts : List E → List (List Nat) → List E}
    {hmin : List E → List (List Nat) → K} {strict : K} {tdim n : Nat} {M F : RMesh E} (hM : M.OK n)
    (hp : Inner K newPts n) (h : refineOnce area newPts hmin strict tdim n M = .ok F) :
    ∃ x : Nat → E, IStep M F n x ∧ (∀ c l, IsCell M c l → OpenHull K l (x c)) ∧
      ∀ c, c < M.cells.length → (newPts M.coords M.cells)[c]? = some (x c) := by
  obtain ⟨hn, hco, hv, hcm, hch⟩ := refineOnce_eq_ok h
  obtain ⟨hlen, hin⟩ := hp M hM
  obtain ⟨hcl, hcell⟩ := children_eq_ok hch
  have hget : ∀ c, c < M.cells.length → (newPts M.coords M.cells)[c]? = some ((newPts M.coords M.cells).getD c 0) := by
    intro c hc
    rw [List.getD_eq_getElem?_getD, List.getElem?_eq_getElem (by rw [hlen]; exact hc)]
    rfl
  refine ⟨fun c => (newPts M.coords M.cells).getD c 0, ⟨hcl, by omega, ?_, ⟨_, hco.symm⟩, ?_⟩, ?_, hget⟩
  · intro c hc
    rw [hco, List.getElem?_append_right (by omega), Nat.add_sub_cancel_left]
    exact hget c hc
  · intro c cell hc j hj
    exact (hcell c cell hc j hj).1
  · intro c l hl
    exact hin c l _ hl (hget c (isCell_lt hl))

/-- Which child a cell is. -/
theorem IStep.which {M F : RMesh E} {n : Nat} {x : Nat → E} (h : IStep M F n x) (hM : M.OK n) {i : Nat} {ce : List Nat}
    (hi : F.cells[i]? = some ce) : ∃ c cell j, M.cells[c]? = some cell ∧ j < n ∧ i = c * n + (n - 1 - j) ∧
      j < cell.length ∧ ce = cell.eraseIdx j ++ [M.coords.length + c] := by
  have hil := (List.getElem?_eq_some_iff.1 hi).1
  rw [h.ncells] at hil
  have hn := h.pos
  have hc : i / n < M.cells.length := (Nat.div_lt_iff_lt_mul hn).2 hil
  have hm := Nat.mod_lt i hn
  have hcell := h.cell (i / n) M.cells[i / n] (List.getElem?_eq_getElem hc) (i % n) hm
  rw [Nat.div_add_mod' i n, hi] at hcell
  injection hcell with hcell
  have e : n - 1 - (n - 1 - i % n) = i % n := by omega
  refine ⟨i / n, M.cells[i / n], n - 1 - i % n, List.getElem?_eq_getElem hc, by omega, ?_, ?_, hcell⟩
  · rw [e, Nat.div_add_mod' i n]
  · rw [(hM _ (List.getElem_mem hc)).1]
    omega

theorem perm_sum {α : Type} [AddCommMonoid α] {l : List Nat} {i : Nat} (hi : i < l.length) (f : Nat → α) :
    (l.map f).sum = f l[i] + ((l.eraseIdx i).map f).sum := by
  rw [((perm_eraseIdx hi).map f).sum_eq, List.map_cons, List.sum_cons]

omit [LinearOrder K] [IsStrictOrderedRing K] in
theorem sum_parent (cell : List Nat) (u lam : Nat → K) (a : K) :
    (cell.map (fun v => u v + a * lam v)).sum = (cell.map u).sum + a * (cell.map lam).sum := by
  induction cell with
  | nil => simp
  | cons v cell ih => simp only [List.map_cons, List.sum_cons, ih]; ring

omit [LinearOrder K] [IsStrictOrderedRing K] in
theorem vsum_parent (cell : List Nat) (u lam : Nat → K) (a : K) (g : Nat → E) :
    (cell.map (fun v => (u v + a * lam v) • g v)).sum =
      (cell.map (fun v => u v • g v)).sum + a • (cell.map (fun v => lam v • g v)).sum := by
  induction cell with
  | nil => simp
  | cons v cell ih => simp only [List.map_cons, List.sum_cons, ih]; module

/-- What the coordinates in a child are. -/
theorem child_coords {M F : RMesh E} {n : Nat} {x : Nat → E} (h : IStep M F n x) (hM : M.OK n) {c j : Nat}
    {cell : List Nat} (hc : M.cells[c]? = some cell) (hn : cell.Nodup) (hjn : j < n) (hj : j < cell.length) {lam : Nat → K}
    (hl : Center M c (x c) lam) {p : E} {w : Nat → K} (hw : F.Coords (c * n + (n - 1 - j)) p w) :
    M.Coords c p (parentW M.coords.length c lam w) ∧ (∀ v, 0 ≤ w v) ∧ w cell[j] = 0 ∧
    ∀ v, M.coords.length ≤ v → v ≠ M.coords.length + c → w v = 0 := by
  have hcl := (List.getElem?_eq_some_iff.1 hc).1
  have hlt := (hM cell (List.mem_of_getElem? hc)).2
  have hfc := h.cell c cell hc (n - 1 - j) (by omega)
  have ej : n - 1 - (n - 1 - j) = j := by omega
  rw [ej] at hfc
  have hsub : ∀ v ∈ cell.eraseIdx j, v < M.coords.length := fun v hv => hlt v (List.mem_of_mem_eraseIdx hv)
  have hnew := h.new c hcl
  have hnl := (List.getElem?_eq_some_iff.1 hnew).1
  have hfl : ∀ v ∈ cell.eraseIdx j ++ [M.coords.length + c], v < F.coords.length := by
    intro v hv
    rcases List.mem_append.1 hv with hv | hv
    · exact lt_of_lt_of_le (hsub v hv) h.coords.length_le
    · rw [List.mem_singleton.1 hv]
      exact hnl
  rw [Coords_iff hfc hfl] at hw
  obtain ⟨h0, hs, h1, h2⟩ := hw
  have hlc := (Coords_iff hc hlt).1 hl.1
  obtain ⟨l0, ls, l1, l2⟩ := hlc
  have hcj : w cell[j] = 0 := by
    apply hs
    rw [List.mem_append, not_or]
    refine ⟨not_mem_eraseIdx hn hj, ?_⟩
    have := hlt _ (List.getElem_mem hj)
    rw [List.mem_singleton]
    omega
  have hoff : ∀ v, M.coords.length ≤ v → v ≠ M.coords.length + c → w v = 0 := by
    intro v hv hne
    apply hs
    rw [List.mem_append, not_or]
    exact ⟨fun hm => absurd (hsub v hm) (by omega), fun hm => hne (List.mem_singleton.1 hm)⟩
  refine ⟨?_, h0, hcj, hoff⟩
  rw [Coords_iff hc hlt]
  simp only [List.map_append, List.map_cons, List.map_nil, List.sum_append, List.sum_cons, List.sum_nil, add_zero] at h1 h2
  have eu : ∀ v ∈ cell, (if v < M.coords.length then w v else 0) = w v := fun v hv => if_pos (hlt v hv)
  have eg : ∀ v ∈ cell, F.coords.getD v 0 = M.coords.getD v 0 := by
    intro v hv
    obtain ⟨t, ht⟩ := h.coords
    rw [List.getD_eq_getElem?_getD, List.getD_eq_getElem?_getD, ← ht, List.getElem?_append_left (hlt v hv)]
  refine ⟨?_, ?_, ?_, ?_⟩
  · intro v
    unfold parentW
    have := mul_nonneg (h0 (M.coords.length + c)) (l0 v)
    split
    · have := h0 v
      linarith
    · linarith
  · intro v hv
    unfold parentW
    rw [ls v hv, mul_zero, add_zero]
    split
    · rename_i hlt'
      apply hs
      rw [List.mem_append, not_or]
      exact ⟨fun hm => hv (List.mem_of_mem_eraseIdx hm), fun hm => by have := List.mem_singleton.1 hm; omega⟩
    · rfl
  · unfold parentW
    rw [sum_parent, l1, mul_one, List.map_congr_left eu, perm_sum hj, hcj, zero_add]
    exact h1
  · unfold parentW
    rw [vsum_parent, l2]
    have e1 : cell.map (fun v => (if v < M.coords.length then w v else 0) • M.coords.getD v 0) =
        cell.map (fun v => w v • F.coords.getD v 0) := by
      apply List.map_congr_left
      intro v hv
      rw [eu v hv, eg v hv]
    rw [e1, perm_sum hj, hcj, zero_smul, zero_add, ← h2]
    congr 2
    rw [List.getD_eq_getElem?_getD, hnew]
    rfl

/-- A refinement of a conforming mesh is conforming. -/
theorem IStep.conforming {M F : RMesh E} {n : Nat} {x : Nat → E} (h : IStep M F n x) (hM : M.OK n)
    (hx : ∀ c l, IsCell M c l → OpenHull K l (x c)) (hC : M.Conforming K) : F.Conforming K := by
  have hinj := Conforming.inj hC
  have hcen : ∀ c cell, M.cells[c]? = some cell → ∃ lam : Nat → K, Center M c (x c) lam := by
    intro c cell hc
    obtain ⟨l, hl⟩ := isCell_exists hM (List.getElem?_eq_some_iff.1 hc).1
    exact openHull_center hC.nodup hl (hx c l hl)
  apply Inj.conforming
  · intro i i' p w w' hw hw'
    obtain ⟨ce, -, hi, -⟩ := id hw
    obtain ⟨ce', -, hi', -⟩ := id hw'
    obtain ⟨c, cell, j, hc, hjn, rfl, hj, -⟩ := h.which hM hi
    obtain ⟨c', cell', j', hc', hjn', rfl, hj', -⟩ := h.which hM hi'
    obtain ⟨lam, hl⟩ := hcen c cell hc
    obtain ⟨lam', hl'⟩ := hcen c' cell' hc'
    have hm := List.mem_of_getElem? hc
    have hm' := List.mem_of_getElem? hc'
    obtain ⟨k1, k2, k3, k4⟩ := child_coords h hM hc (hC.nodup _ hm) hjn hj hl hw
    obtain ⟨k1', k2', k3', k4'⟩ := child_coords h hM hc' (hC.nodup _ hm') hjn' hj' hl' hw'
    have e := hinj _ _ _ _ _ k1 k1'
    have ev : ∀ v, v < M.coords.length → w v + w (M.coords.length + c) * lam v = w' v + w' (M.coords.length + c') * lam' v := by
      intro v hv
      have := congrFun e v
      unfold parentW at this
      rwa [if_pos hv, if_pos hv] at this
    by_cases hcc : c = c'
    · subst hcc
      rw [hc] at hc'
      injection hc' with hc'
      subst hc'
      have hll : lam = lam' := hinj _ _ _ _ _ hl.1 hl'.1
      subst hll
      have hlt := (hM cell hm).2
      have p1 := hl.2 cell hc _ (List.getElem_mem hj)
      have p2 := hl.2 cell hc _ (List.getElem_mem hj')
      have q1 := ev _ (hlt _ (List.getElem_mem hj))
      have q2 := ev _ (hlt _ (List.getElem_mem hj'))
      rw [k3] at q1
      rw [k3'] at q2
      have r1 : w' (M.coords.length + c) ≤ w (M.coords.length + c) := by
        have := k2' cell[j]
        by_contra hlt
        have := mul_lt_mul_of_pos_right (not_le.1 hlt) p1
        linarith
      have r2 : w (M.coords.length + c) ≤ w' (M.coords.length + c) := by
        have := k2 cell[j']
        by_contra hlt
        have := mul_lt_mul_of_pos_right (not_le.1 hlt) p2
        linarith
      have r := le_antisymm r2 r1
      funext v
      rcases Nat.lt_or_ge v M.coords.length with hv | hv
      · have := ev v hv
        rw [r] at this
        exact add_right_cancel this
      · by_cases hvc : v = M.coords.length + c
        · rw [hvc, r]
        · rw [k4 v hv hvc, k4' v hv hvc]
    · have far : ∀ {a b : Nat} {ca cb : List Nat}, M.cells[a]? = some ca → M.cells[b]? = some cb → a ≠ b →
          ∃ v ∈ ca, v ∉ cb := by
        intro a b ca cb ha hb hab
        by_contra hno
        push Not at hno
        apply hab
        refine hC.distinct a b ca cb ha hb ?_
        refine List.Subperm.perm_of_length_le (List.subperm_of_subset (hC.nodup _ (List.mem_of_getElem? ha)) hno) ?_
        rw [(hM _ (List.mem_of_getElem? ha)).1, (hM _ (List.mem_of_getElem? hb)).1]
      have zero : ∀ {a b : Nat} {ca cb : List Nat} {q : E} {la u u' : Nat → K}, M.cells[a]? = some ca → M.cells[b]? = some cb → a ≠ b →
          Center M a (x a) la → (∀ v, 0 ≤ u v) → M.Coords b q u' → u' = parentW M.coords.length a la u →
          u (M.coords.length + a) = 0 := by
        intro a b ca cb q la u u' ha hb hab hla hu hu' he
        obtain ⟨v, hv, hvb⟩ := far ha hb hab
        have hltb := (hM cb (List.mem_of_getElem? hb)).2
        have h0 := ((Coords_iff hb hltb).1 hu').2.1 v hvb
        rw [he] at h0
        unfold parentW at h0
        rw [if_pos ((hM ca (List.mem_of_getElem? ha)).2 v hv)] at h0
        have hp := hla.2 ca ha v hv
        have n1 := hu v
        have n2 := mul_nonneg (hu (M.coords.length + a)) hp.le
        have : u (M.coords.length + a) * la v = 0 := by linarith
        exact (mul_eq_zero.1 this).resolve_right hp.ne'
      have z1 := zero hc hc' hcc hl k2 k1' e.symm
      have z2 := zero hc' hc (Ne.symm hcc) hl' k2' k1 e
      funext v
      rcases Nat.lt_or_ge v M.coords.length with hv | hv
      · have := ev v hv
        rw [z1, z2] at this
        linarith
      · have f1 : w v = 0 := by
          by_cases hvc : v = M.coords.length + c
          · rw [hvc, z1]
          · exact k4 v hv hvc
        have f2 : w' v = 0 := by
          by_cases hvc : v = M.coords.length + c'
          · rw [hvc, z2]
          · exact k4' v hv hvc
        rw [f1, f2]
  · intro ce hce
    obtain ⟨i, hi⟩ := List.getElem?_of_mem hce
    obtain ⟨c, cell, j, hc, -, -, hj, rfl⟩ := h.which hM hi
    have hm := List.mem_of_getElem? hc
    rw [List.nodup_append]
    refine ⟨(hC.nodup _ hm).eraseIdx j, List.nodup_singleton _, ?_⟩
    intro a ha b hb
    have := (hM cell hm).2 a (List.mem_of_mem_eraseIdx ha)
    have := List.mem_singleton.1 hb
    omega
  · intro i i' ce ce' hi hi' hp
    obtain ⟨c, cell, j, hc, hjn, rfl, hj, rfl⟩ := h.which hM hi
    obtain ⟨c', cell', j', hc', hjn', rfl, hj', rfl⟩ := h.which hM hi'
    have hm := List.mem_of_getElem? hc
    have hm' := List.mem_of_getElem? hc'
    have e : c = c' := by
      have : M.coords.length + c ∈ cell'.eraseIdx j' ++ [M.coords.length + c'] := hp.mem_iff.1 (by simp)
      rcases List.mem_append.1 this with h1 | h1
      · have := (hM cell' hm').2 _ (List.mem_of_mem_eraseIdx h1)
        omega
      · have := List.mem_singleton.1 h1
        omega
    subst e
    rw [hc] at hc'
    injection hc' with hc'
    subst hc'
    have e : j = j' := by
      by_contra hne
      have h1 : cell[j] ∉ cell.eraseIdx j ++ [M.coords.length + c] := by
        rw [List.mem_append, not_or]
        refine ⟨not_mem_eraseIdx (hC.nodup _ hm) hj, ?_⟩
        have := (hM cell hm).2 _ (List.getElem_mem hj)
        rw [List.mem_singleton]
        omega
      apply h1
      rw [hp.mem_iff, List.mem_append]
      left
      apply mem_eraseIdx hj' (List.getElem_mem hj)
      intro e
      exact hne ((hC.nodup _ hm).getElem_inj_iff.1 e)
    rw [e]

/-- Any number of refinements. -/
theorem refineMore_conforming {area : List E → K} {newPts : List E → List (List Nat) → List E}
    {hmin : List E → List (List Nat) → K} {strict : K} {tdim n : Nat} (hp : Inner K newPts n) : ∀ (k : Nat) {M0 F : RMesh E}
    {refV rootV : List Nat}, M0.OK n → M0.Conforming K → refineMore area newPts hmin strict tdim n k M0 refV rootV = .ok F →
      F.Conforming K
  | 0, M0, F, refV, rootV, _, hC, h => by
      unfold refineMore at h
      injection h with h
      rw [← h]
      exact hC
  | k + 1, M0, F, refV, rootV, hM, hC, h => by
      unfold refineMore at h
      rw [py_bind_eq_ok] at h
      obtain ⟨M1, h1, h⟩ := h
      rw [py_bind_eq_ok] at h
      obtain ⟨cmap, -, h⟩ := h
      rw [py_bind_eq_ok] at h
      obtain ⟨_, -, h⟩ := h
      obtain ⟨x, hs, hx, -⟩ := istep hM hp h1
      obtain ⟨y, hs', -⟩ := step hM hp h1
      obtain ⟨c1, c2, c3, c4⟩ := hs.conforming hM hx hC
      exact refineMore_conforming hp k (M0 := ⟨M1.coords, M1.cells, _, cmap⟩) hs'.ok ⟨c1, c2, c3, c4⟩ h

end Verif.Refine
