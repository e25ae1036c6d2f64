import Verif.Lemmas.Union2
import Mathlib.Algebra.Order.Field.Rat
import Mathlib.Algebra.Order.Ring.Defs
import Mathlib.Algebra.Order.Group.Abs
import Mathlib.Algebra.Order.BigOperators.Group.List
import Mathlib.Tactic.Linarith
import Mathlib.Tactic.IntervalCases
/-!
# C50: union of meshes
-/
namespace Verif.Union
open Verif Verif.BlockOps Verif.Mortar
variable {P K : Type} [LinearOrder K] {dist : P → P → K} {tol : K}

/-- C50 for two meshes.  All cells are kept, the vertices of the second mesh are kept except for boundary vertices which are
    identified with a near boundary vertex of the first mesh; if near vertices are unique then all of them are. -/
theorem union_two_partial {bdry : UMesh P → List Nat} {order : List Nat → List Nat} {newId : Nat} {M0 M1 U : UMesh P}
    (hb : BdryOK bdry) (ho : ∀ l, (order l).Perm l) (h0 : M0.OK) (h1 : M1.OK)
    (h : unionMesh dist tol bdry order newId [M0, M1] = .ok U) :
    U.OK ∧ ∃ g, Glued dist tol M0 M1 U g ∧
      (Separated dist tol M0 M1 → ∀ i j, Near dist tol M0 M1 i j ↔ g[j]? = some i ∧ i < M0.coords.length) := by
  unfold unionMesh at h
  rw [py_bind_eq_ok] at h
  obtain ⟨⟨U', M0'⟩, h, e⟩ := h
  injection e with e
  dsimp only at e
  subst e
  obtain ⟨g, leafs1, hg, _, _, hU, hs⟩ := glued hb ho h0 h1 h
  exact ⟨hU, g, hg, fun hsep i j => ⟨fun hn => ⟨hs hsep i j hn, hn.1.lt h0⟩, fun hn => hg.sound j i hn.1 hn.2⟩⟩

/-- The union of two meshes is made if some boundary vertex of the second mesh is not near the first mesh. -/
theorem union_two_total {bdry : UMesh P → List Nat} {order : List Nat → List Nat} {newId : Nat} {M0 M1 : UMesh P}
    (hb : BdryOK bdry) (ho : ∀ l, (order l).Perm l) (h0 : M0.OK) (h1 : M1.OK) (hg : M0.gdim = M1.gdim)
    (ht : M0.tdim = M1.tdim) (hne : ∃ i, IsBdry M0 i) {j0 : Nat} {p : P} (hj0 : IsBdry M1 j0) (hp : M1.coords[j0]? = some p)
    (hfar : ∀ q ∈ M0.coords, ¬ dist p q < tol)
    (hl : ∀ l, M1.leafs = some l → ∀ m ∈ l, ∀ v ∈ m.2, v < M1.coords.length) :
    ∃ U, unionMesh dist tol bdry order newId [M0, M1] = .ok U := by
  obtain ⟨U, M0', h⟩ := unionTwo_total (dist := dist) (tol := tol) (newId := newId) hb ho h0 h1 hg ht (by
      obtain ⟨i, hi⟩ := hne
      intro e
      have := ((hb M0).2 i).2 hi
      rw [e] at this
      simp at this) hj0 (by
      rintro i ⟨q, p', hq, hp', hd⟩
      rw [hp] at hp'
      injection hp' with hp'
      subst hp'
      exact hfar q (List.mem_of_getElem? hq) hd) hl
  exact ⟨U, by simp only [unionMesh]; rw [h]; rfl⟩

/-- One mesh is returned, no mesh is refused. -/
theorem union_small (bdry : UMesh P → List Nat) (order : List Nat → List Nat) (newId : Nat) (M : UMesh P) :
    unionMesh dist tol bdry order newId [M] = .ok M ∧
    unionMesh dist tol bdry order newId [] = .error .assertion := ⟨rfl, rfl⟩

/-- More than two meshes are always refused (a slice with a fractional end). -/
theorem union_many (bdry : UMesh P → List Nat) (order : List Nat → List Nat) (newId : Nat) (A B C : UMesh P)
    (Ms : List (UMesh P)) : unionMesh dist tol bdry order newId (A :: B :: C :: Ms) = .error .typeError := rfl

/-! ## Leafs -/

/-- C50, the maps.  For any nesting of unions the leafs are the original meshes, each vertex of them is mapped to a vertex at
    the distance at most `d * tol` where `d` is the depth, and no two vertices of a leaf are identified. -/
theorem union_leafs [Ring K] [IsStrictOrderedRing K] {bdry : UMesh P → List Nat} {order : List Nat → List Nat} {X : Nat → List P}
    (hb : BdryOK bdry) (ho : ∀ l, (order l).Perm l) (htol : 0 ≤ tol) (hself : ∀ p, dist p p = 0)
    (htri : ∀ p q r, dist p r ≤ dist p q + dist q r) {U : UMesh P} {ids : List Nat} {d : Nat}
    (h : Made dist tol bdry order X U ids d) :
    U.OK ∧ U.allLeafs.map (fun l => l.1) = ids ∧ LeafsOK dist X (d * tol) U ∧ ∀ l ∈ U.allLeafs, l.2.Nodup := by
  induction h with
  | @leaf M hl hM hX =>
      refine ⟨hM, by simp [UMesh.allLeafs, hl], ?_, ?_⟩
      · intro id m hm
        simp only [UMesh.allLeafs, hl, Option.getD_none, List.mem_singleton, Prod.mk.injEq] at hm
        obtain ⟨rfl, rfl⟩ := hm
        rw [hX]
        refine ⟨by simp, ?_⟩
        intro v p hp
        have hv := (List.getElem?_eq_some_iff.1 hp).1
        exact ⟨v, p, by simp [hv], hp, by rw [hself]; simp⟩
      · intro l hl'
        simp only [UMesh.allLeafs, hl, Option.getD_none, List.mem_singleton] at hl'
        rw [hl']
        exact List.nodup_range
  | @union M0 M1 U l0 l1 d0 d1 newId h0 h1 h ih0 ih1 =>
      unfold unionMesh at h
      rw [py_bind_eq_ok] at h
      obtain ⟨⟨U', M0'⟩, h, e⟩ := h
      injection e with e
      dsimp only at e
      subst e
      obtain ⟨g, leafs1, hg, hm, hU, hok, _⟩ := glued hb ho ih0.1 ih1.1 h
      have hall : U'.allLeafs = M0.allLeafs ++ leafs1 := by unfold UMesh.allLeafs; rw [hU]; rfl
      have hle0 : (d0 : K) * tol ≤ ((max d0 (d1 + 1) : Nat) : K) * tol :=
        mul_le_mul_of_nonneg_right (Nat.cast_le.2 (le_max_left _ _)) htol
      have hle1 : (d1 : K) * tol + tol ≤ ((max d0 (d1 + 1) : Nat) : K) * tol := by
        have : (d1 : K) * tol + tol = ((d1 + 1 : Nat) : K) * tol := by
          rw [Nat.cast_add, Nat.cast_one, add_mul, one_mul]
        rw [this]
        exact mul_le_mul_of_nonneg_right (Nat.cast_le.2 (le_max_right _ _)) htol
      have key : List.Forall₂ (fun (a b : Nat × List Nat) => b.1 = a.1 ∧ pyMap (pyGet g) a.2 = .ok b.2) M1.allLeafs leafs1 := by
        unfold mapLeafs at hm
        unfold UMesh.allLeafs
        cases hl : M1.leafs with
        | none =>
            rw [hl] at hm
            injection hm with hm
            subst hm
            refine .cons ⟨rfl, ?_⟩ .nil
            dsimp only
            rw [pyMap_eq_ok, List.forall₂_iff_get]
            refine ⟨by simp [hg.length], ?_⟩
            intro i h1 h2
            rw [pyGet_eq_ok]
            simp
        | some l =>
            rw [hl] at hm
            dsimp only at hm
            rw [pyMap_eq_ok] at hm
            refine hm.imp (fun a b hab => ?_)
            rw [py_bind_eq_ok] at hab
            obtain ⟨m, hm, e⟩ := hab
            injection e with e
            rw [← e]
            exact ⟨rfl, hm⟩
      have near : ∀ (v : Nat) p, M1.coords[v]? = some p → ∃ (i : Nat) (q : P), g[v]? = some i ∧ U'.coords[i]? = some q ∧ dist p q ≤ tol := by
        intro v p hp
        have hv : v < g.length := by rw [hg.length]; exact (List.getElem?_eq_some_iff.1 hp).1
        by_cases hlt : g[v] < M0.coords.length
        · obtain ⟨_, _, q, p', hq, hp', hd⟩ := hg.sound v g[v] (List.getElem?_eq_getElem hv) hlt
          rw [hp] at hp'
          injection hp' with hp'
          subst hp'
          refine ⟨g[v], q, List.getElem?_eq_getElem hv, ?_, hd.le⟩
          obtain ⟨t, ht⟩ := hg.coords0
          rw [← ht, List.getElem?_append_left hlt]
          exact hq
        · refine ⟨g[v], p, List.getElem?_eq_getElem hv, ?_, by rw [hself]; exact htol⟩
          rw [hg.coords1 v g[v] (List.getElem?_eq_getElem hv) (by omega), hp]
      refine ⟨hok, ?_, ?_, ?_⟩
      · rw [hall, List.map_append, ih0.2.1, ← ih1.2.1]
        congr 1
        clear hall hm hU
        generalize M1.allLeafs = L at key
        induction key with
        | nil => rfl
        | cons h _ ih => rw [List.map_cons, List.map_cons, ih, h.1]
      · intro id m hmem
        rw [hall] at hmem
        rcases List.mem_append.1 hmem with hmem | hmem
        · obtain ⟨a, b⟩ := ih0.2.2.1 id m hmem
          refine ⟨a, fun v p hp => ?_⟩
          obtain ⟨i, q, h2, h3, h4⟩ := b v p hp
          refine ⟨i, q, h2, ?_, h4.trans hle0⟩
          obtain ⟨t, ht⟩ := hg.coords0
          rw [← ht, List.getElem?_append_left (List.getElem?_eq_some_iff.1 h3).1]
          exact h3
        · obtain ⟨k, hk, e⟩ := List.getElem_of_mem hmem
          have hk' : k < M1.allLeafs.length := by rw [key.length_eq]; exact hk
          have hkk := (List.forall₂_iff_get.1 key).2 k hk' hk
          simp only [List.get_eq_getElem, e] at hkk
          obtain ⟨e1, e2⟩ := hkk
          obtain ⟨a, b⟩ := ih1.2.2.1 (M1.allLeafs[k]).1 (M1.allLeafs[k]).2 (List.getElem_mem hk')
          rw [← e1] at a b
          rw [pyMap_eq_ok] at e2
          refine ⟨by rw [← e2.length_eq, a], fun v p hp => ?_⟩
          obtain ⟨i, q, h2, h3, h4⟩ := b v p hp
          obtain ⟨i', q', h5, h6, h7⟩ := near i q h3
          refine ⟨i', q', ?_, h6, ?_⟩
          · obtain ⟨hv, e3⟩ := List.getElem?_eq_some_iff.1 h2
            have := (List.forall₂_iff_get.1 e2).2 v hv (by rw [← e2.length_eq]; exact hv)
            rw [pyGet_eq_ok] at this
            simp only [List.get_eq_getElem, e3] at this
            rw [h5] at this
            injection this with this
            rw [List.getElem?_eq_getElem (by rw [← e2.length_eq]; exact hv), this]
          · exact (htri p q q').trans ((add_le_add h4 h7).trans hle1)
      · intro l hl
        rw [hall] at hl
        rcases List.mem_append.1 hl with hl | hl
        · exact ih0.2.2.2 l hl
        · obtain ⟨k, hk, e⟩ := List.getElem_of_mem hl
          have hk' : k < M1.allLeafs.length := by rw [key.length_eq]; exact hk
          have hkk := (List.forall₂_iff_get.1 key).2 k hk' hk
          simp only [List.get_eq_getElem, e] at hkk
          obtain ⟨_, e2⟩ := hkk
          rw [pyMap_eq_ok] at e2
          have hn := ih1.2.2.2 _ (List.getElem_mem hk')
          rw [List.nodup_iff_injective_getElem] at hn ⊢
          rintro ⟨a, ha⟩ ⟨b, hb'⟩ hab
          dsimp only at hab
          have ha' : a < (M1.allLeafs[k]).2.length := by rw [e2.length_eq]; exact ha
          have hb'' : b < (M1.allLeafs[k]).2.length := by rw [e2.length_eq]; exact hb'
          have h5 := pyGet_eq_ok.1 ((List.forall₂_iff_get.1 e2).2 a ha' ha)
          have h6 := pyGet_eq_ok.1 ((List.forall₂_iff_get.1 e2).2 b hb'' hb')
          simp only [List.get_eq_getElem, hab] at h5 h6
          obtain ⟨x1, y1⟩ := List.getElem?_eq_some_iff.1 h5
          obtain ⟨x2, y2⟩ := List.getElem?_eq_some_iff.1 h6
          have h7 := (List.nodup_iff_injective_getElem.1 hg.inj) (a₁ := ⟨_, x1⟩) (a₂ := ⟨_, x2⟩) (by dsimp only; rw [y1, y2])
          rw [Fin.mk.injEq] at h7
          have := hn (a₁ := ⟨a, ha'⟩) (a₂ := ⟨b, hb''⟩) h7
          rw [Fin.mk.injEq] at this ⊢
          exact this

/-! ## Examples and counterexamples -/

/-- Intervals on the line. -/
def segs (id : Nat) (x : List ℚ) (cells : List (List Nat)) : UMesh ℚ := ⟨id, 1, 1, x, cells, none⟩

/-- Boundary vertices of a mesh of intervals: those in one cell. -/
def bdry1 (M : UMesh ℚ) : List Nat :=
  (List.range M.coords.length).filter (fun v => decide ((M.cells.filter (fun c => decide (v ∈ c))).length = 1))

def dist1 (a b : ℚ) : ℚ := |a - b|

/-- Two intervals with a common end. -/
example : (unionMesh dist1 (1 / 10 ^ 12) bdry1 id 7 [segs 0 [0, 1] [[0, 1]], segs 1 [2, 1] [[0, 1]]]) =
    .ok ⟨7, 1, 1, [0, 1, 2], [[0, 1], [2, 1]], some [(0, [0, 1]), (1, [2, 1])]⟩ := by decide +kernel

/-- The contract of boundaries can be met for all meshes. -/
theorem bdryOK_exists : ∃ bdry : UMesh P → List Nat, BdryOK bdry := by
  have : ∀ M : UMesh P, ∃ l : List Nat, l.Nodup ∧ ∀ v, v ∈ l ↔ IsBdry M v := by
    intro M
    classical
    refine ⟨(M.cells.flatten.dedup).filter (fun v => decide (IsBdry M v)), (List.nodup_dedup _).filter _, ?_⟩
    intro v
    rw [List.mem_filter, decide_eq_true_iff, List.mem_dedup]
    refine ⟨fun h => h.2, fun h => ⟨?_, h⟩⟩
    obtain ⟨facet, _, hv, c, hc⟩ := h
    obtain ⟨cell, hcell, hsub⟩ := (hc c).2 rfl
    exact List.mem_flatten.2 ⟨cell, List.mem_of_getElem? hcell, List.mem_toFinset.1 (hsub hv)⟩
  choose f hf using this
  exact ⟨f, hf⟩

/-- Boundary vertices of intervals. -/
theorem isBdry_segs {M : UMesh ℚ} (ht : M.tdim = 1) {v c : Nat} {cell : List Nat} (hc : M.cells[c]? = some cell)
    (hv : v ∈ cell) (hu : ∀ (c' : Nat) (cell' : List Nat), M.cells[c']? = some cell' → v ∈ cell' → c' = c) : IsBdry M v := by
  refine ⟨{v}, by rw [ht]; simp, by simp, c, fun c' => ⟨?_, ?_⟩⟩
  · rintro ⟨cell', h, hs⟩
    exact hu c' cell' h (List.mem_toFinset.1 (hs (by simp)))
  · rintro rfl
    exact ⟨cell, hc, by simpa using hv⟩

/-- The hypotheses of `union_two_total`, thus of `union_two_partial`, are met by two intervals. -/
example : ∃ (bdry : UMesh ℚ → List Nat) (U : UMesh ℚ), BdryOK bdry ∧
    unionMesh dist1 (1 / 10 ^ 12) bdry id 7 [segs 0 [0, 1] [[0, 1]], segs 1 [2, 1] [[0, 1]]] = .ok U := by
  obtain ⟨bdry, hb⟩ := bdryOK_exists (P := ℚ)
  have one : ∀ (id : Nat) (x : List ℚ) (v : Nat), v ∈ [0, 1] → IsBdry (segs id x [[0, 1]]) v := by
    intro id x v hv
    refine isBdry_segs rfl (c := 0) (cell := [0, 1]) rfl hv ?_
    intro c' cell' h _
    have := (List.getElem?_eq_some_iff.1 h).1
    simp [segs] at this
    exact this
  obtain ⟨U, hU⟩ := union_two_total (dist := dist1) (tol := 1 / 10 ^ 12) (newId := 7) (M0 := segs 0 [0, 1] [[0, 1]])
    (M1 := segs 1 [2, 1] [[0, 1]]) (order := id) (j0 := 0) (p := 2) hb (fun l => List.Perm.refl l)
    (by intro c hc v hv; simp [segs] at hc ⊢; subst hc; simp at hv; omega)
    (by intro c hc v hv; simp [segs] at hc ⊢; subst hc; simp at hv; omega) rfl rfl ⟨0, one _ _ 0 (by simp)⟩
    (one _ _ 0 (by simp)) rfl (by decide +kernel) (by simp [segs])
  exact ⟨bdry, U, hb, hU⟩

/-- A mesh which fills a gap of the first one is refused: no boundary vertices are left to compare with. -/
theorem union_gap : unionMesh dist1 (1 / 10 ^ 12) bdry1 id 7
    [segs 0 [0, 1, 2, 3] [[0, 1], [2, 3]], segs 1 [1, 2] [[0, 1]]] = .error .valueError := by decide +kernel

/-- Meshes without boundary are refused. -/
theorem union_closed : unionMesh dist1 (1 / 10 ^ 12) bdry1 id 7
    [segs 0 [0, 1, 2] [[0, 1], [1, 2], [0, 2]], segs 1 [5, 6, 7] [[0, 1], [1, 2], [0, 2]]] = .error .valueError := by
  decide +kernel

/-- The union of a union `A` with another mesh changes the leafs of `A`: it then lists a leaf whose vertices it does not have. -/
theorem union_changes_leafs : ∃ A : UMesh ℚ,
    unionMesh dist1 (1 / 10 ^ 12) bdry1 id 7 [segs 0 [0, 1] [[0, 1]], segs 1 [1, 2] [[0, 1]]] = .ok A ∧
    (unionTwo dist1 (1 / 10 ^ 12) bdry1 id 8 A (segs 2 [2, 3] [[0, 1]])).map (fun r => r.2) =
      .ok { A with leafs := some [(0, [0, 1]), (1, [1, 2]), (2, [2, 3])] } ∧ A.coords.length = 3 :=
  ⟨⟨7, 1, 1, [0, 1, 2], [[0, 1], [1, 2]], some [(0, [0, 1]), (1, [1, 2])]⟩, by decide +kernel, by decide +kernel, rfl⟩

end Verif.Union
