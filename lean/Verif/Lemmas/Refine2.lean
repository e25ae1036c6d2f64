import Verif.Lemmas.Refine
import Mathlib.Data.Nat.Basic
/-!
# The refined mesh
-/
namespace Verif.Refine
open Verif Verif.BlockOps
variable {K E : Type} [Field K] [LinearOrder K] [IsStrictOrderedRing K] [AddCommGroup E] [Module K E]

/-! ## Numbering -/

omit [IsStrictOrderedRing K] [AddCommGroup E] [Module K E] in
theorem omitted_get {n j : Nat} (hj : j < n) : (omitted n)[j]? = some (n - 1 - j) := by
  unfold omitted
  rw [List.getElem?_reverse (by simpa using hj)]
  rw [List.length_range, List.getElem?_range (by omega)]

theorem childToParent_get (n N i : Nat) : (childToParent n N)[i]? = if i < N * n then some (i / n) else none := by
  have hlen : ∀ N, (childToParent n N).length = N * n := by
    intro N
    unfold childToParent
    simp
  induction N with
  | zero => simp [childToParent]
  | succ N ih =>
      have h : childToParent n (N + 1) = childToParent n N ++ List.replicate n N := by
        unfold childToParent
        rw [List.range_succ, List.flatMap_append]
        simp
      rw [h]
      by_cases hi : i < N * n
      · rw [List.getElem?_append_left (by rw [hlen]; exact hi), ih, if_pos hi, if_pos]
        exact lt_of_lt_of_le hi (Nat.mul_le_mul_right n (Nat.le_succ N))
      · rw [List.getElem?_append_right (by rw [hlen]; omega), hlen, List.getElem?_replicate]
        have e : (N + 1) * n = N * n + n := by ring
        by_cases h2 : i < (N + 1) * n
        · rw [if_pos (by omega), if_pos h2]
          congr 1
          symm
          apply Nat.div_eq_of_lt_le
          · omega
          · exact h2
        · rw [if_neg (by omega), if_neg h2]

omit [IsStrictOrderedRing K] [AddCommGroup E] [Module K E] in
theorem child_eq_ok {area : List E → K} {x : List E} {cell : List Nat} {center i : Nat} {c : List Nat}
    (h : child area x cell center i = .ok c) : c = cell.eraseIdx i ++ [center] ∧
      ∃ l : List E, List.Forall₂ (fun (v : Nat) p => x[v]? = some p) c l ∧ 1 / 10 ^ 15 < area l := by
  unfold child at h
  rw [py_bind_eq_ok] at h
  obtain ⟨ps, hps, h⟩ := h
  rw [py_bind_eq_ok] at h
  obtain ⟨_, ha, h⟩ := h
  rw [pyAssert_eq_ok, decide_eq_true_iff] at ha
  injection h with h
  subst h
  refine ⟨rfl, ps, ?_, ha⟩
  unfold cellPts at hps
  rw [pyMap_eq_ok] at hps
  exact hps.imp (fun _ _ h => pyGet_eq_ok.1 h)

omit [IsStrictOrderedRing K] [AddCommGroup E] [Module K E] in
theorem children_eq_ok {area : List E → K} {x : List E} {n : Nat} : ∀ {cells cs : List (List Nat)} {center : Nat},
    children area x n center cells = .ok cs → cs.length = cells.length * n ∧
    ∀ (c : Nat) (cell : List Nat), cells[c]? = some cell → ∀ j, j < n →
      cs[c * n + j]? = some (cell.eraseIdx (n - 1 - j) ++ [center + c]) ∧
      ∃ l : List E, List.Forall₂ (fun (v : Nat) p => x[v]? = some p) (cell.eraseIdx (n - 1 - j) ++ [center + c]) l ∧
        1 / 10 ^ 15 < area l
  | [], cs, center, h => by
      unfold children at h
      injection h with h
      subst h
      simp
  | cell :: cells, cs, center, h => by
      unfold children at h
      rw [py_bind_eq_ok] at h
      obtain ⟨c0, h0, h⟩ := h
      rw [py_bind_eq_ok] at h
      obtain ⟨rest, hr, h⟩ := h
      injection h with h
      subst h
      obtain ⟨hl, hc⟩ := children_eq_ok hr
      rw [pyMap_eq_ok] at h0
      have hl0 : c0.length = n := by rw [← h0.length_eq]; simp [omitted]
      refine ⟨by rw [List.length_append, hl, hl0, List.length_cons]; ring, ?_⟩
      intro c ce hce j hj
      rcases c with _ | c
      · simp only [List.getElem?_cons_zero, Option.some.injEq] at hce
        subst hce
        rw [Nat.zero_mul, Nat.zero_add, List.getElem?_append_left (by rw [hl0]; exact hj)]
        have hj' : j < c0.length := by rw [hl0]; exact hj
        have h1 := (List.forall₂_iff_get.1 h0).2 j (by simp [omitted, hj]) hj'
        have h2 : (omitted n).get ⟨j, by simp [omitted, hj]⟩ = n - 1 - j := by
          have := omitted_get hj
          rw [List.getElem?_eq_getElem (by simp [omitted, hj])] at this
          simpa using this
        rw [h2] at h1
        obtain ⟨h3, h4⟩ := child_eq_ok h1
        rw [List.getElem?_eq_getElem hj']
        change c0[j] = _ at h3
        rw [h3]
        refine ⟨rfl, ?_⟩
        simp only [List.get_eq_getElem] at h4
        rw [h3] at h4
        exact h4
      · rw [List.getElem?_cons_succ] at hce
        have := hc c ce hce j hj
        have e1 : (c + 1) * n + j = c0.length + (c * n + j) := by rw [hl0]; ring
        have e2 : center + (c + 1) = center + 1 + c := by ring
        rw [e1, List.getElem?_append_right (by omega), Nat.add_sub_cancel_left, e2]
        exact this

/-! ## One refinement -/

omit [IsStrictOrderedRing K] [AddCommGroup E] [Module K E] in
theorem refineOnce_eq_ok {area : List E → K} {newPts : List E → List (List Nat) → List E}
    {hmin : List E → List (List Nat) → K} {strict : K} {tdim n : Nat} {M F : RMesh E}
    (h : refineOnce area newPts hmin strict tdim n M = .ok F) : 2 ≤ n ∧
      F.coords = M.coords ++ newPts M.coords M.cells ∧ F.vmap = (List.range M.coords.length).map (fun v => (v, v)) ∧
      F.cmap = childToParent n M.cells.length ∧
      children area F.coords n M.coords.length M.cells = .ok F.cells := by
  unfold refineOnce at h
  rw [py_bind_eq_ok] at h
  obtain ⟨_, ha, h⟩ := h
  rw [pyAssert_eq_ok] at ha
  rw [py_bind_eq_ok] at h
  obtain ⟨_, _, h⟩ := h
  rw [py_bind_eq_ok] at h
  obtain ⟨_, _, h⟩ := h
  rw [py_bind_eq_ok] at h
  obtain ⟨cells, hc, h⟩ := h
  injection h with h
  subst h
  refine ⟨?_, rfl, rfl, rfl, hc⟩
  simp only [Bool.or_eq_true, Bool.and_eq_true, decide_eq_true_eq] at ha
  omega

omit [Field K] [LinearOrder K] [IsStrictOrderedRing K] [AddCommGroup E] [Module K E] in
theorem forall₂_eraseIdx {α β : Type} {R : α → β → Prop} : ∀ {a : List α} {b : List β}, List.Forall₂ R a b → ∀ i,
    List.Forall₂ R (a.eraseIdx i) (b.eraseIdx i)
  | _, _, .nil, i => by simp
  | _, _, .cons h t, 0 => by simpa using t
  | _, _, .cons h t, i + 1 => by
      simp only [List.eraseIdx_cons_succ]
      exact .cons h (forall₂_eraseIdx t i)

theorem forall₂_unique {α β : Type} {f : α → Option β} : ∀ {a : List α} {b c : List β},
    List.Forall₂ (fun v p => f v = some p) a b → List.Forall₂ (fun v p => f v = some p) a c → b = c
  | _, _, _, .nil, .nil => rfl
  | _, _, _, .cons h t, .cons h' t' => by
      rw [forall₂_unique t t']
      rw [h] at h'
      injection h' with h'
      rw [h']

omit [AddCommGroup E] in
theorem isCell_unique {M : RMesh E} {i : Nat} {l l' : List E} (h : IsCell M i l) (h' : IsCell M i l') : l = l' := by
  obtain ⟨c, hc, hl⟩ := h
  obtain ⟨c', hc', hl'⟩ := h'
  rw [hc] at hc'
  injection hc' with hc'
  subst hc'
  exact forall₂_unique hl hl'

omit [AddCommGroup E] in
theorem isCell_exists {M : RMesh E} {n i : Nat} (hM : M.OK n) (hi : i < M.cells.length) : ∃ l, IsCell M i l := by
  have h := hM M.cells[i] (List.getElem_mem hi)
  refine ⟨M.cells[i].attach.map (fun v => M.coords[v.1]'(h.2 v.1 v.2)), M.cells[i], List.getElem?_eq_getElem hi, ?_⟩
  rw [List.forall₂_map_right_iff]
  have : ∀ (c : List Nat) (hc : ∀ v ∈ c, v < M.coords.length),
      List.Forall₂ (fun (a : Nat) (c : {x // x ∈ c}) => M.coords[a]? = some (M.coords[c.1]'(hc c.1 c.2))) c c.attach := by
    intro c hc
    rw [List.forall₂_iff_get]
    refine ⟨by simp, ?_⟩
    intro i h1 h2
    simp
  exact this _ h.2

omit [AddCommGroup E] in
theorem isCell_lt {M : RMesh E} {i : Nat} {l : List E} (h : IsCell M i l) : i < M.cells.length := by
  obtain ⟨c, hc, _⟩ := h
  exact (List.getElem?_eq_some_iff.1 hc).1

omit [AddCommGroup E] in
theorem isCell_length {M : RMesh E} {n i : Nat} {l : List E} (hM : M.OK n) (h : IsCell M i l) : l.length = n := by
  obtain ⟨c, hc, hl⟩ := h
  rw [← hl.length_eq]
  exact (hM c (List.mem_of_getElem? hc)).1

/-- What one refinement does. -/
structure Step (M F : RMesh E) (n : Nat) (x : Nat → E) : Prop where
  ok : F.OK n
  pos : 2 ≤ n
  ncells : F.cells.length = M.cells.length * n
  cmap : F.cmap = childToParent n M.cells.length
  vmap : F.vmap = (List.range M.coords.length).map (fun v => (v, v))
  coords : M.coords <+: F.coords
  cell : ∀ c l, IsCell M c l → ∀ j, j < n → IsCell F (c * n + j) (l.eraseIdx (n - 1 - j) ++ [x c])

omit [IsStrictOrderedRing K] in
theorem step {area : List E → K} {newPts : List E → List (List Nat) → List E}
    {hmin : List E → List (List Nat) → K} {strict : K} {tdim n : Nat} {M F : RMesh E} (hM : M.OK n)
    (hp : Inner K newPts n) (h : refineOnce area newPts hmin strict tdim n M = .ok F) :
    ∃ x : Nat → E, Step M F n x ∧ ∀ c l, IsCell M c l → OpenHull K l (x c) := by
  obtain ⟨hn, hco, hv, hcm, hch⟩ := refineOnce_eq_ok h
  obtain ⟨hlen, hin⟩ := hp M hM
  obtain ⟨hcl, hcell⟩ := children_eq_ok hch
  refine ⟨fun c => (newPts M.coords M.cells).getD c 0, ⟨?_, hn, hcl, hcm, hv, ⟨_, hco.symm⟩, ?_⟩, ?_⟩
  · intro ce hce
    obtain ⟨i, hi, rfl⟩ := List.getElem_of_mem hce
    have hn0 : 0 < n := by omega
    have hc : i / n < M.cells.length := by
      rw [Nat.div_lt_iff_lt_mul hn0, ← hcl]; exact hi
    have hcc := hcell (i / n) M.cells[i / n] (List.getElem?_eq_getElem hc) (i % n) (Nat.mod_lt _ hn0)
    rw [Nat.div_add_mod' i n] at hcc
    obtain ⟨h1, l, h2, -⟩ := hcc
    rw [List.getElem?_eq_getElem hi] at h1
    injection h1 with h1
    rw [h1]
    have hok := hM M.cells[i / n] (List.getElem_mem hc)
    have hm := Nat.mod_lt i hn0
    refine ⟨?_, ?_⟩
    · rw [List.length_append, List.length_eraseIdx_of_lt (by rw [hok.1]; omega), hok.1]
      simp
      omega
    · intro v hv
      obtain ⟨k, hk, rfl⟩ := List.getElem_of_mem hv
      have := (List.forall₂_iff_get.1 h2).2 k hk (by rw [← h2.length_eq]; exact hk)
      exact (List.getElem?_eq_some_iff.1 this).1
  · rintro c l ⟨ce, hce, hl⟩ j hj
    obtain ⟨h1, -⟩ := hcell c ce hce j hj
    refine ⟨_, h1, ?_⟩
    have hc : c < M.cells.length := (List.getElem?_eq_some_iff.1 hce).1
    have hl' : List.Forall₂ (fun (v : Nat) p => F.coords[v]? = some p) ce l := by
      refine hl.imp (fun v p h => ?_)
      rw [hco, List.getElem?_append_left (List.getElem?_eq_some_iff.1 h).1]
      exact h
    refine List.rel_append (forall₂_eraseIdx hl' _) (.cons ?_ .nil)
    rw [hco, List.getElem?_append_right (by omega), Nat.add_sub_cancel_left, List.getD_eq_getElem?_getD,
      List.getElem?_eq_getElem (by rw [hlen]; exact hc)]
    rfl
  · intro c l hl
    refine hin c l _ hl ?_
    have hc := isCell_lt hl
    change _ = some ((newPts M.coords M.cells).getD c 0)
    rw [List.getD_eq_getElem?_getD, List.getElem?_eq_getElem (by rw [hlen]; exact hc)]
    rfl

omit [IsStrictOrderedRing K] in
theorem Step.child {M F : RMesh E} {n : Nat} {x : Nat → E} (hM : M.OK n) (h : Step M F n x) {i c : Nat} {l' : List E}
    (hc : F.cmap[i]? = some c) (hl' : IsCell F i l') : c = i / n ∧ ∃ l, IsCell M c l ∧ l' = l.eraseIdx (n - 1 - i % n) ++ [x c] := by
  have hn : 0 < n := by have := h.pos; omega
  rw [h.cmap, childToParent_get] at hc
  split at hc
  · rename_i hi
    injection hc with hc
    subst hc
    obtain ⟨l, hl⟩ := isCell_exists hM ((Nat.div_lt_iff_lt_mul hn).2 hi)
    refine ⟨rfl, l, hl, ?_⟩
    have := h.cell _ l hl (i % n) (Nat.mod_lt _ hn)
    rw [Nat.div_add_mod' i n] at this
    exact isCell_unique hl' this
  · simp at hc

theorem Step.tiles {M F : RMesh E} {n : Nat} {x : Nat → E} (hM : M.OK n) (h : Step M F n x)
    (hx : ∀ c l, IsCell M c l → OpenHull K l (x c)) : Tiles K M F := by
  have hn : 0 < n := by have := h.pos; omega
  constructor
  · intro i hi
    rw [h.ncells] at hi
    exact ⟨i / n, (Nat.div_lt_iff_lt_mul hn).2 hi, by rw [h.cmap, childToParent_get, if_pos hi]⟩
  · rw [h.ncells, h.cmap]
    unfold childToParent
    simp
  · intro c l hl y
    have hll := isCell_length hM hl
    constructor
    · intro hy
      obtain ⟨k, hk, hy⟩ := hull_cover (hx c l hl) hy
      have hj : n - 1 - k < n := by omega
      refine ⟨c * n + (n - 1 - k), _, ?_, h.cell c l hl (n - 1 - k) hj, ?_⟩
      · rw [h.cmap, childToParent_get, if_pos]
        · congr 1
          rw [Nat.mul_comm c n, Nat.mul_add_div hn, Nat.div_eq_of_lt hj, Nat.add_zero]
        · have := isCell_lt hl
          calc c * n + (n - 1 - k) < c * n + n := by omega
            _ = (c + 1) * n := by ring
            _ ≤ M.cells.length * n := Nat.mul_le_mul_right n this
      · have : n - 1 - (n - 1 - k) = k := by omega
        rw [this]
        exact hy
    · rintro ⟨i, l', hc, hl', hy⟩
      obtain ⟨-, l1, h1, rfl⟩ := h.child hM hc hl'
      rw [isCell_unique hl h1] at *
      exact hull_child (hx c l1 h1) (by rw [hll]; omega) hy
  · intro c l hl i l' hc hl' y hy
    obtain ⟨-, l1, h1, rfl⟩ := h.child hM hc hl'
    have hll := isCell_length hM h1
    rw [isCell_unique hl h1]
    exact openHull_child (hx c l1 h1) (by rw [hll]; omega) hy
  · intro c l hl ha i l' hc hl'
    obtain ⟨-, l1, h1, rfl⟩ := h.child hM hc hl'
    have hll := isCell_length hM h1
    rw [isCell_unique hl h1] at ha
    exact affInd_child (hx c l1 h1) ha (by rw [hll]; omega)
  · intro c l hl ha i j hij hi hj li lj hli hlj y hyi hyj
    obtain ⟨ei, l1, h1, rfl⟩ := h.child hM hi hli
    obtain ⟨ej, l2, h2, rfl⟩ := h.child hM hj hlj
    have hll := isCell_length hM h1
    rw [isCell_unique h2 h1] at hyj
    rw [isCell_unique hl h1] at ha
    have := hull_disjoint (hx c l1 h1) ha (by rw [hll]; omega) (by rw [hll]; omega) hyi hyj
    have m1 := Nat.mod_lt i hn
    have m2 := Nat.mod_lt j hn
    apply hij
    rw [← Nat.div_add_mod' i n, ← Nat.div_add_mod' j n, ← ei, ← ej]
    omega

/-! ## Several refinements -/

omit [IsStrictOrderedRing K] in
theorem tiles_trans {M M0 M1 : RMesh E} {n : Nat} {cmap : List Nat} {vmap : List (Nat × Nat)} (h0 : M0.OK n) (t0 : Tiles K M M0) (t1 : Tiles K M0 M1)
    (hc : pyMap (pyGet M0.cmap) M1.cmap = .ok cmap) : Tiles K M ⟨M1.coords, M1.cells, vmap, cmap⟩ := by
  rw [pyMap_eq_ok] at hc
  have key : ∀ (i c : Nat), cmap[i]? = some c ↔ ∃ a : Nat, M1.cmap[i]? = some a ∧ M0.cmap[a]? = some c := by
    intro i c
    have hlen := hc.length_eq
    rw [List.forall₂_iff_get] at hc
    constructor
    · intro h
      obtain ⟨hi, rfl⟩ := List.getElem?_eq_some_iff.1 h
      exact ⟨M1.cmap[i], List.getElem?_eq_getElem (by omega), pyGet_eq_ok.1 (hc.2 i (by omega) hi)⟩
    · rintro ⟨a, h1, h2⟩
      obtain ⟨hi, rfl⟩ := List.getElem?_eq_some_iff.1 h1
      have := pyGet_eq_ok.1 (hc.2 i hi (by omega))
      simp only [List.get_eq_getElem] at this
      rw [h2] at this
      rw [List.getElem?_eq_getElem (by omega), this]
  have cell : ∀ i l, IsCell (⟨M1.coords, M1.cells, vmap, cmap⟩ : RMesh E) i l ↔ IsCell M1 i l := fun _ _ => Iff.rfl
  have pcell : ∀ {i a : Nat}, M1.cmap[i]? = some a → ∃ la, IsCell M0 a la := by
    intro i a h
    have hi := (List.getElem?_eq_some_iff.1 h).1
    rw [t1.nomore] at hi
    obtain ⟨a', ha', h'⟩ := t1.parent i hi
    rw [h] at h'
    injection h' with h'
    subst h'
    exact isCell_exists h0 ha'
  constructor
  · intro i hi
    obtain ⟨a, ha, h1⟩ := t1.parent i hi
    obtain ⟨c, hc, h2⟩ := t0.parent a ha
    exact ⟨c, hc, (key i c).2 ⟨a, h1, h2⟩⟩
  · change cmap.length = M1.cells.length
    rw [← hc.length_eq, t1.nomore]
  · intro c l hl y
    constructor
    · intro hy
      obtain ⟨a, la, h2, hla, hy⟩ := (t0.union c l hl y).1 hy
      obtain ⟨i, li, h1, hli, hy⟩ := (t1.union a la hla y).1 hy
      exact ⟨i, li, (key i c).2 ⟨a, h1, h2⟩, hli, hy⟩
    · rintro ⟨i, li, hic, hli, hy⟩
      obtain ⟨a, h1, h2⟩ := (key i c).1 hic
      obtain ⟨la, hla⟩ := pcell h1
      exact (t0.union c l hl y).2 ⟨a, la, h2, hla, (t1.union a la hla y).2 ⟨i, li, h1, hli, hy⟩⟩
  · intro c l hl i li hic hli y hy
    obtain ⟨a, h1, h2⟩ := (key i c).1 hic
    obtain ⟨la, hla⟩ := pcell h1
    exact t0.interior c l hl a la h2 hla y (t1.interior a la hla i li h1 hli y hy)
  · intro c l hl ha i li hic hli
    obtain ⟨a, h1, h2⟩ := (key i c).1 hic
    obtain ⟨la, hla⟩ := pcell h1
    exact t1.nondegenerate a la hla (t0.nondegenerate c l hl ha a la h2 hla) i li h1 hli
  · intro c l hl ha i j hij hic hjc li lj hli hlj y hyi hyj
    obtain ⟨a, h1, h2⟩ := (key i c).1 hic
    obtain ⟨b, h3, h4⟩ := (key j c).1 hjc
    obtain ⟨la, hla⟩ := pcell h1
    obtain ⟨lb, hlb⟩ := pcell h3
    by_cases hab : a = b
    · subst hab
      exact t1.disjoint a la hla (t0.nondegenerate c l hl ha a la h2 hla) i j hij h1 h3 li lj hli hlj y hyi hyj
    · exact t0.disjoint c l hl ha a b hab h2 h4 la lb hla hlb y (t1.interior a la hla i li h1 hli y hyi)
        (t1.interior b lb hlb j lj h3 hlj y hyj)

/-- The state of the loop. -/
structure Level (M F : RMesh E) (n k : Nat) : Prop where
  ok : F.OK n
  pos : 2 ≤ n
  tiles : Tiles K M F
  coords : M.coords <+: F.coords
  vmap : F.vmap = (List.range M.coords.length).map (fun v => (v, v))
  ncells : F.cells.length = M.cells.length * n ^ k
  cmap : ∀ i, i < F.cells.length → F.cmap[i]? = some (i / n ^ k)

theorem level_step {area : List E → K} {newPts : List E → List (List Nat) → List E}
    {hmin : List E → List (List Nat) → K} {strict : K} {tdim n : Nat} (hp : Inner K newPts n) {M M0 M1 : RMesh E}
    {k : Nat} (h0 : Level (K := K) M M0 n k) (h : refineOnce area newPts hmin strict tdim n M0 = .ok M1) {cmap : List Nat}
    (hc : pyMap (pyGet M0.cmap) M1.cmap = .ok cmap) :
    (M1.vmap.filter (fun p => decide (p.2 ∈ List.range M.coords.length))).map (fun p => p.1) = List.range M.coords.length ∧
    Level (K := K) M ⟨M1.coords, M1.cells, (List.range M.coords.length).zip (List.range M.coords.length), cmap⟩ n (k + 1) := by
  obtain ⟨x, hs, hx⟩ := step h0.ok hp h
  have hn : 0 < n := by have := hs.pos; omega
  have t := tiles_trans (vmap := (List.range M.coords.length).zip (List.range M.coords.length)) h0.ok h0.tiles (hs.tiles h0.ok hx) hc
  constructor
  · rw [hs.vmap]
    have hle : M.coords.length ≤ M0.coords.length := h0.coords.length_le
    obtain ⟨d, hd⟩ := Nat.exists_eq_add_of_le hle
    rw [hd, List.range_add, List.map_append, List.filter_append, List.map_append]
    rw [List.filter_eq_self.2 (by simp), List.filter_eq_nil_iff.2 (by simp)]
    simp [List.map_map, Function.comp_def]
  · refine ⟨hs.ok, h0.pos, t, h0.coords.trans hs.coords, ?_, ?_, ?_⟩
    · change (List.range M.coords.length).zip (List.range M.coords.length) = _
      generalize List.range M.coords.length = r
      induction r with
      | nil => rfl
      | cons a r ih => rw [List.zip_cons_cons, ih, List.map_cons]
    · change M1.cells.length = _
      rw [hs.ncells, h0.ncells, pow_succ, mul_assoc]
    · intro i hi
      change i < M1.cells.length at hi
      rw [hs.ncells] at hi
      rw [pyMap_eq_ok] at hc
      have hlen := hc.length_eq
      rw [List.forall₂_iff_get] at hc
      have hi' : i < M1.cmap.length := by
        rw [(hs.tiles h0.ok hx).nomore, hs.ncells]; exact hi
      have := pyGet_eq_ok.1 (hc.2 i hi' (by omega))
      have e : M1.cmap.get ⟨i, hi'⟩ = i / n := by
        have := childToParent_get n M0.cells.length i
        rw [if_pos hi, ← hs.cmap, List.getElem?_eq_getElem hi'] at this
        simpa using this
      rw [e, h0.cmap (i / n) ((Nat.div_lt_iff_lt_mul hn).2 hi)] at this
      change cmap[i]? = _
      rw [List.getElem?_eq_getElem (by omega)]
      rw [pow_succ', ← Nat.div_div_eq_div_mul]
      exact this.symm

theorem refineMore_level {area : List E → K} {newPts : List E → List (List Nat) → List E}
    {hmin : List E → List (List Nat) → K} {strict : K} {tdim n : Nat} (hp : Inner K newPts n) {M : RMesh E} :
    ∀ (m : Nat) {M0 F : RMesh E} {k : Nat}, Level (K := K) M M0 n k →
    refineMore area newPts hmin strict tdim n m M0 (List.range M.coords.length) (List.range M.coords.length) = .ok F →
    Level (K := K) M F n (k + m)
  | 0, M0, F, k, h0, h => by
      unfold refineMore at h
      injection h with h
      subst h
      exact h0
  | m + 1, M0, F, k, h0, h => by
      unfold refineMore at h
      rw [py_bind_eq_ok] at h
      obtain ⟨M1, h1, h⟩ := h
      rw [py_bind_eq_ok] at h
      obtain ⟨cmap, hc, h⟩ := h
      obtain ⟨e, hl⟩ := level_step hp h0 h1 hc
      dsimp only at h
      rw [e] at h
      rw [py_bind_eq_ok] at h
      obtain ⟨_, _, h⟩ := h
      have := refineMore_level hp m hl h
      rw [Nat.add_right_comm] at this
      exact this

end Verif.Refine
