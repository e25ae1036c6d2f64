import Verif.Lemmas.Dual3
import Mathlib.Algebra.Order.Group.Abs
import Mathlib.Algebra.Order.Ring.Abs
import Mathlib.Algebra.Module.Prod
/-!
# The loop of subdivisions
-/
namespace Verif.Dual
open Verif Verif.BlockOps
variable {K E : Type} [Field K] [LinearOrder K] [IsStrictOrderedRing K] [AddCommGroup E] [Module K E]
variable {topo : TMesh E → Topo} {order : List Nat → List Nat} {center : List E → Py E}

theorem filter_refs {n m : Nat} (h : m ≤ n) :
    ((List.range n).zipIdx.filter (fun p => decide (p.1 ∈ List.range m))).map (fun p => p.2) = List.range m := by
  have h1 : (List.range n).zipIdx = (List.range n).map (fun i => (i, i)) := by
    apply List.ext_getElem
    · simp
    · intro i h1 h2
      simp
  rw [h1, List.filter_map, List.map_map]
  have h2 : ((fun p : Nat × Nat => p.2) ∘ fun i => (i, i)) = id := rfl
  rw [h2, List.map_id]
  obtain ⟨d, rfl⟩ := Nat.exists_eq_add_of_le h
  rw [List.range_add, List.filter_append]
  have h3 : (List.range m).filter ((fun p : Nat × Nat => decide (p.1 ∈ List.range m)) ∘ fun i => (i, i)) = List.range m := by
    rw [List.filter_eq_self]
    intro a ha
    simpa using ha
  have h4 : ((List.range d).map (m + ·)).filter ((fun p : Nat × Nat => decide (p.1 ∈ List.range m)) ∘ fun i => (i, i)) = [] := by
    rw [List.filter_eq_nil_iff]
    intro a ha
    obtain ⟨b, _, rfl⟩ := List.mem_map.1 ha
    simp
  rw [h3, h4, List.append_nil]

omit [LinearOrder K] [IsStrictOrderedRing K] in
theorem points3 {M : TMesh E} (hM : M.OK) {cell : List Nat} (h : cell ∈ M.cells) :
    ∃ a b c, points M.verts cell = .ok [a, b, c] ∧ ∃ k, M.At k a b c := by
  obtain ⟨ia, ib, ic, rfl, _, _, _, ha, hb, hc⟩ := hM.2 cell h
  obtain ⟨k, hk⟩ := List.mem_iff_getElem?.1 h
  refine ⟨M.verts[ia], M.verts[ib], M.verts[ic], ?_, k, ia, ib, ic, hk, List.getElem?_eq_getElem ha,
    List.getElem?_eq_getElem hb, List.getElem?_eq_getElem hc⟩
  have hg : ∀ {i : Nat} (hi : i < M.verts.length), pyGet M.verts i = .ok M.verts[i] := by
    intro i hi
    rw [pyGet_eq_ok, List.getElem?_eq_getElem]
  simp only [points, pyMap, hg ha, hg hb, hg hc, py_bind_ok, py_pure]

omit [LinearOrder K] [IsStrictOrderedRing K] in
theorem dualTriangle_total {M : TMesh E} (hM : M.OK) (hF : FacetsOK M (topo M))
    (hc : ∀ k a b c, M.At k a b c → ∃ z, center [a, b, c] = .ok z) :
    ∃ r, dualTriangle K topo order center M = .ok r := by
  have h1 : ∃ cs, pyMap (fun c => do
      let xs ← points M.verts c
      center xs) M.cells = .ok cs := by
    have : ∀ cell ∈ M.cells, ∃ z, (do let xs ← points M.verts cell; center xs) = Except.ok z := by
      intro cell hcell
      obtain ⟨a, b, c, h2, k, h3⟩ := points3 hM hcell
      obtain ⟨z, hz⟩ := hc k a b c h3
      exact ⟨z, by rw [h2, py_bind_ok, hz]⟩
    choose! g hg using this
    exact ⟨_, pyMap_ok (g := g) hg⟩
  have h2 : ∃ ms, pyMap (fun f => do
      let xs ← points M.verts ((topo M).f2v f)
      midpoint K xs) (List.range (topo M).nf) = .ok ms := by
    have : ∀ f ∈ List.range (topo M).nf,
        ∃ z, (do let xs ← points M.verts ((topo M).f2v f); midpoint K xs) = Except.ok z := by
      intro f hf
      obtain ⟨v, w, h3, hv, hw⟩ := hF f (List.mem_range.1 hf)
      have hg : ∀ {i : Nat} (hi : i < M.verts.length), pyGet M.verts i = .ok M.verts[i] := by
        intro i hi
        rw [pyGet_eq_ok, List.getElem?_eq_getElem]
      rw [h3]
      simp only [points, pyMap, hg hv, hg hw, py_bind_ok, py_pure, midpoint]
      exact ⟨_, rfl⟩
    choose! g hg using this
    exact ⟨_, pyMap_ok (g := g) hg⟩
  obtain ⟨cs, h1⟩ := h1
  obtain ⟨ms, h2⟩ := h2
  unfold dualTriangle
  dsimp only
  rw [h1, py_bind_ok, h2, py_bind_ok, if_neg (fun e => hM.1 (List.length_eq_zero_iff.1 e)), py_bind_ok]
  exact ⟨_, rfl⟩

/-! ## Areas -/

omit [IsStrictOrderedRing K] in
theorem det_perm [IsStrictOrderedRing K] {i j l x y z : Nat} {vs : List (K × K)} {a b c a' b' c' : K × K} (h : [i, j, l].Perm [x, y, z])
    (hi : vs[i]? = some a) (hj : vs[j]? = some b) (hl : vs[l]? = some c) (hx : vs[x]? = some a') (hy : vs[y]? = some b')
    (hz : vs[z]? = some c') : |det a b c| = |det a' b' c'| := by
  have e : ∀ {n : Nat} {u v : K × K}, vs[n]? = some u → vs[n]? = some v → u = v := by
    intro n u v h1 h2
    rw [h1] at h2
    injection h2
  have s12 : ∀ a b c : K × K, det b a c = -det a b c := by intro a b c; simp only [det]; ring
  have s23 : ∀ a b c : K × K, det a c b = -det a b c := by intro a b c; simp only [det]; ring
  rcases perm3 h with ⟨rfl, rfl, rfl⟩ | ⟨rfl, rfl, rfl⟩ | ⟨rfl, rfl, rfl⟩ | ⟨rfl, rfl, rfl⟩ | ⟨rfl, rfl, rfl⟩ | ⟨rfl, rfl, rfl⟩
  · rw [e hi hx, e hj hy, e hl hz]
  · rw [e hi hx, e hj hz, e hl hy, s23, abs_neg]
  · rw [e hi hy, e hj hx, e hl hz, s12, abs_neg]
  · rw [e hi hy, e hj hz, e hl hx, s23 b' a' c', s12 a' b' c', neg_neg]
  · rw [e hi hz, e hj hx, e hl hy, s12 a' c' b', s23 a' b' c', neg_neg]
  · rw [e hi hz, e hj hy, e hl hx, s12 b' c' a', s23 b' a' c', s12 a' b' c', neg_neg, abs_neg]

/-- A sixth. -/
theorem det_part (a b c : K × K) : 6 * |det ((1 / 3 : K) • (a + b + c)) ((1 / 2 : K) • (a + b)) a| = |det a b c| := by
  have h : det a b c = 6 * det ((1 / 3 : K) • (a + b + c)) ((1 / 2 : K) • (a + b)) a ∨
      det a b c = -(6 * det ((1 / 3 : K) • (a + b + c)) ((1 / 2 : K) • (a + b)) a) := by
    right
    simp only [det, Prod.fst_add, Prod.snd_add, Prod.smul_fst, Prod.smul_snd, smul_eq_mul]
    field_simp
    ring
  rcases h with h | h
  · rw [h, abs_mul, abs_of_pos (by norm_num : (0 : K) < 6)]
  · rw [h, abs_neg, abs_mul, abs_of_pos (by norm_num : (0 : K) < 6)]

theorem made_areas {topo : TMesh (K × K) → Topo} {M M' : TMesh (K × K)} {cmap : List Nat} (hT : TopoOK M (topo M)) (hM : M.OK)
    (ho : ∀ l, (order l).Perm l) (h : Made K topo order (centroid K) M M' cmap) : Areas 6 M M' cmap := by
  rintro j k a b c a' b' c' hj ⟨ia, ib, ic, hcell, hva, hvb, hvc⟩ ⟨i', j', l', hcj, hi', hj', hl'⟩
  obtain ⟨hk, c0, hc0, hcc⟩ := (mem_cells hT hM h).1 ⟨j, hj, hcj⟩
  obtain ⟨ia', ib', ic', he, hab, hac, hbc, ha, hb, hcl⟩ := hM.2 _ (List.getElem_mem hk)
  rw [List.getElem?_eq_getElem hk, he] at hcell
  injection hcell with hcell
  injection hcell with e1 hcell
  injection hcell with e2 hcell
  injection hcell with e3 _
  subst e1 e2 e3
  have hcell : M.cells[k]? = some [ia', ib', ic'] := by rw [List.getElem?_eq_getElem hk, he]
  obtain ⟨_, hp1, _⟩ := mem_parts (nv := M.verts.length) (nc := M.cells.length) hT hcell
  obtain ⟨f, v, w, rfl, hf1, hf2, hf3⟩ := hp1 c0 hc0
  have fin : ∀ x y u : K × K, M.verts[v]? = some x → M.verts[w]? = some y → a + b + c = x + y + u →
      6 * |det a' b' c'| = |det x y u| := by
    intro x y u hx hy hs
    obtain ⟨z, hz1, hz2, hz3, hz4⟩ := part_points hT h hcell hva hvb hvc hf1 hf2 hx hy
    unfold centroid at hz1
    injection hz1 with hz1
    rw [det_perm (by rw [hcc]; exact ho _) hi' hj' hl' hz2 hz3 hz4, ← hz1, hs]
    exact det_part x y u
  have s12 : ∀ a b c : K × K, |det b a c| = |det a b c| := by
    intro a b c
    have : det b a c = -det a b c := by simp only [det]; ring
    rw [this, abs_neg]
  have s23 : ∀ a b c : K × K, |det a c b| = |det a b c| := by
    intro a b c
    have : det a c b = -det a b c := by simp only [det]; ring
    rw [this, abs_neg]
  rcases pair_cases hab hac hbc hf3 with ⟨rfl, rfl⟩ | ⟨rfl, rfl⟩ | ⟨rfl, rfl⟩ | ⟨rfl, rfl⟩ | ⟨rfl, rfl⟩ | ⟨rfl, rfl⟩
  · rw [fin b c a hvb hvc (by module), s23 b a c, s12]
  · rw [fin c b a hvc hvb (by module), s12 b c a, s23 b a c, s12]
  · rw [fin a c b hva hvc (by module), s23]
  · rw [fin c a b hvc hva (by module), s12 a c b, s23]
  · rw [fin a b c hva hvb (by module)]
  · rw [fin b a c hvb hva (by module), s12]

/-! ## The loop -/

/-- What the loop keeps. -/
structure Inv (K : Type) [Field K] [LinearOrder K] [Module K E] (M M0 : TMesh E) (refs cmap : List Nat) : Prop where
  ok : M0.OK
  sub : Subdivides K M M0 cmap
  refs : refs = List.range M.verts.length

theorem dualStep_ok (hT : ∀ M : TMesh E, M.OK → TopoOK M (topo M)) (ho : ∀ l, (order l).Perm l)
    (hc : ∀ a b c z, center [a, b, c] = .ok z → InTri K z a b c) {M M0 M1 : TMesh E} {refs cmap0 refs1 cmap1 : List Nat}
    (hI : Inv K M M0 refs cmap0)
    (h : dualStep K topo order center (List.range M.verts.length) M0 refs cmap0 = .ok (M1, refs1, cmap1)) :
    Inv K M M1 refs1 cmap1 ∧ ∃ c, Made K topo order center M0 M1 c ∧ pyMap (pyGet cmap0) c = .ok cmap1 := by
  unfold dualStep at h
  simp only [py_bind_eq_ok] at h
  obtain ⟨⟨M1', vmap1, c⟩, h1, cm, h2, _, _, h3⟩ := h
  injection h3 with h3
  rw [Prod.mk.injEq, Prod.mk.injEq] at h3
  obtain ⟨rfl, rfl, rfl⟩ := h3
  obtain ⟨rfl, hm⟩ := dualTriangle_ok h1
  have hT0 := hT M0 hI.ok
  have hs := made_subdivides hT0 hI.ok ho (fun k a b c z _ hz => hc a b c z hz) hm
  refine ⟨⟨made_ok hT0 hI.ok ho hm, subdivides_trans hI.sub hs h2, ?_⟩, c, hm, h2⟩
  rw [hI.refs]
  exact filter_refs hI.sub.verts.length_le

theorem dualStep_total (hT : ∀ M : TMesh E, M.OK → TopoOK M (topo M)) (hF : ∀ M : TMesh E, M.OK → FacetsOK M (topo M))
    (hc : ∀ a b c, ∃ z, center [a, b, c] = .ok z) (ho : ∀ l, (order l).Perm l)
    (hcin : ∀ a b c z, center [a, b, c] = .ok z → InTri K z a b c) {M M0 : TMesh E} {refs cmap0 : List Nat}
    (hI : Inv K M M0 refs cmap0) :
    ∃ r, dualStep K topo order center (List.range M.verts.length) M0 refs cmap0 = .ok r := by
  obtain ⟨⟨M1, vmap1, c⟩, h1⟩ := dualTriangle_total (K := K) (order := order) hI.ok (hF M0 hI.ok)
    (fun _ a b c _ => hc a b c)
  obtain ⟨rfl, hm⟩ := dualTriangle_ok h1
  have hs := made_subdivides (hT M0 hI.ok) hI.ok ho (fun k a b c z _ hz => hcin a b c z hz) hm
  have h2 : ∃ cm, pyMap (pyGet cmap0) c = .ok cm := by
    refine ⟨c.map (fun i => cmap0.getD i 0), pyMap_ok (g := fun i => cmap0.getD i 0) ?_⟩
    intro i hi
    have := hs.range i hi
    rw [← hI.sub.length] at this
    rw [pyGet_eq_ok, List.getD_eq_getElem?_getD, List.getElem?_eq_getElem this]
    rfl
  obtain ⟨cm, h2⟩ := h2
  unfold dualStep
  rw [h1, py_bind_ok]
  dsimp only
  rw [h2, py_bind_ok, hI.refs, filter_refs hI.sub.verts.length_le]
  simp only [decide_true, pyAssert_true, py_bind_ok]
  exact ⟨_, rfl⟩

theorem dualLoop_ok (hT : ∀ M : TMesh E, M.OK → TopoOK M (topo M)) (hF : ∀ M : TMesh E, M.OK → FacetsOK M (topo M))
    (hc : ∀ a b c, ∃ z, center [a, b, c] = .ok z) (ho : ∀ l, (order l).Perm l)
    (hcin : ∀ a b c z, center [a, b, c] = .ok z → InTri K z a b c) {M : TMesh E} (n : Nat) {M0 : TMesh E}
    {refs cmap0 : List Nat} (hI : Inv K M M0 refs cmap0) :
    ∃ M1 refs1 cmap1, dualLoop K topo order center (List.range M.verts.length) n M0 refs cmap0 = .ok (M1, refs1, cmap1) ∧
      Inv K M M1 refs1 cmap1 := by
  induction n generalizing M0 refs cmap0 with
  | zero => exact ⟨M0, refs, cmap0, rfl, hI⟩
  | succ n ih =>
      obtain ⟨⟨M1, refs1, cmap1⟩, h⟩ := dualStep_total hT hF hc ho hcin hI
      obtain ⟨hI1, _⟩ := dualStep_ok hT ho hcin hI h
      obtain ⟨M2, refs2, cmap2, h2, hI2⟩ := ih hI1
      refine ⟨M2, refs2, cmap2, ?_, hI2⟩
      unfold dualLoop
      rw [h, py_bind_ok]
      exact h2

omit [IsStrictOrderedRing K] in
theorem areas_trans {M M0 M1 : TMesh (K × K)} {c0 c1 c : List Nat} {r s : K} (hM0 : M0.OK) (h0 : Areas r M M0 c0)
    (h1 : Areas s M0 M1 c1) (hl : c0.length = M0.cells.length) (hc : pyMap (pyGet c0) c1 = .ok c) :
    Areas (r * s) M M1 c := by
  intro j k a b c' x y z hj hk hx
  rw [pyMap_eq_ok] at hc
  have hjl := (List.getElem?_eq_some_iff.1 hj).1
  have hjl1 : j < c1.length := by rw [hc.length_eq]; exact hjl
  have h2 := List.Forall₂.get hc (i := j) hjl1 hjl
  simp only [List.get_eq_getElem] at h2
  rw [pyGet_eq_ok] at h2
  rw [List.getElem?_eq_getElem hjl] at hj
  injection hj with hj
  rw [hj] at h2
  have hil : c1[j] < M0.cells.length := by rw [← hl]; exact (List.getElem?_eq_some_iff.1 h2).1
  obtain ⟨ia, ib, ic, he, _, _, _, ha, hb, hcl⟩ := hM0.2 _ (List.getElem_mem hil)
  have hAt : M0.At c1[j] M0.verts[ia] M0.verts[ib] M0.verts[ic] :=
    ⟨ia, ib, ic, by rw [List.getElem?_eq_getElem hil, he], List.getElem?_eq_getElem ha, List.getElem?_eq_getElem hb,
      List.getElem?_eq_getElem hcl⟩
  rw [mul_assoc, h1 j c1[j] _ _ _ x y z (List.getElem?_eq_getElem hjl1) hAt hx]
  exact h0 c1[j] k a b c' _ _ _ h2 hk hAt

theorem dualLoop_areas {topo : TMesh (K × K) → Topo} (hT : ∀ M : TMesh (K × K), M.OK → TopoOK M (topo M))
    (ho : ∀ l, (order l).Perm l) (hcin : ∀ a b c z, centroid (E := K × K) K [a, b, c] = .ok z → InTri K z a b c)
    {M : TMesh (K × K)} (n : Nat) {M0 M1 : TMesh (K × K)} {refs cmap0 refs1 cmap1 : List Nat} {r : K}
    (hI : Inv K M M0 refs cmap0) (hA : Areas r M M0 cmap0)
    (h : dualLoop K topo order (centroid K) (List.range M.verts.length) n M0 refs cmap0 = .ok (M1, refs1, cmap1)) :
    Areas (r * 6 ^ n) M M1 cmap1 := by
  induction n generalizing M0 refs cmap0 r with
  | zero =>
      injection h with h
      rw [Prod.mk.injEq, Prod.mk.injEq] at h
      obtain ⟨rfl, rfl, rfl⟩ := h
      simpa using hA
  | succ n ih =>
      unfold dualLoop at h
      obtain ⟨⟨M2, refs2, cmap2⟩, h1, h⟩ := py_bind_eq_ok.1 h
      dsimp only at h
      obtain ⟨hI2, c, hm, hcm⟩ := dualStep_ok hT ho hcin hI h1
      have hA2 : Areas (r * 6) M M2 cmap2 :=
        areas_trans hI.ok hA (made_areas (hT M0 hI.ok) hI.ok ho hm) hI.sub.length hcm
      have := ih hI2 hA2 h
      rwa [mul_assoc, ← pow_succ'] at this

end Verif.Dual
