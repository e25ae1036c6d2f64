import Verif.Lemmas.Dual
/-!
# One subdivision of a mesh
-/
namespace Verif.Dual
open Verif Verif.BlockOps
variable {K E : Type} [Field K] [LinearOrder K] [IsStrictOrderedRing K] [AddCommGroup E] [Module K E]

theorem zip_flatMap {α β γ : Type} (f : α → List β) (g : α → List γ) (l : List α) (h : ∀ a ∈ l, (f a).length = (g a).length) :
    (l.flatMap f).zip (l.flatMap g) = l.flatMap (fun a => (f a).zip (g a)) := by
  induction l with
  | nil => rfl
  | cons a l ih =>
      rw [List.flatMap_cons, List.flatMap_cons, List.flatMap_cons, List.zip_append (h a (List.mem_cons_self ..)),
        ih (fun b hb => h b (List.mem_cons_of_mem _ hb))]

theorem exists_zip {α β : Type} {l : List α} {l' : List β} {a : α} {b : β} :
    (∃ j : Nat, l[j]? = some a ∧ l'[j]? = some b) ↔ (a, b) ∈ l.zip l' := by
  rw [List.mem_iff_getElem?]
  constructor
  · rintro ⟨j, h1, h2⟩
    exact ⟨j, by rw [List.getElem?_zip_eq_some]; exact ⟨h1, h2⟩⟩
  · rintro ⟨j, h⟩
    rw [List.getElem?_zip_eq_some] at h
    exact ⟨j, h⟩

omit [Field K] [LinearOrder K] [IsStrictOrderedRing K] [Module K E] in
/-- The parts of a cell, as edges and vertices on them. -/
theorem mem_parts {M : TMesh E} {T : Topo} (hT : TopoOK M T) {k a b c nv nc : Nat} (hk : M.cells[k]? = some [a, b, c]) :
    (cellParts T nv nc k).length = 6 ∧
    (∀ cell ∈ cellParts T nv nc k, ∃ f v w, cell = [nv + k, nv + nc + f, v] ∧ f < T.nf ∧ (T.f2v f).Perm [v, w] ∧
      ({v, w} : Finset Nat) ∈ ([{b, c}, {a, c}, {a, b}] : List (Finset Nat))) ∧
    (∀ v w, v ≠ w → ({v, w} : Finset Nat) ∈ ([{b, c}, {a, c}, {a, b}] : List (Finset Nat)) →
      ∃ f, f < T.nf ∧ (T.f2v f).Perm [v, w] ∧ [nv + k, nv + nc + f, v] ∈ cellParts T nv nc k) := by
  obtain ⟨hp, hf⟩ := hT k a b c hk
  have hlen : (T.c2f k).length = 3 := by have := hp.length_eq; simpa using this
  refine ⟨?_, ?_, ?_⟩
  · unfold cellParts
    rw [List.length_flatMap]
    have : (T.c2f k).map (fun f => ((T.f2v f).map (fun v => [nv + k, nv + nc + f, v])).length) = List.replicate 3 2 := by
      rw [List.eq_replicate_iff]
      refine ⟨by simpa using hlen, ?_⟩
      intro x hx
      obtain ⟨f, hfm, rfl⟩ := List.mem_map.1 hx
      rw [List.length_map]
      exact (hf f hfm).2
    rw [this]
    rfl
  · intro cell hc
    unfold cellParts at hc
    rw [List.mem_flatMap] at hc
    obtain ⟨f, hfm, hc⟩ := hc
    obtain ⟨v, hv, rfl⟩ := List.mem_map.1 hc
    have hmem : (T.f2v f).toFinset ∈ ([{b, c}, {a, c}, {a, b}] : List (Finset Nat)) :=
      hp.mem_iff.1 (List.mem_map.2 ⟨f, hfm, rfl⟩)
    have hl := (hf f hfm).2
    match hfv : T.f2v f, hl with
    | [x, y], _ =>
        rw [hfv] at hv hmem
        have hxy : ([x, y] : List Nat).toFinset = {x, y} := by simp
        rw [hxy] at hmem
        simp only [List.mem_cons, List.not_mem_nil, or_false] at hv
        rcases hv with rfl | rfl
        · exact ⟨f, v, y, rfl, (hf f hfm).1, by rw [hfv], hmem⟩
        · exact ⟨f, v, x, rfl, (hf f hfm).1, by rw [hfv]; exact List.Perm.swap _ _ _, by rw [Finset.pair_comm v x]; exact hmem⟩
  · intro v w hvw hm
    have := hp.mem_iff.2 hm
    obtain ⟨f, hfm, hfe⟩ := List.mem_map.1 this
    have hl := (hf f hfm).2
    have hperm : (T.f2v f).Perm [v, w] := by
      match hfv : T.f2v f, hl with
      | [x, y], _ =>
          rw [hfv] at hfe
          have h1 : v ∈ ([x, y] : List Nat).toFinset := by rw [hfe]; simp
          have h2 : w ∈ ([x, y] : List Nat).toFinset := by rw [hfe]; simp
          simp only [List.mem_toFinset, List.mem_cons, List.not_mem_nil, or_false] at h1 h2
          rcases h1 with rfl | rfl <;> rcases h2 with rfl | rfl
          · exact absurd rfl hvw
          · exact List.Perm.refl _
          · exact List.Perm.swap _ _ _
          · exact absurd rfl hvw
    refine ⟨f, (hf f hfm).1, hperm, ?_⟩
    unfold cellParts
    rw [List.mem_flatMap]
    exact ⟨f, hfm, List.mem_map.2 ⟨v, hperm.mem_iff.2 (by simp), rfl⟩⟩

omit [Field K] [LinearOrder K] [IsStrictOrderedRing K] [Module K E] in
theorem pair_cases {a b c v w : Nat} (hab : a ≠ b) (hac : a ≠ c) (hbc : b ≠ c)
    (h : ({v, w} : Finset Nat) ∈ ([{b, c}, {a, c}, {a, b}] : List (Finset Nat))) :
    (v = b ∧ w = c) ∨ (v = c ∧ w = b) ∨ (v = a ∧ w = c) ∨ (v = c ∧ w = a) ∨ (v = a ∧ w = b) ∨ (v = b ∧ w = a) := by
  have pr : ∀ {x y : Nat}, x ≠ y → ({v, w} : Finset Nat) = {x, y} → (v = x ∧ w = y) ∨ (v = y ∧ w = x) := by
    intro x y hxy he
    have h1 : v ∈ ({x, y} : Finset Nat) := by rw [← he]; simp
    have h2 : w ∈ ({x, y} : Finset Nat) := by rw [← he]; simp
    have h3 : x ∈ ({v, w} : Finset Nat) := by rw [he]; simp
    have h4 : y ∈ ({v, w} : Finset Nat) := by rw [he]; simp
    simp only [Finset.mem_insert, Finset.mem_singleton] at h1 h2 h3 h4
    omega
  simp only [List.mem_cons, List.not_mem_nil, or_false] at h
  rcases h with h | h | h
  · rcases pr hbc h with h | h
    · exact .inl h
    · exact .inr (.inl h)
  · rcases pr hac h with h | h
    · exact .inr (.inr (.inl h))
    · exact .inr (.inr (.inr (.inl h)))
  · rcases pr hab h with h | h
    · exact .inr (.inr (.inr (.inr (.inl h))))
    · exact .inr (.inr (.inr (.inr (.inr h))))

/-- What `dualTriangle` makes. -/
structure Made (K : Type) [Field K] [Module K E] (topo : TMesh E → Topo) (order : List Nat → List Nat) (center : List E → Py E)
    (M M' : TMesh E) (cmap : List Nat) : Prop where
  cells : M'.cells = ((List.range M.cells.length).flatMap (cellParts (topo M) M.verts.length M.cells.length)).map order
  cmap : cmap = (List.range M.cells.length).flatMap (fun k => List.replicate 6 k)
  verts : M.verts <+: M'.verts
  centers : ∀ (k : Nat) a b c, M.At k a b c → ∃ z, center [a, b, c] = .ok z ∧ M'.verts[M.verts.length + k]? = some z
  mids : ∀ f, f < (topo M).nf → ∀ (v w : Nat) x y, (topo M).f2v f = [v, w] → M.verts[v]? = some x → M.verts[w]? = some y →
    M'.verts[M.verts.length + M.cells.length + f]? = some ((1 / 2 : K) • (x + y))
  length : M'.verts.length = M.verts.length + M.cells.length + (topo M).nf

omit [LinearOrder K] [IsStrictOrderedRing K] in
theorem dualTriangle_ok {topo : TMesh E → Topo} {order : List Nat → List Nat} {center : List E → Py E} {M M' : TMesh E}
    {vmap cmap : List Nat} (h : dualTriangle K topo order center M = .ok (M', vmap, cmap)) :
    vmap = List.range M.verts.length ∧ Made K topo order center M M' cmap := by
  unfold dualTriangle at h
  simp only [py_bind_eq_ok] at h
  obtain ⟨centers, hc, mids, hm, _, _, h⟩ := h
  injection h with h
  rw [Prod.mk.injEq, Prod.mk.injEq] at h
  obtain ⟨rfl, rfl, rfl⟩ := h
  rw [pyMap_eq_ok] at hc hm
  have hlc := hc.length_eq
  have hlm := hm.length_eq
  rw [List.length_range] at hlm
  refine ⟨rfl, rfl, rfl, ?_, ?_, ?_, ?_⟩
  · dsimp only
    rw [List.append_assoc]
    exact List.prefix_append ..
  · rintro k a b c ⟨i, j, l, h1, h2, h3, h4⟩
    have hk := (List.getElem?_eq_some_iff.1 h1).1
    have h5 := List.Forall₂.get hc (i := k) hk (by omega)
    simp only [List.get_eq_getElem] at h5
    rw [List.getElem?_eq_getElem hk] at h1
    injection h1 with h1
    rw [h1, py_bind_eq_ok] at h5
    obtain ⟨xs, hxs, h5⟩ := h5
    unfold points at hxs
    have hxs2 : xs = [a, b, c] := by
      simp only [pyMap, py_bind_eq_ok] at hxs
      obtain ⟨a', ha', r1, ⟨b', hb', r2, ⟨c', hc', r3, e3, e2⟩, e1⟩, e0⟩ := hxs
      rw [pyGet_eq_ok] at ha' hb' hc'
      rw [h2] at ha'
      rw [h3] at hb'
      rw [h4] at hc'
      injection ha' with ha'
      injection hb' with hb'
      injection hc' with hc'
      simp only [py_pure] at e0 e1 e2 e3
      injection e0 with e0
      injection e1 with e1
      injection e2 with e2
      injection e3 with e3
      rw [← e0, ← e1, ← e2, ← e3, ha', hb', hc']
    rw [hxs2] at h5
    refine ⟨centers[k]'(by omega), h5, ?_⟩
    dsimp only
    rw [List.append_assoc, List.getElem?_append_right (by omega), Nat.add_sub_cancel_left,
      List.getElem?_append_left (by omega), List.getElem?_eq_getElem]
  · intro f hf v w x y hfv hx hy
    have h5 := List.Forall₂.get hm (i := f) (by simpa using hf) (by omega)
    simp only [List.get_eq_getElem, List.getElem_range] at h5
    rw [hfv, py_bind_eq_ok] at h5
    obtain ⟨xs, hxs, h5⟩ := h5
    unfold points at hxs
    have hxs2 : xs = [x, y] := by
      simp only [pyMap, py_bind_eq_ok] at hxs
      obtain ⟨a', ha', r1, ⟨b', hb', r2, e2, e1⟩, e0⟩ := hxs
      rw [pyGet_eq_ok] at ha' hb'
      rw [hx] at ha'
      rw [hy] at hb'
      injection ha' with ha'
      injection hb' with hb'
      simp only [py_pure] at e0 e1 e2
      injection e0 with e0
      injection e1 with e1
      injection e2 with e2
      rw [← e0, ← e1, ← e2, ha', hb']
    rw [hxs2] at h5
    unfold midpoint at h5
    injection h5 with h5
    dsimp only
    rw [List.getElem?_append_right (by simp; omega)]
    have : M.verts.length + M.cells.length + f - (M.verts ++ centers).length = f := by
      rw [List.length_append]; omega
    rw [this, List.getElem?_eq_getElem (by omega), h5]
  · simp only [List.length_append]; omega

end Verif.Dual
