import Verif.Props.Contour
/-!
# C115: the meshes of arbitrary branches
-/
namespace Verif.Contour
open Verif Verif.BlockOps
variable {P K : Type} [LinearOrder K]

theorem endpoints_eq_ok {b : List P} {p q : P} : endpoints b = .ok (p, q) ↔ b.head? = some p ∧ b.getLast? = some q := by
  unfold endpoints
  split
  · rename_i p' q' h1 h2
    simp [h1, h2]
  · rename_i h
    simp only [reduceCtorEq, false_iff]
    rintro ⟨h1, h2⟩
    exact h p q h1 h2

theorem endpoints_ok {b : List P} (h : b ≠ []) : ∃ p q, endpoints b = .ok (p, q) := by
  cases b with
  | nil => exact absurd rfl h
  | cons p t => exact ⟨p, _, endpoints_eq_ok.2 ⟨rfl, List.getLast?_eq_some_getLast h⟩⟩

/-- One end point, whatever the distances are. -/
theorem locate_exact (dist : P → P → K) (tol : K) {ext : List P} (h2 : 2 ≤ ext.length) (ha : Apart dist tol ext) (p : P) :
    ∃ i ext', locate dist tol ext p = .ok (i, ext') ∧ ext <+: ext' ∧ Apart dist tol ext' ∧
      (∀ x ∈ ext', x ∈ ext ∨ x = p) ∧ StandsFor dist tol ext' ext'.length i p ∧
      (∀ k, ext.length ≤ k → k < ext'.length → k = i) := by
  have hne : ext ≠ [] := by rintro rfl; simp at h2
  obtain ⟨i, w, e, hw, hmin⟩ := Patch.argmin_ok (l := ext.map (fun q => dist q p)) (by simpa using hne)
  rw [List.getElem?_map] at hw
  obtain ⟨q, hq, rfl⟩ := Option.map_eq_some_iff.1 hw
  unfold locate
  rw [e, py_bind_ok, pyGet_eq_ok.2 hq, py_bind_ok]
  by_cases h : tol < dist q p
  · rw [if_pos h]
    refine ⟨_, _, rfl, List.prefix_append _ _, ?_, ?_, ⟨by simp, p, by simp, .inl rfl⟩, ?_⟩
    · intro k j x y hkj hj hx hy
      have hjl := (List.getElem?_eq_some_iff.1 hy).1
      rw [List.length_append, List.length_singleton] at hjl
      rw [List.getElem?_append_left (by omega)] at hx
      by_cases hj' : j < ext.length
      · rw [List.getElem?_append_left hj'] at hy
        exact ha k j x y hkj hj hx hy
      · have : j = ext.length := by omega
        subst this
        simp only [List.getElem?_append_right le_rfl, Nat.sub_self, List.getElem?_cons_zero, Option.some.injEq] at hy
        subst hy
        exact h.trans_le (hmin k (dist x p) (by rw [List.getElem?_map, hx]; rfl)).1
    · intro x hx
      simpa using hx
    · intro k h1 h2
      rw [List.length_append, List.length_singleton] at h2
      omega
  · rw [if_neg h]
    exact ⟨i, ext, rfl, List.prefix_refl _, ha, fun x hx => .inl hx,
      ⟨(List.getElem?_eq_some_iff.1 hq).1, q, hq, .inr (not_lt.1 h)⟩, by intro k h1 h2; omega⟩

theorem StandsFor.mono {dist : P → P → K} {tol : K} {l l' : List P} {v : Nat} {p : P} (h : StandsFor dist tol l l.length v p)
    (hp : l <+: l') : StandsFor dist tol l' l'.length v p := by
  obtain ⟨h1, x, h2, h3⟩ := h
  exact ⟨lt_of_lt_of_le h1 hp.length_le, x, getElem?_prefix hp h2, h3⟩

theorem locateAll_exact (dist : P → P → K) (tol : K) :
    ∀ (bs : List (List P)) (ext : List P), 2 ≤ ext.length → Apart dist tol ext → (∀ b ∈ bs, b ≠ []) →
      ∃ bounds ext', locateAll dist tol bs ext = .ok (bounds, ext') ∧ ext <+: ext' ∧ Apart dist tol ext' ∧
        (∀ p ∈ ext', p ∈ ext ∨ IsEnd bs p) ∧
        List.Forall₂ (fun b (ij : Nat × Nat) => ∃ p q, endpoints b = .ok (p, q) ∧
          StandsFor dist tol ext' ext'.length ij.1 p ∧ StandsFor dist tol ext' ext'.length ij.2 q) bs bounds ∧
        ∀ k, ext.length ≤ k → k < ext'.length → ∃ ij ∈ bounds, k = ij.1 ∨ k = ij.2
  | [], ext, _, ha, _ => ⟨[], ext, rfl, List.prefix_refl _, ha, fun p hp => .inl hp, .nil, by intro k h1 h2; omega⟩
  | b :: bs, ext, h2, ha, hb => by
      obtain ⟨p, q, he⟩ := endpoints_ok (hb b (by simp))
      obtain ⟨hhead, hlast⟩ := endpoints_eq_ok.1 he
      obtain ⟨i, ext1, e1, p1, a1, m1, s1, k1⟩ := locate_exact dist tol h2 ha p
      have l1 := p1.length_le
      obtain ⟨j, ext2, e2, p2, a2, m2, s2, k2⟩ := locate_exact dist tol (by omega) a1 q
      have l2 := p2.length_le
      obtain ⟨bounds, ext', e3, p3, a3, m3, f3, k3⟩ := locateAll_exact dist tol bs ext2 (by omega) a2
        (fun b' hb' => hb b' (by simp [hb']))
      refine ⟨(i, j) :: bounds, ext', ?_, p1.trans (p2.trans p3), a3, ?_, ?_, ?_⟩
      · simp only [locateAll, he, py_bind_ok, e1, e2, e3]
      · intro x hx
        rcases m3 x hx with h | ⟨b', hb', h⟩
        · rcases m2 x h with h | rfl
          · rcases m1 x h with h | rfl
            · exact .inl h
            · exact .inr ⟨b, by simp, .inl hhead⟩
          · exact .inr ⟨b, by simp, .inr hlast⟩
        · exact .inr ⟨b', by simp [hb'], h⟩
      · exact .cons ⟨p, q, he, s1.mono (p2.trans p3), s2.mono p3⟩ f3
      · intro k h1 h2
        by_cases hk1 : k < ext1.length
        · exact ⟨(i, j), by simp, .inl (k1 k h1 hk1)⟩
        · by_cases hk2 : k < ext2.length
          · exact ⟨(i, j), by simp, .inr (k2 k (by omega) hk2)⟩
          · obtain ⟨ij, h, h'⟩ := k3 k (by omega) h2
            exact ⟨ij, by simp [h], h'⟩

theorem vmaps_follow (dist : P → P → K) (tol : K) : ∀ (L : List ((Nat × Nat) × List P)) (ext : List P) (pre : List P),
    (∀ x ∈ L, ∃ p q, endpoints x.2 = .ok (p, q) ∧ StandsFor dist tol ext ext.length x.1.1 p ∧
      StandsFor dist tol ext ext.length x.1.2 q) →
    List.Forall₂ (Follows dist tol (ext ++ pre ++ (L.map (fun x => interior x.2)).flatten) ext.length) (L.map (fun x => x.2))
      (vmaps L (ext.length + pre.length))
  | [], _, _, _ => .nil
  | ((fE, lE), b) :: rest, ext, pre, h => by
      obtain ⟨p, q, he, hp, hq⟩ := h _ (by simp : ((fE, lE), b) ∈ ((fE, lE), b) :: rest)
      obtain ⟨hhead, hlast⟩ := endpoints_eq_ok.1 he
      have ih := vmaps_follow dist tol rest ext (pre ++ interior b) (fun x hx => h x (by simp [hx]))
      simp only [List.map_cons, List.flatten_cons, vmaps]
      refine .cons ?_ ?_
      · have hx : ∀ {v : Nat} {p : P}, StandsFor dist tol ext ext.length v p →
            StandsFor dist tol (ext ++ pre ++ (interior b ++ (rest.map (fun x => interior x.2)).flatten)) ext.length v p := by
          rintro v p ⟨h1, x, h2, h3⟩
          exact ⟨h1, x, getElem?_prefix ((List.prefix_append _ _).trans (List.prefix_append _ _)) h2, h3⟩
        refine ⟨p, q, fE, lE, List.range' (ext.length + pre.length) (interior b).length, hhead, hlast, rfl, hx hp, hx hq, ?_⟩
        change Traces _ (interior b) _
        unfold Traces
        generalize interior b = I
        rw [List.forall₂_iff_get]
        refine ⟨by simp, ?_⟩
        intro i h1 h2
        simp only [List.get_eq_getElem, List.getElem_range', Nat.one_mul]
        rw [List.getElem?_append_right (by simp), List.getElem?_append_left (by simp; omega)]
        simp only [List.length_append]
        rw [show ext.length + pre.length + i - (ext.length + pre.length) = i by omega]
        exact List.getElem?_eq_getElem h1
      · rw [List.length_append, ← Nat.add_assoc] at ih
        simpa only [List.append_assoc] using ih

theorem locateAll_only {dist : P → P → K} {tol : K} : ∀ (bs : List (List P)) (ext : List P) r,
    locateAll dist tol bs ext = .ok r → ∀ b ∈ bs, b ≠ []
  | [], _, _, _ => by simp
  | b :: bs, ext, r, h => by
      rw [locateAll] at h
      obtain ⟨pq, h1, h⟩ := py_bind_eq_ok.1 h
      obtain ⟨x, -, h⟩ := py_bind_eq_ok.1 h
      obtain ⟨y, -, h⟩ := py_bind_eq_ok.1 h
      obtain ⟨z, h4, -⟩ := py_bind_eq_ok.1 h
      intro b' hb'
      rcases List.mem_cons.1 hb' with rfl | hb'
      · rintro rfl
        simp [endpoints] at h1
      · exact locateAll_only bs _ _ h4 b' hb'

/-- A mesh is made exactly if there is a branch and no branch is empty. -/
theorem line_mesh_returns_iff (dist : P → P → K) (tol : K) (branches : List (List P)) :
    (∃ r, lineMesh dist tol branches = .ok r) ↔ branches ≠ [] ∧ ∀ b ∈ branches, b ≠ [] := by
  constructor
  · rintro ⟨r, h⟩
    rcases branches with _ | ⟨b, bs⟩
    · cases h
    · simp only [lineMesh] at h
      obtain ⟨pq, h1, h⟩ := py_bind_eq_ok.1 h
      obtain ⟨x, h2, h⟩ := py_bind_eq_ok.1 h
      refine ⟨by simp, fun b' hb' => ?_⟩
      rcases List.mem_cons.1 hb' with rfl | hb'
      · rintro rfl
        simp [endpoints] at h1
      · exact locateAll_only bs _ _ h2 b' hb'
  · rintro ⟨hne, hb⟩
    rcases branches with _ | ⟨b, bs⟩
    · exact absurd rfl hne
    · obtain ⟨p, q, he⟩ := endpoints_ok (hb b (by simp))
      obtain ⟨bounds, ext', e, -⟩ := locateAll_exact dist tol bs [p, q] (by simp)
        (by intro i j x y h1 h2 h3 h4
            have := (List.getElem?_eq_some_iff.1 h4).1
            simp at this; omega) (fun b' hb' => hb b' (by simp [hb']))
      exact ⟨_, by simp only [lineMesh, he, py_bind_ok, e]; rfl⟩

/-- **C115** The mesh of any branches: the coordinates are ends of branches, then the interior points.  The first two are the
    ends of the first branch, every other end is a new vertex exactly when it is farther than the tolerance from those before.
    The branches with three points or more give the cells between consecutive vertices, which follow the branch; the others
    give none.  The first branch starts at vertex 0 and ends at vertex 1, even if it is closed. -/
theorem line_mesh_exact (dist : P → P → K) (tol : K) (branches : List (List P)) (hb : ∀ b ∈ branches, b ≠ [])
    (first : List P) (hfirst : branches.head? = some first) :
    ∃ ends vms, lineMesh dist tol branches =
        .ok (ends ++ (branches.map interior).flatten,
          (branches.zip vms).flatMap (fun x => if x.1.length ≤ 2 then [] else x.2.zip x.2.tail)) ∧
      ends[0]? = first.head? ∧ ends[1]? = first.getLast? ∧ Apart dist tol ends ∧ (∀ p ∈ ends, IsEnd branches p) ∧
      List.Forall₂ (Follows dist tol (ends ++ (branches.map interior).flatten) ends.length) branches vms ∧
      (∀ k, k < ends.length → ∃ vm ∈ vms, vm.head? = some k ∨ vm.getLast? = some k) ∧
      (vms.map interior).flatten = List.range' ends.length (branches.map interior).flatten.length ∧
      ∀ vm, vms.head? = some vm → vm.head? = some 0 ∧ vm.getLast? = some 1 := by
  rcases branches with _ | ⟨b, bs⟩
  · cases hfirst
  · obtain rfl : b = first := Option.some.inj hfirst
    obtain ⟨p, q, he⟩ := endpoints_ok (hb b (by simp))
    obtain ⟨hhead, hlast⟩ := endpoints_eq_ok.1 he
    obtain ⟨bounds, ext, e1, p1, a1, m1, f1, k1⟩ := locateAll_exact dist tol bs [p, q] (by simp)
      (by intro i j x y h1 h2 h3 h4
          have := (List.getElem?_eq_some_iff.1 h4).1
          simp at this; omega) (fun b' hb' => hb b' (by simp [hb']))
    have hp0 : ext[0]? = some p := getElem?_prefix p1 rfl
    have hq1 : ext[1]? = some q := getElem?_prefix p1 rfl
    have hl2 : 2 ≤ ext.length := by have := p1.length_le; simpa using this
    have hF : List.Forall₂ (fun b (ij : Nat × Nat) => ∃ p q, endpoints b = .ok (p, q) ∧
          StandsFor dist tol ext ext.length ij.1 p ∧ StandsFor dist tol ext ext.length ij.2 q) (b :: bs) ((0, 1) :: bounds) :=
      .cons ⟨p, q, he, ⟨by simp only; omega, p, hp0, .inl rfl⟩, ⟨by simp only; omega, q, hq1, .inl rfl⟩⟩ f1
    have hZ : ∀ x ∈ ((0, 1) :: bounds).zip (b :: bs), ∃ p q, endpoints x.2 = .ok (p, q) ∧
        StandsFor dist tol ext ext.length x.1.1 p ∧ StandsFor dist tol ext ext.length x.1.2 q := by
      intro x hx
      obtain ⟨_, h⟩ := List.forall₂_iff_zip.1 hF.flip
      exact h (a := x.1) (b := x.2) hx
    have hlenz : ((0, 1) :: bounds).length = (b :: bs).length := hF.length_eq.symm
    have hle : ∀ ij ∈ (0, 1) :: bounds, ij.1 < ext.length ∧ ij.2 < ext.length := by
      intro ij hij
      obtain ⟨i, hi⟩ := List.mem_iff_getElem?.1 hij
      have hil := (List.getElem?_eq_some_iff.1 hi).1
      obtain ⟨y, hy⟩ : ∃ y, (b :: bs)[i]? = some y := ⟨_, List.getElem?_eq_getElem (by omega)⟩
      obtain ⟨_, _, _, h1, h2⟩ :=
        hZ (ij, y) (List.mem_iff_getElem?.2 ⟨i, by rw [List.getElem?_zip_eq_some]; exact ⟨hi, hy⟩⟩)
      exact ⟨h1.1, h2.1⟩
    have hall : ∀ k, k < ext.length → ∃ ij ∈ (0, 1) :: bounds, k = ij.1 ∨ k = ij.2 := by
      intro k hk
      by_cases h : k < 2
      · exact ⟨(0, 1), by simp, by simp only; omega⟩
      · obtain ⟨ij, hij, hk⟩ := k1 k (by simp; omega) hk
        exact ⟨ij, by simp [hij], hk⟩
    have hfree : nextFree ((0, 1) :: bounds) = ext.length := by
      unfold nextFree
      have : (((0, 1) :: bounds).map (fun p => max p.1 p.2)).foldl max 0 = ext.length - 1 := by
        refine foldl_max_eq (by omega) ?_ (.inr ?_)
        · intro x hx
          obtain ⟨ij, hij, rfl⟩ := List.mem_map.1 hx
          have := hle ij hij
          omega
        · rw [List.mem_map]
          obtain ⟨ij, hij, hk⟩ := hall (ext.length - 1) (by omega)
          have := hle ij hij
          exact ⟨ij, hij, by omega⟩
      omega
    have hmap : (((0, 1) :: bounds).zip (b :: bs)).map (fun x => x.2) = b :: bs := by
      exact List.map_snd_zip (by omega)
    have hint : (((0, 1) :: bounds).zip (b :: bs)).map (fun x => interior x.2) = (b :: bs).map interior := by
      conv_rhs => rw [← hmap, List.map_map]
      rfl
    have htr := vmaps_follow dist tol (((0, 1) :: bounds).zip (b :: bs)) ext [] hZ
    rw [hint, hmap, List.append_nil, List.length_nil, Nat.add_zero] at htr
    refine ⟨ext, vmaps (((0, 1) :: bounds).zip (b :: bs)) ext.length, ?_, by rw [hp0, hhead], by rw [hq1, hlast], a1, ?_, htr,
      ?_, by rw [vmaps_interior, hint], ?_⟩
    · unfold lineMesh
      simp only [he, py_bind_ok, e1]
      rw [hfree, addInterior_eq, hint, List.nil_append]
      congr 2
      have hgen : ∀ (L : List ((Nat × Nat) × List P)) (vs : List (List Nat)),
          (L.zip vs).flatMap (fun x => if (interior x.1.2).length = 0 then [] else pairs x.2) =
          ((L.map (fun x => x.2)).zip vs).flatMap (fun x => if x.1.length ≤ 2 then [] else x.2.zip x.2.tail) := by
        intro L
        induction L with
        | nil => intro vs; simp
        | cons x L ih =>
            intro vs
            rcases vs with _ | ⟨v, vs⟩
            · simp
            · have hi : (interior x.2).length = x.2.length - 2 := by
                unfold interior
                rw [List.length_dropLast, List.length_tail]; omega
              simp only [List.zip_cons_cons, List.map_cons, List.flatMap_cons]
              rw [ih vs]
              congr 1
              by_cases hc : x.2.length ≤ 2
              · rw [if_pos hc, if_pos (by omega)]
              · rw [if_neg hc, if_neg (by omega)]
                rfl
      rw [hgen, hmap]
    · intro x hx
      rcases m1 x hx with h | ⟨b', hb', h⟩
      · simp only [List.mem_cons, List.not_mem_nil, or_false] at h
        rcases h with rfl | rfl
        · exact ⟨b, by simp, .inl hhead⟩
        · exact ⟨b, by simp, .inr hlast⟩
      · exact ⟨b', by simp [hb'], h⟩
    · have hv : ∀ (L : List ((Nat × Nat) × List P)) (fI : Nat), ∀ x ∈ L, ∃ vm ∈ vmaps L fI, vm.head? = some x.1.1 ∧
          vm.getLast? = some x.1.2 := by
        intro L
        induction L with
        | nil => simp
        | cons y L ih =>
          obtain ⟨⟨fE, lE⟩, b'⟩ := y
          intro fI x hx
          rcases List.mem_cons.1 hx with rfl | hx
          · refine ⟨_, List.mem_cons_self, rfl, ?_⟩
            rw [vmap, List.getLast?_cons, List.getLast?_append]
            rfl
          · obtain ⟨vm, h1, h2⟩ := ih (fI + (interior b').length) x hx
            exact ⟨vm, by rw [vmaps]; exact List.mem_cons_of_mem _ h1, h2⟩
      intro k hk
      obtain ⟨ij, hij, hk⟩ := hall k hk
      obtain ⟨i, hi⟩ := List.mem_iff_getElem?.1 hij
      have hil := (List.getElem?_eq_some_iff.1 hi).1
      obtain ⟨y, hy⟩ : ∃ y, (b :: bs)[i]? = some y := ⟨_, List.getElem?_eq_getElem (by omega)⟩
      obtain ⟨vm, h1, h2, h3⟩ := hv _ ext.length (ij, y)
        (List.mem_iff_getElem?.2 ⟨i, by rw [List.getElem?_zip_eq_some]; exact ⟨hi, hy⟩⟩)
      refine ⟨vm, h1, ?_⟩
      rcases hk with rfl | rfl
      · exact .inl h2
      · exact .inr h3
    · intro vm hvm
      rw [List.zip_cons_cons, vmaps, List.head?_cons, Option.some.injEq] at hvm
      subst hvm
      refine ⟨rfl, ?_⟩
      rw [vmap, List.getLast?_cons, List.getLast?_append]
      rfl

/-- The number of cells is the number of segments of the branches with three points or more. -/
theorem line_mesh_count (dist : P → P → K) (tol : K) (branches : List (List P)) (hb : ∀ b ∈ branches, b ≠ [])
    (hne : branches ≠ []) (coords : List P) (cells : List (Nat × Nat)) (h : lineMesh dist tol branches = .ok (coords, cells)) :
    cells.length = ((branches.filter (fun b => 3 ≤ b.length)).map (fun b => b.length - 1)).sum := by
  obtain ⟨first, hfirst⟩ : ∃ f, branches.head? = some f := by
    cases branches with
    | nil => exact absurd rfl hne
    | cons b bs => exact ⟨b, rfl⟩
  obtain ⟨ends, vms, e, -, -, -, -, hF, -⟩ := line_mesh_exact dist tol branches hb first hfirst
  rw [h] at e
  obtain ⟨-, rfl⟩ := Prod.mk.inj (Except.ok.inj e)
  clear e h hfirst hne hb
  generalize (ends ++ (branches.map interior).flatten) = coords at hF
  induction hF with
  | nil => rfl
  | @cons b vm bs vms h1 _ ih =>
    rw [List.zip_cons_cons, List.flatMap_cons, List.length_append, ih, List.filter_cons]
    obtain ⟨p, q, v, w, ws, -, -, rfl, -, -, h2⟩ := h1
    have hl := h2.length_eq
    rw [List.length_dropLast, List.length_tail] at hl
    by_cases hc : b.length ≤ 2
    · rw [if_pos hc, if_neg (by simp; omega)]
      simp
    · rw [if_neg hc, if_pos (by simp; omega), List.map_cons, List.sum_cons]
      congr 1
      simp only [List.tail_cons, List.length_zip, List.length_cons, List.length_append, List.length_nil]
      omega

/-- Two vertices where the first branch is closed: it never closes in the mesh. -/
theorem line_mesh_first_open (dist : P → P → K) (tol : K) (b : List P) (bs : List (List P)) (hb : ∀ x ∈ b :: bs, x ≠ [])
    (p : P) (h0 : b.head? = some p) (h1 : b.getLast? = some p) :
    ∃ coords cells, lineMesh dist tol (b :: bs) = .ok (coords, cells) ∧ coords[0]? = some p ∧ coords[1]? = some p := by
  obtain ⟨ends, vms, e, g0, g1, -⟩ := line_mesh_exact dist tol (b :: bs) hb b rfl
  exact ⟨_, _, e, getElem?_prefix (List.prefix_append _ _) (g0.trans h0), getElem?_prefix (List.prefix_append _ _) (g1.trans h1)⟩

/-- A closed branch, a short one, a single point and a branch whose start is within the tolerance of the first point. -/
example : ∃ coords cells, lineMesh (fun p q : ℚ => |p - q|) (1 / 10) [[0, 1, 2, 0], [5, 6], [7], [1 / 20, 3, 5]] = .ok (coords, cells) ∧
    cells.length = 5 := by
  obtain ⟨⟨coords, cells⟩, h⟩ := (line_mesh_returns_iff (fun p q : ℚ => |p - q|) (1 / 10)
    [[0, 1, 2, 0], [5, 6], [7], [1 / 20, 3, 5]]).2 (by simp)
  exact ⟨coords, cells, h, by rw [line_mesh_count _ _ _ (by simp) (by simp) coords cells h]; rfl⟩

example : ∃ coords cells, lineMesh (fun p q : ℚ => |p - q|) (1 / 10) [[0, 1, 2, 0]] = .ok (coords, cells) ∧
    coords[0]? = some 0 ∧ coords[1]? = some 0 :=
  line_mesh_first_open _ _ _ _ (by simp) 0 rfl rfl

end Verif.Contour
