import Verif.Lemmas.Contour
import Mathlib.Algebra.Order.Field.Rat
import Mathlib.Algebra.Order.Ring.Rat
import Mathlib.Data.Rat.Cast.CharZero
import Mathlib.Algebra.Order.Group.Unbundled.Abs
/-!
# C47: contour refinement, C49: line meshes
-/
namespace Verif.Contour
open Verif Verif.BlockOps

section Refine
variable {K E : Type} [Field K] [CharZero K] [AddCommGroup E] [Module K E]

/-- `refine_contour(contour, n)` of a closed contour keeps its points and divides every segment into `2^n` equal
    parts; the result is closed.

    Partial: only for closed contours, see `refine_open`. -/
theorem refine_contour_partial (c : List E) (p : E) (h0 : c.head? = some p) (hl : c.getLast? = some p) (n : Nat) :
    ∃ r, refineContour K c n = .ok r ∧ Divides K c r (2 ^ n) ∧ r.head? = some p ∧ r.getLast? = some p := by
  obtain ⟨r, e, a, b, d⟩ := refineNat_closed (K := K) n c p h0 hl
  refine ⟨r, ?_, d, a, b⟩
  unfold refineContour
  rw [decide_eq_true (by omega), pyAssert_true, py_bind_ok, Int.toNat_natCast, e]

omit [CharZero K] in
/-- Negative numbers of refinements are refused. -/
theorem refine_contour_negative (c : List E) (n : Int) (h : n < 0) : refineContour K c n = .error .assertion := by
  unfold refineContour
  rw [decide_eq_false (by omega), pyAssert_false, py_bind_error]

/-- An open contour loses its last point: the result ends with the first one. -/
theorem refine_open (c : List E) (p q : E) (h0 : c.head? = some p) (hl : c.getLast? = some q) (hpq : p ≠ q) :
    ∃ r, refineContour K c 1 = .ok r ∧ r.getLast? = some p ∧ ¬ Divides K c r 2 := by
  rcases c with _ | ⟨x, c⟩
  · simp at h0
  · obtain rfl : x = p := by simpa using h0
    refine ⟨withMids K (x :: c) ++ [x], ?_, by simp, ?_⟩
    · unfold refineContour
      rw [decide_eq_true (by omega), pyAssert_true, py_bind_ok]
      rfl
    · rintro ⟨hlen, hd⟩
      have hc : c ≠ [] := by
        rintro rfl
        exact hpq (by simpa using hl)
      have hlc := List.length_pos_of_ne_nil hc
      have hm := withMids_length (K := K) (x :: c)
      have hcl : (x :: c).length = c.length + 1 := rfl
      rw [List.getLast?_eq_getElem?, hcl, Nat.add_sub_cancel] at hl
      obtain ⟨a, ha⟩ : ∃ a, (x :: c)[c.length - 1]? = some a := ⟨_, List.getElem?_eq_getElem (by omega)⟩
      have := hd (c.length - 1) a q ha (by rw [Nat.sub_add_cancel (by omega)]; exact hl) 2 (le_refl _)
      rw [show (c.length - 1) * 2 + 2 = (withMids K (x :: c)).length by rw [hm]; omega,
        List.getElem?_append_right (le_refl _), Nat.sub_self] at this
      have h2 : ((2 : Nat) : K) ≠ 0 := by exact_mod_cast (by omega : (2 : Nat) ≠ 0)
      rw [div_self h2, one_smul, add_sub_cancel] at this
      exact hpq (by simpa using this)

/-- A closed contour in the plane. -/
example : refineContour ℚ [((0, 0) : ℚ × ℚ), (1, 0), (0, 2), (0, 0)] 1 =
    .ok [(0, 0), (1 / 2, 0), (1, 0), (1 / 2, 1), (0, 2), (0, 1), (0, 0)] := by decide +kernel

end Refine

section Line
variable {P K : Type} [LinearOrder K]

/-- `line_mesh`: the coordinates are the different end points of the branches, then their interior points.
    Every branch has its list of vertices, with its points as coordinates; interior vertices are numbered one
    after another (so belong to one branch only), and there is one vertex for equal end points.  The cells are
    pairs of consecutive vertices of the branches with at least three points.

    Partial: the cells of branches with two points are lost (`line_mesh_segment`), and the ends of the first
    branch have to be different (`line_mesh_closed`).  End points are equal or farther than the tolerance. -/
theorem line_mesh_partial (dist : P → P → K) (tol : K) (branches : List (List P)) (hne : branches ≠ [])
    (hlen : ∀ b ∈ branches, 2 ≤ b.length)
    (hsep : ∀ p q, IsEnd branches p → IsEnd branches q → (dist p q ≤ tol ↔ p = q))
    (hfirst : ∀ b, branches.head? = some b → b.head? ≠ b.getLast?) :
    ∃ ends vms, lineMesh dist tol branches =
        .ok (ends ++ (branches.map interior).flatten,
          (branches.zip vms).flatMap (fun x => if x.1.length = 2 then [] else pairs x.2)) ∧
      ends.Nodup ∧ (∀ p, p ∈ ends ↔ IsEnd branches p) ∧
      List.Forall₂ (Traces (ends ++ (branches.map interior).flatten)) branches vms ∧
      (vms.map interior).flatten = List.range' ends.length (branches.map interior).flatten.length ∧
      ∀ vm ∈ vms, ∃ v w, vm.head? = some v ∧ vm.getLast? = some w ∧ v < ends.length ∧ w < ends.length := by
  rcases branches with _ | ⟨b, bs⟩
  · exact absurd rfl hne
  · obtain ⟨p, q, hshape, he, hhead, hlast⟩ := branch_shape (hlen b (by simp))
    have hpq : p ≠ q := by
      rintro rfl
      exact hfirst b rfl (by rw [hhead, hlast])
    have hpE : IsEnd (b :: bs) p := ⟨b, by simp, .inl hhead⟩
    have hqE : IsEnd (b :: bs) q := ⟨b, by simp, .inr hlast⟩
    obtain ⟨bounds, ext, e1, n1, p1, m1, f1, k1⟩ := locateAll_ok hsep bs [p, q] (by simp) (by simpa using hpq)
      (by
        intro x hx
        simp only [List.mem_cons, List.not_mem_nil, or_false] at hx
        rcases hx with rfl | rfl
        · exact hpE
        · exact hqE)
      (fun x ⟨b', hb', h⟩ => ⟨b', by simp [hb'], h⟩) (fun b' hb' => hlen b' (by simp [hb']))
    have hp0 : ext[0]? = some p := getElem?_prefix p1 rfl
    have hq1 : ext[1]? = some q := getElem?_prefix p1 rfl
    have hF : List.Forall₂ (fun b (ij : Nat × Nat) => ∃ p q, endpoints b = .ok (p, q) ∧ ext[ij.1]? = some p ∧
          ext[ij.2]? = some q) (b :: bs) ((0, 1) :: bounds) := .cons ⟨p, q, he, hp0, hq1⟩ f1
    have hl2 : 2 ≤ ext.length := by have := p1.length_le; simpa using this
    have hZ : ∀ x ∈ ((0, 1) :: bounds).zip (b :: bs), ∃ p q, endpoints x.2 = .ok (p, q) ∧
        ext[x.1.1]? = some p ∧ ext[x.1.2]? = some q := by
      intro x hx
      obtain ⟨_, h⟩ := List.forall₂_iff_zip.1 hF.flip
      exact h (a := x.1) (b := x.2) hx
    have hlt : ∀ x ∈ ((0, 1) :: bounds).zip (b :: bs), x.1.1 < ext.length ∧ x.1.2 < ext.length := by
      intro x hx
      obtain ⟨_, _, _, h1, h2⟩ := hZ x hx
      exact ⟨(List.getElem?_eq_some_iff.1 h1).1, (List.getElem?_eq_some_iff.1 h2).1⟩
    have hlenz : ((0, 1) :: bounds).length = (b :: bs).length := hF.length_eq.symm
    have hfree : nextFree ((0, 1) :: bounds) = ext.length := by
      unfold nextFree
      have hle : ∀ ij ∈ (0, 1) :: bounds, ij.1 < ext.length ∧ ij.2 < ext.length := by
        intro ij hij
        obtain ⟨i, hi⟩ := List.mem_iff_getElem?.1 hij
        have hil := (List.getElem?_eq_some_iff.1 hi).1
        obtain ⟨y, hy⟩ : ∃ y, (b :: bs)[i]? = some y := ⟨_, List.getElem?_eq_getElem (by omega)⟩
        exact hlt (ij, y) (List.mem_iff_getElem?.2 ⟨i, by rw [List.getElem?_zip_eq_some]; exact ⟨hi, hy⟩⟩)
      have : (((0, 1) :: bounds).map (fun p => max p.1 p.2)).foldl max 0 = ext.length - 1 := by
        refine foldl_max_eq (by omega) ?_ (.inr ?_)
        · intro x hx
          obtain ⟨ij, hij, rfl⟩ := List.mem_map.1 hx
          have := hle ij hij
          omega
        · rw [List.mem_map]
          by_cases h : ext.length = 2
          · exact ⟨(0, 1), by simp, by rw [h]; rfl⟩
          · obtain ⟨ij, hij, hk⟩ := k1 (ext.length - 1) (by simp; omega) (by omega)
            have := hle ij (by simp [hij])
            exact ⟨ij, by simp [hij], by omega⟩
      omega
    have hmap : (((0, 1) :: bounds).zip (b :: bs)).map (fun x => x.2) = b :: bs := by
      exact List.map_snd_zip (by omega)
    have hint : (((0, 1) :: bounds).zip (b :: bs)).map (fun x => interior x.2) = (b :: bs).map interior := by
      conv_rhs => rw [← hmap, List.map_map]
      rfl
    have htr := vmaps_trace (((0, 1) :: bounds).zip (b :: bs)) ext [] (fun x hx => ⟨by
      have : x.2 ∈ b :: bs := (List.of_mem_zip hx).2
      exact hlen x.2 this, hZ x hx⟩)
    rw [hint, hmap, List.append_nil, List.length_nil, Nat.add_zero] at htr
    refine ⟨ext, vmaps (((0, 1) :: bounds).zip (b :: bs)) ext.length, ?_, n1, ?_, htr, ?_,
      vmaps_ends _ _ _ hlt⟩
    · unfold lineMesh
      simp only [he, py_bind_ok, e1]
      rw [hfree, addInterior_eq, hint, List.nil_append]
      congr 2
      have hgen : ∀ (L : List ((Nat × Nat) × List P)) (vs : List (List Nat)), (∀ x ∈ L, 2 ≤ x.2.length) →
          (L.zip vs).flatMap (fun x => if (interior x.1.2).length = 0 then [] else pairs x.2) =
          ((L.map (fun x => x.2)).zip vs).flatMap (fun x => if x.1.length = 2 then [] else pairs x.2) := by
        intro L
        induction L with
        | nil => intro vs _; simp
        | cons x L ih =>
            intro vs h
            rcases vs with _ | ⟨v, vs⟩
            · simp
            · have hx := h x (by simp)
              have hi : (interior x.2).length = x.2.length - 2 := by
                unfold interior
                rw [List.length_dropLast, List.length_tail]; omega
              simp only [List.zip_cons_cons, List.map_cons, List.flatMap_cons]
              rw [ih vs (fun y hy => h y (by simp [hy]))]
              congr 1
              by_cases hc : x.2.length = 2
              · rw [if_pos hc, if_pos (by omega)]
              · rw [if_neg hc, if_neg (by omega)]
      rw [hgen _ _ (fun x hx => hlen x.2 (List.of_mem_zip hx).2), hmap]
    · intro x
      rw [m1]
      constructor
      · rintro (h | ⟨b', hb', h⟩)
        · simp only [List.mem_cons, List.not_mem_nil, or_false] at h
          rcases h with rfl | rfl
          · exact hpE
          · exact hqE
        · exact ⟨b', by simp [hb'], h⟩
      · rintro ⟨b', hb', h⟩
        rcases List.mem_cons.1 hb' with rfl | hb'
        · rw [hhead, hlast] at h
          rcases h with h | h
          · exact .inl (by simp [Option.some.inj h])
          · exact .inl (by simp [Option.some.inj h])
        · exact .inr ⟨b', hb', h⟩
    · rw [vmaps_interior, hint]

/-- The number of cells, when every branch has at least three points. -/
theorem line_mesh_cells (branches : List (List P)) (vms : List (List Nat)) (coords : List P)
    (hT : List.Forall₂ (Traces coords) branches vms) (h3 : ∀ b ∈ branches, 3 ≤ b.length) :
    ((branches.zip vms).flatMap (fun x => if x.1.length = 2 then [] else pairs x.2)).length =
      (branches.map (fun b => b.length - 1)).sum := by
  induction hT with
  | nil => rfl
  | @cons b vm bs vms hb _ ih =>
      have h := h3 b (by simp)
      rw [List.zip_cons_cons, List.flatMap_cons, List.length_append, ih (fun b hb => h3 b (by simp [hb])),
        List.map_cons, List.sum_cons, if_neg (by dsimp only; omega)]
      congr 1
      have := hb.length_eq
      simp only [pairs, List.length_zip, List.length_tail]
      omega

/-- Two positions on the branches have the same vertex only if they are the same, or ends. -/
theorem line_mesh_shared {vms : List (List Nat)} {a n : Nat} (h : (vms.map interior).flatten = List.range' a n)
    (hends : ∀ vm ∈ vms, ∃ v w, vm.head? = some v ∧ vm.getLast? = some w ∧ v < a ∧ w < a)
    {k k' i i' v : Nat} {vm vm' : List Nat} (hk : vms[k]? = some vm) (hk' : vms[k']? = some vm')
    (hi : vm[i]? = some v) (hi' : vm'[i']? = some v) :
    (k = k' ∧ i = i') ∨ ((i = 0 ∨ i + 1 = vm.length) ∧ (i' = 0 ∨ i' + 1 = vm'.length)) := by
  have hint : ∀ (k i v : Nat) (vm : List Nat), vms[k]? = some vm → vm[i]? = some v →
      ((i = 0 ∨ i + 1 = vm.length) ∧ v < a) ∨ ((interior vm)[i - 1]? = some v ∧ i ≠ 0 ∧ a ≤ v) := by
    intro k i v vm hk hi
    have hmem := List.mem_iff_getElem?.2 ⟨k, hk⟩
    obtain ⟨x, w, h1, h2, h3, h4⟩ := hends vm hmem
    have hil := (List.getElem?_eq_some_iff.1 hi).1
    by_cases h0 : i = 0
    · subst h0
      rw [List.head?_eq_getElem?, hi] at h1
      exact .inl ⟨.inl rfl, by rw [Option.some.inj h1]; exact h3⟩
    · by_cases hl : i + 1 = vm.length
      · rw [List.getLast?_eq_getElem?, show vm.length - 1 = i by omega, hi] at h2
        exact .inl ⟨.inr hl, by rw [Option.some.inj h2]; exact h4⟩
      · have hg : (interior vm)[i - 1]? = some v := by
          unfold interior
          rw [List.getElem?_dropLast, if_pos (by simp; omega), List.getElem?_tail, Nat.sub_add_cancel (by omega), hi]
        refine .inr ⟨hg, h0, ?_⟩
        have : v ∈ (vms.map interior).flatten :=
          List.mem_flatten.2 ⟨interior vm, List.mem_map.2 ⟨vm, hmem, rfl⟩, List.mem_iff_getElem?.2 ⟨_, hg⟩⟩
        rw [h, List.mem_range'_1] at this
        exact this.1
  have hnd : (vms.map interior).flatten.Nodup := by rw [h]; exact List.nodup_range'
  rw [List.nodup_flatten] at hnd
  rcases hint k i v vm hk hi with ⟨h1, h2⟩ | ⟨h1, h2, h3⟩
  · rcases hint k' i' v vm' hk' hi' with ⟨h1', _⟩ | ⟨_, _, h3'⟩
    · exact .inr ⟨h1, h1'⟩
    · omega
  · rcases hint k' i' v vm' hk' hi' with ⟨_, h2'⟩ | ⟨h1', h2', h3'⟩
    · omega
    · left
      have g1 : (vms.map interior)[k]? = some (interior vm) := by rw [List.getElem?_map, hk]; rfl
      have g2 : (vms.map interior)[k']? = some (interior vm') := by rw [List.getElem?_map, hk']; rfl
      have m1 := List.mem_iff_getElem?.2 ⟨_, h1⟩
      have m2 := List.mem_iff_getElem?.2 ⟨_, h1'⟩
      have hp := List.pairwise_iff_getElem.1 hnd.2
      obtain ⟨l1, g1⟩ := List.getElem?_eq_some_iff.1 g1
      obtain ⟨l2, g2⟩ := List.getElem?_eq_some_iff.1 g2
      have hkk : k = k' := by
        rcases Nat.lt_trichotomy k k' with hlt | he | hlt
        · have := hp k k' l1 l2 hlt
          rw [g1, g2] at this
          exact absurd m2 (fun m2 => this m1 m2)
        · exact he
        · have := hp k' k l2 l1 hlt
          rw [g1, g2] at this
          exact absurd m1 (fun m1 => this m2 m1)
      subst hkk
      rw [hk] at hk'
      obtain rfl := Option.some.inj hk'
      have hndv := hnd.1 (interior vm) (List.mem_map.2 ⟨vm, List.mem_iff_getElem?.2 ⟨_, hk⟩, rfl⟩)
      have := (List.getElem?_inj (List.getElem?_eq_some_iff.1 h1).1 hndv).1 (h1.trans h1'.symm)
      exact ⟨rfl, by omega⟩

/-- A branch given by its two ends has no cell. -/
theorem line_mesh_segment (dist : P → P → K) (tol : K) (p q : P) :
    lineMesh dist tol [[p, q]] = .ok ([p, q], []) := by
  rfl

/-- The ends of a closed first branch are not merged: a closed triangle becomes an open line. -/
theorem line_mesh_closed :
    lineMesh (fun p q : ℚ × ℚ => |p.1 - q.1| + |p.2 - q.2|) (1 / 10 ^ 13) [[(0, 0), (1, 0), (0, 1), (0, 0)]] =
      .ok ([(0, 0), (0, 0), (1, 0), (0, 1)], [(0, 2), (2, 3), (3, 1)]) := by
  rfl

/-- A line with a side branch which ends at both ends of it. -/
example : lineMesh (fun p q : ℚ × ℚ => |p.1 - q.1| + |p.2 - q.2|) (1 / 10 ^ 13)
    [[(0, 0), (1, 0), (2, 0)], [(2, 0), (1, 1), (0, 0)]] =
      .ok ([(0, 0), (2, 0), (1, 0), (1, 1)], [(0, 2), (2, 1), (1, 3), (3, 0)]) := by decide +kernel

/-- The hypothesis on the end points of `line_mesh_partial` in this case. -/
example (p q : ℚ × ℚ) (hp : IsEnd [[((0, 0) : ℚ × ℚ), (1, 0), (2, 0)], [(2, 0), (1, 1), (0, 0)]] p)
    (hq : IsEnd [[((0, 0) : ℚ × ℚ), (1, 0), (2, 0)], [(2, 0), (1, 1), (0, 0)]] q) :
    |p.1 - q.1| + |p.2 - q.2| ≤ 1 / 10 ^ 13 ↔ p = q := by
  have h : ∀ p, IsEnd [[((0, 0) : ℚ × ℚ), (1, 0), (2, 0)], [(2, 0), (1, 1), (0, 0)]] p → p = (0, 0) ∨ p = (2, 0) := by
    rintro p ⟨b, hb, h⟩
    simp only [List.mem_cons, List.not_mem_nil, or_false] at hb
    rcases hb with rfl | rfl <;> rcases h with h | h <;> simp at h <;> simp [← h]
  rcases h p hp with rfl | rfl <;> rcases h q hq with rfl | rfl <;> decide +kernel

end Line

section Straight
variable {K E : Type} [Field K] [LinearOrder K] [AddCommGroup E] [Module K E]

/-- `StraightLineMesh(A, B, n)` for `n >= 2` has `n` cells which join the points `A + i/n (B - A)` one after another.

    Partial: there is no cell for `n = 1`, see `straight_line_one`. -/
theorem straight_line_partial (dist : E → E → K) (tol : K) (A B : E) (n : Nat) (hn : 2 ≤ n) :
    ∃ coords vm, straightLineMesh dist tol A B n = .ok (coords, pairs vm) ∧ vm.Nodup ∧ vm.length = n + 1 ∧
      coords.length = n + 1 ∧
      ∀ i ≤ n, ∃ v : Nat, vm[i]? = some v ∧ coords[v]? = some (A + ((i : K) / (n : K)) • (B - A)) := by
  have hl : (line K A B (n + 1)).length = n + 1 := by simp [line]
  obtain ⟨p, q, hs, he, hhead, hlast⟩ := branch_shape (b := line K A B (n + 1)) (by omega)
  have hi : (interior (line K A B (n + 1))).length = n - 1 := by
    unfold interior
    rw [List.length_dropLast, List.length_tail, hl]; omega
  refine ⟨[p, q] ++ interior (line K A B (n + 1)), vmap 0 1 2 (n - 1), ?_, ?_, ?_, ?_, ?_⟩
  · unfold straightLineMesh lineMesh
    simp only [he, py_bind_ok, locateAll]
    rw [addInterior_eq]
    simp only [List.zip_cons_cons, List.zip_nil_left, List.map_cons, List.map_nil, List.flatten_cons, List.flatten_nil,
      List.append_nil, vmaps, List.flatMap_cons, List.flatMap_nil, List.nil_append]
    rw [if_neg (by rw [hi]; omega), hi]
    rfl
  · rw [vmap, List.nodup_cons]
    refine ⟨by simp [List.mem_range'_1], List.nodup_append.2 ⟨List.nodup_range', by simp, ?_⟩⟩
    intro a ha b hb
    rw [List.mem_range'_1] at ha
    rw [List.mem_singleton] at hb
    omega
  · simp [vmap]; omega
  · rw [List.length_append, hi]; simp; omega
  · intro i hin
    have htr := vmaps_trace [((0, 1), line K A B (n + 1))] [p, q] [] (by
      intro x hx
      rw [List.mem_singleton] at hx
      subst hx
      exact ⟨by dsimp only; omega, p, q, he, rfl, rfl⟩)
    simp only [List.map_cons, List.map_nil, List.flatten_cons, List.flatten_nil, List.append_nil, vmaps, hi] at htr
    obtain ⟨hT, _⟩ := List.forall₂_cons.1 htr
    change Traces _ _ (vmap 0 1 2 (n - 1)) at hT
    have hg : (line K A B (n + 1))[i]? = some (A + ((i : K) / (n : K)) • (B - A)) := by
      unfold line
      rw [List.getElem?_map, List.getElem?_range (by omega)]
      rfl
    unfold Traces at hT
    rw [List.forall₂_iff_get] at hT
    obtain ⟨hle, hT⟩ := hT
    have h1 : i < (line K A B (n + 1)).length := by omega
    have := hT i h1 (by rw [← hle]; exact h1)
    refine ⟨_, List.getElem?_eq_getElem (by rw [← hle]; exact h1), ?_⟩
    rw [List.getElem?_eq_getElem h1] at hg
    rw [← Option.some.inj hg]
    exact this

/-- `StraightLineMesh(A, B, 1)` has no cells. -/
theorem straight_line_one (dist : E → E → K) (tol : K) (A B : E) :
    ∃ coords, straightLineMesh dist tol A B 1 = .ok (coords, []) := ⟨_, rfl⟩

example : straightLineMesh (fun p q : ℚ => |p - q|) (1 / 10 ^ 13) 1 2 4 =
    .ok ([1, 2, 5 / 4, 3 / 2, 7 / 4], [(0, 2), (2, 3), (3, 4), (4, 1)]) := by decide +kernel

end Straight

end Verif.Contour
