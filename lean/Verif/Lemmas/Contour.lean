import Verif.Spec.Contour
import Verif.Lemmas.Patch
import Mathlib.Algebra.CharZero.Defs
import Mathlib.Algebra.Module.Basic
import Mathlib.Tactic.FieldSimp
import Mathlib.Tactic.Ring
import Mathlib.Tactic.Module
/-!
# Lemmas on contours and line meshes
-/
namespace Verif.Contour
open Verif Verif.BlockOps

section Refine
variable {K E : Type} [Field K] [AddCommGroup E] [Module K E]

theorem withMids_length : ∀ c : List E, (withMids K c).length = 2 * (c.length - 1)
  | [] => rfl
  | [_] => rfl
  | a :: b :: l => by
      have := withMids_length (b :: l)
      simp only [withMids, List.length_cons] at this ⊢
      omega

theorem withMids_get : ∀ (c : List E) (j : Nat) (a b : E), c[j]? = some a → c[j + 1]? = some b →
    (withMids K c)[2 * j]? = some a ∧ (withMids K c)[2 * j + 1]? = some (a + (1 / 2 : K) • (b - a))
  | [], j, a, b, h, _ => by simp at h
  | [x], j, a, b, _, h => by simp at h
  | x :: y :: l, 0, a, b, ha, hb => by
      obtain rfl : x = a := by simpa using ha
      obtain rfl : y = b := by simpa using hb
      exact ⟨rfl, rfl⟩
  | x :: y :: l, j + 1, a, b, ha, hb => by
      have := withMids_get (y :: l) j a b (by simpa using ha) (by simpa using hb)
      simpa [withMids, Nat.mul_add] using this

/-- A closed contour refined once: closed, with the middle points. -/
theorem refineOnce_closed {c : List E} {p : E} (h0 : c.head? = some p) (hl : c.getLast? = some p) :
    ∃ r, refineOnce K c = .ok r ∧ r.head? = some p ∧ r.getLast? = some p ∧ r.length = 2 * (c.length - 1) + 1 ∧
      ∀ (j : Nat) (a b : E), c[j]? = some a → c[j + 1]? = some b →
        r[2 * j]? = some a ∧ r[2 * j + 1]? = some (a + (1 / 2 : K) • (b - a)) ∧ r[2 * (j + 1)]? = some b := by
  rcases c with _ | ⟨q, c⟩
  · simp at h0
  · obtain rfl : q = p := by simpa using h0
    refine ⟨withMids K (q :: c) ++ [q], rfl, ?_, by simp, ?_, ?_⟩
    · rcases c with _ | ⟨x, c⟩
      · rfl
      · rfl
    · rw [List.length_append, withMids_length]; rfl
    · intro j a b ha hb
      obtain ⟨h1, h2⟩ := withMids_get (K := K) _ j a b ha hb
      have hlen := withMids_length (K := K) (q :: c)
      refine ⟨?_, ?_, ?_⟩
      · rw [List.getElem?_append_left (List.getElem?_eq_some_iff.1 h1).1, h1]
      · rw [List.getElem?_append_left (List.getElem?_eq_some_iff.1 h2).1, h2]
      · have hj := (List.getElem?_eq_some_iff.1 hb).1
        by_cases h : j + 2 < (q :: c).length
        · have h3 := (withMids_get (K := K) (q :: c) (j + 1) b _ hb (List.getElem?_eq_getElem h)).1
          rw [List.getElem?_append_left (List.getElem?_eq_some_iff.1 h3).1, h3]
        · have he : 2 * (j + 1) = (withMids K (q :: c)).length := by rw [hlen]; omega
          rw [he, List.getElem?_append_right (le_refl _), Nat.sub_self]
          rw [List.getLast?_eq_getElem?, show (q :: c).length - 1 = j + 1 by omega, hb] at hl
          rw [Option.some.inj hl]
          rfl

theorem refineNat_closed [CharZero K] : ∀ (n : Nat) (c : List E) (p : E), c.head? = some p → c.getLast? = some p →
    ∃ r, refineNat K n c = .ok r ∧ r.head? = some p ∧ r.getLast? = some p ∧ Divides K c r (2 ^ n)
  | 0, c, p, h0, hl => by
      refine ⟨c, rfl, h0, hl, ?_, ?_⟩
      · have : c ≠ [] := by rintro rfl; simp at h0
        have := List.length_pos_of_ne_nil this
        rw [pow_zero, Nat.mul_one]; omega
      · intro j a b ha hb i hi
        rw [pow_zero] at hi ⊢
        rw [Nat.mul_one]
        rcases Nat.le_one_iff_eq_zero_or_eq_one.1 hi with rfl | rfl
        · rw [Nat.add_zero, ha]; simp
        · rw [hb]; simp
  | 1, c, p, h0, hl => by
      obtain ⟨r, e, a1, a2, a3, a4⟩ := refineOnce_closed (K := K) h0 hl
      refine ⟨r, e, a1, a2, by rw [a3]; omega, ?_⟩
      intro j a b ha hb i hi
      obtain ⟨b1, b2, b3⟩ := a4 j a b ha hb
      rw [pow_one] at hi ⊢
      rcases i with _ | _ | _ | i
      · rw [Nat.add_zero, Nat.mul_comm, b1]; simp
      · rw [Nat.mul_comm, b2]; simp
      · rw [show j * 2 + (0 + 1 + 1) = 2 * (j + 1) by omega, b3]; simp
      · omega
  | n + 2, c, p, h0, hl => by
      obtain ⟨m, e, a1, a2, a3, a4⟩ := refineOnce_closed (K := K) h0 hl
      obtain ⟨r, e', c1, c2, c3, c4⟩ := refineNat_closed (n + 1) m p a1 a2
      refine ⟨r, by rw [refineNat, e, py_bind_ok, e'], c1, c2, ?_, ?_⟩
      · rw [c3, a3, pow_succ 2 (n + 1)]
        rw [Nat.add_sub_cancel, Nat.mul_comm 2, Nat.mul_assoc, Nat.mul_comm 2]
      · intro j a b ha hb i hi
        obtain ⟨b1, b2, b3⟩ := a4 j a b ha hb
        have hN : ((2 ^ (n + 1) : Nat) : K) ≠ 0 := by
          exact_mod_cast pow_ne_zero (n + 1) (by norm_num : (2 : Nat) ≠ 0)
        have h2 : (2 : K) ≠ 0 := two_ne_zero
        have hpow : (2 ^ (n + 2) : Nat) = 2 * 2 ^ (n + 1) := by rw [pow_succ 2 (n + 1), Nat.mul_comm]
        rw [hpow] at hi ⊢
        generalize (2 ^ (n + 1) : Nat) = N at *
        by_cases h : i ≤ N
        · have := c4 (2 * j) _ _ b1 b2 i h
          rw [show j * (2 * N) + i = 2 * j * N + i by rw [Nat.mul_comm 2 j, Nat.mul_assoc], this]
          congr 2
          rw [add_sub_cancel_left, smul_smul]
          congr 1
          push_cast
          field_simp
        · obtain ⟨i, rfl⟩ : ∃ k, i = N + k := ⟨i - N, by omega⟩
          have := c4 (2 * j + 1) _ _ b2 b3 i (by omega)
          rw [show j * (2 * N) + (N + i) = (2 * j + 1) * N + i by
            rw [Nat.add_mul, Nat.one_mul, Nat.mul_comm 2 j, Nat.mul_assoc]; omega, this]
          congr 1
          push_cast
          have e1 : ((N : K) + (i : K)) / (2 * (N : K)) = 1 / 2 + (i : K) / (N : K) / 2 := by field_simp
          rw [e1]
          module

end Refine

section Line
variable {P K : Type} [LinearOrder K]

theorem branch_shape {b : List P} (h : 2 ≤ b.length) :
    ∃ p q, b = p :: (interior b ++ [q]) ∧ endpoints b = .ok (p, q) ∧ b.head? = some p ∧ b.getLast? = some q := by
  rcases b with _ | ⟨p, t⟩
  · simp at h
  · have ht : t ≠ [] := by rintro rfl; simp at h
    refine ⟨p, t.getLast ht, ?_, ?_, rfl, ?_⟩
    · rw [interior, List.tail_cons, List.dropLast_append_getLast]
    · unfold endpoints
      rw [List.head?_cons, List.getLast?_cons, List.getLast?_eq_some_getLast ht]
      rfl
    · rw [List.getLast?_cons, List.getLast?_eq_some_getLast ht]; rfl

/-- One end point. -/
theorem locate_ok {dist : P → P → K} {tol : K} {Q : P → Prop}
    (hsep : ∀ p q, Q p → Q q → (dist p q ≤ tol ↔ p = q)) {ext : List P} (hne : ext ≠ []) (hn : ext.Nodup)
    (hQ : ∀ p ∈ ext, Q p) {p : P} (hp : Q p) :
    ∃ i ext', locate dist tol ext p = .ok (i, ext') ∧ ext' ≠ [] ∧ ext'.Nodup ∧
      (∀ x, x ∈ ext' ↔ x ∈ ext ∨ x = p) ∧ ext <+: ext' ∧ ext'[i]? = some p ∧
      (∀ k, ext.length ≤ k → k < ext'.length → k = i) := by
  obtain ⟨i, w, e, hw, hmin⟩ := Patch.argmin_ok (l := ext.map (fun q => dist q p)) (by simpa using hne)
  rw [List.getElem?_map] at hw
  obtain ⟨q, hq, rfl⟩ := Option.map_eq_some_iff.1 hw
  have hqm := List.mem_iff_getElem?.2 ⟨i, hq⟩
  unfold locate
  rw [e, py_bind_ok, pyGet_eq_ok.2 hq, py_bind_ok]
  by_cases h : tol < dist q p
  · rw [if_pos h]
    have hnp : p ∉ ext := by
      intro hp'
      obtain ⟨k, hk⟩ := List.mem_iff_getElem?.1 hp'
      have h1 := (hmin k (dist p p) (by rw [List.getElem?_map, hk]; rfl)).1
      have h2 := (hsep p p hp hp).2 rfl
      exact absurd (h.trans_le (h1.trans h2)) (lt_irrefl _)
    refine ⟨_, _, rfl, by simp, ?_, by simp, List.prefix_append _ _, by simp, ?_⟩
    · exact List.nodup_append.2 ⟨hn, by simp, by
        intro a ha b hb
        rw [List.mem_singleton] at hb
        rintro rfl
        exact hnp (hb ▸ ha)⟩
    · intro k h1 h2
      rw [List.length_append] at h2
      simp at h2
      omega
  · rw [if_neg h]
    have hqp := (hsep q p (hQ q hqm) hp).1 (not_lt.1 h)
    subst hqp
    exact ⟨i, ext, rfl, hne, hn, by intro x; constructor
                                    · exact .inl
                                    · rintro (h | rfl)
                                      · exact h
                                      · exact hqm, List.prefix_refl _, hq, by intro k h1 h2; omega⟩

theorem getElem?_prefix {α : Type} {l l' : List α} (h : l <+: l') {i : Nat} {x : α} (hx : l[i]? = some x) :
    l'[i]? = some x := by
  obtain ⟨t, rfl⟩ := h
  rw [List.getElem?_append_left (List.getElem?_eq_some_iff.1 hx).1, hx]

theorem locateAll_ok {dist : P → P → K} {tol : K} {Q : P → Prop}
    (hsep : ∀ p q, Q p → Q q → (dist p q ≤ tol ↔ p = q)) :
    ∀ (bs : List (List P)) (ext : List P), ext ≠ [] → ext.Nodup → (∀ p ∈ ext, Q p) → (∀ p, IsEnd bs p → Q p) →
      (∀ b ∈ bs, 2 ≤ b.length) →
      ∃ bounds ext', locateAll dist tol bs ext = .ok (bounds, ext') ∧ ext'.Nodup ∧ ext <+: ext' ∧
        (∀ p, p ∈ ext' ↔ p ∈ ext ∨ IsEnd bs p) ∧
        List.Forall₂ (fun b (ij : Nat × Nat) => ∃ p q, endpoints b = .ok (p, q) ∧ ext'[ij.1]? = some p ∧
          ext'[ij.2]? = some q) bs bounds ∧
        ∀ k, ext.length ≤ k → k < ext'.length → ∃ ij ∈ bounds, k = ij.1 ∨ k = ij.2
  | [], ext, hne, hn, hQ, _, _ => by
      refine ⟨[], ext, rfl, hn, List.prefix_refl _, ?_, .nil, by intro k h1 h2; omega⟩
      intro p
      simp [IsEnd]
  | b :: bs, ext, hne, hn, hQ, hE, hb => by
      obtain ⟨p, q, _, he, hhead, hlast⟩ := branch_shape (hb b (by simp))
      have hpQ : Q p := hE p ⟨b, by simp, .inl hhead⟩
      have hqQ : Q q := hE q ⟨b, by simp, .inr hlast⟩
      obtain ⟨i, ext1, e1, ne1, n1, m1, p1, g1, k1⟩ := locate_ok hsep hne hn hQ hpQ
      have hQ1 : ∀ x ∈ ext1, Q x := by
        intro x hx
        rcases (m1 x).1 hx with h | rfl
        · exact hQ x h
        · exact hpQ
      obtain ⟨j, ext2, e2, ne2, n2, m2, p2, g2, k2⟩ := locate_ok hsep ne1 n1 hQ1 hqQ
      have hQ2 : ∀ x ∈ ext2, Q x := by
        intro x hx
        rcases (m2 x).1 hx with h | rfl
        · exact hQ1 x h
        · exact hqQ
      obtain ⟨bounds, ext', e3, n3, p3, m3, f3, k3⟩ := locateAll_ok hsep bs ext2 ne2 n2 hQ2
        (fun x ⟨b', hb', h⟩ => hE x ⟨b', by simp [hb'], h⟩) (fun b' hb' => hb b' (by simp [hb']))
      refine ⟨(i, j) :: bounds, ext', ?_, n3, p1.trans (p2.trans p3), ?_, ?_, ?_⟩
      · simp only [locateAll, he, py_bind_ok, e1, e2, e3]
      · intro x
        rw [m3, m2, m1]
        constructor
        · rintro (((h | rfl) | rfl) | ⟨b', hb', h⟩)
          · exact .inl h
          · exact .inr ⟨b, by simp, .inl hhead⟩
          · exact .inr ⟨b, by simp, .inr hlast⟩
          · exact .inr ⟨b', by simp [hb'], h⟩
        · rintro (h | ⟨b', hb', h⟩)
          · exact .inl (.inl (.inl h))
          · rcases List.mem_cons.1 hb' with rfl | hb'
            · rcases h with h | h
              · rw [hhead] at h
                exact .inl (.inl (.inr (Option.some.inj h).symm))
              · rw [hlast] at h
                exact .inl (.inr (Option.some.inj h).symm)
            · exact .inr ⟨b', hb', h⟩
      · exact .cons ⟨p, q, he, getElem?_prefix (p2.trans p3) g1, getElem?_prefix p3 g2⟩ f3
      · intro k h1 h2
        by_cases hk1 : k < ext1.length
        · exact ⟨(i, j), by simp, .inl (k1 k h1 hk1)⟩
        · by_cases hk2 : k < ext2.length
          · exact ⟨(i, j), by simp, .inr (k2 k (by omega) hk2)⟩
          · obtain ⟨ij, h, h'⟩ := k3 k (by omega) h2
            exact ⟨ij, by simp [h], h'⟩

/-- The vertex numbers of the branches. -/
def vmaps : List ((Nat × Nat) × List P) → Nat → List (List Nat)
  | [], _ => []
  | ((fE, lE), b) :: rest, fI => vmap fE lE fI (interior b).length :: vmaps rest (fI + (interior b).length)

theorem addInterior_eq : ∀ (L : List ((Nat × Nat) × List P)) (fI : Nat) (ext : List P) (cells : List (Nat × Nat)),
    addInterior L fI ext cells = (ext ++ (L.map (fun x => interior x.2)).flatten,
      cells ++ (L.zip (vmaps L fI)).flatMap (fun x => if (interior x.1.2).length = 0 then [] else pairs x.2))
  | [], fI, ext, cells => by simp [addInterior]
  | ((fE, lE), b) :: rest, fI, ext, cells => by
      unfold addInterior vmaps
      by_cases h : (interior b).length = 0
      · rw [if_pos h, addInterior_eq rest]
        have hb : interior b = [] := List.length_eq_zero_iff.1 h
        simp [hb]
      · rw [if_neg h, addInterior_eq rest]
        simp only [List.map_cons, List.flatten_cons, List.zip_cons_cons, List.flatMap_cons, if_neg h, List.append_assoc]

theorem vmaps_interior : ∀ (L : List ((Nat × Nat) × List P)) (fI : Nat),
    ((vmaps L fI).map interior).flatten = List.range' fI (L.map (fun x => interior x.2)).flatten.length
  | [], _ => rfl
  | ((fE, lE), b) :: rest, fI => by
      have hi : interior (vmap fE lE fI (interior b).length) = List.range' fI (interior b).length := by
        simp [interior, vmap]
      simp only [vmaps, List.map_cons, List.flatten_cons, hi, vmaps_interior rest, List.length_append]
      rw [List.range'_append_1]

theorem vmaps_trace : ∀ (L : List ((Nat × Nat) × List P)) (ext : List P) (pre : List P),
    (∀ x ∈ L, 2 ≤ x.2.length ∧ ∃ p q, endpoints x.2 = .ok (p, q) ∧ ext[x.1.1]? = some p ∧ ext[x.1.2]? = some q) →
    List.Forall₂ (Traces (ext ++ pre ++ (L.map (fun x => interior x.2)).flatten)) (L.map (fun x => x.2))
      (vmaps L (ext.length + pre.length))
  | [], _, _, _ => .nil
  | ((fE, lE), b) :: rest, ext, pre, h => by
      obtain ⟨hb, p, q, he, hp, hq⟩ := h _ (by simp : ((fE, lE), b) ∈ ((fE, lE), b) :: rest)
      obtain ⟨p', q', hs, he', _⟩ := branch_shape hb
      dsimp only at hp hq he hb hs
      rw [he] at he'
      obtain ⟨rfl, rfl⟩ := Prod.mk.inj (Except.ok.inj he')
      have ih := vmaps_trace rest ext (pre ++ interior b) (fun x hx => h x (by simp [hx]))
      simp only [List.map_cons, List.flatten_cons, vmaps]
      refine .cons ?_ ?_
      · unfold Traces
        have hx : ∀ {i : Nat} {x : P}, ext[i]? = some x →
            (ext ++ pre ++ (interior b ++ (rest.map (fun x => interior x.2)).flatten))[i]? = some x := by
          intro i x h
          exact getElem?_prefix ((List.prefix_append _ _).trans (List.prefix_append _ _)) h
        rw [vmap]
        generalize hI : interior b = I at *
        rw [hs]
        refine .cons (hx hp) ?_
        refine List.rel_append ?_ (.cons (hx hq) .nil)
        rw [List.forall₂_iff_get]
        refine ⟨by simp, ?_⟩
        intro i h1 h2
        simp only [List.get_eq_getElem, List.getElem_range', Nat.one_mul]
        rw [List.getElem?_append_right (by simp), List.getElem?_append_left (by simp; omega)]
        simp only [List.length_append]
        rw [show ext.length + pre.length + i - (ext.length + pre.length) = i by omega]
        exact List.getElem?_eq_getElem h1
      · rw [List.length_append, ← Nat.add_assoc] at ih
        simpa only [List.append_assoc] using ih

theorem vmaps_ends : ∀ (L : List ((Nat × Nat) × List P)) (fI n : Nat), (∀ x ∈ L, x.1.1 < n ∧ x.1.2 < n) →
    ∀ vm ∈ vmaps L fI, ∃ v w, vm.head? = some v ∧ vm.getLast? = some w ∧ v < n ∧ w < n
  | [], _, _, _ => by simp [vmaps]
  | ((fE, lE), b) :: rest, fI, n, h => by
      intro vm hvm
      rw [vmaps, List.mem_cons] at hvm
      rcases hvm with rfl | hvm
      · obtain ⟨a, c⟩ := h ((fE, lE), b) (by simp)
        refine ⟨fE, lE, rfl, ?_, a, c⟩
        rw [vmap, List.getLast?_cons, List.getLast?_append]
        rfl
      · exact vmaps_ends rest _ n (fun x hx => h x (by simp [hx])) vm hvm

theorem foldl_max_eq {l : List Nat} {a n : Nat} (ha : a ≤ n) (hle : ∀ x ∈ l, x ≤ n) (hm : a = n ∨ n ∈ l) :
    l.foldl max a = n := by
  induction l generalizing a with
  | nil => simpa using hm
  | cons x l ih =>
      have hx := hle x (by simp)
      refine ih (by omega) (fun y hy => hle y (by simp [hy])) ?_
      rcases hm with rfl | h
      · exact .inl (by omega)
      · rcases List.mem_cons.1 h with rfl | h
        · exact .inl (by omega)
        · exact .inr h

end Line

end Verif.Contour
