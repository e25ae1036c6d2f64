import Verif.Lemmas.Plot
import Verif.Lemmas.BlockOps
/-! Lemmas about the cells of drawings and about the order of points. -/
namespace Verif.Plot
open Verif Verif.Shape Verif.BlockOps

/-! ## Tubes -/

theorem closed_getD {first n j : Nat} (hn : 0 < n) (hj : j ≤ n) :
    (closedIndices first n).getD j 0 = first + j % n := by
  unfold closedIndices
  rw [List.getD_eq_getElem?_getD]
  rcases Nat.lt_or_ge j n with h | h
  · rw [List.getElem?_append_left (by simpa using h), Nat.mod_eq_of_lt h]
    simp [h]
  · have : j = n := by omega
    subst this
    rw [List.getElem?_append_right (by simp)]
    simp

theorem closed_length (first n : Nat) : (closedIndices first n).length = n + 1 := by simp [closedIndices]

/-- The quads of a tube whose rings are at their places in the list of points. -/
theorem quads_draw {P : Type} {r0 r1 pre suf : List P} {quads : List (List Nat)}
    (h : tubeQuads (closedIndices pre.length r0.length) (closedIndices (pre.length + r0.length) r1.length) = .ok quads) :
    r0.length = r1.length ∧
      quads.map (fun c => c.map (fun i => (pre ++ (r0 ++ r1 ++ suf))[i]?)) = quadsBetween r0 r1 := by
  unfold tubeQuads at h
  split at h
  case isFalse => simp at h
  case isTrue hl =>
    simp only [closed_length, Nat.add_right_cancel_iff] at hl
    refine ⟨hl.symm, ?_⟩
    simp only [closed_length, Nat.add_sub_cancel, Except.ok.injEq] at h
    rw [← h, List.map_map, quadsBetween, hl]
    refine List.map_congr_left (fun j hj => ?_)
    rw [List.mem_range] at hj
    have hn : 0 < r0.length := by omega
    have e0 : ∀ i, i < r0.length → (pre ++ (r0 ++ r1 ++ suf))[pre.length + i]? = r0[i]? := by
      intro i hi
      rw [List.getElem?_append_right (by omega), Nat.add_sub_cancel_left, List.append_assoc, List.getElem?_append_left hi]
    have e1 : ∀ i, i < r0.length → (pre ++ (r0 ++ r1 ++ suf))[pre.length + r0.length + i]? = r1[i]? := by
      intro i hi
      rw [List.getElem?_append_right (by omega), List.append_assoc, List.getElem?_append_right (by omega),
        show pre.length + r0.length + i - pre.length - r0.length = i by omega, List.getElem?_append_left (by omega)]
    have hm := Nat.mod_lt (j + 1) hn
    simp only [Function.comp_def, List.map_cons, List.map_nil]
    rw [closed_getD hn (by omega), closed_getD hn (by omega), closed_getD hn (by omega), closed_getD hn (by omega),
      Nat.mod_eq_of_lt hj, e0 j hj, e1 j hj, e0 _ hm, e1 _ hm]

theorem tubeLoop_draws {P : Type} : ∀ (tubes : List (List P × List P)) (pre : List P) {d : Drawing P},
    tubeLoop pre.length tubes = .ok d →
    (∀ t ∈ tubes, t.1.length = t.2.length) ∧ d.points = tubes.flatMap (fun t => t.1 ++ t.2) ∧
      d.cells.map (fun c => c.map (fun i => (pre ++ d.points)[i]?)) = tubes.flatMap (fun t => quadsBetween t.1 t.2)
  | [], pre, d, h => by
      simp only [tubeLoop, Except.ok.injEq] at h
      subst h
      simp
  | (r0, r1) :: tubes, pre, d, h => by
      simp only [tubeLoop] at h
      obtain ⟨quads, hq, h⟩ := py_bind_eq_ok.1 h
      obtain ⟨d', hd', h⟩ := py_bind_eq_ok.1 h
      rw [Except.ok.injEq] at h
      subst h
      obtain ⟨hl, hquads⟩ := quads_draw (suf := d'.points) hq
      have ih := tubeLoop_draws tubes (pre ++ r0 ++ r1) (by
        simp only [List.length_append]; exact hd')
      refine ⟨by simpa [hl] using fun a b => ih.1 (a, b), by simp [ih.2.1], ?_⟩
      simp only [List.map_append, List.flatMap_cons]
      rw [hquads, ← ih.2.2]
      simp only [List.append_assoc]

theorem tubeLoop_returns {P : Type} : ∀ (tubes : List (List P × List P)) (first : Nat),
    (∀ t ∈ tubes, t.1.length = t.2.length) → ∃ d, tubeLoop first tubes = .ok d
  | [], _, _ => ⟨_, rfl⟩
  | (r0, r1) :: tubes, first, h => by
      obtain ⟨d, hd⟩ := tubeLoop_returns tubes (first + r0.length + r1.length) (fun t ht => h t (by simp [ht]))
      have hl : r0.length = r1.length := h (r0, r1) (by simp)
      simp only [tubeLoop]
      rw [tubeQuads, if_pos (by simp [closed_length, hl]), py_bind_ok, hd, py_bind_ok]
      exact ⟨_, rfl⟩

theorem tubeLoop_error {P : Type} : ∀ (tubes : List (List P × List P)) (first : Nat),
    (∃ t ∈ tubes, t.1.length ≠ t.2.length) → tubeLoop first tubes = .error .valueError
  | [], _, h => by simp at h
  | (r0, r1) :: tubes, first, h => by
      simp only [tubeLoop]
      by_cases hl : r0.length = r1.length
      · rw [tubeQuads, if_pos (by simp [closed_length, hl]), py_bind_ok,
          tubeLoop_error tubes (first + r0.length + r1.length) ?_, py_bind_error]
        obtain ⟨t, ht, hne⟩ := h
        rcases List.mem_cons.1 ht with rfl | ht
        · exact absurd hl hne
        · exact ⟨t, ht, hne⟩
      · rw [tubeQuads, if_neg (by simp only [closed_length]; omega), py_bind_error]

/-! ## Lines -/

theorem offsets_eq (a : Nat) (ns : List Nat) : offsets a ns = a :: (offsets a ns).tail := by
  cases ns <;> rfl

theorem offsets_pairs (a n : Nat) (ns : List Nat) :
    (offsets a (n :: ns)).dropLast.zip (offsets a (n :: ns)).tail =
      (a, a + n) :: (offsets (a + n) ns).dropLast.zip (offsets (a + n) ns).tail := by
  rw [offsets, List.tail_cons, offsets_eq (a + n) ns, List.dropLast_cons_cons, List.zip_cons_cons, List.tail_cons]

theorem lineLoop_draws {P : Type} : ∀ (rings : List (List P)) (pre : List P) (v0 : Option Nat),
    (∀ r ∈ rings, 2 ≤ r.length) →
    ∃ lines, lineLoop v0 ((offsets pre.length (rings.map List.length)).dropLast.zip
        (offsets pre.length (rings.map List.length)).tail) = .ok lines ∧
      lines.map (fun c => c.map (fun i => (pre ++ rings.flatten)[i]?)) = rings.flatMap polygon
  | [], pre, v0, _ => ⟨[], by simp [offsets, lineLoop], by simp⟩
  | r :: rings, pre, v0, h => by
      have hr : 2 ≤ r.length := h r (by simp)
      obtain ⟨m, hm⟩ : ∃ m, r.length = m + 2 := ⟨r.length - 2, by omega⟩
      have hlast : (List.range' pre.length (m + 1)).getLast? = some (pre.length + m) := by
        rw [List.range'_1_concat, List.getLast?_concat]
      obtain ⟨lines, hl, hd⟩ := lineLoop_draws rings (pre ++ r) (some (pre.length + m)) (fun r hr => h r (by simp [hr]))
      rw [List.length_append] at hl
      refine ⟨(List.range' pre.length (m + 1)).map (fun v => [v, v + 1]) ++ [[pre.length + m + 1, pre.length]] ++ lines,
        ?_, ?_⟩
      · rw [List.map_cons, offsets_pairs]
        simp only [lineLoop]
        rw [show pre.length + r.length - 1 - pre.length = m + 1 by omega, hlast]
        simp only [Option.some_or, bound, py_bind_ok]
        rw [hl]
        rfl
      · have e : ∀ i, i < r.length → (pre ++ (r ++ rings.flatten))[pre.length + i]? = r[i]? := by
          intro i hi
          rw [List.getElem?_append_right (by omega), Nat.add_sub_cancel_left, List.getElem?_append_left hi]
        rw [List.flatten_cons, List.map_append, List.map_append, List.flatMap_cons]
        rw [List.append_assoc] at hd
        rw [hd]
        congr 1
        rw [polygon, hm, List.range_succ, List.map_append, List.map_map]
        congr 1
        · rw [List.range'_eq_map_range, List.map_map]
          refine List.map_congr_left (fun j hj => ?_)
          rw [List.mem_range] at hj
          simp only [Function.comp_def, List.map_cons, List.map_nil]
          rw [Nat.mod_eq_of_lt (by omega), e j (by omega), Nat.add_assoc, e (j + 1) (by omega)]
        · simp only [List.map_cons, List.map_nil]
          have e0 := e 0 (by omega)
          rw [Nat.add_zero] at e0
          rw [Nat.add_assoc, e (m + 1) (by omega), e0, Nat.mod_self]

end Verif.Plot
