import Verif.Spec.Embedded
import Verif.Lemmas.BlockOps
import Mathlib.Data.List.Perm.Basic
import Mathlib.Data.List.Nodup
/-! Lemmas about embedded meshes. -/
namespace Verif.Embedded
open Verif Verif.BlockOps Verif.DofMat
variable {P : Type}

theorem mem_whereEq {a : List Nat} {t e : Nat} : e ∈ whereEq a t ↔ a[e]? = some t := by
  unfold whereEq
  rw [List.mem_filter, List.mem_range]
  constructor
  · intro h; simpa using h.2
  · intro h
    exact ⟨(List.getElem?_eq_some_iff.1 h).1, by simpa using h⟩

theorem whereEq_nodup (a : List Nat) (t : Nat) : (whereEq a t).Nodup := List.nodup_range.filter _

theorem mem_npUnique {l : List Nat} {x : Nat} : x ∈ npUnique l ↔ x ∈ l := by
  rw [npUnique, (List.perm_insertionSort (· ≤ ·) _).mem_iff, List.mem_dedup]

theorem npUnique_nodup (l : List Nat) : (npUnique l).Nodup :=
  (List.perm_insertionSort (· ≤ ·) _).nodup_iff.2 (List.nodup_dedup _)

/-- Lookup in `dict(zip(l, range(len(l))))`. -/
theorem lookup_zipIdx : ∀ (l : List Nat) (n v : Nat), l.Nodup → ∀ i : Nat, l[i]? = some v →
    (l.zipIdx n).lookup v = some (n + i)
  | [], _, _, _, i, h => by simp at h
  | x :: l, n, v, hn, i, h => by
      rw [List.nodup_cons] at hn
      rw [List.zipIdx_cons, List.lookup_cons]
      match i with
      | 0 => simp at h; subst h; simp
      | i + 1 =>
          rw [List.getElem?_cons_succ] at h
          have hne : v ≠ x := by
            rintro rfl
            exact hn.1 (List.mem_iff_getElem?.2 ⟨i, h⟩)
          rw [beq_false_of_ne hne]
          have := lookup_zipIdx l (n + 1) v hn.2 i h
          rw [this]
          exact congrArg some (by omega)

theorem lookup_zipIdx_none : ∀ (l : List Nat) (n v : Nat), v ∉ l → (l.zipIdx n).lookup v = none
  | [], _, _, _ => by simp
  | x :: l, n, v, h => by
      simp only [List.mem_cons, not_or] at h
      rw [List.zipIdx_cons, List.lookup_cons, beq_false_of_ne h.1]
      exact lookup_zipIdx_none l (n + 1) v h.2

theorem dict_index {l : List Nat} (hn : l.Nodup) {v : Nat} (hv : v ∈ l) :
    ∃ i, dictGet l.zipIdx v = .ok i ∧ l[i]? = some v := by
  obtain ⟨i, hi⟩ := List.mem_iff_getElem?.1 hv
  refine ⟨i, ?_, hi⟩
  rw [dictGet, lookup_zipIdx l 0 v hn i hi, Nat.zero_add]

theorem length_setSlice (f : List Nat) (a b v : Nat) : (setSlice f a b v).length = f.length := by
  simp [setSlice]

theorem getElem?_setSlice (f : List Nat) (a b v i : Nat) :
    (setSlice f a b v)[i]? = if i < f.length then some (if a ≤ i ∧ i < b then v else f.getD i 0) else none := by
  unfold setSlice
  rw [List.getElem?_map]
  by_cases h : i < f.length
  · rw [List.getElem?_range h, if_pos h]; rfl
  · rw [if_neg h, List.getElem?_eq_none (by simpa using h)]; rfl

theorem fillMarkers_len : ∀ (ms : List Nat) (cs : List (List Nat)) (o : Nat) (f : List Nat),
    (fillMarkers ms cs o f).length = f.length
  | [], _, _, _ => rfl
  | _ :: _, [], _, _ => rfl
  | m :: ms, c :: cs, o, f => by rw [fillMarkers, fillMarkers_len, length_setSlice]

/-- After filling: position `o + k` in the pieces has the marker of its piece. -/
theorem fillMarkers_get (marks : List Nat) : ∀ (ms : List Nat) (o : Nat) (f : List Nat),
    o + (ms.map (whereEq marks)).flatten.length ≤ f.length →
    ∀ i : Nat, (fillMarkers ms (ms.map (whereEq marks)) o f)[i]? =
      if o ≤ i then (match ((ms.map (whereEq marks)).flatten)[i - o]? with
        | some e => marks[e]?
        | none => f[i]?) else f[i]?
  | [], o, f, _, i => by simp [fillMarkers]
  | m :: ms, o, f, h, i => by
      rw [List.map_cons, List.flatten_cons, List.length_append] at h
      rw [List.map_cons, fillMarkers, fillMarkers_get marks ms _ _ (by rw [length_setSlice]; omega),
        getElem?_setSlice, List.flatten_cons]
      by_cases h1 : o ≤ i
      · rw [if_pos h1]
        by_cases h2 : o + (whereEq marks m).length ≤ i
        · rw [if_pos h2, List.getElem?_append_right (by omega)]
          have e : i - o - (whereEq marks m).length = i - (o + (whereEq marks m).length) := by omega
          rw [e]
          split
          · rfl
          · split
            · rename_i h3
              rw [if_neg (by omega), List.getD_eq_getElem?_getD]
              rw [List.getElem?_eq_getElem h3]; rfl
            · rename_i h3
              rw [List.getElem?_eq_none (by omega)]
        · rw [if_neg h2, List.getElem?_append_left (by omega), if_pos (by omega), if_pos (by omega)]
          have hlt : i - o < (whereEq marks m).length := by omega
          rw [List.getElem?_eq_getElem hlt]
          dsimp only
          have := mem_whereEq.1 (List.getElem_mem hlt)
          rw [this]
      · rw [if_neg h1, if_neg (by omega)]
        split
        · rename_i h3
          rw [if_neg (by omega), List.getD_eq_getElem?_getD, List.getElem?_eq_getElem h3]; rfl
        · rename_i h3
          rw [List.getElem?_eq_none (by omega)]

theorem setAll_ok (v : Nat) : ∀ (cs f : List Nat), (∀ c ∈ cs, c < f.length) →
    ∃ f', setAll v cs f = .ok f' ∧ f'.length = f.length ∧
      ∀ i : Nat, f'[i]? = if i ∈ cs then some v else f[i]?
  | [], f, _ => ⟨f, rfl, rfl, by simp⟩
  | c :: cs, f, h => by
      have hc := h c (by simp)
      obtain ⟨f', e, l, g⟩ := setAll_ok v cs (f.set c v) (fun d hd => by
        rw [List.length_set]; exact h d (by simp [hd]))
      refine ⟨f', by rw [setAll, if_pos hc, e], by rw [l, List.length_set], fun i => ?_⟩
      rw [g]
      by_cases hi : i ∈ cs
      · simp [hi]
      · by_cases hic : i = c
        · subst hic; simp [hi, hc]
        · rw [if_neg hi, if_neg (by simp [hic, hi]), List.getElem?_set_ne (Ne.symm hic)]

theorem markOnes_ok : ∀ (css : List (List Nat)) (f : List Nat), (∀ cs ∈ css, ∀ c ∈ cs, c < f.length) →
    ∃ f', markOnes css f = .ok f' ∧ f'.length = f.length ∧
      ∀ i : Nat, f'[i]? = if (∃ cs ∈ css, i ∈ cs) then some 1 else f[i]?
  | [], f, _ => ⟨f, rfl, rfl, by simp⟩
  | cs :: css, f, h => by
      obtain ⟨f1, e1, l1, g1⟩ := setAll_ok 1 cs f (h cs (by simp))
      obtain ⟨f2, e2, l2, g2⟩ := markOnes_ok css f1 (fun cs' hcs c hc => by
        rw [l1]; exact h cs' (by simp [hcs]) c hc)
      refine ⟨f2, by rw [markOnes, e1, py_bind_ok, e2], by rw [l2, l1], fun i => ?_⟩
      rw [g2, g1]
      by_cases h1 : ∃ cs ∈ css, i ∈ cs
      · rw [if_pos h1, if_pos (by obtain ⟨a, b, c⟩ := h1; exact ⟨a, by simp [b], c⟩)]
      · rw [if_neg h1]
        by_cases h2 : i ∈ cs
        · rw [if_pos h2, if_pos ⟨cs, by simp, h2⟩]
        · rw [if_neg h2, if_neg]
          rintro ⟨a, b, c⟩
          rcases List.mem_cons.1 b with rfl | b
          · exact h2 c
          · exact h1 ⟨a, b, c⟩

theorem colorCells_ok {cmap : List Nat} (hn : cmap.Nodup) : ∀ (colors : List (Nat × List Nat)) (f : List Nat),
    f.length = cmap.length → (∀ p ∈ colors, ∀ o ∈ p.2, o ∈ cmap) →
    (∀ p ∈ colors, ∀ q ∈ colors, ∀ o, o ∈ p.2 → o ∈ q.2 → p.1 = q.1) →
    ∃ f', colorCells cmap.zipIdx colors f = .ok f' ∧ f'.length = f.length ∧
      ∀ i o : Nat, cmap[i]? = some o → (∀ p ∈ colors, o ∈ p.2 → f'[i]? = some p.1) ∧
        ((∀ p ∈ colors, o ∉ p.2) → f'[i]? = f[i]?)
  | [], f, _, _, _ => ⟨f, rfl, rfl, fun i o _ => ⟨by simp, fun _ => rfl⟩⟩
  | (color, old) :: rest, f, hl, hm, hd => by
      have hidx : ∀ o, ∃ i, o ∈ old → dictGet cmap.zipIdx o = .ok i ∧ cmap[i]? = some o := by
        intro o
        by_cases ho : o ∈ old
        · obtain ⟨i, h⟩ := dict_index hn (hm (color, old) (by simp) o ho)
          exact ⟨i, fun _ => h⟩
        · exact ⟨0, fun h => absurd h ho⟩
      choose idx hidx using hidx
      have e1 : pyMap (dictGet cmap.zipIdx) old = .ok (old.map idx) :=
        pyMap_ok (fun o ho => (hidx o ho).1)
      obtain ⟨f1, e2, l1, g1⟩ := setAll_ok color (old.map idx) f (fun c hc => by
        obtain ⟨o, ho, rfl⟩ := List.mem_map.1 hc
        rw [hl]; exact (List.getElem?_eq_some_iff.1 (hidx o ho).2).1)
      obtain ⟨f2, e3, l2, g2⟩ := colorCells_ok hn rest f1 (by rw [l1, hl]) (fun p hp => hm p (by simp [hp]))
        (fun p hp q hq => hd p (by simp [hp]) q (by simp [hq]))
      refine ⟨f2, by rw [colorCells, e1, py_bind_ok, e2, py_bind_ok, e3], by rw [l2, l1], fun i o hi => ?_⟩
      have hmem : i ∈ old.map idx ↔ o ∈ old := by
        constructor
        · intro h
          obtain ⟨o', ho', rfl⟩ := List.mem_map.1 h
          have := (hidx o' ho').2
          rw [hi] at this
          obtain rfl := Option.some.inj this
          exact ho'
        · intro h
          refine List.mem_map.2 ⟨o, h, ?_⟩
          have h1 := (hidx o h).2
          have h2 := (List.getElem?_eq_some_iff.1 h1).1
          exact (List.getElem?_inj h2 hn).1 (by rw [h1, hi])
      obtain ⟨a, b⟩ := g2 i o hi
      constructor
      · intro p hp ho
        by_cases hr : ∃ q ∈ rest, o ∈ q.2
        · obtain ⟨q, hq, hoq⟩ := hr
          rw [a q hq hoq, hd p hp q (by simp [hq]) o ho hoq]
        · push Not at hr
          rw [b hr]
          rcases List.mem_cons.1 hp with rfl | hp'
          · rw [g1, if_pos (hmem.2 ho)]
          · exact absurd ho (hr p hp')
      · intro h
        rw [b (fun p hp => h p (by simp [hp])), g1, if_neg]
        rw [hmem]
        exact h (color, old) (by simp)

/-! ## Inverse maps -/

theorem lookup_of_mem {l : List (Nat × Nat)} {k v : Nat} (h : (k, v) ∈ l)
    (hu : ∀ v', (k, v') ∈ l → v' = v) : l.lookup k = some v := by
  induction l with
  | nil => simp at h
  | cons p l ih =>
      obtain ⟨a, b⟩ := p
      rw [List.lookup_cons]
      by_cases hk : k = a
      · subst hk
        rw [beq_self_eq_true]
        simp only
        rw [hu b (by simp)]
      · rw [beq_false_of_ne hk]
        refine ih ?_ (fun v' h' => hu v' (by simp [h']))
        rcases List.mem_cons.1 h with h | h
        · exact absurd (congrArg Prod.fst h) hk
        · exact h

theorem mem_of_lookup {l : List (Nat × Nat)} {k v : Nat} (h : l.lookup k = some v) : (k, v) ∈ l := by
  induction l with
  | nil => simp at h
  | cons p l ih =>
      obtain ⟨a, b⟩ := p
      rw [List.lookup_cons] at h
      by_cases hk : k = a
      · subst hk
        rw [beq_self_eq_true] at h
        simp only at h
        obtain rfl := Option.some.inj h
        simp
      · rw [beq_false_of_ne hk] at h
        exact List.mem_cons_of_mem _ (ih h)

theorem inverseGet_iff {l : List Nat} (hn : l.Nodup) {v i : Nat} : inverseGet l v = some i ↔ l[i]? = some v := by
  have hm : ∀ j, (v, j) ∈ l.zipIdx.reverse ↔ l[j]? = some v := by
    intro j
    rw [List.mem_reverse, List.mem_zipIdx_iff_getElem?]
  unfold inverseGet
  constructor
  · intro h
    exact (hm i).1 (mem_of_lookup h)
  · intro h
    refine lookup_of_mem ((hm i).2 h) (fun j hj => ?_)
    have h1 := (hm j).1 hj
    have h2 := (List.getElem?_eq_some_iff.1 h1).1
    exact (List.getElem?_inj h2 hn).1 (by rw [h1, h])

theorem inverseGet_none {l : List Nat} (hn : l.Nodup) {v : Nat} : inverseGet l v = none ↔ v ∉ l := by
  rw [Option.eq_none_iff_forall_ne_some]
  constructor
  · intro h hv
    obtain ⟨i, hi⟩ := List.mem_iff_getElem?.1 hv
    exact h i ((inverseGet_iff hn).2 hi)
  · intro h i hi
    exact h (List.mem_iff_getElem?.2 ⟨i, (inverseGet_iff hn).1 hi⟩)

theorem setEq_iff {a b : List Nat} : setEq a b = true ↔ ∀ v, v ∈ a ↔ v ∈ b := by
  unfold setEq
  simp only [Bool.and_eq_true, List.all_eq_true, decide_eq_true_eq]
  exact ⟨fun h v => ⟨h.1 v, h.2 v⟩, fun h => ⟨fun v => (h v).1, fun v => (h v).2⟩⟩

end Verif.Embedded
