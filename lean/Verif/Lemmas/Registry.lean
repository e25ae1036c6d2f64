import Verif.Spec.Registry
import Verif.Lemmas.EntityMap
/-! # Lemmas about the maps kept in a mesh -/
namespace Verif.Registry
open Verif Verif.Embedding

theorem hasMap_iff {t : TraceMesh} {id : Nat} :
    hasMap t id = true ↔ ∃ maps m, t.maps = some maps ∧ maps.lookup id = some m := by
  rw [hasMap, Option.isSome_iff_exists]
  cases t.maps with
  | none => simp
  | some maps => simp

/-- What a request does to the maps. -/
theorem getEntityMap_maps {build : List Nat → Py (List (Nat × Nat))} {id : Nat} {marks tags : List Nat}
    {t t' : TraceMesh} (h : getEntityMap build id (some marks) (some tags) t = .ok t') :
    t' = t ∨ ∃ m, build tags = .ok m ∧
      t'.maps = some ((id, m ++ ((t.maps.getD []).lookup id).getD []) :: t.maps.getD []) := by
  cases hm : t.maps with
  | none =>
      rw [getEntityMap] at h
      simp only [hm, Option.getD_some] at h
      obtain ⟨m, hb, h⟩ := py_bind_eq_ok.1 h
      split at h
      · cases h
      · injection h with h
        subst h
        exact .inr ⟨m, hb, by simp⟩
  | some maps =>
      cases ht : t.tagged with
      | none =>
          rw [getEntityMap] at h
          simp only [hm, ht] at h
          cases h
      | some tagged =>
          cases hl : maps.lookup id with
          | none =>
              rw [getEntityMap] at h
              simp only [hm, ht, hl, Option.getD_some] at h
              obtain ⟨m, hb, h⟩ := py_bind_eq_ok.1 h
              injection h with h
              subst h
              exact .inr ⟨m, hb, by simp [hl]⟩
          | some old =>
              obtain ⟨_, h2⟩ := getEntityMap_old hm hl ht h
              split at h2
              · obtain ⟨m, hb, h3⟩ := h2
                exact .inr ⟨m, hb, by simpa [hl] using h3⟩
              · exact .inl h2

theorem lookup_cons_cases {maps : List (Nat × List (Nat × Nat))} {id id' : Nat} {m m' : List (Nat × Nat)}
    (h : ((id', m') :: maps).lookup id = some m) : (id = id' ∧ m = m') ∨ (id ≠ id' ∧ maps.lookup id = some m) := by
  by_cases e : id = id'
  · subst e
    rw [List.lookup_cons_self] at h
    injection h with h
    exact .inl ⟨rfl, h.symm⟩
  · rw [List.lookup_cons, beq_false_of_ne e] at h
    exact .inr ⟨e, h⟩

/-- New entries in front. -/
theorem Stored.cons {t t' : TraceMesh} {id' : Nat} {m : List (Nat × Nat)} {id c e : Nat} (h : Stored t id c e)
    (ht : t'.maps = some ((id', m ++ ((t.maps.getD []).lookup id').getD []) :: t.maps.getD [])) :
    ∃ e', Stored t' id c e' := by
  obtain ⟨maps, m', h1, h2, h3⟩ := h
  rw [h1] at ht
  simp only [Option.getD_some] at ht
  by_cases hid : id = id'
  · subst hid
    rw [h2] at ht
    obtain ⟨e', he'⟩ := lookup_append_right (l := m) h3
    exact ⟨e', _, _, ht, List.lookup_cons_self, he'⟩
  · exact ⟨e, _, m', ht, by rw [List.lookup_cons, beq_false_of_ne hid]; exact h2, h3⟩

theorem AllRight.cons {right : Nat → Nat → Nat → Prop} {t t' : TraceMesh} {id' : Nat} {m : List (Nat × Nat)}
    (h : AllRight right t) (hm : ∀ c e, m.lookup c = some e → right id' c e)
    (ht : t'.maps = some ((id', m ++ ((t.maps.getD []).lookup id').getD []) :: t.maps.getD [])) : AllRight right t' := by
  rintro id c e ⟨maps', m', h1, h2, h3⟩
  rw [ht] at h1
  injection h1 with h1
  subst h1
  have old : ∀ m1, (t.maps.getD []).lookup id = some m1 → m1.lookup c = some e → right id c e := by
    intro m1 h4 h5
    cases hmaps : t.maps with
    | none => rw [hmaps] at h4; simp at h4
    | some maps =>
        rw [hmaps] at h4
        exact h id c e ⟨maps, m1, hmaps, h4, h5⟩
  rcases lookup_cons_cases h2 with ⟨rfl, rfl⟩ | ⟨_, h2⟩
  · rw [List.lookup_append] at h3
    cases hl : m.lookup c with
    | some e' =>
        rw [hl] at h3
        have : e' = e := by simpa using h3
        subst this
        exact hm c e' hl
    | none =>
        rw [hl] at h3
        cases ho : (t.maps.getD []).lookup id with
        | none => rw [ho] at h3; simp at h3
        | some m1 =>
            rw [ho] at h3
            exact old m1 ho (by simpa using h3)
  · exact old m' h2 h3

end Verif.Registry
