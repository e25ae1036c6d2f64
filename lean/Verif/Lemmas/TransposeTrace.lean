import Verif.Model.TransposeTrace
import Verif.Props.SurfaceMean
/-! # Lemmas about transposed traces -/
namespace Verif.TransposeTrace
open Verif Verif.DofMat Verif.Trace Verif.Embedding

theorem build_own {C : Meshes} {id : Nat} (h : C.dim id ≤ C.edim) (tags : List Nat) :
    build C id tags = .error .assertion := by
  rw [build, buildEmbeddingMap, decide_eq_false (by omega)]
  rfl

theorem request_own {C : Meshes} {id : Nat} (h : C.dim id ≤ C.edim) (tags : List Nat) {t : TraceMesh}
    (hk : (t.maps.getD []).lookup id = none) : request C id tags t = .error .assertion := by
  obtain ⟨maps, tagged⟩ := t
  rw [request, getEntityMap]
  cases maps with
  | none => simp [build_own h]
  | some maps =>
    cases tagged with
    | none => rfl
    | some tagged =>
      simp only [Option.getD_some] at hk
      simp [hk, build_own h]

theorem request_other {C : Meshes} {id own : Nat} (h : C.dim own ≤ C.edim) {tags : List Nat} {t t' : TraceMesh}
    (hk : (t.maps.getD []).lookup own = none) (hr : request C id tags t = .ok t') :
    (t'.maps.getD []).lookup own = none := by
  by_cases hid : id = own
  · subst hid
    rw [request_own h tags hk] at hr
    exact absurd hr (by simp)
  have hb : (own == id) = false := by simpa using fun e : own = id => hid e.symm
  obtain ⟨maps, tagged⟩ := t
  rw [request, getEntityMap] at hr
  cases maps with
  | none =>
    simp only [Option.getD_some] at hr
    obtain ⟨m, _, hr⟩ := py_bind_eq_ok.1 hr
    split at hr
    · exact absurd hr (by simp)
    · simp only [Except.ok.injEq] at hr
      subst hr
      simp [List.lookup, hb]
  | some maps =>
    simp only [Option.getD_some] at hk
    cases tagged with
    | none => exact absurd hr (by simp)
    | some tagged =>
      simp only [Option.getD_some] at hr
      split at hr
      · obtain ⟨m, _, hr⟩ := py_bind_eq_ok.1 hr
        simp only [Except.ok.injEq] at hr
        subst hr
        simp [List.lookup, hb, hk]
      · split at hr
        · exact absurd hr (by simp)
        · split at hr
          · obtain ⟨m, _, hr⟩ := py_bind_eq_ok.1 hr
            simp only [Except.ok.injEq] at hr
            subst hr
            simp [List.lookup, hb, hk]
          · simp only [Except.ok.injEq] at hr
            subst hr
            simpa using hk

theorem assert_contains (ks : List Nat) (f' f : Nat) :
    ((do
        pyAssert (decide (f' ∈ ks))
        Except.ok f' : Py Nat) = .ok f) ↔ f ∈ ks ∧ f' = f := by
  by_cases h : f' ∈ ks
  · simp [h]
    rintro rfl
    exact h
  · simp [h]
    rintro h1 rfl
    exact h h1

/-- A request which succeeds can be repeated, and nothing changes. -/
theorem request_twice {C : Meshes} {id : Nat} {tags : List Nat} {t t1 : TraceMesh} (h : request C id tags t = .ok t1) :
    ∃ t2, request C id tags t1 = .ok t2 ∧
      ∀ c : Nat, (((t2.maps.getD []).lookup id).getD []).lookup c = (((t1.maps.getD []).lookup id).getD []).lookup c := by
  have again : ∀ (m old : List (Nat × Nat)) (c : Nat), (m ++ (m ++ old)).lookup c = (m ++ old).lookup c := by
    intro m old c
    rw [List.lookup_append, List.lookup_append]
    cases List.lookup c m <;> rfl
  have second : ∀ (m old : List (Nat × Nat)) (maps : List (Nat × List (Nat × Nat))) (tg : List Nat),
      build C id tags = .ok m → (∀ c : Nat, (m ++ old).lookup c = old.lookup c) →
      ∃ t2, request C id tags ⟨some ((id, old) :: maps), some tg⟩ = .ok t2 ∧
        ∀ c : Nat, (((t2.maps.getD []).lookup id).getD []).lookup c = old.lookup c := by
    intro m old maps tg hb hl
    rw [request, getEntityMap]
    simp only [List.lookup_cons_self, Option.getD_some]
    rw [hb]
    generalize tg.filter (fun x => decide (x ∉ tags)) = needed
    cases needed with
    | nil =>
        refine ⟨_, rfl, ?_⟩
        intro c
        simp [hl c]
    | cons a needed =>
        simp only
        split
        · refine ⟨_, rfl, ?_⟩
          intro c
          simp [hl c]
        · refine ⟨_, rfl, ?_⟩
          intro c
          simp
  have h0 := h
  rw [request, getEntityMap] at h
  simp only [Option.getD_some] at h
  cases hm : t.maps with
  | none =>
      rw [hm] at h
      obtain ⟨m, hb, h⟩ := py_bind_eq_ok.1 h
      cases hg : t.tagged with
      | none =>
          rw [hg] at h
          injection h with h
          subst h
          simpa using second m m [] tags hb (fun c => by simpa using again m [] c)
      | some tg =>
          rw [hg] at h
          cases tg with
          | cons a tg => cases h
          | nil =>
              injection h with h
              subst h
              simpa using second m m [] tags hb (fun c => by simpa using again m [] c)
  | some maps =>
      rw [hm] at h
      cases hg : t.tagged with
      | none => rw [hg] at h; cases h
      | some tg =>
          rw [hg] at h
          cases hl : maps.lookup id with
          | none =>
              dsimp only at h
              rw [hl] at h
              obtain ⟨m, hb, h⟩ := py_bind_eq_ok.1 h
              injection h with h
              subst h
              simpa using second m m maps tg hb (fun c => by simpa using again m [] c)
          | some old =>
              dsimp only at h
              rw [hl] at h
              have built : ∀ m, build C id tags = .ok m → t1 = ⟨some ((id, m ++ old) :: maps), some tg⟩ →
                  ∃ t2, request C id tags t1 = .ok t2 ∧
                    ∀ c : Nat, (((t2.maps.getD []).lookup id).getD []).lookup c = (((t1.maps.getD []).lookup id).getD []).lookup c := by
                intro m hb e
                subst e
                simpa using second m (m ++ old) maps tg hb (again m old)
              generalize hn : tg.filter (fun x => decide (x ∉ tags)) = needed at h
              cases needed with
              | nil =>
                  obtain ⟨m, hb, h⟩ := py_bind_eq_ok.1 h
                  injection h with h
                  exact built m hb h.symm
              | cons a needed =>
                  simp only at h
                  split at h
                  · obtain ⟨m, hb, h⟩ := py_bind_eq_ok.1 h
                    injection h with h
                    exact built m hb h.symm
                  · injection h with h
                    subst h
                    exact ⟨t, h0, fun _ => rfl⟩

end Verif.TransposeTrace
