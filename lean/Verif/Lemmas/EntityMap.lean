import Verif.Lemmas.Embedding
/-! Lemmas about `get_entity_map`. -/
namespace Verif.Embedding
open Verif Verif.BlockOps Verif.DofMat Verif.Embedded

theorem lookup_append_left {l l' : List (Nat × Nat)} {c e : Nat} (h : l.lookup c = some e) :
    (l ++ l').lookup c = some e := by
  rw [List.lookup_append, h]; rfl

theorem lookup_append_right {l l' : List (Nat × Nat)} {c e : Nat} (h : l'.lookup c = some e) :
    ∃ e', (l ++ l').lookup c = some e' := by
  rw [List.lookup_append, h]
  cases l.lookup c <;> simp

/-- The request of a mesh which has no map. -/
theorem getEntityMap_new {build : List Nat → Py (List (Nat × Nat))} {id : Nat} {marks tags : List Nat} {t t' : TraceMesh}
    (hb : BuildsAll build marks) (hn : ∀ maps, t.maps = some maps → maps.lookup id = none)
    (h : getEntityMap build id (some marks) (some tags) t = .ok t') :
    Mapped t' id marks tags ∧ (∀ maps, t.maps = some maps → t'.tagged = t.tagged) ∧
      (t.maps = none → t'.tagged = some tags) := by
  unfold getEntityMap at h
  simp only [Option.getD_some] at h
  rcases hm : t.maps with _ | maps
  · rw [hm] at h
    simp only [py_bind_eq_ok] at h
    obtain ⟨m, h1, h2⟩ := h
    split at h2
    · simp at h2
    · obtain rfl := Except.ok.inj h2
      exact ⟨⟨_, m, rfl, by simp, hb tags m h1⟩, by simp, fun _ => rfl⟩
  · rw [hm] at h
    rcases ht : t.tagged with _ | tagged
    · rw [ht] at h; simp at h
    · rw [ht] at h
      simp only [hn maps hm, py_bind_eq_ok] at h
      obtain ⟨m, h1, h2⟩ := h
      obtain rfl := Except.ok.inj h2
      exact ⟨⟨_, m, rfl, by simp, hb tags m h1⟩, fun _ _ => rfl, by simp⟩

open scoped Classical in
/-- The request of a mesh which has a map. -/
theorem getEntityMap_old {build : List Nat → Py (List (Nat × Nat))} {id : Nat} {marks tags : List Nat} {t t' : TraceMesh}
    {maps : List (Nat × List (Nat × Nat))} {old : List (Nat × Nat)} {tagged : List Nat}
    (hm : t.maps = some maps) (ho : maps.lookup id = some old) (ht : t.tagged = some tagged)
    (h : getEntityMap build id (some marks) (some tags) t = .ok t') :
    t'.tagged = some tagged ∧
    if (∀ x ∈ tagged, x ∉ tags → ∀ c, marks[c]? = some x → c ∈ old.map (fun p => p.1)) then
      ∃ m, build tags = .ok m ∧ t'.maps = some ((id, m ++ old) :: maps)
    else t' = t := by
  unfold getEntityMap at h
  simp only [Option.getD_some, hm, ht, ho] at h
  have hcond : ((tagged.filter (fun x => decide (x ∉ tags))).isEmpty ||
      ((tagged.filter (fun x => decide (x ∉ tags))).flatMap (whereEq marks)).all
        (fun c => decide (c ∈ old.map (fun p => p.1)))) = true ↔
      ∀ x ∈ tagged, x ∉ tags → ∀ c, marks[c]? = some x → c ∈ old.map (fun p => p.1) := by
    rw [Bool.or_eq_true, List.isEmpty_iff, List.all_eq_true]
    constructor
    · rintro (h | h) x hx hxt c hc
      · have : x ∈ tagged.filter (fun x => decide (x ∉ tags)) := List.mem_filter.2 ⟨hx, by simpa using hxt⟩
        rw [h] at this; simp at this
      · have := h c (List.mem_flatMap.2 ⟨x, List.mem_filter.2 ⟨hx, by simpa using hxt⟩, mem_whereEq.2 hc⟩)
        simpa using this
    · intro h
      refine .inr (fun c hc => ?_)
      obtain ⟨x, hx, hxc⟩ := List.mem_flatMap.1 hc
      rw [List.mem_filter] at hx
      simpa using h x hx.1 (by simpa using hx.2) c (mem_whereEq.1 hxc)
  have h' : (if ((tagged.filter (fun x => decide (x ∉ tags))).isEmpty ||
      ((tagged.filter (fun x => decide (x ∉ tags))).flatMap (whereEq marks)).all
        (fun c => decide (c ∈ old.map (fun p => p.1)))) = true then
        (do let m ← build tags; .ok ⟨some ((id, m ++ old) :: maps), t.tagged⟩) else Except.ok t) = Except.ok t' := by
    rw [← h]
    rcases tagged.filter (fun x => decide (x ∉ tags)) with _ | ⟨a, l⟩ <;> simp [ht]
  by_cases hc : ∀ x ∈ tagged, x ∉ tags → ∀ c, marks[c]? = some x → c ∈ old.map (fun p => p.1)
  · rw [if_pos (hcond.2 hc)] at h'
    simp only [py_bind_eq_ok] at h'
    obtain ⟨m, h1, h2⟩ := h'
    obtain rfl := Except.ok.inj h2
    exact ⟨ht, by rw [if_pos hc]; exact ⟨m, h1, rfl⟩⟩
  · rw [if_neg (fun hh => hc (hcond.1 hh))] at h'
    obtain rfl := Except.ok.inj h'
    exact ⟨ht, by rw [if_neg hc]⟩

theorem mem_keys_of_lookup {l : List (Nat × Nat)} {c e : Nat} (h : l.lookup c = some e) : c ∈ l.map (fun p => p.1) :=
  List.mem_map.2 ⟨(c, e), mem_of_lookup h, rfl⟩

/-- Entries stay. -/
theorem Mapped.stays {build : List Nat → Py (List (Nat × Nat))} {id id' : Nat} {marks tags tags' : List Nat}
    {t t' : TraceMesh} (hM : Mapped t id marks tags)
    (h : getEntityMap build id' (some marks) (some tags') t = .ok t') : Mapped t' id marks tags := by
  obtain ⟨maps, m, h1, h2, h3⟩ := hM
  rcases ht : t.tagged with _ | tagged
  · unfold getEntityMap at h
    simp only [h1, ht] at h
    simp at h
  · rcases hl : maps.lookup id' with _ | old
    · unfold getEntityMap at h
      simp only [h1, ht, hl, py_bind_eq_ok] at h
      obtain ⟨m', _, h5⟩ := h
      obtain rfl := Except.ok.inj h5
      refine ⟨_, m, rfl, ?_, h3⟩
      rw [List.lookup_cons]
      have : id ≠ id' := by rintro rfl; rw [hl] at h2; simp at h2
      rw [beq_false_of_ne this]; exact h2
    · obtain ⟨_, h5⟩ := getEntityMap_old h1 hl ht h
      split at h5
      · obtain ⟨m', _, h6⟩ := h5
        by_cases hid : id = id'
        · subst hid
          rw [h2] at hl
          obtain rfl := Option.some.inj hl
          refine ⟨_, m' ++ m, h6, by simp, fun c x hx hc => ?_⟩
          obtain ⟨e, he⟩ := h3 c x hx hc
          exact lookup_append_right he
        · refine ⟨_, m, h6, ?_, h3⟩
          rw [List.lookup_cons, beq_false_of_ne hid]; exact h2
      · rw [h5]; exact ⟨maps, m, h1, h2, h3⟩

/-- The invariant: the cells of `tagged_cells` are mapped. -/
def Inv (t : TraceMesh) (id : Nat) (marks : List Nat) : Prop :=
  (t.maps = none ∧ t.tagged = none) ∨ ∃ tagged, t.tagged = some tagged ∧ Mapped t id marks tagged

theorem Inv.step {build : List Nat → Py (List (Nat × Nat))} {id : Nat} {marks tags : List Nat} {t t' : TraceMesh}
    (hb : BuildsAll build marks) (hI : Inv t id marks)
    (h : getEntityMap build id (some marks) (some tags) t = .ok t') : Inv t' id marks ∧ Mapped t' id marks tags := by
  rcases hI with ⟨h1, h2⟩ | ⟨tagged, h1, h2⟩
  · obtain ⟨a, _, b⟩ := getEntityMap_new hb (by simp [h1]) h
    exact ⟨.inr ⟨tags, b h1, a⟩, a⟩
  · have hst := h2.stays h
    obtain ⟨maps, m, h3, h4, h5⟩ := h2
    obtain ⟨a, b⟩ := getEntityMap_old h3 h4 h1 h
    rw [if_pos (fun x hx _ c hc => by
      obtain ⟨e, he⟩ := h5 c x hx hc
      exact mem_keys_of_lookup he)] at b
    obtain ⟨m', h6, h7⟩ := b
    refine ⟨.inr ⟨tagged, a, hst⟩, _, m' ++ m, h7, by simp, fun c x hx hc => ?_⟩
    obtain ⟨e, he⟩ := hb tags m' h6 c x hx hc
    exact ⟨e, lookup_append_left he⟩

end Verif.Embedding
