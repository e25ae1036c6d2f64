import Verif.Lemmas.Registry
import Verif.Props.Embedding
/-!
# C83: maps kept in a mesh
-/
namespace Verif.Registry
open Verif Verif.Embedding

variable {build : Nat → List Nat → Py (List (Nat × Nat))} {marks : List Nat}

/-- For all histories of calls: cells which are mapped stay mapped, if the mesh is not the result of `refine`, or all
    injections are from meshes into which there was a map at the beginning.

    Partial: false for other injections, see `injection_drops`. -/
theorem maps_stay_partial : ∀ {os : List Op} {a : Attrs} {id c e : Nat}, Stored a.mesh id c e →
    (a.parentCell = none ∨ ∀ m s, Op.injection m s ∈ os → hasMap a.mesh m = true) →
    ∃ e', Stored (history build marks os a).mesh id c e'
  | [], a, id, c, e, h, _ => ⟨e, h⟩
  | o :: os, a, id, c, e, h, hc => by
      rw [history]
      cases ho : o.run build marks a with
      | error _ => exact maps_stay_partial h (hc.imp_right (fun hc m s hm => hc m s (List.mem_cons_of_mem _ hm)))
      | ok a' =>
          dsimp only
          have key : a'.parentCell = a.parentCell ∧ (∃ e', Stored a'.mesh id c e') ∧
              ∀ m, hasMap a.mesh m = true → hasMap a'.mesh m = true := by
            cases o with
            | injection m s =>
                have : a' = a := by
                  rw [Op.run, injection] at ho
                  rcases hc with hc | hc
                  · split at ho
                    · injection ho with ho; exact ho.symm
                    · rw [hc] at ho
                      obtain ⟨_, _, ho⟩ := py_bind_eq_ok.1 ho
                      injection ho with ho
                      exact ho.symm
                  · rw [if_pos (hc m s (by simp))] at ho
                    injection ho with ho
                    exact ho.symm
                subst this
                exact ⟨rfl, ⟨e, h⟩, fun _ h => h⟩
            | entityMap i tags =>
                rw [Op.run] at ho
                obtain ⟨t, h1, ho⟩ := py_bind_eq_ok.1 ho
                injection ho with ho
                subst ho
                rcases getEntityMap_maps h1 with rfl | ⟨m, _, ht⟩
                · exact ⟨rfl, ⟨e, h⟩, fun _ h => h⟩
                · refine ⟨rfl, h.cons ht, fun j hj => ?_⟩
                  obtain ⟨maps, m', h2, h3⟩ := hasMap_iff.1 hj
                  rw [hasMap_iff]
                  dsimp only
                  rw [ht]
                  by_cases hji : j = i
                  · subst hji
                    exact ⟨_, _, rfl, List.lookup_cons_self⟩
                  · refine ⟨_, m', rfl, ?_⟩
                    rw [List.lookup_cons, beq_false_of_ne hji, h2]
                    exact h3
            | embedding i m =>
                rw [Op.run, computeEmbedding] at ho
                cases hm : a.mesh.maps with
                | none => rw [hm] at ho; cases ho
                | some maps =>
                    rw [hm] at ho
                    dsimp only at ho
                    split at ho
                    · cases ho
                    · next hno =>
                      obtain ⟨m, _, ho⟩ := py_bind_eq_ok.1 ho
                      injection ho with ho
                      subst ho
                      have hne : ∀ j m', maps.lookup j = some m' → j ≠ i := by
                        rintro j m' hj rfl
                        exact hno (hasMap_iff.2 ⟨maps, m', hm, hj⟩)
                      refine ⟨rfl, ?_, fun j hj => ?_⟩
                      · obtain ⟨maps', m', h1, h2, h3⟩ := h
                        rw [hm] at h1
                        injection h1 with h1
                        subst h1
                        exact ⟨e, _, m', rfl, by rw [List.lookup_cons, beq_false_of_ne (hne _ _ h2)]; exact h2, h3⟩
                      · obtain ⟨maps', m', h2, h3⟩ := hasMap_iff.1 hj
                        rw [hm] at h2
                        injection h2 with h2
                        subst h2
                        exact hasMap_iff.2 ⟨_, m', rfl, by rw [List.lookup_cons, beq_false_of_ne (hne _ _ h3)]; exact h3⟩
          obtain ⟨hp, ⟨e', hs⟩, hh⟩ := key
          refine maps_stay_partial hs ?_
          rw [hp]
          exact hc.imp_right (fun hc m s hm => hh m (hc m s (List.mem_cons_of_mem _ hm)))

/-- What is stored is right after all histories, if the maps which are built are right, and injections are from the
    mesh which was refined.

    Partial: false for injections from other meshes, see `injection_wrong_parent`. -/
theorem maps_right_partial {right : Nat → Nat → Nat → Prop}
    (hb : ∀ id tags m, build id tags = .ok m → ∀ c e, m.lookup c = some e → right id c e) :
    ∀ {os : List Op} {a : Attrs}, AllRight right a.mesh →
    (∀ id m, Op.embedding id (.ok m) ∈ os → ∀ c e, m.lookup c = some e → right id c e) →
    (∀ id s cells, Op.injection id s ∈ os → a.parentCell = some cells → ∀ c e, (enumerated cells).lookup c = some e →
      right id c e) →
    AllRight right (history build marks os a).mesh
  | [], a, h, _, _ => h
  | o :: os, a, h, he, hi => by
      rw [history]
      have he' : ∀ id m, Op.embedding id (.ok m) ∈ os → ∀ c e, m.lookup c = some e → right id c e :=
        fun id m hm => he id m (List.mem_cons_of_mem _ hm)
      cases ho : o.run build marks a with
      | error _ => exact maps_right_partial hb h he' (fun id s cells hm => hi id s cells (List.mem_cons_of_mem _ hm))
      | ok a' =>
          dsimp only
          have key : a'.parentCell = a.parentCell ∧ AllRight right a'.mesh := by
            cases o with
            | injection m s =>
                rw [Op.run, injection] at ho
                split at ho
                · injection ho with ho; subst ho; exact ⟨rfl, h⟩
                · cases hp : a.parentCell with
                  | none =>
                      rw [hp] at ho
                      obtain ⟨_, _, ho⟩ := py_bind_eq_ok.1 ho
                      injection ho with ho
                      subst ho
                      exact ⟨hp, h⟩
                  | some cells =>
                      rw [hp] at ho
                      injection ho with ho
                      subst ho
                      refine ⟨rfl, ?_⟩
                      rintro id c e ⟨maps, m', h1, h2, h3⟩
                      injection h1 with h1
                      subst h1
                      rcases lookup_cons_cases h2 with ⟨rfl, rfl⟩ | ⟨_, h2⟩
                      · exact hi id s cells (by simp) hp c e h3
                      · simp at h2
            | entityMap i tags =>
                rw [Op.run] at ho
                obtain ⟨t, h1, ho⟩ := py_bind_eq_ok.1 ho
                injection ho with ho
                subst ho
                rcases getEntityMap_maps h1 with rfl | ⟨m, hm, ht⟩
                · exact ⟨rfl, h⟩
                · exact ⟨rfl, h.cons (hb i tags m hm) ht⟩
            | embedding i m =>
                rw [Op.run, computeEmbedding] at ho
                cases hm : a.mesh.maps with
                | none => rw [hm] at ho; cases ho
                | some maps =>
                    rw [hm] at ho
                    dsimp only at ho
                    split at ho
                    · cases ho
                    · obtain ⟨m, rfl, ho⟩ := py_bind_eq_ok.1 ho
                      injection ho with ho
                      subst ho
                      refine ⟨rfl, ?_⟩
                      rintro id c e ⟨maps', m', h1, h2, h3⟩
                      injection h1 with h1
                      subst h1
                      rcases lookup_cons_cases h2 with ⟨rfl, rfl⟩ | ⟨_, h2⟩
                      · exact he id m' (by simp) c e h3
                      · exact h id c e ⟨maps, m', hm, h2, h3⟩
          obtain ⟨hp, hr⟩ := key
          exact maps_right_partial hb hr he' (fun id s cells hm hc =>
            hi id s cells (List.mem_cons_of_mem _ hm) (by rw [← hp]; exact hc))

/-! ## Injections -/

/-- An injection from a mesh without a map into a refined mesh removes all other maps, and records that the mesh is a
    refinement of this one. -/
theorem injection_drops {a : Attrs} {m : Nat} {s : String} {cells : List Nat} (hm : hasMap a.mesh m = false)
    (hp : a.parentCell = some cells) :
    ∃ a', injection m s a = .ok a' ∧ a'.mesh.tagged = a.mesh.tagged ∧
      (∀ id c e, id ≠ m → ¬ Stored a'.mesh id c e) ∧
      ∀ c e, Stored a'.mesh m c e ↔ cells[c]? = some e := by
  refine ⟨{ a with mesh := ⟨some [(m, enumerated cells)], a.mesh.tagged⟩ }, ?_, rfl, ?_, ?_⟩
  · rw [injection, hm, hp]
    rfl
  · rintro id c e hne ⟨maps, m', h1, h2, _⟩
    injection h1 with h1
    subst h1
    rw [List.lookup_cons, beq_false_of_ne hne] at h2
    simp at h2
  · intro c e
    have hen : ∀ (l : List Nat) (k c : Nat), ((List.range' k l.length).zip l).lookup (k + c) = l[c]? := by
      intro l
      induction l with
      | nil => intro k c; rfl
      | cons x l ih =>
          intro k c
          rw [List.length_cons, List.range'_succ, List.zip_cons_cons, List.lookup_cons]
          cases c with
          | zero => simp
          | succ c =>
              rw [beq_false_of_ne (by omega)]
              have := ih (k + 1) c
              rw [show k + 1 + c = k + (c + 1) by omega] at this
              simpa using this
    have hlook : (enumerated cells).lookup c = cells[c]? := by
      have := hen cells 0 c
      rwa [Nat.zero_add, ← List.range_eq_range'] at this
    constructor
    · rintro ⟨maps, m', h1, h2, h3⟩
      injection h1 with h1
      subst h1
      rw [List.lookup_cons_self] at h2
      injection h2 with h2
      subst h2
      rw [← hlook]
      exact h3
    · intro h
      exact ⟨_, _, rfl, List.lookup_cons_self, by rw [hlook]; exact h⟩

/-- The curve with four cells is a refinement of the mesh 4, with three marks; the mesh 3 has nothing to do with it. -/
def refined : Attrs := ⟨⟨none, none⟩, some [0, 0, 1, 1]⟩

/-- Before an injection the averages on the refined mesh can be computed, afterwards they raise `KeyError`. -/
theorem injection_breaks_average :
    averageMap 5 refined.mesh = .ok none ∧
    averageMap 5 (history build marks [.injection 4 "interpolate"] refined).mesh = .error .keyError := ⟨rfl, rfl⟩

/-- The first trace onto the refined mesh works, but not if there was an injection before. -/
theorem injection_breaks_trace :
    (∃ t, getEntityMap (sampleBuild [1, 2, 3, 3]) 5 (some [1, 2, 3, 3]) (some [1]) refined.mesh = .ok t) ∧
    getEntityMap (sampleBuild [1, 2, 3, 3]) 5 (some [1, 2, 3, 3]) (some [1])
      (history build marks [.injection 4 "interpolate"] refined).mesh = .error .assertion := ⟨⟨_, rfl⟩, rfl⟩

/-- Traces with the tags 1 and 2 after one with all tags: with an injection in between, the last one misses the cells
    with the tag 2. -/
theorem injection_breaks_tags :
    Mapped (history (fun _ => sampleBuild [1, 2, 3, 3]) [1, 2, 3, 3]
      [.entityMap 5 [1, 2, 3], .entityMap 5 [1], .entityMap 5 [2]] refined).mesh 5 [1, 2, 3, 3] [2] ∧
    ¬ Mapped (history (fun _ => sampleBuild [1, 2, 3, 3]) [1, 2, 3, 3]
      [.entityMap 5 [1, 2, 3], .injection 4 "interpolate", .entityMap 5 [1], .entityMap 5 [2]] refined).mesh 5
        [1, 2, 3, 3] [2] := by
  constructor
  · refine ⟨_, _, rfl, rfl, fun c x hx hc => ?_⟩
    obtain rfl : x = 2 := by simpa using hx
    have : c = 1 := by
      match c, hc with
      | 0, hc => simp at hc
      | 1, _ => rfl
      | 2, hc => simp at hc
      | 3, hc => simp at hc
      | c + 4, hc => simp at hc
    subst this
    exact ⟨11, rfl⟩
  · rintro ⟨maps, m, h1, h2, h3⟩
    injection h1 with h1
    subst h1
    injection h2 with h2
    subst h2
    obtain ⟨e, he⟩ := h3 1 2 (by simp) rfl
    have : (none : Option Nat) = some e := he
    cases this

/-- An injection from any mesh whatsoever records the refined mesh as its refinement. -/
theorem injection_wrong_parent :
    restrictionMap 3 (history build marks [.injection 3 "interpolate"] refined).mesh =
      .ok [(0, 0), (1, 0), (2, 1), (3, 1)] := rfl

/-! ## The hypotheses are met -/

/-- An embedded mesh seen from a second mesh, and an injection from the first one. -/
example : ∃ e', Stored (history (fun _ => sampleBuild [1, 2]) [1, 2]
    [.embedding 6 (.ok [(0, 3), (1, 2)]), .injection 5 "interpolate", .entityMap 7 [2]]
    ⟨⟨some [(5, [(0, 8), (1, 9)])], some [1, 2]⟩, some [0, 1]⟩).mesh 5 1 e' :=
  maps_stay_partial (e := 9) ⟨_, _, rfl, rfl, rfl⟩ (.inr (fun m s h => by
    simp at h
    rw [h.1]
    rfl))

/-- Traces onto a mesh and the injection from its parent. -/
example : AllRight (fun id c e => (id = 5 → e = 10 + c) ∧ (id = 4 → e = c / 2))
    (history (fun id tags => if id = 5 then sampleBuild [1, 2, 3, 3] tags else .error .assertion) [1, 2, 3, 3]
      [.entityMap 5 [1, 2], .injection 4 "interpolate", .entityMap 5 [3]] refined).mesh := by
  refine maps_right_partial ?_ ?_ ?_ ?_
  · intro id tags m h c e he
    split at h
    · next hid =>
      subst hid
      injection h with h
      subst h
      have := Embedded.mem_of_lookup he
      obtain ⟨c', _, h2⟩ := List.mem_map.1 this
      obtain ⟨rfl, rfl⟩ := Prod.mk.inj h2
      exact ⟨fun _ => rfl, fun h => absurd h (by decide)⟩
    · cases h
  · rintro id c e ⟨maps, m, h1, _⟩
    cases h1
  · intro id m h
    simp at h
  · intro id s cells h hp c e he
    have : id = 4 := by
      simp at h
      exact h.1
    subst this
    obtain rfl : [0, 0, 1, 1] = cells := by simpa [refined] using hp
    refine ⟨fun h => absurd h (by decide), fun _ => ?_⟩
    have hmem := Embedded.mem_of_lookup he
    have : (c, e) ∈ [(0, 0), (1, 0), (2, 1), (3, 1)] := hmem
    simp at this
    omega

/-- The mesh 4 is lost by the injection from 3. -/
example : ∃ a', injection 3 "interpolate" ⟨⟨some [(4, [(0, 0)])], some [1]⟩, some [0, 0]⟩ = .ok a' ∧
    ∀ c e, ¬ Stored a'.mesh 4 c e := by
  obtain ⟨a', h, _, h2, _⟩ := injection_drops (a := ⟨⟨some [(4, [(0, 0)])], some [1]⟩, some [0, 0]⟩) (m := 3)
    (s := "interpolate") rfl rfl
  exact ⟨a', h, fun c e => h2 4 c e (by decide)⟩

end Verif.Registry
