import Verif.Lemmas.Gmsh2
/-!
# Lemmas about the data of a gmsh model
-/
namespace Verif.Gmsh
open Verif Verif.BlockOps Verif.Embedded

/-- The elements of a type in the data. -/
def elementsIn (data : List (Nat × Block)) (elm : Nat) : List (List Nat × Nat) :=
  (data.lookup elm).elim [] (fun b => b.rows.zip b.tags)

/-- There is a tag for each element. -/
def Lengths (data : List (Nat × Block)) : Prop := ∀ p ∈ data, p.2.tags.length = p.2.rows.length

theorem lookup_map_other {data : List (Nat × Block)} {elm k : Nat} (v : Block) (hk : k ≠ elm) :
    (data.map (fun p => if p.1 = elm then (elm, v) else p)).lookup k = data.lookup k := by
  induction data with
  | nil => rfl
  | cons p l ih =>
      obtain ⟨a, b⟩ := p
      rw [List.map_cons]
      dsimp only
      by_cases ha : a = elm
      · have h1 : (k == elm) = false := by simpa using hk
        have h2 : (k == a) = false := by rw [ha]; exact h1
        rw [if_pos ha, List.lookup_cons, h1, ih, List.lookup_cons, h2]
      · rw [if_neg ha, List.lookup_cons, List.lookup_cons, ih]

theorem lookup_map_self {data : List (Nat × Block)} {elm : Nat} {b : Block} (v : Block) (h : data.lookup elm = some b) :
    (data.map (fun p => if p.1 = elm then (elm, v) else p)).lookup elm = some v := by
  induction data with
  | nil => simp at h
  | cons p l ih =>
      obtain ⟨a, b'⟩ := p
      rw [List.map_cons]
      dsimp only
      by_cases ha : a = elm
      · rw [if_pos ha]; simp
      · have h2 : (elm == a) = false := by simpa using fun e : elm = a => ha e.symm
        rw [List.lookup_cons, h2] at h
        rw [if_neg ha, List.lookup_cons, h2]
        exact ih h

theorem lookup_append {data : List (Nat × Block)} {elm k : Nat} (v : Block) :
    (data ++ [(elm, v)]).lookup k = (data.lookup k).or (if k = elm then some v else none) := by
  induction data with
  | nil =>
      rw [List.nil_append, List.lookup_cons]
      by_cases h : k = elm
      · simp [h]
      · have : (k == elm) = false := by simpa using h
        rw [this, if_neg h]; rfl
  | cons p l ih =>
      obtain ⟨a, b⟩ := p
      rw [List.cons_append, List.lookup_cons, List.lookup_cons]
      cases (k == a)
      · exact ih
      · rfl

theorem map_zip_replicate {rows : List (List Nat)} {tag : Nat} :
    (rows.map (fun r => r.map (fun t => t - 1))).zip (List.replicate rows.length tag) =
      rows.map (fun r => (r.map (fun t => t - 1), tag)) := by
  induction rows with
  | nil => rfl
  | cons r l ih => rw [List.map_cons, List.length_cons, List.replicate_succ, List.zip_cons_cons, ih, List.map_cons]

theorem addElements_ok {data data' : List (Nat × Block)} {elm width : Nat} {rows : List (List Nat)} {tag : Nat}
    (hl : Lengths data) (h : addElements data elm width rows tag = .ok data') :
    Lengths data' ∧ ∀ k, elementsIn data' k =
      elementsIn data k ++ (if elm = k then rows.map (fun r => (r.map (fun t => t - 1), tag)) else []) := by
  unfold addElements at h
  dsimp only at h
  cases hlk : data.lookup elm with
  | none =>
      rw [hlk] at h
      injection h with h
      subst h
      refine ⟨?_, fun k => ?_⟩
      · intro p hp
        rcases List.mem_append.1 hp with hp | hp
        · exact hl p hp
        · rw [List.mem_singleton] at hp
          subst hp
          simp
      · unfold elementsIn
        rw [lookup_append]
        by_cases hk : k = elm
        · subst hk
          rw [hlk, if_pos rfl, if_pos rfl]
          simp only [Option.or, Option.elim]
          rw [map_zip_replicate]; rfl
        · rw [if_neg hk, if_neg (fun e => hk e.symm)]
          cases data.lookup k <;> simp [Option.or]
  | some b =>
      rw [hlk] at h
      dsimp only at h
      by_cases hw : b.width = width
      · rw [if_pos hw] at h
        injection h with h
        subst h
        have hbl : b.tags.length = b.rows.length := hl _ (mem_of_lookup hlk)
        refine ⟨?_, fun k => ?_⟩
        · intro p hp
          obtain ⟨q, hq, rfl⟩ := List.mem_map.1 hp
          by_cases hqe : q.1 = elm
          · rw [if_pos hqe]
            simp [hbl]
          · rw [if_neg hqe]
            exact hl q hq
        · unfold elementsIn
          by_cases hk : k = elm
          · subst hk
            rw [lookup_map_self _ hlk, hlk, if_pos rfl]
            simp only [Option.elim]
            rw [List.zip_append hbl.symm, map_zip_replicate]
          · rw [lookup_map_other _ hk, if_neg (fun e => hk e.symm), List.append_nil]
      · rw [if_neg hw] at h
        simp at h

theorem addEntity_ok {data data' : List (Nat × Block)} {tag : Nat} {E : Entity} (hl : Lengths data)
    (h : addEntity data tag E = .ok data') :
    Lengths data' ∧ ∀ k, elementsIn data' k = elementsIn data k ++
      (E.filter (fun x => x.1 = k)).flatMap (fun x => x.2.2.map (fun r => (r.map (fun t => t - 1), tag))) := by
  unfold addEntity at h
  split at h
  · rename_i elm width rows
    obtain ⟨h1, h2⟩ := addElements_ok hl h
    refine ⟨h1, fun k => ?_⟩
    rw [h2 k]
    congr 1
    by_cases hk : elm = k
    · simp [hk]
    · simp [hk]
  · simp at h

theorem addGroup_ok {tag : Nat} {es : List Entity} {data data' : List (Nat × Block)} (hl : Lengths data)
    (h : addGroup tag es data = .ok data') :
    Lengths data' ∧ ∀ k, elementsIn data' k = elementsIn data k ++ es.flatMap (fun E =>
      (E.filter (fun x => x.1 = k)).flatMap (fun x => x.2.2.map (fun r => (r.map (fun t => t - 1), tag)))) := by
  induction es generalizing data with
  | nil => injection h with h; subst h; exact ⟨hl, by simp⟩
  | cons E es ih =>
      unfold addGroup at h
      obtain ⟨d, hd, h⟩ := py_bind_eq_ok.1 h
      obtain ⟨h1, h2⟩ := addEntity_ok hl hd
      obtain ⟨h3, h4⟩ := ih h1 h
      refine ⟨h3, fun k => ?_⟩
      rw [h4 k, h2 k, List.flatMap_cons, List.append_assoc]

theorem addGroups_ok {gs : List (Nat × List Entity)} {data data' : List (Nat × Block)} (hl : Lengths data)
    (h : addGroups gs data = .ok data') :
    Lengths data' ∧ ∀ k, elementsIn data' k = elementsIn data k ++ elementsOf k gs := by
  induction gs generalizing data with
  | nil => injection h with h; subst h; exact ⟨hl, by simp [elementsOf]⟩
  | cons G gs ih =>
      obtain ⟨tag, es⟩ := G
      unfold addGroups at h
      obtain ⟨d, hd, h⟩ := py_bind_eq_ok.1 h
      obtain ⟨h1, h2⟩ := addGroup_ok hl hd
      obtain ⟨h3, h4⟩ := ih h1 h
      refine ⟨h3, fun k => ?_⟩
      rw [h4 k, h2 k, List.append_assoc]
      congr 1

/-! ## Valid data -/

theorem addElements_dataOK {data : List (Nat × Block)} {elm width : Nat} {rows : List (List Nat)} {tag : Nat}
    (hd : DataOK data) (ht : 0 < tag) (he : elm ∈ [1, 2, 4])
    (hw : width = (if elm = 1 then 2 else if elm = 2 then 3 else 4)) (hne : rows ≠ [])
    (hr : ∀ r ∈ rows, r.length = width ∧ r.Nodup ∧ ∀ t ∈ r, 0 < t) :
    ∃ data', addElements data elm width rows tag = .ok data' ∧ DataOK data' := by
  have hrow : ∀ r ∈ rows.map (fun r => r.map (fun t => t - 1)), r.length = width ∧ r.Nodup := by
    intro r hrm
    obtain ⟨r', hr', rfl⟩ := List.mem_map.1 hrm
    obtain ⟨h1, h2, h3⟩ := hr r' hr'
    refine ⟨by simpa using h1, ?_⟩
    refine List.Nodup.map_on ?_ h2
    intro x hx y hy e
    have := h3 x hx
    have := h3 y hy
    omega
  unfold addElements
  dsimp only
  cases hlk : data.lookup elm with
  | none =>
      refine ⟨_, rfl, ?_, ?_, ?_⟩
      · rw [List.map_append, List.nodup_append]
        refine ⟨hd.keys, by simp, ?_⟩
        intro a ha b hb e
        simp only [List.map_cons, List.map_nil, List.mem_singleton] at hb
        subst hb
        subst e
        obtain ⟨p, hp, hpe⟩ := List.mem_map.1 ha
        have := lookup_of_mem hd.keys (elm := p.1) (b := p.2) hp
        rw [hpe, hlk] at this
        simp at this
      · intro p hp
        rcases List.mem_append.1 hp with hp | hp
        · exact hd.elms p hp
        · rw [List.mem_singleton] at hp; subst hp; exact he
      · intro p hp
        rcases List.mem_append.1 hp with hp | hp
        · exact hd.blocks p hp
        · rw [List.mem_singleton] at hp
          subst hp
          exact ⟨hw, hrow, by simpa using hne, by simp, fun t hti => by
            rw [(List.mem_replicate.1 hti).2]; exact ht⟩
  | some b =>
      have hb : BlockOK elm b := hd.blocks _ (mem_of_lookup hlk)
      have hwb : b.width = width := by rw [hb.width, hw]
      dsimp only
      rw [if_pos hwb]
      refine ⟨_, rfl, ?_, ?_, ?_⟩
      · have : ((data.map (fun p => if p.1 = elm then
            (elm, (⟨b.width, b.rows ++ rows.map (fun r => r.map (fun t => t - 1)),
              b.tags ++ List.replicate rows.length tag⟩ : Block)) else p)).map (fun p => p.1)) = data.map (fun p => p.1) := by
          rw [List.map_map]
          apply List.map_congr_left
          intro p _
          simp only [Function.comp]
          by_cases hp : p.1 = elm
          · rw [if_pos hp]; exact hp.symm
          · rw [if_neg hp]
        rw [this]
        exact hd.keys
      · intro p hp
        obtain ⟨q, hq, rfl⟩ := List.mem_map.1 hp
        by_cases hqe : q.1 = elm
        · rw [if_pos hqe]; exact he
        · rw [if_neg hqe]; exact hd.elms q hq
      · intro p hp
        obtain ⟨q, hq, rfl⟩ := List.mem_map.1 hp
        by_cases hqe : q.1 = elm
        · rw [if_pos hqe]
          refine ⟨hb.width, ?_, ?_, ?_, ?_⟩
          · intro r hrm
            dsimp only at hrm ⊢
            rcases List.mem_append.1 hrm with hrm | hrm
            · exact hb.rows r hrm
            · rw [hwb]; exact hrow r hrm
          · dsimp only
            intro e
            exact hb.ne (List.append_eq_nil_iff.1 e).1
          · simp [hb.length]
          · intro t hti
            dsimp only at hti
            rcases List.mem_append.1 hti with hti | hti
            · exact hb.pos t hti
            · rw [(List.mem_replicate.1 hti).2]; exact ht
        · rw [if_neg hqe]; exact hd.blocks q hq

theorem addGroup_dataOK {tag : Nat} {es : List Entity} {data : List (Nat × Block)} (hd : DataOK data) (ht : 0 < tag)
    (he : ∀ E ∈ es, EntityOK E) : ∃ data', addGroup tag es data = .ok data' ∧ DataOK data' := by
  induction es generalizing data with
  | nil => exact ⟨data, rfl, hd⟩
  | cons E es ih =>
      obtain ⟨elm, width, rows, rfl, h1, h2, h3, h4⟩ := he E (List.mem_cons_self ..)
      obtain ⟨d, hd1, hd2⟩ := addElements_dataOK hd ht h1 h2 h3 h4
      obtain ⟨d', hd3, hd4⟩ := ih hd2 (fun E hE => he E (List.mem_cons_of_mem _ hE))
      refine ⟨d', ?_, hd4⟩
      unfold addGroup addEntity
      dsimp only
      rw [hd1, py_bind_ok, hd3]

theorem addGroups_dataOK {gs : List (Nat × List Entity)} {data : List (Nat × Block)} (hd : DataOK data)
    (he : ∀ G ∈ gs, 0 < G.1 ∧ ∀ E ∈ G.2, EntityOK E) : ∃ data', addGroups gs data = .ok data' ∧ DataOK data' := by
  induction gs generalizing data with
  | nil => exact ⟨data, rfl, hd⟩
  | cons G gs ih =>
      obtain ⟨tag, es⟩ := G
      obtain ⟨h1, h2⟩ := he (tag, es) (List.mem_cons_self ..)
      obtain ⟨d, hd1, hd2⟩ := addGroup_dataOK hd h1 h2
      obtain ⟨d', hd3, hd4⟩ := ih hd2 (fun G hG => he G (List.mem_cons_of_mem _ hG))
      refine ⟨d', ?_, hd4⟩
      unfold addGroups
      rw [hd1, py_bind_ok, hd3]

/-- Nodes sorted by their tags 1, 2, ... -/
theorem sorted_nodes {P : Type} {tagged : List (Nat × P)} (h : (tagged.map (fun p => p.1)).Perm (List.range' 1 tagged.length))
    (i : Nat) (p : P) :
    ((tagged.insertionSort (fun a b => a.1 ≤ b.1)).map (fun p => p.2))[i]? = some p ↔ (i + 1, p) ∈ tagged := by
  set s := tagged.insertionSort (fun a b => a.1 ≤ b.1) with hs
  have hp : s.Perm tagged := List.perm_insertionSort _ _
  have hsorted : s.Pairwise (fun a b => a.1 ≤ b.1) := by
    haveI : Std.Total (fun a b : Nat × P => a.1 ≤ b.1) := ⟨fun a b => Nat.le_total a.1 b.1⟩
    haveI : IsTrans (Nat × P) (fun a b => a.1 ≤ b.1) := ⟨fun a b c h1 h2 => Nat.le_trans h1 h2⟩
    exact List.pairwise_insertionSort _ _
  have hk : s.map (fun p => p.1) = List.range' 1 tagged.length := by
    apply ((hp.map _).trans h).eq_of_pairwise (fun a b _ _ h1 h2 => Nat.le_antisymm h1 h2)
    · rw [List.pairwise_map]; exact hsorted
    · exact List.pairwise_le_range'
  have hi : ∀ q : Nat × P, s[i]? = some q → q.1 = i + 1 := by
    intro q hq
    have h1 : (s.map (fun p => p.1))[i]? = some q.1 := by rw [List.getElem?_map, hq]; rfl
    rw [hk, List.getElem?_range'] at h1
    · injection h1 with h1; omega
    · have := (List.getElem?_eq_some_iff.1 hq).1
      rw [hp.length_eq] at this
      exact this
  rw [List.getElem?_map]
  constructor
  · intro h1
    cases hq : s[i]? with
    | none => rw [hq] at h1; simp at h1
    | some q =>
        rw [hq] at h1
        simp only [Option.map_some, Option.some.injEq] at h1
        rw [← hi q hq, ← h1]
        exact hp.mem_iff.1 (List.mem_of_getElem? hq)
  · intro h1
    have hm := hp.mem_iff.2 h1
    obtain ⟨j, hj, he⟩ := List.mem_iff_getElem.1 hm
    have h2 : (s.map (fun p => p.1))[j]? = some (i + 1) := by
      rw [List.getElem?_map, List.getElem?_eq_getElem hj, he]; rfl
    rw [hk, List.getElem?_range' (by rw [← hp.length_eq]; exact hj)] at h2
    injection h2 with h2
    have : j = i := by omega
    subst this
    rw [List.getElem?_eq_getElem hj, he]; rfl

end Verif.Gmsh
