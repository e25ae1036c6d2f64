import Verif.Spec.TraceForm
import Verif.Props.Embedding
import Verif.Lemmas.TransposeTrace
/-! # Lemmas about `Trace` -/
namespace Verif.TraceForm
open Verif Verif.DofMat Verif.Trace Verif.Embedding Verif.TransposeTrace
variable {K X : Type}

theorem mem_npUnique {l : List Nat} {x : Nat} : x ∈ Embedded.npUnique l ↔ x ∈ l := by
  rw [Embedded.npUnique, List.mem_insertionSort, List.mem_dedup]

theorem npUnique_nodup (l : List Nat) : (Embedded.npUnique l).Nodup :=
  (List.perm_insertionSort (· ≤ ·) _).nodup_iff.2 (List.nodup_dedup l)

theorem checkTags_ok {marking : Option (List Nat)} {tags m : List Nat} (hm : marking = some m) (h : ∀ x ∈ tags, x ∈ m) :
    checkTags marking tags = .ok (m, tags) := by
  subst hm
  rw [checkTags]
  have : (tags.all (fun x => decide (x ∈ m))) = true := by
    rw [List.all_eq_true]
    intro x hx
    simpa using h x hx
  rw [this]
  rfl

theorem checkTags_error {marking : Option (List Nat)} {tags : List Nat}
    (h : ¬ ∃ m, marking = some m ∧ ∀ x ∈ tags, x ∈ m) : checkTags marking tags = .error .assertion := by
  cases marking with
  | none => rfl
  | some m =>
      rw [checkTags]
      have : (tags.all (fun x => decide (x ∈ m))) = false := by
        rw [Bool.eq_false_iff]
        intro hall
        rw [List.all_eq_true] at hall
        exact h ⟨m, rfl, fun x hx => by simpa using hall x hx⟩
      rw [this]
      rfl

theorem tagData_ok {marking : Option (List Nat)} {n : Nat} {a : TagArg} (h : a.Legal marking) :
    ∃ tags, tagData marking n a = .ok (marksOf marking n, tags) ∧ tags.Nodup ∧
      ∀ c, (∃ x ∈ tags, (marksOf marking n)[c]? = some x) ↔ a.Selects (marksOf marking n) c := by
  have hall : ∀ (l : List Nat) (c : Nat), (∃ x ∈ Embedded.npUnique l, l[c]? = some x) ↔ c < l.length := by
    intro l c
    constructor
    · rintro ⟨x, _, hx⟩
      exact (List.getElem?_eq_some_iff.1 hx).1
    · intro hc
      exact ⟨l[c], mem_npUnique.2 (List.getElem_mem hc), List.getElem?_eq_getElem hc⟩
  cases a with
  | all =>
      cases marking with
      | some m => exact ⟨_, rfl, npUnique_nodup m, fun c => hall m c⟩
      | none => exact ⟨_, rfl, npUnique_nodup _, fun c => hall _ c⟩
  | one x =>
      obtain ⟨m, rfl, hx⟩ := h
      exact ⟨[x], checkTags_ok rfl (by simpa using hx), by simp, fun c => by simp [TagArg.Selects]⟩
  | many xs =>
      obtain ⟨m, rfl, hx⟩ := h
      exact ⟨xs.dedup, checkTags_ok rfl (by simpa using hx), List.nodup_dedup xs, fun c => by simp [TagArg.Selects]⟩

theorem tagData_error {marking : Option (List Nat)} {n : Nat} {a : TagArg} (h : ¬ a.Legal marking) :
    tagData marking n a = .error .assertion := by
  cases a with
  | all => exact absurd trivial h
  | one x => exact checkTags_error (by simpa [TagArg.Legal] using h)
  | many xs => exact checkTags_error (by simpa [TagArg.Legal] using h)

theorem tagData_marks {marking : Option (List Nat)} {n : Nat} {a : TagArg} {p : List Nat × List Nat}
    (h : tagData marking n a = .ok p) : p.1 = marksOf marking n := by
  by_cases hl : a.Legal marking
  · obtain ⟨tags, h1, _⟩ := tagData_ok (n := n) hl
    rw [h1] at h
    injection h with h
    rw [← h]
  · rw [tagData_error hl] at h
    cases h

/-! ## Maps -/

section maps
variable {C : Meshes} {id : Nat} {marks : List Nat}

theorem build_ok (hC : Conforming C id) (hm : marks.length = C.numCells) (tags : List Nat) :
    ∃ m, build { C with marks := marks } id tags = .ok m ∧
      (∀ c x, x ∈ tags → marks[c]? = some x → ∃ e, m.lookup c = some e) ∧
      ∀ c e, m.lookup c = some e → Lies C id c e := by
  have hlt : ∀ c x, marks[c]? = some x → c < C.numCells := fun c x h => by
    rw [← hm]; exact (List.getElem?_eq_some_iff.1 h).1
  obtain ⟨⟨vmap, emap⟩, hr⟩ := embedding_map_complete (numVerts := C.numVerts) (numCells := C.numCells)
    (cells := C.cells) (marks := marks) (tags := tags) hC.background hC.exact (fun c x _ hc => by
      obtain ⟨e, he⟩ := hC.lies c (hlt c x hc)
      refine ⟨?_, e, he⟩
      have := (hC.cells c (hlt c x hc)).2
      intro h0
      rw [h0] at this
      simp at this)
  obtain ⟨h1, h2, _⟩ := embedding_map_sound hC.background hC.edim hC.collide (marks := marks) (tags := tags) rfl rfl
    (fun c hc => hC.cells c (by omega)) (fun c hc => hC.separated c (by omega)) hr
  refine ⟨emap, ?_, fun c x hx hc => (h1 c x hx hc).1, fun c e he => ⟨(h2 c e he).2.1, (h2 c e he).2.2⟩⟩
  rw [build]
  simp only [decide_eq_true hC.codim, hr, py_bind_ok]

/-- The entries of the map are right. -/
def Sound (C : Meshes) (id : Nat) (t : TraceMesh) : Prop :=
  ∀ maps m, t.maps = some maps → maps.lookup id = some m → ∀ c e, m.lookup c = some e → Lies C id c e

/-- What is kept by the requests. -/
def Good (C : Meshes) (id : Nat) (marks : List Nat) (t : TraceMesh) : Prop :=
  Inv t id marks ∧ Sound C id t

theorem Prepared.good {t : TraceMesh} (h : Prepared C id t) (hm : marks.length = C.numCells) : Good C id marks t := by
  rcases h with ⟨h1, h2⟩ | ⟨maps, m, tagged, h1, h2, h3, h4, h5⟩
  · exact ⟨.inl ⟨h1, h2⟩, fun maps m h _ => by rw [h1] at h; cases h⟩
  · refine ⟨.inr ⟨tagged, h2, maps, m, h1, h3, fun c x _ hc => h4 c ?_⟩, ?_⟩
    · rw [← hm]; exact (List.getElem?_eq_some_iff.1 hc).1
    · intro maps' m' h1' h3' c e he
      rw [h1] at h1'
      injection h1' with h1'
      subst h1'
      rw [h3] at h3'
      injection h3' with h3'
      subst h3'
      exact h5 c e he

theorem lookup_append_cases {l l' : List (Nat × Nat)} {c e : Nat} (h : (l ++ l').lookup c = some e) :
    l.lookup c = some e ∨ l'.lookup c = some e := by
  rw [List.lookup_append] at h
  cases hl : l.lookup c with
  | none => rw [hl] at h; exact .inr (by simpa using h)
  | some e' => rw [hl] at h; exact .inl (by simpa using h)

theorem request_ok (hC : Conforming C id) (hm : marks.length = C.numCells) {t : TraceMesh} (hg : Good C id marks t)
    (tags : List Nat) :
    ∃ t', request { C with marks := marks } id tags t = .ok t' ∧ Good C id marks t' ∧ Mapped t' id marks tags := by
  obtain ⟨m, hb, hall, hl⟩ := build_ok hC hm tags
  have hB : BuildsAll (build { C with marks := marks } id) marks := by
    intro tags' m' h'
    obtain ⟨m1, hb1, hall1, _⟩ := build_ok hC hm tags'
    rw [hb1] at h'
    injection h' with h'
    subst h'
    exact hall1
  obtain ⟨hI, hS⟩ := hg
  have key : ∃ t', request { C with marks := marks } id tags t = .ok t' ∧ Sound C id t' := by
    rcases hI with ⟨h1, h2⟩ | ⟨tagged, h1, maps, m', h2, h3, h4⟩
    · refine ⟨⟨some [(id, m)], some tags⟩, ?_, ?_⟩
      · rw [request, getEntityMap]
        simp only [Option.getD_some, h1, h2, hb, py_bind_ok]
      · intro maps m' h h'
        injection h with h
        subst h
        rw [List.lookup_cons_self] at h'
        injection h' with h'
        subst h'
        exact hl
    · have hs : Sound C id ⟨some ((id, m ++ m') :: maps), t.tagged⟩ := by
        intro maps' m'' h h'
        injection h with h
        subst h
        rw [List.lookup_cons_self] at h'
        injection h' with h'
        subst h'
        intro c e he
        rcases lookup_append_cases he with he | he
        · exact hl c e he
        · exact hS maps m' h2 h3 c e he
      rw [request, getEntityMap]
      simp only [Option.getD_some, h1, h2, h3, hb, py_bind_ok]
      generalize tagged.filter (fun x => decide (x ∉ tags)) = needed
      cases needed with
      | nil => exact ⟨_, rfl, by rw [← h1]; exact hs⟩
      | cons a needed =>
          simp only
          split
          · exact ⟨_, rfl, by rw [← h1]; exact hs⟩
          · exact ⟨_, rfl, hS⟩
  obtain ⟨t', hr, hs⟩ := key
  obtain ⟨hi, hM⟩ := Inv.step hB hI (by rw [request] at hr; exact hr)
  exact ⟨t', hr, ⟨hi, hs⟩, hM⟩

theorem ask_ok (hC : Conforming C id) (hm : marks.length = C.numCells) {t : TraceMesh} (hg : Good C id marks t)
    (tags : List Nat) :
    (ask { C with marks := marks } id tags t).1 = .ok () ∧ Good C id marks (ask { C with marks := marks } id tags t).2 ∧
      Mapped (ask { C with marks := marks } id tags t).2 id marks tags := by
  obtain ⟨t', h, h1, h2⟩ := request_ok hC hm hg tags
  rw [ask, h]
  exact ⟨rfl, h1, h2⟩

theorem asks_ok (hC : Conforming C id) (hm : marks.length = C.numCells) {t : TraceMesh} (hg : Good C id marks t)
    (tags : List Nat) (r : Restr) :
    (asks { C with marks := marks } id tags r t).1 = (.ok (), .ok ()) ∧
      Good C id marks (asks { C with marks := marks } id tags r t).2 ∧
      ((∀ w, r ≠ .two w) → Mapped (asks { C with marks := marks } id tags r t).2 id marks tags) := by
  obtain ⟨h1, h2, h3⟩ := ask_ok hC hm hg tags
  obtain ⟨h4, h5, h6⟩ := ask_ok hC hm h2 tags
  cases r with
  | none =>
      rw [asks]
      simp only [h1, h4]
      exact ⟨trivial, h5, fun _ => h6⟩
  | one s =>
      rw [asks]
      simp only [h1]
      exact ⟨trivial, h2, fun _ => h3⟩
  | two w => exact ⟨rfl, hg, fun h => absurd rfl (h w)⟩

end maps

/-! ## Calls -/

section calls
variable [CommRing K] {g : Nat} {C : Meshes} {id : Nat} {marking : Option (List Nat)}

theorem traceForm_ok {n : Nat} {a : Args g} {b : Annot g} (h : traceForm marking n a = .ok b) :
    b.type = a.restriction ∧ b.normal = a.normal ∧ tagData marking n a.tag = .ok b.tag := by
  rw [traceForm] at h
  obtain ⟨_, _, h⟩ := py_bind_eq_ok.1 h
  obtain ⟨_, _, h⟩ := py_bind_eq_ok.1 h
  obtain ⟨_, _, h⟩ := py_bind_eq_ok.1 h
  obtain ⟨td, h1, h⟩ := py_bind_eq_ok.1 h
  injection h with h
  subst h
  exact ⟨rfl, rfl, h1⟩

theorem reduce_good (hC : Conforming C id) {marks tags : List Nat} (hm : marks.length = C.numCells) {t : TraceMesh}
    (hg : Good C id marks t) (compatible : Bool) (V TV : Space K X) (D : Trace.Data K X g) (r : Restr)
    (normal : Option (Normal g)) : Good C id marks (reduce C id compatible V TV D r normal (marks, tags) t).2 := by
  obtain ⟨_, h2, _⟩ := asks_ok hC hm hg tags r
  rw [reduce]
  dsimp only
  split
  · exact h2
  · exact hg

theorem traceCall_good (hC : Conforming C id) (hm : (marksOf marking C.numCells).length = C.numCells) {t : TraceMesh}
    (hg : Good C id (marksOf marking C.numCells) t) (c : Call K X g) :
    Good C id (marksOf marking C.numCells) (traceCall C marking id c t).2 := by
  rw [traceCall]
  cases h : traceForm marking C.numCells c.args with
  | error e => exact hg
  | ok a =>
      obtain ⟨_, _, h3⟩ := traceForm_ok h
      have hmk := tagData_marks h3
      dsimp only
      rw [reduceAnnot]
      cases restr (reductionData a).1 with
      | error e => exact hg
      | ok r =>
          dsimp only
          have : (reductionData a).2.2 = (marksOf marking C.numCells, a.tag.2) := by rw [← hmk]; rfl
          rw [this]
          exact reduce_good hC hm hg _ _ _ _ _ _

theorem afterCalls_good (hC : Conforming C id) (hm : (marksOf marking C.numCells).length = C.numCells) :
    ∀ (cs : List (Call K X g)) {t : TraceMesh}, Good C id (marksOf marking C.numCells) t →
      Good C id (marksOf marking C.numCells) (afterCalls C marking id cs t)
  | [], _, hg => hg
  | c :: cs, _, hg => afterCalls_good hC hm cs (traceCall_good hC hm hg c)

/-- The matrix is built from the correct maps of the selected cells. -/
theorem traceCall_eq (hC : Conforming C id) (hm : (marksOf marking C.numCells).length = C.numCells) {t : TraceMesh}
    (hg : Good C id (marksOf marking C.numCells) t) {c : Call K X g} (h1 : c.args.isTerminal = true)
    (h2 : c.args.cellOk = true) {r : Restr} (hr : restr c.args.restriction = .ok r) (hr2 : ∀ w, r ≠ .two w)
    (htag : c.args.tag.Legal marking) :
    ∃ (tags : List Nat) (m : List (Nat × Nat)), tags.Nodup ∧
      (∀ k, (∃ x ∈ tags, (marksOf marking C.numCells)[k]? = some x) ↔ c.args.tag.Selects (marksOf marking C.numCells) k) ∧
      (∀ k, c.args.tag.Selects (marksOf marking C.numCells) k → ∃ e, m.lookup k = some e ∧ Lies C id k e) ∧
      (traceCall C marking id c t).1 = traceMat c.V c.TV
        { c.D with map1 := .ok (), map2 := .ok (), marks := marksOf marking C.numCells, tags := tags,
                   f2c := (C.topo id).e2c, mapping := m } c.compatible r
        (((if c.args.restriction = "" then none else c.args.normal).map Prod.fst).getD false)
        ((if c.args.restriction = "" then none else c.args.normal).map Prod.snd) := by
  obtain ⟨tags, htd, hnd, hsel⟩ := tagData_ok (n := C.numCells) htag
  obtain ⟨ha1, ha2, ha3⟩ := asks_ok hC hm hg tags r
  obtain ⟨maps, m, hmaps, hlook, hall⟩ := ha3 hr2
  refine ⟨tags, m, hnd, hsel, fun k hk => ?_, ?_⟩
  · obtain ⟨x, hx, hkx⟩ := (hsel k).2 hk
    obtain ⟨e, he⟩ := hall k x hx hkx
    exact ⟨e, he, ha2.2 maps m hmaps hlook k e he⟩
  · have hc : ["", "+", "-", "jump", "avg"].contains c.args.restriction = true := by
      rw [restr] at hr
      split at hr
      · next h => rw [h]; rfl
      split at hr
      · next h => rw [h]; rfl
      split at hr
      · next h => rw [h]; rfl
      split at hr
      · next h => rw [h]; rfl
      split at hr
      · next h => rw [h]; rfl
      cases hr
    have hf : traceForm marking C.numCells c.args =
        .ok ⟨c.args.restriction, c.args.normal, (marksOf marking C.numCells, tags)⟩ := by
      rw [traceForm, h1, h2, hc, htd]
      rfl
    rw [traceCall, hf]
    dsimp only
    rw [reduceAnnot]
    simp only [reductionData, hr]
    rw [reduce]
    simp only [ha1, hmaps, hlook, Option.getD_some]

end calls
end Verif.TraceForm
