import Verif.Spec.Embedding
import Verif.Lemmas.Embedded2
import Mathlib.Tactic.Push
/-! Lemmas about embedding maps. -/
namespace Verif.Embedding
open Verif Verif.BlockOps Verif.DofMat Verif.Embedded
variable {K : Type}

theorem minFrom_spec [LinearOrder K] (key : Nat → K) : ∀ (l : List Nat) (b : Nat),
    (minFrom key b l = b ∨ minFrom key b l ∈ l) ∧ key (minFrom key b l) ≤ key b ∧
      ∀ x ∈ l, key (minFrom key b l) ≤ key x
  | [], b => ⟨.inl rfl, le_refl _, by simp⟩
  | x :: xs, b => by
      rw [minFrom]
      split
      · rename_i h
        obtain ⟨a, c, d⟩ := minFrom_spec key xs x
        refine ⟨.inr ?_, le_trans c (le_of_lt h), ?_⟩
        · rcases a with a | a
          · rw [a]; simp
          · exact List.mem_cons_of_mem _ a
        · intro y hy
          rcases List.mem_cons.1 hy with rfl | hy
          · exact c
          · exact d y hy
      · rename_i h
        obtain ⟨a, c, d⟩ := minFrom_spec key xs b
        refine ⟨?_, c, ?_⟩
        · rcases a with a | a
          · exact .inl a
          · exact .inr (List.mem_cons_of_mem _ a)
        · intro y hy
          rcases List.mem_cons.1 hy with rfl | hy
          · exact le_trans c (not_lt.1 h)
          · exact d y hy

theorem pyMinBy_spec [LinearOrder K] {key : Nat → K} {l : List Nat} {w : Nat} (h : pyMinBy key l = .ok w) :
    w ∈ l ∧ ∀ x ∈ l, key w ≤ key x := by
  match l, h with
  | x :: xs, h =>
    obtain rfl := Except.ok.inj h
    obtain ⟨a, c, d⟩ := minFrom_spec key xs x
    refine ⟨?_, ?_⟩
    · rcases a with a | a
      · rw [a]; simp
      · exact List.mem_cons_of_mem _ a
    · intro y hy
      rcases List.mem_cons.1 hy with rfl | hy
      · exact c
      · exact d y hy

theorem pyMinBy_ok [LinearOrder K] (key : Nat → K) {l : List Nat} (h : l ≠ []) : ∃ w, pyMinBy key l = .ok w := by
  match l, h with
  | x :: xs, _ => exact ⟨_, rfl⟩

section
variable [Field K] [LinearOrder K]

/-- What is known of the image `r` of `v`. -/
def Good (D : Data K) (c2v : Nat → List Nat) (v : Nat) (r : Nat × List Nat) : Prop :=
  r.2 = D.collide v ∧ (∃ m, m ∈ r.2 ∧ r.1 ∈ c2v m) ∧ D.dist v r.1 < D.tol * D.scale

theorem locate_good {D : Data K} {c2v : Nat → List Nat} {v : Nat} {r : Nat × List Nat}
    (h : locate D c2v v = .ok r) : Good D c2v v r := by
  unfold locate at h
  simp only [py_bind_eq_ok, pyAssert_eq_ok, decide_eq_true_eq] at h
  obtain ⟨m0, h0, w, hw, _, hd, he⟩ := h
  obtain rfl := Except.ok.inj he
  rw [pyGet_eq_ok] at h0
  exact ⟨rfl, ⟨m0, List.mem_iff_getElem?.2 ⟨0, h0⟩, (pyMinBy_spec hw).1⟩, hd⟩

/-- All entries of the cache are good. -/
def CacheGood (D : Data K) (c2v : Nat → List Nat) (vm : Cache) : Prop := ∀ p ∈ vm, Good D c2v p.1 p.2

theorem mem_of_lookup' {β : Type} {l : List (Nat × β)} {k : Nat} {v : β} (h : l.lookup k = some v) : (k, v) ∈ l := by
  induction l with
  | nil => simp at h
  | cons p l ih =>
      obtain ⟨a, b⟩ := p
      rw [List.lookup_cons] at h
      by_cases hk : k = a
      · subst hk
        rw [beq_self_eq_true] at h
        simp only at h
        obtain rfl := Option.some.inj h
        simp
      · rw [beq_false_of_ne hk] at h
        exact List.mem_cons_of_mem _ (ih h)

theorem locateCached_good {D : Data K} {c2v : Nat → List Nat} {v : Nat} {vm vm' : Cache} {r : Nat × List Nat}
    (hg : CacheGood D c2v vm) (h : locateCached D c2v v vm = .ok (r, vm')) :
    Good D c2v v r ∧ CacheGood D c2v vm' ∧ (∀ p ∈ vm, p ∈ vm') ∧ (v, r) ∈ vm' := by
  unfold locateCached at h
  split at h
  · rename_i r' hl
    obtain ⟨rfl, rfl⟩ := Prod.mk.inj (Except.ok.inj h)
    have := mem_of_lookup' hl
    exact ⟨hg _ this, hg, fun _ h => h, this⟩
  · simp only [py_bind_eq_ok] at h
    obtain ⟨r', hr, he⟩ := h
    obtain ⟨rfl, rfl⟩ := Prod.mk.inj (Except.ok.inj he)
    have := locate_good hr
    refine ⟨this, ?_, fun p hp => List.mem_cons_of_mem _ hp, by simp⟩
    intro p hp
    rcases List.mem_cons.1 hp with rfl | hp
    · exact this
    · exact hg p hp

theorem vertexLoop_spec {D : Data K} {T : Topo} : ∀ {vs s s' : List Nat} {vm vm' : Cache},
    CacheGood D T.c2v vm → vertexLoop D T vs s vm = .ok (s', vm') →
    ∃ rs, List.Forall₂ (Good D T.c2v) vs rs ∧
      s' = (rs.map (fun r => vertexSet T r.1 r.2)).foldl meet s ∧ CacheGood D T.c2v vm' ∧
      (∀ p ∈ vm, p ∈ vm') ∧ ∀ v ∈ vs, ∃ r, (v, r) ∈ vm'
  | [], s, s', vm, vm', hg, h => by
      obtain ⟨rfl, rfl⟩ := Prod.mk.inj (Except.ok.inj h)
      exact ⟨[], .nil, rfl, hg, fun _ h => h, by simp⟩
  | v :: vs, s, s', vm, vm', hg, h => by
      rw [vertexLoop] at h
      simp only [py_bind_eq_ok] at h
      obtain ⟨⟨r, vm1⟩, h1, h2⟩ := h
      obtain ⟨a, b, c, d⟩ := locateCached_good hg h1
      obtain ⟨rs, e, f, g, i, j⟩ := vertexLoop_spec b h2
      refine ⟨r :: rs, .cons a e, f, g, fun p hp => i p (c p hp), ?_⟩
      intro u hu
      rcases List.mem_cons.1 hu with rfl | hu
      · exact ⟨r, i _ d⟩
      · exact j u hu

theorem overlapVertices_spec {D : Data K} {c2v : Nat → List Nat} : ∀ {vs s s' : List Nat} {vm vm' : Cache},
    CacheGood D c2v vm → overlapVertices D c2v vs s vm = .ok (s', vm') →
    ∃ rs, List.Forall₂ (Good D c2v) vs rs ∧
      s' = (rs.map (fun r => r.2)).foldl meet s ∧ CacheGood D c2v vm'
  | [], s, s', vm, vm', hg, h => by
      obtain ⟨rfl, rfl⟩ := Prod.mk.inj (Except.ok.inj h)
      exact ⟨[], .nil, rfl, hg⟩
  | v :: vs, s, s', vm, vm', hg, h => by
      rw [overlapVertices] at h
      simp only [py_bind_eq_ok] at h
      obtain ⟨⟨r, vm1⟩, h1, h2⟩ := h
      obtain ⟨a, b, c, d⟩ := locateCached_good hg h1
      obtain ⟨rs, e, f, g⟩ := overlapVertices_spec b h2
      exact ⟨r :: rs, .cons a e, f, g⟩

theorem single_eq {s : List Nat} {e : Nat} (h : single s = .ok e) : s = [e] := by
  match s, h with
  | [x], h => rw [Except.ok.inj h]

theorem meet_nil (s : List Nat) : meet [] s = s := rfl
theorem meet_of_ne {s t : List Nat} (h : s ≠ []) : meet s t = s.filter (fun e => decide (e ∈ t)) := by
  unfold meet
  rw [if_neg (by simpa using h)]

/-- The sets at the vertices have at least two entities. -/
theorem vertexSet_two {D : Data K} {T : Topo} {k : Nat} (hT : BackgroundOK T k) (hk : 0 < k)
    {v : Nat} {r : Nat × List Nat} (hg : Good D T.c2v v r) (hc : ∀ m ∈ D.collide v, m < T.numCells) :
    ∃ a b, a ≠ b ∧ a ∈ vertexSet T r.1 r.2 ∧ b ∈ vertexSet T r.1 r.2 := by
  obtain ⟨h1, ⟨m, hm, hw⟩, _⟩ := hg
  have hml := hc m (by rw [← h1]; exact hm)
  obtain ⟨hn, hl⟩ := hT.cells m hml
  have hol : k + 1 ≤ ((T.c2v m).erase r.1).length := by
    rw [List.length_erase_of_mem hw]; omega
  have hon : ((T.c2v m).erase r.1).Nodup := hn.erase _
  have hno : r.1 ∉ (T.c2v m).erase r.1 := hn.not_mem_erase
  rcases ho : (T.c2v m).erase r.1 with _ | ⟨x, xs⟩
  · rw [ho] at hol; simp at hol
  · rw [ho] at hol hon hno
    rw [List.length_cons] at hol
    have hsub : ∀ y ∈ x :: xs, y ∈ T.c2v m := by
      intro y hy; rw [← ho] at hy; exact List.mem_of_mem_erase hy
    have face : ∀ l : List Nat, l.Nodup → l.length = k → (∀ y ∈ l, y ∈ x :: xs) →
        ∃ e, e ∈ vertexSet T r.1 r.2 ∧ ∀ y, y ∈ T.e2v e ↔ y ∈ r.1 :: l := by
      intro l hln hll hlm
      have hin : ∀ y ∈ r.1 :: l, y ∈ T.c2v m := by
        intro y hy
        rcases List.mem_cons.1 hy with rfl | hy
        · exact hw
        · exact hsub y (hlm y hy)
      obtain ⟨e, he1, he2⟩ := hT.simplicial.face m hml (r.1 :: l)
        (List.nodup_cons.2 ⟨fun hr => hno (hlm _ hr), hln⟩) (by simp [hll]) hin
      refine ⟨e, ?_, he2⟩
      unfold vertexSet
      rw [List.mem_dedup, List.mem_filter, List.mem_flatMap]
      refine ⟨⟨m, hm, ((hT.simplicial.c2e m hml).2 e).2 ⟨he1, fun y hy => hin y ((he2 y).1 hy)⟩⟩, ?_⟩
      rw [decide_eq_true_eq, he2]; simp
    obtain ⟨a, ha, ha'⟩ := face ((x :: xs).take k) (hon.sublist (List.take_sublist _ _))
      (by rw [List.length_take, List.length_cons]; omega) (fun y hy => List.mem_of_mem_take hy)
    obtain ⟨b, hb, hb'⟩ := face (xs.take k) ((List.nodup_cons.1 hon).2.sublist (List.take_sublist _ _))
      (by rw [List.length_take]; omega) (fun y hy => List.mem_cons_of_mem _ (List.mem_of_mem_take hy))
    refine ⟨a, b, ?_, ha, hb⟩
    rintro rfl
    have hx : x ∈ r.1 :: (x :: xs).take k := by
      obtain ⟨j, rfl⟩ : ∃ j, k = j + 1 := ⟨k - 1, by omega⟩
      simp
    have := (hb' x).1 ((ha' x).2 hx)
    rcases List.mem_cons.1 this with h | h
    · exact hno (by rw [← h]; simp)
    · exact (List.nodup_cons.1 hon).1 (List.mem_of_mem_take h)

/-- With at most three sets of at least two elements, the single element found is in all the sets. -/
theorem single_mem_all {e : Nat} : ∀ {Ss : List (List Nat)}, Ss.length ≤ 3 → (∀ S ∈ Ss, ∃ a b, a ≠ b ∧ a ∈ S ∧ b ∈ S) →
    Ss.foldl meet [] = [e] → ∀ S ∈ Ss, e ∈ S
  | [], _, _, h => by simp at h
  | [A], _, h2, h => by
      simp only [List.foldl_cons, List.foldl_nil, meet_nil] at h
      intro S hS
      rw [List.mem_singleton.1 hS, h]; simp
  | [A, B], _, h2, h => by
      obtain ⟨a, _, _, ha, _⟩ := h2 A (by simp)
      simp only [List.foldl_cons, List.foldl_nil, meet_nil] at h
      rw [meet_of_ne (List.ne_nil_of_mem ha)] at h
      have hm : e ∈ A.filter (fun x => decide (x ∈ B)) := by rw [h]; simp
      rw [List.mem_filter, decide_eq_true_eq] at hm
      intro S hS
      simp only [List.mem_cons, List.not_mem_nil, or_false] at hS
      rcases hS with rfl | rfl
      · exact hm.1
      · exact hm.2
  | [A, B, C], _, h2, h => by
      obtain ⟨a, _, _, ha, _⟩ := h2 A (by simp)
      simp only [List.foldl_cons, List.foldl_nil, meet_nil] at h
      rw [meet_of_ne (List.ne_nil_of_mem ha)] at h
      by_cases hAB : A.filter (fun x => decide (x ∈ B)) = []
      · rw [hAB, meet_nil] at h
        obtain ⟨c, d, hcd, hc, hd⟩ := h2 C (by simp)
        rw [h, List.mem_singleton] at hc hd
        exact absurd (hc.trans hd.symm) hcd
      · rw [meet_of_ne hAB] at h
        have hm : e ∈ (A.filter (fun x => decide (x ∈ B))).filter (fun x => decide (x ∈ C)) := by rw [h]; simp
        rw [List.mem_filter, List.mem_filter, decide_eq_true_eq, decide_eq_true_eq] at hm
        intro S hS
        simp only [List.mem_cons, List.not_mem_nil, or_false] at hS
        rcases hS with rfl | rfl | rfl
        · exact hm.1.1
        · exact hm.1.2
        · exact hm.2
  | _ :: _ :: _ :: _ :: _, h1, _, _ => by simp at h1; omega

theorem forall₂_image {α β : Type} {R : α → β → Prop} : ∀ {l : List α} {m : List β}, List.Forall₂ R l m →
    ∀ a ∈ l, ∃ b ∈ m, R a b
  | _, _, .nil, a, h => by simp at h
  | _, _, .cons h t, a, ha => by
      rcases List.mem_cons.1 ha with rfl | ha
      · exact ⟨_, by simp, h⟩
      · obtain ⟨b, hb, hr⟩ := forall₂_image t a ha
        exact ⟨b, by simp [hb], hr⟩

theorem forall₂_preimage {α β : Type} {R : α → β → Prop} : ∀ {l : List α} {m : List β}, List.Forall₂ R l m →
    ∀ b ∈ m, ∃ a ∈ l, R a b
  | _, _, .nil, a, h => by simp at h
  | _, _, .cons h t, a, ha => by
      rcases List.mem_cons.1 ha with rfl | ha
      · exact ⟨_, by simp, h⟩
      · obtain ⟨b, hb, hr⟩ := forall₂_preimage t a ha
        exact ⟨b, by simp [hb], hr⟩

omit [Field K] in
/-- Counting: matched vertices of lists of the same length cover both. -/
theorem coincide_of {dist : Nat → Nat → K} {δ : K} {cv ev : List Nat} (hl : ev.length ≤ cv.length)
    (hcn : cv.Nodup) (hs : Separated dist δ cv)
    (h : ∀ v ∈ cv, ∃ w ∈ ev, dist v w < δ) : Coincide dist δ cv ev := by
  refine ⟨h, ?_⟩
  choose! g hg using h
  have hn : (cv.map g).Nodup := hcn.map_on (fun a ha b hb hab => by
    refine hs a ha b hb (g a) (hg a ha).2 ?_
    rw [hab]; exact (hg b hb).2)
  have hsub : cv.map g ⊆ ev := by
    intro w hw
    obtain ⟨v, hv, rfl⟩ := List.mem_map.1 hw
    exact (hg v hv).1
  have hperm := (hn.subperm hsub).perm_of_length_le (by rw [List.length_map]; exact hl)
  intro w hw
  obtain ⟨v, hv, rfl⟩ := List.mem_map.1 (hperm.mem_iff.2 hw)
  exact ⟨v, hv, (hg v hv).2⟩

/-- Soundness of one cell. -/
theorem cell_sound {D : Data K} {T : Topo} {k : Nat} (hT : BackgroundOK T k) (hk : 0 < k ∧ k ≤ 2)
    (hc : ∀ v, ∀ m ∈ D.collide v, m < T.numCells) {cv : List Nat} (hcv : cv.Nodup ∧ cv.length = k + 1)
    (hs : Separated D.dist (D.tol * D.scale) cv) {vm vm' : Cache} (hg : CacheGood D T.c2v vm) {s : List Nat} {e : Nat}
    (h : vertexLoop D T cv [] vm = .ok (s, vm')) (he : single s = .ok e) :
    e < T.numEntities ∧ Coincide D.dist (D.tol * D.scale) cv (T.e2v e) := by
  obtain ⟨rs, h1, h2, _⟩ := vertexLoop_spec hg h
  rw [single_eq he] at h2
  have hall := single_mem_all (by rw [List.length_map, ← h1.length_eq, hcv.2]; omega)
    (fun S hS => by
      obtain ⟨r, hr, rfl⟩ := List.mem_map.1 hS
      obtain ⟨v, _, hv⟩ := forall₂_preimage h1 r hr
      exact vertexSet_two hT hk.1 hv (hc v)) h2.symm
  have hmem : ∀ v ∈ cv, e < T.numEntities ∧ ∃ w ∈ T.e2v e, D.dist v w < D.tol * D.scale := by
    intro v hv
    obtain ⟨r, hr, hgd⟩ := forall₂_image h1 v hv
    have := hall _ (List.mem_map.2 ⟨r, hr, rfl⟩)
    unfold vertexSet at this
    rw [List.mem_dedup, List.mem_filter, decide_eq_true_eq, List.mem_flatMap] at this
    obtain ⟨⟨m, hm, hme⟩, hw⟩ := this
    have hml := hc v m (by rw [← hgd.1]; exact hm)
    exact ⟨(((hT.simplicial.c2e m hml).2 e).1 hme).1, r.1, hw, hgd.2.2⟩
  have hne : cv ≠ [] := by
    intro h; rw [h] at hcv; simp at hcv
  obtain ⟨v0, hv0⟩ := List.exists_mem_of_ne_nil _ hne
  have hel := (hmem v0 hv0).1
  refine ⟨hel, coincide_of ?_ hcv.1 hs (fun v hv => (hmem v hv).2)⟩
  rw [(hT.simplicial.len e hel).2, hcv.2]

theorem cellLoop_spec {D : Data K} {T : Topo} {cells : Nat → List Nat} {Q : Nat → Nat → Prop}
    (hQ : ∀ c vm vm' s e, CacheGood D T.c2v vm → vertexLoop D T (cells c) [] vm = .ok (s, vm') → single s = .ok e →
      Q c e) :
    ∀ {cs : List Nat} {vm vm' : Cache} {em em' : List (Nat × Nat)}, CacheGood D T.c2v vm →
    cellLoop D T cells cs vm em = .ok (vm', em') →
    CacheGood D T.c2v vm' ∧ (∀ p ∈ vm, p ∈ vm') ∧ (∀ p ∈ em, p ∈ em') ∧
      (∀ p ∈ em', p ∈ em ∨ (p.1 ∈ cs ∧ Q p.1 p.2)) ∧
      (∀ c ∈ cs, ∃ e, (c, e) ∈ em') ∧ ∀ c ∈ cs, ∀ v ∈ cells c, ∃ r, (v, r) ∈ vm'
  | [], vm, vm', em, em', hg, h => by
      obtain ⟨rfl, rfl⟩ := Prod.mk.inj (Except.ok.inj h)
      exact ⟨hg, fun _ h => h, fun _ h => h, fun p hp => .inl hp, by simp, by simp⟩
  | c :: cs, vm, vm', em, em', hg, h => by
      rw [cellLoop] at h
      simp only [py_bind_eq_ok] at h
      obtain ⟨⟨s, vm1⟩, h1, e, h2, h3⟩ := h
      obtain ⟨rs, _, _, b, b1, b2⟩ := vertexLoop_spec hg h1
      obtain ⟨c1, c2, c3, c4, c5, c6⟩ := cellLoop_spec hQ b h3
      refine ⟨c1, fun p hp => c2 p (b1 p hp), fun p hp => c3 p (List.mem_cons_of_mem _ hp), ?_, ?_, ?_⟩
      · intro p hp
        rcases c4 p hp with h | h
        · rcases List.mem_cons.1 h with rfl | h
          · exact .inr ⟨by simp, hQ c vm vm1 s e hg h1 h2⟩
          · exact .inl h
        · exact .inr ⟨List.mem_cons_of_mem _ h.1, h.2⟩
      · intro d hd
        rcases List.mem_cons.1 hd with rfl | hd
        · exact ⟨e, c3 _ (by simp)⟩
        · exact c5 d hd
      · intro d hd v hv
        rcases List.mem_cons.1 hd with rfl | hd
        · obtain ⟨r, hr⟩ := b2 v hv
          exact ⟨r, c2 _ hr⟩
        · exact c6 d hd v hv

/-! ## Completeness -/

theorem locate_ok [IsStrictOrderedRing K] {D : Data K} {T : Topo} {k : Nat} (hT : BackgroundOK T k)
    (hC : CollisionsExact D.collide D.dist (D.tol * D.scale) T) {v w e : Nat} (he : e < T.numEntities)
    (hw : w ∈ T.e2v e) (hd : D.dist v w < D.tol * D.scale) : locate D T.c2v v = .ok (w, D.collide v) := by
  obtain ⟨m, hm⟩ := List.exists_mem_of_ne_nil _ (hT.covered e he)
  obtain ⟨hml, hmv⟩ := (hT.simplicial.e2c e he m).1 hm
  have hmc := (hC.cells v w hd m).2 ⟨hml, hmv w hw⟩
  rcases hcol : D.collide v with _ | ⟨m0, ms⟩
  · rw [hcol] at hmc; simp at hmc
  · obtain ⟨h0, h0w⟩ := (hC.cells v w hd m0).1 (by rw [hcol]; simp)
    obtain ⟨w', hw'⟩ := pyMinBy_ok (D.dist v) (List.ne_nil_of_mem h0w)
    have hlt : D.dist v w' < D.tol * D.scale := lt_of_le_of_lt ((pyMinBy_spec hw').2 w h0w) hd
    obtain rfl := hC.unique v w w' hd hlt
    unfold locate
    rw [hcol]
    have hg : pyGet (m0 :: ms) 0 = .ok m0 := rfl
    simp only [hg, py_bind_ok, hw', decide_eq_true hlt, pyAssert_true]

/-- The cache is the one of exact images. -/
def CacheExact (D : Data K) (vm : Cache) : Prop :=
  ∀ p ∈ vm, p.2.2 = D.collide p.1 ∧ D.dist p.1 p.2.1 < D.tol * D.scale

theorem locateCached_ok [IsStrictOrderedRing K] {D : Data K} {T : Topo} {k : Nat} (hT : BackgroundOK T k)
    (hC : CollisionsExact D.collide D.dist (D.tol * D.scale) T) {v w e : Nat} (he : e < T.numEntities)
    (hw : w ∈ T.e2v e) (hd : D.dist v w < D.tol * D.scale) {vm : Cache} (hv : CacheExact D vm) :
    ∃ vm', locateCached D T.c2v v vm = .ok ((w, D.collide v), vm') ∧ CacheExact D vm' := by
  unfold locateCached
  split
  · rename_i r hl
    obtain ⟨h1, h2⟩ := hv _ (mem_of_lookup' hl)
    refine ⟨vm, ?_, hv⟩
    have : r = (w, D.collide v) := Prod.ext (hC.unique v _ _ h2 hd) h1
    rw [this]
  · rw [locate_ok hT hC he hw hd]
    refine ⟨(v, (w, D.collide v)) :: vm, rfl, ?_⟩
    intro p hp
    rcases List.mem_cons.1 hp with rfl | hp
    · exact ⟨rfl, hd⟩
    · exact hv p hp

theorem mem_vertexSet [IsStrictOrderedRing K] {D : Data K} {T : Topo} {k : Nat} (hT : BackgroundOK T k)
    (hC : CollisionsExact D.collide D.dist (D.tol * D.scale) T) {v w : Nat} (hd : D.dist v w < D.tol * D.scale) (e : Nat) :
    e ∈ vertexSet T w (D.collide v) ↔ e < T.numEntities ∧ w ∈ T.e2v e := by
  unfold vertexSet
  rw [List.mem_dedup, List.mem_filter, decide_eq_true_eq, List.mem_flatMap]
  constructor
  · rintro ⟨⟨m, hm, hme⟩, hw⟩
    have hml := ((hC.cells v w hd m).1 hm).1
    exact ⟨(((hT.simplicial.c2e m hml).2 e).1 hme).1, hw⟩
  · rintro ⟨he, hw⟩
    obtain ⟨m, hm⟩ := List.exists_mem_of_ne_nil _ (hT.covered e he)
    obtain ⟨hml, hmv⟩ := (hT.simplicial.e2c e he m).1 hm
    exact ⟨⟨m, (hC.cells v w hd m).2 ⟨hml, hmv w hw⟩, ((hT.simplicial.c2e m hml).2 e).2 ⟨he, hmv⟩⟩, hw⟩

theorem meet_mem {e : Nat} {s t : List Nat} (hs : s = [] ∨ e ∈ s) (ht : e ∈ t) : e ∈ meet s t := by
  rcases hs with rfl | hs
  · exact ht
  · rw [meet_of_ne (List.ne_nil_of_mem hs), List.mem_filter]
    exact ⟨hs, by simpa using ht⟩

theorem vertexLoop_ok [IsStrictOrderedRing K] {D : Data K} {T : Topo} {k : Nat} (hT : BackgroundOK T k)
    (hC : CollisionsExact D.collide D.dist (D.tol * D.scale) T) {e : Nat} (he : e < T.numEntities) :
    ∀ (vs s : List Nat) (vm : Cache), (∀ v ∈ vs, ∃ w ∈ T.e2v e, D.dist v w < D.tol * D.scale) → CacheExact D vm →
    (s = [] ∨ e ∈ s) → s.Nodup →
    ∃ s' vm', vertexLoop D T vs s vm = .ok (s', vm') ∧ CacheExact D vm' ∧ (s' = [] ∨ e ∈ s') ∧ s'.Nodup ∧
      (vs ≠ [] → e ∈ s') ∧
      (∀ x ∈ s', (s = [] ∨ x ∈ s) ∧ ∀ v ∈ vs, x < T.numEntities ∧ ∃ w ∈ T.e2v x, D.dist v w < D.tol * D.scale)
  | [], s, vm, _, hv, hs, hn => ⟨s, vm, rfl, hv, hs, hn, by simp, fun x hx => ⟨.inr hx, by simp⟩⟩
  | v :: vs, s, vm, h, hv, hs, hn => by
      obtain ⟨w, hw, hd⟩ := h v (by simp)
      obtain ⟨vm1, h1, h2⟩ := locateCached_ok hT hC he hw hd hv
      have hmem : e ∈ vertexSet T w (D.collide v) := (mem_vertexSet hT hC hd e).2 ⟨he, hw⟩
      have hm := meet_mem hs hmem
      have hmn : (meet s (vertexSet T w (D.collide v))).Nodup := by
        unfold meet
        split
        · exact List.nodup_dedup _
        · exact hn.filter _
      obtain ⟨s', vm', a, b, c, d, _, g⟩ := vertexLoop_ok hT hC he vs (meet s (vertexSet T w (D.collide v))) vm1
        (fun u hu => h u (by simp [hu])) h2 (.inr hm) hmn
      have hsub : ∀ x ∈ s', x ∈ meet s (vertexSet T w (D.collide v)) := by
        intro x hx
        rcases (g x hx).1 with h | h
        · rw [h] at hm; simp at hm
        · exact h
      have hsub2 : ∀ x ∈ meet s (vertexSet T w (D.collide v)), (s = [] ∨ x ∈ s) ∧ x ∈ vertexSet T w (D.collide v) := by
        intro x hx
        rcases hs with rfl | hs
        · exact ⟨.inl rfl, hx⟩
        · rw [meet_of_ne (List.ne_nil_of_mem hs), List.mem_filter, decide_eq_true_eq] at hx
          exact ⟨.inr hx.1, hx.2⟩
      refine ⟨s', vm', by rw [vertexLoop, h1, py_bind_ok]; exact a, b, c, d, fun _ => ?_, fun x hx => ⟨?_, ?_⟩⟩
      · by_contra hcon
        rcases c with rfl | c
        · -- the set cannot become empty
          clear g hsub d
          have : ∀ (vs' : List Nat) (s0 : List Nat) (vm0 vm0' : Cache) (s1 : List Nat), e ∈ s0 → CacheExact D vm0 →
              (∀ v ∈ vs', ∃ w ∈ T.e2v e, D.dist v w < D.tol * D.scale) →
              vertexLoop D T vs' s0 vm0 = .ok (s1, vm0') → e ∈ s1 := by
            intro vs'
            induction vs' with
            | nil =>
                intro s0 vm0 vm0' s1 h0 _ _ heq
                obtain ⟨rfl, _⟩ := Prod.mk.inj (Except.ok.inj heq)
                exact h0
            | cons u us ih =>
                intro s0 vm0 vm0' s1 h0 hx hh heq
                obtain ⟨w', hw', hd'⟩ := hh u (by simp)
                obtain ⟨vm2, q1, q2⟩ := locateCached_ok hT hC he hw' hd' hx
                rw [vertexLoop, q1, py_bind_ok] at heq
                exact ih _ _ _ _ (meet_mem (.inr h0) ((mem_vertexSet hT hC hd' e).2 ⟨he, hw'⟩)) q2
                  (fun z hz => hh z (by simp [hz])) heq
          exact hcon (this vs _ _ _ _ hm h2 (fun u hu => h u (by simp [hu])) a)
        · exact hcon c
      · exact (hsub2 x (hsub x hx)).1
      · intro u hu
        rcases List.mem_cons.1 hu with rfl | hu
        · obtain ⟨hx1, hx2⟩ := (mem_vertexSet hT hC hd x).1 (hsub2 x (hsub x hx)).2
          exact ⟨hx1, w, hx2, hd⟩
        · exact (g x hx).2 u hu

theorem cell_complete [IsStrictOrderedRing K] {D : Data K} {T : Topo} {k : Nat} (hT : BackgroundOK T k)
    (hC : CollisionsExact D.collide D.dist (D.tol * D.scale) T) {cv : List Nat} {e : Nat} (he : e < T.numEntities)
    (hne : cv ≠ []) (hco : Coincide D.dist (D.tol * D.scale) cv (T.e2v e)) {vm : Cache} (hv : CacheExact D vm) :
    ∃ vm', vertexLoop D T cv [] vm = .ok ([e], vm') ∧ CacheExact D vm' := by
  obtain ⟨s, vm', a, b, c, d, f, g⟩ := vertexLoop_ok hT hC he cv [] vm hco.1 hv (.inl rfl) List.nodup_nil
  have hes := f hne
  have hx : ∀ x, x ∈ s ↔ x ∈ [e] := by
    intro x
    rw [List.mem_singleton]
    constructor
    · intro hxs
      have hxall := (g x hxs).2
      obtain ⟨v0, hv0⟩ := List.exists_mem_of_ne_nil _ hne
      have hxl := (hxall v0 hv0).1
      -- every vertex of e is a vertex of x
      have hsub : ∀ w ∈ T.e2v e, w ∈ T.e2v x := by
        intro w hw
        obtain ⟨v, hv, hd⟩ := hco.2 w hw
        obtain ⟨w', hw', hd'⟩ := (hxall v hv).2
        rw [hC.unique v w w' hd hd']; exact hw'
      have hlen := hT.simplicial.len e he
      have hlen' := hT.simplicial.len x hxl
      have hperm := (hlen.1.subperm hsub).perm_of_length_le (by rw [hlen.2, hlen'.2])
      exact (hT.simplicial.inj e he x hxl (fun w => hperm.mem_iff)).symm
    · rintro rfl; exact hes
  have hperm : s.Perm [e] := (List.perm_ext_iff_of_nodup d (List.nodup_singleton e)).2 hx
  rw [List.perm_singleton.1 hperm] at a
  exact ⟨vm', a, b⟩

theorem cellLoop_ok [IsStrictOrderedRing K] {D : Data K} {T : Topo} {k : Nat} (hT : BackgroundOK T k)
    (hC : CollisionsExact D.collide D.dist (D.tol * D.scale) T) {cells : Nat → List Nat} :
    ∀ (cs : List Nat) (vm : Cache) (em : List (Nat × Nat)), CacheExact D vm →
    (∀ c ∈ cs, cells c ≠ [] ∧ ∃ e, e < T.numEntities ∧ Coincide D.dist (D.tol * D.scale) (cells c) (T.e2v e)) →
    ∃ r, cellLoop D T cells cs vm em = .ok r
  | [], vm, em, _, _ => ⟨_, rfl⟩
  | c :: cs, vm, em, hv, h => by
      obtain ⟨hne, e, he, hco⟩ := h c (by simp)
      obtain ⟨vm', a, b⟩ := cell_complete hT hC he hne hco hv
      obtain ⟨r, hr⟩ := cellLoop_ok hT hC cs vm' ((c, e) :: em) b (fun d hd => h d (by simp [hd]))
      refine ⟨r, ?_⟩
      rw [cellLoop, a, py_bind_ok]
      exact hr

theorem diffs_range' : ∀ (n a : Nat), diffs (List.range' a (n + 1)) = List.replicate n 1
  | 0, a => by simp [List.range', diffs]
  | n + 1, a => by
      have ih := diffs_range' n (a + 1)
      have e : List.range' a (n + 1 + 1) = a :: (a + 1) :: List.range' (a + 2) n := by
        simp [List.range'_succ]
      rw [List.range'_succ] at ih
      rw [e, diffs, ih, List.replicate_succ]
      simp

/-- The numbers below `n` pass the test unless there are fewer than two. -/
theorem is1Sequence_iff {l : List Nat} {n : Nat} (hn : l.Nodup) (h : ∀ x, x ∈ l ↔ x < n) :
    is1Sequence l = true ↔ 2 ≤ n := by
  have hp : l.Perm (List.range n) :=
    (List.perm_ext_iff_of_nodup hn List.nodup_range).2 (fun x => by rw [h, List.mem_range])
  have hs : l.insertionSort (· ≤ ·) = List.range n :=
    List.Perm.eq_of_pairwise' (List.pairwise_insertionSort _ l)
      ((List.pairwise_lt_range (n := n)).imp (fun h => Nat.le_of_lt h))
      ((List.perm_insertionSort _ l).trans hp)
  rw [is1Sequence, hs, List.range_eq_range']
  rcases n with _ | n
  · simp [diffs, npUnique]
  · rw [diffs_range']
    rcases n with _ | n
    · simp [npUnique]
    · have hd : (List.replicate (n + 1) 1).dedup = [1] := by
        clear hs hp h
        induction n with
        | zero => rfl
        | succ n ih => rw [List.replicate_succ, List.dedup_cons_of_mem (by simp), ih]
      simp [npUnique, hd]

theorem locateCached_keys [Field K] [LinearOrder K] {D : Data K} {c2v : Nat → List Nat} {v : Nat} {vm vm' : Cache}
    {r : Nat × List Nat} (h : locateCached D c2v v vm = .ok (r, vm')) : ∀ p ∈ vm', p ∈ vm ∨ p.1 = v := by
  unfold locateCached at h
  split at h
  · obtain ⟨_, rfl⟩ := Prod.mk.inj (Except.ok.inj h)
    exact fun p hp => .inl hp
  · obtain ⟨r', _, h2⟩ := py_bind_eq_ok.1 h
    obtain ⟨_, rfl⟩ := Prod.mk.inj (Except.ok.inj h2)
    intro p hp
    rcases List.mem_cons.1 hp with rfl | hp
    · exact .inr rfl
    · exact .inl hp

theorem vertexLoop_keys [Field K] [LinearOrder K] {D : Data K} {T : Topo} :
    ∀ {vs s s' : List Nat} {vm vm' : Cache}, vertexLoop D T vs s vm = .ok (s', vm') →
    ∀ p ∈ vm', p ∈ vm ∨ p.1 ∈ vs
  | [], s, s', vm, vm', h => by
      obtain ⟨_, rfl⟩ := Prod.mk.inj (Except.ok.inj h)
      exact fun p hp => .inl hp
  | v :: vs, s, s', vm, vm', h => by
      rw [vertexLoop] at h
      obtain ⟨⟨r, vm1⟩, h1, h2⟩ := py_bind_eq_ok.1 h
      intro p hp
      rcases vertexLoop_keys h2 p hp with h | h
      · rcases locateCached_keys h1 p h with h | h
        · exact .inl h
        · exact .inr (by simp [h])
      · exact .inr (List.mem_cons_of_mem _ h)

theorem cellLoop_keys [Field K] [LinearOrder K] {D : Data K} {T : Topo} {cells : Nat → List Nat} :
    ∀ {cs : List Nat} {vm vm' : Cache} {em em' : List (Nat × Nat)},
    cellLoop D T cells cs vm em = .ok (vm', em') → ∀ p ∈ vm', p ∈ vm ∨ ∃ c ∈ cs, p.1 ∈ cells c
  | [], vm, vm', em, em', h => by
      obtain ⟨rfl, _⟩ := Prod.mk.inj (Except.ok.inj h)
      exact fun p hp => .inl hp
  | c :: cs, vm, vm', em, em', h => by
      rw [cellLoop] at h
      simp only [py_bind_eq_ok] at h
      obtain ⟨⟨s, vm1⟩, h1, e, _, h3⟩ := h
      intro p hp
      rcases cellLoop_keys h3 p hp with h | ⟨d, hd, h⟩
      · rcases vertexLoop_keys h1 p h with h | h
        · exact .inl h
        · exact .inr ⟨c, by simp, h⟩
      · exact .inr ⟨d, List.mem_cons_of_mem _ hd, h⟩

/-! ## OverlapMesh -/

/-- Without an empty intersection of the first sets the result is in all of them. -/
theorem foldl_meet_mem {e : Nat} : ∀ (Ss : List (List Nat)) (s : List Nat), s ≠ [] →
    (∀ n, n < Ss.length → ∃ x ∈ s, ∀ S ∈ Ss.take n, x ∈ S) → e ∈ Ss.foldl meet s → e ∈ s ∧ ∀ S ∈ Ss, e ∈ S
  | [], s, _, _, h => ⟨h, by simp⟩
  | S :: Ss, s, hs, hp, h => by
      rw [List.foldl_cons] at h
      rw [meet_of_ne hs] at h
      by_cases hlast : Ss = []
      · subst hlast
        rw [List.foldl_nil, List.mem_filter, decide_eq_true_eq] at h
        exact ⟨h.1, by simpa using h.2⟩
      · have hlen : 0 < Ss.length := List.length_pos_of_ne_nil hlast
        have hne : s.filter (fun e => decide (e ∈ S)) ≠ [] := by
          obtain ⟨x, hx, hxS⟩ := hp 1 (by simpa using hlen)
          refine List.ne_nil_of_mem (a := x) (List.mem_filter.2 ⟨hx, ?_⟩)
          simpa using hxS S (by simp)
        obtain ⟨a, b⟩ := foldl_meet_mem Ss _ hne (fun n hn => by
          obtain ⟨x, hx, hxS⟩ := hp (n + 1) (by simpa using hn)
          refine ⟨x, List.mem_filter.2 ⟨hx, ?_⟩, fun S' hS' => hxS S' ?_⟩
          · simpa using hxS S (by simp)
          · rw [List.take_succ_cons]; exact List.mem_cons_of_mem _ hS') h
        rw [List.mem_filter, decide_eq_true_eq] at a
        refine ⟨a.1, fun S' hS' => ?_⟩
        rcases List.mem_cons.1 hS' with rfl | hS'
        · exact a.2
        · exact b S' hS'

theorem overlapLoop_spec {D : Data K} {c2v cells : Nat → List Nat} {Q : Nat → Nat → Prop}
    (hQ : ∀ c vm vm' s e, CacheGood D c2v vm → overlapVertices D c2v (cells c) [] vm = .ok (s, vm') →
      single s = .ok e → Q c e) :
    ∀ {cs : List Nat} {vm vm' : Cache} {em em' : List (Nat × Nat)}, CacheGood D c2v vm →
    overlapLoop D c2v cells cs vm em = .ok (vm', em') →
      (∀ p ∈ em, p ∈ em') ∧ (∀ p ∈ em', p ∈ em ∨ (p.1 ∈ cs ∧ Q p.1 p.2)) ∧ ∀ c ∈ cs, ∃ e, (c, e) ∈ em'
  | [], vm, vm', em, em', hg, h => by
      obtain ⟨rfl, rfl⟩ := Prod.mk.inj (Except.ok.inj h)
      exact ⟨fun _ h => h, fun p hp => .inl hp, by simp⟩
  | c :: cs, vm, vm', em, em', hg, h => by
      rw [overlapLoop] at h
      simp only [py_bind_eq_ok] at h
      obtain ⟨⟨s, vm1⟩, h1, e, h2, h3⟩ := h
      obtain ⟨rs, _, _, b⟩ := overlapVertices_spec hg h1
      obtain ⟨c1, c2, c3⟩ := overlapLoop_spec hQ b h3
      refine ⟨fun p hp => c1 p (List.mem_cons_of_mem _ hp), ?_, ?_⟩
      · intro p hp
        rcases c2 p hp with h | h
        · rcases List.mem_cons.1 h with rfl | h
          · exact .inr ⟨by simp, hQ c vm vm1 s e hg h1 h2⟩
          · exact .inl h
        · exact .inr ⟨List.mem_cons_of_mem _ h.1, h.2⟩
      · intro d hd
        rcases List.mem_cons.1 hd with rfl | hd
        · exact ⟨e, c1 _ (by simp)⟩
        · exact c3 d hd

end

/-! ## compute_embedding -/
section
variable [LinearOrder K]

theorem foldl_min_mem : ∀ (l : List K) (x : K), l.foldl min x = x ∨ l.foldl min x ∈ l
  | [], x => .inl rfl
  | y :: l, x => by
      rw [List.foldl_cons]
      rcases foldl_min_mem l (min x y) with h | h
      · rw [h]
        rcases min_choice x y with h' | h'
        · exact .inl h'
        · exact .inr (by rw [h']; simp)
      · exact .inr (List.mem_cons_of_mem _ h)

theorem minK_mem {l : List K} {x : K} (h : minK l = .ok x) : x ∈ l := by
  match l, h with
  | y :: l, h =>
    obtain rfl := Except.ok.inj h
    rcases foldl_min_mem l y with h | h
    · rw [h]; simp
    · exact List.mem_cons_of_mem _ h

theorem foldl_max_le : ∀ (l : List K) (x : K), x ≤ l.foldl max x ∧ ∀ y ∈ l, y ≤ l.foldl max x
  | [], x => ⟨le_refl _, by simp⟩
  | z :: l, x => by
      rw [List.foldl_cons]
      obtain ⟨a, b⟩ := foldl_max_le l (max x z)
      refine ⟨le_trans (le_max_left _ _) a, fun y hy => ?_⟩
      rcases List.mem_cons.1 hy with rfl | hy
      · exact le_trans (le_max_right _ _) a
      · exact b y hy

theorem maxK_le {l : List K} {x : K} (h : maxK l = .ok x) : ∀ y ∈ l, y ≤ x := by
  match l, h with
  | y :: l, h =>
    obtain rfl := Except.ok.inj h
    obtain ⟨a, b⟩ := foldl_max_le l y
    intro z hz
    rcases List.mem_cons.1 hz with rfl | hz
    · exact a
    · exact b z hz

theorem mismatch_spec {dist : Nat → Nat → K} {ev cv : List Nat} {d δ : K} (h : mismatch dist ev cv = .ok d)
    (hd : d < δ) : ∀ v ∈ cv, ∃ w ∈ ev, dist v w < δ := by
  unfold mismatch at h
  simp only [py_bind_eq_ok] at h
  obtain ⟨ds, h1, h2⟩ := h
  intro v hv
  have hF := pyMap_eq_ok.1 h1
  obtain ⟨x, hx, hxv⟩ := forall₂_image hF v hv
  obtain ⟨w, hw, rfl⟩ := List.mem_map.1 (minK_mem hxv)
  exact ⟨w, hw, lt_of_le_of_lt (maxK_le h2 _ hx) hd⟩

theorem minPair_mem : ∀ (l : List (Nat × K)) (p : Nat × K), minPair p l = p ∨ minPair p l ∈ l
  | [], p => .inl rfl
  | q :: l, p => by
      rw [minPair]
      split
      · rcases minPair_mem l q with h | h
        · exact .inr (by rw [h]; simp)
        · exact .inr (List.mem_cons_of_mem _ h)
      · rcases minPair_mem l p with h | h
        · exact .inl h
        · exact .inr (List.mem_cons_of_mem _ h)

theorem embedLoop_spec {collide : Nat → List Nat} {dist : Nat → Nat → K} {tol : K} {e2v c2v : Nat → List Nat} :
    ∀ {es : List Nat} {m m' : List (Nat × Nat)}, embedLoop collide dist tol e2v c2v es m = .ok m' →
    (∀ p ∈ m, p ∈ m') ∧ (∀ e ∈ es, ∃ c, (c, e) ∈ m') ∧
      ∀ p ∈ m', p ∈ m ∨ (p.2 ∈ es ∧ ∀ v ∈ c2v p.1, ∃ w ∈ e2v p.2, dist v w < tol)
  | [], m, m', h => by
      obtain rfl := Except.ok.inj h
      exact ⟨fun _ h => h, by simp, fun p hp => .inl hp⟩
  | e :: es, m, m', h => by
      rw [embedLoop] at h
      simp only [py_bind_eq_ok] at h
      obtain ⟨maybe, h1, matching, h2, h3⟩ := h
      rcases matching with _ | ⟨q, qs⟩
      · simp at h3
      · dsimp only at h3
        simp only [py_bind_eq_ok, pyAssert_eq_ok, decide_eq_true_eq] at h3
        obtain ⟨_, hd, h4⟩ := h3
        have hmem : minPair q qs ∈ q :: qs := by
          rcases minPair_mem qs q with h | h
          · rw [h]; simp
          · exact List.mem_cons_of_mem _ h
        obtain ⟨c, _, hc⟩ := forall₂_preimage (pyMap_eq_ok.1 h2) _ hmem
        simp only [py_bind_eq_ok] at hc
        obtain ⟨d, hc1, hc2⟩ := hc
        have hc2' := Except.ok.inj hc2
        rw [← hc2'] at hd h4
        obtain ⟨a, b, f⟩ := embedLoop_spec h4
        refine ⟨fun p hp => a p (List.mem_cons_of_mem _ hp), ?_, ?_⟩
        · intro e' he'
          rcases List.mem_cons.1 he' with rfl | he'
          · exact ⟨c, a _ (by simp)⟩
          · exact b e' he'
        · intro p hp
          rcases f p hp with h | h
          · rcases List.mem_cons.1 h with rfl | h
            · exact .inr ⟨by simp, mismatch_spec hc1 hd⟩
            · exact .inl h
          · exact .inr ⟨List.mem_cons_of_mem _ h.1, h.2⟩

theorem embedTags_spec {collide : Nat → List Nat} {dist : Nat → Nat → K} {tol : K} {e2v c2v : Nat → List Nat}
    {marks : List Nat} : ∀ {ts : List Nat} {m m' : List (Nat × Nat)},
    embedTags collide dist tol e2v c2v marks ts m = .ok m' →
    (∀ p ∈ m, p ∈ m') ∧ (∀ t ∈ ts, ∀ e, marks[e]? = some t → ∃ c, (c, e) ∈ m') ∧
      ∀ p ∈ m', p ∈ m ∨ ((∃ t ∈ ts, marks[p.2]? = some t) ∧ ∀ v ∈ c2v p.1, ∃ w ∈ e2v p.2, dist v w < tol)
  | [], m, m', h => by
      obtain rfl := Except.ok.inj h
      exact ⟨fun _ h => h, by simp, fun p hp => .inl hp⟩
  | t :: ts, m, m', h => by
      rw [embedTags] at h
      simp only [py_bind_eq_ok] at h
      obtain ⟨_, _, m1, h1, h2⟩ := h
      obtain ⟨a, b, c⟩ := embedLoop_spec h1
      obtain ⟨a', b', c'⟩ := embedTags_spec h2
      refine ⟨fun p hp => a' p (a p hp), ?_, ?_⟩
      · intro t' ht' e he
        rcases List.mem_cons.1 ht' with rfl | ht'
        · obtain ⟨c, hc⟩ := b e (mem_whereEq.2 he)
          exact ⟨c, a' _ hc⟩
        · exact b' t' ht' e he
      · intro p hp
        rcases c' p hp with h | ⟨⟨t', ht', hm⟩, h⟩
        · rcases c p h with h | ⟨h, h'⟩
          · exact .inl h
          · exact .inr ⟨⟨t, by simp, mem_whereEq.1 h⟩, h'⟩
        · exact .inr ⟨⟨t', by simp [ht'], hm⟩, h⟩
end

end Verif.Embedding
