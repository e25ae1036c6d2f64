import Verif.Spec.Mortar
import Verif.Lemmas.Embedded2
import Mathlib.Tactic.Push
/-! Lemmas about mortar meshes. -/
namespace Verif.Mortar
open Verif Verif.BlockOps Verif.Embedded
variable {P : Type}

theorem dictSet_keys {α β : Type} [DecidableEq α] (d : List (α × β)) (k : α) (v : β) :
    (dictSet d k v).map (fun p => p.1) = if k ∈ d.map (fun p => p.1) then d.map (fun p => p.1)
      else d.map (fun p => p.1) ++ [k] := by
  unfold dictSet
  split
  · rw [List.map_map]
    refine List.map_congr_left (fun p _ => ?_)
    simp only [Function.comp]
    split
    · rename_i h; exact h.symm
    · rfl
  · simp

theorem mem_dictSet {α β : Type} [DecidableEq α] {d : List (α × β)} {k k' : α} {v v' : β} :
    (k', v') ∈ dictSet d k v ↔ (k' = k ∧ v' = v) ∨ (k' ≠ k ∧ (k', v') ∈ d) := by
  unfold dictSet
  split
  · rename_i h
    rw [List.mem_map]
    constructor
    · rintro ⟨p, hp, he⟩
      split at he
      · obtain ⟨rfl, rfl⟩ := Prod.mk.inj he
        exact .inl ⟨rfl, rfl⟩
      · rename_i hne
        subst he
        exact .inr ⟨hne, hp⟩
    · rintro (⟨rfl, rfl⟩ | ⟨hne, hm⟩)
      · obtain ⟨p, hp, he⟩ := List.mem_map.1 h
        exact ⟨p, hp, by rw [if_pos he]⟩
      · exact ⟨_, hm, by rw [if_neg hne]⟩
  · rename_i h
    rw [List.mem_append, List.mem_singleton]
    constructor
    · rintro (hm | he)
      · refine .inr ⟨?_, hm⟩
        rintro rfl
        exact h (List.mem_map.2 ⟨_, hm, rfl⟩)
      · obtain ⟨rfl, rfl⟩ := Prod.mk.inj he
        exact .inl ⟨rfl, rfl⟩
    · rintro (⟨rfl, rfl⟩ | ⟨_, hm⟩)
      · exact .inr rfl
      · exact .inl hm

theorem dictSet_nodup {α β : Type} [DecidableEq α] {d : List (α × β)} (k : α) (v : β)
    (h : (d.map (fun p => p.1)).Nodup) : ((dictSet d k v).map (fun p => p.1)).Nodup := by
  rw [dictSet_keys]
  split
  · exact h
  · rename_i hk
    rw [List.nodup_append]
    exact ⟨h, List.nodup_singleton _, by rintro a ha b hb rfl; rw [List.mem_singleton.1 hb] at ha; exact hk ha⟩

theorem lookup_iff_mem {α β : Type} [BEq α] [LawfulBEq α] {d : List (α × β)} (h : (d.map (fun p => p.1)).Nodup)
    {k : α} {v : β} : d.lookup k = some v ↔ (k, v) ∈ d := by
  induction d with
  | nil => simp
  | cons p d ih =>
      obtain ⟨a, b⟩ := p
      rw [List.map_cons, List.nodup_cons] at h
      rw [List.lookup_cons]
      by_cases hk : k = a
      · subst hk
        rw [BEq.rfl]
        simp only [Option.some.injEq, List.mem_cons, Prod.mk.injEq, true_and]
        constructor
        · rintro rfl; exact .inl rfl
        · rintro (rfl | hm)
          · rfl
          · exact absurd (List.mem_map.2 ⟨_, hm, rfl⟩) h.1
      · rw [beq_false_of_ne hk]
        simp only [List.mem_cons, Prod.mk.injEq, hk, false_and, false_or]
        exact ih h.2

/-- The invariant of the loop over facets. -/
structure IfaceOK (f2c : Nat → List Nat) (tags markers fs : List Nat) (iface : Iface) : Prop where
  keys : (iface.map (fun p => p.1)).Nodup
  inner : ∀ key d, (key, d) ∈ iface → (d.map (fun p => p.1)).Nodup ∧ d ≠ [] ∧
    ∀ f v, (f, v) ∈ d ↔ f ∈ fs ∧ Between f2c tags markers f key v
  all : ∀ f ∈ fs, ∀ key v, Between f2c tags markers f key v → ∃ d, (key, d) ∈ iface

theorem Between.unique {f2c : Nat → List Nat} {tags markers : List Nat} {f : Nat} {key v key' v' : Nat × Nat}
    (h : Between f2c tags markers f key v) (h' : Between f2c tags markers f key' v') : key = key' ∧ v = v' := by
  obtain ⟨h1, h2, _, _, h3, h4⟩ := h
  obtain ⟨h1', h2', _, _, h3', h4'⟩ := h'
  obtain ⟨a, b⟩ := v
  obtain ⟨a', b'⟩ := v'
  obtain ⟨k, l⟩ := key
  obtain ⟨k', l'⟩ := key'
  simp only at *
  have same : a = a' → b = b' → (k, l) = (k', l') ∧ (a, b) = (a', b') := by
    rintro rfl rfl
    rw [h3] at h3'; rw [h4] at h4'
    rw [Option.some.inj h3', Option.some.inj h4']; exact ⟨rfl, rfl⟩
  have swap : a = b' → b = a' → False := by
    rintro rfl rfl
    rw [h3] at h4'; rw [h4] at h3'
    have := Option.some.inj h3'
    have := Option.some.inj h4'
    omega
  rcases h1 with h1 | h1 <;> rcases h1' with h1' | h1' <;> rw [h1] at h1' <;>
    simp only [List.cons.injEq, and_true] at h1'
  · exact same h1'.1 h1'.2
  · exact (swap h1'.1 h1'.2).elim
  · exact (swap h1'.2 h1'.1).elim
  · exact same h1'.2 h1'.1

theorem record_ok {f2c : Nat → List Nat} {tags markers fs : List Nat} {iface : Iface} {f : Nat} {key v : Nat × Nat}
    (h : IfaceOK f2c tags markers fs iface) (hf : f ∉ fs) (hb : Between f2c tags markers f key v) :
    IfaceOK f2c tags markers (fs ++ [f]) (record iface key f v) := by
  -- the dict which is replaced
  have hd : ∀ f' v', (f', v') ∈ (iface.lookup key).getD [] ↔ f' ∈ fs ∧ Between f2c tags markers f' key v' := by
    intro f' v'
    rcases hl : iface.lookup key with _ | d
    · simp only [Option.getD_none, List.not_mem_nil, false_iff]
      rintro ⟨h1, h2⟩
      obtain ⟨d, hd⟩ := h.all f' h1 key v' h2
      rw [← lookup_iff_mem h.keys, hl] at hd
      simp at hd
    · exact (h.inner key d ((lookup_iff_mem h.keys).1 hl)).2.2 f' v'
  have hdn : (((iface.lookup key).getD []).map (fun p => p.1)).Nodup := by
    rcases hl : iface.lookup key with _ | d
    · simp
    · exact (h.inner key d ((lookup_iff_mem h.keys).1 hl)).1
  refine ⟨dictSet_nodup _ _ h.keys, ?_, ?_⟩
  · intro key' d' hm
    unfold record at hm
    rw [mem_dictSet] at hm
    rcases hm with ⟨rfl, rfl⟩ | ⟨hne, hm⟩
    · refine ⟨dictSet_nodup _ _ hdn, List.ne_nil_of_mem (mem_dictSet.2 (.inl ⟨rfl, rfl⟩)), fun f' v' => ?_⟩
      rw [mem_dictSet, hd, List.mem_append, List.mem_singleton]
      constructor
      · rintro (⟨rfl, rfl⟩ | ⟨_, h1, h2⟩)
        · exact ⟨.inr rfl, hb⟩
        · exact ⟨.inl h1, h2⟩
      · rintro ⟨h1 | rfl, h2⟩
        · refine .inr ⟨?_, h1, h2⟩
          rintro rfl; exact hf h1
        · exact .inl ⟨rfl, (h2.unique hb).2⟩
    · obtain ⟨a, b, c⟩ := h.inner key' d' hm
      refine ⟨a, b, fun f' v' => ?_⟩
      rw [c, List.mem_append, List.mem_singleton]
      constructor
      · rintro ⟨h1, h2⟩; exact ⟨.inl h1, h2⟩
      · rintro ⟨h1 | rfl, h2⟩
        · exact ⟨h1, h2⟩
        · exact absurd (h2.unique hb).1 hne
  · intro f' hf' key' v' hb'
    unfold record
    by_cases hk : key' = key
    · exact ⟨_, mem_dictSet.2 (.inl ⟨hk, rfl⟩)⟩
    · rw [List.mem_append, List.mem_singleton] at hf'
      rcases hf' with hf' | rfl
      · obtain ⟨d, hd⟩ := h.all f' hf' key' v' hb'
        exact ⟨d, mem_dictSet.2 (.inr ⟨hk, hd⟩)⟩
      · exact absurd (hb'.unique hb).1 hk

theorem skip_ok {f2c : Nat → List Nat} {tags markers fs : List Nat} {iface : Iface} {f : Nat}
    (h : IfaceOK f2c tags markers fs iface) (hb : ∀ key v, ¬ Between f2c tags markers f key v) :
    IfaceOK f2c tags markers (fs ++ [f]) iface := by
  refine ⟨h.keys, fun key d hm => ?_, fun f' hf' key v hb' => ?_⟩
  · obtain ⟨a, b, c⟩ := h.inner key d hm
    refine ⟨a, b, fun f' v' => ?_⟩
    rw [c, List.mem_append, List.mem_singleton]
    constructor
    · rintro ⟨h1, h2⟩; exact ⟨.inl h1, h2⟩
    · rintro ⟨h1 | rfl, h2⟩
      · exact ⟨h1, h2⟩
      · exact absurd h2 (hb _ _)
  · rw [List.mem_append, List.mem_singleton] at hf'
    rcases hf' with hf' | rfl
    · exact h.all f' hf' key v hb'
    · exact absurd hb' (hb _ _)

theorem facetStep_ok {f2c : Nat → List Nat} {tags markers fs : List Nat} {iface : Iface} {f n : Nat}
    (hM : Manifold f2c tags.length n) (hfn : f < n)
    (h : IfaceOK f2c tags markers fs iface) (hf : f ∉ fs) :
    ∃ iface', facetStep f2c tags markers iface f = .ok iface' ∧ IfaceOK f2c tags markers (fs ++ [f]) iface' := by
  obtain ⟨h1, h2, h3⟩ := hM f hfn
  unfold facetStep
  rcases hc : f2c f with _ | ⟨c0, _ | ⟨c1, _ | ⟨c2, l⟩⟩⟩
  · exact ⟨iface, rfl, skip_ok h (fun key v hb => by have := hb.1; rw [hc] at this; simp at this)⟩
  · exact ⟨iface, rfl, skip_ok h (fun key v hb => by have := hb.1; rw [hc] at this; simp at this)⟩
  · rw [hc] at h3
    have l0 := h3 c0 (by simp)
    have l1 := h3 c1 (by simp)
    have g0 : pyGet tags c0 = .ok tags[c0] := pyGet_eq_ok.2 (List.getElem?_eq_getElem l0)
    have g1 : pyGet tags c1 = .ok tags[c1] := pyGet_eq_ok.2 (List.getElem?_eq_getElem l1)
    simp only [g0, g1, py_bind_ok]
    refine ⟨_, rfl, ?_⟩
    split
    · rename_i hcond
      split
      · rename_i hlt
        exact record_ok h hf ⟨.inl hc, hlt, hcond.2.1, hcond.2.2, List.getElem?_eq_getElem l0, List.getElem?_eq_getElem l1⟩
      · rename_i hlt
        exact record_ok h hf ⟨.inr hc, by have := hcond.1; simp only; omega, hcond.2.2, hcond.2.1,
          List.getElem?_eq_getElem l1, List.getElem?_eq_getElem l0⟩
    · rename_i hcond
      refine skip_ok h ?_
      rintro ⟨k0, k1⟩ ⟨a, b⟩ ⟨hb1, hb2, hb3, hb4, hb5, hb6⟩
      simp only at *
      apply hcond
      rw [hc] at hb1
      simp only [List.cons.injEq, and_true] at hb1
      rcases hb1 with ⟨rfl, rfl⟩ | ⟨rfl, rfl⟩
      · rw [List.getElem?_eq_getElem l0] at hb5; rw [List.getElem?_eq_getElem l1] at hb6
        rw [Option.some.inj hb5, Option.some.inj hb6]
        exact ⟨by omega, hb3, hb4⟩
      · rw [List.getElem?_eq_getElem l1] at hb5; rw [List.getElem?_eq_getElem l0] at hb6
        rw [Option.some.inj hb5, Option.some.inj hb6]
        exact ⟨by omega, hb4, hb3⟩
  · rw [hc] at h1; simp at h1

theorem facetLoop_ok {f2c : Nat → List Nat} {tags markers : List Nat} {n : Nat}
    (hM : Manifold f2c tags.length n) : ∀ (fs done : List Nat) (iface : Iface), (done ++ fs).Nodup →
    (∀ f ∈ fs, f < n) → IfaceOK f2c tags markers done iface →
    ∃ iface', facetLoop f2c tags markers fs iface = .ok iface' ∧ IfaceOK f2c tags markers (done ++ fs) iface'
  | [], done, iface, _, _, h => ⟨iface, rfl, by simpa using h⟩
  | f :: fs, done, iface, hn, hl, h => by
      have hf : f ∉ done := by
        rw [List.nodup_append] at hn
        exact fun hd => hn.2.2 f hd f (by simp) rfl
      obtain ⟨i1, e1, o1⟩ := facetStep_ok hM (hl f (by simp)) h hf
      obtain ⟨i2, e2, o2⟩ := facetLoop_ok hM fs (done ++ [f]) i1 (by simpa using hn) (fun g hg => hl g (by simp [hg])) o1
      exact ⟨i2, by rw [facetLoop, e1, py_bind_ok, e2], by simpa using o2⟩

theorem colorFill_ok : ∀ (ds : List (List Nat)) (n : Nat) (vals : List Nat), (∀ d ∈ ds, ∀ f ∈ d, f < vals.length) →
    (∀ (i j : Nat) (d e : List Nat) (f : Nat), ds[i]? = some d → ds[j]? = some e → f ∈ d → f ∈ e → i = j) →
    ∃ vals', colorFill n ds vals = .ok vals' ∧ vals'.length = vals.length ∧
      (∀ (i : Nat) (d : List Nat), ds[i]? = some d → ∀ f ∈ d, vals'[f]? = some (n + i)) ∧
      ∀ f : Nat, (∀ d ∈ ds, f ∉ d) → vals'[f]? = vals[f]?
  | [], n, vals, _, _ => ⟨vals, rfl, rfl, by simp, by simp⟩
  | d :: ds, n, vals, hl, hd => by
      obtain ⟨v1, e1, l1, g1⟩ := setAll_ok n d vals (hl d (by simp))
      obtain ⟨v2, e2, l2, g2, g3⟩ := colorFill_ok ds (n + 1) v1 (fun d' hd' f hf => by
        rw [l1]; exact hl d' (by simp [hd']) f hf) (fun i j a b f ha hb hfa hfb => by
          have := hd (i + 1) (j + 1) a b f (by simpa using ha) (by simpa using hb) hfa hfb
          omega)
      refine ⟨v2, by rw [colorFill, e1, py_bind_ok, e2], by rw [l2, l1], ?_, ?_⟩
      · intro i d' hi f hf
        match i with
        | 0 =>
          simp at hi; subst hi
          rw [g3 f (fun e he hfe => by
            obtain ⟨j, hj⟩ := List.mem_iff_getElem?.1 he
            have := hd 0 (j + 1) d e f (by simp) (by simpa using hj) hf hfe
            omega), g1, if_pos hf]; rfl
        | i + 1 =>
          rw [g2 i d' (by simpa using hi) f hf]
          exact congrArg some (by omega)
      · intro f hf
        rw [g3 f (fun e he => hf e (by simp [he])), g1, if_neg (hf d (by simp))]

/-! ## Maps -/

theorem mapSide_spec {S : Subs} {cell tag gc : Nat} {im im' : IMap} (h : mapSide S cell tag gc im = .ok im') :
    gc < S.numSub tag ∧ ∀ k, im'.lookup k = if k = (tag, cell) then
      ((S.facets tag gc).find? (fun f => S.near cell tag f)).or (im.lookup k) else im.lookup k := by
  unfold mapSide c2c at h
  split at h
  · rename_i hlt
    rw [py_bind_ok] at h
    obtain rfl := Except.ok.inj h
    refine ⟨hlt, fun k => ?_⟩
    rcases (S.facets tag gc).find? (fun f => S.near cell tag f) with _ | f
    · simp
    · simp only [List.lookup_cons]
      by_cases hk : k = (tag, cell)
      · rw [hk, beq_self_eq_true]; simp
      · rw [beq_false_of_ne hk, if_neg hk]
  · simp at h

theorem mapCells_spec {S : Subs} {cmap : List Nat} {key : Nat × Nat} (hk : key.1 ≠ key.2)
    {d : List (Nat × (Nat × Nat))} : ∀ {cells : List Nat} {im im' : IMap}, cells.Nodup →
    (∀ k, k.2 ∈ cells → im.lookup k = none) → mapCells S cmap key d cells im = .ok im' →
    (∀ k, k.2 ∉ cells → im'.lookup k = im.lookup k) ∧
    ∀ cell ∈ cells, ∃ f g, cmap[cell]? = some f ∧ d.lookup f = some g ∧ g.1 < S.numSub key.1 ∧ g.2 < S.numSub key.2 ∧
      im'.lookup (key.1, cell) = (S.facets key.1 g.1).find? (fun f => S.near cell key.1 f) ∧
      im'.lookup (key.2, cell) = (S.facets key.2 g.2).find? (fun f => S.near cell key.2 f) ∧
      ∀ t, t ≠ key.1 → t ≠ key.2 → im'.lookup (t, cell) = none
  | [], im, im', _, _, h => by
      obtain rfl := Except.ok.inj h
      exact ⟨fun _ _ => rfl, by simp⟩
  | cell :: cells, im, im', hn, hz, h => by
      rw [List.nodup_cons] at hn
      rw [mapCells] at h
      simp only [py_bind_eq_ok] at h
      obtain ⟨f, h1, h2⟩ := h
      rw [pyGet_eq_ok] at h1
      rcases hl : d.lookup f with _ | ⟨g0, g1⟩
      · rw [hl] at h2; simp at h2
      · rw [hl] at h2
        simp only [py_bind_eq_ok] at h2
        obtain ⟨im1, h3, im2, h4, h5⟩ := h2
        obtain ⟨a1, b1⟩ := mapSide_spec h3
        obtain ⟨a2, b2⟩ := mapSide_spec h4
        have hother : ∀ k : Nat × Nat, k.2 ≠ cell → im2.lookup k = im.lookup k := by
          intro k hk'
          rw [b2, if_neg (by rintro rfl; exact hk' rfl), b1, if_neg (by rintro rfl; exact hk' rfl)]
        obtain ⟨c1, c2⟩ := mapCells_spec hk (im := im2) hn.2 (fun k hk' => by
          rw [hother k (by rintro rfl; exact hn.1 hk')]
          exact hz k (by simp [hk'])) h5
        refine ⟨fun k hk' => ?_, fun c hc => ?_⟩
        · simp only [List.mem_cons, not_or] at hk'
          rw [c1 k hk'.2, hother k hk'.1]
        · rcases List.mem_cons.1 hc with rfl | hc
          · refine ⟨f, (g0, g1), h1, hl, a1, a2, ?_, ?_, fun t ht1 ht2 => ?_⟩
            · rw [c1 _ hn.1, b2, if_neg (by intro he; exact hk (Prod.mk.inj he).1), b1, if_pos rfl, hz _ (by simp)]
              simp
            · rw [c1 _ hn.1, b2, if_pos rfl, b1, if_neg (by intro he; exact hk (Prod.mk.inj he).1.symm), hz _ (by simp)]
              simp
            · rw [c1 _ hn.1, b2, if_neg (by intro he; exact ht2 (Prod.mk.inj he).1), b1,
                if_neg (by intro he; exact ht1 (Prod.mk.inj he).1), hz _ (by simp)]
          · exact c2 c hc

theorem mapColors_spec {S : Subs} {M : EMesh P} : ∀ {iface : Iface} {n : Nat} {im im' : IMap},
    (∀ p ∈ iface, p.1.1 ≠ p.1.2) → (∀ k m, M.marking[k.2]? = some m → n ≤ m → im.lookup k = none) →
    mapColors S M n iface im = .ok im' →
    (∀ k, (∀ m, M.marking[k.2]? = some m → m < n) → im'.lookup k = im.lookup k) ∧
    ∀ i key d, iface[i]? = some (key, d) → ∀ cell, M.marking[cell]? = some (n + i) →
      ∃ f g, M.cmap[cell]? = some f ∧ d.lookup f = some g ∧ g.1 < S.numSub key.1 ∧ g.2 < S.numSub key.2 ∧
      im'.lookup (key.1, cell) = (S.facets key.1 g.1).find? (fun f => S.near cell key.1 f) ∧
      im'.lookup (key.2, cell) = (S.facets key.2 g.2).find? (fun f => S.near cell key.2 f) ∧
      ∀ t, t ≠ key.1 → t ≠ key.2 → im'.lookup (t, cell) = none
  | [], n, im, im', _, _, h => by
      obtain rfl := Except.ok.inj h
      exact ⟨fun _ _ => rfl, by simp⟩
  | (key, d) :: rest, n, im, im', hk, hz, h => by
      rw [mapColors] at h
      simp only [py_bind_eq_ok] at h
      obtain ⟨im1, h1, h2⟩ := h
      obtain ⟨a1, b1⟩ := mapCells_spec (hk (key, d) (by simp)) (whereEq_nodup _ _)
        (fun k hk' => hz k n (mem_whereEq.1 hk') (le_refl n)) h1
      obtain ⟨a2, b2⟩ := mapColors_spec (n := n + 1) (im := im1) (fun p hp => hk p (by simp [hp])) (fun k m hm hnm => by
        rw [a1 k (by rw [mem_whereEq, hm]; simp; omega)]
        exact hz k m hm (by omega)) h2
      refine ⟨fun k hk' => ?_, fun i key' d' hi cell hc => ?_⟩
      · rw [a2 k (fun m hm => by have := hk' m hm; omega), a1 k]
        rw [mem_whereEq]
        intro hm
        have := hk' n hm
        omega
      · match i with
        | 0 =>
          simp only [List.getElem?_cons_zero, Option.some.injEq, Prod.mk.injEq] at hi
          obtain ⟨rfl, rfl⟩ := hi
          obtain ⟨f, g, c1, c2, c3, c4, c5, c6, c7⟩ := b1 cell (mem_whereEq.2 hc)
          have hlow : ∀ t, im'.lookup (t, cell) = im1.lookup (t, cell) := fun t => a2 (t, cell) (fun m hm => by
            change M.marking[cell]? = some m at hm
            rw [hc] at hm
            have := Option.some.inj hm
            omega)
          exact ⟨f, g, c1, c2, c3, c4, by rw [hlow, c5], by rw [hlow, c6],
            fun t h1 h2 => by rw [hlow, c7 t h1 h2]⟩
        | i + 1 =>
          exact b2 i key' d' (by simpa using hi) cell (by rw [hc]; exact congrArg some (by omega))

theorem mapSide_ok {S : Subs} {cell tag gc : Nat} (h : gc < S.numSub tag) (im : IMap) :
    ∃ im', mapSide S cell tag gc im = .ok im' := by
  unfold mapSide c2c
  rw [if_pos h, py_bind_ok]
  exact ⟨_, rfl⟩

theorem mapCells_ok {S : Subs} {cmap : List Nat} {key : Nat × Nat} {d : List (Nat × (Nat × Nat))} :
    ∀ {cells : List Nat} (im : IMap),
    (∀ cell ∈ cells, ∃ f g, cmap[cell]? = some f ∧ d.lookup f = some g ∧ g.1 < S.numSub key.1 ∧ g.2 < S.numSub key.2) →
    ∃ im', mapCells S cmap key d cells im = .ok im'
  | [], im, _ => ⟨im, rfl⟩
  | cell :: cells, im, h => by
      obtain ⟨f, g, h1, h2, h3, h4⟩ := h cell (by simp)
      obtain ⟨im1, e1⟩ := mapSide_ok (cell := cell) h3 im
      obtain ⟨im2, e2⟩ := mapSide_ok (cell := cell) h4 im1
      obtain ⟨im3, e3⟩ := mapCells_ok (S := S) (cmap := cmap) (key := key) (d := d) (cells := cells) im2 (fun c hc => h c (by simp [hc]))
      refine ⟨im3, ?_⟩
      rw [mapCells, pyGet_eq_ok.2 h1, py_bind_ok, h2]
      obtain ⟨g0, g1⟩ := g
      simp only [e1, e2, py_bind_ok, e3]

theorem mapColors_ok {S : Subs} {M : EMesh P} : ∀ {iface : Iface} {n : Nat} (im : IMap),
    (∀ (i : Nat) key d, iface[i]? = some (key, d) → ∀ cell : Nat, M.marking[cell]? = some (n + i) →
      ∃ f g, M.cmap[cell]? = some f ∧ d.lookup f = some g ∧ g.1 < S.numSub key.1 ∧ g.2 < S.numSub key.2) →
    ∃ im', mapColors S M n iface im = .ok im'
  | [], n, im, _ => ⟨im, rfl⟩
  | (key, d) :: rest, n, im, h => by
      obtain ⟨im1, e1⟩ := mapCells_ok (S := S) (cmap := M.cmap) (key := key) (d := d) (cells := whereEq M.marking n) im
        (fun cell hc => h 0 key d rfl cell (mem_whereEq.1 hc))
      obtain ⟨im2, e2⟩ := mapColors_ok (S := S) (M := M) (iface := rest) (n := n + 1) im1
        (fun i key' d' hi cell hc => h (i + 1) key' d' (by simpa using hi) cell (by rw [hc]; exact congrArg some (by omega)))
      exact ⟨im2, by rw [mapColors, e1, py_bind_ok, e2]⟩

end Verif.Mortar
