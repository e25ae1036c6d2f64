import Verif.Spec.Union
import Verif.Lemmas.Patch
import Verif.Lemmas.Mortar
import Verif.Lemmas.BlockOps
import Mathlib.Data.List.Nodup
import Mathlib.Data.List.Perm.Basic
/-!
# Matching boundary vertices
-/
namespace Verif.Union
open Verif Verif.BlockOps Verif.Mortar
variable {P K : Type} [LinearOrder K] {dist : P → P → K} {tol : K} {x0 x1 : List P} {b0 b1 : List Nat}

/-- Closer than the tolerance. -/
def Close (dist : P → P → K) (tol : K) (x0 x1 : List P) (i j : Nat) : Prop :=
  ∃ p q, x0[i]? = some p ∧ x1[j]? = some q ∧ dist q p < tol

/-- State of the loop. -/
structure MInv (dist : P → P → K) (tol : K) (x0 x1 : List P) (b1 : List Nat) (done : List Nat) (rest : List (Nat × P))
    (sh : List (Nat × Nat)) : Prop where
  keys : (sh.map (fun p => p.1)).Nodup
  values : (sh.map (fun p => p.2)).Nodup
  left : ∀ j p, (j, p) ∈ rest ↔ j ∈ b1 ∧ x1[j]? = some p ∧ j ∉ sh.map (fun p => p.1)
  nodup : (rest.map (fun p => p.1)).Nodup
  sound : ∀ j i, (j, i) ∈ sh → i ∈ done ∧ j ∈ b1 ∧ Close dist tol x0 x1 i j

/-- All close pairs are found. -/
def Found (dist : P → P → K) (tol : K) (x0 x1 : List P) (b1 done : List Nat) (sh : List (Nat × Nat)) : Prop :=
  ∀ i ∈ done, ∀ j ∈ b1, Close dist tol x0 x1 i j → (j, i) ∈ sh

/-- Close pairs are separated. -/
def Sep (dist : P → P → K) (tol : K) (x0 x1 : List P) (b0 b1 : List Nat) : Prop :=
  (∀ i ∈ b0, ∀ i' ∈ b0, ∀ j ∈ b1, Close dist tol x0 x1 i j → Close dist tol x0 x1 i' j → i = i') ∧
  (∀ i ∈ b0, ∀ j ∈ b1, ∀ j' ∈ b1, Close dist tol x0 x1 i j → Close dist tol x0 x1 i j' → j = j')

theorem dictSet_new {d : List (Nat × Nat)} {k v : Nat} (h : k ∉ d.map (fun p => p.1)) : dictSet d k v = d ++ [(k, v)] := by
  unfold dictSet
  rw [if_neg h]

/-- One turn of the loop with a match. -/
theorem minv_match {done : List Nat} {rest : List (Nat × P)} {sh : List (Nat × Nat)} {i imin : Nat} {q : Nat × P} {x : P}
    (h : MInv dist tol x0 x1 b1 done rest sh) (hi : i ∉ done) (hx : x0[i]? = some x) (hq : rest[imin]? = some q)
    (hd : dist q.2 x < tol) :
    MInv dist tol x0 x1 b1 (i :: done) (rest.eraseIdx imin) (dictSet sh q.1 i) := by
  have hqm : (q.1, q.2) ∈ rest := List.mem_of_getElem? hq
  obtain ⟨hq1, hq2, hq3⟩ := (h.left q.1 q.2).1 hqm
  have hlt := (List.getElem?_eq_some_iff.1 hq).1
  have hperm : rest.Perm (q :: rest.eraseIdx imin) := by
    have := (List.getElem_cons_eraseIdx_perm hlt).symm
    have e : rest[imin] = q := (List.getElem?_eq_some_iff.1 hq).2
    rwa [e] at this
  have hnd : (q.1 :: (rest.eraseIdx imin).map (fun p => p.1)).Nodup := by
    have := (hperm.map (fun p : Nat × P => p.1)).nodup_iff.1 h.nodup
    rwa [List.map_cons] at this
  rw [dictSet_new hq3]
  constructor
  · rw [List.map_append, List.nodup_append]
    refine ⟨h.keys, by simp, ?_⟩
    rintro a ha b hb rfl
    simp at hb
    rw [hb] at ha
    exact hq3 ha
  · rw [List.map_append, List.nodup_append]
    refine ⟨h.values, by simp, ?_⟩
    rintro a ha b hb rfl
    simp at hb
    rw [hb] at ha
    obtain ⟨⟨j, i'⟩, hm, e⟩ := List.mem_map.1 ha
    dsimp only at e
    subst e
    exact hi (h.sound j i' hm).1
  · intro j p
    have hmem : (j, p) ∈ rest ↔ (j, p) = q ∨ (j, p) ∈ rest.eraseIdx imin := by
      rw [hperm.mem_iff, List.mem_cons]
    rw [List.nodup_cons] at hnd
    constructor
    · intro hm
      obtain ⟨a, b, c⟩ := (h.left j p).1 (hmem.2 (.inr hm))
      refine ⟨a, b, ?_⟩
      rw [List.map_append, List.mem_append]
      rintro (h1 | h1)
      · exact c h1
      · simp at h1
        exact hnd.1 (List.mem_map.2 ⟨(j, p), hm, h1⟩)
    · rintro ⟨a, b, c⟩
      rw [List.map_append, List.mem_append] at c
      have c1 : j ∉ sh.map (fun p => p.1) := fun h => c (.inl h)
      have c2 : j ≠ q.1 := fun h => c (.inr (by simp [h]))
      rcases hmem.1 ((h.left j p).2 ⟨a, b, c1⟩) with e | e
      · exact absurd (by rw [← e]) c2
      · exact e
  · rw [List.nodup_cons] at hnd
    exact hnd.2
  · intro j i' hm
    rcases List.mem_append.1 hm with hm | hm
    · obtain ⟨a, b, c⟩ := h.sound j i' hm
      exact ⟨List.mem_cons_of_mem _ a, b, c⟩
    · simp at hm
      obtain ⟨rfl, rfl⟩ := hm
      exact ⟨by simp, hq1, x, q.2, hx, hq2, hd⟩

theorem MInv.mono {done : List Nat} {rest : List (Nat × P)} {sh : List (Nat × Nat)} {i : Nat}
    (h : MInv dist tol x0 x1 b1 done rest sh) : MInv dist tol x0 x1 b1 (i :: done) rest sh :=
  ⟨h.keys, h.values, h.left, h.nodup, fun j i' hm => ⟨List.mem_cons_of_mem _ (h.sound j i' hm).1, (h.sound j i' hm).2⟩⟩

/-- With the closest vertex a close one is found. -/
theorem found_step {done : List Nat} {rest : List (Nat × P)} {sh : List (Nat × Nat)} {i imin : Nat} {q : Nat × P} {x : P}
    (h : MInv dist tol x0 x1 b1 done rest sh) (hs : Sep dist tol x0 x1 b0 b1) (hdone : ∀ k ∈ done, k ∈ b0) (hi0 : i ∈ b0)
    (hi : i ∉ done) (hx : x0[i]? = some x) (hq : rest[imin]? = some q) (hmin : ∀ r ∈ rest, dist q.2 x ≤ dist r.2 x)
    {j : Nat} (hj : j ∈ b1) (hc : Close dist tol x0 x1 i j) : dist q.2 x < tol ∧ j = q.1 := by
  have hjn : j ∉ sh.map (fun p => p.1) := by
    intro hm
    obtain ⟨⟨j', i'⟩, hm', e⟩ := List.mem_map.1 hm
    dsimp only at e
    subst e
    obtain ⟨h1, h2, h3⟩ := h.sound j' i' hm'
    exact hi (hs.1 i' (hdone i' h1) i hi0 j' hj h3 hc ▸ h1)
  obtain ⟨p, y, hp, hy, hd⟩ := hc
  rw [hx] at hp
  injection hp with hp
  subst hp
  have := hmin (j, y) ((h.left j y).2 ⟨hj, hy, hjn⟩)
  have hd' := lt_of_le_of_lt this hd
  refine ⟨hd', ?_⟩
  obtain ⟨hq1, hq2, _⟩ := (h.left q.1 q.2).1 (List.mem_of_getElem? hq)
  exact hs.2 i hi0 j hj q.1 hq1 ⟨x, y, hx, hy, hd⟩ ⟨x, q.2, hx, hq2, hd'⟩

theorem argmin_rest {rest : List (Nat × P)} {x : P} {imin : Nat} {q : Nat × P}
    (ha : Patch.argmin (rest.map (fun q => dist q.2 x)) = .ok imin) (hq : rest[imin]? = some q) :
    ∀ r ∈ rest, dist q.2 x ≤ dist r.2 x := by
  have hne : rest.map (fun q => dist q.2 x) ≠ [] := by
    intro h
    rw [h] at ha
    simp [Patch.argmin] at ha
  obtain ⟨i, w, h1, h2, h3⟩ := Patch.argmin_ok hne
  rw [ha] at h1
  injection h1 with h1
  subst h1
  rw [List.getElem?_map, hq] at h2
  simp only [Option.map_some, Option.some.injEq] at h2
  intro r hr
  obtain ⟨k, hk, rfl⟩ := List.getElem_of_mem hr
  rw [h2]
  exact (h3 k _ (by rw [List.getElem?_map, List.getElem?_eq_getElem hk]; rfl)).1

/-- The loop. -/
theorem matchLoop_inv : ∀ {todo done : List Nat} {rest : List (Nat × P)} {sh out : List (Nat × Nat)},
    MInv dist tol x0 x1 b1 done rest sh → (∀ i ∈ todo, i ∉ done) → todo.Nodup →
    matchLoop dist tol x0 todo rest sh = .ok out →
    ∃ rest', MInv dist tol x0 x1 b1 (todo.reverse ++ done) rest' out ∧
      (Sep dist tol x0 x1 b0 b1 → (∀ k ∈ todo, k ∈ b0) → (∀ k ∈ done, k ∈ b0) → Found dist tol x0 x1 b1 done sh →
        Found dist tol x0 x1 b1 (todo.reverse ++ done) out)
  | [], done, rest, sh, out, h, _, _, hr => by
      unfold matchLoop at hr
      injection hr with hr
      subst hr
      exact ⟨rest, h, fun _ _ _ hf => hf⟩
  | i :: todo, done, rest, sh, out, h, hd, hn, hr => by
      unfold matchLoop at hr
      rw [py_bind_eq_ok] at hr
      obtain ⟨x, hx, hr⟩ := hr
      rw [py_bind_eq_ok] at hr
      obtain ⟨imin, ha, hr⟩ := hr
      rw [py_bind_eq_ok] at hr
      obtain ⟨q, hq, hr⟩ := hr
      rw [pyGet_eq_ok] at hx hq
      have hmin := argmin_rest ha hq
      have hi : i ∉ done := hd i (by simp)
      rw [List.nodup_cons] at hn
      have hd' : ∀ k ∈ todo, k ∉ i :: done := by
        intro k hk hm
        rcases List.mem_cons.1 hm with rfl | hm
        · exact hn.1 hk
        · exact hd k (by simp [hk]) hm
      have e : (i :: todo).reverse ++ done = todo.reverse ++ i :: done := by simp
      rw [e]
      by_cases hlt : dist q.2 x < tol
      · rw [if_pos hlt] at hr
        have h' := minv_match h hi hx hq hlt
        obtain ⟨rest', h1, h2⟩ := matchLoop_inv h' hd' hn.2 hr
        refine ⟨rest', h1, fun hs ht hdn hf => h2 hs (fun k hk => ht k (by simp [hk])) ?_ ?_⟩
        · intro k hk
          rcases List.mem_cons.1 hk with rfl | hk
          · exact ht k (by simp)
          · exact hdn k hk
        · intro k hk j hj hc
          have hq3 := ((h.left q.1 q.2).1 (List.mem_of_getElem? hq)).2.2
          rw [dictSet_new hq3, List.mem_append]
          rcases List.mem_cons.1 hk with rfl | hk
          · obtain ⟨_, rfl⟩ := found_step h hs hdn (ht k (by simp)) hi hx hq hmin hj hc
            exact .inr (by simp)
          · exact .inl (hf k hk j hj hc)
      · rw [if_neg hlt] at hr
        obtain ⟨rest', h1, h2⟩ := matchLoop_inv h.mono hd' hn.2 hr
        refine ⟨rest', h1, fun hs ht hdn hf => h2 hs (fun k hk => ht k (by simp [hk])) ?_ ?_⟩
        · intro k hk
          rcases List.mem_cons.1 hk with rfl | hk
          · exact ht k (by simp)
          · exact hdn k hk
        · intro k hk j hj hc
          rcases List.mem_cons.1 hk with rfl | hk
          · exact absurd (found_step h hs hdn (ht k (by simp)) hi hx hq hmin hj hc).1 hlt
          · exact hf k hk j hj hc

/-- The loop goes through when some boundary vertex of the second mesh is never matched. -/
theorem matchLoop_total {j0 : Nat} {p0 : P} (hj0 : j0 ∈ b1) (hp0 : x1[j0]? = some p0)
    (hfar : ∀ i, ¬ Close dist tol x0 x1 i j0) :
    ∀ {todo done : List Nat} {rest : List (Nat × P)} {sh : List (Nat × Nat)},
    MInv dist tol x0 x1 b1 done rest sh → (∀ i ∈ todo, i ∉ done) → (∀ i ∈ todo, i < x0.length) → todo.Nodup →
    ∃ out, matchLoop dist tol x0 todo rest sh = .ok out
  | [], done, rest, sh, _, _, _, _ => ⟨sh, rfl⟩
  | i :: todo, done, rest, sh, h, hd, hx0, hn => by
      have hr0 : (j0, p0) ∈ rest := by
        refine (h.left j0 p0).2 ⟨hj0, hp0, ?_⟩
        intro hm
        obtain ⟨⟨j', i'⟩, hm', e⟩ := List.mem_map.1 hm
        dsimp only at e
        subst e
        exact hfar i' (h.sound _ _ hm').2.2
      have hne : rest.map (fun q => dist q.2 (x0[i]'(hx0 i (by simp)))) ≠ [] := by
        intro e
        rw [List.map_eq_nil_iff] at e
        rw [e] at hr0
        simp at hr0
      obtain ⟨imin, w, h1, h2, _⟩ := Patch.argmin_ok hne
      rw [List.getElem?_map, Option.map_eq_some_iff] at h2
      obtain ⟨q, hq, _⟩ := h2
      have hx : x0[i]? = some (x0[i]'(hx0 i (by simp))) := List.getElem?_eq_getElem _
      have hi : i ∉ done := hd i (by simp)
      rw [List.nodup_cons] at hn
      have hd' : ∀ k ∈ todo, k ∉ i :: done := by
        intro k hk hm
        rcases List.mem_cons.1 hm with rfl | hm
        · exact hn.1 hk
        · exact hd k (by simp [hk]) hm
      unfold matchLoop
      rw [pyGet_eq_ok.2 hx]
      simp only [py_bind_ok]
      rw [h1]
      simp only [py_bind_ok]
      rw [pyGet_eq_ok.2 hq]
      simp only [py_bind_ok]
      by_cases hlt : dist q.2 (x0[i]'(hx0 i (by simp))) < tol
      · rw [if_pos hlt]
        exact matchLoop_total hj0 hp0 hfar (minv_match h hi hx hq hlt) hd' (fun k hk => hx0 k (by simp [hk])) hn.2
      · rw [if_neg hlt]
        exact matchLoop_total hj0 hp0 hfar h.mono hd' (fun k hk => hx0 k (by simp [hk])) hn.2

/-- The start. -/
theorem minv_init {rest : List (Nat × P)} (hn : b1.Nodup)
    (h : pyMap (fun j => do let p ← pyGet x1 j; .ok (j, p)) b1 = .ok rest) : MInv dist tol x0 x1 b1 [] rest [] := by
  rw [pyMap_eq_ok] at h
  have key : List.Forall₂ (fun (j : Nat) (r : Nat × P) => r.1 = j ∧ x1[j]? = some r.2) b1 rest := by
    refine h.imp (fun j r hr => ?_)
    rw [py_bind_eq_ok] at hr
    obtain ⟨p, hp, hr⟩ := hr
    injection hr with hr
    subst hr
    exact ⟨rfl, pyGet_eq_ok.1 hp⟩
  have hfst : rest.map (fun p => p.1) = b1 := by
    clear hn h
    induction key with
    | nil => rfl
    | cons h _ ih => rw [List.map_cons, ih, h.1]
  refine ⟨by simp, by simp, ?_, by rw [hfst]; exact hn, by simp⟩
  intro j p
  constructor
  · intro hm
    refine ⟨by rw [← hfst]; exact List.mem_map.2 ⟨(j, p), hm, rfl⟩, ?_, by simp⟩
    obtain ⟨k, hk, e⟩ := List.getElem_of_mem hm
    have := (List.forall₂_iff_get.1 key).2 k (by rw [key.length_eq]; exact hk) hk
    simp only [List.get_eq_getElem, e] at this
    rw [this.1]
    exact this.2
  · rintro ⟨hj, hp, _⟩
    rw [← hfst] at hj
    obtain ⟨⟨j', p'⟩, hm, e⟩ := List.mem_map.1 hj
    dsimp only at e
    subst e
    obtain ⟨k, hk, e⟩ := List.getElem_of_mem hm
    have := (List.forall₂_iff_get.1 key).2 k (by rw [key.length_eq]; exact hk) hk
    simp only [List.get_eq_getElem, e] at this
    rw [← this.1, hp] at this
    have h2 := this.2
    injection h2 with h2
    rw [h2]
    exact hm

end Verif.Union
