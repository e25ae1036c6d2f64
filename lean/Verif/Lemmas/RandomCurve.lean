import Verif.Spec.RandomCurve
/-! # Lemmas about random curves -/
namespace Verif.RandomCurve
open Verif

variable {edges : List (Nat × Nat)}

theorem key_cases (u v : Nat) : key u v = (u, v) ∨ key u v = (v, u) := by
  unfold key; split <;> simp

theorem key_inj {u v a b : Nat} (h : key u v = key a b) : (u = a ∧ v = b) ∨ (u = b ∧ v = a) := by
  unfold key at h
  split at h <;> split at h <;> simp at h <;> omega

theorem key_comm (u v : Nat) : key u v = key v u := by
  unfold key
  split <;> split <;> first | rfl | (simp; omega)

theorem adj_key (hE : Edges edges) {u v : Nat} (h : Adjacent edges u v) : key u v ∈ edges := by
  rcases h with h | h
  · have := hE.2 _ h
    simpa [key, this] using h
  · have := hE.2 _ h
    simp only at this
    have : ¬ u < v := by omega
    simpa [key, this] using h

theorem joined_key (hE : Edges edges) {f : List Nat} {u v : Nat} :
    Joined edges f u v ↔ ∃ i : Nat, edges[i]? = some (key u v) ∧ f[i]? = some 1 := by
  constructor
  · rintro ⟨i, h | h, hf⟩
    · have := hE.2 _ (List.mem_of_getElem? h)
      exact ⟨i, by rw [h]; simp only at this; simp [key, this], hf⟩
    · have := hE.2 _ (List.mem_of_getElem? h)
      simp only at this
      have : ¬ u < v := by omega
      exact ⟨i, by rw [h]; simp [key, this], hf⟩
  · rintro ⟨i, h, hf⟩
    rcases key_cases u v with hk | hk
    · exact ⟨i, .inl (by rw [h, hk]), hf⟩
    · exact ⟨i, .inr (by rw [h, hk]), hf⟩

theorem joined_symm {f : List Nat} {u v : Nat} (h : Joined edges f u v) : Joined edges f v u := by
  obtain ⟨i, h, hf⟩ := h
  exact ⟨i, h.symm, hf⟩

theorem adj_symm {u v : Nat} (h : Adjacent edges u v) : Adjacent edges v u := h.symm

theorem consecutive_cons (a b : Nat) (p : List Nat) (u v : Nat) :
    Consecutive (a :: b :: p) u v ↔ (u = a ∧ v = b) ∨ (u = b ∧ v = a) ∨ Consecutive (b :: p) u v := by
  constructor
  · rintro ⟨l, r, h | h⟩
    · cases l with
      | nil => simp at h; exact .inl ⟨h.1.symm, h.2.1.symm⟩
      | cons x l => simp at h; exact .inr (.inr ⟨l, r, .inl h.2⟩)
    · cases l with
      | nil => simp at h; exact .inr (.inl ⟨h.2.1.symm, h.1.symm⟩)
      | cons x l => simp at h; exact .inr (.inr ⟨l, r, .inr h.2⟩)
  · rintro (⟨rfl, rfl⟩ | ⟨rfl, rfl⟩ | ⟨l, r, h | h⟩)
    · exact ⟨[], p, .inl rfl⟩
    · exact ⟨[], p, .inr rfl⟩
    · exact ⟨a :: l, r, .inl (by rw [h]; rfl)⟩
    · exact ⟨a :: l, r, .inr (by rw [h]; rfl)⟩

theorem consecutive_symm {p : List Nat} {u v : Nat} (h : Consecutive p u v) : Consecutive p v u := by
  obtain ⟨l, r, h⟩ := h
  exact ⟨l, r, h.symm⟩

theorem consecutive_mem {p : List Nat} {u v : Nat} (h : Consecutive p u v) : u ∈ p := by
  obtain ⟨l, r, h | h⟩ := h <;> simp [h]

theorem not_consecutive_short {p : List Nat} (hp : p.length < 2) {u v : Nat} : ¬ Consecutive p u v := by
  rintro ⟨l, r, h | h⟩ <;> simp [h] at hp <;> omega

theorem exists_consecutive : ∀ (p : List Nat), 2 ≤ p.length → ∀ u : Nat, u ∈ p → ∃ v, Consecutive p u v
  | [], h => by simp at h
  | [_], h => by simp at h
  | [a, b], _ => by
      intro u hu
      simp at hu
      rcases hu with rfl | rfl
      · exact ⟨b, [], [], .inl rfl⟩
      · exact ⟨a, [], [], .inr rfl⟩
  | a :: b :: c :: p, _ => by
      intro u hu
      rcases List.mem_cons.1 hu with rfl | hu
      · exact ⟨b, [], c :: p, .inl rfl⟩
      · obtain ⟨v, hv⟩ := exists_consecutive (b :: c :: p) (by simp) u hu
        exact ⟨v, (consecutive_cons a b (c :: p) u v).2 (.inr (.inr hv))⟩

theorem linked_mono {r q : Nat → Nat → Prop} (h : ∀ a b, r a b → q a b) {u v : Nat} (hr : Relation.ReflTransGen r u v) :
    Relation.ReflTransGen q u v := by
  induction hr with
  | refl => exact .refl
  | tail _ hbc ih => exact .tail ih (h _ _ hbc)

theorem path_linked : ∀ (p : List Nat) (s : Nat), p.head? = some s → ∀ x ∈ p, Relation.ReflTransGen (Consecutive p) s x
  | [], s, h => by simp at h
  | [a], s, h => by
      intro x hx
      simp at h hx
      rw [hx, h]
  | a :: b :: p, s, h => by
      intro x hx
      simp at h
      subst h
      rcases List.mem_cons.1 hx with rfl | hx
      · exact .refl
      · refine .head (b := b) ((consecutive_cons a b p a b).2 (.inl ⟨rfl, rfl⟩)) ?_
        exact linked_mono
          (fun u v huv => (consecutive_cons a b p u v).2 (.inr (.inr huv))) (path_linked (b :: p) b rfl x hx)

theorem markPath_ok (hE : Edges edges) : ∀ (p f : List Nat), f.length = edges.length → p.IsChain (Adjacent edges) →
    ∃ f', markPath edges p f = .ok f' ∧ f'.length = edges.length ∧
      ∀ u v, Joined edges f' u v ↔ Joined edges f u v ∨ Consecutive p u v
  | [], f, hl, _ => ⟨f, rfl, hl, fun u v => by
      have := not_consecutive_short (p := []) (by simp) (u := u) (v := v)
      simp [this]⟩
  | [a], f, hl, _ => ⟨f, rfl, hl, fun u v => by
      have := not_consecutive_short (p := [a]) (by simp) (u := u) (v := v)
      simp [this]⟩
  | a :: b :: p, f, hl, hc => by
      have hab := (List.isChain_cons_cons.1 hc).1
      have hc' := (List.isChain_cons_cons.1 hc).2
      have hm := adj_key hE hab
      obtain ⟨i, hi⟩ : ∃ i, edges.idxOf? (key a b) = some i := by
        cases h : edges.idxOf? (key a b) with
        | none => exact absurd hm (List.idxOf?_eq_none_iff.1 h)
        | some i => exact ⟨i, rfl⟩
      have hg : edges[i]? = some (key a b) := by
        obtain ⟨hlt, hk, _⟩ := List.idxOf?_eq_some_iff.1 hi
        rw [List.getElem?_eq_getElem hlt]
        simpa using hk
      have hlt : i < edges.length := by
        by_contra hn
        rw [List.getElem?_eq_none (by omega)] at hg
        cases hg
      obtain ⟨f', h1, h2, h3⟩ := markPath_ok hE (b :: p) (f.set i 1) (by simpa using hl) hc'
      refine ⟨f', by simp [markPath, edgeIndex, hi, h1], h2, fun u v => ?_⟩
      rw [h3, consecutive_cons]
      have hset : Joined edges (f.set i 1) u v ↔ Joined edges f u v ∨ (u = a ∧ v = b) ∨ (u = b ∧ v = a) := by
        rw [joined_key hE, joined_key hE]
        constructor
        · rintro ⟨j, hj, hf⟩
          by_cases hij : i = j
          · subst hij
            rw [hg] at hj
            exact .inr (key_inj (Option.some.inj hj).symm)
          · rw [List.getElem?_set_ne hij] at hf
            exact .inl ⟨j, hj, hf⟩
        · rintro (⟨j, hj, hf⟩ | h)
          · refine ⟨j, hj, ?_⟩
            by_cases hij : i = j
            · subst hij
              rw [List.getElem?_set_self (by omega)]
            · rw [List.getElem?_set_ne hij, hf]
          · refine ⟨i, ?_, by rw [List.getElem?_set_self (by omega)]⟩
            rw [hg]
            rcases h with ⟨rfl, rfl⟩ | ⟨rfl, rfl⟩
            · rfl
            · rw [key_comm]
      rw [hset]
      tauto

theorem joined_replicate {m : Nat} {u v : Nat} : ¬ Joined edges (List.replicate m 0) u v := by
  rintro ⟨i, _, h⟩
  simp [List.getElem?_replicate] at h

theorem clean_none {bc : Nat → Bool} : ∀ {l : List Nat}, (clean bc l).2 = none → (clean bc l).1 = l ∧ ∀ x ∈ l, bc x = false
  | [] => by simp [clean]
  | p :: ps => by
      intro h
      simp only [clean] at h ⊢
      by_cases hp : bc p = true
      · simp [hp] at h
      · simp only [hp] at h ⊢
        have := clean_none (l := ps) (by simpa using h)
        simpa [this.1, hp] using this.2

theorem clean_some {bc : Nat → Bool} {v : Nat} : ∀ {l : List Nat}, (clean bc l).2 = some v →
    ∃ q r, (clean bc l).1 = q ++ [v] ∧ l = q ++ v :: r ∧ bc v = true ∧ ∀ x ∈ q, bc x = false
  | [] => by simp [clean]
  | p :: ps => by
      intro h
      simp only [clean] at h ⊢
      by_cases hp : bc p = true
      · simp only [hp, if_true, Option.some.injEq] at h
        subst h
        exact ⟨[], ps, by simp [hp], by simp, hp, by simp⟩
      · simp only [hp] at h ⊢
        obtain ⟨q, r, h1, h2, h3, h4⟩ := clean_some (l := ps) (by simpa using h)
        exact ⟨p :: q, r, by simp [h1], by simp [h2], h3, by simpa [hp] using h4⟩

theorem clean_isSome {bc : Nat → Bool} {l : List Nat} {x : Nat} (hx : x ∈ l) (hb : bc x = true) : ∃ v, (clean bc l).2 = some v := by
  cases h : (clean bc l).2 with
  | some v => exact ⟨v, rfl⟩
  | none =>
      have := (clean_none h).2 x hx
      simp [hb] at this

/-- What is known when the first vertex has been found. -/
structure Good (edges : List (Nat × Nat)) (bc : Nat → Bool) (start v : Nat) (f : List Nat) : Prop where
  len : f.length = edges.length
  bdry : bc v = true
  first : OnCurve edges f v
  cur : OnCurve edges f start
  only : ∀ u, OnCurve edges f u → bc u = true → u = v
  linked : ∀ u, OnCurve edges f u → Relation.ReflTransGen (Joined edges f) start u

theorem linked_symm {f : List Nat} {u v : Nat} (h : Relation.ReflTransGen (Joined edges f) u v) :
    Relation.ReflTransGen (Joined edges f) v u := by
  induction h with
  | refl => exact .refl
  | tail _ hbc ih => exact .head (joined_symm hbc) ih

theorem isPath_mem {path : List Nat} {s t : Nat} (h : IsPath edges path s t) : s ∈ path ∧ t ∈ path :=
  ⟨List.mem_of_mem_head? h.2.1, List.mem_of_mem_getLast? h.2.2⟩

theorem good_step (hE : Edges edges) {bc : Nat → Bool} {start v c : Nat} {f path : List Nat} (hg : Good edges bc start v f)
    (hp : IsPath edges path start c) (hne : start ≠ c) (hb : path.any bc = false) :
    ∃ f', markPath edges path f = .ok f' ∧ Good edges bc c v f' := by
  obtain ⟨f', h1, h2, h3⟩ := markPath_ok hE path f hg.len hp.1
  obtain ⟨hs, ht⟩ := isPath_mem hp
  have hlen : 2 ≤ path.length := by
    match path, hs, ht with
    | [], hs, _ => simp at hs
    | [a], hs, ht => simp at hs ht; omega
    | _ :: _ :: _, _, _ => simp
  have hon : ∀ u, OnCurve edges f' u ↔ OnCurve edges f u ∨ u ∈ path := by
    intro u
    constructor
    · rintro ⟨w, hw⟩
      rcases (h3 u w).1 hw with h | h
      · exact .inl ⟨w, h⟩
      · exact .inr (consecutive_mem h)
    · rintro (⟨w, hw⟩ | h)
      · exact ⟨w, (h3 u w).2 (.inl hw)⟩
      · obtain ⟨w, hw⟩ := exists_consecutive path hlen u h
        exact ⟨w, (h3 u w).2 (.inr hw)⟩
  have hpath : ∀ x ∈ path, Relation.ReflTransGen (Joined edges f') start x := fun x hx =>
    linked_mono (fun a b hab => (h3 a b).2 (.inr hab)) (path_linked path start hp.2.1 x hx)
  have hall : ∀ u, OnCurve edges f' u → Relation.ReflTransGen (Joined edges f') start u := by
    intro u hu
    rcases (hon u).1 hu with h | h
    · exact linked_mono (fun a b hab => (h3 a b).2 (.inl hab)) (hg.linked u h)
    · exact hpath u h
  refine ⟨f', h1, h2, hg.bdry, (hon v).2 (.inl hg.first), (hon c).2 (.inr ht), ?_, ?_⟩
  · intro u hu hbu
    rcases (hon u).1 hu with h | h
    · exact hg.only u h hbu
    · simp only [List.any_eq_false] at hb
      exact absurd hbu (hb u h)
  · intro u hu
    exact (linked_symm (hpath c ht)).trans (hall u hu)

theorem good_first (hE : Edges edges) {bc : Nat → Bool} {start c : Nat} {path : List Nat} (hs : bc start = true)
    (hp : IsPath edges path start c) (hc : bc c = false) :
    ∃ f' v, markPath edges (clean bc path.reverse).1 (List.replicate edges.length 0) = .ok f' ∧
      (clean bc path.reverse).2 = some v ∧ Good edges bc c v f' := by
  obtain ⟨hsm, htm⟩ := isPath_mem hp
  obtain ⟨v, hv⟩ := clean_isSome (l := path.reverse) (by simpa using hsm) hs
  obtain ⟨q, r, hq, hl, hbv, hin⟩ := clean_some hv
  have hrev : path.reverse.IsChain (Adjacent edges) := by
    rw [List.isChain_reverse]
    exact hp.1.imp (fun _ _ h => adj_symm h)
  have hpc : (q ++ [v]).IsChain (Adjacent edges) := by
    rw [hl, show q ++ v :: r = (q ++ [v]) ++ r by simp] at hrev
    exact hrev.left_of_append
  have hhead : path.reverse.head? = some c := by rw [List.head?_reverse]; exact hp.2.2
  obtain ⟨q', rfl⟩ : ∃ q', q = c :: q' := by
    cases q with
    | nil =>
        rw [hl] at hhead
        simp at hhead
        rw [hhead, hc] at hbv
        cases hbv
    | cons a q' =>
        rw [hl] at hhead
        simp at hhead
        exact ⟨q', by rw [hhead]⟩
  obtain ⟨f', h1, h2, h3⟩ := markPath_ok hE (c :: q' ++ [v]) (List.replicate edges.length 0) (by simp) hpc
  have hj : ∀ u w, Joined edges f' u w ↔ Consecutive (c :: q' ++ [v]) u w := by
    intro u w
    rw [h3]
    simp [joined_replicate]
  have hon : ∀ u, OnCurve edges f' u ↔ u ∈ c :: q' ++ [v] := by
    intro u
    constructor
    · rintro ⟨w, hw⟩
      exact consecutive_mem ((hj u w).1 hw)
    · intro h
      obtain ⟨w, hw⟩ := exists_consecutive (c :: q' ++ [v]) (by simp) u h
      exact ⟨w, (hj u w).2 hw⟩
  refine ⟨f', v, by rw [hq]; exact h1, hv, h2, hbv, (hon v).2 (by simp), (hon c).2 (by simp), ?_, ?_⟩
  · intro u hu hbu
    have := (hon u).1 hu
    rcases List.mem_append.1 this with h | h
    · rw [hin u h] at hbu
      cases hbu
    · simpa using h
  · intro u hu
    exact linked_mono (fun a b hab => (hj a b).2 hab)
      (path_linked (c :: q' ++ [v]) c (by simp) u ((hon u).1 hu))

theorem walk_good (hE : Edges edges) {sp : Nat → Nat → Py (List Nat)} (hsp : FindsPaths edges sp) {bc : Nat → Bool} :
    ∀ (cs : List Nat) (start v : Nat) (n : Int) (f g : List Nat) (o : Option Nat), Good edges bc start v f →
      walk edges sp bc cs start (some v) n f = .ok (g, o) → o = some v ∧ ∃ s, Good edges bc s v g
  | [], start, v, n, f, g, o, hg, h => by
      simp only [walk] at h
      split at h
      · cases h
        exact ⟨rfl, start, hg⟩
      · cases h
  | c :: cs, start, v, n, f, g, o, hg, h => by
      simp only [walk] at h
      split at h
      · cases h
        exact ⟨rfl, start, hg⟩
      · split at h
        · rename_i hc
          cases hs : sp start c with
          | error e => simp [hs] at h
          | ok path =>
              simp only [hs] at h
              split at h
              · exact walk_good hE hsp cs start v n f g o hg h
              · rename_i hb
                obtain ⟨f', h1, h2⟩ := good_step hE hg (hsp _ _ _ hs) hc.1 (by simpa using hb)
                simp only [h1] at h
                exact walk_good hE hsp cs c v (n - 1) f' g o h2 h
        · exact walk_good hE hsp cs start v n f g o hg h

theorem walk_first (hE : Edges edges) {sp : Nat → Nat → Py (List Nat)} (hsp : FindsPaths edges sp) {bc : Nat → Bool} {start : Nat}
    (hs : bc start = true) :
    ∀ (cs : List Nat) (n : Int) (g : List Nat) (o : Option Nat), n ≠ 0 →
      walk edges sp bc cs start none n (List.replicate edges.length 0) = .ok (g, o) →
      ∃ v s, o = some v ∧ Good edges bc s v g
  | [], n, g, o, hn, h => by simp [walk, hn] at h
  | c :: cs, n, g, o, hn, h => by
      simp only [walk, hn, if_false] at h
      split at h
      · rename_i hc
        cases hsc : sp start c with
        | error e => simp [hsc] at h
        | ok path =>
            simp only [hsc] at h
            obtain ⟨f', v, h1, h2, h3⟩ := good_first hE hs (hsp _ _ _ hsc) hc.2
            simp only [h1, h2] at h
            obtain ⟨ho, s, hg⟩ := walk_good hE hsp cs c v (n - 1) f' g o h3 h
            exact ⟨v, s, ho, hg⟩
      · exact walk_first hE hsp hs cs n g o hn h

theorem used_iff {f : List Nat} {v : Nat} : used edges f v = true ↔ OnCurve edges f v := by
  simp only [used, List.any_eq_true, Bool.and_eq_true, Bool.or_eq_true, beq_iff_eq]
  constructor
  · rintro ⟨⟨⟨a, b⟩, m⟩, hm, h1, h2⟩
    obtain ⟨i, hi⟩ := List.getElem?_of_mem hm
    rw [List.getElem?_zip_eq_some] at hi
    simp only at h1 h2 hi
    subst h1
    rcases h2 with rfl | rfl
    · exact ⟨b, i, .inl hi.1, hi.2⟩
    · exact ⟨a, i, .inr hi.1, hi.2⟩
  · rintro ⟨w, i, h | h, hf⟩
    · exact ⟨((v, w), 1), List.mem_of_getElem? (i := i) (by rw [List.getElem?_zip_eq_some]; exact ⟨h, hf⟩), rfl, .inl rfl⟩
    · exact ⟨((w, v), 1), List.mem_of_getElem? (i := i) (by rw [List.getElem?_zip_eq_some]; exact ⟨h, hf⟩), rfl, .inr rfl⟩

theorem walk_zero (sp : Nat → Nat → Py (List Nat)) (bc : Nat → Bool) (cs : List Nat) (start : Nat) (first : Option Nat) (f : List Nat) :
    walk edges sp bc cs start first 0 f = .ok (f, first) := by
  cases cs <;> simp [walk]

theorem walk_neg (sp : Nat → Nat → Py (List Nat)) (bc : Nat → Bool) :
    ∀ (cs : List Nat) (start : Nat) (first : Option Nat) (n : Int) (f : List Nat), n < 0 →
      ∀ r, walk edges sp bc cs start first n f ≠ .ok r
  | [], start, first, n, f, hn, r, h => by
      have : n ≠ 0 := by omega
      simp [walk, this] at h
  | c :: cs, start, first, n, f, hn, r, h => by
      have h0 : n ≠ 0 := by omega
      simp only [walk, h0, if_false] at h
      split at h
      · split at h
        · cases h
        · split at h
          · split at h
            · cases h
            · exact walk_neg sp bc cs _ _ _ _ (by omega) _ h
          · split at h
            · exact walk_neg sp bc cs _ _ _ _ hn _ h
            · split at h
              · cases h
              · exact walk_neg sp bc cs _ _ _ _ (by omega) _ h
      · exact walk_neg sp bc cs _ _ _ _ hn _ h

theorem walk_stuck (sp : Nat → Nat → Py (List Nat)) {bc : Nat → Bool} {w : Nat} (hw : ∀ u, bc u = false → u = w) :
    ∀ (cs : List Nat) (first : Option Nat) (n : Int) (f : List Nat), n ≠ 0 →
      walk edges sp bc cs w first n f = .error .outOfFuel
  | [], first, n, f, hn => by simp [walk, hn]
  | c :: cs, first, n, f, hn => by
      have : ¬ (w ≠ c ∧ bc c = false) := fun h => h.1 (hw c h.2).symm
      simp only [walk, hn, if_false, this]
      exact walk_stuck sp hw cs first n f hn

theorem walk_one (sp : Nat → Nat → Py (List Nat)) {bc : Nat → Bool} {w : Nat} (hw : ∀ u, bc u = false → u = w) :
    ∀ (cs : List Nat) (start : Nat) (first : Option Nat) (n : Int) (f : List Nat), n ≠ 0 → n ≠ 1 →
      ∀ r, walk edges sp bc cs start first n f ≠ .ok r
  | [], start, first, n, f, hn, _, r, h => by simp [walk, hn] at h
  | c :: cs, start, first, n, f, hn, h1, r, h => by
      have hn' : n - 1 ≠ 0 := by omega
      simp only [walk, hn, if_false] at h
      split at h
      · rename_i hc
        obtain rfl := hw c hc.2
        split at h
        · cases h
        · split at h
          · split at h
            · cases h
            · rw [walk_stuck sp hw _ _ _ _ hn'] at h
              cases h
          · split at h
            · exact walk_one sp hw cs _ _ _ _ hn h1 _ h
            · split at h
              · cases h
              · rw [walk_stuck sp hw _ _ _ _ hn'] at h
                cases h
      · exact walk_one sp hw cs _ _ _ _ hn h1 _ h

theorem walk_back (hE : Edges edges) {sp : Nat → Nat → Py (List Nat)} (hsp : FindsPaths edges sp) {bc : Nat → Bool} :
    ∀ (n : Nat) (a b v : Nat) (f pa pb : List Nat), Good edges bc a v f → a ≠ b → bc a = false → bc b = false →
      sp a b = .ok pa → pa.any bc = false → sp b a = .ok pb → pb.any bc = false →
      ∃ cs r, walk edges sp bc cs a (some v) (n : Int) f = .ok r
  | 0, a, b, v, f, pa, pb, _, _, _, _, _, _, _, _ => ⟨[], (f, some v), by simp [walk]⟩
  | n + 1, a, b, v, f, pa, pb, hg, hne, ha, hb, h1, h2, h3, h4 => by
      obtain ⟨f', hf, hg'⟩ := good_step hE hg (hsp _ _ _ h1) hne h2
      obtain ⟨cs, r, hr⟩ := walk_back hE hsp n b a v f' pb pa hg' (Ne.symm hne) hb ha h3 h4 h1 h2
      refine ⟨b :: cs, r, ?_⟩
      have h0 : ((n + 1 : Nat) : Int) ≠ 0 := by omega
      have hs : ((n + 1 : Nat) : Int) - 1 = n := by omega
      simp only [walk, h0, if_false, hb, h1, h2, hf, hs]
      simpa [hne] using hr

theorem selectPaths_ok (hE : Edges edges) {sp : Nat → Nat → Py (List Nat)} (hsp : FindsPaths edges sp) :
    ∀ (pairs : List (Nat × Nat)) (f : List Nat), f.length = edges.length →
      (∀ p ∈ pairs, p.1 ≠ p.2 → ∃ path, sp p.1 p.2 = .ok path) →
      ∃ f', selectPaths edges sp pairs f = .ok f' ∧ ∀ u v, Joined edges f' u v ↔ Joined edges f u v ∨
        ∃ p ∈ pairs, p.1 ≠ p.2 ∧ ∃ path, sp p.1 p.2 = .ok path ∧ Consecutive path u v
  | [], f, _, _ => ⟨f, rfl, by simp⟩
  | (a, b) :: pairs, f, hl, h => by
      have hrest : ∀ p ∈ pairs, p.1 ≠ p.2 → ∃ path, sp p.1 p.2 = .ok path := fun p hp => h p (by simp [hp])
      by_cases hab : a = b
      · obtain ⟨f', h1, h2⟩ := selectPaths_ok hE hsp pairs f hl hrest
        refine ⟨f', by simp [selectPaths, hab, h1], fun u v => ?_⟩
        rw [h2]
        simp [hab]
      · obtain ⟨path, hpath⟩ := h (a, b) (by simp) hab
        simp only at hpath
        obtain ⟨f1, hf1, hl1, hj1⟩ := markPath_ok hE path f hl (hsp _ _ _ hpath).1
        obtain ⟨f', h1, h2⟩ := selectPaths_ok hE hsp pairs f1 hl1 hrest
        refine ⟨f', by simp [selectPaths, hab, hpath, hf1, h1], fun u v => ?_⟩
        rw [h2, hj1]
        simp [hab, hpath, or_assoc]

theorem selectPaths_fail {sp : Nat → Nat → Py (List Nat)} :
    ∀ (pairs : List (Nat × Nat)) (f f' : List Nat), selectPaths edges sp pairs f = .ok f' →
      ∀ p ∈ pairs, p.1 ≠ p.2 → ∃ path, sp p.1 p.2 = .ok path
  | [], f, f', _, p, hp => by simp at hp
  | (a, b) :: pairs, f, f', h, p, hp => by
      intro hne
      simp only [selectPaths] at h
      split at h
      · rename_i hab
        rcases List.mem_cons.1 hp with rfl | hp
        · exact absurd hab hne
        · exact selectPaths_fail pairs f f' h p hp hne
      · split at h
        · cases h
        · rename_i path hpath
          split at h
          · cases h
          · rcases List.mem_cons.1 hp with rfl | hp
            · exact ⟨path, hpath⟩
            · exact selectPaths_fail pairs _ f' h p hp hne

end Verif.RandomCurve
