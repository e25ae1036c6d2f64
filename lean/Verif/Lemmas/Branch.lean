import Verif.Spec.Branch
import Verif.Lemmas.Embedded
import Mathlib.Data.Finset.Card
import Mathlib.Tactic.Push
/-!
# Walking along cells
-/
namespace Verif.Branch
open Verif Verif.BlockOps Verif.Embedded

/-- The cells `S` with the incidence lists `inc`. -/
structure Net (c2v : Nat → Nat × Nat) (inc : Nat → List Nat) (S : List Nat) : Prop where
  mem : ∀ v c, c ∈ inc v ↔ c ∈ S ∧ EndOf c2v v c
  nodup : ∀ v, (inc v).Nodup
  ne : ∀ c ∈ S, (c2v c).1 ≠ (c2v c).2

/-- A step of the walk from the cell and its first vertex. -/
def Link (c2v : Nat → Nat × Nat) (inc : Nat → List Nat) (stop : Nat → Bool) (d e : Nat × Nat) : Prop :=
  e.2 = nextVertex c2v d.1 d.2 ∧ stop e.2 = false ∧ e.1 ≠ d.1 ∧ inc e.2 = [d.1, e.1] ∨
  e.2 = nextVertex c2v d.1 d.2 ∧ stop e.2 = false ∧ e.1 ≠ d.1 ∧ inc e.2 = [e.1, d.1]

theorem nextVertex_end (c2v : Nat → Nat × Nat) (c v : Nat) : EndOf c2v (nextVertex c2v c v) c := by
  unfold nextVertex EndOf
  split
  · exact .inr rfl
  · exact .inl rfl

theorem nextVertex_ne {c2v : Nat → Nat × Nat} {c v : Nat} (h : (c2v c).1 ≠ (c2v c).2) :
    nextVertex c2v c v ≠ v := by
  unfold nextVertex
  split
  · rename_i e; rw [e]; exact h.symm
  · rename_i e; exact fun h => e h.symm

theorem end_cases {c2v : Nat → Nat × Nat} {c v w : Nat} (hv : EndOf c2v v c) (hw : EndOf c2v w c) :
    w = v ∨ w = nextVertex c2v c v := by
  unfold nextVertex
  rcases hv with rfl | rfl
  · rw [if_pos rfl]; exact hw
  · split
    · rename_i e
      rcases hw with h | h
      · exact .inl (by rw [h, e])
      · exact .inl h
    · rcases hw with h | h
      · exact .inr h
      · exact .inl h

/-- The walk from a vertex of the cell back. -/
theorem nextVertex_inj {c2v : Nat → Nat × Nat} {c v w : Nat} (hv : EndOf c2v v c) (hw : EndOf c2v w c)
    (hn : (c2v c).1 ≠ (c2v c).2) (h : nextVertex c2v c v = nextVertex c2v c w) : v = w := by
  rcases end_cases hv hw with e | e
  · exact e.symm
  · rw [e] at h
    exact absurd h.symm (by rw [← e]; rw [← e] at h; exact fun _ => nextVertex_ne hn h.symm)

variable {c2v : Nat → Nat × Nat} {inc : Nat → List Nat} {stop : Nat → Bool} {S : List Nat}

/-- A cell with one of its vertices. -/
def Valid (c2v : Nat → Nat × Nat) (S : List Nat) (d : Nat × Nat) : Prop := d.1 ∈ S ∧ EndOf c2v d.2 d.1

theorem Link.valid (hN : Net c2v inc S) {d e : Nat × Nat} (h : Link c2v inc stop d e) : Valid c2v S e := by
  have : e.1 ∈ inc e.2 := by
    rcases h with ⟨_, _, _, h⟩ | ⟨_, _, _, h⟩ <;> rw [h] <;> simp
  exact (hN.mem _ _).1 this

theorem Link.other {d e : Nat × Nat} (h : Link c2v inc stop d e) :
    e.2 = nextVertex c2v d.1 d.2 ∧ stop e.2 = false ∧ e.1 ≠ d.1 ∧ ∀ c, c ∈ inc e.2 ↔ c = d.1 ∨ c = e.1 := by
  rcases h with ⟨a, b, c, h⟩ | ⟨a, b, c, h⟩
  · exact ⟨a, b, c, fun x => by rw [h]; simp⟩
  · exact ⟨a, b, c, fun x => by rw [h]; simp [or_comm]⟩

/-- A chain of steps. -/
structure Chain (c2v : Nat → Nat × Nat) (inc : Nat → List Nat) (stop : Nat → Bool) (S : List Nat)
    (D : List (Nat × Nat)) : Prop where
  link : ∀ (i : Nat) (d e : Nat × Nat), D[i]? = some d → D[i + 1]? = some e → Link c2v inc stop d e
  valid : ∀ d ∈ D, Valid c2v S d
  first : ∀ d, D[0]? = some d → stop d.2 = true

theorem getElem?_prev {α : Type} {l : List α} {i : Nat} {x : α} (h : l[i + 1]? = some x) : ∃ y, l[i]? = some y := by
  have := (List.getElem?_eq_some_iff.1 h).1
  exact ⟨l[i], List.getElem?_eq_getElem (by omega)⟩

theorem Chain.inj (hN : Net c2v inc S) {D : List (Nat × Nat)} (hD : Chain c2v inc stop S D) :
    ∀ (i j : Nat) (d : Nat × Nat), i < j → D[i]? = some d → D[j]? = some d → False := by
  intro i
  induction i with
  | zero =>
      intro j d hij h0 hj
      obtain ⟨j, rfl⟩ := Nat.exists_eq_succ_of_ne_zero (by omega : j ≠ 0)
      obtain ⟨e, he⟩ := getElem?_prev hj
      have h1 := (hD.link j e d he hj).other.2.1
      rw [hD.first d h0] at h1
      simp at h1
  | succ i ih =>
      intro j d hij hi hj
      obtain ⟨j, rfl⟩ := Nat.exists_eq_succ_of_ne_zero (by omega : j ≠ 0)
      obtain ⟨e, he⟩ := getElem?_prev hi
      obtain ⟨f, hf⟩ := getElem?_prev hj
      obtain ⟨a1, _, c1, d1⟩ := (hD.link i e d he hi).other
      obtain ⟨a2, _, c2, d2⟩ := (hD.link j f d hf hj).other
      have hc : f.1 = e.1 := by
        rcases (d1 f.1).1 ((d2 f.1).2 (.inl rfl)) with h | h
        · exact h
        · exact absurd h.symm c2
      have ve := hD.valid e (List.mem_iff_getElem?.2 ⟨i, he⟩)
      have vf := hD.valid f (List.mem_iff_getElem?.2 ⟨j, hf⟩)
      have : f = e := by
        refine Prod.ext hc ?_
        have hv2 := vf.2
        rw [hc] at hv2 a2
        exact nextVertex_inj hv2 ve.2 (hN.ne _ ve.1) (by rw [← a1, ← a2])
      subst this
      exact ih j f (by omega) he hf

/-- No cell is met twice. -/
theorem Chain.cells (hN : Net c2v inc S) {D : List (Nat × Nat)} (hD : Chain c2v inc stop S D) :
    ∀ (n i j : Nat) (d e : Nat × Nat), j - i = n → i < j → D[i]? = some d → D[j]? = some e → d.1 ≠ e.1 := by
  intro n
  induction n using Nat.strong_induction_on with
  | _ n ih =>
      intro i j d e hn hij hi hj hc
      have vd := hD.valid d (List.mem_iff_getElem?.2 ⟨i, hi⟩)
      have ve := hD.valid e (List.mem_iff_getElem?.2 ⟨j, hj⟩)
      obtain ⟨j, rfl⟩ := Nat.exists_eq_succ_of_ne_zero (by omega : j ≠ 0)
      have hrev : e.2 = nextVertex c2v d.1 d.2 := by
        have hv2 := ve.2
        rw [← hc] at hv2
        rcases end_cases vd.2 hv2 with h | h
        · exact absurd (hD.inj hN i (j + 1) d hij hi (by rw [hj]; exact congrArg some (Prod.ext hc.symm h))) not_false
        · exact h
      obtain ⟨f, hf⟩ := getElem?_prev hj
      obtain ⟨a2, _, c2, d2⟩ := (hD.link j f e hf hj).other
      rcases Nat.lt_or_ge i j with h | h
      · have hlt : i + 1 < D.length := by have := (List.getElem?_eq_some_iff.1 hf).1; omega
        obtain ⟨g, hg⟩ : ∃ g, D[i + 1]? = some g := ⟨D[i + 1], List.getElem?_eq_getElem hlt⟩
        obtain ⟨a1, _, c1, d1⟩ := (hD.link i d g hi hg).other
        have hge : g.2 = e.2 := by rw [a1, hrev]
        have hfg : g.1 = f.1 := by
          have := (d1 f.1).1 (by rw [hge]; exact (d2 f.1).2 (.inl rfl))
          rcases this with h | h
          · exact absurd (h.trans hc) (fun h => c2 h.symm)
          · exact h.symm
        rcases Nat.lt_or_ge (i + 1) j with h' | h'
        · exact ih (j - (i + 1)) (by omega) (i + 1) j g f rfl h' hg hf hfg
        · have : j = i + 1 := by omega
          subst this
          rw [hg] at hf
          obtain rfl := Option.some.inj hf
          have vg := hD.valid g (List.mem_iff_getElem?.2 ⟨_, hg⟩)
          exact nextVertex_ne (hN.ne _ vg.1) (by rw [← a2, ← hge])
      · have : i = j := by omega
        subst this
        rw [hi] at hf
        obtain rfl := Option.some.inj hf
        exact c2 hc.symm

theorem Chain.nodup (hN : Net c2v inc S) {D : List (Nat × Nat)} (hD : Chain c2v inc stop S D) :
    (D.map (fun d => d.1)).Nodup := by
  rw [List.Nodup, List.pairwise_iff_getElem]
  intro i j hi hj hij
  rw [List.length_map] at hi hj
  rw [List.getElem_map, List.getElem_map]
  exact hD.cells hN _ i j _ _ rfl hij (List.getElem?_eq_getElem hi) (List.getElem?_eq_getElem hj)

theorem Chain.length_le (hN : Net c2v inc S) {D : List (Nat × Nat)} (hD : Chain c2v inc stop S D) :
    D.length ≤ S.length := by
  have h1 := hD.nodup hN
  have h2 : D.map (fun d => d.1) ⊆ S := by
    intro c hc
    obtain ⟨d, hd, rfl⟩ := List.mem_map.1 hc
    exact (hD.valid d hd).1
  have := (List.subperm_of_subset h1 h2).length_le
  simpa using this

/-- A walk which stops is a chain up to a vertex where it stops. -/
theorem walk_spec (hN : Net c2v inc S) (hstop : ∀ v c, stop v = false → c ∈ inc v → (inc v).length = 2) :
    ∀ (fuel : Nat) (d : Nat × Nat), Valid c2v S d →
      (∃ D, walk c2v inc stop fuel d.1 d.2 = .ok D ∧ D[0]? = some d ∧
        (∀ (i : Nat) (d e : Nat × Nat), D[i]? = some d → D[i + 1]? = some e → Link c2v inc stop d e) ∧
        (∀ d ∈ D, Valid c2v S d) ∧ ∃ l, D.getLast? = some l ∧ stop (nextVertex c2v l.1 l.2) = true) ∨
      (∃ D : List (Nat × Nat), walk c2v inc stop fuel d.1 d.2 = .error .outOfFuel ∧ D[0]? = some d ∧ D.length = fuel + 1 ∧
        (∀ (i : Nat) (d e : Nat × Nat), D[i]? = some d → D[i + 1]? = some e → Link c2v inc stop d e) ∧
        (∀ d ∈ D, Valid c2v S d)) := by
  intro fuel
  induction fuel with
  | zero =>
      intro d hd
      refine .inr ⟨[d], rfl, rfl, rfl, ?_, by simpa using hd⟩
      intro i a b _ h
      simp at h
  | succ n ih =>
      intro d hd
      unfold walk
      by_cases hs : stop (nextVertex c2v d.1 d.2) = true
      · rw [if_pos hs]
        refine .inl ⟨[d], rfl, rfl, ?_, by simpa using hd, d, rfl, hs⟩
        intro i a b _ h
        simp at h
      · rw [if_neg hs]
        have hs' : stop (nextVertex c2v d.1 d.2) = false := by simpa using hs
        have hmem : d.1 ∈ inc (nextVertex c2v d.1 d.2) := (hN.mem _ _).2 ⟨hd.1, nextVertex_end _ _ _⟩
        have h2 := hstop _ _ hs' hmem
        have hnd := hN.nodup (nextVertex c2v d.1 d.2)
        obtain ⟨c, hc, hl⟩ : ∃ c, nextCell (inc (nextVertex c2v d.1 d.2)) d.1 = .ok c ∧
            Link c2v inc stop d (c, nextVertex c2v d.1 d.2) := by
          rcases hl : inc (nextVertex c2v d.1 d.2) with _ | ⟨a, _ | ⟨b, _ | ⟨x, t⟩⟩⟩
          · rw [hl] at h2; simp at h2
          · rw [hl] at h2; simp at h2
          · rw [hl] at hmem hnd
            have hab : a ≠ b := by simpa using hnd
            by_cases h : d.1 = a
            · refine ⟨b, by rw [nextCell, if_pos h], .inl ⟨rfl, hs', ?_, ?_⟩⟩
              · rw [h]; exact fun h => hab h.symm
              · rw [h]; exact h ▸ hl
            · have hb : d.1 = b := by simpa [h] using hmem
              refine ⟨a, by rw [nextCell, if_neg h], .inr ⟨rfl, hs', fun e => h e.symm, ?_⟩⟩
              rw [hb]; exact hb ▸ hl
          · rw [hl] at h2; simp at h2
        rw [hc, py_bind_ok]
        have hv := hl.valid hN
        have hlink : ∀ D : List (Nat × Nat), D[0]? = some (c, nextVertex c2v d.1 d.2) →
            (∀ (i : Nat) (d e : Nat × Nat), D[i]? = some d → D[i + 1]? = some e → Link c2v inc stop d e) →
            ∀ (i : Nat) (a e : Nat × Nat), (d :: D)[i]? = some a → (d :: D)[i + 1]? = some e → Link c2v inc stop a e := by
          intro D h0 h i a e ha he
          cases i with
          | zero =>
              rw [List.getElem?_cons_zero] at ha
              rw [List.getElem?_cons_succ, h0] at he
              obtain rfl := Option.some.inj ha
              obtain rfl := Option.some.inj he
              exact hl
          | succ i =>
              rw [List.getElem?_cons_succ] at ha he
              exact h i a e ha he
        rcases ih (c, nextVertex c2v d.1 d.2) hv with ⟨D, e, h0, h1, h3, l, h4, h5⟩ | ⟨D, e, h0, h1, h3, h4⟩
        · refine .inl ⟨d :: D, by rw [e, py_bind_ok], rfl, hlink D h0 h1, ?_, l, ?_, h5⟩
          · intro x hx
            rcases List.mem_cons.1 hx with rfl | hx
            · exact hd
            · exact h3 x hx
          · rw [List.getLast?_cons, h4]; rfl
        · refine .inr ⟨d :: D, by rw [e, py_bind_error], rfl, by simp [h1], hlink D h0 h3, ?_⟩
          intro x hx
          rcases List.mem_cons.1 hx with rfl | hx
          · exact hd
          · exact h4 x hx

/-- A walk which starts at a vertex where it would stop ends. -/
theorem walk_ok (hN : Net c2v inc S) (hstop : ∀ v c, stop v = false → c ∈ inc v → (inc v).length = 2)
    {fuel : Nat} (hf : S.length ≤ fuel) {d : Nat × Nat} (hd : Valid c2v S d) (h0 : stop d.2 = true) :
    ∃ D, walk c2v inc stop fuel d.1 d.2 = .ok D ∧ Chain c2v inc stop S D ∧ D[0]? = some d ∧
      ∃ l, D.getLast? = some l ∧ stop (nextVertex c2v l.1 l.2) = true := by
  rcases walk_spec hN hstop fuel d hd with ⟨D, e, h1, h2, h3, h4⟩ | ⟨D, e, h1, h2, h3, h4⟩
  · refine ⟨D, e, ⟨h2, h3, ?_⟩, h1, h4⟩
    intro x hx
    rw [h1] at hx
    obtain rfl := Option.some.inj hx
    exact h0
  · have : Chain c2v inc stop S D := by
      refine ⟨h3, h4, ?_⟩
      intro x hx
      rw [h1] at hx
      obtain rfl := Option.some.inj hx
      exact h0
    have := this.length_le hN
    omega

/-- The vertices of the cells of a complete chain: the first one, the last one, and those passed. -/
theorem Chain.ends {D : List (Nat × Nat)} (hD : Chain c2v inc stop S D)
    {d l : Nat × Nat} (h0 : D[0]? = some d) (hl : D.getLast? = some l) {x : Nat × Nat} (hx : x ∈ D) {v : Nat}
    (hv : EndOf c2v v x.1) :
    (v = d.2 ∧ x = d) ∨ (v = nextVertex c2v l.1 l.2 ∧ x = l) ∨
      (stop v = false ∧ ∀ c ∈ inc v, c ∈ D.map (fun d => d.1)) := by
  obtain ⟨i, hi⟩ := List.mem_iff_getElem?.1 hx
  have hmem : ∀ (i : Nat) (y : Nat × Nat), D[i]? = some y → y.1 ∈ D.map (fun d => d.1) :=
    fun i y hy => List.mem_map.2 ⟨y, List.mem_iff_getElem?.2 ⟨i, hy⟩, rfl⟩
  rcases end_cases (hD.valid x hx).2 hv with rfl | rfl
  · cases i with
    | zero =>
        rw [h0] at hi
        obtain rfl := Option.some.inj hi
        exact .inl ⟨rfl, rfl⟩
    | succ i =>
        obtain ⟨y, hy⟩ := getElem?_prev hi
        obtain ⟨_, b, _, e⟩ := (hD.link i y x hy hi).other
        refine .inr (.inr ⟨b, fun c hc => ?_⟩)
        rcases (e c).1 hc with rfl | rfl
        · exact hmem i y hy
        · exact hmem _ x hi
  · rcases Nat.lt_or_ge (i + 1) D.length with h | h
    · obtain ⟨y, hy⟩ : ∃ y, D[i + 1]? = some y := ⟨D[i + 1], List.getElem?_eq_getElem h⟩
      obtain ⟨a, b, _, e⟩ := (hD.link i x y hi hy).other
      rw [a] at b e
      refine .inr (.inr ⟨b, fun c hc => ?_⟩)
      rcases (e c).1 hc with rfl | rfl
      · exact hmem i x hi
      · exact hmem _ y hy
    · have hlen := (List.getElem?_eq_some_iff.1 hi).1
      rw [List.getLast?_eq_getElem?, show D.length - 1 = i by omega, hi] at hl
      obtain rfl := Option.some.inj hl
      exact .inr (.inl ⟨rfl, rfl⟩)

end Verif.Branch
