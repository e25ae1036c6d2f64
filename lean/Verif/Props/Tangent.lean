import Verif.Lemmas.Tangent
import Mathlib.Tactic.FinCases
import Mathlib.Tactic.NormNum
/-!
# C64: tangents and normals of curves
-/
namespace Verif.Tangent
open Verif Matrix
variable {d : Nat}

/-- C64.  The tangents of all curves are unit vectors which lead from one end point of the cell to the other. -/
theorem tangent_unit {G : Curve d} (hG : G.Ok) {dfs : Nat → List (Nat × Nat)} (hd : ∀ r, Terminal G r → IsDfs G r (dfs r))
    {root : Option Nat} (hr : ∀ r, root = some r → Terminal G r) :
    ∃ ts, tangentCurve G dfs root = .ok ts ∧ ts.length = G.cells.length ∧
      ∀ (i : Nat) t, ts[i]? = some t → ∃ a b, Runs G i a b t := by
  have key : ∃ vals, visited G dfs root = .ok vals ∧ vals.length = G.cells.length ∧
      ∀ (i : Nat) t, vals[i]? = some (some t) → ∃ a b, Runs G i a b t := by
    unfold visited
    by_cases he : G.roots.isEmpty
    · rw [if_pos he]
      refine ⟨_, rfl, by simp, fun i t h => ?_⟩
      rw [List.getElem?_replicate] at h
      split at h <;> simp at h
    · rw [if_neg he]
      obtain ⟨r, h1, h2, -⟩ := chooseRoot_mem (roots := G.roots) (root := root) (by simpa using he)
        (fun r h => mem_roots.2 (hr r h))
      have hD := hd r (mem_roots.1 h2)
      obtain ⟨vals, h3, h4, h5, h6⟩ := visit_spec hG (dfs r) (List.replicate G.cells.length none) hD.edge (dfs_pairwise hD)
      refine ⟨vals, ?_, by simpa using h4, fun i t h => ?_⟩
      · rw [h1]
        exact h3
      · by_cases hi : ∃ e ∈ dfs r, Joins G i e.1 e.2
        · obtain ⟨e, he, hj⟩ := hi
          rw [h6 i e he hj (by simpa using joins_lt hj)] at h
          injection h with h
          injection h with h
          subst h
          exact ⟨_, _, direction_runs hG hj⟩
        · rw [h5 i (fun e he hj => hi ⟨e, he, hj⟩), List.getElem?_replicate] at h
          split at h <;> simp at h
  obtain ⟨vals, h1, h2, h3⟩ := key
  refine ⟨List.zipWith (fun c v => v.getD (direction G c.1 c.2)) G.cells vals, ?_, ?_, ?_⟩
  · unfold tangentCurve
    rw [h1]
    rfl
  · simp [h2]
  · intro i t h
    rw [List.getElem?_zipWith] at h
    rcases hc : G.cells[i]? with _ | c
    · rw [hc] at h; simp at h
    · rcases hv : vals[i]? with _ | v
      · rw [hc, hv] at h; simp at h
      · rw [hc, hv] at h
        injection h with h
        rcases v with _ | v
        · subst h
          exact ⟨c.1, c.2, direction_runs hG (.inl hc)⟩
        · exact h ▸ h3 i v hv

/-- C64.  On curves without loops the tangents lead away from the root: no tangent enters the root and exactly one enters each
    other vertex. -/
theorem tangent_tree_partial {G : Curve d} (hG : G.Ok) (ht : Tree G) {dfs : Nat → List (Nat × Nat)}
    (hd : ∀ r, Terminal G r → IsDfs G r (dfs r)) (he : ∃ r, Terminal G r) {root : Option Nat} (hr : ∀ r, root = some r → Terminal G r) :
    ∃ r ts, tangentCurve G dfs root = .ok ts ∧ Terminal G r ∧ (∀ r', root = some r' → r = r') ∧ (∀ i, ¬ Enters G ts r i) ∧
      ∀ v, v < G.X.length → v ≠ r → ∃! i, Enters G ts v i := by
  have hne : G.roots ≠ [] := by
    obtain ⟨r, h⟩ := he
    exact List.ne_nil_of_mem (mem_roots.2 h)
  obtain ⟨r, h1, h2, h2'⟩ := chooseRoot_mem (root := root) hne (fun r h => mem_roots.2 (hr r h))
  have hr' := mem_roots.1 h2
  have hD := hd r hr'
  obtain ⟨vals, h3, h4, -, h6⟩ := visit_spec hG (dfs r) (List.replicate G.cells.length none) hD.edge (dfs_pairwise hD)
  obtain ⟨c1, c2⟩ := tree_covers ht hG hr'.1 hD
  rw [List.length_replicate] at h4 h6
  have hval : ∀ (i : Nat) e, e ∈ dfs r → Joins G i e.1 e.2 →
      (List.zipWith (fun c v => v.getD (direction G c.1 c.2)) G.cells vals)[i]? = some (direction G e.1 e.2) := by
    intro i e hm hj
    rw [List.getElem?_zipWith, h6 i e hm hj (joins_lt hj), List.getElem?_eq_getElem (joins_lt hj)]
    rfl
  have hent : ∀ v i, Enters G (List.zipWith (fun c v => v.getD (direction G c.1 c.2)) G.cells vals) v i →
      ∃ e ∈ dfs r, Joins G i e.1 e.2 ∧ e.2 = v := by
    rintro v i ⟨a, t, hti, hrun⟩
    obtain ⟨e, hm, hj⟩ := c2 i (joins_lt hrun.1)
    rw [hval i e hm hj] at hti
    injection hti with hti
    subst hti
    exact ⟨e, hm, hj, (runs_unique (direction_runs hG hj) hrun).2.symm⟩
  refine ⟨r, List.zipWith (fun c v => v.getD (direction G c.1 c.2)) G.cells vals, ?_, hr', h2', ?_, ?_⟩
  · unfold tangentCurve visited
    rw [if_neg (by simpa using hne), h1]
    dsimp only [bind, Except.bind]
    rw [h3]
  · intro i h
    obtain ⟨e, hm, -, rfl⟩ := hent _ _ h
    exact hD.start (List.mem_map.2 ⟨e, hm, rfl⟩)
  · intro v hv hvr
    rcases c1 v hv with h | h
    · exact absurd h hvr
    obtain ⟨e, hm, rfl⟩ := List.mem_map.1 h
    obtain ⟨i, hi⟩ := hD.edge e hm
    refine ⟨i, ⟨e.1, _, hval i e hm hi, direction_runs hG hi⟩, fun j hj => ?_⟩
    obtain ⟨f, hf, hfj, hfe⟩ := hent _ _ hj
    have : f = e := List.inj_on_of_nodup_map hD.children hf hm hfe
    subst this
    exact hG.simple _ _ _ _ hfj hi

/-- C64.  On curves with ends only an end is accepted as the root. -/
theorem root_refused {G : Curve d} (he : ∃ v, Terminal G v) {r : Nat} (hr : ¬ Terminal G r) (dfs : Nat → List (Nat × Nat)) :
    tangentCurve G dfs (some r) = .error .assertion := by
  have hne : G.roots ≠ [] := by
    obtain ⟨v, h⟩ := he
    exact List.ne_nil_of_mem (mem_roots.2 h)
  unfold tangentCurve visited
  rw [if_neg (by simpa using hne)]
  unfold chooseRoot
  dsimp only
  rw [decide_eq_false (fun h => hr (mem_roots.1 h))]
  rfl

/-- C64.  At a vertex between two cells of a curve without loops the tangent of one cell enters and that of the other leaves. -/
theorem tangent_consistent {G : Curve d} (hG : G.Ok) (ht : Tree G) {dfs : Nat → List (Nat × Nat)}
    (hd : ∀ r, Terminal G r → IsDfs G r (dfs r)) (he : ∃ r, Terminal G r) {root : Option Nat} (hr : ∀ r, root = some r → Terminal G r) :
    ∃ ts, tangentCurve G dfs root = .ok ts ∧ ∀ v i j a b, i ≠ j → Joins G i v a → Joins G j v b →
      (∀ k c, Joins G k v c → k = i ∨ k = j) → (Enters G ts v i ∧ Leaves G ts v j) ∨ (Enters G ts v j ∧ Leaves G ts v i) := by
  obtain ⟨r, ts, h1, ⟨-, k, -, hk⟩, -, -, h4⟩ := tangent_tree_partial hG ht hd he hr
  obtain ⟨ts', h1', hlen, hu⟩ := tangent_unit hG hd hr
  rw [h1] at h1'
  injection h1' with h1'
  subst h1'
  have side : ∀ v i a, Joins G i v a → Enters G ts v i ∨ Leaves G ts v i := by
    intro v i a hi
    have hl : i < ts.length := by rw [hlen]; exact joins_lt hi
    obtain ⟨p, q, hrun⟩ := hu i _ (List.getElem?_eq_getElem hl)
    rcases joins_ends hrun.1 hi with ⟨rfl, -⟩ | ⟨rfl, -⟩
    · exact .inr ⟨_, _, List.getElem?_eq_getElem hl, hrun⟩
    · exact .inl ⟨_, _, List.getElem?_eq_getElem hl, hrun⟩
  refine ⟨ts, h1, fun v i j a b hij hi hj hk' => ?_⟩
  have hv : v ≠ r := by
    rintro rfl
    exact hij ((hk i ⟨a, hi⟩).trans (hk j ⟨b, hj⟩).symm)
  obtain ⟨m, hm, hm'⟩ := h4 v (joins_ok hG hi).1 hv
  have hmj : ∃ c, Joins G m v c := by
    obtain ⟨c, t, -, hrun⟩ := hm
    exact ⟨c, joins_symm hrun.1⟩
  obtain ⟨c, hc⟩ := hmj
  rcases hk' m c hc with rfl | rfl
  · refine .inl ⟨hm, (side v j b hj).resolve_left (fun h => hij (hm' j h).symm)⟩
  · refine .inr ⟨hm, (side v i a hi).resolve_left (fun h => hij (hm' i h))⟩

/-- C64 is false of loops: where the end points of cells are ordered by their numbers, as they are in meshes of dolfin, two
    tangents enter the same vertex. -/
theorem tangent_loop {G : Curve d} (hG : G.Ok) {dfs : Nat → List (Nat × Nat)} (hne : G.cells ≠ []) (hl : ∀ v, ¬ Terminal G v)
    (ho : ∀ c ∈ G.cells, c.1 < c.2) :
    ∃ ts v i j, tangentCurve G dfs none = .ok ts ∧ i ≠ j ∧ Enters G ts v i ∧ Enters G ts v j ∧ ∀ k, ¬ Leaves G ts v k := by
  have hts := loop_tangents hl dfs
  -- the vertex with the largest number
  obtain ⟨c, hc, hmax⟩ : ∃ c ∈ G.cells, ∀ c' ∈ G.cells, c'.2 ≤ c.2 := by
    obtain ⟨m, hm⟩ := Finset.exists_max_image G.cells.toFinset Prod.snd
      (by simpa [Finset.nonempty_iff_ne_empty] using hne)
    exact ⟨m, by simpa using hm.1, fun c' h => hm.2 c' (by simpa using h)⟩
  have ent : ∀ i a, Joins G i c.2 a → Enters G (G.cells.map (fun c => direction G c.1 c.2)) c.2 i := by
    intro i a hi
    rcases hi with h | h
    · have hm := List.mem_of_getElem? h
      have h1 := ho _ hm
      have h2 := hmax _ hm
      dsimp only at h1 h2
      omega
    · refine ⟨a, direction G a c.2, ?_, direction_runs hG (.inl h)⟩
      rw [List.getElem?_map, h]
      rfl
  obtain ⟨i, hi⟩ := List.getElem?_of_mem hc
  have hij : Joins G i c.2 c.1 := .inr hi
  obtain ⟨j, b, hjb, hne'⟩ : ∃ j b, Joins G j c.2 b ∧ j ≠ i := by
    by_contra hcon
    push Not at hcon
    exact hl c.2 ⟨(joins_ok hG hij).1, i, ⟨_, hij⟩, fun j ⟨b, hb⟩ => hcon j b hb⟩
  refine ⟨_, c.2, i, j, hts, hne'.symm, ent i _ hij, ent j b hjb, ?_⟩
  rintro k ⟨b, t, ht, hrun⟩
  obtain ⟨a, t', ht', hrun'⟩ := ent k b hrun.1
  rw [ht] at ht'
  injection ht' with ht'
  subst ht'
  have h := runs_unique hrun hrun'
  have := (joins_ok hG hrun'.1).2.2
  rw [h.1, ← h.2] at *
  exact this rfl

/-- A corner of two cells, used to show that the hypotheses can be met. -/
def corner : Curve 2 := ⟨[![0, 0], ![1, 0], ![1, 1]], [(0, 1), (1, 2)]⟩

theorem corner_joins {i a b : Nat} (h : Joins corner i a b) :
    (i = 0 ∧ ((a = 0 ∧ b = 1) ∨ (a = 1 ∧ b = 0))) ∨ (i = 1 ∧ ((a = 1 ∧ b = 2) ∨ (a = 2 ∧ b = 1))) := by
  have hi := joins_lt h
  simp [corner] at hi
  have : i = 0 ∨ i = 1 := by omega
  rcases this with rfl | rfl
  · have := joins_ends (G := corner) (i := 0) (a := 0) (b := 1) (.inl rfl) h
    omega
  · have := joins_ends (G := corner) (i := 1) (a := 1) (b := 2) (.inl rfl) h
    omega

theorem corner_ok : corner.Ok := by
  refine ⟨?_, ?_, ?_⟩
  · intro c hc
    simp [corner] at hc
    rcases hc with rfl | rfl <;> simp [corner]
  · intro c hc h
    simp [corner] at hc
    rcases hc with rfl | rfl <;> simp [corner] at h
  · intro i j a b h1 h2
    have := corner_joins h1
    have := corner_joins h2
    omega

theorem corner_terminal {r : Nat} (h : Terminal corner r) : r = 0 ∨ r = 2 := by
  obtain ⟨hr, i, -, hu⟩ := h
  simp [corner] at hr
  by_contra hcon
  have : r = 1 := by omega
  subst this
  have h0 := hu 0 ⟨0, .inr rfl⟩
  have h1 := hu 1 ⟨2, .inl rfl⟩
  omega

theorem corner_tree : Tree corner := by
  refine ⟨?_, rfl⟩
  have e : ∀ a b, (a = 1 ∨ b = 1) → a < 3 → b < 3 → Relation.ReflTransGen (fun a b => ∃ i, Joins corner i a b) a b := by
    intro a b h ha hb
    by_cases hab : a = b
    · rw [hab]
    refine Relation.ReflTransGen.single ?_
    have : (a = 0 ∧ b = 1) ∨ (a = 1 ∧ b = 0) ∨ (a = 1 ∧ b = 2) ∨ (a = 2 ∧ b = 1) := by omega
    rcases this with ⟨rfl, rfl⟩ | ⟨rfl, rfl⟩ | ⟨rfl, rfl⟩ | ⟨rfl, rfl⟩
    exacts [⟨0, .inl rfl⟩, ⟨0, .inr rfl⟩, ⟨1, .inl rfl⟩, ⟨1, .inr rfl⟩]
  intro v w hv hw
  simp [corner] at hv hw
  exact (e v 1 (.inr rfl) hv (by omega)).trans (e 1 w (.inl rfl) (by omega) hw)

/-- The searches from the two ends. -/
def cornerDfs (r : Nat) : List (Nat × Nat) := if r = 0 then [(0, 1), (1, 2)] else [(2, 1), (1, 0)]

theorem corner_dfs (r : Nat) (h : Terminal corner r) : IsDfs corner r (cornerDfs r) := by
  have split2 : ∀ {x y e : Nat × Nat} {l r : List (Nat × Nat)}, [x, y] = l ++ e :: r → (l = [] ∧ e = x) ∨ (l = [x] ∧ e = y) := by
    intro x y e l r h
    rcases l with _ | ⟨a, _ | ⟨b, l⟩⟩
    · simp at h; exact .inl ⟨rfl, h.1.symm⟩
    · simp at h; exact .inr ⟨by rw [h.1], h.2.1.symm⟩
    · simp at h
  rcases corner_terminal h with rfl | rfl
  · refine ⟨?_, by decide, by decide, ?_, ?_⟩
    · intro e he
      simp [cornerDfs] at he
      rcases he with rfl | rfl
      exacts [⟨0, .inl rfl⟩, ⟨1, .inl rfl⟩]
    · intro l e r h
      rcases split2 h with ⟨rfl, rfl⟩ | ⟨rfl, rfl⟩ <;> simp
    · intro i a b hj _
      have := corner_joins hj
      simp [cornerDfs]
      omega
  · refine ⟨?_, by decide, by decide, ?_, ?_⟩
    · intro e he
      simp [cornerDfs] at he
      rcases he with rfl | rfl
      exacts [⟨1, .inr rfl⟩, ⟨0, .inr rfl⟩]
    · intro l e r h
      rcases split2 h with ⟨rfl, rfl⟩ | ⟨rfl, rfl⟩ <;> simp
    · intro i a b hj _
      have := corner_joins hj
      simp [cornerDfs]
      omega

theorem corner_end : Terminal corner 2 := mem_roots.1 (by decide +kernel)

example : ∃ ts, tangentCurve corner cornerDfs (some 2) = .ok ts ∧ (Enters corner ts 1 1 ∧ Leaves corner ts 1 0 ∨
    Enters corner ts 1 0 ∧ Leaves corner ts 1 1) := by
  obtain ⟨ts, h1, h2⟩ := tangent_consistent corner_ok corner_tree corner_dfs ⟨2, corner_end⟩ (root := some 2)
    (fun r h => by injection h with h; exact h ▸ corner_end)
  exact ⟨ts, h1, h2 1 1 0 2 0 (by omega) (.inl rfl) (.inr rfl) (fun k c hk => by have := corner_joins hk; omega)⟩

example (dfs : Nat → List (Nat × Nat)) : tangentCurve corner dfs (some 1) = .error .assertion :=
  root_refused ⟨2, corner_end⟩ (fun h => by have := corner_terminal h; omega) dfs

/-! ## Loops in the plane -/

/-- C64.  `wind_number` refuses curves which are not loops. -/
theorem wind_number_refuses {G : Curve 2} (h : ¬ Loop G) (dfs : Nat → List (Nat × Nat)) (I : (ℝ → ℝ) → ℝ) (c : Fin 2 → ℝ) :
    windNumber G dfs I c = .error .assertion := by
  unfold windNumber
  rw [show isLoop G = false from by rw [← Bool.not_eq_true, isLoop_iff]; exact h]
  rfl

example (dfs : Nat → List (Nat × Nat)) (I : (ℝ → ℝ) → ℝ) (c : Fin 2 → ℝ) : windNumber corner dfs I c = .error .assertion :=
  wind_number_refuses (fun h => loop_no_terminal h 2 corner_end) dfs I c

/-- C64.  The normals of loops are unit vectors orthogonal to the cells. -/
theorem normal_unit {G : Curve 2} (hG : G.Ok) (hl : Loop G) (dfs : Nat → List (Nat × Nat)) (I : (ℝ → ℝ) → ℝ)
    (outside : Option (Fin 2 → ℝ)) (tol : ℝ) :
    ∃ ns, normalCurve G dfs I outside tol = .ok ns ∧ ns.length = G.cells.length ∧ ∀ (i : Nat) n, ns[i]? = some n →
      n ⬝ᵥ n = 1 ∧ ∀ a b p q, Joins G i a b → G.X[a]? = some p → G.X[b]? = some q → n ⬝ᵥ (q - p) = 0 := by
  have ht := loop_tangents (loop_no_terminal hl) dfs
  unfold normalCurve windNumber
  rw [ht, isLoop_iff.2 hl]
  refine ⟨_, rfl, by simp, ?_⟩
  intro i n h
  rw [List.getElem?_map, List.getElem?_map] at h
  rcases hc : G.cells[i]? with _ | c
  · rw [hc] at h; simp at h
  rw [hc] at h
  injection h with h
  have hr := direction_runs hG (i := i) (a := c.1) (b := c.2) (.inl hc)
  obtain ⟨hj, hu, p, q, hp, hq, s, hs, e⟩ := hr
  have hrot : ∀ t : Fin 2 → ℝ, rotate t ⬝ᵥ rotate t = t ⬝ᵥ t ∧ rotate t ⬝ᵥ t = 0 := by
    intro t
    constructor <;> simp [rotate, dotProduct, Fin.sum_univ_two] <;> ring
  have h0 : n ⬝ᵥ n = 1 ∧ n ⬝ᵥ direction G c.1 c.2 = 0 := by
    subst h
    dsimp only
    split
    · rw [(hrot _).1, (hrot _).2, hu]; simp
    · rw [neg_dotProduct_neg, neg_dotProduct, (hrot _).1, (hrot _).2, hu]; simp
  refine ⟨h0.1, fun a b p' q' hj' hp' hq' => ?_⟩
  rcases joins_ends hj hj' with ⟨rfl, rfl⟩ | ⟨rfl, rfl⟩
  · rw [hp] at hp'; rw [hq] at hq'
    injection hp' with hp'; injection hq' with hq'
    subst hp' hq'
    rw [e, dotProduct_smul, h0.2, smul_zero]
  · rw [hq] at hp'; rw [hp] at hq'
    injection hp' with hp'; injection hq' with hq'
    subst hp' hq'
    rw [← neg_sub, dotProduct_neg, e, dotProduct_smul, h0.2, smul_zero, neg_zero]

/-- A square whose vertices are numbered across. -/
def square : Curve 2 := ⟨[![1, 1], ![-1, -1], ![-1, 1], ![1, -1]], [(0, 2), (1, 2), (1, 3), (0, 3)]⟩

/-- A triangle. -/
def triangle : Curve 2 := ⟨[![0, 0], ![1, 0], ![0, 1]], [(0, 1), (0, 2), (1, 2)]⟩

theorem square_loop : Loop square := isLoop_iff.1 (by decide +kernel)
theorem triangle_loop : Loop triangle := isLoop_iff.1 (by decide +kernel)

theorem square_ok : square.Ok := by
  have hs : ∀ i j : Nat, i < 4 → j < 4 → ∀ c c', square.cells[i]? = some c → square.cells[j]? = some c' →
      (c = c' ∨ c = c'.swap) → i = j := by
    intro i j hi hj c c' h1 h2
    have : i = 0 ∨ i = 1 ∨ i = 2 ∨ i = 3 := by omega
    have : j = 0 ∨ j = 1 ∨ j = 2 ∨ j = 3 := by omega
    rcases ‹i = 0 ∨ _› with rfl | rfl | rfl | rfl <;> rcases ‹j = 0 ∨ _› with rfl | rfl | rfl | rfl <;>
      (simp [square] at h1 h2; subst h1; subst h2; simp)
  refine ⟨?_, ?_, ?_⟩
  · intro c hc
    simp [square] at hc
    rcases hc with rfl | rfl | rfl | rfl <;> simp [square]
  · intro c hc h
    simp [square] at hc
    rcases hc with rfl | rfl | rfl | rfl <;> simp [square] at h <;> norm_num at h
  · intro i j a b h1 h2
    have l1 := joins_lt h1
    have l2 := joins_lt h2
    rcases h1 with h1 | h1 <;> rcases h2 with h2 | h2 <;> exact hs i j l1 l2 _ _ h1 h2 (by simp)

example (dfs : Nat → List (Nat × Nat)) : ∃ ts v i j, tangentCurve square dfs none = .ok ts ∧ i ≠ j ∧ Enters square ts v i ∧
    Enters square ts v j ∧ ∀ k, ¬ Leaves square ts v k :=
  tangent_loop square_ok (by simp [square]) (loop_no_terminal square_loop) (by
    intro c hc
    simp [square] at hc
    rcases hc with rfl | rfl | rfl | rfl <;> simp)

example (dfs : Nat → List (Nat × Nat)) (I : (ℝ → ℝ) → ℝ) : ∃ ns, normalCurve square dfs I none (1 / 100) = .ok ns ∧ ns.length = 4 := by
  obtain ⟨ns, h1, h2, -⟩ := normal_unit square_ok square_loop dfs I none (1 / 100)
  exact ⟨ns, h1, h2⟩

/-- C64 is false of `encloses_points`: the center of a square is not found, with any rule of integration. -/
theorem encloses_wrong (dfs : Nat → List (Nat × Nat)) {I : (ℝ → ℝ) → ℝ} (hI : Odd I) {tol : ℝ} (ht : 0 ≤ tol) :
    enclosesPoint square dfs I tol 0 = .ok false ∧ InsideHull square.X 0 ∧ Loop square := by
  refine ⟨?_, ?_, square_loop⟩
  · have hn : ∀ a b : ℝ, a * a + b * b = 4 → norm ![a, b] = 2 := by
      intro a b h
      rw [norm_pair, h, show (4 : ℝ) = 2 ^ 2 by norm_num]
      exact Real.sqrt_sq (by norm_num)
    have key : ∀ (i j : Nat) (p q : Fin 2 → ℝ) (a b : ℝ), square.pos i = p → square.pos j = q → q - p = ![a, b] → a * a + b * b = 4 →
        cellIntegral square I 0 (i, j) (direction square i j) =
          2 * I (fun s => integrand 0 (rotate ((1 / 2 : ℝ) • ![a, b])) (p + s • ![a, b])) := by
      intro i j p q a b h1 h2 h3 h4
      unfold cellIntegral direction
      dsimp only
      rw [h1, h2, h3, hn a b h4]
    have e := hI (fun s : ℝ => 1 / (2 * Real.pi) / ((1 - 2 * s) * (1 - 2 * s) + 1))
    have hw : windNumber square dfs I 0 = .ok 0 := by
      unfold windNumber
      rw [loop_tangents (loop_no_terminal square_loop), isLoop_iff.2 square_loop]
      dsimp only [bind, Except.bind, pyAssert]
      simp only [if_true]
      congr 1
      have e1 := key 0 2 ![1, 1] ![-1, 1] (-2) 0 rfl rfl (by funext i; fin_cases i <;> simp <;> norm_num) (by norm_num)
      have e2 := key 1 2 ![-1, -1] ![-1, 1] 0 2 rfl rfl (by funext i; fin_cases i <;> simp <;> norm_num) (by norm_num)
      have e3 := key 1 3 ![-1, -1] ![1, -1] 2 0 rfl rfl (by funext i; fin_cases i <;> simp <;> norm_num) (by norm_num)
      have e4 := key 0 3 ![1, 1] ![1, -1] 0 (-2) rfl rfl (by funext i; fin_cases i <;> simp <;> norm_num) (by norm_num)
      rw [show (fun s : ℝ => integrand 0 (rotate ((1 / 2 : ℝ) • ![-2, 0])) (![1, 1] + s • ![-2, 0])) =
        fun s : ℝ => 1 / (2 * Real.pi) / ((1 - 2 * s) * (1 - 2 * s) + 1) from by
          funext s; simp [integrand, rotate, dotProduct, Fin.sum_univ_two]; ring_nf] at e1
      rw [show (fun s : ℝ => integrand 0 (rotate ((1 / 2 : ℝ) • ![0, 2])) (![-1, -1] + s • ![0, 2])) =
        fun s : ℝ => - (1 / (2 * Real.pi) / ((1 - 2 * s) * (1 - 2 * s) + 1)) from by
          funext s; simp [integrand, rotate, dotProduct, Fin.sum_univ_two]; ring_nf, e] at e2
      rw [show (fun s : ℝ => integrand 0 (rotate ((1 / 2 : ℝ) • ![2, 0])) (![-1, -1] + s • ![2, 0])) =
        fun s : ℝ => 1 / (2 * Real.pi) / ((1 - 2 * s) * (1 - 2 * s) + 1) from by
          funext s; simp [integrand, rotate, dotProduct, Fin.sum_univ_two]; ring_nf] at e3
      rw [show (fun s : ℝ => integrand 0 (rotate ((1 / 2 : ℝ) • ![0, -2])) (![1, 1] + s • ![0, -2])) =
        fun s : ℝ => - (1 / (2 * Real.pi) / ((1 - 2 * s) * (1 - 2 * s) + 1)) from by
          funext s; simp [integrand, rotate, dotProduct, Fin.sum_univ_two]; ring_nf, e] at e4
      show (List.zipWith (cellIntegral square I 0) [(0, 2), (1, 2), (1, 3), (0, 3)]
        [direction square 0 2, direction square 1 2, direction square 1 3, direction square 0 3]).sum = 0
      simp only [List.zipWith_cons_cons, List.zipWith_nil_left, List.sum_cons, List.sum_nil, e1, e2, e3, e4]
      ring
    unfold enclosesPoint
    rw [hw]
    dsimp only [bind, Except.bind]
    rw [decide_eq_false (by linarith)]
  · intro u hu
    by_contra hcon
    push Not at hcon
    have h1 := hcon ![1, 1] (by simp [square])
    have h2 := hcon ![-1, -1] (by simp [square])
    have h3 := hcon ![-1, 1] (by simp [square])
    have h4 := hcon ![1, -1] (by simp [square])
    simp [dotProduct, Fin.sum_univ_two] at h1 h2 h3 h4
    apply hu
    funext i
    fin_cases i <;> simp <;> linarith

example : Odd (fun f => f (1 / 2)) := fun _ => rfl

/-- C64 is false of `NormalCurve`: the normals of a triangle do not all point outwards, nor all inwards. -/
theorem normal_wrong (dfs : Nat → List (Nat × Nat)) (I : (ℝ → ℝ) → ℝ) (outside : Option (Fin 2 → ℝ)) (tol : ℝ) :
    ∃ ns n m, normalCurve triangle dfs I outside tol = .ok ns ∧ ns[0]? = some n ∧ ns[1]? = some m ∧
      ((OutwardOf triangle 0 n ∧ ¬ OutwardOf triangle 1 m ∧ OutwardOf triangle 1 (- m)) ∨
       (OutwardOf triangle 1 m ∧ ¬ OutwardOf triangle 0 n ∧ OutwardOf triangle 0 (- n))) ∧ Loop triangle := by
  have hd0 : direction triangle 0 1 = ![1, 0] := by
    unfold direction
    rw [show triangle.pos 1 - triangle.pos 0 = ![1, 0] from by
      show ![1, 0] - ![0, 0] = (![1, 0] : Fin 2 → ℝ); funext i; fin_cases i <;> simp, norm_pair]
    simp
  have hd1 : direction triangle 0 2 = ![0, 1] := by
    unfold direction
    rw [show triangle.pos 2 - triangle.pos 0 = ![0, 1] from by
      show ![0, 1] - ![0, 0] = (![0, 1] : Fin 2 → ℝ); funext i; fin_cases i <;> simp, norm_pair]
    simp
  have side0 : ∀ y : ℝ, y ≤ 0 → OutwardOf triangle 0 ![0, y] := by
    intro y hy a b p hj hp x hx
    rcases joins_ends (G := triangle) (i := 0) (a := 0) (b := 1) (.inl rfl) hj with ⟨rfl, rfl⟩ | ⟨rfl, rfl⟩ <;>
      (injection hp with hp; subst hp; simp [triangle] at hx; rcases hx with rfl | rfl | rfl <;>
        simp [dotProduct, Fin.sum_univ_two, hy])
  have side1 : ∀ y : ℝ, y ≤ 0 → OutwardOf triangle 1 ![y, 0] := by
    intro y hy a b p hj hp x hx
    rcases joins_ends (G := triangle) (i := 1) (a := 0) (b := 2) (.inl rfl) hj with ⟨rfl, rfl⟩ | ⟨rfl, rfl⟩ <;>
      (injection hp with hp; subst hp; simp [triangle] at hx; rcases hx with rfl | rfl | rfl <;>
        simp [dotProduct, Fin.sum_univ_two, hy])
  have no0 : ¬ OutwardOf triangle 0 ![0, 1] := by
    intro h
    have := h 0 1 ![0, 0] (.inl rfl) rfl ![0, 1] (by simp [triangle])
    simp [dotProduct, Fin.sum_univ_two] at this
    linarith
  have no1 : ¬ OutwardOf triangle 1 ![1, 0] := by
    intro h
    have := h 0 2 ![0, 0] (.inl rfl) rfl ![1, 0] (by simp [triangle])
    simp [dotProduct, Fin.sum_univ_two] at this
    linarith
  unfold normalCurve windNumber
  rw [loop_tangents (loop_no_terminal triangle_loop), isLoop_iff.2 triangle_loop]
  refine ⟨_, _, _, rfl, rfl, rfl, ?_, triangle_loop⟩
  dsimp only
  split
  · left
    simp only [hd0, hd1, rotate]
    refine ⟨?_, ?_, ?_⟩
    · simpa using side0 (-1) (by norm_num)
    · simpa using no1
    · simpa using side1 (-1) (by norm_num)
  · right
    simp only [hd0, hd1, rotate]
    refine ⟨?_, ?_, ?_⟩
    · simpa using side1 (-1) (by norm_num)
    · simpa using no0
    · simpa using side0 (-1) (by norm_num)

end Verif.Tangent
