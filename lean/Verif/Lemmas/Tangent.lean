import Verif.Spec.Tangent
import Mathlib.Tactic.Linarith
import Mathlib.Tactic.FieldSimp
import Mathlib.Tactic.Ring
import Mathlib.Data.Finset.Card
import Mathlib.Data.Finset.Range
/-!
# Lemmas on tangents of curves
-/
namespace Verif.Tangent
open Verif Matrix
variable {d : Nat}

theorem mem_v2c {G : Curve d} {v i : Nat} : i ∈ G.v2c v ↔ ∃ a, Joins G i v a := by
  unfold Curve.v2c Joins
  rw [List.mem_filter, List.mem_range]
  constructor
  · rintro ⟨h1, h2⟩
    rw [List.getElem?_eq_getElem h1] at h2 ⊢
    rcases h : G.cells[i] with ⟨a, b⟩
    rw [h] at h2
    simp at h2
    rcases h2 with rfl | rfl
    · exact ⟨b, .inl rfl⟩
    · exact ⟨a, .inr rfl⟩
  · rintro ⟨a, h | h⟩ <;> exact ⟨(List.getElem?_eq_some_iff.1 h).1, by rw [h]; simp⟩

theorem joins_symm {G : Curve d} {i a b : Nat} (h : Joins G i a b) : Joins G i b a := h.symm

theorem joins_lt {G : Curve d} {i a b : Nat} (h : Joins G i a b) : i < G.cells.length := by
  rcases h with h | h <;> exact (List.getElem?_eq_some_iff.1 h).1

theorem joins_ok {G : Curve d} (hG : G.Ok) {i a b : Nat} (h : Joins G i a b) :
    a < G.X.length ∧ b < G.X.length ∧ G.X[a]? ≠ G.X[b]? := by
  rcases h with h | h
  · have := List.mem_of_getElem? h
    exact ⟨(hG.lt _ this).1, (hG.lt _ this).2, hG.ne _ this⟩
  · have := List.mem_of_getElem? h
    exact ⟨(hG.lt _ this).2, (hG.lt _ this).1, (hG.ne _ this).symm⟩

theorem joins_ends {G : Curve d} {i a b v w : Nat} (h : Joins G i a b) (h' : Joins G i v w) :
    (v = a ∧ w = b) ∨ (v = b ∧ w = a) := by
  rcases h with h | h <;> rcases h' with h' | h' <;> rw [h] at h' <;> injection h' with h' <;> injection h' with h1 h2 <;> subst h1 <;> subst h2 <;> simp

theorem eq_singleton {l : List Nat} {i : Nat} (hn : l.Nodup) (h : ∀ j, j ∈ l ↔ j = i) : l = [i] := by
  have : l.Perm [i] := (List.perm_ext_iff_of_nodup hn (by simp)).2 (by simpa using h)
  exact List.perm_singleton.1 this

theorem v2c_nodup (G : Curve d) (v : Nat) : (G.v2c v).Nodup := List.nodup_range.filter _

theorem cellOf_eq {G : Curve d} (hG : G.Ok) {i a b : Nat} (h : Joins G i a b) : cellOf G a b = .ok i := by
  have : (G.v2c a).filter (fun c => decide (c ∈ G.v2c b)) = [i] := by
    refine eq_singleton ((v2c_nodup G a).filter _) (fun j => ?_)
    rw [List.mem_filter, decide_eq_true_iff, mem_v2c, mem_v2c]
    constructor
    · rintro ⟨⟨p, hp⟩, q, hq⟩
      refine hG.simple j i a b ?_ h
      rcases joins_ends hp hq with ⟨e, -⟩ | ⟨e, -⟩
      · exact absurd (by rw [e]) (joins_ok hG h).2.2
      · rw [e]; exact hp
    · rintro rfl
      exact ⟨⟨b, h⟩, a, joins_symm h⟩
  unfold cellOf
  rw [this]

theorem visit_spec {G : Curve d} (hG : G.Ok) : ∀ (T : List (Nat × Nat)) (vals : List (Option (Fin d → ℝ))),
    (∀ e ∈ T, ∃ i, Joins G i e.1 e.2) → T.Pairwise (fun e f => ∀ i, Joins G i e.1 e.2 → ¬ Joins G i f.1 f.2) →
    ∃ r, visit G T vals = .ok r ∧ r.length = vals.length ∧
      (∀ i : Nat, (∀ e ∈ T, ¬ Joins G i e.1 e.2) → r[i]? = vals[i]?) ∧
      (∀ (i : Nat) e, e ∈ T → Joins G i e.1 e.2 → i < vals.length → r[i]? = some (some (direction G e.1 e.2)))
  | [], vals, _, _ => ⟨vals, rfl, rfl, fun _ _ => rfl, by simp⟩
  | e :: T, vals, h1, h2 => by
      obtain ⟨c, hc⟩ := h1 e (by simp)
      rw [List.pairwise_cons] at h2
      obtain ⟨r, hr, hl, ho, hn⟩ := visit_spec hG T (vals.set c (some (direction G e.1 e.2)))
        (fun f hf => h1 f (by simp [hf])) h2.2
      refine ⟨r, ?_, by rw [hl, List.length_set], ?_, ?_⟩
      · unfold visit
        rw [cellOf_eq hG hc]
        exact hr
      · intro i hi
        rw [ho i (fun f hf => hi f (by simp [hf])), List.getElem?_set_ne]
        rintro rfl
        exact hi e (by simp) hc
      · intro i f hf hj hlt
        rcases List.mem_cons.1 hf with rfl | hf
        · have : i = c := hG.simple _ _ _ _ hj hc
          subst this
          rw [ho i (fun g hg => h2.1 g hg i hj), List.getElem?_set_self hlt]
        · exact hn i f hf hj (by rwa [List.length_set])

theorem dfs_pairwise {G : Curve d} {root : Nat} {T : List (Nat × Nat)} (h : IsDfs G root T) :
    T.Pairwise (fun e f => ∀ i, Joins G i e.1 e.2 → ¬ Joins G i f.1 f.2) := by
  rw [List.pairwise_iff_getElem]
  intro i j hi hj hij k h1 h2
  have nd := h.children
  have inj : ∀ (m n : Nat) (hm : m < T.length) (hn : n < T.length), T[m].2 = T[n].2 → m = n := by
    intro m n hm hn e
    exact (List.Nodup.getElem_inj_iff nd (hi := by simpa using hm) (hj := by simpa using hn)).1 (by simpa using e)
  rcases joins_ends h1 h2 with ⟨-, e⟩ | ⟨-, e⟩
  · have := inj j i hj hi e
    omega
  · rcases h.parent (T.take i) T[i] (T.drop (i + 1)) (by simp) with hp | hp
    · exact h.start (List.mem_map.2 ⟨T[j], List.getElem_mem hj, by rw [e, hp]⟩)
    · obtain ⟨f, hf, he⟩ := List.mem_map.1 hp
      obtain ⟨m, hm, rfl⟩ := List.getElem_of_mem hf
      rw [List.length_take] at hm
      have := inj m j (by omega) hj (by rw [← List.getElem_take (h := by rw [List.length_take]; omega), he, e])
      omega

theorem dot_self_nonneg (x : Fin d → ℝ) : 0 ≤ x ⬝ᵥ x := Finset.sum_nonneg (fun _ _ => mul_self_nonneg _)

theorem dot_self_pos {x : Fin d → ℝ} (h : x ≠ 0) : 0 < x ⬝ᵥ x :=
  lt_of_le_of_ne (dot_self_nonneg x) (fun e => h (by
    funext i
    have := (Finset.sum_eq_zero_iff_of_nonneg (fun i _ => mul_self_nonneg (x i))).1 e.symm i (Finset.mem_univ i)
    simpa using this))

theorem pos_eq {G : Curve d} {a : Nat} (h : a < G.X.length) : G.X[a]? = some (G.pos a) := by
  unfold Curve.pos
  rw [List.getD_eq_getElem?_getD, List.getElem?_eq_getElem h]
  rfl

theorem direction_runs {G : Curve d} (hG : G.Ok) {i a b : Nat} (h : Joins G i a b) : Runs G i a b (direction G a b) := by
  obtain ⟨ha, hb, hne⟩ := joins_ok hG h
  rw [pos_eq ha, pos_eq hb] at hne
  have hx : G.pos b - G.pos a ≠ 0 := fun e => hne (by rw [sub_eq_zero.1 e])
  have hp := dot_self_pos hx
  have hs : 0 < norm (G.pos b - G.pos a) := Real.sqrt_pos.2 hp
  have hq : norm (G.pos b - G.pos a) * norm (G.pos b - G.pos a) = (G.pos b - G.pos a) ⬝ᵥ (G.pos b - G.pos a) :=
    Real.mul_self_sqrt hp.le
  refine ⟨h, ?_, _, _, pos_eq ha, pos_eq hb, norm (G.pos b - G.pos a), hs, ?_⟩
  · unfold direction
    rw [smul_dotProduct, dotProduct_smul, ← hq, smul_eq_mul, smul_eq_mul]
    field_simp
  · unfold direction
    rw [smul_smul, mul_one_div_cancel hs.ne', one_smul]

theorem runs_unique {G : Curve d} {i a b v w : Nat} {t : Fin d → ℝ} (h : Runs G i a b t) (h' : Runs G i v w t) : v = a ∧ w = b := by
  rcases joins_ends h.1 h'.1 with e | ⟨rfl, rfl⟩
  · exact e
  · exfalso
    obtain ⟨-, hu, p, q, hp, hq, s, hs, e⟩ := h
    obtain ⟨-, -, p', q', hp', hq', s', hs', e'⟩ := h'
    rw [hq] at hp'
    rw [hp] at hq'
    injection hp' with hp'
    injection hq' with hq'
    subst hp' hq'
    have : (s + s') • t = 0 := by rw [add_smul, ← e, ← e']; abel
    rcases smul_eq_zero.1 this with h | h
    · linarith
    · rw [h] at hu; simp at hu

theorem mem_roots {G : Curve d} {v : Nat} : v ∈ G.roots ↔ Terminal G v := by
  unfold Curve.roots Terminal Curve.nv
  rw [List.mem_filter, List.mem_range, decide_eq_true_iff, List.length_eq_one_iff]
  refine and_congr_right (fun _ => ⟨?_, ?_⟩)
  · rintro ⟨i, hi⟩
    refine ⟨i, mem_v2c.1 (by rw [hi]; simp), fun j hj => ?_⟩
    have := mem_v2c.2 hj
    rw [hi] at this
    simpa using this
  · rintro ⟨i, hi, hu⟩
    exact ⟨i, eq_singleton (v2c_nodup G v) (fun j => ⟨fun h => hu j (mem_v2c.1 h), fun h => by rw [h]; exact mem_v2c.2 hi⟩)⟩

/-- The cells of the edges of a search. -/
theorem tree_covers {G : Curve d} (ht : Tree G) (hG : G.Ok) {root : Nat} (hr : root < G.X.length) {T : List (Nat × Nat)}
    (h : IsDfs G root T) :
    (∀ v, v < G.X.length → v = root ∨ v ∈ T.map Prod.snd) ∧ ∀ i, i < G.cells.length → ∃ e ∈ T, Joins G i e.1 e.2 := by
  have h1 : ∀ v, v < G.X.length → v = root ∨ v ∈ T.map Prod.snd := by
    intro v hv
    have := ht.connected root v hr hv
    induction this with
    | refl => exact .inl rfl
    | tail _ hbc ih =>
      obtain ⟨i, hi⟩ := hbc
      exact h.closed i _ _ hi (ih (joins_ok hG hi).1)
  refine ⟨h1, ?_⟩
  choose! f hf using h.edge
  have hlen : G.cells.length ≤ T.length := by
    have hsub : Finset.range G.X.length ⊆ insert root (T.map Prod.snd).toFinset := by
      intro v hv
      rcases h1 v (Finset.mem_range.1 hv) with e | e
      · exact Finset.mem_insert.2 (.inl e)
      · exact Finset.mem_insert.2 (.inr (List.mem_toFinset.2 e))
    have := (Finset.card_le_card hsub).trans (Finset.card_insert_le _ _)
    have h3 := List.toFinset_card_le (T.map Prod.snd)
    rw [Finset.card_range, ht.count] at this
    rw [List.length_map] at h3
    omega
  have hnd : (T.map f).Nodup := by
    rw [List.Nodup, List.pairwise_map]
    refine (dfs_pairwise h).imp_of_mem (fun {a b} ha hb hab e => ?_)
    refine hab (f a) (hf a ha) ?_
    rw [e]
    exact hf b hb
  have hs : (T.map f).toFinset = Finset.range G.cells.length := by
    refine Finset.eq_of_subset_of_card_le (fun i hi => ?_) ?_
    · obtain ⟨e, he, rfl⟩ := List.mem_map.1 (List.mem_toFinset.1 hi)
      exact Finset.mem_range.2 (joins_lt (hf e he))
    · rw [Finset.card_range, List.toFinset_card_of_nodup hnd, List.length_map]
      exact hlen
  intro i hi
  have : i ∈ (T.map f).toFinset := by rw [hs]; exact Finset.mem_range.2 hi
  obtain ⟨e, he, rfl⟩ := List.mem_map.1 (List.mem_toFinset.1 this)
  exact ⟨e, he, hf e he⟩

theorem chooseRoot_mem {roots : List Nat} {root : Option Nat} (hne : roots ≠ []) (h : ∀ r, root = some r → r ∈ roots) :
    ∃ r, chooseRoot roots root = .ok r ∧ r ∈ roots ∧ ∀ r', root = some r' → r = r' := by
  rcases root with _ | r
  · refine ⟨roots.getLast hne, ?_, List.getLast_mem hne, by simp⟩
    unfold chooseRoot
    dsimp only
    rw [List.getLast?_eq_some_getLast hne]
  · refine ⟨r, ?_, h r rfl, by simp⟩
    unfold chooseRoot
    dsimp only
    rw [decide_eq_true (h r rfl)]
    rfl

theorem isLoop_iff {G : Curve d} : isLoop G = true ↔ Loop G := by
  unfold isLoop Loop Curve.nv
  rw [List.all_eq_true]
  simp only [List.mem_range, decide_eq_true_iff, List.length_eq_two]
  refine forall_congr' (fun v => imp_congr_right (fun _ => ⟨?_, ?_⟩))
  · rintro ⟨i, j, h⟩
    have := v2c_nodup G v
    rw [h] at this
    refine ⟨i, j, by simpa using this, fun k => ?_⟩
    rw [← mem_v2c, h]
    simp
  · rintro ⟨i, j, hij, h⟩
    have : (G.v2c v).Perm [i, j] := (List.perm_ext_iff_of_nodup (v2c_nodup G v) (by simpa using hij)).2 (fun k => by
      rw [mem_v2c, h]; simp)
    exact List.length_eq_two.1 this.length_eq

theorem norm_pair (a b : ℝ) : norm ![a, b] = Real.sqrt (a * a + b * b) := by
  unfold norm
  simp [dotProduct, Fin.sum_univ_two]

theorem loop_tangents {G : Curve d} (hl : ∀ v, ¬ Terminal G v) (dfs : Nat → List (Nat × Nat)) :
    tangentCurve G dfs none = .ok (G.cells.map (fun c => direction G c.1 c.2)) := by
  have hroots : G.roots = [] := List.eq_nil_iff_forall_not_mem.2 (fun v h => hl v (mem_roots.1 h))
  unfold tangentCurve visited
  rw [if_pos (by rw [hroots]; rfl)]
  dsimp only [bind, Except.bind]
  congr 1
  refine List.ext_getElem? (fun i => ?_)
  rw [List.getElem?_zipWith, List.getElem?_map, List.getElem?_replicate]
  by_cases hi : i < G.cells.length
  · rw [if_pos hi, List.getElem?_eq_getElem hi]
    rfl
  · rw [List.getElem?_eq_none (by omega)]
    rfl

theorem loop_no_terminal {G : Curve d} (h : Loop G) (v : Nat) : ¬ Terminal G v := by
  rintro ⟨hv, i, hi, hu⟩
  obtain ⟨k, j, hkj, hk⟩ := h v hv
  exact hkj ((hu k ((hk k).2 (.inl rfl))).trans (hu j ((hk j).2 (.inr rfl))).symm)

end Verif.Tangent
