import Verif.Spec.RandomCurve
import Verif.Lemmas.RandomCurve
import Mathlib.Data.List.Nodup
/-!
# Random curves for 3d-1d problems

Whatever vertices are chosen, a curve which starts at the boundary has one point on the boundary and is connected, so that the check of
`load` never fails.
-/
namespace Verif.RandomCurve
open Verif

variable {edges : List (Nat × Nat)} {sp : Nat → Nat → Py (List Nat)} {bc : Nat → Bool}

/-- **C116**.  If the first vertex is on the boundary then, whatever vertices are chosen, the curve has exactly one vertex on the boundary: the one which
    is returned. -/
theorem curve_one_boundary_vertex (hE : Edges edges) (hsp : FindsPaths edges sp) {start : Nat} (hs : bc start = true) {n : Int}
    (hn : n ≠ 0) (choices : List Nat) {f : List Nat} {first : Option Nat}
    (h : randomCurve edges sp bc choices start n = .ok (f, first)) :
    ∃ v, first = some v ∧ ∀ u, (OnCurve edges f u ∧ bc u = true) ↔ u = v := by
  obtain ⟨v, s, ho, hg⟩ := walk_first hE hsp hs choices n f first hn h
  refine ⟨v, ho, fun u => ⟨fun hu => hg.only u hu.1 hu.2, ?_⟩⟩
  rintro rfl
  exact ⟨hg.first, hg.bdry⟩

/-- The curve is connected. -/
theorem curve_connected (hE : Edges edges) (hsp : FindsPaths edges sp) {start : Nat} (hs : bc start = true) {n : Int}
    (choices : List Nat) {f : List Nat} {first : Option Nat}
    (h : randomCurve edges sp bc choices start n = .ok (f, first)) : Connected edges f := by
  by_cases hn : n = 0
  · subst hn
    rw [randomCurve, walk_zero] at h
    cases h
    rintro u v ⟨w, hw⟩
    exact absurd hw joined_replicate
  · obtain ⟨v, s, ho, hg⟩ := walk_first hE hsp hs choices n f first hn h
    intro a b ha hb
    exact (linked_symm (hg.linked a ha)).trans (hg.linked b hb)

/-- Exactly when `load` returns, whatever paths are found and wherever the curve starts: just one vertex of the curve is on the boundary. -/
theorem load_returns_iff (choices : List Nat) (start : Nat) (n : Int) (nv : Nat) (r : List Nat × Option Nat) :
    load edges sp bc choices start n nv = .ok r ↔
      randomCurve edges sp bc choices start n = .ok r ∧ ∃ v, ∀ u, (u < nv ∧ OnCurve edges r.1 u ∧ bc u = true) ↔ u = v := by
  have hone : ∀ f : List Nat, ((List.range nv).filter (fun v => used edges f v && bc v)).length = 1 ↔
      ∃ v, ∀ u, (u < nv ∧ OnCurve edges f u ∧ bc u = true) ↔ u = v := by
    intro f
    have hm : ∀ u, u ∈ (List.range nv).filter (fun v => used edges f v && bc v) ↔ (u < nv ∧ OnCurve edges f u ∧ bc u = true) := by
      intro u
      rw [List.mem_filter, List.mem_range, Bool.and_eq_true, used_iff]
    constructor
    · intro h
      obtain ⟨v, hv⟩ := List.length_eq_one_iff.1 h
      exact ⟨v, fun u => by rw [← hm, hv, List.mem_singleton]⟩
    · rintro ⟨v, hv⟩
      have : ((List.range nv).filter (fun v => used edges f v && bc v)).Perm [v] :=
        (List.perm_ext_iff_of_nodup (List.nodup_range.filter _) (List.nodup_singleton v)).2 fun u => by rw [hm, hv, List.mem_singleton]
      simpa using this.length_eq
  simp only [load, py_bind_eq_ok, pyAssert_eq_ok, decide_eq_true_eq, hone]
  constructor
  · rintro ⟨r', h1, _, h2, h3⟩
    cases h3
    exact ⟨h1, h2⟩
  · rintro ⟨h1, h2⟩
    exact ⟨r, h1, (), h2, rfl⟩

/-- No points: `load` always refuses the empty curve. -/
example (choices : List Nat) (start nv : Nat) (r : List Nat × Option Nat) : load edges sp bc choices start 0 nv ≠ .ok r := by
  rw [Ne, load_returns_iff]
  rintro ⟨h, v, hv⟩
  rw [randomCurve, walk_zero] at h
  cases h
  obtain ⟨_, ⟨w, hw⟩, _⟩ := (hv v).2 rfl
  exact joined_replicate hw

/-- The check of `load` never fails: if the curve is found it is returned. -/
theorem load_returns (hE : Edges edges) (hsp : FindsPaths edges sp) {start : Nat} (hs : bc start = true) {n : Int} (hn : n ≠ 0)
    {nv : Nat} (hv : ∀ e ∈ edges, e.2 < nv) (choices : List Nat) {r : List Nat × Option Nat}
    (h : randomCurve edges sp bc choices start n = .ok r) : load edges sp bc choices start n nv = .ok r := by
  obtain ⟨f, first⟩ := r
  obtain ⟨v, ho, hu⟩ := curve_one_boundary_vertex hE hsp hs hn choices h
  obtain ⟨hvc, hvb⟩ := (hu v).2 rfl
  have hlt : v < nv := by
    obtain ⟨w, i, hi, _⟩ := hvc
    rcases hi with hi | hi
    · have := hE.2 _ (List.mem_of_getElem? hi)
      have := hv _ (List.mem_of_getElem? hi)
      simp only at *
      omega
    · exact hv _ (List.mem_of_getElem? hi)
  have hfil : (List.range nv).filter (fun u => used edges f u && bc u) = (List.range nv).filter (fun u => u == v) := by
    apply List.filter_congr
    intro u _
    rw [Bool.eq_iff_iff]
    simp only [Bool.and_eq_true, used_iff, beq_iff_eq]
    exact hu u
  have hone : ((List.range nv).filter (fun u => u == v)).length = 1 := by
    rw [← List.countP_eq_length_filter]
    exact List.count_eq_one_of_mem List.nodup_range (by simpa using hlt)
  simp only [load, h, py_bind_ok, hfil, hone]
  rfl

/-- With two inner vertices which are joined inside, choices exist for which a curve with any number of pieces is found. -/
theorem curve_can_be_found (hE : Edges edges) (hsp : FindsPaths edges sp) {start a b : Nat} (hs : bc start = true) (hab : a ≠ b)
    (ha : bc a = false) (hb : bc b = false) {p pa pb : List Nat} (h0 : sp start a = .ok p) (h1 : sp a b = .ok pa)
    (h1' : ∀ u ∈ pa, bc u = false) (h2 : sp b a = .ok pb) (h2' : ∀ u ∈ pb, bc u = false) {n : Int} (hn : 0 ≤ n) :
    ∃ choices r, randomCurve edges sp bc choices start n = .ok r := by
  obtain ⟨m, rfl⟩ := Int.eq_ofNat_of_zero_le hn
  cases m with
  | zero => exact ⟨[], _, walk_zero sp bc [] start none _⟩
  | succ m =>
      obtain ⟨f', v, hf, hc, hg⟩ := good_first hE hs (hsp _ _ _ h0) ha
      obtain ⟨cs, r, hr⟩ := walk_back hE hsp m a b v f' pa pb hg hab ha hb h1
        (by simpa [List.any_eq_false] using h1') h2 (by simpa [List.any_eq_false] using h2')
      refine ⟨a :: cs, r, ?_⟩
      have hne : start ≠ a := by
        rintro rfl
        rw [hs] at ha
        cases ha
      have hz : ((m + 1 : Nat) : Int) ≠ 0 := by omega
      have hs' : ((m + 1 : Nat) : Int) - 1 = m := by omega
      simp only [randomCurve, walk, hz, if_false, h0, hf, hc, hs']
      simpa [hne, ha] using hr

/-- If only one vertex is not on the boundary, a curve with two pieces or more is never found: the loop does not end.  Nor does it end for a
    negative number. -/
theorem curve_never_found {start : Nat} {n : Int} (h : n < 0 ∨ 2 ≤ n ∧ ∃ w, ∀ u, bc u = false → u = w) (choices : List Nat) :
    ∀ r, randomCurve edges sp bc choices start n ≠ .ok r := by
  rcases h with h | ⟨h, w, hw⟩
  · exact walk_neg sp bc choices start none n _ h
  · exact walk_one sp hw choices start none n _ (by omega) (by omega)

/-- If the first vertex is not on the boundary the curve need not be connected, and the check of `load` does not notice it. -/
theorem inner_start_disconnected :
    ∃ (edges : List (Nat × Nat)) (sp : Nat → Nat → Py (List Nat)) (bc : Nat → Bool) (choices : List Nat) (start nv : Nat)
      (r : List Nat × Option Nat), Edges edges ∧ FindsPaths edges sp ∧ (∀ e ∈ edges, e.2 < nv) ∧ bc start = false ∧
      load edges sp bc choices start 2 nv = .ok r ∧ ¬ Connected edges r.1 := by
  refine ⟨[(0, 1), (1, 2), (2, 3)],
    fun s t => if s = 0 ∧ t = 1 then .ok [0, 1] else if s = 1 ∧ t = 3 then .ok [1, 2, 3] else .error .runtimeError,
    fun v => v == 2, [1, 3], 0, 4, ([1, 0, 1], some 2), ⟨by decide, by decide⟩, ?_, by decide, rfl, by decide, ?_⟩
  · intro s t path h
    simp only at h
    split at h
    · rename_i hc
      obtain ⟨rfl, rfl⟩ := hc
      cases h
      exact ⟨by simp [Adjacent], rfl, rfl⟩
    · split at h
      · rename_i hc
        obtain ⟨rfl, rfl⟩ := hc
        cases h
        exact ⟨by simp [Adjacent], rfl, rfl⟩
      · cases h
  · intro hc
    have h0 : OnCurve [(0, 1), (1, 2), (2, 3)] [1, 0, 1] 0 := ⟨1, 0, .inl rfl, rfl⟩
    have h2 : OnCurve [(0, 1), (1, 2), (2, 3)] [1, 0, 1] 2 := ⟨3, 2, .inl rfl, rfl⟩
    have key : ∀ v, Relation.ReflTransGen (Joined [(0, 1), (1, 2), (2, 3)] [1, 0, 1]) 0 v → v < 2 := by
      intro v hv
      induction hv with
      | refl => decide
      | tail _ hj ih =>
          obtain ⟨i, hi, hf⟩ := hj
          match i with
          | 0 => simp at hi; omega
          | 1 => simp at hf
          | 2 => simp at hi; omega
          | _ + 3 => simp at hf
    exact absurd (key 2 (hc 0 2 h0 h2)) (by decide)

/-- `fun` of the 3d-2d-1d problem returns iff there are paths between the chosen vertices, and marks exactly the edges of these
    paths. -/
theorem random_edges_exact (hE : Edges edges) (hsp : FindsPaths edges sp) (pairs : List (Nat × Nat)) :
    ((∃ f, randomEdges edges sp pairs = .ok f) ↔ ∀ p ∈ pairs, p.1 ≠ p.2 → ∃ path, sp p.1 p.2 = .ok path) ∧
    ∀ f, randomEdges edges sp pairs = .ok f → ∀ u v, Joined edges f u v ↔
      ∃ p ∈ pairs, p.1 ≠ p.2 ∧ ∃ path, sp p.1 p.2 = .ok path ∧ Consecutive path u v := by
  refine ⟨⟨fun ⟨f, hf⟩ => selectPaths_fail pairs _ f hf, fun h => ?_⟩, fun f hf u v => ?_⟩
  · obtain ⟨f, hf, _⟩ := selectPaths_ok hE hsp pairs (List.replicate edges.length 0) (by simp) h
    exact ⟨f, hf⟩
  · obtain ⟨f', hf', h'⟩ := selectPaths_ok hE hsp pairs (List.replicate edges.length 0) (by simp) (selectPaths_fail pairs _ f hf)
    obtain rfl : f = f' := Except.ok.inj (hf.symm.trans hf')
    rw [h']
    simp [joined_replicate]

/-- A line of five vertices, the first of which is on the boundary. -/
example : randomCurve [(0, 1), (1, 2), (2, 3), (3, 4)]
    (fun s t => if s ≤ t then .ok ((List.range (t + 1)).drop s) else .ok (((List.range (s + 1)).drop t).reverse))
    (fun v => v == 0) [0, 2, 2, 3, 1] 0 3 = .ok ([1, 1, 1, 0], some 0) := by decide

/-- The vertices of a path which are on the boundary are left out. -/
example : randomCurve [(0, 1), (1, 2), (2, 3)]
    (fun s t => if s ≤ t then .ok ((List.range (t + 1)).drop s) else .ok (((List.range (s + 1)).drop t).reverse))
    (fun v => v ≤ 1) [1, 3, 2] 0 2 = .ok ([0, 1, 1], some 1) := by decide

example : randomEdges [(0, 1), (1, 2), (2, 3)]
    (fun s t => if s ≤ t then .ok ((List.range (t + 1)).drop s) else .ok (((List.range (s + 1)).drop t).reverse))
    [(3, 2), (1, 0)] = .ok [1, 0, 1] := by decide

end Verif.RandomCurve
