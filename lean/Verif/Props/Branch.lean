import Verif.Lemmas.Branch2
import Verif.Lemmas.Walk
/-!
# C45, C46: branches of line meshes
-/
namespace Verif.Branch
open Verif Verif.BlockOps Verif.Embedded

/-- `color_branches` colours the cells on branches with an end, whatever elements the sets pop: two of them have
    the same colour iff they are joined by a path without branching vertices; the colours are `1, .., n`, listed as
    those of branches which return to their start and of the other ones.

    Partial: cells which are not on a branch with an end (on a separate closed curve) are not coloured. -/
theorem color_branches_partial {G : Line} (hG : G.OK) {pick : Nat → List Nat → Nat}
    (hp : ∀ k l, l ≠ [] → pick k l ∈ l) (hT : ∃ v, IsTerminal G v) :
    ∃ values branches loops n, colorBranches G pick = .ok (values, branches, loops) ∧
      values.length = G.nc ∧
      (∀ (c : Nat), c < G.nc → (OnBranch G c ↔ values[c]? ≠ some 0)) ∧
      (∀ (c c' : Nat), c < G.nc → c' < G.nc → OnBranch G c → (values[c]? = values[c']? ↔ Joined G c c')) ∧
      (∀ k, k ≠ 0 → ((∃ c : Nat, values[c]? = some k) ↔ k ≤ n)) ∧
      (∀ k, k ∈ branches ↔ k ≠ 0 ∧ ∃ c : Nat, values[c]? = some k ∧ ¬ Returns G c) ∧
      (∀ k, k ∈ loops ↔ k ≠ 0 ∧ ∃ c : Nat, values[c]? = some k ∧ Returns G c) ∧
      branches.Nodup ∧ loops.Nodup ∧ ∀ k ∈ branches, k ∉ loops := by
  have hle : todo G ⟨terminals G, List.replicate G.nc 0, 0, [], []⟩ ≤ G.nc := by
    unfold todo
    exact (Finset.card_filter_le _ _).trans (by rw [Finset.card_range])
  obtain ⟨st, e, hI, hdone⟩ := colorLoop_ok hG hp hT (2 * G.nc + 1) _ (inv_init hG) (by omega)
  have hon : ∀ (c : Nat), c < G.nc → (OnBranch G c ↔ st.values[c]? ≠ some 0) := by
    intro c hc
    refine ⟨?_, hI.onb c hc⟩
    rintro ⟨c', v, hj, hv, hcv⟩ h0
    have hmem : v ∈ st.ts.map (fun p => p.1) := by rw [hI.keys]; exact mem_terminals.2 hv
    obtain ⟨⟨v', cs⟩, hvc, rfl⟩ := List.mem_map.1 hmem
    have hcs := hdone _ hvc
    dsimp only at hcs hcv
    have hc' : c' < G.nc := ((hG.mem _ _).1 hcv).1
    have hne : st.values[c']? ≠ some 0 := by
      intro h
      have := (hI.left v' cs hvc c').2 ⟨hcv, h⟩
      rw [hcs] at this
      simp at this
    rw [← (hI.same c' c hc' hc hne).2 hj.symm] at h0
    exact hne h0
  refine ⟨st.values, st.branches, st.loops, st.color, ?_, hI.vals, hon,
    fun c c' hc hc' h => hI.same c c' hc hc' ((hon c hc).1 h), hI.used, ?_, ?_, ?_, ?_, ?_⟩
  · unfold colorBranches
    obtain ⟨v, hv⟩ := hT
    have hm := mem_terminals.2 hv
    rcases ht : terminals G with _ | ⟨t, ts⟩
    · rw [ht] at hm; simp at hm
    · dsimp only
      rw [← ht, e, py_bind_ok]
  · intro k
    rw [hI.br]
    exact ⟨fun ⟨c, a, b, d⟩ => ⟨b, c, a, d⟩, fun ⟨b, c, a, d⟩ => ⟨c, a, b, d⟩⟩
  · intro k
    rw [hI.lo]
    exact ⟨fun ⟨c, a, b, d⟩ => ⟨b, c, a, d⟩, fun ⟨b, c, a, d⟩ => ⟨c, a, b, d⟩⟩
  · exact hI.brs.imp (fun h => by omega)
  · exact hI.los.imp (fun h => by omega)
  · intro k hk hk'
    obtain ⟨c, a, b, d⟩ := (hI.br k).1 hk
    obtain ⟨c', a', _, d'⟩ := (hI.lo k).1 hk'
    have hc : c < G.nc := by rw [← hI.vals]; exact (List.getElem?_eq_some_iff.1 a).1
    have hc' : c' < G.nc := by rw [← hI.vals]; exact (List.getElem?_eq_some_iff.1 a').1
    have hj := (hI.same c' c hc' hc (by rw [a']; simpa using b)).1 (by rw [a, a'])
    exact d (d'.of_joined hj)

/-- If every cell is on a branch with an end, all are coloured, and by the branches. -/
theorem color_branches_all {G : Line} (hG : G.OK) {pick : Nat → List Nat → Nat}
    (hp : ∀ k l, l ≠ [] → pick k l ∈ l) (hT : ∃ v, IsTerminal G v) (hon : ∀ c < G.nc, OnBranch G c) :
    ∃ values branches loops, colorBranches G pick = .ok (values, branches, loops) ∧ values.length = G.nc ∧
      (∀ (c : Nat), c < G.nc → values[c]? ≠ some 0) ∧
      ∀ (c c' : Nat), c < G.nc → c' < G.nc → (values[c]? = values[c']? ↔ Joined G c c') := by
  obtain ⟨values, branches, loops, _, e, hl, h1, h2, _⟩ := color_branches_partial hG hp hT
  exact ⟨values, branches, loops, e, hl, fun c hc => (h1 c hc).1 (hon c hc), fun c c' hc hc' => h2 c c' hc hc' (hon c hc)⟩

/-- Without tips and branching vertices all the cells get the colour 1, listed as the colour of a loop: right iff
    the mesh is one closed curve. -/
theorem color_branches_closed {G : Line} (pick : Nat → List Nat → Nat) (hT : ¬ ∃ v, IsTerminal G v) :
    colorBranches G pick = .ok (List.replicate G.nc 1, [], [1]) := by
  unfold colorBranches
  rcases ht : terminals G with _ | ⟨t, ts⟩
  · rfl
  · exfalso
    exact hT ⟨t.1, mem_terminals.1 (by rw [ht]; simp)⟩

/-- **C45** exactly: every cell is coloured, and by its branch, just if every cell is on a branch with an end, or the mesh is one
closed curve. -/
theorem color_branches_iff {G : Line} (hG : G.OK) {pick : Nat → List Nat → Nat} (hp : ∀ k l, l ≠ [] → pick k l ∈ l) :
    (∃ values branches loops, colorBranches G pick = .ok (values, branches, loops) ∧
      (∀ (c : Nat), c < G.nc → values[c]? ≠ some 0) ∧
      ∀ (c c' : Nat), c < G.nc → c' < G.nc → (values[c]? = values[c']? ↔ Joined G c c')) ↔
    ((∃ v, IsTerminal G v) ∧ ∀ c < G.nc, OnBranch G c) ∨
      ((¬ ∃ v, IsTerminal G v) ∧ ∀ c c', c < G.nc → c' < G.nc → Joined G c c') := by
  by_cases hT : ∃ v, IsTerminal G v
  · obtain ⟨values, branches, loops, _, e, hl, h1, h2, _⟩ := color_branches_partial hG hp hT
    constructor
    · rintro ⟨values', branches', loops', e', h0, _⟩
      rw [e] at e'
      injection e' with e'
      injection e' with e1 _
      exact .inl ⟨hT, fun c hc => (h1 c hc).2 (by rw [e1]; exact h0 c hc)⟩
    · rintro (⟨_, hon⟩ | ⟨h, _⟩)
      · exact ⟨values, branches, loops, e, fun c hc => (h1 c hc).1 (hon c hc), fun c c' hc hc' => h2 c c' hc hc' (hon c hc)⟩
      · exact absurd hT h
  · have e := color_branches_closed pick hT
    constructor
    · rintro ⟨values, branches, loops, e', _, h⟩
      rw [e] at e'
      injection e' with e'
      injection e' with e1 _
      refine .inr ⟨hT, fun c c' hc hc' => (h c c' hc hc').1 ?_⟩
      rw [← e1, List.getElem?_replicate, List.getElem?_replicate, if_pos hc, if_pos hc']
    · rintro (⟨h, _⟩ | ⟨_, h⟩)
      · exact absurd h hT
      · refine ⟨_, _, _, e, fun c hc => by rw [List.getElem?_replicate, if_pos hc]; simp, fun c c' hc hc' => ?_⟩
        rw [List.getElem?_replicate, List.getElem?_replicate, if_pos hc, if_pos hc']
        exact ⟨fun _ => h c c' hc hc', fun _ => rfl⟩

/-- A line mesh from the list of its cells. -/
def lineOf (nv : Nat) (cells : List (Nat × Nat)) : Line :=
  ⟨nv, cells.length, fun c => cells.getD c (0, 0), fun v => (List.range cells.length).filter (fun c =>
    decide (v = (cells.getD c (0, 0)).1) || decide (v = (cells.getD c (0, 0)).2))⟩

theorem lineOf_ok (nv : Nat) (cells : List (Nat × Nat)) (h : ∀ p ∈ cells, p.1 < nv ∧ p.2 < nv ∧ p.1 ≠ p.2) :
    (lineOf nv cells).OK := by
  have hget : ∀ c, c < cells.length → cells.getD c (0, 0) ∈ cells := by
    intro c hc
    rw [List.getD_eq_getElem?_getD, List.getElem?_eq_getElem hc]
    exact List.getElem_mem hc
  refine ⟨fun c hc => ?_, fun c hc => ?_, fun v c => ?_, fun v => ?_⟩
  · obtain ⟨a, b, _⟩ := h _ (hget c hc)
    exact ⟨a, b⟩
  · exact (h _ (hget c hc)).2.2
  · unfold lineOf EndOf
    simp only [List.mem_filter, List.mem_range, Bool.or_eq_true, decide_eq_true_eq]
  · exact List.nodup_range.filter _

/-- Two separate closed curves get the same colour although they are not joined. -/
theorem color_branches_two_loops (pick : Nat → List Nat → Nat) :
    colorBranches (lineOf 6 [(0, 1), (1, 2), (0, 2), (3, 4), (4, 5), (3, 5)]) pick = .ok (List.replicate 6 1, [], [1]) ∧
      ¬ Joined (lineOf 6 [(0, 1), (1, 2), (0, 2), (3, 4), (4, 5), (3, 5)]) 0 3 := by
  constructor
  · exact color_branches_closed pick (by
      rintro ⟨v, hv, h⟩
      change v < 6 at hv
      have : ∀ v < 6, ((lineOf 6 [(0, 1), (1, 2), (0, 2), (3, 4), (4, 5), (3, 5)]).v2c v).length = 2 := by decide
      exact h (this v hv))
  · intro h
    have key : ∀ c, Joined (lineOf 6 [(0, 1), (1, 2), (0, 2), (3, 4), (4, 5), (3, 5)]) 0 c → c < 3 := by
      intro c hc
      induction hc with
      | refl => omega
      | @tail b c _ hm ih =>
          obtain ⟨v, _, ha, hb⟩ := hm
          have hG := lineOf_ok 6 [(0, 1), (1, 2), (0, 2), (3, 4), (4, 5), (3, 5)] (by decide)
          obtain ⟨a1, a2⟩ := (hG.mem _ _).1 ha
          obtain ⟨b1, b2⟩ := (hG.mem _ _).1 hb
          have hv : v < 6 := by
            rcases a2 with rfl | rfl
            · exact (hG.lt _ a1).1
            · exact (hG.lt _ a1).2
          clear a1 a2 b1 b2 hG
          by_contra hcc
          have hc6 : c < 6 := by
            have := (List.mem_filter.1 hb).1
            exact List.mem_range.1 this
          revert v
          have : ∀ v < 6, ∀ c ∈ (lineOf 6 [(0, 1), (1, 2), (0, 2), (3, 4), (4, 5), (3, 5)]).v2c v, (c < 3 ↔ v < 3) := by
            decide
          intro v _ ha hb hv
          exact hcc ((this v hv c hb).2 ((this v hv b ha).1 ih))
    exact absurd (key 3 h) (by omega)

/-- A closed curve beside a segment is not coloured. -/
theorem color_branches_loop_uncoloured :
    colorBranches (lineOf 5 [(0, 1), (1, 2), (0, 2), (3, 4)]) (fun _ l => l.headD 0) = .ok ([0, 0, 0, 1], [1], []) := by
  decide +kernel

/-- The hypotheses of `color_branches_all` for three segments with a common vertex, one of two cells. -/
example : (lineOf 5 [(0, 1), (0, 2), (0, 3), (3, 4)]).OK ∧
    (∃ v, IsTerminal (lineOf 5 [(0, 1), (0, 2), (0, 3), (3, 4)]) v) ∧
    (∀ c < 4, OnBranch (lineOf 5 [(0, 1), (0, 2), (0, 3), (3, 4)]) c) ∧
    colorBranches (lineOf 5 [(0, 1), (0, 2), (0, 3), (3, 4)]) (fun _ l => l.headD 0) = .ok ([1, 2, 3, 3], [1, 2, 3], []) := by
  refine ⟨lineOf_ok _ _ (by decide), ⟨0, by unfold IsTerminal; decide⟩, ?_, by decide +kernel⟩
  intro c hc
  have : ∃ v < 5, ((lineOf 5 [(0, 1), (0, 2), (0, 3), (3, 4)]).v2c v).length ≠ 2 ∧
      c ∈ (lineOf 5 [(0, 1), (0, 2), (0, 3), (3, 4)]).v2c v := by
    revert c
    decide
  obtain ⟨v, a, b, d⟩ := this
  exact ⟨c, v, .refl, ⟨a, b⟩, d⟩

/-- `walk_cells` of an open curve gives every cell once, from one end to the other, tip to tail.  It starts from the
    end with more cells of the mesh. -/
theorem walk_cells_branch (c2v : Nat → Nat × Nat) (v2c : Nat → List Nat) (cellF : List Nat) (tag : Nat)
    (hC : Curve c2v (whereEq cellF tag)) (h1 : ∃ v, degree c2v (whereEq cellF tag) v = 1) :
    ∃ l s e, walkCells c2v v2c cellF tag false = .ok l ∧ (l.map (fun p => p.1)).Perm (whereEq cellF tag) ∧
      TipToTail c2v l s e ∧ s ≠ e ∧ degree c2v (whereEq cellF tag) s = 1 ∧ degree c2v (whereEq cellF tag) e = 1 ∧
      (v2c e).length ≤ (v2c s).length ∧ (s :: l.map (fun p => (oriented c2v p).2)).Nodup := by
  have hn := whereEq_nodup cellF tag
  obtain ⟨s, e, c, D, e1, hs, he, hse, hv, e2, hD, h0, hl, hall⟩ := walkStart_branch hC hn v2c h1
  have hN := hC.net hn
  obtain ⟨y1, y2, y3⟩ := yields_spec hN hD h0 hl rfl
  refine ⟨_, s, e, ?_, ?_, y3, hse, ?_, he, hv, ?_⟩
  · unfold walkCells
    simp only [e1, py_bind_ok, e2]
  · rw [y1, List.perm_ext_iff_of_nodup (hD.nodup hN) hn]
    exact hall
  · change (lv2c c2v (whereEq cellF tag) s).length = 1
    rw [hs]; rfl
  · -- the vertices left and the last one
    have hheads : s :: ((c, decide ((c2v c).2 = nextVertex c2v c s)) ::
        D.tail.map (fun d => (d.1, decide ((c2v d.1).1 = d.2)))).map (fun p => (oriented c2v p).2) =
        D.map (fun d => d.2) ++ [e] := by
      have y2' := congrArg (List.map (fun q : Nat × Nat => q.2)) y2
      rw [List.map_map, List.map_map] at y2'
      have : (fun p => (oriented c2v p).2) = (fun q : Nat × Nat => q.2) ∘ oriented c2v := rfl
      rw [this, y2']
      obtain ⟨l, hl1, hl2⟩ := hl
      apply List.ext_getElem?
      intro i
      have hlen : D.length ≠ 0 := by
        intro h; rw [List.length_eq_zero_iff.1 h] at h0; simp at h0
      rcases Nat.lt_trichotomy i D.length with hi | hi | hi
      · rw [List.getElem?_append_left (by simpa using hi)]
        cases i with
        | zero => rw [List.getElem?_cons_zero, List.getElem?_map, h0]; rfl
        | succ i =>
            obtain ⟨x, hx⟩ : ∃ x, D[i + 1]? = some x := ⟨_, List.getElem?_eq_getElem hi⟩
            obtain ⟨z, hz⟩ := getElem?_prev hx
            rw [List.getElem?_cons_succ, List.getElem?_map, List.getElem?_map, hx, hz]
            exact congrArg some (hD.link i z x hz hx).other.1.symm
      · subst hi
        obtain ⟨k, hk⟩ := Nat.exists_eq_succ_of_ne_zero hlen
        rw [List.getElem?_append_right (by simp), List.length_map, Nat.sub_self, List.getElem?_cons_zero, hk,
          List.getElem?_cons_succ, List.getElem?_map]
        rw [List.getLast?_eq_getElem?, hk, Nat.succ_sub_one] at hl1
        rw [hl1]
        exact congrArg some hl2
      · rw [List.getElem?_eq_none (by simp; omega), List.getElem?_eq_none (by simp; omega)]
    rw [hheads]
    refine List.nodup_append.2 ⟨hD.tails_nodup hN, by simp, ?_⟩
    intro a ha b hb
    rw [List.mem_singleton] at hb
    subst hb
    rintro rfl
    obtain ⟨x, hx, hxe⟩ := List.mem_map.1 ha
    obtain ⟨i, hi⟩ := List.mem_iff_getElem?.1 hx
    cases i with
    | zero =>
        rw [h0] at hi
        obtain rfl := Option.some.inj hi
        exact hse hxe
    | succ i =>
        obtain ⟨z, hz⟩ := getElem?_prev hi
        have := (hD.link i z x hz hi).other.2.1
        rw [hxe] at this
        simp [he] at this

/-- `walk_cells` of a closed curve gives every cell once, from the first vertex of the first cell around to it. -/
theorem walk_cells_loop (c2v : Nat → Nat × Nat) (v2c : Nat → List Nat) (cellF : List Nat) (tag : Nat)
    (hC : Curve c2v (whereEq cellF tag)) (hne : whereEq cellF tag ≠ [])
    (h2 : ∀ c ∈ whereEq cellF tag, ∀ v, EndOf c2v v c → degree c2v (whereEq cellF tag) v = 2) :
    ∃ l s, walkCells c2v v2c cellF tag true = .ok l ∧ (l.map (fun p => p.1)).Perm (whereEq cellF tag) ∧
      TipToTail c2v l s s ∧ (l.map (fun p => (oriented c2v p).1)).Nodup := by
  have hn := whereEq_nodup cellF tag
  have hN := hC.net hn
  obtain ⟨c, cs, hcs⟩ := List.exists_cons_of_ne_nil hne
  obtain ⟨D, e2, hD, h0, hl, hall⟩ := loop_chain hC hn hcs h2
  obtain ⟨y1, y2, y3⟩ := yields_spec hN hD h0 hl rfl
  have hv1 : nextVertex c2v c (c2v c).1 = (c2v c).2 := by unfold nextVertex; rw [if_pos rfl]
  refine ⟨_, (c2v c).1, ?_, ?_, y3, ?_⟩
  · unfold walkCells walkStart
    simp only [if_true]
    rw [hv1]
    conv_lhs => rw [hcs]
    simp only [py_bind_ok]
    rw [← hcs, e2, py_bind_ok]
  · rw [y1, List.perm_ext_iff_of_nodup (hD.nodup hN) hn]
    exact hall
  · have y2' := congrArg (List.map (fun q : Nat × Nat => q.1)) y2
    rw [List.map_map, List.map_map] at y2'
    have : (fun p => (oriented c2v p).1) = (fun q : Nat × Nat => q.1) ∘ oriented c2v := rfl
    rw [this, y2']
    exact hD.tails_nodup hN

/-- `walk_vertices` of a mesh function gives the vertices in the order of the cells of `walk_cells`. -/
theorem walk_vertices_follow_partial (c2v : Nat → Nat × Nat) (v2c : Nat → List Nat) (gdim : Nat) (cellF : List Nat) (tag : Nat)
    (isLoop : Bool) (hg : 1 < gdim) (hc : 1 < cellF.length) {l : List (Nat × Bool)} {s e : Nat}
    (h : walkCells c2v v2c cellF tag isLoop = .ok l) (ht : TipToTail c2v l s e) (hne : l ≠ []) :
    ∃ vs, walkVertices c2v v2c gdim cellF tag isLoop = .ok vs ∧ vs.length = l.length + 1 ∧
      vs.head? = some s ∧ vs.getLast? = some e ∧
      ∀ (i : Nat) (p : Nat × Bool), l[i]? = some p → vs[i]? = some (oriented c2v p).1 ∧ vs[i + 1]? = some (oriented c2v p).2 := by
  obtain ⟨p, ps, rfl⟩ := List.exists_cons_of_ne_nil hne
  obtain ⟨h1, h2, h3⟩ := ht
  refine ⟨(oriented c2v p).1 :: (p :: ps).map (fun q => (oriented c2v q).2), ?_, by simp, ?_, ?_, ?_⟩
  · unfold walkVertices
    rw [decide_eq_true hg, decide_eq_true hc, pyAssert_true, py_bind_ok, py_bind_ok, h, py_bind_ok]
    rfl
  · rw [List.head?_cons, h1 p rfl]
  · rw [List.getLast?_cons, List.getLast?_map]
    obtain ⟨q, hq⟩ : ∃ q, (p :: ps).getLast? = some q := ⟨_, List.getLast?_cons⟩
    rw [hq, Option.map_some, h2 q hq]
    rfl
  · intro i q hi
    refine ⟨?_, ?_⟩
    · cases i with
      | zero =>
          obtain rfl : p = q := by simpa using hi
          rfl
      | succ i =>
          obtain ⟨z, hz⟩ := getElem?_prev hi
          rw [List.getElem?_cons_succ, List.getElem?_map, hz, Option.map_some, h3 i z q hz hi]
    · rw [List.getElem?_cons_succ, List.getElem?_map, hi]; rfl

/-- A branch of three cells, in no order and with all orientations, starting from a branching vertex. -/
example : walkCells (lineOf 5 [(0, 1), (3, 2), (4, 3), (0, 4), (0, 3)]).c2v (lineOf 5 [(0, 1), (3, 2), (4, 3), (0, 4), (0, 3)]).v2c
    [1, 2, 1, 1, 2] 1 false = .ok [(2, false), (3, false), (0, true)] := by decide +kernel

example : Curve (lineOf 5 [(0, 1), (3, 2), (4, 3), (0, 4), (0, 3)]).c2v (whereEq [1, 2, 1, 1, 2] 1) ∧
    degree (lineOf 5 [(0, 1), (3, 2), (4, 3), (0, 4), (0, 3)]).c2v (whereEq [1, 2, 1, 1, 2] 1) 1 = 1 := by
  have hw : whereEq [1, 2, 1, 1, 2] 1 = [0, 2, 3] := by decide
  rw [hw]
  refine ⟨⟨by decide, fun v => ?_, ?_⟩, by decide +kernel⟩
  · rcases Nat.lt_or_ge v 5 with h | h
    · revert v; decide +kernel
    · have : ∀ c ∈ [0, 2, 3], ¬ (v = ((lineOf 5 [(0, 1), (3, 2), (4, 3), (0, 4), (0, 3)]).c2v c).1 ∨
          v = ((lineOf 5 [(0, 1), (3, 2), (4, 3), (0, 4), (0, 3)]).c2v c).2) := by
        intro c hc
        have h5 : ∀ c ∈ [0, 2, 3], ((lineOf 5 [(0, 1), (3, 2), (4, 3), (0, 4), (0, 3)]).c2v c).1 < 5 ∧
          ((lineOf 5 [(0, 1), (3, 2), (4, 3), (0, 4), (0, 3)]).c2v c).2 < 5 := by decide +kernel
        have := h5 c hc
        omega
      rw [List.filter_eq_nil_iff.2 (by
        intro c hc
        have := this c hc
        simpa using this)]
      simp
  · have step : ∀ a ∈ [0, 2, 3], ∀ b ∈ [0, 2, 3],
        (∃ v < 5, EndOf (lineOf 5 [(0, 1), (3, 2), (4, 3), (0, 4), (0, 3)]).c2v v a ∧
          EndOf (lineOf 5 [(0, 1), (3, 2), (4, 3), (0, 4), (0, 3)]).c2v v b) →
        Relation.ReflTransGen (fun a b => a ∈ [0, 2, 3] ∧ b ∈ [0, 2, 3] ∧
          ∃ v, EndOf (lineOf 5 [(0, 1), (3, 2), (4, 3), (0, 4), (0, 3)]).c2v v a ∧
          EndOf (lineOf 5 [(0, 1), (3, 2), (4, 3), (0, 4), (0, 3)]).c2v v b) a b :=
      fun a ha b hb ⟨v, _, h1, h2⟩ => .single ⟨ha, hb, v, h1, h2⟩
    have to3 : ∀ a ∈ [0, 2, 3], ∃ v < 5, EndOf (lineOf 5 [(0, 1), (3, 2), (4, 3), (0, 4), (0, 3)]).c2v v a ∧
          EndOf (lineOf 5 [(0, 1), (3, 2), (4, 3), (0, 4), (0, 3)]).c2v v 3 := by
      unfold EndOf; decide +kernel
    intro c hc c' hc'
    obtain ⟨v, hv, a, b⟩ := to3 c' hc'
    exact (step c hc 3 (by simp) (to3 c hc)).trans (step 3 (by simp) c' hc' ⟨v, hv, b, a⟩)

end Verif.Branch
