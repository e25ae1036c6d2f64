import Verif.Lemmas.Branch
/-!
# Walking along marked cells
-/
namespace Verif.Branch
open Verif Verif.BlockOps Verif.Embedded
variable {c2v : Nat → Nat × Nat} {cells : List Nat}

theorem mem_lv2c {v c : Nat} : c ∈ lv2c c2v cells v ↔ c ∈ cells ∧ EndOf c2v v c := by
  unfold lv2c EndOf
  rw [List.mem_filter, Bool.or_eq_true, decide_eq_true_eq, decide_eq_true_eq]

theorem Curve.net (hC : Curve c2v cells) (hn : cells.Nodup) : Net c2v (lv2c c2v cells) cells :=
  ⟨fun _ _ => mem_lv2c, fun _ => hn.filter _, hC.ne⟩

theorem walk_congr {inc : Nat → List Nat} {stop stop' : Nat → Bool} : ∀ (fuel c v : Nat) (D : List (Nat × Nat)),
    walk c2v inc stop fuel c v = .ok D → (∀ x ∈ D, stop (nextVertex c2v x.1 x.2) = stop' (nextVertex c2v x.1 x.2)) →
    walk c2v inc stop' fuel c v = .ok D
  | 0, _, _, _, h, _ => by simp [walk] at h
  | fuel + 1, c, v, D, h, hx => by
      unfold walk at h ⊢
      by_cases hs : stop (nextVertex c2v c v) = true
      · rw [if_pos hs] at h
        obtain rfl := Except.ok.inj h
        have := hx (c, v) (by simp)
        rw [hs] at this
        rw [if_pos this.symm]
      · rw [if_neg hs] at h
        obtain ⟨c', e1, h⟩ := py_bind_eq_ok.1 h
        obtain ⟨rest, e2, h⟩ := py_bind_eq_ok.1 h
        obtain rfl := Except.ok.inj h
        have := hx (c, v) (by simp)
        rw [if_neg (by rw [← this]; exact hs), e1, py_bind_ok,
          walk_congr fuel c' _ rest e2 (fun x hm => hx x (by simp [hm])), py_bind_ok]

/-- A chain which leaves no vertex of its cells with other cells has all the cells. -/
theorem Chain.all {stop : Nat → Bool} {D : List (Nat × Nat)} (hC : Curve c2v cells)
    (hD : Chain c2v (lv2c c2v cells) stop cells D) {d : Nat × Nat} (h0 : D[0]? = some d)
    (hcl : ∀ x ∈ D, ∀ v, EndOf c2v v x.1 → ∀ c ∈ lv2c c2v cells v, c ∈ D.map (fun d => d.1)) :
    ∀ c, c ∈ D.map (fun d => d.1) ↔ c ∈ cells := by
  intro c
  have hd := List.mem_iff_getElem?.2 ⟨0, h0⟩
  constructor
  · intro h
    obtain ⟨x, hx, rfl⟩ := List.mem_map.1 h
    exact (hD.valid x hx).1
  · intro hc
    have := hC.conn d.1 (hD.valid d hd).1 c hc
    induction this with
    | refl => exact List.mem_map.2 ⟨d, hd, rfl⟩
    | tail _ hm ih =>
        obtain ⟨ha, hb, v, va, vb⟩ := hm
        obtain ⟨x, hx, rfl⟩ := List.mem_map.1 (ih ha)
        exact hcl x hx v va _ (mem_lv2c.2 ⟨hb, vb⟩)

theorem one_cell {v c c' : Nat} (h : (lv2c c2v cells v).length = 1) (hc : c ∈ lv2c c2v cells v)
    (hc' : c' ∈ lv2c c2v cells v) : c = c' := by
  obtain ⟨a, ha⟩ := List.length_eq_one_iff.1 h
  rw [ha, List.mem_singleton] at hc hc'
  rw [hc, hc']

/-- In a chain only the first element can have the first cell. -/
theorem Chain.last_first {inc : Nat → List Nat} {S : List Nat} {stop : Nat → Bool} {D : List (Nat × Nat)} (hN : Net c2v inc S)
    (hD : Chain c2v inc stop S D) {d l : Nat × Nat} (h0 : D[0]? = some d) (hl : D.getLast? = some l)
    (h : l.1 = d.1) : l = d := by
  rw [List.getLast?_eq_getElem?] at hl
  by_cases hlen : D.length - 1 = 0
  · rw [hlen, h0] at hl
    exact (Option.some.inj hl).symm
  · exact absurd h.symm (hD.cells hN _ 0 (D.length - 1) d l rfl (by omega) h0 hl)

/-- The walk along a curve from a vertex with one cell. -/
theorem branch_chain (hC : Curve c2v cells) (hn : cells.Nodup) {s c : Nat} (hs : lv2c c2v cells s = [c]) :
    ∃ D l, walk c2v (lv2c c2v cells) (fun v => decide ((lv2c c2v cells v).length ≠ 2)) (cells.length + 1) c s = .ok D ∧
      Chain c2v (lv2c c2v cells) (fun v => decide ((lv2c c2v cells v).length ≠ 2)) cells D ∧
      D[0]? = some (c, s) ∧ D.getLast? = some l ∧ (∀ c, c ∈ D.map (fun d => d.1) ↔ c ∈ cells) ∧
      (lv2c c2v cells (nextVertex c2v l.1 l.2)).length = 1 ∧ nextVertex c2v l.1 l.2 ≠ s ∧
      ∀ v, (lv2c c2v cells v).length = 1 → v = s ∨ v = nextVertex c2v l.1 l.2 := by
  have hN := hC.net hn
  have hcs : c ∈ lv2c c2v cells s := by rw [hs]; simp
  have hs1 : (lv2c c2v cells s).length = 1 := by rw [hs]; rfl
  obtain ⟨D, e, hD, h0, l, hlast, hstop⟩ := walk_ok hN
    (stop := fun v => decide ((lv2c c2v cells v).length ≠ 2)) (by
      intro v c h _
      simpa using h) (fuel := cells.length + 1) (by omega) (d := (c, s)) ((hN.mem _ _).1 hcs) (by simp [hs1])
  have hl := hD.valid l (List.mem_of_getLast? hlast)
  have hle : l.1 ∈ lv2c c2v cells (nextVertex c2v l.1 l.2) := mem_lv2c.2 ⟨hl.1, nextVertex_end _ _ _⟩
  have hf1 : (lv2c c2v cells (nextVertex c2v l.1 l.2)).length = 1 := by
    have h2 := hC.two (nextVertex c2v l.1 l.2)
    have h3 : (lv2c c2v cells (nextVertex c2v l.1 l.2)).length ≠ 2 := by simpa using hstop
    have h4 := List.length_pos_of_mem hle
    change (lv2c c2v cells (nextVertex c2v l.1 l.2)).length ≤ 2 at h2
    omega
  have hall : ∀ c, c ∈ D.map (fun d => d.1) ↔ c ∈ cells := by
    refine hD.all hC h0 ?_
    intro x hx v hv c' hc'
    have hxv : x.1 ∈ lv2c c2v cells v := mem_lv2c.2 ⟨(hD.valid x hx).1, hv⟩
    rcases hD.ends h0 hlast hx hv with ⟨rfl, rfl⟩ | ⟨rfl, rfl⟩ | ⟨_, h⟩
    · rw [one_cell hs1 hc' hxv]; exact List.mem_map.2 ⟨_, hx, rfl⟩
    · rw [one_cell hf1 hc' hxv]; exact List.mem_map.2 ⟨_, hx, rfl⟩
    · exact h c' hc'
  refine ⟨D, l, e, hD, h0, hlast, hall, hf1, ?_, ?_⟩
  · intro hfs
    rw [hfs] at hle
    have := hD.last_first hN h0 hlast (one_cell hs1 hle hcs)
    subst this
    exact nextVertex_ne (hC.ne _ hl.1) hfs
  · intro v hv
    obtain ⟨x, hx⟩ := List.length_eq_one_iff.1 hv
    have hxm : x ∈ lv2c c2v cells v := by rw [hx]; simp
    obtain ⟨hxc, hxe⟩ := mem_lv2c.1 hxm
    obtain ⟨y, hy, rfl⟩ := List.mem_map.1 ((hall x).2 hxc)
    rcases hD.ends h0 hlast hy hxe with ⟨rfl, rfl⟩ | ⟨rfl, rfl⟩ | ⟨h, _⟩
    · exact .inl rfl
    · exact .inr rfl
    · simp only [decide_eq_false_iff_not, not_not] at h
      omega

theorem mem_lverts {v : Nat} : v ∈ lverts c2v cells ↔ ∃ c ∈ cells, EndOf c2v v c := by
  unfold lverts
  rw [List.mem_reverse, List.mem_dedup, List.mem_reverse, List.mem_flatMap]
  simp [EndOf]

theorem lverts_nodup (c2v : Nat → Nat × Nat) (cells : List Nat) : (lverts c2v cells).Nodup := by
  unfold lverts
  rw [List.nodup_reverse]
  exact List.nodup_dedup _

theorem nodup_pair {l : List Nat} (hn : l.Nodup) {a b : Nat} (hab : a ≠ b) (h : ∀ x, x ∈ l ↔ x = a ∨ x = b) :
    l = [a, b] ∨ l = [b, a] := by
  rcases l with _ | ⟨x, _ | ⟨y, _ | ⟨z, t⟩⟩⟩
  · simpa using (h a).2 (.inl rfl)
  · have h1 := (h a).2 (.inl rfl)
    have h2 := (h b).2 (.inr rfl)
    rw [List.mem_singleton] at h1 h2
    exact absurd (h1.trans h2.symm) hab
  · have hx := (h x).1 (by simp)
    have hy := (h y).1 (by simp)
    have hxy : x ≠ y := by simpa using hn
    rcases hx with rfl | rfl <;> rcases hy with rfl | rfl
    · exact absurd rfl hxy
    · exact .inl rfl
    · exact .inr rfl
    · exact absurd rfl hxy
  · exfalso
    have hx := (h x).1 (by simp)
    have hy := (h y).1 (by simp)
    have hz := (h z).1 (by simp)
    simp only [List.nodup_cons, List.mem_cons, not_or] at hn
    obtain ⟨⟨n1, n2, _⟩, ⟨n3, _⟩, _⟩ := hn
    rcases hx with rfl | rfl <;> rcases hy with rfl | rfl <;> rcases hz with rfl | rfl <;> simp_all

/-- The walk of `walk_cells` starts from one end of a curve and ends at the other. -/
theorem walkStart_branch (hC : Curve c2v cells) (hn : cells.Nodup) (v2c : Nat → List Nat)
    (h1 : ∃ v, degree c2v cells v = 1) :
    ∃ s e c D, walkStart c2v v2c cells false = .ok (s, e, c, nextVertex c2v c s) ∧
      lv2c c2v cells s = [c] ∧ (lv2c c2v cells e).length = 1 ∧ s ≠ e ∧ (v2c e).length ≤ (v2c s).length ∧
      walk c2v (lv2c c2v cells) (fun v => decide (v = e)) (cells.length + 1) c s = .ok D ∧
      Chain c2v (lv2c c2v cells) (fun v => decide ((lv2c c2v cells v).length ≠ 2)) cells D ∧
      D[0]? = some (c, s) ∧ (∃ l, D.getLast? = some l ∧ nextVertex c2v l.1 l.2 = e) ∧
      (∀ c, c ∈ D.map (fun d => d.1) ↔ c ∈ cells) := by
  obtain ⟨v, hv⟩ := h1
  change (lv2c c2v cells v).length = 1 at hv
  obtain ⟨cv, hcv⟩ := List.length_eq_one_iff.1 hv
  obtain ⟨_, l, _, _, _, _, _, hw1, hwv, honly⟩ := branch_chain hC hn hcv
  have hfilter : ∀ x, x ∈ (lverts c2v cells).filter (fun v => decide ((lv2c c2v cells v).length = 1)) ↔
      x = v ∨ x = nextVertex c2v l.1 l.2 := by
    intro x
    rw [List.mem_filter, decide_eq_true_eq]
    have hmem : ∀ y, (lv2c c2v cells y).length = 1 → y ∈ lverts c2v cells := by
      intro y hy
      obtain ⟨c, hc⟩ := List.length_eq_one_iff.1 hy
      have : c ∈ lv2c c2v cells y := by rw [hc]; simp
      exact mem_lverts.2 ⟨c, mem_lv2c.1 this⟩
    constructor
    · exact fun h => honly x h.2
    · rintro (rfl | rfl)
      · exact ⟨hmem _ hv, hv⟩
      · exact ⟨hmem _ hw1, hw1⟩
  obtain ⟨a, b, hab, hf, ha1, hb1⟩ : ∃ a b, a ≠ b ∧
      (lverts c2v cells).filter (fun v => decide ((lv2c c2v cells v).length = 1)) = [a, b] ∧
      (lv2c c2v cells a).length = 1 ∧ (lv2c c2v cells b).length = 1 := by
    rcases nodup_pair ((lverts_nodup c2v cells).filter _) (fun h => hwv h.symm) hfilter with h | h
    · exact ⟨_, _, fun h => hwv h.symm, h, hv, hw1⟩
    · exact ⟨_, _, hwv, h, hw1, hv⟩
  have hab2 : ∀ x, (lv2c c2v cells x).length = 1 → x = a ∨ x = b := by
    intro x hx
    have : x ∈ (lverts c2v cells).filter (fun v => decide ((lv2c c2v cells v).length = 1)) := (hfilter x).2 (honly x hx)
    rw [hf] at this
    simpa using this
  obtain ⟨s, e, hse, hs, he, hs1, he1, hsv, hor⟩ : ∃ s e, s ≠ e ∧ s = (if (v2c a).length < (v2c b).length then b else a) ∧
      e = (if (v2c a).length < (v2c b).length then a else b) ∧ (lv2c c2v cells s).length = 1 ∧
      (lv2c c2v cells e).length = 1 ∧ (v2c e).length ≤ (v2c s).length ∧
      ∀ x, (lv2c c2v cells x).length = 1 → x = s ∨ x = e := by
    by_cases h : (v2c a).length < (v2c b).length
    · exact ⟨b, a, fun h => hab h.symm, by rw [if_pos h], by rw [if_pos h], hb1, ha1, by omega,
        fun x hx => (hab2 x hx).symm⟩
    · exact ⟨a, b, hab, by rw [if_neg h], by rw [if_neg h], ha1, hb1, by omega, hab2⟩
  obtain ⟨c, hc⟩ := List.length_eq_one_iff.1 hs1
  obtain ⟨D, l, eD, hD, h0, hlast, hall, hf1, hfs, honly⟩ := branch_chain hC hn hc
  have hfe : nextVertex c2v l.1 l.2 = e := by
    rcases hor _ hf1 with h | h
    · exact absurd h hfs
    · exact h
  have hcm : c ∈ lv2c c2v cells s := by rw [hc]; simp
  have hce := (mem_lv2c.1 hcm).2
  have hcn := hC.ne c (mem_lv2c.1 hcm).1
  refine ⟨s, e, c, D, ?_, hc, he1, hse, hsv, ?_, hD, h0, ⟨l, hlast, hfe⟩, hall⟩
  · unfold walkStart
    rw [if_neg (by simp), hf]
    dsimp only
    rw [← hs, ← he, hc]
    dsimp only
    have hd : [(c2v c).1, (c2v c).2].dedup = [(c2v c).1, (c2v c).2] := by
      rw [List.dedup_eq_self]; simpa using hcn
    rw [hd]
    have hfin : [(c2v c).1, (c2v c).2].filter (fun v => decide (v ≠ s)) = [nextVertex c2v c s] := by
      unfold nextVertex
      rcases hce with h | h
      · rw [if_pos h, h]
        simp [Ne.symm hcn]
      · rw [if_neg (by rw [h]; exact Ne.symm hcn), h]
        simp [hcn]
    rw [hfin]
  · refine walk_congr _ _ _ _ eD ?_
    intro x hx
    have hxv := hD.valid x hx
    rcases hD.ends h0 hlast hx (nextVertex_end c2v x.1 x.2) with ⟨h, rfl⟩ | ⟨h, rfl⟩ | ⟨h, _⟩
    · exact absurd h (nextVertex_ne (hC.ne _ hxv.1))
    · rw [hfe]; simp [he1]
    · rw [h]
      symm
      rw [decide_eq_false_iff_not]
      intro h'
      rw [h'] at h
      simp [he1] at h

/-- The walk around a closed curve. -/
theorem loop_chain (hC : Curve c2v cells) (hn : cells.Nodup) {c : Nat} {cs : List Nat} (hcs : cells = c :: cs)
    (h2 : ∀ x ∈ cells, ∀ v, EndOf c2v v x → degree c2v cells v = 2) :
    ∃ D, walk c2v (lv2c c2v cells) (fun v => decide (v = (c2v c).1)) (cells.length + 1) c (c2v c).1 = .ok D ∧
      Chain c2v (lv2c c2v cells) (fun v => decide (v = (c2v c).1)) cells D ∧
      D[0]? = some (c, (c2v c).1) ∧ (∃ l, D.getLast? = some l ∧ nextVertex c2v l.1 l.2 = (c2v c).1) ∧
      (∀ c, c ∈ D.map (fun d => d.1) ↔ c ∈ cells) := by
  have hN := hC.net hn
  have hcm : c ∈ cells := by rw [hcs]; simp
  obtain ⟨D, e, hD, h0, l, hlast, hstop⟩ := walk_ok hN
    (stop := fun v => decide (v = (c2v c).1)) (by
      intro v x _ hx
      obtain ⟨a, b⟩ := mem_lv2c.1 hx
      exact h2 x a v b) (fuel := cells.length + 1) (by omega) (d := (c, (c2v c).1)) ⟨hcm, .inl rfl⟩ (by simp)
  have hfs : nextVertex c2v l.1 l.2 = (c2v c).1 := by simpa using hstop
  have hl := hD.valid l (List.mem_of_getLast? hlast)
  refine ⟨D, e, hD, h0, ⟨l, hlast, hfs⟩, ?_⟩
  have hs : ∀ x ∈ lv2c c2v cells (c2v c).1, x = c ∨ x = l.1 := by
    have hdeg : (lv2c c2v cells (c2v c).1).length = 2 := h2 c hcm _ (.inl rfl)
    have m1 : c ∈ lv2c c2v cells (c2v c).1 := mem_lv2c.2 ⟨hcm, .inl rfl⟩
    have m2 : l.1 ∈ lv2c c2v cells (c2v c).1 := mem_lv2c.2 ⟨hl.1, by rw [← hfs]; exact nextVertex_end _ _ _⟩
    have hne : l.1 ≠ c := by
      intro h
      have := hD.last_first hN h0 hlast h
      rw [this] at hfs
      exact nextVertex_ne (hC.ne _ hcm) hfs
    rcases hh : lv2c c2v cells (c2v c).1 with _ | ⟨a, _ | ⟨b, _ | ⟨z, t⟩⟩⟩
    · simp
    · rw [hh] at hdeg; simp at hdeg
    · rw [hh] at m1 m2
      intro x hx
      simp only [List.mem_cons, List.not_mem_nil, or_false] at m1 m2 hx
      rcases m1 with rfl | rfl <;> rcases m2 with h | h <;> rcases hx with rfl | rfl <;> simp_all
    · rw [hh] at hdeg; simp at hdeg
  refine hD.all hC h0 ?_
  intro x hx v hv c' hc'
  have hmem : ∀ y, y = c ∨ y = l.1 → y ∈ D.map (fun d => d.1) := by
    rintro y (rfl | rfl)
    · exact List.mem_map.2 ⟨_, List.mem_iff_getElem?.2 ⟨0, h0⟩, rfl⟩
    · exact List.mem_map.2 ⟨_, List.mem_of_getLast? hlast, rfl⟩
  rcases hD.ends h0 hlast hx hv with ⟨rfl, rfl⟩ | ⟨rfl, rfl⟩ | ⟨_, h⟩
  · exact hmem _ (hs _ hc')
  · rw [hfs] at hc'
    exact hmem _ (hs _ hc')
  · exact h c' hc'

/-- The orientation of the yielded cells. -/
theorem oriented_eq {c v : Nat} (hv : EndOf c2v v c) (hne : (c2v c).1 ≠ (c2v c).2) :
    oriented c2v (c, decide ((c2v c).1 = v)) = (v, nextVertex c2v c v) := by
  unfold oriented nextVertex
  rcases hv with rfl | rfl
  · simp
  · simp [hne, Ne.symm hne]

theorem oriented_eq' {c v : Nat} (hv : EndOf c2v v c) (hne : (c2v c).1 ≠ (c2v c).2) :
    oriented c2v (c, decide ((c2v c).2 = nextVertex c2v c v)) = (v, nextVertex c2v c v) := by
  unfold oriented nextVertex
  rcases hv with rfl | rfl
  · simp
  · simp [Ne.symm hne]

/-- What is yielded for a chain. -/
theorem yields_spec {inc : Nat → List Nat} {stop : Nat → Bool} {S : List Nat} (hN : Net c2v inc S)
    {D : List (Nat × Nat)} (hD : Chain c2v inc stop S D) {c s e : Nat} (h0 : D[0]? = some (c, s))
    (hl : ∃ l, D.getLast? = some l ∧ nextVertex c2v l.1 l.2 = e)
    {L : List (Nat × Bool)} (hL : L = (c, decide ((c2v c).2 = nextVertex c2v c s)) ::
      D.tail.map (fun d => (d.1, decide ((c2v d.1).1 = d.2)))) :
    L.map (fun p => p.1) = D.map (fun d => d.1) ∧ L.map (oriented c2v) = D.map (fun d => (d.2, nextVertex c2v d.1 d.2)) ∧
      TipToTail c2v L s e := by
  rcases D with _ | ⟨d, D⟩
  · simp at h0
  · obtain rfl : d = (c, s) := by simpa using h0
    rw [List.tail_cons] at hL
    have hor : L.map (oriented c2v) = ((c, s) :: D).map (fun d => (d.2, nextVertex c2v d.1 d.2)) := by
      rw [hL, List.map_cons, List.map_cons, List.map_map]
      have hv := hD.valid (c, s) (by simp)
      rw [oriented_eq' hv.2 (hN.ne _ hv.1)]
      congr 1
      apply List.map_congr_left
      intro x hx
      have hv := hD.valid x (by simp [hx])
      exact oriented_eq hv.2 (hN.ne _ hv.1)
    have hget : ∀ (i : Nat) (p : Nat × Bool), L[i]? = some p →
        ∃ x, ((c, s) :: D)[i]? = some x ∧ oriented c2v p = (x.2, nextVertex c2v x.1 x.2) := by
      intro i p hp
      have : (L.map (oriented c2v))[i]? = some (oriented c2v p) := by rw [List.getElem?_map, hp]; rfl
      rw [hor, List.getElem?_map] at this
      obtain ⟨x, hx, he⟩ := Option.map_eq_some_iff.1 this
      exact ⟨x, hx, he.symm⟩
    have hlen : L.length = ((c, s) :: D).length := by rw [hL]; simp
    refine ⟨?_, hor, ?_, ?_, ?_⟩
    · rw [hL]
      simp only [List.map_cons, List.map_map]
      rfl
    · intro p hp
      rw [List.head?_eq_getElem?] at hp
      obtain ⟨x, hx, he⟩ := hget 0 p hp
      rw [h0] at hx
      rw [he, ← Option.some.inj hx]
    · intro p hp
      obtain ⟨l, hl1, hl2⟩ := hl
      rw [List.getLast?_eq_getElem?] at hp hl1
      obtain ⟨x, hx, he⟩ := hget _ p hp
      rw [hlen, hl1] at hx
      rw [he, ← Option.some.inj hx]
      exact hl2
    · intro i p q hp hq
      obtain ⟨x, hx, he⟩ := hget _ p hp
      obtain ⟨y, hy, he'⟩ := hget _ q hq
      rw [he, he']
      exact (hD.link i x y hx hy).other.1.symm

/-- The vertices a chain leaves are different. -/
theorem Chain.tails_nodup {inc : Nat → List Nat} {stop : Nat → Bool} {S : List Nat} (hN : Net c2v inc S)
    {D : List (Nat × Nat)} (hD : Chain c2v inc stop S D) : (D.map (fun d => d.2)).Nodup := by
  rw [List.Nodup, List.pairwise_iff_getElem]
  intro i j hi hj hij
  rw [List.length_map] at hi hj
  rw [List.getElem_map, List.getElem_map]
  intro h
  have gi := List.getElem?_eq_getElem hi
  have gj := List.getElem?_eq_getElem hj
  obtain ⟨j, rfl⟩ := Nat.exists_eq_succ_of_ne_zero (by omega : j ≠ 0)
  obtain ⟨y, hy⟩ := getElem?_prev gj
  obtain ⟨_, b, _, e⟩ := (hD.link j y _ hy gj).other
  cases i with
  | zero =>
      have := hD.first _ gi
      rw [h, b] at this
      simp at this
  | succ i =>
      obtain ⟨x, hx⟩ := getElem?_prev gi
      obtain ⟨_, _, _, e'⟩ := (hD.link i x _ hx gi).other
      have hc := (e' (D[j + 1].1)).1 (by rw [h]; exact (e _).2 (.inr rfl))
      rcases hc with hc | hc
      · exact hD.cells hN _ i (j + 1) _ _ rfl (by omega) hx gj hc.symm
      · exact hD.cells hN _ (i + 1) (j + 1) _ _ rfl (by omega) gi gj hc.symm

end Verif.Branch
