import Verif.Lemmas.TraceForm
/-!
# C82: traces localised by tags
-/
namespace Verif.TraceForm
open Verif Verif.BlockOps Verif.DofMat Verif.Trace Verif.Embedding Verif.TransposeTrace
variable {K X : Type}

section ring
variable [CommRing K] {g : Nat} {C : Meshes} {id : Nat} {marking : Option (List Nat)}

theorem tracesOn_of_evaluates {V TV : Space K X} {cells : List Nat} {f : Nat → Nat} {M : Mat K}
    {selected : Nat → Prop} {cell : Nat → Nat → Prop} (hc : ∀ c, c ∈ cells ↔ selected c)
    (hf : ∀ c, selected c → cell c (f c)) (hE : EvaluatesDofs V TV cells (fun t _ => some (f t)) M) :
    TracesOn V TV selected cell M := by
  refine ⟨hE.rows, hE.cols, fun c h => ⟨f c, hf c h⟩, fun u tr htr hz d => ?_⟩
  by_cases hd : ∃ c, selected c ∧ d ∈ TV.cellDofs c
  · obtain ⟨c, hcs, hdc⟩ := hd
    obtain ⟨l, hl⟩ := List.getElem?_of_mem hdc
    have hu : Unambiguous V TV cells f u := by
      intro a ha b hb l l' e hla hlb
      rw [← htr a (f a) l e ((hc a).1 ha) (hf a ((hc a).1 ha)) hla,
        ← htr b (f b) l' e ((hc b).1 hb) (hf b ((hc b).1 hb)) hlb]
    rw [htr c (f c) l d hcs (hf c hcs) hl]
    exact hE.all hu ((hc c).2 hcs) hl
  · push Not at hd
    rw [hz d hd]
    exact hE.untouched u d (fun c h => hd c ((hc c).1 h))

/-- `Trace(v, mesh, tag=...)` onto a conforming mesh, whatever traces onto the mesh were assembled before and for
    whatever tags: on the cells with the tags the matrix evaluates the degrees of freedom on the first cell
    connected to the facet, other rows are zero.  Without tags all cells are used.  The normal does not matter. -/
theorem trace_localised (hC : Conforming C id) (hm : (marksOf marking C.numCells).length = C.numCells)
    {t : TraceMesh} (ht : Prepared C id t) (before : List (Call K X g)) {c : Call K X g}
    (h1 : c.args.isTerminal = true) (h2 : c.args.cellOk = true) (h3 : c.compatible = true)
    (hr : c.args.restriction = "") (htag : c.args.tag.Legal marking) (hV : c.V.WF) (hT : c.TV.WF)
    (hL : c.TV.LinearDofs) (hh : c.D.hdivTrace = none) (hdg : c.TV.isDG = true → Discontinuous c.TV)
    (hnV : c.V.numCells = (C.topo id).numCells) (hnT : c.TV.numCells = C.numCells) :
    ∃ M, (traceCall C marking id c (afterCalls C marking id before t)).1 = .ok M ∧
      TracesOn c.V c.TV (c.args.tag.Selects (marksOf marking C.numCells))
        (fun k b => ∃ e, Lies C id k e ∧ ((C.topo id).e2c e).head? = some b) M := by
  obtain ⟨tags, m, hnd, hsel, hmap, heq⟩ := traceCall_eq hC hm (afterCalls_good hC hm before (ht.good hm)) h1 h2
    (c := c) (r := .none) (by rw [hr]; rfl) (by simp) htag
  have hcells : ∀ k, k ∈ traceCells (marksOf marking C.numCells) tags ↔
      c.args.tag.Selects (marksOf marking C.numCells) k := fun k => by rw [mem_traceCells, ← hsel k]
  have hex : ∀ k, ∃ f b, c.args.tag.Selects (marksOf marking C.numCells) k →
      m.lookup k = some f ∧ Lies C id k f ∧ ((C.topo id).e2c f).head? = some b ∧ b < c.V.numCells := by
    intro k
    by_cases hk : c.args.tag.Selects (marksOf marking C.numCells) k
    · obtain ⟨e, he, hl⟩ := hmap k hk
      obtain ⟨b, l, hb⟩ := List.exists_cons_of_ne_nil (hC.background.covered e hl.1)
      refine ⟨e, b, fun _ => ⟨he, hl, by rw [hb]; rfl, ?_⟩⟩
      rw [hnV]
      exact ((hC.background.simplicial.e2c e hl.1 b).1 (by rw [hb]; simp)).1
    · exact ⟨0, 0, fun h => absurd h hk⟩
  choose facet cell hfc using hex
  obtain ⟨M, hM, hE⟩ := no_restrict_evaluates_dofs (D := { c.D with
      map1 := .ok (), map2 := .ok (), marks := marksOf marking C.numCells, tags := tags,
      f2c := (C.topo id).e2c, mapping := m }) hV hT hL rfl rfl hh (hm.trans hnT.symm) hnd hdg
    (facet := facet) (cell := cell) (fun k hk => by
      obtain ⟨a, _, b, d⟩ := hfc k ((hcells k).1 hk)
      exact ⟨a, b, d⟩)
  refine ⟨M, ?_, tracesOn_of_evaluates hcells (fun k hk => ⟨facet k, (hfc k hk).2.1, (hfc k hk).2.2.1⟩) hE⟩
  rw [heq, traceMat, h3]
  exact hM

/-- One-sided traces, with a cell on each side of the normal: the matrix evaluates the degrees of freedom on the cell
    on the minus side for '+', and on the plus side for '-' (the sides are those of the documentation). -/
theorem trace_localised_side (hC : Conforming C id) (hm : (marksOf marking C.numCells).length = C.numCells)
    {t : TraceMesh} (ht : Prepared C id t) (before : List (Call K X g)) {c : Call K X g}
    (h1 : c.args.isTerminal = true) (h2 : c.args.cellOk = true) (h3 : c.compatible = true)
    (hr : c.args.restriction = "+" ∨ c.args.restriction = "-") {n : Nat → Fin g → ℝ}
    (hn : c.args.normal = some (true, n)) (htag : c.args.tag.Legal marking) (hV : c.V.WF) (hT : c.TV.WF)
    (hL : c.TV.LinearDofs) (hh : c.D.hdivTrace = none) (hdg : c.TV.isDG = true → Discontinuous c.TV)
    (hnV : c.V.numCells = (C.topo id).numCells) (hnT : c.TV.numCells = C.numCells) {plus minus : Nat → Nat}
    (hside : ∀ k e, c.args.tag.Selects (marksOf marking C.numCells) k → Lies C id k e →
      (Facet.interior (plus k) (minus k)).Describes (n k) (c.D.tmid k) c.D.mid ((C.topo id).e2c e)) :
    ∃ M, (traceCall C marking id c (afterCalls C marking id before t)).1 = .ok M ∧
      TracesOn c.V c.TV (c.args.tag.Selects (marksOf marking C.numCells))
        (fun k b => b = if c.args.restriction = "+" then minus k else plus k) M := by
  obtain ⟨s, hs, hcell⟩ : ∃ s : Side, restr c.args.restriction = .ok (.one s) ∧
      ∀ k e, c.args.tag.Selects (marksOf marking C.numCells) k → Lies C id k e →
        pickCell s ((C.topo id).e2c e) (n k) (c.D.tmid k) c.D.mid =
          .ok (if c.args.restriction = "+" then minus k else plus k) := by
    rcases hr with hr | hr <;> rw [hr]
    · exact ⟨.plus, rfl, fun k e hk he => (one_restrict_sides (hside k e hk he)).1⟩
    · exact ⟨.minus, rfl, fun k e hk he => (one_restrict_sides (hside k e hk he)).2⟩
  have hne : c.args.restriction ≠ "" := by
    rcases hr with hr | hr <;> rw [hr] <;> decide
  obtain ⟨tags, m, hnd, hsel, hmap, heq⟩ := traceCall_eq hC hm (afterCalls_good hC hm before (ht.good hm)) h1 h2
    (c := c) (r := .one s) hs (by simp) htag
  have hcells : ∀ k, k ∈ traceCells (marksOf marking C.numCells) tags ↔
      c.args.tag.Selects (marksOf marking C.numCells) k := fun k => by rw [mem_traceCells, ← hsel k]
  obtain ⟨M, hM, hE⟩ := one_restrict_evaluates_dofs (D := { c.D with
      map1 := .ok (), map2 := .ok (), marks := marksOf marking C.numCells, tags := tags,
      f2c := (C.topo id).e2c, mapping := m }) (side := s) (normal := n)
    (cell := fun k => if c.args.restriction = "+" then minus k else plus k) hV hT hL rfl hh (hm.trans hnT.symm) hnd hdg
    (fun k hk => by
      have hk := (hcells k).1 hk
      obtain ⟨e, he, hl⟩ := hmap k hk
      have hb := hcell k e hk hl
      refine ⟨?_, ?_⟩
      · simp only [sideCell, dictGet, he, py_bind_ok]
        exact hb
      · rw [hnV]
        obtain ⟨hfc, _, _⟩ := hside k e hk hl
        refine ((hC.background.simplicial.e2c e hl.1 _).1 ?_).1
        rcases hfc with h | h <;> rw [h] <;> split <;> simp)
  refine ⟨M, ?_, tracesOn_of_evaluates hcells (fun k hk => rfl) hE⟩
  rw [heq, h3, if_neg hne, hn]
  exact hM

/-- Tags which are no values of the marking function are refused, and the trace mesh is not changed. -/
theorem trace_tag_refused {c : Call K X g} (htag : ¬ c.args.tag.Legal marking) (t : TraceMesh) :
    ∃ e, traceCall C marking id c t = (.error e, t) := by
  have h : ∃ e, traceForm marking C.numCells c.args = .error e := by
    cases h : traceForm marking C.numCells c.args with
    | error e => exact ⟨e, rfl⟩
    | ok b =>
        obtain ⟨_, _, h3⟩ := traceForm_ok h
        rw [tagData_error htag] at h3
        cases h3
  obtain ⟨e, h⟩ := h
  exact ⟨e, by rw [traceCall, h]⟩

/-- Any other kind of restriction raises, and the trace mesh is not changed. -/
theorem trace_restriction_refused {c : Call K X g} (h : c.args.restriction ∉ ["", "+", "-"]) (t : TraceMesh) :
    ∃ e, traceCall C marking id c t = (.error e, t) := by
  rw [traceCall]
  cases hf : traceForm marking C.numCells c.args with
  | error e => exact ⟨e, rfl⟩
  | ok b =>
      obtain ⟨h1, _, _⟩ := traceForm_ok hf
      dsimp only
      rw [reduceAnnot]
      have : (reductionData b).1 = c.args.restriction := h1
      rw [this]
      simp only [List.mem_cons, List.not_mem_nil, or_false, not_or] at h
      obtain ⟨ha, hb, hc⟩ := h
      rw [restr, if_neg ha, if_neg hb, if_neg hc]
      have key : ∀ w, ∃ e, reduce C id c.compatible c.V c.TV c.D (.two w) (reductionData b).2.1 (reductionData b).2.2 t =
          (.error e, t) := by
        intro w
        rw [reduce]
        obtain ⟨e, he, _⟩ := trace_mat_two_sided_raises c.V c.TV { c.D with
            map1 := .ok (), map2 := .ok (), marks := (reductionData b).2.2.1, tags := (reductionData b).2.2.2,
            f2c := (C.topo id).e2c, mapping := ((t.maps.getD []).lookup id).getD [] } c.compatible w
          (((reductionData b).2.1.map Prod.fst).getD false) ((reductionData b).2.1.map Prod.snd)
        refine ⟨e, Prod.ext_iff.2 ⟨he, ?_⟩⟩
        simp [reaches]
      split
      · exact ⟨_, rfl⟩
      · next r hr =>
        split at hr
        · injection hr with hr; subst hr; exact key _
        · split at hr
          · injection hr with hr; subst hr; exact key _
          · cases hr

end ring

/-! ## The hypotheses are met: the edges 1-2 and 1-3 of the triangles 0-1-2, 1-2-3 -/

/-- Vertices 0, 1, 2 of the trace mesh are the vertices 1, 2, 3 of the mesh 5; the edges are its facets 2 and 3. -/
def edges : Meshes where
  edim := 1
  numVerts := 3
  numCells := 2
  cells c := [[0, 1], [0, 2]].getD c []
  marks := []
  dim id := if id = 5 then 2 else 1
  geom _ := ⟨fun v => [[0, 1], [0, 1], [1]].getD v [], fun v w => if w = v + 1 then 0 else 1, 1, 1 / 100⟩
  topo _ := Embedded.twoTriangles

theorem edges_dist {v w : Nat} (h : (edges.geom 5).dist v w < (edges.geom 5).tol * (edges.geom 5).scale) : w = v + 1 := by
  by_contra hne
  have h1 : (edges.geom 5).dist v w = 1 := if_neg hne
  have h2 : (edges.geom 5).tol * (edges.geom 5).scale < 1 := by decide +kernel
  rw [h1] at h
  exact absurd (lt_trans h h2) (lt_irrefl _)

theorem edges_dist_self (v : Nat) : (edges.geom 5).dist v (v + 1) < (edges.geom 5).tol * (edges.geom 5).scale := by
  have : (edges.geom 5).dist v (v + 1) = 0 := if_pos rfl
  rw [this]
  decide +kernel

theorem edges_conforming : Conforming edges 5 where
  edim := by decide
  codim := by decide
  background := by
    refine ⟨Embedded.Topo.simplicial_of_check (by decide +kernel), ?_, ?_⟩
    · intro c hc
      change c < 2 at hc
      interval_cases c <;> decide
    · intro e he
      change e < 5 at he
      interval_cases e <;> decide
  exact := by
    refine ⟨fun v w h m => ?_, fun v w w' h h' => by rw [edges_dist h, edges_dist h']⟩
    obtain rfl := edges_dist h
    change m ∈ [[0, 1], [0, 1], [1]].getD v [] ↔ m < 2 ∧ v + 1 ∈ [[0, 1, 2], [1, 2, 3]].getD m []
    constructor
    · intro hm
      match v, hm with
      | 0, hm => simp at hm; rcases hm with rfl | rfl <;> simp
      | 1, hm => simp at hm; rcases hm with rfl | rfl <;> simp
      | 2, hm => simp at hm; subst hm; simp
      | v + 3, hm => simp at hm
    · rintro ⟨hm, hv⟩
      interval_cases m
      · simp at hv
        rcases hv with rfl | rfl <;> simp
      · simp at hv
        rcases hv with rfl | rfl | rfl <;> simp
  collide := by
    intro v m hm
    change m ∈ [[0, 1], [0, 1], [1]].getD v [] at hm
    change m < 2
    match v, hm with
    | 0, hm => simp at hm; omega
    | 1, hm => simp at hm; omega
    | 2, hm => simp at hm; omega
    | v + 3, hm => simp at hm
  cells := by
    intro c hc
    change c < 2 at hc
    interval_cases c <;> decide
  separated := by
    intro c hc v hv v' hv' w h h'
    have := edges_dist h
    have := edges_dist h'
    omega
  lies := by
    intro c hc
    change c < 2 at hc
    interval_cases c
    · refine ⟨2, by decide, ?_, ?_⟩
      · intro v hv
        simp [edges] at hv
        exact ⟨v + 1, by rcases hv with rfl | rfl <;> decide, edges_dist_self v⟩
      · intro w hw
        have : w = 1 ∨ w = 2 := by simpa [edges, Embedded.twoTriangles, Embedded.Topo.ofLists] using hw
        rcases this with rfl | rfl
        · exact ⟨0, by decide, edges_dist_self 0⟩
        · exact ⟨1, by decide, edges_dist_self 1⟩
    · refine ⟨3, by decide, ?_, ?_⟩
      · intro v hv
        simp [edges] at hv
        exact ⟨v + 1, by rcases hv with rfl | rfl <;> decide, edges_dist_self v⟩
      · intro w hw
        have : w = 1 ∨ w = 3 := by simpa [edges, Embedded.twoTriangles, Embedded.Topo.ofLists] using hw
        rcases this with rfl | rfl
        · exact ⟨0, by decide, edges_dist_self 0⟩
        · exact ⟨2, by decide, edges_dist_self 2⟩

theorem edges_lies {e : Nat} (h : Lies edges 5 0 e) : e = 2 := by
  obtain ⟨he, hl⟩ := h
  obtain ⟨w, hw, h1⟩ := hl.1 0 (by decide)
  obtain ⟨w', hw', h2⟩ := hl.1 1 (by decide)
  rw [edges_dist h1] at hw
  rw [edges_dist h2] at hw'
  change e < 5 at he
  clear hl
  interval_cases e <;> revert hw hw' <;> decide

/-- The trace of a piecewise constant function. -/
noncomputable def edgeCall (restriction : String) (tag : TagArg) : Call ℚ ℚ 1 :=
  ⟨⟨true, true, restriction, some (true, fun _ => ![1]), tag⟩, true, lineP0 2, lineP0 2, lineData⟩

/-- After a trace on the edges marked 8 and one with an unknown tag, the trace on those marked 7. -/
example : ∃ M, (traceCall edges (some [7, 8]) 5 (edgeCall "" (.one 7))
      (afterCalls edges (some [7, 8]) 5 [edgeCall "+" (.many [8, 8]), edgeCall "" (.one 9)] ⟨none, none⟩)).1 = .ok M ∧
    ∀ u : Nat → ℚ, M.act u 0 = u 0 ∧ M.act u 1 = 0 := by
  obtain ⟨M, h, _, _, _, hM⟩ := trace_localised (C := edges) (id := 5) (marking := some [7, 8]) edges_conforming rfl
    (t := ⟨none, none⟩) (.inl ⟨rfl, rfl⟩) [edgeCall "+" (.many [8, 8]), edgeCall "" (.one 9)]
    (c := edgeCall "" (.one 7)) rfl rfl rfl rfl ⟨_, rfl, by simp⟩ (lineP0_wf 2) (lineP0_wf 2) (lineP0_linear 2) rfl
    (fun _ => lineP0_disc 2) rfl rfl
  refine ⟨M, h, fun u => ?_⟩
  have := hM u (fun d => if d = 0 then u 0 else 0) ?_ ?_
  · exact ⟨by simpa using this 0, by simpa using this 1⟩
  · rintro c k l d hc ⟨e, ⟨he, hl⟩, hk⟩ hd
    have hc0 : c = 0 := by
      match c, hc with
      | 0, _ => rfl
      | 1, hc => simp [TagArg.Selects, edgeCall, marksOf] at hc
      | c + 2, hc => simp [TagArg.Selects, edgeCall, marksOf] at hc
    subst hc0
    have hd0 : l = 0 ∧ d = 0 := by
      match l, hd with
      | 0, hd => exact ⟨rfl, by simpa [edgeCall, lineP0] using hd.symm⟩
      | l + 1, hd => simp [edgeCall, lineP0] at hd
    obtain ⟨rfl, rfl⟩ := hd0
    obtain rfl := edges_lies ⟨he, hl⟩
    have : k = 0 := by
      have : some 0 = some k := hk
      simpa using this.symm
    subst this
    simp [edgeCall, lineP0, fnOn]
  · intro d hd
    have := hd 0 (by simp [TagArg.Selects, edgeCall, marksOf])
    simp [edgeCall, lineP0] at this
    simp [this]

/-- The two sides of the edge 1-2. -/
example (s : String) (hs : s = "+" ∨ s = "-") :
    ∃ M, (traceCall edges (some [7, 8]) 5 (edgeCall s (.one 7)) ⟨none, none⟩).1 = .ok M ∧
      TracesOn (lineP0 2) (lineP0 2) (fun c => c = 0) (fun _ b => b = if s = "+" then 0 else 1) M := by
  have hsel : ∀ c, (TagArg.one 7).Selects (marksOf (some [7, 8]) 2) c ↔ c = 0 := by
    intro c
    match c with
    | 0 => simp [TagArg.Selects, marksOf]
    | 1 => simp [TagArg.Selects, marksOf]
    | c + 2 => simp [TagArg.Selects, marksOf]
  obtain ⟨M, h, hM⟩ := trace_localised_side (C := edges) (id := 5) (marking := some [7, 8]) edges_conforming rfl
    (t := ⟨none, none⟩) (.inl ⟨rfl, rfl⟩) [] (c := edgeCall s (.one 7)) rfl rfl rfl hs rfl ⟨_, rfl, by simp⟩
    (lineP0_wf 2) (lineP0_wf 2) (lineP0_linear 2) rfl (fun _ => lineP0_disc 2) rfl rfl (plus := fun _ => 1)
    (minus := fun _ => 0) (fun k e hk he => by
      obtain rfl := (hsel k).1 hk
      obtain rfl := edges_lies he
      refine ⟨.inr rfl, ?_, ?_⟩
      · simp [OnPlusSide, lineData, dotProduct, edgeCall]
      · simp [OnMinusSide, lineData, dotProduct, edgeCall]; norm_num)
  refine ⟨M, h, ?_⟩
  have : (edgeCall s (.one 7)).args.tag.Selects (marksOf (some [7, 8]) edges.numCells) = fun c => c = 0 :=
    funext (fun c => propext (hsel c))
  rw [this] at hM
  exact hM

/-- There is no cell marked 9. -/
example : ∃ e, traceCall edges (some [7, 8]) 5 (edgeCall "" (.one 9)) ⟨none, none⟩ = (.error e, ⟨none, none⟩) :=
  trace_tag_refused (by simp [TagArg.Legal, edgeCall]) _

example : ∃ e, traceCall edges (some [7, 8]) 5 (edgeCall "jump" .all) ⟨none, none⟩ = (.error e, ⟨none, none⟩) :=
  trace_restriction_refused (by simp [edgeCall]) _

end Verif.TraceForm
