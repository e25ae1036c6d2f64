import Verif.Lemmas.CollapseIter8
/-!
# Conforming expressions are collapsed
-/
namespace Verif.CollapseIter
open Verif Collapse BlockOps

variable {K : Type} [CommRing K]

theorem mem_sources_seen {g : Graph K} {n : Node K} : ∀ {seen : List Key}, n ∈ sources seen g → n.key ∉ seen := by
  induction g with
  | nil => intro seen h; simp [sources] at h
  | cons d g ih =>
      intro seen h
      simp only [sources] at h
      split at h
      · exact ih h
      · rename_i hs
        rcases List.mem_cons.1 h with rfl | h
        · simpa using hs
        · exact fun hm => ih h (by simp [hm])

theorem sources_nodup (g : Graph K) : ∀ seen : List Key, ((sources seen g).map Node.key).Nodup := by
  induction g with
  | nil => intro seen; simp [sources]
  | cons d g ih =>
      intro seen
      simp only [sources]
      split
      · exact ih seen
      · rw [List.map_cons, List.nodup_cons]
        refine ⟨fun h => ?_, ih _⟩
        obtain ⟨n, hn, e⟩ := List.mem_map.1 h
        exact mem_sources_seen hn (by simp [e])

theorem sources_seen {g : Graph K} {k : Key} (h : ∀ d ∈ g, d.src.key = k) : ∀ {seen : List Key}, k ∈ seen →
    sources seen g = [] := by
  induction g with
  | nil => intro seen _; rfl
  | cons d g ih =>
      intro seen hs
      simp only [sources]
      rw [if_pos (by rw [List.contains_iff_mem, h d (by simp)]; exact hs)]
      exact ih (fun x hx => h x (by simp [hx])) hs

theorem sources_one {g : Graph K} {k : Key} (h : ∀ d ∈ g, d.src.key = k) {d : Edge K} (hd : d ∈ g) :
    ∃ x ∈ g, sources [] g = [x.src] := by
  cases g with
  | nil => simp at hd
  | cons x g =>
      refine ⟨x, by simp, ?_⟩
      simp only [sources]
      rw [if_neg (by simp), sources_seen (fun y hy => h y (by simp [hy])) (by simp [h x (by simp)])]

theorem mem_collapsable {g : Graph K} {t : Tree K} (ht : t ∈ collapsableTrees g) : ∃ d ∈ g, t = ⟨d.src, successors g d.src⟩ ∧
    ∀ x ∈ outEdges g d.src, isLeaf g x.dst = true := by
  simp only [collapsableTrees, List.mem_map, List.mem_filter, List.all_eq_true] at ht
  obtain ⟨n, ⟨hn, hl⟩, rfl⟩ := ht
  obtain ⟨d, hd, rfl⟩ := mem_sources hn
  exact ⟨d, hd, rfl, hl⟩

theorem mem_successors {g : Graph K} {d : Edge K} {a : Node K} (ha : a ∈ successors g d.src) :
    ∃ x ∈ g, x.src.key = d.src.key ∧ x.dst = a := by
  simp only [successors, List.mem_map] at ha
  obtain ⟨x, hx, rfl⟩ := ha
  have := mem_outEdges.1 ((List.perm_insertionSort _ _).mem_iff.1 hx)
  exact ⟨x, this.1, this.2, rfl⟩

/-- All arguments of an operator are there. -/
theorem args_complete {tiny : Tiny K} {name : Nat → Val K → Nat} {steps : Nat} {T : Terminals K} {e0 : OExpr K}
    {g : Graph K} (hI : Inv tiny T e0 g) (hF : Full tiny name steps e0 g) {d0 : Edge K} (hd0 : d0 ∈ g) {p : OExpr K}
    (hp : d0.src = .op p) : List.Forall₂ (fun c a => Sem tiny T a c) (kids p) (successors g d0.src) := by
  obtain ⟨p', hp', idx, hidx, hf⟩ := treeOk_of_inv hI hd0
  rw [hp] at hp'
  cases hp'
  have hlen : (kids p).length ≤ (successors g d0.src).length := by
    have h1 : (List.range (kids p).length).Subperm ((outEdges g d0.src).map Edge.index) := by
      refine List.subperm_of_subset List.nodup_range (fun i hi => ?_)
      obtain ⟨x, hx, hk, hxi⟩ := hF.complete d0 hd0 p hp i (List.mem_range.1 hi)
      exact List.mem_map.2 ⟨x, mem_outEdges.2 ⟨hx, hk⟩, hxi⟩
    have := h1.length_le
    simpa [successors] using this
  have hr : idx = List.range (kids p).length := by
    refine eq_range hidx (fun i hi => ?_) (by rw [hf.length_eq]; exact hlen)
    obtain ⟨j, hj, rfl⟩ := List.mem_iff_getElem.1 hi
    obtain ⟨c, hc, -⟩ := (List.forall₂_iff_get.1 hf).2 j hj (by rw [← hf.length_eq]; exact hj)
    exact (List.getElem?_eq_some_iff.1 hc).1
  rw [hr, List.range_eq_range'] at hf
  exact forall₂_range [] (by simpa using hf)

theorem ready_collapsable {tiny : Tiny K} {name : Nat → Val K → Nat} {steps : Nat} {T : Terminals K} {e0 : OExpr K}
    {g : Graph K} (hI : Inv tiny T e0 g) (hF : Full tiny name steps e0 g) : Ready tiny T g (collapsableTrees g) := by
  refine ⟨?_, ?_, ?_, ?_, ?_⟩
  · intro t ht
    obtain ⟨d, hd, rfl, -⟩ := mem_collapsable ht
    exact ⟨d, hd, rfl⟩
  · intro t ht a ha
    obtain ⟨d, hd, rfl, -⟩ := mem_collapsable ht
    exact mem_successors ha
  · unfold collapsableTrees
    rw [List.map_map]
    exact (sources_nodup g []).sublist (List.filter_sublist.map _)
  · intro t ht
    obtain ⟨d, hd, rfl, -⟩ := mem_collapsable ht
    obtain ⟨p, c, hp, -⟩ := hI.edge d hd
    obtain ⟨h1, h2⟩ := hF.conf d hd p hp
    exact ⟨p, hp, h1, h2, args_complete hI hF hd hp⟩
  · intro t ht a ha
    obtain ⟨d, hd, rfl, hl⟩ := mem_collapsable ht
    obtain ⟨x, hx, hk, rfl⟩ := mem_successors ha
    cases hxd : x.dst with
    | name n => exact ⟨n, rfl⟩
    | op q =>
        obtain ⟨y, hy, e⟩ := hF.dst x hx q hxd
        have h1 := hl x (mem_outEdges.2 ⟨hx, hk⟩)
        simp only [isLeaf, List.isEmpty_iff] at h1
        have h2 : y ∈ outEdges g x.dst := mem_outEdges.2 ⟨hy, by rw [e]⟩
        rw [h1] at h2
        simp at h2

theorem Ready.perm {tiny : Tiny K} {T : Terminals K} {g : Graph K} {ts us : List (Tree K)}
    (h : Ready tiny T g ts) (hp : us.Perm ts) : Ready tiny T g us :=
  ⟨fun t ht => h.src t (hp.subset ht), fun t ht => h.arg t (hp.subset ht), (hp.map _).nodup_iff.2 h.roots,
    fun t ht => h.ok t (hp.subset ht), fun t ht => h.names t (hp.subset ht)⟩

/-- There is always a tree to collapse. -/
theorem exists_collapsable {tiny : Tiny K} {name : Nat → Val K → Nat} {steps : Nat} {T : Terminals K} {e0 : OExpr K}
    {g : Graph K} (hI : Inv tiny T e0 g) (hF : Full tiny name steps e0 g) : ∀ (r : Nat) (d : Edge K) (p : OExpr K),
    d ∈ g → d.src = .op p → rank p ≤ r → collapsableTrees g ≠ [] := by
  intro r
  induction r with
  | zero =>
      intro d p hd hp hr
      obtain ⟨h1, dd, h2⟩ := hF.conf d hd p hp
      have := rankSum_children 0 h1
      omega
  | succ r ih =>
      intro d p hd hp hr
      by_cases hl : ∀ x ∈ outEdges g d.src, isLeaf g x.dst = true
      · obtain ⟨n, hn, hk⟩ := sources_cover (seen := []) hd (by simp)
        obtain ⟨d', hd', rfl⟩ := mem_sources hn
        have he := hI.ops d' hd' d hd hk
        have : (⟨d'.src, successors g d'.src⟩ : Tree K) ∈ collapsableTrees g := by
          simp only [collapsableTrees, List.mem_map, List.mem_filter, List.all_eq_true]
          exact ⟨d'.src, ⟨hn, by rw [he]; exact hl⟩, rfl⟩
        exact List.ne_nil_of_mem this
      · push Not at hl
        obtain ⟨x, hx, hnl⟩ := hl
        obtain ⟨hxg, hxk⟩ := mem_outEdges.1 hx
        have : outEdges g x.dst ≠ [] := by
          intro h; rw [isLeaf, h] at hnl; simp at hnl
        obtain ⟨y, hy⟩ := List.exists_mem_of_ne_nil _ this
        obtain ⟨hyg, hyk⟩ := mem_outEdges.1 hy
        have he := hI.ops' x hxg y hyg hyk.symm
        obtain ⟨q, -, hq, -⟩ := hI.edge y hyg
        have hxs : x.src = .op p := by rw [hI.ops x hxg d hd hxk, hp]
        have := hF.rank x hxg p q hxs (by rw [he, hq])
        exact ih y q hyg hq (by omega)

theorem rank_bound (g : Graph K) : ∃ B, ∀ d ∈ g, ∀ p, d.src = .op p → rank p ≤ B := by
  induction g with
  | nil => exact ⟨0, by simp⟩
  | cons x g ih =>
      obtain ⟨B, hB⟩ := ih
      cases hx : x.src with
      | name n =>
          refine ⟨B, fun d hd p hp => ?_⟩
          rcases List.mem_cons.1 hd with rfl | hd
          · rw [hx] at hp; cases hp
          · exact hB d hd p hp
      | op q =>
          refine ⟨max B (rank q), fun d hd p hp => ?_⟩
          rcases List.mem_cons.1 hd with rfl | hd
          · rw [hx] at hp; cases hp; exact le_max_right _ _
          · exact (hB d hd p hp).trans (le_max_left _ _)

/-- When the root can be collapsed nothing else is left. -/
theorem only_root {tiny : Tiny K} {name : Nat → Val K → Nat} {steps : Nat} {T : Terminals K} {e0 : OExpr K}
    {g : Graph K} (hI : Inv tiny T e0 g) (hF : Full tiny name steps e0 g) {t : Tree K} (ht : t ∈ collapsableTrees g)
    (hk : t.root.key = .op e0.id) : ∀ d ∈ g, d.src.key = .op e0.id := by
  by_contra hne
  push Not at hne
  obtain ⟨d0, hd0, hk0⟩ := hne
  obtain ⟨dt, hdt, rfl, hl⟩ := mem_collapsable ht
  have climb : ∀ r : Nat, ∃ d ∈ g, d.src.key ≠ .op e0.id ∧ ∃ p, d.src = .op p ∧ r ≤ rank p := by
    intro r
    induction r with
    | zero =>
        obtain ⟨p, c, hp, -⟩ := hI.edge d0 hd0
        exact ⟨d0, hd0, hk0, p, hp, Nat.zero_le _⟩
    | succ r ih =>
        obtain ⟨d, hd, hdk, p, hp, hr⟩ := ih
        rcases hI.rooted d hd with h | ⟨y, hy, hyk⟩
        · exact absurd h hdk
        · have he := hI.ops' y hy d hd hyk
          obtain ⟨q, c, hq, -⟩ := hI.edge y hy
          have h1 := hF.rank y hy q p hq (by rw [he, hp])
          refine ⟨y, hy, fun h => ?_, q, hq, by omega⟩
          have h2 := hl y (mem_outEdges.2 ⟨hy, by rw [h]; exact hk.symm⟩)
          simp only [isLeaf, List.isEmpty_iff] at h2
          have h3 : d ∈ outEdges g y.dst := mem_outEdges.2 ⟨hd, hyk.symm⟩
          rw [h2] at h3
          simp at h3
  obtain ⟨B, hB⟩ := rank_bound g
  obtain ⟨d, hd, -, p, hp, hr⟩ := climb (B + 1)
  have := hB d hd p hp
  omega

theorem named_cons {name : Nat → Val K → Nat} {steps : Nat} {T : Terminals K} {v : Val K} (hN : Named name steps T) :
    Named name (steps + 1) ((.str (name steps v), v) :: T) := by
  intro m w hw
  simp only [List.lookup_cons] at hw
  by_cases hm : m = name steps v
  · subst hm; simp at hw; subst hw; exact ⟨_, Nat.lt_succ_self _, rfl⟩
  · have : (Name.str m == Name.str (name steps v)) = false := by simpa using hm
    rw [this] at hw
    obtain ⟨k, hk, e⟩ := hN _ _ hw
    exact ⟨k, Nat.lt_succ_of_lt hk, e⟩

theorem fresh_lookup {name : Nat → Val K → Nat} (hname : ∀ k k' v v', name k v = name k' v' → k = k') {steps : Nat}
    {T : Terminals K} (hN : Named name steps T) (v : Val K) :
    ∀ w, T.lookup (.str (name steps v)) = some w → w = v := by
  intro w hw
  obtain ⟨k, hlt, hk⟩ := hN _ _ hw
  have := hname _ _ _ _ hk
  omega

/-- A round without the root. -/
theorem collapseTrees_full {tiny : Tiny K} {name : Nat → Val K → Nat} {e0 : OExpr K}
    (hname : ∀ k k' v v', name k v = name k' v' → k = k') : ∀ (ts : List (Tree K)) (s : State K),
    Inv tiny s.terminals e0 s.graph → Pending tiny s.terminals s.graph ts → Full tiny name s.steps e0 s.graph →
    Ready tiny s.terminals s.graph ts → Named name s.steps s.terminals → (∀ t ∈ ts, t.root.key ≠ .op e0.id) →
    s.done = false → ∃ s', collapseTrees tiny name ts s = .ok s' ∧ Inv tiny s'.terminals e0 s'.graph ∧
      Full tiny name s'.steps e0 s'.graph ∧ Named name s'.steps s'.terminals ∧ s'.done = false ∧
      s'.graph.length + ts.length ≤ s.graph.length
  | [], s, hI, _, hF, _, hN, _, hd => ⟨s, rfl, hI, hF, hN, hd, by simp⟩
  | t :: ts, s, hI, hP, hF, hR, hN, hroot, hd => by
      obtain ⟨v, hv⟩ := hR.collapse (t := t) (by simp)
      have hT := fresh_lookup hname hN v
      obtain ⟨g', hg, hF', hR', hlen⟩ := replaceTree_full hname hI hP hF hR (hroot t (by simp)) hT
      obtain ⟨hI', hP'⟩ := replaceTree_inv hI hP hv hT hg
      obtain ⟨s', h1, h2, h3, h4, h5, h6⟩ := collapseTrees_full hname ts
        ⟨g', (.str (name s.steps v), v) :: s.terminals, s.steps + 1, false⟩ hI' hP' hF' hR' (named_cons hN)
        (fun u hu => hroot u (by simp [hu])) rfl
      refine ⟨s', ?_, h2, h3, h4, h5, ?_⟩
      · simp only [collapseTrees, hv, hg, py_bind_ok]
        exact h1
      · simp only [List.length_cons] at h6 ⊢
        omega

/-- All rounds. -/
theorem collapseLoop_full {tiny : Tiny K} {name : Nat → Val K → Nat} {sched : Nat → List (Tree K) → List (Tree K)}
    {e0 : OExpr K} (hname : ∀ k k' v v', name k v = name k' v' → k = k') (hs : ∀ k ts, (sched k ts).Perm ts) :
    ∀ (fuel : Nat) (s : State K), Inv tiny s.terminals e0 s.graph → Full tiny name s.steps e0 s.graph →
      Named name s.steps s.terminals → s.done = false → s.graph.length + 2 ≤ fuel →
      ∃ s' root v, collapseLoop tiny name sched fuel s = .ok s' ∧ treeRoot s'.graph = .ok root ∧
        collapseTree tiny s'.terminals ⟨root, successors s'.graph root⟩ = .ok v
  | 0, s, _, _, _, _, h => by omega
  | fuel + 1, s, hI, hF, hN, hd, hfuel => by
      have hP := (collapsable_pending hI).perm (hs s.steps (collapsableTrees s.graph)).subset
      have hR := (ready_collapsable hI hF).perm (hs s.steps (collapsableTrees s.graph))
      unfold collapseLoop
      rw [if_neg (by simp [hd])]
      by_cases hroot : ∀ t ∈ sched s.steps (collapsableTrees s.graph), t.root.key ≠ .op e0.id
      · obtain ⟨s1, h1, h2, h3, h4, h5, h6⟩ := collapseTrees_full hname _ s hI hP hF hR hN hroot hd
        obtain ⟨x, hx, -⟩ := hF.rootOut
        obtain ⟨p, c, hp, -⟩ := hI.edge x hx
        have hne := exists_collapsable hI hF (rank p) x p hx hp le_rfl
        have hpos : 0 < (sched s.steps (collapsableTrees s.graph)).length := by
          rw [(hs _ _).length_eq]; exact List.length_pos_of_ne_nil hne
        obtain ⟨s', root, v, e1, e2, e3⟩ := collapseLoop_full hname hs fuel s1 h2 h3 h4 h5 (by omega)
        refine ⟨s', root, v, ?_, e2, e3⟩
        rw [h1]
        exact e1
      · push Not at hroot
        obtain ⟨t, ht, hk⟩ := hroot
        have ht' := (hs _ _).subset ht
        have hall := only_root hI hF ht' hk
        obtain ⟨x, hx, hxs⟩ := sources_one hall (hF.rootOut.choose_spec.1)
        obtain ⟨p, c, hp, -⟩ := hI.edge x hx
        have hcol : collapsableTrees s.graph = [t] := by
          have hlen : (collapsableTrees s.graph).length ≤ 1 := by
            unfold collapsableTrees
            rw [List.length_map]
            refine (List.length_filter_le _ _).trans ?_
            rw [hxs]; simp
          rcases hc : collapsableTrees s.graph with _ | ⟨a, _ | ⟨b, l⟩⟩
          · rw [hc] at ht'; simp at ht'
          · rw [hc] at ht'; simp at ht'; rw [ht']
          · rw [hc] at hlen; simp at hlen
        have hsch : sched s.steps (collapsableTrees s.graph) = [t] := by
          have := hs s.steps (collapsableTrees s.graph)
          rw [hcol] at this ⊢
          exact List.perm_singleton.1 this
        obtain ⟨v, hv⟩ := hR.collapse ht
        have hT := fresh_lookup hname hN v
        have hin : inEdges s.graph t.root = [] := by
          rw [inEdges, List.filter_eq_nil_iff]
          intro y hy
          have := hF.rootIn y hy
          rw [hk]
          simpa using this
        have hI' := hI.cons (n := .str (name s.steps v)) (v := v) hT
        have hx' : (⟨x.src, successors s.graph x.src⟩ : Tree K) = t := by
          obtain ⟨d, hd', rfl, -⟩ := mem_collapsable ht'
          have : x.src = d.src := hI.ops x hx d hd' (by rw [hall x hx, hall d hd'])
          rw [this]
        obtain ⟨w, hw⟩ := (ready_collapsable hI' hF).collapse ht'
        refine ⟨⟨s.graph, (.str (name s.steps v), v) :: s.terminals, s.steps + 1, true⟩, x.src, w, ?_, ?_, ?_⟩
        · rw [hsch]
          simp only [collapseTrees, hv, replaceTree, hin, py_bind_ok]
          obtain ⟨f, rfl⟩ : ∃ f, fuel = f + 1 := ⟨fuel - 1, by omega⟩
          simp [collapseLoop]
        · simp only [treeRoot, hxs]
        · dsimp only
          rw [hx']
          exact hw

/-- Conforming expressions are collapsed. -/
theorem collapse_total {tiny : Tiny K} {e : OExpr K} (hids : e.ids.Nodup) (hnums : Nums tiny e.expr) {dd : Dims}
    (hc : Conforms tiny e dd) : ∃ N, ∀ (name : Nat → Val K → Nat), (∀ k k' v v', name k v = name k' v' → k = k') →
      ∀ sched : Nat → List (Tree K) → List (Tree K), (∀ k ts, (sched k ts).Perm ts) → ∀ fuel, N ≤ fuel →
        ∃ v, collapse tiny name sched fuel e = .ok v := by
  cases hw : e.terminal with
  | some v => exact ⟨0, fun name _ sched _ fuel _ => ⟨v, by simp [collapse, hw]⟩⟩
  | none =>
      have honce : ∀ a, e.ids.count a ≤ 1 := List.nodup_iff_count_le_one.1 hids
      have hB0 : BInv tiny e (e.ids.foldl (fun a b => max a (b + 1)) 0) [] [] { stack := [e] } := by
        refine ⟨by simp, by simp, by simp, by simp, ?_, .inr (by simp), ?_, ?_, by simp, by simpa using hw, ?_⟩
        · intro q hq
          simp only [List.not_mem_nil, List.mem_singleton, false_or] at hq
          exact .inl (by rw [hq])
        · intro a
          simp only [List.map_nil, List.count_nil, idsAll, List.append_nil]
          have := honce a
          omega
        · intro a ha
          simp only [List.map_nil, List.count_nil, idsAll, List.append_nil]
          have : a ∉ e.ids := fun hm => by have := (foldl_max e.ids 0).2 a hm; omega
          have := List.count_eq_zero.2 this
          omega
        · intro q hq
          simp only [List.not_mem_nil, List.mem_singleton, or_false] at hq
          rw [hq]; exact hnums
      have hF0 : FB tiny e [] [] (AllOf []) { stack := [e] } := by
        refine ⟨?_, ?_, by simp, by simp, by simp, by simp, by simp, .inr (by simp), by simp, ?_, ?_⟩
        · intro q hq
          simp only [List.not_mem_nil, List.mem_singleton, or_false, false_or] at hq
          rw [hq]; exact ⟨dd, hc⟩
        · intro q hq
          simp only [List.not_mem_nil, List.mem_singleton, false_or] at hq
          rw [hq]; exact hw
        · intro a
          simp only [List.map_nil, List.count_nil, idsAll, List.append_nil]
          have := honce a
          omega
        · rintro p i ⟨h, -⟩; simp at h
      obtain ⟨b, hb, hbs, P, next, hB, hF⟩ := expr2graph_full (rank e + 1) _ _ _ hB0 hF0 (by simp [rankSum])
      have hmono : ∀ (f f' next : Nat) (s s' : Build K), f ≤ f' → expr2graph f next s = .ok s' →
          expr2graph f' next s = .ok s' := by
        intro f
        induction f with
        | zero => intro f' next s s' _ h; simp [expr2graph] at h
        | succ f ih =>
            intro f' next s s' hle h
            obtain ⟨k, rfl⟩ : ∃ k, f' = k + 1 := ⟨f' - 1, by omega⟩
            unfold expr2graph at h ⊢
            split at h
            · exact h
            · rename_i parent stack hs
              exact ih k _ _ _ (by omega) h
      refine ⟨max (rank e + 1) (b.graph.length + 2), fun name hname sched hs fuel hfuel => ?_⟩
      have hb' := hmono _ fuel _ _ _ (le_trans (le_max_left _ _) hfuel) hb
      have hN : Named name 0 b.terminals := by
        intro m w hm
        obtain ⟨k, -, hk⟩ := hB.names _ _ hm
        cases hk
      obtain ⟨s', root, v, h1, h2, h3⟩ := collapseLoop_full hname hs fuel ⟨b.graph, b.terminals, 0, false⟩
        (inv_of_BInv hB) (full_of_FB hB hF hbs) hN rfl (le_trans (le_max_right _ _) hfuel)
      refine ⟨v, ?_⟩
      unfold collapse
      rw [hw]
      simp only [hb', h1, h2, py_bind_ok]
      exact h3

end Verif.CollapseIter
