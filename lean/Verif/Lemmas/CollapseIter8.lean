import Verif.Lemmas.CollapseIter7
/-!
# The rewriting of a complete graph ends
-/
namespace Verif.CollapseIter
open Verif Collapse BlockOps

variable {K : Type} [CommRing K]

/-- More of the invariant of the graph. -/
structure Full (tiny : Tiny K) (name : Nat → Val K → Nat) (steps : Nat) (e0 : OExpr K) (g : Graph K) : Prop where
  conf : ∀ d ∈ g, ∀ p, d.src = .op p → p.terminal = none ∧ ∃ dd, Conforms tiny p dd
  complete : ∀ d ∈ g, ∀ p, d.src = .op p → ∀ i < (kids p).length, ∃ d' ∈ g, d'.src.key = d.src.key ∧ d'.index = i
  into : (g.map (fun d : Edge K => d.dst.key)).Nodup
  dst : ∀ d ∈ g, ∀ q, d.dst = .op q → ∃ d' ∈ g, d'.src = d.dst
  rank : ∀ d ∈ g, ∀ p q, d.src = .op p → d.dst = .op q → rank q < rank p
  str : ∀ d ∈ g, ∀ s, d.dst = .name (.str s) → ∃ k < steps, ∃ v, name k v = s
  rootIn : ∀ d ∈ g, d.dst.key ≠ .op e0.id
  rootOut : ∃ d ∈ g, d.src.key = .op e0.id

theorem full_of_FB {tiny : Tiny K} {name : Nat → Val K → Nat} {e0 : OExpr K} {next : Nat} {P : List (OExpr K)} {s : Build K}
    (hB : BInv tiny e0 next P [] s) (hF : FB tiny e0 P [] (AllOf P) s) (hs : s.stack = []) :
    Full tiny name 0 e0 s.graph := by
  have hsrc : ∀ d ∈ s.graph, ∀ p, d.src = .op p → p ∈ P := by
    intro d hd p hp
    obtain ⟨q, hq, e⟩ := hF.src d hd
    rw [hp] at e
    cases e
    exact hq
  have hout : ∀ q ∈ P, ∃ d ∈ s.graph, d.src = .op q := by
    intro q hq
    obtain ⟨dd, hdd⟩ := hF.conf q (.inl hq)
    obtain ⟨d, hd, e, -⟩ := hF.complete q 0 ⟨hq, kids_pos hdd (hF.isOp q (.inl hq))⟩
    exact ⟨d, hd, e⟩
  refine ⟨?_, ?_, hF.into, ?_, hF.rank, ?_, hF.rootIn, ?_⟩
  · intro d hd p hp
    exact ⟨hF.isOp p (.inl (hsrc d hd p hp)), hF.conf p (.inl (hsrc d hd p hp))⟩
  · intro d hd p hp i hi
    obtain ⟨d', hd', e, hi'⟩ := hF.complete p i ⟨hsrc d hd p hp, hi⟩
    exact ⟨d', hd', by rw [e, hp], hi'⟩
  · intro d hd q hq
    rw [hq]
    rcases hF.dst d hd q hq with h | h
    · exact hout q h
    · rw [hs] at h; simp at h
  · intro d hd m hm
    obtain ⟨k, -, hk⟩ := hF.dstA d hd _ hm
    cases hk
  · rcases hF.root with h | h
    · obtain ⟨d, hd, e⟩ := hout e0 h
      exact ⟨d, hd, by rw [e]; rfl⟩
    · rw [hs] at h; simp at h

/-- Trees in a round: they are in the graph with all their arguments. -/
structure Ready (tiny : Tiny K) (T : Terminals K) (g : Graph K) (ts : List (Tree K)) : Prop where
  src : ∀ t ∈ ts, ∃ d ∈ g, d.src = t.root
  arg : ∀ t ∈ ts, ∀ a ∈ t.args, ∃ d ∈ g, d.src.key = t.root.key ∧ d.dst = a
  roots : (ts.map (fun t : Tree K => t.root.key)).Nodup
  ok : ∀ t ∈ ts, ∃ p, t.root = .op p ∧ p.terminal = none ∧ (∃ dd, Conforms tiny p dd) ∧
    List.Forall₂ (fun c a => Sem tiny T a c) (kids p) t.args
  names : ∀ t ∈ ts, ∀ a ∈ t.args, ∃ n, a = .name n

/-- Values of names. -/
theorem lookup_ok {tiny : Tiny K} {T : Terminals K} {n : Name} {c : Expr K} (h : Sem tiny T (.name n) c) :
    ∃ v, lookup T (.name n) = .ok v ∧ Eqv v.expr c := by
  obtain ⟨v, hv, h1, -⟩ := h
  exact ⟨v, by simp [lookup, hv], h1⟩

theorem pyMap_lookup {tiny : Tiny K} {T : Terminals K} : ∀ {ks : List (Expr K)} {as : List (Node K)},
    List.Forall₂ (fun c a => Sem tiny T a c) ks as → (∀ a ∈ as, ∃ n, a = Node.name n) →
    ∃ vals, pyMap (lookup T) as = .ok vals ∧ List.Forall₂ (fun (w : Val K) c => Eqv w.expr c) vals ks
  | _, _, .nil, _ => ⟨[], rfl, .nil⟩
  | _, _, .cons h1 h2, hn => by
      obtain ⟨n, rfl⟩ := hn _ List.mem_cons_self
      obtain ⟨v, hv, he⟩ := lookup_ok h1
      obtain ⟨vs, hvs, hf⟩ := pyMap_lookup h2 (fun a ha => hn a (by simp [ha]))
      exact ⟨v :: vs, by simp [pyMap, hv, hvs], .cons he hf⟩

theorem Ready.collapse {tiny : Tiny K} {T : Terminals K} {g : Graph K} {ts : List (Tree K)} (h : Ready tiny T g ts)
    {t : Tree K} (ht : t ∈ ts) : ∃ v, collapseTree tiny T t = .ok v := by
  obtain ⟨p, hp, hterm, ⟨dd, hdd⟩, hf⟩ := h.ok t ht
  obtain ⟨vals, hvals, hv⟩ := pyMap_lookup hf (h.names t ht)
  obtain ⟨v, hv⟩ := applyOp_ok hdd hterm hv
  exact ⟨v, by simp [collapseTree, hvals, hp, hv]⟩

theorem inEdges_le {g : Graph K} (h : (g.map (fun d : Edge K => d.dst.key)).Nodup) (n : Node K) :
    (inEdges g n).length ≤ 1 := by
  by_contra hlt
  have h1 : ((inEdges g n).map (fun d : Edge K => d.dst.key)).Nodup := h.sublist (List.filter_sublist.map _)
  have h2 : ∀ k ∈ (inEdges g n).map (fun d : Edge K => d.dst.key), k = n.key := by
    intro k hk
    obtain ⟨d, hd, rfl⟩ := List.mem_map.1 hk
    simpa [inEdges] using (List.mem_filter.1 hd).2
  rcases hl : inEdges g n with _ | ⟨a, _ | ⟨b, l⟩⟩
  · rw [hl] at hlt; simp at hlt
  · rw [hl] at hlt; simp at hlt
  · rw [hl] at h1 h2
    simp only [List.map_cons, List.nodup_cons, List.mem_cons, not_or] at h1
    exact h1.1.1 ((h2 _ (by simp)).trans (h2 _ (by simp)).symm)

/-- One replacement of a tree which is not the last. -/
theorem replaceTree_full {tiny : Tiny K} {name : Nat → Val K → Nat} {steps : Nat} {T : Terminals K} {e0 : OExpr K}
    {g : Graph K} {t : Tree K} {ts : List (Tree K)} {v : Val K}
    (hname : ∀ k k' v v', name k v = name k' v' → k = k')
    (hI : Inv tiny T e0 g) (hP : Pending tiny T g (t :: ts)) (hF : Full tiny name steps e0 g)
    (hR : Ready tiny T g (t :: ts)) (hroot : t.root.key ≠ .op e0.id)
    (hT : ∀ w, T.lookup (.str (name steps v)) = some w → w = v) :
    ∃ g', replaceTree g t (.str (name steps v)) = .ok (g', false) ∧ Full tiny name (steps + 1) e0 g' ∧
      Ready tiny ((.str (name steps v), v) :: T) g' ts ∧ g'.length < g.length := by
  have htm : t ∈ t :: ts := by simp
  obtain ⟨dt, hdt, hdts⟩ := hR.src t htm
  -- the edge to the root
  obtain ⟨d, hin⟩ : ∃ d, inEdges g t.root = [d] := by
    rcases hI.rooted dt hdt with h | ⟨y, hy, hk⟩
    · rw [hdts] at h; exact absurd h hroot
    · have hm : y ∈ inEdges g t.root := by simp [inEdges, hy, hk, hdts]
      have := inEdges_le hF.into t.root
      rcases hl : inEdges g t.root with _ | ⟨a, _ | ⟨b, l⟩⟩
      · rw [hl] at hm; simp at hm
      · exact ⟨a, rfl⟩
      · rw [hl] at this; simp at this
  have hd : d ∈ g ∧ d.dst.key = t.root.key := by
    have : d ∈ inEdges g t.root := by rw [hin]; simp
    simpa [inEdges] using this
  obtain ⟨p, hp, hterm, ⟨dd, hdd⟩, hf⟩ := hR.ok t htm
  obtain ⟨q, c, hq, hc, hs⟩ := hI.edge d hd.1
  have hsrc : d.src.key ∉ (t.root :: t.args).map Node.key := by
    rw [List.map_cons, List.mem_cons, not_or]
    refine ⟨fun h => hI.loop d hd.1 (by rw [h, hd.2]), fun h => hP.leaf t htm _ h d hd.1 rfl⟩
  -- the name is new
  have hnew : ∀ x ∈ removeTree g t, x.dst.key ≠ Node.key (.name (.str (name steps v)) : Node K) := by
    intro x hx he
    have hx' := (mem_removeTree.1 hx).1
    cases hxd : x.dst with
    | op q => rw [hxd] at he; simp [Node.key] at he
    | name m =>
        rw [hxd] at he
        simp only [Node.key, Key.name.injEq] at he
        subst he
        obtain ⟨k, hk, w, hw⟩ := hF.str x hx' _ hxd
        have := hname _ _ _ _ hw
        omega
  refine ⟨removeTree g t ++ [⟨d.src, .name (.str (name steps v)), d.index⟩], ?_, ?_, ?_, ?_⟩
  · unfold replaceTree
    rw [hin]
    simp only [addEdge_new (e := ⟨d.src, .name (.str (name steps v)), d.index⟩) hnew]
  · -- what remains of edges of other operators
    have hsame : ∀ x ∈ g, x.src.key ∉ (t.root :: t.args).map Node.key → x.dst.key ∈ (t.root :: t.args).map Node.key →
        x = d := by
      intro x hx h1 h2
      rw [List.map_cons, List.mem_cons] at h2
      rcases h2 with h2 | h2
      · have : x ∈ inEdges g t.root := by simp [inEdges, hx, h2]
        rw [hin] at this
        simpa using this
      · obtain ⟨a, ha, e⟩ := List.mem_map.1 h2
        obtain ⟨y, hy, hyk, rfl⟩ := hR.arg t htm a ha
        have : y = x := List.inj_on_of_nodup_map hF.into hy hx e
        subst this
        exact absurd (by rw [hyk]; simp) h1
    have hkeep : ∀ x ∈ g, x.src.key ∉ (t.root :: t.args).map Node.key → x ≠ d → x ∈ removeTree g t := by
      intro x hx h1 h2
      exact mem_removeTree.2 ⟨hx, h1, fun h3 => h2 (hsame x hx h1 h3)⟩
    have hold : ∀ x, x ∈ removeTree g t ++ [⟨d.src, .name (.str (name steps v)), d.index⟩] →
        (x ∈ removeTree g t ∧ x ∈ g ∧ x.src.key ∉ (t.root :: t.args).map Node.key ∧
          x.dst.key ∉ (t.root :: t.args).map Node.key) ∨ x = ⟨d.src, .name (.str (name steps v)), d.index⟩ := by
      intro x hx
      rcases List.mem_append.1 hx with h | h
      · exact .inl ⟨h, mem_removeTree.1 h⟩
      · exact .inr (List.mem_singleton.1 h)
    have hsource : ∀ x, x ∈ removeTree g t ++ [⟨d.src, .name (.str (name steps v)), d.index⟩] →
        ∃ y ∈ g, y.src = x.src ∧ x.src.key ∉ (t.root :: t.args).map Node.key := by
      intro x hx
      rcases hold x hx with ⟨-, h1, h2, -⟩ | rfl
      · exact ⟨x, h1, rfl, h2⟩
      · exact ⟨d, hd.1, rfl, hsrc⟩
    -- every edge of a remaining operator has its successor
    have hsucc : ∀ x ∈ g, x.src.key ∉ (t.root :: t.args).map Node.key →
        ∃ y ∈ removeTree g t ++ [⟨d.src, .name (.str (name steps v)), d.index⟩], y.src = x.src ∧ y.index = x.index := by
      intro x hx h1
      by_cases hxd : x = d
      · exact ⟨_, List.mem_append.2 (.inr (List.mem_singleton.2 rfl)), by simp [hxd]⟩
      · exact ⟨x, List.mem_append.2 (.inl (hkeep x hx h1 hxd)), rfl, rfl⟩
    refine ⟨?_, ?_, ?_, ?_, ?_, ?_, ?_, ?_⟩
    · intro x hx p' hp'
      obtain ⟨y, hy, e, -⟩ := hsource x hx
      exact hF.conf y hy p' (by rw [e, hp'])
    · intro x hx p' hp' i hi
      obtain ⟨y, hy, e, hn⟩ := hsource x hx
      obtain ⟨z, hz, hzk, hzi⟩ := hF.complete y hy p' (by rw [e, hp']) i hi
      obtain ⟨w, hw, h1, h2⟩ := hsucc z hz (by rw [hzk, e]; exact hn)
      exact ⟨w, hw, by rw [h1, hzk, e], by rw [h2, hzi]⟩
    · refine into_append ?_ hnew
      exact hF.into.sublist (List.filter_sublist.map _)
    · intro x hx q' hq'
      rcases hold x hx with ⟨-, h1, -, h3⟩ | rfl
      · obtain ⟨y, hy, e⟩ := hF.dst x h1 q' hq'
        obtain ⟨w, hw, h4, -⟩ := hsucc y hy (by rw [e]; exact h3)
        exact ⟨w, hw, by rw [h4, e]⟩
      · simp at hq'
    · intro x hx p' q' hp' hq'
      rcases hold x hx with ⟨-, h1, -⟩ | rfl
      · exact hF.rank x h1 p' q' hp' hq'
      · simp at hq'
    · intro x hx m hm
      rcases hold x hx with ⟨-, h1, -⟩ | rfl
      · obtain ⟨k, hk, w⟩ := hF.str x h1 m hm
        exact ⟨k, by omega, w⟩
      · simp only [Node.name.injEq, Name.str.injEq] at hm
        exact ⟨steps, by omega, v, hm⟩
    · intro x hx
      rcases hold x hx with ⟨-, h1, -⟩ | rfl
      · exact hF.rootIn x h1
      · simp [Node.key]
    · obtain ⟨x, hx, hk⟩ := hF.rootOut
      have hn : x.src.key ∉ (t.root :: t.args).map Node.key := by
        rw [hk, List.map_cons, List.mem_cons, not_or]
        refine ⟨fun h => hroot h.symm, fun h => hP.leaf t htm _ h x hx hk⟩
      obtain ⟨w, hw, h1, -⟩ := hsucc x hx hn
      exact ⟨w, hw, by rw [h1, hk]⟩
  · have hne : ∀ s ∈ ts, s.root.key ≠ t.root.key := by
      intro s hs h
      have := hR.roots
      rw [List.map_cons, List.nodup_cons] at this
      exact this.1 (List.mem_map.2 ⟨s, hs, h⟩)
    -- edges of other trees stay
    have hstay : ∀ s ∈ ts, ∀ x ∈ g, x.src.key = s.root.key → x ∈ removeTree g t := by
      intro s hs x hx hk
      refine mem_removeTree.2 ⟨hx, ?_, ?_⟩
      · rw [List.map_cons, List.mem_cons, not_or]
        refine ⟨fun h => hne s hs (by rw [← hk, h]), fun h => hP.leaf t htm _ h x hx rfl⟩
      · rw [List.map_cons, List.mem_cons, not_or]
        refine ⟨fun h => ?_, fun h => ?_⟩
        · have := hP.out s (by simp [hs]) x hx hk
          rw [h] at this
          exact hP.apart s (by simp [hs]) t htm this
        · obtain ⟨a, ha, e⟩ := List.mem_map.1 h
          obtain ⟨y, hy, hyk, rfl⟩ := hR.arg t htm a ha
          have : y = x := List.inj_on_of_nodup_map hF.into hy hx e
          subst this
          exact hne s hs (by rw [← hk, hyk])
    refine ⟨?_, ?_, ?_, ?_, fun s hs => hR.names s (by simp [hs])⟩
    · intro s hs
      obtain ⟨x, hx, e⟩ := hR.src s (by simp [hs])
      exact ⟨x, List.mem_append.2 (.inl (hstay s hs x hx (by rw [e]))), e⟩
    · intro s hs a ha
      obtain ⟨x, hx, e, h2⟩ := hR.arg s (by simp [hs]) a ha
      exact ⟨x, List.mem_append.2 (.inl (hstay s hs x hx e)), e, h2⟩
    · have := hR.roots
      rw [List.map_cons, List.nodup_cons] at this
      exact this.2
    · intro s hs
      obtain ⟨p', h1, h2, h3, h4⟩ := hR.ok s (by simp [hs])
      exact ⟨p', h1, h2, h3, h4.imp (fun _ _ h => sem_cons hT h)⟩
  · have hnd : g.Nodup := List.Nodup.of_map _ hF.into
    have hsub : (dt :: d :: removeTree g t).Subperm g := by
      refine List.subperm_of_subset ?_ ?_
      · refine List.nodup_cons.2 ⟨?_, List.nodup_cons.2 ⟨?_, hnd.sublist List.filter_sublist⟩⟩
        · rw [List.mem_cons, not_or]
          refine ⟨fun h => ?_, fun h => ?_⟩
          · exact hsrc (by rw [← h, hdts]; simp)
          · exact (mem_removeTree.1 h).2.1 (by rw [hdts]; simp)
        · intro h
          exact (mem_removeTree.1 h).2.2 (by rw [hd.2]; simp)
      · intro x hx
        rcases List.mem_cons.1 hx with rfl | hx
        · exact hdt
        · rcases List.mem_cons.1 hx with rfl | hx
          · exact hd.1
          · exact (mem_removeTree.1 hx).1
    have := hsub.length_le
    simp only [List.length_cons, List.length_append, List.length_nil] at this ⊢
    omega

end Verif.CollapseIter
