import Verif.Lemmas.CollapseIter6
/-!
# The graph of a conforming expression is complete
-/
namespace Verif.CollapseIter
open Verif Collapse BlockOps

variable {K : Type} [CommRing K]

/-- More of the invariant of `expr2graph`: `C p i` if the edge `i` of `p` has been added. -/
structure FB (tiny : Tiny K) (e0 : OExpr K) (P rest : List (OExpr K)) (C : OExpr K → Nat → Prop) (s : Build K) : Prop where
  conf : ∀ q, q ∈ P ∨ q ∈ s.stack ∨ q ∈ rest → ∃ d, Conforms tiny q d
  isOp : ∀ q, q ∈ P ∨ q ∈ s.stack → q.terminal = none
  src : ∀ d ∈ s.graph, ∃ p ∈ P, d.src = .op p
  into : (s.graph.map (fun d : Edge K => d.dst.key)).Nodup
  dst : ∀ d ∈ s.graph, ∀ q, d.dst = .op q → q ∈ P ∨ q ∈ s.stack
  dstA : ∀ d ∈ s.graph, ∀ n, d.dst = .name n → ∃ k < s.counter, n = .A k
  rank : ∀ d ∈ s.graph, ∀ p q, d.src = .op p → d.dst = .op q → rank q < rank p
  root : e0 ∈ P ∨ e0 ∈ s.stack
  rootIn : ∀ d ∈ s.graph, d.dst.key ≠ .op e0.id
  once : ∀ a, (P.map OExpr.id).count a + (idsAll s.stack).count a + (idsAll rest).count a ≤ 1
  complete : ∀ p i, C p i → ∃ d ∈ s.graph, d.src = .op p ∧ d.index = i

theorem FB.id_fresh {tiny : Tiny K} {e0 c : OExpr K} {P cs : List (OExpr K)} {C : OExpr K → Nat → Prop} {s : Build K}
    (h : FB tiny e0 P (c :: cs) C s) (hc : c.terminal = none) {q : OExpr K} (hq : q ∈ P ∨ q ∈ s.stack) : q.id ≠ c.id := by
  intro he
  have h1 : 1 ≤ (idsAll (c :: cs)).count c.id := count_stack (by simp) hc
  have h2 := h.once c.id
  rcases hq with hq | hq
  · have := count_map_id hq; rw [he] at this; omega
  · have := count_stack hq (h.isOp q (.inr hq)); rw [he] at this; omega

/-- An edge to a new node. -/
theorem addEdge_new {g : Graph K} {e : Edge K} (h : ∀ d ∈ g, d.dst.key ≠ e.dst.key) : addEdge g e = g ++ [e] := by
  unfold addEdge
  rw [List.filter_eq_self.2]
  intro d hd
  simp [h d hd]

theorem into_append {g : Graph K} {e : Edge K} (hg : (g.map (fun d : Edge K => d.dst.key)).Nodup)
    (h : ∀ d ∈ g, d.dst.key ≠ e.dst.key) : ((g ++ [e]).map (fun d : Edge K => d.dst.key)).Nodup := by
  rw [List.map_append, List.map_cons, List.map_nil, List.nodup_append]
  refine ⟨hg, by simp, ?_⟩
  intro a ha b hb
  rw [List.mem_singleton] at hb
  subst hb
  obtain ⟨d, hd, rfl⟩ := List.mem_map.1 ha
  exact h d hd

theorem addChildren_full {tiny : Tiny K} {e0 parent : OExpr K} {P : List (OExpr K)} (hp : parent ∈ P)
    (C : OExpr K → Nat → Prop) :
    ∀ (cs : List (OExpr K)) (n : Nat) (s : Build K), FB tiny e0 P cs (fun p i => C p i ∨ p = parent ∧ i < n) s →
      (∀ c ∈ cs, rank c < rank parent) →
      FB tiny e0 P [] (fun p i => C p i ∨ p = parent ∧ i < n + cs.length) (addChildren parent n cs s)
  | [], n, s, h, _ => h
  | c :: cs, n, s, h, hr => by
      have hlen : n + (c :: cs).length = (n + 1) + cs.length := by simp; omega
      have hconf : ∀ q, q ∈ P ∨ q ∈ s.stack ∨ q ∈ cs → ∃ d, Conforms tiny q d := fun q hq => h.conf q (by
        rcases hq with hq | hq | hq
        · exact .inl hq
        · exact .inr (.inl hq)
        · exact .inr (.inr (by simp [hq])))
      rw [hlen]
      unfold addChildren
      split
      · rename_i v hv
        have hnew : ∀ d ∈ s.graph, d.dst.key ≠ Node.key (.name (.A s.counter) : Node K) := by
          intro d hd he
          cases hdd : d.dst with
          | op q => rw [hdd] at he; simp [Node.key] at he
          | name m =>
              obtain ⟨k, hk, rfl⟩ := h.dstA d hd m hdd
              rw [hdd] at he
              simp only [Node.key, Key.name.injEq, Name.A.injEq] at he
              omega
        rw [addEdge_new hnew]
        refine addChildren_full hp C cs (n + 1) _ ?_ (fun c' hc' => hr c' (by simp [hc']))
        refine ⟨hconf, h.isOp, ?_, into_append h.into hnew, ?_, ?_, ?_, h.root, ?_, ?_, ?_⟩
        · intro d hd
          rcases List.mem_append.1 hd with hd | hd
          · exact h.src d hd
          · rw [List.mem_singleton] at hd; subst hd; exact ⟨parent, hp, rfl⟩
        · intro d hd q hq
          rcases List.mem_append.1 hd with hd | hd
          · exact h.dst d hd q hq
          · rw [List.mem_singleton] at hd; subst hd; simp at hq
        · intro d hd m hm
          rcases List.mem_append.1 hd with hd | hd
          · obtain ⟨k, hk, e⟩ := h.dstA d hd m hm
            exact ⟨k, by dsimp only; omega, e⟩
          · rw [List.mem_singleton] at hd; subst hd
            simp only [Node.name.injEq] at hm
            exact ⟨s.counter, by simp, hm.symm⟩
        · intro d hd p q h1 h2
          rcases List.mem_append.1 hd with hd | hd
          · exact h.rank d hd p q h1 h2
          · rw [List.mem_singleton] at hd; subst hd; simp at h2
        · intro d hd
          rcases List.mem_append.1 hd with hd | hd
          · exact h.rootIn d hd
          · rw [List.mem_singleton] at hd; subst hd; simp [Node.key]
        · intro a; have := h.once a; rw [idsAll, List.count_append] at this; dsimp only; omega
        · rintro p i (hC | ⟨rfl, hi⟩)
          · obtain ⟨d, hd, e⟩ := h.complete p i (.inl hC)
            exact ⟨d, by simp [hd], e⟩
          · by_cases hi' : i < n
            · obtain ⟨d, hd, e⟩ := h.complete p i (.inr ⟨rfl, hi'⟩)
              exact ⟨d, by simp [hd], e⟩
            · exact ⟨_, List.mem_append.2 (.inr (List.mem_singleton.2 rfl)), rfl, by dsimp only; omega⟩
      · rename_i hv
        have hnew : ∀ d ∈ s.graph, d.dst.key ≠ Node.key (.op c : Node K) := by
          intro d hd he
          cases hdd : d.dst with
          | name m => rw [hdd] at he; simp [Node.key] at he
          | op q =>
              rw [hdd] at he
              simp only [Node.key, Key.op.injEq] at he
              exact h.id_fresh hv (h.dst d hd q hdd) he
        rw [addEdge_new hnew]
        refine addChildren_full hp C cs (n + 1) _ ?_ (fun c' hc' => hr c' (by simp [hc']))
        refine ⟨?_, ?_, ?_, into_append h.into hnew, ?_, ?_, ?_, ?_, ?_, ?_, ?_⟩
        · intro q hq
          rcases hq with hq | hq | hq
          · exact hconf q (.inl hq)
          · rcases List.mem_cons.1 hq with rfl | hq
            · exact h.conf q (.inr (.inr (by simp)))
            · exact hconf q (.inr (.inl hq))
          · exact hconf q (.inr (.inr hq))
        · intro q hq
          rcases hq with hq | hq
          · exact h.isOp q (.inl hq)
          · rcases List.mem_cons.1 hq with rfl | hq
            · exact hv
            · exact h.isOp q (.inr hq)
        · intro d hd
          rcases List.mem_append.1 hd with hd | hd
          · exact h.src d hd
          · rw [List.mem_singleton] at hd; subst hd; exact ⟨parent, hp, rfl⟩
        · intro d hd q hq
          rcases List.mem_append.1 hd with hd | hd
          · rcases h.dst d hd q hq with h1 | h1
            · exact .inl h1
            · exact .inr (by simp [h1])
          · rw [List.mem_singleton] at hd; subst hd
            simp only [Node.op.injEq] at hq
            exact .inr (by simp [hq])
        · intro d hd m hm
          rcases List.mem_append.1 hd with hd | hd
          · exact h.dstA d hd m hm
          · rw [List.mem_singleton] at hd; subst hd; simp at hm
        · intro d hd p q h1 h2
          rcases List.mem_append.1 hd with hd | hd
          · exact h.rank d hd p q h1 h2
          · rw [List.mem_singleton] at hd; subst hd
            simp only [Node.op.injEq] at h1 h2
            subst h1; subst h2
            exact hr _ (by simp)
        · rcases h.root with h1 | h1
          · exact .inl h1
          · exact .inr (by simp [h1])
        · intro d hd
          rcases List.mem_append.1 hd with hd | hd
          · exact h.rootIn d hd
          · rw [List.mem_singleton] at hd; subst hd
            simp only [Node.key, ne_eq, Key.op.injEq]
            exact fun he => h.id_fresh hv h.root he.symm
        · intro a
          have := h.once a
          simp only [idsAll, List.count_append] at this ⊢
          omega
        · rintro p i (hC | ⟨rfl, hi⟩)
          · obtain ⟨d, hd, e⟩ := h.complete p i (.inl hC)
            exact ⟨d, by simp [hd], e⟩
          · by_cases hi' : i < n
            · obtain ⟨d, hd, e⟩ := h.complete p i (.inr ⟨rfl, hi'⟩)
              exact ⟨d, by simp [hd], e⟩
            · exact ⟨_, List.mem_append.2 (.inr (List.mem_singleton.2 rfl)), rfl, by dsimp only; omega⟩

theorem kids_length (f : Nat) (p : OExpr K) : (kids p).length = (children f p).length := by
  rw [← kids_eq f, List.length_map]

/-- Edges complete for all visited operators. -/
def AllOf (P : List (OExpr K)) (p : OExpr K) (i : Nat) : Prop := p ∈ P ∧ i < (kids p).length

/-- Ranks on the stack after a step. -/
theorem addChildren_rank (parent : OExpr K) : ∀ (cs : List (OExpr K)) (n : Nat) (s : Build K),
    rankSum (addChildren parent n cs s).stack ≤ rankSum s.stack + rankSum cs
  | [], n, s => by simp [addChildren, rankSum]
  | c :: cs, n, s => by
      unfold addChildren
      split
      · refine (addChildren_rank parent cs (n + 1) _).trans ?_
        simp [rankSum]
      · refine (addChildren_rank parent cs (n + 1) _).trans ?_
        simp only [rankSum, List.map_cons, List.sum_cons]
        omega

theorem expr2graph_full {tiny : Tiny K} {e0 : OExpr K} : ∀ (fuel next : Nat) (P : List (OExpr K)) (s : Build K),
    BInv tiny e0 next P [] s → FB tiny e0 P [] (AllOf P) s → rankSum s.stack < fuel →
      ∃ s', expr2graph fuel next s = .ok s' ∧ s'.stack = [] ∧
        ∃ P' next', BInv tiny e0 next' P' [] s' ∧ FB tiny e0 P' [] (AllOf P') s'
  | 0, _, _, _, _, _, h => by omega
  | fuel + 1, next, P, s, hB, hF, hfuel => by
      unfold expr2graph
      split
      · rename_i hs; exact ⟨s, rfl, hs, P, next, hB, hF⟩
      · rename_i parent stack hs
        have hst : parent.terminal = none := hB.stackOp _ (by rw [hs]; simp)
        have honce : ∀ a, (P.map OExpr.id).count a + (parent.ids.count a + (idsAll stack).count a) ≤ 1 := by
          intro a; have := hB.once a; simp only [hs, idsAll, List.count_append, List.count_nil] at this; omega
        have hfresh : ∀ a, next ≤ a → (P.map OExpr.id).count a + (parent.ids.count a + (idsAll stack).count a) = 0 := by
          intro a ha; have := hB.fresh a ha; simp only [hs, idsAll, List.count_append, List.count_nil] at this; omega
        have hpid : 1 ≤ parent.ids.count parent.id := List.count_pos_iff.2 (id_mem_ids hst)
        have honce' : ∀ a, ((parent :: P).map OExpr.id).count a + (idsAll stack).count a +
            (idsAll (children next parent)).count a ≤ 1 := by
          intro a
          have h1 := honce a
          have h2 := count_children next parent hst a
          have h3 := hfresh a
          simp only [List.map_cons, List.count_cons, beq_iff_eq]
          split at h2 <;> split at h2 <;> rename_i c1 c2 <;> simp only [c1, if_true, if_false] <;> omega
        refine expr2graph_full fuel (next + 1) (parent :: P) _ ?_ ?_ ?_
        · refine addChildren_inv (by simp) (children next parent) [] _ ?_ (by rw [kids_eq]; rfl) ?_
          · refine ⟨?_, hB.uniq, ?_, hB.loop, ?_, ?_, honce', ?_, hB.names, ?_, ?_⟩
            · intro d hd
              obtain ⟨p, c, h1, h2, h3⟩ := hB.edge d hd
              exact ⟨p, c, h1, by simp [h2], h3⟩
            · intro d hd q hq
              rcases hB.dst d hd q hq with h1 | h1
              · exact .inl (by simp [h1])
              · rw [hs] at h1
                rcases List.mem_cons.1 h1 with rfl | h1
                · exact .inl (by simp)
                · exact .inr h1
            · intro q hq
              refine hB.rooted q ?_
              rcases hq with hq | hq
              · rcases List.mem_cons.1 hq with rfl | hq
                · exact .inr (by rw [hs]; simp)
                · exact .inl hq
              · exact .inr (by rw [hs]; simp only [List.mem_cons]; exact .inr hq)
            · rcases hB.root with h1 | h1
              · exact .inl (by simp [h1])
              · rw [hs] at h1
                rcases List.mem_cons.1 h1 with rfl | h1
                · exact .inl (by simp)
                · exact .inr h1
            · intro a ha
              have h2 := count_children next parent hst a
              have h3 := hfresh a (by omega)
              have h4 : parent.id ≠ a := fun e => by rw [← e] at h3; omega
              have h5 : next ≠ a := by omega
              simp only [List.map_cons, List.count_cons, beq_iff_eq, h4, if_false, h5] at h2 ⊢
              omega
            · intro q hq
              exact hB.stackOp q (by rw [hs]; simp only [List.mem_cons]; exact .inr hq)
            · intro q hq
              rcases hq with hq | hq
              · exact hB.nums q (.inl (by rw [hs]; simp only [List.mem_cons]; exact .inr hq))
              · exact nums_children tiny next parent (hB.nums parent (.inl (by rw [hs]; simp))) q hq
          · intro d hd hdk
            obtain ⟨p, -, hp, hpP, -⟩ := hB.edge d hd
            rw [hp] at hdk
            simp only [Node.key, Key.op.injEq] at hdk
            have h1 := count_map_id hpP
            have h2 := honce p.id
            rw [← hdk] at hpid
            omega
        · obtain ⟨dp, hdp⟩ := hF.conf parent (.inr (.inl (by rw [hs]; simp)))
          have h1 := addChildren_full (tiny := tiny) (e0 := e0) (parent := parent) (P := parent :: P) (by simp) (AllOf P)
            (children next parent) 0 { s with stack := stack } (by
              refine ⟨?_, ?_, ?_, hF.into, ?_, hF.dstA, hF.rank, ?_, hF.rootIn, honce', ?_⟩
              · intro q hq
                rcases hq with hq | hq | hq
                · rcases List.mem_cons.1 hq with rfl | hq
                  · exact ⟨dp, hdp⟩
                  · exact hF.conf q (.inl hq)
                · exact hF.conf q (.inr (.inl (by rw [hs]; simp only [List.mem_cons]; exact .inr hq)))
                · exact children_conforms hdp next q hq
              · intro q hq
                rcases hq with hq | hq
                · rcases List.mem_cons.1 hq with rfl | hq
                  · exact hst
                  · exact hF.isOp q (.inl hq)
                · exact hF.isOp q (.inr (by rw [hs]; simp only [List.mem_cons]; exact .inr hq))
              · intro d hd
                obtain ⟨p, hp, e⟩ := hF.src d hd
                exact ⟨p, by simp [hp], e⟩
              · intro d hd q hq
                rcases hF.dst d hd q hq with h1 | h1
                · exact .inl (by simp [h1])
                · rw [hs] at h1
                  rcases List.mem_cons.1 h1 with rfl | h1
                  · exact .inl (by simp)
                  · exact .inr h1
              · rcases hF.root with h1 | h1
                · exact .inl (by simp [h1])
                · rw [hs] at h1
                  rcases List.mem_cons.1 h1 with rfl | h1
                  · exact .inl (by simp)
                  · exact .inr h1
              · rintro p i (h1 | ⟨-, h1⟩)
                · exact hF.complete p i h1
                · omega) (fun c hc => rank_children next hst hc)
          refine { h1 with complete := fun p i hpi => h1.complete p i ?_ }
          obtain ⟨hpP, hi⟩ := hpi
          rcases List.mem_cons.1 hpP with rfl | hpP
          · exact .inr ⟨rfl, by rw [kids_length next] at hi; omega⟩
          · exact .inl ⟨hpP, hi⟩
        · refine lt_of_le_of_lt (addChildren_rank parent _ 0 _) ?_
          have h1 := rankSum_children next hst
          rw [hs] at hfuel
          simp only [rankSum, List.map_cons, List.sum_cons] at hfuel h1 ⊢
          omega

end Verif.CollapseIter
