import Verif.Lemmas.CollapseIter2
/-!
# Building the graph
-/
namespace Verif.CollapseIter
open Verif Collapse BlockOps

variable {K : Type} [CommRing K]

/-- The hypothesis on numbers. -/
def Nums (tiny : Tiny K) (e : Expr K) : Prop := e.NumsIn (fun c => tiny c = true → c = 0)

theorem idsAll_append (as bs : List (OExpr K)) : idsAll (as ++ bs) = idsAll as ++ idsAll bs := by
  induction as with
  | nil => simp [idsAll]
  | cons a as ih => simp [idsAll, ih]

theorem count_flat (c : List (OExpr K)) (a : Nat) : (idsAll (c.flatMap OExpr.flat)).count a ≤ (idsAll c).count a := by
  induction c with
  | nil => simp
  | cons x c ih =>
      have : (idsAll x.flat).count a ≤ x.ids.count a := by
        cases x <;> simp [OExpr.flat, idsAll, OExpr.ids]
        exact List.count_le_count_cons
      rw [List.flatMap_cons, idsAll_append, idsAll, List.count_append, List.count_append]
      omega

/-- Children have the identities of the parent but its own, and the new one. -/
theorem count_children (f : Nat) (p : OExpr K) (hp : p.terminal = none) (a : Nat) :
    (idsAll (children f p)).count a + (if p.id = a then 1 else 0) ≤ p.ids.count a + (if f = a then 1 else 0) := by
  cases p with
  | num c => simp [OExpr.terminal] at hp
  | mat c => simp [OExpr.terminal] at hp
  | other i r => by_cases h1 : i = a <;> by_cases h2 : f = a <;>
        simp only [children, idsAll, OExpr.ids, OExpr.id, List.count_cons, List.count_append, List.count_nil, beq_iff_eq, h1,
          h2, if_true, if_false] <;> omega
  | add i x y => by_cases h1 : i = a <;> by_cases h2 : f = a <;>
        simp only [children, idsAll, OExpr.ids, OExpr.id, List.count_cons, List.count_append, List.count_nil, beq_iff_eq, h1,
          h2, if_true, if_false] <;> omega
  | sub i x y => by_cases h1 : i = a <;> by_cases h2 : f = a <;>
        simp only [children, idsAll, OExpr.ids, OExpr.id, List.count_cons, List.count_append, List.count_nil, beq_iff_eq, h1,
          h2, if_true, if_false] <;> omega
  | tr i x => by_cases h1 : i = a <;> by_cases h2 : f = a <;>
        simp only [children, idsAll, OExpr.ids, OExpr.id, List.count_cons, List.count_append, List.count_nil, beq_iff_eq, h1,
          h2, if_true, if_false] <;> omega
  | mul i chain =>
      rcases chain with _ | ⟨x, _ | ⟨y, _ | ⟨z, r⟩⟩⟩
      · by_cases h1 : i = a <;> by_cases h2 : f = a <;>
        simp only [children, idsAll, OExpr.ids, OExpr.id, List.count_cons, List.count_append, List.count_nil, beq_iff_eq, h1,
          h2, if_true, if_false] <;> omega
      · by_cases h1 : i = a <;> by_cases h2 : f = a <;>
        simp only [children, idsAll, OExpr.ids, OExpr.id, List.count_cons, List.count_append, List.count_nil, beq_iff_eq, h1,
          h2, if_true, if_false] <;> omega
      · by_cases h1 : i = a <;> by_cases h2 : f = a <;>
        simp only [children, idsAll, OExpr.ids, OExpr.id, List.count_cons, List.count_append, List.count_nil, beq_iff_eq, h1,
          h2, if_true, if_false] <;> omega
      · have := count_flat (y :: z :: r) a
        by_cases h1 : i = a <;> by_cases h2 : f = a <;>
        simp only [children, idsAll, OExpr.ids, OExpr.id, List.count_cons, List.count_append, List.count_nil,
          beq_iff_eq, h1, h2, if_true, if_false] at this ⊢ <;> omega

theorem nums_flat (tiny : Tiny K) (c : List (OExpr K)) (h : ∀ x ∈ c, Nums tiny x.expr) :
    ∀ x ∈ c.flatMap OExpr.flat, Nums tiny x.expr := by
  have key : ∀ l : List (OExpr K), numsInChain (fun c => tiny c = true → c = 0) (exprAll l) → ∀ x ∈ l, Nums tiny x.expr := by
    intro l
    induction l with
    | nil => simp
    | cons a l ih =>
        intro h x hx
        simp only [exprAll, numsInChain] at h
        rcases List.mem_cons.1 hx with rfl | hx
        · exact h.1
        · exact ih h.2 x hx
  intro x hx
  obtain ⟨y, hy, hx⟩ := List.mem_flatMap.1 hx
  have := h y hy
  cases y with
  | mul i chain => exact key chain (by simpa [Nums, OExpr.expr, Expr.NumsIn] using this) x hx
  | _ => simp only [OExpr.flat, List.mem_singleton] at hx; subst hx; exact this

theorem nums_chain (tiny : Tiny K) (l : List (OExpr K)) :
    numsInChain (fun c => tiny c = true → c = 0) (exprAll l) ↔ ∀ x ∈ l, Nums tiny x.expr := by
  induction l with
  | nil => simp [exprAll, numsInChain]
  | cons a l ih => simp [exprAll, numsInChain, ih, Nums]

theorem nums_children (tiny : Tiny K) (f : Nat) (p : OExpr K) (h : Nums tiny p.expr) :
    ∀ x ∈ children f p, Nums tiny x.expr := by
  cases p with
  | num c => simp [children]
  | mat c => simp [children]
  | other i r => simp [children]
  | add i x y => simpa [Nums, OExpr.expr, Expr.NumsIn, children] using h
  | sub i x y => simpa [Nums, OExpr.expr, Expr.NumsIn, children] using h
  | tr i x => simpa [Nums, OExpr.expr, Expr.NumsIn, children] using h
  | mul i chain =>
      have h' : ∀ x ∈ chain, Nums tiny x.expr := by
        rw [← nums_chain]; simpa [Nums, OExpr.expr, Expr.NumsIn] using h
      rcases chain with _ | ⟨x, _ | ⟨y, _ | ⟨z, r⟩⟩⟩
      · simp [children]
      · simpa [children] using h'
      · simpa [children] using h'
      · simp only [children, List.mem_cons, List.not_mem_nil, or_false, forall_eq_or_imp, forall_eq]
        refine ⟨h' x (by simp), ?_⟩
        have := nums_flat tiny (y :: z :: r) (fun w hw => h' w (by simp [List.mem_cons] at hw ⊢; tauto))
        simpa [Nums, OExpr.expr, Expr.NumsIn, nums_chain] using this

/-- The invariant of `expr2graph`.  `P` are the operators already visited, `rest` the children of the current one still to be
visited. -/
structure BInv (tiny : Tiny K) (e0 : OExpr K) (next : Nat) (P : List (OExpr K)) (rest : List (OExpr K)) (s : Build K) :
    Prop where
  edge : ∀ d ∈ s.graph, ∃ p c, d.src = .op p ∧ p ∈ P ∧ (kids p)[d.index]? = some c ∧ Sem tiny s.terminals d.dst c
  uniq : (s.graph.map (fun d : Edge K => (d.src.key, d.index))).Nodup
  dst : ∀ d ∈ s.graph, ∀ q, d.dst = .op q → q ∈ P ∨ q ∈ s.stack
  loop : ∀ d ∈ s.graph, d.src.key ≠ d.dst.key
  rooted : ∀ q, q ∈ P ∨ q ∈ s.stack → q.id = e0.id ∨ ∃ d ∈ s.graph, d.dst.key = .op q.id
  root : e0 ∈ P ∨ e0 ∈ s.stack
  once : ∀ a, (P.map OExpr.id).count a + (idsAll s.stack).count a + (idsAll rest).count a ≤ 1
  fresh : ∀ a, next ≤ a → (P.map OExpr.id).count a + (idsAll s.stack).count a + (idsAll rest).count a = 0
  names : ∀ n v, s.terminals.lookup n = some v → ∃ k < s.counter, n = .A k
  stackOp : ∀ q ∈ s.stack, q.terminal = none
  nums : ∀ q, q ∈ s.stack ∨ q ∈ rest → Nums tiny q.expr

theorem id_mem_ids {q : OExpr K} (h : q.terminal = none) : q.id ∈ q.ids := by
  cases q <;> simp [OExpr.terminal, OExpr.id, OExpr.ids] at h ⊢

theorem ids_sub {q : OExpr K} : ∀ {l : List (OExpr K)}, q ∈ l → ∀ a, q.ids.count a ≤ (idsAll l).count a
  | [], h, _ => by simp at h
  | x :: l, h, a => by
      rw [idsAll, List.count_append]
      rcases List.mem_cons.1 h with rfl | h
      · omega
      · have := ids_sub h a; omega

theorem count_map_id {q : OExpr K} {P : List (OExpr K)} (h : q ∈ P) : 1 ≤ (P.map OExpr.id).count q.id :=
  List.count_pos_iff.2 (List.mem_map.2 ⟨q, h, rfl⟩)

theorem count_stack {q : OExpr K} {l : List (OExpr K)} (hq : q ∈ l) (h : q.terminal = none) :
    1 ≤ (idsAll l).count q.id :=
  le_trans (List.count_pos_iff.2 (id_mem_ids h)) (ids_sub hq _)

theorem eq_of_map_id {P : List (OExpr K)} (h : ∀ a, (P.map OExpr.id).count a ≤ 1) {q q' : OExpr K} (hq : q ∈ P)
    (hq' : q' ∈ P) (he : q.id = q'.id) : q = q' :=
  List.inj_on_of_nodup_map (List.nodup_iff_count_le_one.2 h) hq hq' he

theorem eq_of_stack : ∀ {l : List (OExpr K)}, (∀ a, (idsAll l).count a ≤ 1) → (∀ q ∈ l, q.terminal = none) →
    ∀ {q q' : OExpr K}, q ∈ l → q' ∈ l → q.id = q'.id → q = q'
  | [], _, _, q, q', hq, _, _ => by simp at hq
  | x :: l, h, ht, q, q', hq, hq', he => by
      have h' : ∀ a, x.ids.count a + (idsAll l).count a ≤ 1 := fun a => by
        have := h a; rwa [idsAll, List.count_append] at this
      have hx : 1 ≤ x.ids.count x.id := List.count_pos_iff.2 (id_mem_ids (ht x (by simp)))
      rcases List.mem_cons.1 hq with rfl | hq1 <;> rcases List.mem_cons.1 hq' with rfl | hq1'
      · rfl
      · have := count_stack hq1' (ht q' hq'); have h2 := h' q.id; rw [← he] at this; omega
      · have h3 : 1 ≤ (idsAll l).count q.id := count_stack hq1 (ht q hq)
        have h2 := h' q'.id; rw [he] at h3; omega
      · exact eq_of_stack (fun a => by have := h' a; omega) (fun z hz => ht z (by simp [hz])) hq1 hq1' he

/-- Operators of the construction are told apart by identity. -/
theorem BInv.inj {tiny : Tiny K} {e0 : OExpr K} {next : Nat} {P rest : List (OExpr K)} {s : Build K}
    (h : BInv tiny e0 next P rest s) {q q' : OExpr K} (hq : q ∈ P ∨ q ∈ s.stack) (hq' : q' ∈ P ∨ q' ∈ s.stack)
    (he : q.id = q'.id) : q = q' := by
  rcases hq with hq | hq <;> rcases hq' with hq' | hq'
  · exact eq_of_map_id (fun a => by have := h.once a; omega) hq hq' he
  · have h1 := count_map_id hq; have h2 := count_stack hq' (h.stackOp _ hq'); have := h.once q.id
    rw [← he] at h2; omega
  · have h1 := count_map_id hq'; have h2 := count_stack hq (h.stackOp _ hq); have := h.once q'.id
    rw [he] at h2; omega
  · exact eq_of_stack (fun a => by have := h.once a; omega) h.stackOp hq hq' he

theorem addEdge_uniq {g : Graph K} {e : Edge K} (h : (g.map (fun d : Edge K => (d.src.key, d.index))).Nodup)
    (he : ∀ d ∈ g, d.src.key = e.src.key → d.index ≠ e.index) :
    ((addEdge g e).map (fun d : Edge K => (d.src.key, d.index))).Nodup := by
  unfold addEdge
  rw [List.map_append, List.map_cons, List.map_nil, List.nodup_append]
  refine ⟨h.sublist (List.filter_sublist.map _), by simp, ?_⟩
  intro a ha b hb
  rw [List.mem_singleton] at hb
  subst hb
  rintro rfl
  obtain ⟨x, hx, hxe⟩ := List.mem_map.1 ha
  simp only [Prod.mk.injEq] at hxe
  exact he x (List.mem_filter.1 hx).1 hxe.1 hxe.2

theorem addEdge_into {g : Graph K} {e : Edge K} {k : Key} (h : ∃ d ∈ g, d.dst.key = k) : ∃ d ∈ addEdge g e, d.dst.key = k := by
  obtain ⟨d, hd, rfl⟩ := h
  by_cases hk : d.src.key = e.src.key ∧ d.dst.key = e.dst.key
  · exact ⟨e, mem_addEdge.2 (.inr rfl), hk.2.symm⟩
  · exact ⟨d, mem_addEdge.2 (.inl ⟨hd, hk⟩), rfl⟩

theorem terminal_nums {tiny : Tiny K} {c : OExpr K} {v : Val K} (h : c.terminal = some v) (hn : Nums tiny c.expr) :
    Eqv v.expr c.expr ∧ NumOk tiny v := by
  cases c <;> simp only [OExpr.terminal, Option.some.injEq, reduceCtorEq] at h
  · subst h; exact ⟨Eqv.refl _, by simpa [Nums, OExpr.expr, Expr.NumsIn, NumOk] using hn⟩
  · subst h; exact ⟨Eqv.refl _, trivial⟩

theorem addChildren_inv {tiny : Tiny K} {e0 parent : OExpr K} {next : Nat} {P : List (OExpr K)} (hp : parent ∈ P) :
    ∀ (cs : List (OExpr K)) (pre : List (Expr K)) (s : Build K), BInv tiny e0 next P cs s →
      kids parent = pre ++ cs.map OExpr.expr → (∀ d ∈ s.graph, d.src.key = .op parent.id → d.index < pre.length) →
      BInv tiny e0 next P [] (addChildren parent pre.length cs s)
  | [], pre, s, h, _, _ => h
  | c :: cs, pre, s, h, hk, hi => by
      have hkc : (kids parent)[pre.length]? = some c.expr := by rw [hk]; simp
      have hk' : kids parent = (pre ++ [c.expr]) ++ cs.map OExpr.expr := by rw [hk]; simp
      have hpl : pre.length + 1 = (pre ++ [c.expr]).length := by simp
      have hnum := h.nums c (.inr (by simp))
      unfold addChildren
      split
      · rename_i v hv
        have hn : ∀ w, s.terminals.lookup (.A s.counter) = some w → w = v := by
          intro w hw
          obtain ⟨k, hk, hk'⟩ := h.names _ _ hw
          cases hk'
          omega
        rw [hpl]
        refine addChildren_inv hp cs (pre ++ [c.expr]) _ ?_ hk' ?_
        · refine ⟨?_, ?_, ?_, ?_, ?_, h.root, ?_, ?_, ?_, h.stackOp, fun q hq => h.nums q (by
            rcases hq with hq | hq
            · exact .inl hq
            · exact .inr (by simp [hq]))⟩
          · intro d hd
            rcases mem_addEdge.1 hd with ⟨hd, -⟩ | rfl
            · obtain ⟨p, c', h1, h2, h3, h4⟩ := h.edge d hd
              exact ⟨p, c', h1, h2, h3, sem_cons hn h4⟩
            · obtain ⟨t1, t2⟩ := terminal_nums hv hnum
              exact ⟨parent, c.expr, rfl, hp, hkc, v, by simp, t1, t2⟩
          · exact addEdge_uniq h.uniq (fun d hd hdk => Nat.ne_of_lt (hi d hd hdk))
          · intro d hd q hq
            rcases mem_addEdge.1 hd with ⟨hd, -⟩ | rfl
            · exact h.dst d hd q hq
            · simp at hq
          · intro d hd
            rcases mem_addEdge.1 hd with ⟨hd, -⟩ | rfl
            · exact h.loop d hd
            · simp [Node.key]
          · intro q hq
            rcases h.rooted q hq with h1 | h1
            · exact .inl h1
            · exact .inr (addEdge_into h1)
          · intro a; have := h.once a; rw [idsAll, List.count_append] at this; dsimp only; omega
          · intro a ha; have := h.fresh a ha; rw [idsAll, List.count_append] at this; dsimp only; omega
          · intro n w hw
            simp only [List.lookup_cons] at hw
            by_cases hn' : n = .A s.counter
            · exact ⟨s.counter, by simp, hn'⟩
            · have : (n == Name.A s.counter) = false := by simpa using hn'
              rw [this] at hw
              obtain ⟨k, hk, e⟩ := h.names n w hw
              exact ⟨k, by dsimp only; omega, e⟩
        · intro d hd hdk
          rcases mem_addEdge.1 hd with ⟨hd, -⟩ | rfl
          · have := hi d hd hdk; simp; omega
          · simp
      · rename_i hv
        rw [hpl]
        refine addChildren_inv hp cs (pre ++ [c.expr]) _ ?_ hk' ?_
        · refine ⟨?_, ?_, ?_, ?_, ?_, ?_, ?_, ?_, h.names, ?_, ?_⟩
          · intro d hd
            rcases mem_addEdge.1 hd with ⟨hd, -⟩ | rfl
            · exact h.edge d hd
            · exact ⟨parent, c.expr, rfl, hp, hkc, Eqv.refl _⟩
          · exact addEdge_uniq h.uniq (fun d hd hdk => Nat.ne_of_lt (hi d hd hdk))
          · intro d hd q hq
            rcases mem_addEdge.1 hd with ⟨hd, -⟩ | rfl
            · rcases h.dst d hd q hq with h1 | h1
              · exact .inl h1
              · exact .inr (by simp [h1])
            · simp only [Node.op.injEq] at hq
              exact .inr (by simp [hq])
          · intro d hd
            rcases mem_addEdge.1 hd with ⟨hd, -⟩ | rfl
            · exact h.loop d hd
            · simp only [Node.key, ne_eq, Key.op.injEq]
              intro hid
              have h1 := count_map_id hp
              have h2 := count_stack (l := c :: cs) (q := c) (by simp) hv
              have := h.once parent.id
              rw [← hid] at h2
              omega
          · intro q hq
            by_cases hqc : q = c
            · exact .inr ⟨_, mem_addEdge.2 (.inr rfl), by simp [Node.key, hqc]⟩
            · have hq' : q ∈ P ∨ q ∈ s.stack := by
                rcases hq with hq | hq
                · exact .inl hq
                · rcases List.mem_cons.1 hq with h1 | h1
                  · exact absurd h1 hqc
                  · exact .inr h1
              rcases h.rooted q hq' with h1 | h1
              · exact .inl h1
              · exact .inr (addEdge_into h1)
          · rcases h.root with h1 | h1
            · exact .inl h1
            · exact .inr (by simp [h1])
          · intro a
            have := h.once a
            simp only [idsAll, List.count_append] at this ⊢
            omega
          · intro a ha
            have := h.fresh a ha
            simp only [idsAll, List.count_append] at this ⊢
            omega
          · intro q hq
            rcases List.mem_cons.1 hq with rfl | h1
            · exact hv
            · exact h.stackOp q h1
          · intro q hq
            rcases hq with hq | hq
            · rcases List.mem_cons.1 hq with rfl | h1
              · exact hnum
              · exact h.nums q (.inl h1)
            · exact h.nums q (.inr (by simp [hq]))
        · intro d hd hdk
          rcases mem_addEdge.1 hd with ⟨hd, -⟩ | rfl
          · have := hi d hd hdk; simp; omega
          · simp

theorem expr2graph_inv {tiny : Tiny K} {e0 : OExpr K} : ∀ (fuel next : Nat) (P : List (OExpr K)) (s s' : Build K),
    BInv tiny e0 next P [] s → expr2graph fuel next s = .ok s' →
      s'.stack = [] ∧ ∃ P' next', BInv tiny e0 next' P' [] s'
  | 0, _, _, _, _, _, h => by simp [expr2graph] at h
  | fuel + 1, next, P, s, s', hB, h => by
      unfold expr2graph at h
      split at h
      · rename_i hs; cases h; exact ⟨hs, P, next, hB⟩
      · rename_i parent stack hs
        have hst : parent.terminal = none := hB.stackOp _ (by rw [hs]; simp)
        have honce : ∀ a, (P.map OExpr.id).count a + (parent.ids.count a + (idsAll stack).count a) ≤ 1 := by
          intro a; have := hB.once a; simp only [hs, idsAll, List.count_append, List.count_nil] at this; omega
        have hfresh : ∀ a, next ≤ a → (P.map OExpr.id).count a + (parent.ids.count a + (idsAll stack).count a) = 0 := by
          intro a ha; have := hB.fresh a ha; simp only [hs, idsAll, List.count_append, List.count_nil] at this; omega
        have hpid : 1 ≤ parent.ids.count parent.id := List.count_pos_iff.2 (id_mem_ids hst)
        refine expr2graph_inv fuel (next + 1) (parent :: P) _ s' ?_ h
        refine addChildren_inv (by simp) (children next parent) [] _ ?_ (by rw [kids_eq]; rfl) ?_
        · refine ⟨?_, hB.uniq, ?_, hB.loop, ?_, ?_, ?_, ?_, hB.names, ?_, ?_⟩
          · intro d hd
            obtain ⟨p, c, h1, h2, h3⟩ := hB.edge d hd
            exact ⟨p, c, h1, by simp [h2], h3⟩
          · intro d hd q hq
            rcases hB.dst d hd q hq with h1 | h1
            · exact .inl (by simp [h1])
            · rw [hs] at h1
              rcases List.mem_cons.1 h1 with rfl | h1
              · exact .inl (by simp)
              · exact .inr h1
          · intro q hq
            refine hB.rooted q ?_
            rcases hq with hq | hq
            · rcases List.mem_cons.1 hq with rfl | hq
              · exact .inr (by rw [hs]; simp)
              · exact .inl hq
            · exact .inr (by rw [hs]; simp only [List.mem_cons]; exact .inr hq)
          · rcases hB.root with h1 | h1
            · exact .inl (by simp [h1])
            · rw [hs] at h1
              rcases List.mem_cons.1 h1 with rfl | h1
              · exact .inl (by simp)
              · exact .inr h1
          · intro a
            have h1 := honce a
            have h2 := count_children next parent hst a
            have h3 := hfresh a
            simp only [List.map_cons, List.count_cons, beq_iff_eq]
            split at h2 <;> split at h2 <;> rename_i c1 c2 <;> simp only [c1, if_true, if_false] <;> omega
          · intro a ha
            have h2 := count_children next parent hst a
            have h3 := hfresh a (by omega)
            have h4 : parent.id ≠ a := fun e => by rw [← e] at h3; omega
            have h5 : next ≠ a := by omega
            simp only [List.map_cons, List.count_cons, beq_iff_eq, h4, if_false, h5] at h2 ⊢
            omega
          · intro q hq
            exact hB.stackOp q (by rw [hs]; simp only [List.mem_cons]; exact .inr hq)
          · intro q hq
            rcases hq with hq | hq
            · exact hB.nums q (.inl (by rw [hs]; simp only [List.mem_cons]; exact .inr hq))
            · exact nums_children tiny next parent (hB.nums parent (.inl (by rw [hs]; simp))) q hq
        · intro d hd hdk
          obtain ⟨p, -, hp, hpP, -⟩ := hB.edge d hd
          rw [hp] at hdk
          simp only [Node.key, Key.op.injEq] at hdk
          have h1 := count_map_id hpP
          have h2 := honce p.id
          rw [← hdk] at hpid
          omega

theorem inv_of_BInv {tiny : Tiny K} {e0 : OExpr K} {next : Nat} {P : List (OExpr K)} {s : Build K}
    (h : BInv tiny e0 next P [] s) : Inv tiny s.terminals e0 s.graph where
  edge d hd := by
    obtain ⟨p, c, h1, -, h3⟩ := h.edge d hd
    exact ⟨p, c, h1, h3⟩
  uniq := h.uniq
  ops d hd d' hd' hk := by
    obtain ⟨p, c, h1, h2, -⟩ := h.edge d hd
    obtain ⟨p', c', h1', h2', -⟩ := h.edge d' hd'
    rw [h1, h1'] at hk ⊢
    simp only [Node.key, Key.op.injEq] at hk
    rw [h.inj (.inl h2) (.inl h2') hk]
  ops' d hd d' hd' hk := by
    obtain ⟨p', c', h1', h2', -⟩ := h.edge d' hd'
    cases hdst : d.dst with
    | name n => rw [hdst, h1'] at hk; simp [Node.key] at hk
    | op q =>
        have := h.dst d hd q hdst
        rw [hdst, h1'] at hk
        rw [h1']
        simp only [Node.key, Key.op.injEq] at hk
        rw [h.inj this (.inl h2') hk]
  root d hd hk := by
    obtain ⟨p, c, h1, h2, -⟩ := h.edge d hd
    rw [h1] at hk ⊢
    simp only [Node.key, Key.op.injEq] at hk
    rw [h.inj (.inl h2) h.root hk]
  loop := h.loop
  rooted d hd := by
    obtain ⟨p, c, h1, h2, -⟩ := h.edge d hd
    rcases h.rooted p (.inl h2) with h3 | h3
    · left; rw [h1]; simp [Node.key, h3]
    · right; rw [h1]; exact h3

theorem foldl_max (l : List Nat) (b : Nat) : b ≤ l.foldl (fun a b => max a (b + 1)) b ∧
    ∀ i ∈ l, i < l.foldl (fun a b => max a (b + 1)) b := by
  induction l generalizing b with
  | nil => simp
  | cons x l ih =>
      obtain ⟨h1, h2⟩ := ih (max b (x + 1))
      rw [List.foldl_cons]
      refine ⟨by omega, fun i hi => ?_⟩
      rcases List.mem_cons.1 hi with rfl | hi
      · omega
      · exact h2 i hi

/-- Everything returned by the iterative collapse stands for the expression. -/
theorem collapse_eqv {tiny : Tiny K} {name : Nat → Val K → Nat} {sched : Nat → List (Tree K) → List (Tree K)}
    (hname : ∀ k k' v v', name k v = name k' v' → k = k' ∨ v = v') (hs : ∀ k ts, (sched k ts).Perm ts) {fuel : Nat}
    {e : OExpr K} (hids : e.ids.Nodup) (hnums : Nums tiny e.expr) {v : Val K}
    (h : collapse tiny name sched fuel e = .ok v) : Eqv v.expr e.expr := by
  unfold collapse at h
  split at h
  · rename_i w hw
    cases h
    exact (terminal_nums hw hnums).1
  · rename_i hw
    obtain ⟨b, hb, h⟩ := py_bind_eq_ok.1 h
    obtain ⟨s, hsl, h⟩ := py_bind_eq_ok.1 h
    obtain ⟨n, hn, h⟩ := py_bind_eq_ok.1 h
    have hB0 : BInv tiny e (e.ids.foldl (fun a b => max a (b + 1)) 0) [] [] { stack := [e] } := by
      refine ⟨by simp, by simp, by simp, by simp, ?_, .inr (by simp), ?_, ?_, by simp, by simpa using hw, ?_⟩
      · intro q hq
        simp only [List.not_mem_nil, List.mem_singleton, false_or] at hq
        exact .inl (by rw [hq])
      · intro a
        simp only [List.map_nil, List.count_nil, idsAll, List.append_nil]
        have := List.nodup_iff_count_le_one.1 hids a
        omega
      · intro a ha
        simp only [List.map_nil, List.count_nil, idsAll, List.append_nil]
        have : a ∉ e.ids := fun hm => by have := (foldl_max e.ids 0).2 a hm; omega
        have := List.count_eq_zero.2 this
        omega
      · intro q hq
        simp only [List.not_mem_nil, List.mem_singleton, or_false] at hq
        rw [hq]; exact hnums
    obtain ⟨-, P', next', hB⟩ := expr2graph_inv _ _ _ _ _ hB0 hb
    have hN : Named name 0 b.terminals := by
      intro m w hm
      obtain ⟨k, -, hk⟩ := hB.names _ _ hm
      cases hk
    obtain ⟨hI, -⟩ := collapseLoop_inv hname hs fuel _ s (inv_of_BInv hB) hN hsl
    exact final_eqv hI hn h

end Verif.CollapseIter
