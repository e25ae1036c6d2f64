import Verif.Lemmas.CollapseIter
import Mathlib.Data.List.Sort
import Mathlib.Data.List.Perm.Subperm
import Mathlib.Data.List.Nodup
import Mathlib.Data.List.Range
/-!
# The invariant of the rewriting
-/
namespace Verif.CollapseIter
open Verif Collapse BlockOps

variable {K : Type} [CommRing K]

/-- A node stands for an expression. -/
def Sem (tiny : Tiny K) (T : Terminals K) (n : Node K) (e : Expr K) : Prop :=
  match n with
  | .op p => Eqv p.expr e
  | .name m => ∃ v, T.lookup m = some v ∧ Eqv v.expr e ∧ NumOk tiny v

/-- The invariant of the graph. -/
structure Inv (tiny : Tiny K) (T : Terminals K) (e0 : OExpr K) (g : Graph K) : Prop where
  edge : ∀ d ∈ g, ∃ p c, d.src = .op p ∧ (kids p)[d.index]? = some c ∧ Sem tiny T d.dst c
  uniq : (g.map (fun d : Edge K => (d.src.key, d.index))).Nodup
  ops : ∀ d ∈ g, ∀ d' ∈ g, d.src.key = d'.src.key → d.src = d'.src
  ops' : ∀ d ∈ g, ∀ d' ∈ g, d.dst.key = d'.src.key → d.dst = d'.src
  root : ∀ d ∈ g, d.src.key = .op e0.id → d.src = .op e0
  loop : ∀ d ∈ g, d.src.key ≠ d.dst.key
  rooted : ∀ d ∈ g, d.src.key = .op e0.id ∨ ∃ d' ∈ g, d'.dst.key = d.src.key

/-- A tree stands for its root. -/
def TreeOk (tiny : Tiny K) (T : Terminals K) (t : Tree K) : Prop :=
  ∃ p, t.root = .op p ∧ ∃ idx : List Nat, idx.Pairwise (· < ·) ∧
    List.Forall₂ (fun i a => ∃ c, (kids p)[i]? = some c ∧ Sem tiny T a c) idx t.args

theorem mem_outEdges {g : Graph K} {n : Node K} {d : Edge K} : d ∈ outEdges g n ↔ d ∈ g ∧ d.src.key = n.key := by
  simp [outEdges]

theorem forall₂_map_map {α β γ : Type} {R : β → γ → Prop} {f : α → β} {h : α → γ} {l : List α}
    (H : ∀ a ∈ l, R (f a) (h a)) : List.Forall₂ R (l.map f) (l.map h) := by
  induction l with
  | nil => exact .nil
  | cons a l ih => exact .cons (H a (by simp)) (ih (fun b hb => H b (by simp [hb])))

/-- Trees of the graph. -/
theorem treeOk_of_inv {tiny : Tiny K} {T : Terminals K} {e0 : OExpr K} {g : Graph K} (hI : Inv tiny T e0 g)
    {d0 : Edge K} (hd0 : d0 ∈ g) : TreeOk tiny T ⟨d0.src, successors g d0.src⟩ := by
  obtain ⟨p, c0, hp, -, -⟩ := hI.edge d0 hd0
  refine ⟨p, hp, ((outEdges g d0.src).insertionSort (fun d e => d.index ≤ e.index)).map Edge.index, ?_, ?_⟩
  · have hn : ((outEdges g d0.src).map Edge.index).Nodup := by
      have h1 : ((outEdges g d0.src).map (fun d : Edge K => (d.src.key, d.index))).Nodup :=
        hI.uniq.sublist (List.filter_sublist.map _)
      rw [List.nodup_map_iff_inj_on (List.Nodup.of_map _ h1)]
      intro x hx y hy hxy
      refine List.inj_on_of_nodup_map h1 hx hy ?_
      rw [(mem_outEdges.1 hx).2, (mem_outEdges.1 hy).2, hxy]
    have hperm := (List.perm_insertionSort (fun d e : Edge K => d.index ≤ e.index) (outEdges g d0.src)).map Edge.index
    have hn' := hperm.nodup_iff.2 hn
    haveI : Std.Total (fun d e : Edge K => d.index ≤ e.index) := ⟨fun a b => Nat.le_total _ _⟩
    haveI : IsTrans (Edge K) (fun d e : Edge K => d.index ≤ e.index) := ⟨fun a b c => Nat.le_trans⟩
    have hs := List.pairwise_insertionSort (fun d e : Edge K => d.index ≤ e.index) (outEdges g d0.src)
    have hs' : (((outEdges g d0.src).insertionSort (fun d e => d.index ≤ e.index)).map Edge.index).Pairwise (· ≤ ·) :=
      List.pairwise_map.2 hs
    exact (hs'.and hn').imp (fun h => lt_of_le_of_ne h.1 h.2)
  · refine forall₂_map_map (fun d hd => ?_)
    have hd' := mem_outEdges.1 ((List.perm_insertionSort _ _).mem_iff.1 hd)
    obtain ⟨p', c, hp', hc, hs⟩ := hI.edge d hd'.1
    have := hI.ops d hd'.1 d0 hd0 hd'.2
    rw [hp, hp'] at this
    cases this
    exact ⟨c, hc, hs⟩

/-- Values found by `lookup`. -/
theorem lookup_sem {tiny : Tiny K} {T : Terminals K} {a : Node K} {c : Expr K} {w : Val K}
    (h : Sem tiny T a c) (hl : lookup T a = .ok w) : Eqv w.expr c ∧ NumOk tiny w := by
  cases a with
  | op p => simp [lookup] at hl
  | name m =>
      obtain ⟨v, hv, h1, h2⟩ := h
      simp only [lookup, hv, Except.ok.injEq] at hl
      subst hl
      exact ⟨h1, h2⟩

theorem applyOp_length {tiny : Tiny K} {p : OExpr K} {vals : List (Val K)} {v : Val K}
    (h : applyOp tiny (.op p) vals = .ok v) : (kids p).length ≤ vals.length := by
  cases p with
  | num c => simp [applyOp] at h
  | mat M => simp [applyOp] at h
  | other i r => simp [applyOp] at h
  | add i a b => rcases vals with _ | ⟨a, _ | ⟨b, _ | ⟨c, r⟩⟩⟩ <;> simp [applyOp] at h; simp [kids, children]
  | sub i a b => rcases vals with _ | ⟨a, _ | ⟨b, _ | ⟨c, r⟩⟩⟩ <;> simp [applyOp] at h; simp [kids, children]
  | tr i a => rcases vals with _ | ⟨a, _ | ⟨b, r⟩⟩ <;> simp [applyOp] at h; simp [kids, children]
  | mul i chain =>
      rcases vals with _ | ⟨a, _ | ⟨b, _ | ⟨c, r⟩⟩⟩ <;> simp [applyOp] at h
      rcases chain with _ | ⟨a, _ | ⟨b, _ | ⟨c, r⟩⟩⟩ <;> simp [kids, children]

/-- Strictly increasing indices below their number are `0, 1, ...`. -/
theorem eq_range {l : List Nat} {n : Nat} (h : l.Pairwise (· < ·)) (hl : ∀ i ∈ l, i < n) (hn : n ≤ l.length) :
    l = List.range n := by
  have hnd : l.Nodup := h.imp (fun h => Nat.ne_of_lt h)
  have hsub : l ⊆ List.range n := fun i hi => List.mem_range.2 (hl i hi)
  have hperm : l.Perm (List.range n) := (List.subperm_of_subset hnd hsub).perm_of_length_le (by simpa using hn)
  exact hperm.eq_of_pairwise (fun a b _ _ h1 h2 => absurd h1 (Nat.lt_asymm h2)) h List.pairwise_lt_range

theorem forall₂_range {α β : Type} {R : α → β → Prop} : ∀ {ks : List α} {as : List β} (pre : List α),
    List.Forall₂ (fun i a => ∃ c, (pre ++ ks)[i]? = some c ∧ R c a) (List.range' pre.length ks.length) as →
    List.Forall₂ R ks as
  | [], as, pre, h => by
      simp at h; subst h; exact .nil
  | k :: ks, as, pre, h => by
      rw [List.length_cons, List.range'_succ] at h
      cases h with
      | @cons _ a _ as' h1 h2 =>
        refine .cons ?_ (forall₂_range (ks := ks) (pre ++ [k]) (by simpa using h2))
        obtain ⟨c, hc, hR⟩ := h1
        simp at hc
        subst hc
        exact hR

/-- Collapsing a tree gives what its root stands for. -/
theorem collapseTree_eqv {tiny : Tiny K} {T : Terminals K} {t : Tree K} {v : Val K} (ht : TreeOk tiny T t)
    (h : collapseTree tiny T t = .ok v) : ∃ p, t.root = .op p ∧ Eqv v.expr p.expr ∧ NumOk tiny v := by
  obtain ⟨p, hp, idx, hidx, hf⟩ := ht
  simp only [collapseTree] at h
  obtain ⟨vals, hvals, h⟩ := py_bind_eq_ok.1 h
  rw [pyMap_eq_ok] at hvals
  rw [hp] at h
  have hlen := applyOp_length h
  have hr : idx = List.range (kids p).length := by
    refine eq_range hidx (fun i hi => ?_) ?_
    · obtain ⟨a, ha, c, hc, -⟩ : ∃ a, a ∈ t.args ∧ ∃ c, (kids p)[i]? = some c ∧ Sem tiny T a c := by
        clear hvals hidx
        generalize t.args = as at hf
        induction hf with
        | nil => simp at hi
        | cons h1 h2 ih =>
            rcases List.mem_cons.1 hi with rfl | hi
            · exact ⟨_, List.mem_cons_self, h1⟩
            · obtain ⟨a, ha, h⟩ := ih hi
              exact ⟨a, List.mem_cons_of_mem _ ha, h⟩
      exact (List.getElem?_eq_some_iff.1 hc).1
    · rw [hf.length_eq, hvals.length_eq]; exact hlen
  rw [hr, List.range_eq_range'] at hf
  have h2 : List.Forall₂ (fun c a => Sem tiny T a c) (kids p) t.args := forall₂_range [] (by simpa using hf)
  refine ⟨p, hp, applyOp_eqv ?_ h⟩
  clear hf hr h hlen hidx
  generalize kids p = ks at h2
  generalize t.args = as at h2 hvals
  induction h2 generalizing vals with
  | nil => cases hvals; exact .nil
  | cons h1 h2 ih =>
      cases hvals with
      | cons h3 h4 => exact .cons (lookup_sem h1 h3) (ih _ h4)

/-- The table of terminals after a step. -/
theorem sem_cons {tiny : Tiny K} {T : Terminals K} {n : Name} {v : Val K}
    (hT : ∀ w, T.lookup n = some w → w = v) {a : Node K} {c : Expr K} (h : Sem tiny T a c) :
    Sem tiny ((n, v) :: T) a c := by
  cases a with
  | op p => exact h
  | name m =>
      obtain ⟨w, hw, h1, h2⟩ := h
      refine ⟨w, ?_, h1, h2⟩
      rw [List.lookup_cons]
      by_cases hm : m = n
      · subst hm; simp [hT w hw]
      · have : (m == n) = false := by simpa using hm
        rw [this]; exact hw

theorem Inv.cons {tiny : Tiny K} {T : Terminals K} {e0 : OExpr K} {g : Graph K} (hI : Inv tiny T e0 g) {n : Name}
    {v : Val K} (hT : ∀ w, T.lookup n = some w → w = v) : Inv tiny ((n, v) :: T) e0 g :=
  { hI with edge := fun d hd => by
              obtain ⟨p, c, h1, h2, h3⟩ := hI.edge d hd
              exact ⟨p, c, h1, h2, sem_cons hT h3⟩ }

theorem TreeOk.cons {tiny : Tiny K} {T : Terminals K} {t : Tree K} (ht : TreeOk tiny T t) {n : Name}
    {v : Val K} (hT : ∀ w, T.lookup n = some w → w = v) : TreeOk tiny ((n, v) :: T) t := by
  obtain ⟨p, hp, idx, hidx, hf⟩ := ht
  exact ⟨p, hp, idx, hidx, hf.imp (fun _ _ ⟨c, hc, h⟩ => ⟨c, hc, sem_cons hT h⟩)⟩

theorem mem_addEdge {g : Graph K} {e d : Edge K} : d ∈ addEdge g e ↔
    (d ∈ g ∧ ¬ (d.src.key = e.src.key ∧ d.dst.key = e.dst.key)) ∨ d = e := by
  simp [addEdge, imp_iff_not_or]

theorem mem_removeTree {g : Graph K} {t : Tree K} {d : Edge K} : d ∈ removeTree g t ↔
    d ∈ g ∧ d.src.key ∉ (t.root :: t.args).map Node.key ∧ d.dst.key ∉ (t.root :: t.args).map Node.key := by
  simp only [removeTree, List.mem_filter, List.contains_iff_mem, not_or, decide_eq_true_eq]

/-- What holds of the trees still to be visited in a round. -/
structure Pending (tiny : Tiny K) (T : Terminals K) (g : Graph K) (ts : List (Tree K)) : Prop where
  ok : ∀ t ∈ ts, TreeOk tiny T t
  isOp : ∀ t ∈ ts, ∀ d ∈ g, d.dst.key = t.root.key → d.dst = t.root
  out : ∀ t ∈ ts, ∀ d ∈ g, d.src.key = t.root.key → d.dst.key ∈ t.args.map Node.key
  leaf : ∀ t ∈ ts, ∀ a ∈ t.args.map Node.key, ∀ d ∈ g, d.src.key ≠ a
  apart : ∀ t ∈ ts, ∀ t' ∈ ts, t'.root.key ∉ t.args.map Node.key

/-- One replacement keeps the invariants. -/
theorem replaceTree_inv {tiny : Tiny K} {T : Terminals K} {e0 : OExpr K} {g g' : Graph K} {t : Tree K}
    {ts : List (Tree K)} {v : Val K} {n : Name} {b : Bool} (hI : Inv tiny T e0 g) (hP : Pending tiny T g (t :: ts))
    (hv : collapseTree tiny T t = .ok v) (hT : ∀ w, T.lookup n = some w → w = v)
    (h : replaceTree g t n = .ok (g', b)) :
    Inv tiny ((n, v) :: T) e0 g' ∧ Pending tiny ((n, v) :: T) g' ts := by
  have hP' : Pending tiny ((n, v) :: T) g ts :=
    ⟨fun s hs => (hP.ok s (by simp [hs])).cons hT, fun s hs => hP.isOp s (by simp [hs]),
     fun s hs => hP.out s (by simp [hs]), fun s hs => hP.leaf s (by simp [hs]),
     fun s hs s' hs' => hP.apart s (by simp [hs]) s' (by simp [hs'])⟩
  have hI' : Inv tiny ((n, v) :: T) e0 g := hI.cons hT
  unfold replaceTree at h
  split at h
  · cases h; exact ⟨hI', hP'⟩
  · rename_i d hin
    cases h
    have hd : d ∈ g ∧ d.dst.key = t.root.key := by
      have : d ∈ inEdges g t.root := by rw [hin]; simp
      simpa [inEdges] using this
    have htm : t ∈ t :: ts := by simp
    obtain ⟨p, hp, hvp, hvn⟩ := collapseTree_eqv (hP.ok t htm) hv
    obtain ⟨q, c, hq, hc, hs⟩ := hI.edge d hd.1
    have hdst : d.dst = .op p := by rw [hP.isOp t htm d hd.1 hd.2, hp]
    have hsemc : Eqv v.expr c := by
      rw [hdst] at hs
      exact hvp.trans hs
    -- the parent is not removed
    have hsrc : d.src.key ∉ (t.root :: t.args).map Node.key := by
      rw [List.map_cons, List.mem_cons, not_or]
      refine ⟨fun h => hI.loop d hd.1 (by rw [h, hd.2]), fun h => hP.leaf t htm _ h d hd.1 rfl⟩
    have hold : ∀ x, x ∈ addEdge (removeTree g t) ⟨d.src, .name n, d.index⟩ →
        (x ∈ g ∧ x.src.key ∉ (t.root :: t.args).map Node.key ∧ x.dst.key ∉ (t.root :: t.args).map Node.key) ∨
          x = ⟨d.src, .name n, d.index⟩ := by
      intro x hx
      rcases mem_addEdge.1 hx with ⟨h1, -⟩ | h1
      · exact .inl (mem_removeTree.1 h1)
      · exact .inr h1
    -- sources of the new graph are sources of the old one
    have hsource : ∀ x, x ∈ addEdge (removeTree g t) ⟨d.src, .name n, d.index⟩ →
        ∃ y ∈ g, y.src = x.src ∧ x.src.key ∉ (t.root :: t.args).map Node.key := by
      intro x hx
      rcases hold x hx with ⟨h1, h2, -⟩ | rfl
      · exact ⟨x, h1, rfl, h2⟩
      · exact ⟨d, hd.1, rfl, hsrc⟩
    refine ⟨⟨?_, ?_, ?_, ?_, ?_, ?_, ?_⟩, ⟨hP'.ok, ?_, ?_, ?_, hP'.apart⟩⟩
    · intro x hx
      rcases hold x hx with ⟨h1, -, -⟩ | rfl
      · exact hI'.edge x h1
      · exact ⟨q, c, hq, hc, v, by simp, hsemc, hvn⟩
    · unfold addEdge
      rw [List.map_append, List.map_cons, List.map_nil, List.nodup_append]
      refine ⟨hI.uniq.sublist ((List.filter_sublist.trans List.filter_sublist).map _), by simp, ?_⟩
      intro a ha b hb
      rw [List.mem_singleton] at hb
      subst hb
      rintro rfl
      obtain ⟨x, hx, hxe⟩ := List.mem_map.1 ha
      have hx' := mem_removeTree.1 (List.mem_filter.1 hx).1
      have : x = d := List.inj_on_of_nodup_map hI.uniq hx'.1 hd.1 hxe
      subst this
      exact hx'.2.2 (by rw [hd.2]; simp)
    · intro x hx y hy hk
      obtain ⟨x', hx', e1, -⟩ := hsource x hx
      obtain ⟨y', hy', e2, -⟩ := hsource y hy
      rw [← e1, ← e2] at hk ⊢
      exact hI.ops x' hx' y' hy' hk
    · intro x hx y hy hk
      obtain ⟨y', hy', e2, -⟩ := hsource y hy
      rcases hold x hx with ⟨h1, -, -⟩ | rfl
      · rw [← e2] at hk ⊢; exact hI.ops' x h1 y' hy' hk
      · obtain ⟨p', -, hp', -⟩ := hI.edge y' hy'
        rw [← e2, hp'] at hk
        simp [Node.key] at hk
    · intro x hx hk
      obtain ⟨x', hx', e1, -⟩ := hsource x hx
      rw [← e1] at hk ⊢
      exact hI.root x' hx' hk
    · intro x hx
      rcases hold x hx with ⟨h1, -, -⟩ | rfl
      · exact hI.loop x h1
      · simp [hq, Node.key]
    · intro x hx
      obtain ⟨x', hx', e1, hn⟩ := hsource x hx
      rcases hI.rooted x' hx' with h1 | ⟨y, hy, hyk⟩
      · exact .inl (by rw [← e1, h1])
      · right
        refine ⟨y, mem_addEdge.2 (.inl ⟨mem_removeTree.2 ⟨hy, ?_, by rw [hyk, e1]; exact hn⟩, ?_⟩), by rw [hyk, e1]⟩
        · rw [List.map_cons, List.mem_cons, not_or]
          refine ⟨fun h => hn ?_, fun h => hP.leaf t htm _ h y hy rfl⟩
          have := hP.out t htm y hy h
          rw [hyk, e1] at this
          simp [this]
        · rintro ⟨-, h2⟩
          obtain ⟨p', -, hp', -⟩ := hI.edge x' hx'
          rw [hyk, hp'] at h2
          simp [Node.key] at h2
    · intro s hs x hx hk
      rcases hold x hx with ⟨h1, -, -⟩ | rfl
      · exact hP'.isOp s hs x h1 hk
      · obtain ⟨p', hp', -⟩ := hP.ok s (by simp [hs])
        rw [hp'] at hk
        simp [Node.key] at hk
    · intro s hs x hx hk
      rcases hold x hx with ⟨h1, -, -⟩ | rfl
      · exact hP'.out s hs x h1 hk
      · have := hP'.out s hs d hd.1 hk
        rw [hd.2] at this
        exact absurd this (hP.apart s (by simp [hs]) t htm)
    · intro s hs a ha x hx
      obtain ⟨x', hx', e1, -⟩ := hsource x hx
      rw [← e1]
      exact hP'.leaf s hs a ha x' hx'
  · cases h

/-- The names of the terminals come from `name`. -/
def Named (name : Nat → Val K → Nat) (n : Nat) (T : Terminals K) : Prop :=
  ∀ s v, T.lookup (.str s) = some v → ∃ k < n, name k v = s

theorem collapseTrees_inv {tiny : Tiny K} {name : Nat → Val K → Nat} {e0 : OExpr K}
    (hname : ∀ k k' v v', name k v = name k' v' → k = k' ∨ v = v') : ∀ (ts : List (Tree K)) (s s' : State K),
    Inv tiny s.terminals e0 s.graph → Pending tiny s.terminals s.graph ts → Named name s.steps s.terminals →
    collapseTrees tiny name ts s = .ok s' → Inv tiny s'.terminals e0 s'.graph ∧ Named name s'.steps s'.terminals
  | [], s, s', hI, _, hN, h => by
      simp only [collapseTrees, Except.ok.injEq] at h; subst h; exact ⟨hI, hN⟩
  | t :: ts, s, s', hI, hP, hN, h => by
      simp only [collapseTrees] at h
      obtain ⟨v, hv, h⟩ := py_bind_eq_ok.1 h
      obtain ⟨⟨g', b⟩, hr, h⟩ := py_bind_eq_ok.1 h
      have hT : ∀ w, s.terminals.lookup (.str (name s.steps v)) = some w → w = v := by
        intro w hw
        obtain ⟨k, hlt, hk⟩ := hN _ _ hw
        rcases hname _ _ _ _ hk with h | h
        · omega
        · exact h
      obtain ⟨h1, h2⟩ := replaceTree_inv hI hP hv hT hr
      refine collapseTrees_inv hname ts ⟨g', _, _, b⟩ s' h1 h2 ?_ h
      intro m w hw
      simp only [List.lookup_cons] at hw
      by_cases hm : m = name s.steps v
      · subst hm; simp at hw; subst hw; exact ⟨_, Nat.lt_succ_self _, rfl⟩
      · have : (Name.str m == Name.str (name s.steps v)) = false := by simpa using hm
        rw [this] at hw
        obtain ⟨k, hk, e⟩ := hN _ _ hw
        exact ⟨k, Nat.lt_succ_of_lt hk, e⟩

/-! ### Rounds -/

theorem mem_sources {g : Graph K} {n : Node K} : ∀ {seen : List Key}, n ∈ sources seen g → ∃ d ∈ g, d.src = n := by
  induction g with
  | nil => intro seen h; simp [sources] at h
  | cons d g ih =>
      intro seen h
      simp only [sources] at h
      split at h
      · obtain ⟨x, hx, e⟩ := ih h; exact ⟨x, by simp [hx], e⟩
      · rcases List.mem_cons.1 h with rfl | h
        · exact ⟨d, by simp, rfl⟩
        · obtain ⟨x, hx, e⟩ := ih h; exact ⟨x, by simp [hx], e⟩

theorem sources_cover {g : Graph K} {d : Edge K} : ∀ {seen : List Key}, d ∈ g → d.src.key ∉ seen →
    ∃ n ∈ sources seen g, n.key = d.src.key := by
  induction g with
  | nil => intro seen h; simp at h
  | cons x g ih =>
      intro seen h hs
      simp only [sources]
      by_cases hx : x.src.key = d.src.key
      · rw [if_neg (by rw [List.contains_iff_mem, hx]; exact hs)]
        exact ⟨x.src, by simp, hx⟩
      · have hd : d ∈ g := by
          rcases List.mem_cons.1 h with rfl | h
          · exact absurd rfl hx
          · exact h
        split
        · exact ih hd hs
        · obtain ⟨n, hn, e⟩ := ih (seen := x.src.key :: seen) hd (by
            rw [List.mem_cons, not_or]; exact ⟨fun h => hx h.symm, hs⟩)
          exact ⟨n, by simp [hn], e⟩

theorem collapsable_pending {tiny : Tiny K} {T : Terminals K} {e0 : OExpr K} {g : Graph K} (hI : Inv tiny T e0 g) :
    Pending tiny T g (collapsableTrees g) := by
  have key : ∀ t ∈ collapsableTrees g, ∃ d ∈ g, t = ⟨d.src, successors g d.src⟩ ∧
      ∀ x ∈ outEdges g d.src, isLeaf g x.dst = true := by
    intro t ht
    simp only [collapsableTrees, List.mem_map, List.mem_filter, List.all_eq_true] at ht
    obtain ⟨n, ⟨hn, hl⟩, rfl⟩ := ht
    obtain ⟨d, hd, rfl⟩ := mem_sources hn
    exact ⟨d, hd, rfl, hl⟩
  have hargs : ∀ (d : Edge K) a, a ∈ successors g d.src → ∃ x ∈ g, x.src.key = d.src.key ∧ x.dst = a := by
    intro d a ha
    simp only [successors, List.mem_map] at ha
    obtain ⟨x, hx, rfl⟩ := ha
    have := mem_outEdges.1 ((List.perm_insertionSort _ _).mem_iff.1 hx)
    exact ⟨x, this.1, this.2, rfl⟩
  have hleaf : ∀ t ∈ collapsableTrees g, ∀ a ∈ t.args.map Node.key, ∀ d ∈ g, d.src.key ≠ a := by
    intro t ht a ha d hd hda
    obtain ⟨d0, hd0, rfl, hl⟩ := key t ht
    obtain ⟨b, hb, rfl⟩ := List.mem_map.1 ha
    obtain ⟨x, hx, hk, rfl⟩ := hargs d0 b hb
    have := hl x (mem_outEdges.2 ⟨hx, hk⟩)
    simp only [isLeaf, List.isEmpty_iff] at this
    have hm : d ∈ outEdges g x.dst := mem_outEdges.2 ⟨hd, hda⟩
    rw [this] at hm
    simp at hm
  refine ⟨?_, ?_, ?_, hleaf, ?_⟩
  · intro t ht
    obtain ⟨d, hd, rfl, -⟩ := key t ht
    exact treeOk_of_inv hI hd
  · intro t ht x hx hk
    obtain ⟨d, hd, rfl, -⟩ := key t ht
    exact hI.ops' x hx d hd hk
  · intro t ht x hx hk
    obtain ⟨d, hd, rfl, -⟩ := key t ht
    refine List.mem_map.2 ⟨x.dst, ?_, rfl⟩
    refine List.mem_map.2 ⟨x, (List.perm_insertionSort _ _).mem_iff.2 (mem_outEdges.2 ⟨hx, hk⟩), rfl⟩
  · intro t ht t' ht' hm
    obtain ⟨d', hd', rfl, -⟩ := key t' ht'
    exact hleaf t ht _ hm d' hd' rfl

theorem Pending.perm {tiny : Tiny K} {T : Terminals K} {g : Graph K} {ts us : List (Tree K)}
    (h : Pending tiny T g ts) (hp : us ⊆ ts) : Pending tiny T g us :=
  ⟨fun t ht => h.ok t (hp ht), fun t ht => h.isOp t (hp ht),
    fun t ht => h.out t (hp ht), fun t ht => h.leaf t (hp ht),
    fun t ht t' ht' => h.apart t (hp ht) t' (hp ht')⟩

theorem collapseLoop_inv {tiny : Tiny K} {name : Nat → Val K → Nat} {sched : Nat → List (Tree K) → List (Tree K)}
    {e0 : OExpr K} (hname : ∀ k k' v v', name k v = name k' v' → k = k' ∨ v = v') (hs : ∀ k ts, (sched k ts).Perm ts) :
    ∀ (fuel : Nat) (s s' : State K), Inv tiny s.terminals e0 s.graph → Named name s.steps s.terminals →
      collapseLoop tiny name sched fuel s = .ok s' → Inv tiny s'.terminals e0 s'.graph ∧ Named name s'.steps s'.terminals
  | 0, s, s', _, _, h => by simp [collapseLoop] at h
  | fuel + 1, s, s', hI, hN, h => by
      simp only [collapseLoop] at h
      split at h
      · cases h; exact ⟨hI, hN⟩
      · obtain ⟨s1, h1, h⟩ := py_bind_eq_ok.1 h
        obtain ⟨i1, n1⟩ := collapseTrees_inv hname _ s s1 hI
          ((collapsable_pending hI).perm (hs _ _).subset) hN h1
        exact collapseLoop_inv hname hs fuel s1 s' i1 n1 h

/-- The last step. -/
theorem final_eqv {tiny : Tiny K} {T : Terminals K} {e0 : OExpr K} {g : Graph K} (hI : Inv tiny T e0 g) {n : Node K}
    {v : Val K} (hr : treeRoot g = .ok n) (h : collapseTree tiny T ⟨n, successors g n⟩ = .ok v) :
    Eqv v.expr e0.expr := by
  have hs : sources [] g = [n] := by
    unfold treeRoot at hr
    split at hr
    · rename_i m hm; cases hr; exact hm
    · cases hr
  obtain ⟨d, hd, rfl⟩ := mem_sources (g := g) (n := n) (seen := []) (by rw [hs]; simp)
  obtain ⟨p, hp, hv, -⟩ := collapseTree_eqv (treeOk_of_inv hI hd) h
  have hroot : d.src.key = .op e0.id := by
    rcases hI.rooted d hd with h1 | ⟨y, hy, hk⟩
    · exact h1
    · obtain ⟨m, hm, hmk⟩ := sources_cover (seen := []) hy (by simp)
      rw [hs, List.mem_singleton] at hm
      subst hm
      exact absurd (by rw [hk, hmk]) (hI.loop y hy)
  have := hI.root d hd hroot
  simp only [this] at hp
  cases hp
  exact hv

end Verif.CollapseIter
