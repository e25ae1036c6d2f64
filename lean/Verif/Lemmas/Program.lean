import Verif.Spec.Program
import Verif.Props.ListUtils
import Verif.Props.Workflow
import Verif.Lemmas.ReducedShape
import Verif.Lemmas.Extension
/-! # Lemmas on programs from block forms to the solution -/
namespace Verif.Program
open Verif Ufl BlockOps BlockForm Collapse ApplyBc IIFunction Workflow Reduced ListUtils Finset

section lists
variable {α β : Type}

theorem nested1_isArray {l : List α} (h : l ≠ []) : NL.IsArray [l.length] (nested1 l) := by
  refine ⟨List.length_pos_iff.2 h, by simp, ?_⟩
  intro x hx
  obtain ⟨a, _, rfl⟩ := List.mem_map.1 hx
  trivial

theorem nested2_isArray {n : Nat} {l : List (List α)} (hn : 0 < n) (h1 : l.length = n) (h2 : ∀ r ∈ l, r.length = n) :
    NL.IsArray [n, n] (nested2 l) := by
  refine ⟨hn, by simpa using h1, ?_⟩
  intro x hx
  obtain ⟨r, hr, rfl⟩ := List.mem_map.1 hx
  have := nested1_isArray (l := r) (by rintro rfl; have := h2 _ hr; simp at this; omega)
  rwa [h2 r hr] at this

theorem nested1_mapped {f : α → Py β} {l : List α} {ts : List β} (h : List.Forall₂ (fun e t => f e = .ok t) l ts) :
    NL.Mapped f (nested1 l) (nested1 ts) := by
  refine .node ?_
  induction h with
  | nil => exact .nil
  | cons h1 _ ih => exact .cons (.leaf h1) ih

theorem nested2_mapped {f : α → Py β} {l : List (List α)} {ts : List (List β)}
    (h : List.Forall₂ (List.Forall₂ (fun e t => f e = .ok t)) l ts) : NL.Mapped f (nested2 l) (nested2 ts) := by
  refine .node ?_
  induction h with
  | nil => exact .nil
  | cons h1 _ ih => exact .cons (nested1_mapped h1) ih

theorem forall₂_right {R : α → β → Prop} {l : List α} {m : List β} (h : List.Forall₂ R l m) :
    ∀ b ∈ m, ∃ a ∈ l, R a b := by
  induction h with
  | nil => simp
  | cons h1 _ ih =>
      intro b hb
      rcases List.mem_cons.1 hb with rfl | hb
      · exact ⟨_, by simp, h1⟩
      · obtain ⟨a, ha, hr⟩ := ih b hb
        exact ⟨a, by simp [ha], hr⟩

theorem exists_images {R : α → β → Prop} : ∀ {l : List α}, (∀ x ∈ l, ∃ y, R x y) → ∃ ys, List.Forall₂ R l ys
  | [], _ => ⟨[], .nil⟩
  | x :: l, h => by
      obtain ⟨y, hy⟩ := h x (by simp)
      obtain ⟨ys, hys⟩ := exists_images (l := l) (fun z hz => h z (by simp [hz]))
      exact ⟨y :: ys, .cons hy hys⟩

theorem nested1_iff {f : α → Py β} {l : List α} (hl : l ≠ []) {r : NL β} :
    NL.assembleNested (l.length + 1) f (nested1 l) = .ok r ↔
      ∃ ts, List.Forall₂ (fun e t => f e = .ok t) l ts ∧ r = nested1 ts := by
  have harr := nested1_isArray hl
  have fwd : ∀ ts, List.Forall₂ (fun e t => f e = .ok t) l ts →
      NL.assembleNested (l.length + 1) f (nested1 l) = .ok (nested1 ts) := fun ts h =>
    (ListUtils.assemble_keeps_layout f _ _ _ harr _ (nested1_mapped h) _ (by simp)).1
  constructor
  · intro h
    by_cases hall : ∀ e ∈ l, ∃ t, f e = .ok t
    · obtain ⟨ts, hts⟩ := exists_images hall
      refine ⟨ts, hts, ?_⟩
      rw [fwd ts hts] at h; cases h; rfl
    · push Not at hall
      obtain ⟨e, he, hbad⟩ := hall
      cases hf : f e with
      | ok t => exact absurd hf (hbad t)
      | error err =>
          obtain ⟨i, hi, rfl⟩ := List.getElem_of_mem he
          exact absurd h (ListUtils.assemble_fails_with_form f _ _ _ harr _ [i] _ err ⟨hi, trivial⟩
            (by simp [nested1, NL.get?, hi]) hf r)
  · rintro ⟨ts, hts, rfl⟩; exact fwd ts hts

theorem nested2_iff {f : α → Py β} {n : Nat} {l : List (List α)} (hn : 0 < n) (h1 : l.length = n)
    (h2 : ∀ r ∈ l, r.length = n) {r : NL β} :
    NL.assembleNested (l.length * l.length + 1) f (nested2 l) = .ok r ↔
      ∃ ts, List.Forall₂ (List.Forall₂ (fun e t => f e = .ok t)) l ts ∧ r = nested2 ts := by
  have harr := nested2_isArray hn h1 h2
  have fwd : ∀ ts, List.Forall₂ (List.Forall₂ (fun e t => f e = .ok t)) l ts →
      NL.assembleNested (l.length * l.length + 1) f (nested2 l) = .ok (nested2 ts) := fun ts h =>
    (ListUtils.assemble_keeps_layout f _ _ _ harr _ (nested2_mapped h) _ (by simp [h1])).1
  constructor
  · intro h
    by_cases hall : ∀ row ∈ l, ∀ e ∈ row, ∃ t, f e = .ok t
    · obtain ⟨ts, hts⟩ := exists_images (fun row hrow => exists_images (hall row hrow))
      refine ⟨ts, hts, ?_⟩
      rw [fwd ts hts] at h; cases h; rfl
    · push Not at hall
      obtain ⟨row, hrow, e, he, hbad⟩ := hall
      cases hf : f e with
      | ok t => exact absurd hf (hbad t)
      | error err =>
          have hlen := h2 row hrow
          obtain ⟨i, hi, rfl⟩ := List.getElem_of_mem hrow
          obtain ⟨j, hj, rfl⟩ := List.getElem_of_mem he
          exact absurd h (ListUtils.assemble_fails_with_form f _ _ _ harr _ [i, j] _ err ⟨by omega, by omega, trivial⟩
            (by simp [nested2, nested1, NL.get?, hi, hj]) hf r)
  · rintro ⟨ts, hts, rfl⟩; exact fwd ts hts

theorem forall₂_trans {γ : Type} {R : α → β → Prop} {Q : β → γ → Prop} {T : α → γ → Prop}
    (h : ∀ a b c, R a b → Q b c → T a c) : ∀ {l : List α} {m : List β} {k : List γ}, List.Forall₂ R l m →
    List.Forall₂ Q m k → List.Forall₂ T l k
  | _, _, _, .nil, .nil => .nil
  | _, _, _, .cons a as, .cons b bs => .cons (h _ _ _ a b) (forall₂_trans h as bs)

theorem forall₂_map_left {γ : Type} {g : α → γ} {R : γ → β → Prop} {l : List α} {m : List β} :
    List.Forall₂ R (l.map g) m ↔ List.Forall₂ (fun a b => R (g a) b) l m := List.forall₂_map_left_iff

end lists

variable {S K D : Type} [DecidableEq S] [Field K] [AddCommGroup D] [Module K D]

/-- A block of the system is the assembled form. -/
def BlockOf (f : Entry S → Py (Tensor K)) (e : Entry S) (x : Expr K) : Prop :=
  ∃ t, f e = .ok t ∧ toBlock (.leaf t) = .ok x

/-- A block of the right-hand side is the assembled form. -/
def EntriesOf (f : Entry S → Py (Tensor K)) (e : Entry S) (x : List K) : Prop :=
  ∃ t, f e = .ok t ∧ toEntries (.leaf t) = .ok x

theorem assembleSystem_ok {sem : Sem S K D} {order : List (Term S) → List (Term S)} {mods : List (Assembler S K)}
    {fuel : Nat} {env : Env S K} {W : List S} {a : List (List (Entry S))} {L : List (Entry S)} (hW : BlockForms W a L)
    {A : List (List (Expr K))} {b : List (List K)}
    (h : assembleSystem sem order mods fuel env a L = .ok (A, b)) :
    List.Forall₂ (List.Forall₂ (BlockOf (assembleItem sem order mods fuel env))) a A ∧
      List.Forall₂ (EntriesOf (assembleItem sem order mods fuel env)) L b := by
  have hn : 0 < W.length := List.length_pos_iff.2 hW.nonempty
  have hL : L ≠ [] := by
    intro h; have := hW.rhs; rw [h] at this; simp at this; omega
  rw [assembleSystem] at h
  obtain ⟨x, hx, h⟩ := py_bind_eq_ok.1 h
  obtain ⟨y, hy, h⟩ := py_bind_eq_ok.1 h
  obtain ⟨ts, hts, rfl⟩ := (nested2_iff hn hW.rows hW.square).1 hx
  obtain ⟨us, hus, rfl⟩ := (nested1_iff hL).1 hy
  obtain ⟨A', hA, h⟩ := py_bind_eq_ok.1 h
  obtain ⟨b', hb, h⟩ := py_bind_eq_ok.1 h
  cases h
  simp only [nested2, nested1, blockMat, blockVec] at hA hb
  rw [pyMap_eq_ok, forall₂_map_left] at hA hb
  constructor
  · refine forall₂_trans ?_ hts hA
    intro row tr ar h1 h2
    simp only [toRow, nested1] at h2
    rw [pyMap_eq_ok, forall₂_map_left] at h2
    exact forall₂_trans (fun e t x h1 h2 => ⟨t, h1, h2⟩) h1 h2
  · exact forall₂_trans (fun e t x h1 h2 => ⟨t, h1, h2⟩) hus hb

theorem assembleSystem_returns {sem : Sem S K D} {order : List (Term S) → List (Term S)} {mods : List (Assembler S K)}
    {fuel : Nat} {env : Env S K} {W : List S} {a : List (List (Entry S))} {L : List (Entry S)} (hW : BlockForms W a L)
    (ha : ∀ row ∈ a, ∀ e ∈ row, ∃ x, BlockOf (assembleItem sem order mods fuel env) e x)
    (hb : ∀ e ∈ L, ∃ x, EntriesOf (assembleItem sem order mods fuel env) e x) :
    ∃ A b, assembleSystem sem order mods fuel env a L = .ok (A, b) := by
  have hn : 0 < W.length := List.length_pos_iff.2 hW.nonempty
  have hL : L ≠ [] := by
    intro h; have := hW.rhs; rw [h] at this; simp at this; omega
  obtain ⟨ts, hts⟩ := exists_images (fun row hrow => exists_images (l := row) (R := fun e t =>
      assembleItem sem order mods fuel env e = .ok t ∧ ∃ x, toBlock (.leaf t) = .ok x) (fun e he => by
    obtain ⟨x, t, h1, h2⟩ := ha row hrow e he
    exact ⟨t, h1, x, h2⟩)) (l := a)
  obtain ⟨us, hus⟩ := exists_images (l := L) (R := fun e t =>
      assembleItem sem order mods fuel env e = .ok t ∧ ∃ x, toEntries (.leaf t) = .ok x) (fun e he => by
    obtain ⟨x, t, h1, h2⟩ := hb e he
    exact ⟨t, h1, x, h2⟩)
  have e1 := (nested2_iff hn hW.rows hW.square (f := assembleItem sem order mods fuel env)).2
    ⟨ts, hts.imp (fun _ _ h => h.imp (fun _ _ h => h.1)), rfl⟩
  have e2 := (nested1_iff hL (f := assembleItem sem order mods fuel env)).2 ⟨us, hus.imp (fun _ _ h => h.1), rfl⟩
  have e3 : ∃ A, blockMat (nested2 ts) = .ok A := by
    obtain ⟨A, hA⟩ := exists_images (l := ts) (R := fun t x => toRow (nested1 t) = .ok x) (by
      intro t ht
      obtain ⟨row, _, hrow⟩ := forall₂_right hts t ht
      obtain ⟨x, hx⟩ := exists_images (l := t) (R := fun t x => toBlock (.leaf t) = .ok x) (by
        intro t ht
        obtain ⟨e, _, he⟩ := forall₂_right hrow t ht
        exact he.2)
      refine ⟨x, ?_⟩
      simp only [toRow, nested1]
      rw [pyMap_eq_ok, forall₂_map_left]; exact hx)
    refine ⟨A, ?_⟩
    simp only [blockMat, nested2]
    rw [pyMap_eq_ok, forall₂_map_left]; exact hA
  have e4 : ∃ b, blockVec (nested1 us) = .ok b := by
    obtain ⟨b, hb⟩ := exists_images (l := us) (R := fun t x => toEntries (.leaf t) = .ok x) (by
        intro t ht
        obtain ⟨e, _, he⟩ := forall₂_right hus t ht
        exact he.2)
    refine ⟨b, ?_⟩
    simp only [blockVec, nested1]
    rw [pyMap_eq_ok, forall₂_map_left]; exact hb
  obtain ⟨A, hA⟩ := e3
  obtain ⟨b, hb⟩ := e4
  refine ⟨A, b, ?_⟩
  rw [assembleSystem, e1, py_bind_ok, e2, py_bind_ok, hA, py_bind_ok, hb, py_bind_ok]

/-- The system represents the forms: sizes, and values for test functions. -/
structure Represents (val : List (Integral S) → (Nat → K) → (Nat → K) → K) (ns : List Nat) (a : List (List (Entry S)))
    (L : List (Entry S)) (A : List (List (Expr K))) (b : List (List K)) : Prop where
  conforming : Conforming ns ns A
  sizes : b.map List.length = ns
  blocks : ∀ (k : Nat) n, ns[k]? = some n → ∀ v, ∃ row Arow, a[k]? = some row ∧ A[k]? = some Arow ∧
    List.Forall₂ (fun e x => ∀ u, ∑ d ∈ range n, v d * x.act u d = value val n v u e) row Arow
  rhs : ∀ (k : Nat) n, ns[k]? = some n → ∃ F bk, L[k]? = some (.form F) ∧ b[k]? = some bk ∧
    ∀ v, ∑ d ∈ range n, v d * fnOf bk d = val F v 0

theorem sum_row {val : List (Integral S) → (Nat → K) → (Nat → K) → K} {n : Nat} {v : Nat → K} {row : List (Entry S)}
    {Arow : List (Expr K)}
    (h : List.Forall₂ (fun e x => ∀ u, ∑ d ∈ range n, v d * x.act u d = value val n v u e) row Arow) :
    ∀ xs : List (List K), ∑ d ∈ range n, v d * rowAct Arow xs d =
      ((row.zip xs).map (fun p => value val n v (fnOf p.2) p.1)).sum := by
  induction h with
  | nil => intro xs; simp [rowAct]
  | @cons e x row Arow h1 h2 ih =>
      intro xs
      match xs with
      | [] => simp [rowAct]
      | y :: ys =>
          have := ih ys
          simp only [rowAct, List.zip_cons_cons, List.map_cons, List.sum_cons, mul_add, sum_add_distrib] at this ⊢
          rw [this, h1]

theorem entry_act {ns : List Nat} {A : List (List (Expr K))} {k d n : Nat} {Arow : List (Expr K)} (hn : ns[k]? = some n)
    (hA : A[k]? = some Arow) (hd : d < n) (xs : List (List K)) :
    entry (blockAct ns A xs) k d = some (rowAct Arow xs d) := by
  have : (ns.zip A)[k]? = some (n, Arow) := by
    rw [List.getElem?_zip_eq_some]; exact ⟨hn, hA⟩
  simp [entry, blockAct, this, hd]

theorem discrete_iff {val : List (Integral S) → (Nat → K) → (Nat → K) → K} {ns : List Nat} {a : List (List (Entry S))}
    {L : List (Entry S)} {A : List (List (Expr K))} {b : List (List K)} (h : Represents val ns a L A b)
    {data : List (List (Nat × K))} {xs : List (List K)} (hxs : xs.map List.length = ns) :
    IsConstrainedSolution ns A b data xs ↔ DiscreteSolution val ns a L data xs := by
  constructor
  · rintro ⟨h1, h2⟩
    refine ⟨hxs, h1, ?_⟩
    intro k row F n hrow hF hn v hv
    obtain ⟨row', Arow, r1, r2, r3⟩ := h.blocks k n hn v
    obtain ⟨F', bk, f1, f2, f3⟩ := h.rhs k n hn
    rw [hrow] at r1; cases r1
    rw [hF] at f1; cases f1
    rw [← sum_row r3, ← f3 v]
    refine sum_congr rfl (fun d hd => ?_)
    have hd := mem_range.1 hd
    by_cases hp : prescribed data k d = none
    · have := h2 k d hp
      rw [entry_act hn r2 hd] at this
      rw [entry, f2] at this
      simp only [Option.bind_some] at this
      rw [fnOf, List.getD_eq_getElem?_getD, ← this]; rfl
    · rw [hv d hp, zero_mul, zero_mul]
  · rintro ⟨_, h1, h2⟩
    refine ⟨h1, ?_⟩
    intro k d hp
    cases hn : ns[k]? with
    | none =>
        rw [entry_ge (blockAct_lengths ns A xs h.conforming.1) (by simp [hn]), entry_ge h.sizes (by simp [hn])]
    | some n =>
        by_cases hd : d < n
        · obtain ⟨F, bk, f1, f2, f3⟩ := h.rhs k n hn
          obtain ⟨row, Arow, r1, r2, r3⟩ := h.blocks k n hn (fun i => if i = d then 1 else 0)
          have := h2 k row F n r1 f1 hn (fun i => if i = d then 1 else 0) (by
            intro i hi
            rw [if_neg]; rintro rfl; exact hi hp)
          rw [← sum_row r3, ← f3] at this
          simp only [ite_mul, one_mul, zero_mul, sum_ite_eq', mem_range, hd, if_true] at this
          rw [entry_act hn r2 hd, this]
          have hlen : bk.length = n := by
            have h3 := h.sizes
            have h4 : (b.map List.length)[k]? = some bk.length := by simp [f2]
            rw [h3, hn] at h4; cases h4; rfl
          rw [entry, f2]
          simp [fnOf, hlen, hd]
        · rw [entry_ge (blockAct_lengths ns A xs h.conforming.1) (by intro m hm; rw [hn] at hm; cases hm; omega),
            entry_ge h.sizes (by intro m hm; rw [hn] at hm; cases hm; omega)]

end Verif.Program
