import Verif.Lemmas.CollapseIter4
import Verif.Lemmas.Convert
/-!
# Block matrices in the iterative collapse
-/
namespace Verif.CollapseIter
open Verif Collapse BlockOps

variable {K : Type} [CommRing K]

mutual
theorem numsIn_mono {S S' : K → Prop} (h : ∀ c, S c → S' c) : ∀ e : Expr K, e.NumsIn S → e.NumsIn S'
  | .num c, he => h c he
  | .mat _, _ => trivial
  | .op _, _ => trivial
  | .mul chain, he => by
      simp only [Expr.NumsIn] at he ⊢; exact numsInChain_mono h chain he
  | .add a b, he => by
      simp only [Expr.NumsIn] at he ⊢; exact ⟨numsIn_mono h a he.1, numsIn_mono h b he.2⟩
  | .sub a b, he => by
      simp only [Expr.NumsIn] at he ⊢; exact ⟨numsIn_mono h a he.1, numsIn_mono h b he.2⟩
  | .tr a, he => by
      simp only [Expr.NumsIn] at he ⊢; exact numsIn_mono h a he
theorem numsInChain_mono {S S' : K → Prop} (h : ∀ c, S c → S' c) : ∀ es : List (Expr K), numsInChain S es →
    numsInChain S' es
  | [], _ => trivial
  | e :: es, he => by
      simp only [numsInChain] at he ⊢; exact ⟨numsIn_mono h e he.1, numsInChain_mono h es he.2⟩
end

theorem forall₂_mem {α β : Type} {R S : α → β → Prop} {l : List α} {m : List β} (h : List.Forall₂ R l m)
    (H : ∀ a ∈ l, ∀ b, R a b → S a b) : List.Forall₂ S l m := by
  induction h with
  | nil => exact .nil
  | cons h1 h2 ih => exact .cons (H _ (by simp) _ h1) (ih (fun a ha => H a (by simp [ha])))

theorem blocks_eqv {tiny : Tiny K} {name : Nat → Val K → Nat} {sched : Nat → List (Tree K) → List (Tree K)}
    (hname : ∀ k k' v v', name k v = name k' v' → k = k' ∨ v = v') (hs : ∀ k ts, (sched k ts).Perm ts) {fuel : Nat}
    {blocks : List (List (OExpr K))} (hids : ∀ row ∈ blocks, ∀ e ∈ row, e.ids.Nodup)
    (hnums : ∀ row ∈ blocks, ∀ e ∈ row, Nums tiny e.expr) {vals : List (List (Val K))}
    (h : collapseBlocks tiny name sched fuel blocks = .ok vals) :
    List.Forall₂ (List.Forall₂ (fun (e : OExpr K) v => Eqv v.expr e.expr ∧ ∀ c, e.expr = .num c → v.expr = .num c))
      blocks vals := by
  unfold collapseBlocks at h
  rw [pyMap_eq_ok] at h
  refine forall₂_mem h (fun row hrow vs hvs => ?_)
  rw [pyMap_eq_ok] at hvs
  refine forall₂_mem hvs (fun e he v hv => ⟨collapse_eqv hname hs (hids row hrow e he) (hnums row hrow e he) hv, ?_⟩)
  intro c hc
  cases e <;> simp only [OExpr.expr, reduceCtorEq, Expr.num.injEq] at hc
  subst hc
  simp only [collapse, OExpr.terminal, Except.ok.injEq] at hv
  subst hv
  rfl

theorem forall₂_get {α β : Type} {R : α → β → Prop} {l : List α} {m : List β} (h : List.Forall₂ R l m) {i : Nat} {b : β}
    (hb : m[i]? = some b) : ∃ a, l[i]? = some a ∧ R a b := by
  induction h generalizing i with
  | nil => simp at hb
  | @cons x y l m h1 h2 ih =>
      cases i with
      | zero => simp only [List.getElem?_cons_zero, Option.some.injEq] at hb ⊢; subst hb; exact ⟨x, rfl, h1⟩
      | succ i => simp only [List.getElem?_cons_succ] at hb ⊢; exact ih hb

theorem conforming_vals {rs cs : List Nat} {blocks : List (List (OExpr K))} {vals : List (List (Val K))}
    (hc : Conforming rs cs (blocks.map (fun row => row.map OExpr.expr)))
    (he : List.Forall₂ (List.Forall₂ (fun (e : OExpr K) v => Eqv v.expr e.expr ∧ ∀ c, e.expr = .num c → v.expr = .num c))
      blocks vals) : Conforming rs cs (vals.map (fun row => row.map Val.expr)) := by
  obtain ⟨h1, h2⟩ := hc
  refine ⟨by rw [List.length_map, ← he.length_eq, ← h1, List.length_map], ?_⟩
  intro i row r hrow hr
  rw [List.getElem?_map, Option.map_eq_some_iff] at hrow
  obtain ⟨vs, hvs, rfl⟩ := hrow
  obtain ⟨es, hes, hf⟩ := forall₂_get he hvs
  obtain ⟨h3, h4⟩ := h2 i (es.map OExpr.expr) r (by rw [List.getElem?_map, hes]; rfl) hr
  refine ⟨by rw [List.length_map, ← hf.length_eq, ← h3, List.length_map], ?_⟩
  intro j e c hej hcj
  rw [List.getElem?_map, Option.map_eq_some_iff] at hej
  obtain ⟨v, hv, rfl⟩ := hej
  obtain ⟨o, ho, hE, hN⟩ := forall₂_get hf hv
  rcases h4 j o.expr c (by rw [List.getElem?_map, ho]; rfl) hcj with hd | hd | ⟨⟨a, hd⟩, hij⟩
  · left
    have := hE.2.2
    rw [size_of_hasDims hd, size_val] at this
    obtain ⟨M, rfl, rfl, rfl⟩ := dims_mat this
    exact .mat M
  · exact .inr (.inl (hN 0 hd))
  · exact .inr (.inr ⟨⟨a, hN a hd⟩, hij⟩)

theorem rowAct_vals {row : List (OExpr K)} {vs : List (Val K)}
    (h : List.Forall₂ (fun (e : OExpr K) (v : Val K) => Eqv v.expr e.expr ∧ ∀ c, e.expr = .num c → v.expr = .num c) row vs)
    (xs : List (List K)) : rowAct (vs.map Val.expr) xs = rowAct (row.map OExpr.expr) xs := by
  funext i
  unfold rowAct
  congr 1
  induction h generalizing xs with
  | nil => simp
  | cons h1 h2 ih =>
      cases xs with
      | nil => simp
      | cons x xs => simp only [List.map_cons, List.zip_cons_cons, h1.1.1, ih xs]

theorem blockAct_vals (rs : List Nat) (xs : List (List K)) {blocks : List (List (OExpr K))} {vals : List (List (Val K))}
    (he : List.Forall₂ (List.Forall₂ (fun (e : OExpr K) v => Eqv v.expr e.expr ∧ ∀ c, e.expr = .num c → v.expr = .num c))
      blocks vals) : blockAct rs (vals.map (fun row => row.map Val.expr)) xs =
        blockAct rs (blocks.map (fun row => row.map OExpr.expr)) xs := by
  unfold blockAct
  induction he generalizing rs with
  | nil => simp
  | cons h1 h2 ih =>
      cases rs with
      | nil => simp
      | cons r rs => simp only [List.map_cons, List.zip_cons_cons, rowAct_vals h1 xs, ih rs]

theorem convertRow_fuel (tiny : Tiny K) {f g : Nat} (hfg : f ≤ g) (i r : Nat) : ∀ (j : Nat) (cs : List Nat)
    (es : List (Expr K)) (ms : List (Mat K)), convertRow tiny f i r j cs es = .ok ms → convertRow tiny g i r j cs es = .ok ms
  | _, _, [], ms, h => by simpa [convertRow] using h
  | _, [], _ :: _, ms, h => by simp [convertRow] at h
  | j, c :: cs, e :: es, ms, h => by
      simp only [convertRow] at h ⊢
      obtain ⟨v, hv, h⟩ := py_bind_eq_ok.1 h
      obtain ⟨rest, hr, h⟩ := py_bind_eq_ok.1 h
      have : Collapse.collapse tiny g e = .ok v := by rw [(fuel_le tiny hfg).1 e (by rw [hv]; simp), hv]
      rw [this, py_bind_ok, convertRow_fuel tiny hfg i r (j + 1) cs es rest hr, py_bind_ok]
      exact h

theorem convertRows_fuel (tiny : Tiny K) {f g : Nat} (hfg : f ≤ g) (cs : List Nat) : ∀ (i : Nat) (rs : List Nat)
    (rows : List (List (Expr K))) (ms : List (Mat K)), convertRows tiny f cs i rs rows = .ok ms →
      convertRows tiny g cs i rs rows = .ok ms
  | _, _, [], ms, h => by simpa [convertRows] using h
  | _, [], _ :: _, ms, h => by simp [convertRows] at h
  | i, r :: rs, row :: rows, ms, h => by
      simp only [convertRows] at h ⊢
      obtain ⟨v, hv, h⟩ := py_bind_eq_ok.1 h
      obtain ⟨M, hM, h⟩ := py_bind_eq_ok.1 h
      obtain ⟨rest, hr, h⟩ := py_bind_eq_ok.1 h
      rw [convertRow_fuel tiny hfg i r 0 cs row v hv, py_bind_ok, hM, py_bind_ok,
        convertRows_fuel tiny hfg cs (i + 1) rs rows rest hr, py_bind_ok]
      exact h

theorem convertMat_fuel (tiny : Tiny K) (rs cs : List Nat) (blocks : List (List (Expr K))) {f g : Nat} (hfg : f ≤ g)
    (M : Mat K) (h : convertMat tiny f rs cs blocks = .ok M) : convertMat tiny g rs cs blocks = .ok M := by
  simp only [convertMat] at h ⊢
  obtain ⟨rows, hr, h⟩ := py_bind_eq_ok.1 h
  rw [convertRows_fuel tiny hfg cs 0 rs blocks rows hr, py_bind_ok]
  exact h

end Verif.CollapseIter
