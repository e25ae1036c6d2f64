import Verif.Props.Collapse
import Verif.Spec.ConvertExact
/-! # Lemmas on block matrices with numbers -/
namespace Verif.Collapse
open Verif
variable {K : Type} [CommRing K]

theorem keep_num (i j : Nat) (r c : Option Nat) (a : K) :
    ∃ b, keep i j r c (.num a) = .num b ∧ (b = a ∨ b = 0) := by
  simp only [keep]
  split
  · exact ⟨a, rfl, .inl rfl⟩
  · exact ⟨0, rfl, .inr rfl⟩

theorem keep_of_hasDims {i j : Nat} {r c : Option Nat} {e : Expr K} (h : ∀ a, e ≠ .num a) : keep i j r c e = e := by
  cases e with
  | num a => exact absurd rfl (h a)
  | _ => rfl

theorem convertRow_keep (tiny : Tiny K) (g i r : Nat) : ∀ (es : List (Expr K)) (j : Nat) (cs : List Nat),
    convertRow tiny g i r j cs (es.mapIdx (fun k e => keep i (j + k) (some r) cs[k]? e)) = convertRow tiny g i r j cs es
  | [], j, cs => rfl
  | e :: es, j, [] => by rw [List.mapIdx_cons]; rfl
  | e :: es, j, c :: cs => by
      have ih := convertRow_keep tiny g i r es (j + 1) cs
      rw [List.mapIdx_cons]
      simp only [List.getElem?_cons_zero, List.getElem?_cons_succ, Nat.add_zero, convertRow]
      have e1 : (fun k e => keep i (j + (k + 1)) (some r) cs[k]? e) =
          (fun k (e : Expr K) => keep i (j + 1 + k) (some r) cs[k]? e) := by
        funext k e; rw [show j + (k + 1) = j + 1 + k by omega]
      rw [e1, ih]
      cases e with
      | num a =>
          cases g with
          | zero => simp [collapse]
          | succ g =>
              by_cases h : i = j ∧ r = c
              · rw [keep, if_pos ⟨h.1, by rw [h.2]⟩]
              · rw [keep, if_neg (by simpa using h)]
                simp only [collapse, py_bind_ok, blockMatrix, if_neg h]
      | _ => rfl

theorem convertRows_keep (tiny : Tiny K) (g : Nat) (cs : List Nat) : ∀ (rows : List (List (Expr K))) (i : Nat)
    (rs : List Nat), convertRows tiny g cs i rs
      (rows.mapIdx (fun k row => row.mapIdx (fun j e => keep (i + k) j rs[k]? cs[j]? e))) =
      convertRows tiny g cs i rs rows
  | [], i, rs => rfl
  | row :: rows, i, [] => by rw [List.mapIdx_cons]; rfl
  | row :: rows, i, r :: rs => by
      have ih := convertRows_keep tiny g cs rows (i + 1) rs
      rw [List.mapIdx_cons]
      simp only [List.getElem?_cons_zero, List.getElem?_cons_succ, Nat.add_zero, convertRows]
      have e1 : (fun k (row : List (Expr K)) => row.mapIdx (fun j e => keep (i + (k + 1)) j rs[k]? cs[j]? e)) =
          (fun k row => row.mapIdx (fun j e => keep (i + 1 + k) j rs[k]? cs[j]? e)) := by
        funext k e; rw [show i + (k + 1) = i + 1 + k by omega]
      rw [e1, ih]
      have := convertRow_keep tiny g i r row 0 cs
      simp only [Nat.zero_add] at this
      rw [this]

theorem convertMat_keep (tiny : Tiny K) (g : Nat) (rs cs : List Nat) (blocks : List (List (Expr K))) :
    convertMat tiny g rs cs (kept rs cs blocks) = convertMat tiny g rs cs blocks := by
  have := convertRows_keep tiny g cs blocks 0 rs
  simp only [Nat.zero_add] at this
  simp only [convertMat, kept, this]

theorem kept_conforming {rs cs : List Nat} {blocks : List (List (Expr K))} (h : WithNumbers rs cs blocks) :
    Conforming rs cs (kept rs cs blocks) := by
  refine ⟨by simp [kept, h.1], ?_⟩
  intro i row' r hi hr
  rw [kept, List.getElem?_mapIdx, Option.map_eq_some_iff] at hi
  obtain ⟨row, hrow, rfl⟩ := hi
  obtain ⟨h1, h2⟩ := h.2 i row r hrow hr
  refine ⟨by simp [h1], fun j e' c he hc => ?_⟩
  rw [List.getElem?_mapIdx, Option.map_eq_some_iff] at he
  obtain ⟨e, he, rfl⟩ := he
  rw [hr, hc]
  cases e with
  | num a =>
      simp only [keep]
      split
      · rename_i h; exact .inr (.inr ⟨⟨a, rfl⟩, h.1, by injection h.2⟩)
      · exact .inr (.inl rfl)
  | _ =>
      rcases h2 j _ c he hc with h | ⟨a, h⟩
      · exact .inl h
      · cases h

theorem rowAct_cons (e : Expr K) (row : List (Expr K)) (x : List K) (xs : List (List K)) (k : Nat) :
    rowAct (e :: row) (x :: xs) k = e.act (fnOf x) k + rowAct row xs k := by
  simp [rowAct]

/-- The difference of the two products is that of the numbers. -/
theorem rowAct_keep (i : Nat) (r : Option Nat) (k : Nat) : ∀ (row : List (Expr K)) (xs : List (List K)) (cs : List Nat)
    (j : Nat), (∀ (q : Nat) e x c, row[q]? = some e → xs[q]? = some x → cs[q]? = some c →
      (keep i (j + q) r (some c) e).act (fnOf x) k = e.act (fnOf x) k) → row.length = cs.length →
    rowAct (row.mapIdx (fun q e => keep i (j + q) r cs[q]? e)) xs k = rowAct row xs k
  | [], xs, cs, j, _, _ => rfl
  | e :: row, [], cs, j, _, _ => by simp [rowAct]
  | e :: row, x :: xs, [], j, _, hl => by simp at hl
  | e :: row, x :: xs, c :: cs, j, h, hl => by
      have ih := rowAct_keep i r k row xs cs (j + 1) (fun q e x c h1 h2 h3 => by
        have := h (q + 1) e x c (by simpa using h1) (by simpa using h2) (by simpa using h3)
        rwa [show j + 1 + q = j + (q + 1) by omega]) (by simpa using hl)
      rw [List.mapIdx_cons, rowAct_cons, rowAct_cons]
      simp only [List.getElem?_cons_zero, List.getElem?_cons_succ, Nat.add_zero]
      have e1 : (fun q (e : Expr K) => keep i (j + (q + 1)) r cs[q]? e) = (fun q e => keep i (j + 1 + q) r cs[q]? e) := by
        funext q e; rw [show j + (q + 1) = j + 1 + q by omega]
      have h0 := h 0 e x c rfl rfl rfl
      rw [Nat.add_zero] at h0
      rw [e1, ih, h0]

/-- Unit vector in block `j`. -/
def unitAt (cs : List Nat) (j : Nat) : List (List K) :=
  cs.mapIdx (fun q c => (List.range c).map (fun k => if q = j ∧ k = 0 then 1 else 0))

theorem unitAt_sizes (cs : List Nat) (j : Nat) : (unitAt (K := K) cs j).map List.length = cs := by
  apply List.ext_getElem?
  intro q
  rw [List.getElem?_map, unitAt, List.getElem?_mapIdx]
  cases cs[q]? <;> simp

theorem unitAt_get (cs : List Nat) (j q : Nat) (x : List K) (h : (unitAt cs j)[q]? = some x) :
    fnOf x 0 = if q = j ∧ cs[q]? ≠ some 0 then 1 else 0 := by
  rw [unitAt, List.getElem?_mapIdx, Option.map_eq_some_iff] at h
  obtain ⟨c, hc, rfl⟩ := h
  rw [fnOf, List.getD_eq_getElem?_getD, List.getElem?_map, hc]
  cases c with
  | zero => simp
  | succ c => simp

/-- Difference of the products of rows with unit vectors. -/
theorem rowAct_unit (i : Nat) (r : Option Nat) (j0 : Nat) : ∀ (row : List (Expr K)) (xs : List (List K)) (cs : List Nat)
    (j : Nat), row.length = cs.length → xs.length = cs.length →
    (∀ (q : Nat) x, xs[q]? = some x → q ≠ j0 → fnOf x 0 = 0) →
    rowAct row xs 0 - rowAct (row.mapIdx (fun q e => keep i (j + q) r cs[q]? e)) xs 0 =
      match row[j0]?, xs[j0]? with
      | some e, some x => e.act (fnOf x) 0 - (keep i (j + j0) r cs[j0]? e).act (fnOf x) 0
      | _, _ => 0
  | [], xs, cs, j, _, _, _ => by simp [rowAct]
  | e :: row, [], cs, j, hl, hx, _ => by rw [← hx] at hl; simp at hl
  | e :: row, x :: xs, [], j, hl, _, _ => by simp at hl
  | e :: row, x :: xs, c :: cs, j, hl, hx, h => by
      rw [List.mapIdx_cons, rowAct_cons, rowAct_cons]
      simp only [List.getElem?_cons_zero, List.getElem?_cons_succ, Nat.add_zero]
      have e1 : (fun q (e : Expr K) => keep i (j + (q + 1)) r cs[q]? e) = (fun q e => keep i (j + 1 + q) r cs[q]? e) := by
        funext q e; rw [show j + (q + 1) = j + 1 + q by omega]
      rw [e1]
      cases j0 with
      | zero =>
          have e2 := rowAct_keep i r 0 row xs cs (j + 1) (by
            intro q e' x' c' h1 h2 h3
            have hz := h (q + 1) x' (by simpa using h2) (by omega)
            cases e' with
            | num a =>
                simp only [keep]
                split
                · rfl
                · simp [Expr.act, hz]
            | _ => rfl) (by simpa using hl)
          rw [e2]
          simp
      | succ j0 =>
          have ih := rowAct_unit i r j0 row xs cs (j + 1) (by simpa using hl) (by simpa using hx)
            (fun q x' hq hne => h (q + 1) x' (by simpa using hq) (by omega))
          have hz := h 0 x rfl (by omega)
          have e3 : (keep i j r (some c) e).act (fnOf x) 0 = e.act (fnOf x) 0 := by
            cases e with
            | num a =>
                simp only [keep]
                split
                · rfl
                · simp [Expr.act, hz]
            | _ => rfl
          rw [e3, add_sub_add_left_eq_sub, ih]
          simp only [List.getElem?_cons_succ, show j + (j0 + 1) = j + 1 + j0 by omega]

theorem blockAct_get {rs : List Nat} {blocks : List (List (Expr K))} {xs : List (List K)} {i r : Nat}
    {row : List (Expr K)} (hi : blocks[i]? = some row) (hr : rs[i]? = some r) :
    (blockAct rs blocks xs)[i]? = some ((List.range r).map (rowAct row xs)) := by
  rw [blockAct, List.getElem?_map, (List.getElem?_zip_eq_some (z := (r, row))).2 ⟨hr, hi⟩]
  rfl

theorem kept_act {rs cs : List Nat} {blocks : List (List (Expr K))} (h : WithNumbers rs cs blocks)
    (ho : OnlyDiagonal rs cs blocks) {xs : List (List K)} (hx : xs.map List.length = cs) :
    blockAct rs (kept rs cs blocks) xs = blockAct rs blocks xs := by
  apply List.ext_getElem?
  intro i
  by_cases hi : i < blocks.length
  · have hr : rs[i]? = some (rs[i]'(by rw [← h.1]; exact hi)) := List.getElem?_eq_getElem _
    have hb := List.getElem?_eq_getElem hi
    have hk : (kept rs cs blocks)[i]? = some ((blocks[i]).mapIdx (fun j e => keep i j rs[i]? cs[j]? e)) := by
      rw [kept, List.getElem?_mapIdx, hb]; rfl
    rw [blockAct_get hk hr, blockAct_get hb hr]
    congr 1
    refine List.map_congr_left (fun k hkr => ?_)
    have hkr := List.mem_range.1 hkr
    obtain ⟨hl, hd⟩ := h.2 i _ _ hb hr
    have := rowAct_keep i rs[i]? k blocks[i] xs cs 0 (by
      intro q e x c he hxq hc
      rw [Nat.zero_add, hr]
      cases e with
      | num a =>
          simp only [keep]
          split
          · rfl
          · rename_i hne
            rcases Nat.eq_zero_or_pos c with rfl | hpos
            · have hxl : x.length = 0 := by
                have : (xs.map List.length)[q]? = some 0 := by rw [hx]; exact hc
                rw [List.getElem?_map, hxq] at this
                simpa using this
              have : x = [] := List.length_eq_zero_iff.1 hxl
              subst this
              simp [Expr.act, fnOf]
            · rcases ho i q _ _ _ a hb hr hc he (by omega) hpos with h1 | h1
              · exact absurd ⟨h1.1, by rw [h1.2]⟩ hne
              · rw [h1]
      | _ => rfl) hl
    simpa using this
  · have h1 : (blockAct rs (kept rs cs blocks) xs)[i]? = none := by
      rw [blockAct, List.getElem?_eq_none]; simp [kept]; omega
    have h2 : (blockAct rs blocks xs)[i]? = none := by
      rw [blockAct, List.getElem?_eq_none]; simp; omega
    rw [h1, h2]

end Verif.Collapse
