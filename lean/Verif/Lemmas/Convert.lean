import Verif.Spec.Convert
import Verif.Lemmas.Collapse
import Mathlib.Tactic.SplitIfs
/-! Lemmas on block conversion and sizes. -/
namespace Verif.Collapse
open Verif Finset

variable {K : Type} [CommRing K]

theorem act_congr (A : Mat K) (x y : Nat → K) (h : ∀ k, k < A.cols → x k = y k) : A.act x = A.act y := by
  funext i
  exact sum_congr rfl (fun k hk => by rw [h k (mem_range.mp hk)])

theorem hcat_rows (m : Nat) (As : List (Mat K)) : (hcat m As).rows = m := by
  cases As <;> simp [hcat, Mat.zero]

theorem hcat_cols (m : Nat) (As : List (Mat K)) : (hcat m As).cols = (As.map Mat.cols).sum := by
  induction As with
  | nil => simp [hcat, Mat.zero]
  | cons A As ih => simp [hcat, ih]

theorem vcat_rows (n : Nat) (As : List (Mat K)) : (vcat n As).rows = (As.map Mat.rows).sum := by
  induction As with
  | nil => simp [vcat, Mat.zero]
  | cons A As ih => simp [vcat, ih]

theorem vcat_cols (n : Nat) (As : List (Mat K)) : (vcat n As).cols = n := by
  cases As <;> simp [vcat, Mat.zero]

theorem hcat_act (m : Nat) (A : Mat K) (As : List (Mat K)) (hA : A.rows = m) (x : Nat → K) (i : Nat) :
    (hcat m (A :: As)).act x i = A.act x i + (hcat m As).act (fun k => x (A.cols + k)) i := by
  rw [hcat, Mat.of_act]
  split
  · rw [sum_range_add]
    congr 1
    · refine sum_congr rfl (fun j hj => ?_)
      rw [if_pos (mem_range.mp hj)]
    · refine sum_congr rfl (fun j _ => ?_)
      rw [if_neg (by omega)]
      simp
  · rw [Mat.act_of_le A x i (by omega), Mat.act_of_le _ _ i (by rw [hcat_rows]; omega)]; simp

theorem vcat_act (n : Nat) (A : Mat K) (As : List (Mat K)) (hA : A.cols = n) (x : Nat → K) (i : Nat) :
    (vcat n (A :: As)).act x i = if i < A.rows then A.act x i else (vcat n As).act x (i - A.rows) := by
  rw [vcat, Mat.of_act]
  by_cases h : i < A.rows
  · rw [if_pos (by omega), if_pos h]
    simp only [Mat.act, hA]
    exact sum_congr rfl (fun j _ => by rw [if_pos h])
  · rw [if_neg h]
    by_cases h2 : i < A.rows + (vcat n As).rows
    · rw [if_pos h2]
      simp only [Mat.act, vcat_cols]
      exact sum_congr rfl (fun j _ => by rw [if_neg h])
    · rw [if_neg h2, Mat.act_of_le _ _ _ (by omega)]

theorem fnOf_append_left (a b : List K) (k : Nat) (h : k < a.length) : fnOf (a ++ b) k = fnOf a k := by
  simp [fnOf, List.getElem?_append, h]

theorem fnOf_append_right (a b : List K) (k : Nat) : fnOf (a ++ b) (a.length + k) = fnOf b k := by
  simp [fnOf, List.getElem?_append]

theorem fnOf_ge (a : List K) (k : Nat) (h : a.length ≤ k) : fnOf a k = 0 := by
  simp [fnOf, h]

/-- The matrix of a block acts as the block. -/
theorem blockMatrix_act {i j r c : Nat} {e : Expr K} (h : BlockOk i j r c e) :
    ∃ v, (∀ tiny, Returns tiny e v) ∧ (blockMatrix i j r c v).rows = r ∧
      (blockMatrix i j r c v).cols = c ∧
      ∀ x : List K, x.length = c → ∀ k, k < r → (blockMatrix i j r c v).act (fnOf x) k = e.act (fnOf x) k := by
  rcases h with h | rfl | ⟨⟨a, rfl⟩, rfl, rfl⟩
  · obtain ⟨v, h1, h2, h3⟩ := collapse_conforming h
    obtain ⟨M, rfl, rfl, rfl⟩ := dims_mat h2
    refine ⟨.mat M, h1, rfl, rfl, fun x _ k _ => ?_⟩
    rw [← h3]
    simp [blockMatrix, Val.expr, Expr.act]
  · refine ⟨.num 0, fun tiny => returns_of tiny (f := 1) (by simp [collapse]), ?_, ?_, ?_⟩
    · simp only [blockMatrix]; split <;> simp [Mat.diag, Mat.zero]
    · simp only [blockMatrix]; split <;> simp [Mat.diag, Mat.zero]; omega
    · intro x hx k hk
      simp only [blockMatrix]
      split
      · rw [Mat.diag_act]; simp [Expr.act]
      · rw [Mat.zero_act]; simp [Expr.act]
  · refine ⟨.num a, fun tiny => returns_of tiny (f := 1) (by simp [collapse]), ?_, ?_, ?_⟩
    · simp [blockMatrix, Mat.diag]
    · simp [blockMatrix, Mat.diag]
    · intro x hx k hk
      simp [blockMatrix, Mat.diag_act, Expr.act, hk]

theorem convertRow_ok (i r : Nat) : ∀ (row : List (Expr K)) (cs : List Nat) (j : Nat),
    row.length = cs.length →
    (∀ k e c, row[k]? = some e → cs[k]? = some c → BlockOk i (j + k) r c e) →
    ∃ ms : List (Mat K), (∀ tiny, ∃ f, ∀ g, f ≤ g → convertRow tiny g i r j cs row = .ok ms) ∧
      (∀ M ∈ ms, M.rows = r) ∧ ms.map Mat.cols = cs ∧
      ∀ xs : List (List K), xs.map List.length = cs → ∀ k, k < r →
        (hcat r ms).act (fnOf xs.flatten) k = rowAct row xs k := by
  intro row
  induction row with
  | nil =>
      intro cs j hl _
      have : cs = [] := by simpa using hl.symm
      subst this
      refine ⟨[], fun tiny => ⟨0, fun g _ => by simp [convertRow]⟩, by simp, rfl, ?_⟩
      intro xs hxs k hk
      have : xs = [] := by simpa using hxs
      subst this
      simp [hcat, Mat.zero_act, rowAct]
  | cons e es ih =>
      intro cs j hl hok
      match cs, hl with
      | c :: cs, hl =>
      obtain ⟨v, hv, h1, h2, h3⟩ := blockMatrix_act (hok 0 e c (by simp) (by simp))
      obtain ⟨ms, hms, hr, hc, hact⟩ := ih cs (j + 1) (by simpa using hl) (by
        intro k e' c' he hc'
        have := hok (k + 1) e' c' (by simpa using he) (by simpa using hc')
        have e1 : j + (k + 1) = j + 1 + k := by omega
        rwa [e1] at this)
      simp only [Nat.add_zero] at h1 h2 h3
      refine ⟨blockMatrix i j r c v :: ms, fun tiny => ?_, ?_, ?_, ?_⟩
      · obtain ⟨f1, hf1⟩ := hv tiny
        obtain ⟨f2, hf2⟩ := hms tiny
        refine ⟨max f1 f2, fun g hg => ?_⟩
        simp [convertRow, hf1 g (by omega), hf2 g (by omega)]
      · intro M hM
        rcases List.mem_cons.mp hM with rfl | hM
        · exact h1
        · exact hr M hM
      · simp [h2, hc]
      · intro xs hxs k hk
        match xs, hxs with
        | x :: xs, hxs =>
        simp only [List.map_cons, List.cons.injEq] at hxs
        rw [hcat_act r _ _ h1]
        simp only [List.flatten_cons, rowAct, List.zip_cons_cons, List.map_cons, List.sum_cons]
        congr 1
        · rw [act_congr _ (fnOf (x ++ xs.flatten)) (fnOf x), h3 x hxs.1 k hk]
          intro q hq
          exact fnOf_append_left _ _ _ (by omega)
        · rw [← rowAct, ← hact xs hxs.2 k hk, h2, ← hxs.1]
          congr 1
          funext q
          exact fnOf_append_right _ _ _

theorem blockAct_length (rs : List Nat) (blocks : List (List (Expr K))) (xs : List (List K)) 
    (h : blocks.length = rs.length) : (blockAct rs blocks xs).flatten.length = rs.sum := by
  induction rs generalizing blocks with
  | nil => simp [blockAct]
  | cons r rs ih =>
      match blocks, h with
      | b :: bs, h =>
          have := ih bs (by simpa using h)
          simp only [blockAct, List.zip_cons_cons, List.map_cons, List.flatten_cons,
            List.length_append, List.length_map, List.length_range, List.sum_cons] at this ⊢
          rw [this]

theorem convertRows_ok (cs : List Nat) : ∀ (blocks : List (List (Expr K))) (rs : List Nat) (i : Nat),
    blocks.length = rs.length →
    (∀ q row r, blocks[q]? = some row → rs[q]? = some r → row.length = cs.length ∧
      ∀ k e c, row[k]? = some e → cs[k]? = some c → BlockOk (i + q) k r c e) →
    ∃ ms : List (Mat K), (∀ tiny, ∃ f, ∀ g, f ≤ g → convertRows tiny g cs i rs blocks = .ok ms) ∧
      ms.map Mat.rows = rs ∧ (∀ M ∈ ms, M.cols = cs.sum) ∧
      ∀ xs : List (List K), xs.map List.length = cs → ∀ k, 
        (vcat cs.sum ms).act (fnOf xs.flatten) k = fnOf (blockAct rs blocks xs).flatten k := by
  intro blocks
  induction blocks with
  | nil =>
      intro rs i hl _
      have : rs = [] := by simpa using hl.symm
      subst this
      refine ⟨[], fun tiny => ⟨0, fun g _ => by simp [convertRows]⟩, rfl, by simp, ?_⟩
      intro xs hxs k
      simp [vcat, Mat.zero_act, blockAct, fnOf]
  | cons row rows ih =>
      intro rs i hl hok
      match rs, hl with
      | r :: rs, hl =>
      obtain ⟨hrl, hrow⟩ := hok 0 row r (by simp) (by simp)
      obtain ⟨ms, hms, hr, hc, hact⟩ := convertRow_ok i r row cs 0 hrl (by
        intro k e c he hc
        simpa using hrow k e c he hc)
      obtain ⟨ns, hns, hnr, hnc, hnact⟩ := ih rs (i + 1) (by simpa using hl) (by
        intro q row' r' h1 h2
        have := hok (q + 1) row' r' (by simpa using h1) (by simpa using h2)
        have e1 : i + (q + 1) = i + 1 + q := by omega
        rwa [e1] at this)
      have hb : bmatRow r cs ms = .ok (hcat r ms) := by
        unfold bmatRow
        rw [if_pos]
        exact ⟨by simpa using hr, hc⟩
      refine ⟨hcat r ms :: ns, fun tiny => ?_, ?_, ?_, ?_⟩
      · obtain ⟨f1, hf1⟩ := hms tiny
        obtain ⟨f2, hf2⟩ := hns tiny
        refine ⟨max f1 f2, fun g hg => ?_⟩
        simp [convertRows, hf1 g (by omega), hf2 g (by omega), hb]
      · simp [hcat_rows, hnr]
      · intro M hM
        rcases List.mem_cons.mp hM with rfl | hM
        · rw [hcat_cols, hc]
        · exact hnc M hM
      · intro xs hxs k
        rw [vcat_act _ _ _ (by rw [hcat_cols, hc]), hcat_rows]
        simp only [blockAct, List.zip_cons_cons, List.map_cons, List.flatten_cons]
        split
        · rename_i hk
          rw [fnOf_append_left _ _ _ (by simpa using hk), hact xs hxs k hk]
          simp [fnOf, hk]
        · rename_i hk
          rw [hnact xs hxs]
          have hlen : ((List.range r).map (rowAct row xs)).length = r := by simp
          have e1 : k = ((List.range r).map (rowAct row xs)).length + (k - r) := by rw [hlen]; omega
          conv_rhs => rw [e1, fnOf_append_right]
          rfl

/-! ### Sizes -/

theorem HasDims.some_not_num {e : Expr K} {d} (h : HasDims e (some d)) : ∀ c, e ≠ .num c := by
  intro c hc; subst hc; cases h

theorem HasDims.of_num {c : K} {d} (h : HasDims (.num c : Expr K) d) : d = none := by
  cases h; rfl

theorem opsThenNums_cons {a : Expr K} {as : List (Expr K)} (h : ∀ c, a ≠ .num c) :
    OpsThenNums (a :: as) ↔ OpsThenNums as := by
  cases a <;> simp_all [OpsThenNums]

theorem chainDims_nums {as : List (Expr K)} {d : Dims} (h : ChainDims as d)
    (hn : ∀ e ∈ as, ∃ c, e = .num c) : d = none := by
  induction as generalizing d with
  | nil => cases h
  | cons a as ih =>
      obtain ⟨c, rfl⟩ := hn a (by simp)
      cases h with
      | single h => exact h.of_num
      | cons h1 h2 h3 =>
          have e1 := h1.of_num
          have e2 := ih h2 (fun e he => hn e (by simp [he]))
          subst e1 e2
          simpa [Dims.comb] using h3.symm

theorem foldl_pyMul_mul (rest : List (Expr K)) (hr : ∀ a ∈ rest, ∀ c, a ≠ .mul c)
    (chain : List (Expr K)) : rest.foldl pyMul (.mul chain) = .mul (chain ++ rest) := by
  induction rest generalizing chain with
  | nil => simp
  | cons a as ih =>
      have : pyMul (.mul chain) a = .mul (chain ++ [a]) := by
        have := hr a (by simp)
        cases a <;> simp_all [pyMul, Expr.flat]
      simp only [List.foldl_cons, this]
      rw [ih (fun b hb => hr b (by simp [hb]))]
      simp

theorem reduce_ops (b c : Expr K) (rest : List (Expr K)) (hb : ∀ q, b ≠ .num q)
    (hm : ∀ a ∈ b :: c :: rest, ∀ q, a ≠ .mul q) :
    (c :: rest).foldl pyMul b = .mul (b :: c :: rest) := by
  have : pyMul b c = .mul [b, c] := by
    have h1 := hm b (by simp)
    have h2 := hm c (by simp)
    cases b <;> cases c <;> simp_all [pyMul, Expr.flat]
  simp only [List.foldl_cons, this]
  rw [foldl_pyMul_mul rest (fun a ha => hm a (by simp [ha]))]
  simp

theorem numsLastAll_mem {as : List (Expr K)} (h : NumsLastAll as) : ∀ a ∈ as, NumsLast a := by
  induction as with
  | nil => simp
  | cons a as ih =>
      cases h with
      | cons h1 h2 =>
          intro b hb
          rcases List.mem_cons.mp hb with rfl | hb
          · exact h1
          · exact ih h2 b hb

theorem NumsLastAll.tail {a : Expr K} {as : List (Expr K)} (h : NumsLastAll (a :: as)) :
    NumsLastAll as := by cases h with | cons _ h => exact h

theorem getDims_conforming (N : Nat) : ∀ (e : Expr K) (d : Dims), e.sz ≤ N → NumsLast e →
    HasDims e d → ∀ fuel, N ≤ fuel → getDims fuel e = .ok d := by
  induction N with
  | zero => intro e d h; have := sz_pos e; omega
  | succ N ih =>
      intro e d hsz hnl hd fuel hfuel
      obtain ⟨fuel, rfl⟩ : ∃ g, fuel = g + 1 := ⟨fuel - 1, by omega⟩
      have hg : N ≤ fuel := by omega
      cases hd with
      | num c => simp [getDims]
      | mat M => simp [getDims]
      | op M => simp [getDims]
      | trmat M =>
          have := ih (.mat M) (some (M.rows, M.cols)) (by simp [Expr.sz] at hsz ⊢; omega)
            (.mat M) (.mat M) fuel hg
          simp [getDims, this]
      | @add a b m n ha hb =>
          simp only [Expr.sz] at hsz
          cases hnl with
          | add na nb =>
          have e1 := ih a _ (by omega) na ha fuel hg
          have e2 := ih b _ (by omega) nb hb fuel hg
          have h1 := ha.some_not_num
          have h2 := hb.some_not_num
          simp only [getDims, e1, e2]
          unfold getDims.getDimsSum
          split
          · exact absurd rfl (h1 _)
          · rfl
          · simp
      | @sub a b m n ha hb =>
          simp only [Expr.sz] at hsz
          cases hnl with
          | sub na nb =>
          have e1 := ih a _ (by omega) na ha fuel hg
          have e2 := ih b _ (by omega) nb hb fuel hg
          have h1 := ha.some_not_num
          have h2 := hb.some_not_num
          simp only [getDims, e1, e2]
          unfold getDims.getDimsSum
          split
          · exact absurd rfl (h1 _)
          · rfl
          · simp
      | @mul a b rest d m n hc hdm =>
          subst hdm
          simp only [Expr.sz, chainSz] at hsz
          have hap := sz_pos a
          have hbp := sz_pos b
          cases hc with
          | @cons _ _ da dr _ ha hrest hcomb =>
          cases hnl with
          | @scale c b nb =>
              have hb : HasDims b dr := by
                cases hrest with
                | single h => exact h
                | cons _ h _ => cases h
              have := ha.of_num
              subst this
              simp only [Dims.comb, Option.some.injEq] at hcomb
              subst hcomb
              have e1 := ih (.num c) none (by omega) (.num c) (.num c) fuel hg
              have e2 := ih b _ (by omega) nb hb fuel hg
              simp only [getDims, e1, e2, py_bind_ok]
          | mul hall hops hmul =>
              have na := numsLastAll_mem hall a (by simp)
              have nb := numsLastAll_mem hall b (by simp)
              have e1 := ih a _ (by omega) na ha fuel hg
              by_cases hA : ∃ q, a = .num q
              · exfalso
                obtain ⟨q, rfl⟩ := hA
                simp only [OpsThenNums] at hops
                have h1 := ha.of_num
                have h2 := chainDims_nums hrest hops
                subst h1 h2
                simp [Dims.comb] at hcomb
              · push Not at hA
                rw [opsThenNums_cons hA] at hops
                have hda : da ≠ none := by
                  rintro rfl
                  obtain ⟨q, hq⟩ := ha.none_num
                  exact hA q hq
                obtain ⟨⟨p1, p2⟩, rfl⟩ := Option.ne_none_iff_exists'.mp hda
                by_cases hB : ∃ q, b = .num q
                · obtain ⟨q, rfl⟩ := hB
                  have e2 := ih (.num q) none (by omega) (.num q) (.num q) fuel hg
                  simp only [OpsThenNums] at hops
                  have h2 := chainDims_nums hrest (by
                    intro e he
                    rcases List.mem_cons.mp he with rfl | he
                    · exact ⟨q, rfl⟩
                    · exact hops e he)
                  subst h2
                  simp only [Dims.comb, Option.some.injEq] at hcomb
                  rw [← hcomb]
                  simp only [getDims, e1, e2, py_bind_ok]
                · push Not at hB
                  have hb : ∃ db, HasDims b (some db) := by
                    cases hrest with
                    | single h =>
                        rcases dr with _ | x
                        · obtain ⟨q, hq⟩ := h.none_num; exact absurd hq (hB q)
                        · exact ⟨x, h⟩
                    | @cons _ _ y _ _ h _ _ =>
                        rcases y with _ | x
                        · obtain ⟨q, hq⟩ := h.none_num; exact absurd hq (hB q)
                        · exact ⟨x, h⟩
                  obtain ⟨⟨q1, q2⟩, hb⟩ := hb
                  have e2 := ih b _ (by omega) nb hb fuel hg
                  have hdr : dr ≠ none := by
                    cases hrest with
                    | single h =>
                        rintro rfl
                        obtain ⟨q, hq⟩ := h.none_num; exact absurd hq (hB q)
                    | @cons _ _ y z _ h _ hyz =>
                        rintro rfl
                        rcases y with _ | x
                        · obtain ⟨q, hq⟩ := h.none_num; exact absurd hq (hB q)
                        · rcases z with _ | z
                          · simp [Dims.comb] at hyz
                          · simp only [Dims.comb] at hyz
                            split at hyz <;> simp at hyz
                  obtain ⟨⟨r1, r2⟩, rfl⟩ := Option.ne_none_iff_exists'.mp hdr
                  simp only [Dims.comb] at hcomb
                  split at hcomb
                  swap
                  · cases hcomb
                  rename_i hpr
                  simp only [Option.some.injEq, Prod.mk.injEq] at hcomb
                  obtain ⟨rfl, rfl⟩ := hcomb
                  match rest with
                  | [] =>
                      have hb' : HasDims b (some (r1, r2)) := by
                        cases hrest with
                        | single h => exact h
                        | cons _ h _ => cases h
                      have e3 := ih b _ (by omega) nb hb' fuel hg
                      simp only [getDims, e1, e3, py_bind_ok, dimsMul, hpr, if_true]
                  | c :: rest =>
                      have hr : HasDims (.mul (b :: c :: rest)) (some (r1, r2)) := .mul hrest rfl
                      have e3 := ih _ _ (by simp only [Expr.sz, chainSz] at hsz ⊢; omega)
                        (.mul hall.tail hops (fun x hx => hmul x (by simp [hx]))) hr fuel hg
                      have hred : reduceMul (b :: c :: rest) = .ok (.mul (b :: c :: rest)) := by
                        simp only [reduceMul]
                        rw [reduce_ops b c rest hB (fun x hx => hmul x (List.mem_cons_of_mem _ hx))]
                      simp only [getDims, e1, e2, py_bind_ok, hred, e3, dimsMul, hpr, if_true]

end Verif.Collapse
