import Verif.Spec.Convertible
import Verif.Lemmas.Collapse
/-! Lemmas on the exact set of expressions which are converted. -/
namespace Verif.Collapse
open Verif

variable {K : Type} [CommRing K] {tiny : Tiny K}

theorem ConvChain.append {as : List (Expr K)} : ∀ {bs : List (Expr K)} {d d' r},
    ConvChain tiny as d → ConvChain tiny bs d' → Dims.comb d d' = some r → ConvChain tiny (as ++ bs) r := by
  induction as with
  | nil => intro bs d d' r h; cases h
  | cons a as ih =>
      intro bs d d' r h hb hr
      cases h with
      | single ha => exact ConvChain.cons ha hb hr
      | cons ha has hc =>
          obtain ⟨bc, h1, h2⟩ := comb_assoc hc hr
          exact ConvChain.cons ha (ih has hb h1) h2

theorem Conv.none_num {e : Expr K} (h : Conv tiny e none) : ∃ c, e = .num c := by
  cases h with
  | num c => exact ⟨c, rfl⟩
  | mul _ h => cases h

theorem Conv.flat {e : Expr K} {d : Dims} (h : Conv tiny e d) : ConvChain tiny e.flat d := by
  cases h with
  | mul hc _ => exact hc
  | num c => exact .single (.num c)
  | mat M => exact .single (.mat M)
  | op M => exact .single (.op M)
  | trmat M => exact .single (.trmat M)
  | add ha hb => exact .single (.add ha hb)
  | addNum ha hb => exact .single (.addNum ha hb)
  | numAdd ha hb => exact .single (.numAdd ha hb)
  | sub ha hb => exact .single (.sub ha hb)

theorem conv_flat_ne_nil {e : Expr K} {d : Dims} (h : Conv tiny e d) : e.flat ≠ [] := by
  cases h <;> simp [Expr.flat]

theorem Conv.mulChain {c : List (Expr K)} {m n : Nat} (hc : ConvChain tiny c (some (m, n)))
    (hl : 2 ≤ c.length) : Conv tiny (.mul c) (some (m, n)) := by
  match c, hl with
  | a :: b :: rest, _ => exact .mul hc rfl

theorem Conv.pyMul {a b : Expr K} {d d' r : Dims} (ha : Conv tiny a d) (hb : Conv tiny b d')
    (hr : Dims.comb d d' = some r) : Conv tiny (pyMul a b) r := by
  have key : ∀ m n, r = some (m, n) → Conv tiny (.mul (a.flat ++ b.flat)) r := by
    intro m n hmn
    subst hmn
    apply Conv.mulChain (ha.flat.append hb.flat hr)
    have h1 := List.length_pos_iff.mpr (conv_flat_ne_nil ha)
    have h2 := List.length_pos_iff.mpr (conv_flat_ne_nil hb)
    simp; omega
  unfold Collapse.pyMul
  split
  · cases ha with
    | num => cases hb with
      | num => simp only [Dims.comb, Option.some.injEq] at hr; subst hr; exact .num _
  · rename_i hnn
    rcases r with _ | ⟨m, n⟩
    · rcases d with _ | ⟨d1, d2⟩
      · simp only [Dims.comb, Option.some.injEq] at hr
        subst hr
        obtain ⟨c, rfl⟩ := ha.none_num
        obtain ⟨c', rfl⟩ := hb.none_num
        exact absurd rfl (hnn c c' rfl)
      · rcases d' with _ | ⟨e1, e2⟩
        · simp [Dims.comb] at hr
        · simp only [Dims.comb] at hr
          split at hr <;> simp at hr
    · exact key m n rfl

theorem Conv.foldl {bs : List (Expr K)} : ∀ {b : Expr K} {d d' r : Dims}, Conv tiny b d →
    ConvChain tiny bs d' → Dims.comb d d' = some r → Conv tiny (bs.foldl Collapse.pyMul b) r := by
  induction bs with
  | nil => intro b d d' r _ h; cases h
  | cons c cs ih =>
      intro b d d' r hb hc hr
      simp only [List.foldl_cons]
      cases hc with
      | single hc => 
          simpa using hb.pyMul hc hr
      | @cons _ _ dc ds _ hc hcs hcr =>
          -- reassociate: (d ∘ dc) ∘ ds
          have : ∃ x, Dims.comb d dc = some x ∧ Dims.comb x ds = some r := by
            rcases d with _ | ⟨d1, d2⟩
            · simp only [Dims.comb, Option.some.injEq] at hr
              subst hr
              exact ⟨dc, by simp [Dims.comb], hcr⟩
            · rcases dc with _ | ⟨e1, e2⟩
              · simp only [Dims.comb, Option.some.injEq] at hcr
                subst hcr
                exact ⟨some (d1, d2), by simp [Dims.comb], hr⟩
              · rcases ds with _ | ⟨f1, f2⟩
                · simp only [Dims.comb, Option.some.injEq] at hcr
                  subst hcr
                  exact ⟨r, hr, by cases r <;> simp [Dims.comb]⟩
                · simp only [Dims.comb] at hcr
                  split at hcr
                  · rename_i hef
                    simp only [Option.some.injEq] at hcr
                    subst hcr
                    simp only [Dims.comb] at hr
                    split at hr
                    · rename_i hde
                      simp only [Option.some.injEq] at hr
                      subst hr
                      exact ⟨some (d1, e2), by simp [Dims.comb, hde], by simp [Dims.comb, hef]⟩
                    · cases hr
                  · cases hcr
          obtain ⟨x, h1, h2⟩ := this
          exact ih (hb.pyMul hc h1) hcs h2

theorem conv_total (N : Nat) : ∀ (e : Expr K) (d : Dims), e.sz ≤ N →
    Conv tiny e d → ∃ v, Returns tiny e v ∧ v.dims = d := by
  induction N with
  | zero => intro e d h; have := sz_pos e; omega
  | succ N ih =>
      intro e d hsz hd
      have addrec : ∀ (a b : Expr K) (m n : Nat), a.sz ≤ N → b.sz ≤ N →
          Conv tiny a (some (m, n)) → Conv tiny b (some (m, n)) →
          ∃ M M' : Mat K, M.rows = m ∧ M.cols = n ∧ M'.rows = m ∧ M'.cols = n ∧
            ∃ f, ∀ g, f ≤ g →
              collapse tiny g a = .ok (.mat M) ∧ collapse tiny g b = .ok (.mat M') := by
        intro a b m n ha hb hda hdb
        obtain ⟨v, hf1, hv⟩ := ih a _ ha hda
        obtain ⟨w, hf2, hw⟩ := ih b _ hb hdb
        obtain ⟨M, rfl, h1, h2⟩ := dims_mat hv
        obtain ⟨M', rfl, h3, h4⟩ := dims_mat hw
        refine ⟨M, M', h1, h2, h3, h4, ?_⟩
        obtain ⟨f1, hf1⟩ := hf1
        obtain ⟨f2, hf2⟩ := hf2
        exact ⟨max f1 f2, fun g hg => ⟨hf1 g (by omega), hf2 g (by omega)⟩⟩
      cases hd with
      | num c => exact ⟨.num c, returns_of tiny (f := 1) (by simp [collapse]), rfl⟩
      | mat M => exact ⟨.mat M, returns_of tiny (f := 1) (by simp [collapse]), rfl⟩
      | op M => exact ⟨.mat M, returns_of tiny (f := 1) (by simp [collapse]), rfl⟩
      | trmat M =>
          exact ⟨.mat M.tr,
            returns_of tiny (f := 2) (by simp [collapse, collapseTr]), rfl⟩
      | @add a b m n ha hb =>
          simp only [Expr.sz] at hsz
          obtain ⟨M, M', h1, h2, h3, h4, hf⟩ := addrec a b m n (by omega) (by omega) ha hb
          have hax : matAxpy 1 M M' = .ok (.mat (Mat.axpy 1 M M')) := by
            simp [matAxpy, h1, h2, h3, h4]
          refine ⟨.mat (Mat.axpy 1 M M'), ?_, ?_⟩
          · obtain ⟨f, hf⟩ := hf
            refine returns_of tiny (f := f + 1 + 1 + 1 + 1) ?_
            obtain ⟨e1, e2⟩ := hf (f + 1) (by omega)
            have hrec : collapseAddRec tiny (f + 1 + 1) a b = .ok (.mat (Mat.axpy 1 M M')) := by
              simp only [collapseAddRec, e1, e2, py_bind_ok, Val.expr, collapseAdd, hax]
            simp only [collapse, collapseAdd]
            split
            · cases hb
            · cases ha
            · simp only [collapse, Except.ok.injEq, Val.mat.injEq] at e1 e2
              rw [e1, e2]; exact hax
            · exact hrec
          · simp [Val.dims, Mat.axpy, h1, h2]
      | @addNum a c m n ha hc =>
          simp only [Expr.sz] at hsz
          obtain ⟨v, ⟨f, hf⟩, hv⟩ := ih a _ (by omega) ha
          obtain ⟨M, rfl, h1, h2⟩ := dims_mat hv
          refine ⟨.mat M, returns_of tiny (f := f + 1 + 1 + 1 + 1) ?_, hv⟩
          have e1 := hf (f + 1) (by omega)
          have hcn : collapse tiny (f + 1) (.num c) = .ok (.num c) := by simp only [collapse]
          have hrec : collapseAddRec tiny (f + 1 + 1) a (.num c) = .ok (.mat M) := by
            simp only [collapseAddRec, e1, hcn, py_bind_ok, Val.expr, collapseAdd, hc, if_true]
          by_cases hm : ∃ N, a = .mat N
          · obtain ⟨N, rfl⟩ := hm
            simp only [collapse, Except.ok.injEq, Val.mat.injEq] at e1
            simp only [collapse, collapseAdd, hc, if_true, e1]
          · simp only [collapse, collapseAdd]
            split
            · exact absurd ⟨_, rfl⟩ hm
            · cases ha
            · rename_i h; cases h
            · exact hrec
      | @numAdd a c m n ha hc =>
          simp only [Expr.sz] at hsz
          obtain ⟨v, ⟨f, hf⟩, hv⟩ := ih a _ (by omega) ha
          obtain ⟨M, rfl, h1, h2⟩ := dims_mat hv
          refine ⟨.mat M, returns_of tiny (f := f + 1 + 1 + 1 + 1) ?_, hv⟩
          have e1 := hf (f + 1) (by omega)
          have hcn : collapse tiny (f + 1) (.num c) = .ok (.num c) := by simp only [collapse]
          have hrec : collapseAddRec tiny (f + 1 + 1) (.num c) a = .ok (.mat M) := by
            simp only [collapseAddRec, e1, hcn, py_bind_ok, Val.expr, collapseAdd, hc, if_true]
          by_cases hm : ∃ N, a = .mat N
          · obtain ⟨N, rfl⟩ := hm
            simp only [collapse, Except.ok.injEq, Val.mat.injEq] at e1
            simp only [collapse, collapseAdd, hc, if_true, e1]
          · simp only [collapse, collapseAdd]
            split
            · cases ha
            · exact absurd ⟨_, rfl⟩ hm
            · rename_i h; cases h
            · exact hrec
      | @sub a b m n ha hb =>
          simp only [Expr.sz] at hsz
          obtain ⟨M, M', h1, h2, h3, h4, hf⟩ := addrec a b m n (by omega) (by omega) ha hb
          have hax : matAxpy (-1) M M' = .ok (.mat (Mat.axpy (-1) M M')) := by
            simp [matAxpy, h1, h2, h3, h4]
          refine ⟨.mat (Mat.axpy (-1) M M'), ?_, ?_⟩
          · obtain ⟨f, hf⟩ := hf
            refine returns_of tiny (f := f + 1 + 1 + 1) ?_
            obtain ⟨e1, e2⟩ := hf (f + 1) (by omega)
            have hs : collapseSub tiny (f + 1) (.mat M) (.mat M') = .ok (.mat (Mat.axpy (-1) M M')) := by
              simp only [collapseSub, hax]
            have hc : ∀ N, collapse tiny (f + 1) (.mat N) = .ok (.mat N) := fun N => by
              simp only [collapse]
            generalize f + 1 = G at e1 e2 hs hc ⊢
            simp only [collapse, collapseSub]
            split
            · simp only [hc, Except.ok.injEq, Val.mat.injEq] at e1 e2
              rw [e1, e2]; exact hax
            · simp only [e1, e2, py_bind_ok, Val.expr, hs]
          · simp [Val.dims, Mat.axpy, h1, h2]
      | @mul a b rest d m n hc hdm =>
          subst hdm
          simp only [Expr.sz, chainSz] at hsz
          have hbpos := sz_pos b
          have hapos := sz_pos a
          cases hc with
          | @cons _ _ da ds _ ha hrest hcomb =>
          obtain ⟨va, hf1, hva⟩ := ih a da (by omega) ha
          match rest with
          | [] =>
              have hb : Conv tiny b ds := by
                cases hrest with
                | single h => exact h
                | cons _ h _ => cases h
              simp only [chainSz] at hsz
              obtain ⟨vb, hf2, hvb⟩ := ih b ds (by omega) hb
              rw [← hva, ← hvb] at hcomb
              obtain ⟨v, hv, hvd⟩ := collapseMul_vals hcomb
              refine ⟨v, ?_, hvd⟩
              obtain ⟨f1, hf1⟩ := hf1
              obtain ⟨f2, hf2⟩ := hf2
              refine returns_of tiny (f := max f1 f2 + 1 + 1 + 1 + 1) ?_
              have e1 := hf1 (max f1 f2 + 1 + 1) (by omega)
              have e2 := hf2 (max f1 f2 + 1 + 1) (by omega)
              have e3 : collapse tiny (max f1 f2 + 1 + 1) (pyMul va.expr vb.expr) = .ok v := by
                rw [pyMul_vals hcomb]; simp only [collapse, hv]
              have hcm : ∀ N, collapse tiny (max f1 f2 + 1 + 1) (.mat N) = .ok (.mat N) :=
                fun N => by simp only [collapse]
              have hcn : ∀ N, collapse tiny (max f1 f2 + 1 + 1) (.num N) = .ok (.num N) :=
                fun N => by simp only [collapse]
              have hv := hv tiny 0
              generalize max f1 f2 + 1 + 1 = G at e1 e2 e3 hcm hcn ⊢
              simp only [collapse, collapseMul]
              split
              · simp only [hcm, hcn, Except.ok.injEq] at e1 e2
                subst e1 e2
                simpa [Val.expr, collapseMul] using hv
              · simp only [hcm, hcn, Except.ok.injEq] at e1 e2
                subst e1 e2
                simpa [Val.expr, collapseMul] using hv
              · simp only [hcm, hcn, Except.ok.injEq] at e1 e2
                subst e1 e2
                simpa [Val.expr, collapseMul] using hv
              · simp only [e1, e2, py_bind_ok, e3]
          | c :: rest =>
              have hr : Conv tiny ((c :: rest).foldl pyMul b) ds := by
                cases hrest with
                | cons hb hcs hcc => exact hb.foldl hcs hcc
              have hsr : ((c :: rest).foldl pyMul b).sz ≤ N := by
                have h1 := foldl_pyMul_sz (c :: rest) b
                have h2 := flat_sz b
                simp only [chainSz] at h1 hsz
                omega
              obtain ⟨vb, hf2, hvb⟩ := ih _ ds hsr hr
              rw [← hva, ← hvb] at hcomb
              obtain ⟨v, hv, hvd⟩ := collapseMul_vals hcomb
              refine ⟨v, ?_, hvd⟩
              obtain ⟨f1, hf1⟩ := hf1
              obtain ⟨f2, hf2⟩ := hf2
              refine returns_of tiny (f := max f1 f2 + 1 + 1 + 1) ?_
              have e1 := hf1 (max f1 f2 + 1) (by omega)
              have e2 := hf2 (max f1 f2 + 1) (by omega)
              have hv := hv tiny (max f1 f2)
              generalize max f1 f2 + 1 = G at e1 e2 hv ⊢
              simp only [collapse, collapseMul, reduceMul, e1, e2, py_bind_ok, pyMul_vals hcomb, hv]

/-! ### What is converted is convertible -/

theorem foldl_pyMul_flat {cs : List (Expr K)} : ∀ {ch : List (Expr K)}, builtChain cs →
    cs.foldl pyMul (.mul ch) = .mul (ch ++ cs) := by
  induction cs with
  | nil => intro ch _; simp
  | cons c cs ih =>
      intro ch h
      simp only [builtChain] at h
      have hf : pyMul (.mul ch) c = .mul (ch ++ [c]) := by
        cases c <;> first | rfl | exact absurd trivial h.1.1
      rw [List.foldl_cons, hf, ih h.2, List.append_assoc]
      rfl

/-- `reduce(operator.mul, …)` multiplies leading numbers, otherwise it lists the factors. -/
theorem foldl_pyMul_cases {cs : List (Expr K)} : ∀ {b : Expr K}, ¬ b.IsMul → b.Built →
    builtChain cs →
    (cs.foldl pyMul b).Built ∧
      ((cs.foldl pyMul b).IsNum → ∀ a ∈ b :: cs, a.IsNum) ∧
      ∀ d, Conv tiny (cs.foldl pyMul b) d → ConvChain tiny (b :: cs) d := by
  induction cs with
  | nil =>
      intro b _ hb _
      exact ⟨hb, fun h => by simpa using h, fun d h => .single h⟩
  | cons c cs ih =>
      intro b hbm hb hcs
      simp only [builtChain] at hcs
      have key : pyMul b c = .mul [b, c] → ¬ (b.IsNum ∧ c.IsNum) →
          ((c :: cs).foldl pyMul b).Built ∧
          (((c :: cs).foldl pyMul b).IsNum → ∀ a ∈ b :: c :: cs, a.IsNum) ∧
          ∀ d, Conv tiny ((c :: cs).foldl pyMul b) d → ConvChain tiny (b :: c :: cs) d := by
        intro h1 h2
        rw [List.foldl_cons, h1, foldl_pyMul_flat hcs.2]
        refine ⟨?_, ?_, ?_⟩
        · simp only [Expr.Built, List.cons_append, List.nil_append, builtChain]
          refine ⟨by simp, ?_, ⟨hbm, hb⟩, hcs⟩
          by_cases hbn : b.IsNum
          · exact ⟨c, by simp, fun hcn => h2 ⟨hbn, hcn⟩⟩
          · exact ⟨b, by simp, hbn⟩
        · intro h; exact absurd h (by simp [Expr.IsNum])
        · intro d h
          cases h with
          | mul h _ => exact h
      by_cases hn : b.IsNum ∧ c.IsNum
      · obtain ⟨h1, h2⟩ := hn
        cases b <;> simp only [Expr.IsNum] at h1
        cases c <;> simp only [Expr.IsNum] at h2
        rename_i x y
        obtain ⟨i1, i2, i3⟩ := ih (b := .num (x * y)) (by simp [Expr.IsMul]) (by simp [Expr.Built]) hcs.2
        refine ⟨i1, fun h a ha => ?_, fun d h => ?_⟩
        · have := i2 h
          simp only [List.mem_cons] at ha this
          rcases ha with rfl | rfl | ha
          · exact trivial
          · exact trivial
          · exact this a (.inr ha)
        · have := i3 d h
          cases this with
          | single h => cases h; exact .cons (.num _) (.single (.num _)) rfl
          | cons h1 h2 h3 =>
              cases h1
              simp only [Dims.comb, Option.some.injEq] at h3
              subst h3
              exact .cons (.num _) (.cons (.num _) h2 rfl) rfl
      · refine key ?_ hn
        cases b <;> cases c <;> first
          | rfl
          | exact absurd trivial hbm
          | exact absurd trivial hcs.1.1
          | exact absurd ⟨trivial, trivial⟩ hn

theorem collapseMul_vals_inv {g : Nat} {a b v : Val K}
    (h : collapseMul tiny g [a.expr, b.expr] = .ok v)
    (hn : ¬ (a.dims = none ∧ b.dims = none)) :
    Dims.comb a.dims b.dims = some v.dims ∧ v.dims ≠ none := by
  cases g with
  | zero => simp [collapseMul] at h
  | succ g =>
      cases a <;> cases b <;> simp only [Val.expr, collapseMul] at h
      · simp [Val.dims] at hn
      · cases h; simp [Val.dims, Dims.comb, Mat.scale]
      · cases h; simp [Val.dims, Dims.comb, Mat.scale]
      · simp only [matMul] at h
        split at h
        · rename_i hs
          cases h
          simp [Val.dims, Dims.comb, hs, Mat.mul]
        · cases h

theorem collapseAdd_num_not {c : K} (hc : ¬ tiny c = true) (M : Mat K) : ∀ g v,
    (collapseAdd tiny g (.mat M) (.num c) ≠ .ok v ∧ collapseAdd tiny g (.num c) (.mat M) ≠ .ok v) ∧
    (collapseAddRec tiny g (.mat M) (.num c) ≠ .ok v ∧
      collapseAddRec tiny g (.num c) (.mat M) ≠ .ok v) := by
  intro g
  induction g with
  | zero => intro v; simp [collapseAdd, collapseAddRec]
  | succ g ih =>
      intro v
      obtain ⟨⟨h1, h2⟩, h3, h4⟩ := ih v
      refine ⟨⟨?_, ?_⟩, ?_, ?_⟩
      · simp only [collapseAdd, hc]; exact h3
      · simp only [collapseAdd, hc]; exact h4
      · cases g with
        | zero => simp [collapseAddRec, collapse]
        | succ g => simp only [collapseAddRec, collapse, py_bind_ok, Val.expr]; exact h1
      · cases g with
        | zero => simp [collapseAddRec, collapse]
        | succ g => simp only [collapseAddRec, collapse, py_bind_ok, Val.expr]; exact h2

/-- Sums of values which are converted. -/
def SumOk (tiny : Tiny K) (a b : Val K) (d : Dims) : Prop :=
  (a.dims = d ∧ b.dims = d ∧ d ≠ none) ∨
  (a.dims = d ∧ d ≠ none ∧ ∃ c, b = .num c ∧ tiny c = true) ∨
  (b.dims = d ∧ d ≠ none ∧ ∃ c, a = .num c ∧ tiny c = true)

theorem matAxpy_inv {c : K} {M N : Mat K} {v : Val K} (h : matAxpy c M N = .ok v) :
    (Val.mat M).dims = v.dims ∧ (Val.mat N).dims = v.dims ∧ v.dims ≠ none := by
  simp only [matAxpy] at h
  split at h
  · rename_i hs
    cases h
    simp [Val.dims, Mat.axpy, hs]
  · cases h

theorem collapseAdd_vals_inv {g : Nat} {a b v : Val K}
    (h : collapseAdd tiny g a.expr b.expr = .ok v) (hn : ¬ (a.dims = none ∧ b.dims = none)) :
    SumOk tiny a b v.dims := by
  cases a with
  | num c =>
      cases b with
      | num c' => simp [Val.dims] at hn
      | mat M =>
          by_cases hc : tiny c = true
          · cases g with
            | zero => simp [collapseAdd] at h
            | succ g =>
                simp only [Val.expr, collapseAdd, hc, if_true] at h
                cases h
                exact .inr (.inr ⟨rfl, by simp [Val.dims], c, rfl, hc⟩)
          · exact absurd h (collapseAdd_num_not hc M g v).1.2
  | mat M =>
      cases b with
      | num c =>
          by_cases hc : tiny c = true
          · cases g with
            | zero => simp [collapseAdd] at h
            | succ g =>
                simp only [Val.expr, collapseAdd, hc, if_true] at h
                cases h
                exact .inr (.inl ⟨rfl, by simp [Val.dims], c, rfl, hc⟩)
          · exact absurd h (collapseAdd_num_not hc M g v).1.1
      | mat N =>
          cases g with
          | zero => simp [collapseAdd] at h
          | succ g =>
              simp only [Val.expr, collapseAdd] at h
              exact .inl (matAxpy_inv h)

theorem collapseSub_vals_inv : ∀ {g : Nat} {a b v : Val K},
    collapseSub tiny g a.expr b.expr = .ok v →
    a.dims = v.dims ∧ b.dims = v.dims ∧ v.dims ≠ none := by
  intro g
  induction g with
  | zero => intro a b v h; simp [collapseSub] at h
  | succ g ih =>
      intro a b v h
      cases a <;> cases b <;> simp only [Val.expr, collapseSub] at h
      · cases g <;> simp [collapse] at h
      · cases g with
        | zero => simp [collapse] at h
        | succ g =>
            simp only [collapse, py_bind_ok] at h
            exact ih h
      · cases g with
        | zero => simp [collapse] at h
        | succ g =>
            simp only [collapse, py_bind_ok] at h
            exact ih h
      · exact matAxpy_inv h

theorem collapseTr_not_ok : ∀ g, ∀ (e : Expr K) (v : Val K), (∀ M, e ≠ .mat M) →
    collapseTr tiny g e ≠ .ok v ∧ collapse tiny g (.tr e) ≠ .ok v := by
  intro g
  induction g with
  | zero => intro e v _; simp [collapseTr, collapse]
  | succ g ih =>
      intro e v he
      refine ⟨?_, by simp only [collapse]; exact (ih e v he).1⟩
      intro h
      rw [collapseTr] at h
      · split at h
        · cases h
        · cases h
      · exact he

theorem Conv.isNum {e : Expr K} (h : Conv tiny e none) : e.IsNum := by
  obtain ⟨c, rfl⟩ := h.none_num
  trivial

theorem dims_ne_none {d : Dims} (h : d ≠ none) : ∃ m n, d = some (m, n) := by
  rcases d with _ | ⟨m, n⟩
  · exact absurd rfl h
  · exact ⟨m, n, rfl⟩

theorem conv_of_sumOk {A B : Expr K} {a b : Val K} {d : Dims} {g : Nat}
    (hA : collapse tiny g A = .ok a) (hB : collapse tiny g B = .ok b)
    (ha : Conv tiny A a.dims) (hb : Conv tiny B b.dims) (h : SumOk tiny a b d) :
    Conv tiny (.add A B) d := by
  rcases h with ⟨h1, h2, h3⟩ | ⟨h1, h3, c, rfl, hc⟩ | ⟨h1, h3, c, rfl, hc⟩
  · obtain ⟨m, n, rfl⟩ := dims_ne_none h3
    rw [h1] at ha; rw [h2] at hb
    exact .add ha hb
  · obtain ⟨m, n, rfl⟩ := dims_ne_none h3
    rw [h1] at ha
    obtain ⟨c', rfl⟩ := hb.none_num
    cases g with
    | zero => simp [collapse] at hB
    | succ g =>
        simp only [collapse, Except.ok.injEq, Val.num.injEq] at hB
        subst hB
        exact .addNum ha hc
  · obtain ⟨m, n, rfl⟩ := dims_ne_none h3
    rw [h1] at hb
    obtain ⟨c', rfl⟩ := ha.none_num
    cases g with
    | zero => simp [collapse] at hA
    | succ g =>
        simp only [collapse, Except.ok.injEq, Val.num.injEq] at hA
        subst hA
        exact .numAdd hb hc

theorem pyMul_vals_ne {a b : Val K} (h : ¬ (a.dims = none ∧ b.dims = none)) :
    pyMul a.expr b.expr = .mul [a.expr, b.expr] := by
  cases a <;> cases b <;> first | (simp [Val.dims] at h; done) | rfl

theorem conv_of_collapse (N : Nat) : ∀ g, g ≤ N →
    (∀ (e : Expr K) (v : Val K), e.Built → collapse tiny g e = .ok v → Conv tiny e v.dims) ∧
    (∀ (A B : Expr K) (v : Val K), A.Built → B.Built → collapseAddRec tiny g A B = .ok v →
      Conv tiny (.add A B) v.dims) ∧
    (∀ (A B : Expr K) (v : Val K), A.Built → B.Built → collapseAdd tiny g A B = .ok v →
      Conv tiny (.add A B) v.dims) ∧
    (∀ (A B : Expr K) (v : Val K), A.Built → B.Built → collapseSub tiny g A B = .ok v →
      Conv tiny (.sub A B) v.dims) ∧
    (∀ (c : List (Expr K)) (v : Val K), (Expr.mul c).Built → collapseMul tiny g c = .ok v →
      Conv tiny (.mul c) v.dims) := by
  induction N with
  | zero =>
      intro g hg
      obtain rfl : g = 0 := by omega
      simp [collapse, collapseAddRec, collapseAdd, collapseSub, collapseMul]
  | succ N ih =>
      intro g hg
      by_cases hle : g ≤ N
      · exact ih g hle
      obtain rfl : g = N + 1 := by omega
      obtain ⟨ic, iar, ia, is, im⟩ := ih N le_rfl
      refine ⟨?_, ?_, ?_, ?_, ?_⟩
      · intro e v hb h
        cases e with
        | num c => simp only [collapse] at h; cases h; exact .num c
        | mat M => simp only [collapse] at h; cases h; exact .mat M
        | op r =>
            cases r with
            | error e => simp only [collapse] at h; cases h
            | ok M => simp only [collapse] at h; cases h; exact .op M
        | mul c => exact im c v hb (by simpa only [collapse] using h)
        | add A B =>
            simp only [Expr.Built] at hb
            exact ia A B v hb.1 hb.2 (by simpa only [collapse] using h)
        | sub A B =>
            simp only [Expr.Built] at hb
            exact is A B v hb.1 hb.2 (by simpa only [collapse] using h)
        | tr A =>
            by_cases hm : ∃ M, A = .mat M
            · obtain ⟨M, rfl⟩ := hm
              simp only [collapse] at h
              cases N with
              | zero => simp [collapseTr] at h
              | succ N => simp only [collapseTr] at h; cases h; exact .trmat M
            · exact absurd h (collapseTr_not_ok (N + 1) A v (fun M hM => hm ⟨M, hM⟩)).2
      · intro A B v hA hB h
        simp only [collapseAddRec, py_bind_eq_ok] at h
        obtain ⟨a, h1, b, h2, h3⟩ := h
        refine conv_of_sumOk h1 h2 (ic A a hA h1) (ic B b hB h2) ?_
        split at h3
        · cases h3
        · rename_i hx
          refine collapseAdd_vals_inv h3 ?_
          rintro ⟨x, y⟩
          obtain ⟨c, rfl⟩ := dims_num x
          obtain ⟨c', rfl⟩ := dims_num y
          exact hx c c' rfl rfl
      · intro A B v hA hB h
        simp only [collapseAdd] at h
        split at h
        · split at h
          · rename_i hc; cases h; exact .addNum (.mat _) hc
          · exact iar _ _ v hA hB h
        · split at h
          · rename_i hc; cases h; exact .numAdd (.mat _) hc
          · exact iar _ _ v hA hB h
        · obtain ⟨h1, h2, h3⟩ := matAxpy_inv h
          obtain ⟨m, n, hmn⟩ := dims_ne_none h3
          rw [hmn] at h1 h2 ⊢
          exact .add (h1 ▸ .mat _) (h2 ▸ .mat _)
        · exact iar _ _ v hA hB h
      · intro A B v hA hB h
        simp only [collapseSub] at h
        split at h
        · obtain ⟨h1, h2, h3⟩ := matAxpy_inv h
          obtain ⟨m, n, hmn⟩ := dims_ne_none h3
          rw [hmn] at h1 h2 ⊢
          exact .sub (h1 ▸ .mat _) (h2 ▸ .mat _)
        · simp only [py_bind_eq_ok] at h
          obtain ⟨a, h1, b, h2, h3⟩ := h
          split at h3
          · cases h3
          · obtain ⟨e1, e2, e3⟩ := collapseSub_vals_inv h3
            obtain ⟨m, n, hmn⟩ := dims_ne_none e3
            have ha := ic A a hA h1
            have hb := ic B b hB h2
            rw [e1, hmn] at ha
            rw [e2, hmn] at hb
            rw [hmn]
            exact .sub ha hb
      · intro c v hc h
        simp only [Expr.Built] at hc
        obtain ⟨hl, hex, hch⟩ := hc
        match c, hl with
        | [A, B], _ =>
            simp only [builtChain] at hch
            obtain ⟨⟨_, hA⟩, ⟨_, hB⟩, _⟩ := hch
            have hnn : ∀ a b : Val K, Conv tiny A a.dims → Conv tiny B b.dims →
                ¬ (a.dims = none ∧ b.dims = none) := by
              rintro a b ha hb ⟨x, y⟩
              rw [x] at ha; rw [y] at hb
              obtain ⟨e, he, hne⟩ := hex
              simp only [List.mem_cons, List.not_mem_nil, or_false] at he
              rcases he with rfl | rfl
              · exact hne ha.isNum
              · exact hne hb.isNum
            have fin : ∀ (a b : Val K) (g : Nat), Conv tiny A a.dims → Conv tiny B b.dims →
                collapseMul tiny g [a.expr, b.expr] = .ok v → Conv tiny (.mul [A, B]) v.dims := by
              intro a b g ha hb h
              obtain ⟨h1, h2⟩ := collapseMul_vals_inv h (hnn a b ha hb)
              obtain ⟨m, n, hmn⟩ := dims_ne_none h2
              exact .mul (.cons ha (.single hb) h1) hmn
            have h0 := h
            simp only [collapseMul] at h
            split at h
            · exact fin (.mat _) (.mat _) (N + 1) (.mat _) (.mat _) h0
            · exact fin (.mat _) (.num _) (N + 1) (.mat _) (.num _) h0
            · exact fin (.num _) (.mat _) (N + 1) (.num _) (.mat _) h0
            · simp only [py_bind_eq_ok] at h
              obtain ⟨a, h1, b, h2, h3⟩ := h
              have ha := ic A a hA h1
              have hb := ic B b hB h2
              rw [pyMul_vals_ne (hnn a b ha hb)] at h3
              cases N with
              | zero => simp [collapse] at h3
              | succ N =>
                  simp only [collapse] at h3
                  exact fin a b N ha hb h3
        | A :: B :: C :: rest, _ =>
            simp only [collapseMul, reduceMul, py_bind_ok, py_bind_eq_ok] at h
            obtain ⟨a, h1, b, h2, h3⟩ := h
            have hch' := hch
            simp only [builtChain] at hch
            have hA := ic A a hch.1.2 h1
            obtain ⟨f1, f2, f3⟩ := foldl_pyMul_cases (tiny := tiny) (cs := C :: rest) (b := B)
              hch.2.1.1 hch.2.1.2 (by simp only [builtChain]; exact hch.2.2)
            have hB := ic _ b f1 h2
            have hne : ¬ (a.dims = none ∧ b.dims = none) := by
              rintro ⟨x, y⟩
              rw [x] at hA; rw [y] at hB
              obtain ⟨e, he, hn⟩ := hex
              rcases List.mem_cons.mp he with rfl | he
              · exact hn hA.isNum
              · exact hn (f2 hB.isNum e he)
            rw [pyMul_vals_ne hne] at h3
            obtain ⟨h4, h5⟩ := collapseMul_vals_inv h3 hne
            obtain ⟨m, n, hmn⟩ := dims_ne_none h5
            exact .mul (.cons hA (f3 _ hB) h4) hmn

/-! ### Tiny summands -/

theorem dropTinyAll_append (as bs : List (Expr K)) :
    dropTinyAll tiny (as ++ bs) = dropTinyAll tiny as ++ dropTinyAll tiny bs := by
  induction as with
  | nil => simp [dropTinyAll]
  | cons a as ih => simp [dropTinyAll, ih]

theorem dropTiny_flat (e : Expr K) : (e.dropTiny tiny).flat = dropTinyAll tiny e.flat := by
  cases e <;> simp [Expr.dropTiny, Expr.flat, dropTinyAll]

theorem dropTiny_pyMul (a b : Expr K) :
    (pyMul a b).dropTiny tiny = pyMul (a.dropTiny tiny) (b.dropTiny tiny) := by
  cases a <;> cases b <;>
    simp [pyMul, Expr.dropTiny, Expr.flat, dropTinyAll, dropTinyAll_append]

theorem dropTiny_foldl (bs : List (Expr K)) : ∀ b : Expr K,
    (bs.foldl pyMul b).dropTiny tiny = (dropTinyAll tiny bs).foldl pyMul (b.dropTiny tiny) := by
  induction bs with
  | nil => intro b; simp [dropTinyAll]
  | cons c cs ih => intro b; simp only [List.foldl_cons, dropTinyAll, ih, dropTiny_pyMul]

theorem dropTiny_mat {e : Expr K} {M : Mat K} (h : e.dropTiny tiny = .mat M) : e = .mat M := by
  cases e <;> simp [Expr.dropTiny] at h ⊢
  exact h

theorem dropTiny_num {e : Expr K} {c : K} (h : e.dropTiny tiny = .num c) : e = .num c := by
  cases e <;> simp [Expr.dropTiny] at h ⊢
  exact h

theorem summand_mat {e : Expr K} {M : Mat K} (h : summand tiny e = .mat M) : e = .mat M := by
  cases e with
  | num c => simp only [summand] at h; split at h <;> cases h
  | _ => simpa [summand] using h

theorem summand_num {e : Expr K} {c : K} (h : summand tiny e = .num c) : ∃ c', e = .num c' := by
  cases e <;> simp [summand] at h ⊢

theorem summand_of_not {e : Expr K} (h : ∀ c, e ≠ .num c) : summand tiny e = e := by
  cases e with
  | num c => exact absurd rfl (h c)
  | _ => rfl

/-- The conversion of `e` is that of `e` with zeros for tiny summands. -/
theorem collapse_dropTiny {tz : Tiny K} (h0 : tz 0 = true) (g : Nat) :
    (∀ (e : Expr K) (v : Val K), e.Built → collapse tiny g e = .ok v →
      collapse tz g (e.dropTiny tiny) = .ok v) ∧
    (∀ (A B : Expr K) (v : Val K), A.Built → B.Built → collapseAddRec tiny g A B = .ok v →
      collapseAddRec tz g (summand tiny (A.dropTiny tiny)) (summand tiny (B.dropTiny tiny)) = .ok v) ∧
    (∀ (A B : Expr K) (v : Val K), A.Built → B.Built → collapseAdd tiny g A B = .ok v →
      collapseAdd tz g (summand tiny (A.dropTiny tiny)) (summand tiny (B.dropTiny tiny)) = .ok v) ∧
    (∀ (A B : Expr K) (v : Val K), A.Built → B.Built → collapseSub tiny g A B = .ok v →
      collapseSub tz g (A.dropTiny tiny) (B.dropTiny tiny) = .ok v) ∧
    (∀ (c : List (Expr K)) (v : Val K), (Expr.mul c).Built → collapseMul tiny g c = .ok v →
      collapseMul tz g (dropTinyAll tiny c) = .ok v) := by
  have valMul : ∀ (g : Nat) (a b v : Val K), ¬ (a.dims = none ∧ b.dims = none) →
      collapseMul tiny g [a.expr, b.expr] = .ok v → collapseMul tz g [a.expr, b.expr] = .ok v := by
    intro g a b v hn h
    cases g with
    | zero => simp [collapseMul] at h
    | succ g =>
        cases a <;> cases b <;> simp only [Val.expr, collapseMul] at h ⊢
        · simp [Val.dims] at hn
        all_goals exact h
  induction g with
  | zero => simp [collapse, collapseAddRec, collapseAdd, collapseSub, collapseMul]
  | succ N ih =>
      obtain ⟨ic, iar, ia, is, im⟩ := ih
      have hconv := fun (e : Expr K) (v : Val K) => (conv_of_collapse (tiny := tiny) N N le_rfl).1 e v
      refine ⟨?_, ?_, ?_, ?_, ?_⟩
      · intro e v hb h
        cases e with
        | num c => simpa only [Expr.dropTiny, collapse] using h
        | mat M => simpa only [Expr.dropTiny, collapse] using h
        | op r => simpa only [Expr.dropTiny, collapse] using h
        | mul c =>
            simp only [Expr.dropTiny, collapse] at h ⊢
            exact im c v hb h
        | add A B =>
            simp only [Expr.dropTiny, collapse, Expr.Built] at h hb ⊢
            exact ia A B v hb.1 hb.2 h
        | sub A B =>
            simp only [Expr.dropTiny, collapse, Expr.Built] at h hb ⊢
            exact is A B v hb.1 hb.2 h
        | tr A =>
            by_cases hm : ∃ M, A = .mat M
            · obtain ⟨M, rfl⟩ := hm
              cases N with
              | zero => simp [collapse, collapseTr] at h
              | succ N =>
                  simp only [collapse, collapseTr] at h
                  simp only [Expr.dropTiny, collapse, collapseTr, h]
            · exact absurd h (collapseTr_not_ok (N + 1) A v (fun M hM => hm ⟨M, hM⟩)).2
      · intro A B v hA hB h
        simp only [collapseAddRec, py_bind_eq_ok] at h
        obtain ⟨a, h1, b, h2, h3⟩ := h
        have hne : ¬ (a.dims = none ∧ b.dims = none) := by
          split at h3
          · cases h3
          · rename_i hx
            rintro ⟨x, y⟩
            obtain ⟨c, rfl⟩ := dims_num x
            obtain ⟨c', rfl⟩ := dims_num y
            exact hx c c' rfl rfl
        have h4 : collapseAdd tiny N a.expr b.expr = .ok v := by
          split at h3
          · cases h3
          · exact h3
        have hca := hconv A a hA h1
        have hcb := hconv B b hB h2
        have ra := ic A a hA h1
        have rb := ic B b hB h2
        have notnum : ∀ (E : Expr K) (e : Val K), Conv tiny E e.dims → e.dims ≠ none →
            collapse tz N (E.dropTiny tiny) = .ok e →
            collapse tz N (summand tiny (E.dropTiny tiny)) = .ok e := by
          intro E e hE hd hr
          rw [summand_of_not]
          · exact hr
          · intro c hc
            obtain rfl := dropTiny_num hc
            generalize e.dims = d at hE hd
            cases hE
            exact hd rfl
        rcases collapseAdd_vals_inv h4 hne with ⟨e1, e2, e3⟩ | ⟨e1, e3, c, rfl, hc⟩ | ⟨e1, e3, c, rfl, hc⟩
        · have ra' := notnum A a hca (by rw [e1]; exact e3) ra
          have rb' := notnum B b hcb (by rw [e2]; exact e3) rb
          simp only [collapseAddRec, ra', rb', py_bind_ok]
          obtain ⟨m, n, hmn⟩ := dims_ne_none e3
          rw [hmn] at e1 e2
          obtain ⟨M, rfl, -, -⟩ := dims_mat e1
          obtain ⟨M', rfl, -, -⟩ := dims_mat e2
          cases N with
          | zero => simp [collapseAdd] at h4
          | succ N => simpa only [Val.expr, collapseAdd] using h4
        · have ra' := notnum A a hca (by rw [e1]; exact e3) ra
          obtain ⟨c', rfl⟩ := hcb.none_num
          cases N with
          | zero => simp [collapse] at h2
          | succ N =>
              simp only [collapse, Except.ok.injEq, Val.num.injEq] at h2
              subst h2
              obtain ⟨m, n, hmn⟩ := dims_ne_none e3
              rw [hmn] at e1
              obtain ⟨M, rfl, -, -⟩ := dims_mat e1
              have hz : collapse tz (N + 1) (summand tiny ((Expr.num c').dropTiny tiny)) = .ok (.num 0) := by
                rw [show summand tiny ((Expr.num c').dropTiny tiny) = .num 0 by
                  simp only [Expr.dropTiny, summand, hc, if_true]]
                simp only [collapse]
              simp only [collapseAddRec, ra', hz, py_bind_ok, Val.expr, collapseAdd, h0, if_true]
              simpa only [Val.expr, collapseAdd, hc, if_true] using h4
        · have rb' := notnum B b hcb (by rw [e1]; exact e3) rb
          obtain ⟨c', rfl⟩ := hca.none_num
          cases N with
          | zero => simp [collapse] at h1
          | succ N =>
              simp only [collapse, Except.ok.injEq, Val.num.injEq] at h1
              subst h1
              obtain ⟨m, n, hmn⟩ := dims_ne_none e3
              rw [hmn] at e1
              obtain ⟨M, rfl, -, -⟩ := dims_mat e1
              have hz : collapse tz (N + 1) (summand tiny ((Expr.num c').dropTiny tiny)) = .ok (.num 0) := by
                rw [show summand tiny ((Expr.num c').dropTiny tiny) = .num 0 by
                  simp only [Expr.dropTiny, summand, hc, if_true]]
                simp only [collapse]
              simp only [collapseAddRec, rb', hz, py_bind_ok, Val.expr, collapseAdd, h0, if_true]
              simpa only [Val.expr, collapseAdd, hc, if_true] using h4
      · intro A B v hA hB h
        simp only [collapseAdd] at h
        split at h
        · split at h
          · rename_i hc
            simp only [Expr.dropTiny, summand, hc, if_true, collapseAdd, h0]
            exact h
          · rename_i M c hc
            exact absurd h (collapseAdd_num_not hc M N v).2.1
        · split at h
          · rename_i hc
            simp only [Expr.dropTiny, summand, hc, if_true, collapseAdd, h0]
            exact h
          · rename_i c M hc
            exact absurd h (collapseAdd_num_not hc M N v).2.2
        · simpa only [Expr.dropTiny, summand, collapseAdd] using h
        · rename_i x1 x2 x3
          have hr := iar A B v hA hB h
          simp only [collapseAdd]
          split
          · rename_i M c h1 h2
            obtain ⟨c', hc'⟩ := summand_num h2
            exact absurd (dropTiny_num hc') (x1 M c' (dropTiny_mat (summand_mat h1)))
          · rename_i c M h1 h2
            obtain ⟨c', hc'⟩ := summand_num h1
            exact absurd (dropTiny_mat (summand_mat h2)) (x2 c' M (dropTiny_num hc'))
          · rename_i M M' h1 h2
            exact absurd (dropTiny_mat (summand_mat h2)) (x3 M M' (dropTiny_mat (summand_mat h1)))
          · exact hr
      · intro A B v hA hB h
        simp only [collapseSub] at h
        split at h
        · simpa only [Expr.dropTiny, collapseSub] using h
        · rename_i x1
          simp only [py_bind_eq_ok] at h
          obtain ⟨a, h1, b, h2, h3⟩ := h
          have h4 : collapseSub tiny N a.expr b.expr = .ok v := by
            split at h3
            · cases h3
            · exact h3
          obtain ⟨e1, e2, e3⟩ := collapseSub_vals_inv h4
          obtain ⟨m, n, hmn⟩ := dims_ne_none e3
          rw [hmn] at e1 e2
          obtain ⟨M, rfl, -, -⟩ := dims_mat e1
          obtain ⟨M', rfl, -, -⟩ := dims_mat e2
          simp only [collapseSub]
          split
          · rename_i h5 h6
            exact absurd (dropTiny_mat h6) (x1 _ _ (dropTiny_mat h5))
          · simp only [ic A _ hA h1, ic B _ hB h2, py_bind_ok]
            cases N with
            | zero => simp [collapseSub] at h4
            | succ N => simpa only [Val.expr, collapseSub] using h4
      · intro c v hc h
        simp only [Expr.Built] at hc
        obtain ⟨hl, hex, hch⟩ := hc
        match c, hl with
        | [A, B], _ =>
            simp only [builtChain] at hch
            obtain ⟨⟨_, hA⟩, ⟨_, hB⟩, _⟩ := hch
            simp only [collapseMul] at h
            split at h
            · simpa only [dropTinyAll, Expr.dropTiny, collapseMul] using h
            · simpa only [dropTinyAll, Expr.dropTiny, collapseMul] using h
            · simpa only [dropTinyAll, Expr.dropTiny, collapseMul] using h
            · rename_i x1 x2 x3
              simp only [py_bind_eq_ok] at h
              obtain ⟨a, h1, b, h2, h3⟩ := h
              have hne : ¬ (a.dims = none ∧ b.dims = none) := by
                rintro ⟨x, y⟩
                have ha := hconv A a hA h1
                have hb := hconv B b hB h2
                rw [x] at ha; rw [y] at hb
                obtain ⟨e, he, hne⟩ := hex
                simp only [List.mem_cons, List.not_mem_nil, or_false] at he
                rcases he with rfl | rfl
                · exact hne ha.isNum
                · exact hne hb.isNum
              simp only [dropTinyAll, collapseMul]
              split
              · rename_i h5 h6; exact absurd (dropTiny_mat h6) (x1 _ _ (dropTiny_mat h5))
              · rename_i h5 h6; exact absurd (dropTiny_num h6) (x2 _ _ (dropTiny_mat h5))
              · rename_i h5 h6; exact absurd (dropTiny_mat h6) (x3 _ _ (dropTiny_num h5))
              · simp only [ic A a hA h1, ic B b hB h2, py_bind_ok]
                rw [pyMul_vals_ne hne] at h3 ⊢
                cases N with
                | zero => simp [collapse] at h3
                | succ N =>
                    simp only [collapse] at h3 ⊢
                    exact valMul N a b v hne h3
        | A :: B :: C :: rest, _ =>
            simp only [collapseMul, reduceMul, py_bind_ok, py_bind_eq_ok] at h
            obtain ⟨a, h1, b, h2, h3⟩ := h
            simp only [builtChain] at hch
            have hA := hconv A a hch.1.2 h1
            obtain ⟨f1, f2, -⟩ := foldl_pyMul_cases (tiny := tiny) (cs := C :: rest) (b := B)
              hch.2.1.1 hch.2.1.2 (by simp only [builtChain]; exact hch.2.2)
            have hB := hconv _ b f1 h2
            have hne : ¬ (a.dims = none ∧ b.dims = none) := by
              rintro ⟨x, y⟩
              rw [x] at hA; rw [y] at hB
              obtain ⟨e, he, hn⟩ := hex
              rcases List.mem_cons.mp he with rfl | he
              · exact hn hA.isNum
              · exact hn (f2 hB.isNum e he)
            rw [pyMul_vals_ne hne] at h3
            have r1 := ic A a hch.1.2 h1
            have r2 := ic _ b f1 h2
            rw [dropTiny_foldl] at r2
            simp only [dropTinyAll] at r2 ⊢
            simp only [collapseMul, reduceMul, py_bind_ok, r1, r2]
            rw [pyMul_vals_ne hne]
            exact valMul N a b v hne h3

end Verif.Collapse
