import Verif.Lemmas.Newton2
import Verif.Lemmas.CollapseIter5
/-! # One pass of Newton's method -/
namespace Verif.Newton
open Verif Ufl BlockOps BlockForm Collapse IIFunction Workflow Reduced ListUtils Program Jacobian Finset

variable {S : Type} [DecidableEq S]

theorem matrix_ok {asm : Assemble S} {tiny : Tiny ℝ} {g : Nat} {ns : List Nat} {dF : List (List (Entry S))} {h : Heap ℝ}
    {A : Mat ℝ} {n : Nat} (hn : 0 < n) (h1 : dF.length = n) (h2 : ∀ r ∈ dF, r.length = n)
    (hA : matrix asm tiny g ns dF h = .ok A) :
    ∃ B, List.Forall₂ (List.Forall₂ (BlockOf (asm h))) dF B ∧ convertMat tiny g ns ns B = .ok A := by
  rw [matrix] at hA
  obtain ⟨x, hx, hA⟩ := py_bind_eq_ok.1 hA
  obtain ⟨ts, hts, rfl⟩ := (nested2_iff hn h1 h2).1 hx
  obtain ⟨B, hB, hA⟩ := py_bind_eq_ok.1 hA
  refine ⟨B, ?_, hA⟩
  simp only [nested2, blockMat] at hB
  rw [pyMap_eq_ok, forall₂_map_left] at hB
  refine forall₂_trans ?_ hts hB
  intro row tr ar h1 h2
  simp only [toRow, nested1] at h2
  rw [pyMap_eq_ok, forall₂_map_left] at h2
  exact forall₂_trans (fun e t x h1 h2 => ⟨t, h1, h2⟩) h1 h2

theorem vector_ok {asm : Assemble S} {F : List (List (Integral S))} {h : Heap ℝ} {b : List ℝ} (hF : F ≠ [])
    (hb : vector asm F h = .ok b) :
    ∃ bs, List.Forall₂ (fun f x => EntriesOf (asm h) (.form f) x) F bs ∧ b = convertVec bs := by
  rw [vector] at hb
  obtain ⟨x, hx, hb⟩ := py_bind_eq_ok.1 hb
  obtain ⟨ts, hts, rfl⟩ := (nested1_iff (by simpa using hF)).1 hx
  obtain ⟨bs, hbs, hb⟩ := py_bind_eq_ok.1 hb
  injection hb with hb
  refine ⟨bs, ?_, hb.symm⟩
  simp only [nested1, blockVec] at hbs
  rw [pyMap_eq_ok, forall₂_map_left] at hbs
  rw [forall₂_map_left] at hts
  exact forall₂_trans (fun e t x h1 h2 => ⟨t, h1, h2⟩) hts hbs

variable {W : Type} [NormedAddCommGroup W] [NormedSpace ℝ W]

theorem field_eq (φ : Nat → Nat → W) (h : Heap ℝ) (a : Nat) : field φ h a = lin (φ a) (h.vec a) := rfl

theorem forall₂_at {α β : Type} {R : α → β → Prop} {l : List α} {m : List β} (h : List.Forall₂ R l m) {i : Nat} {y : β}
    (hi : m[i]? = some y) : ∃ x, l[i]? = some x ∧ R x y := by
  induction h generalizing i with
  | nil => simp at hi
  | cons h1 _ ih =>
      cases i with
      | zero => simp at hi; subst hi; exact ⟨_, rfl, h1⟩
      | succ i => simpa using ih (i := i) (by simpa using hi)

theorem map_at {α β : Type} {g : α → β} {l : List α} {ns : List β} (h : l.map g = ns) {i : Nat} {n : β}
    (hn : ns[i]? = some n) : ∃ x, l[i]? = some x ∧ g x = n := by
  subst h
  rw [List.getElem?_map] at hn
  obtain ⟨x, h1, h2⟩ := Option.map_eq_some_iff.1 hn
  exact ⟨x, h1, h2⟩

/-- The assembled system: a vector of coefficients solves it exactly if its function solves the linearised problem. -/
theorem system_iff {K : Kinds S} {fresh : Nat → Nat → Nat → Nat} {F : List (List (Integral S))} {x : List (Term S)}
    {up : List Fn} {next : Nat} (hs : Setup K fresh F x up next) {dF : List (List (Entry S))}
    (hJ : blockJacobian K fresh F x = .ok dF) {M : World S W} {φ : Nat → Nat → W} {asm : Assemble S} {ns : List Nat}
    (hasm : Assembles M K φ asm F dF up ns) {h : Heap ℝ} (hsz : (vectors h up).map List.length = ns)
    (hsm : SmoothAt M K F up (field φ h)) {tiny : Tiny ℝ} {g : Nat} {A : Mat ℝ} {b : List ℝ}
    (hA : matrix asm tiny g ns dF h = .ok A) (hb : vector asm F h = .ok b) :
    A.rows = ns.sum ∧ A.cols = ns.sum ∧ b.length = ns.sum ∧
      ∀ (ys : List (List ℝ)), ys.map List.length = ns → ∀ δ : Nat → W,
        (∀ a, (∀ y ∈ up, y.addr ≠ a) → δ a = 0) →
        (∀ (j : Nat) y z, up[j]? = some y → ys[j]? = some z → δ y.addr = lin (φ y.addr) z) →
        ((∀ k, k < A.rows → A.act (fnOf ys.flatten) k = fnOf b k) ↔
          Tests F up ns φ (fun f v => HasDerivAt
            (fun ε : ℝ => residual M K f v (fun a => field φ h a + ε • δ a)) (residual M K f v (field φ h)) 0)) := by
  have hlen : ns.length = x.length := by rw [← hsz]; simp [vectors, hs.functions]
  have hn : 0 < x.length := List.length_pos_iff.2 hs.nonempty
  obtain ⟨d1, d2⟩ := jacobian_size hJ
  obtain ⟨B, hB, hcv⟩ := matrix_ok hn (d1.trans hs.residuals) d2 hA
  obtain ⟨bs, hbs, rfl⟩ := vector_ok (by intro h; have := hs.residuals; rw [h] at this; simp at this; omega) hb
  have hat : ∀ {i : Nat}, i < x.length → ∃ f u n, F[i]? = some f ∧ up[i]? = some u ∧ ns[i]? = some n := by
    intro i hi
    have h1 : i < F.length := by rw [hs.residuals]; exact hi
    have h2 : i < up.length := by rw [hs.functions]; exact hi
    have h3 : i < ns.length := by omega
    exact ⟨F[i], up[i], ns[i], List.getElem?_eq_getElem h1, List.getElem?_eq_getElem h2, List.getElem?_eq_getElem h3⟩
  -- blocks of the matrix
  have hblock : ∀ {i j : Nat} {row e n m u w}, B[i]? = some row → row[j]? = some e → ns[i]? = some n → ns[j]? = some m →
      up[i]? = some u → up[j]? = some w → ∃ drow J, dF[i]? = some drow ∧ drow[j]? = some J ∧
        BlockOk i j n m e ∧ ∀ (y : Nat → ℝ) (d : Nat), d < n →
          e.act y d = ∑ k ∈ range m, M.entry (M.env K (field φ h) (φ u.addr d) (φ w.addr k)) J * y k := by
    intro i j row e n m u w hrow he hni hmj hu hw
    obtain ⟨drow, h1, h2⟩ := forall₂_at hB hrow
    obtain ⟨J, h3, t, h4, h5⟩ := forall₂_at h2 he
    refine ⟨drow, J, h1, h3, ?_⟩
    cases J with
    | num c =>
        have hc : c = 0 := jacobian_number hJ (List.mem_of_getElem? h1) (List.mem_of_getElem? h3)
        subst hc
        rw [hasm.number] at h4
        injection h4 with h4
        subst h4
        simp only [toBlock] at h5
        injection h5 with h5
        subst h5
        refine ⟨Or.inr (Or.inl (by simp)), fun y d _ => ?_⟩
        simp [Expr.act, World.entry]
    | form J =>
        obtain ⟨A', rfl, a1, a2, a3⟩ := hasm.mat h i j drow J u w n m t h1 h3 hu hw hni hmj h4
        simp only [toBlock] at h5
        injection h5 with h5
        subst h5
        refine ⟨Or.inl (by rw [← a1, ← a2]; exact .mat A'), fun y d hd => ?_⟩
        simp only [Expr.act, Mat.act, a2]
        refine Finset.sum_congr rfl (fun k hk => ?_)
        rw [a3 d k hd (Finset.mem_range.1 hk)]
        rfl
  have hBlen : B.length = ns.length := by rw [← hB.length_eq, d1, hs.residuals, hlen]
  have hrowlen : ∀ {i : Nat} {row}, B[i]? = some row → row.length = ns.length := by
    intro i row hrow
    obtain ⟨drow, h1, h2⟩ := forall₂_at hB hrow
    rw [← h2.length_eq, d2 drow (List.mem_of_getElem? h1), hlen]
  have hconf : Conforming ns ns B := by
    refine ⟨hBlen, fun i row r hrow hr => ⟨hrowlen hrow, fun j e c he hc => ?_⟩⟩
    have hi : i < x.length := by have := (List.getElem?_eq_some_iff.1 hr).1; omega
    have hj : j < x.length := by have := (List.getElem?_eq_some_iff.1 hc).1; omega
    obtain ⟨_, u, n, _, hu, hn'⟩ := hat hi
    obtain ⟨_, w, m, _, hw, hm'⟩ := hat hj
    obtain ⟨_, _, _, _, hok, _⟩ := hblock hrow he hr hc hu hw
    exact hok
  have hbat : ∀ {i : Nat} {bk n u}, bs[i]? = some bk → ns[i]? = some n → up[i]? = some u → ∃ f, F[i]? = some f ∧
      bk.length = n ∧ ∀ d, d < n → fnOf bk d = residual M K f (φ u.addr d) (field φ h) := by
    intro i bk n u hbk hni hu
    obtain ⟨f, h1, t, h2, h3⟩ := forall₂_at hbs hbk
    obtain ⟨c, rfl, hc⟩ := hasm.vec h i f u n t h1 hu hni h2
    simp only [toEntries] at h3
    injection h3 with h3
    subst h3
    refine ⟨f, h1, by simp, fun d hd => ?_⟩
    rw [residual, ← hc d hd]
    simp [fnOf, hd]
  have hbsz : bs.map List.length = ns := by
    have hl : bs.length = ns.length := by rw [← hbs.length_eq, hs.residuals, hlen]
    refine List.ext_getElem (by simpa using hl) (fun i h1 h2 => ?_)
    obtain ⟨_, u, n, _, hu, hn'⟩ := hat (i := i) (by omega)
    obtain ⟨f, _, h3, _⟩ := hbat (List.getElem?_eq_getElem (by omega : i < bs.length)) hn' hu
    rw [List.getElem_map, h3]
    rw [List.getElem?_eq_getElem h2] at hn'
    injection hn' with hn'
    exact hn'.symm
  obtain ⟨M', m1, m2, ⟨fu, hfu⟩, hact⟩ := convert_acts_partial tiny ns ns B hconf
  have hMA : M' = A := by
    have e1 := CollapseIter.convertMat_fuel tiny ns ns B (Nat.le_max_left g fu) A hcv
    rw [hfu _ (Nat.le_max_right g fu)] at e1
    injection e1
  subst hMA
  refine ⟨m1, m2, by rw [convertVec, List.length_flatten, hbsz], ?_⟩
  intro ys hys δ hδ hval
  rw [converted_iff hconf m1 hact hbsz hys]
  -- value of a row
  have hrow : ∀ {i : Nat} {f u n}, F[i]? = some f → up[i]? = some u → ns[i]? = some n → ∀ d, d < n →
      ∃ Arow bk, B[i]? = some Arow ∧ bs[i]? = some bk ∧ fnOf bk d = residual M K f (φ u.addr d) (field φ h) ∧
        bk.length = n ∧
        HasDerivAt (fun ε : ℝ => residual M K f (φ u.addr d) (fun a => field φ h a + ε • δ a)) (rowAct Arow ys d) 0 := by
    intro i f u n hf hu hni d hd
    have hi : i < ns.length := (List.getElem?_eq_some_iff.1 hni).1
    have hiB : i < B.length := by omega
    have hib : i < bs.length := by
      have := congrArg List.length hbsz
      simp at this
      omega
    obtain ⟨f', hf', hl', hval'⟩ := hbat (List.getElem?_eq_getElem hib) hni hu
    rw [hf] at hf'
    injection hf' with hf'
    subst hf'
    refine ⟨B[i], bs[i], List.getElem?_eq_getElem hiB, List.getElem?_eq_getElem hib, hval' d hd, hl', ?_⟩
    obtain ⟨D, hD1, hD2⟩ := jacobian_blocks hs hJ M (field φ h) hsm hf (φ u.addr d)
    have hder := hD1 δ hδ 0
    have hsum : rowAct B[i] ys d = D δ := by
      conv_rhs => rw [← sum_single up hs.unshared δ hδ, map_list_sum]
      rw [rowAct]
      congr 1
      have hyl : ys.length = ns.length := by rw [← hys]; simp
      have hrl := hrowlen (List.getElem?_eq_getElem hiB)
      have hul : up.length = ns.length := by rw [hs.functions, hlen]
      refine List.ext_getElem (by simp; omega) (fun j h1 h2 => ?_)
      have hj : j < ns.length := by simp at h2; omega
      have hju : j < up.length := by omega
      have hjy : j < ys.length := by omega
      have hjr : j < (B[i]).length := by omega
      simp only [List.getElem_map, List.getElem_zip]
      obtain ⟨drow, J, e1, e2, _, e3⟩ := hblock (List.getElem?_eq_getElem hiB) (List.getElem?_eq_getElem hjr) hni
        (List.getElem?_eq_getElem hj) hu (List.getElem?_eq_getElem hju)
      obtain ⟨drow', J', e1', e2', e4⟩ := hD2 j up[j] (List.getElem?_eq_getElem hju)
      rw [e1] at e1'
      injection e1' with e1'
      subst e1'
      rw [e2] at e2'
      injection e2' with e2'
      subst e2'
      rw [e3 _ d hd, hval j up[j] ys[j] (List.getElem?_eq_getElem hju) (List.getElem?_eq_getElem hjy), lin]
      have hylen : (ys[j]).length = ns[j] := by
        have : (ys.map List.length)[j]? = ns[j]? := by rw [hys]
        simpa [hjy, hj] using this
      rw [hylen]
      have hs1 : (Pi.single (up[j]).addr (∑ k ∈ range ns[j], fnOf ys[j] k • φ (up[j]).addr k) : Nat → W) =
          ∑ k ∈ range ns[j], fnOf ys[j] k • (Pi.single (up[j]).addr (φ (up[j]).addr k) : Nat → W) := by
        funext a
        rw [Finset.sum_apply]
        by_cases ha : a = (up[j]).addr
        · subst ha; simp
        · simp [ha]
      rw [hs1, map_sum]
      refine Finset.sum_congr rfl (fun k _ => ?_)
      rw [map_smul, ← e4, smul_eq_mul, mul_comm]
    rw [hsum]
    exact hder
  constructor
  · intro heq i f u n hf hu hni d hd
    obtain ⟨Arow, bk, r1, r2, r3, _, r4⟩ := hrow hf hu hni d hd
    have := entry_act hni r1 hd ys
    rw [heq, ApplyBc.entry, r2] at this
    simp only [Option.bind_some] at this
    have h5 : fnOf bk d = rowAct Arow ys d := by
      rw [fnOf, List.getD_eq_getElem?_getD, this]; rfl
    rw [← r3, h5]
    exact r4
  · intro hT
    have hl1 := Workflow.blockAct_length ns B hBlen ys
    refine List.ext_getElem ?_ (fun i h1 h2 => ?_)
    · have e1 := congrArg List.length hl1
      have e2 := congrArg List.length hbsz
      simp only [List.length_map] at e1 e2
      omega
    · have hi : i < ns.length := by
        have e2 := congrArg List.length hbsz
        simp only [List.length_map] at e2
        omega
      obtain ⟨f, u, n, hf, hu, hni⟩ := hat (i := i) (by omega)
      obtain ⟨bl, hb1⟩ : ∃ bl, (blockAct ns B ys)[i]? = some bl := ⟨_, List.getElem?_eq_getElem h1⟩
      have hbl : ((blockAct ns B ys)[i]).length = n := by
        have : ((blockAct ns B ys).map List.length)[i]? = some n := by rw [hl1, hni]
        simpa [h1] using this
      obtain ⟨_, _, hbk, _⟩ := hbat (List.getElem?_eq_getElem h2) hni hu
      refine List.ext_getElem (by rw [hbl, hbk]) (fun d d1 d2 => ?_)
      have hd : d < n := by omega
      obtain ⟨Arow, bk, r1, r2, r3, _, r4⟩ := hrow hf hu hni d hd
      have hu' := r4.unique (hT i f u n hf hu hni d hd)
      have := entry_act hni r1 hd ys
      rw [ApplyBc.entry, List.getElem?_eq_getElem h1] at this
      simp only [Option.bind_some, List.getElem?_eq_getElem d1, Option.some.injEq] at this
      rw [this, hu', ← r3]
      rw [List.getElem?_eq_getElem h2] at r2
      injection r2 with r2
      subst r2
      simp [fnOf, d2]

end Verif.Newton
