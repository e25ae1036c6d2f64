import Verif.Lemmas.Trace
import Verif.Spec.Trace
import Mathlib.Tactic.Ring
import Mathlib.Tactic.FieldSimp
import Mathlib.Tactic.Linarith
import Mathlib.Tactic.Positivity
/-! Lemmas about trace matrices: the final matrix, the picked cells, two-sided rows. -/
namespace Verif.Trace
open Verif Verif.BlockOps Verif.DofMat Finset
variable {K X : Type}

theorem mem_traceCells {marks tags : List Nat} {t : Nat} :
    t ∈ traceCells marks tags ↔ ∃ tag ∈ tags, marks[t]? = some tag := by
  simp only [traceCells, List.mem_flatMap, List.mem_filter, List.mem_range, decide_eq_true_eq]
  constructor
  · rintro ⟨tag, h, _, h'⟩; exact ⟨tag, h, h'⟩
  · rintro ⟨tag, h, h'⟩
    refine ⟨tag, h, ?_, h'⟩
    by_contra hc
    rw [List.getElem?_eq_none (by omega)] at h'
    exact absurd h' (by simp)

theorem traceCells_nodup {marks : List Nat} : ∀ {tags : List Nat}, tags.Nodup →
    (traceCells marks tags).Nodup
  | [], _ => by simp [traceCells]
  | tag :: tags, h => by
      have ih := traceCells_nodup (marks := marks) (List.nodup_cons.1 h).2
      rw [traceCells, List.flatMap_cons]
      refine List.nodup_append.2 ⟨List.nodup_range.filter _, ih, ?_⟩
      rintro a ha b hb rfl
      obtain ⟨tag', h1, h2⟩ := mem_traceCells.1 hb
      simp only [List.mem_filter, decide_eq_true_eq] at ha
      rw [ha.2, Option.some.injEq] at h2
      exact (List.nodup_cons.1 h).1 (h2 ▸ h1)

section ring
variable [CommRing K]

/-- The matrix built by the loops of the conforming trace. -/
theorem traceRows_ok {V TV : Space K X} (hV : V.WF) (hT : TV.WF) (hL : TV.LinearDofs)
    {choice : Nat → Nat} {pick : Nat → Py Nat} {cells : List Nat}
    (h : ∀ t ∈ cells, t < TV.numCells ∧ pick t = .ok (choice t) ∧ choice t < V.numCells)
    (hdg : TV.isDG = true → cells.Nodup ∧ Discontinuous TV) :
    ∃ M, traceRows V TV pick cells = .ok M ∧ EvaluatesDofs V TV cells (fun t _ => some (choice t)) M := by
  have h0 : InvC V TV choice [] (CS.init V TV) :=
    ⟨by simp [CS.init], rfl, rfl, by simp [CS.init], by simp [CS.init],
      fun u d => by simp [CS.init, actTriples, first, slots]⟩
  have hs : ∃ s, steps (if TV.isDG then dgStep V TV pick else cgStep V TV pick) cells (CS.init V TV) = .ok s ∧
      InvC V TV choice cells s := by
    cases hd : TV.isDG with
    | true =>
      obtain ⟨hn, hdis⟩ := hdg hd
      simp only [if_true]
      refine steps_dg hV hT hL cells [] _ h0 h ?_
      rw [List.nil_append]
      refine List.Pairwise.imp_of_mem ?_ hn
      intro a b ha hb hab
      exact hdis b a (h b hb).1 (h a ha).1 (Ne.symm hab)
    | false =>
      simp only [Bool.false_eq_true, if_false]
      exact steps_cg hV hT hL cells [] _ h0
        (fun d hd => by simp [CS.init, first, slots, hd]) h
  obtain ⟨s, hs, hI⟩ := hs
  refine ⟨Mat.of TV.dim V.dim (fun i j =>
      (((s.rows.zip (s.cols.zip s.vals)).filter (fun p => p.1 = i ∧ p.2.1 = j)).map (fun p => p.2.2)).sum),
    ?_, ?_⟩
  · rw [traceRows, hs, py_bind_ok, csr, if_pos ⟨hI.len1, hI.len2, hI.rlt, hI.clt⟩]
  · have hlt : ∀ p ∈ s.rows.zip (s.cols.zip s.vals), p.2.1 < V.dim := by
      intro p hp
      exact hI.clt _ (List.of_mem_zip (List.of_mem_zip hp).2).1
    refine ⟨rfl, rfl, fun u t l d hf => ?_, fun u d hd => ?_⟩
    · obtain ⟨_, hd⟩ := firstAt_lt hT (fun t ht => (h t ht).1) hf
      rw [Mat.of_act, if_pos hd, csr_act TV.dim V.dim u d hd _ hlt, hI.act,
        first_slots hT (fun t ht => (h t ht).1) hf]
    · rw [Mat.of_act]
      split
      · next hdd =>
        rw [csr_act TV.dim V.dim u d hdd _ hlt, hI.act, first_slots_none hd]
      · rfl

/-! ## Facet spaces -/

theorem dltLoop_ok {m n : Nat} {mapping : List (Nat × Nat)} {tdofs : Nat → List Nat}
    {facetDofs : List Nat} {tdof src : Nat → Nat} : ∀ (cells : List Nat) (M : Nat → Nat → K),
    (∀ t ∈ cells, tdofs t = [tdof t] ∧ tdof t < m ∧ src t < n ∧
      ∃ f, mapping.lookup t = some f ∧ facetDofs[f]? = some (src t)) →
    ∃ M', dltLoop m n mapping tdofs facetDofs cells M = .ok M' ∧
      ∀ i j, M' i j = if (i, j) ∈ cells.map (fun t => (tdof t, src t)) then 1 else M i j
  | [], M, _ => ⟨M, rfl, fun i j => by simp⟩
  | t :: ts, M, h => by
      obtain ⟨h1, h2, h3, f, h4, h5⟩ := h t (by simp)
      obtain ⟨M', h', he⟩ := dltLoop_ok ts (write .insert (tdof t) ([src t].zip [1]) M)
        (fun t ht => h t (by simp [ht]))
      refine ⟨M', ?_, fun i j => ?_⟩
      · rw [dltLoop, h1]
        simp only [dictGet, h4, py_bind_ok, pyGet_eq_ok.2 h5]
        rw [setValues, if_pos (by simp), if_pos ⟨h2, by simpa using h3⟩, py_bind_ok, h']
      · rw [he]
        simp only [List.map_cons, List.mem_cons, Prod.mk.injEq, List.zip_cons_cons, List.zip_nil_right, write]
        by_cases hm : (i, j) ∈ ts.map (fun t => (tdof t, src t))
        · simp [hm]
        · by_cases hij : i = tdof t ∧ j = src t
          · simp [hij]
          · simp [hm, hij]

theorem dltComps_ok {m n : Nat} {mapping : List (Nat × Nat)} {cells : List Nat} :
    ∀ (comps : List ((Nat → List Nat) × List Nat)) (fs : List ((Nat → Nat) × (Nat → Nat))) (M : Nat → Nat → K),
    comps.length = fs.length →
    (∀ p ∈ comps.zip fs, ∀ t ∈ cells, p.1.1 t = [p.2.1 t] ∧ p.2.1 t < m ∧ p.2.2 t < n ∧
      ∃ f, mapping.lookup t = some f ∧ p.1.2[f]? = some (p.2.2 t)) →
    ∃ M', dltComps m n mapping cells comps M = .ok M' ∧
      ∀ i j, M' i j = if (i, j) ∈ fs.flatMap (fun q => cells.map (fun t => (q.1 t, q.2 t))) then 1 else M i j
  | [], [], M, _, _ => ⟨M, rfl, fun i j => by simp⟩
  | (td, fd) :: cs, (a, b) :: fs, M, hl, h => by
      obtain ⟨M1, h1, e1⟩ := dltLoop_ok (m := m) (n := n) (mapping := mapping) (tdofs := td)
        (facetDofs := fd) (tdof := a) (src := b) cells M (fun t ht => h ((td, fd), (a, b)) (by simp) t ht)
      obtain ⟨M2, h2, e2⟩ := dltComps_ok cs fs M1 (by simpa using hl)
        (fun p hp => h p (by simp [hp]))
      refine ⟨M2, by rw [dltComps, h1, py_bind_ok, h2], fun i j => ?_⟩
      rw [e2, e1]
      simp only [List.flatMap_cons, List.mem_append]
      by_cases ha : (i, j) ∈ cells.map (fun t => (a t, b t))
      · rw [if_pos ha, if_pos (Or.inl ha), ite_self]
      · rw [if_neg ha]
        simp only [ha, false_or]

end ring

/-! ## Sides -/

theorem dot_neg_sub {g : Nat} (n x y : Fin g → ℝ) : (x - y) ⬝ᵥ n = -((y - x) ⬝ᵥ n) := by
  rw [← neg_dotProduct, neg_sub]

theorem pickSign_plus {g : Nat} (n tmp mp : Fin g → ℝ) :
    pickSign n tmp mp = .plus ↔ 0 < (tmp - mp) ⬝ᵥ n := by
  have key : (fun i => (tmp - mp) i / norm2 (tmp - mp)) ⬝ᵥ n =
      ((tmp - mp) ⬝ᵥ n) / norm2 (tmp - mp) := by
    simp only [dotProduct, div_eq_mul_inv, Finset.sum_mul]
    refine Finset.sum_congr rfl (fun i _ => by ring)
  unfold pickSign
  simp only [key]
  by_cases h0 : (tmp - mp) ⬝ᵥ (tmp - mp) = 0
  · have hz : tmp - mp = 0 := by
      funext i
      have hnn : ∀ j ∈ Finset.univ, 0 ≤ (tmp - mp) j * (tmp - mp) j := fun j _ => mul_self_nonneg _
      have := (Finset.sum_eq_zero_iff_of_nonneg hnn).1 h0 i (Finset.mem_univ i)
      simpa using mul_self_eq_zero.1 this
    simp [hz]
  · have hpos : 0 < norm2 (tmp - mp) := by
      refine Real.sqrt_pos.2 (lt_of_le_of_ne ?_ (Ne.symm h0))
      exact Finset.sum_nonneg (fun j _ => mul_self_nonneg _)
    by_cases h : 0 < (tmp - mp) ⬝ᵥ n
    · rw [if_pos (div_pos h hpos)]
      exact ⟨fun _ => h, fun _ => rfl⟩
    · rw [if_neg (not_lt.2 (div_nonpos_of_nonpos_of_nonneg (not_lt.1 h) hpos.le))]
      exact ⟨fun h' => absurd h' (by simp), fun h' => absurd h' h⟩

theorem pickSign_of_onPlus {g : Nat} {n tmp mp : Fin g → ℝ} (h : OnPlusSide n tmp mp) :
    pickSign n tmp mp = .minus := by
  cases hs : pickSign n tmp mp with
  | minus => rfl
  | plus =>
    rw [pickSign_plus, dot_neg_sub] at hs
    have := h
    unfold OnPlusSide at this
    linarith

theorem pickSign_of_onMinus {g : Nat} {n tmp mp : Fin g → ℝ} (h : OnMinusSide n tmp mp) :
    pickSign n tmp mp = .plus := by
  rw [pickSign_plus, dot_neg_sub]
  have := h
  unfold OnMinusSide at this
  linarith

/-! ## Two-sided rows -/

section field
variable [Field K]

theorem sweeps_ok {V TV : Space K X} (hV : V.WF) {d : Nat} (hd : d < TV.dim) :
    ∀ (ps : List ((K → K) × Nat)) (mode : Mode) (s : St K), (∀ p ∈ ps, p.2 < V.numCells) →
      s.tv.dof < TV.spaceDim → s.buf.length = V.spaceDim → (mode = .insert → ∀ j, s.mat d j = 0) →
      ∃ s', sweeps V TV d mode ps s = .ok s' ∧ s'.tv = s.tv ∧ s'.visited = s.visited ∧
        s'.buf.length = V.spaceDim ∧
        ∀ i j, s'.mat i j = if i = d then
          s.mat d j + (ps.map (fun p => rowVal V TV p.1 s.tv.cell s.tv.dof p.2 j)).sum else s.mat i j
  | [], mode, s, _, _, hb, _ => ⟨s, rfl, rfl, rfl, hb, fun i j => by split <;> simp_all⟩
  | (f, c) :: ps, mode, s, hc, ht, hb, h0 => by
      obtain ⟨s1, h1, t1, v1, b1, m1⟩ := putRow_ok (TV := TV) hV mode f hd (hc (f, c) (by simp)) ht hb h0
      obtain ⟨s2, h2, t2, v2, b2, m2⟩ := sweeps_ok hV hd ps .add s1 (fun p hp => hc p (by simp [hp]))
        (by rw [t1]; exact ht) b1 (by simp)
      refine ⟨s2, by rw [sweeps, h1, py_bind_ok, h2], by rw [t2, t1], by rw [v2, v1], b2, fun i j => ?_⟩
      rw [m2, m1, t1]
      by_cases hi : i = d
      · simp [hi, add_assoc]
      · simp [hi, m1]

theorem rowVal_smul (V TV : Space K X) (a : K) (t l c j : Nat) :
    rowVal V TV (fun x => a * x) t l c j = a * rowVal V TV id t l c j := by
  simp only [rowVal, Finset.mul_sum]
  refine Finset.sum_congr rfl (fun k _ => ?_)
  split <;> simp

theorem pieces_eq (r : Two) : (pieces r : List (K → K)) =
    match r with
    | .avg => [fun x => 2⁻¹ * x, fun x => 2⁻¹ * x]
    | .jump => [fun x => 1 * x, fun x => (-1) * x] := by
  cases r
  · simp only [pieces, div_eq_inv_mul]
  · simp only [pieces, one_mul, neg_mul]

end field

end Verif.Trace
