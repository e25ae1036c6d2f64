import Verif.Model.AsBlock
import Verif.Lemmas.Convert
import Verif.Lemmas.BlockOps
/-! Lemmas on splitting and merging. -/
namespace Verif.Collapse
open Verif BlockOps

variable {K : Type} [CommRing K]

theorem asBlockVec_pieces : ∀ (xs : List (List K)) (pre : List K),
    asBlockVec (pre ++ xs.flatten) (strides pre.length (xs.map List.length)) = .ok xs
  | [], _ => rfl
  | x :: xs, pre => by
      have ih := asBlockVec_pieces xs (pre ++ x)
      simp only [asBlockVec, List.map_cons, strides, pyMap, List.flatten_cons] at ih ⊢
      rw [gather_middle]
      simp only [List.length_append, List.append_assoc] at ih
      simp [ih]

/-- Consecutive rows and columns. -/
def Mat.block (M : Mat K) (r0 nr c0 nc : Nat) : Mat K :=
  Mat.of nr nc (fun i j => M.e (r0 + i) (c0 + j))

theorem subMat_range (M : Mat K) (r0 nr c0 nc : Nat) (hr : r0 + nr ≤ M.rows) (hc : c0 + nc ≤ M.cols) :
    subMat M (List.range' r0 nr) (List.range' c0 nc) = .ok (Mat.block M r0 nr c0 nc) := by
  unfold subMat
  rw [if_pos]
  · simp only [List.length_range', Mat.block, Except.ok.injEq]
    refine Mat.ext' rfl rfl ?_
    intro i j hi hj
    simp only [Mat.of_rows, Mat.of_cols] at hi hj
    simp [Mat.of_e, hi, hj]
  · constructor <;> simp only [List.all_eq_true, List.mem_range', decide_eq_true_eq] <;>
      rintro x ⟨i, hi, rfl⟩ <;> omega

/-- Column offsets. -/
def offs : Nat → List Nat → List (Nat × Nat)
  | _, [] => []
  | o, n :: ns => (o, n) :: offs (o + n) ns

theorem strides_eq : ∀ (o : Nat) (ns : List Nat),
    strides o ns = (offs o ns).map (fun p => List.range' p.1 p.2)
  | _, [] => rfl
  | o, n :: ns => by simp [strides, offs, strides_eq (o + n) ns]

theorem offs_le : ∀ (o : Nat) (ns : List Nat) (p : Nat × Nat), p ∈ offs o ns →
    p.1 + p.2 ≤ o + ns.sum
  | o, n :: ns, p, h => by
      simp only [offs, List.mem_cons] at h
      rcases h with rfl | h
      · simp
      · have := offs_le (o + n) ns p h
        simp; omega

theorem pyMap_map {α β γ : Type} (f : β → Py γ) (g : α → β) : ∀ (l : List α),
    pyMap f (l.map g) = pyMap (fun a => f (g a)) l
  | [] => rfl
  | a :: l => by simp [pyMap, pyMap_map f g l]

theorem asBlockMat_eq (M : Mat K) (ns : List Nat) (hr : M.rows = ns.sum) (hc : M.cols = ns.sum) :
    asBlockMat M (strides 0 ns) = .ok ((offs 0 ns).map (fun r => (offs 0 ns).map
      (fun c => Mat.block M r.1 r.2 c.1 c.2))) := by
  unfold asBlockMat
  rw [strides_eq, pyMap_map]
  apply pyMap_ok
  intro r hr'
  rw [pyMap_map]
  apply pyMap_ok
  intro c hc'
  apply subMat_range
  · have := offs_le 0 ns r hr'; omega
  · have := offs_le 0 ns c hc'; omega

theorem hcat_blocks (M : Mat K) (r0 nr : Nat) : ∀ (ns : List Nat) (c0 : Nat),
    hcat nr ((offs c0 ns).map (fun c => Mat.block M r0 nr c.1 c.2)) = Mat.block M r0 nr c0 ns.sum
  | [], c0 => by
      refine Mat.ext' rfl rfl ?_
      intro i j _ hj
      simp [offs, hcat, Mat.zero] at hj
  | n :: ns, c0 => by
      have ih := hcat_blocks M r0 nr ns (c0 + n)
      simp only [offs, List.map_cons, hcat, ih]
      refine Mat.ext' (by simp [Mat.block]) (by simp [Mat.block]) ?_
      intro i j hi hj
      simp only [Mat.block, Mat.of_rows, Mat.of_cols] at hi hj
      simp only [Mat.block, Mat.of_e, Mat.of_cols, hi, hj, true_and, if_true, List.sum_cons]
      split
      · rfl
      · rename_i h
        rw [if_pos (by omega)]
        congr 1
        omega

theorem vcat_blocks (M : Mat K) (c0 nc : Nat) : ∀ (ns : List Nat) (r0 : Nat),
    vcat nc ((offs r0 ns).map (fun r => Mat.block M r.1 r.2 c0 nc)) = Mat.block M r0 ns.sum c0 nc
  | [], c0 => by
      refine Mat.ext' rfl rfl ?_
      intro i j hi _
      simp [offs, vcat, Mat.zero] at hi
  | n :: ns, r0 => by
      have ih := vcat_blocks M c0 nc ns (r0 + n)
      simp only [offs, List.map_cons, vcat, ih]
      refine Mat.ext' (by simp [Mat.block]) (by simp [Mat.block]) ?_
      intro i j hi hj
      simp only [Mat.block, Mat.of_rows, Mat.of_cols] at hi hj
      simp only [Mat.block, Mat.of_e, Mat.of_rows, hi, hj, and_true, if_true, List.sum_cons]
      split
      · rfl
      · rename_i h
        rw [if_pos (by omega)]
        congr 1
        omega

theorem block_all (M : Mat K) : Mat.block M 0 M.rows 0 M.cols = M := by
  refine Mat.ext' rfl rfl ?_
  intro i j hi hj
  simp only [Mat.block, Mat.of_rows, Mat.of_cols] at hi hj
  simp [Mat.block, Mat.of_e, hi, hj]

theorem convertRow_mats (tiny : Tiny K) (fuel i r : Nat) : ∀ (row : List (Mat K)) (j : Nat) (cs : List Nat),
    row.length = cs.length → convertRow tiny (fuel + 1) i r j cs (row.map .mat) = .ok row
  | [], j, cs, h => by simp [convertRow]
  | M :: row, j, c :: cs, h => by
      simp only [List.map_cons, convertRow, collapse, py_bind_ok]
      rw [convertRow_mats tiny fuel i r row (j + 1) cs (by simpa using h)]
      simp [blockMatrix]

theorem convertRows_mats (tiny : Tiny K) (fuel : Nat) (cs : List Nat) :
    ∀ (blocks : List (List (Mat K))) (i : Nat) (rs : List Nat), blocks.length = rs.length →
    (∀ (k : Nat) (row : List (Mat K)) (r : Nat), blocks[k]? = some row → rs[k]? = some r →
      (∀ M ∈ row, M.rows = r) ∧ row.map Mat.cols = cs) →
    convertRows tiny (fuel + 1) cs i rs (matBlocks blocks) =
      .ok ((rs.zip blocks).map (fun p => hcat p.1 p.2))
  | [], i, rs, hl, h => by simp [matBlocks, convertRows]
  | row :: rows, i, r :: rs, hl, h => by
      obtain ⟨h1, h2⟩ := h 0 row r (by simp) (by simp)
      have ih := convertRows_mats tiny fuel cs rows (i + 1) rs (by simpa using hl)
        (fun k row' r' a b => h (k + 1) row' r' (by simpa using a) (by simpa using b))
      simp only [matBlocks, List.map_cons, convertRows] at ih ⊢
      rw [convertRow_mats tiny fuel i r row 0 cs (by rw [← h2]; simp)]
      have hb : bmatRow r cs row = .ok (hcat r row) := by
        unfold bmatRow
        rw [if_pos ⟨by simpa using h1, h2⟩]
      simp [hb, ih]

/-- Conversion of a block matrix of matrices. -/
theorem convertMat_mats (tiny : Tiny K) (fuel : Nat) (ns : List Nat) (blocks : List (List (Mat K)))
    (h : MatLayout ns blocks) : convertMat tiny (fuel + 1) ns ns (matBlocks blocks) =
      .ok (vcat ns.sum ((ns.zip blocks).map (fun p => hcat p.1 p.2))) := by
  simp [convertMat, convertRows_mats tiny fuel ns blocks 0 ns h.1 h.2]

theorem block_block (M : Mat K) (r0 nr c0 nc r1 mr c1 mc : Nat) (hr : r1 + mr ≤ nr) (hc : c1 + mc ≤ nc) :
    Mat.block (Mat.block M r0 nr c0 nc) r1 mr c1 mc = Mat.block M (r0 + r1) mr (c0 + c1) mc := by
  refine Mat.ext' rfl rfl ?_
  intro i j hi hj
  simp only [Mat.block, Mat.of_rows, Mat.of_cols] at hi hj
  simp only [Mat.block, Mat.of_e, hi, hj, and_self, if_true]
  rw [if_pos (by omega)]
  congr 1 <;> omega

/-- Cutting a row of blocks into its blocks. -/
theorem cut_hcat (nr : Nat) : ∀ (row : List (Mat K)) (H : Mat K) (r0 c0 : Nat), (∀ M ∈ row, M.rows = nr) →
    (∀ i j, i < nr → j < (row.map Mat.cols).sum → H.e (r0 + i) (c0 + j) = (hcat nr row).e i j) →
    (offs c0 (row.map Mat.cols)).map (fun c => Mat.block H r0 nr c.1 c.2) = row
  | [], _, _, _, _, _ => rfl
  | A :: row, H, r0, c0, hr, h => by
      have hA := hr A (by simp)
      simp only [List.map_cons, offs]
      congr 1
      · refine Mat.ext' (by simp [Mat.block, hA]) (by simp [Mat.block]) ?_
        intro i j hi hj
        simp only [Mat.block, Mat.of_rows, Mat.of_cols] at hi hj
        simp only [Mat.block, Mat.of_e, hi, hj, and_self, if_true]
        rw [h i j hi (by simp; omega), hcat, Mat.of_e, if_pos ⟨hi, by omega⟩, if_pos hj]
      · refine cut_hcat nr row H r0 (c0 + A.cols) (fun M hM => hr M (by simp [hM])) ?_
        intro i j hi hj
        have := h i (A.cols + j) hi (by simp; omega)
        rw [← Nat.add_assoc] at this
        rw [this, hcat, Mat.of_e, if_pos ⟨hi, by rw [hcat_cols]; omega⟩, if_neg (by omega)]
        simp

/-- Cutting a stack of rows. -/
theorem cut_vcat (ns : List Nat) : ∀ (blocks : List (List (Mat K))) (rs : List Nat) (H : Mat K) (r0 : Nat),
    blocks.length = rs.length →
    (∀ (k : Nat) (row : List (Mat K)) (r : Nat), blocks[k]? = some row → rs[k]? = some r →
      (∀ M ∈ row, M.rows = r) ∧ row.map Mat.cols = ns) →
    (∀ i j, i < rs.sum → j < ns.sum → H.e (r0 + i) j =
      (vcat ns.sum ((rs.zip blocks).map (fun p => hcat p.1 p.2))).e i j) →
    (offs r0 rs).map (fun r => (offs 0 ns).map (fun c => Mat.block H r.1 r.2 c.1 c.2)) = blocks
  | [], [], _, _, _, _, _ => rfl
  | row :: rows, r :: rs, H, r0, hl, hb, h => by
      obtain ⟨h1, h2⟩ := hb 0 row r (by simp) (by simp)
      simp only [offs, List.map_cons]
      congr 1
      · have := cut_hcat r row H r0 0 h1 (by
          intro i j hi hj
          rw [Nat.zero_add, h i j (by simp; omega) (by rwa [← h2])]
          simp only [List.zip_cons_cons, List.map_cons, vcat]
          rw [Mat.of_e, if_pos, if_pos]
          · rw [hcat_rows]; exact hi
          · rw [hcat_rows]
            exact ⟨by omega, by rwa [← h2]⟩)
        rw [h2] at this
        exact this
      · refine cut_vcat ns rows rs H (r0 + r) (by simpa using hl)
          (fun k row' r' a b => hb (k + 1) row' r' (by simpa using a) (by simpa using b)) ?_
        intro i j hi hj
        have := h (r + i) j (by simp; omega) hj
        rw [← Nat.add_assoc] at this
        rw [this]
        simp only [List.zip_cons_cons, List.map_cons, vcat]
        have hrows : (vcat ns.sum ((rs.zip rows).map (fun p => hcat p.1 p.2))).rows = rs.sum := by
          rw [vcat_rows]
          congr 1
          rw [List.map_map]
          have : (Mat.rows ∘ fun p : Nat × List (Mat K) => hcat p.1 p.2) = Prod.fst := by
            funext p; simp [hcat_rows]
          rw [this, List.map_fst_zip (by simpa using hl.ge)]
        rw [Mat.of_e, if_pos, if_neg]
        · rw [hcat_rows]; simp
        · rw [hcat_rows]; omega
        · rw [hcat_rows, hrows]; exact ⟨by omega, hj⟩

theorem offs_length : ∀ (o : Nat) (ns : List Nat), (offs o ns).length = ns.length
  | _, [] => rfl
  | o, n :: ns => by simp [offs, offs_length (o + n) ns]

theorem offs_snd : ∀ (o : Nat) (ns : List Nat), (offs o ns).map Prod.snd = ns
  | _, [] => rfl
  | o, n :: ns => by simp [offs, offs_snd (o + n) ns]

theorem blocks_layout (M : Mat K) (ns : List Nat) : MatLayout ns
    ((offs 0 ns).map (fun r => (offs 0 ns).map (fun c => Mat.block M r.1 r.2 c.1 c.2))) := by
  refine ⟨by simp [offs_length], ?_⟩
  intro i row r hi hr
  simp only [List.getElem?_map, Option.map_eq_some_iff] at hi
  obtain ⟨p, hp, rfl⟩ := hi
  have hpr : p.2 = r := by
    have : (offs 0 ns).map Prod.snd = ns := offs_snd 0 ns
    have h2 : ns[i]? = some p.2 := by
      conv_lhs => rw [← this]
      simp [hp]
    rw [hr] at h2
    exact (Option.some.inj h2).symm
  refine ⟨?_, ?_⟩
  · intro M' hM'
    simp only [List.mem_map] at hM'
    obtain ⟨c, _, rfl⟩ := hM'
    simp [Mat.block, hpr]
  · rw [List.map_map]
    have : (Mat.cols ∘ fun c : Nat × Nat => Mat.block M p.1 p.2 c.1 c.2) = Prod.snd := by
      funext c; simp [Mat.block]
    rw [this, offs_snd]

theorem zip_offs_hcat (M : Mat K) (ns : List Nat) : ∀ (rs : List Nat) (r0 : Nat),
    (rs.zip ((offs r0 rs).map (fun r => (offs 0 ns).map (fun c => Mat.block M r.1 r.2 c.1 c.2)))).map
      (fun p => hcat p.1 p.2) = (offs r0 rs).map (fun r => Mat.block M r.1 r.2 0 ns.sum)
  | [], _ => rfl
  | r :: rs, r0 => by
      simp only [offs, List.map_cons, List.zip_cons_cons, zip_offs_hcat M ns rs (r0 + r), hcat_blocks]

end Verif.Collapse
