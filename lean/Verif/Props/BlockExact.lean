import Verif.Props.BlockOps
import Verif.Lemmas.ApplyBc
import Verif.Lemmas.BlockExact
/-!
# C90, C91: selection with repeated indices, and offsets of groups
-/
namespace Verif.BlockOps
open Verif

variable {K : Type}

/-- **C90**.  For any indices, repeated or not, block `i` of `Rᵀ y` is the block of `y` at the last
occurrence of `i`, and zero if `i` does not occur. -/
theorem subSelectT_last [Ring K] (indices dims : List Nat) (ys : List (List K))
    (hr : ∀ i ∈ indices, i < dims.length)
    (hy : ys.map List.length = indices.map (fun i => dims.getD i 0)) :
    ∃ z : List (List K), subSelectT indices dims (pack ys) = .ok (bvec z) ∧ HasDims dims z ∧
      ∀ i n, dims[i]? = some n →
        z[i]? = some ((ApplyBc.lastVal (indices.zip ys) i).getD (List.replicate n 0)) := by
  have hl : ys.length = indices.length := by simpa using congrArg List.length hy
  refine ⟨_, subSelectT_eq indices dims ys hr hl, scat_dims _ _ _ ?_ hy (by simpa using hr), ?_⟩
  · simp [HasDims, Function.comp_def]
  · intro i n hi
    have hlt : i < dims.length := (List.getElem?_eq_some_iff.1 hi).1
    rw [scat_last _ _ _ hl i (by simpa using hlt), List.getElem?_map, hi]
    cases ApplyBc.lastVal (indices.zip ys) i <;> simp

/-- **C90**.  For spaces with at least one dof each, `Rᵀ` is the transpose of `R` exactly when no index is
repeated. -/
theorem subSelect_adjoint_iff [Ring K] [Nontrivial K] (indices dims : List Nat)
    (hr : ∀ i ∈ indices, i < dims.length) (hpos : ∀ n ∈ dims, 0 < n) :
    (∀ xs ys : List (List K), HasDims dims xs → ys.map List.length = indices.map (fun i => dims.getD i 0) →
      ∃ rx z : List (List K), subSelect indices (bvec xs) = .ok (pack rx) ∧
        subSelectT indices dims (pack ys) = .ok (bvec z) ∧ bdot rx ys = bdot xs z) ↔
    indices.Nodup := by
  constructor
  · intro h
    by_contra hno
    obtain ⟨l1, i, l2, he, hi2⟩ := exists_repeated hno
    let Z : Nat → List K := fun k => List.replicate (dims.getD k 0) 0
    have hin : i < dims.length := hr i (by simp [he])
    obtain ⟨n, hn⟩ : ∃ n, dims.getD i 0 = n + 1 := by
      have := hpos dims[i] (List.getElem_mem hin)
      refine ⟨dims[i] - 1, ?_⟩
      rw [List.getD_eq_getElem?_getD, List.getElem?_eq_getElem hin]
      simp; omega
    let e : List K := 1 :: List.replicate n 0
    have hel : e.length = dims.getD i 0 := by rw [hn]; simp [e]
    let zero : List (List K) := dims.map (fun n => List.replicate n 0)
    have hzk : ∀ k, k < dims.length → zero[k]? = some (Z k) := by
      intro k hk
      simp [zero, Z, hk]
    let ys := l1.map Z ++ e :: l2.map Z
    let xs := zero.set i e
    have hxd : HasDims dims xs := by
      simp only [HasDims, xs, List.map_set, zero, List.map_map]
      refine List.ext_getElem? (fun k => ?_)
      rw [List.getElem?_set]
      by_cases hk : i = k
      · subst hk
        simp [hel, hin]
      · cases hd : dims[k]? <;> simp [hk, hd]
    have hyd : ys.map List.length = indices.map (fun i => dims.getD i 0) := by
      rw [he]
      simp [ys, Z, hel, Function.comp_def]
    obtain ⟨rx, z, h1, h2, h3⟩ := h xs ys hxd hyd
    have hxl : xs.length = dims.length := by rw [← hxd]; simp
    rw [subSelect_selects indices xs (by rw [hxl]; exact hr)] at h1
    have hyl : ys.length = indices.length := by simpa using congrArg List.length hyd
    rw [subSelectT_eq indices dims ys hr hyl] at h2
    have pack_inj : ∀ a b : List (List K), pack a = pack b → a = b := by
      intro a b hab
      have := congrArg rearrangeTArg hab
      rw [rearrangeTArg_pack, rearrangeTArg_pack] at this
      exact Except.ok.inj this
    have hvec : ∀ a b : List (List K), bvec a = bvec b → a = b := by
      intro a b hab
      have := congrArg (fun v => match v with | BVal.blk l => flatBlocks l | BVal.vec _ => .ok []) hab
      simp only [bvec, flatBlocks_map_vec] at this
      exact Except.ok.inj this
    have e1 := pack_inj _ _ (Except.ok.inj h1)
    have e2 := hvec _ _ (Except.ok.inj h2)
    have hz : z = zero := by
      rw [← e2, he]
      show scat (l1 ++ i :: l2) (l1.map Z ++ e :: l2.map Z) zero = zero
      rw [scat_append _ _ _ _ _ (by simp), scat]
      refine List.ext_getElem? (fun k => ?_)
      by_cases hk : k < dims.length
      · rw [scat_same l2 _ k (by simp [scat_length, zero]; exact hk), hzk k hk]
        by_cases hk2 : k ∈ l2
        · rw [if_pos hk2]
        · rw [if_neg hk2, List.getElem?_set_ne (by rintro rfl; exact hk2 hi2),
            scat_same l1 _ k (by simpa [zero] using hk), hzk k hk]
          simp
      · rw [List.getElem?_eq_none (by simp [scat_length, zero]; omega),
          List.getElem?_eq_none (by simp [zero]; omega)]
    rw [hz, bdot_zeros, ← e1, he] at h3
    have hb : ∀ l : List Nat, bdot (select xs l) (l.map Z) = 0 := by
      intro l
      have := bdot_zeros (select xs l) (l.map (fun k => dims.getD k 0))
      simpa [Z, Function.comp_def] using this
    have hs : select xs (l1 ++ i :: l2) = select xs l1 ++ e :: select xs l2 := by
      have : xs.getD i [] = e := by
        rw [List.getD_eq_getElem?_getD, List.getElem?_set_self (by simpa [zero] using hin)]
        rfl
      simp only [select, List.map_append, List.map_cons, this]
    rw [hs] at h3
    have : bdot (select xs l1 ++ e :: select xs l2) ys = 0 + (dot e e + 0) := by
      rw [bdot_append _ _ _ _ (by simp [select]), hb, ← hb l2]
      rfl
    rw [this] at h3
    have hee : dot e e = (1 : K) := by
      have := dot_replicate_zero (List.replicate n (0 : K)) n
      simp only [dot] at this
      simp [dot, e]
    rw [hee] at h3
    simp at h3
  · intro hn xs ys hx hy
    obtain ⟨z, h1, h2, _, _, h5⟩ := subSelectT_adjoint_partial (K := K) indices dims ys hn hr hy
    have hxl : xs.length = dims.length := by rw [← hx]; simp
    exact ⟨_, z, subSelect_selects indices xs (by rw [hxl]; exact hr), h1, h5 xs hx⟩

example : (∀ i ∈ [1, 0, 1], i < [2, 1].length) ∧ (∀ n ∈ [2, 1], 0 < n) ∧ ¬ [1, 0, 1].Nodup := by decide

example : subSelectT [1, 0, 1] [2, 1] (pack [[5], [6, 7], [8]] : BVal Int) = .ok (bvec [[6, 7], [8]]) := rfl

/-! ### Offsets -/

/-- **C91**.  For all offsets which the constructor of `RegroupOperator` accepts and all block vectors:
`Rᵀ (R x) = x` exactly when the offsets are not `[1]`. -/
theorem regroup_roundtrip_iff (offsets : List Nat) (xs : List (List K))
    (h : checkOffsets offsets xs.length = .ok ()) :
    (regroup offsets xs >>= regroupT) = .ok xs ↔ offsets ≠ [1] := by
  constructor
  · rintro h2 rfl
    obtain ⟨hlast, _⟩ := checkOffsets_ok h
    match xs, hlast with
    | [v], _ =>
      rw [(regroup_single_fails v).2.2] at h2
      cases h2
    | [], hl => simp at hl
    | _ :: _ :: _, hl => simp at hl
  · exact fun h1 => (regroup_roundtrip_partial offsets xs h h1).2

/-- **C91**.  For all offsets which the constructor of `ReductionOperator` accepts: it can be applied
to a block vector with the sizes of the spaces exactly when the first offset is not 0. -/
theorem reduction_applies_iff (offsets dims : List Nat) (xs : List (List K))
    (h : checkOffsets offsets dims.length = .ok ()) (hx : HasDims dims xs) :
    (∃ y, rearrange (reductionMapping offsets) (dims.map List.range) (bvec xs) = .ok y) ↔
      offsets.head? ≠ some 0 := by
  constructor
  · rintro ⟨y, hy⟩ h0
    match offsets, h0 with
    | 0 :: rest, _ =>
      obtain ⟨e, he⟩ := reduction_zero_offset_fails rest (dims.map List.range) (bvec xs)
      rw [he] at hy
      cases hy
  · intro h0
    exact ⟨_, (rearrange_merges_partial (reductionMapping offsets) dims xs (reduction_isPartition offsets dims.length h h0).1 hx).1⟩

/-- **C91**.  Offsets are accepted exactly when they increase strictly and end with the number of spaces. -/
theorem offsets_accepted_iff (offsets : List Nat) (n : Nat) :
    checkOffsets offsets n = .ok () ↔ offsets.getLast? = some n ∧ offsets.Pairwise (· < ·) := by
  have hinc : ∀ l : List Nat, l ≠ [] → (isIncreasing l = true ↔ l.Pairwise (· < ·)) := by
    intro l
    induction l with
    | nil => simp
    | cons a l ih =>
      intro _
      match l, ih with
      | [], _ => simp [isIncreasing]
      | b :: r, ih =>
        rw [isIncreasing, Bool.and_eq_true, decide_eq_true_iff, ih (by simp), List.pairwise_cons (a := a)]
        constructor
        · rintro ⟨h1, h2⟩
          refine ⟨fun c hc => ?_, h2⟩
          rcases List.mem_cons.1 hc with rfl | hc
          · exact h1
          · exact Nat.lt_trans h1 ((List.pairwise_cons.1 h2).1 c hc)
        · rintro ⟨h1, h2⟩
          exact ⟨h1 b (by simp), h2⟩
  constructor
  · intro h
    obtain ⟨h1, h2⟩ := checkOffsets_ok h
    refine ⟨h1, (hinc offsets ?_).1 h2⟩
    rintro rfl
    simp at h1
  · rintro ⟨h1, h2⟩
    have hne : offsets ≠ [] := by rintro rfl; simp at h1
    simp [checkOffsets, h1, (hinc offsets hne).2 h2]

/-- Offsets `[2, 3]` for three spaces: all three theorems apply. -/
example : checkOffsets [2, 3] 3 = .ok () ∧ (regroup [2, 3] [[1], [2, 3], [(4 : Int)]] >>= regroupT) = .ok [[1], [2, 3], [4]] ∧
    ∃ y, rearrange (reductionMapping [2, 3]) ([1, 2, 1].map List.range) (bvec [[1], [2, 3], [(4 : Int)]]) = .ok y :=
  have h : checkOffsets [2, 3] 3 = .ok () := (offsets_accepted_iff _ _).2 (by decide)
  ⟨h, (regroup_roundtrip_iff _ _ h).2 (by decide), (reduction_applies_iff _ [1, 2, 1] [[1], [2, 3], [4]] h (by unfold HasDims; decide)).2 (by decide)⟩

/-- Offsets `[0, 2]` are accepted but cannot be used. -/
example : checkOffsets [0, 2] 2 = .ok () ∧
    ¬ ∃ y, rearrange (reductionMapping [0, 2]) ([1, 1].map List.range) (bvec [[1], [(2 : Int)]]) = .ok y :=
  have h : checkOffsets [0, 2] 2 = .ok () := (offsets_accepted_iff _ _).2 (by decide)
  ⟨h, fun hy => (reduction_applies_iff _ [1, 1] [[1], [2]] h (by unfold HasDims; decide)).1 hy rfl⟩

end Verif.BlockOps
