import Verif.Lemmas.BlockOps
/-!
# C20 - C23: block operators
-/
namespace Verif.BlockOps

variable {K : Type}

/-! ### C20 SubSelectOperator -/

/-- **C20**, extraction: `R*x` are the selected blocks in the given order (a bare
vector for a single index).  Indices may repeat. -/
theorem subSelect_selects (indices : List Nat) (xs : List (List K))
    (hr : ∀ i ∈ indices, i < xs.length) :
    subSelect indices (bvec xs) = .ok (pack (select xs indices)) := by
  have hm : pyMap (pyGet (xs.map BVal.vec)) indices = .ok ((select xs indices).map BVal.vec) := by
    have h := pyMap_pyGet_select xs indices hr
    rw [pyMap_eq_ok] at h ⊢
    rw [List.forall₂_map_right_iff]
    refine h.imp (fun i y hy => ?_)
    rw [pyGet_eq_ok] at hy ⊢
    simp [hy]
  match indices, hr, hm with
  | [], _, hm => simp [subSelect, bvec, pack, select, pyMap]
  | [i], hr, _ =>
      have hi : i < xs.length := hr i (by simp)
      simp [subSelect, bvec, pack, select, pyGet_ok, hi]
  | i :: j :: r, _, hm =>
      simp only [subSelect, bvec, hm, py_bind_ok]
      rfl

example : subSelect [2, 0] (bvec [[1], [2, 3], [4]] : BVal Int) = .ok (pack [[4], [1]]) :=
  subSelect_selects [2, 0] [[1], [2, 3], [4]] (by simp)

/-- **C20**, transpose (distinct indices): `Rᵀ y` exists, has the block sizes of the
spaces, is zero outside of the selected blocks, `R Rᵀ y = y` and
`⟨R x, y⟩ = ⟨x, Rᵀ y⟩` for all `x`. -/
theorem subSelectT_adjoint_partial [Ring K] (indices dims : List Nat) (ys : List (List K))
    (hn : indices.Nodup) (hr : ∀ i ∈ indices, i < dims.length)
    (hy : ys.map List.length = indices.map (fun i => dims.getD i 0)) :
    ∃ z : List (List K), subSelectT indices dims (pack ys) = .ok (bvec z) ∧ HasDims dims z ∧
      (∀ i (h : i < dims.length), i ∉ indices → z[i]? = some (List.replicate dims[i] 0)) ∧
      subSelect indices (bvec z) = .ok (pack ys) ∧
      ∀ xs, HasDims dims xs → bdot (select xs indices) ys = bdot xs z := by
  have hl : ys.length = indices.length := by simpa using congrArg List.length hy
  let zero := dims.map (fun n => List.replicate n (0 : K))
  have hz0 : HasDims dims zero := by
    simp [HasDims, zero, Function.comp_def]
  have hzl : zero.length = dims.length := by simp [zero]
  have hr' : ∀ i ∈ indices, i < zero.length := fun i hi => by rw [hzl]; exact hr i hi
  have harg : subSelectArg indices (pack ys) = .ok (ys.map BVal.vec) := by
    match ys, hl with
    | [], hl => simp [pack, subSelectArg, ← hl]
    | [v], hl => simp [pack, subSelectArg, ← hl]
    | a :: b :: r, hl => simp [pack, subSelectArg, ← hl]
  have hsc := scatterLoop_eq ys indices 0 zero (by omega) hr'
  refine ⟨scat indices ys zero, ?_, scat_dims _ _ _ hz0 hy hr', ?_, ?_, ?_⟩
  · have hmm : dims.map (fun n => BVal.vec (List.replicate n (0 : K))) = zero.map BVal.vec := by
      simp [zero]
    simp only [subSelectT, harg, py_bind_ok, hmm, hsc, List.drop_zero]
    rfl
  · intro i h hi
    rw [scat_not_mem _ _ _ _ hi]
    simp [zero, h]
  · rw [subSelect_selects, scat_select _ _ _ hn hl hr']
    intro i hi
    rw [scat_length]
    exact hr' i hi
  · intro xs hx
    have hxl : xs.length = zero.length := by
      rw [hzl, ← hx]; simp
    rw [bdot_scat xs indices ys zero hn hl hr' hxl, bdot_zeros, zero_add]
    intro i hi
    have : i < dims.length := hr i hi
    simp [zero, this, dot_replicate_zero]

example : ∃ z : List (List Int), subSelectT [2, 0] [1, 2, 1] (pack [[7], [8]]) = .ok (bvec z) ∧
    subSelect [2, 0] (bvec z) = .ok (pack [[7], [8]]) := by
  obtain ⟨z, h1, _, _, h2, _⟩ := subSelectT_adjoint_partial (K := Int) [2, 0] [1, 2, 1] [[7], [8]]
    (by simp) (by simp) (by simp)
  exact ⟨z, h1, h2⟩

/-- **C20** fails for repeated indices: the later write wins, so `transpmult` is not
the transpose of `matvec` (`⟨R x, y⟩ = 3` but `⟨x, Rᵀ y⟩ = 2`). -/
theorem subSelectT_repeated_not_adjoint :
    subSelectT [0, 0] [1] (pack [[1], [2]] : BVal Int) = .ok (bvec [[2]]) ∧
      subSelect [0, 0] (bvec [[1]] : BVal Int) = .ok (pack [[1], [1]]) ∧
      bdot [[1], [1]] [[1], [2]] ≠ bdot [[1]] ([[2]] : List (List Int)) := by
  refine ⟨rfl, rfl, by decide⟩

/-! ### C21 RearangeOperator, ReductionOperator -/

theorem IsPartition.lt {mapping : List (List Nat)} {n : Nat} (h : IsPartition mapping n) :
    ∀ g ∈ mapping, ∀ i ∈ g, i < n := fun g hg i hi =>
  List.mem_range.1 (h.1.mem_iff.1 (List.mem_flatten.2 ⟨g, hg, hi⟩))

/-- **C21**, merging: group `g` of `R*x` is the concatenation of the blocks listed in
`g`; a monolithic vector is handled like the block vector. Dofs of each space are
numbered `0..dim-1`. -/
theorem rearrange_merges_partial (mapping : List (List Nat)) (dims : List Nat) (xs : List (List K))
    (hm : IsPartition mapping dims.length) (hx : HasDims dims xs) :
    rearrange mapping (dims.map List.range) (bvec xs) =
        .ok (pack (mapping.map (fun g => (select xs g).flatten))) ∧
      rearrange mapping (dims.map List.range) (.vec xs.flatten) =
        .ok (pack (mapping.map (fun g => (select xs g).flatten))) := by
  have hxl : xs.length = dims.length := by rw [← hx]; simp
  have h1 : pyMap (mergeGroup xs) mapping = .ok (mapping.map (fun g => (select xs g).flatten)) :=
    pyMap_ok (fun g hg => mergeGroup_ok xs g (fun i hi => by rw [hxl]; exact hm.lt g hg i hi)
      (hm.2.1 g hg))
  have h2 := bareIfOne_ok (mapping.map (fun g => (select xs g).flatten)) (by simp [hm.2.2])
  have h3 : rearrangeArg (dims.map List.range) (bvec xs) = .ok xs := flatBlocks_map_vec xs
  have h4 : rearrangeArg (dims.map List.range) (.vec xs.flatten) = .ok xs := by
    have := mono_gather xs []
    have he : (xs.map (fun x => List.range x.length)) = dims.map List.range := by
      rw [← hx, List.map_map]; rfl
    rw [he] at this
    have hlen : xs.flatten.length = ((dims.map List.range).map List.length).sum := by
      rw [List.length_flatten, hx]; simp [Function.comp_def]
    simp only [List.nil_append, List.length_nil] at this
    simp only [rearrangeArg, hlen, if_true, this]
  simp only [rearrange, h3, h4, h1, h2, py_bind_ok, and_self]

example : rearrange [[0, 2], [1]] ([1, 2, 1].map List.range) (bvec [[1], [2, 3], [4]] : BVal Int) =
    .ok (pack [[1, 4], [2, 3]]) :=
  (rearrange_merges_partial [[0, 2], [1]] [1, 2, 1] [[1], [2, 3], [4]]
    ⟨by decide, by simp, by simp⟩ rfl).1

/-- **C21**, splitting: for pieces `vss` of the merged vector the transpose puts each
piece back to its block. -/
theorem rearrangeT_splits (mapping : List (List Nat)) (dims : List Nat)
    (hm : IsPartition mapping dims.length) (xs : List (List K)) (hx : HasDims dims xs) :
    rearrangeT mapping (dims.map List.range) (pack (mapping.map (fun g => (select xs g).flatten)))
      = .ok (xs.map some) := by
  have hxl : xs.length = dims.length := by rw [← hx]; simp
  have hlt := hm.lt
  have hf : List.Forall₂ (fun g vs => vs.map List.length = g.map (fun i => dims.getD i 0))
      mapping (mapping.map (select xs)) := by
    rw [List.forall₂_map_right_iff, List.forall₂_same]
    exact fun g _ => select_lengths hx g
  obtain ⟨setss, hs1, hs2⟩ : ∃ setss, indexSets mapping (dims.map List.range) = .ok setss ∧
      (setss.map List.length).sum = dims.length := by
    have : ∀ m : List (List Nat), (∀ g ∈ m, ∀ i ∈ g, i < dims.length) →
        ∃ setss, indexSets m (dims.map List.range) = .ok setss ∧
          setss.map List.length = m.map List.length := by
      intro m
      induction m with
      | nil => intro _; exact ⟨[], rfl, rfl⟩
      | cons g m ih =>
        intro h
        obtain ⟨s, h1, h2⟩ := groupSets_ok dims g (h g (by simp))
        obtain ⟨ss, h3, h4⟩ := ih (fun g' hg' => h g' (by simp [hg']))
        refine ⟨s :: ss, ?_, by simp [h2, h4]⟩
        simp only [indexSets] at h3
        simp [indexSets, pyMap, h1, h3]
    obtain ⟨ss, h1, h2⟩ := this mapping hlt
    refine ⟨ss, h1, ?_⟩
    rw [h2, ← List.length_flatten, hm.1.length_eq]
    simp
  have hs3 : List.Forall₂ (fun g s => groupSets (dims.map List.range) 0 g = .ok s) mapping setss :=
    pyMap_eq_ok.1 hs1
  have hw := allWrites_ok hlt hf hs3
  rw [flatten_map_select] at hw
  have hmm : (mapping.map (select xs)).map List.flatten =
      mapping.map (fun g => (select xs g).flatten) := by simp
  rw [hmm] at hw
  have hj : ∀ j ∈ mapping.flatten, j < dims.length :=
    fun j hj => List.mem_range.1 (hm.1.mem_iff.1 hj)
  have ha := applyWrites_ok mapping.flatten (select xs mapping.flatten)
    (List.replicate dims.length none) (by rw [List.length_replicate]; exact hj) (by rw [select, List.length_map])
  have hfull : scat mapping.flatten ((select xs mapping.flatten).map some)
      (List.replicate dims.length none) = xs.map some := by
    apply scat_full hm.1 (by simpa using hxl) (by simp)
    rw [List.forall₂_map_right_iff]
    refine (select_eq xs mapping.flatten (fun i hi => by rw [hxl]; exact hj i hi)).imp ?_
    intro i y h
    simp [h]
  simp only [rearrangeT, rearrangeTArg_pack, hs1, py_bind_ok, hs2, hw, ha, hfull]

/-- **C21**: `Rᵀ R x = x`. -/
theorem rearrange_roundtrip (mapping : List (List Nat)) (dims : List Nat) (xs : List (List K))
    (hm : IsPartition mapping dims.length) (hx : HasDims dims xs) :
    (rearrange mapping (dims.map List.range) (bvec xs) >>= rearrangeT mapping (dims.map List.range))
      = .ok (xs.map some) := by
  rw [(rearrange_merges_partial mapping dims xs hm hx).1, py_bind_ok]
  exact rearrangeT_splits mapping dims hm xs hx

/-- **C21**: `R Rᵀ y = y` for every `y` with the sizes of the groups. -/
theorem rearrange_roundtrip' (mapping : List (List Nat)) (dims : List Nat) (ys : List (List K))
    (hm : IsPartition mapping dims.length)
    (hy : ys.map List.length = mapping.map (fun g => (g.map (fun i => dims.getD i 0)).sum)) :
    ∃ xs, HasDims dims xs ∧
      rearrangeT mapping (dims.map List.range) (pack ys) = .ok (xs.map some) ∧
      rearrange mapping (dims.map List.range) (bvec xs) = .ok (pack ys) := by
  -- pieces of every group
  have hp : ∀ (m : List (List Nat)) (ys : List (List K)),
      ys.map List.length = m.map (fun g => (g.map (fun i => dims.getD i 0)).sum) →
      ∃ vss : List (List (List K)),
        List.Forall₂ (fun g vs => vs.map List.length = g.map (fun i => dims.getD i 0)) m vss ∧
          vss.map List.flatten = ys := by
    intro m
    induction m with
    | nil =>
      intro ys h
      have : ys = [] := by simpa using h
      subst this
      exact ⟨[], .nil, rfl⟩
    | cons g m ih =>
      intro ys h
      cases ys with
      | nil => simp at h
      | cons y ys =>
        simp only [List.map_cons, List.cons.injEq] at h
        obtain ⟨vs, h1, h2⟩ := exists_pieces _ y h.1
        obtain ⟨vss, h3, h4⟩ := ih ys h.2
        exact ⟨vs :: vss, .cons h1 h3, by simp [h2, h4]⟩
  obtain ⟨vss, h1, h2⟩ := hp mapping ys hy
  have hj : ∀ j ∈ mapping.flatten, j < dims.length :=
    fun j hj => List.mem_range.1 (hm.1.mem_iff.1 hj)
  have hn : mapping.flatten.Nodup := hm.1.nodup_iff.2 List.nodup_range
  have hflat : vss.flatten.map List.length = mapping.flatten.map (fun i => dims.getD i 0) := by
    clear h2 hj hn hm hy
    induction h1 with
    | nil => rfl
    | cons h _ ih => simp [h, ih]
  have hvl : vss.flatten.length = mapping.flatten.length := by
    have := congrArg List.length hflat
    rwa [List.length_map, List.length_map] at this
  -- the blocks
  let zero : List (List K) := List.replicate dims.length []
  have hz : ∀ i ∈ mapping.flatten, i < zero.length := by simpa [zero] using hj
  let xs := scat mapping.flatten vss.flatten zero
  have hxl : xs.length = dims.length := by simp [xs, scat_length, zero]
  have hsel : select xs mapping.flatten = vss.flatten := scat_select _ _ _ hn hvl hz
  have hx : HasDims dims xs := by
    apply List.ext_getElem
    · simp [hxl]
    · intro i h3 h4
      have him : i ∈ mapping.flatten := hm.1.mem_iff.2 (List.mem_range.2 h4)
      obtain ⟨k, hk, hki⟩ := List.mem_iff_getElem.1 him
      have h5 : (select xs mapping.flatten)[k]? = vss.flatten[k]? := by rw [hsel]
      have h6 := congrArg (fun l => l[k]?) hflat
      simp only [List.getElem?_map, List.getElem?_eq_getElem hk, Option.map_some, hki] at h6
      have hix : i < xs.length := by rw [hxl]; exact h4
      simp only [select, List.getElem?_map, List.getElem?_eq_getElem hk, Option.map_some, hki,
        List.getD_eq_getElem?_getD, List.getElem?_eq_getElem hix, Option.getD_some] at h5
      rw [← h5] at h6
      simpa [h4] using h6
  have hgroups : mapping.map (select xs) = vss := by
    have : ∀ (m : List (List Nat)) (vss : List (List (List K))),
        List.Forall₂ (fun g vs => vs.map List.length = g.map (fun i => dims.getD i 0)) m vss →
        select xs m.flatten = vss.flatten → m.map (select xs) = vss := by
      intro m vss h
      induction h with
      | nil => intro _; rfl
      | @cons g vs m vss h _ ih =>
        intro he
        rw [List.flatten_cons, select_append, List.flatten_cons] at he
        have hl : (select xs g).length = vs.length := by
          have := congrArg List.length h
          simpa [select] using this.symm
        obtain ⟨e1, e2⟩ := List.append_inj he hl
        simp [e1, ih e2]
    exact this mapping vss h1 hsel
  have hys : mapping.map (fun g => (select xs g).flatten) = ys := by
    rw [← h2, ← hgroups]; simp
  refine ⟨xs, hx, ?_, ?_⟩
  · rw [← hys]; exact rearrangeT_splits mapping dims hm xs hx
  · rw [← hys]; exact (rearrange_merges_partial mapping dims xs hm hx).1

/-- **C21**: inner products are preserved. -/
theorem rearrange_isometry [CommSemiring K] (mapping : List (List Nat)) (dims : List Nat)
    (xs ys : List (List K)) (hm : IsPartition mapping dims.length)
    (hx : HasDims dims xs) (hy : HasDims dims ys) :
    bdot (mapping.map (fun g => (select xs g).flatten))
      (mapping.map (fun g => (select ys g).flatten)) = bdot xs ys := by
  have hxl : xs.length = dims.length := by rw [← hx]; simp
  have hyl : ys.length = dims.length := by rw [← hy]; simp
  rw [bdot_merged hx hy, bdot_select, (hm.1.map _).sum_eq, ← bdot_select]
  conv_rhs => rw [← select_range xs, ← select_range ys, hxl, hyl]

example : IsPartition [[3, 1], [0], [2]] 4 := ⟨by decide, by simp, by simp⟩

/-- **C21** for `ReductionOperator`: every accepted list of offsets which does not
start with `0` describes a partition, so the theorems above apply. -/
theorem reduction_isPartition (offsets : List Nat) (n : Nat)
    (h : checkOffsets offsets n = .ok ()) (h0 : offsets.head? ≠ some 0) :
    IsPartition (reductionMapping offsets) n ∧ (reductionMapping offsets).flatten = List.range n := by
  obtain ⟨hlast, hinc⟩ := checkOffsets_ok h
  have hne : offsets ≠ [] := by rintro rfl; simp [isIncreasing] at hinc
  obtain ⟨_, hflat⟩ := offsetPairs_flatten offsets 0 hinc (by simp) n hlast
  have hflat' : (reductionMapping offsets).flatten = List.range n := by
    rw [reductionMapping, hflat, List.range_eq_range']; simp
  have hlt := offsetPairs_lt offsets 0 hinc (by
    intro l hl
    rcases Nat.eq_zero_or_pos l with rfl | h
    · exact absurd hl h0
    · exact h)
  refine ⟨⟨by rw [hflat'], ?_, ?_⟩, hflat'⟩
  · intro g hg
    obtain ⟨fl, hfl, rfl⟩ := List.mem_map.1 hg
    have := hlt fl hfl
    intro hcon
    have := congrArg List.length hcon
    simp at this
    omega
  · cases offsets with
    | nil => exact absurd rfl hne
    | cons a r => simp [reductionMapping, offsetPairs]

example : checkOffsets [2, 3, 4] 4 = .ok () ∧
    reductionMapping [2, 3, 4] = [[0, 1], [2], [3]] := ⟨rfl, rfl⟩

/-- **C21**: `ReductionOperator` accepts offsets starting with `0` but then every
application fails (an empty nest vector). -/
theorem reduction_zero_offset_fails (rest : List Nat) (dofs : List (List Nat)) (b : BVal K) :
    ∃ e, rearrange (reductionMapping (0 :: rest)) dofs b = .error e := by
  have hg : ∀ bs : List (List K), mergeGroup bs [] = .error .runtimeError := fun bs => rfl
  cases h : rearrangeArg dofs b with
  | error e => exact ⟨e, by simp [rearrange, h]⟩
  | ok bs =>
    exact ⟨.runtimeError, by simp [rearrange, h, reductionMapping, offsetPairs, pyMap, hg]⟩

example : checkOffsets [0, 2] 2 = .ok () := rfl

/-! ### C22 RegroupOperator -/

private theorem groups_eq (offsets : List Nat) (xs : List (List K)) : groups offsets xs =
    (offsetPairs 0 offsets).map (fun fl => pack ((xs.drop fl.1).take (fl.2 - fl.1))) := by
  unfold groups
  generalize 0 = f
  induction offsets generalizing f with
  | nil => rfl
  | cons l rest ih => simp only [offsetPairs, List.zipWith_cons_cons, List.map_cons]; rw [ih]

/-- **C22**: for accepted offsets `R x` consists of the groups `x[f:l]` and
`Rᵀ(R x) = x`.  Partial: the offsets `[1]` (a single group with a single block) are
excluded, see `regroup_single_fails`. -/
theorem regroup_roundtrip_partial (offsets : List Nat) (xs : List (List K))
    (h : checkOffsets offsets xs.length = .ok ()) (h1 : offsets ≠ [1]) :
    regroup offsets xs =
        .ok (match groups offsets xs with
          | [g] => g
          | gs => .blk gs) ∧
      (regroup offsets xs >>= regroupT) = .ok xs := by
  obtain ⟨hlast, hinc⟩ := checkOffsets_ok h
  obtain ⟨_, hflat⟩ := offsetPairs_flatten offsets 0 hinc (by simp) _ hlast
  -- all groups are within bounds
  have hb : ∀ fl ∈ offsetPairs 0 offsets, fl.2 - fl.1 = 1 → fl.1 < xs.length := by
    intro fl hfl hd
    have : fl.1 ∈ ((offsetPairs 0 offsets).map
        (fun fl => List.range' fl.1 (fl.2 - fl.1))).flatten := by
      refine List.mem_flatten.2 ⟨_, List.mem_map.2 ⟨fl, hfl, rfl⟩, ?_⟩
      simp [hd]
    rw [hflat] at this
    have := List.mem_range'_1.1 this
    omega
  have hone : ∀ fl ∈ offsetPairs 0 offsets, regroupOne xs fl =
      .ok (pack ((xs.drop fl.1).take (fl.2 - fl.1))) := by
    intro fl hfl
    unfold regroupOne
    by_cases hd : fl.2 - fl.1 = 1
    · have hlt := hb fl hfl hd
      rw [if_pos hd, pyGet_ok hlt, hd, List.drop_eq_getElem_cons hlt]
      rfl
    · rw [if_neg hd]
      match hm : (xs.drop fl.1).take (fl.2 - fl.1) with
      | [] => rfl
      | a :: b :: r => rfl
      | [v] =>
        exfalso
        have hlen := congrArg List.length hm
        simp only [List.length_take, List.length_drop, List.length_singleton] at hlen
        -- the group reaches beyond the end of `xs`
        have hmem : fl.2 - 1 ∈ ((offsetPairs 0 offsets).map
            (fun fl => List.range' fl.1 (fl.2 - fl.1))).flatten := by
          refine List.mem_flatten.2 ⟨_, List.mem_map.2 ⟨fl, hfl, rfl⟩, ?_⟩
          rw [List.mem_range'_1]; omega
        rw [hflat] at hmem
        have := List.mem_range'_1.1 hmem
        omega
  have hmap : pyMap (regroupOne xs) (offsetPairs 0 offsets) = .ok (groups offsets xs) :=
    by rw [groups_eq]; exact pyMap_ok hone
  have hne : offsets ≠ [] := by rintro rfl; simp [isIncreasing] at hinc
  have hgne : groups offsets xs ≠ [] := by
    cases offsets with
    | nil => exact absurd rfl hne
    | cons a r => simp [groups_eq, offsetPairs]
  have hreg : regroup offsets xs =
        .ok (match groups offsets xs with
          | [g] => g
          | gs => .blk gs) := by
    simp only [regroup, hmap, py_bind_ok]
    match hg : groups offsets xs, hgne with
    | [g], _ => rfl
    | a :: b :: r, _ => rfl
  refine ⟨hreg, ?_⟩
  -- unpacking
  have hun : ∀ ys : List (List K), ungroupOne (pack ys) = .ok ys := by
    intro ys
    match ys with
    | [] => rfl
    | [v] => rfl
    | a :: b :: r => exact flatBlocks_map_vec _
  have hcat : ∀ (offs : List Nat) (f : Nat), isIncreasing offs = true →
      (∀ l ∈ offs.head?, f ≤ l) → xs.length ∈ offs.getLast? →
      ((offsetPairs f offs).map (fun fl => (xs.drop fl.1).take (fl.2 - fl.1))).flatten
        = xs.drop f := by
    intro offs
    induction offs with
    | nil => intro f h; simp [isIncreasing] at h
    | cons l rest ih =>
      intro f hi hf hl
      cases rest with
      | nil =>
        simp at hl
        simp [offsetPairs, hl]
      | cons m rest =>
        simp only [isIncreasing, Bool.and_eq_true, decide_eq_true_eq] at hi
        simp at hf
        rw [offsetPairs, List.map_cons, List.flatten_cons,
          ih l hi.2 (by simp; omega) (by simpa using hl)]
        have : xs.drop l = (xs.drop f).drop (l - f) := by
          rw [List.drop_drop]; congr 1; omega
        simp only [this]
        exact List.take_append_drop _ _
  have hcat0 := hcat offsets 0 hinc (by simp) hlast
  rw [List.drop_zero] at hcat0
  rw [hreg, py_bind_ok]
  have hmany : regroupT (.blk (groups offsets xs)) = .ok xs := by
    have : pyMap ungroupOne (groups offsets xs) =
        .ok ((offsetPairs 0 offsets).map (fun fl => (xs.drop fl.1).take (fl.2 - fl.1))) := by
      rw [pyMap_eq_ok, groups_eq, List.forall₂_map_left_iff, List.forall₂_map_right_iff,
        List.forall₂_same]
      exact fun fl _ => hun _
    simp only [regroupT, this, py_bind_ok, hcat0, py_pure]
  match hg : groups offsets xs, hgne with
  | a :: b :: r, _ =>
    rw [hg] at hmany
    exact hmany
  | [g], _ =>
    -- a single group: offsets = [n]
    have hoff : offsets = [xs.length] := by
      match offsets, hg, hlast with
      | [n], _, hlast => simp at hlast; simp [hlast]
      | a :: b :: r, hg, _ => simp [groups_eq, offsetPairs] at hg
    subst hoff
    have hn1 : xs.length ≠ 1 := by
      intro hcon; apply h1; rw [hcon]
    have : g = .blk (xs.map .vec) := by
      simp only [groups_eq, offsetPairs, List.map_cons, List.map_nil, List.drop_zero, Nat.sub_zero,
        List.take_length, List.cons.injEq, and_true] at hg
      rw [← hg]
      match xs, hn1 with
      | [], _ => rfl
      | a :: b :: r, _ => rfl
    subst this
    simp only [regroupT]
    have : pyMap ungroupOne (xs.map BVal.vec) = .ok (xs.map (fun v => [v])) := by
      rw [pyMap_eq_ok, List.forall₂_map_left_iff, List.forall₂_map_right_iff, List.forall₂_same]
      exact fun v _ => rfl
    simp only [this, py_bind_ok, py_pure]
    congr 1
    have hs : ∀ l : List (List K), (l.map (fun v => [v])).flatten = l := by
      intro l
      induction l with
      | nil => rfl
      | cons a r ih => simp [ih]
    exact hs xs

example : (regroup [1, 3] ([[1], [2, 3], [4]] : List (List Int)) >>= regroupT) =
    .ok [[1], [2, 3], [4]] :=
  (regroup_roundtrip_partial [1, 3] _ rfl (by simp)).2

/-- **C22** fails for a block vector with a single block: `RegroupOperator([1], W)` is
accepted, `R x` is the bare vector and `Rᵀ` cannot be applied to it. -/
theorem regroup_single_fails (v : List K) :
    checkOffsets [1] 1 = .ok () ∧ regroup [1] [v] = .ok (.vec v) ∧
      (regroup [1] [v] >>= regroupT) = .error .attributeError := ⟨rfl, rfl, rfl⟩

/-! ### C23 VectorizedOperator -/

theorem assignAt_ok : ∀ (index : List Nat) (vs work : List K), vs.length = index.length →
    (∀ i ∈ index, i < work.length) → assignAt work index vs = .ok (scat index vs work)
  | [], [], work, _, _ => by simp [assignAt, scat]
  | [], _ :: _, _, h, _ => by simp at h
  | _ :: _, [], _, h, _ => by simp at h
  | i :: is, v :: vs, work, h, hr => by
      have := assignAt_ok is vs (work.set i v) (by simpa using h)
        (by intro j hj; simp; exact hr j (by simp [hj]))
      simp [assignAt, hr i (by simp), this, scat]

theorem gather_ok {v : List K} {is : List Nat} (h : ∀ i ∈ is, i < v.length) :
    ∃ r, gather v is = .ok r ∧ r.length = is.length := by
  induction is with
  | nil => exact ⟨[], rfl, rfl⟩
  | cons i is ih =>
    obtain ⟨r, h1, h2⟩ := ih (fun j hj => h j (by simp [hj]))
    have hi := h i (by simp)
    exact ⟨v[i] :: r, by simp [gather, petscGet, hi, h1], by simp [h2]⟩

theorem vectorizedLoop_ok (A : List K → Py (List K)) (n : Nat)
    (hA : ∀ v, v.length = n → ∃ w, A v = .ok w ∧ w.length = n) (b : List K) :
    ∀ (indices : List (List Nat)) (work : List K), work.length = b.length →
      (∀ ix ∈ indices, ix.length = n) → indices.flatten.Nodup →
      (∀ i ∈ indices.flatten, i < b.length) →
      ∃ w, vectorizedLoop A b indices work = .ok w ∧ w.length = b.length ∧
        (∀ i, i ∉ indices.flatten → w[i]? = work[i]?) ∧
        ∀ ix ∈ indices, ∃ bj xj, gather b ix = .ok bj ∧ A bj = .ok xj ∧ gather w ix = .ok xj
  | [], work, hw, _, _, _ => ⟨work, rfl, hw, by simp, by simp⟩
  | ix :: rest, work, hw, hn, hnd, hr => by
      rw [List.flatten_cons] at hnd hr
      obtain ⟨hnd1, hnd2, hdis⟩ := List.nodup_append.1 hnd
      obtain ⟨bj, h1, h2⟩ := gather_ok (v := b) (is := ix) (fun i hi => hr i (by simp [hi]))
      obtain ⟨xj, h3, h4⟩ := hA bj (by rw [h2, hn ix (by simp)])
      have hxl : xj.length = ix.length := by rw [h4, hn ix (by simp)]
      have hixw : ∀ i ∈ ix, i < work.length := fun i hi => by rw [hw]; exact hr i (by simp [hi])
      have h5 := assignAt_ok ix xj work hxl hixw
      obtain ⟨w, g1, g2, g3, g4⟩ := vectorizedLoop_ok A n hA b rest (scat ix xj work)
        (by rw [scat_length, hw]) (fun jx hj => hn jx (by simp [hj])) hnd2
        (fun i hi => hr i (by simp only [List.mem_append]; exact Or.inr hi))
      refine ⟨w, by simp [vectorizedLoop, h1, h3, h5, g1], g2, ?_, ?_⟩
      · intro i hi
        rw [List.flatten_cons, List.mem_append, not_or] at hi
        rw [g3 i hi.2, scat_not_mem _ _ _ _ hi.1]
      · intro jx hj
        rcases List.mem_cons.1 hj with rfl | hj
        · refine ⟨bj, xj, h1, h3, ?_⟩
          rw [gather_eq_ok]
          have := scat_mem jx xj work hnd1 hxl hixw
          rw [List.forall₂_iff_get] at this ⊢
          refine ⟨this.1, fun i a1 a2 => ?_⟩
          have hm : jx.get ⟨i, a1⟩ ∉ rest.flatten :=
            fun hmem => hdis _ (List.getElem_mem a1) _ hmem rfl
          rw [g3 _ hm]
          exact this.2 i a1 a2
        · exact g4 jx hj

/-- **C23**: the operator acts component by component. For every family of disjoint
index sets covering all dofs, every operator `A` on vectors of the component size and
every history of previous applications (which leave some content in the shared work
array), each application returns the vector whose `j`-th component is `A` applied to
the `j`-th component of the argument. -/
theorem vectorized_componentwise_partial (A : List K → Py (List K)) (n N : Nat)
    (hA : ∀ v, v.length = n → ∃ w, A v = .ok w ∧ w.length = n)
    (indices : List (List Nat)) (hix : ∀ ix ∈ indices, ix.length = n)
    (hpart : indices.flatten.Perm (List.range N))
    (calls : List (List K)) (hcalls : ∀ b ∈ calls, b.length = N)
    (work : List K) (hwork : work.length = N) :
    ∃ rs, vectorizedCalls A indices calls work = .ok rs ∧
      List.Forall₂ (fun b r => r.length = N ∧
        ∀ ix ∈ indices, ∃ bj xj, gather b ix = .ok bj ∧ A bj = .ok xj ∧ gather r ix = .ok xj)
        calls rs := by
  induction calls generalizing work with
  | nil => exact ⟨[], rfl, .nil⟩
  | cons b bs ih =>
    have hb := hcalls b (by simp)
    obtain ⟨w, h1, h2, _, h4⟩ := vectorizedLoop_ok A n hA b indices work (by rw [hwork, hb]) hix
      (hpart.nodup_iff.2 List.nodup_range)
      (fun i hi => by rw [hb]; exact List.mem_range.1 (hpart.mem_iff.1 hi))
    obtain ⟨rs, g1, g2⟩ := ih (fun c hc => hcalls c (by simp [hc])) w (by rw [h2, hb])
    exact ⟨w :: rs, by simp [vectorizedCalls, h1, g1], .cons ⟨by rw [h2, hb], h4⟩ g2⟩

/-- Non-vacuity: doubling on two interleaved components, called twice. -/
example : vectorizedCalls (fun v => .ok (v.map (2 * ·))) [[0, 2], [1, 3]]
    [[1, 2, 3, 4], [5, 6, 7, 8]] [9, 9, 9, 9] =
      (.ok [[2, 4, 6, 8], [10, 12, 14, 16]] : Py (List (List Int))) := rfl

example : ∃ rs, vectorizedCalls (fun v => .ok (v.map (2 * ·))) [[0, 2], [1, 3]]
    [[1, 2, 3, 4], [5, 6, 7, 8]] [9, 9, 9, 9] = (.ok rs : Py (List (List Int))) := by
  obtain ⟨rs, h, _⟩ := vectorized_componentwise_partial (K := Int) (fun v => .ok (v.map (2 * ·))) 2 4
    (fun v hv => ⟨_, rfl, by simpa using hv⟩) [[0, 2], [1, 3]] (by simp) (by decide)
    [[1, 2, 3, 4], [5, 6, 7, 8]] (by simp) [9, 9, 9, 9] rfl
  exact ⟨rs, h⟩

/-- Lists of equal lengths. -/
theorem length_flatten_const {α : Type} {k : Nat} : ∀ {l : List (List α)}, (∀ x ∈ l, x.length = k) →
    l.flatten.length = k * l.length
  | [], _ => by simp
  | x :: xs, h => by
      rw [List.flatten_cons, List.length_append, length_flatten_const (fun y hy => h y (by simp [hy])), h x (by simp),
        List.length_cons, Nat.mul_add, Nat.mul_one, Nat.add_comm]

/-- The constructor for a mixed space accepts exactly square operators of the size of the (equal) components. -/
theorem vectorized_checks (elms : List Nat) (n m dim : Nat) :
    vectorizedInit elms n m dim = .ok () ↔
      elms ≠ [] ∧ (∀ a ∈ elms, ∀ b ∈ elms, a = b) ∧ n = m ∧ n * elms.length = dim := by
  cases elms with
  | nil => simp [vectorizedInit]
  | cons e es =>
    by_cases h : es.all (· == e)
    · have h' : ∀ a ∈ e :: es, a = e := by
        intro a ha
        rcases List.mem_cons.1 ha with rfl | ha
        · rfl
        · simpa using List.all_eq_true.1 h a ha
      have : ∀ a ∈ e :: es, ∀ b ∈ e :: es, a = b := fun a ha b hb => (h' a ha).trans (h' b hb).symm
      simp only [vectorizedInit, h, if_true]
      by_cases hd : n = m ∧ n * (e :: es).length = dim
      · simp [hd.1, ← hd.2]
        simpa using this
      · simp only [hd, decide_false]
        simp
    · have hne : ¬ ∀ a ∈ e :: es, ∀ b ∈ e :: es, a = b := fun hall =>
        h (List.all_eq_true.2 (fun a ha => by simpa using hall a (by simp [ha]) e (by simp)))
      constructor
      · intro hok
        simp [vectorizedInit, h] at hok
      · rintro ⟨-, hall, -⟩
        exact absurd hall hne

/-- **C23** with the constructor: whenever it accepts an operator of size `n × m` for a mixed space of dimension `dim`, whose
components have disjoint dofs of equal number, the operator acts component by component.  No size is assumed to match:
this is what the checks of the constructor are for. -/
theorem vectorized_accepted (A : List K → Py (List K)) (elms : List Nat) (n m dim k : Nat)
    (hA : ∀ v, v.length = m → ∃ w, A v = .ok w ∧ w.length = n)
    (indices : List (List Nat)) (hlen : indices.length = elms.length) (hix : ∀ ix ∈ indices, ix.length = k)
    (hpart : indices.flatten.Perm (List.range dim)) (hinit : vectorizedInit elms n m dim = .ok ())
    (calls : List (List K)) (hcalls : ∀ b ∈ calls, b.length = dim)
    (work : List K) (hwork : work.length = dim) :
    ∃ rs, vectorizedCalls A indices calls work = .ok rs ∧
      List.Forall₂ (fun b r => r.length = dim ∧
        ∀ ix ∈ indices, ∃ bj xj, gather b ix = .ok bj ∧ A bj = .ok xj ∧ gather r ix = .ok xj)
        calls rs := by
  obtain ⟨hne, -, hnm, hdim⟩ := (vectorized_checks _ _ _ _).1 hinit
  have hk : k = n := by
    have h1 := hpart.length_eq
    rw [length_flatten_const hix, List.length_range, hlen, ← hdim] at h1
    exact Nat.eq_of_mul_eq_mul_right (List.length_pos_iff.2 hne) h1
  subst hk hnm
  exact vectorized_componentwise_partial A k dim hA indices hix hpart calls hcalls work hwork

example : vectorizedInit [5, 5] 2 2 4 = .ok () ∧ vectorizedInit [5, 5] 4 4 4 = .error .assertion ∧
    vectorizedInit [5, 5] 2 1 4 = .error .assertion ∧ vectorizedInit [5, 6] 2 2 4 = .error .valueError :=
  ⟨rfl, rfl, rfl, rfl⟩

/-- **C23** fails for a list of spaces: the constructor always raises. -/
theorem vectorized_list_fails (dims : List Nat) : ∃ e, vectorizedInitList dims = .error e := by
  cases dims with
  | nil => exact ⟨_, rfl⟩
  | cons d ds =>
    by_cases h : ds.all (· == d)
    · exact ⟨_, by simp only [vectorizedInitList, h, if_true]; rfl⟩
    · exact ⟨_, by simp only [vectorizedInitList, h]; rfl⟩

end Verif.BlockOps
