import Verif.Lemmas.Patch
import Mathlib.Tactic.NormNum
import Mathlib.Algebra.Order.Field.Rat
/-!
# C39: patch averages

For all spaces, patch functions, colours and vectors.
-/
namespace Verif.Patch
open Verif Verif.BlockOps Verif.Trace Finset
variable {K G : Type} [Field K] [LinearOrder K] [IsStrictOrderedRing K]

theorem noColor_nat (p : Nat) : noColor (p : K) = decide (p = 0) := by
  unfold noColor
  rcases Nat.eq_zero_or_pos p with rfl | hp
  · simp
  · have h1 : (1 : K) ≤ p := by exact_mod_cast hp
    have h2 : (1 : K) / 10 ^ 10 ≤ 1 := by
      rw [div_le_one (by positivity)]; exact one_le_pow₀ (by norm_num)
    rw [abs_of_nonneg (by linarith)]
    simp only [show p ≠ 0 from by omega, decide_false]
    exact decide_eq_false (by linarith)

/-- Rows still to be done. -/
theorem rowLoop_ok {V : Space K} (hV : V.WF) {pf : Nat → Nat} {ids : List Nat} {m : Nat}
    (hne : ∀ p ∈ ids, p ≠ 0 → patch V pf p ≠ []) (hm : ids.length = m) :
    ∀ (rows : List Nat) (acc : Triples K) (F : (Nat → K) → Nat → K), Acc m V.dim acc F →
      (∀ r ∈ rows, r < m) → rows.Nodup →
      ∃ acc', rowLoop V pf (ids.map (fun p : Nat => (p : K))) rows (fun _ => 0) acc = .ok acc' ∧
        Acc m V.dim acc' (fun u d => F u d +
          if d ∈ rows then (match ids[d]? with
            | some p => if p = 0 then 0 else patchMean V pf u p
            | none => 0) else 0)
  | [], acc, F, h, _, _ => ⟨acc, rfl, h.congr (by simp)⟩
  | r :: rows, acc, F, h, hr, hnd => by
      rw [List.nodup_cons] at hnd
      have hrm : r < ids.length := by rw [hm]; exact hr r (by simp)
      have hid : ids[r]? = some ids[r] := by simp [hrm]
      have hg : pyGet (ids.map (fun p : Nat => (p : K))) r = .ok ((ids[r] : Nat) : K) := by
        rw [pyGet_eq_ok, List.getElem?_map, hid]; rfl
      rw [rowLoop, hg, py_bind_ok, noColor_nat]
      by_cases h0 : ids[r] = 0
      · rw [h0]
        simp only [decide_true, if_true]
        obtain ⟨acc', e, h'⟩ := rowLoop_ok hV hne hm rows acc F h (fun r hr' => hr r (by simp [hr'])) hnd.2
        refine ⟨acc', e, h'.congr (fun u d => ?_)⟩
        congr 1
        by_cases hd : d = r
        · subst hd
          rw [if_neg hnd.1, if_pos (by simp), hid, h0]
          simp
        · simp [hd]
      · have hpne := hne ids[r] (List.getElem_mem _) h0
        simp only [h0, decide_false, Bool.false_eq_true, if_false, patchCells_nat]
        obtain ⟨cols, ec, hcn, hcm, hcl⟩ := patchDofs_ok hV hpne (fun c hc => patch_lt hc)
        rw [ec, py_bind_ok]
        obtain ⟨acc', e, h'⟩ := rowLoop_ok hV hne hm rows _ _
          (h.extend (row := r) (hr r (by simp)) (cols := cols) hcl
            (vals := cols.map (fun j => 1 / ((patch V pf ids[r]).map V.vol).sum *
              assemble V (mark (patch V pf ids[r]) (fun _ => 0)) j)) (by simp))
          (fun r hr' => hr r (by simp [hr'])) hnd.2
        refine ⟨acc', e, h'.congr (fun u d => ?_)⟩
        rw [add_assoc]
        congr 1
        by_cases hd : d = r
        · subst hd
          rw [if_pos rfl, if_neg hnd.1, if_pos (by simp), hid, add_zero, sum_zip_map]
          simp only [h0, if_false]
          simp only [mul_assoc, List.sum_map_mul_left]
          rw [sum_patch V pf ids[d] _ u hcn, patchMean]
          · field_simp
          · exact fun c hc => ⟨by simp [mark, hc], fun j hj => (hcm j).2 ⟨c, hc, hj⟩⟩
          · intro c hc h1 h2
            exfalso
            have : c ∉ patch V pf ids[d] := fun hc => h2 (patch_pf hc)
            simp [mark, this] at h1
        · simp [hd]

/-- Without colouring: the row of a dof with the colour `p ≠ 0` is the mean over the patch `p`, rows of dofs
    with colour 0 are zero. -/
theorem patch_average {V : Space K} (hV : V.WF) {pf : Nat → Nat} {ids : List Nat} {m : Nat}
    (hm : ids.length = m) (hne : ∀ p ∈ ids, p ≠ 0 → patch V pf p ≠ []) :
    ∃ M, patchAvg V m true pf (ids.map (fun p : Nat => (p : K))) = .ok M ∧ M.rows = m ∧ M.cols = V.dim ∧
      ∀ (d p : Nat), ids[d]? = some p → ∀ u : Nat → K,
        M.act u d = if p = 0 then 0 else patchMean V pf u p := by
  obtain ⟨acc', e, h⟩ := rowLoop_ok hV hne hm (List.range m) _ _ (Acc.nil m V.dim) (by simp) List.nodup_range
  obtain ⟨M, eM, hr, hc, hM⟩ := h.csr
  refine ⟨M, ?_, hr, hc, fun d p hp u => ?_⟩
  · rw [patchAvg, pyAssert_true, py_bind_ok, e, py_bind_ok]
    exact eM
  · have hd : d < m := by rw [← hm]; exact (List.getElem?_eq_some_iff.1 hp).1
    rw [hM u d hd, hp]
    simp [hd]

omit [IsStrictOrderedRing K] in
/-- A colour without a patch (in particular colours which are not integers) is an error. -/
theorem patch_average_empty {V : Space K} {pf : Nat → Nat} {colorIds : List K} {m d : Nat}
    {x : K} (hd : d < m) (hx : colorIds[d]? = some x) (hx0 : 1 / 10 ^ 10 ≤ |x|)
    (he : ∀ c, c < V.numCells → (pf c : K) ≠ x) : ∃ e, patchAvg V m true pf colorIds = .error e := by
  have hcs : patchCells V pf x = [] := by
    rw [patchCells, List.filter_eq_nil_iff]
    intro c hc
    simpa using he c (by simpa using hc)
  have key : ∀ (rows : List Nat) (chi : Nat → Nat) (acc : Triples K), d ∈ rows →
      ∃ e, rowLoop V pf colorIds rows chi acc = .error e := by
    intro rows
    induction rows with
    | nil => intro chi acc h; simp at h
    | cons r rows ih =>
        intro chi acc h
        rw [rowLoop]
        cases hg : pyGet colorIds r with
        | error e => exact ⟨e, by simp⟩
        | ok y =>
            rw [py_bind_ok]
            by_cases hrd : r = d
            · subst hrd
              rw [pyGet_eq_ok, hx] at hg
              obtain rfl := Option.some.inj hg
              have : noColor x = false := decide_eq_false (by simpa using hx0)
              rw [this]
              simp only [Bool.false_eq_true, if_false, hcs, patchDofs, if_true]
              exact ⟨_, rfl⟩
            · have hmem : d ∈ rows := by
                rcases List.mem_cons.1 h with h | h
                · exact absurd h.symm hrd
                · exact h
              by_cases hnc : noColor y = true
              · rw [if_pos hnc]; exact ih _ _ hmem
              · rw [if_neg hnc]
                dsimp only
                cases hpd : patchDofs V (patchCells V pf y) with
                | error e => exact ⟨e, by simp⟩
                | ok cols => rw [py_bind_ok]; exact ih _ _ hmem
  obtain ⟨e, h⟩ := key (List.range m) (fun _ => 0) ([], [], []) (by simpa using hd)
  exact ⟨e, by rw [patchAvg, pyAssert_true, py_bind_ok, h]; rfl⟩

/-! ## Coloured patches -/

theorem mem_addGroup [DecidableEq G] (groups : List (G × List Nat)) (g : G) (color : Nat) :
    ∀ q ∈ addGroup groups g color, q ∈ groups ∨
      (q.1 = g ∧ ∃ l, q.2 = l ++ [color] ∧ (l = [] ∨ (g, l) ∈ groups)) := by
  intro q hq
  unfold addGroup at hq
  split at hq
  · obtain ⟨p, hp, rfl⟩ := List.mem_map.1 hq
    split
    · rename_i h
      exact Or.inr ⟨h, p.2, rfl, Or.inr (by rw [← h]; exact hp)⟩
    · exact Or.inl hp
  · rcases List.mem_append.1 hq with h | h
    · exact Or.inl h
    · simp at h; subst h; exact Or.inr ⟨rfl, [], rfl, Or.inl rfl⟩

/-- The groups hold the colours, each in the group given by the colouring. -/
structure Groups [DecidableEq G] (coloring : List (Nat × G)) (colors : List Nat) (groups : List (G × List Nat)) :
    Prop where
  keys : (groups.map (fun q => q.1)).Nodup
  perm : (groups.flatMap (fun q => q.2)).Perm (colors.filter (fun p => (coloring.lookup p).isSome))
  group : ∀ q ∈ groups, ∀ p ∈ q.2, coloring.lookup p = some q.1

theorem perm_addGroup [DecidableEq G] (g : G) (color : Nat) : ∀ (groups : List (G × List Nat)),
    (groups.map (fun q => q.1)).Nodup →
    ((addGroup groups g color).flatMap (fun q => q.2)).Perm (groups.flatMap (fun q => q.2) ++ [color]) ∧
    ((addGroup groups g color).map (fun q => q.1)).Nodup := by
  intro groups hn
  unfold addGroup
  split
  · rename_i hany
    constructor
    · induction groups with
      | nil => simp at hany
      | cons q groups ih =>
          rw [List.map_cons, List.nodup_cons] at hn
          by_cases hq : q.1 = g
          · have hrest : groups.map (fun p => if p.1 = g then (p.1, p.2 ++ [color]) else p) = groups := by
              conv_rhs => rw [← List.map_id groups]
              refine List.map_congr_left (fun p hp => ?_)
              rw [if_neg]
              · rfl
              · intro h
                exact hn.1 (List.mem_map.2 ⟨p, hp, by rw [h, hq]⟩)
            rw [List.map_cons, hrest, if_pos hq, List.flatMap_cons, List.flatMap_cons]
            simp only [List.append_assoc]
            exact List.Perm.append_left _ (List.perm_append_comm)
          · rw [List.map_cons, if_neg hq, List.flatMap_cons, List.flatMap_cons, List.append_assoc]
            refine List.Perm.append_left _ (ih hn.2 ?_)
            simpa [hq] using hany
    · rw [List.map_map]
      convert! hn using 1
      refine List.map_congr_left (fun p _ => ?_)
      simp only [Function.comp]
      split <;> rfl
  · rename_i hany
    constructor
    · simp
    · rw [List.map_append, List.nodup_append]
      refine ⟨hn, by simp, ?_⟩
      intro a ha b hb hab
      simp at hb
      subst hb hab
      apply hany
      obtain ⟨p, hp, e⟩ := List.mem_map.1 ha
      rw [List.any_eq_true]
      exact ⟨p, hp, by simpa using e⟩

theorem makeGroups_ok [DecidableEq G] {coloring : List (Nat × G)} : ∀ (cs done : List Nat)
    (groups : List (G × List Nat)), Groups coloring done groups →
    Groups coloring (done ++ cs) (makeGroups coloring cs groups)
  | [], done, groups, h => by simpa [makeGroups] using h
  | p :: cs, done, groups, h => by
      rw [makeGroups]
      have e : done ++ p :: cs = (done ++ [p]) ++ cs := by simp
      rw [e]
      cases hl : coloring.lookup p with
      | none =>
          refine makeGroups_ok cs (done ++ [p]) groups ⟨h.keys, ?_, h.group⟩
          rw [List.filter_append]
          simp [hl, h.perm]
      | some g =>
          obtain ⟨h1, h2⟩ := perm_addGroup g p groups h.keys
          refine makeGroups_ok cs (done ++ [p]) _ ⟨h2, ?_, ?_⟩
          · refine h1.trans ?_
            rw [List.filter_append]
            simpa [hl] using h.perm.append_right [p]
          · intro q hq x hx
            rcases mem_addGroup groups g p q hq with hq' | ⟨e1, l, e2, h3⟩
            · exact h.group q hq' x hx
            · rw [e2, List.mem_append] at hx
              rcases hx with hx | hx
              · rcases h3 with rfl | h3
                · simp at hx
                · rw [e1]; exact h.group (g, l) h3 x hx
              · simp at hx; subst hx; rw [hl, e1]

/-- The row of a colour. -/
def IsRow (ids : List Nat) (p d : Nat) : Prop := ids[d]? = some p ∧ ∀ k, k < d → ids[k]? ≠ some p

instance (ids : List Nat) (p d : Nat) : Decidable (IsRow ids p d) := by unfold IsRow; infer_instance

theorem find_row {ids : List Nat} {p : Nat} (hp : p ∈ ids) :
    ∃ d w, argmin ((ids.map (fun x : Nat => (x : K))).map (fun x => |x - (p : K)|)) = .ok d ∧
      pyGet ((ids.map (fun x : Nat => (x : K))).map (fun x => |x - (p : K)|)) d = .ok w ∧
      decide (w < 1 / 10 ^ 13) = true ∧ IsRow ids p d := by
  have hne : (ids.map (fun x : Nat => (x : K))).map (fun x => |x - (p : K)|) ≠ [] := by
    intro h
    simp only [List.map_eq_nil_iff] at h
    subst h; simp at hp
  obtain ⟨d, w, h1, h2, h3⟩ := argmin_ok hne
  have hget : ∀ k : Nat, ((ids.map (fun x : Nat => (x : K))).map (fun x => |x - (p : K)|))[k]? =
      (ids[k]?).map (fun x : Nat => |(x : K) - (p : K)|) := by
    intro k
    rw [List.getElem?_map, List.getElem?_map, Option.map_map]
    rfl
  obtain ⟨k, hk⟩ := List.mem_iff_getElem?.1 hp
  have hk0 := h3 k 0 (by rw [hget, hk]; simp)
  rw [hget] at h2
  obtain ⟨x, hx, hw⟩ := Option.map_eq_some_iff.1 h2
  have hw0 : w = 0 := le_antisymm hk0.1 (by rw [← hw]; exact abs_nonneg _)
  have hxp : x = p := by
    rw [hw0, abs_eq_zero, sub_eq_zero] at hw
    exact_mod_cast hw
  refine ⟨d, w, h1, ?_, ?_, ?_, ?_⟩
  · rw [pyGet_eq_ok, hget]; exact h2
  · rw [hw0]; exact decide_eq_true (by positivity)
  · rw [hx, hxp]
  · intro j hj hjp
    have := (h3 j 0 (by rw [hget, hjp]; simp)).2 hj
    rw [hw0] at this
    exact lt_irrefl _ this

/-- What the dicts know about a colour. -/
structure Info.Good (V : Space K) (pf : Nat → Nat) (ids : List Nat) (p : Nat) (i : Info K) : Prop where
  volume : i.volume = ((patch V pf p).map V.vol).sum
  nodup : i.columns.Nodup
  mem : ∀ j, j ∈ i.columns ↔ ∃ c ∈ patch V pf p, j ∈ V.cellDofs c
  row : IsRow ids p i.row

theorem collect_ok {V : Space K} (hV : V.WF) {pf : Nat → Nat} {ids : List Nat} :
    ∀ (cs : List Nat) (chi : Nat → Nat) (info : List (Nat × Info K)),
      (∀ p ∈ cs, p ∈ ids ∧ patch V pf p ≠ []) →
      ∃ chi' info', collect V pf (ids.map (fun x : Nat => (x : K))) cs chi info = .ok (chi', info') ∧
        (∀ c, chi' c = 1 ↔ chi c = 1 ∨ ∃ p ∈ cs, c ∈ patch V pf p) ∧
        (∀ p, p ∉ cs → info'.lookup p = info.lookup p) ∧
        ∀ p ∈ cs, ∃ i, info'.lookup p = some i ∧ i.Good V pf ids p
  | [], chi, info, _ => ⟨chi, info, rfl, by simp, by simp, by simp⟩
  | p :: cs, chi, info, h => by
      obtain ⟨hp, hne⟩ := h p (by simp)
      obtain ⟨cols, ec, hcn, hcm, -⟩ := patchDofs_ok hV hne (fun c hc => patch_lt hc)
      obtain ⟨d, w, a1, a2, a3, a4⟩ := find_row (K := K) hp
      rw [collect]
      simp only [patchCells_nat, ec, py_bind_ok, a1, a2, a3, pyAssert_true]
      obtain ⟨chi', info', e, h1, h2, h3⟩ := collect_ok hV cs (mark (patch V pf p) chi)
        ((p, ⟨((patch V pf p).map V.vol).sum, cols, d⟩) :: info) (fun p hp => h p (by simp [hp]))
      refine ⟨chi', info', e, ?_, ?_, ?_⟩
      · intro c
        rw [h1]
        by_cases hc : c ∈ patch V pf p <;> simp [mark, hc]
      · intro q hq
        simp only [List.mem_cons, not_or] at hq
        rw [h2 q hq.2]
        rw [List.lookup_cons, beq_false_of_ne hq.1]
      · intro q hq
        by_cases hqc : q ∈ cs
        · exact h3 q hqc
        · rcases List.mem_cons.1 hq with rfl | hq
          · exact ⟨⟨((patch V pf q).map V.vol).sum, cols, d⟩, by rw [h2 q hqc, List.lookup_cons, beq_self_eq_true], rfl,
              hcn, hcm, a4⟩
          · exact absurd hq hqc

theorem extract_ok {V : Space K} {pf : Nat → Nat} {ids : List Nat} (hV : V.WF) {vDofs : Nat → K}
    {info : List (Nat × Info K)} :
    ∀ (cs : List Nat) (acc : Triples K) (F : (Nat → K) → Nat → K), Acc ids.length V.dim acc F →
      (∀ p ∈ cs, ∃ i, info.lookup p = some i ∧ i.Good V pf ids p) →
      (∀ p ∈ cs, ∀ cols : List Nat, cols.Nodup → (∀ j, j ∈ cols ↔ ∃ c ∈ patch V pf p, j ∈ V.cellDofs c) →
        ∀ u : Nat → K, (cols.map (fun j => vDofs j * u j)).sum = ((patch V pf p).map (cellIntegral V u)).sum) →
      ∃ acc', extract vDofs info cs acc = .ok acc' ∧
        Acc ids.length V.dim acc' (fun u d => F u d +
          (cs.map (fun p => if IsRow ids p d then patchMean V pf u p else 0)).sum)
  | [], acc, F, h, _, _ => ⟨acc, rfl, h.congr (by simp)⟩
  | p :: cs, acc, F, h, hi, hv => by
      obtain ⟨i, hl, hg⟩ := hi p (by simp)
      rw [extract, infoGet, hl]
      simp only [py_bind_ok]
      have hrow : i.row < ids.length := (List.getElem?_eq_some_iff.1 hg.row.1).1
      obtain ⟨acc', e, h'⟩ := extract_ok (vDofs := vDofs) hV cs _ _
        (h.extend hrow (cols := i.columns) (fun j hj => by
            obtain ⟨c, hc, hjc⟩ := (hg.mem j).1 hj
            exact hV.lt c (patch_lt hc) j hjc)
          (vals := i.columns.map (fun j => vDofs j / i.volume)) (by simp))
        (fun p hp => hi p (by simp [hp])) (fun p hp => hv p (by simp [hp]))
      refine ⟨acc', e, h'.congr (fun u d => ?_)⟩
      rw [add_assoc, List.map_cons, List.sum_cons, sum_zip_map]
      congr 2
      have hiff : d = i.row ↔ IsRow ids p d := by
        constructor
        · rintro rfl; exact hg.row
        · intro h
          rcases Nat.lt_trichotomy d i.row with h1 | h1 | h1
          · exact absurd h.1 (hg.row.2 d h1)
          · exact h1
          · exact absurd hg.row.1 (h.2 _ h1)
      by_cases hd : d = i.row
      · rw [if_pos hd, if_pos (hiff.1 hd), patchMean, ← hv p (by simp) i.columns hg.nodup hg.mem u, hg.volume,
          div_eq_mul_inv, ← List.sum_map_mul_right]
        congr 1
        exact List.map_congr_left (fun j _ => by rw [div_eq_mul_inv]; ring)
      · rw [if_neg hd, if_neg (fun h => hd (hiff.2 h))]

theorem groupLoop_ok [DecidableEq G] {V : Space K} (hV : V.WF) {pf : Nat → Nat} {ids : List Nat}
    {coloring : List (Nat × G)} (hs : Separated V pf coloring ids) :
    ∀ (groups : List (G × List Nat)) (acc : Triples K) (F : (Nat → K) → Nat → K), Acc ids.length V.dim acc F →
      (∀ q ∈ groups, ∀ p ∈ q.2, p ∈ ids ∧ patch V pf p ≠ [] ∧ coloring.lookup p = some q.1) →
      ∃ acc', groupLoop V pf (ids.map (fun x : Nat => (x : K))) groups (fun _ => 0) acc = .ok acc' ∧
        Acc ids.length V.dim acc' (fun u d => F u d +
          ((groups.flatMap (fun q => q.2)).map (fun p => if IsRow ids p d then patchMean V pf u p else 0)).sum)
  | [], acc, F, h, _ => ⟨acc, rfl, h.congr (by simp)⟩
  | (g, cs) :: groups, acc, F, h, hg => by
      rw [groupLoop]
      obtain ⟨chi, info, e1, hchi, -, hinfo⟩ := collect_ok hV cs (fun _ => 0) [] (ids := ids) (pf := pf)
        (fun p hp => ⟨(hg _ List.mem_cons_self p hp).1, (hg _ List.mem_cons_self p hp).2.1⟩)
      obtain ⟨acc1, e2, h1⟩ := extract_ok (vDofs := assemble V chi) hV cs acc F h hinfo (by
        intro p hp cols hn hm u
        refine sum_patch V pf p chi u hn (fun c hc => ⟨(hchi c).2 (Or.inr ⟨p, hp, hc⟩), fun j hj => (hm j).2 ⟨c, hc, hj⟩⟩) ?_
        intro c _ hc1 hcp j hj hjm
        rcases (hchi c).1 hc1 with h0 | ⟨q, hq, hcq⟩
        · simp at h0
        · obtain ⟨c', hc', hj'⟩ := (hm j).1 hjm
          have hqp : q ≠ p := fun h => hcp (by rw [← h]; exact patch_pf hcq)
          obtain ⟨p1, -, p3⟩ := hg _ List.mem_cons_self p hp
          obtain ⟨q1, -, q3⟩ := hg _ List.mem_cons_self q hq
          exact hs q q1 p p1 hqp (by rw [p3, q3]) (by rw [q3]; simp) c hcq c' hc' j hj hj')
      obtain ⟨acc', e3, h2⟩ := groupLoop_ok hV hs groups acc1 _ h1 (fun q hq => hg q (by simp [hq]))
      refine ⟨acc', ?_, h2.congr (fun u d => ?_)⟩
      · rw [e1, py_bind_ok]
        dsimp only
        rw [e2, py_bind_ok, e3]
      · rw [List.flatMap_cons, List.map_append, List.sum_append, add_assoc]

theorem sum_isRow {ids : List Nat} (f : Nat → K) (d p : Nat) (hd : ids[d]? = some p) (P : Nat → Bool)
    (hdist : ∀ k k' : Nat, ids[k]? = ids[k']? → (∃ x, ids[k]? = some x ∧ P x = true) → k = k') :
    ((ids.filter P).map (fun q => if IsRow ids q d then f q else 0)).sum = if P p then f p else 0 := by
  have hone : ∀ q, IsRow ids q d → q = p := fun q h => by
    have := h.1; rw [hd] at this; exact (Option.some.inj this).symm
  have hcount : ∀ l : List Nat, (l.map (fun q => if IsRow ids q d then f q else 0)).sum =
      (l.count p : K) * (if IsRow ids p d then f p else 0) := by
    intro l
    induction l with
    | nil => simp
    | cons x l ih =>
        rw [List.map_cons, List.sum_cons, ih, List.count_cons]
        by_cases hx : x = p
        · subst hx
          by_cases hr : IsRow ids x d
          · simp [hr]; ring
          · simp [hr]
        · have : ¬ IsRow ids x d := fun h => hx (hone x h)
          simp [this, hx]
  rw [hcount]
  by_cases hP : P p = true
  · have hrow : IsRow ids p d := ⟨hd, fun k hk h => by
      have := hdist k d (by rw [h, hd]) ⟨p, h, hP⟩
      omega⟩
    rw [if_pos hrow, if_pos hP, List.count_filter hP]
    have : ids.count p = 1 := by
      have h1 : 0 < ids.count p := List.count_pos_iff.2 (List.mem_iff_getElem?.2 ⟨d, hd⟩)
      have h2 : ids.count p ≤ 1 := by
        by_contra hc
        have hdup : ¬ ids.count p ≤ 1 := hc
        have : List.Duplicate p ids := by
          rw [List.duplicate_iff_two_le_count]; omega
        rw [List.duplicate_iff_exists_distinct_get] at this
        obtain ⟨n, m, hnm, e1, e2⟩ := this
        have h3 : ids[n.1]? = some p := by rw [e1]; simp
        have h4 : ids[m.1]? = some p := by rw [e2]; simp
        have := hdist n.1 m.1 (by rw [h3, h4]) ⟨p, h3, hP⟩
        have hlt : n.1 < m.1 := hnm
        omega
      omega
    rw [this]; simp
  · have : (ids.filter P).count p = 0 := by
      rw [List.count_eq_zero]
      intro h
      exact hP (List.mem_filter.1 h).2
    rw [this, if_neg hP]; simp

/-- With colouring: if patches of the same group share no dofs, and no two dofs have the same (coloured) patch,
    the row of a dof with the colour `p` is the mean over the patch `p`; rows of dofs whose colour is not in the
    colouring are zero. -/
theorem patch_average_coloring_partial [DecidableEq G] {V : Space K} (hV : V.WF) {pf : Nat → Nat} {ids : List Nat}
    {m : Nat} (hm : ids.length = m) {coloring : List (Nat × G)} {toUint : K → Nat}
    (hu : ∀ n : Nat, toUint (n : K) = n)
    (hne : ∀ p ∈ ids, coloring.lookup p ≠ none → patch V pf p ≠ [])
    (hdist : ∀ k k' : Nat, ids[k]? = ids[k']? → (∃ x, ids[k]? = some x ∧ coloring.lookup x ≠ none) → k = k')
    (hs : Separated V pf coloring ids) :
    ∃ M, patchAvgColoring V m true pf (ids.map (fun p : Nat => (p : K))) toUint coloring = .ok M ∧ M.rows = m ∧
      M.cols = V.dim ∧ ∀ (d p : Nat), ids[d]? = some p → ∀ u : Nat → K,
        M.act u d = if coloring.lookup p = none then 0 else patchMean V pf u p := by
  subst hm
  have hids : (ids.map (fun p : Nat => (p : K))).map toUint = ids := by
    rw [List.map_map]
    conv_rhs => rw [← List.map_id ids]
    exact List.map_congr_left (fun p _ => hu p)
  have hG : Groups coloring ids (makeGroups coloring ids []) := by
    have := makeGroups_ok (coloring := coloring) ids [] [] ⟨by simp, by simp, by simp⟩
    simpa using this
  have hmem : ∀ q ∈ makeGroups coloring ids [], ∀ p ∈ q.2, p ∈ ids := by
    intro q hq p hp
    have := hG.perm.mem_iff.1 (List.mem_flatMap.2 ⟨q, hq, hp⟩)
    exact (List.mem_filter.1 this).1
  obtain ⟨acc', e, h⟩ := groupLoop_ok hV hs (makeGroups coloring ids []) _ _ (Acc.nil ids.length V.dim)
    (fun q hq p hp => ⟨hmem q hq p hp, hne p (hmem q hq p hp) (by rw [hG.group q hq p hp]; simp), hG.group q hq p hp⟩)
  obtain ⟨M, eM, hr, hc, hM⟩ := h.csr
  refine ⟨M, ?_, hr, hc, fun d p hp u => ?_⟩
  · rw [patchAvgColoring, pyAssert_true, py_bind_ok]
    dsimp only
    rw [hids, e, py_bind_ok]
    exact eM
  · have hd : d < ids.length := (List.getElem?_eq_some_iff.1 hp).1
    rw [hM u d hd, zero_add, (hG.perm.map _).sum_eq,
      sum_isRow (fun q => patchMean V pf u q) d p hp (fun q => (coloring.lookup q).isSome)
        (fun k k' h1 ⟨x, h2, h3⟩ => hdist k k' h1 ⟨x, h2, by intro h; rw [h] at h3; simp at h3⟩)]
    cases coloring.lookup p <;> simp

/-- With and without colouring give the same averages. -/
theorem coloring_agrees [DecidableEq G] {V : Space K} (hV : V.WF) {pf : Nat → Nat} {ids : List Nat}
    {m : Nat} (hm : ids.length = m) {coloring : List (Nat × G)} {toUint : K → Nat}
    (hu : ∀ n : Nat, toUint (n : K) = n)
    (hcol : ∀ p ∈ ids, coloring.lookup p = none ↔ p = 0)
    (hne : ∀ p ∈ ids, p ≠ 0 → patch V pf p ≠ [])
    (hdist : ∀ k k' : Nat, ids[k]? = ids[k']? → (∃ x, ids[k]? = some x ∧ x ≠ 0) → k = k')
    (hs : Separated V pf coloring ids) :
    ∃ M M', patchAvg V m true pf (ids.map (fun p : Nat => (p : K))) = .ok M ∧
      patchAvgColoring V m true pf (ids.map (fun p : Nat => (p : K))) toUint coloring = .ok M' ∧ M = M' := by
  obtain ⟨M, e, r, c, h⟩ := patch_average (m := m) hV hm hne
  obtain ⟨M', e', r', c', h'⟩ := patch_average_coloring_partial hV hm hu
    (fun p hp h => hne p hp (fun h0 => h ((hcol p hp).2 h0)))
    (fun k k' h1 ⟨x, h2, h3⟩ => hdist k k' h1 ⟨x, h2, fun h0 => h3 ((hcol x (List.mem_iff_getElem?.2 ⟨k, h2⟩)).2 h0)⟩)
    hs
  refine ⟨M, M', e, e', Mat.eq_of_act M M' (by rw [r, r']) (by rw [c, c']) (fun u d => ?_)⟩
  by_cases hd : d < m
  · have hp : ids[d]? = some (ids[d]'(by omega)) := by simp [hm, hd]
    rw [h d _ hp, h' d _ hp]
    have := hcol (ids[d]'(by omega)) (List.getElem_mem _)
    by_cases h0 : ids[d]'(by omega) = 0
    · rw [if_pos h0, if_pos (this.2 h0)]
    · rw [if_neg h0, if_neg (fun h => h0 (this.1 h))]
  · rw [Mat.act_of_le M u d (by omega), Mat.act_of_le M' u d (by omega)]

/-! ## Dirac -/

omit [IsStrictOrderedRing K] in
/-- Without patches: every row takes the value of the closest dof of `V`, which must be closer than `1e-10`. -/
theorem dirac_average {n m : Nat} {dists : Nat → List K} (hn : ∀ d, d < m → (dists d).length = n)
    {col : Nat → Nat} (hcol : ∀ d, d < m → argmin (dists d) = .ok (col d))
    (hclose : ∀ d, d < m → ∀ x, (dists d)[col d]? = some x → x < 1 / 10 ^ 10) (hpos : 0 < n) :
    ∃ M, diracAvg n m true dists = .ok M ∧ M.rows = m ∧ M.cols = n ∧
      ∀ d, d < m → ∀ u : Nat → K, M.act u d = u (col d) := by
  have hget : ∀ d, d < m → ∃ w, (dists d)[col d]? = some w ∧ w < 1 / 10 ^ 10 ∧ col d < n := by
    intro d hd
    obtain ⟨i, w, h1, h2, -⟩ := argmin_ok (l := dists d) (by
      intro h; have := hn d hd; rw [h] at this; simp at this; omega)
    rw [hcol d hd] at h1
    injection h1 with h1; subst h1
    refine ⟨w, h2, hclose d hd w h2, ?_⟩
    rw [← hn d hd]; exact (List.getElem?_eq_some_iff.1 h2).1
  have key : ∀ (rows : List Nat) (acc : Triples K) (F : (Nat → K) → Nat → K), Acc m n acc F → (∀ r ∈ rows, r < m) →
      rows.Nodup → ∃ acc', diracLoop dists rows acc = .ok acc' ∧
        Acc m n acc' (fun u d => F u d + if d ∈ rows then u (col d) else 0) := by
    intro rows
    induction rows with
    | nil => exact fun acc F h _ _ => ⟨acc, rfl, h.congr (by simp)⟩
    | cons r rows ih =>
        intro acc F h hr hnd
        rw [List.nodup_cons] at hnd
        have hrm := hr r (by simp)
        obtain ⟨w, h1, h2, h3⟩ := hget r hrm
        rw [diracLoop, hcol r hrm, py_bind_ok, pyGet_eq_ok.2 h1, py_bind_ok, decide_eq_true h2, pyAssert_true,
          py_bind_ok]
        obtain ⟨acc', e, h'⟩ := ih _ _ (h.extend hrm (cols := [col r]) (by simpa using h3) (vals := [1]) rfl)
          (fun r hr' => hr r (by simp [hr'])) hnd.2
        refine ⟨acc', e, h'.congr (fun u d => ?_)⟩
        rw [add_assoc]
        congr 1
        by_cases hd : d = r
        · subst hd; simp [hnd.1]
        · simp [hd]
  obtain ⟨acc', e, h⟩ := key (List.range m) _ _ (Acc.nil m n) (by simp) List.nodup_range
  obtain ⟨M, eM, hr, hc, hM⟩ := h.csr
  refine ⟨M, ?_, hr, hc, fun d hd u => ?_⟩
  · rw [diracAvg, pyAssert_true, py_bind_ok, e, py_bind_ok]
    exact eM
  · rw [hM u d hd]
    simp [hd]

/-! ## Examples and counterexamples -/

/-- Three intervals of length 1, linear elements. -/
def line3 : Space ℚ := ⟨4, 3, fun c => [c, c + 1], fun _ => 1, fun _ _ => 1 / 2⟩

theorem line3_wf : line3.WF := ⟨fun c hc j hj => by
  simp [line3] at hc hj
  simp [line3]; omega⟩

/-- Non-vacuity: patches 1 (cell 0) and 2 (cells 1, 2), three dofs with colours 2, 0 and 1. -/
example : ∃ M, patchAvg line3 3 true (fun c => if c = 0 then 1 else 2) ([2, 0, 1].map (fun p : Nat => (p : ℚ))) = .ok M ∧
    M.act (fun j => (j : ℚ)) 0 = 2 ∧ M.act (fun j => (j : ℚ)) 1 = 0 ∧ M.act (fun j => (j : ℚ)) 2 = 1 / 2 := by
  obtain ⟨M, e, -, -, h⟩ := patch_average (K := ℚ) line3_wf (pf := fun c => if c = 0 then 1 else 2)
    (ids := [2, 0, 1]) (m := 3) rfl (by decide)
  refine ⟨M, e, ?_, ?_, ?_⟩
  · rw [h 0 2 rfl]; decide +kernel
  · rw [h 1 0 rfl]; decide +kernel
  · rw [h 2 1 rfl]; decide +kernel

/-- Non-vacuity with colouring: patches 1 (cell 0) and 2 (cell 2) share no dofs and are in the same group. -/
example : ∃ M, patchAvgColoring line3 2 true (fun c => if c = 0 then 1 else if c = 2 then 2 else 0)
      ([2, 1].map (fun p : Nat => (p : ℚ))) (fun x => x.num.toNat) [(1, "a"), (2, "a")] = .ok M ∧
    M.act (fun j => (j : ℚ)) 0 = 5 / 2 ∧ M.act (fun j => (j : ℚ)) 1 = 1 / 2 := by
  obtain ⟨M, e, -, -, h⟩ := patch_average_coloring_partial (K := ℚ) line3_wf
    (pf := fun c => if c = 0 then 1 else if c = 2 then 2 else 0)
    (ids := [2, 1]) (m := 2) rfl (coloring := [(1, "a"), (2, "a")]) (toUint := fun x => x.num.toNat)
    (fun n => by simp) (by decide) (by
      intro k k' h1 ⟨x, h2, _⟩
      match k, k' with
      | 0, 0 => rfl
      | 0, 1 => simp at h1
      | 1, 0 => simp at h1
      | 1, 1 => rfl
      | k + 2, _ => simp at h2
      | 0, k + 2 => simp at h1
      | 1, k + 2 => simp at h1)
    (by
      intro p hp q hq hne _ _ c hc c' hc' j hj
      have h1 := patch_pf hc
      have h2 := patch_pf hc'
      simp only [List.mem_cons, List.not_mem_nil, or_false] at hp hq
      simp only [line3, List.mem_cons, List.not_mem_nil, or_false] at hj ⊢
      split_ifs at h1 h2 <;> omega)
  refine ⟨M, e, ?_, ?_⟩
  · rw [h 0 2 rfl]; decide +kernel
  · rw [h 1 1 rfl]; decide +kernel

/-- With colouring two dofs with the same patch get a wrong average: the row of the first one is doubled and
    that of the second one is zero, while without colouring both get the mean. -/
theorem coloring_shared_patch_wrong :
    ∃ M M', patchAvgColoring line3 2 true (fun c => if c = 0 then 1 else 0) ([1, 1].map (fun p : Nat => (p : ℚ)))
        (fun x => x.num.toNat) [(1, ())] = .ok M ∧
      patchAvg line3 2 true (fun c => if c = 0 then 1 else 0) ([1, 1].map (fun p : Nat => (p : ℚ))) = .ok M' ∧
      M.act (fun _ => 1) 0 = 2 ∧ M.act (fun _ => 1) 1 = 0 ∧
      M'.act (fun _ => 1) 0 = 1 ∧ M'.act (fun _ => 1) 1 = 1 := by
  have key : (match patchAvgColoring line3 2 true (fun c => if c = 0 then 1 else 0) ([1, 1].map (fun p : Nat => (p : ℚ)))
        (fun x => x.num.toNat) [(1, ())], patchAvg line3 2 true (fun c => if c = 0 then 1 else 0)
        ([1, 1].map (fun p : Nat => (p : ℚ))) with
    | .ok M, .ok M' => decide (M.act (fun _ => 1) 0 = 2 ∧ M.act (fun _ => 1) 1 = 0 ∧
      M'.act (fun _ => 1) 0 = 1 ∧ M'.act (fun _ => 1) 1 = 1)
    | _, _ => false) = true := by decide +kernel
  split at key
  · next M M' h1 h2 => exact ⟨M, M', h1, h2, of_decide_eq_true key⟩
  · cases key

/-- Neighbouring patches in the same group give wrong averages even of constants. -/
theorem coloring_neighbours_wrong :
    ∃ M, patchAvgColoring line3 2 true (fun c => c) ([1, 2].map (fun p : Nat => (p : ℚ)))
        (fun x => x.num.toNat) [(1, ()), (2, ())] = .ok M ∧ M.act (fun _ => 1) 0 = 3 / 2 := by
  have key : (match patchAvgColoring line3 2 true (fun c => c) ([1, 2].map (fun p : Nat => (p : ℚ)))
        (fun x => x.num.toNat) [(1, ()), (2, ())] with
    | .ok M => decide (M.act (fun _ => 1) 0 = 3 / 2)
    | _ => false) = true := by decide +kernel
  split at key
  · next M h1 => exact ⟨M, h1, of_decide_eq_true key⟩
  · cases key

end Verif.Patch
