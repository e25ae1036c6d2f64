import Verif.Spec.Average
import Verif.Lemmas.Trace
import Mathlib.Algebra.BigOperators.Group.List.Basic
import Mathlib.Algebra.BigOperators.Ring.List
import Mathlib.Tactic.Ring
/-! Lemmas about averaging. -/
namespace Verif.Average
open Verif Verif.BlockOps Verif.DofMat Verif.Trace Finset
variable {K P : Type} [Field K]

/-- Action of the row described by a dict, component `k`. -/
def dataAct (data : List (Nat × (Nat → K))) (u : Nat → K) (k : Nat) : K :=
  (data.map (fun p => p.2 k * u p.1)).sum

/-- Keys of the dict are distinct columns. -/
structure GoodData (n : Nat) (data : List (Nat × (Nat → K))) : Prop where
  nodup : (data.map (fun p => p.1)).Nodup
  lt : ∀ p ∈ data, p.1 < n

theorem addTo_keys (data : List (Nat × (Nat → K))) (col : Nat) (v : Nat → K) :
    (addTo data col v).map (fun p => p.1) =
      if col ∈ data.map (fun p => p.1) then data.map (fun p => p.1) else data.map (fun p => p.1) ++ [col] := by
  unfold addTo
  have hiff : data.any (fun p => p.1 = col) = true ↔ col ∈ data.map (fun p => p.1) := by
    simp
  by_cases h : col ∈ data.map (fun p => p.1)
  · rw [if_pos (hiff.2 h), if_pos h, List.map_map]
    refine List.map_congr_left (fun p _ => ?_)
    simp only [Function.comp]
    split <;> rfl
  · rw [if_neg (fun hc => h (hiff.1 hc)), if_neg h]
    simp

theorem addTo_good {n : Nat} {data : List (Nat × (Nat → K))} (h : GoodData n data) {col : Nat} (hc : col < n)
    (v : Nat → K) : GoodData n (addTo data col v) := by
  have hk := addTo_keys data col v
  constructor
  · rw [hk]
    split
    · exact h.nodup
    · rename_i hn
      exact List.nodup_append.2 ⟨h.nodup, by simp, fun a ha b hb => by
        rw [List.mem_singleton] at hb
        rintro rfl
        exact hn (hb ▸ ha)⟩
  · intro p hp
    have : p.1 ∈ (addTo data col v).map (fun p => p.1) := List.mem_map.2 ⟨p, hp, rfl⟩
    rw [hk] at this
    have hold : p.1 ∈ data.map (fun p => p.1) → p.1 < n := by
      intro hm
      obtain ⟨q, hq, e⟩ := List.mem_map.1 hm
      rw [← e]; exact h.lt q hq
    split at this
    · exact hold this
    · rcases List.mem_append.1 this with hm | hm
      · exact hold hm
      · rw [List.mem_singleton.1 hm]; exact hc

theorem dataAct_update (u : Nat → K) (k col : Nat) (v : Nat → K) : ∀ (data : List (Nat × (Nat → K))),
    (data.map (fun p => p.1)).Nodup →
    dataAct (data.map (fun p => if p.1 = col then (p.1, p.2 + v) else p)) u k =
      dataAct data u k + if col ∈ data.map (fun p => p.1) then v k * u col else 0
  | [], _ => by simp [dataAct]
  | (c, w) :: data, h => by
      simp only [List.map_cons, List.nodup_cons] at h
      have ih := dataAct_update u k col v data h.2
      unfold dataAct at ih ⊢
      simp only [List.map_cons, List.sum_cons]
      rw [ih]
      by_cases hc : c = col
      · subst hc
        rw [if_neg h.1]
        simp
        ring
      · have : (col ∈ c :: data.map (fun p => p.1)) ↔ col ∈ data.map (fun p => p.1) := by
          simp [Ne.symm hc]
        simp only [this, hc, if_false]
        ring

theorem dataAct_addTo {n : Nat} {data : List (Nat × (Nat → K))} (h : GoodData n data) (col : Nat)
    (v : Nat → K) (u : Nat → K) (k : Nat) :
    dataAct (addTo data col v) u k = dataAct data u k + v k * u col := by
  unfold addTo
  split
  · rename_i hany
    rw [dataAct_update u k col v data h.nodup, if_pos (by simpa using hany)]
  · simp [dataAct]

theorem addCell_ok {V : Space K (P × Nat)} {w m : K} {c : Nat} {p : P} : ∀ (l : Nat) (cols : List Nat)
    (data : List (Nat × (Nat → K))), (∀ d ∈ cols, d < V.dim) → GoodData V.dim data →
    GoodData V.dim (addCell V w m c p l cols data) ∧
    ∀ (u : Nat → K) (k : Nat), dataAct (addCell V w m c p l cols data) u k =
      dataAct data u k + ∑ i ∈ range cols.length, V.basis c (l + i) (p, k) * w / m * u (cols.getD i 0)
  | l, [], data, _, hg => ⟨hg, fun u k => by simp [addCell]⟩
  | l, col :: cols, data, hc, hg => by
      have hg' := addTo_good hg (hc col (by simp)) (fun k => V.basis c l (p, k) * w / m)
      obtain ⟨h1, h2⟩ := addCell_ok (V := V) (w := w) (m := m) (c := c) (p := p) (l + 1) cols _
        (fun d hd => hc d (by simp [hd])) hg'
      refine ⟨h1, fun u k => ?_⟩
      rw [addCell, h2, dataAct_addTo hg]
      rw [List.length_cons, Finset.sum_range_succ']
      simp only [List.getD_cons_succ, List.getD_cons_zero, Nat.add_zero]
      rw [add_assoc, add_comm (_ / m * u col)]
      congr 2
      refine Finset.sum_congr rfl (fun i _ => ?_)
      rw [show l + 1 + i = l + (i + 1) by omega]

theorem quadSum_cons (f : P → K) (p : P) (pts : List P) (w : K) (ws : List K) :
    quadSum f (p :: pts) (w :: ws) = w * f p + quadSum f pts ws := by simp [quadSum]

theorem pointLoop_ok {V : Space K (P × Nat)} (hV : V.WF) {collide : P → Nat} {m : K} (ws0 : List K) :
    ∀ (pts : List P) (ws : List K) (i : Nat) (data : List (Nat × (Nat → K))), ws0.drop i = ws →
    pts.length = ws.length → GoodData V.dim data →
    ∃ data', pointLoop V collide ws0 m i pts data = .ok data' ∧ GoodData V.dim data' ∧
      ∀ (u : Nat → K) (k : Nat), dataAct data' u k = dataAct data u k +
        quadSum (zeroOutside V.numCells collide (valueAt V collide u k)) pts ws / m
  | [], ws, i, data, _, hl, hg => ⟨data, rfl, hg, fun u k => by
      cases ws <;> simp [quadSum]⟩
  | p :: pts, [], _, _, _, hl, _ => by simp at hl
  | p :: pts, w :: ws, i, data, hd, hl, hg => by
      have hw : ws0[i]? = some w := by
        have : (ws0.drop i)[0]? = some w := by rw [hd]; rfl
        rwa [List.getElem?_drop, Nat.add_zero] at this
      have hd' : ws0.drop (i + 1) = ws := by
        rw [show i + 1 = 1 + i by omega, Nat.add_comm, ← List.drop_drop, hd]; rfl
      by_cases hc : V.numCells ≤ collide p
      · obtain ⟨data', h1, h2, h3⟩ := pointLoop_ok hV (collide := collide) (m := m) ws0 pts ws (i + 1) data hd'
          (by simpa using hl) hg
        refine ⟨data', ?_, h2, fun u k => ?_⟩
        · rw [pointLoop, if_pos hc]; exact h1
        · rw [h3, quadSum_cons, zeroOutside, if_neg (by omega), mul_zero, zero_add]
      · have hlt : collide p < V.numCells := by omega
        obtain ⟨g1, g2⟩ := addCell_ok (V := V) (w := w) (m := m) (c := collide p) (p := p) 0
          (V.cellDofs (collide p)) data (hV.lt _ hlt) hg
        obtain ⟨data', h1, h2, h3⟩ := pointLoop_ok hV (collide := collide) (m := m) ws0 pts ws (i + 1) _ hd'
          (by simpa using hl) g1
        refine ⟨data', ?_, h2, fun u k => ?_⟩
        · rw [pointLoop, if_neg hc, pyGet_eq_ok.2 hw, py_bind_ok]; exact h1
        · rw [h3, g2, quadSum_cons, zeroOutside, if_pos hlt, hV.len _ hlt, valueAt, fnOn]
          rw [add_div, add_assoc]
          congr 2
          simp only [Nat.zero_add, div_eq_mul_inv, Finset.mul_sum, Finset.sum_mul]
          refine Finset.sum_congr rfl (fun l _ => ?_)
          ring

/-- The row of a dof: for every vector the weighted sum of the values over the total weight. -/
theorem rowData_ok {V : Space K (P × Nat)} (hV : V.WF) {collide : P → Nat} {quad : Quad K P} {x n : P}
    {pts : List P} {ws : List K} (hq : quad x n = .ok (pts, ws)) (hl : pts.length = ws.length) :
    ∃ data, rowData V collide quad x n = .ok data ∧ GoodData V.dim data ∧
      ∀ (u : Nat → K) (k : Nat), dataAct data u k =
        quadMean (zeroOutside V.numCells collide (valueAt V collide u k)) pts ws := by
  obtain ⟨data, h1, h2, h3⟩ := pointLoop_ok hV (collide := collide) (m := ws.sum) ws pts ws 0 [] rfl hl
    ⟨by simp, by simp⟩
  refine ⟨data, by rw [rowData, hq, py_bind_ok]; exact h1, h2, fun u k => ?_⟩
  rw [h3, quadMean]
  simp [dataAct]

/-! ## Scalar spaces -/

theorem mem_pairs {L : Line P} {q : Nat × Nat} :
    q ∈ L.pairs ↔ q.1 < L.numCells ∧ q.2 ∈ L.cellDofs q.1 := by
  obtain ⟨t, d⟩ := q
  simp only [Line.pairs, List.mem_flatMap, List.mem_range, List.mem_map, Prod.mk.injEq]
  constructor
  · rintro ⟨t', ht, d', hd, rfl, rfl⟩; exact ⟨ht, hd⟩
  · rintro ⟨ht, hd⟩; exact ⟨t, ht, d, hd, rfl, rfl⟩

/-- Triples of one row. -/
def rowTriples (d : Nat) (data : List (Nat × (Nat → K))) : List (Nat × Nat × K) :=
  data.map (fun p => (d, p.1, p.2 0))

theorem zip_row (d : Nat) (data : List (Nat × (Nat → K))) :
    (List.replicate data.length d).zip ((data.map (fun p => p.1)).zip (data.map (fun p => p.2 0))) =
      rowTriples d data := by
  induction data with
  | nil => rfl
  | cons p data ih =>
    simp only [List.length_cons, List.replicate_succ, List.map_cons, List.zip_cons_cons, rowTriples]
    rw [ih]; rfl

theorem act_rowTriples (d d' : Nat) (data : List (Nat × (Nat → K))) (u : Nat → K) :
    actTriples u (rowTriples d' data) d = if d' = d then dataAct data u 0 else 0 := by
  unfold actTriples rowTriples dataAct
  split
  · rename_i h; subst h
    simp [List.filter_map, Function.comp_def]
  · rename_i h
    simp [List.filter_map, Function.comp_def, h]

theorem scalarLoop_ok {V : Space K (P × Nat)} {L : Line P} {collide : P → Nat} {quad : Quad K P}
    {DATA : Nat → Nat → List (Nat × (Nat → K))} : ∀ (ps : List (Nat × Nat)) (I J : List Nat) (VS : List K),
    I.length = VS.length → J.length = VS.length →
    (∀ q ∈ ps, rowData V collide quad (L.coords q.2) (L.normal q.1) = .ok (DATA q.1 q.2)) →
    ∃ I' J' VS', scalarLoop V L collide quad ps (I, J, VS) = .ok (I', J', VS') ∧
      I'.length = VS'.length ∧ J'.length = VS'.length ∧
      I'.zip (J'.zip VS') = I.zip (J.zip VS) ++ ps.flatMap (fun q => rowTriples q.2 (DATA q.1 q.2)) ∧
      (∀ r ∈ I', r ∈ I ∨ ∃ q ∈ ps, q.2 = r) ∧
      (∀ c ∈ J', c ∈ J ∨ ∃ q ∈ ps, ∃ p ∈ DATA q.1 q.2, p.1 = c)
  | [], I, J, VS, h1, h2, _ => ⟨I, J, VS, rfl, h1, h2, by simp, fun r h => Or.inl h, fun c h => Or.inl h⟩
  | (t, d) :: ps, I, J, VS, h1, h2, hd => by
      obtain ⟨I', J', VS', e, l1, l2, z, r1, r2⟩ := scalarLoop_ok (V := V) (L := L) (collide := collide)
        (quad := quad) (DATA := DATA) ps
        (I ++ List.replicate (DATA t d).length d) (J ++ (DATA t d).map (fun p => p.1))
        (VS ++ (DATA t d).map (fun p => p.2 0)) (by simp [h1]) (by simp [h2])
        (fun q hq => hd q (by simp [hq]))
      refine ⟨I', J', VS', ?_, l1, l2, ?_, fun r hr => ?_, fun c hc => ?_⟩
      · rw [scalarLoop, hd (t, d) (by simp), py_bind_ok, ← e]
        congr 1
        by_cases hemp : (DATA t d).isEmpty = true
        · rw [if_pos hemp]
          have : DATA t d = [] := List.isEmpty_iff.1 hemp
          simp [this]
        · rw [if_neg hemp]
      · rw [z, List.zip_append (by simp [h2]), List.zip_append (by simp [h1, h2]), zip_row]
        simp
      · rcases r1 r hr with h | ⟨q, hq, rfl⟩
        · rcases List.mem_append.1 h with h | h
          · exact Or.inl h
          · exact Or.inr ⟨(t, d), by simp, (List.mem_replicate.1 h).2.symm⟩
        · exact Or.inr ⟨q, by simp [hq], rfl⟩
      · rcases r2 c hc with h | ⟨q, hq, p, hp, rfl⟩
        · rcases List.mem_append.1 h with h | h
          · exact Or.inl h
          · obtain ⟨p, hp, rfl⟩ := List.mem_map.1 h
            exact Or.inr ⟨(t, d), by simp, p, hp, rfl⟩
        · exact Or.inr ⟨q, by simp [hq], p, hp, rfl⟩

theorem actTriples_pairs {DATA : Nat → Nat → List (Nat × (Nat → K))} (u : Nat → K) (d : Nat) :
    ∀ ps : List (Nat × Nat),
    actTriples u (ps.flatMap (fun q => rowTriples q.2 (DATA q.1 q.2))) d =
      (ps.map (fun q => if q.2 = d then dataAct (DATA q.1 q.2) u 0 else 0)).sum
  | [] => by simp [actTriples]
  | q :: ps => by
      rw [List.flatMap_cons, actTriples_append, act_rowTriples, actTriples_pairs u d ps]
      simp

theorem pairs_nodup {L : Line P} {size : Nat} (h : L.WF size) : L.pairs.Nodup := by
  rw [Line.pairs, List.nodup_flatMap]
  refine ⟨fun t ht => (h.nodup t (List.mem_range.1 ht)).map (fun a b e => by simpa using e), ?_⟩
  refine List.Pairwise.imp ?_ List.nodup_range
  intro a b hab x hx hy
  obtain ⟨_, _, rfl⟩ := List.mem_map.1 hx
  obtain ⟨_, _, e⟩ := List.mem_map.1 hy
  simp only [Prod.mk.injEq] at e
  exact hab e.1.symm

theorem sum_single {α : Type} [DecidableEq α] (f : α → K) (a : α) : ∀ (l : List α), l.Nodup → a ∈ l →
    (∀ b ∈ l, b ≠ a → f b = 0) → (l.map f).sum = f a
  | [], _, h, _ => by simp at h
  | b :: l, hn, h, hz => by
      rw [List.nodup_cons] at hn
      rw [List.map_cons, List.sum_cons]
      by_cases hb : b = a
      · subst hb
        have : (l.map f).sum = 0 := by
          refine List.sum_eq_zero (fun x hx => ?_)
          obtain ⟨c, hc, rfl⟩ := List.mem_map.1 hx
          exact hz c (by simp [hc]) (fun e => hn.1 (e ▸ hc))
        rw [this, add_zero]
      · rw [hz b (by simp) hb, zero_add]
        refine sum_single f a l hn.2 ?_ (fun c hc => hz c (by simp [hc]))
        rcases List.mem_cons.1 h with h | h
        · exact absurd h.symm hb
        · exact h

/-! ## Vector valued spaces -/

theorem write_data (r k : Nat) (data : List (Nat × (Nat → K))) {n : Nat} (hg : GoodData n data)
    (M : Nat → Nat → K) (h0 : ∀ j, M r j = 0) (u : Nat → K) :
    ∑ j ∈ range n, write .insert r ((data.map (fun p => p.1)).zip (data.map (fun p => p.2 k))) M r j * u j =
      dataAct data u k := by
  have hz : (data.map (fun p => p.1)).zip (data.map (fun p => p.2 k)) = data.map (fun p => (p.1, p.2 k)) := by
    rw [List.zip_map', ]
  rw [hz]
  obtain ⟨hn, hlt⟩ := hg
  have e : ∀ j, write .insert r (data.map (fun p => (p.1, p.2 k))) M r j =
      (data.map (fun p => if p.1 = j then p.2 k else 0)).sum := by
    intro j
    by_cases hj : ∃ p ∈ data, p.1 = j
    · obtain ⟨p, hp, rfl⟩ := hj
      rw [write_insert_mem r _ M p.1 (p.2 k) (by simpa [List.map_map, Function.comp_def] using hn)
        (List.mem_map.2 ⟨p, hp, rfl⟩)]
      clear hz hlt h0
      induction data with
      | nil => simp at hp
      | cons q data ih =>
        simp only [List.map_cons, List.nodup_cons] at hn
        rw [List.map_cons, List.sum_cons]
        rcases List.mem_cons.1 hp with rfl | hp
        · rw [if_pos rfl, List.sum_eq_zero, add_zero]
          intro x hx
          obtain ⟨c, hc, rfl⟩ := List.mem_map.1 hx
          rw [if_neg]
          intro hcq
          exact hn.1 (List.mem_map.2 ⟨c, hc, hcq⟩)
        · rw [← ih hn.2 hp, if_neg, zero_add]
          intro hq
          exact hn.1 (List.mem_map.2 ⟨p, hp, hq.symm⟩)
    · rw [write_insert_other, h0, List.sum_eq_zero]
      · intro x hx
        obtain ⟨c, hc, rfl⟩ := List.mem_map.1 hx
        exact if_neg (fun h => hj ⟨c, hc, h⟩)
      · refine Or.inr (fun h => hj ?_)
        simpa [List.map_map] using h
  simp only [e]
  clear e hz h0 hn
  unfold dataAct
  induction data with
  | nil => simp
  | cons q data ih =>
    simp only [List.map_cons, List.sum_cons, add_mul, Finset.sum_add_distrib]
    rw [ih (fun p hp => hlt p (by simp [hp]))]
    congr 1
    rw [Finset.sum_eq_single q.1]
    · rw [if_pos rfl]
    · intro j _ hj; rw [if_neg (Ne.symm hj), zero_mul]
    · intro hc; exact absurd (Finset.mem_range.2 (hlt q (by simp))) hc

theorem shiftLoop_ok {m n d : Nat} {data : List (Nat × (Nat → K))} (hg : GoodData n data) :
    ∀ (ks : List Nat) (M : Nat → Nat → K), ks.Nodup → (∀ k ∈ ks, d + k < m) →
    (∀ k ∈ ks, ∀ j, M (d + k) j = 0) →
    ∃ M', shiftLoop m n d data ks M = .ok M' ∧
      (∀ k ∈ ks, ∀ u : Nat → K, ∑ j ∈ range n, M' (d + k) j * u j = dataAct data u k) ∧
      ∀ r, (∀ k ∈ ks, r ≠ d + k) → ∀ j, M' r j = M r j
  | [], M, _, _, _ => ⟨M, rfl, by simp, fun _ _ _ => rfl⟩
  | k :: ks, M, hn, hm, h0 => by
      rw [List.nodup_cons] at hn
      let M1 := write .insert (d + k) ((data.map (fun p => p.1)).zip (data.map (fun p => p.2 k))) M
      have hM1 : ∀ r, r ≠ d + k → ∀ j, M1 r j = M r j := fun r hr j =>
        write_insert_other _ _ _ _ _ (Or.inl hr)
      have hne : ∀ k' ∈ ks, d + k' ≠ d + k := fun k' hk' e => hn.1 (by
        have : k' = k := by omega
        rwa [← this])
      obtain ⟨M', e, h1, h2⟩ := shiftLoop_ok (m := m) (d := d) hg ks M1 hn.2 (fun k hk => hm k (by simp [hk]))
        (fun k' hk' j => by rw [hM1 _ (hne k' hk')]; exact h0 k' (by simp [hk']) j)
      refine ⟨M', ?_, fun k' hk' u => ?_, fun r hr j => ?_⟩
      · have hcols : ∀ c ∈ data.map (fun p => p.1), c < n := fun c hc => by
          obtain ⟨p, hp, rfl⟩ := List.mem_map.1 hc
          exact hg.lt p hp
        rw [shiftLoop, setValues, if_pos (by simp), if_pos ⟨hm k (by simp), hcols⟩, py_bind_ok]
        exact e
      · rcases List.mem_cons.1 hk' with rfl | hk'
        · have : ∀ j, M' (d + k') j = M1 (d + k') j := h2 _ (fun k'' hk'' e => hne k'' hk'' e.symm)
          simp only [this]
          exact write_data _ _ _ hg M (h0 k' (by simp)) u
        · exact h1 k' hk' u
      · rw [h2 r (fun k' hk' => hr k' (by simp [hk'])) j, hM1 r (hr k (by simp))]

/-- The matrix after some of the pairs: `DATA t d` are the data written for the dof, if any. -/
structure Filled (m n size : Nat) (DATA : Nat → Nat → Option (List (Nat × (Nat → K))))
    (done : List (Nat × Nat)) (M : Nat → Nat → K) : Prop where
  row : ∀ q ∈ done, ∀ data, DATA q.1 q.2 = some data → ∀ k, k < size → ∀ u : Nat → K,
    ∑ j ∈ range n, M (q.2 + k) j * u j = dataAct data u k
  zero : ∀ r, (∀ q ∈ done, DATA q.1 q.2 ≠ none → ∀ k, k < size → r ≠ q.2 + k) → ∀ j, M r j = 0

/-- A loop writing the rows of distinct dofs. -/
theorem fill_ok {m n size : Nat} {DATA : Nat → Nat → Option (List (Nat × (Nat → K)))}
    {loop : List (Nat × Nat) → (Nat → Nat → K) → Py (Nat → Nat → K)}
    (hnil : ∀ M, loop [] M = .ok M)
    {all : List (Nat × Nat)}
    (hnone : ∀ q ps M, q ∈ all → DATA q.1 q.2 = none → loop (q :: ps) M = loop ps M)
    (hcons : ∀ q ps M data, q ∈ all → DATA q.1 q.2 = some data → loop (q :: ps) M = (do
      let M ← shiftLoop m n q.2 data (List.range size) M
      loop ps M))
    (hall : all.Nodup)
    (hgood : ∀ q ∈ all, ∀ data, DATA q.1 q.2 = some data → GoodData n data)
    (hlt : ∀ q ∈ all, ∀ k, k < size → q.2 + k < m)
    (hdis : ∀ q ∈ all, ∀ q' ∈ all, ∀ k, k < size → ∀ k', k' < size → q.2 + k = q'.2 + k' → q = q' ∧ k = k') :
    ∀ (ps done : List (Nat × Nat)) (M : Nat → Nat → K), done ++ ps = all →
      Filled m n size DATA done M → ∃ M', loop ps M = .ok M' ∧ Filled m n size DATA all M'
  | [], done, M, e, h => ⟨M, hnil M, by rw [List.append_nil] at e; rwa [← e]⟩
  | q :: ps, done, M, e, h => by
      have hq : q ∈ all := by rw [← e]; simp
      have hsub : ∀ q' ∈ done, q' ∈ all := fun q' hq' => by rw [← e]; simp [hq']
      have hqd : q ∉ done := by
        rw [← e] at hall
        intro hc
        exact (List.disjoint_of_nodup_append hall) hc (by simp)
      have e' : (done ++ [q]) ++ ps = all := by rw [← e]; simp
      cases hD : DATA q.1 q.2 with
      | none =>
        obtain ⟨M', h1, h2⟩ := fill_ok hnil hnone hcons hall hgood hlt hdis ps (done ++ [q]) M e'
          ⟨fun q' hq' data hd k hk u => by
            rcases List.mem_append.1 hq' with hq' | hq'
            · exact h.row q' hq' data hd k hk u
            · rw [List.mem_singleton.1 hq', hD] at hd; exact absurd hd (by simp),
           fun r hr j => h.zero r (fun q' hq' => hr q' (by simp [hq'])) j⟩
        exact ⟨M', by rw [hnone q ps M hq hD]; exact h1, h2⟩
      | some data =>
        have hz : ∀ k ∈ List.range size, ∀ j, M (q.2 + k) j = 0 := by
          intro k hk j
          rw [List.mem_range] at hk
          refine h.zero _ (fun q' hq' _ k' hk' heq => ?_) j
          have := (hdis q hq q' (hsub q' hq') k hk k' hk' heq).1
          exact hqd (this ▸ hq')
        obtain ⟨M1, s1, s2, s3⟩ := shiftLoop_ok (m := m) (d := q.2) (hgood q hq data hD) (List.range size) M
          List.nodup_range (fun k hk => hlt q hq k (List.mem_range.1 hk)) hz
        obtain ⟨M', h1, h2⟩ := fill_ok hnil hnone hcons hall hgood hlt hdis ps (done ++ [q]) M1 e'
          ⟨fun q' hq' data' hd k hk u => by
            rcases List.mem_append.1 hq' with hq' | hq'
            · have : ∀ j, M1 (q'.2 + k) j = M (q'.2 + k) j := s3 _ (fun k' hk' heq => by
                have := (hdis q' (hsub q' hq') q hq k hk k' (List.mem_range.1 hk') heq).1
                exact hqd (this ▸ hq'))
              simp only [this]
              exact h.row q' hq' data' hd k hk u
            · have hqq := List.mem_singleton.1 hq'
              subst hqq
              rw [hD] at hd
              obtain rfl := Option.some.inj hd
              exact s2 k (List.mem_range.2 hk) u,
           fun r hr j => by
            rw [s3 r (fun k hk => hr q (by simp) (by simp [hD]) k (List.mem_range.1 hk)) j]
            exact h.zero r (fun q' hq' => hr q' (by simp [hq'])) j⟩
        exact ⟨M', by rw [hcons q ps M data hq hD, s1, py_bind_ok]; exact h1, h2⟩

theorem filled_init (m n size : Nat) (DATA : Nat → Nat → Option (List (Nat × (Nat → K)))) :
    Filled m n size DATA [] (fun _ _ => 0) := ⟨by simp, fun _ _ _ => rfl⟩

theorem pairs_distinct {L : Line P} {size : Nat} (h : L.WF size) :
    ∀ q ∈ L.pairs, ∀ q' ∈ L.pairs, ∀ k, k < size → ∀ k', k' < size → q.2 + k = q'.2 + k' →
      q = q' ∧ k = k' := by
  intro q hq q' hq' k hk k' hk' e
  obtain ⟨h1, h2⟩ := mem_pairs.1 hq
  obtain ⟨h1', h2'⟩ := mem_pairs.1 hq'
  obtain ⟨a, b, c⟩ := h.distinct _ h1 _ h1' _ h2 _ h2' k hk k' hk' e
  exact ⟨Prod.ext a b, c⟩

theorem pairs_lt {L : Line P} {size : Nat} (h : L.WF size) :
    ∀ q ∈ L.pairs, ∀ k, k < size → q.2 + k < L.dim := by
  intro q hq k hk
  obtain ⟨h1, h2⟩ := mem_pairs.1 hq
  exact h.lt _ h1 _ h2 k hk

theorem basisData_good {V : Space K (P × Nat)} (hV : V.WF) {c : Nat} (hc : c < V.numCells) (p : P) :
    GoodData V.dim (basisData V c p) := by
  have hk : (basisData V c p).map (fun p => p.1) = V.cellDofs c := by
    simp only [basisData, List.map_map, Function.comp_def]
    exact List.zipIdx_map_fst 0 _
  constructor
  · rw [hk]; exact hV.nodup c hc
  · intro q hq
    exact hV.lt c hc q.1 (by rw [← hk]; exact List.mem_map.2 ⟨q, hq, rfl⟩)

theorem basisData_act {V : Space K (P × Nat)} (hV : V.WF) {c : Nat} (hc : c < V.numCells) (p : P)
    (u : Nat → K) (k : Nat) : dataAct (basisData V c p) u k = fnOn V u c (p, k) := by
  unfold dataAct basisData fnOn
  rw [List.map_map, ← hV.len c hc]
  generalize V.cellDofs c = ds
  simp only [Function.comp_def]
  have : ∀ (ds : List Nat) (o : Nat), ((ds.zipIdx o).map (fun q => V.basis c q.2 (p, k) * u q.1)).sum =
      ∑ l ∈ range ds.length, u (ds.getD l 0) * V.basis c (o + l) (p, k) := by
    intro ds
    induction ds with
    | nil => simp
    | cons d ds ih =>
      intro o
      rw [List.zipIdx_cons, List.map_cons, List.sum_cons, ih, List.length_cons, Finset.sum_range_succ']
      simp only [List.getD_cons_succ, List.getD_cons_zero, Nat.add_zero]
      rw [add_comm, mul_comm]
      congr 1
      refine Finset.sum_congr rfl (fun i _ => ?_)
      rw [show o + 1 + i = o + (i + 1) by omega]
  simpa using this ds 0

end Verif.Average
