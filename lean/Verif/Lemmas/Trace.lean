import Verif.Model.Trace
import Verif.Lemmas.DofMat
import Mathlib.Algebra.BigOperators.Group.List.Basic
import Mathlib.Algebra.Field.Basic
/-! Lemmas about the assembly of the trace matrices. -/
namespace Verif.Trace
open Verif Verif.BlockOps Verif.DofMat Finset
variable {K X : Type} [CommRing K]

/-! ## Triples -/

/-- Action of the matrix given by triples. -/
def actTriples (u : Nat → K) (ts : List (Nat × Nat × K)) (d : Nat) : K :=
  ((ts.filter (fun p => p.1 = d)).map (fun p => p.2.2 * u p.2.1)).sum

theorem actTriples_append (u : Nat → K) (ts ts' : List (Nat × Nat × K)) (d : Nat) :
    actTriples u (ts ++ ts') d = actTriples u ts d + actTriples u ts' d := by
  simp [actTriples]

theorem csr_act (m n : Nat) (u : Nat → K) (d : Nat) (hd : d < m) :
    ∀ (ts : List (Nat × Nat × K)), (∀ p ∈ ts, p.2.1 < n) →
    ∑ j ∈ range n, ((ts.filter (fun p => p.1 = d ∧ p.2.1 = j)).map (fun p => p.2.2)).sum * u j =
      actTriples u ts d
  | [], _ => by simp [actTriples]
  | (r, c, v) :: ts, h => by
      have ih := csr_act m n u d hd ts (fun p hp => h p (by simp [hp]))
      have hc : c < n := h (r, c, v) (by simp)
      have e : ∀ j, (((((r, c, v) :: ts).filter (fun p => p.1 = d ∧ p.2.1 = j)).map
          (fun p => p.2.2)).sum : K) = (if r = d ∧ c = j then v else 0) +
          ((ts.filter (fun p => p.1 = d ∧ p.2.1 = j)).map (fun p => p.2.2)).sum := by
        intro j
        by_cases hj : r = d ∧ c = j
        · simp [List.filter_cons, hj]
        · simp [List.filter_cons, hj]
      simp only [e, add_mul, Finset.sum_add_distrib]
      rw [ih]
      by_cases hr : r = d
      · rw [Finset.sum_eq_single c]
        · simp [actTriples, hr]
        · intro b _ hb; simp [Ne.symm hb]
        · intro hcn; exact absurd (Finset.mem_range.2 hc) hcn
      · simp [actTriples, hr]

theorem zip_tile (sel : List Nat) : ∀ (dofs : List Nat) (vals : List (List K)),
    vals.length = dofs.length → (∀ r ∈ vals, r.length = sel.length) →
    (tile sel dofs.length).zip ((repeatEach dofs sel.length).zip vals.flatten) =
      (dofs.zip vals).flatMap (fun p => (sel.zip p.2).map (fun q => (q.1, p.1, q.2)))
  | [], [], _, _ => by simp [tile, repeatEach]
  | d :: ds, r :: vs, h, hr => by
      have ih := zip_tile sel ds vs (by simpa using h) (fun r hr' => hr r (by simp [hr']))
      have hrl : r.length = sel.length := hr r (by simp)
      have h1 : tile sel (d :: ds).length = sel ++ tile sel ds.length := by
        simp [tile, List.replicate_succ]
      have h2 : repeatEach (d :: ds) sel.length = List.replicate sel.length d ++ repeatEach ds sel.length := by
        simp [repeatEach]
      rw [h1, h2, List.flatten_cons, List.zip_append (by simp [hrl]), List.zip_append (by simp [hrl]), ih]
      simp only [List.zip_cons_cons, List.flatMap_cons]
      congr 1
      clear ih h1 h2 hr h
      induction sel generalizing r with
      | nil => simp
      | cons a sel ih' =>
        cases r with
        | nil => simp at hrl
        | cons b r =>
          simp only [List.length_cons, List.replicate_succ, List.zip_cons_cons, List.map_cons]
          rw [ih' r (by simpa using hrl)]

/-- Boolean indexing of two lists at once. -/
def msk {α : Type} (xs : List α) (bs : List Bool) : List α :=
  (xs.zip bs).filterMap (fun p => if p.2 then some p.1 else none)

theorem mask_ok {α : Type} {xs : List α} {bs : List Bool} (h : xs.length = bs.length) :
    mask xs bs = .ok (msk xs bs) := by simp [mask, h, msk]

theorem msk_cons {α : Type} (x : α) (b : Bool) (xs : List α) (bs : List Bool) :
    msk (x :: xs) (b :: bs) = if b then x :: msk xs bs else msk xs bs := by
  cases b <;> simp [msk]

theorem msk_length {α : Type} : ∀ (xs : List α) (bs : List Bool), xs.length = bs.length →
    (msk xs bs).length = bs.count true
  | [], [], _ => rfl
  | x :: xs, b :: bs, h => by
      have ih := msk_length xs bs (by simpa using h)
      rw [msk_cons]
      cases b <;> simp [ih]

theorem msk_true {α : Type} : ∀ (xs : List α), msk xs (List.replicate xs.length true) = xs
  | [] => rfl
  | x :: xs => by
      rw [List.length_cons, List.replicate_succ, msk_cons, msk_true xs]
      rfl

theorem mem_msk {α : Type} {a : α} : ∀ {xs : List α} {bs : List Bool}, xs.length = bs.length →
    (a ∈ msk xs bs ↔ ∃ l : Nat, xs[l]? = some a ∧ bs[l]? = some true)
  | [], [], _ => by simp [msk]
  | x :: xs, b :: bs, h => by
      have ih := mem_msk (a := a) (xs := xs) (bs := bs) (by simpa using h)
      rw [msk_cons]
      constructor
      · intro hm
        cases b with
        | true =>
          rcases List.mem_cons.1 (by simpa using hm) with rfl | hm
          · exact ⟨0, rfl, rfl⟩
          · obtain ⟨l, h1, h2⟩ := ih.1 hm
            exact ⟨l + 1, by simpa using h1, by simpa using h2⟩
        | false =>
          obtain ⟨l, h1, h2⟩ := ih.1 (by simpa using hm)
          exact ⟨l + 1, by simpa using h1, by simpa using h2⟩
      · rintro ⟨l, h1, h2⟩
        cases l with
        | zero =>
          simp only [List.getElem?_cons_zero, Option.some.injEq] at h1 h2
          subst h1 h2
          simp
        | succ l =>
          have := ih.2 ⟨l, by simpa using h1, by simpa using h2⟩
          cases b <;> simp [this]

/-- Row `d` of one block. -/
theorem act_block (u : Nat → K) (d c : Nat) : ∀ (tds : List Nat) (row : List K) (bs : List Bool),
    tds.Nodup → row.length = tds.length → bs.length = tds.length →
    actTriples u (((msk tds bs).zip (msk row bs)).map (fun q => (q.1, c, q.2))) d =
      match tds.findIdx? (· = d) with
      | some l => if bs[l]? = some true then row.getD l 0 * u c else 0
      | none => 0
  | [], row, bs, _, _, _ => by simp [msk, actTriples]
  | t :: tds, r :: row, b :: bs, hn, h1, h2 => by
      have ih := act_block u d c tds row bs (List.nodup_cons.1 hn).2 (by simpa using h1) (by simpa using h2)
      rw [msk_cons, msk_cons, List.findIdx?_cons]
      by_cases htd : t = d
      · have hnone : tds.findIdx? (· = d) = none := by
          rw [List.findIdx?_eq_none_iff]
          intro x hx
          have := (List.nodup_cons.1 hn).1
          simp only [decide_eq_false_iff_not]
          rintro rfl
          exact this (htd ▸ hx)
        rw [hnone] at ih
        simp only at ih
        cases b with
        | false => simp [htd, ih]
        | true =>
          simp only [if_true, List.zip_cons_cons, List.map_cons]
          rw [show ∀ (x : Nat × Nat × K) l, x :: l = [x] ++ l from fun _ _ => rfl, actTriples_append, ih]
          simp [actTriples, htd]
      · have hih : actTriples u (((msk tds bs).zip (msk row bs)).map (fun q => (q.1, c, q.2))) d =
            actTriples u (((if b then t :: msk tds bs else msk tds bs).zip
              (if b then r :: msk row bs else msk row bs)).map (fun q => (q.1, c, q.2))) d := by
          cases b with
          | false => rfl
          | true =>
            simp only [if_true, List.zip_cons_cons, List.map_cons]
            rw [show ∀ (x : Nat × Nat × K) l, x :: l = [x] ++ l from fun _ _ => rfl, actTriples_append]
            simp [actTriples, htd]
        rw [← hih, ih]
        simp only [htd, decide_false]
        cases tds.findIdx? (· = d) <;> simp

theorem actTriples_flatMap {α : Type} (u : Nat → K) (d : Nat) (f : α → List (Nat × Nat × K)) :
    ∀ (l : List α), actTriples u (l.flatMap f) d = (l.map (fun a => actTriples u (f a) d)).sum
  | [] => by simp [actTriples]
  | a :: l => by
      rw [List.flatMap_cons, actTriples_append, actTriples_flatMap u d f l]
      simp

/-! ## Steps -/

theorem fillLocal_ok {V TV : Space K X} {tv : Ev} :
    ∀ (ds : List Nat) (vb : Ev) (loc : List (List K)) (l : Nat), l + ds.length = V.spaceDim →
      loc.length = V.spaceDim →
      ∃ vb', fillLocal V TV tv vb loc l ds = .ok (vb', loc.take l ++
          (List.range' l ds.length).map (fun k => evalDofs TV tv (V.basis vb.cell k)))
  | [], vb, loc, l, hl, hb => ⟨vb, by simp [fillLocal, ← hb] at *; omega⟩
  | d :: ds, vb, loc, l, hl, hb => by
      have hlt : l < V.spaceDim := by simp only [List.length_cons] at hl; omega
      obtain ⟨vb', h⟩ := fillLocal_ok (V := V) (TV := TV) (tv := tv) ds { vb with dof := l }
        (loc.set l (evalDofs TV tv (V.basis vb.cell l))) (l + 1)
        (by simp only [List.length_cons] at hl; omega) (by simpa using hb)
      refine ⟨vb', ?_⟩
      rw [fillLocal, setDof_ok hlt]
      simp only [py_bind_ok, pySet, hb, hlt, if_true, fn]
      rw [h, List.take_succ_eq_append_getElem (by simpa [hb] using hlt)]
      simp only [List.length_cons, List.range'_succ, List.map_cons, List.take_set]
      rw [List.set_eq_of_length_le (by simp)]
      simp

/-- Values of the local matrix for trace cell `t` and cell `c`. -/
def locOf (V TV : Space K X) (t c : Nat) : List (List K) :=
  (List.range' 0 V.spaceDim).map (fun k => (List.range TV.spaceDim).map (fun l => TV.dofs t l (V.basis c k)))

theorem fillLocal_cell {V TV : Space K X} (hV : V.WF) {tv vb : Ev} {c : Nat} (hc : c < V.numCells)
    (hvb : vb.cell = c) {loc : List (List K)} (hl : loc.length = V.spaceDim) :
    ∃ vb', fillLocal V TV tv vb loc 0 (V.cellDofs c) = .ok (vb', locOf V TV tv.cell c) := by
  obtain ⟨vb', h⟩ := fillLocal_ok (V := V) (TV := TV) (tv := tv) (V.cellDofs c) vb loc 0
    (by rw [hV.len c hc]; omega) hl
  refine ⟨vb', ?_⟩
  rw [h, hV.len c hc, hvb]
  simp [locOf, evalDofs]

/-- What is known about the arrays when the cells `done` were visited. -/
structure InvC (V TV : Space K X) (choice : Nat → Nat) (done : List Nat) (s : CS K) : Prop where
  loc : s.loc.length = V.spaceDim
  len1 : s.rows.length = s.vals.length
  len2 : s.cols.length = s.vals.length
  rlt : ∀ r ∈ s.rows, r < TV.dim
  clt : ∀ c ∈ s.cols, c < V.dim
  act : ∀ u d, actTriples u (s.rows.zip (s.cols.zip s.vals)) d =
    match first (slots TV done) d with
    | some p => TV.dofs p.1 p.2.1 (fnOn V u (choice p.1))
    | none => 0

theorem dofs_sum {TV : Space K X} (hT : TV.LinearDofs) (t l : Nat) (s : Finset Nat) (a : Nat → K)
    (f : Nat → X → K) :
    TV.dofs t l (fun x => ∑ k ∈ s, a k * f k x) = ∑ k ∈ s, a k * TV.dofs t l (f k) := by
  classical
  induction s using Finset.induction_on with
  | empty =>
    simp only [Finset.sum_empty]
    have := hT.smul t l 0 (fun _ => 0)
    simpa using this
  | insert k s hk ih =>
    simp only [Finset.sum_insert hk]
    rw [hT.add, hT.smul, ih]

theorem findIdx_some {tds : List Nat} {d l : Nat} (hn : tds.Nodup) (h : tds[l]? = some d) :
    tds.findIdx? (· = d) = some l := by
  have hl : l < tds.length := by
    by_contra hc
    rw [List.getElem?_eq_none (by omega)] at h
    exact absurd h (by simp)
  rw [List.findIdx?_eq_some_iff_getElem]
  rw [List.getElem?_eq_getElem hl, Option.some.injEq] at h
  refine ⟨hl, by simpa using h, fun j hj => ?_⟩
  simp only [decide_eq_true_eq, ← h]
  intro he
  have := (List.Nodup.getElem_inj_iff hn).1 he
  omega

/-- The contribution of the block of cell `t`. -/
theorem block_act {V TV : Space K X} (hV : V.WF) (hT : TV.WF) (hL : TV.LinearDofs) {t c : Nat}
    (ht : t < TV.numCells) (hc : c < V.numCells) {bs : List Bool} (hb : bs.length = TV.spaceDim)
    (u : Nat → K) (d : Nat) :
    actTriples u (((V.cellDofs c).zip ((locOf V TV t c).map (fun row => msk row bs))).flatMap
      (fun p => ((msk (TV.cellDofs t) bs).zip p.2).map (fun q => (q.1, p.1, q.2)))) d =
      match (TV.cellDofs t).findIdx? (· = d) with
      | some l => if bs[l]? = some true then TV.dofs t l (fnOn V u c) else 0
      | none => 0 := by
  rw [actTriples_flatMap]
  have hlen := hT.len t ht
  have hz : (V.cellDofs c).zip ((locOf V TV t c).map (fun row => msk row bs)) =
      ((V.cellDofs c).zip ((List.range' 0 (V.cellDofs c).length).map (fun k =>
        (List.range TV.spaceDim).map (fun l => TV.dofs t l (V.basis c k))))).map
        (fun p => (p.1, msk p.2 bs)) := by
    rw [locOf, hV.len c hc, List.zip_map_right]
    rfl
  have key : ∀ (f : Nat → List K), (∀ k, (f k).length = (TV.cellDofs t).length) →
      (((V.cellDofs c).zip ((List.range' 0 (V.cellDofs c).length).map f)).map
        (fun p => actTriples u (((msk (TV.cellDofs t) bs).zip (msk p.2 bs)).map
          (fun q => (q.1, p.1, q.2))) d)).sum =
      ((V.cellDofs c).zip ((List.range' 0 (V.cellDofs c).length).map (fun k =>
        match (TV.cellDofs t).findIdx? (· = d) with
        | some l => if bs[l]? = some true then (f k).getD l 0 else 0
        | none => 0)) |>.map (fun p => p.2 * u p.1)).sum := by
    intro f hf
    congr 1
    rw [List.zip_map_right, List.zip_map_right, List.map_map, List.map_map]
    refine List.map_congr_left (fun p _ => ?_)
    simp only [Function.comp_apply, Prod.map_fst, Prod.map_snd, id]
    rw [act_block u d p.1 (TV.cellDofs t) (f p.2) bs (hT.nodup t ht) (hf _) (by omega)]
    cases (TV.cellDofs t).findIdx? (· = d) with
    | none => simp
    | some l => by_cases h : bs[l]? = some true <;> simp [h]
  rw [hz, List.map_map]
  refine (key (fun k => (List.range TV.spaceDim).map (fun l => TV.dofs t l (V.basis c k)))
    (fun k => by simp [hlen])).trans ?_
  rw [sum_zip_range (fun (a : Nat) (b : K) => b * u a) (V.cellDofs c)]
  cases hf : (TV.cellDofs t).findIdx? (· = d) with
  | none => simp
  | some l =>
    have hl : l < TV.spaceDim := by
      rw [← hlen]
      exact (List.findIdx?_eq_some_iff_getElem.1 hf).1
    by_cases h : bs[l]? = some true
    · simp only [h, if_true]
      rw [show fnOn V u c = fun x => ∑ l ∈ range V.spaceDim, u ((V.cellDofs c).getD l 0) * V.basis c l x
        from rfl, dofs_sum hL, hV.len c hc]
      refine Finset.sum_congr rfl (fun k _ => ?_)
      simp [hl, mul_comm]
    · simp [h]

/-- Effect of appending the block of cell `t`. -/
theorem inv_step {V TV : Space K X} (hV : V.WF) (hT : TV.WF) (hL : TV.LinearDofs) {choice : Nat → Nat}
    {done : List Nat} {s : CS K} (hI : InvC V TV choice done s) {t : Nat} (ht : t < TV.numCells)
    (hc : choice t < V.numCells) {bs : List Bool} (hb : bs.length = TV.spaceDim)
    (hbs : ∀ l d : Nat, (TV.cellDofs t)[l]? = some d → bs[l]? = some (first (slots TV done) d).isNone)
    {s' : CS K} (hloc : s'.loc.length = V.spaceDim)
    (hr : s'.rows = s.rows ++ tile (msk (TV.cellDofs t) bs) V.spaceDim)
    (hcol : s'.cols = s.cols ++ repeatEach (V.cellDofs (choice t)) (msk (TV.cellDofs t) bs).length)
    (hv : s'.vals = s.vals ++ ((locOf V TV t (choice t)).map (fun row => msk row bs)).flatten) :
    InvC V TV choice (done ++ [t]) s' := by
  have hbl : (TV.cellDofs t).length = bs.length := by rw [hT.len t ht, hb]
  have hm : ∀ r ∈ (locOf V TV t (choice t)).map (fun row => msk row bs),
      r.length = (msk (TV.cellDofs t) bs).length := by
    intro r hr
    simp only [locOf, List.map_map, List.mem_map, Function.comp_apply] at hr
    obtain ⟨k, _, rfl⟩ := hr
    rw [msk_length _ _ (by simp [hb]), msk_length _ _ hbl]
  have hll : ((locOf V TV t (choice t)).map (fun row => msk row bs)).length =
      (V.cellDofs (choice t)).length := by simp [locOf, hV.len _ hc]
  have htile : (tile (msk (TV.cellDofs t) bs) V.spaceDim).length =
      V.spaceDim * (msk (TV.cellDofs t) bs).length := by simp [tile, List.sum_replicate]
  have hrep : (repeatEach (V.cellDofs (choice t)) (msk (TV.cellDofs t) bs).length).length =
      V.spaceDim * (msk (TV.cellDofs t) bs).length := by
    rw [repeatEach, List.length_flatMap]
    simp [hV.len _ hc, List.sum_replicate]
  have hflat : (((locOf V TV t (choice t)).map (fun row => msk row bs)).flatten).length =
      V.spaceDim * (msk (TV.cellDofs t) bs).length := by
    rw [List.length_flatten, List.map_congr_left (g := fun _ => (msk (TV.cellDofs t) bs).length)
      (fun r hr => hm r hr)]
    rw [List.map_const', List.sum_replicate, hll, hV.len _ hc, smul_eq_mul]
  refine ⟨hloc, ?_, ?_, ?_, ?_, ?_⟩
  · rw [hr, hv, List.length_append, List.length_append, hI.len1, htile, hflat]
  · rw [hcol, hv, List.length_append, List.length_append, hI.len2, hrep, hflat]
  · intro r hrm
    rw [hr, List.mem_append] at hrm
    rcases hrm with h | h
    · exact hI.rlt r h
    · simp only [tile, List.mem_flatten, List.mem_replicate] at h
      obtain ⟨l, ⟨_, rfl⟩, hl⟩ := h
      obtain ⟨k, hk, _⟩ := (mem_msk hbl).1 hl
      exact hT.lt t ht r (List.mem_of_getElem? hk)
  · intro c hcm
    rw [hcol, List.mem_append] at hcm
    rcases hcm with h | h
    · exact hI.clt c h
    · simp only [repeatEach, List.mem_flatMap, List.mem_replicate] at h
      obtain ⟨a, ha, _, rfl⟩ := h
      exact hV.lt _ hc _ ha
  · intro u d
    have e1 : s'.rows.zip (s'.cols.zip s'.vals) = s.rows.zip (s.cols.zip s.vals) ++
        ((V.cellDofs (choice t)).zip ((locOf V TV t (choice t)).map (fun row => msk row bs))).flatMap
      (fun p => ((msk (TV.cellDofs t) bs).zip p.2).map (fun q => (q.1, p.1, q.2))) := by
      rw [hr, hcol, hv, List.zip_append hI.len2, List.zip_append (by simp [hI.len1, hI.len2])]
      congr 1
      rw [← hV.len _ hc]
      exact zip_tile _ _ _ hll hm
    rw [e1, actTriples_append, hI.act, block_act hV hT hL ht hc hb]
    have e2 : slots TV (done ++ [t]) = slots TV done ++ slotsAt t 0 (TV.cellDofs t) := by simp [slots]
    rw [e2, first_append]
    cases hf : (TV.cellDofs t).findIdx? (· = d) with
    | none =>
      have : first (slotsAt t 0 (TV.cellDofs t)) d = none := by
        have := first_slots_none (TV := TV) (cells := [t]) (d := d) (by
          intro t' ht' hd
          simp only [List.mem_singleton] at ht'
          subst ht'
          rw [List.findIdx?_eq_none_iff] at hf
          have := hf d hd
          simp at this)
        simpa [slots] using this
      rw [this]
      simp
    | some l =>
      have hl : (TV.cellDofs t)[l]? = some d := by
        obtain ⟨hlt, h1, _⟩ := List.findIdx?_eq_some_iff_getElem.1 hf
        rw [List.getElem?_eq_getElem hlt]
        simpa using h1
      simp only
      rw [hbs l d hl]
      cases hfd : first (slots TV done) d with
      | some p => simp
      | none =>
        rw [find_slotsAt (TV.cellDofs t) l 0 (hT.nodup t ht) (Nat.zero_le _) hl]
        simp

theorem foldl_set_false : ∀ (sel : List Nat) (need : List Bool) (d : Nat),
    (sel.foldl (fun n d => n.set d false) need)[d]? =
      if d ∈ sel then (need[d]?).map (fun _ => false) else need[d]?
  | [], need, d => by simp
  | e :: sel, need, d => by
      rw [List.foldl_cons, foldl_set_false sel]
      by_cases hde : d = e
      · subst hde
        by_cases h : d ∈ sel
        · simp only [h, List.mem_cons, or_true, if_true, List.getElem?_set_self']
          cases need[d]? <;> simp
        · simp only [h, List.mem_cons, true_or, if_true, if_false, List.getElem?_set_self']
          cases need[d]? <;> simp
      · simp [List.getElem?_set_ne (Ne.symm hde), hde]

/-- `needs_fill` when the cells `done` were visited. -/
def NeedOk (TV : Space K X) (done : List Nat) (need : List Bool) : Prop :=
  ∀ d, d < TV.dim → need[d]? = some (first (slots TV done) d).isNone

theorem cgStep_ok {V TV : Space K X} (hV : V.WF) (hT : TV.WF) (hL : TV.LinearDofs) {choice : Nat → Nat}
    {pick : Nat → Py Nat} {done : List Nat} {s : CS K} (hI : InvC V TV choice done s)
    (hN : NeedOk TV done s.need) {t : Nat} (ht : t < TV.numCells) (hp : pick t = .ok (choice t))
    (hc : choice t < V.numCells) :
    ∃ s', cgStep V TV pick t s = .ok s' ∧ InvC V TV choice (done ++ [t]) s' ∧
      NeedOk TV (done ++ [t]) s'.need := by
  have hun : pyMap (pyGet s.need) (TV.cellDofs t) =
      .ok ((TV.cellDofs t).map (fun d => (first (slots TV done) d).isNone)) :=
    pyMap_ok (fun d hd => pyGet_eq_ok.2 (hN d (hT.lt t ht d hd)))
  have hbl : (TV.cellDofs t).length =
    ((TV.cellDofs t).map (fun d => (first (slots TV done) d).isNone)).length := by simp
  obtain ⟨vb', hfl⟩ := fillLocal_cell (TV := TV) hV (tv := { s.tv with cell := t })
    (vb := { s.vb with cell := choice t }) hc rfl hI.loc
  have hmap : pyMap (fun row => mask row ((TV.cellDofs t).map (fun d => (first (slots TV done) d).isNone)))
      (locOf V TV t (choice t)) = .ok ((locOf V TV t (choice t)).map
        (fun row => msk row ((TV.cellDofs t).map (fun d => (first (slots TV done) d).isNone)))) := by
    refine pyMap_ok (fun row hrow => mask_ok ?_)
    simp only [locOf, List.mem_map] at hrow
    obtain ⟨k, _, rfl⟩ := hrow
    simp [hT.len t ht]
  refine ⟨{ s with
    tv := { s.tv with cell := t }, vb := vb', loc := locOf V TV t (choice t),
    need := (msk (TV.cellDofs t) ((TV.cellDofs t).map (fun d => (first (slots TV done) d).isNone))).foldl
      (fun n d => n.set d false) s.need,
    rows := s.rows ++ tile (msk (TV.cellDofs t)
      ((TV.cellDofs t).map (fun d => (first (slots TV done) d).isNone))) V.spaceDim,
    cols := s.cols ++ repeatEach (V.cellDofs (choice t))
      (((TV.cellDofs t).map (fun d => (first (slots TV done) d).isNone)).count true),
    vals := s.vals ++ ((locOf V TV t (choice t)).map
        (fun row => msk row ((TV.cellDofs t).map (fun d => (first (slots TV done) d).isNone)))).flatten },
    ?_, ?_⟩
  · rw [cgStep, setCell_ok ht, py_bind_ok, hun, py_bind_ok, mask_ok hbl, py_bind_ok, hp, py_bind_ok,
      setCell_ok hc, py_bind_ok, hfl]
    simp only [py_bind_ok]
    rw [hmap, py_bind_ok]
  · refine ⟨inv_step (bs := (TV.cellDofs t).map (fun d => (first (slots TV done) d).isNone)) hV hT hL hI
      ht hc (by simp [hT.len t ht]) (fun l d hl => by simp [hl]) (by simp [locOf]) rfl
      (by rw [msk_length _ _ hbl]) rfl, fun d hd => ?_⟩
    change (List.foldl (fun n d => n.set d false) s.need _)[d]? = _
    rw [foldl_set_false, hN d hd]
    have e2 : slots TV (done ++ [t]) = slots TV done ++ slotsAt t 0 (TV.cellDofs t) := by simp [slots]
    rw [e2, first_append]
    by_cases hdm : d ∈ TV.cellDofs t
    · obtain ⟨l, hl⟩ := List.getElem?_of_mem hdm
      rw [find_slotsAt (TV.cellDofs t) l 0 (hT.nodup t ht) (Nat.zero_le _) hl]
      cases hfd : first (slots TV done) d with
      | some p => simp
      | none =>
        rw [if_pos ((mem_msk hbl).2 ⟨l, hl, by simp [hl, hfd]⟩)]
        simp
    · have h1 : first (slotsAt t 0 (TV.cellDofs t)) d = none := by
        have := first_slots_none (TV := TV) (cells := [t]) (d := d) (by simpa using hdm)
        simpa [slots] using this
      rw [if_neg (fun h => ?_), h1]
      · simp
      · obtain ⟨l, hl, _⟩ := (mem_msk hbl).1 h
        exact hdm (List.mem_of_getElem? hl)

theorem dgStep_ok {V TV : Space K X} (hV : V.WF) (hT : TV.WF) (hL : TV.LinearDofs) {choice : Nat → Nat}
    {pick : Nat → Py Nat} {done : List Nat} {s : CS K} (hI : InvC V TV choice done s)
    {t : Nat} (ht : t < TV.numCells) (hp : pick t = .ok (choice t)) (hc : choice t < V.numCells)
    (hdis : ∀ t' ∈ done, ∀ d ∈ TV.cellDofs t, d ∉ TV.cellDofs t') :
    ∃ s', dgStep V TV pick t s = .ok s' ∧ InvC V TV choice (done ++ [t]) s' := by
  obtain ⟨vb', hfl⟩ := fillLocal_cell (TV := TV) hV (tv := { s.tv with cell := t })
    (vb := { s.vb with cell := choice t }) hc rfl hI.loc
  have hlt := msk_true (TV.cellDofs t)
  rw [hT.len t ht] at hlt
  refine ⟨{ s with
    tv := { s.tv with cell := t }, vb := vb', loc := locOf V TV t (choice t),
    rows := s.rows ++ tile (TV.cellDofs t) V.spaceDim,
    cols := s.cols ++ repeatEach (V.cellDofs (choice t)) TV.spaceDim,
    vals := s.vals ++ (locOf V TV t (choice t)).flatten }, ?_, ?_⟩
  · rw [dgStep, setCell_ok ht, py_bind_ok, hp, py_bind_ok, setCell_ok hc, py_bind_ok, hfl]
    simp only [py_bind_ok]
  · refine inv_step (bs := List.replicate TV.spaceDim true) hV hT hL hI ht hc (by simp)
      (fun l d hl => ?_) (by simp [locOf]) (by rw [hlt]) (by rw [hlt, hT.len t ht]) ?_
    · have : first (slots TV done) d = none :=
        first_slots_none (fun t' ht' => hdis t' ht' d (List.mem_of_getElem? hl))
      rw [this]
      have hls : l < TV.spaceDim := by
        rw [← hT.len t ht]
        by_contra hcon
        rw [List.getElem?_eq_none (by omega)] at hl
        exact absurd hl (by simp)
      simp [hls]
    · change s.vals ++ (locOf V TV t (choice t)).flatten = _
      congr 2
      conv_lhs => rw [← List.map_id (locOf V TV t (choice t))]
      refine List.map_congr_left (fun row hrow => ?_)
      simp only [locOf, List.mem_map] at hrow
      obtain ⟨k, _, rfl⟩ := hrow
      have := msk_true ((List.range TV.spaceDim).map (fun l => TV.dofs t l (V.basis (choice t) k)))
      simp only [List.length_map, List.length_range] at this
      rw [this]
      rfl

theorem steps_cg {V TV : Space K X} (hV : V.WF) (hT : TV.WF) (hL : TV.LinearDofs) {choice : Nat → Nat}
    {pick : Nat → Py Nat} : ∀ (cells done : List Nat) (s : CS K), InvC V TV choice done s →
      NeedOk TV done s.need → (∀ t ∈ cells, t < TV.numCells ∧ pick t = .ok (choice t) ∧ choice t < V.numCells) →
      ∃ s', steps (cgStep V TV pick) cells s = .ok s' ∧ InvC V TV choice (done ++ cells) s'
  | [], done, s, hI, _, _ => ⟨s, rfl, by simpa using hI⟩
  | t :: ts, done, s, hI, hN, h => by
      obtain ⟨h1, h2, h3⟩ := h t (by simp)
      obtain ⟨s', hs, hI', hN'⟩ := cgStep_ok hV hT hL hI hN h1 h2 h3
      obtain ⟨s'', hs', hI''⟩ := steps_cg hV hT hL ts _ s' hI' hN' (fun t ht => h t (by simp [ht]))
      exact ⟨s'', by rw [steps, hs, py_bind_ok, hs'], by simpa using hI''⟩

theorem steps_dg {V TV : Space K X} (hV : V.WF) (hT : TV.WF) (hL : TV.LinearDofs) {choice : Nat → Nat}
    {pick : Nat → Py Nat} : ∀ (cells done : List Nat) (s : CS K), InvC V TV choice done s →
      (∀ t ∈ cells, t < TV.numCells ∧ pick t = .ok (choice t) ∧ choice t < V.numCells) →
      (done ++ cells).Pairwise (fun t' t => ∀ d ∈ TV.cellDofs t, d ∉ TV.cellDofs t') →
      ∃ s', steps (dgStep V TV pick) cells s = .ok s' ∧ InvC V TV choice (done ++ cells) s'
  | [], done, s, hI, _, _ => ⟨s, rfl, by simpa using hI⟩
  | t :: ts, done, s, hI, h, hP => by
      obtain ⟨h1, h2, h3⟩ := h t (by simp)
      obtain ⟨s', hs, hI'⟩ := dgStep_ok hV hT hL hI h1 h2 h3
        (fun t' ht' => (List.pairwise_append.1 hP).2.2 t' ht' t (by simp))
      obtain ⟨s'', hs', hI''⟩ := steps_dg hV hT hL ts (done ++ [t]) s' hI' (fun t ht => h t (by simp [ht]))
        (by simpa using hP)
      exact ⟨s'', by rw [steps, hs, py_bind_ok, hs'], by simpa using hI''⟩

end Verif.Trace
