import Verif.Spec.DofMat
import Verif.Lemmas.BlockOps
import Verif.Lemmas.Mat
import Mathlib.Algebra.BigOperators.Group.List.Basic
/-! Invariants of the row filling loops. -/
namespace Verif.DofMat
open Verif Verif.BlockOps Finset
variable {K X : Type} [CommRing K]

/-! ## One row -/

theorem setCell_ok {S : Space K X} {e : Ev} {c : Nat} (h : c < S.numCells) :
    setCell S e c = .ok { e with cell := c } := by simp [setCell, h]

theorem setDof_ok {S : Space K X} {e : Ev} {l : Nat} (h : l < S.spaceDim) :
    setDof S e l = .ok { e with dof := l } := by simp [setDof, h]

theorem eval_ok {S : Space K X} {e : Ev} (f : X → K) (h : e.dof < S.spaceDim) :
    eval S e f = .ok (S.dofs e.cell e.dof f) := by
  rw [eval, pyGet_ok (by simp [evalDofs, h])]
  simp [evalDofs]

theorem fillBuf_ok {V TV : Space K X} (modify : K → K) {tv : Ev} (htv : tv.dof < TV.spaceDim) :
    ∀ (ds : List Nat) (vb : Ev) (buf : List K) (l : Nat), l + ds.length = V.spaceDim →
      buf.length = V.spaceDim →
      ∃ vb', fillBuf V TV modify tv vb buf l ds = .ok (vb', buf.take l ++
          (List.range' l ds.length).map
            (fun k => modify (TV.dofs tv.cell tv.dof (V.basis vb.cell k)))) ∧ vb'.cell = vb.cell
  | [], vb, buf, l, hl, hb => ⟨vb, by simp [fillBuf, ← hb] at *; omega, rfl⟩
  | d :: ds, vb, buf, l, hl, hb => by
      have hlt : l < V.spaceDim := by simp only [List.length_cons] at hl; omega
      obtain ⟨vb', h, hc⟩ := fillBuf_ok (V := V) modify htv ds { vb with dof := l }
        (buf.set l (modify (TV.dofs tv.cell tv.dof (V.basis vb.cell l)))) (l + 1)
        (by simp only [List.length_cons] at hl; omega) (by simpa using hb)
      refine ⟨vb', ?_, hc⟩
      rw [fillBuf, setDof_ok hlt]
      simp only [py_bind_ok, eval_ok _ htv, pySet, hb, hlt, if_true, fn]
      rw [h, List.take_succ_eq_append_getElem (by simpa [hb] using hlt)]
      simp only [List.length_cons, List.range'_succ, List.map_cons, List.take_set]
      rw [List.set_eq_of_length_le (by simp)]
      simp

/-- Entries of the row for target dof `l` of cell `t` and source cell `c`. -/
def rowVal (V TV : Space K X) (modify : K → K) (t l c j : Nat) : K :=
  ∑ k ∈ range V.spaceDim,
    if (V.cellDofs c).getD k 0 = j then modify (TV.dofs t l (V.basis c k)) else 0

theorem write_insert_other (r : Nat) : ∀ (ps : List (Nat × K)) (M : Nat → Nat → K) (i j : Nat),
    (i ≠ r ∨ j ∉ ps.map (·.1)) → write .insert r ps M i j = M i j
  | [], _, _, _, _ => rfl
  | (c, v) :: ps, M, i, j, h => by
      rw [write, write_insert_other r ps]
      · simp only [List.map_cons, List.mem_cons, not_or] at h
        rw [if_neg (by tauto)]
      · simp only [List.map_cons, List.mem_cons, not_or] at h
        tauto

theorem write_insert_mem (r : Nat) : ∀ (ps : List (Nat × K)) (M : Nat → Nat → K) (j : Nat) (v : K),
    (ps.map (·.1)).Nodup → (j, v) ∈ ps → write .insert r ps M r j = v
  | (c, w) :: ps, M, j, v, hn, h => by
      rw [write]
      simp only [List.map_cons, List.nodup_cons] at hn
      rcases List.mem_cons.1 h with h | h
      · cases h
        rw [write_insert_other r ps _ _ _ (Or.inr hn.1)]
        simp
      · exact write_insert_mem r ps _ j v hn.2 h

theorem write_add (r : Nat) : ∀ (ps : List (Nat × K)) (M : Nat → Nat → K) (i j : Nat),
    write .add r ps M i j =
      M i j + if i = r then (ps.map (fun p => if p.1 = j then p.2 else 0)).sum else 0
  | [], M, i, j => by simp [write]
  | (c, v) :: ps, M, i, j => by
      rw [write, write_add r ps]
      by_cases h : i = r <;> by_cases h' : j = c
      · simp [h, h', add_assoc]
      · simp [h, h', Ne.symm h']
      · simp [h]
      · simp [h]

theorem sum_zip_range (g : Nat → K → K) : ∀ (ds : List Nat) (f : Nat → K) (o : Nat),
    ((ds.zip ((List.range' o ds.length).map f)).map (fun p => g p.1 p.2)).sum =
      ∑ k ∈ range ds.length, g (ds.getD k 0) (f (o + k))
  | [], f, o => by simp
  | d :: ds, f, o => by
      simp only [List.length_cons, List.range'_succ, List.map_cons, List.zip_cons_cons,
        List.sum_cons]
      rw [sum_zip_range g ds f (o + 1), Finset.sum_range_succ']
      simp only [List.getD_cons_succ, List.getD_cons_zero, Nat.add_zero]
      rw [add_comm]
      congr 1
      refine Finset.sum_congr rfl (fun k _ => ?_)
      rw [show o + 1 + k = o + (k + 1) by omega]

theorem write_row (mode : Mode) (r : Nat) {cols : List Nat} {f : Nat → K}
    (M : Nat → Nat → K) (hn : cols.Nodup) (h0 : mode = .insert → ∀ j, M r j = 0) (i j : Nat) :
    write mode r (cols.zip ((List.range' 0 cols.length).map f)) M i j =
      if i = r then M r j + ∑ k ∈ range cols.length, (if cols.getD k 0 = j then f k else 0)
      else M i j := by
  have hfst : (cols.zip ((List.range' 0 cols.length).map f)).map (·.1) = cols := by
    rw [List.map_fst_zip]; simp
  have hsum := sum_zip_range (fun (c : Nat) (v : K) => if c = j then v else 0) cols f 0
  simp only [Nat.zero_add] at hsum
  cases mode with
  | add =>
    rw [write_add, hsum]
    split
    · next h => rw [h]
    · simp
  | insert =>
    by_cases hi : i = r
    · subst hi
      rw [if_pos rfl, h0 rfl, zero_add]
      by_cases hj : j ∈ cols
      · obtain ⟨k, hk, rfl⟩ := List.getElem_of_mem hj
        rw [write_insert_mem i _ M cols[k] (f k) (by rwa [hfst])]
        · rw [Finset.sum_eq_single k]
          · simp [List.getD_eq_getElem?_getD, hk]
          · intro b hb hbk
            have hb' := Finset.mem_range.1 hb
            rw [if_neg]
            simp only [List.getD_eq_getElem?_getD, List.getElem?_eq_getElem hb', Option.getD_some]
            exact fun h => hbk ((List.Nodup.getElem_inj_iff hn).1 h)
          · intro h; exact absurd (Finset.mem_range.2 hk) h
        · rw [List.mem_iff_getElem]
          exact ⟨k, by simp [hk], by simp⟩
      · rw [write_insert_other i _ M i j (Or.inr (by rwa [hfst])), h0 rfl]
        symm
        apply Finset.sum_eq_zero
        intro k hk
        have hk' := Finset.mem_range.1 hk
        rw [if_neg]
        simp only [List.getD_eq_getElem?_getD, List.getElem?_eq_getElem hk', Option.getD_some]
        exact fun h => hj (h ▸ List.getElem_mem hk')
    · rw [if_neg hi, write_insert_other r _ M i j (Or.inl hi)]

theorem putRow_ok {V TV : Space K X} (hV : V.WF) (mode : Mode) (modify : K → K) {d c : Nat}
    {s : St K} (hd : d < TV.dim) (hc : c < V.numCells) (htv : s.tv.dof < TV.spaceDim)
    (hb : s.buf.length = V.spaceDim) (h0 : mode = .insert → ∀ j, s.mat d j = 0) :
    ∃ s', putRow V TV mode modify d c s = .ok s' ∧ s'.tv = s.tv ∧ s'.visited = s.visited ∧
      s'.buf.length = V.spaceDim ∧
      ∀ i j, s'.mat i j = if i = d then s.mat d j + rowVal V TV modify s.tv.cell s.tv.dof c j
        else s.mat i j := by
  obtain ⟨vb', h, hc'⟩ := fillBuf_ok (V := V) modify htv (V.cellDofs c) { s.vb with cell := c } s.buf 0
    (by rw [hV.len c hc]; omega) hb
  simp only [List.take_zero, List.nil_append] at h
  refine ⟨⟨s.tv, vb', s.visited, (List.range' 0 (V.cellDofs c).length).map
      (fun k => modify (TV.dofs s.tv.cell s.tv.dof (V.basis c k))),
    write mode d ((V.cellDofs c).zip ((List.range' 0 (V.cellDofs c).length).map
      (fun k => modify (TV.dofs s.tv.cell s.tv.dof (V.basis c k))))) s.mat⟩, ?_, rfl, rfl, ?_, ?_⟩
  · rw [putRow, setCell_ok hc, py_bind_ok, h]
    simp only [py_bind_ok]
    rw [setValues, if_pos (by simp), if_pos ⟨hd, hV.lt c hc⟩]
    rfl
  · simp [hV.len c hc]
  · intro i j
    change write _ _ _ _ i j = _
    rw [write_row mode d s.mat (hV.nodup c hc) h0]
    simp only [rowVal, hV.len c hc]

theorem rowVal_act {V TV : Space K X} (hV : V.WF) (hT : TV.LinearDofs) {t l c : Nat}
    (hc : c < V.numCells) (u : Nat → K) :
    ∑ j ∈ range V.dim, rowVal V TV id t l c j * u j = TV.dofs t l (fnOn V u c) := by
  have hlin : ∀ (s : Finset Nat) (a : Nat → K) (f : Nat → X → K),
      TV.dofs t l (fun x => ∑ k ∈ s, a k * f k x) = ∑ k ∈ s, a k * TV.dofs t l (f k) := by
    classical
    intro s a f
    induction s using Finset.induction_on with
    | empty =>
      simp only [Finset.sum_empty]
      have := hT.smul t l 0 (fun _ => 0)
      simpa using this
    | insert k s hk ih =>
      simp only [Finset.sum_insert hk]
      rw [hT.add, hT.smul, ih]
  rw [show fnOn V u c = fun x => ∑ l ∈ range V.spaceDim, u ((V.cellDofs c).getD l 0) * V.basis c l x
    from rfl, hlin]
  simp only [rowVal, Finset.sum_mul, id]
  rw [Finset.sum_comm]
  refine Finset.sum_congr rfl (fun k hk => ?_)
  have hk' : k < (V.cellDofs c).length := by rw [hV.len c hc]; exact Finset.mem_range.1 hk
  have hlt : (V.cellDofs c).getD k 0 < V.dim := by
    rw [List.getD_eq_getElem?_getD, List.getElem?_eq_getElem hk', Option.getD_some]
    exact hV.lt c hc _ (List.getElem_mem hk')
  rw [Finset.sum_eq_single ((V.cellDofs c).getD k 0)]
  · simp [mul_comm]
  · intro j _ hj; rw [if_neg (Ne.symm hj), zero_mul]
  · intro h; exact absurd (Finset.mem_range.2 hlt) h

/-! ## The loops -/

/-- (cell, local dof, dof) in the order of the loops. -/
def slotsAt (t l : Nat) (ds : List Nat) : List (Nat × Nat × Nat) :=
  (ds.zipIdx l).map (fun p => (t, p.2, p.1))

def slots (TV : Space K X) (cells : List Nat) : List (Nat × Nat × Nat) :=
  cells.flatMap (fun t => slotsAt t 0 (TV.cellDofs t))

theorem slotsAt_cons (t l d : Nat) (ds : List Nat) :
    slotsAt t l (d :: ds) = (t, l, d) :: slotsAt t (l + 1) ds := by simp [slotsAt]

/-- First slot of a dof. -/
def first (done : List (Nat × Nat × Nat)) (d : Nat) : Option (Nat × Nat × Nat) :=
  done.find? (fun p => p.2.2 = d)

/-- Contents of row `d` when the slots `done` have been dealt with. -/
def rowOf (ROW : Nat → Nat → Nat → Nat → K) (done : List (Nat × Nat × Nat)) (d j : Nat) : K :=
  match first done d with
  | some p => ROW p.1 p.2.1 d j
  | none => 0

structure Inv (V TV : Space K X) (ROW : Nat → Nat → Nat → Nat → K) (done : List (Nat × Nat × Nat))
    (s : St K) : Prop where
  buf : s.buf.length = V.spaceDim
  vis : ∀ d, d < TV.dim → s.visited[d]? = some (first done d).isSome
  mat : ∀ d j, s.mat d j = rowOf ROW done d j

/-- The cell is selected and the row is filled from it. -/
def fin (put : Nat → Nat → St K → Py (St K)) (pick : Py (Option Nat)) (d : Nat) (s : St K) :
    Py (St K) := do
  let c ← pick
  match c with
  | none => .ok s
  | some c => put d c s

theorem newRow_eq (TV : Space K X) (put : Nat → Nat → St K → Py (St K)) (pick : Py (Option Nat))
    (l d : Nat) (s : St K) (h : l < TV.spaceDim) :
    newRow TV put pick l d s =
      fin put pick d { s with visited := s.visited.set d true, tv := { s.tv with dof := l } } := by
  rw [newRow, setDof_ok h]
  rfl

/-- What filling of one row does. -/
def RowGood (V TV : Space K X) (put : Nat → Nat → St K → Py (St K)) (pick : Nat → Py (Option Nat))
    (ROW : Nat → Nat → Nat → Nat → K) (t : Nat) : Prop :=
  ∀ l d (s : St K), (TV.cellDofs t)[l]? = some d → s.tv = ⟨t, l⟩ → s.buf.length = V.spaceDim →
    (∀ j, s.mat d j = 0) →
    ∃ s', fin put (pick d) d s = .ok s' ∧ s'.tv = s.tv ∧ s'.visited = s.visited ∧
      s'.buf.length = V.spaceDim ∧ ∀ i j, s'.mat i j = if i = d then ROW t l d j else s.mat i j

theorem first_append (done done' : List (Nat × Nat × Nat)) (d : Nat) :
    first (done ++ done') d = (first done d).or (first done' d) := by
  simp [first, List.find?_append]

theorem rowLoop_ok {V TV : Space K X} (hT : TV.WF) {put : Nat → Nat → St K → Py (St K)}
    {pick : Nat → Py (Option Nat)} {ROW : Nat → Nat → Nat → Nat → K} {t : Nat} (ht : t < TV.numCells)
    (hgood : RowGood V TV put pick ROW t) :
    ∀ (ds : List Nat) (l : Nat) (pre : List Nat) (done : List (Nat × Nat × Nat)) (s : St K),
      TV.cellDofs t = pre ++ ds → l = pre.length → s.tv.cell = t → Inv V TV ROW done s →
      ∃ s', rowLoop TV put pick l ds s = .ok s' ∧ Inv V TV ROW (done ++ slotsAt t l ds) s'
  | [], l, pre, done, s, _, _, _, hI => ⟨s, rfl, by simpa [slotsAt] using hI⟩
  | d :: ds, l, pre, done, s, hds, hl, hcell, hI => by
      have hmem : d ∈ TV.cellDofs t := by rw [hds]; simp
      have hd : d < TV.dim := hT.lt t ht d hmem
      have hget : (TV.cellDofs t)[l]? = some d := by rw [hds, hl]; simp
      have hlt : l < TV.spaceDim := by
        rw [← hT.len t ht]
        by_contra hc
        rw [List.getElem?_eq_none (by omega)] at hget
        exact absurd hget (by simp)
      have hvis := hI.vis d hd
      rw [rowLoop, pyGet_eq_ok.2 hvis, py_bind_ok, slotsAt_cons,
        show done ++ (t, l, d) :: slotsAt t (l + 1) ds =
          (done ++ [(t, l, d)]) ++ slotsAt t (l + 1) ds by simp]
      cases hf : first done d with
      | some p =>
        simp only [Option.isSome_some, if_true]
        refine rowLoop_ok hT ht hgood ds (l + 1) (pre ++ [d]) _ s (by simpa using hds) (by simp [hl])
          hcell ⟨hI.buf, fun d' hd' => ?_, fun d' j => ?_⟩
        · rw [hI.vis d' hd', first_append]
          by_cases h : d' = d
          · subst h; simp [hf]
          · cases first done d' <;> simp [first, Ne.symm h]
        · rw [hI.mat, rowOf, rowOf, first_append]
          by_cases h : d' = d
          · subst h; simp [hf]
          · cases first done d' <;> simp [first, Ne.symm h]
      | none =>
        simp only [Option.isSome_none, Bool.false_eq_true, if_false]
        rw [newRow_eq _ _ _ _ _ _ hlt]
        obtain ⟨s', h, h1, h2, h3, h4⟩ := hgood l d
          { s with visited := s.visited.set d true, tv := { s.tv with dof := l } } hget
          (by simp [hcell]) hI.buf (fun j => by rw [hI.mat, rowOf, hf])
        rw [h, py_bind_ok]
        have hlen : d < s.visited.length := by
          by_contra hc
          rw [List.getElem?_eq_none (by omega)] at hvis
          exact absurd hvis (by simp)
        refine rowLoop_ok hT ht hgood ds (l + 1) (pre ++ [d]) _ s' (by simpa using hds) (by simp [hl])
          (by rw [h1]; exact hcell) ⟨h3, fun d' hd' => ?_, fun d' j => ?_⟩
        · rw [h2, first_append]
          by_cases hdd : d' = d
          · subst hdd; simp [hf, first, hlen]
          · simp only [List.getElem?_set_ne (Ne.symm hdd)]
            rw [hI.vis d' hd']
            cases first done d' <;> simp [first, Ne.symm hdd]
        · rw [h4, rowOf, first_append]
          by_cases hdd : d' = d
          · subst hdd
            rw [hf, if_pos rfl]
            simp [first]
          · rw [if_neg hdd]
            simp only [hI.mat, rowOf]
            cases first done d' <;> simp [first, Ne.symm hdd]

theorem cellLoop_ok {V TV : Space K X} (hT : TV.WF) {put : Nat → Nat → St K → Py (St K)}
    {prep : Nat → St K → Py (St K × (Nat → Py (Option Nat)))} {ROW : Nat → Nat → Nat → Nat → K}
    (hlt : ∀ t s, t < TV.numCells → s.tv.cell = t → ∃ s' pick, prep t s = .ok (s', pick) ∧ s'.tv = s.tv ∧ s'.visited = s.visited ∧
      s'.buf = s.buf ∧ s'.mat = s.mat ∧ RowGood V TV put pick ROW t) :
    ∀ (cells : List Nat) (done : List (Nat × Nat × Nat)) (s : St K), (∀ t ∈ cells, t < TV.numCells) →
      Inv V TV ROW done s →
      ∃ s', cellLoop TV put prep cells s = .ok s' ∧ Inv V TV ROW (done ++ slots TV cells) s'
  | [], done, s, _, hI => ⟨s, rfl, by simpa [slots] using hI⟩
  | t :: ts, done, s, hc, hI => by
      have ht := hc t (by simp)
      obtain ⟨s', pick, h, h1, h2, h3, h4, hg⟩ := hlt t { s with tv := { s.tv with cell := t } } ht rfl
      obtain ⟨s'', h', hI'⟩ := rowLoop_ok hT ht hg (TV.cellDofs t) 0 [] done s' rfl rfl (by rw [h1])
        ⟨by rw [h3]; exact hI.buf, by rw [h2]; exact hI.vis, by rw [h4]; exact hI.mat⟩
      obtain ⟨s3, h'', hI''⟩ := cellLoop_ok hT hlt ts _ s'' (fun t' h => hc t' (by simp [h])) hI'
      refine ⟨s3, ?_, ?_⟩
      · rw [cellLoop, setCell_ok ht, py_bind_ok, h]
        simp only [py_bind_ok]
        rw [h', py_bind_ok, h'']
      · simpa [slots] using hI''

theorem inv_init (V TV : Space K X) (ROW : Nat → Nat → Nat → Nat → K) :
    Inv V TV ROW [] (St.init V TV) :=
  ⟨by simp [St.init], fun d hd => by simp [St.init, first, hd], fun d j => by
    simp [St.init, rowOf, first]⟩

theorem mem_slotsAt {t l : Nat} {ds : List Nat} {p : Nat × Nat × Nat} :
    p ∈ slotsAt t l ds ↔ p.1 = t ∧ l ≤ p.2.1 ∧ ds[p.2.1 - l]? = some p.2.2 := by
  obtain ⟨a, b, c⟩ := p
  simp only [slotsAt, List.mem_map, Prod.mk.injEq, Prod.exists]
  constructor
  · rintro ⟨x, y, h, rfl, rfl, rfl⟩
    have := List.mem_zipIdx_iff_le_and_getElem?_sub.1 h
    exact ⟨rfl, this⟩
  · rintro ⟨rfl, h⟩
    exact ⟨c, b, List.mem_zipIdx_iff_le_and_getElem?_sub.2 h, rfl, rfl, rfl⟩

theorem first_slots_none {TV : Space K X} {cells : List Nat} {d : Nat}
    (h : ∀ t ∈ cells, d ∉ TV.cellDofs t) : first (slots TV cells) d = none := by
  rw [first, List.find?_eq_none]
  intro p hp
  simp only [slots, List.mem_flatMap] at hp
  obtain ⟨t, ht, hp⟩ := hp
  have := (mem_slotsAt.1 hp).2.2
  intro hpd
  simp only [decide_eq_true_eq] at hpd
  rw [hpd] at this
  exact h t ht (List.mem_of_getElem? this)

theorem find_slotsAt {t d : Nat} : ∀ (ds : List Nat) (l l' : Nat), ds.Nodup → l' ≤ l →
    ds[l - l']? = some d → first (slotsAt t l' ds) d = some (t, l, d)
  | [], l, l', _, _, h => by simp at h
  | e :: ds, l, l', hn, hle, h => by
      rw [slotsAt_cons, first, List.find?_cons]
      by_cases hl : l = l'
      · subst hl
        simp only [Nat.sub_self, List.getElem?_cons_zero, Option.some.injEq] at h
        simp [h]
      · have h' : ds[l - (l' + 1)]? = some d := by
          rw [show l - l' = (l - (l' + 1)) + 1 by omega, List.getElem?_cons_succ] at h
          exact h
        have hne : e ≠ d := by
          rintro rfl
          exact (List.nodup_cons.1 hn).1 (List.mem_of_getElem? h')
        simp only [hne, decide_false]
        exact find_slotsAt ds l (l' + 1) (List.nodup_cons.1 hn).2 (by omega) h'

theorem first_slots {TV : Space K X} (hT : TV.WF) {cells : List Nat} (hc : ∀ t ∈ cells, t < TV.numCells)
    {t l d : Nat} (h : FirstAt TV cells t l d) : first (slots TV cells) d = some (t, l, d) := by
  obtain ⟨pre, post, rfl, hpre, hl⟩ := h
  have h1 : slots TV (pre ++ t :: post) =
      slots TV pre ++ (slotsAt t 0 (TV.cellDofs t) ++ slots TV post) := by simp [slots]
  rw [h1, first_append, first_append, first_slots_none hpre,
    find_slotsAt (TV.cellDofs t) l 0 (hT.nodup t (hc t (by simp))) (Nat.zero_le _) hl]
  rfl

/-- Every dof of some cell has a first cell. -/
theorem exists_firstAt {TV : Space K X} {d : Nat} : ∀ {cells : List Nat}, (∃ t ∈ cells, d ∈ TV.cellDofs t) →
    ∃ t l, t ∈ cells ∧ FirstAt TV cells t l d
  | [], h => by simp at h
  | s :: cells, h => by
      by_cases hs : d ∈ TV.cellDofs s
      · obtain ⟨l, hl⟩ := List.getElem?_of_mem hs
        exact ⟨s, l, by simp, [], cells, rfl, by simp, hl⟩
      · obtain ⟨t, ht, hd⟩ := h
        have ht' : t ∈ cells := by
          rcases List.mem_cons.1 ht with rfl | h
          · exact absurd hd hs
          · exact h
        obtain ⟨t, l, hmem, pre, post, rfl, hp, hl⟩ := exists_firstAt ⟨t, ht', hd⟩
        refine ⟨t, l, by simp, s :: pre, post, rfl, ?_, hl⟩
        intro x hx
        rcases List.mem_cons.1 hx with rfl | hx
        · exact hs
        · exact hp x hx

theorem firstAt_lt {TV : Space K X} (hT : TV.WF) {cells : List Nat} (hc : ∀ t ∈ cells, t < TV.numCells)
    {t l d : Nat} (h : FirstAt TV cells t l d) : t < TV.numCells ∧ d < TV.dim := by
  obtain ⟨pre, post, rfl, hpre, hl⟩ := h
  have := hc t (by simp)
  exact ⟨this, hT.lt t this d (List.mem_of_getElem? hl)⟩

/-- From the invariant of the loops to the statement about the matrix. -/
theorem evaluates_of_inv {V TV : Space K X} (hV : V.WF) (hT : TV.WF) (hL : TV.LinearDofs)
    {cells : List Nat} (hc : ∀ t ∈ cells, t < TV.numCells) {choice : Nat → Nat → Option Nat}
    (hch : ∀ t d c, t < TV.numCells → d < TV.dim → choice t d = some c → c < V.numCells)
    {m : Nat → Nat → K}
    (hm : ∀ d j, m d j = rowOf (fun t l d j => match choice t d with
      | some c => rowVal V TV id t l c j
      | none => 0) (slots TV cells) d j) :
    EvaluatesDofs V TV cells choice (Mat.of TV.dim V.dim m) where
  rows := rfl
  cols := rfl
  row u t l d h := by
    obtain ⟨ht, hd⟩ := firstAt_lt hT hc h
    rw [Mat.of_act, if_pos hd]
    simp only [hm, rowOf, first_slots hT hc h]
    cases hcd : choice t d with
    | none => simp
    | some c => exact rowVal_act hV hL (hch t d c ht hd hcd) u
  untouched u d h := by
    rw [Mat.of_act]
    simp only [hm, rowOf, first_slots_none h, zero_mul, Finset.sum_const_zero, ite_self]

theorem rowGood_put {V TV : Space K X} (hV : V.WF) (hT : TV.WF)
    {pick : Nat → Py (Option Nat)} {choice : Nat → Nat → Option Nat} {t : Nat} (ht : t < TV.numCells)
    (hpick : ∀ d, d < TV.dim → pick d = .ok (choice t d))
    (hch : ∀ d c, d < TV.dim → choice t d = some c → c < V.numCells) :
    RowGood V TV (putRow V TV .insert id) pick (fun t l d j => match choice t d with
      | some c => rowVal V TV id t l c j
      | none => 0) t := by
  intro l d s hl htv hb h0
  have hd := hT.lt t ht d (List.mem_of_getElem? hl)
  have hlt : l < TV.spaceDim := by
    rw [← hT.len t ht]
    by_contra hc
    rw [List.getElem?_eq_none (by omega)] at hl
    exact absurd hl (by simp)
  rw [fin, hpick d hd, py_bind_ok]
  cases hcd : choice t d with
  | none =>
    refine ⟨s, rfl, rfl, rfl, hb, fun i j => ?_⟩
    split
    · next h => rw [h, h0]; simp [hcd]
    · rfl
  | some c =>
    obtain ⟨s', h, h1, h2, h3, h4⟩ := putRow_ok hV .insert id (d := d) (c := c) (s := s) hd
      (hch d c hd hcd) (by rw [htv]; exact hlt) hb (fun _ => h0)
    refine ⟨s', h, h1, h2, h3, fun i j => ?_⟩
    rw [h4, h0, htv]
    simp [hcd]

end Verif.DofMat
