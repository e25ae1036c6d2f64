import Verif.Lemmas.RefineTotal
/-!
# When one refinement succeeds
-/
namespace Verif.Refine
open Verif Verif.BlockOps
variable {K E : Type} [Field K] [LinearOrder K] [IsStrictOrderedRing K] [AddCommGroup E] [Module K E]

/-- The new point `x` of a cell with the points `l` passes the checks. -/
def Passes (area : List E → K) (strict tol : K) (n : Nat) (l : List E) (x : E) : Prop :=
  (0 < strict → pointIsInside area tol x l = true) ∧ ∀ i, i < n → 1 / 10 ^ 15 < area (l.eraseIdx i ++ [x])

omit [IsStrictOrderedRing K] [AddCommGroup E] [Module K E] in
theorem pyMap_raises {α β : Type} {f : α → Py β} {e : PyErr} : ∀ {l : List α},
    (∀ a ∈ l, (∃ b, f a = .ok b) ∨ f a = .error e) → (∃ bs, pyMap f l = .ok bs) ∨ pyMap f l = .error e
  | [], _ => .inl ⟨[], rfl⟩
  | a :: l, h => by
      rcases h a (by simp) with ⟨b, hb⟩ | hb
      · rcases pyMap_raises (l := l) (fun a ha => h a (by simp [ha])) with ⟨bs, hbs⟩ | hbs
        · left; exact ⟨b :: bs, by simp [pyMap, hb, hbs]⟩
        · right; simp [pyMap, hb, hbs]
      · right; simp [pyMap, hb]

omit [IsStrictOrderedRing K] [AddCommGroup E] [Module K E] in
theorem children_raises {area : List E → K} {x : List E} {n : Nat} : ∀ {cells : List (List Nat)} {center : Nat},
    (∀ (c : Nat) cell, cells[c]? = some cell → ∀ i, i < n → ∃ l,
      List.Forall₂ (fun (v : Nat) p => x[v]? = some p) (cell.eraseIdx i ++ [center + c]) l) →
    (∃ cs, children area x n center cells = .ok cs) ∨ children area x n center cells = .error .assertion
  | [], _, _ => .inl ⟨[], rfl⟩
  | cell :: cells, center, h => by
      have h0 : (∃ cs, pyMap (child area x cell center) (omitted n) = .ok cs) ∨
          pyMap (child area x cell center) (omitted n) = .error .assertion := by
        apply pyMap_raises
        intro i hi
        have hin : i < n := by simpa [omitted] using hi
        obtain ⟨l, hl⟩ := h 0 cell rfl i hin
        unfold child
        rw [cellPts_ok (by simpa using hl)]
        by_cases ha : 1 / 10 ^ 15 < area l
        · left; exact ⟨cell.eraseIdx i ++ [center], by simp only [py_bind_ok, decide_eq_true ha, pyAssert_true]⟩
        · right; simp only [py_bind_ok, decide_eq_false ha, pyAssert_false, py_bind_error]
      have h1 := children_raises (area := area) (x := x) (n := n) (cells := cells) (center := center + 1) (by
        intro c ce hce i hi
        have := h (c + 1) ce (by simpa using hce) i hi
        have e : center + 1 + c = center + (c + 1) := by omega
        rw [e]
        exact this)
      unfold children
      rcases h0 with ⟨cs, hcs⟩ | h0
      · rcases h1 with ⟨rest, hr⟩ | h1
        · left; exact ⟨cs ++ rest, by rw [hcs, hr]; rfl⟩
        · right; rw [hcs, h1]; rfl
      · right; rw [h0]; rfl

/-- One refinement succeeds exactly if all new points pass; it fails by an assertion. -/
theorem refineOnce_iff {area : List E → K} {newPts : List E → List (List Nat) → List E}
    {hmin : List E → List (List Nat) → K} {strict : K} {tdim n : Nat} {M : RMesh E}
    (hn : n = 2 ∨ n = 3 ∨ n = 4 ∧ tdim = 3) (hM : M.OK n) (hlen : (newPts M.coords M.cells).length = M.cells.length) :
    ((∃ F, refineOnce area newPts hmin strict tdim n M = .ok F) ↔
      ∀ c l x, IsCell M c l → (newPts M.coords M.cells)[c]? = some x →
        Passes area strict (hmin M.coords M.cells * strict) n l x) ∧
    ((∃ F, refineOnce area newPts hmin strict tdim n M = .ok F) ∨
      refineOnce area newPts hmin strict tdim n M = .error .assertion) := by
  have hn0 : 0 < n := by omega
  have hpts : ∃ ps, pyMap (cellPts M.coords) M.cells = .ok ps ∧
      List.Forall₂ (fun cell l => List.Forall₂ (fun (v : Nat) p => M.coords[v]? = some p) cell l) M.cells ps := by
    apply CenterVec.pyMap_exists
    intro cell hcell
    obtain ⟨l, hl⟩ := forall₂_points (hM cell hcell).2
    exact ⟨l, cellPts_ok hl, hl⟩
  obtain ⟨ps, hps, hf⟩ := hpts
  have hpl : ps.length = M.cells.length := hf.length_eq.symm
  have hpc : ∀ (c : Nat) l, ps[c]? = some l ↔ IsCell M c l := by
    intro c l
    constructor
    · intro hcl
      have hlt : c < M.cells.length := by rw [← hpl]; exact (List.getElem?_eq_some_iff.1 hcl).1
      have := (List.forall₂_iff_get.1 hf).2 c hlt (by rw [hpl]; exact hlt)
      refine ⟨M.cells[c], List.getElem?_eq_getElem hlt, ?_⟩
      rw [← (List.getElem?_eq_some_iff.1 hcl).2]
      exact this
    · intro hl
      have hlt := isCell_lt hl
      have := (List.forall₂_iff_get.1 hf).2 c hlt (by rw [hpl]; exact hlt)
      have h2 : IsCell M c ps[c] := ⟨M.cells[c], List.getElem?_eq_getElem hlt, this⟩
      rw [isCell_unique hl h2]
      exact List.getElem?_eq_getElem _
  have h1 : (decide (n = 2) || decide (n = 3) || (decide (n = 4) && decide (tdim = 3))) = true := by
    rcases hn with h | h | ⟨h, h'⟩ <;> simp [h]
    exact h'
  have hpoint : ∀ (c : Nat) l x, IsCell M c l → (newPts M.coords M.cells)[c]? = some x → ∀ i, ∀ cell, M.cells[c]? = some cell →
      List.Forall₂ (fun (v : Nat) p => (M.coords ++ newPts M.coords M.cells)[v]? = some p)
        (cell.eraseIdx i ++ [M.coords.length + c]) (l.eraseIdx i ++ [x]) := by
    intro c l x hl hx i cell hc
    obtain ⟨cell', hc', hfl⟩ := hl
    rw [hc] at hc'
    injection hc' with hc'
    subst hc'
    refine List.rel_append ((forall₂_eraseIdx hfl i).imp (fun v p h => ?_)) (.cons ?_ .nil)
    · rw [List.getElem?_append_left (List.getElem?_eq_some_iff.1 h).1]
      exact h
    · rw [List.getElem?_append_right (by omega), Nat.add_sub_cancel_left]
      exact hx
  have hex : ∀ (c : Nat) cell, M.cells[c]? = some cell → ∃ l x, IsCell M c l ∧ (newPts M.coords M.cells)[c]? = some x := by
    intro c cell hc
    have hlt := (List.getElem?_eq_some_iff.1 hc).1
    obtain ⟨l, hl⟩ := isCell_exists hM hlt
    exact ⟨l, _, hl, List.getElem?_eq_getElem (by rw [hlen]; exact hlt)⟩
  have hall : (((newPts M.coords M.cells).zip ps).all
      (fun p => pointIsInside area (hmin M.coords M.cells * strict) p.1 p.2)) = true ↔
      ∀ c l x, IsCell M c l → (newPts M.coords M.cells)[c]? = some x →
        pointIsInside area (hmin M.coords M.cells * strict) x l = true := by
    rw [List.all_eq_true]
    constructor
    · intro h c l x hl hx
      exact h (x, l) (List.mem_of_getElem? (List.getElem?_zip_eq_some.2 ⟨hx, (hpc c l).2 hl⟩))
    · intro h q hq
      obtain ⟨c, hc⟩ := List.getElem?_of_mem hq
      rw [List.getElem?_zip_eq_some] at hc
      exact h c q.2 q.1 ((hpc c q.2).1 hc.2) hc.1
  have hco := children_raises (area := area) (x := M.coords ++ newPts M.coords M.cells) (n := n) (cells := M.cells)
    (center := M.coords.length) (by
      intro c cell hc i _
      obtain ⟨l, x, hl, hx⟩ := hex c cell hc
      exact ⟨_, hpoint c l x hl hx i cell hc⟩)
  have heq : refineOnce area newPts hmin strict tdim n M = (do
      pyAssert (!decide (0 < strict) || ((newPts M.coords M.cells).zip ps).all
        (fun p => pointIsInside area (hmin M.coords M.cells * strict) p.1 p.2))
      let cells ← children area (M.coords ++ newPts M.coords M.cells) n M.coords.length M.cells
      .ok ⟨M.coords ++ newPts M.coords M.cells, cells, (List.range M.coords.length).map (fun v => (v, v)),
        childToParent n M.cells.length⟩) := by
    unfold refineOnce
    rw [h1, hps]
    simp only [pyAssert_true, py_bind_ok]
  constructor
  · constructor
    · rintro ⟨F, hF⟩ c l x hl hx
      have hch := (refineOnce_eq_ok hF).2.2.2.2
      rw [(refineOnce_eq_ok hF).2.1] at hch
      rw [heq, py_bind_eq_ok] at hF
      obtain ⟨_, ha, _⟩ := hF
      rw [pyAssert_eq_ok] at ha
      constructor
      · intro hs
        rw [decide_eq_true hs, Bool.not_true, Bool.false_or] at ha
        exact hall.1 ha c l x hl hx
      · intro i hi
        obtain ⟨cell, hc, hfl⟩ := id hl
        obtain ⟨_, l', hl', ha'⟩ := (children_eq_ok hch).2 c cell hc (n - 1 - i) (by omega)
        rw [show n - 1 - (n - 1 - i) = i by omega] at hl'
        rw [forall₂_unique (hpoint c l x hl hx i cell hc) hl']
        exact ha'
    · intro h
      obtain ⟨cs, hcs⟩ := children_ok (area := area) (x := M.coords ++ newPts M.coords M.cells) (n := n) (cells := M.cells)
        (center := M.coords.length) (by
          intro c cell hc i hi
          obtain ⟨l, x, hl, hx⟩ := hex c cell hc
          exact ⟨_, hpoint c l x hl hx i cell hc, (h c l x hl hx).2 i hi⟩)
      refine ⟨⟨M.coords ++ newPts M.coords M.cells, cs, (List.range M.coords.length).map (fun v => (v, v)),
        childToParent n M.cells.length⟩, ?_⟩
      · rw [heq]
        have ha : (!decide (0 < strict) || ((newPts M.coords M.cells).zip ps).all
            (fun p => pointIsInside area (hmin M.coords M.cells * strict) p.1 p.2)) = true := by
          by_cases hs : 0 < strict
          · rw [decide_eq_true hs, Bool.not_true, Bool.false_or]
            exact hall.2 (fun c l x hl hx => (h c l x hl hx).1 hs)
          · simp [hs]
        rw [ha, hcs]
        rfl
  · rw [heq]
    by_cases ha : (!decide (0 < strict) || ((newPts M.coords M.cells).zip ps).all
        (fun p => pointIsInside area (hmin M.coords M.cells * strict) p.1 p.2)) = true
    · rw [ha]
      rcases hco with ⟨cs, hcs⟩ | he
      · left; rw [hcs]; exact ⟨_, rfl⟩
      · right; rw [he]; rfl
    · right
      rw [Bool.eq_false_iff.2 ha]
      rfl

end Verif.Refine
