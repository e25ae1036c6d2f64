import Verif.Model.IIFunctionMore
import Verif.Spec.IIFunction
import Verif.Props.IIFunction
import Mathlib.Tactic.Ring
import Mathlib.Tactic.Positivity
/-!
# C110: slices, names, random coefficients and the list of the caller
-/
namespace Verif.IIFunction
open Verif BlockOps
variable {K : Type}

/-! ## Slices -/

/-- Items which are all there. -/
theorem pyMap_get (fs : List Fn) (is : List Int) (h : ∀ i ∈ is, 0 ≤ i ∧ i < fs.length) :
    ∃ r, pyMap (fun (i : Int) => pyGet fs i.toNat) is = .ok r ∧ ∀ k : Nat, r[k]? = (is[k]?).bind (fun i => fs[i.toNat]?) := by
  induction is with
  | nil => exact ⟨[], rfl, fun k => by simp⟩
  | cons i is ih =>
      obtain ⟨r, h1, h2⟩ := ih (fun j hj => h j (by simp [hj]))
      obtain ⟨g0, g1⟩ := h i (by simp)
      have hlt : i.toNat < fs.length := by omega
      have hg : pyGet fs i.toNat = .ok fs[i.toNat] := pyGet_eq_ok.2 (List.getElem?_eq_getElem hlt)
      refine ⟨fs[i.toNat] :: r, ?_, ?_⟩
      · simp only [pyMap, hg, h1, py_bind_ok, py_pure]
      · intro k
        cases k with
        | zero => simp [List.getElem?_eq_getElem hlt]
        | succ k => simpa using h2 k

/-- **C110** `u[a:b:s]` with ends which are not negative and a positive step: the items `a`, `a+s`, … before `b`, as many as there
are. -/
theorem slice_up (fs : List Fn) (a b s : Nat) (hs : 0 < s) :
    ∃ r, getSlice fs (some a) (some b) (some s) = .ok r ∧ ∀ k : Nat, r[k]? = if a + k * s < b then fs[a + k * s]? else none := by
  have hs' : (0 : Int) < (s : Int) := by exact_mod_cast hs
  have e : sliceItems fs.length (some a) (some b) (some s) =
      .ok ((List.range ((min (b : Int) fs.length - min (a : Int) fs.length + s - 1) / s).toNat).map
        (fun k : Nat => min (a : Int) fs.length + k * s)) := by
    unfold sliceItems sliceEnd
    simp only [Option.getD_some]
    rw [if_neg (by omega), if_pos hs', if_neg (by omega), if_neg (by omega)]
  unfold getSlice
  rw [e, py_bind_ok]
  have count : ∀ (x y : Int) (k : Nat), k < ((y - x + s - 1) / s).toNat ↔ x + k * s < y := by
    intro x y k
    rw [Int.lt_toNat, ← Int.add_one_le_iff, Int.le_ediv_iff_mul_le hs']
    constructor
    · intro h
      have : ((k : Int) + 1) * s = k * s + s := by ring
      omega
    · intro h
      have : ((k : Int) + 1) * s = k * s + s := by ring
      omega
  obtain ⟨r, h1, h2⟩ := pyMap_get fs (is := (List.range ((min (b : Int) fs.length - min (a : Int) fs.length + s - 1) / s).toNat).map
        (fun k : Nat => min (a : Int) fs.length + k * s)) (by
    intro i hi
    obtain ⟨k, hk, rfl⟩ := List.mem_map.1 hi
    have := (count _ _ k).1 (List.mem_range.1 hk)
    have : (0 : Int) ≤ k * s := by positivity
    constructor <;> omega)
  refine ⟨r, h1, ?_⟩
  intro k
  rw [h2, List.getElem?_map]
  by_cases hk : k < ((min (b : Int) fs.length - min (a : Int) fs.length + s - 1) / s).toNat
  · rw [List.getElem?_range hk]
    have := (count _ _ k).1 hk
    have hp : (0 : Int) ≤ k * s := by positivity
    have ha : min (a : Int) fs.length = a := by omega
    have e2 : ((a : Int) + k * s).toNat = a + k * s := by
      have : ((a : Int) + k * s) = ((a + k * s : Nat) : Int) := by push_cast; ring
      rw [this, Int.toNat_natCast]
    have hlt : a + k * s < b := by
      have : ((a + k * s : Nat) : Int) = (a : Int) + k * s := by push_cast; ring
      omega
    rw [if_pos hlt]
    simp only [Option.map_some, Option.bind_some]
    rw [ha, e2]
  · rw [List.getElem?_eq_none (by rw [List.length_range]; omega)]
    simp only [Option.map_none, Option.bind_none]
    have := (not_congr (count _ _ k)).1 hk
    split
    · rename_i hlt
      symm
      apply List.getElem?_eq_none
      have : ((a + k * s : Nat) : Int) = (a : Int) + k * s := by push_cast; ring
      have hp : (0 : Int) ≤ k * s := by positivity
      omega
    · rfl

/-- **C110** `u[a:b]` are the items `a, …, b-1`, as many as there are. -/
theorem slice_plain (fs : List Fn) (a b : Nat) : getSlice fs (some a) (some b) none = .ok ((fs.drop a).take (b - a)) := by
  obtain ⟨r, h1, h2⟩ := slice_up fs a b 1 (by omega)
  have e : getSlice fs (some a) (some b) none = getSlice fs (some a) (some b) (some (1 : Nat)) := rfl
  rw [e, h1]
  congr 1
  apply List.ext_getElem?
  intro k
  rw [h2, List.getElem?_take, List.getElem?_drop, mul_one]
  by_cases hk : k < b - a
  · rw [if_pos hk, if_pos (by omega)]
  · rw [if_neg hk, if_neg (by omega)]

/-- **C110** `u[:]` are all functions, `u[-j:]` the last `j` and `u[::-1]` all of them backwards. -/
theorem slice_ends (fs : List Fn) :
    getSlice fs none none none = .ok fs ∧ (∀ j : Nat, 0 < j → getSlice fs (some (-j)) none none = .ok (fs.drop (fs.length - j))) ∧
    getSlice fs none none (some (-1)) = .ok fs.reverse := by
  refine ⟨?_, ?_, ?_⟩
  · have h := slice_plain fs 0 fs.length
    have e : sliceItems fs.length none none none = sliceItems fs.length (some (0 : Nat)) (some (fs.length : Nat)) none := by
      have hn : ¬ (fs.length : Int) < 0 := by omega
      unfold sliceItems sliceEnd
      simp [hn]
    unfold getSlice at h ⊢
    rw [e, h]
    simp
  · intro j hj
    have h := slice_plain fs (fs.length - j) fs.length
    have e : sliceItems fs.length (some (-j)) none none =
        sliceItems fs.length (some ((fs.length - j : Nat) : Int)) (some (fs.length : Nat)) none := by
      have h1 : sliceEnd fs.length 0 fs.length 0 (some (-(j : Int))) = ((fs.length - j : Nat) : Int) := by
        unfold sliceEnd
        simp only
        rw [if_pos (by omega)]
        omega
      have h2 : sliceEnd fs.length 0 fs.length 0 (some ((fs.length - j : Nat) : Int)) = ((fs.length - j : Nat) : Int) := by
        unfold sliceEnd
        simp only
        rw [if_neg (by omega)]
        omega
      have h3 : sliceEnd fs.length 0 fs.length fs.length (some (fs.length : Int)) = fs.length := by
        unfold sliceEnd
        simp
      unfold sliceItems
      simp only [Option.getD_none]
      rw [h1, h2, h3]
      rfl
    unfold getSlice at h ⊢
    rw [e, h]
    congr 1
    rw [List.take_of_length_le]
    rw [List.length_drop]
  · have e : sliceItems fs.length none none (some (-1)) =
        .ok ((List.range fs.length).map (fun k : Nat => (fs.length : Int) - 1 + k * (-1))) := by
      unfold sliceItems sliceEnd
      simp
    unfold getSlice
    rw [e, py_bind_ok]
    obtain ⟨r, h1, h2⟩ := pyMap_get fs ((List.range fs.length).map (fun k : Nat => (fs.length : Int) - 1 + k * (-1))) (by
      intro i hi
      obtain ⟨k, hk, rfl⟩ := List.mem_map.1 hi
      have := List.mem_range.1 hk
      constructor <;> omega)
    rw [h1]
    congr 1
    apply List.ext_getElem?
    intro k
    rw [h2, List.getElem?_map]
    by_cases hk : k < fs.length
    · rw [List.getElem?_range hk, List.getElem?_reverse hk]
      simp only [Option.map_some, Option.bind_some]
      congr 1
      omega
    · rw [List.getElem?_eq_none (by rw [List.length_range]; omega), List.getElem?_eq_none (by rw [List.length_reverse]; omega)]
      rfl

/-- **C110** Slices raise only for the step zero. -/
theorem slice_raises (fs : List Fn) (start stop step : Option Int) :
    (step = some 0 ∧ getSlice fs start stop step = .error .valueError) ∨ step ≠ some 0 ∧ ∃ r, getSlice fs start stop step = .ok r := by
  by_cases h0 : step.getD 1 = 0
  · left
    have : step = some 0 := by
      cases step with
      | none => simp at h0
      | some s => simpa using h0
    refine ⟨this, ?_⟩
    unfold getSlice sliceItems
    rw [if_pos h0]
    rfl
  · right
    refine ⟨by rintro rfl; simp at h0, ?_⟩
    have key : ∃ is, sliceItems fs.length start stop step = .ok is ∧ ∀ i ∈ is, 0 ≤ i ∧ i < fs.length := by
      unfold sliceItems
      simp only [if_neg h0]
      generalize hs : step.getD 1 = s at h0
      by_cases hp : 0 < s
      · rw [if_pos hp]
        refine ⟨_, rfl, ?_⟩
        intro i hi
        obtain ⟨k, hk, rfl⟩ := List.mem_map.1 hi
        have hk' := List.mem_range.1 hk
        generalize hb : sliceEnd fs.length 0 fs.length fs.length stop = b at hk'
        generalize ha : sliceEnd fs.length 0 fs.length 0 start = a at hk' ⊢
        have hbn : b ≤ fs.length := by
          rw [← hb]; unfold sliceEnd; split <;> [skip; split] <;> omega
        have ha0 : 0 ≤ a := by
          rw [← ha]; unfold sliceEnd; split <;> [skip; split] <;> omega
        rw [Int.lt_toNat, ← Int.add_one_le_iff, Int.le_ediv_iff_mul_le hp] at hk'
        have e : ((k : Int) + 1) * s = k * s + s := by ring
        have : (0 : Int) ≤ k * s := by positivity
        constructor <;> omega
      · rw [if_neg hp]
        have hn : 0 < -s := by omega
        refine ⟨_, rfl, ?_⟩
        intro i hi
        obtain ⟨k, hk, rfl⟩ := List.mem_map.1 hi
        have hk' := List.mem_range.1 hk
        generalize hb : sliceEnd fs.length (-1) (fs.length - 1) (-1) stop = b at hk'
        generalize ha : sliceEnd fs.length (-1) (fs.length - 1) (fs.length - 1) start = a at hk' ⊢
        have hbn : -1 ≤ b := by
          rw [← hb]; unfold sliceEnd; split <;> [skip; split] <;> omega
        have ha0 : a ≤ fs.length - 1 := by
          rw [← ha]; unfold sliceEnd; split <;> [skip; split] <;> omega
        rw [Int.lt_toNat, ← Int.add_one_le_iff, Int.le_ediv_iff_mul_le hn] at hk'
        have e : ((k : Int) + 1) * (-s) = -(k * s) - s := by ring
        have : (0 : Int) ≤ k * (-s) := by positivity
        have e2 : (k : Int) * (-s) = -(k * s) := by ring
        constructor <;> omega
    obtain ⟨is, h1, h2⟩ := key
    obtain ⟨r, h3, -⟩ := pyMap_get fs is h2
    exact ⟨r, by unfold getSlice; rw [h1, py_bind_ok, h3]⟩

/-! ## Names -/

/-- **C110** Functions get the names given for them: the last name given for the same function.  Functions beyond the list of names
and other functions keep their names, names beyond the functions are ignored. -/
theorem rename_labels {Name : Type} : ∀ (os : List Nat) (names : List Name) (labels : Nat → Name),
    (∀ (i : Nat) o m, os[i]? = some o → names[i]? = some m → (∀ j, i < j → j < names.length → os[j]? ≠ some o) →
      (rename os names labels).1 o = m) ∧
    (∀ o, (∀ j, j < names.length → os[j]? ≠ some o) → (rename os names labels).1 o = labels o) ∧
    (rename os names labels).2.length = min os.length names.length
  | [], names, labels => by
      refine ⟨?_, ?_, ?_⟩
      · intro i o m h; simp at h
      · intro o _; cases names <;> rfl
      · cases names <;> simp [rename]
  | o0 :: os, [], labels => by
      refine ⟨?_, ?_, ?_⟩
      · intro i o m _ h; simp at h
      · intro o _; rfl
      · simp [rename]
  | o0 :: os, m0 :: names, labels => by
      obtain ⟨h1, h2, h3⟩ := rename_labels os names (fun p => if p = o0 then m0 else labels p)
      refine ⟨?_, ?_, ?_⟩
      · intro i o m ho hm hlast
        cases i with
        | zero =>
            simp only [List.getElem?_cons_zero, Option.some.injEq] at ho hm
            subst ho hm
            change (rename os names _).1 o0 = m0
            rw [h2 o0 (fun j hj => by
              have := hlast (j + 1) (by omega) (by simpa using hj)
              simpa using this)]
            simp
        | succ i =>
            simp only [List.getElem?_cons_succ] at ho hm
            exact h1 i o m ho hm (fun j hj hjl => by
              have := hlast (j + 1) (by omega) (by simpa using hjl)
              simpa using this)
      · intro o ho
        change (rename os names _).1 o = labels o
        rw [h2 o (fun j hj => by simpa using ho (j + 1) (by simpa using hj))]
        have : o ≠ o0 := by
          have := ho 0 (by simp)
          simpa [eq_comm] using this
        simp [this]
      · change ((rename os names _).2.length + 1) = _
        rw [h3]
        simp [Nat.succ_min_succ]

/-! ## Random coefficients -/

/-- **C110** After `randomize` a component has the numbers drawn for it, or for the last component with the same vector.  Sizes stay,
and so do other vectors. -/
theorem randomize_vectors {draw : Nat → Nat → List K} (hd : ∀ k n, (draw k n).length = n) :
    ∀ (fs : List Fn) (k : Nat) (h : Heap K),
    (∀ (i : Nat) f, fs[i]? = some f → (∀ j g, i < j → fs[j]? = some g → g.addr ≠ f.addr) →
      (randomize draw fs k h).vec f.addr = draw (k + i) (h.vec f.addr).length) ∧
    (∀ a, (∀ f ∈ fs, f.addr ≠ a) → (randomize draw fs k h).vec a = h.vec a) ∧
    ∀ a, ((randomize draw fs k h).vec a).length = (h.vec a).length
  | [], k, h => ⟨by intro i f hf; simp at hf, fun _ _ => rfl, fun _ => rfl⟩
  | f0 :: fs, k, h => by
      obtain ⟨h1, h2, h3⟩ := randomize_vectors hd fs (k + 1) (h.put f0.addr (draw k (h.vec f0.addr).length))
      have size : ∀ a, ((h.put f0.addr (draw k (h.vec f0.addr).length)).vec a).length = (h.vec a).length := by
        intro a
        unfold Heap.put
        simp only
        split
        · rename_i e; rw [hd, e]
        · rfl
      refine ⟨?_, ?_, ?_⟩
      · intro i f hf hlast
        cases i with
        | zero =>
            simp only [List.getElem?_cons_zero, Option.some.injEq] at hf
            subst hf
            change (randomize draw fs (k + 1) _).vec _ = _
            rw [h2 _ (fun g hg => by
              obtain ⟨j, hj, rfl⟩ := List.getElem_of_mem hg
              exact hlast (j + 1) _ (by omega) (by simp [List.getElem?_eq_getElem hj]))]
            simp [Heap.put]
        | succ i =>
            simp only [List.getElem?_cons_succ] at hf
            change (randomize draw fs (k + 1) _).vec _ = _
            rw [h1 i f hf (fun j g hj hg => hlast (j + 1) g (by omega) (by simpa using hg)), size]
            congr 1
            omega
      · intro a ha
        change (randomize draw fs (k + 1) _).vec _ = _
        rw [h2 a (fun f hf => ha f (by simp [hf]))]
        have := ha f0 (by simp)
        unfold Heap.put
        simp only
        rw [if_neg (fun e => this e.symm)]
      · intro a
        change ((randomize draw fs (k + 1) _).vec _).length = _
        rw [h3, size]

/-! ## The list of the caller -/

/-- **C110** A function made of no components or of vectors has a list of its own: what the caller does to other lists does not
change it. -/
theorem own_list [Zero K] {h h' : Heap K} {ls ls' : Lists} {W : List Space} {c : Option Nat} {u : Nat}
    (hc : ∀ a, c = some a → a < ls.next ∧ ∃ as : List Nat, ls.list a = as.map Component.vec)
    (ho : initList h ls W c = .ok (u, ls', h')) :
    (∃ fs, init h W (c.map ls.list) = .ok (fs, h') ∧ ls'.list u = fs.map Component.fn) ∧
      ∀ b l, b < ls.next → (ls'.put b l).list u = ls'.list u := by
  cases c with
  | none =>
      simp only [initList, Except.ok.injEq, Prod.mk.injEq] at ho
      obtain ⟨rfl, rfl, rfl⟩ := ho
      refine ⟨⟨_, rfl, by simp⟩, ?_⟩
      intro b l hb
      simp only [Lists.put]
      rw [if_neg (by omega)]
  | some a =>
      obtain ⟨ha, as, hv⟩ := hc a rfl
      unfold initList at ho
      obtain ⟨fs, h1, h2⟩ := py_bind_eq_ok.1 ho
      have hres : Except.ok (ls.next, (⟨ls.next + 1, fun b => if b = ls.next then fs.map Component.fn else ls.list b⟩ : Lists), h) =
          (Except.ok (u, ls', h') : Py _) := by
        rw [← h2, hv]
        cases as <;> rfl
      simp only [Except.ok.injEq, Prod.mk.injEq] at hres
      obtain ⟨rfl, rfl, rfl⟩ := hres
      refine ⟨⟨fs, ?_, by simp⟩, ?_⟩
      · simp only [Option.map_some, init, h1, py_bind_ok]
      · intro b l hb
        simp only [Lists.put]
        rw [if_neg (by omega)]

/-- **C110** A function made of a list of functions has the list of the caller: whatever the caller makes of the list later are the
components. -/
theorem caller_list [Zero K] (h : Heap K) {ls : Lists} {W : List Space} {a : Nat} {fs : List Fn} (hne : fs ≠ [])
    (hl : fs.length = W.length) (ha : ls.list a = fs.map Component.fn) :
    initList h ls W (some a) = .ok (a, ls, h) ∧ ∀ l, (ls.put a l).list a = l := by
  refine ⟨?_, fun l => by simp [Lists.put]⟩
  have h1 := from_functions (K := K) h hne hl
  obtain ⟨gs, h2, -⟩ := py_bind_eq_ok.1 h1
  simp only [initList]
  rw [ha, h2]
  cases fs with
  | nil => exact absurd rfl hne
  | cons f fs => rfl

/-! ## Examples -/

example : getSlice [⟨⟨0, 1⟩, 0⟩, ⟨⟨1, 1⟩, 1⟩, ⟨⟨2, 1⟩, 2⟩] none none (some 2) = .ok [⟨⟨0, 1⟩, 0⟩, ⟨⟨2, 1⟩, 2⟩] := by decide
example : getSlice [⟨⟨0, 1⟩, 0⟩, ⟨⟨1, 1⟩, 1⟩, ⟨⟨2, 1⟩, 2⟩] (some 1) (some 9) none = .ok [⟨⟨1, 1⟩, 1⟩, ⟨⟨2, 1⟩, 2⟩] :=
  slice_plain _ 1 9
example : (rename [3, 4, 5] ["u", "p"] (fun _ => "f")).1 5 = "f" := (rename_labels _ _ _).2.1 5 (by decide)
example : (rename [3, 4, 5] ["u", "p"] (fun _ => "f")).1 4 = "p" :=
  (rename_labels _ _ _).1 1 4 "p" rfl rfl (by intro j h1 h2; simp at h2; omega)
example : (randomize (fun k n => List.replicate n (k : Int)) [⟨⟨0, 2⟩, 5⟩, ⟨⟨1, 2⟩, 6⟩] 0 ⟨7, fun _ => [0, 0]⟩).vec 6 = [1, 1] :=
  (randomize_vectors (by simp) _ _ _).1 1 ⟨⟨1, 2⟩, 6⟩ rfl (by
    intro j g hj hg
    have := (List.getElem?_eq_some_iff.1 hg).1
    simp at this
    omega)
example : initList (⟨9, fun _ => [0]⟩ : Heap Int) ⟨1, fun _ => [.fn ⟨⟨0, 1⟩, 3⟩]⟩ [⟨0, 1⟩] (some 0) =
    .ok (0, ⟨1, fun _ => [.fn ⟨⟨0, 1⟩, 3⟩]⟩, ⟨9, fun _ => [0]⟩) :=
  (caller_list _ (fs := [⟨⟨0, 1⟩, 3⟩]) (by simp) rfl rfl).1

end Verif.IIFunction
