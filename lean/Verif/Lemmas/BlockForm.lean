import Verif.Spec.BlockForm
import Verif.Lemmas.BlockOps
import Verif.Props.Ufl
/-! # Lemmas about block forms -/
namespace Verif.BlockForm
open Verif Ufl BlockOps

variable {S : Type} [DecidableEq S]

theorem mem_spacesIn (n : Nat) (V : S) : ∀ ts : List (Term S),
    V ∈ spacesIn n (argsOf (ts.map .term)) ↔ ∃ t ∈ ts, t.base = .argument n V
  | [] => by simp [argsOf, spacesIn]
  | ⟨.argument k Q, as⟩ :: ts => by
      have ih := mem_spacesIn n V ts
      simp only [List.map_cons, argsOf, spacesIn]
      by_cases hk : k = n
      · subst hk
        simp only [if_true, List.mem_cons, ih]
        constructor
        · rintro (rfl | ⟨t, ht, hb⟩)
          · exact ⟨_, Or.inl rfl, rfl⟩
          · exact ⟨t, Or.inr ht, hb⟩
        · rintro ⟨t, rfl | ht, hb⟩
          · left; simp only [Base.argument.injEq, true_and] at hb; exact hb.symm
          · exact Or.inr ⟨t, ht, hb⟩
      · simp only [hk, if_false, ih, List.mem_cons]
        constructor
        · rintro ⟨t, ht, hb⟩; exact ⟨t, Or.inr ht, hb⟩
        · rintro ⟨t, rfl | ht, hb⟩
          · simp only [Base.argument.injEq] at hb; exact absurd hb.1 hk
          · exact ⟨t, ht, hb⟩
  | ⟨.other i, as⟩ :: ts => by
      have ih := mem_spacesIn n V ts
      simp only [List.map_cons, argsOf, ih, List.mem_cons]
      constructor
      · rintro ⟨t, ht, hb⟩; exact ⟨t, Or.inr ht, hb⟩
      · rintro ⟨t, rfl | ht, hb⟩
        · cases hb
        · exact ⟨t, ht, hb⟩

theorem dedup_singleton {α : Type} [DecidableEq α] (l : List α) (x : α) :
    l.dedup = [x] ↔ l ≠ [] ∧ ∀ y ∈ l, y = x := by
  constructor
  · intro h
    refine ⟨?_, fun y hy => ?_⟩
    · rintro rfl; simp at h
    · have : y ∈ l.dedup := List.mem_dedup.mpr hy
      rw [h] at this
      simpa using this
  · rintro ⟨h1, h2⟩
    have hall : ∀ y ∈ l.dedup, y = x := fun y hy => h2 y (List.mem_dedup.mp hy)
    have hnd := List.nodup_dedup l
    match hd : l.dedup with
    | [] => exact absurd (List.dedup_eq_nil l |>.mp hd) h1
    | [y] => rw [hd] at hall; rw [hall y (by simp)]
    | y :: z :: r =>
        rw [hd] at hall hnd
        have hy := hall y (by simp)
        have hz := hall z (by simp)
        rw [hy, hz] at hnd
        simp at hnd

theorem mem_functions (n : Nat) (V : S) (is : List (Integral S)) :
    V ∈ is.flatMap (fun I => spacesIn n (argsOf (traverseTerminals I.integrand))) ↔
      ∃ I ∈ is, ∃ t ∈ terms I.integrand, t.base = .argument n V := by
  simp only [List.mem_flatMap, traverse_terminals, mem_spacesIn]

theorem functions_of_only (n : Nat) (V : S) (is : List (Integral S)) (hne : is ≠ [])
    (h : ∀ I ∈ is, OnlyArg n V I) : functions n is = [V] := by
  rw [functions, dedup_singleton]
  constructor
  · match is, hne with
    | I :: is, _ =>
      obtain ⟨t, ht, hb⟩ := (h I (by simp)).1
      have : V ∈ (I :: is).flatMap (fun I => spacesIn n (argsOf (traverseTerminals I.integrand))) :=
        (mem_functions n V _).mpr ⟨I, by simp, t, ht, hb⟩
      intro h0
      rw [h0] at this
      simp at this
  · intro y hy
    obtain ⟨I, hI, t, ht, hb⟩ := (mem_functions n y is).mp hy
    exact (h I hI).2 t ht y hb

theorem functions_one (n : Nat) (V : S) (I : Integral S) : functions n [I] = [V] ↔ OnlyArg n V I := by
  constructor
  · intro h
    rw [functions, dedup_singleton] at h
    obtain ⟨h1, h2⟩ := h
    obtain ⟨y, hy⟩ := List.exists_mem_of_ne_nil _ h1
    have := h2 y hy
    subst this
    obtain ⟨I', hI, t, ht, hb⟩ := (mem_functions n y [I]).mp hy
    simp only [List.mem_singleton] at hI
    subst hI
    refine ⟨⟨t, ht, hb⟩, fun t' ht' Q hQ => ?_⟩
    exact h2 Q ((mem_functions n Q [I']).mpr ⟨I', by simp, t', ht', hQ⟩)
  · intro h
    exact functions_of_only n V [I] (by simp) (by simpa using h)

theorem functions_none (n : Nat) (I : Integral S) : functions n [I] = [] ↔ NoArg n I := by
  rw [functions, List.dedup_eq_nil, List.eq_nil_iff_forall_not_mem]
  constructor
  · intro h t ht Q hb
    exact h Q ((mem_functions n Q [I]).mpr ⟨I, by simp, t, ht, hb⟩)
  · intro h V hV
    obtain ⟨I', hI, t, ht, hb⟩ := (mem_functions n V [I]).mp hV
    simp only [List.mem_singleton] at hI
    subst hI
    exact h t ht V hb

theorem theOne_ok {α : Type} {l : List α} {x : α} : theOne l = .ok x ↔ l = [x] := by
  unfold theOne
  split
  · simp
  · rename_i h
    constructor
    · intro h'; cases h'
    · intro h'; exact absurd h' (h x)

theorem firstAt_iff (W : List S) (V : S) (i : Nat) : FirstAt W V i ↔ V ∈ W ∧ W.idxOf V = i := by
  constructor
  · rintro ⟨h1, h2⟩
    have hm : V ∈ W := List.mem_of_getElem? h1
    refine ⟨hm, ?_⟩
    have hlt := List.idxOf_lt_length_of_mem hm
    have hget : W[W.idxOf V]? = some V := by
      rw [List.getElem?_eq_getElem hlt, List.getElem_idxOf hlt]
    obtain ⟨hi, hie⟩ := List.getElem?_eq_some_iff.mp h1
    have hle : W.idxOf V ≤ i := by
      by_contra hc
      push Not at hc
      have hne := List.not_of_lt_findIdx (p := (· == V)) (xs := W) (i := i) (by simpa [List.idxOf] using hc)
      simp [hie] at hne
    rcases Nat.lt_or_ge (W.idxOf V) i with h | h
    · exact absurd hget (h2 _ h)
    · omega
  · rintro ⟨hm, rfl⟩
    have hlt := List.idxOf_lt_length_of_mem hm
    refine ⟨by rw [List.getElem?_eq_getElem hlt, List.getElem_idxOf hlt], fun k hk hc => ?_⟩
    obtain ⟨hk2, hke⟩ := List.getElem?_eq_some_iff.mp hc
    have hne := List.not_of_lt_findIdx (p := (· == V)) (xs := W) (i := k) (by simpa [List.idxOf] using hk)
    simp [hke] at hne

theorem spaceIndex_ok {W : List S} {V : S} {i : Nat} : spaceIndex W V = .ok i ↔ FirstAt W V i := by
  rw [firstAt_iff, spaceIndex]
  split
  · rename_i h; simp [h]
  · rename_i h; simp [h]

theorem firstAt_lt {W : List S} {V : S} {i : Nat} (h : FirstAt W V i) : i < W.length :=
  (List.getElem?_eq_some_iff.mp h.1).1

theorem firstAt_unique {W : List S} {V : S} {i j : Nat} (h : FirstAt W V i) (h' : FirstAt W V j) : i = j := by
  rw [firstAt_iff] at h h'
  rw [← h.2, ← h'.2]

theorem onlyArg_unique {n : Nat} {V Q : S} {I : Integral S} (h : OnlyArg n V I) (h' : OnlyArg n Q I) : V = Q := by
  obtain ⟨t, ht, hb⟩ := h.1
  exact h'.2 t ht V hb

/-! ### Tables -/

theorem at2_ok {rows : List (List (Entry S))} {i j : Nat} {e : Entry S} :
    at2 rows i j = .ok e ↔ get2 rows i j = some e := by
  simp only [at2, get2, py_bind_eq_ok, pyGet_eq_ok, Option.bind_eq_some_iff]

theorem square_get2 {α : Type} {n : Nat} {rows : List (List α)} (h : Square n rows) {i j : Nat} (hi : i < n) (hj : j < n) :
    ∃ e, get2 rows i j = some e := by
  have hi' : i < rows.length := by rw [h.1]; exact hi
  have hr := h.2 rows[i] (List.getElem_mem hi')
  refine ⟨rows[i][j]'(by omega), ?_⟩
  simp [get2, hi', hr, hj]

theorem setAt_square {n : Nat} {rows : List (List (Entry S))} (h : Square n rows) (i j : Nat) (e : Entry S) :
    Square n (setAt rows i j e) := by
  refine ⟨by simp [setAt, h.1], fun r hr => ?_⟩
  rcases Nat.lt_or_ge i rows.length with hi | hi
  · rw [setAt] at hr
    rcases List.mem_or_eq_of_mem_set hr with h1 | h1
    · exact h.2 r h1
    · rw [h1, List.length_set]
      have : rows.getD i [] = rows[i] := by simp [hi]
      rw [this]
      exact h.2 _ (List.getElem_mem hi)
  · rw [setAt, List.set_eq_of_length_le hi] at hr
    exact h.2 r hr

theorem get2_setAt {n : Nat} {rows : List (List (Entry S))} (h : Square n rows) {i j : Nat} (hi : i < n) (hj : j < n)
    (e : Entry S) (k l : Nat) :
    get2 (setAt rows i j e) k l = if k = i ∧ l = j then some e else get2 rows k l := by
  have hi' : i < rows.length := by rw [h.1]; exact hi
  have hr : rows[i].length = n := h.2 _ (List.getElem_mem hi')
  have hd : rows.getD i [] = rows[i] := by simp [hi']
  rw [get2, setAt, hd]
  by_cases hk : k = i
  · subst hk
    rw [List.getElem?_set_self hi']
    by_cases hl : l = j
    · subst hl
      simp [hr, hj]
    · simp only [Option.bind_some, hl, and_false, if_false]
      rw [List.getElem?_set_ne (by omega)]
      simp [get2, hi']
  · rw [List.getElem?_set_ne (by omega)]
    simp [hk, get2]

/-! ### Histories -/

theorem get2_start (W : List S) (i j : Nat) (hi : i < W.length) (hj : j < W.length) :
    get2 (start2 W) i j = some (.num 0) := by
  simp [get2, start2, hi, hj]

open Classical in
/-- The invariant of bilinear forms. -/
def Inv2 (W : List S) (rows : List (List (Entry S))) (acc : List (Integral S)) : Prop :=
  Square W.length rows ∧ ∀ i j, i < W.length → j < W.length →
    get2 rows i j = some (sumOf (acc.filter (fun I => Belongs2 W i j I)))

theorem addEntry_sumOf (l : List (Integral S)) (I : Integral S) :
    addEntry (sumOf l) (.form [I]) = .ok (sumOf (l ++ [I])) := by
  cases l with
  | nil => simp [sumOf, addEntry]
  | cons a l => simp [sumOf, addEntry]

theorem step2_ok (W : List S) (rows : List (List (Entry S))) (acc : List (Integral S)) (h : Inv2 W rows acc)
    (I : Integral S) (hI : ∃ i j, Belongs2 W i j I) :
    ∃ rows', addOne2 W rows I = .ok rows' ∧ Inv2 W rows' (acc ++ [I]) := by
  classical
  obtain ⟨i, j, V, Q, h0, h1, hi, hj⟩ := hI
  have hil := firstAt_lt hi
  have hjl := firstAt_lt hj
  obtain ⟨hsq, hget⟩ := h
  have hold := hget i j hil hjl
  have hold' := at2_ok.mpr hold
  rw [at2] at hold'
  set L := acc.filter (fun I => Belongs2 W i j I) with hL
  have hmem : ∀ J ∈ L ++ [I], OnlyArg 0 V J ∧ OnlyArg 1 Q J := by
    intro J hJ
    rcases List.mem_append.mp hJ with hJ | hJ
    · obtain ⟨_, hB⟩ := List.mem_filter.mp hJ
      obtain ⟨V', Q', a, b, c, d⟩ := of_decide_eq_true hB
      have e1 : V' = V := by
        have := c.1.symm.trans hi.1; exact Option.some.inj this
      have e2 : Q' = Q := by
        have := d.1.symm.trans hj.1; exact Option.some.inj this
      subst e1 e2
      exact ⟨a, b⟩
    · simp only [List.mem_singleton] at hJ
      subst hJ
      exact ⟨h0, h1⟩
  have hset : settable2 V Q (sumOf (L ++ [I])) = true := by
    have e0 := functions_of_only 0 V (L ++ [I]) (by simp) (fun J hJ => (hmem J hJ).1)
    have e1 := functions_of_only 1 Q (L ++ [I]) (by simp) (fun J hJ => (hmem J hJ).2)
    have : sumOf (L ++ [I]) = .form (L ++ [I]) := by
      cases hh : L ++ [I] with
      | nil => simp at hh
      | cons => rfl
    rw [this]
    simp [settable2, e0, e1]
  refine ⟨setAt rows i j (sumOf (L ++ [I])), ?_, setAt_square hsq i j _, ?_⟩
  · rw [addOne2, (functions_one 0 V I).mpr h0, (functions_one 1 Q I).mpr h1]
    simp only [theOne, py_bind_ok, spaceIndex_ok.mpr hi, spaceIndex_ok.mpr hj]
    obtain ⟨r, hr1, hr2⟩ := py_bind_eq_ok.mp hold'
    rw [hr1, py_bind_ok, hr2, py_bind_ok, addEntry_sumOf, py_bind_ok, assign2, pyGet_eq_ok.mpr hi.1,
      py_bind_ok, pyGet_eq_ok.mpr hj.1, py_bind_ok, hset]
    rfl
  · intro k l hk hl
    rw [get2_setAt hsq hil hjl]
    split
    · rename_i hkl
      obtain ⟨rfl, rfl⟩ := hkl
      rw [List.filter_append, ← hL]
      congr 2
      rw [List.filter_singleton]
      have : decide (Belongs2 W k l I) = true := decide_eq_true ⟨V, Q, h0, h1, hi, hj⟩
      simp [this]
    · rename_i hkl
      rw [hget k l hk hl, List.filter_append]
      have : [I].filter (fun I => decide (Belongs2 W k l I)) = [] := by
        rw [List.filter_singleton]
        have : decide (Belongs2 W k l I) = false := by
          refine decide_eq_false ?_
          rintro ⟨V', Q', a, b, c, d⟩
          have e1 := onlyArg_unique a h0
          have e2 := onlyArg_unique b h1
          subst e1 e2
          exact hkl ⟨firstAt_unique c hi, firstAt_unique d hj⟩
        simp [this]
      rw [this, List.append_nil]

theorem step2_error (W : List S) (rows : List (List (Entry S)))
    (I : Integral S) (hI : ¬ ∃ i j, Belongs2 W i j I) : ∃ e, addOne2 W rows I = .error e := by
  rcases hr : addOne2 W rows I with e | rows'
  · exact ⟨e, rfl⟩
  · exfalso
    rw [addOne2] at hr
    obtain ⟨V, h0, hr⟩ := py_bind_eq_ok.mp hr
    obtain ⟨Q, h1, hr⟩ := py_bind_eq_ok.mp hr
    obtain ⟨j, hj, hr⟩ := py_bind_eq_ok.mp hr
    obtain ⟨i, hi, hr⟩ := py_bind_eq_ok.mp hr
    exact hI ⟨i, j, V, Q, (functions_one 0 V I).mp (theOne_ok.mp h0), (functions_one 1 Q I).mp (theOne_ok.mp h1),
      spaceIndex_ok.mp hi, spaceIndex_ok.mp hj⟩

open Classical in
/-- The invariant of linear forms. -/
def Inv1 (null : S → List (Integral S)) (W : List S) (es : List (Entry S)) (acc : List (Integral S)) : Prop :=
  es.length = W.length ∧ ∀ (i : Nat) (V : S), W[i]? = some V →
    es[i]? = some (.form (null V ++ acc.filter (fun I => Belongs1 W i I)))

theorem step1_ok (null : S → List (Integral S)) (hnull : ∀ V, null V ≠ [] ∧ ∀ I ∈ null V, OnlyArg 0 V I)
    (W : List S) (es : List (Entry S)) (acc : List (Integral S)) (h : Inv1 null W es acc)
    (I : Integral S) (hI : ∃ i, Belongs1 W i I) :
    ∃ es', addOne1 W es I = .ok es' ∧ Inv1 null W es' (acc ++ [I]) := by
  classical
  obtain ⟨i, V, h0, h1, hi⟩ := hI
  have hil := firstAt_lt hi
  obtain ⟨hlen, hget⟩ := h
  have hold := hget i V hi.1
  set L := null V ++ acc.filter (fun I => Belongs1 W i I) with hL
  have hmem : ∀ J ∈ L ++ [I], OnlyArg 0 V J := by
    intro J hJ
    rcases List.mem_append.mp hJ with hJ | hJ
    · rcases List.mem_append.mp hJ with hJ | hJ
      · exact (hnull V).2 J hJ
      · obtain ⟨_, hB⟩ := List.mem_filter.mp hJ
        obtain ⟨V', a, b, c⟩ := of_decide_eq_true hB
        have e1 : V' = V := by
          have := c.1.symm.trans hi.1; exact Option.some.inj this
        subst e1
        exact a
    · simp only [List.mem_singleton] at hJ
      subst hJ
      exact h0
  have hset : settable1 V (.form (L ++ [I])) = true := by
    have e0 := functions_of_only 0 V (L ++ [I]) (by simp) hmem
    simp [settable1, e0]
  refine ⟨es.set i (.form (L ++ [I])), ?_, by simp [hlen], ?_⟩
  · rw [addOne1, (functions_none 1 I).mpr h1, (functions_one 0 V I).mpr h0]
    simp only [theOne, py_bind_ok, spaceIndex_ok.mpr hi, decide_true, pyAssert_true, pyGet_eq_ok.mpr hold, addEntry]
    rw [assign1, pyGet_eq_ok.mpr hi.1, py_bind_ok, hset]
    rfl
  · intro k Q hk
    by_cases hki : k = i
    · subst hki
      have : Q = V := Option.some.inj (hk.symm.trans hi.1)
      subst this
      rw [List.getElem?_set_self (by omega), List.filter_append]
      have hd : [I].filter (fun I => decide (Belongs1 W k I)) = [I] := by
        rw [List.filter_singleton]
        have : decide (Belongs1 W k I) = true := decide_eq_true ⟨Q, h0, h1, hi⟩
        simp [this]
      rw [hd, hL, List.append_assoc]
    · rw [List.getElem?_set_ne (by omega), hget k Q hk, List.filter_append]
      have : [I].filter (fun I => decide (Belongs1 W k I)) = [] := by
        rw [List.filter_singleton]
        have : decide (Belongs1 W k I) = false := by
          refine decide_eq_false ?_
          rintro ⟨V', a, b, c⟩
          have e1 := onlyArg_unique a h0
          subst e1
          exact hki (firstAt_unique c hi)
        simp [this]
      rw [this, List.append_nil]

theorem step1_error (W : List S) (es : List (Entry S))
    (I : Integral S) (hI : ¬ ∃ i, Belongs1 W i I) : ∃ e, addOne1 W es I = .error e := by
  rcases hr : addOne1 W es I with e | es'
  · exact ⟨e, rfl⟩
  · exfalso
    rw [addOne1] at hr
    obtain ⟨_, h1, hr⟩ := py_bind_eq_ok.mp hr
    obtain ⟨V, h0, hr⟩ := py_bind_eq_ok.mp hr
    obtain ⟨i, hi, hr⟩ := py_bind_eq_ok.mp hr
    have h1' := pyAssert_eq_ok.mp h1
    exact hI ⟨i, V, (functions_one 0 V I).mp (theOne_ok.mp h0), (functions_none 1 I).mp (by simpa using h1'),
      spaceIndex_ok.mp hi⟩

/-- Adding one integral after another keeps an invariant. -/
theorem addMany_inv {σ : Type} (one : σ → Integral S → Py σ) (belongs : Integral S → Prop)
    (Inv : σ → List (Integral S) → Prop)
    (hok : ∀ s acc I, Inv s acc → belongs I → ∃ s', one s I = .ok s' ∧ Inv s' (acc ++ [I]))
    (herr : ∀ s I, ¬ belongs I → ∃ e, one s I = .error e) :
    ∀ (form : List (Integral S)) (s : σ) (acc : List (Integral S)), Inv s acc →
      Inv (addMany one s form).1 (acc ++ accepted belongs form) ∧
      ((∀ I ∈ form, belongs I) ↔ (addMany one s form).2 = none)
  | [], s, acc, h => by simpa [addMany, accepted] using h
  | I :: form, s, acc, h => by
      classical
      by_cases hb : belongs I
      · obtain ⟨s', h1, h2⟩ := hok s acc I h hb
        have ih := addMany_inv one belongs Inv hok herr form s' _ h2
        rw [addMany, h1]
        simp only [accepted, List.takeWhile_cons, hb, decide_true, if_true, List.mem_cons, forall_eq_or_imp, true_and]
        simpa [accepted] using ih
      · obtain ⟨e, h1⟩ := herr s I hb
        rw [addMany, h1]
        simp only [accepted, List.takeWhile_cons, hb, decide_false, Bool.false_eq_true, if_false, List.append_nil]
        exact ⟨h, by simp [hb]⟩

theorem history_inv {σ : Type} (one : σ → Integral S → Py σ) (belongs : Integral S → Prop)
    (Inv : σ → List (Integral S) → Prop)
    (hok : ∀ s acc I, Inv s acc → belongs I → ∃ s', one s I = .ok s' ∧ Inv s' (acc ++ [I]))
    (herr : ∀ s I, ¬ belongs I → ∃ e, one s I = .error e) :
    ∀ (forms : List (List (Integral S))) (s : σ) (acc : List (Integral S)), Inv s acc →
      Inv (history one s forms) (acc ++ forms.flatMap (accepted belongs))
  | [], s, acc, h => by simpa [history] using h
  | f :: forms, s, acc, h => by
      have h1 : Inv (add one s f).1 (acc ++ accepted belongs f) := by
        rw [add]
        split
        · rename_i hf; subst hf; simpa [accepted] using h
        · exact (addMany_inv one belongs Inv hok herr f s acc h).1
      have := history_inv one belongs Inv hok herr forms _ _ h1
      rw [history, List.flatMap_cons, ← List.append_assoc]
      exact this

end Verif.BlockForm
