import Verif.Lemmas.Variational
import Verif.Props.Program
/-! # From forms to the solution of the variational problem (C87) -/
namespace Verif.Program
open Verif Ufl BlockOps BlockForm Collapse ApplyBc IIFunction Workflow Reduced Finset

variable {S K D : Type} [DecidableEq S] [Field K] [AddCommGroup D] [Module K D]

theorem coeffs_first {W : List S} {xs : List (List K)} {V : S} {k : Nat} {x : List K} (hf : FirstAt W V k)
    (hx : xs[k]? = some x) : coeffs W xs V = fnOf x := by
  have : ∀ (W : List S) (xs : List (List K)) (k : Nat), FirstAt W V k → xs[k]? = some x → (W.zip xs).lookup V = some x := by
    intro W
    induction W with
    | nil => intro xs k h; simp [FirstAt] at h
    | cons Q W ih =>
        intro xs k ⟨h1, h2⟩ hx
        cases xs with
        | nil => simp at hx
        | cons y xs =>
            cases k with
            | zero =>
                simp at h1 hx
                subst h1 hx
                simp
            | succ k =>
                have hne : Q ≠ V := by
                  intro h; exact h2 0 (by omega) (by simp [h])
                rw [List.zip_cons_cons, List.lookup_cons, show (V == Q) = false by simpa using fun h => hne h.symm]
                exact ih xs k ⟨by simpa using h1, fun j hj => by simpa using h2 (j + 1) (by omega)⟩ (by simpa using hx)
  rw [coeffs, this W xs k hf hx]; rfl

/-- What the forms of a program with `add` are: all integrals have one test and one trial function from the spaces. -/
structure Added (W : List S) (as Ls : List (List (Integral S))) : Prop where
  bilinear : ∀ f ∈ as, f ≠ [] ∧ ∀ I ∈ f, ∃ i j, Belongs2 W i j I
  linear : ∀ f ∈ Ls, f ≠ [] ∧ ∀ I ∈ f, ∃ i, Belongs1 W i I

section
variable {sem : Sem S K D} {red : Reduction S K} {env : Env S K} {mods : List (Assembler S K)} {W : List S}
  {null : S → List (Integral S)} {as Ls : List (List (Integral S))}

open Classical in
theorem history_get (had : Added W as Ls) {i : Nat} {row : List (Entry S)}
    (hi : (history (addOne2 W) (start2 W) as)[i]? = some row) :
    row.length = W.length ∧ ∀ j, j < W.length →
      row[j]? = some (sumOf (as.flatten.filter (fun I => Belongs2 W i j I))) := by
  obtain ⟨⟨h1, h2⟩, h3⟩ := add_history W as
  have hrow := h2 row (List.mem_of_getElem? hi)
  have hil : i < W.length := by rw [← h1]; exact (List.getElem?_eq_some_iff.1 hi).1
  refine ⟨hrow, fun j hj => ?_⟩
  have := h3 i j hil hj
  rw [get2, hi, Option.bind_some, flatMap_accepted (fun f hf => (had.bilinear f hf).2)] at this
  exact this

open Classical in
theorem history_linear (hn : NullForms sem (reduced sem red) env mods W null) (had : Added W as Ls) {i : Nat} {V : S}
    (hV : W[i]? = some V) : (history (addOne1 W) (start1 null W) Ls)[i]? =
      some (.form (null V ++ Ls.flatten.filter (fun I => Belongs1 W i I))) := by
  have := add_history_linear null hn.arguments W Ls i V hV
  rwa [flatMap_accepted (fun f hf => (had.linear f hf).2)] at this

theorem start1_length (hn : NullForms sem (reduced sem red) env mods W null) :
    (history (addOne1 W) (start1 null W) Ls).length = W.length :=
  (history_inv (addOne1 W) (fun I => ∃ i, Belongs1 W i I) (Inv1 null W)
    (fun s acc I h hI => step1_ok null hn.arguments W s acc h I hI) (fun s I hI => step1_error W s I hI) Ls
    (start1 null W) [] ⟨by simp [start1], fun i V hV => by simp [start1, hV]⟩).1

theorem added_blockForms (hW : W ≠ []) (hn : NullForms sem (reduced sem red) env mods W null) (had : Added W as Ls) :
    BlockForms W (history (addOne2 W) (start2 W) as) (history (addOne1 W) (start1 null W) Ls) := by
  classical
  obtain ⟨⟨h1, h2⟩, h3⟩ := add_history W as
  have entry : ∀ {i j : Nat} {row : List (Entry S)} {e : Entry S}, (history (addOne2 W) (start2 W) as)[i]? = some row →
      row[j]? = some e → e = sumOf (as.flatten.filter (fun I => Belongs2 W i j I)) := by
    intro i j row e hi hj
    obtain ⟨g1, g2⟩ := history_get had hi
    have := g2 j (by rw [← g1]; exact (List.getElem?_eq_some_iff.1 hj).1)
    rw [hj] at this; injection this
  refine ⟨hW, h1, h2, ?_, ?_, start1_length hn, ?_⟩
  · intro i j row e hi hj
    rw [entry hi hj]
    cases hl : as.flatten.filter (fun I => Belongs2 W i j I) with
    | nil => trivial
    | cons I l =>
        have hall : ∀ J ∈ I :: l, Belongs2 W i j J := by
          intro J hJ
          rw [← hl, List.mem_filter] at hJ
          simpa using hJ.2
        obtain ⟨V, Q, a, b, c, d⟩ := hall I (by simp)
        refine ⟨V, Q, c.1, d.1, ⟨⟨I, by simp, a.1⟩, ?_⟩, ⟨⟨I, by simp, b.1⟩, ?_⟩⟩
        · intro J hJ t ht P hP
          obtain ⟨V', Q', a', b', c', d'⟩ := hall J hJ
          have := a'.2 t ht P hP
          have e := c'.1; rw [c.1] at e; cases e; exact this
        · intro J hJ t ht P hP
          obtain ⟨V', Q', a', b', c', d'⟩ := hall J hJ
          have := b'.2 t ht P hP
          have e := d'.1; rw [d.1] at e; cases e; exact this
  · intro i j row c hi hj
    left
    have := entry hi hj
    cases hl : as.flatten.filter (fun I => Belongs2 W i j I) with
    | nil => rw [hl] at this; cases this; rfl
    | cons I l => rw [hl] at this; cases this
  · intro i e he
    have hi : i < W.length := by rw [← start1_length hn (Ls := Ls)]; exact (List.getElem?_eq_some_iff.1 he).1
    have hV := List.getElem?_eq_getElem hi
    rw [history_linear hn had hV] at he
    injection he with he
    have hall : ∀ I ∈ null W[i] ++ Ls.flatten.filter (fun I => Belongs1 W i I), OnlyArg 0 W[i] I ∧ NoArg 1 I := by
      intro I hI
      rcases List.mem_append.1 hI with hI | hI
      · exact ⟨(hn.arguments _).2 I hI, hn.linear _ (List.getElem_mem hi) I hI⟩
      · rw [List.mem_filter] at hI
        obtain ⟨V, a, b, c⟩ := (by simpa using hI.2 : Belongs1 W i I)
        have e := c.1; rw [hV] at e; injection e with e; subst e
        exact ⟨a, b⟩
    refine ⟨_, W[i], he.symm, hV, ⟨?_, fun I hI => (hall I hI).1.2⟩, fun I hI => (hall I hI).2⟩
    obtain ⟨I, l, hl⟩ := List.exists_cons_of_ne_nil (hn.arguments W[i]).1
    exact ⟨I, by simp [hl], ((hn.arguments _).2 I (by simp [hl])).1⟩

theorem added_forForms (hn : NullForms sem (reduced sem red) env mods W null) (had : Added W as Ls)
    (hwa : ∀ f ∈ as, ∀ I ∈ f, WellFormed sem mods I) (hwL : ∀ f ∈ Ls, ∀ I ∈ f, WellFormed sem mods I) :
    ForForms (history (addOne2 W) (start2 W) as) (history (addOne1 W) (start1 null W) Ls)
      (fun F => (∀ I ∈ F, WellFormed sem mods I) ∧ SameArguments F) := by
  classical
  constructor
  · intro row hrow F hF
    obtain ⟨i, hi, rfl⟩ := List.getElem_of_mem hrow
    obtain ⟨j, hj, hij⟩ := List.getElem_of_mem hF
    obtain ⟨g1, g2⟩ := history_get had (List.getElem?_eq_getElem hi)
    have := g2 j (by omega)
    rw [List.getElem?_eq_getElem hj, hij] at this
    injection this with this
    have hFl : F = as.flatten.filter (fun I => Belongs2 W i j I) := by
      cases hl : as.flatten.filter (fun I => Belongs2 W i j I) with
      | nil => rw [hl] at this; cases this
      | cons I l => rw [hl] at this; injection this
    have hall : ∀ I ∈ F, WellFormed sem mods I ∧ Belongs2 W i j I := by
      intro I hI
      rw [hFl, List.mem_filter] at hI
      obtain ⟨f, hf, hIf⟩ := List.mem_flatten.1 hI.1
      exact ⟨hwa f hf I hIf, by simpa using hI.2⟩
    refine ⟨fun I hI => (hall I hI).1, ?_⟩
    intro I hI t ht n V hb J hJ
    obtain ⟨w, P, Q, a, b, c, d⟩ := hall I hI
    obtain ⟨_, P', Q', a', b', c', d'⟩ := hall J hJ
    have e := c'.1; rw [c.1] at e; cases e
    have e := d'.1; rw [d.1] at e; cases e
    have hn := w.twoArguments t ht n V hb
    interval_cases n
    · obtain rfl := a.2 t ht V hb; exact a'.1
    · obtain rfl := b.2 t ht V hb; exact b'.1
  · intro F hF
    obtain ⟨i, hi, hij⟩ := List.getElem_of_mem hF
    have hi' : i < W.length := by rwa [start1_length hn] at hi
    have hV := List.getElem?_eq_getElem hi'
    have h := history_linear hn had hV
    rw [List.getElem?_eq_getElem hi, hij] at h
    injection h with h
    injection h with h
    have hall : ∀ I ∈ F, WellFormed sem mods I ∧ OnlyArg 0 W[i] I ∧ NoArg 1 I := by
      intro I hI
      rw [h] at hI
      rcases List.mem_append.1 hI with hI | hI
      · exact ⟨hn.wellFormed _ (List.getElem_mem hi') I hI, (hn.arguments _).2 I hI, hn.linear _ (List.getElem_mem hi') I hI⟩
      · rw [List.mem_filter] at hI
        obtain ⟨V, a, b, c⟩ := (by simpa using hI.2 : Belongs1 W i I)
        have e := c.1; rw [hV] at e; injection e with e; subst e
        obtain ⟨f, hf, hIf⟩ := List.mem_flatten.1 hI.1
        exact ⟨hwL f hf I hIf, a, b⟩
    refine ⟨fun I hI => (hall I hI).1, ?_⟩
    intro I hI t ht n V hb J hJ
    obtain ⟨w, a, b⟩ := hall I hI
    obtain ⟨_, a', b'⟩ := hall J hJ
    have hn := w.twoArguments t ht n V hb
    interval_cases n
    · obtain rfl := a.2 t ht V hb; exact a'.1
    · exact absurd hb (b t ht V)

/-- The values of forms. -/
abbrev valueOf (sem : Sem S K D) (red : Reduction S K) (env : Env S K) (F : List (Integral S)) (v u : Nat → K) : K :=
  total sem F (fun I => meaning sem red env v u I.rest)

open Classical in
theorem row_sum (had : Added W as Ls) (hwa : ∀ f ∈ as, ∀ I ∈ f, WellFormed sem mods I) {xs : List (List K)}
    (hxs : xs.length = W.length) {i : Nat} {V : S} (hV : W[i]? = some V) {row : List (Entry S)}
    (hrow : (history (addOne2 W) (start2 W) as)[i]? = some row) (n : Nat) (v : S → Nat → K) :
    ((row.zip xs).map (fun p => value (valueOf sem red env) n (v V) (fnOf p.2) p.1)).sum =
      ∑ j ∈ range W.length, ((as.flatten.filter (fun I => Belongs2 W i j I)).map (fun I =>
        sem.integral I.rest (den sem (mixed sem (reduced sem red) env v (coeffs W xs) I.rest) I.integrand))).sum := by
  obtain ⟨g1, g2⟩ := history_get had hrow
  rw [sum_map_range, List.length_zip, g1, hxs, min_self]
  refine sum_congr rfl (fun j hj => ?_)
  have hj := mem_range.1 hj
  have hx : xs[j]? = some xs[j] := List.getElem?_eq_getElem (by omega)
  rw [(List.getElem?_zip_eq_some (z := (_, xs[j]))).2 ⟨g2 j hj, hx⟩, Option.map_some, Option.getD_some]
  have key : value (valueOf sem red env) n (v V) (fnOf xs[j]) (sumOf (as.flatten.filter (fun I => Belongs2 W i j I))) =
      valueOf sem red env (as.flatten.filter (fun I => Belongs2 W i j I)) (v V) (fnOf xs[j]) := by
    cases as.flatten.filter (fun I => Belongs2 W i j I) with
    | nil => simp [sumOf, value, total]
    | cons I l => rfl
  refine key.trans ?_
  rw [valueOf, total]
  congr 1
  refine List.map_congr_left (fun I hI => ?_)
  rw [List.mem_filter] at hI
  obtain ⟨f, hf, hIf⟩ := List.mem_flatten.1 hI.1
  obtain ⟨V', Q, a, b, c, d⟩ := (by simpa using hI.2 : Belongs2 W i j I)
  have e := c.1; rw [hV] at e; cases e
  rw [den_mixed sem red env (v' := v V) (u' := fnOf xs[j]) (fun t ht P hP => by rw [a.2 t ht P hP])
    (fun t ht P hP => by rw [b.2 t ht P hP, coeffs_first d hx]) (hwa f hf I hIf).twoArguments]

open Classical in
theorem rhs_value (hn : NullForms sem (reduced sem red) env mods W null) (hwL : ∀ f ∈ Ls, ∀ I ∈ f, WellFormed sem mods I)
    {i : Nat} {V : S} (hV : W[i]? = some V) (v : S → Nat → K) :
    valueOf sem red env (null V ++ Ls.flatten.filter (fun I => Belongs1 W i I)) (v V) 0 =
      ((Ls.flatten.filter (fun I => Belongs1 W i I)).map (fun I =>
        sem.integral I.rest (den sem (mixed sem (reduced sem red) env v 0 I.rest) I.integrand))).sum := by
  have hVm := List.mem_of_getElem? hV
  rw [valueOf, total, List.map_append, List.sum_append]
  have h0 := hn.zero V hVm v 0
  rw [total] at h0
  have e1 : (List.map (fun I => sem.integral I.rest (den sem (meaning sem red env (v V) 0 I.rest) I.integrand)) (null V)).sum
      = 0 := by
    rw [← h0]
    congr 1
    refine List.map_congr_left (fun I hI => ?_)
    rw [den_mixed sem red env (v := v) (u := 0) (v' := v V) (u' := 0) (fun t ht P hP => by rw [((hn.arguments V).2 I hI).2 t ht P hP])
      (fun t ht P hP => rfl) (hn.wellFormed V hVm I hI).twoArguments]
  rw [e1, zero_add]
  congr 1
  refine List.map_congr_left (fun I hI => ?_)
  rw [List.mem_filter] at hI
  obtain ⟨f, hf, hIf⟩ := List.mem_flatten.1 hI.1
  obtain ⟨V', a, b, c⟩ := (by simpa using hI.2 : Belongs1 W i I)
  have e := c.1; rw [hV] at e; cases e
  rw [den_mixed sem red env (v := v) (u := 0) (v' := v V) (u' := 0) (fun t ht P hP => by rw [a.2 t ht P hP])
    (fun t ht P hP => rfl) (hwL f hf I hIf).twoArguments]

theorem belongs1_unique {I : Integral S} {i j : Nat} (h : Belongs1 W i I) (h' : Belongs1 W j I) : i = j := by
  obtain ⟨V, a, _, c⟩ := h
  obtain ⟨V', a', _, c'⟩ := h'
  cases onlyArg_unique a a'
  exact firstAt_unique c c'

open Classical in
theorem bilinear_total (had : Added W as Ls) (v u : S → Nat → K) :
    total sem as.flatten (fun I => mixed sem (reduced sem red) env v u I.rest) =
      ∑ i ∈ range W.length, ∑ j ∈ range W.length, ((as.flatten.filter (fun I => Belongs2 W i j I)).map (fun I =>
        sem.integral I.rest (den sem (mixed sem (reduced sem red) env v u I.rest) I.integrand))).sum := by
  rw [sum_blocks2 (fun I i j i' j' h h' => belongs_unique W I i j i' j' h h')]
  · rfl
  · intro I hI
    obtain ⟨f, hf, hIf⟩ := List.mem_flatten.1 hI
    obtain ⟨i, j, h⟩ := (had.bilinear f hf).2 I hIf
    obtain ⟨h1, h2⟩ := belongs_inside W I i j h
    exact ⟨i, j, h1, h2, h⟩

open Classical in
theorem linear_total (had : Added W as Ls) (v : S → Nat → K) :
    total sem Ls.flatten (fun I => mixed sem (reduced sem red) env v 0 I.rest) =
      ∑ i ∈ range W.length, ((Ls.flatten.filter (fun I => Belongs1 W i I)).map (fun I =>
        sem.integral I.rest (den sem (mixed sem (reduced sem red) env v 0 I.rest) I.integrand))).sum := by
  rw [sum_blocks (n := W.length) (B := fun i I => Belongs1 W i I) (fun I i j h h' => belongs1_unique h h')]
  · rfl
  · intro I hI
    obtain ⟨f, hf, hIf⟩ := List.mem_flatten.1 hI
    obtain ⟨i, h⟩ := (had.linear f hf).2 I hIf
    obtain ⟨V, _, _, c⟩ := id h
    exact ⟨i, firstAt_lt c, h⟩

theorem variational_of_discrete (hn : NullForms sem (reduced sem red) env mods W null) (had : Added W as Ls)
    (hwa : ∀ f ∈ as, ∀ I ∈ f, WellFormed sem mods I) (hwL : ∀ f ∈ Ls, ∀ I ∈ f, WellFormed sem mods I)
    {data : List (List (Nat × K))} {xs : List (List K)}
    (h : DiscreteSolution (valueOf sem red env) (W.map sem.dim) (history (addOne2 W) (start2 W) as)
      (history (addOne1 W) (start1 null W) Ls) data xs) :
    VariationalSolution sem (reduced sem red) env W as.flatten Ls.flatten data xs := by
  classical
  refine ⟨h.sizes, h.values, fun v hv => ?_⟩
  have hxs : xs.length = W.length := by simpa using congrArg List.length h.sizes
  rw [bilinear_total had, linear_total had]
  refine sum_congr rfl (fun i hi => ?_)
  have hi := mem_range.1 hi
  have hV := List.getElem?_eq_getElem hi
  have hi' : i < (history (addOne2 W) (start2 W) as).length := by rw [(add_history W as).1.1]; exact hi
  have := h.equations i _ _ (sem.dim W[i]) (List.getElem?_eq_getElem hi') (history_linear hn had hV)
    (by rw [List.getElem?_map, hV]; rfl) (v W[i]) (fun d hd => hv i W[i] d hV hd)
  rw [← row_sum had hwa hxs hV (List.getElem?_eq_getElem hi') (sem.dim W[i]) v, this, rhs_value hn hwL hV]

theorem discrete_of_variational (hW : W.Nodup) (hn : NullForms sem (reduced sem red) env mods W null) (had : Added W as Ls)
    (hwa : ∀ f ∈ as, ∀ I ∈ f, WellFormed sem mods I) (hwL : ∀ f ∈ Ls, ∀ I ∈ f, WellFormed sem mods I)
    {data : List (List (Nat × K))} {xs : List (List K)}
    (h : VariationalSolution sem (reduced sem red) env W as.flatten Ls.flatten data xs) :
    DiscreteSolution (valueOf sem red env) (W.map sem.dim) (history (addOne2 W) (start2 W) as)
      (history (addOne1 W) (start1 null W) Ls) data xs := by
  classical
  refine ⟨h.sizes, h.values, ?_⟩
  intro k row F n hrow hF hkn v hv
  have hxs : xs.length = W.length := by simpa using congrArg List.length h.sizes
  rw [List.getElem?_map, Option.map_eq_some_iff] at hkn
  obtain ⟨V, hV, rfl⟩ := hkn
  have hk : k < W.length := (List.getElem?_eq_some_iff.1 hV).1
  have hVk : ∀ i Q, W[i]? = some Q → (Q = V ↔ i = k) := by
    intro i Q hQ
    constructor
    · rintro rfl
      exact (List.getElem?_inj (List.getElem?_eq_some_iff.1 hQ).1 hW).1 (hQ.trans hV.symm)
    · rintro rfl; rw [hV] at hQ; cases hQ; rfl
  have heq := h.equation (fun Q => if Q = V then v else 0) (by
    intro i Q d hQ hd
    by_cases hQV : Q = V
    · rw [if_pos hQV]
      obtain rfl := (hVk i Q hQ).1 hQV
      exact hv d hd
    · rw [if_neg hQV]; rfl)
  have l1 := bilinear_total (sem := sem) (red := red) (env := env) had (fun Q => if Q = V then v else 0) (coeffs W xs)
  have l2 := linear_total (sem := sem) (red := red) (env := env) had (fun Q => if Q = V then v else 0)
  rw [sum_eq_single k ?_ (fun h => absurd (mem_range.2 hk) h)] at l1
  · rw [sum_eq_single k ?_ (fun h => absurd (mem_range.2 hk) h)] at l2
    · rw [history_linear hn had hV] at hF
      cases hF
      have e1 := row_sum (red := red) (env := env) had hwa hxs hV hrow (sem.dim V) (fun Q => if Q = V then v else 0)
      have e2 := rhs_value hn hwL hV (fun Q => if Q = V then v else 0)
      rw [if_pos rfl] at e1 e2
      rw [e1, e2, ← l1, ← l2, heq]
    · intro i hi hik
      refine List.sum_eq_zero (fun x hx => ?_)
      obtain ⟨I, hI, rfl⟩ := List.mem_map.1 hx
      rw [List.mem_filter] at hI
      obtain ⟨f, hf, hIf⟩ := List.mem_flatten.1 hI.1
      obtain ⟨Q, a, b, c⟩ := (by simpa using hI.2 : Belongs1 W i I)
      exact integral_zero (hwL f hf I hIf) a (if_neg (fun h => hik ((hVk i Q c.1).1 h)))
  · intro i hi hik
    refine sum_eq_zero (fun j _ => List.sum_eq_zero (fun x hx => ?_))
    obtain ⟨I, hI, rfl⟩ := List.mem_map.1 hx
    rw [List.mem_filter] at hI
    obtain ⟨f, hf, hIf⟩ := List.mem_flatten.1 hI.1
    obtain ⟨Q, P, a, b, c, d⟩ := (by simpa using hI.2 : Belongs2 W i j I)
    exact integral_zero (hwa f hf I hIf) a (if_neg (fun h => hik ((hVk i Q c.1).1 h)))

end

/-- **C87** The functions returned by a program which makes block forms by `add`, assembles, constrains, converts and
solves: they are in the spaces given, have the prescribed values and satisfy `a(u, v) = L(v)` for all test functions which
vanish where values are prescribed, where `a` and `L` are the sums of all forms added.  Other functions are not changed. -/
theorem forms_solve {sem : Sem S K D} {order : List (Term S) → List (Term S)} (ho : ∀ l, (order l).Perm l)
    {mods : List (Assembler S K)} {red : Reduction S K} (hmods : ∀ m ∈ mods, Implements m red sem)
    (hcol : ∀ m ∈ mods, Columns m sem) {fuel : Nat} {env : Env S K} {V : List S} (hV : V ≠ [])
    {null : S → List (Integral S)} (hn : NullForms sem (reduced sem red) env mods V null) {as Ls : List (List (Integral S))}
    (hwa : ∀ f ∈ as, ∀ I ∈ f, WellFormed sem mods I) (hwL : ∀ f ∈ Ls, ∀ I ∈ f, WellFormed sem mods I)
    (tiny : Tiny K) {solve : Solver K} (hs : Exact solve) {bcs : BcArg K} {data : List (List (Nat × K))}
    (hbc : BcsAre V.length bcs data) (hr : InRange (V.map sem.dim) data) {diag : K} (hd : diag ≠ 0) (sym : Bool)
    {W : List IIFunction.Space} (hW : W.map (fun s => s.dim) = V.map sem.dim) (h : Heap K) :
    ∃ f, ∀ g, f ≤ g → ∀ fs h',
      formProgram sem order mods fuel env null V as Ls tiny g solve bcs diag sym W h = .ok (fs, h') →
      fs.map (fun f => f.space) = W ∧
        VariationalSolution sem (reduced sem red) env V as.flatten Ls.flatten data (vectors h' fs) ∧
        ∀ p, p < h.next → h'.vec p = h.vec p := by
  by_cases hadd : (∀ f ∈ as, f ≠ [] ∧ ∀ I ∈ f, ∃ i j, Belongs2 V i j I) ∧ ∀ f ∈ Ls, f ≠ [] ∧ ∀ I ∈ f, ∃ i, Belongs1 V i I
  · have had : Added V as Ls := ⟨hadd.1, hadd.2⟩
    obtain ⟨f, hf⟩ := program_solves ho hmods hcol (fuel := fuel) (env := env) (added_blockForms hV hn had)
      (added_forForms hn had hwa hwL) tiny hs hbc hr hd sym hW h
    refine ⟨f, fun g hg fs h' hrun => ?_⟩
    rw [formProgram, addAll2_ok.2 ⟨hadd.1, rfl⟩, py_bind_ok, (addAll1_ok hn.arguments).2 ⟨hadd.2, rfl⟩, py_bind_ok] at hrun
    obtain ⟨h1, h2, h3⟩ := hf g hg fs h' hrun
    exact ⟨h1, variational_of_discrete hn had hwa hwL h2, h3⟩
  · refine ⟨0, fun g _ fs h' hrun => absurd ?_ hadd⟩
    rw [formProgram] at hrun
    obtain ⟨a, ha, hrun⟩ := py_bind_eq_ok.1 hrun
    obtain ⟨L, hL, hrun⟩ := py_bind_eq_ok.1 hrun
    exact ⟨(addAll2_ok.1 ha).1, ((addAll1_ok hn.arguments).1 hL).1⟩

/-- **C87** The program returns if every integral has one test function and (in `a`) one trial function from the spaces,
which are different, the blocks can be assembled, and the variational problem has just one solution. -/
theorem forms_return {sem : Sem S K D} {order : List (Term S) → List (Term S)} (ho : ∀ l, (order l).Perm l)
    {mods : List (Assembler S K)} {red : Reduction S K} (hmods : ∀ m ∈ mods, Implements m red sem)
    (hcol : ∀ m ∈ mods, Columns m sem) {fuel : Nat} {env : Env S K} {V : List S} (hV : V ≠ []) (hnd : V.Nodup)
    {null : S → List (Integral S)} (hn : NullForms sem (reduced sem red) env mods V null) {as Ls : List (List (Integral S))}
    (had : Added V as Ls)
    (hwa : ∀ f ∈ as, ∀ I ∈ f, WellFormed sem mods I) (hwL : ∀ f ∈ Ls, ∀ I ∈ f, WellFormed sem mods I)
    (hasm : ForForms (history (addOne2 V) (start2 V) as) (history (addOne1 V) (start1 null V) Ls)
      (fun F => ∃ t, assemble sem order mods fuel env F = .ok t))
    (tiny : Tiny K) {solve : Solver K} (hs : SolvesRegular solve) {bcs : BcArg K} {data : List (List (Nat × K))}
    (hbc : BcsAre V.length bcs data) (hr : InRange (V.map sem.dim) data) {diag : K} (hd : diag ≠ 0) (sym : Bool)
    (huniq : ∃! xs, VariationalSolution sem (reduced sem red) env V as.flatten Ls.flatten data xs)
    (W : List IIFunction.Space) (h : Heap K) :
    ∃ f, ∀ g, f ≤ g → ∃ r,
      formProgram sem order mods fuel env null V as Ls tiny g solve bcs diag sym W h = .ok r := by
  obtain ⟨xs, h1, h2⟩ := huniq
  obtain ⟨f, hf⟩ := program_returns ho hmods hcol (fuel := fuel) (env := env) (added_blockForms hV hn had)
      (added_forForms hn had hwa hwL) hasm tiny hs hbc hr hd sym
      ⟨xs, discrete_of_variational hnd hn had hwa hwL h1, fun ys hy => h2 ys (variational_of_discrete hn had hwa hwL hy)⟩ W h
  refine ⟨f, fun g hg => ?_⟩
  obtain ⟨r, hr⟩ := hf g hg
  exact ⟨r, by
    rw [formProgram, addAll2_ok.2 ⟨had.bilinear, rfl⟩, py_bind_ok, (addAll1_ok hn.arguments).2 ⟨had.linear, rfl⟩,
      py_bind_ok, hr]⟩

theorem total_congr {sem : Sem S K D} {R R' : Standing S K D} {env : Env S K} {F : List (Integral S)}
    (h : ∀ I ∈ F, ∀ t ∈ terms I.integrand, ∀ V, functionSpace env t = .ok V → R I.rest V t.attrs = R' I.rest V t.attrs)
    (v u : S → Nat → K) :
    total sem F (fun I => mixed sem R env v u I.rest) = total sem F (fun I => mixed sem R' env v u I.rest) := by
  unfold total
  congr 1
  refine List.map_congr_left (fun I hI => ?_)
  congr 1
  refine den_congr sem _ _ _ (fun t ht => ?_)
  have := h I hI t ht
  obtain ⟨base, attrs⟩ := t
  match base with
  | .argument 0 V => simp only [mixed]; rw [this V rfl]
  | .argument (n + 1) V => simp only [mixed]; rw [this V rfl]
  | .other i =>
      cases he : env i with
      | none => simp only [mixed, he]
      | some q =>
          simp only [mixed, he]
          rw [this q.1 (by simp only [functionSpace, he])]

theorem solution_congr {sem : Sem S K D} {R R' : Standing S K D} {env : Env S K} {W : List S} {a L : List (Integral S)}
    (h : ∀ I ∈ a ++ L, ∀ t ∈ terms I.integrand, ∀ V, functionSpace env t = .ok V →
      R I.rest V t.attrs = R' I.rest V t.attrs) {data : List (List (Nat × K))} (xs : List (List K)) :
    VariationalSolution sem R env W a L data xs ↔ VariationalSolution sem R' env W a L data xs := by
  have e1 := fun v u => total_congr (sem := sem) (F := a) (fun I hI => h I (List.mem_append_left _ hI)) v u
  have e2 := fun v u => total_congr (sem := sem) (F := L) (fun I hI => h I (List.mem_append_right _ hI)) v u
  constructor <;> rintro ⟨h1, h2, h3⟩ <;> refine ⟨h1, h2, fun v hv => ?_⟩ <;> have := h3 v hv
  · rwa [e1, e2] at this
  · rwa [e1, e2]

section traces
open Dispatch DofMat Trace Embedding TransposeTrace TraceForm Coupling

variable {X : Type} {g : Nat} {C : Meshes} {marking : Option (List Nat)} {id : Nat} {dom : Nat → Prop} {On : Nat → X → Prop}
  {sem : Sem S K (Pts dom On → K)} {sp : S → DofMat.Space K X} {side : Nat → Nat}

/-- **C87** Forms which couple functions through traces: the variational problem is the one in which annotated functions
stand for their restrictions to the trace mesh. -/
theorem coupled_forms (hC : TraceForm.Conforming C id)
    (hm : (marksOf marking C.numCells).length = C.numCells) (hside : ∀ k, dom k → FacetOf C id k (side k)) (W' : World S)
    {O : Ops S K} {red : Reduction S K}
    (htab : ∀ k attrs V rest TV T, (attrs.lookup k.attr).isSome →
      O.space k attrs (O.domain k attrs V) rest = .ok TV → O.matrix k attrs (O.domain k attrs V) TV rest = .ok T →
      red attrs V rest = (TV, T) ∧ T.rows = sem.dim TV ∧ T.cols = sem.dim V)
    {order : List (Term S) → List (Term S)} (ho : ∀ l, (order l).Perm l) {fuel : Nat} {env : Env S K} {V : List S}
    (hV : V ≠ []) {null : S → List (Integral S)}
    (hn : NullForms sem (restricted sem sp side) env (assemblers W' O) V null) {as Ls : List (List (Integral S))}
    (hw : ∀ f ∈ as ++ Ls, ∀ I ∈ f, WellFormed sem (assemblers W' O) I ∧
      ∀ t ∈ terms I.integrand, t.attrs ≠ [] → ∀ V, functionSpace env t = .ok V →
        Traced g O C marking id sem sp I.rest V t.attrs)
    (tiny : Tiny K) {solve : Solver K} (hs : Exact solve) {bcs : BcArg K} {data : List (List (Nat × K))}
    (hbc : BcsAre V.length bcs data) (hr : InRange (V.map sem.dim) data) {diag : K} (hd : diag ≠ 0) (sym : Bool)
    {U : List IIFunction.Space} (hU : U.map (fun s => s.dim) = V.map sem.dim) (h : Heap K) :
    (∃ f, ∀ k, f ≤ k → ∀ fs h',
      formProgram sem order (assemblers W' O) fuel env null V as Ls tiny k solve bcs diag sym U h = .ok (fs, h') →
      fs.map (fun f => f.space) = U ∧
        VariationalSolution sem (restricted sem sp side) env V as.flatten Ls.flatten data (vectors h' fs) ∧
        ∀ p, p < h.next → h'.vec p = h.vec p) ∧
    (V.Nodup → Added V as Ls → ForForms (history (addOne2 V) (start2 V) as) (history (addOne1 V) (start1 null V) Ls)
        (fun F => ∃ t, assemble sem order (assemblers W' O) fuel env F = .ok t) → SolvesRegular solve →
      (∃! xs, VariationalSolution sem (restricted sem sp side) env V as.flatten Ls.flatten data xs) →
      ∃ f, ∀ k, f ≤ k → ∃ r,
        formProgram sem order (assemblers W' O) fuel env null V as Ls tiny k solve bcs diag sym U h = .ok r) := by
  have hmods : ∀ m ∈ assemblers W' O, Implements m red sem ∧ Columns m sem := by
    intro m hm'
    obtain ⟨k, _, rfl⟩ := List.mem_map.1 hm'
    refine ⟨⟨fun attrs V rest TV T h1 h2 h3 => ?_, fun rest t h => compatible_attr h⟩,
      fun attrs V rest TV T h1 h2 h3 => (htab k attrs V rest TV T h1 h2 h3).2.2⟩
    obtain ⟨e1, e2, _⟩ := htab k attrs V rest TV T h1 h2 h3
    exact ⟨e1, e2⟩
  have hn' : NullForms sem (reduced sem red) env (assemblers W' O) V null := by
    refine ⟨hn.arguments, hn.linear, hn.wellFormed, hn.plain, fun Q hQ v u => ?_⟩
    rw [← hn.zero Q hQ v u]
    refine total_congr (fun I hI t ht P _ => ?_) v u
    funext x
    rw [reduced, restricted, if_pos (hn.plain Q hQ I hI t ht), if_pos (hn.plain Q hQ I hI t ht)]
  have hsol := fun xs => solution_congr (sem := sem) (R := reduced sem red) (R' := restricted sem sp side) (env := env)
    (W := V) (a := as.flatten) (L := Ls.flatten) (data := data) (by
      intro I hI t ht Q hQ
      obtain ⟨f, hf, hIf⟩ : ∃ f ∈ as ++ Ls, I ∈ f := by
        rw [← List.flatten_append] at hI; exact List.mem_flatten.1 hI
      funext x
      by_cases hne : t.attrs = []
      · rw [reduced, restricted, if_pos hne, if_pos hne]
      · rw [restricted, if_neg hne]
        exact reduced_restriction hC hm hside (fun k attrs V rest TV T h1 h2 h3 =>
          ⟨(htab k attrs V rest TV T h1 h2 h3).1, (htab k attrs V rest TV T h1 h2 h3).2.1⟩)
          ((hw f hf I hIf).2 t ht hne Q hQ) hne x) xs
  have hwa : ∀ f ∈ as, ∀ I ∈ f, WellFormed sem (assemblers W' O) I := fun f hf I hI =>
    (hw f (List.mem_append_left _ hf) I hI).1
  have hwL : ∀ f ∈ Ls, ∀ I ∈ f, WellFormed sem (assemblers W' O) I := fun f hf I hI =>
    (hw f (List.mem_append_right _ hf) I hI).1
  constructor
  · obtain ⟨f, hf⟩ := forms_solve ho (fun m h => (hmods m h).1) (fun m h => (hmods m h).2) (fuel := fuel) hV hn' hwa hwL
      tiny hs hbc hr hd sym hU h
    refine ⟨f, fun k hk fs h' hrun => ?_⟩
    obtain ⟨a1, a2, a3⟩ := hf k hk fs h' hrun
    exact ⟨a1, (hsol _).1 a2, a3⟩
  · rintro hnd had hasm hreg ⟨xs, h1, h2⟩
    exact forms_return ho (fun m h => (hmods m h).1) (fun m h => (hmods m h).2) (fuel := fuel) hV hnd hn' had hwa hwL
      hasm tiny hreg hbc hr hd sym ⟨xs, (hsol _).2 h1, fun ys hy => h2 ys ((hsol _).1 hy)⟩ U h

end traces

/-! ## A case: a multiplier on two edges

Find `u` linear on two triangles (space 7) and `λ` linear on two edges (space 8) with `∫ T v λ + ∫ T u μ = ∫ μ` on the edges
for all `v`, `μ`; the value of `u` at the vertex which is not on the edges is given. -/

section example_
open Dispatch DofMat Trace Embedding TransposeTrace TraceForm Coupling

/-- `∫ T u μ`. -/
def linearForm' : List (Integral Nat) :=
  [⟨.node 0 [.term ⟨.argument 1 7, [("trace_", 1)]⟩, .term ⟨.argument 0 8, []⟩], 0⟩]

/-- `∫ 0 v`. -/
def linearNull (V : Nat) : List (Integral Nat) :=
  [⟨.node 0 [.term ⟨.other 0, []⟩, .term ⟨.argument 0 V, []⟩], if V = 7 then 1 else 0⟩]

theorem linear_added2 : history (addOne2 [7, 8]) (start2 [7, 8]) [linearForm, linearForm'] =
    [[.num 0, .form linearForm], [.form linearForm', .num 0]] := rfl

theorem linear_added1 : history (addOne1 [7, 8]) (start1 linearNull [7, 8]) [linearTest 8] =
    [.form (linearNull 7), .form (linearNull 8 ++ linearTest 8)] := rfl

theorem linear_replace' :
    replace (.term ⟨.argument 1 7, [("trace_", 1)]⟩) (.term ⟨.argument 1 8, []⟩) (some ["trace_"])
        (.node 0 [.term ⟨.argument 1 7, [("trace_", 1)]⟩, .term ⟨.argument 0 8, []⟩]) =
        (.node 0 [.term ⟨.argument 1 8, []⟩, .term ⟨.argument 0 8, []⟩] : UExpr Nat) := rfl

theorem linear_component' (M : Mat ℚ) (h : M.rows = 3) (asm : Env Nat ℚ → List (Integral Nat) → Py (Tensor ℚ)) {B : Mat ℚ}
    (hB : B.cols = 3)
    (h2 : asm (fun _ => none) [⟨.node 0 [.term ⟨.argument 1 8, []⟩, .term ⟨.argument 0 8, []⟩], 0⟩] = .ok (.mat B)) :
    BlockOps.pyMap (component linearSem id asm (assembler linearWorld (linearOps (.ok M)) .trace) (fun _ => none) 2
      linearForm') linearForm' = .ok [[.mat (B.mul M)]] := by
  have a2 : pick (assembler linearWorld (linearOps (.ok M)) .trace) 0 ((id (uniqueTerms (.node 0
      [.term ⟨.argument 1 7, [("trace_", 1)]⟩, .term ⟨.argument 0 8, []⟩]))).filter
      ((assembler linearWorld (linearOps (.ok M)) .trace).needs 0)) = .ok ⟨.argument 1 7, [("trace_", 1)]⟩ := rfl
  have a4 : component linearSem id asm (assembler linearWorld (linearOps (.ok M)) .trace) (fun _ => none) 2 linearForm'
        ⟨.node 0 [.term ⟨.argument 1 7, [("trace_", 1)]⟩, .term ⟨.argument 0 8, []⟩], 0⟩ =
        .ok [.mat (B.mul M)] := by
    rw [component, if_pos (show inReduced (assembler linearWorld (linearOps (.ok M)) .trace) linearForm'
      ⟨.node 0 [.term ⟨.argument 1 7, [("trace_", 1)]⟩, .term ⟨.argument 0 8, []⟩], 0⟩ = true from rfl)]
    dsimp only
    rw [a2, py_bind_ok]
    simp only [functionSpace, py_bind_ok, assembler, linearOps, Kind.attr]
    rw [linear_replace', h2]
    simp [rightApply, h, hB, pyAssert]
  rw [linearForm', BlockOps.pyMap, ← linearForm', a4]
  rfl

theorem linear_assembles' (M : Mat ℚ) (h : M.rows = 3) :
    ∃ A, assemble linearSem id (assemblers linearWorld (linearOps (.ok M))) 3 (fun _ => none) linearForm' = .ok A := by
  have h1 : arguments linearForm' = .ok [(0, 8), (1, 7)] := by decide +kernel
  have h2 : ∀ fuel, ∃ B, B.cols = 3 ∧ assemble linearSem id (assemblers linearWorld (linearOps (.ok M))) (fuel + 1)
      (fun _ => none) [⟨.node 0 [.term ⟨.argument 1 8, []⟩, .term ⟨.argument 0 8, []⟩], 0⟩] = .ok (.mat B) := by
    intro fuel
    have h3 : arguments [(⟨.node 0 [.term ⟨.argument 1 8, []⟩, .term ⟨.argument 0 8, []⟩], 0⟩ : Integral Nat)] =
      .ok [(0, 8), (1, 8)] := by decide +kernel
    rw [assemble_ignores_unrecognised]
    · rw [h3]
      exact ⟨_, rfl, rfl⟩
    · intro m hm I hI
      obtain ⟨k, _, rfl⟩ := List.mem_map.1 hm
      simp only [List.mem_cons, List.not_mem_nil, or_false] at hI
      subst hI
      cases k <;> rfl
  obtain ⟨B, hB, h2⟩ := h2 1
  rw [assemble, h1]
  have h4 := linear_component' M h _ hB h2
  refine ⟨.mat (B.mul M), ?_⟩
  rw [py_bind_ok]
  generalize assemble linearSem id (assemblers linearWorld (linearOps (.ok M))) 2 = asm at h4
  rw [show ∀ O : Ops Nat ℚ, assemblers linearWorld O = assembler linearWorld O .trace ::
      kinds.tail.map (assembler linearWorld O) from fun _ => rfl, tryAll,
    if_pos (show linearForm'.any (fun I => (assembler linearWorld (linearOps (.ok M)) .trace).selects I.rest I.integrand) =
      true from rfl), assembleWith, show List.length [((0 : Nat), (8 : Nat)), (1, 7)] = 2 from rfl, h4]
  rfl

theorem linearNull_assembles (O : Ops Nat ℚ) (fuel : Nat) :
    ∃ t, assemble linearSem id (assemblers linearWorld O) (fuel + 1) (fun _ => none) (linearNull 7) = .ok t := by
  rw [assemble_ignores_unrecognised]
  · have : arguments (linearNull 7) = .ok [(0, 7)] := by decide +kernel
    rw [this]
    exact ⟨_, rfl⟩
  · intro m hm I hI
    obtain ⟨k, _, rfl⟩ := List.mem_map.1 hm
    simp only [linearNull, List.mem_singleton] at hI
    subst hI
    cases k <;> rfl

theorem linearRhs_assembles (O : Ops Nat ℚ) (fuel : Nat) :
    ∃ t, assemble linearSem id (assemblers linearWorld O) (fuel + 1) (fun _ => none) (linearNull 8 ++ linearTest 8) =
      .ok t := by
  rw [assemble_ignores_unrecognised]
  · have : arguments (linearNull 8 ++ linearTest 8) = .ok [(0, 8)] := by decide +kernel
    rw [this]
    exact ⟨_, rfl⟩
  · intro m hm I hI
    obtain ⟨k, _, rfl⟩ := List.mem_map.1 hm
    simp only [linearNull, linearTest, List.mem_append, List.mem_singleton] at hI
    rcases hI with rfl | rfl <;> cases k <;> rfl

theorem linear_wellFormed' (O : Ops Nat ℚ) : ∀ I ∈ linearForm', WellFormed linearSem (assemblers linearWorld O) I := by
  intro I hI
  simp only [linearForm', List.mem_cons, List.not_mem_nil, or_false] at hI
  subst hI
  refine ⟨?_, ?_, ?_, ?_⟩
  · intro s hs t ht hb
    simp only [terms, termsAll, List.append_nil, List.singleton_append, List.mem_cons, List.not_mem_nil, or_false] at hs ht
    rcases hs with rfl | rfl <;> rcases ht with rfl | rfl <;> simp_all
  · intro t ht hne
    simp only [terms, termsAll, List.append_nil, List.singleton_append, List.mem_cons, List.not_mem_nil, or_false] at ht
    rcases ht with rfl | rfl
    · refine ⟨assembler linearWorld O .trace, by simp [assemblers, kinds], fun e he hc => ?_⟩
      change (true && (uniqueTerms e).any _) = true
      rw [Bool.true_and, List.any_eq_true]
      refine ⟨_, mem_unique hc he, rfl⟩
    · exact absurd rfl hne
  · intro t ht n V hb val
    simp only [terms, termsAll, List.append_nil, List.singleton_append, List.mem_cons, List.not_mem_nil, or_false] at ht
    rcases ht with rfl | rfl <;>
    · constructor
      · intro x y; simp [den, denAll, linearSem]; ring
      · intro c x; simp [den, denAll, linearSem]; ring
  · intro t ht n V hb
    simp only [terms, termsAll, List.append_nil, List.singleton_append, List.mem_cons, List.not_mem_nil, or_false] at ht
    rcases ht with rfl | rfl <;> simp at hb <;> omega

theorem linearNull_ok (R : Standing Nat ℚ (Pts (· < 2) vertexOn → ℚ)) (O : Ops Nat ℚ) :
    NullForms linearSem R (fun _ => none) (assemblers linearWorld O) [7, 8] linearNull where
  arguments V := by
    refine ⟨by simp [linearNull], fun I hI => ?_⟩
    simp only [linearNull, List.mem_singleton] at hI
    subst hI
    refine ⟨⟨⟨.argument 0 V, []⟩, by simp [terms, termsAll], rfl⟩, fun t ht Q hb => ?_⟩
    simp [terms, termsAll] at ht
    rcases ht with rfl | rfl <;> simp at hb
    exact hb.symm
  linear V _ I hI t ht Q hb := by
    simp only [linearNull, List.mem_singleton] at hI
    subst hI
    simp [terms, termsAll] at ht
    rcases ht with rfl | rfl <;> simp at hb
  wellFormed V _ I hI := by
    simp only [linearNull, List.mem_singleton] at hI
    subst hI
    refine ⟨?_, ?_, ?_, ?_⟩
    · intro s hs t ht hb
      simp [terms, termsAll] at hs ht
      rcases hs with rfl | rfl <;> rcases ht with rfl | rfl <;> simp_all
    · intro t ht hne
      simp [terms, termsAll] at ht
      rcases ht with rfl | rfl <;> exact absurd rfl hne
    · intro t ht n Q hb val
      simp only [terms, termsAll, List.append_nil, List.singleton_append, List.mem_cons, List.not_mem_nil, or_false] at ht
      rcases ht with rfl | rfl
      · simp at hb
      · constructor
        · intro x y; simp [den, denAll, linearSem]; ring
        · intro c x; simp [den, denAll, linearSem]; ring
    · intro t ht n Q hb
      simp [terms, termsAll] at ht
      rcases ht with rfl | rfl <;> simp at hb
      omega
  plain V _ I hI t ht := by
    simp only [linearNull, List.mem_singleton] at hI
    subst hI
    simp [terms, termsAll] at ht
    rcases ht with rfl | rfl <;> rfl
  zero V _ v u := by
    simp [total, linearNull, den, denAll, mixed, linearSem]

theorem linear_added : Added [7, 8] [linearForm, linearForm'] [linearTest 8] := by
  constructor
  · intro f hf
    simp only [List.mem_cons, List.not_mem_nil, or_false] at hf
    rcases hf with rfl | rfl
    · refine ⟨by simp [linearForm], fun I hI => ⟨0, 1, 7, 8, ?_⟩⟩
      simp only [linearForm, List.mem_singleton] at hI
      subst hI
      refine ⟨⟨⟨_, by simp [terms, termsAll]; left; rfl, rfl⟩, ?_⟩, ⟨⟨_, by simp [terms, termsAll]; right; rfl, rfl⟩, ?_⟩,
        ⟨rfl, by simp⟩, ⟨rfl, fun j hj => by interval_cases j; simp⟩⟩ <;>
      · intro t ht Q hb
        simp [terms, termsAll] at ht
        rcases ht with rfl | rfl <;> simp at hb <;> omega
    · refine ⟨by simp [linearForm'], fun I hI => ⟨1, 0, 8, 7, ?_⟩⟩
      simp only [linearForm', List.mem_singleton] at hI
      subst hI
      refine ⟨⟨⟨_, by simp [terms, termsAll]; right; rfl, rfl⟩, ?_⟩, ⟨⟨_, by simp [terms, termsAll]; left; rfl, rfl⟩, ?_⟩,
        ⟨rfl, fun j hj => by interval_cases j; simp⟩, ⟨rfl, by simp⟩⟩ <;>
      · intro t ht Q hb
        simp [terms, termsAll] at ht
        rcases ht with rfl | rfl <;> simp at hb <;> omega
  · intro f hf
    simp only [List.mem_singleton] at hf
    subst hf
    refine ⟨by simp [linearTest], fun I hI => ⟨1, 8, ?_⟩⟩
    simp only [linearTest, List.mem_singleton] at hI
    subst hI
    refine ⟨⟨⟨_, by simp [terms]; rfl, rfl⟩, ?_⟩, ?_, ⟨rfl, fun j hj => by interval_cases j; simp⟩⟩ <;>
    · intro t ht Q hb
      simp [terms] at ht
      subst ht; simp at hb
      try exact hb.symm

/-- What the functions stand for. -/
noncomputable def linearR : Standing Nat ℚ (Pts (· < 2) vertexOn → ℚ) :=
  restricted linearSem (fun V => if V = 7 then bulkP1 else edgeP1) (fun _ => 1)

theorem linear_bilinear (v u : Nat → Nat → ℚ) :
    total linearSem [linearForm, linearForm'].flatten (fun I => mixed linearSem linearR (fun _ => none) v u I.rest) =
      (v 7 1 * u 8 0 + v 7 2 * u 8 1) / 2 + (v 7 1 * u 8 0 + v 7 3 * u 8 2) / 2 +
      ((u 7 1 * v 8 0 + u 7 2 * v 8 1) / 2 + (u 7 1 * v 8 0 + u 7 3 * v 8 2) / 2) := by
  simp [total, linearForm, linearForm', den, denAll, linearSem, mixed, linearR, restricted, restriction, fnOn, bulkP1,
    Reduced.fn, sum_range_succ, pt, edgeP1]

theorem linear_linear (v : Nat → Nat → ℚ) :
    total linearSem [linearTest 8].flatten (fun I => mixed linearSem linearR (fun _ => none) v 0 I.rest) =
      (v 8 0 + v 8 1) / 2 + (v 8 0 + v 8 2) / 2 := by
  simp [total, linearTest, den, linearSem, mixed, linearR, restricted, Reduced.fn, sum_range_succ, pt, edgeP1]

theorem linear_variational (x : List (List ℚ)) :
    VariationalSolution linearSem linearR (fun _ => none) [7, 8] [linearForm, linearForm'].flatten [linearTest 8].flatten
      [[(0, 5)], []] x ↔ x = [[5, 1, 1, 1], [0, 0, 0]] := by
  have hdim : [7, 8].map linearSem.dim = [4, 3] := by simp [linearSem]
  have hc : ∀ a b : List ℚ, coeffs [7, 8] [a, b] 7 = fnOf a ∧ coeffs [7, 8] [a, b] 8 = fnOf b := fun a b => ⟨rfl, rfl⟩
  constructor
  · rintro ⟨h1, h2, h3⟩
    rw [hdim] at h1
    match x, h1 with
    | [[x0, x1, x2, x3], [y0, y1, y2]], _ =>
        have e : x0 = 5 := by
          have := h2 0 0 5 (by simp [prescribed, lastVal])
          simpa [entry] using this
        have r : ∀ V d, ¬ (V = 7 ∧ d = 0) → _ := fun V d hne =>
          h3 (fun Q i => if Q = V ∧ i = d then 1 else 0) (by
            intro k Q j hQ hp
            match k with
            | 0 =>
                simp at hQ; subst hQ
                have : j = 0 := by
                  by_contra hj
                  exact hp (by simp [prescribed, lastVal]; omega)
                subst this
                rw [if_neg (by rintro ⟨rfl, rfl⟩; exact hne ⟨rfl, rfl⟩)]
            | 1 => exact absurd (by simp [prescribed, lastVal]) hp
            | k + 2 => simp at hQ)
        simp only [linear_bilinear, linear_linear, (hc _ _).1, (hc _ _).2, fnOf] at r
        have a1 := r 7 1 (by simp)
        have a2 := r 7 2 (by simp)
        have a3 := r 7 3 (by simp)
        have b0 := r 8 0 (by simp)
        have b1 := r 8 1 (by simp)
        have b2 := r 8 2 (by simp)
        simp at a1 a2 a3 b0 b1 b2
        have f1 : x1 = 1 := by linarith
        have f2 : x2 = 1 := by linarith
        have f3 : x3 = 1 := by linarith
        have g0 : y0 = 0 := by linarith
        have g1 : y1 = 0 := by linarith
        have g2 : y2 = 0 := by linarith
        subst e f1 f2 f3 g0 g1 g2
        rfl
  · rintro rfl
    refine ⟨by rw [hdim]; rfl, ?_, fun v _ => ?_⟩
    · intro k d x hx
      match k with
      | 0 =>
          match d with
          | 0 => simp [prescribed, lastVal] at hx; subst hx; rfl
          | d + 1 => simp [prescribed, lastVal] at hx
      | 1 => simp [prescribed, lastVal] at hx
      | k + 2 => simp [prescribed, lastVal] at hx
    · rw [linear_bilinear, linear_linear, (hc _ _).1, (hc _ _).2]
      simp [fnOf]

/-- The forms are added to block forms, the trace is computed, the forms are assembled and the system is solved. -/
example (h : Heap ℚ) : ∃ f, ∀ k, f ≤ k → ∃ fs h',
    formProgram linearSem id (assemblers linearWorld (linearOps (traceCall edges none 5 linearCall ⟨none, none⟩).1)) 3
      (fun _ => none) linearNull [7, 8] [linearForm, linearForm'] [linearTest 8] noTiny k oracle
      (.list [.dir [(0, 5)], .list []]) 1 true [⟨0, 4⟩, ⟨1, 3⟩] h = .ok (fs, h') ∧
      vectors h' fs = [[5, 1, 1, 1], [0, 0, 0]] := by
  have hside : ∀ k, k < 2 → FacetOf edges 5 k 1 := by
    intro k hk
    obtain ⟨e, he⟩ := edges_conforming.lies k hk
    interval_cases k
    · obtain rfl := edges_lies he
      exact ⟨2, he, by decide⟩
    · obtain rfl := edges_lies_one he
      exact ⟨3, he, by decide⟩
  obtain ⟨M, hM, hr, hc, -⟩ := trace_restricts (g := 1) (marking := none) edges_conforming (by decide) (t := ⟨none, none⟩)
    (.inl ⟨rfl, rfl⟩) [] linear_traceOk (side := fun _ => 1) hside
  change (traceCall edges none 5 linearCall ⟨none, none⟩).1 = .ok M at hM
  rw [hM]
  have htr : Traced 1 (linearOps (.ok M)) edges none 5 linearSem (fun V => if V = 7 then bulkP1 else edgeP1) 0 7
      [("trace_", 1)] :=
    ⟨rfl, 8, linearCall, [], ⟨none, none⟩, .inl ⟨rfl, rfl⟩, rfl, rfl, linear_traceOk, ⟨rfl, fun i p => rfl⟩, rfl, hM.symm⟩
  obtain ⟨⟨f1, h1⟩, h2⟩ := coupled_forms (g := 1) (sp := fun V => if V = 7 then bulkP1 else edgeP1) (marking := none)
    (red := fun _ _ _ => (8, M)) edges_conforming (by decide) hside linearWorld (O := linearOps (.ok M)) (by
      intro k attrs V rest TV T _ h1 h2
      cases h1
      cases k <;> simp only [linearOps] at h2 <;> try cases h2
      split at h2 <;> cases h2
      rename_i hV
      exact ⟨rfl, hr, by rw [hc, hV]; rfl⟩)
    (fun l => .refl (id l)) (fuel := 3) (env := fun _ => none) (V := [7, 8]) (by simp) (linearNull_ok _ _)
    (as := [linearForm, linearForm']) (Ls := [linearTest 8]) (by
      intro f hf I hI
      simp only [List.cons_append, List.nil_append, List.mem_cons, List.not_mem_nil, or_false] at hf
      rcases hf with rfl | rfl | rfl
      · refine ⟨linear_wellFormed _ I hI, fun t ht hne V hV => ?_⟩
        simp only [linearForm, List.mem_singleton] at hI
        subst hI
        simp [terms, termsAll] at ht
        rcases ht with rfl | rfl
        · cases hV; exact htr
        · exact absurd rfl hne
      · refine ⟨linear_wellFormed' _ I hI, fun t ht hne V hV => ?_⟩
        simp only [linearForm', List.mem_singleton] at hI
        subst hI
        simp [terms, termsAll] at ht
        rcases ht with rfl | rfl
        · cases hV; exact htr
        · exact absurd rfl hne
      · refine ⟨linearTest_wellFormed 8 _ I hI, fun t ht hne V hV => ?_⟩
        simp only [linearTest, List.mem_singleton] at hI
        subst hI
        simp [terms] at ht
        subst ht; exact absurd rfl hne)
    noTiny oracle_exact (bcs := .list [.dir [(0, 5)], .list []]) (data := [[(0, 5)], []])
    (.some (.list rfl (.cons (.dir _) (.cons (.list .nil) .nil))) ⟨_, by simp; left; rfl, by simp⟩) (by
      intro k d v n h1 h2
      match k with
      | 0 => simp [linearSem] at h1 h2; omega
      | 1 => simp at h1
      | k + 2 => simp at h1)
    (diag := 1) one_ne_zero true (U := [⟨0, 4⟩, ⟨1, 3⟩]) (by simp [linearSem]) h
  obtain ⟨f2, h2⟩ := h2 (by decide) linear_added (by
      rw [linear_added2, linear_added1]
      constructor
      · intro row hrow F hF
        simp at hrow
        rcases hrow with rfl | rfl <;> simp at hF <;> subst hF
        · exact linear_assembles M hr
        · exact linear_assembles' M hr
      · intro F hF
        simp at hF
        rcases hF with rfl | rfl
        · exact linearNull_assembles _ 2
        · exact linearRhs_assembles _ 2)
    oracle_regular ⟨_, (linear_variational _).2 rfl, fun y hy => (linear_variational y).1 hy⟩
  refine ⟨max f1 f2, fun k hk => ?_⟩
  obtain ⟨⟨fs, h'⟩, hrun⟩ := h2 k (le_trans (le_max_right _ _) hk)
  obtain ⟨_, a2, _⟩ := h1 k (le_trans (le_max_left _ _) hk) fs h' hrun
  exact ⟨fs, h', hrun, (linear_variational _).1 a2⟩

end example_

end Verif.Program
