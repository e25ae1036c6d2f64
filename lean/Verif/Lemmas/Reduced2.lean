import Verif.Lemmas.Reduced
/-! # Lemmas about reduced assembly: the steps -/
namespace Verif.Reduced
open Verif Ufl BlockForm BlockOps Finset

variable {S K D : Type} [DecidableEq S] [CommRing K] [AddCommGroup D] [Module K D]

theorem total_cons (sem : Sem S K D) (I : Integral S) (F : List (Integral S)) (val : Integral S → Term S → D) :
    total sem (I :: F) val = sem.integral I.rest (den sem (val I) I.integrand) + total sem F val := by
  simp [total]

theorem total_sum (sem : Sem S K D) (F : List (Integral S)) (n : Nat) (v : Nat → K) (val : Nat → Integral S → Term S → D)
    (val' : Integral S → Term S → D)
    (h : ∀ I ∈ F, sem.integral I.rest (den sem (val' I) I.integrand) =
      ∑ i ∈ range n, v i * sem.integral I.rest (den sem (val i I) I.integrand)) :
    total sem F val' = ∑ i ∈ range n, v i * total sem F (val i) := by
  induction F with
  | nil => simp [total]
  | cons I F ih =>
      rw [total_cons, h I (by simp), ih (fun J hJ => h J (by simp [hJ])), ← sum_add_distrib]
      exact sum_congr rfl (fun i _ => by rw [total_cons, mul_add])

theorem total_congr (sem : Sem S K D) (F : List (Integral S)) (val val' : Integral S → Term S → D)
    (h : ∀ I ∈ F, ∀ t ∈ terms I.integrand, val I t = val' I t) : total sem F val = total sem F val' := by
  unfold total
  congr 1
  refine List.map_congr_left (fun I hI => ?_)
  rw [den_congr sem _ _ _ (h I hI)]

/-- Terminals without annotations. -/
theorem plain_meaning (sem : Sem S K D) (red : Reduction S K) (env : Env S K) (v u : Nat → K) (rest : Nat) (t : Term S)
    (hp : t.attrs = []) (x0 x1 : D) (h0 : ∀ V, t.base = .argument 0 V → x0 = fn sem V v)
    (h1 : ∀ n V, n ≠ 0 → t.base = .argument n V → x1 = fn sem V u) :
    plainVal sem env x0 x1 t = meaning sem red env v u rest t := by
  obtain ⟨b, as⟩ := t
  simp only at hp
  subst hp
  match b with
  | .argument 0 V => simp [plainVal, meaning, reduced, h0 V rfl]
  | .argument (n + 1) V => simp [plainVal, meaning, reduced, h1 (n + 1) V (by omega) rfl]
  | .other id =>
      cases h : env id with
      | none => simp [plainVal, meaning, h]
      | some p => simp [plainVal, meaning, h, reduced]

/-- What dolfin assembles, represents the form, if no terminal is annotated. -/
theorem dfAssemble_represents (sem : Sem S K D) (mods : List (Assembler S K)) (red : Reduction S K) (env : Env S K)
    (F : List (Integral S)) (hw : ∀ I ∈ F, WellFormed sem mods I) (hp : ∀ I ∈ F, ∀ t ∈ terms I.integrand, t.attrs = [])
    (hs : SameArguments F) (args : List (Nat × S)) (ha : arguments F = .ok args) (t : Tensor K)
    (ht : dfAssemble sem env F args = .ok t) (v u : Nat → K) :
    act v u t = total sem F (fun I => meaning sem red env v u I.rest) := by
  obtain ⟨hmem, huniq, hnd⟩ := arguments_ok ha
  match args, ht with
  | [], ht =>
      cases ht
      rw [act]
      refine total_congr sem F _ _ (fun I hI s hsm => ?_)
      refine plain_meaning sem red env v u I.rest s (hp I hI s hsm) _ _ (fun V hb => ?_) (fun n V _ hb => ?_)
      · exact absurd ((hmem 0 V).mpr ⟨I, hI, s, hsm, hb⟩) (by simp)
      · exact absurd ((hmem n V).mpr ⟨I, hI, s, hsm, hb⟩) (by simp)
  | [(0, V)], ht =>
      cases ht
      rw [act]
      have honly : ∀ I ∈ F, ∀ s ∈ terms I.integrand, ∀ n Q, s.base = .argument n Q → n = 0 ∧ Q = V := by
        intro I hI s hsm n Q hb
        have := (hmem n Q).mpr ⟨I, hI, s, hsm, hb⟩
        simpa using this
      symm
      refine total_sum sem F _ v _ _ (fun I hI => ?_)
      obtain ⟨I0, hI0, s0, hs0, hb0⟩ := (hmem 0 V).mp (by simp)
      obtain ⟨s, hsm, hb⟩ := hs I0 hI0 s0 hs0 0 V hb0 I hI
      have hlin := linear_test sem I (hw I hI).consistent (hw I hI).linear V s hsm hb
        (fun r hr Q hQ => (honly I hI r hr 0 Q hQ).2) env 0
      rw [← isLinear_sum hlin (sem.dim V) v (sem.basis V)]
      congr 1
      refine den_congr sem _ _ _ (fun r hr => ?_)
      symm
      refine plain_meaning sem red env v u I.rest r (hp I hI r hr) _ _ (fun R hR => ?_) (fun n R hn hR => ?_)
      · obtain ⟨_, rfl⟩ := honly I hI r hr 0 R hR
        rfl
      · exact absurd (honly I hI r hr n R hR).1 hn
  | [(0, V), (1, Q)], ht =>
      cases ht
      rw [act]
      have honly : ∀ I ∈ F, ∀ s ∈ terms I.integrand, ∀ n R, s.base = .argument n R → (n = 0 ∧ R = V) ∨ (n = 1 ∧ R = Q) := by
        intro I hI s hsm n R hb
        have := (hmem n R).mpr ⟨I, hI, s, hsm, hb⟩
        simpa using this
      have e1 : ∀ i ∈ range (sem.dim V), ∑ j ∈ range (sem.dim Q), v i * (Mat.of (sem.dim V) (sem.dim Q)
          (fun i j => total sem F (fun _ => plainVal sem env (sem.basis V i) (sem.basis Q j)))).e i j * u j =
          v i * total sem F (fun _ => plainVal sem env (sem.basis V i) (fn sem Q u)) := by
        intro i hi
        rw [total_sum sem F (sem.dim Q) u (fun j _ => plainVal sem env (sem.basis V i) (sem.basis Q j))
          (fun _ => plainVal sem env (sem.basis V i) (fn sem Q u)), mul_sum]
        · refine sum_congr rfl (fun j hj => ?_)
          rw [Mat.of_e, if_pos ⟨mem_range.mp hi, mem_range.mp hj⟩]
          ring
        · intro I hI
          obtain ⟨I0, hI0, s0, hs0, hb0⟩ := (hmem 1 Q).mp (by simp)
          obtain ⟨s, hsm, hb⟩ := hs I0 hI0 s0 hs0 1 Q hb0 I hI
          have hlin := linear_trial sem I (hw I hI).consistent (hw I hI).linear Q s hsm hb
            (fun r hr R hR => by rcases honly I hI r hr 1 R hR with h | h <;> simp_all)
            (hw I hI).twoArguments env (sem.basis V i)
          exact isLinear_sum hlin (sem.dim Q) u (sem.basis Q)
      rw [Mat.of_rows, Mat.of_cols, sum_congr rfl e1]
      symm
      refine total_sum sem F _ v _ _ (fun I hI => ?_)
      obtain ⟨I0, hI0, s0, hs0, hb0⟩ := (hmem 0 V).mp (by simp)
      obtain ⟨s, hsm, hb⟩ := hs I0 hI0 s0 hs0 0 V hb0 I hI
      have hlin := linear_test sem I (hw I hI).consistent (hw I hI).linear V s hsm hb
        (fun r hr R hR => by rcases honly I hI r hr 0 R hR with h | h <;> simp_all) env (fn sem Q u)
      rw [← isLinear_sum hlin (sem.dim V) v (sem.basis V)]
      congr 1
      refine den_congr sem _ _ _ (fun r hr => ?_)
      symm
      refine plain_meaning sem red env v u I.rest r (hp I hI r hr) _ _ (fun R hR => ?_) (fun n R hn hR => ?_)
      · rcases honly I hI r hr 0 R hR with ⟨_, rfl⟩ | ⟨h, _⟩
        · rfl
        · omega
      · rcases honly I hI r hr n R hR with ⟨rfl, _⟩ | ⟨rfl, rfl⟩
        · exact absurd rfl hn
        · rfl

/-! ### Matrices -/

/-- `T x`. -/
def app (T : Mat K) (x : Nat → K) (i : Nat) : K := ∑ j ∈ range T.cols, T.e i j * x j

theorem transposeApply_act {arity : Nat} {T : Mat K} {r c : Tensor K} (h : transposeApply arity T r = .ok c)
    (v u : Nat → K) : act v u c = act (app T v) u r := by
  unfold transposeApply at h
  split at h
  · match r, h with
    | .mat A, h =>
      simp only at h
      split at h
      · rename_i hr
        cases h
        simp only [act, Mat.mul, Mat.tr, app]
        rw [← hr]
        have : ∀ k ∈ range T.rows, ∑ j ∈ range A.cols, (∑ i ∈ range T.cols, T.e k i * v i) * A.e k j * u j =
            ∑ i ∈ range T.cols, ∑ j ∈ range A.cols, v i * (T.e k i * A.e k j) * u j := by
          intro k _
          rw [sum_comm]
          refine sum_congr rfl (fun j _ => ?_)
          rw [sum_mul, sum_mul]
          exact sum_congr rfl (fun i _ => by ring)
        rw [sum_congr rfl this]
        conv_rhs => rw [sum_comm]
        refine sum_congr rfl (fun i _ => ?_)
        conv_rhs => rw [sum_comm]
        refine sum_congr rfl (fun j _ => ?_)
        rw [mul_sum, sum_mul]
      · cases h
  · match r, h with
    | .vec n b, h =>
      simp only at h
      split at h
      · rename_i hr
        cases h
        simp only [act, app]
        rw [← hr]
        have : ∀ j ∈ range T.cols, v j * ∑ i ∈ range T.rows, T.e i j * b i = ∑ i ∈ range T.rows, T.e i j * v j * b i := by
          intro j _
          rw [mul_sum]
          exact sum_congr rfl (fun i _ => by ring)
        rw [sum_congr rfl this, sum_comm]
        exact sum_congr rfl (fun i _ => by rw [sum_mul])
      · cases h

theorem rightApply_act {T : Mat K} {r c : Tensor K} (h : rightApply T r = .ok c)
    (v u : Nat → K) : act v u c = act v (app T u) r := by
  match r, h with
  | .mat A, h =>
    rw [rightApply] at h
    split at h
    · rename_i hr
      cases h
      simp only [act, Mat.mul, app]
      rw [hr]
      refine sum_congr rfl (fun i _ => ?_)
      have : ∀ j ∈ range T.cols, v i * (∑ k ∈ range T.rows, A.e i k * T.e k j) * u j =
          ∑ k ∈ range T.rows, v i * A.e i k * (T.e k j * u j) := by
        intro j _
        rw [mul_sum, sum_mul]
        exact sum_congr rfl (fun k _ => by ring)
      rw [sum_congr rfl this, sum_comm]
      exact sum_congr rfl (fun k _ => by rw [mul_sum])
    · cases h

theorem addTensor_act {a b c : Tensor K} (h : addTensor a b = .ok c) (v u : Nat → K) :
    act v u c = act v u a + act v u b := by
  match a, b, h with
  | .num a, .num b, h => cases h; rfl
  | .vec n a, .vec m b, h =>
      rw [addTensor] at h
      split at h
      · rename_i hn
        cases h
        subst hn
        simp only [act, mul_add, sum_add_distrib]
      · cases h
  | .mat A, .mat B, h =>
      rw [addTensor] at h
      split at h
      · rename_i hn
        cases h
        simp only [act, Mat.axpy, Mat.of_rows, Mat.of_cols]
        rw [← hn.1, ← hn.2, ← sum_add_distrib]
        refine sum_congr rfl (fun i hi => ?_)
        rw [← sum_add_distrib]
        refine sum_congr rfl (fun j hj => ?_)
        rw [Mat.of_e, if_pos ⟨mem_range.mp hi, mem_range.mp hj⟩]
        ring
      · cases h

theorem foldlM_act : ∀ (ts : List (Tensor K)) (t c : Tensor K), ts.foldlM addTensor t = .ok c → ∀ v u : Nat → K,
    act v u c = act v u t + (ts.map (act v u)).sum
  | [], t, c, h, v, u => by cases h; simp
  | a :: ts, t, c, h, v, u => by
      rw [List.foldlM_cons] at h
      obtain ⟨x, h1, h2⟩ := py_bind_eq_ok.mp h
      rw [foldlM_act ts x c h2 v u, addTensor_act h1 v u, List.map_cons, List.sum_cons, add_assoc]

theorem reduceAdd_act {ts : List (Tensor K)} {c : Tensor K} (h : reduceAdd ts = .ok c) (v u : Nat → K) :
    act v u c = (ts.map (act v u)).sum := by
  match ts, h with
  | t :: ts, h => rw [foldlM_act ts t c h v u, List.map_cons, List.sum_cons]

/-! ### Choice of the terminal -/

theorem pick_ok {m : Assembler S K} {rest : Nat} {ts : List (Term S)} {t : Term S} (h : pick m rest ts = .ok t) :
    t ∈ ts ∧ m.compatible rest t = .ok true := by
  rw [pick] at h
  obtain ⟨keys, h1, h2⟩ := py_bind_eq_ok.mp h
  have hkeys : ∀ (ts : List (Term S)) (keys : List (Term S × Bool)), pyMap (fun t => do
      let b ← m.compatible rest t
      .ok (t, b)) ts = .ok keys → ∀ p ∈ keys, p.1 ∈ ts ∧ m.compatible rest p.1 = .ok p.2 := by
    intro ts
    induction ts with
    | nil => intro keys hk; cases hk; simp
    | cons a ts ih =>
        intro keys hk
        rw [pyMap] at hk
        obtain ⟨b, hb, hk⟩ := py_bind_eq_ok.mp hk
        obtain ⟨bs, hbs, hk⟩ := py_bind_eq_ok.mp hk
        cases hk
        obtain ⟨c, hc, hb⟩ := py_bind_eq_ok.mp hb
        cases hb
        intro p hp
        rcases List.mem_cons.mp hp with rfl | hp
        · exact ⟨by simp, hc⟩
        · have := ih bs hbs p hp
          exact ⟨by simp [this.1], this.2⟩
  simp only at h2
  split at h2
  · cases h2
  · rename_i t' hl
    cases h2
    have hm := List.mem_of_getLast? hl
    rw [List.mem_append] at hm
    have : (t, true) ∈ keys := by
      rcases hm with h | h <;> exact (List.mem_filter.mp h).1
    exact hkeys ts keys h1 _ this
  · cases h2

theorem firstOnly_subset : ∀ (l seen : List (Term S)) (t : Term S), t ∈ firstOnly seen l → t ∈ l
  | [], _, t, h => by simp [firstOnly] at h
  | a :: l, seen, t, h => by
      rw [firstOnly] at h
      split at h
      · exact List.mem_cons_of_mem _ (firstOnly_subset l seen t h)
      · rcases List.mem_cons.mp h with rfl | h
        · simp
        · exact List.mem_cons_of_mem _ (firstOnly_subset l _ t h)

theorem firstOnly_covers : ∀ (l seen : List (Term S)) (t : Term S), t ∈ l →
    (∃ s ∈ seen, s.base = t.base) ∨ ∃ s ∈ firstOnly seen l, s.base = t.base
  | [], _, t, h => by simp at h
  | a :: l, seen, t, h => by
      rw [firstOnly]
      split
      · rename_i hs
        rcases List.mem_cons.mp h with rfl | h
        · obtain ⟨s, h1, h2⟩ := List.any_eq_true.mp hs
          exact Or.inl ⟨s, h1, by simpa using h2⟩
        · exact firstOnly_covers l seen t h
      · rcases List.mem_cons.mp h with rfl | h
        · exact Or.inr ⟨t, by simp, rfl⟩
        · rcases firstOnly_covers l (a :: seen) t h with ⟨s, h1, h2⟩ | ⟨s, h1, h2⟩
          · rcases List.mem_cons.mp h1 with rfl | h1
            · exact Or.inr ⟨s, by simp, h2⟩
            · exact Or.inl ⟨s, h1, h2⟩
          · exact Or.inr ⟨s, by simp [h1], h2⟩

theorem uniqueTerms_eq (e : UExpr S) : uniqueTerms e = firstOnly [] (terms e) := by
  rw [uniqueTerms, traverse_terminals, List.filterMap_map]
  congr 1
  simp [Function.comp_def]

theorem mem_uniqueTerms {e : UExpr S} {t : Term S} (h : t ∈ uniqueTerms e) : t ∈ terms e := by
  rw [uniqueTerms_eq] at h; exact firstOnly_subset _ _ _ h

theorem foldl_max_ge : ∀ (l : List Nat) (a : Nat), a ≤ l.foldl max a ∧ ∀ x ∈ l, x ≤ l.foldl max a
  | [], a => by simp
  | b :: l, a => by
      obtain ⟨h1, h2⟩ := foldl_max_ge l (max a b)
      refine ⟨by simp only [List.foldl_cons]; omega, fun x hx => ?_⟩
      simp only [List.foldl_cons]
      rcases List.mem_cons.mp hx with rfl | hx
      · omega
      · exact h2 x hx

theorem fresh_id (e : UExpr S) : ∀ t ∈ terms e, t.base ≠ .other (freshId e) := by
  intro t ht hb
  obtain ⟨s, hs, hsb⟩ : ∃ s ∈ uniqueTerms e, s.base = t.base := by
    rcases firstOnly_covers (terms e) [] t ht with ⟨s, h, _⟩ | h
    · simp at h
    · rw [uniqueTerms_eq]; exact h
  have := (foldl_max_ge ((uniqueTerms e).map (fun t => match t.base with | .other id => id + 1 | _ => 0)) 0).2
    (freshId e + 1) (List.mem_map.mpr ⟨s, hs, by rw [hsb, hb]⟩)
  have e1 : freshId e = 2 * ((uniqueTerms e).map (fun t => match t.base with | .other id => id + 1 | _ => 0)).foldl max 0 + 1 := rfl
  omega

/-! ### Replacing a terminal -/

/-- `replace` in a consistent integrand replaces one terminal. -/
theorem replace_eq (e : UExpr S) (hc : Consistent e) (t t' : Term S) (ht : t ∈ terms e) (a : String)
    (ha : (t.attr a).isSome) :
    replace (.term t) (.term t') (some [a]) e = subst (fun s => .term (if s = t then t' else s)) e := by
  classical
  rw [replace_substitutes]
  refine subst_congr _ _ e (fun s hs => ?_)
  have : Same (some [a]) s t ↔ s = t := by
    constructor
    · intro h; exact hc s hs t ht h.1
    · rintro rfl
      refine ⟨rfl, fun as has x hx => ?_⟩
      cases has
      simp only [List.mem_singleton] at hx
      subst hx
      obtain ⟨w, hw⟩ := Option.isSome_iff_exists.mp ha
      exact ⟨w, hw, hw⟩
  by_cases h : s = t
  · rw [if_pos (this.mpr h), if_pos h]
  · rw [if_neg (fun hh => h (this.mp hh)), if_neg h]

/-- An integral stays well formed if one terminal is replaced everywhere by a new one without annotations. -/
theorem wellFormed_replace (sem : Sem S K D) (mods : List (Assembler S K)) (I : Integral S) (hw : WellFormed sem mods I)
    (t t' : Term S) (ht : t ∈ terms I.integrand) (hplain : t'.attrs = [])
    (hnew : ∀ s ∈ terms I.integrand, s ≠ t → s.base ≠ t'.base)
    (hn : ∀ n V, t'.base = .argument n V → ∃ Q, t.base = .argument n Q) :
    WellFormed sem mods ⟨subst (fun s => .term (if s = t then t' else s)) I.integrand, I.rest⟩ := by
  have hterms : ∀ s, s ∈ terms (subst (fun s => .term (if s = t then t' else s)) I.integrand) ↔
      s = t' ∨ (s ∈ terms I.integrand ∧ s ≠ t) := by
    intro s
    rw [terms_subst, List.mem_map]
    constructor
    · rintro ⟨x, hx, rfl⟩
      by_cases h : x = t
      · simp [h]
      · simp [h, hx]
    · rintro (rfl | ⟨h1, h2⟩)
      · exact ⟨t, ht, by simp⟩
      · exact ⟨s, h1, by simp [h2]⟩
  refine ⟨?_, ?_, ?_, ?_⟩
  · intro a ha b hb hab
    rcases (hterms a).mp ha with rfl | ⟨a1, a2⟩ <;> rcases (hterms b).mp hb with rfl | ⟨b1, b2⟩
    · rfl
    · exact absurd hab.symm (hnew b b1 b2)
    · exact absurd hab (hnew a a1 a2)
    · exact hw.consistent a a1 b b1 hab
  · intro s hs
    rcases (hterms s).mp hs with rfl | ⟨a1, a2⟩
    · intro h; exact absurd hplain h
    · exact hw.recognised s a1
  · intro s hs n V hb val
    simp only
    have key : ∀ d, den sem (fun r => if r = s then d else val r)
        (subst (fun s => .term (if s = t then t' else s)) I.integrand) =
        den sem (fun r => if r = (if s = t' then t else s) then d else val (if r = t then t' else r)) I.integrand := by
      intro d
      rw [den_subst]
      refine den_congr sem _ _ _ (fun r hr => ?_)
      by_cases hrt : r = t
      · subst hrt
        by_cases hst : s = t'
        · simp [hst]
        · rcases (hterms s).mp hs with h | ⟨a1, a2⟩
          · exact absurd h hst
          · simp [hst, Ne.symm hst, Ne.symm a2]
      · simp only [if_neg hrt]
        by_cases hst : s = t'
        · have : r ≠ t' := fun h => hnew r hr hrt (by rw [h])
          simp [hst, this, hrt]
        · simp [hst]
    simp only [key]
    rcases (hterms s).mp hs with rfl | ⟨a1, a2⟩
    · obtain ⟨Q, hQ⟩ := hn n V hb
      simpa using hw.linear t ht n Q hQ (fun r => val (if r = t then s else r))
    · by_cases hst : s = t'
      · subst hst
        exact absurd rfl (hnew s a1 a2)
      · simpa [hst] using hw.linear s a1 n V hb (fun r => val (if r = t then t' else r))
  · intro s hs n V hb
    rcases (hterms s).mp hs with rfl | ⟨a1, a2⟩
    · obtain ⟨Q, hQ⟩ := hn n V hb
      exact hw.twoArguments t ht n Q hQ
    · exact hw.twoArguments s a1 n V hb

theorem sameArguments_single (I : Integral S) : SameArguments [I] := by
  intro J hJ t ht n V hb L hL
  simp only [List.mem_singleton] at hJ hL
  subst hJ hL
  exact ⟨t, ht, hb⟩

end Verif.Reduced
