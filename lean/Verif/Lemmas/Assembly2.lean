import Verif.Lemmas.Assembly
/-! # Assembly of forms returns: the recursion -/
namespace Verif.Assembly
open Verif Ufl BlockForm BlockOps Reduced Dispatch

variable {S K D : Type} [DecidableEq S] [CommRing K] [AddCommGroup D] [Module K D]

theorem mem_terms_subst {e : UExpr S} {t t' : Term S} (ht : t ∈ terms e) (s : Term S) :
    s ∈ terms (subst (fun s => .term (if s = t then t' else s)) e) ↔ s = t' ∨ (s ∈ terms e ∧ s ≠ t) := by
  rw [terms_subst, List.mem_map]
  constructor
  · rintro ⟨x, hx, rfl⟩
    by_cases h : x = t
    · simp [h]
    · simp [h, hx]
  · rintro (rfl | ⟨h1, h2⟩)
    · exact ⟨t, ht, by simp⟩
    · exact ⟨s, h1, by simp [h2]⟩

theorem settled_not_fits {W : World S} {rest : Nat} {t : Term S} {k : Kind} (h : t.attrs = []) : ¬ Fits W rest t k := by
  rintro ⟨v, hv, _⟩
  rw [h] at hv
  cases hv

/-- Reducing a function leaves an integral of the same kind. -/
theorem assemblable_replace {sem : Sem S K D} {W : World S} {O : Ops S K} {env env' : Env S K} {I : Integral S}
    (h : Assemblable sem W O env I) {t t' : Term S} (ht : t ∈ terms I.integrand) (hs : Settled W I.rest t')
    (hnew : ∀ s ∈ terms I.integrand, s ≠ t → s.base ≠ t'.base)
    (hn : ∀ n V, t'.base = .argument n V → ∃ Q, t.base = .argument n Q)
    (hn' : ∀ n V, t.base = .argument n V → ∃ Q, t'.base = .argument n Q)
    (henv : ∀ s ∈ terms I.integrand, s ≠ t → ∀ V, SpaceOf env s V → SpaceOf env' s V) :
    Assemblable sem W O env' ⟨subst (fun s => .term (if s = t then t' else s)) I.integrand, I.rest⟩ := by
  have hterms := mem_terms_subst (t' := t') ht
  have hdim : W.tdim t'.base ≠ W.idim I.rest + 2 := by have := hs.2.1; omega
  have hfit : ∀ s k, s ∈ terms (subst (fun s => .term (if s = t then t' else s)) I.integrand) → Fits W I.rest s k →
      s ∈ terms I.integrand ∧ s ≠ t := by
    intro s k hs' hf
    rcases (hterms s).1 hs' with rfl | h'
    · exact absurd hf (settled_not_fits hs.1)
    · exact h'
  have hone : ∀ s ∈ terms I.integrand, s ≠ t → ∀ n V Q, t.base = .argument n V → s.base ≠ .argument n Q := by
    intro s hs hst n V Q hV hQ
    have := h.oneSpace s hs t ht n Q V hQ hV
    subst this
    exact hst (h.consistent s hs t ht (by rw [hQ, hV]))
  refine ⟨?_, ?_, ?_, ?_, ?_, ?_, ?_, ?_, h.new⟩
  · intro a ha b hb hab
    rcases (hterms a).1 ha with rfl | ⟨a1, a2⟩ <;> rcases (hterms b).1 hb with rfl | ⟨b1, b2⟩
    · rfl
    · exact absurd hab.symm (hnew b b1 b2)
    · exact absurd hab (hnew a a1 a2)
    · exact h.consistent a a1 b b1 hab
  · intro s hs n V hb
    rcases (hterms s).1 hs with rfl | ⟨h1, h2⟩
    · obtain ⟨Q, hQ⟩ := hn n V hb
      exact h.twoArguments t ht n Q hQ
    · exact h.twoArguments s h1 n V hb
  · intro a ha b hb n V Q hV hQ
    rcases (hterms a).1 ha with rfl | ⟨a1, a2⟩ <;> rcases (hterms b).1 hb with rfl | ⟨b1, b2⟩
    · rw [hV] at hQ; cases hQ; rfl
    · obtain ⟨P, hP⟩ := hn n V hV
      exact absurd hQ (hone b b1 b2 n P Q hP)
    · obtain ⟨P, hP⟩ := hn n Q hQ
      exact absurd hV (hone a a1 a2 n P V hP)
    · exact h.oneSpace a a1 b b1 n V Q hV hQ
  · intro s hs V hV
    have : ∃ r ∈ terms I.integrand, ∃ Q, r.base = .argument 0 Q := by
      rcases (hterms s).1 hs with rfl | ⟨h1, h2⟩
      · obtain ⟨Q, hQ⟩ := hn 1 V hV
        exact h.trialAndTest t ht Q hQ
      · exact h.trialAndTest s h1 V hV
    obtain ⟨r, hr, Q, hQ⟩ := this
    by_cases hrt : r = t
    · subst hrt
      obtain ⟨P, hP⟩ := hn' 0 Q hQ
      exact ⟨t', (hterms t').2 (.inl rfl), P, hP⟩
    · exact ⟨r, (hterms r).2 (.inr ⟨hr, hrt⟩), Q, hQ⟩
  · intro s hs'
    rcases (hterms s).1 hs' with rfl | ⟨h1, _⟩
    · exact .inl hs
    · exact h.terminals s h1
  · intro a ha k hk hf s hs' hd
    obtain ⟨a1, _⟩ := hfit a k ha hf
    rcases (hterms s).1 hs' with rfl | ⟨h1, _⟩
    · exact absurd hd hdim
    · exact h.averages a a1 k hk hf s h1 hd
  · intro a ha b hb hf hg
    exact h.restrictions a (hfit a _ ha hf).1 b (hfit b _ hb hg).1 hf hg
  · intro s hs' k hf
    obtain ⟨s1, s2⟩ := hfit s k hs' hf
    obtain ⟨V, TV, T, e0, e1, e2, e3, e4, e5⟩ := h.reductions s s1 k hf
    exact ⟨V, TV, T, henv s s1 s2 V e0, e1, e2, e3, e4, e5⟩

/-- Number of annotated functions after one was reduced. -/
theorem annotated_subst {e : UExpr S} {t t' : Term S} (hc : Consistent e) (ht : t ∈ terms e) {a : String}
    (ha : (t.attr a).isSome) (hp : t'.attrs = []) :
    annotated (subst (fun s => .term (if s = t then t' else s)) e) < annotated e := by
  rw [← replace_eq e hc t t' ht a ha]
  exact annotated_replace e t t' ht a ha hp

/-- The arguments which are left when one is reduced. -/
theorem hasArg_subst {I : Integral S} {t t' : Term S} (ht : t ∈ terms I.integrand) {n : Nat} {V : S}
    (hn : ∀ Q, t.base ≠ .argument n Q) (hn' : ∀ Q, t'.base ≠ .argument n Q) :
    HasArg [⟨subst (fun s => .term (if s = t then t' else s)) I.integrand, I.rest⟩] n V ↔ HasArg [I] n V := by
  simp only [HasArg, List.mem_singleton, exists_eq_left, mem_terms_subst ht]
  constructor
  · rintro ⟨s, rfl | ⟨hs, _⟩, hb⟩
    · exact absurd hb (hn' V)
    · exact ⟨s, hs, hb⟩
  · rintro ⟨s, hs, hb⟩
    exact ⟨s, .inr ⟨hs, by rintro rfl; exact hn V hb⟩, hb⟩

theorem hasArg_new {I : Integral S} {t : Term S} (ht : t ∈ terms I.integrand) (n : Nat) (V : S) :
    HasArg [⟨subst (fun s => .term (if s = t then ⟨.argument n V, []⟩ else s)) I.integrand, I.rest⟩] n V :=
  ⟨_, List.mem_singleton_self _, ⟨.argument n V, []⟩, (mem_terms_subst ht _).2 (.inl rfl), rfl⟩

theorem functionSpace_of {env : Env S K} {t : Term S} {V : S} (h : SpaceOf env t V) : functionSpace env t = .ok V := by
  rcases h with ⟨n, hb⟩ | ⟨i, c, hb, hi⟩
  · rw [functionSpace, hb]
  · rw [functionSpace, hb]; simp only [hi]

/-- One integral which is selected. -/
theorem component_returns (order : List (Term S) → List (Term S)) (ho : ∀ l, (order l).Perm l) {sem : Sem S K D}
    {W : World S} {O : Ops S K} {env : Env S K} {I : Integral S} (h : Assemblable sem W O env I)
    {asm : Env S K → List (Integral S) → Py (Tensor K)}
    (hrec : ∀ env J, Assemblable sem W O env J → annotated J.integrand < annotated I.integrand →
      ∃ r, asm env [J] = .ok r ∧ Shaped sem [J] r)
    {k : Kind} (hsel : selects W k I.rest I.integrand = true)
    (hfirst : ∀ l ∈ kinds.takeWhile (· ≠ k), selects W l I.rest I.integrand = false)
    {arity : Nat} (har : arity = 2 ↔ ∃ V, HasArg [I] 1 V) {F : List (Integral S)}
    (hin : inReduced (assembler W O k) F I = true) :
    ∃ c, component sem order asm (assembler W O k) env arity F I = .ok [c] ∧ Shaped sem [I] c := by
  obtain ⟨t, ht, hf, hp⟩ := first_picks order ho (O := O) h hsel hfirst
  obtain ⟨V, TV, T, e0, e1, e2, e3, e4, e5⟩ := h.reductions t ht k hf
  have hattr : (t.attr (assembler W O k).attr).isSome := fits_attr hf
  have hone : ∀ s ∈ terms I.integrand, s ≠ t → ∀ n V Q, t.base = .argument n V → s.base ≠ .argument n Q := by
    intro s hs hst n V Q hV hQ
    have := h.oneSpace s hs t ht n Q V hQ hV
    subst this
    exact hst (h.consistent s hs t ht (by rw [hQ, hV]))
  rw [component, if_pos hin, hp, py_bind_ok, functionSpace_of e0, py_bind_ok]
  have e1' : (assembler W O k).space t.attrs ((assembler W O k).domain t.attrs V) I.rest = .ok TV := e1
  have e2' : (assembler W O k).matrix t.attrs ((assembler W O k).domain t.attrs V) TV I.rest = .ok T := e2
  simp only [e1', e2', py_bind_ok]
  rcases e0 with ⟨n, hb⟩ | ⟨i, c, hb, hi⟩
  · have hn := h.twoArguments t ht n V hb
    obtain rfl | rfl : n = 0 ∨ n = 1 := by omega
    · simp only [hb]
      rw [replace_eq I.integrand h.consistent t _ ht _ hattr]
      obtain ⟨r, h5, hr⟩ := hrec env _ (assemblable_replace (env' := env) h ht (e5 0)
        (fun s hs hst => hone s hs hst 0 V TV hb) (fun n Q hq => by cases hq; exact ⟨V, hb⟩)
        (fun n Q hq => by rw [hb] at hq; cases hq; exact ⟨TV, rfl⟩) (fun s _ _ V h => h))
        (annotated_subst h.consistent ht hattr rfl)
      rw [h5, py_bind_ok]
      have h0 : HasArg [I] 0 V := ⟨I, by simp, t, ht, hb⟩
      have h1 := fun Q => hasArg_subst (V := Q) (n := 1) (t' := ⟨.argument 0 TV, []⟩) ht
        (fun Q h => by rw [hb] at h; cases h) (fun Q h => by cases h)
      have hT : ∀ P, HasArg [⟨subst (fun s => .term (if s = t then ⟨.argument 0 TV, []⟩ else s)) I.integrand, I.rest⟩] 0 P →
          P = TV := by
        rintro P ⟨J, hJ, s, hs, hsb⟩
        simp only [List.mem_singleton] at hJ
        subst hJ
        rcases (mem_terms_subst ht s).1 hs with rfl | ⟨s1, s2⟩
        · cases hsb; rfl
        · exact absurd hsb (hone s s1 s2 0 V P hb)
      cases r with
      | num x =>
          exact absurd (hasArg_new ht 0 TV) (hr 0 TV)
      | vec m b =>
          obtain ⟨P, hP, hm, hno⟩ := hr
          have := hT P hP
          subst this
          have ha : ¬ arity = 2 := by
            rw [har]
            rintro ⟨Q, hQ⟩
            exact hno Q ((h1 Q).2 hQ)
          rw [transposeApply, if_neg ha]
          rw [if_pos (e3.trans hm.symm), py_bind_ok]
          exact ⟨_, rfl, V, h0, e4, fun Q hQ => hno Q ((h1 Q).2 hQ)⟩
      | mat A =>
          obtain ⟨P, Q, hP, hQ, hr1, hr2⟩ := hr
          have := hT P hP
          subst this
          rw [transposeApply, if_pos (har.2 ⟨Q, (h1 Q).1 hQ⟩)]
          rw [if_pos (e3.trans hr1.symm), py_bind_ok]
          exact ⟨_, rfl, V, Q, h0, (h1 Q).1 hQ, e4, hr2⟩
    · have harg1 : HasArg [I] 1 V := ⟨I, by simp, t, ht, hb⟩
      simp only [hb, decide_eq_true (har.2 ⟨V, harg1⟩), pyAssert_true, py_bind_ok]
      rw [replace_eq I.integrand h.consistent t _ ht _ hattr]
      obtain ⟨r, h5, hr⟩ := hrec env _ (assemblable_replace (env' := env) h ht (e5 1)
        (fun s hs hst => hone s hs hst 1 V TV hb) (fun n Q hq => by cases hq; exact ⟨V, hb⟩)
        (fun n Q hq => by rw [hb] at hq; cases hq; exact ⟨TV, rfl⟩) (fun s _ _ V h => h))
        (annotated_subst h.consistent ht hattr rfl)
      rw [h5, py_bind_ok]
      have h1 := fun Q => hasArg_subst (V := Q) (n := 0) (t' := ⟨.argument 1 TV, []⟩) ht
        (fun Q h => by rw [hb] at h; cases h) (fun Q h => by cases h)
      have hTV : HasArg [⟨subst (fun s => .term (if s = t then ⟨.argument 1 TV, []⟩ else s)) I.integrand, I.rest⟩] 1 TV :=
        hasArg_new ht 1 TV
      have hT : ∀ P, HasArg [⟨subst (fun s => .term (if s = t then ⟨.argument 1 TV, []⟩ else s)) I.integrand, I.rest⟩] 1 P →
          P = TV := by
        rintro P ⟨J, hJ, s, hs, hsb⟩
        simp only [List.mem_singleton] at hJ
        subst hJ
        rcases (mem_terms_subst ht s).1 hs with rfl | ⟨s1, s2⟩
        · cases hsb; rfl
        · exact absurd hsb (hone s s1 s2 1 V P hb)
      cases r with
      | num x => exact absurd hTV (hr 1 TV)
      | vec m b => exact absurd hTV (hr.choose_spec.2.2 TV)
      | mat A =>
          obtain ⟨P, Q, hP, hQ, hr1, hr2⟩ := hr
          have := hT Q hQ
          subst this
          rw [rightApply, if_pos (hr2.trans e3.symm), py_bind_ok]
          exact ⟨_, rfl, P, V, (h1 P).1 hP, harg1, hr1, e4⟩
  · simp only [hb, hi]
    rw [if_neg (by simp [e3, e4])]
    rw [replace_eq I.integrand h.consistent t _ ht _ hattr]
    have hfresh := fresh_id I.integrand
    obtain ⟨r, h5, hr⟩ := hrec (setEnv env (freshId I.integrand) (TV, fun i => ∑ j ∈ Finset.range T.cols, T.e i j * c j)) _
      (assemblable_replace (t' := ⟨.other (freshId I.integrand), []⟩) h ht (h.new _)
        (fun s hs hst => hfresh s hs) (fun n Q hq => by cases hq)
        (fun n Q hq => by rw [hb] at hq; cases hq) (fun s hs _ P hP => by
          rcases hP with hP | ⟨j, d, hj, hd⟩
          · exact .inl hP
          · refine .inr ⟨j, d, hj, ?_⟩
            rw [setEnv, if_neg]
            · exact hd
            · rintro rfl
              exact hfresh s hs hj))
      (annotated_subst h.consistent ht hattr rfl)
    rw [h5, py_bind_ok]
    exact ⟨r, rfl, shaped_congr (fun n V => hasArg_subst ht (fun Q h => by rw [hb] at h; cases h)
      (fun Q h => by cases h)) hr⟩

/-- The loop over the assemblers. -/
theorem tryAll_kinds (sem : Sem S K D) (order : List (Term S) → List (Term S))
    (asm : Env S K → List (Integral S) → Py (Tensor K)) (W : World S) (O : Ops S K) (env : Env S K) (args : List (Nat × S))
    (F : List (Integral S)) : ∀ ks : List Kind,
    ((∀ k ∈ ks, ∀ I ∈ F, selects W k I.rest I.integrand = false) ∧
      tryAll sem order asm env args F (ks.map (assembler W O)) = dfAssemble sem env F args) ∨
    ∃ k ∈ ks, (∃ J ∈ F, selects W k J.rest J.integrand = true) ∧
      (∀ l ∈ ks.takeWhile (· ≠ k), ∀ I ∈ F, selects W l I.rest I.integrand = false) ∧
      tryAll sem order asm env args F (ks.map (assembler W O)) = assembleWith sem order asm (assembler W O k) env args.length F
  | [] => .inl ⟨by simp, rfl⟩
  | k :: ks => by
      rw [List.map_cons, tryAll]
      by_cases hsel : F.any (fun I => (assembler W O k).selects I.rest I.integrand) = true
      · rw [if_pos hsel]
        obtain ⟨J, hJ, hJs⟩ := List.any_eq_true.1 hsel
        exact .inr ⟨k, by simp, ⟨J, hJ, hJs⟩, by simp, rfl⟩
      · rw [if_neg hsel]
        have hno : ∀ I ∈ F, selects W k I.rest I.integrand = false := by
          intro I hI
          by_contra hh
          exact hsel (List.any_eq_true.2 ⟨I, hI, by simpa [assembler] using hh⟩)
        rcases tryAll_kinds sem order asm W O env args F ks with ⟨h1, h2⟩ | ⟨l, hl, ⟨J, hJ, hJs⟩, h2, h3⟩
        · refine .inl ⟨fun k' hk' => ?_, h2⟩
          rcases List.mem_cons.1 hk' with rfl | hk'
          · exact hno
          · exact h1 k' hk'
        · refine .inr ⟨l, by simp [hl], ⟨J, hJ, hJs⟩, ?_, h3⟩
          have hkl : k ≠ l := by
            rintro rfl
            rw [hno J hJ] at hJs
            cases hJs
          rw [List.takeWhile_cons_of_pos (by simpa using hkl)]
          intro k' hk'
          rcases List.mem_cons.1 hk' with rfl | hk'
          · exact hno
          · exact h2 k' hk'

omit [DecidableEq S] in
/-- `df.assemble` returns. -/
theorem dfAssemble_returns (sem : Sem S K D) (env : Env S K) (F : List (Integral S)) {args : List (Nat × S)}
    (h : args = [] ∨ (∃ V, args = [(0, V)]) ∨ ∃ V Q, args = [(0, V), (1, Q)]) : ∃ t, dfAssemble sem env F args = .ok t := by
  rcases h with rfl | ⟨V, rfl⟩ | ⟨V, Q, rfl⟩ <;> exact ⟨_, rfl⟩

/-- The arguments of a form. -/
theorem form_arguments {F : List (Integral S)} (h2 : ∀ n V, HasArg F n V → n ≤ 1)
    (hu : ∀ n V Q, HasArg F n V → HasArg F n Q → V = Q) (ht : ∀ V, HasArg F 1 V → ∃ Q, HasArg F 0 Q) :
    ∃ args, arguments F = .ok args ∧ (args = [] ∨ (∃ V, args = [(0, V)]) ∨ ∃ V Q, args = [(0, V), (1, Q)]) ∧
      (args.length = 2 ↔ ∃ V, HasArg F 1 V) := by
  obtain ⟨args, ha⟩ := arguments_exist hu
  have hform := arguments_form ha h2 ht
  refine ⟨args, ha, hform, ?_⟩
  have hmem := (arguments_ok ha).1
  simp only [← hmem]
  rcases hform with rfl | ⟨V, rfl⟩ | ⟨V, Q, rfl⟩ <;> simp

theorem sums_return {sem : Sem S K D} {F : List (Integral S)} (hu : ∀ n V Q, HasArg F n V → HasArg F n Q → V = Q) :
    ∀ {ts : List (Tensor K)}, ts ≠ [] → (∀ t ∈ ts, Shaped sem F t) → ∃ c, reduceAdd ts = .ok c ∧ Shaped sem F c := by
  have hadd : ∀ a b : Tensor K, Shaped sem F a → Shaped sem F b → ∃ c, addTensor a b = .ok c ∧ Shaped sem F c := by
    intro a b ha hb
    have : ∃ c, addTensor a b = .ok c := by
      cases a with
      | num x =>
          cases b with
          | num y => exact ⟨_, rfl⟩
          | vec n y => obtain ⟨V, hV, _⟩ := hb; exact absurd hV (ha _ _)
          | mat B => obtain ⟨V, Q, hV, _⟩ := hb; exact absurd hV (ha _ _)
      | vec n x =>
          obtain ⟨V, hV, hn, hno⟩ := ha
          cases b with
          | num y => exact absurd hV (hb _ _)
          | vec m y =>
              obtain ⟨V', hV', hm, _⟩ := hb
              have := hu 0 V V' hV hV'
              subst this
              exact ⟨_, by rw [addTensor, if_pos (hn.trans hm.symm)]⟩
          | mat B => obtain ⟨_, Q, _, hQ, _⟩ := hb; exact absurd hQ (hno Q)
      | mat A =>
          obtain ⟨V, Q, hV, hQ, h1, h2⟩ := ha
          cases b with
          | num y => exact absurd hV (hb _ _)
          | vec m y => obtain ⟨_, _, _, hno⟩ := hb; exact absurd hQ (hno Q)
          | mat B =>
              obtain ⟨V', Q', hV', hQ', h1', h2'⟩ := hb
              have := hu 0 V V' hV hV'
              subst this
              have := hu 1 Q Q' hQ hQ'
              subst this
              exact ⟨_, by rw [addTensor, if_pos ⟨h1.trans h1'.symm, h2.trans h2'.symm⟩]⟩
    obtain ⟨c, hc⟩ := this
    exact ⟨c, hc, addTensor_shaped hc ha⟩
  intro ts hne hsh
  match ts, hne with
  | t :: ts, _ =>
      rw [reduceAdd]
      have ht := hsh t (by simp)
      have hts : ∀ s ∈ ts, Shaped sem F s := fun s hs => hsh s (by simp [hs])
      clear hsh hne
      induction ts generalizing t with
      | nil => exact ⟨t, rfl, ht⟩
      | cons a ts ih =>
          obtain ⟨c, hc, hcs⟩ := hadd t a ht (hts a (by simp))
          rw [List.foldlM_cons, hc, py_bind_ok]
          exact ih c (by simp) hcs (fun s hs => hts s (by simp [hs]))

/-- A form of one integral. -/
theorem single_returns (order : List (Term S) → List (Term S)) (ho : ∀ l, (order l).Perm l) {sem : Sem S K D}
    {W : World S} {O : Ops S K} : ∀ (fuel : Nat) (env : Env S K) (I : Integral S), Assemblable sem W O env I →
      annotated I.integrand < fuel →
      ∃ t, assemble sem order (assemblers W O) fuel env [I] = .ok t ∧ Shaped sem [I] t
  | 0, _, _, _, h => by omega
  | fuel + 1, env, I, hI, hfuel => by
      have h1 : ∀ {n V}, HasArg [I] n V → ∃ t ∈ terms I.integrand, t.base = .argument n V := by
        rintro n V ⟨J, hJ, h⟩
        simp only [List.mem_singleton] at hJ
        subst hJ
        exact h
      have hu : ∀ n V Q, HasArg [I] n V → HasArg [I] n Q → V = Q := by
        intro n V Q hV hQ
        obtain ⟨s, hs, hsb⟩ := h1 hV
        obtain ⟨t, ht, htb⟩ := h1 hQ
        exact hI.oneSpace s hs t ht n V Q hsb htb
      obtain ⟨args, ha, hform, har⟩ := form_arguments (F := [I])
        (fun n V h => by obtain ⟨t, ht, hb⟩ := h1 h; exact hI.twoArguments t ht n V hb) hu
        (fun V h => by
          obtain ⟨t, ht, hb⟩ := h1 h
          obtain ⟨s, hs, Q, hQ⟩ := hI.trialAndTest t ht V hb
          exact ⟨Q, I, by simp, s, hs, hQ⟩)
      rw [assemble, ha, py_bind_ok]
      rcases tryAll_kinds sem order (assemble sem order (assemblers W O) fuel) W O env args [I] kinds with
        ⟨_, h2⟩ | ⟨k, _, ⟨J, hJ, hsel⟩, hfirst, h2⟩
      · change ∃ t, tryAll sem order _ env args [I] (kinds.map (assembler W O)) = .ok t ∧ _
        rw [h2]
        obtain ⟨t, ht⟩ := dfAssemble_returns sem env [I] hform
        exact ⟨t, ht, dfAssemble_shaped ha ht⟩
      · simp only [List.mem_singleton] at hJ
        subst hJ
        have hin : inReduced (assembler W O k) [J] J = true := by
          have : (assembler W O k).selects J.rest J.integrand = true := hsel
          simp [inReduced, this, sameExpr_refl]
        obtain ⟨c, hc, hcs⟩ := component_returns order ho hI (asm := assemble sem order (assemblers W O) fuel)
          (fun env L hL hlt => single_returns order ho fuel env L hL (by omega)) hsel
          (fun l hl => hfirst l hl J (by simp)) har hin
        have h3 : tryAll sem order (assemble sem order (assemblers W O) fuel) env args [J] (assemblers W O) = .ok c := by
          change tryAll sem order _ env args [J] (kinds.map (assembler W O)) = .ok c
          rw [h2, assembleWith, pyMap, hc, py_bind_ok, pyMap, py_bind_ok]
          rfl
        exact ⟨c, h3, hcs⟩

end Verif.Assembly
