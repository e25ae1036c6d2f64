import Verif.Props.Reduced
/-! # Sizes of assembled tensors -/
namespace Verif.Reduced
open Verif Ufl BlockForm BlockOps Finset

variable {S K D : Type} [DecidableEq S] [CommRing K] [AddCommGroup D] [Module K D]

/-- The sizes of a tensor are the dimensions of the spaces of the arguments. -/
def Shaped (sem : Sem S K D) (F : List (Integral S)) : Tensor K → Prop
  | .num _ => ∀ n V, ¬ HasArg F n V
  | .vec n _ => ∃ V, HasArg F 0 V ∧ n = sem.dim V ∧ ∀ Q, ¬ HasArg F 1 Q
  | .mat A => ∃ V Q, HasArg F 0 V ∧ HasArg F 1 Q ∧ A.rows = sem.dim V ∧ A.cols = sem.dim Q

/-- The matrices of the assembler apply to functions of the space which is reduced. -/
def Columns (m : Assembler S K) (sem : Sem S K D) : Prop :=
  ∀ attrs V rest TV T, (attrs.lookup m.attr).isSome → m.space attrs (m.domain attrs V) rest = .ok TV →
    m.matrix attrs (m.domain attrs V) TV rest = .ok T → T.cols = sem.dim V

theorem shaped_congr {sem : Sem S K D} {F G : List (Integral S)} (h : ∀ n V, HasArg F n V ↔ HasArg G n V) {t : Tensor K}
    (ht : Shaped sem F t) : Shaped sem G t := by
  cases t with
  | num c => exact fun n V hV => ht n V ((h n V).2 hV)
  | vec n b =>
      obtain ⟨V, h1, h2, h3⟩ := ht
      exact ⟨V, (h 0 V).1 h1, h2, fun Q hQ => h3 Q ((h 1 Q).2 hQ)⟩
  | mat A =>
      obtain ⟨V, Q, h1, h2, h3⟩ := ht
      exact ⟨V, Q, (h 0 V).1 h1, (h 1 Q).1 h2, h3⟩

theorem hasArg_single {F : List (Integral S)} (hs : SameArguments F) {I : Integral S} (hI : I ∈ F) (n : Nat) (V : S) :
    HasArg [I] n V ↔ HasArg F n V := by
  constructor
  · rintro ⟨J, hJ, t, ht, hb⟩
    simp only [List.mem_singleton] at hJ
    subst hJ
    exact ⟨J, hI, t, ht, hb⟩
  · rintro ⟨J, hJ, t, ht, hb⟩
    obtain ⟨s, hsm, hsb⟩ := hs J hJ t ht n V hb I hI
    exact ⟨I, by simp, s, hsm, hsb⟩

theorem dfAssemble_shaped {sem : Sem S K D} {env : Env S K} {F : List (Integral S)} {args : List (Nat × S)}
    (ha : arguments F = .ok args) {t : Tensor K} (ht : dfAssemble sem env F args = .ok t) : Shaped sem F t := by
  obtain ⟨hmem, _, _⟩ := arguments_ok ha
  match args, ht with
  | [], ht => cases ht; exact fun n V hV => absurd ((hmem n V).2 hV) (by simp)
  | [(0, V)], ht =>
      cases ht
      exact ⟨V, (hmem 0 V).1 (by simp), rfl, fun Q hQ => absurd ((hmem 1 Q).2 hQ) (by simp)⟩
  | [(0, V), (1, Q)], ht =>
      cases ht
      exact ⟨V, Q, (hmem 0 V).1 (by simp), (hmem 1 Q).1 (by simp), rfl, rfl⟩

theorem addTensor_shaped {sem : Sem S K D} {F : List (Integral S)} {a b c : Tensor K} (h : addTensor a b = .ok c)
    (ha : Shaped sem F a) : Shaped sem F c := by
  cases a <;> cases b <;> simp only [addTensor] at h
  · cases h; exact ha
  · cases h
  · cases h
  · cases h
  · split at h
    · cases h; exact ha
    · cases h
  · cases h
  · cases h
  · cases h
  · split at h
    · cases h; exact ha
    · cases h

theorem reduceAdd_shaped {sem : Sem S K D} {F : List (Integral S)} : ∀ {ts : List (Tensor K)} {c : Tensor K},
    reduceAdd ts = .ok c → (∀ t ∈ ts, Shaped sem F t) → Shaped sem F c
  | [], _, h, _ => by cases h
  | t :: ts, c, h, hs => by
      rw [reduceAdd] at h
      have ht := hs t (by simp)
      clear hs
      induction ts generalizing t with
      | nil => cases h; exact ht
      | cons x ts ih =>
          rw [List.foldlM_cons] at h
          obtain ⟨y, h1, h⟩ := py_bind_eq_ok.mp h
          exact ih y h (addTensor_shaped h1 ht)

/-- One integral. -/
theorem component_shaped (sem : Sem S K D) (mods : List (Assembler S K)) (red : Reduction S K)
    (order : List (Term S) → List (Term S)) (ho : ∀ l, (order l).Perm l)
    (asm : Env S K → List (Integral S) → Py (Tensor K))
    (hasm : ∀ env I t, WellFormed sem mods I → asm env [I] = .ok t → Shaped sem [I] t)
    (m : Assembler S K) (hm : Implements m red sem) (hcol : Columns m sem) (env : Env S K) (arity : Nat)
    (F : List (Integral S)) (I : Integral S) (hw : WellFormed sem mods I)
    (hU : ∀ s ∈ terms I.integrand, ∀ t ∈ terms I.integrand, ∀ n V Q, s.base = .argument n V → t.base = .argument n Q → V = Q)
    (cs : List (Tensor K)) (h : component sem order asm m env arity F I = .ok cs) : ∀ c ∈ cs, Shaped sem [I] c := by
  rw [component] at h
  split at h
  · obtain ⟨t, h1, h⟩ := py_bind_eq_ok.mp h
    obtain ⟨V0, h2, h⟩ := py_bind_eq_ok.mp h
    obtain ⟨TV, h3, h⟩ := py_bind_eq_ok.mp h
    obtain ⟨T, h4, h⟩ := py_bind_eq_ok.mp h
    obtain ⟨p1, p2⟩ := pick_ok h1
    have htm : t ∈ terms I.integrand := mem_uniqueTerms ((ho _).subset (List.mem_filter.mp p1).1)
    have hattr := hm.2 _ _ p2
    have hcols := hcol t.attrs V0 I.rest TV T hattr h3 h4
    have hone : ∀ s ∈ terms I.integrand, s ≠ t → ∀ n V Q, t.base = .argument n V → s.base ≠ .argument n Q := by
      intro s hs hst n V Q hV hQ
      have := hU s hs t htm n Q V hQ hV
      subst this
      exact hst (hw.consistent s hs t htm (by rw [hQ, hV]))
    -- arguments with other numbers are not changed
    have hother : ∀ (t' : Term S) (n : Nat) (V : S), (∀ Q, t.base ≠ .argument n Q) → (∀ Q, t'.base ≠ .argument n Q) →
        (HasArg [⟨subst (fun s => .term (if s = t then t' else s)) I.integrand, I.rest⟩] n V ↔ HasArg [I] n V) := by
      intro t' n V hn hn'
      simp only [HasArg, List.mem_singleton, exists_eq_left, terms_subst, List.mem_map]
      constructor
      · rintro ⟨_, ⟨s, hs, rfl⟩, hb⟩
        by_cases hst : s = t
        · rw [if_pos hst] at hb; exact absurd hb (hn' V)
        · rw [if_neg hst] at hb; exact ⟨s, hs, hb⟩
      · rintro ⟨s, hs, hb⟩
        exact ⟨s, ⟨s, hs, if_neg (by rintro rfl; exact hn V hb)⟩, hb⟩
    simp only at h
    split at h
    · rename_i V hb
      rw [functionSpace, hb] at h2
      cases h2
      obtain ⟨r, h5, h⟩ := py_bind_eq_ok.mp h
      obtain ⟨c, h6, h⟩ := py_bind_eq_ok.mp h
      cases h
      rw [replace_eq I.integrand hw.consistent t _ htm m.attr hattr] at h5
      have hwf := wellFormed_replace sem mods I hw t ⟨.argument 0 TV, []⟩ htm rfl
        (fun s hs hst => hone s hs hst 0 V0 TV hb) (fun n V h => by cases h; exact ⟨V0, hb⟩)
      have hr := hasm env _ r hwf h5
      have h0 : HasArg [I] 0 V0 := ⟨I, by simp, t, htm, hb⟩
      have h1' := fun Q => hother ⟨.argument 0 TV, []⟩ 1 Q (fun Q h => by rw [hb] at h; cases h) (fun Q h => by cases h)
      intro c' hc'
      simp only [List.mem_singleton] at hc'
      subst hc'
      unfold transposeApply at h6
      split at h6
      · split at h6
        · split at h6
          · cases h6
            obtain ⟨V', Q, _, hQ, _, e2⟩ := hr
            exact ⟨V0, Q, h0, (h1' Q).1 hQ, hcols, e2⟩
          · cases h6
        · cases h6
      · split at h6
        · split at h6
          · cases h6
            obtain ⟨V', _, _, hno⟩ := hr
            exact ⟨V0, h0, hcols, fun Q hQ => hno Q ((h1' Q).2 hQ)⟩
          · cases h6
        · cases h6
    · rename_i V hb
      rw [functionSpace, hb] at h2
      cases h2
      obtain ⟨_, _, h⟩ := py_bind_eq_ok.mp h
      obtain ⟨r, h5, h⟩ := py_bind_eq_ok.mp h
      obtain ⟨c, h6, h⟩ := py_bind_eq_ok.mp h
      cases h
      rw [replace_eq I.integrand hw.consistent t _ htm m.attr hattr] at h5
      have hwf := wellFormed_replace sem mods I hw t ⟨.argument 1 TV, []⟩ htm rfl
        (fun s hs hst => hone s hs hst 1 V0 TV hb) (fun n V h => by cases h; exact ⟨V0, hb⟩)
      have hr := hasm env _ r hwf h5
      have h1' := fun Q => hother ⟨.argument 1 TV, []⟩ 0 Q (fun Q h => by rw [hb] at h; cases h) (fun Q h => by cases h)
      intro c' hc'
      simp only [List.mem_singleton] at hc'
      subst hc'
      unfold rightApply at h6
      split at h6
      · split at h6
        · cases h6
          obtain ⟨V', Q, hV, _, e1, _⟩ := hr
          exact ⟨V', V0, (h1' V').1 hV, ⟨I, by simp, t, htm, hb⟩, e1, hcols⟩
        · cases h6
      · cases h6
    · rename_i n V hn0 hn1 hb
      have := hw.twoArguments t htm n V hb
      match n, hn0, hn1 with
      | 0, hn0, _ => exact absurd rfl (hn0 ·)
      | 1, _, hn1 => exact absurd rfl (hn1 ·)
      | n + 2, _, _ => omega
    · rename_i id hb
      rw [functionSpace, hb] at h2
      cases hid : env id with
      | none => simp only [hid] at h2; cases h2
      | some p =>
        obtain ⟨W, c⟩ := p
        simp only [hid] at h2 h
        cases h2
        split at h
        · cases h
        · obtain ⟨r, h5, h⟩ := py_bind_eq_ok.mp h
          cases h
          rw [replace_eq I.integrand hw.consistent t _ htm m.attr hattr] at h5
          have hwf := wellFormed_replace sem mods I hw t ⟨.other (freshId I.integrand), []⟩ htm rfl
            (fun s hs _ => fresh_id I.integrand s hs) (fun n V h => by cases h)
          have hr := hasm _ _ r hwf h5
          intro c' hc'
          simp only [List.mem_singleton] at hc'
          subst hc'
          exact shaped_congr (fun n V => hother _ n V (fun Q h => by rw [hb] at h; cases h) (fun Q h => by cases h)) hr
  · obtain ⟨r, h5, h⟩ := py_bind_eq_ok.mp h
    cases h
    intro c' hc'
    simp only [List.mem_singleton] at hc'
    subst hc'
    exact hasm env I _ hw h5

/-- An assembled tensor has the sizes of the spaces of the arguments. -/
theorem assemble_shaped (sem : Sem S K D) (mods : List (Assembler S K)) (red : Reduction S K)
    (hmods : ∀ m ∈ mods, Implements m red sem) (hcol : ∀ m ∈ mods, Columns m sem)
    (order : List (Term S) → List (Term S)) (ho : ∀ l, (order l).Perm l) :
    ∀ (fuel : Nat) (env : Env S K) (F : List (Integral S)) (t : Tensor K), (∀ I ∈ F, WellFormed sem mods I) →
      SameArguments F → assemble sem order mods fuel env F = .ok t → Shaped sem F t
  | 0, env, F, t, _, _, h => by cases h
  | fuel + 1, env, F, t, hw, hs, h => by
      rw [assemble] at h
      obtain ⟨args, ha, h⟩ := py_bind_eq_ok.mp h
      obtain ⟨_, huniq, _⟩ := arguments_ok ha
      have key : ∀ ms : List (Assembler S K), (∀ m ∈ ms, m ∈ mods) →
          tryAll sem order (assemble sem order mods fuel) env args F ms = .ok t → Shaped sem F t := by
        intro ms
        induction ms with
        | nil => intro _ h; exact dfAssemble_shaped ha h
        | cons m ms ihm =>
            intro hsub h
            rw [tryAll] at h
            split at h
            · rw [assembleWith] at h
              obtain ⟨cs, h1, h2⟩ := py_bind_eq_ok.mp h
              refine reduceAdd_shaped h2 (fun c hc => ?_)
              obtain ⟨y, hy, hcy⟩ := List.mem_flatten.1 hc
              obtain ⟨I, hI, hIy⟩ := pyMap_mem h1 hy
              refine shaped_congr (hasArg_single hs hI) (component_shaped sem mods red order ho _
                (fun env I t hw h => assemble_shaped sem mods red hmods hcol order ho fuel env [I] t
                  (by simpa using hw) (sameArguments_single I) h) m (hmods m (hsub m (by simp))) (hcol m (hsub m (by simp)))
                env _ F I (hw I hI) ?_ y hIy c hcy)
              intro s hs t ht n V Q hV hQ
              exact huniq n V Q ⟨I, hI, s, hs, hV⟩ ⟨I, hI, t, ht, hQ⟩
            · exact ihm (fun x hx => hsub x (by simp [hx])) h
      exact key mods (fun m hm => hm) h
where
  pyMap_mem {α β : Type} {f : α → Py β} : ∀ {xs : List α} {ys : List β}, pyMap f xs = .ok ys → ∀ {y}, y ∈ ys →
      ∃ x ∈ xs, f x = .ok y
    | [], _, h, y, hy => by cases h; cases hy
    | x :: xs, ys, h, y, hy => by
        rw [pyMap] at h
        obtain ⟨z, h1, h⟩ := py_bind_eq_ok.mp h
        obtain ⟨zs, h2, h⟩ := py_bind_eq_ok.mp h
        cases h
        rcases List.mem_cons.1 hy with rfl | hy
        · exact ⟨x, by simp, h1⟩
        · obtain ⟨x', hx', h'⟩ := pyMap_mem h2 hy
          exact ⟨x', by simp [hx'], h'⟩

end Verif.Reduced
