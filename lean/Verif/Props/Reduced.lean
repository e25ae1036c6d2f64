import Verif.Lemmas.Reduced2
import Mathlib.Tactic.NormNum
import Mathlib.Algebra.Ring.Rat
/-!
# C31: reduced assembly
-/
namespace Verif.Reduced
open Verif Ufl BlockForm BlockOps Finset

variable {S K D : Type} [DecidableEq S] [CommRing K] [AddCommGroup D] [Module K D]

/-- What the recursive calls have to satisfy. -/
def Represents (sem : Sem S K D) (mods : List (Assembler S K)) (red : Reduction S K)
    (asm : Env S K → List (Integral S) → Py (Tensor K)) : Prop :=
  ∀ env F t, (∀ I ∈ F, WellFormed sem mods I) → SameArguments F → asm env F = .ok t →
    ∀ v u, act v u t = total sem F (fun I => meaning sem red env v u I.rest)

theorem total_single (sem : Sem S K D) (I : Integral S) (val : Integral S → Term S → D) :
    total sem [I] val = sem.integral I.rest (den sem (val I) I.integrand) := by simp [total]

/-- One integral. -/
theorem component_represents (sem : Sem S K D) (mods : List (Assembler S K)) (red : Reduction S K)
    (order : List (Term S) → List (Term S)) (ho : ∀ l, (order l).Perm l)
    (asm : Env S K → List (Integral S) → Py (Tensor K)) (hasm : Represents sem mods red asm)
    (m : Assembler S K) (hm : Implements m red sem) (env : Env S K) (arity : Nat) (F : List (Integral S)) (I : Integral S)
    (hw : WellFormed sem mods I)
    (hU : ∀ s ∈ terms I.integrand, ∀ t ∈ terms I.integrand, ∀ n V Q, s.base = .argument n V → t.base = .argument n Q → V = Q)
    (cs : List (Tensor K)) (h : component sem order asm m env arity F I = .ok cs) (v u : Nat → K) :
    (cs.map (act v u)).sum = sem.integral I.rest (den sem (meaning sem red env v u I.rest) I.integrand) := by
  rw [component] at h
  split at h
  · obtain ⟨t, h1, h⟩ := py_bind_eq_ok.mp h
    obtain ⟨V0, h2, h⟩ := py_bind_eq_ok.mp h
    obtain ⟨TV, h3, h⟩ := py_bind_eq_ok.mp h
    obtain ⟨T, h4, h⟩ := py_bind_eq_ok.mp h
    obtain ⟨p1, p2⟩ := pick_ok h1
    have htm : t ∈ terms I.integrand := mem_uniqueTerms ((ho _).subset (List.mem_filter.mp p1).1)
    have hattr := hm.2 _ _ p2
    obtain ⟨hred, hrows⟩ := hm.1 t.attrs V0 I.rest TV T hattr h3 h4
    have hne : t.attrs ≠ [] := by
      intro h0; simp [Term.attr, h0] at hattr
    -- the value of the replaced integral
    have hval : ∀ (env' : Env S K) (t' : Term S) (x y : Nat → K),
        (∀ s ∈ terms I.integrand, s ≠ t → meaning sem red env' x y I.rest s = meaning sem red env v u I.rest s) →
        meaning sem red env' x y I.rest t' = meaning sem red env v u I.rest t →
        den sem (meaning sem red env' x y I.rest) (subst (fun s => .term (if s = t then t' else s)) I.integrand) =
          den sem (meaning sem red env v u I.rest) I.integrand := by
      intro env' t' x y ha hb
      rw [den_subst]
      refine den_congr sem _ _ _ (fun s hs => ?_)
      by_cases hst : s = t
      · rw [if_pos hst, hb, hst]
      · rw [if_neg hst, ha s hs hst]
    have hone : ∀ s ∈ terms I.integrand, s ≠ t → ∀ n V Q, t.base = .argument n V → s.base ≠ .argument n Q := by
      intro s hs hst n V Q hV hQ
      have := hU s hs t htm n Q V hQ hV
      subst this
      exact hst (hw.consistent s hs t htm (by rw [hQ, hV]))
    simp only at h
    split at h
    · rename_i V hb
      rw [functionSpace, hb] at h2
      cases h2
      obtain ⟨r, h5, h⟩ := py_bind_eq_ok.mp h
      obtain ⟨c, h6, h⟩ := py_bind_eq_ok.mp h
      cases h
      rw [replace_eq I.integrand hw.consistent t _ htm m.attr hattr] at h5
      have hwf := wellFormed_replace sem mods I hw t ⟨.argument 0 TV, []⟩ htm rfl
        (fun s hs hst => hone s hs hst 0 V0 TV hb) (fun n V h => by cases h; exact ⟨V0, hb⟩)
      have := hasm env _ r (by simpa using hwf) (sameArguments_single _) h5 (app T v) u
      rw [total_single] at this
      simp only [List.map_cons, List.map_nil, List.sum_cons, List.sum_nil, add_zero]
      rw [transposeApply_act h6, this]
      congr 1
      refine hval env _ _ _ (fun s hs hst => ?_) ?_
      · unfold meaning
        split
        · rename_i Q hQ; exact absurd hQ (hone s hs hst 0 V0 Q hb)
        · rfl
        · rfl
      · simp only [meaning, hb]
        rw [reduced, if_pos rfl, reduced, if_neg hne, hred]
        rfl
    · rename_i V hb
      rw [functionSpace, hb] at h2
      cases h2
      obtain ⟨_, _, h⟩ := py_bind_eq_ok.mp h
      obtain ⟨r, h5, h⟩ := py_bind_eq_ok.mp h
      obtain ⟨c, h6, h⟩ := py_bind_eq_ok.mp h
      cases h
      rw [replace_eq I.integrand hw.consistent t _ htm m.attr hattr] at h5
      have hwf := wellFormed_replace sem mods I hw t ⟨.argument 1 TV, []⟩ htm rfl
        (fun s hs hst => hone s hs hst 1 V0 TV hb) (fun n V h => by cases h; exact ⟨V0, hb⟩)
      have := hasm env _ r (by simpa using hwf) (sameArguments_single _) h5 v (app T u)
      rw [total_single] at this
      simp only [List.map_cons, List.map_nil, List.sum_cons, List.sum_nil, add_zero]
      rw [rightApply_act h6, this]
      congr 1
      refine hval env _ _ _ (fun s hs hst => ?_) ?_
      · unfold meaning
        split
        · rfl
        · rename_i n Q hn hQ
          have h1 := hw.twoArguments s hs n Q hQ
          have : n = 1 := by
            match n, hn with
            | 0, hn => exact absurd rfl (hn ·)
            | 1, _ => rfl
            | n + 2, _ => omega
          subst this
          exact absurd hQ (hone s hs hst 1 V0 Q hb)
        · rfl
      · simp only [meaning, hb]
        rw [reduced, if_pos rfl, reduced, if_neg hne, hred]
        rfl
    · rename_i n V hn0 hn1 hb
      have := hw.twoArguments t htm n V hb
      match n, hn0, hn1 with
      | 0, hn0, _ => exact absurd rfl (hn0 ·)
      | 1, _, hn1 => exact absurd rfl (hn1 ·)
      | n + 2, _, _ => omega
    · rename_i id hb
      rw [functionSpace, hb] at h2
      cases hid : env id with
      | none => simp only [hid] at h2; cases h2
      | some p =>
        obtain ⟨W, c⟩ := p
        simp only [hid] at h2 h
        cases h2
        split at h
        · cases h
        · rename_i hsz
          push Not at hsz
          obtain ⟨r, h5, h⟩ := py_bind_eq_ok.mp h
          cases h
          rw [replace_eq I.integrand hw.consistent t _ htm m.attr hattr] at h5
          have hwf := wellFormed_replace sem mods I hw t ⟨.other (freshId I.integrand), []⟩ htm rfl
            (fun s hs _ => fresh_id I.integrand s hs) (fun n V h => by cases h)
          have := hasm _ _ r (by simpa using hwf) (sameArguments_single _) h5 v u
          rw [total_single] at this
          simp only [List.map_cons, List.map_nil, List.sum_cons, List.sum_nil, add_zero]
          rw [this]
          congr 1
          refine hval _ _ _ _ (fun s hs hst => ?_) ?_
          · unfold meaning
            split
            · rfl
            · rfl
            · rename_i k hk
              have hkf : k ≠ freshId I.integrand := by
                rintro rfl
                exact fresh_id I.integrand s hs hk
              simp only [setEnv, if_neg hkf]
          · simp only [meaning, hb, setEnv, if_pos, hid]
            rw [reduced, if_pos rfl, reduced, if_neg hne, hred]
  · obtain ⟨r, h5, h⟩ := py_bind_eq_ok.mp h
    cases h
    have := hasm env [I] r (by simpa using hw) (sameArguments_single I) h5 v u
    rw [total_single] at this
    simpa using this

theorem pyMap_sum {α β : Type} {M : Type} [AddCommMonoid M] {f : α → Py (List β)} {g : β → M} {w : α → M} :
    ∀ (xs : List α) (ys : List (List β)), pyMap f xs = .ok ys →
      (∀ x ∈ xs, ∀ y, f x = .ok y → (y.map g).sum = w x) → (ys.flatten.map g).sum = (xs.map w).sum
  | [], ys, h, _ => by cases h; simp
  | x :: xs, ys, h, hf => by
      rw [pyMap] at h
      obtain ⟨y, h1, h⟩ := py_bind_eq_ok.mp h
      obtain ⟨zs, h2, h⟩ := py_bind_eq_ok.mp h
      cases h
      rw [List.flatten_cons, List.map_append, List.sum_append, hf x (by simp) y h1,
        pyMap_sum xs zs h2 (fun z hz => hf z (by simp [hz])), List.map_cons, List.sum_cons]

/-- **C31** Whatever the form, the order in which sets of terminals are traversed and the order of the assemblers: if
`assemble` returns a tensor, then for all coefficient vectors `v`, `u`
`v^T A u = sum_I I(R_v v, R_u u)`, where annotated arguments and functions stand for their reductions.

Hypotheses: every integral is linear in test and trial function; equal terminals carry equal annotations; annotations
are recognised by an assembler (else see `assemble_ignores_unrecognised`). -/
theorem assemble_represents_partial (sem : Sem S K D) (mods : List (Assembler S K)) (red : Reduction S K)
    (hmods : ∀ m ∈ mods, Implements m red sem) (order : List (Term S) → List (Term S)) (ho : ∀ l, (order l).Perm l) :
    ∀ (fuel : Nat) (env : Env S K) (F : List (Integral S)) (t : Tensor K), (∀ I ∈ F, WellFormed sem mods I) →
      SameArguments F → assemble sem order mods fuel env F = .ok t →
      ∀ v u, act v u t = total sem F (fun I => meaning sem red env v u I.rest)
  | 0, env, F, t, _, _, h, _, _ => by cases h
  | fuel + 1, env, F, t, hw, hs, h, v, u => by
      rw [assemble] at h
      obtain ⟨args, ha, h⟩ := py_bind_eq_ok.mp h
      obtain ⟨_, huniq, _⟩ := arguments_ok ha
      have ih : Represents sem mods red (assemble sem order mods fuel) :=
        fun env F t hw hs h v u => assemble_represents_partial sem mods red hmods order ho fuel env F t hw hs h v u
      have key : ∀ ms : List (Assembler S K), (∀ m ∈ ms, m ∈ mods) →
          (∀ m ∈ mods, m ∉ ms → ∀ I ∈ F, m.selects I.rest I.integrand = false) →
          tryAll sem order (assemble sem order mods fuel) env args F ms = .ok t →
          act v u t = total sem F (fun I => meaning sem red env v u I.rest) := by
        intro ms
        induction ms with
        | nil =>
            intro _ hno h
            refine dfAssemble_represents sem mods red env F hw (fun I hI s hsm => ?_) hs args ha t h v u
            by_contra hne
            obtain ⟨m, hm, hsel⟩ := (hw I hI).recognised s hsm hne
            have := hsel I.integrand hsm (hw I hI).consistent
            rw [hno m hm (by simp) I hI] at this
            cases this
        | cons m ms ihm =>
            intro hsub hno h
            rw [tryAll] at h
            split at h
            · rw [assembleWith] at h
              obtain ⟨cs, h1, h2⟩ := py_bind_eq_ok.mp h
              rw [reduceAdd_act h2, total]
              refine pyMap_sum F cs h1 (fun I hI y hy => ?_)
              refine component_represents sem mods red order ho _ ih m (hmods m (hsub m (by simp))) env _ F I (hw I hI) ?_ y hy v u
              intro s hs t ht n V Q hV hQ
              exact huniq n V Q ⟨I, hI, s, hs, hV⟩ ⟨I, hI, t, ht, hQ⟩
            · rename_i hany
              refine ihm (fun x hx => hsub x (by simp [hx])) ?_ h
              intro x hx hxm I hI
              by_cases hxe : x = m
              · subst hxe
                rw [← Bool.not_eq_true]
                intro hsel
                exact hany (List.any_eq_true.mpr ⟨I, hI, hsel⟩)
              · exact hno x hx (by simp [hxe, hxm]) I hI
      exact key mods (fun m hm => hm) (fun m hm hnm => absurd hm hnm) h

/-! ### Termination -/


theorem noFuel_bind {α β : Type} {x : Py α} {f : α → Py β} (hx : NoFuel x) (hf : ∀ a, x = .ok a → NoFuel (f a)) :
    NoFuel (x >>= f) := by
  cases x with
  | error e =>
      intro h
      exact hx (by simpa using h)
  | ok a => rw [py_bind_ok]; exact hf a rfl

theorem noFuel_pyMap {α β : Type} {f : α → Py β} : ∀ (xs : List α), (∀ x ∈ xs, NoFuel (f x)) → NoFuel (pyMap f xs)
  | [], _ => by intro h; cases h
  | x :: xs, h => by
      rw [pyMap]
      refine noFuel_bind (h x (by simp)) (fun a _ => noFuel_bind (noFuel_pyMap xs (fun y hy => h y (by simp [hy])))
        (fun b _ => ?_))
      intro hh; cases hh

theorem noFuel_addTensor (a b : Tensor K) : NoFuel (addTensor a b) := by
  intro h
  unfold addTensor at h
  split at h <;> first | (split at h <;> cases h) | cases h

theorem noFuel_reduceAdd (ts : List (Tensor K)) : NoFuel (reduceAdd ts) := by
  cases ts with
  | nil => intro h; cases h
  | cons t ts =>
      rw [reduceAdd]
      induction ts generalizing t with
      | nil => intro h; cases h
      | cons a ts ih =>
          rw [List.foldlM_cons]
          exact noFuel_bind (noFuel_addTensor t a) (fun c _ => ih c)

theorem noFuel_arguments (F : List (Integral S)) : NoFuel (arguments F) := by
  intro h
  rw [arguments] at h
  split at h <;> cases h

theorem noFuel_dfAssemble (sem : Sem S K D) (env : Env S K) (F : List (Integral S)) (args : List (Nat × S)) :
    NoFuel (dfAssemble sem env F args) := by
  intro h
  unfold dfAssemble at h
  split at h <;> cases h

theorem noFuel_pick (m : Assembler S K) (hm : Total m) (rest : Nat) (ts : List (Term S)) : NoFuel (pick m rest ts) := by
  rw [pick]
  refine noFuel_bind (noFuel_pyMap ts (fun t _ => noFuel_bind (hm.1 rest t) (fun b _ h => by cases h))) (fun keys _ => ?_)
  intro h
  simp only at h
  split at h <;> cases h

theorem noFuel_transposeApply (arity : Nat) (T : Mat K) (r : Tensor K) : NoFuel (transposeApply arity T r) := by
  intro h
  unfold transposeApply at h
  split at h <;> split at h <;> first | (split at h <;> cases h) | cases h

theorem noFuel_rightApply (T : Mat K) (r : Tensor K) : NoFuel (rightApply T r) := by
  intro h
  unfold rightApply at h
  split at h <;> first | (split at h <;> cases h) | cases h

/-- Replacing an annotated terminal leaves fewer of them. -/
theorem annotated_replace (e : UExpr S) (t t' : Term S) (ht : t ∈ terms e) (a : String) (ha : (t.attr a).isSome)
    (hp : t'.attrs = []) : annotated (replace (.term t) (.term t') (some [a]) e) < annotated e := by
  classical
  have hne : ∀ s : Term S, (s.attr a).isSome → s.attrs ≠ [] := by
    intro s hs h0; simp [Term.attr, h0] at hs
  have e1 : replace (.term t) (.term t') (some [a]) e =
      subst (fun s => .term (if Same (some [a]) s t then t' else s)) e := by
    rw [replace_substitutes]
    refine subst_congr _ _ e (fun s hs => ?_)
    split <;> rfl
  rw [e1, annotated, annotated, terms_subst]
  have key : ∀ l : List (Term S), (l.map (fun s => if Same (some [a]) s t then t' else s)).countP
      (fun t => decide (t.attrs ≠ [])) ≤ l.countP (fun t => decide (t.attrs ≠ [])) ∧
      (t ∈ l → (l.map (fun s => if Same (some [a]) s t then t' else s)).countP (fun t => decide (t.attrs ≠ [])) <
        l.countP (fun t => decide (t.attrs ≠ []))) := by
    intro l
    induction l with
    | nil => simp
    | cons x l ih =>
        rw [List.map_cons, List.countP_cons, List.countP_cons]
        by_cases hx : Same (some [a]) x t
        · have hxa : (x.attr a).isSome := by
            obtain ⟨w, hw, _⟩ := hx.2 [a] rfl a (by simp)
            rw [hw]; rfl
          rw [if_pos hx]
          have h1 : decide (t'.attrs ≠ []) = false := by simp [hp]
          have h2 : decide (x.attrs ≠ []) = true := by simp [hne x hxa]
          rw [h1, h2]
          simp only [Bool.false_eq_true, if_false, if_true]
          omega
        · rw [if_neg hx]
          refine ⟨by omega, fun hmem => ?_⟩
          rcases List.mem_cons.mp hmem with rfl | hmem
          · exfalso
            apply hx
            refine ⟨rfl, fun as has y hy => ?_⟩
            cases has
            simp only [List.mem_singleton] at hy
            subst hy
            obtain ⟨w, hw⟩ := Option.isSome_iff_exists.mp ha
            exact ⟨w, hw, hw⟩
          · have := ih.2 hmem
            omega
  exact (key (terms e)).2 ht

mutual
theorem sameExpr_refl : ∀ e : UExpr S, sameExpr e e = true
  | .term t => by simp [sameExpr]
  | .node k ops => by simp [sameExpr, sameAll_refl ops]
theorem sameAll_refl : ∀ es : List (UExpr S), sameAll es es = true
  | [] => rfl
  | e :: es => by simp [sameAll, sameExpr_refl e, sameAll_refl es]
end

theorem component_noFuel (sem : Sem S K D) (order : List (Term S) → List (Term S)) (ho : ∀ l, (order l).Perm l)
    (asm : Env S K → List (Integral S) → Py (Tensor K)) (m : Assembler S K) (hm : Total m) (env : Env S K) (arity : Nat)
    (F : List (Integral S)) (I : Integral S)
    (hrec : ∀ env J, annotated J.integrand < annotated I.integrand → NoFuel (asm env [J]))
    (hdel : inReduced m F I = false → NoFuel (asm env [I])) :
    NoFuel (component sem order asm m env arity F I) := by
  rw [component]
  split
  · refine noFuel_bind (noFuel_pick m hm _ _) (fun t ht => ?_)
    obtain ⟨p1, p2⟩ := pick_ok ht
    have htm : t ∈ terms I.integrand := mem_uniqueTerms ((ho _).subset (List.mem_filter.mp p1).1)
    have hattr := hm.2.2.2 _ _ p2
    refine noFuel_bind ?_ (fun V0 _ => ?_)
    · intro h; unfold functionSpace at h
      split at h
      · cases h
      · split at h <;> cases h
    refine noFuel_bind (hm.2.1 _ _ _) (fun TV _ => ?_)
    refine noFuel_bind (hm.2.2.1 _ _ _ _) (fun T _ => ?_)
    simp only
    split
    · refine noFuel_bind (hrec _ _ (annotated_replace _ _ _ htm _ hattr rfl)) (fun r _ => ?_)
      exact noFuel_bind (noFuel_transposeApply _ _ _) (fun c _ h => by cases h)
    · refine noFuel_bind ?_ (fun _ _ => ?_)
      · intro h; unfold pyAssert at h; split at h <;> cases h
      refine noFuel_bind (hrec _ _ (annotated_replace _ _ _ htm _ hattr rfl)) (fun r _ => ?_)
      exact noFuel_bind (noFuel_rightApply _ _) (fun c _ h => by cases h)
    · intro h; cases h
    · split
      · intro h; cases h
      · split
        · intro h; cases h
        · refine noFuel_bind (hrec _ _ (annotated_replace _ _ _ htm _ hattr rfl)) (fun r _ h => by cases h)
  · rename_i hin
    exact noFuel_bind (hdel (by simpa using hin)) (fun r _ h => by cases h)

theorem assemble_single_terminates (sem : Sem S K D) (mods : List (Assembler S K)) (hmods : ∀ m ∈ mods, Total m)
    (order : List (Term S) → List (Term S)) (ho : ∀ l, (order l).Perm l) :
    ∀ (fuel : Nat) (env : Env S K) (I : Integral S), annotated I.integrand < fuel →
      NoFuel (assemble sem order mods fuel env [I])
  | 0, env, I, h => by omega
  | fuel + 1, env, I, h => by
      rw [assemble]
      refine noFuel_bind (noFuel_arguments _) (fun args _ => ?_)
      have key : ∀ ms : List (Assembler S K), (∀ m ∈ ms, m ∈ mods) →
          NoFuel (tryAll sem order (assemble sem order mods fuel) env args [I] ms) := by
        intro ms
        induction ms with
        | nil => intro _; exact noFuel_dfAssemble _ _ _ _
        | cons m ms ihm =>
            intro hsub
            rw [tryAll]
            split
            · rename_i hsel
              rw [assembleWith]
              refine noFuel_bind (noFuel_pyMap _ (fun J hJ => ?_)) (fun cs _ => noFuel_reduceAdd _)
              simp only [List.mem_singleton] at hJ
              subst hJ
              refine component_noFuel sem order ho _ m (hmods m (hsub m (by simp))) env _ _ J (fun env L hL => ?_) (fun hin => ?_)
              · exact assemble_single_terminates sem mods hmods order ho fuel env L (by omega)
              · exfalso
                simp only [List.any_cons, List.any_nil, Bool.or_false] at hsel
                simp [inReduced, hsel, sameExpr_refl] at hin
            · exact ihm (fun x hx => hsub x (by simp [hx]))
      exact key mods (fun m hm => hm)

/-- Assembly terminates: the depth of the recursion is bounded by the number of annotated terminals in an integral, so with
that much fuel the model never runs out of it. -/
theorem assemble_terminates (sem : Sem S K D) (mods : List (Assembler S K)) (hmods : ∀ m ∈ mods, Total m)
    (order : List (Term S) → List (Term S)) (ho : ∀ l, (order l).Perm l) (fuel : Nat) (env : Env S K)
    (F : List (Integral S)) (h : ∀ I ∈ F, annotated I.integrand < fuel) :
    assemble sem order mods (fuel + 1) env F ≠ .error .outOfFuel := by
  change NoFuel _
  rw [assemble]
  refine noFuel_bind (noFuel_arguments _) (fun args _ => ?_)
  have key : ∀ ms : List (Assembler S K), (∀ m ∈ ms, m ∈ mods) →
      NoFuel (tryAll sem order (assemble sem order mods fuel) env args F ms) := by
    intro ms
    induction ms with
    | nil => intro _; exact noFuel_dfAssemble _ _ _ _
    | cons m ms ihm =>
        intro hsub
        rw [tryAll]
        split
        · rw [assembleWith]
          refine noFuel_bind (noFuel_pyMap _ (fun J hJ => ?_)) (fun cs _ => noFuel_reduceAdd _)
          refine component_noFuel sem order ho _ m (hmods m (hsub m (by simp))) env _ _ J (fun env L hL => ?_) (fun _ => ?_)
          · have := h J hJ
            exact assemble_single_terminates sem mods hmods order ho fuel env L (by omega)
          · exact assemble_single_terminates sem mods hmods order ho fuel env J (h J hJ)
        · exact ihm (fun x hx => hsub x (by simp [hx]))
  exact key mods (fun m hm => hm)

/-- An annotation which no assembler recognises (a trace in an integral over the bulk mesh, say) is silently ignored: the
form is assembled as if it were not there. -/
theorem assemble_ignores_unrecognised (sem : Sem S K D) (mods : List (Assembler S K))
    (order : List (Term S) → List (Term S)) (fuel : Nat) (env : Env S K) (F : List (Integral S))
    (h : ∀ m ∈ mods, ∀ I ∈ F, m.selects I.rest I.integrand = false) :
    assemble sem order mods (fuel + 1) env F = (arguments F >>= dfAssemble sem env F) := by
  rw [assemble]
  congr 1
  funext args
  have : ∀ ms : List (Assembler S K), (∀ m ∈ ms, ∀ I ∈ F, m.selects I.rest I.integrand = false) →
      tryAll sem order (assemble sem order mods fuel) env args F ms = dfAssemble sem env F args := by
    intro ms
    induction ms with
    | nil => intro _; rfl
    | cons m ms ih =>
        intro hh
        rw [tryAll, if_neg, ih (fun x hx => hh x (by simp [hx]))]
        rw [List.any_eq_true]
        rintro ⟨I, hI, hs⟩
        rw [hh m (by simp) I hI] at hs
        cases hs
  exact this mods h

/-! ### A concrete case: a trace of the test function against a plain trial function -/

/-- Functions are numbers, spaces have dimension one; the operator is multiplication. -/
def exSem : Sem Nat ℚ ℚ where
  dim _ := 1
  basis _ _ := 1
  op _ l := l.prod
  const _ := 1
  integral _ d := 5 * d

/-- The trace is multiplication with 3. -/
def exAsm : Assembler Nat ℚ where
  attr := "trace_"
  selects _ e := (terms e).any (fun t => (t.attr "trace_").isSome)
  needs _ t := (t.attr "trace_").isSome
  compatible _ t := .ok (t.attr "trace_").isSome
  domain _ V := V
  space _ V _ := .ok (V + 100)
  matrix _ _ _ _ := .ok (Mat.of 1 1 (fun _ _ => 3))

def exRed : Reduction Nat ℚ := fun _ V _ => (V + 100, Mat.of 1 1 (fun _ _ => 3))

def exForm : List (Integral Nat) :=
  [⟨.node 0 [.term ⟨.argument 0 7, [("trace_", 1)]⟩, .term ⟨.argument 1 8, []⟩], 0⟩,
   ⟨.node 0 [.term ⟨.argument 0 7, []⟩, .term ⟨.argument 1 8, []⟩], 1⟩]

example : Implements exAsm exRed exSem := by
  constructor
  · intro attrs V rest TV T _ h1 h2
    cases h1; cases h2
    exact ⟨rfl, rfl⟩
  · intro rest t h
    simpa [exAsm] using h

example : SameArguments exForm := by
  intro I hI t ht n V hb J hJ
  simp only [exForm, List.mem_cons, List.not_mem_nil, or_false] at hI hJ
  have h2 : (n = 0 ∧ V = 7) ∨ (n = 1 ∧ V = 8) := by
    rcases hI with rfl | rfl <;>
    · simp only [terms, termsAll, List.append_nil, List.singleton_append, List.mem_cons, List.not_mem_nil, or_false] at ht
      rcases ht with rfl | rfl <;> simp_all
  rcases h2 with ⟨rfl, rfl⟩ | ⟨rfl, rfl⟩ <;> rcases hJ with rfl | rfl <;> simp [terms, termsAll]

example : ∀ I ∈ exForm, WellFormed exSem [exAsm] I := by
  intro I hI
  simp only [exForm, List.mem_cons, List.not_mem_nil, or_false] at hI
  refine ⟨?_, ?_, ?_, ?_⟩
  · rcases hI with rfl | rfl <;>
    · intro s hs t ht hb
      simp only [terms, termsAll, List.append_nil, List.singleton_append, List.mem_cons, List.not_mem_nil, or_false] at hs ht
      rcases hs with rfl | rfl <;> rcases ht with rfl | rfl <;> simp_all
  · intro t ht hne
    refine ⟨exAsm, by simp, fun e he _ => ?_⟩
    have hta : t.attrs = [("trace_", 1)] := by
      rcases hI with rfl | rfl <;>
      · simp only [terms, termsAll, List.append_nil, List.singleton_append, List.mem_cons, List.not_mem_nil, or_false] at ht
        rcases ht with rfl | rfl <;> simp_all
    simp only [exAsm, List.any_eq_true]
    exact ⟨t, he, by simp [Term.attr, hta, List.lookup]⟩
  · intro t ht n V hb val
    rcases hI with rfl | rfl <;>
    · simp only [terms, termsAll, List.append_nil, List.singleton_append, List.mem_cons, List.not_mem_nil, or_false] at ht
      rcases ht with rfl | rfl
      · constructor
        · intro x y; simp [den, denAll, exSem]; ring
        · intro c x; simp [den, denAll, exSem]; ring
      · constructor
        · intro x y; simp [den, denAll, exSem]; ring
        · intro c x; simp [den, denAll, exSem]; ring
  · rcases hI with rfl | rfl <;>
    · intro t ht n V hb
      simp only [terms, termsAll, List.append_nil, List.singleton_append, List.mem_cons, List.not_mem_nil, or_false] at ht
      rcases ht with rfl | rfl
      · simp only [Base.argument.injEq] at hb; omega
      · simp only [Base.argument.injEq] at hb; omega

/-- The form is assembled. -/
example : ∃ t, assemble exSem id [exAsm] 3 (fun _ => none) exForm = .ok t := ⟨_, rfl⟩

/-- A sum of two integrals over the same domain which differ only in an annotation is refused, although both are assembled
separately: UFL takes the integrals for equal, so the plain one counts as reduced
(xii/assembler/reduced_assembler.py:66), and then nothing is found to be reduced in it. -/
theorem equal_integrals_rejected : ∃ I J : Integral Nat,
    (∃ t, assemble exSem id [exAsm] 3 (fun _ => none) [I] = .ok t) ∧
    (∃ t, assemble exSem id [exAsm] 3 (fun _ => none) [J] = .ok t) ∧
    assemble exSem id [exAsm] 3 (fun _ => none) [I, J] = .error .assertion :=
  ⟨⟨.node 0 [.term ⟨.argument 0 7, [("trace_", 1)]⟩, .term ⟨.argument 1 8, []⟩], 0⟩,
   ⟨.node 0 [.term ⟨.argument 0 7, []⟩, .term ⟨.argument 1 8, []⟩], 0⟩, ⟨_, rfl⟩, ⟨_, rfl⟩, rfl⟩

end Verif.Reduced
