import Verif.Props.Dispatch
import Verif.Lemmas.ReducedShape
import Verif.Spec.Assembly
/-! # Assembly of forms returns -/
namespace Verif.Assembly
open Verif Ufl BlockForm BlockOps Reduced Dispatch

variable {S K D : Type} [DecidableEq S] [CommRing K] [AddCommGroup D] [Module K D]

/-! ### Arguments -/

theorem arguments_exist {F : List (Integral S)} (h : ∀ n V Q, HasArg F n V → HasArg F n Q → V = Q) :
    ∃ args, arguments F = .ok args := by
  have hmem : ∀ n V, (n, V) ∈ (F.flatMap (fun I => argPairs (arguments.terms I.integrand))).dedup ↔ HasArg F n V := by
    intro n V
    rw [List.mem_dedup, List.mem_flatMap, HasArg]
    simp only [mem_terms_args]
  rw [arguments, if_pos]
  · exact ⟨_, rfl⟩
  · rw [List.all_eq_true]
    rintro ⟨n, V⟩ hV
    rw [List.all_eq_true]
    rintro ⟨m, Q⟩ hQ
    by_cases hnm : n = m
    · subst hnm
      simp [h n V Q ((hmem n V).1 hV) ((hmem n Q).1 hQ)]
    · simp [hnm]

theorem arguments_sorted {F : List (Integral S)} {args : List (Nat × S)} (h : arguments F = .ok args) :
    args.Pairwise (fun p q => p.1 ≤ q.1) := by
  rw [arguments] at h
  split at h
  · cases h
    haveI : IsTrans (Nat × S) (fun p q => p.1 ≤ q.1) := ⟨fun a b c h1 h2 => le_trans h1 h2⟩
    haveI : Std.Total (fun p q : Nat × S => p.1 ≤ q.1) := ⟨fun a b => le_total a.1 b.1⟩
    exact List.pairwise_insertionSort (fun p q : Nat × S => p.1 ≤ q.1) _
  · cases h

/-- Arguments of a form with test and perhaps trial functions. -/
theorem arguments_form {F : List (Integral S)} {args : List (Nat × S)} (h : arguments F = .ok args)
    (h2 : ∀ n V, HasArg F n V → n ≤ 1) (ht : ∀ V, HasArg F 1 V → ∃ Q, HasArg F 0 Q) :
    args = [] ∨ (∃ V, args = [(0, V)]) ∨ ∃ V Q, args = [(0, V), (1, Q)] := by
  obtain ⟨hmem, huniq, hnd⟩ := arguments_ok h
  have hsort := arguments_sorted h
  match args, h, hmem, hnd, hsort with
  | [], _, _, _, _ => exact .inl rfl
  | [(n, V)], _, hmem, _, _ =>
      have hn := h2 n V ((hmem n V).1 (by simp))
      obtain rfl | rfl : n = 0 ∨ n = 1 := by omega
      · exact .inr (.inl ⟨V, rfl⟩)
      · obtain ⟨Q, hQ⟩ := ht V ((hmem 1 V).1 (by simp))
        have := (hmem 0 Q).2 hQ
        simp at this
  | (n, V) :: (m, Q) :: rest, _, hmem, hnd, hsort =>
      have hn := (hmem n V).1 (by simp)
      have hm := (hmem m Q).1 (by simp)
      have hn1 := h2 n V hn
      have hm1 := h2 m Q hm
      have hle : n ≤ m := (List.pairwise_cons.1 hsort).1 (m, Q) (by simp)
      have hne : n ≠ m := by
        rintro rfl
        have := huniq n V Q hn hm
        subst this
        simp at hnd
      obtain rfl : n = 0 := by omega
      obtain rfl : m = 1 := by omega
      cases rest with
      | nil => exact .inr (.inr ⟨V, Q, rfl⟩)
      | cons p rest =>
          obtain ⟨l, P⟩ := p
          exfalso
          have hl := (hmem l P).1 (by simp)
          have hl1 := h2 l P hl
          have hle : 1 ≤ l := (List.pairwise_cons.1 (List.pairwise_cons.1 hsort).2).1 (l, P) (by simp)
          obtain rfl : l = 1 := by omega
          have := huniq 1 Q P hm hl
          subst this
          simp at hnd

/-! ### The assembler which gets the integral -/

theorem attr_inj {k l : Kind} (h : k.attr = l.attr) : k = l := by
  cases k <;> cases l <;> first | rfl | exact absurd h (by decide)

theorem fits_attr {W : World S} {rest : Nat} {t : Term S} {k : Kind} (h : Fits W rest t k) : has t k = true := by
  obtain ⟨v, hv, _⟩ := h
  simp [has, Term.attr, hv]

/-- A terminal with the annotation, which fits. -/
theorem fits_of_has {W : World S} {rest : Nat} {t : Term S} {k : Kind}
    (h : Settled W rest t ∨ ∃ k, Fits W rest t k) (hk : has t k = true) : Fits W rest t k := by
  rcases h with ⟨h0, _⟩ | ⟨l, v, hv, hl⟩
  · simp [has, Term.attr, h0] at hk
  · have : k = l := by
      by_contra hne
      have hne' : (k.attr == l.attr) = false := beq_eq_false_iff_ne.2 (fun h => hne (attr_inj h))
      simp [has, Term.attr, hv, List.lookup, hne'] at hk
    subst this
    exact ⟨v, hv, hl⟩

theorem fits_selects {W : World S} {rest : Nat} {e : UExpr S} (hc : Consistent e) {t : Term S} (ht : t ∈ terms e) {k : Kind}
    (h : Fits W rest t k) : selects W k rest e = true := by
  have hm := mem_unique hc ht
  have hh := fits_attr h
  obtain ⟨v, hv, hl⟩ := h
  cases k <;> simp only [Leads] at hl <;> simp only [selects, List.any_eq_true, Bool.and_eq_true, decide_eq_true_eq]
  · exact ⟨hl.1, t, hm, by omega, hh⟩
  · exact ⟨t, hm, by omega, hh⟩
  · exact ⟨t, hm, by omega, hh⟩
  · exact ⟨hl, t, hm, hh⟩
  · exact ⟨t, hm, hh⟩
  · exact ⟨t, hm, hh⟩
  · exact ⟨t, hm, hh⟩
  · exact ⟨hl.1, t, hm, by omega⟩
  · exact ⟨hl.1, t, hm, hh⟩
  · exact ⟨t, hm, by simp [onMesh, Term.attr, hv, hl.2.2]⟩

/-- Picking among terminals which are all compatible. -/
theorem pick_compatible {m : Assembler S K} {rest : Nat} {ts : List (Term S)} (hne : ts ≠ [])
    (h : ∀ t ∈ ts, m.compatible rest t = .ok true) : ∃ t ∈ ts, pick m rest ts = .ok t := by
  have hkeys : pyMap (fun t => do
      let b ← m.compatible rest t
      .ok (t, b)) ts = .ok (ts.map (fun s => (s, true))) :=
    pyMap_ok (fun s hs => by rw [h s hs]; rfl)
  have hne' : (ts.map (fun s => (s, true))).filter (fun p => p.2) ≠ [] := by
    obtain ⟨t, ht⟩ := List.exists_mem_of_ne_nil _ hne
    intro h0
    rw [List.filter_eq_nil_iff] at h0
    exact h0 (t, true) (List.mem_map.2 ⟨t, ht, rfl⟩) rfl
  obtain ⟨⟨s, b⟩, hlast⟩ := Option.isSome_iff_exists.1 (List.getLast?_isSome.2 hne')
  obtain ⟨hsb1, -⟩ := List.mem_filter.1 (List.mem_of_getLast? hlast)
  obtain ⟨s', hs', hss⟩ := List.mem_map.1 hsb1
  cases hss
  refine ⟨s, hs', ?_⟩
  rw [pick, hkeys, py_bind_ok]
  dsimp only
  rw [List.getLast?_append_of_ne_nil _ hne', hlast]

/-- Functions which a reduction asks for fit, and there are some. -/
theorem pick_fits (order : List (Term S) → List (Term S)) (ho : ∀ l, (order l).Perm l) (W : World S) (O : Ops S K)
    {k : Kind} (hk : k ≠ .trace) (hk' : k ≠ .transposeTrace) {I : Integral S} (hc : Consistent I.integrand) {t : Term S}
    (ht : t ∈ terms I.integrand) (hf : Fits W I.rest t k)
    (hall : ∀ s ∈ terms I.integrand, needs W k I.rest s = true → Fits W I.rest s k) :
    ∃ s ∈ terms I.integrand, Fits W I.rest s k ∧ pick (assembler W O k) I.rest
      ((order (uniqueTerms I.integrand)).filter ((assembler W O k).needs I.rest)) = .ok s := by
  have hsub : ∀ s ∈ (order (uniqueTerms I.integrand)).filter ((assembler W O k).needs I.rest),
      s ∈ terms I.integrand ∧ Fits W I.rest s k := by
    intro s hs
    obtain ⟨h1, h2⟩ := List.mem_filter.1 hs
    have h3 := mem_uniqueTerms ((ho _).subset h1)
    exact ⟨h3, hall s h3 h2⟩
  have hneeds : needs W k I.rest t = true := by
    have hh := fits_attr hf
    obtain ⟨v, hv, hl⟩ := hf
    cases k <;> simp only [Leads] at hl <;> simp only [needs, decide_eq_true_eq] <;> first
      | exact absurd rfl hk
      | exact hh
      | omega
      | skip
    · obtain ⟨_, _, ⟨m, h1, h2⟩, _⟩ := hl
      simp [elsewhere, h1, h2]
    · obtain ⟨_, ⟨m, h1, h2⟩, _⟩ := hl
      simp [elsewhere, h1, h2]
  have hne : (order (uniqueTerms I.integrand)).filter ((assembler W O k).needs I.rest) ≠ [] :=
    List.ne_nil_of_mem (List.mem_filter.2 ⟨(ho _).mem_iff.2 (mem_unique hc ht), hneeds⟩)
  obtain ⟨s, hs, hp⟩ := pick_compatible (m := assembler W O k) hne (fun s hs => by
    have hf := (hsub s hs).2
    have h1 := fits_attr hf
    obtain ⟨v, hv, hl⟩ := hf
    change compatible W k I.rest s = _
    have h2 : W.annotMesh v = W.imesh I.rest → onMesh W I.rest s k = true := by
      intro h; simp [onMesh, Term.attr, hv, h]
    cases k <;> simp only [Leads] at hl <;> first
      | exact absurd rfl hk
      | simp only [compatible, h1, h2 hl.2, pyAssert_true, py_bind_ok]
      | simp only [compatible, h1, h2 hl.2.2, pyAssert_true, py_bind_ok]
      | simp only [compatible, h1, h2 hl.2.2.2, pyAssert_true, py_bind_ok]
      | simp only [compatible, h1, pyAssert_true, py_bind_ok])
  exact ⟨s, (hsub s hs).1, (hsub s hs).2, hp⟩

/-- The first assembler which selects an integral finds a function to be reduced. -/
theorem first_picks (order : List (Term S) → List (Term S)) (ho : ∀ l, (order l).Perm l) {sem : Sem S K D} {W : World S}
    {O : Ops S K} {env : Env S K} {I : Integral S} (h : Assemblable sem W O env I) {k : Kind}
    (hsel : selects W k I.rest I.integrand = true)
    (hfirst : ∀ l ∈ kinds.takeWhile (· ≠ k), selects W l I.rest I.integrand = false) :
    ∃ s ∈ terms I.integrand, Fits W I.rest s k ∧ pick (assembler W O k) I.rest
      ((order (uniqueTerms I.integrand)).filter ((assembler W O k).needs I.rest)) = .ok s := by
  have hc := h.consistent
  have hno : ∀ l ∈ kinds.takeWhile (· ≠ k), ∀ t ∈ terms I.integrand, ¬ Fits W I.rest t l := by
    intro l hl t ht hf
    have := fits_selects hc ht hf
    rw [hfirst l hl] at this
    cases this
  have hhas : ∀ l, ∀ t ∈ uniqueTerms I.integrand, has t l = true → t ∈ terms I.integrand ∧ Fits W I.rest t l := by
    intro l t ht hh
    have ht' := mem_uniqueTerms ht
    exact ⟨ht', fits_of_has (h.terminals t ht') hh⟩
  cases k with
  | trace =>
      simp only [selects, List.any_eq_true, Bool.and_eq_true, decide_eq_true_eq] at hsel
      obtain ⟨hcell, t, ht, hd, hh⟩ := hsel
      obtain ⟨ht', v, hv, hl⟩ := hhas _ t ht hh
      simp only [Leads] at hl
      obtain ⟨s, hs, hp, hm, _⟩ := trace_is_taken order ho W O I hc ht' (by simp [onMesh, Term.attr, hv, hl.2.2]) hl.2.1
      exact ⟨s, hs, fits_of_has (h.terminals s hs) (onMesh_has hm), hp⟩
  | transposeTrace =>
      simp only [selects, List.any_eq_true] at hsel
      obtain ⟨t, ht, hh⟩ := hsel
      obtain ⟨_, _, _, hl⟩ := hhas _ t ht hh
      exact hl.elim
  | average =>
      simp only [selects, List.any_eq_true, Bool.and_eq_true, decide_eq_true_eq] at hsel
      obtain ⟨t, ht, hd, hh⟩ := hsel
      obtain ⟨ht', hf⟩ := hhas _ t ht hh
      refine pick_fits order ho W O (by decide) (by decide) hc ht' hf (fun s hs hn => ?_)
      simp only [needs, decide_eq_true_eq] at hn
      exact h.averages t ht' _ (.inl rfl) hf s hs (by omega)
  | fluxAverage =>
      simp only [selects, List.any_eq_true, Bool.and_eq_true, decide_eq_true_eq] at hsel
      obtain ⟨t, ht, hd, hh⟩ := hsel
      obtain ⟨ht', hf⟩ := hhas _ t ht hh
      refine pick_fits order ho W O (by decide) (by decide) hc ht' hf (fun s hs hn => ?_)
      simp only [needs, decide_eq_true_eq] at hn
      exact h.averages t ht' _ (.inr rfl) hf s hs (by omega)
  | patchAverage =>
      simp only [selects, List.any_eq_true, Bool.and_eq_true, decide_eq_true_eq] at hsel
      obtain ⟨_, t, ht, hh⟩ := hsel
      obtain ⟨ht', hf⟩ := hhas _ t ht hh
      exact pick_fits order ho W O (by decide) (by decide) hc ht' hf
        (fun s hs hn => fits_of_has (h.terminals s hs) hn)
  | mean =>
      simp only [selects, List.any_eq_true] at hsel
      obtain ⟨t, ht, hh⟩ := hsel
      obtain ⟨ht', hf⟩ := hhas _ t ht hh
      exact pick_fits order ho W O (by decide) (by decide) hc ht' hf
        (fun s hs hn => fits_of_has (h.terminals s hs) hn)
  | pointTrace =>
      simp only [selects, List.any_eq_true] at hsel
      obtain ⟨t, ht, hh⟩ := hsel
      obtain ⟨ht', hf⟩ := hhas _ t ht hh
      exact pick_fits order ho W O (by decide) (by decide) hc ht' hf
        (fun s hs hn => fits_of_has (h.terminals s hs) hn)
  | gradientPointTrace =>
      simp only [selects, List.any_eq_true] at hsel
      obtain ⟨t, ht, hh⟩ := hsel
      obtain ⟨ht', hf⟩ := hhas _ t ht hh
      exact pick_fits order ho W O (by decide) (by decide) hc ht' hf
        (fun s hs hn => fits_of_has (h.terminals s hs) hn)
  | surfaceMean =>
      simp only [selects, List.any_eq_true, Bool.and_eq_true, decide_eq_true_eq] at hsel
      obtain ⟨_, t, ht, hd⟩ := hsel
      have ht' := mem_uniqueTerms ht
      have hf : Fits W I.rest t .surfaceMean := by
        rcases h.terminals t ht' with ⟨_, h0, _⟩ | ⟨l, hl⟩
        · omega
        · cases l with
          | surfaceMean => exact hl
          | restriction => obtain ⟨_, _, _, h0, _⟩ := hl; omega
          | injection => obtain ⟨_, _, h0, _⟩ := hl; omega
          | _ => exact absurd hl (hno _ (by decide) t ht')
      exact pick_fits order ho W O (by decide) (by decide) hc ht' hf
        (fun s hs hn => fits_of_has (h.terminals s hs) hn)
  | restriction =>
      simp only [selects, List.any_eq_true, Bool.and_eq_true] at hsel
      obtain ⟨_, t, ht, hh⟩ := hsel
      obtain ⟨ht', hf⟩ := hhas _ t ht hh
      refine pick_fits order ho W O (by decide) (by decide) hc ht' hf (fun s hs hn => ?_)
      rcases h.terminals s hs with ⟨_, _, h0⟩ | ⟨l, hl⟩
      · exfalso
        simp only [needs, elsewhere] at hn
        cases hm : W.mesh s.base with
        | none => rw [hm] at hn; cases hn
        | some m => rw [hm] at hn; exact absurd (h0 m hm) (by simpa using hn)
      · cases l with
        | restriction => exact hl
        | injection => exact absurd hl (h.restrictions t ht' s hs hf)
        | _ => exact absurd hl (hno _ (by decide) s hs)
  | injection =>
      simp only [selects, List.any_eq_true] at hsel
      obtain ⟨t, ht, hh⟩ := hsel
      obtain ⟨ht', hf⟩ := hhas _ t ht (onMesh_has hh)
      refine pick_fits order ho W O (by decide) (by decide) hc ht' hf (fun s hs hn => ?_)
      rcases h.terminals s hs with ⟨_, _, h0⟩ | ⟨l, hl⟩
      · exfalso
        simp only [needs, elsewhere] at hn
        cases hm : W.mesh s.base with
        | none => rw [hm] at hn; cases hn
        | some m => rw [hm] at hn; exact absurd (h0 m hm) (by simpa using hn)
      · cases l with
        | injection => exact hl
        | _ => exact absurd hl (hno _ (by decide) s hs)

end Verif.Assembly
