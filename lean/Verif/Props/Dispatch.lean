import Verif.Spec.Dispatch
import Verif.Props.Reduced
/-!
# C60: dispatch of integrals to the assemblers

For all forms, spaces, meshes and orders of the sets of terminals.
-/
namespace Verif.Dispatch
open Verif Ufl BlockOps BlockForm Reduced

variable {S K D : Type} [DecidableEq S] [CommRing K] [AddCommGroup D] [Module K D]

theorem mem_kinds (k : Kind) : k ∈ kinds := by cases k <;> simp [kinds]

theorem mem_assemblers {W : World S} {O : Ops S K} {m : Assembler S K} : m ∈ assemblers W O ↔ ∃ k, m = assembler W O k := by
  constructor
  · intro h
    obtain ⟨k, -, rfl⟩ := List.mem_map.1 h
    exact ⟨k, rfl⟩
  · rintro ⟨k, rfl⟩
    exact List.mem_map.2 ⟨k, mem_kinds k, rfl⟩

theorem onMesh_has {W : World S} {rest : Nat} {t : Term S} {k : Kind} (h : onMesh W rest t k = true) : has t k = true := by
  unfold onMesh at h
  unfold has
  split at h
  · rename_i v hv; simp [hv]
  · cases h

theorem compatible_has {W : World S} {k : Kind} {rest : Nat} {t : Term S} (h : compatible W k rest t = .ok true) :
    has t k = true := by
  cases k <;> simp only [compatible] at h
  case trace => exact onMesh_has (Except.ok.inj h)
  case transposeTrace => exact Except.ok.inj h
  all_goals
    obtain ⟨_, h1, -⟩ := py_bind_eq_ok.1 h
    exact pyAssert_eq_ok.1 h1

/-- Terminals of consistent integrands are found. -/
theorem mem_unique {e : UExpr S} (hc : Consistent e) {t : Term S} (ht : t ∈ terms e) : t ∈ uniqueTerms e := by
  obtain ⟨s, hs, hb⟩ := (firstOnly_covers (terms e) [] t ht).resolve_left (by simp)
  rw [← hc s (firstOnly_subset _ _ _ hs) t ht hb, uniqueTerms_eq]
  exact hs

/-- A terminal which goes with the measure makes its assembler select the integral. -/
theorem measure_selects {W : World S} {rest : Nat} {t : Term S} {a : String} (h : MeasureOK W rest t a) :
    ∃ k : Kind, k.attr = a ∧ ∀ e, t ∈ uniqueTerms e → has t k = true → selects W k rest e = true := by
  unfold MeasureOK at h
  split at h
  · refine ⟨.trace, rfl, fun e ht ha => ?_⟩
    simp only [selects, h.1, Bool.true_and, List.any_eq_true]
    exact ⟨t, ht, by simp only [ha, Bool.and_true, decide_eq_true_eq]; omega⟩
  · refine ⟨.average, rfl, fun e ht ha => ?_⟩
    simp only [selects, List.any_eq_true]
    exact ⟨t, ht, by simp only [ha, Bool.and_true, decide_eq_true_eq]; omega⟩
  · refine ⟨.fluxAverage, rfl, fun e ht ha => ?_⟩
    simp only [selects, List.any_eq_true]
    exact ⟨t, ht, by simp only [ha, Bool.and_true, decide_eq_true_eq]; omega⟩
  · refine ⟨.patchAverage, rfl, fun e ht ha => ?_⟩
    simp only [selects, h, decide_true, Bool.true_and, List.any_eq_true]
    exact ⟨t, ht, ha⟩
  · refine ⟨.surfaceMean, rfl, fun e ht ha => ?_⟩
    simp only [selects, h.1, Bool.true_and, List.any_eq_true]
    exact ⟨t, ht, by simp only [decide_eq_true_eq]; omega⟩
  · refine ⟨.restriction, rfl, fun e ht ha => ?_⟩
    simp only [selects, h, Bool.true_and, List.any_eq_true]
    exact ⟨t, ht, ha⟩
  · refine ⟨.injection, rfl, fun e ht ha => ?_⟩
    obtain ⟨v, hv, hm⟩ := h
    simp only [selects, List.any_eq_true]
    refine ⟨t, ht, ?_⟩
    have hv' : t.attr Kind.injection.attr = some v := hv
    simp [onMesh, hv', hm]
  · exact ⟨.transposeTrace, rfl, fun e ht ha => by simp only [selects, List.any_eq_true]; exact ⟨t, ht, ha⟩⟩
  · exact ⟨.mean, rfl, fun e ht ha => by simp only [selects, List.any_eq_true]; exact ⟨t, ht, ha⟩⟩
  · exact ⟨.pointTrace, rfl, fun e ht ha => by simp only [selects, List.any_eq_true]; exact ⟨t, ht, ha⟩⟩
  · exact ⟨.gradientPointTrace, rfl, fun e ht ha => by simp only [selects, List.any_eq_true]; exact ⟨t, ht, ha⟩⟩
  · exact h.elim

/-- No annotation which goes with the measure is ignored. -/
theorem proper_wellFormed {sem : Sem S K D} {W : World S} {O : Ops S K} {I : Integral S} (h : Proper sem W I) :
    WellFormed sem (assemblers W O) I := by
  refine ⟨h.consistent, fun t ht hne => ?_, h.linear, h.twoArguments⟩
  obtain ⟨⟨a, v⟩, rest, hat⟩ : ∃ p rest, t.attrs = p :: rest := by
    cases hat : t.attrs with
    | nil => exact absurd hat hne
    | cons p rest => exact ⟨p, rest, rfl⟩
  obtain ⟨k, rfl, hk⟩ := measure_selects (h.measure t ht (a, v) (by simp [hat]))
  refine ⟨assembler W O k, mem_assemblers.2 ⟨k, rfl⟩, fun e hte hce => hk e (mem_unique hce hte) ?_⟩
  simp [has, Term.attr, hat]

/-- Assembly with the classes of the package, in their order: if a tensor is returned, it is the sum of the integrals with
    the annotated functions reduced; and assembly terminates. -/
theorem assemble_all_partial (sem : Sem S K D) (W : World S) (O : Ops S K) (red : Reduction S K) (hO : OpsOK O red sem)
    (order : List (Term S) → List (Term S)) (ho : ∀ l, (order l).Perm l) (fuel : Nat) (env : Env S K) (F : List (Integral S))
    (hF : ∀ I ∈ F, Proper sem W I) (hs : SameArguments F) (t : Tensor K)
    (h : assemble sem order (assemblers W O) fuel env F = .ok t) (v u : Nat → K) :
    act v u t = total sem F (fun I => meaning sem red env v u I.rest) := by
  refine assemble_represents_partial sem (assemblers W O) red (fun m hm => ?_) order ho fuel env F t
    (fun I hI => proper_wellFormed (hF I hI)) hs h v u
  obtain ⟨k, rfl⟩ := mem_assemblers.1 hm
  exact ⟨fun attrs V rest TV T ha h1 h2 => hO k attrs V rest TV T ha h1 h2, fun rest t hc => compatible_has hc⟩

theorem assemble_all_terminates (sem : Sem S K D) (W : World S) (O : Ops S K)
    (hO : ∀ k a V TV rest, O.space k a V rest ≠ .error .outOfFuel ∧ O.matrix k a V TV rest ≠ .error .outOfFuel)
    (order : List (Term S) → List (Term S)) (ho : ∀ l, (order l).Perm l) (fuel : Nat) (env : Env S K)
    (F : List (Integral S)) (h : ∀ I ∈ F, annotated I.integrand < fuel) :
    assemble sem order (assemblers W O) (fuel + 1) env F ≠ .error .outOfFuel := by
  refine assemble_terminates sem _ (fun m hm => ?_) order ho fuel env F h
  obtain ⟨k, rfl⟩ := mem_assemblers.1 hm
  refine ⟨fun rest t hc => ?_, fun a V rest => (hO k a V V rest).1, fun a V TV rest => (hO k a V TV rest).2,
    fun rest t hc => compatible_has hc⟩
  change compatible W k rest t = _ at hc
  cases k <;> simp only [compatible, pyAssert] at hc
  case trace => cases hc
  case transposeTrace => cases hc
  all_goals
    cases h1 : has t _ with
    | false => rw [h1] at hc; simp at hc
    | true =>
      rw [h1] at hc
      simp only [if_true, py_bind_ok] at hc
      first
      | cases hc
      | (split at hc <;> cases hc)

/-! ## Several reductions in one integral -/

/-- Errors of a loop. -/
theorem pyMap_assertion {α β : Type} {f : α → Py β} : ∀ {xs : List α}, (∀ x ∈ xs, (∃ y, f x = .ok y) ∨ f x = .error .assertion) →
    (∃ x ∈ xs, f x = .error .assertion) → pyMap f xs = .error .assertion
  | [], _, h => by obtain ⟨x, hx, -⟩ := h; cases hx
  | x :: xs, hf, h => by
      rw [pyMap]
      rcases hf x (by simp) with ⟨y, hy⟩ | hx
      · obtain ⟨z, hz, hze⟩ := h
        rcases List.mem_cons.1 hz with rfl | hz
        · rw [hy] at hze; cases hze
        · rw [hy, py_bind_ok, pyMap_assertion (fun x hx => hf x (by simp [hx])) ⟨z, hz, hze⟩]; rfl
      · rw [hx]; rfl

/-- The classes which assert: every terminal which the filter finds has to have the annotation. -/
def strict : Kind → Bool
  | .average | .fluxAverage | .restriction | .injection => true
  | _ => false

theorem pick_strict {W : World S} {O : Ops S K} {k : Kind} (hk : strict k = true) {rest : Nat} {ts : List (Term S)} {t : Term S} (ht : t ∈ ts)
    (hn : has t k = false) : pick (assembler W O k) rest ts = .error .assertion := by
  have hc : ∀ s : Term S, (∃ b, compatible W k rest s = .ok b) ∨ compatible W k rest s = .error .assertion := by
    intro s
    cases k <;> simp [strict] at hk <;> simp only [compatible, pyAssert] <;> split <;> simp
    all_goals (split <;> simp)
  have ht' : compatible W k rest t = .error .assertion := by
    cases k <;> simp [strict] at hk <;> simp [compatible, hn]
  have e : pyMap (fun t => do
      let b ← (assembler W O k).compatible rest t
      .ok (t, b)) ts = .error .assertion := by
    refine pyMap_assertion (fun s _ => ?_) ⟨t, ht, ?_⟩
    · change (∃ y, (compatible W k rest s >>= fun b => .ok (s, b)) = .ok y) ∨ (compatible W k rest s >>= fun b => .ok (s, b)) = _
      rcases hc s with ⟨b, hb⟩ | hb
      · left; rw [hb]; exact ⟨_, rfl⟩
      · right; rw [hb]; rfl
    · change (compatible W k rest t >>= fun b => .ok (t, b)) = _
      rw [ht']; rfl
  rw [pick, e]
  rfl

/-- The first class which selects an integral gets the form. -/
theorem tryAll_first (sem : Sem S K D) (order : List (Term S) → List (Term S))
    (asm : Env S K → List (Integral S) → Py (Tensor K)) (env : Env S K) (args : List (Nat × S)) (F : List (Integral S))
    (W : World S) (O : Ops S K) (k : Kind) (post : List Kind) (hk : F.any (fun I => selects W k I.rest I.integrand) = true) :
    ∀ pre : List Kind, (∀ j ∈ pre, ∀ I ∈ F, selects W j I.rest I.integrand = false) →
    tryAll sem order asm env args F ((pre ++ k :: post).map (assembler W O)) =
      assembleWith sem order asm (assembler W O k) env args.length F
  | [], _ => by
      rw [List.nil_append, List.map_cons, tryAll, if_pos]
      exact hk
  | j :: pre, h => by
      rw [List.cons_append, List.map_cons, tryAll, if_neg, tryAll_first sem order asm env args F W O k post hk pre
        (fun i hi => h i (by simp [hi]))]
      simp only [List.any_eq_true, not_exists, not_and]
      intro I hI
      have := h j (by simp) I hI
      simpa [assembler] using this

/-- One integral, which is selected, and whose candidate is refused. -/
theorem single_raises (sem : Sem S K D) (order : List (Term S) → List (Term S)) (W : World S) (O : Ops S K) (fuel : Nat)
    (env : Env S K) (I : Integral S) (k : Kind) (pre post : List Kind) (hkinds : kinds = pre ++ k :: post)
    (hpre : ∀ j ∈ pre, selects W j I.rest I.integrand = false) (hsel : selects W k I.rest I.integrand = true)
    (hp : pick (assembler W O k) I.rest ((order (uniqueTerms I.integrand)).filter ((assembler W O k).needs I.rest)) =
      .error .assertion) :
    (∃ e, arguments [I] = .error e ∧ assemble sem order (assemblers W O) (fuel + 1) env [I] = .error e) ∨
      assemble sem order (assemblers W O) (fuel + 1) env [I] = .error .assertion := by
  rw [assemble]
  cases ha : arguments [I] with
  | error e => exact Or.inl ⟨e, rfl, rfl⟩
  | ok args =>
    right
    rw [py_bind_ok, assemblers, hkinds, tryAll_first sem order _ env args [I] W O k post (by simpa using hsel) pre
      (fun j hj J hJ => by rw [List.mem_singleton.1 hJ]; exact hpre j hj)]
    have hin : inReduced (assembler W O k) [I] I = true := by
      simp [inReduced, assembler, hsel, sameExpr_refl]
    simp only [assembleWith, pyMap, component, hin, if_true]
    rw [hp]
    rfl

theorem not_selects {W : World S} {k : Kind} {rest : Nat} {e : UExpr S} (hk : k ≠ .surfaceMean) (h : ¬Occurs k e) :
    selects W k rest e = false := by
  have h' : ∀ t ∈ uniqueTerms e, has t k = false := fun t ht => by
    by_contra hc
    exact h ⟨t, mem_uniqueTerms ht, by simpa using hc⟩
  have h'' : ∀ t ∈ uniqueTerms e, onMesh W rest t k = false := fun t ht => by
    by_contra hc
    have := onMesh_has (by simpa using hc : onMesh W rest t k = true)
    rw [h' t ht] at this; cases this
  have hany : (uniqueTerms e).any (fun t => has t k) = false := by
    rw [List.any_eq_false]; intro t ht; simp [h' t ht]
  have hany' : ∀ q : Term S → Bool, (uniqueTerms e).any (fun t => q t && has t k) = false := by
    intro q
    rw [List.any_eq_false]; intro t ht; simp [h' t ht]
  cases k <;> simp only [selects, hany, hany', Bool.and_false]
  · exact absurd rfl hk
  · rw [List.any_eq_false]; intro t ht; simp [h'' t ht]

/-- `Average` and `FluxAverage` in one integral always raise. -/
theorem average_and_flux_raise (sem : Sem S K D) (order : List (Term S) → List (Term S)) (ho : ∀ l, (order l).Perm l) (W : World S)
    (O : Ops S K) (fuel : Nat) (env : Env S K) (I : Integral S) (hc : Consistent I.integrand) {t s : Term S}
    (ht : t ∈ terms I.integrand) (hs : s ∈ terms I.integrand) (h1 : has t .average = true) (h2 : has s .average = false)
    (d1 : W.tdim t.base = W.idim I.rest + 2) (d2 : W.tdim s.base = W.idim I.rest + 2)
    (hno : ¬Occurs .trace I.integrand ∧ ¬Occurs .transposeTrace I.integrand) (tensor : Tensor K) :
    assemble sem order (assemblers W O) (fuel + 1) env [I] ≠ .ok tensor := by
  intro h
  have := single_raises sem order W O fuel env I .average [.trace, .transposeTrace] _ rfl
    (by
      intro j hj
      simp only [List.mem_cons, List.not_mem_nil, or_false] at hj
      rcases hj with rfl | rfl
      · exact not_selects (by simp) hno.1
      · exact not_selects (by simp) hno.2)
    (by
      simp only [selects, List.any_eq_true]
      exact ⟨t, mem_unique hc ht, by simp [d1, h1]⟩)
    (pick_strict rfl (t := s) (List.mem_filter.2 ⟨(ho _).mem_iff.2 (mem_unique hc hs), by
      simp only [assembler, needs, decide_eq_true_eq]; omega⟩) h2)
  rcases this with ⟨e, -, he⟩ | he <;> rw [he] at h <;> cases h

/-- `Restriction` and `Injection` in one integral always raise, if both functions are from other meshes. -/
theorem restriction_and_injection_raise (sem : Sem S K D) (order : List (Term S) → List (Term S)) (ho : ∀ l, (order l).Perm l)
    (W : World S) (O : Ops S K) (fuel : Nat) (env : Env S K) (I : Integral S) (hc : Consistent I.integrand) {t s : Term S}
    (ht : t ∈ terms I.integrand) (hs : s ∈ terms I.integrand) (hcell : W.cell I.rest = true) (h1 : has t .restriction = true)
    (h2 : has s .restriction = false) (hm : Elsewhere W I.rest s)
    (hno : ∀ k, k ≠ .restriction → k ≠ .injection → ¬Occurs k I.integrand)
    (hdim : ∀ r ∈ terms I.integrand, W.tdim r.base ≠ W.idim I.rest + 1) (tensor : Tensor K) :
    assemble sem order (assemblers W O) (fuel + 1) env [I] ≠ .ok tensor := by
  intro h
  have := single_raises sem order W O fuel env I .restriction
    [.trace, .transposeTrace, .average, .fluxAverage, .patchAverage, .mean, .pointTrace, .gradientPointTrace, .surfaceMean] _ rfl
    (by
      intro j hj
      by_cases hjs : j = .surfaceMean
      · subst hjs
        simp only [selects, Bool.and_eq_false_imp]
        intro _
        rw [List.any_eq_false]
        intro r hr
        have := hdim r (mem_uniqueTerms hr)
        simp only [decide_eq_true_eq]
        omega
      · refine not_selects hjs (hno j ?_ ?_) <;> rintro rfl <;> simp at hj)
    (by
      simp only [selects, hcell, Bool.true_and, List.any_eq_true]
      exact ⟨t, mem_unique hc ht, h1⟩)
    (pick_strict rfl (t := s) (List.mem_filter.2 ⟨(ho _).mem_iff.2 (mem_unique hc hs), by
      obtain ⟨m, hm1, hm2⟩ := hm
      simp [assembler, needs, elsewhere, hm1, hm2]⟩) h2)
  rcases this with ⟨e, -, he⟩ | he <;> rw [he] at h <;> cases h

/-! ## Forgotten and misplaced annotations -/

/-- A function from a mesh of one dimension more, without any annotation, is refused (by the class for surface means, which
    selects such integrals). -/
theorem forgotten_trace_raises (sem : Sem S K D) (order : List (Term S) → List (Term S)) (ho : ∀ l, (order l).Perm l)
    (W : World S) (O : Ops S K) (fuel : Nat) (env : Env S K) (I : Integral S) (hc : Consistent I.integrand) {t : Term S}
    (ht : t ∈ terms I.integrand) (hcell : W.cell I.rest = true) (d : W.tdim t.base = W.idim I.rest + 1)
    (hno : ∀ k, ¬Occurs k I.integrand) (tensor : Tensor K) :
    assemble sem order (assemblers W O) (fuel + 1) env [I] ≠ .ok tensor := by
  intro h
  have hfil : (order (uniqueTerms I.integrand)).filter ((assembler W O .surfaceMean).needs I.rest) = [] := by
    rw [List.filter_eq_nil_iff]
    intro r hr hn
    exact hno .surfaceMean ⟨r, mem_uniqueTerms ((ho _).subset hr), hn⟩
  have := single_raises sem order W O fuel env I .surfaceMean
    [.trace, .transposeTrace, .average, .fluxAverage, .patchAverage, .mean, .pointTrace, .gradientPointTrace] _ rfl
    (by
      intro j hj
      refine not_selects ?_ (hno j)
      rintro rfl
      simp at hj)
    (by
      simp only [selects, hcell, Bool.true_and, List.any_eq_true]
      exact ⟨t, mem_unique hc ht, by simp only [decide_eq_true_eq]; omega⟩)
    (by rw [hfil]; rfl)
  rcases this with ⟨e, -, he⟩ | he <;> rw [he] at h <;> cases h

/-- In integrals which are not over cells traces and restrictions are ignored: the form goes to dolfin as it is. -/
theorem facet_integrals_ignored (sem : Sem S K D) (order : List (Term S) → List (Term S)) (W : World S) (O : Ops S K) (fuel : Nat)
    (env : Env S K) (F : List (Integral S)) (hcell : ∀ I ∈ F, W.cell I.rest = false)
    (hno : ∀ I ∈ F, ∀ k, k ≠ .trace → k ≠ .restriction → ¬Occurs k I.integrand) :
    assemble sem order (assemblers W O) (fuel + 1) env F = (arguments F >>= dfAssemble sem env F) := by
  refine assemble_ignores_unrecognised sem _ order fuel env F (fun m hm I hI => ?_)
  obtain ⟨k, rfl⟩ := mem_assemblers.1 hm
  change selects W k I.rest I.integrand = false
  by_cases h1 : k = .trace
  · subst h1; simp [selects, hcell I hI]
  by_cases h2 : k = .restriction
  · subst h2; simp [selects, hcell I hI]
  by_cases h3 : k = .surfaceMean
  · subst h3; simp [selects, hcell I hI]
  · exact not_selects h3 (hno I hI k h1 h2)

/-! ## Traces next to other reductions -/

/-- Whatever else needs a reduction in the integral: if there is a trace to the mesh of the integral, one of those is taken.
    Functions on the mesh itself are left alone. -/
theorem trace_is_taken (order : List (Term S) → List (Term S)) (ho : ∀ l, (order l).Perm l) (W : World S) (O : Ops S K)
    (I : Integral S) (hc : Consistent I.integrand) {t : Term S} (ht : t ∈ terms I.integrand)
    (hm : onMesh W I.rest t .trace = true) (d : W.tdim t.base = W.idim I.rest + 1) :
    ∃ s ∈ terms I.integrand, pick (assembler W O .trace) I.rest
        ((order (uniqueTerms I.integrand)).filter ((assembler W O .trace).needs I.rest)) = .ok s ∧
      onMesh W I.rest s .trace = true ∧ W.idim I.rest < W.tdim s.base := by
  set ts := (order (uniqueTerms I.integrand)).filter ((assembler W O .trace).needs I.rest) with hts
  have hmem : t ∈ ts := List.mem_filter.2 ⟨(ho _).mem_iff.2 (mem_unique hc ht), by
    simp only [assembler, needs, decide_eq_true_eq]; omega⟩
  have hsub : ∀ s ∈ ts, s ∈ terms I.integrand := fun s hs => mem_uniqueTerms ((ho _).subset (List.mem_filter.1 hs).1)
  have hkeys : pyMap (fun t => do
      let b ← (assembler W O .trace).compatible I.rest t
      .ok (t, b)) ts = .ok (ts.map (fun s => (s, onMesh W I.rest s .trace))) :=
    pyMap_ok (fun s _ => rfl)
  have hne : (ts.map (fun s => (s, onMesh W I.rest s .trace))).filter (fun p => p.2) ≠ [] := by
    intro h0
    rw [List.filter_eq_nil_iff] at h0
    exact h0 (t, true) (List.mem_map.2 ⟨t, hmem, by rw [hm]⟩) rfl
  obtain ⟨⟨s, b⟩, hlast⟩ := Option.isSome_iff_exists.1 (List.getLast?_isSome.2 hne)
  have hsb := List.mem_of_getLast? hlast
  obtain ⟨hsb1, hsb2⟩ := List.mem_filter.1 hsb
  obtain ⟨s', hs', hss⟩ := List.mem_map.1 hsb1
  obtain ⟨rfl, hb⟩ := Prod.mk.inj hss
  dsimp only at hsb2
  subst hsb2
  refine ⟨s', hsub s' hs', ?_, hb, by simpa [assembler, needs] using (List.mem_filter.1 hs').2⟩
  rw [pick, hkeys, py_bind_ok]
  dsimp only
  rw [List.getLast?_append_of_ne_nil _ hne, hlast]

/-- Averages, restrictions and injections: if all the functions which they are for are annotated with the mesh of the integral,
    the other functions are not asked for an annotation, and one of those is taken. -/
theorem annotated_is_taken (order : List (Term S) → List (Term S)) (ho : ∀ l, (order l).Perm l) (W : World S) (O : Ops S K)
    (k : Kind) (I : Integral S) (hc : Consistent I.integrand) {t : Term S} (ht : t ∈ terms I.integrand)
    (htk : Concerns W I.rest t k) (hall : ∀ s ∈ terms I.integrand, Concerns W I.rest s k → LeadsTo W I.rest s k.attr) :
    ∃ s ∈ terms I.integrand, pick (assembler W O k) I.rest
        ((order (uniqueTerms I.integrand)).filter ((assembler W O k).needs I.rest)) = .ok s ∧
      Concerns W I.rest s k ∧ LeadsTo W I.rest s k.attr := by
  have hneeds : ∀ s : Term S, needs W k I.rest s = true ↔ Concerns W I.rest s k := by
    intro s
    cases k <;> simp only [Concerns] at htk ⊢ <;> simp only [needs, decide_eq_true_eq]
    · omega
    · omega
    all_goals
      unfold elsewhere Elsewhere
      cases hm : W.mesh s.base <;> simp
  set ts := (order (uniqueTerms I.integrand)).filter ((assembler W O k).needs I.rest) with hts
  have hmem : t ∈ ts := List.mem_filter.2 ⟨(ho _).mem_iff.2 (mem_unique hc ht), (hneeds t).2 htk⟩
  have hsub : ∀ s ∈ ts, s ∈ terms I.integrand ∧ Concerns W I.rest s k := fun s hs =>
    ⟨mem_uniqueTerms ((ho _).subset (List.mem_filter.1 hs).1), (hneeds s).1 (List.mem_filter.1 hs).2⟩
  have hcomp : ∀ s ∈ ts, compatible W k I.rest s = .ok true := by
    intro s hs
    obtain ⟨hs1, hs2⟩ := hsub s hs
    obtain ⟨v, hv, hm⟩ := hall s hs1 hs2
    have hv' : s.attr k.attr = some v := hv
    have h1 : has s k = true := by simp [has, hv']
    have h2 : onMesh W I.rest s k = true := by simp [onMesh, hv', hm]
    cases k <;> simp only [Concerns] at htk <;> simp only [compatible, h1, h2, pyAssert_true, py_bind_ok]
  have hkeys : pyMap (fun t => do
      let b ← (assembler W O k).compatible I.rest t
      .ok (t, b)) ts = .ok (ts.map (fun s => (s, true))) :=
    pyMap_ok (fun s hs => by
      change (compatible W k I.rest s >>= fun b => .ok (s, b)) = _
      rw [hcomp s hs]; rfl)
  have hne : (ts.map (fun s => (s, true))).filter (fun p => p.2) ≠ [] := by
    intro h0
    rw [List.filter_eq_nil_iff] at h0
    exact h0 (t, true) (List.mem_map.2 ⟨t, hmem, rfl⟩) rfl
  obtain ⟨⟨s, b⟩, hlast⟩ := Option.isSome_iff_exists.1 (List.getLast?_isSome.2 hne)
  obtain ⟨hsb1, -⟩ := List.mem_filter.1 (List.mem_of_getLast? hlast)
  obtain ⟨s', hs', hss⟩ := List.mem_map.1 hsb1
  cases hss
  refine ⟨s, (hsub s hs').1, ?_, (hsub s hs').2, hall s (hsub s hs').1 (hsub s hs').2⟩
  rw [pick, hkeys, py_bind_ok]
  dsimp only
  rw [List.getLast?_append_of_ne_nil _ hne, hlast]

/-! ## Examples -/

/-- Space 7 is on a solid (dimension `d`, mesh 0), space 8 on the mesh 5 of curves; integrals are over this mesh, the integral
    1 is over its facets. -/
def exWorld (d : Int) : World Nat where
  tdim b := match b with
    | .argument _ 7 => d
    | .argument _ _ => 1
    | .other _ => -1
  mesh b := match b with
    | .argument _ 7 => some 0
    | .argument _ _ => some 5
    | .other _ => none
  cell rest := rest = 0
  idim _ := 1
  imesh _ := 5
  annotMesh _ := 5

/-- All reductions are multiplication with 3. -/
def exOps : Ops Nat ℚ where
  domain _ _ V := V
  space _ _ V _ := .ok (V + 100)
  matrix _ _ _ _ _ := .ok (Mat.of 1 1 (fun _ _ => 3))

/-- `Trace(v)*u*dx`. -/
def exTrace : Integral Nat := ⟨.node 0 [.term ⟨.argument 0 7, [("trace_", 1)]⟩, .term ⟨.argument 1 8, []⟩], 0⟩

example : OpsOK exOps exRed exSem := by
  intro k attrs V rest TV T _ h1 h2
  cases h1; cases h2
  exact ⟨rfl, rfl⟩

example : Proper exSem (exWorld 2) exTrace := by
  refine ⟨?_, ?_, ?_, ?_⟩
  · intro s hs t ht hb
    simp only [exTrace, terms, termsAll, List.append_nil, List.singleton_append, List.mem_cons, List.not_mem_nil, or_false] at hs ht
    rcases hs with rfl | rfl <;> rcases ht with rfl | rfl <;> simp_all
  · intro t ht p hp
    simp only [exTrace, terms, termsAll, List.append_nil, List.singleton_append, List.mem_cons, List.not_mem_nil, or_false] at ht
    rcases ht with rfl | rfl
    · simp only [List.mem_cons, List.not_mem_nil, or_false] at hp
      subst hp
      exact ⟨rfl, rfl⟩
    · simp at hp
  · intro t ht n V hb val
    simp only [exTrace, terms, termsAll, List.append_nil, List.singleton_append, List.mem_cons, List.not_mem_nil, or_false] at ht
    rcases ht with rfl | rfl <;>
    · constructor <;> intros <;> simp [exTrace, den, denAll, exSem] <;> ring
  · intro t ht n V hb
    simp only [exTrace, terms, termsAll, List.append_nil, List.singleton_append, List.mem_cons, List.not_mem_nil, or_false] at ht
    rcases ht with rfl | rfl <;> cases hb <;> omega

/-- The trace is applied: `5 * 3` is the only entry. -/
example : ∃ A, assemble exSem id (assemblers (exWorld 2) exOps) 3 (fun _ => none) [exTrace] = .ok (.mat A) ∧ A.e 0 0 = 15 :=
  ⟨_, rfl, by decide +kernel⟩

/-- `Average(v)*FluxAverage(u)*dx`. -/
example : assemble exSem id (assemblers (exWorld 3) exOps) 3 (fun _ => none)
    [⟨.node 0 [.term ⟨.argument 0 7, [("average_", 1)]⟩, .term ⟨.argument 1 7, [("flux_average_", 1)]⟩], 0⟩] =
    .error .assertion := rfl

/-- `Restriction(v)*Injection(u)*dx`. -/
example : assemble exSem id (assemblers (exWorld 1) exOps) 3 (fun _ => none)
    [⟨.node 0 [.term ⟨.argument 0 7, [("restriction_", 1)]⟩, .term ⟨.argument 1 7, [("injection_", 1)]⟩], 0⟩] =
    .error .assertion := rfl

/-- `Restriction(v)*u*dx` with `u` on the mesh of the integral: only `v` is for the restriction. -/
example : Concerns (exWorld 1) 0 (⟨.argument 0 7, [("restriction_", 1)]⟩ : Term Nat) .restriction ∧
    LeadsTo (exWorld 1) 0 (⟨.argument 0 7, [("restriction_", 1)]⟩ : Term Nat) Kind.restriction.attr ∧
    ¬Concerns (exWorld 1) 0 (⟨.argument 1 8, []⟩ : Term Nat) .restriction :=
  ⟨⟨0, rfl, by decide⟩, ⟨1, rfl, rfl⟩, by rintro ⟨m, hm, h⟩; cases hm; exact h rfl⟩

/-- `v*u*dx` with the trace forgotten. -/
example : assemble exSem id (assemblers (exWorld 2) exOps) 3 (fun _ => none)
    [⟨.node 0 [.term ⟨.argument 0 7, []⟩, .term ⟨.argument 1 8, []⟩], 0⟩] = .error .assertion := rfl

/-- `Trace(v)*u*ds`: the trace is not applied. -/
example : ∃ A, assemble exSem id (assemblers (exWorld 2) exOps) 3 (fun _ => none)
    [⟨.node 0 [.term ⟨.argument 0 7, [("trace_", 1)]⟩, .term ⟨.argument 1 8, []⟩], 1⟩] = .ok (.mat A) ∧ A.e 0 0 = 5 :=
  ⟨_, rfl, by decide +kernel⟩

/-- A trace next to a mean over the same solid: both are applied, `5 * 3 * 3`. -/
example : ∃ A, assemble exSem id (assemblers (exWorld 2) exOps) 3 (fun _ => none)
    [⟨.node 0 [.term ⟨.argument 0 7, [("mean_", 1)]⟩, .term ⟨.argument 1 7, [("trace_", 1)]⟩], 0⟩] = .ok (.mat A) ∧
    A.e 0 0 = 45 := ⟨_, rfl, by decide +kernel⟩

end Verif.Dispatch
