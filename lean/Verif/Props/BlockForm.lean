import Verif.Lemmas.BlockForm2
/-!
# C27, C28, C29: block forms
-/
namespace Verif.BlockForm
open Verif Ufl BlockOps

variable {S : Type} [DecidableEq S]

/-! ## C27 -/

open Classical in
/-- **C27** After any sequence of `add`s to a fresh bilinear block form, whether or not some of them raised,
block `(i, j)` is the sum of exactly those accepted integrals whose test function is from `W[i]` and whose trial
function is from `W[j]`, in the order in which they were added.  (Of a form which raised, the integrals in front of the
first misplaced one have been accepted.) -/
theorem add_history (W : List S) (forms : List (List (Integral S))) :
    Square W.length (history (addOne2 W) (start2 W) forms) ∧
    ∀ i j, i < W.length → j < W.length →
      get2 (history (addOne2 W) (start2 W) forms) i j = some (sumOf
        ((forms.flatMap (accepted (fun I => ∃ i j, Belongs2 W i j I))).filter (fun I => Belongs2 W i j I))) := by
  have := history_inv (addOne2 W) (fun I => ∃ i j, Belongs2 W i j I) (Inv2 W)
    (fun s acc I h hI => step2_ok W s acc h I hI) (fun s I hI => step2_error W s I hI) forms (start2 W) []
    ⟨⟨by simp [start2], by simp [start2]⟩, fun i j hi hj => by simp [get2_start W i j hi hj, sumOf]⟩
  simpa [Inv2] using this

/-- **C27** Nothing is lost: an accepted integral belongs to exactly one block. -/
theorem belongs_unique (W : List S) (I : Integral S) (i j i' j' : Nat) (h : Belongs2 W i j I) (h' : Belongs2 W i' j' I) :
    i = i' ∧ j = j' := by
  obtain ⟨V, Q, a, b, c, d⟩ := h
  obtain ⟨V', Q', a', b', c', d'⟩ := h'
  cases onlyArg_unique a a'
  cases onlyArg_unique b b'
  exact ⟨firstAt_unique c c', firstAt_unique d d'⟩

theorem belongs_inside (W : List S) (I : Integral S) (i j : Nat) (h : Belongs2 W i j I) :
    i < W.length ∧ j < W.length := by
  obtain ⟨V, Q, a, b, c, d⟩ := h
  exact ⟨firstAt_lt c, firstAt_lt d⟩

/-- **C27** After any history a further `add` succeeds exactly if the form has integrals and each of them belongs to some
block; then all its integrals are accepted. -/
theorem add_accepts (W : List S) (forms : List (List (Integral S))) (form : List (Integral S)) :
    ((add (addOne2 W) (history (addOne2 W) (start2 W) forms) form).2 = none ↔
      form ≠ [] ∧ ∀ I ∈ form, ∃ i j, Belongs2 W i j I) ∧
    ((∀ I ∈ form, ∃ i j, Belongs2 W i j I) → accepted (fun I => ∃ i j, Belongs2 W i j I) form = form) := by
  constructor
  · have hinv := history_inv (addOne2 W) (fun I => ∃ i j, Belongs2 W i j I) (Inv2 W)
      (fun s acc I h hI => step2_ok W s acc h I hI) (fun s I hI => step2_error W s I hI) forms (start2 W) []
      ⟨⟨by simp [start2], by simp [start2]⟩, fun i j hi hj => by simp [get2_start W i j hi hj, sumOf]⟩
    have := (addMany_inv (addOne2 W) (fun I => ∃ i j, Belongs2 W i j I) (Inv2 W)
      (fun s acc I h hI => step2_ok W s acc h I hI) (fun s I hI => step2_error W s I hI) form _ _ hinv).2
    rw [add]
    split
    · rename_i h; simp [h]
    · rename_i h
      rw [← this]
      exact ⟨fun h' => ⟨h, h'⟩, fun h' => h'.2⟩
  · intro h
    have : ∀ l : List (Integral S), (∀ I ∈ l, ∃ i j, Belongs2 W i j I) →
        accepted (fun I => ∃ i j, Belongs2 W i j I) l = l := by
      intro l
      induction l with
      | nil => intro _; rfl
      | cons a l ih =>
          intro hl
          have ha := hl a (by simp)
          have := ih (fun I hI => hl I (by simp [hI]))
          rw [accepted] at this ⊢
          rw [List.takeWhile_cons, if_pos (by simpa using ha), this]
    exact this form h

open Classical in
/-- **C27** The same for linear block forms: every block starts with the zero form on its space. -/
theorem add_history_linear (null : S → List (Integral S)) (hnull : ∀ V, null V ≠ [] ∧ ∀ I ∈ null V, OnlyArg 0 V I)
    (W : List S) (forms : List (List (Integral S))) (i : Nat) (V : S) (hV : W[i]? = some V) :
    (history (addOne1 W) (start1 null W) forms)[i]? = some (.form (null V ++
        (forms.flatMap (accepted (fun I => ∃ i, Belongs1 W i I))).filter (fun I => Belongs1 W i I))) := by
  have := history_inv (addOne1 W) (fun I => ∃ i, Belongs1 W i I) (Inv1 null W)
    (fun s acc I h hI => step1_ok null hnull W s acc h I hI) (fun s I hI => step1_error W s I hI) forms
    (start1 null W) []
    ⟨by simp [start1], fun i V hV => by simp [start1, hV]⟩
  simpa using this.2 i V hV

theorem add_accepts_linear (null : S → List (Integral S)) (hnull : ∀ V, null V ≠ [] ∧ ∀ I ∈ null V, OnlyArg 0 V I)
    (W : List S) (forms : List (List (Integral S))) (form : List (Integral S)) :
    (add (addOne1 W) (history (addOne1 W) (start1 null W) forms) form).2 = none ↔
      form ≠ [] ∧ ∀ I ∈ form, ∃ i, Belongs1 W i I := by
  have hinv := history_inv (addOne1 W) (fun I => ∃ i, Belongs1 W i I) (Inv1 null W)
    (fun s acc I h hI => step1_ok null hnull W s acc h I hI) (fun s I hI => step1_error W s I hI) forms
    (start1 null W) []
    ⟨by simp [start1], fun i V hV => by simp [start1, hV]⟩
  have := (addMany_inv (addOne1 W) (fun I => ∃ i, Belongs1 W i I) (Inv1 null W)
    (fun s acc I h hI => step1_ok null hnull W s acc h I hI) (fun s I hI => step1_error W s I hI) form _ _ hinv).2
  rw [add]
  split
  · rename_i h; simp [h]
  · rename_i h
    rw [← this]
    exact ⟨fun h' => ⟨h, h'⟩, fun h' => h'.2⟩

/-- An `add` which raises is not undone: the integral in front of the misplaced one stays. -/
theorem add_not_atomic : ∃ (W : List Nat) (form : List (Integral Nat)),
    (add (addOne2 W) (start2 W) form).2 ≠ none ∧ get2 (add (addOne2 W) (start2 W) form).1 0 0 ≠ some (.num 0) := by
  refine ⟨[7], [⟨.node 0 [.term ⟨.argument 0 7, []⟩, .term ⟨.argument 1 7, []⟩], 0⟩,
    ⟨.node 0 [.term ⟨.argument 0 8, []⟩, .term ⟨.argument 1 7, []⟩], 0⟩], ?_, ?_⟩
  · decide
  · have : (get2 (add (addOne2 [7]) (start2 [7]) [⟨.node 0 [.term ⟨.argument 0 7, []⟩, .term ⟨.argument 1 7, []⟩], 0⟩,
      ⟨.node 0 [.term ⟨.argument 0 8, []⟩, .term ⟨.argument 1 7, []⟩], 0⟩]).1 0 0).map
        (fun e => match e with | .num _ => false | .form _ => true) = some true := by decide
    intro h
    rw [h] at this
    simp at this

/-- An integral over two spaces belongs to block `(0, 1)`. -/
example : Belongs2 [7, 8] 0 1 ⟨.node 0 [.term ⟨.argument 0 7, [("trace_", 3)]⟩, .term ⟨.argument 1 8, []⟩], 0⟩ := by
  refine ⟨7, 8, ⟨?_, ?_⟩, ⟨?_, ?_⟩, ⟨rfl, by simp⟩, ⟨rfl, ?_⟩⟩
  · simp [terms, termsAll]
  · intro t ht Q hb
    simp only [terms, termsAll, List.append_nil, List.singleton_append, List.mem_cons, List.not_mem_nil, or_false] at ht
    rcases ht with rfl | rfl <;> simp_all
  · simp [terms, termsAll]
  · intro t ht Q hb
    simp only [terms, termsAll, List.append_nil, List.singleton_append, List.mem_cons, List.not_mem_nil, or_false] at ht
    rcases ht with rfl | rfl <;> simp_all
  · intro k hk
    have : k = 0 := by omega
    subst this; simp

/-! ## C28 -/

theorem addEntry_plain (a b : Entry S) (ha : Plain a) (hb : Plain b) :
    ∃ c, addEntry a b = .ok c ∧ Plain c ∧ integrals c = integrals a ++ integrals b := by
  cases a <;> cases b <;> simp_all [addEntry, Plain, integrals]

/-- **C28** Block forms over the same spaces are added entry by entry; the integrals of an entry of the sum are those of
both entries. -/
theorem addForms_entrywise (W : List S) (hW : W ≠ []) (rows rows' : List (List (Entry S))) (h : Square W.length rows)
    (h' : Square W.length rows') (hp : ∀ i j e, get2 rows i j = some e → Plain e)
    (hp' : ∀ i j e, get2 rows' i j = some e → Plain e) :
    ∃ sums, addForms (.bil W rows) (.bil W rows') = .ok (.bil W sums) ∧ Square W.length sums ∧
      ∀ i j a b, get2 rows i j = some a → get2 rows' i j = some b → i < W.length → j < W.length →
        ∃ c, get2 sums i j = some c ∧ Plain c ∧ integrals c = integrals a ++ integrals b := by
  have hent : ∀ i j, i < W.length → j < W.length → ∃ c, (at2 rows i j >>= fun a => at2 rows' i j >>= fun b =>
      addEntry a b) = .ok c := by
    intro i j hi hj
    obtain ⟨a, ha⟩ := square_get2 h hi hj
    obtain ⟨b, hb⟩ := square_get2 h' hi hj
    obtain ⟨c, hc, _⟩ := addEntry_plain a b (hp _ _ _ ha) (hp' _ _ _ hb)
    exact ⟨c, by rw [at2_ok.mpr ha, py_bind_ok, at2_ok.mpr hb, py_bind_ok, hc]⟩
  obtain ⟨sums, hs⟩ := pyMap_total (f := fun i => pyMap (fun j => (at2 rows i j >>= fun a => at2 rows' i j >>= fun b =>
      addEntry a b)) (List.range W.length)) (xs := List.range W.length) (fun i hi =>
        pyMap_total (fun j hj => hent i j (List.mem_range.mp hi) (List.mem_range.mp hj)))
  obtain ⟨hl, hg⟩ := pyMap_getElem hs
  rw [List.length_range] at hl
  have hsq : Square W.length sums := by
    refine ⟨hl, fun r hr => ?_⟩
    obtain ⟨i, hi, rfl⟩ := List.getElem_of_mem hr
    obtain ⟨y, hy, hy'⟩ := hg i i (by rw [List.getElem?_range (by omega)])
    rw [List.getElem?_eq_getElem hi, Option.some.injEq] at hy
    rw [hy]
    simpa using (pyMap_getElem hy').1
  refine ⟨sums, ?_, hsq, ?_⟩
  · rw [addForms, if_pos rfl, hs, py_bind_ok, mkBil, if_neg]
    · have hz : ∀ (a : List (List (Entry S))) (b : List S), a.length ≤ b.length → (a.zip b).map Prod.fst = a :=
        fun a b hab => List.map_fst_zip hab
      rw [hz _ _ (by omega)]
    · intro h0; rw [h0] at hl
      exact hW (List.length_eq_zero_iff.mp hl.symm)
  · intro i j a b ha hb hi hj
    obtain ⟨r, hr, hr'⟩ := hg i i (by simp [hi])
    obtain ⟨c, hc, hc'⟩ := (pyMap_getElem hr').2 j j (by simp [hj])
    obtain ⟨c', e1, e2, e3⟩ := addEntry_plain a b (hp _ _ _ ha) (hp' _ _ _ hb)
    rw [at2_ok.mpr ha, py_bind_ok, at2_ok.mpr hb, py_bind_ok, e1] at hc'
    cases hc'
    exact ⟨c, by simp [get2, hr, hc], e2, e3⟩

theorem addForms_entrywise_linear (W : List S) (hW : W ≠ []) (es es' : List (Entry S)) (h : es.length = W.length)
    (h' : es'.length = W.length) (hp : ∀ e ∈ es, Plain e) (hp' : ∀ e ∈ es', Plain e) :
    ∃ sums, addForms (.lin W es) (.lin W es') = .ok (.lin W sums) ∧ sums.length = W.length ∧
      ∀ (i : Nat) (a b : Entry S), es[i]? = some a → es'[i]? = some b →
        ∃ c, sums[i]? = some c ∧ Plain c ∧ integrals c = integrals a ++ integrals b := by
  obtain ⟨sums, hs⟩ := pyMap_total (f := fun i => (pyGet es i >>= fun a => pyGet es' i >>= fun b => addEntry a b))
      (xs := List.range W.length) (fun i hi => by
        rw [List.mem_range] at hi
        have ha : es[i]? = some (es[i]'(by omega)) := List.getElem?_eq_getElem _
        have hb : es'[i]? = some (es'[i]'(by omega)) := List.getElem?_eq_getElem _
        obtain ⟨c, hc, _⟩ := addEntry_plain _ _ (hp _ (List.mem_of_getElem? ha)) (hp' _ (List.mem_of_getElem? hb))
        exact ⟨c, by rw [pyGet_eq_ok.mpr ha, py_bind_ok, pyGet_eq_ok.mpr hb, py_bind_ok, hc]⟩)
  obtain ⟨hl, hg⟩ := pyMap_getElem hs
  rw [List.length_range] at hl
  refine ⟨sums, ?_, hl, ?_⟩
  · rw [addForms, if_pos rfl, hs, py_bind_ok, mkLin, if_neg]
    intro h0; rw [h0] at hl
    exact hW (List.length_eq_zero_iff.mp hl.symm)
  · intro i a b ha hb
    have hi : i < W.length := by
      have := (List.getElem?_eq_some_iff.mp ha).1; omega
    obtain ⟨c, hc, hc'⟩ := hg i i (by simp [hi])
    obtain ⟨c', e1, e2, e3⟩ := addEntry_plain a b (hp _ (List.mem_of_getElem? ha)) (hp' _ (List.mem_of_getElem? hb))
    rw [pyGet_eq_ok.mpr ha, py_bind_ok, pyGet_eq_ok.mpr hb, py_bind_ok, e1] at hc'
    cases hc'
    exact ⟨c, hc, e2, e3⟩

/-- **C28** Forms over different spaces, or of different arity, are not added. -/
theorem addForms_rejects (f g : BForm S) (h : f.spaces ≠ g.spaces) : addForms f g = .error .assertion := by
  cases f <;> cases g <;> simp_all [addForms, BForm.spaces]

/-- **C28** For a form over two or more spaces `permute` accepts exactly the permutations of `0, ..., n-1`; the result has
spaces `W[p[i]]` and entries `form[p[i]][p[j]]`. -/
theorem permute_permutes_partial (W : List S) (hn : 2 ≤ W.length) (rows : List (List (Entry S))) (h : Square W.length rows)
    (p : List Int) :
    (¬ p.Perm (ints W.length) → ∃ e, permute (.bil W rows) p = .error e) ∧
    (p.Perm (ints W.length) → ∃ W' rows', permute (.bil W rows) p = .ok (.bil W' rows') ∧
      W'.length = W.length ∧ Square W.length rows' ∧
      (∀ (i : Nat) (k : Int), p[i]? = some k → W'[i]? = W[k.toNat]?) ∧
      ∀ (i j : Nat) (k l : Int), p[i]? = some k → p[j]? = some l → get2 rows' i j = get2 rows k.toNat l.toNat) := by
  constructor
  · intro hp
    rcases hc : checkOrdering W.length p with e | u
    · exact ⟨e, by rw [permute, hc]; rfl⟩
    · exact absurd ((checkOrdering_iff _ hn p).mp hc) hp
  · intro hp
    have hc := (checkOrdering_iff _ hn p).mpr hp
    have hlen : p.length = W.length := by rw [hp.length_eq]; simp [ints]
    obtain ⟨W', hW'⟩ := pyMap_total (f := fun i : Int => pyGet W i.toNat) (xs := p) (fun x hx =>
      ⟨W[x.toNat]'(ints_mem hp hx).2, pyGet_eq_ok.mpr (List.getElem?_eq_getElem _)⟩)
    obtain ⟨rows', hr'⟩ := pyMap_total (f := fun i : Int => pyMap (fun j : Int => at2 rows i.toNat j.toNat) p)
      (xs := p) (fun x hx => pyMap_total (fun y hy => by
        obtain ⟨e, he⟩ := square_get2 h (ints_mem hp hx).2 (ints_mem hp hy).2
        exact ⟨e, at2_ok.mpr he⟩))
    obtain ⟨l1, g1⟩ := pyMap_getElem hW'
    obtain ⟨l2, g2⟩ := pyMap_getElem hr'
    have hsq : Square W.length rows' := by
      refine ⟨by omega, fun r hr => ?_⟩
      obtain ⟨i, hi, rfl⟩ := List.getElem_of_mem hr
      obtain ⟨y, hy, hy'⟩ := g2 i (p[i]'(by omega)) (List.getElem?_eq_getElem _)
      rw [List.getElem?_eq_getElem hi, Option.some.injEq] at hy
      rw [hy, (pyMap_getElem hy').1, hlen]
    refine ⟨W', rows', ?_, by omega, hsq, ?_, ?_⟩
    · rw [permute, hc, py_bind_ok, hW', py_bind_ok, hr', py_bind_ok, mkBil, if_neg]
      · rw [List.map_fst_zip (by omega)]
      · intro h0; rw [h0] at l2; simp at l2; omega
    · intro i k hk
      obtain ⟨y, hy, hy'⟩ := g1 i k hk
      rw [hy, pyGet_eq_ok.mp hy']
    · intro i j k l hk hl
      obtain ⟨y, hy, hy'⟩ := g2 i k hk
      obtain ⟨z, hz, hz'⟩ := (pyMap_getElem hy').2 j l hl
      rw [at2_ok.mp hz']
      simp [get2, hy, hz]

/-- **C28** for linear forms. -/
theorem permute_permutes_linear (W : List S) (hn : 2 ≤ W.length) (es : List (Entry S)) (h : es.length = W.length)
    (p : List Int) :
    (¬ p.Perm (ints W.length) → ∃ e, permute (.lin W es) p = .error e) ∧
    (p.Perm (ints W.length) → ∃ W' es', permute (.lin W es) p = .ok (.lin W' es') ∧
      W'.length = W.length ∧ es'.length = W.length ∧
      ∀ (i : Nat) (k : Int), p[i]? = some k → W'[i]? = W[k.toNat]? ∧ es'[i]? = es[k.toNat]?) := by
  constructor
  · intro hp
    rcases hc : checkOrdering W.length p with e | u
    · exact ⟨e, by rw [permute, hc]; rfl⟩
    · exact absurd ((checkOrdering_iff _ hn p).mp hc) hp
  · intro hp
    have hc := (checkOrdering_iff _ hn p).mpr hp
    have hlen : p.length = W.length := by rw [hp.length_eq]; simp [ints]
    obtain ⟨W', hW'⟩ := pyMap_total (f := fun i : Int => pyGet W i.toNat) (xs := p) (fun x hx =>
      ⟨W[x.toNat]'(ints_mem hp hx).2, pyGet_eq_ok.mpr (List.getElem?_eq_getElem _)⟩)
    obtain ⟨es', he'⟩ := pyMap_total (f := fun i : Int => pyGet es i.toNat) (xs := p) (fun x hx =>
      ⟨es[x.toNat]'(by have := (ints_mem hp hx).2; omega), pyGet_eq_ok.mpr (List.getElem?_eq_getElem _)⟩)
    obtain ⟨l1, g1⟩ := pyMap_getElem hW'
    obtain ⟨l2, g2⟩ := pyMap_getElem he'
    refine ⟨W', es', ?_, by omega, by omega, ?_⟩
    · rw [permute, hc, py_bind_ok, hW', py_bind_ok, he', py_bind_ok, mkLin, if_neg]
      intro h0; rw [h0] at l2; simp at l2; omega
    · intro i k hk
      obtain ⟨y, hy, hy'⟩ := g1 i k hk
      obtain ⟨z, hz, hz'⟩ := g2 i k hk
      rw [hy, pyGet_eq_ok.mp hy', hz, pyGet_eq_ok.mp hz']
      exact ⟨rfl, rfl⟩

/-- **C28** Permuting and permuting back gives the form back. -/
theorem permute_back (W : List S) (hn : 2 ≤ W.length) (rows : List (List (Entry S))) (h : Square W.length rows)
    (p q : List Int) (hp : p.Perm (ints W.length)) (hq : q.Perm (ints W.length)) (hinv : Inverse p q) :
    (permute (.bil W rows) p >>= fun f => permute f q) = .ok (.bil W rows) := by
  obtain ⟨W1, r1, e1, l1, s1, a1, b1⟩ := (permute_permutes_partial W hn rows h p).2 hp
  obtain ⟨W2, r2, e2, l2, s2, a2, b2⟩ := (permute_permutes_partial W1 (by omega) r1 (by rw [l1]; exact s1) q).2 (by rw [l1]; exact hq)
  rw [e1, py_bind_ok, e2]
  have hlen : q.length = W.length := by rw [hq.length_eq]; simp [ints]
  have hW : W2 = W := by
    apply List.ext_getElem?
    intro i
    rcases Nat.lt_or_ge i W.length with hi | hi
    · have hqi : q[i]? = some (q[i]'(by omega)) := List.getElem?_eq_getElem _
      rw [a2 i _ hqi, a1 _ _ (hinv i _ hqi)]
      simp
    · rw [List.getElem?_eq_none (by omega), List.getElem?_eq_none (by omega)]
  have hr : r2 = rows := by
    refine square_ext (by rw [← l1]; exact s2) h (fun i j hi hj => ?_)
    have hqi : q[i]? = some (q[i]'(by omega)) := List.getElem?_eq_getElem _
    have hqj : q[j]? = some (q[j]'(by omega)) := List.getElem?_eq_getElem _
    rw [b2 i j _ _ hqi hqj, b1 _ _ _ _ (hinv i _ hqi) (hinv j _ hqj)]
    simp
  rw [hW, hr]

/-- **C28** Permuting to an ordering of the spaces gives a form over these spaces in this order, and the entry at two
spaces is the entry of the given form at the same spaces. -/
theorem permuteSpaces_orders (W Ws : List S) (hn : 2 ≤ W.length) (hnd : W.Nodup) (hWs : Ws.Perm W)
    (rows : List (List (Entry S))) (h : Square W.length rows) :
    ∃ rows', permuteSpaces (.bil W rows) Ws = .ok (.bil Ws rows') ∧ Square W.length rows' ∧
      ∀ (i j k l : Nat) (V Q : S), Ws[i]? = some V → Ws[j]? = some Q → W[k]? = some V → W[l]? = some Q →
        get2 rows' i j = get2 rows k l := by
  have hidx : ∀ (k : Nat) (V : S), W[k]? = some V → W.idxOf V = k := by
    intro k V hk
    obtain ⟨hk', rfl⟩ := List.getElem?_eq_some_iff.mp hk
    exact hnd.idxOf_getElem k hk'
  have hmap : pyMap (fun V => if V ∈ (BForm.bil W rows).spaces then
      (.ok (((BForm.bil W rows).spaces.idxOf V : Nat) : Int) : Py Int) else .error .valueError) Ws =
      .ok (Ws.map (fun V => ((W.idxOf V : Nat) : Int))) := by
    refine pyMap_ok (fun V hV => ?_)
    have : V ∈ W := hWs.subset hV
    simp [BForm.spaces, this]
  have hperm : (Ws.map (fun V => ((W.idxOf V : Nat) : Int))).Perm (ints W.length) := by
    refine (hWs.map _).trans ?_
    have : W.map (fun V => ((W.idxOf V : Nat) : Int)) = ints W.length := by
      apply List.ext_getElem (by simp [ints])
      intro i h1 h2
      simp only [List.length_map] at h1
      simp [ints, hnd.idxOf_getElem i h1]
    rw [this]
  obtain ⟨W', rows', e1, l1, s1, a1, b1⟩ := (permute_permutes_partial W hn rows h _).2 hperm
  have hW' : W' = Ws := by
    apply List.ext_getElem?
    intro i
    rcases Nat.lt_or_ge i Ws.length with hi | hi
    · have hget : Ws[i]? = some Ws[i] := List.getElem?_eq_getElem _
      rw [a1 i _ (by rw [List.getElem?_map, hget]; rfl), hget]
      have hm : Ws[i] ∈ W := hWs.subset (List.getElem_mem hi)
      simp [hm]
    · rw [List.getElem?_eq_none (by rw [l1, ← hWs.length_eq]; omega), List.getElem?_eq_none (by omega)]
  subst hW'
  refine ⟨rows', ?_, s1, ?_⟩
  · rw [permuteSpaces, hmap, py_bind_ok, e1]
  · intro i j k l V Q hi hj hk hl
    rw [b1 i j _ _ (by rw [List.getElem?_map, hi]; rfl) (by rw [List.getElem?_map, hj]; rfl)]
    simp [hidx k V hk, hidx l Q hl]

/-- A form over one space cannot be permuted: even the identity is rejected. -/
theorem permute_single_fails (W : List S) (h1 : W.length = 1) (rows : List (List (Entry S))) :
    permute (.bil W rows) [0] = .error .valueError := by
  have : checkOrdering W.length [0] = .error .valueError := by
    rw [checkOrdering]
    simp [diffs, theOne]
  rw [permute, this]; rfl

example : (permute (.lin [7, 8, 9] [.num 1, .num 2, .num 3]) [2, 0, 1] : Py (BForm Nat)) =
    .ok (.lin [9, 7, 8] [.num 3, .num 1, .num 2]) := by
  have : checkOrdering 3 [2, 0, 1] = .ok () := (checkOrdering_iff 3 (by decide) _).mpr (by decide)
  simp [permute, this, pyMap, mkLin, pyGet]

example : Inverse [2, 0, 1] [1, 2, 0] := by
  intro i k h
  match i with
  | 0 => simp at h; subst h; rfl
  | 1 => simp at h; subst h; rfl
  | 2 => simp at h; subst h; rfl
  | i + 3 => simp at h

/-! ## C29 -/

theorem nullAt_iff (eps : ℚ) (rows : List (List (Entry S))) (i j : Nat) :
    (match at2 rows i j with | .ok e => isNull eps e | .error _ => false) = true ↔
      ∃ c, get2 rows i j = some (.num c) ∧ |c| < eps := by
  rcases h : at2 rows i j with e | e
  · simp only [Bool.false_eq_true, false_iff, not_exists, not_and]
    intro c hc
    rw [at2_ok.mpr hc] at h
    cases h
  · rw [at2_ok.mp h]
    cases e with
    | num c => simp [isNull]
    | form is => simp [isNull]

theorem isUpper_iff (eps : ℚ) (n : Nat) (rows : List (List (Entry S))) :
    isUpper eps n rows = true ↔ NullBelow eps n rows := by
  rw [isUpper, List.all_eq_true]
  constructor
  · intro h i j hj hi
    exact (nullAt_iff eps rows i j).mp (h (i, j) ((mem_lowerPairs n _).mpr ⟨hj, hi⟩))
  · intro h p hp
    have := (mem_lowerPairs n p).mp hp
    exact (nullAt_iff eps rows p.1 p.2).mpr (h p.1 p.2 this.1 this.2)

theorem isLower_iff (eps : ℚ) (n : Nat) (rows : List (List (Entry S))) :
    isLower eps n rows = true ↔ NullAbove eps n rows := by
  rw [isLower, List.all_eq_true]
  constructor
  · intro h i j hj hi
    exact (nullAt_iff eps rows j i).mp (h (i, j) ((mem_lowerPairs n _).mpr ⟨hj, hi⟩))
  · intro h p hp
    have := (mem_lowerPairs n p).mp hp
    exact (nullAt_iff eps rows p.2 p.1).mpr (h p.1 p.2 this.1 this.2)

theorem fill_aux (order : List (Term S) → List (Term S)) (ho : ∀ l, (order l).Perm l) (W : List S) (hnd : W.Nodup)
    (rows : List (List (Entry S))) (h : Square W.length rows) (hw : WellPlaced W rows)
    (ps : List ((Nat × Nat) × (Nat × Nat))) (hnodup : (ps.map Prod.fst).Nodup) (hsep : ∀ p ∈ ps, ∀ q ∈ ps, p.2 ≠ q.1)
    (hps : ∀ p ∈ ps, p.2 = (p.1.2, p.1.1) ∧ p.1.1 ≠ p.1.2 ∧ p.1.1 < W.length ∧ p.1.2 < W.length) :
    ∃ rows', fillLoop order W ps rows = .ok rows' ∧ Square W.length rows' ∧
      (∀ k l e, (k, l) ∈ ps.map Prod.fst → get2 rows l k = some e → get2 rows' k l = some (swapEntry e)) ∧
      (∀ k l, (k, l) ∉ ps.map Prod.fst → get2 rows' k l = get2 rows k l) := by
  let g : Nat × Nat → Entry S := fun p => (get2 rows p.2 p.1).elim (.num 0) swapEntry
  have key : ∀ p ∈ ps, ∃ e V Q, get2 rows p.2.1 p.2.2 = some e ∧ adjointEntry order e = .ok (g p.1) ∧
        W[p.1.1]? = some V ∧ W[p.1.2]? = some Q ∧ settable2 V Q (g p.1) = true := by
    intro p hp
    obtain ⟨h1, h2, h3, h4⟩ := hps p hp
    obtain ⟨e, he⟩ := square_get2 h h4 h3
    have hV : W[p.1.1]? = some W[p.1.1] := List.getElem?_eq_getElem _
    have hQ : W[p.1.2]? = some W[p.1.2] := List.getElem?_eq_getElem _
    have hb := hw _ _ _ _ e (Ne.symm h2) hQ hV he
    have hg : g p.1 = swapEntry e := by simp [g, he]
    refine ⟨e, _, _, by rw [h1]; exact he, ?_, hV, hQ, ?_⟩
    · rw [hg]
      refine adjointEntry_ok order ho _ _ ?_ e hb
      intro heq
      exact h2 ((hnd.getElem_inj_iff).mp heq).symm
    · rw [hg]; exact settable_swap _ _ e hb
  obtain ⟨rows', r1, r2, r3⟩ := fillLoop_ok order W g ps rows h hnodup hsep
    (fun p hp => ⟨(hps p hp).2.2.1, (hps p hp).2.2.2⟩) key
  refine ⟨rows', r1, r2, ?_, ?_⟩
  · intro k l e hkl he
    rw [r3, if_pos hkl]
    simp [g, he]
  · intro k l hkl
    rw [r3, if_neg hkl]

theorem fill_lower (order : List (Term S) → List (Term S)) (ho : ∀ l, (order l).Perm l) (W : List S) (hnd : W.Nodup)
    (rows : List (List (Entry S))) (h : Square W.length rows) (hw : WellPlaced W rows) :
    ∃ rows', fillLoop order W ((lowerPairs W.length).map (fun p => (p, (p.2, p.1)))) rows = .ok rows' ∧
      Square W.length rows' ∧
      (∀ k l e, l < k → k < W.length → get2 rows l k = some e → get2 rows' k l = some (swapEntry e)) ∧
      (∀ k l, k ≤ l → get2 rows' k l = get2 rows k l) := by
  have hfst : ((lowerPairs W.length).map (fun p => (p, (p.2, p.1)))).map Prod.fst = lowerPairs W.length := by
    simp [List.map_map, Function.comp_def]
  have hmem : ∀ p ∈ (lowerPairs W.length).map (fun p => (p, (p.2, p.1))),
      p.2 = (p.1.2, p.1.1) ∧ p.1.2 < p.1.1 ∧ p.1.1 < W.length := by
    intro p hp
    obtain ⟨q, hq, rfl⟩ := List.mem_map.mp hp
    have := (mem_lowerPairs _ q).mp hq
    exact ⟨rfl, this.1, this.2⟩
  obtain ⟨rows', r1, r2, r3, r4⟩ := fill_aux order ho W hnd rows h hw _ (by rw [hfst]; exact nodup_lowerPairs _)
    (fun p hp q hq heq => by
      obtain ⟨a1, a2, a3⟩ := hmem p hp
      obtain ⟨b1, b2, b3⟩ := hmem q hq
      rw [a1] at heq
      have e1 := congrArg Prod.fst heq
      have e2 := congrArg Prod.snd heq
      simp only at e1 e2
      omega)
    (fun p hp => by
      obtain ⟨a1, a2, a3⟩ := hmem p hp
      exact ⟨a1, by omega, a3, by omega⟩)
  rw [hfst] at r3 r4
  refine ⟨rows', r1, r2, fun k l e hl hk he => r3 k l e ((mem_lowerPairs _ _).mpr ⟨hl, hk⟩) he, fun k l hkl => r4 k l ?_⟩
  rw [mem_lowerPairs]; simp only; omega

theorem fill_upper (order : List (Term S) → List (Term S)) (ho : ∀ l, (order l).Perm l) (W : List S) (hnd : W.Nodup)
    (rows : List (List (Entry S))) (h : Square W.length rows) (hw : WellPlaced W rows) :
    ∃ rows', fillLoop order W ((lowerPairs W.length).map (fun p => ((p.2, p.1), p))) rows = .ok rows' ∧
      Square W.length rows' ∧
      (∀ k l e, k < l → l < W.length → get2 rows l k = some e → get2 rows' k l = some (swapEntry e)) ∧
      (∀ k l, l ≤ k → get2 rows' k l = get2 rows k l) := by
  have hfst : ((lowerPairs W.length).map (fun p => ((p.2, p.1), p))).map Prod.fst =
      (lowerPairs W.length).map (fun p => (p.2, p.1)) := by
    simp [List.map_map, Function.comp_def]
  have hin : ∀ k l, (k, l) ∈ (lowerPairs W.length).map (fun p => (p.2, p.1)) ↔ k < l ∧ l < W.length := by
    intro k l
    constructor
    · intro hh
      obtain ⟨p, hp, he⟩ := List.mem_map.mp hh
      have hp := (mem_lowerPairs _ p).mp hp
      simp only [Prod.mk.injEq] at he
      omega
    · intro hh
      exact List.mem_map.mpr ⟨(l, k), (mem_lowerPairs _ _).mpr hh, rfl⟩
  have hmem : ∀ p ∈ (lowerPairs W.length).map (fun p => ((p.2, p.1), p)),
      p.2 = (p.1.2, p.1.1) ∧ p.1.1 < p.1.2 ∧ p.1.2 < W.length := by
    intro p hp
    obtain ⟨q, hq, rfl⟩ := List.mem_map.mp hp
    have := (mem_lowerPairs _ q).mp hq
    exact ⟨rfl, this.1, this.2⟩
  obtain ⟨rows', r1, r2, r3, r4⟩ := fill_aux order ho W hnd rows h hw _
    (by rw [hfst]; exact (nodup_lowerPairs _).map (fun a b hab => by
          simp only [Prod.mk.injEq] at hab; exact Prod.ext hab.2 hab.1))
    (fun p hp q hq heq => by
      obtain ⟨a1, a2, a3⟩ := hmem p hp
      obtain ⟨b1, b2, b3⟩ := hmem q hq
      rw [a1] at heq
      have e1 := congrArg Prod.fst heq
      have e2 := congrArg Prod.snd heq
      simp only at e1 e2
      omega)
    (fun p hp => by
      obtain ⟨a1, a2, a3⟩ := hmem p hp
      exact ⟨a1, by omega, by omega, a3⟩)
  rw [hfst] at r3 r4
  refine ⟨rows', r1, r2, fun k l e hl hk he => r3 k l e ((hin k l).mpr ⟨hl, hk⟩) he, fun k l hkl => r4 k l ?_⟩
  rw [hin]; omega

/-- **C29** A triangular block form over distinct spaces is completed: the given triangle and the diagonal are kept, and
off the diagonal every block is the adjoint of the opposite one.  The diagonal blocks are left as they are, so the
form is self-adjoint exactly when its diagonal blocks are. -/
theorem makeSelfadjoint_partial (order : List (Term S) → List (Term S)) (ho : ∀ l, (order l).Perm l) (eps : ℚ)
    (W : List S) (hnd : W.Nodup) (rows : List (List (Entry S))) (h : Square W.length rows) (hw : WellPlaced W rows)
    (htri : NullBelow eps W.length rows ∨ NullAbove eps W.length rows) :
    ∃ rows', makeSelfadjoint order eps (.bil W rows) = .ok (.bil W rows') ∧ Square W.length rows' ∧
      (∀ i j e, i ≠ j → i < W.length → j < W.length → get2 rows' i j = some e → get2 rows' j i = some (swapEntry e)) ∧
      (∀ i, get2 rows' i i = get2 rows i i) ∧
      ((∀ i j, i ≤ j → get2 rows' i j = get2 rows i j) ∨ (∀ i j, j ≤ i → get2 rows' i j = get2 rows i j)) ∧
      ((¬ NullBelow eps W.length rows → ∀ i j, j ≤ i → get2 rows' i j = get2 rows i j)) ∧
      ((¬ NullAbove eps W.length rows → ∀ i j, i ≤ j → get2 rows' i j = get2 rows i j)) := by
  by_cases hu : NullBelow eps W.length rows
  · obtain ⟨rows', r1, r2, r3, r4⟩ := fill_lower order ho W hnd rows h hw
    refine ⟨rows', ?_, r2, ?_, fun i => r4 i i le_rfl, Or.inl r4, fun hh => absurd hu hh, fun _ => r4⟩
    · rw [makeSelfadjoint]
      simp only [(isUpper_iff eps W.length rows).mpr hu, if_true]
      rw [r1]; rfl
    · intro i j e hij hi hj he
      rcases Nat.lt_or_ge i j with hlt | hge
      · rw [r4 i j (by omega)] at he
        exact r3 j i e hlt hj he
      · obtain ⟨e', he'⟩ := square_get2 h hj hi
        rw [r3 i j e' (by omega) hi he', Option.some.injEq] at he
        rw [r4 j i (by omega), he', ← he, swapEntry_swapEntry]
  · have hl : NullAbove eps W.length rows := htri.resolve_left hu
    obtain ⟨rows', r1, r2, r3, r4⟩ := fill_upper order ho W hnd rows h hw
    refine ⟨rows', ?_, r2, ?_, fun i => r4 i i le_rfl, Or.inr r4, fun _ => r4, fun hh => absurd hl hh⟩
    · have hu' : isUpper eps W.length rows = false := by
        rw [← Bool.not_eq_true]; exact fun hh => hu ((isUpper_iff _ _ _).mp hh)
      rw [makeSelfadjoint]
      simp only [hu', (isLower_iff eps W.length rows).mpr hl, if_true, Bool.false_eq_true, if_false]
      rw [r1]; rfl
    · intro i j e hij hi hj he
      rcases Nat.lt_or_ge j i with hlt | hge
      · rw [r4 i j (by omega)] at he
        exact r3 j i e hlt hi he
      · obtain ⟨e', he'⟩ := square_get2 h hj hi
        rw [r3 i j e' (by omega) hj he', Option.some.injEq] at he
        rw [r4 j i (by omega), he', ← he, swapEntry_swapEntry]

/-- **C29** Other forms are rejected, and so are linear ones. -/
theorem makeSelfadjoint_rejects (order : List (Term S) → List (Term S)) (eps : ℚ) (W : List S)
    (rows : List (List (Entry S))) (h1 : ¬ NullBelow eps W.length rows) (h2 : ¬ NullAbove eps W.length rows) :
    makeSelfadjoint order eps (.bil W rows) = .error .valueError := by
  have hu : isUpper eps W.length rows = false := by
    rw [← Bool.not_eq_true]; exact fun hh => h1 ((isUpper_iff _ _ _).mp hh)
  have hl : isLower eps W.length rows = false := by
    rw [← Bool.not_eq_true]; exact fun hh => h2 ((isLower_iff _ _ _).mp hh)
  simp [makeSelfadjoint, hu, hl]

/-- A form with one block is triangular and returned as it is, also if it is not self-adjoint. -/
theorem makeSelfadjoint_diagonal_wrong (order : List (Term Nat) → List (Term Nat)) (eps : ℚ) :
    ∃ e : Entry Nat, swapEntry e ≠ e ∧ makeSelfadjoint order eps (.bil [7] [[e]]) = .ok (.bil [7] [[e]]) := by
  refine ⟨.form [⟨.node 0 [.term ⟨.argument 0 7, []⟩, .node 1 [.term ⟨.argument 1 7, []⟩]], 0⟩], ?_, ?_⟩
  · simp [swapEntry, swap, subst, substAll, swapTerm]
  · rfl

/-- The hypotheses of `makeSelfadjoint_partial` hold for a form with one off-diagonal block on a trace. -/
example : WellPlaced [7, 8] ([[.num 0, .form [⟨.node 0 [.term ⟨.argument 0 7, [("trace_", 3)]⟩,
    .term ⟨.argument 1 8, []⟩], 0⟩]], [.num 0, .num 0]] : List (List (Entry Nat))) := by
  intro i j V Q e hij hV hQ he
  match i, j with
  | 0, 0 => exact absurd rfl hij
  | 0, 1 =>
      simp only [List.getElem?_cons_zero, List.getElem?_cons_succ, Option.some.injEq] at hV hQ
      subst hV hQ
      simp only [get2, List.getElem?_cons_zero, List.getElem?_cons_succ, Option.bind_some, Option.some.injEq] at he
      subst he
      refine ⟨by simp, fun I hI => ?_⟩
      simp only [List.mem_singleton] at hI
      subst hI
      refine ⟨⟨.argument 0 7, [("trace_", 3)]⟩, ⟨.argument 1 8, []⟩, rfl, rfl, ?_, ?_, ?_, ?_, ?_⟩
      · simp [PlainAttrs, iiAttrs, Term.attr, List.lookup]
      · simp [PlainAttrs, iiAttrs, Term.attr, List.lookup]
      · intro t ht n W hb
        simpa [terms, termsAll] using ht
      · simp [terms, termsAll]
      · simp [terms, termsAll]
  | 1, 0 =>
      simp only [get2, List.getElem?_cons_zero, List.getElem?_cons_succ, Option.bind_some, Option.some.injEq] at he
      subst he; trivial
  | 1, 1 => exact absurd rfl hij
  | 0, j + 2 => simp at hQ
  | 1, j + 2 => simp at hQ
  | i + 2, _ => simp at hV

end Verif.BlockForm
