import Verif.Props.ApplyBc
/-!
# C89: what the function returned by `apply_bc` does, for every `diag_val`
-/
namespace Verif.ApplyBc
open Verif BlockOps Collapse
open Finset (mem_range sum_congr)

section updater
variable {K : Type} [CommRing K]

/-- **C89**.  For every `diag_val` and for `DirichletBC`s: the function returned by
`apply_bc(A, b, bcs, diag_val, return_apply_b=True)`, called with `c` when the boundary values have changed
to those of `bcs'`, gives the prescribed value `v` itself at every prescribed dof, where
`apply_bc(A, c, bcs', diag_val)` gives `diag_val * v`; all other components of the two are equal. -/
theorem updater_entries (tiny : Tiny K) (ns : List Nat) (blocks : List (List (Expr K)))
    (hA : Conforming ns ns blocks) (bs cs : List (List K)) (hb : bs.map List.length = ns)
    (hc : cs.map List.length = ns) (bcs bcs' : List (List (List (Nat × K)))) (hn : bcs.length = ns.length)
    (hsame : SameDofs bcs bcs') (hr : InRange ns (bcs.map List.flatten))
    (hcon : Constrains (bcs.map List.flatten)) (diag : K) :
    ∃ (A' : List (List (Mat K))) (b' c' c'' : List (List K)) (u : Updater K) (f : Nat), (∀ g, f ≤ g →
      applyBc tiny g (.block ns ns blocks) (.block bs) (.list (dirichlet bcs)) diag true true =
        .ok (.triple A' b' u) ∧
      applyBc tiny g (.block ns ns blocks) (.block cs) (.list (dirichlet bcs')) diag true false =
        .ok (.block A' c') ∧
      u.apply (dirichlet bcs') cs = .ok c'') ∧
      c'.map List.length = ns ∧ c''.map List.length = ns ∧
      (∀ k d v, prescribed (bcs'.map List.flatten) k d = some v →
        entry c'' k d = some v ∧ entry c' k d = some (diag * v)) ∧
      (∀ k d, prescribed (bcs'.map List.flatten) k d = none → entry c'' k d = entry c' k d) := by
  have hd := sameDofs_data hsame
  have hn' : bcs'.length = ns.length := by
    have := congrArg List.length hsame
    simp at this; omega
  set data := bcs.map List.flatten with hdata
  set data' := bcs'.map List.flatten with hdata'
  have hr' := sameDofs_inRange hd hr
  have hcon' := sameDofs_constrains hd hcon
  have hl' : data'.length = ns.length := by simp [hdata', hn']
  obtain ⟨gs, groups, AA, x, A', b', g1, g2, a1, a2, a3, a4, a5, a6, a7, a8, _, _, f, hf⟩ :=
    applyBc_block tiny hA (.block hb) (.list (by simp [dirichlet, hn]) (dirichlet_data bcs)) hr hcon diag true
  obtain ⟨gs', groups', AA', x', A'', c', g1', g2', e1, e2, e3, e4, e5, e6, e7, e8, _, _, f', hf'⟩ :=
    applyBc_block tiny hA (.block hc) (.list (by simp [dirichlet, hn']) (dirichlet_data bcs')) hr' hcon' diag true
  have hAA : AA = AA' := by
    refine Mat.eq_of_act AA AA' (by omega) (by omega) ?_
    intro y i
    obtain ⟨ys, hy, hyy⟩ := exists_block ns y
    rw [act_congr AA y (fnOf ys.flatten) (fun k hk => (hyy k (by omega)).symm),
      act_congr AA' y (fnOf ys.flatten) (fun k hk => (hyy k (by omega)).symm), a3 ys hy, e3 ys hy]
  subst hAA
  have hR : (globals 0 ns data).map Prod.fst = (globals 0 ns data').map Prod.fst := globals_fst _ _ 0 ns hd
  have hA'' : A' = A'' := by
    have : (eliminate true ((globals 0 ns data).map Prod.fst) diag AA x bs.flatten).1 =
        (eliminate true ((globals 0 ns data').map Prod.fst) diag AA x' cs.flatten).1 := by
      simp [eliminate, hR]
    rw [this, e6] at a6
    exact (Except.ok.inj a6).symm
  subst hA''
  have hv : updatedValues (dirichlet bcs') = (globals 0 ns data').map Prod.snd := by
    rw [updatedValues_dirichlet, globals_snd _ 0 ns hl']
  have hz : ((globals 0 ns data').map Prod.fst).zip ((globals 0 ns data').map Prod.snd) = globals 0 ns data' := by
    rw [List.zip_map']
    simp
  have hlt : ∀ p ∈ globals 0 ns data', p.1 < ns.sum := fun p hp => by
    simpa using (globals_lt data' 0 ns hr' p hp).2
  obtain ⟨w, w1, w2, w3⟩ := setValues_ok (globals 0 ns data') (List.replicate AA.cols (0 : K)) (by
    intro p hp; simpa [a2] using hlt p hp)
  have lc : cs.flatten.length = ns.sum := by rw [List.length_flatten, hc]
  obtain ⟨v, v1, v2, v3⟩ := setValues_ok (globals 0 ns data') ((List.range cs.flatten.length).map
    (fun i => cs.flatten.getD i 0 - AA.act (fun j => w.getD j 0) i)) (by
    intro p hp; simpa [lc] using hlt p hp)
  obtain ⟨c'', q1, q2, q3⟩ := convert_asBlock_vec v ns (by rw [v2]; simp [lc])
  simp only [convertVec] at q3
  have hw : ∀ j, j < ns.sum → w.getD j 0 = (lastVal (globals 0 ns data') j).getD 0 := by
    intro j hj
    rw [List.getD_eq_getElem?_getD, w3 j (by simpa [a2] using hj), List.getElem?_replicate, if_pos (by omega)]
    cases lastVal (globals 0 ns data') j <;> simp
  have hact : ∀ i, AA.act (fun j => w.getD j 0) i = ∑ j ∈ Finset.range AA.cols,
      if j ∈ (globals 0 ns data').map Prod.fst then AA.e i j * x'.getD j 0 else 0 := by
    intro i
    rw [Mat.act]
    refine sum_congr rfl (fun j hj => ?_)
    have hj := mem_range.mp hj
    rw [hw j (by omega)]
    have := e5 j (by omega)
    simp only [fnOf] at this
    by_cases hjR : j ∈ (globals 0 ns data').map Prod.fst
    · rw [if_pos hjR, this]
    · rw [if_neg hjR, lastVal_eq_none.mpr hjR]; simp
  have one : ∀ i, i < ns.sum → c'.flatten[i]? = some (if i ∈ (globals 0 ns data').map Prod.fst then
      diag * (lastVal (globals 0 ns data') i).getD 0 else
      cs.flatten.getD i 0 - AA.act (fun j => w.getD j 0) i) := by
    intro i hi
    rw [e8]
    simp only [eliminate, if_true, zeroRowsColumnsVec]
    rw [List.getElem?_map, List.getElem?_range (by omega), hact]
    have := e5 i hi
    simp only [fnOf] at this
    rw [← this]
    rfl
  have two : ∀ i, i < ns.sum → c''.flatten[i]? = (lastVal (globals 0 ns data') i).or (some
      (cs.flatten.getD i 0 - AA.act (fun j => w.getD j 0) i)) := by
    intro i hi
    rw [q3, v3 i (by simpa [lc] using hi), List.getElem?_map, List.getElem?_range (by omega)]
    rfl
  have key : ∀ k n d, ns[k]? = some n → d < n →
      lastVal (globals 0 ns data') (offset ns k + d) = prescribed data' k d := by
    intro k n d h1 h2
    have := globals_lastVal data' 0 ns hr' hl' k n d h1 h2
    simpa using this
  refine ⟨A', b', c', c'', ⟨AA, (globals 0 ns data).map Prod.fst, groups, ns⟩, max f f', fun g hg => ⟨?_, ?_, ?_⟩,
    e7, q2, ?_, ?_⟩
  · rw [hf g (by omega)]; rfl
  · rw [hf' g (by omega)]; rfl
  · simp only [Updater.apply, hv, hR, List.length_map, if_true, hz, w1, py_bind_ok, convertVec, v1]
    exact q1
  · intro k d v hp
    have : ∃ n, ns[k]? = some n ∧ d < n := by
      by_contra hno
      push Not at hno
      rw [prescribed_none_of hr' hl' hno] at hp
      cases hp
    obtain ⟨n, h1, h2⟩ := this
    have hi := offset_lt h1 h2
    have hk := key k n d h1 h2
    have t1 := flatten_pos (xs := c') (k := k) (d := d) (by rw [e7]; exact h1) h2
    have t2 := flatten_pos (xs := c'') (k := k) (d := d) (by rw [q2]; exact h1) h2
    rw [e7, one _ hi, hk, hp] at t1
    rw [q2, two _ hi, hk, hp] at t2
    have hm : offset ns k + d ∈ (globals 0 ns data').map Prod.fst := by
      by_contra hno
      rw [lastVal_eq_none.mpr hno, hp] at hk
      cases hk
    rw [if_pos hm] at t1
    exact ⟨t2.symm, t1.symm⟩
  · intro k d hp
    by_cases hin : ∃ n, ns[k]? = some n ∧ d < n
    · obtain ⟨n, h1, h2⟩ := hin
      have hi := offset_lt h1 h2
      have hk := key k n d h1 h2
      have t1 := flatten_pos (xs := c') (k := k) (d := d) (by rw [e7]; exact h1) h2
      have t2 := flatten_pos (xs := c'') (k := k) (d := d) (by rw [q2]; exact h1) h2
      rw [e7, one _ hi] at t1
      rw [q2, two _ hi, hk, hp] at t2
      rw [hp] at hk
      rw [if_neg (lastVal_eq_none.mp hk)] at t1
      rw [← t1, ← t2]
      rfl
    · push Not at hin
      rw [entry_ge q2 hin, entry_ge e7 hin]

/-- **C89**.  The returned function agrees with a fresh `apply_bc` exactly when `diag_val * v = v` for every
prescribed value `v`. -/
theorem updater_agrees_iff (tiny : Tiny K) (ns : List Nat) (blocks : List (List (Expr K)))
    (hA : Conforming ns ns blocks) (bs cs : List (List K)) (hb : bs.map List.length = ns)
    (hc : cs.map List.length = ns) (bcs bcs' : List (List (List (Nat × K)))) (hn : bcs.length = ns.length)
    (hsame : SameDofs bcs bcs') (hr : InRange ns (bcs.map List.flatten))
    (hcon : Constrains (bcs.map List.flatten)) (diag : K) :
    ∃ (A' : List (List (Mat K))) (b' c' c'' : List (List K)) (u : Updater K) (f : Nat), (∀ g, f ≤ g →
      applyBc tiny g (.block ns ns blocks) (.block bs) (.list (dirichlet bcs)) diag true true =
        .ok (.triple A' b' u) ∧
      applyBc tiny g (.block ns ns blocks) (.block cs) (.list (dirichlet bcs')) diag true false =
        .ok (.block A' c') ∧
      u.apply (dirichlet bcs') cs = .ok c'') ∧
      (c'' = c' ↔ ∀ k d v, prescribed (bcs'.map List.flatten) k d = some v → diag * v = v) := by
  obtain ⟨A', b', c', c'', u, f, h1, l1, l2, h2, h3⟩ :=
    updater_entries tiny ns blocks hA bs cs hb hc bcs bcs' hn hsame hr hcon diag
  refine ⟨A', b', c', c'', u, f, h1, ?_, ?_⟩
  · rintro rfl k d v hp
    obtain ⟨a, b⟩ := h2 k d v hp
    rw [a] at b
    exact (Option.some.inj b).symm
  · intro h
    have hlen : c''.length = c'.length := by
      have a := congrArg List.length l1
      have b := congrArg List.length l2
      rw [List.length_map] at a b
      omega
    have he : ∀ k d, entry c'' k d = entry c' k d := by
      intro k d
      cases hp : prescribed (bcs'.map List.flatten) k d with
      | none => exact h3 k d hp
      | some v => rw [(h2 k d v hp).1, (h2 k d v hp).2, h k d v hp]
    refine List.ext_getElem hlen (fun k h4 h5 => ?_)
    refine List.ext_getElem? (fun d => ?_)
    have := he k d
    simpa [entry, List.getElem?_eq_getElem h4, List.getElem?_eq_getElem h5] using this

/-- The hypotheses hold for a one by one system and `diag_val = 2`; the two right-hand sides differ as soon
as the new value is not zero. -/
example : ∃ (A' : List (List (Mat ℚ))) (b' c' c'' : List (List ℚ)) (u : Updater ℚ) (f : Nat), (∀ g, f ≤ g →
      applyBc noTiny g oneByOne (.block [[0]]) (.list (dirichlet [[[(0, 1)]]])) 2 true true =
        .ok (.triple A' b' u) ∧
      applyBc noTiny g oneByOne (.block [[5]]) (.list (dirichlet [[[(0, 3)]]])) 2 true false =
        .ok (.block A' c') ∧
      u.apply (dirichlet [[[(0, 3)]]]) [[5]] = .ok c'') ∧ c'' ≠ c' := by
  obtain ⟨A', b', c', c'', u, f, h1, h2⟩ := updater_agrees_iff noTiny [1] [[.mat (Mat.lit 1 1 [[1]])]]
    ⟨rfl, by
      intro i row r hi hr
      match i with
      | 0 =>
        simp at hi hr; subst hi hr
        refine ⟨rfl, ?_⟩
        intro j e c he hc
        match j with
        | 0 => simp at he hc; subst he hc; exact Or.inl (.mat _)
        | j + 1 => simp at he
      | i + 1 => simp at hi⟩ [[0]] [[5]] rfl rfl [[[(0, 1)]]] [[[(0, 3)]]] rfl rfl (by
      intro k d v n h1 h2
      match k with
      | 0 => simp at h1 h2; omega
      | k + 1 => simp at h2) ⟨[(0, 1)], by simp, by simp⟩ (2 : ℚ)
  refine ⟨A', b', c', c'', u, f, h1, fun h => ?_⟩
  have := h2.1 h 0 0 3 (by decide)
  norm_num at this

end updater

end Verif.ApplyBc
