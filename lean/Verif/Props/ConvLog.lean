import Verif.Lemmas.ConvLog
/-!
# Properties of convergence studies (demo/common.py, demo/test_demos.py)
-/
namespace Verif.ConvLog
open Verif

variable {I K : Type} [DecidableEq K] {h : I → ℝ} {dim : I → Nat}

omit [DecidableEq K] in
/-- C120.  After any sequence of successful calls of `add` the log has one row for each call, in the order of the calls: the values, the
    errors found by the given function, mesh sizes, dimensions, and the rates of successive errors.  Missing for the full property: failed calls
    (see below). -/
theorem log_records_partial {vars : List (K × Option (I → Py ℝ))} (hh : ∀ u, 0 < h u)
    (hg : ∀ k g, (k, some g) ∈ vars → ∀ u e, g u = .ok e → 0 ≤ e) {adds : List (K → Option I)} {L : Log I K}
    (hr : (Log.init vars).runAll h dim adds = .ok L) :
    (∀ k, (k, none) ∈ vars → ∃ us, List.Forall₂ (fun new u => new k = some u) adds us ∧ (k, us) ∈ L.values) ∧
      ∀ k g, (k, some g) ∈ vars → ∃ us a, List.Forall₂ (fun new u => new k = some u) adds us ∧ (k, a) ∈ L.approx ∧
        List.Forall₂ (fun u e => g u = .ok e) us a.errors ∧ a.hs = us.map h ∧ a.dims = us.map dim ∧ Rates a.errors a.hs a.rates := by
  have hi := run_inv hh adds (init_inv hg) hr
  rw [List.nil_append] at hi
  refine ⟨hi.values, fun k g hk => ?_⟩
  obtain ⟨us, a, h1, h2, h3, h4, _⟩ := hi.approx k g hk
  exact ⟨us, a, h1, h2, h3 ▸ h4.errors, h4.hs, h4.dims, h4.rates⟩

omit [DecidableEq K] in
/-- C120.  A study returns if each dictionary has a value for each variable and no error is zero. -/
theorem study_returns {vars : List (K × Option (I → Py ℝ))} (hh : ∀ u, 0 < h u)
    (hg : ∀ k g, (k, some g) ∈ vars → ∀ u e, g u = .ok e → 0 ≤ e) {adds : List (K → Option I)}
    (hv : ∀ new ∈ adds, ∀ k, (k, none) ∈ vars → new k ≠ none)
    (ha : ∀ new ∈ adds, ∀ k g, (k, some g) ∈ vars → ∃ u e, new k = some u ∧ g u = .ok e ∧ e ≠ 0) :
    ∃ L, (Log.init vars).runAll h dim adds = .ok L :=
  runAll_ok hh adds hv ha (init_keys hg)

omit [DecidableEq K] in
/-- C120.  If the errors are `C h^p` and no two meshes have the same size, all rates after the first and the fitted rate are `p`. -/
theorem rate_of_power {vars : List (K × Option (I → Py ℝ))} (hh : ∀ u, 0 < h u)
    (hg : ∀ k g, (k, some g) ∈ vars → ∀ u e, g u = .ok e → 0 ≤ e) {adds : List (K → Option I)} {L : Log I K}
    (hr : (Log.init vars).runAll h dim adds = .ok L) {k : K} {g : I → Py ℝ} (hk : (k, some g) ∈ vars) {C p : ℝ} (hC : 0 < C)
    (hpow : ∀ new ∈ adds, ∀ u, new k = some u → g u = .ok (C * h u ^ p))
    (hd : adds.Pairwise (fun n m => ∀ u v, n k = some u → m k = some v → h u ≠ h v)) (h2 : 2 ≤ adds.length)
    {polyfit : List ℝ → List ℝ → ℝ} (hf : IsFit polyfit) :
    ∃ a, (k, a) ∈ L.approx ∧ (∀ r ∈ a.rates.drop 1, r = some p) ∧ a.getRate polyfit = .ok (some p, some p) := by
  obtain ⟨us, a, h1, hm, he, hhs, hdims, hrt⟩ := (log_records_partial hh hg hr).2 k g hk
  have hpair := pairwise_sizes (h := h) h1 hd
  have herr : a.errors = a.hs.map (fun x => C * x ^ p) := by
    rw [hhs, List.map_map]
    have hall : ∀ u ∈ us, g u = .ok (C * h u ^ p) := by
      intro u hu
      obtain ⟨n, hn, hnu⟩ := forall₂_mem_right h1 hu
      exact hpow n hn u hnu
    clear hpair hhs hrt h1 hdims
    generalize a.errors = es at he
    induction he with
    | nil => rfl
    | @cons u e us es hu hf ih =>
        rw [List.map_cons, ← ih fun v hv => hall v (List.mem_cons_of_mem _ hv)]
        have := hall u (by simp)
        rw [hu] at this
        cases this
        rfl
  have hpos : ∀ x ∈ a.hs, 0 < x := by
    intro x hx
    rw [hhs] at hx
    obtain ⟨u, _, rfl⟩ := List.mem_map.1 hx
    exact hh u
  have hlen : us.length = adds.length := h1.length_eq.symm
  have hrl : a.rates.length = adds.length := by rw [hrt.length.1, ← he.length_eq, hlen]
  have hall := rates_power hC hrt hpos (hhs ▸ hpair) herr
  refine ⟨a, hm, hall, ?_⟩
  obtain ⟨u, v, us', rfl⟩ : ∃ u v us', us = u :: v :: us' := by
    match us, hlen ▸ h2 with
    | u :: v :: us', _ => exact ⟨u, v, us', rfl⟩
  have hfit := fit_power (p := p) hC hf hpos (x := h u) (y := h v) (by simp [hhs]) (by simp [hhs]) (by
    rw [List.map_cons, List.map_cons, List.pairwise_cons] at hpair
    exact hpair.1 _ (by simp))
  have hne : a.rates ≠ [] := by
    intro h0
    rw [h0] at hrl
    simp at hrl
    omega
  have hlast : a.rates.getLast? = some (some p) := by
    rw [List.getLast?_eq_some_getLast hne]
    congr 1
    apply hall
    have hd1 : a.rates.drop 1 ≠ [] := by
      intro h0
      have := congrArg List.length h0
      simp only [List.length_drop, hrl, List.length_nil] at this
      omega
    rw [← List.getLast_drop hd1]
    exact List.getLast_mem hd1
  rw [AHist.getRate, hlast, herr, hfit]

omit [DecidableEq K] in
/-- C120.  Exactly when `add` returns, for a log with any history of calls, failed ones too: there is a value for each variable, the errors can be
    computed, and none is zero after one which is not. -/
theorem add_returns_iff {vars : List (K × Option (I → Py ℝ))} (hh : ∀ u, 0 < h u)
    (hg : ∀ k g, (k, some g) ∈ vars → ∀ u e, g u = .ok e → 0 ≤ e) (adds : List (K → Option I)) {L : Log I K}
    (hL : L = (Log.init vars).run h dim adds) (new : K → Option I) :
    (L.add h dim new).2 = none ↔ (∀ p ∈ L.values, new p.1 ≠ none) ∧
      ∀ p ∈ L.approx, ∃ u e, new p.1 = some u ∧ p.2.getError u = .ok e ∧ (e = 0 → ∀ e0, p.2.errors.getLast? = some e0 → e0 = 0) :=
  add_ok_iff hh (hL ▸ run_keys hh adds (init_keys hg)) new

omit [DecidableEq K] in
/-- C120 is false for failed calls: without a value for an approximation `add` raises after the values have been added, so histories get out of
    step. -/
theorem missing_key_half_added (L : Log I K) (new : K → Option I) (hv : ∀ p ∈ L.values, new p.1 ≠ none) (ha : ∃ p ∈ L.approx, new p.1 = none) :
    (L.add h dim new).2 ≠ none ∧ ∀ k l, (k, l) ∈ L.values → ∃ x, new k = some x ∧ (k, l ++ [x]) ∈ (L.add h dim new).1.values := by
  constructor
  · rw [Ne, add_snd, addApprox_ok]
    rintro ⟨_, hall⟩
    obtain ⟨p, hp, hn⟩ := ha
    obtain ⟨x, hx, _⟩ := hall p hp
    rw [hn] at hx
    cases hx
  · intro k l hkl
    obtain ⟨⟨k', l'⟩, hq, h1, x, h2, h3⟩ := forall₂_mem_left (addValues_map hv) hkl
    simp only at h1 h2 h3
    subst h1 h3
    exact ⟨x, h2, by rw [add_values]; exact hq⟩

/-- C120 is false for exact solutions: a zero error after one which is not zero raises `ValueError` when the error has been recorded and the rate has
    not, and there are fewer rates than errors for ever. -/
theorem zero_error_out_of_step (hh : ∀ u, 0 < h u) {a : AHist I} (ha : ∀ u e, a.getError u = .ok e → 0 ≤ e) {us : List I}
    (herr : List.Forall₂ (fun u e => a.getError u = .ok e) us a.errors) (hhs : a.hs = us.map h) (hr : Rates a.errors a.hs a.rates)
    {e0 : ℝ} (hlast : a.errors.getLast? = some e0) (he0 : e0 ≠ 0) {u : I} (hu : a.getError u = .ok 0) :
    (a.append h dim u).2 = some .valueError ∧ (a.append h dim u).1.errors = a.errors ++ [0] ∧ (a.append h dim u).1.rates = a.rates ∧
      ∀ vs : List I, (vs.foldl (fun b v => (b.append h dim v).1) (a.append h dim u).1).rates.length <
        (vs.foldl (fun b v => (b.append h dim v).1) (a.append h dim u).1).errors.length := by
  have hs : Sound a := by
    refine ⟨by rw [hr.length.2], fun e he => ?_, fun x hx => ?_, ha⟩
    · obtain ⟨v, _, hv⟩ := forall₂_mem_right herr he
      exact ha v e hv
    · rw [hhs] at hx
      obtain ⟨v, _, rfl⟩ := List.mem_map.1 hx
      exact hh v
  have key : (a.append h dim u).2 = some .valueError ∧ (a.append h dim u).1.errors = a.errors ++ [0] ∧ (a.append h dim u).1.rates = a.rates := by
    obtain ⟨h1, h2, h3, h4⟩ := hs
    rcases append_cases (dim := dim) h1 (hh u) (h4 u) h2 h3 with ⟨x, hx, e⟩ | ⟨e, he, ⟨es, e1, c1, c2, c3, c4⟩ | ⟨c1, r, c2, c3⟩⟩
    · rw [hu] at hx; cases hx
    · rw [c4, c3]; exact ⟨rfl, rfl, rfl⟩
    · rw [hu] at he
      cases he
      obtain ⟨es, hes⟩ := List.getLast?_eq_some_iff.1 hlast
      exact absurd (c1 es e0 hes rfl) he0
  refine ⟨key.1, key.2.1, key.2.2, fun vs => ?_⟩
  have h0 : (a.append h dim u).1.rates.length < (a.append h dim u).1.errors.length := by
    rw [key.2.1, key.2.2, hr.length.1]; simp
  generalize (a.append h dim u).1 = b at h0
  induction vs generalizing b with
  | nil => exact h0
  | cons v vs ih => exact ih _ (append_desync v h0)

/-- C120.  Values given as a list: more values than variables are dropped without an exception. -/
theorem extra_values_dropped (L : Log I K) (xs ys : List I) (hx : xs.length = L.names.length) :
    L.addList h dim (xs ++ ys) = L.addList h dim xs := by
  unfold Log.addList
  congr 1
  funext k
  congr 1
  generalize L.names = ks at hx
  induction ks generalizing xs with
  | nil => simp
  | cons k' ks ih =>
      cases xs with
      | nil => simp at hx
      | cons x xs => simp only [List.cons_append, List.zip_cons_cons, ih xs (by simpa using hx)]

/-- C120.  Fewer values than variables are refused, for a log with any history. -/
theorem fewer_values_refused {vars : List (K × Option (I → Py ℝ))} (hn : (vars.map Prod.fst).Nodup) (hh : ∀ u, 0 < h u)
    (hg : ∀ k g, (k, some g) ∈ vars → ∀ u e, g u = .ok e → 0 ≤ e) (adds : List (K → Option I)) (xs : List I) (hx : xs.length < vars.length) :
    (((Log.init vars).run h dim adds).addList h dim xs).2 ≠ none := by
  have hk := run_keys (dim := dim) hh adds (init_keys hg)
  set L := (Log.init vars).run h dim adds
  intro ho
  unfold Log.addList at ho
  have hdrop : (vars.map Prod.fst).drop xs.length ≠ [] := by
    intro h0
    have := congrArg List.length h0
    simp only [List.length_drop, List.length_map, List.length_nil] at this
    omega
  obtain ⟨k, hkm⟩ := List.exists_mem_of_ne_nil _ hdrop
  have hnone := lookup_zip_none hn xs hkm
  rw [← hk.names] at hnone
  obtain ⟨⟨k', v⟩, hv, rfl⟩ := List.mem_map.1 (List.mem_of_mem_drop hkm)
  obtain ⟨h1, h2⟩ := (add_ok_iff hh hk _).1 ho
  cases v with
  | none =>
      obtain ⟨l, hl⟩ := hk.hasValues _ hv
      exact h1 _ hl hnone
  | some g =>
      obtain ⟨a, hm, _⟩ := hk.hasApprox _ g hv
      obtain ⟨u, e, hu, _⟩ := h2 _ hm
      simp only at hu hnone
      rw [hnone] at hu
      cases hu

/-- C121.  For errors which are sums over cells the norm is the sum over the cells of each subdomain, if no tag is zero: cells which are in no
    subdomain do not count. -/
theorem broken_norm_exact {C : Type} {cells : List C} {inside : Nat → C → Bool} {err : Nat → C → ℝ} (herr : ∀ t c, 0 ≤ err t c) {tags : List Nat}
    (ht : ∀ t ∈ tags, t ≠ 0) :
    brokenNorm cells (fun t => some (inside t)) (fun t cs => .ok (√((cs.map (err t)).sum))) tags =
      .ok (√((tags.map (fun t => ((cells.filter (inside t)).map (err t)).sum)).sum)) := by
  obtain ⟨es, h1, h2⟩ := brokenErrors_sum (cells := cells) (inside := inside) herr tags
  rw [brokenNorm, h1, py_bind_ok, h2]
  congr 3
  apply List.map_congr_left
  intro t htm
  rw [marked_nonzero _ _ (ht t htm)]

/-- C121.  If each cell is in exactly one subdomain and the functions of the subdomains are parts of one function, the norm is that of the whole
    mesh. -/
theorem broken_norm_partition_partial {C : Type} {cells : List C} {inside : Nat → C → Bool} {err : C → ℝ} (herr : ∀ c, 0 ≤ err c) {tags : List Nat}
    (ht : ∀ t ∈ tags, t ≠ 0) (hp : ∀ c ∈ cells, (tags.filter (fun t => inside t c)).length = 1) :
    brokenNorm cells (fun t => some (inside t)) (fun _ cs => .ok (√((cs.map err).sum))) tags = .ok (√((cells.map err).sum)) := by
  have := broken_norm_exact (cells := cells) (inside := inside) (err := fun _ => err) (fun _ => herr) ht
  rw [this, sum_partition hp]

/-- C121 is false for the tag zero: the error of its function is taken over all cells. -/
theorem broken_norm_zero_tag {C : Type} (cells : List C) (inside : Nat → C → Bool) {err : Nat → C → ℝ} (herr : ∀ t c, 0 ≤ err t c) (tags : List Nat)
    (ht : ∀ t ∈ tags, t ≠ 0) :
    brokenNorm cells (fun t => some (inside t)) (fun t cs => .ok (√((cs.map (err t)).sum))) (0 :: tags) =
      .ok (√((cells.map (err 0)).sum + (tags.map (fun t => ((cells.filter (inside t)).map (err t)).sum)).sum)) := by
  obtain ⟨es, h1, h2⟩ := brokenErrors_sum (cells := cells) (inside := inside) herr (0 :: tags)
  rw [brokenNorm, h1, py_bind_ok, h2, List.map_cons, List.sum_cons, marked_zero]
  congr 4
  apply List.map_congr_left
  intro t htm
  rw [marked_nonzero _ _ (ht t htm)]

/-- C122.  If the tracebacks of exceptions have the word `Error`, a demo is reported as passed just if it ran to its end, found the rates
    right and did not print the word. -/
theorem reported_partial (printed : List Char) (e : Ending) (ht : ∀ tb, e = .raised tb → "Error".toList <:+: tb) :
    runDemo printed e = true ↔ e = .finished true ∧ ¬ "Error".toList <:+: printed := by
  cases e with
  | finished p =>
      unfold runDemo output Ending.code
      by_cases hp : "Error".toList <:+: printed <;> cases p <;> simp_all
  | raised tb =>
      unfold runDemo output
      rw [if_pos ((ht tb rfl).trans (List.suffix_append _ _).isInfix)]
      simp

/-- C122 is false for other exceptions: a demo which crashes is reported as passed if the name of the exception, its message and the lines of the
    traceback do not have the word `Error`. -/
theorem crash_reported_passed (printed tb : List Char) (hn : ¬ "Error".toList <:+: printed ++ tb) : runDemo printed (.raised tb) = true := by
  unfold runDemo output Ending.code
  rw [if_neg hn]
  rfl

/-! ### The hypotheses can be met -/

namespace Ex
/-- Meshes of sizes `2^(-n)`. -/
noncomputable def size (n : Nat) : ℝ := (1 / 2) ^ n
/-- An error of second order. -/
noncomputable def err (n : Nat) : Py ℝ := .ok (3 * size n ^ (2 : ℝ))
noncomputable def vars : List (Bool × Option (Nat → Py ℝ)) := [(true, some err), (false, none)]
def adds : List (Bool → Option Nat) := [fun _ => some 0, fun _ => some 1]

theorem size_pos (n : Nat) : 0 < size n := by unfold size; positivity

theorem err_nonneg : ∀ k g, (k, some g) ∈ vars → ∀ u e, g u = .ok e → 0 ≤ e := by
  intro k g hk u e he
  simp only [vars, List.mem_cons, Prod.mk.injEq, Option.some.injEq, List.not_mem_nil, or_false, reduceCtorEq, and_false] at hk
  rw [hk.2] at he
  cases he
  have := size_pos u
  positivity

theorem returns : ∃ L, (Log.init vars).runAll size id adds = .ok L := by
  refine study_returns size_pos err_nonneg ?_ ?_
  · intro new hn k _
    simp only [adds, List.mem_cons, List.not_mem_nil, or_false] at hn
    rcases hn with rfl | rfl <;> simp
  · intro new hn k g hk
    simp only [vars, List.mem_cons, Prod.mk.injEq, Option.some.injEq, List.not_mem_nil, or_false, reduceCtorEq, and_false] at hk
    simp only [adds, List.mem_cons, List.not_mem_nil, or_false] at hn
    have : ∀ n, 3 * size n ^ (2 : ℝ) ≠ 0 := fun n => by have := size_pos n; positivity
    rcases hn with rfl | rfl
    · exact ⟨0, _, rfl, by rw [hk.2]; rfl, this 0⟩
    · exact ⟨1, _, rfl, by rw [hk.2]; rfl, this 1⟩

/-- Two meshes and an error of second order: the rate and the fitted rate are two. -/
example {polyfit : List ℝ → List ℝ → ℝ} (hf : IsFit polyfit) :
    ∃ L a, (Log.init vars).runAll size id adds = .ok L ∧ (true, a) ∈ L.approx ∧ a.getRate polyfit = .ok (some 2, some 2) := by
  obtain ⟨L, hL⟩ := returns
  obtain ⟨a, h1, _, h3⟩ := rate_of_power size_pos err_nonneg hL (k := true) (g := err) (by simp [vars]) (C := 3) (p := 2) (by norm_num)
    (by intro new _ u _; rfl)
    (by
      simp only [adds, List.pairwise_cons, List.mem_singleton, forall_eq, Option.some.injEq, List.not_mem_nil, false_imp_iff, implies_true,
        List.Pairwise.nil, and_true]
      rintro u v rfl rfl
      norm_num [size])
    (by simp [adds]) hf
  exact ⟨L, a, hL, h1, h3⟩

/-- A log with one value and one approximation: the value is added although the call fails. -/
example : ((Log.init vars).add size id (fun k => if k = false then some 7 else none)).1.values = [(false, [7])] ∧
    ((Log.init vars).add size id (fun k => if k = false then some 7 else none)).2 ≠ none := by
  have h1 := missing_key_half_added (h := size) (dim := id) (Log.init vars) (fun k => if k = false then some 7 else none)
    (by simp [Log.init, vars]) ⟨(true, ⟨err, [], [], [], []⟩), by simp [Log.init, vars], by simp⟩
  exact ⟨by simp [add_values, Log.init, vars, addValues], h1.1⟩

/-- A history with one error of 1, then an exact solution. -/
example : ((⟨fun n : Nat => .ok (if n = 0 then 1 else 0), [1], [1], [0], [none]⟩ : AHist Nat).append size id 1).2 = some .valueError := by
  refine (zero_error_out_of_step (us := [0]) (e0 := 1) size_pos ?_ ?_ ?_ (Rates.first _ _) rfl (by norm_num) ?_).1
  · intro u e he
    cases he
    split <;> norm_num
  · exact .cons rfl .nil
  · simp [size]
  · simp

example : (((Log.init vars).run size id adds).addList size id [5]).2 ≠ none :=
  fewer_values_refused (by simp [vars]) size_pos err_nonneg adds [5] (by simp [vars])

/-- Two subdomains with tags 1 and 2 of three cells. -/
example : brokenNorm [0, 1, 2] (fun t => some (fun c : Nat => if t = 1 then c = 0 else c ≠ 0)) (fun _ cs => .ok (√((cs.map (fun _ => (1 : ℝ))).sum))) [1, 2] =
    .ok (√(([0, 1, 2].map (fun _ : Nat => (1 : ℝ))).sum)) :=
  broken_norm_partition_partial (inside := fun t c => if t = 1 then c = 0 else c ≠ 0) (by norm_num) (by simp) (by decide)

/-- The error is counted twice with the tags 0 and 1. -/
example : brokenNorm [0] (fun t => some (fun c : Nat => t == 1 && c == 0)) (fun _ cs => .ok (√((cs.map (fun _ => (2 : ℝ))).sum))) [0, 1] = .ok 2 := by
  have h4 : √(4 : ℝ) = 2 := by
    rw [show (4 : ℝ) = 2 ^ 2 by norm_num]
    exact Real.sqrt_sq (by norm_num)
  rw [broken_norm_zero_tag [0] (fun t c => t == 1 && c == 0) (fun _ _ => by norm_num) [1] (by simp)]
  norm_num [h4]

example : runDemo "h = 1".toList (.raised "ufl.log.UFLException: Shapes do not match".toList) = true :=
  crash_reported_passed _ _ (by decide)
example : "Error".toList <:+: "RuntimeError: no solution".toList := by decide
end Ex

end Verif.ConvLog
