import Verif.Model.ConvLog
import Verif.Spec.ConvLog
import Mathlib.Data.List.Forall2
/-!
# Lemmas about convergence studies
-/
namespace Verif.ConvLog
open Verif

theorem quotient_cases {e0 e1 h0 h1 : ℝ} (he0 : 0 ≤ e0) (he1 : 0 ≤ e1) (hh0 : 0 < h0) (hh1 : 0 < h1) :
    (e0 ≠ 0 ∧ e1 = 0 ∧ caught (quotient e1 e0 h1 h0) = .error .valueError) ∨
      ((e1 = 0 → e0 = 0) ∧ ∃ r, caught (quotient e1 e0 h1 h0) = .ok r ∧ RateOf e0 e1 h0 h1 r) := by
  by_cases h0' : e0 = 0
  · right
    refine ⟨fun _ => h0', none, ?_, Or.inl h0'⟩
    simp [quotient, pyDiv, h0', caught]
  by_cases h1' : e1 = 0
  · left
    refine ⟨h0', h1', ?_⟩
    simp [quotient, pyDiv, h0', h1', pyLn, caught]
  right
  refine ⟨fun h => absurd h h1', ?_⟩
  have p0 : 0 < e0 := lt_of_le_of_ne he0 (Ne.symm h0')
  have p1 : 0 < e1 := lt_of_le_of_ne he1 (Ne.symm h1')
  have q : ¬ e1 / e0 ≤ 0 := not_le.2 (div_pos p1 p0)
  have q' : ¬ h1 / h0 ≤ 0 := not_le.2 (div_pos hh1 hh0)
  by_cases hs : h1 = h0
  · refine ⟨none, ?_, Or.inr hs⟩
    have : h0 ≠ 0 := hh0.ne'
    have n1 : ¬ (1 : ℝ) ≤ 0 := by norm_num
    simp [quotient, pyDiv, h0', pyLn, q, this, hs, caught, n1]
  · have hl : Real.log (h1 / h0) ≠ 0 := by
      apply Real.log_ne_zero_of_pos_of_ne_one (div_pos hh1 hh0)
      intro h
      exact hs ((div_eq_one_iff_eq hh0.ne').1 h)
    refine ⟨some (Real.log (e1 / e0) / Real.log (h1 / h0)), ?_, h0', hs, ?_⟩
    · simp only [quotient, pyDiv, h0', pyLn, q, hh0.ne', q', hl, if_false, py_bind_ok, caught]
    · rw [Real.rpow_def_of_pos (div_pos hh1 hh0), mul_div_cancel₀ _ hl, Real.exp_log (div_pos p1 p0)]
      field_simp

/-- A history records the functions `us`. -/
structure Records {I : Type} (h : I → ℝ) (dim : I → Nat) (us : List I) (a : AHist I) : Prop where
  errors : List.Forall₂ (fun u e => a.getError u = .ok e) us a.errors
  hs : a.hs = us.map h
  dims : a.dims = us.map dim
  rates : Rates a.errors a.hs a.rates

variable {I K : Type} {h : I → ℝ} {dim : I → Nat}

theorem Rates.length {es hs : List ℝ} {rs : List (Option ℝ)} (hr : Rates es hs rs) : rs.length = es.length ∧ hs.length = es.length := by
  induction hr with
  | nil => simp
  | first => simp
  | next _ _ _ _ ih => obtain ⟨h1, h2⟩ := ih; simp at h1 h2 ⊢; omega

theorem rateNow_snoc (es hs : List ℝ) (e0 e1 h0 h1 : ℝ) :
    rateNow (es ++ [e0] ++ [e1]) (hs ++ [h0] ++ [h1]) = caught (quotient e1 e0 h1 h0) := by
  simp [rateNow]

theorem rateNow_one (e h : ℝ) : rateNow [e] [h] = .ok none := by simp [rateNow]

theorem append_getError (a : AHist I) (u : I) : (a.append h dim u).1.getError = a.getError := by
  unfold AHist.append
  split
  · rfl
  · dsimp only
    split <;> rfl

theorem append_cases {a : AHist I} {u : I} (hl : a.errors.length = a.hs.length) (hh : 0 < h u) (he : ∀ e, a.getError u = .ok e → 0 ≤ e)
    (hpos : ∀ e ∈ a.errors, 0 ≤ e) (hhs : ∀ x ∈ a.hs, 0 < x) :
    (∃ x, a.getError u = .error x ∧ a.append h dim u = (a, some x)) ∨
      ∃ e, a.getError u = .ok e ∧
        ((∃ es e0, a.errors = es ++ [e0] ∧ e0 ≠ 0 ∧ e = 0 ∧
            a.append h dim u = ({ a with errors := a.errors ++ [e], hs := a.hs ++ [h u], dims := a.dims ++ [dim u] }, some .valueError)) ∨
          ((∀ es e0, a.errors = es ++ [e0] → e = 0 → e0 = 0) ∧ ∃ r,
            a.append h dim u = ({ a with errors := a.errors ++ [e], hs := a.hs ++ [h u], dims := a.dims ++ [dim u],
                                         rates := a.rates ++ [r] }, none) ∧
            (Rates a.errors a.hs a.rates → Rates (a.errors ++ [e]) (a.hs ++ [h u]) (a.rates ++ [r])))) := by
  cases hg : a.getError u with
  | error x => exact Or.inl ⟨x, rfl, by simp [AHist.append, hg]⟩
  | ok e =>
      right
      refine ⟨e, rfl, ?_⟩
      rcases List.eq_nil_or_concat a.errors with h0 | ⟨es, e0, h0⟩
      · have h1 : a.hs = [] := List.length_eq_zero_iff.1 (by rw [← hl, h0]; rfl)
        right
        refine ⟨fun es e0 hc => by simp [h0] at hc, none, ?_, ?_⟩
        · simp [AHist.append, hg, h0, h1, rateNow_one]
        · intro hr
          have hl0 := hr.length.1
          rw [h0] at hl0
          rw [h0, h1, List.length_eq_zero_iff.1 hl0]
          exact Rates.first _ _
      · rw [List.concat_eq_append] at h0
        rcases List.eq_nil_or_concat a.hs with h1 | ⟨hs, x0, h1⟩
        · rw [h0, h1] at hl; simp at hl
        rw [List.concat_eq_append] at h1
        have p0 := hpos e0 (by simp [h0])
        have q0 := hhs x0 (by simp [h1])
        rcases quotient_cases p0 (he e hg) q0 hh with ⟨c1, c2, c3⟩ | ⟨c1, r, c2, c3⟩
        · left
          refine ⟨es, e0, h0, c1, c2, ?_⟩
          simp only [AHist.append, hg]
          rw [h0, h1, rateNow_snoc, c3]
        · right
          refine ⟨?_, r, ?_, ?_⟩
          · intro es' e0' hc
            rw [h0] at hc
            have := List.append_inj_right' hc rfl
            obtain rfl : e0 = e0' := by simpa using this
            exact c1
          · simp only [AHist.append, hg]
            rw [h0, h1, rateNow_snoc, c2]
          · intro hr
            rw [h0, h1] at hr ⊢
            exact Rates.next _ _ hr c3

/-- Errors and mesh sizes which norms and meshes can have. -/
def Sound (a : AHist I) : Prop :=
  a.errors.length = a.hs.length ∧ (∀ e ∈ a.errors, 0 ≤ e) ∧ (∀ x ∈ a.hs, 0 < x) ∧ ∀ u e, a.getError u = .ok e → 0 ≤ e

theorem append_sound {a : AHist I} (hh : ∀ u, 0 < h u) (hs : Sound a) (u : I) : Sound (a.append h dim u).1 := by
  obtain ⟨h1, h2, h3, h4⟩ := hs
  have new : ∀ e, a.getError u = .ok e → ∀ rs, Sound (⟨a.getError, a.errors ++ [e], a.hs ++ [h u], a.dims ++ [dim u], rs⟩ : AHist I) := by
    intro e he rs
    refine ⟨by simp [h1], ?_, ?_, h4⟩
    · intro x hx
      rcases List.mem_append.1 hx with hx | hx
      · exact h2 x hx
      · rw [List.mem_singleton.1 hx]; exact h4 u e he
    · intro x hx
      rcases List.mem_append.1 hx with hx | hx
      · exact h3 x hx
      · rw [List.mem_singleton.1 hx]; exact hh u
  rcases append_cases (dim := dim) h1 (hh u) (h4 u) h2 h3 with ⟨x, hx, e⟩ | ⟨e, he, ⟨es, e0, c1, c2, c3, c4⟩ | ⟨c1, r, c2, c3⟩⟩
  · rw [e]; exact ⟨h1, h2, h3, h4⟩
  · rw [c4]; exact new e he _
  · rw [c2]; exact new e he _

theorem append_records {a : AHist I} (hh : ∀ u, 0 < h u) (hs : Sound a) {us : List I} {u : I} {a' : AHist I}
    (hr : Records h dim us a) (ha : a.append h dim u = (a', none)) : Records h dim (us ++ [u]) a' := by
  obtain ⟨h1, h2, h3, h4⟩ := hs
  rcases append_cases (dim := dim) h1 (hh u) (h4 u) h2 h3 with ⟨x, hx, e⟩ | ⟨e, he, ⟨es, e0, c1, c2, c3, c4⟩ | ⟨c1, r, c2, c3⟩⟩
  · rw [e] at ha; cases ha
  · rw [c4] at ha; cases ha
  · rw [c2] at ha
    cases ha
    refine ⟨?_, by simp [hr.hs], by simp [hr.dims], c3 hr.rates⟩
    exact List.rel_append hr.errors (List.Forall₂.cons he .nil)

theorem append_desync {a : AHist I} (u : I) (hl : a.rates.length < a.errors.length) :
    (a.append h dim u).1.rates.length < (a.append h dim u).1.errors.length := by
  unfold AHist.append
  split
  · exact hl
  · dsimp only
    split
    · simp; omega
    · simpa using hl

/-! ### The loops of `add` -/

theorem addValues_ok (new : K → Option I) (vs : List (K × List I)) :
    (addValues new vs).2 = none ↔ ∀ p ∈ vs, new p.1 ≠ none := by
  induction vs with
  | nil => simp [addValues]
  | cons p vs ih =>
      obtain ⟨k, l⟩ := p
      cases hk : new k with
      | none => simp [addValues, hk]
      | some x => simp [addValues, hk, ih]

theorem addValues_map {new : K → Option I} {vs : List (K × List I)} (hv : ∀ p ∈ vs, new p.1 ≠ none) :
    List.Forall₂ (fun p q => q.1 = p.1 ∧ ∃ x, new p.1 = some x ∧ q.2 = p.2 ++ [x]) vs (addValues new vs).1 := by
  induction vs with
  | nil => exact .nil
  | cons p vs ih =>
      obtain ⟨k, l⟩ := p
      cases hk : new k with
      | none => exact absurd hk (hv (k, l) (by simp))
      | some x =>
          simp only [addValues, hk]
          exact .cons ⟨rfl, x, hk, rfl⟩ (ih fun p hp => hv p (List.mem_cons_of_mem _ hp))

theorem addValues_keys (new : K → Option I) (vs : List (K × List I)) : (addValues new vs).1.map Prod.fst = vs.map Prod.fst := by
  induction vs with
  | nil => rfl
  | cons p vs ih =>
      obtain ⟨k, l⟩ := p
      cases hk : new k <;> simp [addValues, hk, ih]

/-- Histories go on by `append`, or are left alone. -/
theorem addApprox_each (new : K → Option I) (as : List (K × AHist I)) :
    List.Forall₂ (fun p q => q.1 = p.1 ∧ (q.2 = p.2 ∨ ∃ x, new p.1 = some x ∧ q.2 = (p.2.append h dim x).1)) as (addApprox h dim new as).1 := by
  have refl : ∀ l : List (K × AHist I),
      List.Forall₂ (fun p q => q.1 = p.1 ∧ (q.2 = p.2 ∨ ∃ x, new p.1 = some x ∧ q.2 = (p.2.append h dim x).1)) l l :=
    fun l => List.forall₂_same.2 fun p _ => ⟨rfl, Or.inl rfl⟩
  induction as with
  | nil => exact .nil
  | cons p as ih =>
      obtain ⟨k, a⟩ := p
      cases hk : new k with
      | none => simp only [addApprox, hk]; exact refl _
      | some x =>
          simp only [addApprox, hk]
          rcases ha : a.append h dim x with ⟨a', _ | e⟩
          · exact .cons ⟨rfl, Or.inr ⟨x, hk, by rw [ha]⟩⟩ ih
          · exact .cons ⟨rfl, Or.inr ⟨x, hk, by rw [ha]⟩⟩ (refl _)

theorem addApprox_ok (new : K → Option I) (as : List (K × AHist I)) :
    (addApprox h dim new as).2 = none ↔ ∀ p ∈ as, ∃ x, new p.1 = some x ∧ (p.2.append h dim x).2 = none := by
  induction as with
  | nil => simp [addApprox]
  | cons p as ih =>
      obtain ⟨k, a⟩ := p
      cases hk : new k with
      | none => simp [addApprox, hk]
      | some x =>
          simp only [addApprox, hk]
          rcases ha : a.append h dim x with ⟨a', _ | e⟩
          · simp [ih, hk, ha]
          · simp [hk, ha]

theorem addApprox_map {new : K → Option I} {as : List (K × AHist I)} (hn : (addApprox h dim new as).2 = none) :
    List.Forall₂ (fun p q => q.1 = p.1 ∧ ∃ x, new p.1 = some x ∧ p.2.append h dim x = (q.2, none)) as (addApprox h dim new as).1 := by
  induction as with
  | nil => exact .nil
  | cons p as ih =>
      obtain ⟨k, a⟩ := p
      cases hk : new k with
      | none => simp [addApprox, hk] at hn
      | some x =>
          simp only [addApprox, hk] at hn ⊢
          rcases ha : a.append h dim x with ⟨a', _ | e⟩
          · rw [ha] at hn
            exact .cons ⟨rfl, x, hk, ha⟩ (ih hn)
          · rw [ha] at hn; cases hn

theorem add_snd (L : Log I K) (new : K → Option I) :
    (L.add h dim new).2 = none ↔ (addValues new L.values).2 = none ∧ (addApprox h dim new L.approx).2 = none := by
  unfold Log.add
  rcases hv : addValues new L.values with ⟨vs, _ | e⟩ <;> simp

theorem add_fst {L : Log I K} {new : K → Option I} (hn : (addValues new L.values).2 = none) :
    (L.add h dim new).1 = { L with values := (addValues new L.values).1, approx := (addApprox h dim new L.approx).1 } := by
  unfold Log.add
  rcases hv : addValues new L.values with ⟨vs, _ | e⟩
  · rfl
  · rw [hv] at hn; cases hn

theorem add_values (L : Log I K) (new : K → Option I) : (L.add h dim new).1.values = (addValues new L.values).1 := by
  unfold Log.add
  rcases hv : addValues new L.values with ⟨vs, _ | e⟩ <;> rfl

theorem add_names (L : Log I K) (new : K → Option I) : (L.add h dim new).1.names = L.names := by
  unfold Log.add
  rcases hv : addValues new L.values with ⟨vs, _ | e⟩ <;> rfl

theorem add_approx (L : Log I K) (new : K → Option I) :
    List.Forall₂ (fun p q => q.1 = p.1 ∧ (q.2 = p.2 ∨ ∃ x, new p.1 = some x ∧ q.2 = (p.2.append h dim x).1)) L.approx (L.add h dim new).1.approx := by
  unfold Log.add
  rcases hv : addValues new L.values with ⟨vs, _ | e⟩
  · exact addApprox_each new L.approx
  · exact List.forall₂_same.2 fun p _ => ⟨rfl, Or.inl rfl⟩

theorem forall₂_mem_left {α β : Type} {R : α → β → Prop} {l : List α} {m : List β} (hf : List.Forall₂ R l m) {a : α} (ha : a ∈ l) :
    ∃ b ∈ m, R a b := by
  induction hf with
  | nil => cases ha
  | cons hr _ ih =>
      rcases List.mem_cons.1 ha with rfl | ha
      · exact ⟨_, by simp, hr⟩
      · obtain ⟨b, hb, hr⟩ := ih ha
        exact ⟨b, List.mem_cons_of_mem _ hb, hr⟩

theorem forall₂_mem_right {α β : Type} {R : α → β → Prop} {l : List α} {m : List β} (hf : List.Forall₂ R l m) {b : β} (hb : b ∈ m) :
    ∃ a ∈ l, R a b := by
  induction hf with
  | nil => cases hb
  | cons hr _ ih =>
      rcases List.mem_cons.1 hb with rfl | hb
      · exact ⟨_, by simp, hr⟩
      · obtain ⟨a, ha, hr⟩ := ih hb
        exact ⟨a, List.mem_cons_of_mem _ ha, hr⟩

/-! ### Sequences of calls -/

/-- The log has a right row for each of the dictionaries `done`. -/
structure Inv (h : I → ℝ) (dim : I → Nat) (vars : List (K × Option (I → Py ℝ))) (done : List (K → Option I)) (L : Log I K) : Prop where
  values : ∀ k, (k, none) ∈ vars → ∃ us, List.Forall₂ (fun new u => new k = some u) done us ∧ (k, us) ∈ L.values
  approx : ∀ k g, (k, some g) ∈ vars → ∃ us a, List.Forall₂ (fun new u => new k = some u) done us ∧ (k, a) ∈ L.approx ∧ a.getError = g ∧
    Records h dim us a ∧ Sound a

theorem init_inv {vars : List (K × Option (I → Py ℝ))} (hg : ∀ k g, (k, some g) ∈ vars → ∀ u e, g u = .ok e → 0 ≤ e) :
    Inv h dim vars [] (Log.init vars) := by
  refine ⟨fun k hk => ⟨[], .nil, ?_⟩, fun k g hk => ⟨[], ⟨g, [], [], [], []⟩, .nil, ?_, rfl, ⟨.nil, rfl, rfl, .nil⟩, ?_⟩⟩
  · exact List.mem_filterMap.2 ⟨_, hk, rfl⟩
  · exact List.mem_filterMap.2 ⟨_, hk, rfl⟩
  · exact ⟨rfl, by simp, by simp, hg k g hk⟩

theorem add_inv {vars : List (K × Option (I → Py ℝ))} (hh : ∀ u, 0 < h u) {done : List (K → Option I)} {L L' : Log I K} {new : K → Option I}
    (hi : Inv h dim vars done L) (ha : L.add h dim new = (L', none)) : Inv h dim vars (done ++ [new]) L' := by
  have h2 := (add_snd (h := h) (dim := dim) L new).1 (by rw [ha])
  have h1 := add_fst (h := h) (dim := dim) h2.1
  rw [ha] at h1
  simp only at h1
  subst h1
  constructor
  · intro k hk
    obtain ⟨us, hus, hm⟩ := hi.values k hk
    obtain ⟨⟨k', l⟩, hq, hk', x, hx, hl⟩ := forall₂_mem_left (addValues_map ((addValues_ok new L.values).1 h2.1)) hm
    simp only at hk' hx hl
    subst hk' hl
    exact ⟨us ++ [x], List.rel_append hus (.cons hx .nil), hq⟩
  · intro k g hk
    obtain ⟨us, a, hus, hm, hga, hr, hs⟩ := hi.approx k g hk
    obtain ⟨⟨k', a'⟩, hq, hk', x, hx, hl⟩ := forall₂_mem_left (addApprox_map h2.2) hm
    simp only at hk' hx hl
    subst hk'
    refine ⟨us ++ [x], a', List.rel_append hus (.cons hx .nil), hq, ?_, append_records hh hs hr hl, ?_⟩
    · have := append_getError (h := h) (dim := dim) a x
      rw [hl] at this
      exact this.trans hga
    · have := append_sound (dim := dim) hh hs x
      rw [hl] at this
      exact this

theorem run_inv {vars : List (K × Option (I → Py ℝ))} (hh : ∀ u, 0 < h u) {L' : Log I K} (adds : List (K → Option I)) :
    ∀ {done : List (K → Option I)} {L : Log I K}, Inv h dim vars done L → L.runAll h dim adds = .ok L' → Inv h dim vars (done ++ adds) L' := by
  induction adds with
  | nil =>
      intro done L hi hr
      cases hr
      simpa using hi
  | cons new adds ih =>
      intro done L hi hr
      simp only [Log.runAll] at hr
      rcases ha : L.add h dim new with ⟨L1, _ | e⟩
      · rw [ha] at hr
        have := ih (add_inv hh hi ha) hr
        simpa using this
      · rw [ha] at hr; cases hr

/-! ### Rates of powers -/

theorem rate_power {C p e0 e1 h0 h1 : ℝ} (hC : 0 < C) (hh0 : 0 < h0) (hh1 : 0 < h1) (hne : h1 ≠ h0) (he0 : e0 = C * h0 ^ p) (he1 : e1 = C * h1 ^ p)
    {r : Option ℝ} (hr : RateOf e0 e1 h0 h1 r) : r = some p := by
  have p0 : 0 < e0 := by rw [he0]; positivity
  cases r with
  | none => rcases hr with hr | hr
            · exact absurd hr p0.ne'
            · exact absurd hr hne
  | some r =>
      obtain ⟨_, _, hr⟩ := hr
      have hq : 0 < h1 / h0 := div_pos hh1 hh0
      have h2 : e1 = e0 * (h1 / h0) ^ p := by
        rw [he0, he1, Real.div_rpow hh1.le hh0.le]
        have : h0 ^ p ≠ 0 := (Real.rpow_pos_of_pos hh0 p).ne'
        field_simp
      rw [h2] at hr
      have h3 := mul_left_cancel₀ p0.ne' hr
      have hl : Real.log (h1 / h0) ≠ 0 := by
        apply Real.log_ne_zero_of_pos_of_ne_one hq
        intro h
        exact hne ((div_eq_one_iff_eq hh0.ne').1 h)
      have h4 := congrArg Real.log h3
      rw [Real.log_rpow hq, Real.log_rpow hq] at h4
      rw [mul_right_cancel₀ hl h4]

theorem rates_power {C p : ℝ} (hC : 0 < C) {es hs : List ℝ} {rs : List (Option ℝ)} (hr : Rates es hs rs) :
    (∀ x ∈ hs, 0 < x) → hs.Pairwise (· ≠ ·) → es = hs.map (fun x => C * x ^ p) → ∀ r ∈ rs.drop 1, r = some p := by
  induction hr with
  | nil => simp
  | first => simp
  | @next es hs rs e0 h0 e1 h1 r hr hro ih =>
      intro hp hd he r' hr'
      have hlen := hr.length.1
      rw [List.map_append] at he
      have hcut := List.append_inj' he (by simp)
      have hlast : e1 = C * h1 ^ p := by simpa using hcut.2
      have h00 : e0 = C * h0 ^ p := by
        have := hcut.1
        rw [List.map_append] at this
        simpa using List.append_inj_right' this (by simp)
      rw [List.drop_append_of_le_length (by rw [hlen]; simp)] at hr'
      rcases List.mem_append.1 hr' with hr' | hr'
      · exact ih (fun x hx => hp x (List.mem_append_left _ hx)) (List.pairwise_append.1 hd).1 hcut.1 r' hr'
      · rw [List.mem_singleton.1 hr']
        refine rate_power hC (hp h0 (by simp)) (hp h1 (by simp)) ?_ h00 hlast hro
        exact ((List.pairwise_append.1 hd).2.2 h0 (by simp) h1 (by simp)).symm

theorem residual_zero {pts : List (ℝ × ℝ)} {a b : ℝ} (h0 : residual pts a b ≤ 0) : ∀ q ∈ pts, q.2 = a * q.1 + b := by
  unfold residual at h0
  induction pts with
  | nil => simp
  | cons q pts ih =>
      rw [List.map_cons, List.sum_cons] at h0
      have h1 : 0 ≤ (pts.map (fun p => (p.2 - (a * p.1 + b)) ^ 2)).sum := by
        apply List.sum_nonneg
        intro x hx
        obtain ⟨y, _, rfl⟩ := List.mem_map.1 hx
        exact sq_nonneg _
      have h2 : (q.2 - (a * q.1 + b)) ^ 2 = 0 := le_antisymm (by linarith) (sq_nonneg _)
      intro r hr
      rcases List.mem_cons.1 hr with rfl | hr
      · have := pow_eq_zero_iff (two_ne_zero) |>.1 h2
        linarith
      · exact ih (by rw [h2] at h0; linarith) r hr

theorem fit_power {C p : ℝ} (hC : 0 < C) {polyfit : List ℝ → List ℝ → ℝ} (hf : IsFit polyfit) {hs : List ℝ} (hp : ∀ x ∈ hs, 0 < x)
    {x y : ℝ} (hx : x ∈ hs) (hy : y ∈ hs) (hne : x ≠ y) :
    polyfit (hs.map Real.log) ((hs.map (fun x => C * x ^ p)).map Real.log) = p := by
  obtain ⟨b, hb⟩ := hf (hs.map Real.log) ((hs.map (fun x => C * x ^ p)).map Real.log)
  set a := polyfit (hs.map Real.log) ((hs.map (fun x => C * x ^ p)).map Real.log)
  have hlog : ∀ z ∈ hs, Real.log (C * z ^ p) = p * Real.log z + Real.log C := by
    intro z hz
    rw [Real.log_mul hC.ne' (Real.rpow_pos_of_pos (hp z hz) p).ne', Real.log_rpow (hp z hz)]
    ring
  have hz : (hs.map Real.log).zip ((hs.map (fun x => C * x ^ p)).map Real.log) = hs.map (fun z => (Real.log z, Real.log (C * z ^ p))) := by
    rw [List.map_map]
    clear * -
    induction hs with
    | nil => rfl
    | cons z zs ih => simpa using ih
  have h0 := hb p (Real.log C)
  rw [hz] at h0
  have hzero : residual (hs.map (fun z => (Real.log z, Real.log (C * z ^ p)))) p (Real.log C) = 0 := by
    unfold residual
    apply List.sum_eq_zero
    intro w hw
    simp only [List.map_map, List.mem_map, Function.comp_apply] at hw
    obtain ⟨z, hz, rfl⟩ := hw
    rw [hlog z hz]
    ring
  rw [hzero] at h0
  have hr := residual_zero h0
  have hX := hr _ (List.mem_map_of_mem hx)
  have hY := hr _ (List.mem_map_of_mem hy)
  simp only at hX hY
  rw [hlog x hx] at hX
  rw [hlog y hy] at hY
  have hl : Real.log x - Real.log y ≠ 0 := by
    intro h
    exact hne (Real.log_injOn_pos (hp x hx) (hp y hy) (by linarith))
  have : (a - p) * (Real.log x - Real.log y) = 0 := by ring_nf; linarith
  rcases mul_eq_zero.1 this with h | h
  · linarith
  · exact absurd h hl

/-! ### Reachable logs -/

/-- The histories belong to the variables. -/
structure Keys (vars : List (K × Option (I → Py ℝ))) (L : Log I K) : Prop where
  names : L.names = vars.map Prod.fst
  values : ∀ p ∈ L.values, (p.1, none) ∈ vars
  approx : ∀ p ∈ L.approx, (p.1, some p.2.getError) ∈ vars ∧ Sound p.2
  hasValues : ∀ k, (k, none) ∈ vars → ∃ l, (k, l) ∈ L.values
  hasApprox : ∀ k g, (k, some g) ∈ vars → ∃ a, (k, a) ∈ L.approx ∧ a.getError = g

theorem init_keys {vars : List (K × Option (I → Py ℝ))} (hg : ∀ k g, (k, some g) ∈ vars → ∀ u e, g u = .ok e → 0 ≤ e) : Keys vars (Log.init vars) := by
  refine ⟨rfl, ?_, ?_, ?_, ?_⟩
  · intro p hp
    obtain ⟨⟨k, _ | g⟩, hv, he⟩ := List.mem_filterMap.1 hp
    · cases he; exact hv
    · cases he
  · intro p hp
    obtain ⟨⟨k, _ | g⟩, hv, he⟩ := List.mem_filterMap.1 hp
    · cases he
    · cases he; exact ⟨hv, rfl, by simp, by simp, hg k g hv⟩
  · intro k hk
    exact ⟨[], List.mem_filterMap.2 ⟨_, hk, rfl⟩⟩
  · intro k g hk
    exact ⟨⟨g, [], [], [], []⟩, List.mem_filterMap.2 ⟨_, hk, rfl⟩, rfl⟩

theorem add_keys {vars : List (K × Option (I → Py ℝ))} (hh : ∀ u, 0 < h u) {L : Log I K} (new : K → Option I) (hk : Keys vars L) :
    Keys vars (L.add h dim new).1 := by
  have hv : (L.add h dim new).1.values.map Prod.fst = L.values.map Prod.fst := by rw [add_values, addValues_keys]
  have ha := add_approx (h := h) (dim := dim) L new
  refine ⟨by rw [add_names, hk.names], ?_, ?_, ?_, ?_⟩
  · intro p hp
    have : p.1 ∈ L.values.map Prod.fst := hv ▸ List.mem_map_of_mem hp
    obtain ⟨q, hq, e⟩ := List.mem_map.1 this
    rw [← e]
    exact hk.values q hq
  · intro p hp
    obtain ⟨q, hq, e, h1 | ⟨x, _, h1⟩⟩ := forall₂_mem_right ha hp
    · rw [e, h1]; exact hk.approx q hq
    · rw [e, h1, append_getError]
      exact ⟨(hk.approx q hq).1, append_sound hh (hk.approx q hq).2 x⟩
  · intro k hk'
    obtain ⟨l, hl⟩ := hk.hasValues k hk'
    have : k ∈ (L.add h dim new).1.values.map Prod.fst := hv ▸ List.mem_map_of_mem (f := Prod.fst) hl
    obtain ⟨⟨k', l'⟩, hq, e⟩ := List.mem_map.1 this
    exact ⟨l', e ▸ hq⟩
  · intro k g hk'
    obtain ⟨a, hm, hg⟩ := hk.hasApprox k g hk'
    obtain ⟨⟨k', a'⟩, hq, e, h1 | ⟨x, _, h1⟩⟩ := forall₂_mem_left ha hm
    · simp only at e h1
      exact ⟨a', e ▸ hq, by rw [h1, hg]⟩
    · simp only at e h1
      exact ⟨a', e ▸ hq, by rw [h1, append_getError, hg]⟩

theorem run_keys {vars : List (K × Option (I → Py ℝ))} (hh : ∀ u, 0 < h u) (adds : List (K → Option I)) :
    ∀ {L : Log I K}, Keys vars L → Keys vars (L.run h dim adds) := by
  induction adds with
  | nil => exact fun hk => hk
  | cons new adds ih => exact fun hk => ih (add_keys hh new hk)

theorem append_ok_iff {a : AHist I} (hh : ∀ u, 0 < h u) (hs : Sound a) (u : I) :
    (a.append h dim u).2 = none ↔ ∃ e, a.getError u = .ok e ∧ (e = 0 → ∀ e0, a.errors.getLast? = some e0 → e0 = 0) := by
  obtain ⟨h1, h2, h3, h4⟩ := hs
  rcases append_cases (dim := dim) h1 (hh u) (h4 u) h2 h3 with ⟨x, hx, e⟩ | ⟨e, he, ⟨es, e0, c1, c2, c3, c4⟩ | ⟨c1, r, c2, c3⟩⟩
  · rw [e, hx]; simp
  · rw [c4, he]
    simp only [reduceCtorEq, Except.ok.injEq, false_iff]
    rintro ⟨e', rfl, hz⟩
    exact c2 (hz c3 e0 (by simp [c1]))
  · rw [c2, he]
    simp only [Except.ok.injEq, true_iff]
    refine ⟨e, rfl, fun hz e0 hl => ?_⟩
    obtain ⟨es, hes⟩ := List.getLast?_eq_some_iff.1 hl
    exact c1 es e0 hes hz

theorem add_ok_iff {vars : List (K × Option (I → Py ℝ))} (hh : ∀ u, 0 < h u) {L : Log I K} (hk : Keys vars L) (new : K → Option I) :
    (L.add h dim new).2 = none ↔ (∀ p ∈ L.values, new p.1 ≠ none) ∧
      ∀ p ∈ L.approx, ∃ u e, new p.1 = some u ∧ p.2.getError u = .ok e ∧ (e = 0 → ∀ e0, p.2.errors.getLast? = some e0 → e0 = 0) := by
  rw [add_snd, addValues_ok, addApprox_ok]
  refine and_congr_right fun _ => forall_congr' fun p => forall_congr' fun hp => ?_
  constructor
  · rintro ⟨x, hx, ho⟩
    obtain ⟨e, h1, h2⟩ := (append_ok_iff hh (hk.approx p hp).2 x).1 ho
    exact ⟨x, e, hx, h1, h2⟩
  · rintro ⟨x, e, hx, h1, h2⟩
    exact ⟨x, hx, (append_ok_iff hh (hk.approx p hp).2 x).2 ⟨e, h1, h2⟩⟩

theorem runAll_ok {vars : List (K × Option (I → Py ℝ))} (hh : ∀ u, 0 < h u) (adds : List (K → Option I))
    (hv : ∀ new ∈ adds, ∀ k, (k, none) ∈ vars → new k ≠ none)
    (ha : ∀ new ∈ adds, ∀ k g, (k, some g) ∈ vars → ∃ u e, new k = some u ∧ g u = .ok e ∧ e ≠ 0) :
    ∀ {L : Log I K}, Keys vars L → ∃ L', L.runAll h dim adds = .ok L' := by
  induction adds with
  | nil => exact fun {L} _ => ⟨L, rfl⟩
  | cons new adds ih =>
      intro L hk
      have h1 : (L.add h dim new).2 = none := by
        refine (add_ok_iff hh hk new).2 ⟨fun p hp => hv new (by simp) _ (hk.values p hp), fun p hp => ?_⟩
        obtain ⟨u, e, h1, h2, h3⟩ := ha new (by simp) _ _ (hk.approx p hp).1
        exact ⟨u, e, h1, h2, fun hz => absurd hz h3⟩
      obtain ⟨L', hL'⟩ := ih (fun n hn => hv n (List.mem_cons_of_mem _ hn)) (fun n hn => ha n (List.mem_cons_of_mem _ hn)) (add_keys (dim := dim) hh new hk)
      refine ⟨L', ?_⟩
      simp only [Log.runAll]
      rcases hadd : L.add h dim new with ⟨L1, _ | e⟩
      · rw [hadd] at hL'; exact hL'
      · rw [hadd] at h1; cases h1

theorem lookup_zip_none [DecidableEq K] {ks : List K} (hn : ks.Nodup) (xs : List I) {k : K} (hk : k ∈ ks.drop xs.length) : (ks.zip xs).lookup k = none := by
  induction ks generalizing xs with
  | nil => rfl
  | cons k' ks ih =>
      cases xs with
      | nil => rfl
      | cons x xs =>
          have hk1 : k ∈ ks.drop xs.length := by simpa using hk
          have hne : k ≠ k' := by
            rintro rfl
            exact (List.nodup_cons.1 hn).1 (List.mem_of_mem_drop hk1)
          have hb : (k == k') = false := by simpa using hne
          rw [List.zip_cons_cons, List.lookup_cons, hb]
          exact ih (List.nodup_cons.1 hn).2 xs hk1

theorem pairwise_sizes {k : K} {adds : List (K → Option I)} {us : List I} (hf : List.Forall₂ (fun new u => new k = some u) adds us)
    (hd : adds.Pairwise (fun n m => ∀ u v, n k = some u → m k = some v → h u ≠ h v)) : (us.map h).Pairwise (· ≠ ·) := by
  induction hf with
  | nil => simp
  | @cons n u ns us hn hf ih =>
      rw [List.pairwise_cons] at hd
      rw [List.map_cons, List.pairwise_cons]
      refine ⟨fun x hx => ?_, ih hd.2⟩
      obtain ⟨v, hv, rfl⟩ := List.mem_map.1 hx
      obtain ⟨m, hm, hmv⟩ := forall₂_mem_right hf hv
      exact hd.1 m hm u v hn hmv

/-! ### Norms on subdomains -/

theorem marked_nonzero {C : Type} (cells : List C) (inside : C → Bool) {tag : Nat} (ht : tag ≠ 0) : marked cells inside tag = cells.filter inside := by
  unfold marked
  congr 1
  funext c
  cases inside c
  · simpa using ht.symm
  · simp

theorem marked_zero {C : Type} (cells : List C) (inside : C → Bool) : marked cells inside 0 = cells := by
  unfold marked
  simp

theorem brokenErrors_sum {C : Type} {cells : List C} {inside : Nat → C → Bool} {err : Nat → C → ℝ} (herr : ∀ t c, 0 ≤ err t c) (tags : List Nat) :
    ∃ es, brokenErrors cells (fun t => some (inside t)) (fun t cs => .ok (√((cs.map (err t)).sum))) tags = .ok es ∧
      (es.map (fun e => e ^ 2)).sum = (tags.map (fun t => ((marked cells (inside t) t).map (err t)).sum)).sum := by
  induction tags with
  | nil => exact ⟨[], rfl, rfl⟩
  | cons t tags ih =>
      obtain ⟨es, h1, h2⟩ := ih
      by_cases hm : marked cells (inside t) t = []
      · refine ⟨es, ?_, ?_⟩
        · simp only [brokenErrors, hm, if_true]; exact h1
        · simp [h2, hm]
      · refine ⟨√(((marked cells (inside t) t).map (err t)).sum) :: es, ?_, ?_⟩
        · simp only [brokenErrors, hm, if_false, h1]
        · rw [List.map_cons, List.sum_cons, List.map_cons, List.sum_cons, h2, Real.sq_sqrt]
          apply List.sum_nonneg
          intro x hx
          obtain ⟨c, _, rfl⟩ := List.mem_map.1 hx
          exact herr t c

theorem sum_partition {C : Type} {cells : List C} {inside : Nat → C → Bool} {err : C → ℝ} {tags : List Nat}
    (hp : ∀ c ∈ cells, (tags.filter (fun t => inside t c)).length = 1) :
    (tags.map (fun t => ((cells.filter (inside t)).map err).sum)).sum = (cells.map err).sum := by
  induction cells with
  | nil => simp
  | cons c cells ih =>
      have h1 : ∀ ts : List Nat, (ts.map (fun t => (((c :: cells).filter (inside t)).map err).sum)).sum =
          ((ts.filter (fun t => inside t c)).length : ℝ) * err c + (ts.map (fun t => ((cells.filter (inside t)).map err).sum)).sum := by
        intro ts
        induction ts with
        | nil => simp
        | cons t ts iht =>
            rw [List.map_cons, List.sum_cons, iht, List.map_cons, List.sum_cons]
            cases hc : inside t c
            · simp [hc]; ring
            · simp [hc]; ring
      rw [h1, ih fun c' hc' => hp c' (List.mem_cons_of_mem _ hc'), hp c (by simp)]
      simp

end Verif.ConvLog
