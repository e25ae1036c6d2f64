import Verif.Spec.Collapse
import Verif.Lemmas.Mat
import Mathlib.Algebra.Group.Submonoid.Defs
/-! Lemmas on the conversion of composites. -/
namespace Verif.Collapse
open Verif

variable {K : Type} [CommRing K]

theorem actsAs_iff (v : Val K) (e : Expr K) : v.ActsAs e ↔ v.expr.act = e.act := by
  cases v <;> simp only [Val.ActsAs, Val.expr, Expr.act, funext_iff]

theorem actChain_append (as bs : List (Expr K)) (x : Nat → K) :
    actChain (as ++ bs) x = actChain as (actChain bs x) := by
  induction as with
  | nil => simp [actChain]
  | cons a as ih => simp [actChain, ih]

theorem flat_act (e : Expr K) (x : Nat → K) : actChain e.flat x = e.act x := by
  cases e <;> simp [Expr.flat, actChain, Expr.act]

theorem pyMul_act (a b : Expr K) (x : Nat → K) : (pyMul a b).act x = a.act (b.act x) := by
  unfold pyMul
  split
  · funext i; simp only [Expr.act]; ring
  · rw [Expr.act, actChain_append, flat_act, flat_act]

theorem foldl_pyMul_act (bs : List (Expr K)) (b : Expr K) (x : Nat → K) :
    (bs.foldl pyMul b).act x = b.act (actChain bs x) := by
  induction bs generalizing b with
  | nil => simp [actChain]
  | cons c cs ih => simp only [List.foldl_cons, ih, pyMul_act, actChain]

theorem numsInChain_append (S : K → Prop) (as bs : List (Expr K)) :
    numsInChain S (as ++ bs) ↔ numsInChain S as ∧ numsInChain S bs := by
  induction as with
  | nil => simp [numsInChain]
  | cons a as ih => simp [numsInChain, ih, and_assoc]

theorem flat_numsIn (S : K → Prop) (e : Expr K) : numsInChain S e.flat ↔ e.NumsIn S := by
  cases e <;> simp [Expr.flat, numsInChain, Expr.NumsIn]

theorem pyMul_numsIn (S : Submonoid K) (a b : Expr K) (ha : a.NumsIn (· ∈ S))
    (hb : b.NumsIn (· ∈ S)) : (pyMul a b).NumsIn (· ∈ S) := by
  unfold pyMul
  split
  · simp only [Expr.NumsIn] at *
    exact S.mul_mem ha hb
  · rw [Expr.NumsIn, numsInChain_append, flat_numsIn, flat_numsIn]
    exact ⟨ha, hb⟩

theorem foldl_pyMul_numsIn (S : Submonoid K) (bs : List (Expr K)) (b : Expr K)
    (hb : b.NumsIn (· ∈ S)) (hbs : numsInChain (· ∈ S) bs) :
    (bs.foldl pyMul b).NumsIn (· ∈ S) := by
  induction bs generalizing b with
  | nil => simpa using hb
  | cons c cs ih =>
      simp only [numsInChain] at hbs
      simp only [List.foldl_cons]
      exact ih _ (pyMul_numsIn S b c hb hbs.1) hbs.2

/-- The invariant of the conversion: same action, numbers from `S`. -/
def Good (S : Submonoid K) (v : Val K) (e : Expr K) : Prop :=
  v.expr.act = e.act ∧ v.expr.NumsIn (· ∈ S)

theorem matAxpy_good (S : Submonoid K) (c : K) (M N : Mat K) (v : Val K)
    (h : matAxpy c M N = .ok v) :
    v.expr.NumsIn (· ∈ S) ∧ ∀ x i, v.expr.act x i = M.act x i + c * N.act x i := by
  unfold matAxpy at h
  split at h
  · rename_i hs
    cases h
    refine ⟨by simp [Val.expr, Expr.NumsIn], fun x i => ?_⟩
    simp only [Val.expr, Expr.act]
    exact Mat.axpy_act c M N hs.1 hs.2 x i
  · cases h

/-- Everything the conversion returns is good. -/
theorem collapse_good (tiny : Tiny K) (S : Submonoid K) (hS : ∀ c ∈ S, tiny c = true → c = 0)
    (fuel : Nat) :
    (∀ e v, collapse tiny fuel e = .ok v → e.NumsIn (· ∈ S) → Good S v e) ∧
    (∀ A v, collapseTr tiny fuel A = .ok v → A.NumsIn (· ∈ S) → Good S v (.tr A)) ∧
    (∀ A B v, collapseAdd tiny fuel A B = .ok v → A.NumsIn (· ∈ S) → B.NumsIn (· ∈ S) →
      Good S v (.add A B)) ∧
    (∀ A B v, collapseAddRec tiny fuel A B = .ok v → A.NumsIn (· ∈ S) → B.NumsIn (· ∈ S) →
      Good S v (.add A B)) ∧
    (∀ A B v, collapseSub tiny fuel A B = .ok v → A.NumsIn (· ∈ S) → B.NumsIn (· ∈ S) →
      Good S v (.sub A B)) ∧
    (∀ c v, collapseMul tiny fuel c = .ok v → numsInChain (· ∈ S) c → Good S v (.mul c)) := by
  induction fuel with
  | zero =>
      exact ⟨by simp [collapse], by simp [collapseTr], by simp [collapseAdd],
        by simp [collapseAddRec], by simp [collapseSub], by simp [collapseMul]⟩
  | succ fuel ih =>
      obtain ⟨ihC, ihT, ihA, ihR, ihS, ihM⟩ := ih
      refine ⟨?_, ?_, ?_, ?_, ?_, ?_⟩
      · intro e v h hn
        cases e with
        | num c => simp only [collapse, Except.ok.injEq] at h; subst h; exact ⟨rfl, hn⟩
        | mat M => simp only [collapse, Except.ok.injEq] at h; subst h; exact ⟨rfl, hn⟩
        | op r =>
            simp only [collapse] at h
            cases r with
            | ok M =>
                simp only [Except.ok.injEq] at h
                subst h
                exact ⟨by funext x; simp [Val.expr, Expr.act], by simp [Val.expr, Expr.NumsIn]⟩
            | error e => simp at h
        | mul c => simp only [collapse] at h; exact ihM c v h (by simpa [Expr.NumsIn] using hn)
        | add A B =>
            simp only [collapse] at h; simp only [Expr.NumsIn] at hn
            exact ihA A B v h hn.1 hn.2
        | sub A B =>
            simp only [collapse] at h; simp only [Expr.NumsIn] at hn
            exact ihS A B v h hn.1 hn.2
        | tr A =>
            simp only [collapse] at h; simp only [Expr.NumsIn] at hn
            exact ihT A v h hn
      · intro A v h hn
        simp only [collapseTr] at h
        split at h
        · cases h
          exact ⟨by funext x; simp [Val.expr, Expr.act, Expr.actT], by simp [Val.expr, Expr.NumsIn]⟩
        · split at h <;> cases h
      · intro A B v h hA hB
        simp only [collapseAdd] at h
        split at h
        · rename_i M c
          split at h
          · rename_i ht
            cases h
            have : c = 0 := hS c (by simpa [Expr.NumsIn] using hB) ht
            subst this
            exact ⟨by funext x i; simp [Val.expr, Expr.act], by simp [Val.expr, Expr.NumsIn]⟩
          · exact ihR _ _ v h hA hB
        · rename_i c M
          split at h
          · rename_i ht
            cases h
            have : c = 0 := hS c (by simpa [Expr.NumsIn] using hA) ht
            subst this
            exact ⟨by funext x i; simp [Val.expr, Expr.act], by simp [Val.expr, Expr.NumsIn]⟩
          · exact ihR _ _ v h hA hB
        · obtain ⟨h1, h2⟩ := matAxpy_good S _ _ _ _ h
          exact ⟨by funext x i; rw [h2]; simp [Expr.act], h1⟩
        · exact ihR _ _ v h hA hB
      · intro A B v h hA hB
        simp only [collapseAddRec] at h
        rw [py_bind_eq_ok] at h
        obtain ⟨a, ha, h⟩ := h
        rw [py_bind_eq_ok] at h
        obtain ⟨b, hb, h⟩ := h
        obtain ⟨a1, a2⟩ := ihC A a ha hA
        obtain ⟨b1, b2⟩ := ihC B b hb hB
        have : collapseAdd tiny fuel a.expr b.expr = .ok v := by
          split at h
          · cases h
          · exact h
        obtain ⟨r1, r2⟩ := ihA _ _ v this a2 b2
        exact ⟨by rw [r1]; funext x i; simp only [Expr.act, a1, b1], r2⟩
      · intro A B v h hA hB
        simp only [collapseSub] at h
        split at h
        · obtain ⟨h1, h2⟩ := matAxpy_good S _ _ _ _ h
          exact ⟨by funext x i; rw [h2]; simp [Expr.act]; ring, h1⟩
        · rw [py_bind_eq_ok] at h
          obtain ⟨a, ha, h⟩ := h
          rw [py_bind_eq_ok] at h
          obtain ⟨b, hb, h⟩ := h
          obtain ⟨a1, a2⟩ := ihC A a ha hA
          obtain ⟨b1, b2⟩ := ihC B b hb hB
          have : collapseSub tiny fuel a.expr b.expr = .ok v := by
            split at h
            · cases h
            · exact h
          obtain ⟨r1, r2⟩ := ihS _ _ v this a2 b2
          exact ⟨by rw [r1]; funext x i; simp only [Expr.act, a1, b1], r2⟩
      · intro c v h hc
        unfold collapseMul at h
        split at h
        · rename_i heq; cases heq
        · cases h
        · rename_i fuel' A B heq
          cases heq
          simp only [numsInChain] at hc
          obtain ⟨hA, hB, -⟩ := hc
          split at h
          · rename_i M N
            unfold matMul at h
            split at h
            · rename_i hs
              cases h
              exact ⟨by funext x; simp only [Val.expr, Expr.act, actChain, Mat.mul_act _ _ hs],
                by simp [Val.expr, Expr.NumsIn]⟩
            · cases h
          · rename_i M c
            cases h
            exact ⟨by funext x i; simp only [Val.expr, Expr.act, actChain, Mat.scale_act, Mat.act_smul],
                by simp [Val.expr, Expr.NumsIn]⟩
          · rename_i c M
            cases h
            exact ⟨by funext x i; simp only [Val.expr, Expr.act, actChain, Mat.scale_act],
                by simp [Val.expr, Expr.NumsIn]⟩
          · rw [py_bind_eq_ok] at h
            obtain ⟨a, ha, h⟩ := h
            rw [py_bind_eq_ok] at h
            obtain ⟨b, hb, h⟩ := h
            obtain ⟨a1, a2⟩ := ihC A a ha hA
            obtain ⟨b1, b2⟩ := ihC B b hb hB
            obtain ⟨r1, r2⟩ := ihC _ v h (pyMul_numsIn S _ _ a2 b2)
            exact ⟨by rw [r1]; funext x; rw [pyMul_act]; simp only [Expr.act, actChain, a1, b1], r2⟩
        · rename_i fuel' A rest _ heq
          cases heq
          simp only [numsInChain] at hc
          obtain ⟨hA, hR⟩ := hc
          rw [py_bind_eq_ok] at h
          obtain ⟨a, ha, h⟩ := h
          rw [py_bind_eq_ok] at h
          obtain ⟨r, hr, h⟩ := h
          rw [py_bind_eq_ok] at h
          obtain ⟨b, hb, h⟩ := h
          obtain ⟨a1, a2⟩ := ihC A a ha hA
          have hr1 : r.act = actChain rest ∧ r.NumsIn (· ∈ S) := by
            cases rest with
            | nil => simp [reduceMul] at hr
            | cons q qs =>
                simp only [reduceMul, Except.ok.injEq] at hr
                subst hr
                simp only [numsInChain] at hR
                exact ⟨by funext x; rw [foldl_pyMul_act]; simp [actChain],
                  foldl_pyMul_numsIn S qs q hR.1 hR.2⟩
          obtain ⟨b1, b2⟩ := ihC r b hb hr1.2
          have hp := pyMul_numsIn S _ _ a2 b2
          have hpa := pyMul_act a.expr b.expr
          split at h
          · rename_i chain hch
            rw [hch] at hp hpa
            obtain ⟨r1, r2⟩ := ihM chain v h (by simpa [Expr.NumsIn] using hp)
            exact ⟨by rw [r1]; funext x; rw [hpa]; simp only [Expr.act, actChain, a1, b1, hr1.1], r2⟩
          · cases h

/-! ### Fuel -/

/-- The result is the same with more fuel. -/
def Mono {α : Type} (r r' : Py α) : Prop := r ≠ .error .outOfFuel → r' = r

theorem Mono.refl {α : Type} (r : Py α) : Mono r r := fun _ => rfl

theorem Mono.bind {α β : Type} {r r' : Py α} {f f' : α → Py β} (h : Mono r r')
    (hf : ∀ a, Mono (f a) (f' a)) : Mono (r >>= f) (r' >>= f') := by
  intro hne
  cases r with
  | error e =>
      simp only [py_bind_error] at hne
      rw [h (by simpa using hne)]
      rfl
  | ok a =>
      rw [h (by simp)]
      simp only [py_bind_ok] at hne ⊢
      exact hf a hne

theorem fuel_succ (tiny : Tiny K) (fuel : Nat) :
    (∀ e, Mono (collapse tiny fuel e) (collapse tiny (fuel + 1) e)) ∧
    (∀ A, Mono (collapseTr tiny fuel A) (collapseTr tiny (fuel + 1) A)) ∧
    (∀ A B, Mono (collapseAdd tiny fuel A B) (collapseAdd tiny (fuel + 1) A B)) ∧
    (∀ A B, Mono (collapseAddRec tiny fuel A B) (collapseAddRec tiny (fuel + 1) A B)) ∧
    (∀ A B, Mono (collapseSub tiny fuel A B) (collapseSub tiny (fuel + 1) A B)) ∧
    (∀ c, Mono (collapseMul tiny fuel c) (collapseMul tiny (fuel + 1) c)) := by
  induction fuel with
  | zero =>
      refine ⟨?_, ?_, ?_, ?_, ?_, ?_⟩ <;> intros <;> intro h <;>
        simp [collapse, collapseTr, collapseAdd, collapseAddRec, collapseSub, collapseMul] at h
  | succ fuel ih =>
      obtain ⟨ihC, ihT, ihA, ihR, ihS, ihM⟩ := ih
      refine ⟨?_, ?_, ?_, ?_, ?_, ?_⟩
      · intro e
        cases e with
        | num c => simp only [collapse]; exact Mono.refl _
        | mat M => simp only [collapse]; exact Mono.refl _
        | op r => simp only [collapse]; exact Mono.refl _
        | mul c => simp only [collapse]; exact ihM c
        | add A B => simp only [collapse]; exact ihA A B
        | sub A B => simp only [collapse]; exact ihS A B
        | tr A => simp only [collapse]; exact ihT A
      · intro A
        simp only [collapseTr]
        split
        · exact Mono.refl _
        · intro hne
          have := ihC (.tr A)
          revert hne this
          rcases collapse tiny fuel (.tr A) with e | v
          · intro hne this
            rw [this (by simpa using hne)]
          · intro hne this
            rw [this (by simp)]
      · intro A B
        simp only [collapseAdd]
        split
        · split
          · exact Mono.refl _
          · exact ihR _ _
        · split
          · exact Mono.refl _
          · exact ihR _ _
        · exact Mono.refl _
        · exact ihR _ _
      · intro A B
        simp only [collapseAddRec]
        refine Mono.bind (ihC A) (fun a => Mono.bind (ihC B) (fun b => ?_))
        split
        · exact Mono.refl _
        · exact ihA _ _
      · intro A B
        simp only [collapseSub]
        split
        · exact Mono.refl _
        · refine Mono.bind (ihC A) (fun a => Mono.bind (ihC B) (fun b => ?_))
          split
          · exact Mono.refl _
          · exact ihS _ _
      · intro c
        match c with
        | [] => simp only [collapseMul]; exact Mono.refl _
        | [A, B] =>
            simp only [collapseMul]
            split
            · exact Mono.refl _
            · exact Mono.refl _
            · exact Mono.refl _
            · exact Mono.bind (ihC A) (fun a => Mono.bind (ihC B) (fun b => ihC _))
        | [A] =>
            simp only [collapseMul, reduceMul]
            exact Mono.bind (ihC A) (fun a => Mono.refl _)
        | A :: B :: C :: rest =>
            simp only [collapseMul, reduceMul]
            refine Mono.bind (ihC A) (fun a => ?_)
            simp only [py_bind_ok]
            refine Mono.bind (ihC _) (fun b => ?_)
            split
            · exact ihM _
            · exact Mono.refl _

theorem fuel_le (tiny : Tiny K) {f g : Nat} (h : f ≤ g) :
    (∀ e, Mono (collapse tiny f e) (collapse tiny g e)) ∧
    (∀ c, Mono (collapseMul tiny f c) (collapseMul tiny g c)) := by
  induction g, h using Nat.le_induction with
  | base => exact ⟨fun e => Mono.refl _, fun c => Mono.refl _⟩
  | succ g _ ih =>
      obtain ⟨h1, _, _, _, _, h2⟩ := fuel_succ tiny g
      exact ⟨fun e hne => by rw [h1 e (by rw [ih.1 e hne]; exact hne), ih.1 e hne],
        fun e hne => by rw [h2 e (by rw [ih.2 e hne]; exact hne), ih.2 e hne]⟩

/-! ### Termination on conforming expressions -/

mutual
/-- Size of an expression (termination measure). -/
def Expr.sz : Expr K → Nat
  | .num _ => 1
  | .mat _ => 1
  | .op _ => 1
  | .mul chain => 1 + chainSz chain
  | .add a b => 1 + a.sz + b.sz
  | .sub a b => 1 + a.sz + b.sz
  | .tr a => 1 + a.sz
def chainSz : List (Expr K) → Nat
  | [] => 0
  | a :: as => a.sz + chainSz as
end

theorem sz_pos (e : Expr K) : 1 ≤ e.sz := by cases e <;> simp [Expr.sz] <;> omega

theorem chainSz_append (as bs : List (Expr K)) : chainSz (as ++ bs) = chainSz as + chainSz bs := by
  induction as with
  | nil => simp [chainSz]
  | cons a as ih => simp [chainSz, ih]; omega

theorem flat_sz (e : Expr K) : chainSz e.flat ≤ e.sz := by
  cases e <;> simp [Expr.flat, chainSz, Expr.sz]

theorem foldl_pyMul_sz (bs : List (Expr K)) (b : Expr K) :
    (bs.foldl pyMul b).sz ≤ 1 + chainSz b.flat + chainSz bs := by
  induction bs generalizing b with
  | nil => cases b <;> simp [Expr.sz, Expr.flat, chainSz]
  | cons c cs ih =>
      refine le_trans (ih _) ?_
      simp only [chainSz]
      have : chainSz (pyMul b c).flat ≤ chainSz b.flat + c.sz := by
        unfold pyMul
        split
        · simp [Expr.flat, chainSz, Expr.sz]
        · simp only [Expr.flat, chainSz_append]
          have := flat_sz c
          simp only [Expr.flat] at this
          omega
      omega

theorem comb_assoc {a b c ab r : Dims} (h1 : Dims.comb a b = some ab)
    (h2 : Dims.comb ab c = some r) : ∃ bc, Dims.comb b c = some bc ∧ Dims.comb a bc = some r := by
  rcases a with _ | ⟨a1, a2⟩
  · simp only [Dims.comb, Option.some.injEq] at h1
    subst h1
    exact ⟨r, h2, by simp [Dims.comb]⟩
  · rcases b with _ | ⟨b1, b2⟩
    · simp only [Dims.comb, Option.some.injEq] at h1
      subst h1
      exact ⟨c, by simp [Dims.comb], h2⟩
    · rcases c with _ | ⟨c1, c2⟩
      · simp only [Dims.comb] at h1
        split at h1
        · rename_i hab
          simp only [Option.some.injEq] at h1
          subst h1
          simp only [Dims.comb, Option.some.injEq] at h2
          subst h2
          exact ⟨some (b1, b2), by simp [Dims.comb], by simp [Dims.comb, hab]⟩
        · cases h1
      · simp only [Dims.comb] at h1
        split at h1
        · rename_i hab
          simp only [Option.some.injEq] at h1
          subst h1
          simp only [Dims.comb] at h2
          split at h2
          · rename_i hbc
            simp only [Option.some.injEq] at h2
            subst h2
            exact ⟨some (b1, c2), by simp [Dims.comb, hbc], by simp [Dims.comb, hab]⟩
          · cases h2
        · cases h1

theorem ChainDims.append {as : List (Expr K)} : ∀ {bs : List (Expr K)} {d d' r},
    ChainDims as d → ChainDims bs d' → Dims.comb d d' = some r → ChainDims (as ++ bs) r := by
  induction as with
  | nil => intro bs d d' r h; cases h
  | cons a as ih =>
      intro bs d d' r h hb hr
      cases h with
      | single ha => exact ChainDims.cons ha hb hr
      | cons ha has hc =>
          obtain ⟨bc, h1, h2⟩ := comb_assoc hc hr
          exact ChainDims.cons ha (ih has hb h1) h2

theorem HasDims.none_num {e : Expr K} (h : HasDims e none) : ∃ c, e = .num c := by
  cases h with
  | num c => exact ⟨c, rfl⟩
  | mul _ h => cases h

theorem HasDims.flat {e : Expr K} {d : Dims} (h : HasDims e d) : ChainDims e.flat d := by
  cases h with
  | mul hc _ => exact hc
  | num c => exact .single (.num c)
  | mat M => exact .single (.mat M)
  | op M => exact .single (.op M)
  | trmat M => exact .single (.trmat M)
  | add ha hb => exact .single (.add ha hb)
  | sub ha hb => exact .single (.sub ha hb)

theorem flat_ne_nil {e : Expr K} {d : Dims} (h : HasDims e d) : e.flat ≠ [] := by
  cases h <;> simp [Expr.flat]

theorem HasDims.mulChain {c : List (Expr K)} {m n : Nat} (hc : ChainDims c (some (m, n)))
    (hl : 2 ≤ c.length) : HasDims (.mul c) (some (m, n)) := by
  match c, hl with
  | a :: b :: rest, _ => exact .mul hc rfl

theorem HasDims.pyMul {a b : Expr K} {d d' r : Dims} (ha : HasDims a d) (hb : HasDims b d')
    (hr : Dims.comb d d' = some r) : HasDims (pyMul a b) r := by
  have key : ∀ m n, r = some (m, n) → HasDims (.mul (a.flat ++ b.flat)) r := by
    intro m n hmn
    subst hmn
    apply HasDims.mulChain (ha.flat.append hb.flat hr)
    have h1 := List.length_pos_iff.mpr (flat_ne_nil ha)
    have h2 := List.length_pos_iff.mpr (flat_ne_nil hb)
    simp; omega
  unfold Collapse.pyMul
  split
  · cases ha with
    | num => cases hb with
      | num => simp only [Dims.comb, Option.some.injEq] at hr; subst hr; exact .num _
  · rename_i hnn
    rcases r with _ | ⟨m, n⟩
    · rcases d with _ | ⟨d1, d2⟩
      · simp only [Dims.comb, Option.some.injEq] at hr
        subst hr
        obtain ⟨c, rfl⟩ := ha.none_num
        obtain ⟨c', rfl⟩ := hb.none_num
        exact absurd rfl (hnn c c' rfl)
      · rcases d' with _ | ⟨e1, e2⟩
        · simp [Dims.comb] at hr
        · simp only [Dims.comb] at hr
          split at hr <;> simp at hr
    · exact key m n rfl

theorem HasDims.foldl {bs : List (Expr K)} : ∀ {b : Expr K} {d d' r : Dims}, HasDims b d →
    ChainDims bs d' → Dims.comb d d' = some r → HasDims (bs.foldl Collapse.pyMul b) r := by
  induction bs with
  | nil => intro b d d' r _ h; cases h
  | cons c cs ih =>
      intro b d d' r hb hc hr
      simp only [List.foldl_cons]
      cases hc with
      | single hc => 
          simpa using hb.pyMul hc hr
      | @cons _ _ dc ds _ hc hcs hcr =>
          -- reassociate: (d ∘ dc) ∘ ds
          have : ∃ x, Dims.comb d dc = some x ∧ Dims.comb x ds = some r := by
            rcases d with _ | ⟨d1, d2⟩
            · simp only [Dims.comb, Option.some.injEq] at hr
              subst hr
              exact ⟨dc, by simp [Dims.comb], hcr⟩
            · rcases dc with _ | ⟨e1, e2⟩
              · simp only [Dims.comb, Option.some.injEq] at hcr
                subst hcr
                exact ⟨some (d1, d2), by simp [Dims.comb], hr⟩
              · rcases ds with _ | ⟨f1, f2⟩
                · simp only [Dims.comb, Option.some.injEq] at hcr
                  subst hcr
                  exact ⟨r, hr, by cases r <;> simp [Dims.comb]⟩
                · simp only [Dims.comb] at hcr
                  split at hcr
                  · rename_i hef
                    simp only [Option.some.injEq] at hcr
                    subst hcr
                    simp only [Dims.comb] at hr
                    split at hr
                    · rename_i hde
                      simp only [Option.some.injEq] at hr
                      subst hr
                      exact ⟨some (d1, e2), by simp [Dims.comb, hde], by simp [Dims.comb, hef]⟩
                    · cases hr
                  · cases hcr
          obtain ⟨x, h1, h2⟩ := this
          exact ih (hb.pyMul hc h1) hcs h2

/-- With enough fuel the value is returned. -/
def Returns (tiny : Tiny K) (e : Expr K) (v : Val K) : Prop :=
  ∃ f, ∀ g, f ≤ g → collapse tiny g e = .ok v

theorem returns_of (tiny : Tiny K) {e : Expr K} {v : Val K} {f : Nat}
    (h : collapse tiny f e = .ok v) : Returns tiny e v :=
  ⟨f, fun g hg => by rw [(fuel_le tiny hg).1 e (by rw [h]; simp), h]⟩

/-- Size of a value. -/
def Val.dims : Val K → Dims
  | .num _ => none
  | .mat M => some (M.rows, M.cols)

theorem dims_num {v : Val K} (h : v.dims = none) : ∃ c, v = .num c := by
  cases v with
  | num c => exact ⟨c, rfl⟩
  | mat M => simp [Val.dims] at h

theorem dims_mat {v : Val K} {m n : Nat} (h : v.dims = some (m, n)) :
    ∃ M, v = .mat M ∧ M.rows = m ∧ M.cols = n := by
  cases v with
  | num c => simp [Val.dims] at h
  | mat M => simp only [Val.dims, Option.some.injEq, Prod.mk.injEq] at h; exact ⟨M, rfl, h.1, h.2⟩

/-- The base cases of `collapse_mul` for values. -/
theorem collapseMul_vals {a b : Val K} {m n : Nat}
    (h : Dims.comb a.dims b.dims = some (some (m, n))) :
    ∃ v, (∀ (tiny : Tiny K) (g : Nat), collapseMul tiny (g + 1) [a.expr, b.expr] = .ok v) ∧
      v.dims = some (m, n) := by
  cases a with
  | num c =>
      cases b with
      | num c' => simp [Dims.comb, Val.dims] at h
      | mat N =>
          simp only [Val.dims, Dims.comb, Option.some.injEq] at h
          exact ⟨.mat (N.scale c), by simp [collapseMul, Val.expr],
            by simp [Val.dims, Mat.scale, h]⟩
  | mat M =>
      cases b with
      | num c' =>
          simp only [Val.dims, Dims.comb, Option.some.injEq] at h
          exact ⟨.mat (M.scale c'), by simp [collapseMul, Val.expr],
            by simp [Val.dims, Mat.scale, h]⟩
      | mat N =>
          simp only [Val.dims, Dims.comb] at h
          split at h
          · rename_i hs
            simp only [Option.some.injEq] at h
            exact ⟨.mat (M.mul N), by simp [collapseMul, Val.expr, matMul, hs],
              by simp [Val.dims, Mat.mul]; simpa using h⟩
          · cases h

theorem pyMul_vals {a b : Val K} {m n : Nat}
    (h : Dims.comb a.dims b.dims = some (some (m, n))) :
    pyMul a.expr b.expr = .mul [a.expr, b.expr] := by
  cases a <;> cases b <;> first | (simp [Dims.comb, Val.dims] at h; done) | rfl

theorem collapse_total (N : Nat) : ∀ (e : Expr K) (d : Dims), e.sz ≤ N →
    HasDims e d → ∃ v, (∀ tiny, Returns tiny e v) ∧ v.dims = d := by
  induction N with
  | zero => intro e d h; have := sz_pos e; omega
  | succ N ih =>
      intro e d hsz hd
      have addrec : ∀ (a b : Expr K) (m n : Nat), a.sz ≤ N → b.sz ≤ N →
          HasDims a (some (m, n)) → HasDims b (some (m, n)) →
          ∃ M M' : Mat K, M.rows = m ∧ M.cols = n ∧ M'.rows = m ∧ M'.cols = n ∧
            ∀ tiny, ∃ f, ∀ g, f ≤ g →
              collapse tiny g a = .ok (.mat M) ∧ collapse tiny g b = .ok (.mat M') := by
        intro a b m n ha hb hda hdb
        obtain ⟨v, hf1, hv⟩ := ih a _ ha hda
        obtain ⟨w, hf2, hw⟩ := ih b _ hb hdb
        obtain ⟨M, rfl, h1, h2⟩ := dims_mat hv
        obtain ⟨M', rfl, h3, h4⟩ := dims_mat hw
        refine ⟨M, M', h1, h2, h3, h4, fun tiny => ?_⟩
        obtain ⟨f1, hf1⟩ := hf1 tiny
        obtain ⟨f2, hf2⟩ := hf2 tiny
        exact ⟨max f1 f2, fun g hg => ⟨hf1 g (by omega), hf2 g (by omega)⟩⟩
      cases hd with
      | num c => exact ⟨.num c, fun tiny => returns_of tiny (f := 1) (by simp [collapse]), rfl⟩
      | mat M => exact ⟨.mat M, fun tiny => returns_of tiny (f := 1) (by simp [collapse]), rfl⟩
      | op M => exact ⟨.mat M, fun tiny => returns_of tiny (f := 1) (by simp [collapse]), rfl⟩
      | trmat M =>
          exact ⟨.mat M.tr,
            fun tiny => returns_of tiny (f := 2) (by simp [collapse, collapseTr]), rfl⟩
      | @add a b m n ha hb =>
          simp only [Expr.sz] at hsz
          obtain ⟨M, M', h1, h2, h3, h4, hf⟩ := addrec a b m n (by omega) (by omega) ha hb
          have hax : matAxpy 1 M M' = .ok (.mat (Mat.axpy 1 M M')) := by
            simp [matAxpy, h1, h2, h3, h4]
          refine ⟨.mat (Mat.axpy 1 M M'), fun tiny => ?_, ?_⟩
          · obtain ⟨f, hf⟩ := hf tiny
            refine returns_of tiny (f := f + 1 + 1 + 1 + 1) ?_
            obtain ⟨e1, e2⟩ := hf (f + 1) (by omega)
            have hrec : collapseAddRec tiny (f + 1 + 1) a b = .ok (.mat (Mat.axpy 1 M M')) := by
              simp only [collapseAddRec, e1, e2, py_bind_ok, Val.expr, collapseAdd, hax]
            simp only [collapse, collapseAdd]
            split
            · cases hb
            · cases ha
            · simp only [collapse, Except.ok.injEq, Val.mat.injEq] at e1 e2
              rw [e1, e2]; exact hax
            · exact hrec
          · simp [Val.dims, Mat.axpy, h1, h2]
      | @sub a b m n ha hb =>
          simp only [Expr.sz] at hsz
          obtain ⟨M, M', h1, h2, h3, h4, hf⟩ := addrec a b m n (by omega) (by omega) ha hb
          have hax : matAxpy (-1) M M' = .ok (.mat (Mat.axpy (-1) M M')) := by
            simp [matAxpy, h1, h2, h3, h4]
          refine ⟨.mat (Mat.axpy (-1) M M'), fun tiny => ?_, ?_⟩
          · obtain ⟨f, hf⟩ := hf tiny
            refine returns_of tiny (f := f + 1 + 1 + 1) ?_
            obtain ⟨e1, e2⟩ := hf (f + 1) (by omega)
            have hs : collapseSub tiny (f + 1) (.mat M) (.mat M') = .ok (.mat (Mat.axpy (-1) M M')) := by
              simp only [collapseSub, hax]
            have hc : ∀ N, collapse tiny (f + 1) (.mat N) = .ok (.mat N) := fun N => by
              simp only [collapse]
            generalize f + 1 = G at e1 e2 hs hc ⊢
            simp only [collapse, collapseSub]
            split
            · simp only [hc, Except.ok.injEq, Val.mat.injEq] at e1 e2
              rw [e1, e2]; exact hax
            · simp only [e1, e2, py_bind_ok, Val.expr, hs]
          · simp [Val.dims, Mat.axpy, h1, h2]
      | @mul a b rest d m n hc hdm =>
          subst hdm
          simp only [Expr.sz, chainSz] at hsz
          have hbpos := sz_pos b
          have hapos := sz_pos a
          cases hc with
          | @cons _ _ da ds _ ha hrest hcomb =>
          obtain ⟨va, hf1, hva⟩ := ih a da (by omega) ha
          match rest with
          | [] =>
              have hb : HasDims b ds := by
                cases hrest with
                | single h => exact h
                | cons _ h _ => cases h
              simp only [chainSz] at hsz
              obtain ⟨vb, hf2, hvb⟩ := ih b ds (by omega) hb
              rw [← hva, ← hvb] at hcomb
              obtain ⟨v, hv, hvd⟩ := collapseMul_vals hcomb
              refine ⟨v, fun tiny => ?_, hvd⟩
              obtain ⟨f1, hf1⟩ := hf1 tiny
              obtain ⟨f2, hf2⟩ := hf2 tiny
              refine returns_of tiny (f := max f1 f2 + 1 + 1 + 1 + 1) ?_
              have e1 := hf1 (max f1 f2 + 1 + 1) (by omega)
              have e2 := hf2 (max f1 f2 + 1 + 1) (by omega)
              have e3 : collapse tiny (max f1 f2 + 1 + 1) (pyMul va.expr vb.expr) = .ok v := by
                rw [pyMul_vals hcomb]; simp only [collapse, hv]
              have hcm : ∀ N, collapse tiny (max f1 f2 + 1 + 1) (.mat N) = .ok (.mat N) :=
                fun N => by simp only [collapse]
              have hcn : ∀ N, collapse tiny (max f1 f2 + 1 + 1) (.num N) = .ok (.num N) :=
                fun N => by simp only [collapse]
              have hv := hv tiny 0
              generalize max f1 f2 + 1 + 1 = G at e1 e2 e3 hcm hcn ⊢
              simp only [collapse, collapseMul]
              split
              · simp only [hcm, hcn, Except.ok.injEq] at e1 e2
                subst e1 e2
                simpa [Val.expr, collapseMul] using hv
              · simp only [hcm, hcn, Except.ok.injEq] at e1 e2
                subst e1 e2
                simpa [Val.expr, collapseMul] using hv
              · simp only [hcm, hcn, Except.ok.injEq] at e1 e2
                subst e1 e2
                simpa [Val.expr, collapseMul] using hv
              · simp only [e1, e2, py_bind_ok, e3]
          | c :: rest =>
              have hr : HasDims ((c :: rest).foldl pyMul b) ds := by
                cases hrest with
                | cons hb hcs hcc => exact hb.foldl hcs hcc
              have hsr : ((c :: rest).foldl pyMul b).sz ≤ N := by
                have h1 := foldl_pyMul_sz (c :: rest) b
                have h2 := flat_sz b
                simp only [chainSz] at h1 hsz
                omega
              obtain ⟨vb, hf2, hvb⟩ := ih _ ds hsr hr
              rw [← hva, ← hvb] at hcomb
              obtain ⟨v, hv, hvd⟩ := collapseMul_vals hcomb
              refine ⟨v, fun tiny => ?_, hvd⟩
              obtain ⟨f1, hf1⟩ := hf1 tiny
              obtain ⟨f2, hf2⟩ := hf2 tiny
              refine returns_of tiny (f := max f1 f2 + 1 + 1 + 1) ?_
              have e1 := hf1 (max f1 f2 + 1) (by omega)
              have e2 := hf2 (max f1 f2 + 1) (by omega)
              have hv := hv tiny (max f1 f2)
              generalize max f1 f2 + 1 = G at e1 e2 hv ⊢
              simp only [collapse, collapseMul, reduceMul, e1, e2, py_bind_ok, pyMul_vals hcomb, hv]

/-- Every number is in the largest submonoid. -/
theorem numsIn_top (e : Expr K) : e.NumsIn (· ∈ (⊤ : Submonoid K)) := by
  have : ∀ N, (∀ e : Expr K, e.sz ≤ N → e.NumsIn (· ∈ (⊤ : Submonoid K))) ∧
      (∀ c : List (Expr K), chainSz c ≤ N → numsInChain (· ∈ (⊤ : Submonoid K)) c) := by
    intro N
    induction N with
    | zero =>
        refine ⟨fun e he => by have := sz_pos e; omega, fun c hc => ?_⟩
        cases c with
        | nil => simp [numsInChain]
        | cons a as => have := sz_pos a; simp [chainSz] at hc; omega
    | succ N ih =>
        have h1 : ∀ e : Expr K, e.sz ≤ N + 1 → e.NumsIn (· ∈ (⊤ : Submonoid K)) := by
          intro e he
          cases e with
          | num c => simp [Expr.NumsIn]
          | mat => simp [Expr.NumsIn]
          | op => simp [Expr.NumsIn]
          | mul c => simp only [Expr.sz, Expr.NumsIn] at he ⊢; exact ih.2 c (by omega)
          | add a b =>
              simp only [Expr.sz, Expr.NumsIn] at he ⊢
              exact ⟨ih.1 a (by omega), ih.1 b (by omega)⟩
          | sub a b =>
              simp only [Expr.sz, Expr.NumsIn] at he ⊢
              exact ⟨ih.1 a (by omega), ih.1 b (by omega)⟩
          | tr a => simp only [Expr.sz, Expr.NumsIn] at he ⊢; exact ih.1 a (by omega)
        refine ⟨h1, fun c hc => ?_⟩
        induction c with
        | nil => simp [numsInChain]
        | cons a as iha =>
            simp only [chainSz, numsInChain] at hc ⊢
            exact ⟨h1 a (by omega), iha (by omega)⟩
  exact (this e.sz).1 e le_rfl

/-- Conforming expressions are converted, with the right size and action. -/
theorem collapse_conforming {e : Expr K} {d : Dims} (h : HasDims e d) :
    ∃ v, (∀ tiny, Returns tiny e v) ∧ v.dims = d ∧ v.expr.act = e.act := by
  obtain ⟨v, hv, hd⟩ := collapse_total e.sz e d le_rfl h
  refine ⟨v, hv, hd, ?_⟩
  obtain ⟨f, hf⟩ := hv (fun _ => false)
  exact ((collapse_good (fun _ => false) ⊤ (by simp) f).1 e v (hf f le_rfl) (numsIn_top e)).1

end Verif.Collapse
