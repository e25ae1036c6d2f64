import Verif.Spec.IIFunction
import Verif.Lemmas.BlockOps
/-! # Lemmas on functions in products of spaces -/
namespace Verif.IIFunction
open Verif BlockOps

variable {K : Type}

theorem put_same (h : Heap K) (a : Nat) (v : List K) : (h.put a v).vec a = v := by simp [Heap.put]

theorem put_other (h : Heap K) {a b : Nat} (hab : b ≠ a) (v : List K) : (h.put a v).vec b = h.vec b := by
  simp [Heap.put, hab]

theorem create_spec [Zero K] (W : List Space) (h : Heap K) :
    (create W h).1.map (fun f => f.space) = W ∧ Unshared (create W h).1 ∧
      (∀ f ∈ (create W h).1, h.next ≤ f.addr ∧ f.addr < (create W h).2.next ∧
        (create W h).2.vec f.addr = List.replicate f.space.dim 0) ∧
      h.next ≤ (create W h).2.next ∧ ∀ a, a < h.next → (create W h).2.vec a = h.vec a := by
  induction W generalizing h with
  | nil => simp [create, Unshared]
  | cons s W ih =>
      obtain ⟨h1, h2, h3, h4, h5⟩ := ih ⟨h.next + 1, fun b => if b = h.next then List.replicate s.dim 0 else h.vec b⟩
      simp only [create]
      simp only at h3 h4 h5
      refine ⟨by simp [h1], ?_, ?_, by omega, ?_⟩
      · unfold Unshared at h2 ⊢
        simp only [List.map_cons, List.nodup_cons]
        refine ⟨?_, h2⟩
        intro hm
        obtain ⟨f, hf, he⟩ := List.mem_map.1 hm
        have := (h3 f hf).1
        omega
      · intro f hf
        rcases List.mem_cons.1 hf with rfl | hf
        · refine ⟨le_refl _, by simp only; omega, ?_⟩
          simp only
          rw [h5 _ (by omega)]
          simp
        · obtain ⟨a, b, c⟩ := h3 f hf
          exact ⟨by omega, b, c⟩
      · intro a ha
        rw [h5 a (by omega), if_neg (by omega)]

theorem checkSizes_vec (h : Heap K) {as : List Nat} {W : List Space}
    (hs : ∀ p ∈ as.zip W, (h.vec p.1).length = p.2.dim) :
    checkSizes h ((as.map Component.vec).zip W) = .ok () := by
  induction as generalizing W with
  | nil => simp [checkSizes]
  | cons a as ih =>
      cases W with
      | nil => simp [checkSizes]
      | cons s W =>
          simp only [List.map_cons, List.zip_cons_cons, checkSizes]
          rw [if_pos (hs (a, s) (by simp))]
          exact ih (fun p hp => hs p (by simp [hp]))

theorem checkSizes_bad (h : Heap K) {as : List Nat} {W : List Space}
    (hs : ∃ p ∈ as.zip W, (h.vec p.1).length ≠ p.2.dim) :
    checkSizes h ((as.map Component.vec).zip W) = .error .assertion := by
  induction as generalizing W with
  | nil => simp at hs
  | cons a as ih =>
      cases W with
      | nil => simp at hs
      | cons s W =>
          simp only [List.map_cons, List.zip_cons_cons, checkSizes]
          split
          · rename_i he
            obtain ⟨p, hp, hn⟩ := hs
            rcases List.mem_cons.1 (by simpa using hp : p ∈ (a, s) :: as.zip W) with rfl | hp
            · exact absurd he hn
            · exact ih ⟨p, hp, hn⟩
          · rfl

theorem checkSizes_ok {h : Heap K} {cs : List Component} {W : List Space} {u : Unit} (hl : cs.length = W.length)
    (hc : checkSizes h (cs.zip W) = .ok u) : ∃ as : List Nat, cs = as.map Component.vec := by
  induction cs generalizing W with
  | nil => exact ⟨[], rfl⟩
  | cons c cs ih =>
      cases W with
      | nil => simp at hl
      | cons s W =>
          cases c with
          | fn f => simp [checkSizes] at hc
          | vec a =>
              simp only [List.zip_cons_cons, checkSizes] at hc
              split at hc
              · obtain ⟨as, rfl⟩ := ih (by simpa using hl) hc
                exact ⟨a :: as, rfl⟩
              · simp at hc

theorem wrap_all (as : List Nat) (W : List Space) :
    pyMap wrap ((as.map Component.vec).zip W) = .ok (List.zipWith (fun a s => (⟨s, a⟩ : Fn)) as W) := by
  rw [pyMap_eq_ok]
  induction as generalizing W with
  | nil => simp
  | cons a as ih =>
      cases W with
      | nil => simp
      | cons s W => exact List.Forall₂.cons rfl (ih W)

theorem asFn_all (fs : List Fn) : pyMap asFn (fs.map Component.fn) = .ok fs := by
  rw [pyMap_eq_ok]
  induction fs with
  | nil => simp
  | cons f fs ih => exact List.Forall₂.cons rfl ih

theorem asFn_ok {cs : List Component} {fs : List Fn} (h : pyMap asFn cs = .ok fs) : cs = fs.map Component.fn := by
  rw [pyMap_eq_ok] at h
  induction h with
  | nil => rfl
  | @cons c f cs fs hc _ ih =>
      cases c with
      | fn g => simp [asFn] at hc; simp [hc, ih]
      | vec a => simp [asFn] at hc

theorem entry_nest (h : Heap K) (fs : List Fn) {k j i : Nat} {f : Fn} (hj : fs[j]? = some f)
    (hat : EntryAt ((vectors h fs).map List.length) k j i) :
    (nestValues h fs)[k]? = (h.vec f.addr)[i]? := by
  induction fs generalizing j k with
  | nil => simp at hj
  | cons g fs ih =>
      obtain ⟨⟨n, hn, hi⟩, hk⟩ := hat
      cases j with
      | zero =>
          simp [vectors] at hj hn hk
          subst hj
          subst hk
          simp only [nestValues, vectors, List.map_cons, List.flatten_cons]
          rw [List.getElem?_append_left (by omega)]
      | succ j =>
          simp [vectors] at hj hn hk
          simp only [nestValues, vectors, List.map_cons, List.flatten_cons]
          rw [List.getElem?_append_right (by omega)]
          have := ih (k := k - (h.vec g.addr).length) hj ⟨⟨n, by simpa [vectors] using hn, hi⟩, by
            simp [vectors]; omega⟩
          simpa [nestValues, vectors] using this

theorem setEntry_spec (h : Heap K) (fs : List Fn) {k j i : Nat} {f : Fn} (v : K) (hj : fs[j]? = some f)
    (hat : EntryAt ((vectors h fs).map List.length) k j i) :
    setEntry h fs k v = .ok (h.put f.addr ((h.vec f.addr).set i v)) := by
  induction fs generalizing j k with
  | nil => simp at hj
  | cons g fs ih =>
      obtain ⟨⟨n, hn, hi⟩, hk⟩ := hat
      cases j with
      | zero =>
          simp [vectors] at hj hn hk
          subst hj
          subst hk
          rw [setEntry, if_pos (by omega)]
      | succ j =>
          simp [vectors] at hj hn hk
          rw [setEntry, if_neg (by omega)]
          exact ih hj ⟨⟨n, by simpa [vectors] using hn, hi⟩, by simp [vectors]; omega⟩

theorem nest_put (h : Heap K) (fs : List Fn) (hu : Unshared fs) {k j i : Nat} {f : Fn} (v : K)
    (hj : fs[j]? = some f) (hat : EntryAt ((vectors h fs).map List.length) k j i) :
    nestValues (h.put f.addr ((h.vec f.addr).set i v)) fs = (nestValues h fs).set k v := by
  induction fs generalizing j k with
  | nil => simp at hj
  | cons g fs ih =>
      obtain ⟨⟨n, hn, hi⟩, hk⟩ := hat
      simp only [Unshared, List.map_cons, List.nodup_cons] at hu
      cases j with
      | zero =>
          simp [vectors] at hj hn hk
          subst hj
          subst hk
          simp only [nestValues, vectors, List.map_cons, List.flatten_cons, put_same]
          rw [List.set_append_left _ _ (by omega)]
          congr 2
          apply List.map_congr_left
          intro x hx
          exact put_other _ (fun e => hu.1 (List.mem_map.2 ⟨x, hx, e⟩)) _
      | succ j =>
          simp [vectors] at hj hn hk
          have hne : g.addr ≠ f.addr := fun e => hu.1 (List.mem_map.2 ⟨f, List.mem_of_getElem? hj, e.symm⟩)
          simp only [nestValues, vectors, List.map_cons, List.flatten_cons, put_other _ hne]
          rw [List.set_append_right _ _ (by omega)]
          congr 1
          exact ih hu.2 hj ⟨⟨n, by simpa [vectors] using hn, hi⟩, by simp [vectors]; omega⟩

theorem interpolant_put {transfer : Space → Space → List K → Py (List K)} {h : Heap K} {t : Space} {s : Source K}
    {a : Nat} {v : List K} (hs : ∀ f : Fn, s = .fn f → f.addr ≠ a) :
    interpolant transfer (h.put a v) t s = interpolant transfer h t s := by
  cases s with
  | fn f => simp only [interpolant, put_other _ (hs f rfl)]
  | expr e => rfl

theorem forall₂_mem {α β : Type} {R S : α → β → Prop} {l : List α} {m : List β} (h : List.Forall₂ R l m)
    (hi : ∀ a b, a ∈ l → R a b → S a b) : List.Forall₂ S l m := by
  induction h with
  | nil => exact .nil
  | cons h0 _ ih => exact .cons (hi _ _ (by simp) h0) (ih (fun a b ha hr => hi a b (by simp [ha]) hr))

theorem interpolateLoop_spec (transfer : Space → Space → List K → Py (List K)) {fs : List Fn}
    {g : List (Source K)} (hl : fs.length = g.length) (hu : Unshared fs) (hd : NoEarlierTarget fs g) (h : Heap K)
    (vs : List (List K)) (hv : List.Forall₂ (fun p v => interpolant transfer h p.1.space p.2 = .ok v) (fs.zip g) vs) :
    ∃ h', interpolateLoop transfer (fs.zip g) h = (h', .ok ()) ∧ vectors h' fs = vs ∧
      ∀ a, (∀ f ∈ fs, f.addr ≠ a) → h'.vec a = h.vec a := by
  induction fs generalizing g h vs with
  | nil =>
      cases hv
      exact ⟨h, rfl, rfl, fun _ _ => rfl⟩
  | cons f fs ih =>
      cases g with
      | nil => simp at hl
      | cons s g =>
          cases hv with
          | @cons _ v _ vs hv0 hv =>
            simp only [List.zip_cons_cons, interpolateLoop, hv0]
            simp only [Unshared, List.map_cons, List.nodup_cons] at hu
            have hd' : NoEarlierTarget fs g := fun i j f' s' hij hf hs =>
              hd (i + 1) (j + 1) f' s' (by omega) (by simpa using hf) (by simpa using hs)
            have hs : ∀ s' : Fn, Source.fn s' ∈ g → s'.addr ≠ f.addr := by
              intro s' hm
              obtain ⟨j, hj⟩ := List.mem_iff_getElem?.1 hm
              exact hd 0 (j + 1) f s' (by omega) (by simp) (by simpa using hj)
            have hv' : List.Forall₂ (fun p w => interpolant transfer (h.put f.addr v) p.1.space p.2 = .ok w)
                (fs.zip g) vs := by
              refine forall₂_mem hv (fun p w hp he => ?_)
              rw [interpolant_put (fun s' e => hs s' (e ▸ (List.of_mem_zip hp).2))]
              exact he
            obtain ⟨h', h1, h2, h3⟩ := ih (by simpa using hl) hu.2 hd' _ _ hv'
            have hf : h'.vec f.addr = v := by
              rw [h3 f.addr (fun x hx e => hu.1 (List.mem_map.2 ⟨x, hx, e⟩)), put_same]
            refine ⟨h', h1, ?_, ?_⟩
            · simp only [vectors, List.map_cons, hf]
              exact congrArg _ h2
            · intro a ha
              rw [h3 a (fun x hx => ha x (by simp [hx])), put_other _ (fun e => ha f (by simp) e.symm)]

end Verif.IIFunction
