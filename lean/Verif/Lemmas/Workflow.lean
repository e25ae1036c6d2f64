import Verif.Spec.Workflow
import Verif.Lemmas.IIFunction
import Verif.Props.ApplyBc
/-! # Lemmas on programs which solve a block system -/
namespace Verif.Workflow
open Verif BlockOps Collapse ApplyBc IIFunction

section
variable {K : Type}

theorem writeNest_other (h : Heap K) (fs : List Fn) (y : List K) {a : Nat} (ha : ∀ f ∈ fs, f.addr ≠ a) :
    (writeNest h fs y).vec a = h.vec a := by
  induction fs generalizing h y with
  | nil => rfl
  | cons f fs ih =>
      rw [writeNest, ih _ _ (fun g hg => ha g (List.mem_cons_of_mem _ hg)),
        put_other _ (Ne.symm (ha f (by simp)))]

theorem writeNest_vectors (h : Heap K) (fs : List Fn) (hu : Unshared fs) (ys : List (List K))
    (hl : ys.map List.length = (vectors h fs).map List.length) :
    vectors (writeNest h fs ys.flatten) fs = ys := by
  induction fs generalizing h ys with
  | nil => simpa [vectors, writeNest] using hl
  | cons f fs ih =>
      cases ys with
      | nil => simp [vectors] at hl
      | cons y ys =>
          simp only [vectors, List.map_cons, List.cons.injEq] at hl
          simp only [Unshared, List.map_cons, List.nodup_cons, List.mem_map, not_exists, not_and] at hu
          have hne : ∀ g ∈ fs, g.addr ≠ f.addr := fun g hg e => hu.1 g hg e
          rw [writeNest, List.flatten_cons, ← hl.1, List.take_left' rfl, List.drop_left' rfl]
          have hv : vectors (h.put f.addr y) fs = vectors h fs := by
            refine List.map_congr_left (fun g hg => ?_)
            exact put_other _ (hne g hg) _
          have := ih (h.put f.addr y) hu.2 ys (by rw [hv]; exact hl.2)
          rw [vectors, List.map_cons, writeNest_other _ _ _ hne, put_same]
          exact congrArg _ this

/-- A vector of the size of the product space is written part by part. -/
theorem writeNest_split {ns : List Nat} (h : Heap K) (fs : List Fn) (hu : Unshared fs)
    (hs : (vectors h fs).map List.length = ns) (y : List K) (hy : y.length = ns.sum) :
    (vectors (writeNest h fs y) fs).map List.length = ns ∧ (vectors (writeNest h fs y) fs).flatten = y := by
  obtain ⟨ys, h1, h2⟩ := exists_pieces ns y hy
  have := writeNest_vectors h fs hu ys (by rw [h1, hs])
  rw [h2] at this
  rw [this]
  exact ⟨h1, h2⟩

end

variable {K : Type} [CommRing K]

theorem blockAct_length (ns : List Nat) (A : List (List (Expr K))) (hA : A.length = ns.length) (xs : List (List K)) :
    (blockAct ns A xs).map List.length = ns := by
  simp only [blockAct, List.map_map, Function.comp_def, List.length_map, List.length_range]
  exact List.map_fst_zip (by omega)

theorem flatten_inj {ns : List Nat} {xs ys : List (List K)} (hx : xs.map List.length = ns)
    (hy : ys.map List.length = ns) (h : xs.flatten = ys.flatten) : xs = ys := by
  induction xs generalizing ns ys with
  | nil => subst hx; simpa using hy
  | cons x xs ih =>
      cases ys with
      | nil => subst hx; simp at hy
      | cons y ys =>
          subst hx
          simp only [List.map_cons, List.cons.injEq] at hy
          simp only [List.flatten_cons] at h
          obtain ⟨e1, e2⟩ := List.append_inj h hy.1.symm
          rw [e1, ih rfl hy.2 e2]

theorem eq_of_fnOf {x y : List K} (hl : x.length = y.length) (h : ∀ i, i < x.length → fnOf x i = fnOf y i) : x = y := by
  refine List.ext_getElem hl (fun i h1 h2 => ?_)
  have := h i h1
  simpa [fnOf, h1, h2] using this

/-- Solutions of a converted system are the block solutions. -/
theorem converted_iff {ns : List Nat} {A : List (List (Expr K))} (hA : Conforming ns ns A) {M : Mat K}
    (hr : M.rows = ns.sum)
    (hact : ∀ xs : List (List K), xs.map List.length = ns →
        ∀ i, M.act (fnOf (convertVec xs)) i = fnOf (convertVec (blockAct ns A xs)) i)
    {b xs : List (List K)} (hb : b.map List.length = ns) (hx : xs.map List.length = ns) :
    (∀ i, i < M.rows → M.act (fnOf xs.flatten) i = fnOf (convertVec b) i) ↔ blockAct ns A xs = b := by
  have hl := blockAct_length ns A hA.1 xs
  have hlen : ∀ {z : List (List K)}, z.map List.length = ns → z.flatten.length = ns.sum := by
    intro z hz; rw [List.length_flatten, hz]
  constructor
  · intro h
    refine flatten_inj hl hb (eq_of_fnOf (by rw [hlen hl, hlen hb]) (fun i hi => ?_))
    rw [hlen hl, ← hr] at hi
    have := hact xs hx i
    simp only [convertVec] at this h
    rw [← this, h i hi]
  · intro h i _
    have := hact xs hx i
    simp only [convertVec] at this ⊢
    rw [this, h]

/-- A new function has the sizes of its spaces, nothing else changes. -/
theorem create_sizes (W : List Space) (h : Heap K) :
    Unshared (create W h).1 ∧ (vectors (create W h).2 (create W h).1).map List.length = W.map (fun s => s.dim) ∧
      (∀ f ∈ (create W h).1, h.next ≤ f.addr) ∧ ∀ a, a < h.next → (create W h).2.vec a = h.vec a := by
  obtain ⟨h1, h2, h3, _, h5⟩ := create_spec W h
  refine ⟨h2, ?_, fun f hf => (h3 f hf).1, h5⟩
  rw [vectors, List.map_map]
  conv_rhs => rw [← h1, List.map_map]
  refine List.map_congr_left (fun f hf => ?_)
  simp [(h3 f hf).2.2]

end Verif.Workflow
