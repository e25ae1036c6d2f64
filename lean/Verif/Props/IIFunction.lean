import Verif.Lemmas.IIFunction
/-! # Properties of `ii_Function` -/
namespace Verif.IIFunction
open Verif BlockOps

variable {K : Type}

/-- A new function has one component in each space, in order, with coefficients zero, which share no vector with
each other or with anything made before. -/
theorem new_functions [Zero K] (h : Heap K) (W : List Space) :
    ∃ fs h', init h W none = .ok (fs, h') ∧ fs.map (fun f => f.space) = W ∧ Unshared fs ∧
      (∀ f ∈ fs, h.next ≤ f.addr ∧ h'.vec f.addr = List.replicate f.space.dim 0) ∧
      ∀ a, a < h.next → h'.vec a = h.vec a := by
  obtain ⟨h1, h2, h3, _, h5⟩ := create_spec W h
  exact ⟨_, _, rfl, h1, h2, fun f hf => ⟨(h3 f hf).1, (h3 f hf).2.2⟩, h5⟩

example : init (⟨0, fun _ => []⟩ : Heap Int) [⟨7, 2⟩, ⟨8, 1⟩] none ≠ .error .assertion := by
  simp [init]

/-- Vectors of the right sizes become the coefficient vectors of the components: they are shared, not copied. -/
theorem from_vectors [Zero K] (h : Heap K) {W : List Space} {as : List Nat} (hne : as ≠ [])
    (hl : as.length = W.length) (hs : ∀ p ∈ as.zip W, (h.vec p.1).length = p.2.dim) :
    init h W (some (as.map Component.vec)) = .ok (List.zipWith (fun a s => (⟨s, a⟩ : Fn)) as W, h) := by
  cases as with
  | nil => exact absurd rfl hne
  | cons a as =>
      have h1 := checkSizes_vec h hs
      have h2 := wrap_all (a :: as) W
      simp only [List.map_cons] at h1 h2
      simp only [init, List.map_cons, initComponents, List.length_cons, List.length_map]
      simp only [List.length_cons] at hl
      simp [hl, h1, h2]

example : init (⟨2, fun a => if a = 0 then [1, 2] else [3]⟩ : Heap Int) [⟨7, 2⟩, ⟨8, 1⟩]
    (some ([0, 1].map Component.vec)) = .ok ([⟨⟨7, 2⟩, 0⟩, ⟨⟨8, 1⟩, 1⟩], ⟨2, fun a => if a = 0 then [1, 2] else [3]⟩) :=
  from_vectors _ (by simp) rfl (by simp)

/-- A wrong number of components is refused. -/
theorem wrong_number_refused [Zero K] (h : Heap K) {W : List Space} {cs : List Component}
    (hl : cs.length ≠ W.length) : init h W (some cs) = .error .assertion := by
  rcases cs with _ | ⟨_ | _, cs⟩
  · have : (W.length == 0) = false := by
      cases W with
      | nil => simp at hl
      | cons s W => simp
    simp only [init, initComponents, this, pyAssert_false, py_bind_error]
  · have : ((Component.fn ‹_› :: cs).length == W.length) = false := by simpa using hl
    simp only [init, initComponents, this, pyAssert_false, py_bind_error]
  · have : ((Component.vec ‹_› :: cs).length == W.length) = false := by simpa using hl
    simp only [init, initComponents, this, pyAssert_false, py_bind_error]

example : init (⟨0, fun _ => []⟩ : Heap Int) [⟨7, 2⟩] (some []) = .error .assertion :=
  wrong_number_refused _ (by simp)

/-- Vectors one of which has a wrong size are refused. -/
theorem wrong_size_refused [Zero K] (h : Heap K) {W : List Space} {as : List Nat}
    (hl : as.length = W.length) (hs : ∃ p ∈ as.zip W, (h.vec p.1).length ≠ p.2.dim) :
    init h W (some (as.map Component.vec)) = .error .assertion := by
  cases as with
  | nil => simp at hs
  | cons a as =>
      have h1 := checkSizes_bad h hs
      simp only [List.map_cons] at h1
      simp only [init, List.map_cons, initComponents, List.length_cons, List.length_map]
      simp only [List.length_cons] at hl
      simp [hl, h1]

example : init (⟨1, fun _ => [1]⟩ : Heap Int) [⟨7, 2⟩] (some ([0].map Component.vec)) = .error .assertion :=
  wrong_size_refused _ rfl (by simp)

/-- Functions are held as they are. -/
theorem from_functions [Zero K] (h : Heap K) {W : List Space} {fs : List Fn} (hne : fs ≠ [])
    (hl : fs.length = W.length) : init h W (some (fs.map Component.fn)) = .ok (fs, h) := by
  cases fs with
  | nil => exact absurd rfl hne
  | cons f fs =>
      have h2 := asFn_all (f :: fs)
      simp only [List.map_cons] at h2
      simp only [init, List.map_cons, initComponents, List.length_cons, List.length_map]
      simp only [List.length_cons] at hl
      simp [hl, h2]

/-- Components which are accepted are all functions or all vectors. -/
theorem accepted_components [Zero K] {h h' : Heap K} {W : List Space} {cs : List Component} {fs : List Fn}
    (ho : init h W (some cs) = .ok (fs, h')) :
    h' = h ∧ ((∃ gs : List Fn, cs = gs.map Component.fn) ∨ ∃ as : List Nat, cs = as.map Component.vec) := by
  obtain ⟨gs, h1, h2⟩ := py_bind_eq_ok.1 ho
  simp only [Except.ok.injEq, Prod.mk.injEq] at h2
  refine ⟨h2.2.symm, ?_⟩
  rcases cs with _ | ⟨_ | _, cs⟩
  · exact Or.inl ⟨[], rfl⟩
  · obtain ⟨_, _, h3⟩ := py_bind_eq_ok.1 h1
    exact Or.inl ⟨gs, asFn_ok h3⟩
  · obtain ⟨_, h3, h4⟩ := py_bind_eq_ok.1 h1
    obtain ⟨_, h5, _⟩ := py_bind_eq_ok.1 h4
    exact Or.inr (checkSizes_ok (by simpa using pyAssert_eq_ok.1 h3) h5)

/-- False of functions in other spaces: the assertion about them is the assertion that a list is not empty. -/
theorem wrong_space_accepted :
    ∃ (W : List Space) (fs : List Fn) (h : Heap Int), fs.length = W.length ∧ fs.map (fun f => f.space) ≠ W ∧
      (∀ f ∈ fs, (h.vec f.addr).length = f.space.dim) ∧ init h W (some (fs.map Component.fn)) = .ok (fs, h) :=
  ⟨[⟨7, 2⟩], [⟨⟨8, 1⟩, 0⟩], ⟨1, fun _ => [5]⟩, rfl, by simp, by simp, from_functions _ (by simp) rfl⟩

/-- No components for no spaces are not accepted either. -/
theorem no_components_raise [Zero K] (h : Heap K) : init h [] (some []) = .error .stopIteration := rfl

/-- Entry `k` of the vector of the function is the entry of the component at that place, whatever has been
written to the components. -/
theorem vector_entry (h : Heap K) (fs : List Fn) {k j i : Nat} {f : Fn} (hj : fs[j]? = some f)
    (hat : EntryAt (fs.map (fun f => (h.vec f.addr).length)) k j i) :
    (nestValues h fs)[k]? = (h.vec f.addr)[i]? :=
  entry_nest h fs hj (by simpa [vectors, Function.comp_def] using hat)

/-- Assignment to an entry of the vector changes that entry of the component and of the vector, and nothing
else, if the components share no vector. -/
theorem set_vector_entry (h : Heap K) {fs : List Fn} (hu : Unshared fs) {k j i : Nat} {f : Fn} (v : K)
    (hj : fs[j]? = some f) (hat : EntryAt (fs.map (fun f => (h.vec f.addr).length)) k j i) :
    ∃ h', setEntry h fs k v = .ok h' ∧ h'.vec f.addr = (h.vec f.addr).set i v ∧
      (∀ a, a ≠ f.addr → h'.vec a = h.vec a) ∧ nestValues h' fs = (nestValues h fs).set k v := by
  have hat' : EntryAt ((vectors h fs).map List.length) k j i := by simpa [vectors, Function.comp_def] using hat
  exact ⟨_, setEntry_spec h fs v hj hat', put_same _ _ _, fun a ha => put_other _ ha _, nest_put h fs hu v hj hat'⟩

example : ∃ h' : Heap Int, setEntry ⟨2, fun a => if a = 0 then [1, 2] else [3]⟩ [⟨⟨7, 2⟩, 0⟩, ⟨⟨8, 1⟩, 1⟩] 2 9 = .ok h' ∧
    nestValues h' [⟨⟨7, 2⟩, 0⟩, ⟨⟨8, 1⟩, 1⟩] = [1, 2, 9] := by
  obtain ⟨h', h1, _, _, h4⟩ := set_vector_entry (⟨2, fun a => if a = 0 then [1, 2] else [3]⟩ : Heap Int)
    (fs := [⟨⟨7, 2⟩, 0⟩, ⟨⟨8, 1⟩, 1⟩]) (by simp [Unshared]) (k := 2) (j := 1) (i := 0) 9 rfl ⟨⟨1, by simp, by simp⟩, by simp⟩
  exact ⟨h', h1, by rw [h4]; simp [nestValues, vectors]⟩

/-- Components which share a vector are accepted, and assignment to one entry then changes two. -/
theorem shared_components :
    ∃ (h h' : Heap Int) (W : List Space) (fs : List Fn),
      init h W (some [Component.vec 0, Component.vec 0]) = .ok (fs, h) ∧ setEntry h fs 0 9 = .ok h' ∧
      nestValues h' fs ≠ (nestValues h fs).set 0 9 :=
  ⟨⟨1, fun _ => [1]⟩, Heap.put ⟨1, fun _ => [1]⟩ 0 [9], [⟨7, 1⟩, ⟨7, 1⟩], [⟨⟨7, 1⟩, 0⟩, ⟨⟨7, 1⟩, 0⟩],
    from_vectors (as := [0, 0]) _ (by simp) rfl (by simp), by simp [setEntry], by
      simp [nestValues, vectors, Heap.put]⟩

/-- Integers select the component at that place, all others are refused. -/
theorem item (fs : List Fn) (i : Int) (f : Fn) :
    getInt fs i = .ok f ↔ 0 ≤ i ∧ fs[i.toNat]? = some f := by
  unfold getInt
  by_cases h0 : 0 ≤ i
  · by_cases h1 : i < fs.length
    · have hp : (decide (0 ≤ i) && decide (i < (fs.length : Int))) = true := by simp [h0, h1]
      rw [hp, pyAssert_true, py_bind_ok, pyGet_eq_ok]
      simp [h0]
    · have hp : (decide (0 ≤ i) && decide (i < (fs.length : Int))) = false := by simp [h1]
      rw [hp, pyAssert_false, py_bind_error, List.getElem?_eq_none (by omega)]
      simp
  · have hp : (decide (0 ≤ i) && decide (i < (fs.length : Int))) = false := by simp [h0]
    rw [hp, pyAssert_false, py_bind_error]
    simp [h0]

/-- Negative integers are refused, but other indices count from the end. -/
theorem last_item (fs : List Fn) (f : Fn) :
    getInt (fs ++ [f]) (-1) = .error .assertion ∧ getOther (fs ++ [f]) (-1) = .ok f := by
  refine ⟨by simp [getInt], ?_⟩
  have h1 : ((-1 : Int) + ((fs ++ [f]).length : Int)).toNat = fs.length := by simp
  unfold getOther
  rw [if_neg (by decide), if_pos (by simp), h1, pyGet_eq_ok]
  simp

/-- Interpolation makes every component the interpolant of what was given for it, and changes nothing else, if
the components share no vector and no source is a component which is assigned before. -/
theorem interpolate_partial (transfer : Space → Space → List K → Py (List K)) {fs : List Fn}
    {g : List (Source K)} (hl : fs.length = g.length) (hu : Unshared fs) (hd : NoEarlierTarget fs g) (h : Heap K)
    {vs : List (List K)}
    (hv : List.Forall₂ (fun p v => Interpolates transfer h p.1.space p.2 v) (fs.zip g) vs) :
    ∃ h', interpolate transfer fs g h = (h', .ok ()) ∧ fs.map (fun f => h'.vec f.addr) = vs ∧
      ∀ a, (∀ f ∈ fs, f.addr ≠ a) → h'.vec a = h.vec a := by
  unfold interpolate
  rw [if_pos hl]
  refine interpolateLoop_spec transfer hl hu hd h vs (hv.imp (fun p v hp => ?_))
  rcases hp with ⟨f, h1, h2⟩ | ⟨e, h1, h2⟩
  · rw [h1]
    exact h2
  · rw [h1]
    exact h2

example : ∃ h' : Heap Int, interpolate (fun _ _ v => .ok v) [⟨⟨7, 1⟩, 0⟩, ⟨⟨7, 1⟩, 1⟩]
    [.fn ⟨⟨7, 1⟩, 1⟩, .fn ⟨⟨7, 1⟩, 2⟩] ⟨3, fun a => [(a : Int)]⟩ = (h', .ok ()) ∧
      [h'.vec 0, h'.vec 1] = [[1], [2]] := by
  obtain ⟨h', h1, h2, _⟩ := interpolate_partial (K := Int) (fun _ _ v => .ok v)
    (fs := [⟨⟨7, 1⟩, 0⟩, ⟨⟨7, 1⟩, 1⟩]) (g := [.fn ⟨⟨7, 1⟩, 1⟩, .fn ⟨⟨7, 1⟩, 2⟩]) rfl (by simp [Unshared])
    (by
      intro i j f s hij hf hs
      match i, j with
      | 0, 1 => simp at hf hs; subst hf; subst hs; simp
      | 0, j + 2 => simp at hs
      | 1, 1 => omega
      | 1, j + 2 => simp at hs
      | i + 2, j => simp at hf)
    ⟨3, fun a => [(a : Int)]⟩ (vs := [[1], [2]])
    (.cons (Or.inl ⟨_, rfl, rfl⟩) (.cons (Or.inl ⟨_, rfl, rfl⟩) .nil))
  exact ⟨h', h1, h2⟩

/-- A wrong number of sources is refused and nothing is assigned. -/
theorem interpolate_wrong_number (transfer : Space → Space → List K → Py (List K)) {fs : List Fn}
    {g : List (Source K)} (hl : fs.length ≠ g.length) (h : Heap K) :
    interpolate transfer fs g h = (h, .error .assertion) := by
  unfold interpolate
  rw [if_neg hl]

/-- False of sources which are components: exchanging two components loses one of them. -/
theorem interpolate_exchange_loses :
    ∃ (f0 f1 : Fn) (h : Heap Int), Unshared [f0, f1] ∧ f0.space = f1.space ∧
      (interpolate (fun _ _ v => .ok v) [f0, f1] [.fn f1, .fn f0] h).2 = .ok () ∧
      (interpolate (fun _ _ v => .ok v) [f0, f1] [.fn f1, .fn f0] h).1.vec f1.addr ≠ h.vec f0.addr :=
  ⟨⟨⟨7, 1⟩, 0⟩, ⟨⟨7, 1⟩, 1⟩, ⟨2, fun a => [(a : Int)]⟩, by simp [Unshared], rfl,
    by simp [interpolate, interpolateLoop, interpolant],
    by simp [interpolate, interpolateLoop, interpolant, Heap.put]⟩

/-- An interpolation which raises leaves the components before it assigned. -/
theorem interpolate_not_atomic :
    ∃ (fs : List Fn) (g : List (Source Int)) (h : Heap Int), Unshared fs ∧ NoEarlierTarget fs g ∧
      (interpolate (fun _ _ v => .ok v) fs g h).2 = .error .runtimeError ∧
      ∃ f ∈ fs, (interpolate (fun _ _ v => .ok v) fs g h).1.vec f.addr ≠ h.vec f.addr :=
  ⟨[⟨⟨7, 1⟩, 0⟩, ⟨⟨7, 1⟩, 1⟩], [.expr fun _ => .ok [9], .expr fun _ => .error .runtimeError],
    ⟨2, fun a => [(a : Int)]⟩, by simp [Unshared], by
      intro i j f s _ _ hs
      match j with
      | 0 => simp at hs
      | 1 => simp at hs
      | j + 2 => simp at hs,
    by simp [interpolate, interpolateLoop, interpolant],
    ⟨⟨7, 1⟩, 0⟩, by simp, by simp [interpolate, interpolateLoop, interpolant, Heap.put]⟩

end Verif.IIFunction
