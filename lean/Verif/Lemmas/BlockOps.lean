import Mathlib.Algebra.BigOperators.Group.List.Basic
import Mathlib.Algebra.BigOperators.Ring.List
import Mathlib.Data.List.Forall2
import Mathlib.Data.List.Range
import Mathlib.Tactic.Ring
import Mathlib.Tactic.Linarith
import Verif.Spec.BlockOps
/-! Helper lemmas for the block operators. -/
namespace Verif.BlockOps

section basic
variable {α β K : Type}

theorem pyGet_ok {l : List α} {i : Nat} (h : i < l.length) : pyGet l i = .ok l[i] := by
  simp [pyGet, h]

theorem pyGet_eq_ok {l : List α} {i : Nat} {a : α} : pyGet l i = .ok a ↔ l[i]? = some a := by
  unfold pyGet
  cases l[i]? <;> simp

theorem pyMap_ok {f : α → Py β} {g : α → β} : ∀ {xs : List α}, (∀ x ∈ xs, f x = .ok (g x)) →
    pyMap f xs = .ok (xs.map g)
  | [], _ => rfl
  | x :: xs, h => by
      simp [pyMap, h x (by simp), pyMap_ok (xs := xs) (fun y hy => h y (by simp [hy]))]

theorem pyMap_eq_ok {f : α → Py β} : ∀ {xs : List α} {ys : List β},
    pyMap f xs = .ok ys ↔ List.Forall₂ (fun x y => f x = .ok y) xs ys
  | [], ys => by
      simp [pyMap, eq_comm]
  | x :: xs, ys => by
      simp only [pyMap, py_bind_eq_ok, pyMap_eq_ok (xs := xs)]
      constructor
      · rintro ⟨y, h1, r, h2, h3⟩
        simp at h3; subst h3
        exact .cons h1 h2
      · intro h
        cases h with
        | cons h1 h2 => exact ⟨_, h1, _, h2, rfl⟩

theorem petscGet_eq_ok {l : List K} {i : Nat} {a : K} : petscGet l i = .ok a ↔ l[i]? = some a := by
  unfold petscGet
  cases l[i]? <;> simp

theorem gather_eq_ok {v : List K} : ∀ {is : List Nat} {r : List K},
    gather v is = .ok r ↔ List.Forall₂ (fun i a => v[i]? = some a) is r
  | [], r => by simp [gather, eq_comm]
  | i :: is, r => by
      simp only [gather, py_bind_eq_ok, gather_eq_ok (is := is)]
      constructor
      · rintro ⟨y, h1, r, h2, h3⟩
        simp at h3; subst h3
        exact .cons (petscGet_eq_ok.1 h1) h2
      · intro h
        cases h with
        | cons h1 h2 => exact ⟨_, petscGet_eq_ok.2 h1, _, h2, rfl⟩

theorem flatBlocks_map_vec : ∀ xs : List (List K), flatBlocks (xs.map BVal.vec) = .ok xs
  | [] => rfl
  | x :: xs => by simp [flatBlocks, flatBlocks_map_vec xs]

theorem shiftDofs_range (o n : Nat) : shiftDofs o (List.range n) = List.range' o n := by
  simp [shiftDofs, List.range'_eq_map_range]

theorem gather_middle (pre m post : List K) :
    gather (pre ++ (m ++ post)) (List.range' pre.length m.length) = .ok m := by
  rw [gather_eq_ok, List.forall₂_iff_get]
  refine ⟨by simp, ?_⟩
  intro i h1 h2
  simp only [List.get_eq_getElem, List.getElem_range', Nat.one_mul]
  rw [List.getElem?_append_right (by omega)]
  simp at h1
  rw [List.getElem?_append_left (by omega)]
  simp [h1]

end basic

section scat
variable {α β : Type}

/-- The writes `ans[dest] = y` one after the other. -/
def scat : List Nat → List α → List α → List α
  | d :: ds, y :: ys, ans => scat ds ys (ans.set d y)
  | _, _, ans => ans

theorem scat_length : ∀ (is : List Nat) (ys ans : List α),
    (scat is ys ans).length = ans.length
  | [], _, _ => by simp [scat]
  | _ :: _, [], _ => by simp [scat]
  | d :: ds, y :: ys, ans => by simp [scat, scat_length ds ys]

theorem scat_not_mem : ∀ (is : List Nat) (ys ans : List α) (i : Nat), i ∉ is →
    (scat is ys ans)[i]? = ans[i]?
  | [], _, _, _, _ => by simp [scat]
  | _ :: _, [], _, _, _ => by simp [scat]
  | d :: ds, y :: ys, ans, i, h => by
      simp only [List.mem_cons, not_or] at h
      rw [scat, scat_not_mem ds ys _ i h.2, List.getElem?_set_ne (Ne.symm h.1)]

theorem scat_mem : ∀ (is : List Nat) (ys ans : List α), is.Nodup → ys.length = is.length →
    (∀ i ∈ is, i < ans.length) → List.Forall₂ (fun i y => (scat is ys ans)[i]? = some y) is ys
  | [], ys, _, _, h, _ => by
      have : ys = [] := by simpa using h
      subst this; exact .nil
  | d :: ds, [], _, _, h, _ => by simp at h
  | d :: ds, y :: ys, ans, hn, hl, hr => by
      obtain ⟨hd, hn⟩ := List.nodup_cons.1 hn
      have hdl : d < ans.length := hr d (by simp)
      refine .cons ?_ ?_
      · rw [scat, scat_not_mem ds ys _ d hd]; simp [hdl]
      · exact scat_mem ds ys (ans.set d y) hn (by simpa using hl)
          (by intro i hi; simp; exact hr i (by simp [hi]))

theorem scat_map (f : α → β) : ∀ (is : List Nat) (ys ans : List α),
    scat is (ys.map f) (ans.map f) = (scat is ys ans).map f
  | [], _, _ => by simp [scat]
  | _ :: _, [], _ => by simp [scat]
  | d :: ds, y :: ys, ans => by
      rw [List.map_cons, scat, scat, ← List.map_set, scat_map f ds ys]

/-- After writing to every place nothing of the old content is left. -/
theorem scat_full {n : Nat} {is : List Nat} {x : List α} {ys ans : List α}
    (hp : is.Perm (List.range n)) (hx : x.length = n) (ha : ans.length = n)
    (hy : List.Forall₂ (fun i y => x[i]? = some y) is ys) : scat is ys ans = x := by
  have hn : is.Nodup := hp.nodup_iff.2 List.nodup_range
  have hr : ∀ i ∈ is, i < n := fun i hi => List.mem_range.1 (hp.mem_iff.1 hi)
  have h := scat_mem is ys ans hn hy.length_eq.symm (fun i hi => by rw [ha]; exact hr i hi)
  apply List.ext_getElem?
  intro i
  by_cases hi : i < n
  · have him : i ∈ is := hp.mem_iff.2 (List.mem_range.2 hi)
    obtain ⟨k, hk, rfl⟩ := List.mem_iff_getElem.1 him
    have h1 := h.get hk (by rw [← hy.length_eq]; exact hk)
    have h2 := hy.get hk (by rw [← hy.length_eq]; exact hk)
    simp only [List.get_eq_getElem] at h1 h2
    rw [h1, h2]
  · rw [List.getElem?_eq_none (by rw [scat_length]; omega), List.getElem?_eq_none (by omega)]

end scat

section sub
variable {K : Type}

theorem scatterLoop_eq (b : List (List K)) : ∀ (is : List Nat) (src : Nat) (ans : List (List K)),
    src + is.length ≤ b.length → (∀ i ∈ is, i < ans.length) →
      scatterLoop (b.map BVal.vec) src is (ans.map BVal.vec) =
        .ok ((scat is (b.drop src) ans).map BVal.vec)
  | [], src, ans, _, _ => by simp [scatterLoop, scat]
  | d :: ds, src, ans, hl, hr => by
      simp only [List.length_cons] at hl
      have hs : src < b.length := by omega
      have hd : d < ans.length := hr d (by simp)
      have hdrop : b.drop src = b[src] :: b.drop (src + 1) := List.drop_eq_getElem_cons hs
      have ih := scatterLoop_eq b ds (src + 1) (ans.set d b[src]) (by omega)
        (by intro i hi; simp; exact hr i (by simp [hi]))
      have hg : pyGet (b.map BVal.vec) src = .ok (BVal.vec b[src]) := by
        rw [pyGet_ok (by simpa using hs)]; simp
      rw [scatterLoop, hg]
      simp only [py_bind_ok, List.length_map, hd, if_true]
      rw [hdrop, scat, ← List.map_set, ih]

theorem scat_select : ∀ (is : List Nat) (ys ans : List (List K)), is.Nodup →
    ys.length = is.length → (∀ i ∈ is, i < ans.length) → select (scat is ys ans) is = ys
  | [], ys, _, _, h, _ => by
      have : ys = [] := by simpa using h
      subst this; simp [select]
  | d :: ds, [], _, _, h, _ => by simp at h
  | d :: ds, y :: ys, ans, hn, hl, hr => by
      obtain ⟨hd, hn⟩ := List.nodup_cons.1 hn
      have hdl : d < ans.length := hr d (by simp)
      have ih := scat_select ds ys (ans.set d y) hn (by simpa using hl)
        (by intro i hi; simp; exact hr i (by simp [hi]))
      simp only [select, scat, List.map_cons] at ih ⊢
      congr 1
      simp only [List.getD_eq_getElem?_getD]
      rw [scat_not_mem ds ys _ d hd]
      simp [hdl]

theorem scat_dims {dims : List Nat} : ∀ (is : List Nat) (ys ans : List (List K)),
    HasDims dims ans → ys.map List.length = is.map (fun i => dims.getD i 0) →
      (∀ i ∈ is, i < ans.length) → HasDims dims (scat is ys ans)
  | [], _, _, h, _, _ => by simpa [scat] using h
  | _ :: _, [], _, h, _, _ => by simpa [scat] using h
  | d :: ds, y :: ys, ans, h, hl, hr => by
      simp only [List.map_cons, List.cons.injEq] at hl
      have hd : d < ans.length := hr d (by simp)
      apply scat_dims ds ys (ans.set d y) _ hl.2
      · intro i hi; simp; exact hr i (by simp [hi])
      · unfold HasDims at h ⊢
        rw [List.map_set, h, hl.1]
        have : d < dims.length := by rw [← h]; simpa using hd
        simp [this]

theorem dot_replicate_zero [Semiring K] : ∀ (x : List K) (n : Nat),
    dot x (List.replicate n 0) = 0
  | [], n => by simp [dot]
  | x :: xs, 0 => by simp [dot]
  | x :: xs, n + 1 => by
      have := dot_replicate_zero xs n
      simp only [dot] at this
      simp [dot, List.replicate_succ, this]

theorem bdot_set [Ring K] : ∀ (xs ans : List (List K)) (d : Nat) (y : List K),
    d < xs.length → d < ans.length → dot (xs.getD d []) (ans.getD d []) = 0 →
      bdot xs (ans.set d y) = bdot xs ans + dot (xs.getD d []) y
  | [], _, _, _, h, _, _ => by simp at h
  | _ :: _, [], _, _, _, h, _ => by simp at h
  | x :: xs, a :: ans, 0, y, _, _, h => by
      simp at h
      simp [bdot, h, add_comm]
  | x :: xs, a :: ans, d + 1, y, h1, h2, h => by
      have := bdot_set xs ans d y (by simpa using h1) (by simpa using h2) (by simpa using h)
      simp only [bdot] at this
      simp [bdot, this, add_assoc]

theorem bdot_scat [Ring K] (xs : List (List K)) : ∀ (is : List Nat) (ys ans : List (List K)),
    is.Nodup → ys.length = is.length → (∀ i ∈ is, i < ans.length) → xs.length = ans.length →
      (∀ i ∈ is, dot (xs.getD i []) (ans.getD i []) = 0) →
      bdot xs (scat is ys ans) = bdot xs ans + bdot (select xs is) ys
  | [], ys, _, _, h, _, _, _ => by simp [scat, select, bdot]
  | d :: ds, [], _, _, h, _, _, _ => by simp at h
  | d :: ds, y :: ys, ans, hn, hl, hr, hx, hz => by
      obtain ⟨hd, hn⟩ := List.nodup_cons.1 hn
      have hdl : d < ans.length := hr d (by simp)
      have ih := bdot_scat xs ds ys (ans.set d y) hn (by simpa using hl)
        (by intro i hi; simp; exact hr i (by simp [hi])) (by simpa using hx)
        (by
          intro i hi
          have hne : d ≠ i := by rintro rfl; exact hd hi
          have : (ans.set d y).getD i [] = ans.getD i [] := by
            simp [List.getD_eq_getElem?_getD, List.getElem?_set_ne hne]
          rw [this]
          exact hz i (by simp [hi]))
      rw [scat, ih, bdot_set xs ans d y (by omega) hdl (hz d (by simp))]
      simp [select, bdot, add_assoc]

theorem bdot_zeros [Semiring K] : ∀ (xs : List (List K)) (dims : List Nat),
    bdot xs (dims.map (fun n => List.replicate n (0 : K))) = 0
  | [], _ => by simp [bdot]
  | _ :: _, [] => by simp [bdot]
  | x :: xs, n :: dims => by
      have := bdot_zeros xs dims
      simp only [bdot] at this
      simp [bdot, dot_replicate_zero, this]

end sub

section rearrange
variable {K : Type}

theorem select_eq (xs : List (List K)) (is : List Nat) (h : ∀ i ∈ is, i < xs.length) :
    List.Forall₂ (fun i y => xs[i]? = some y) is (select xs is) := by
  rw [List.forall₂_iff_get]
  refine ⟨by simp [select], ?_⟩
  intro k h1 h2
  have := h is[k] (List.getElem_mem h1)
  simp [select, this]

theorem pyMap_pyGet_select (xs : List (List K)) (is : List Nat) (h : ∀ i ∈ is, i < xs.length) :
    pyMap (pyGet xs) is = .ok (select xs is) := by
  rw [pyMap_eq_ok]
  exact (select_eq xs is h).imp (fun i y hy => pyGet_eq_ok.2 hy)

theorem mergeGroup_ok (xs : List (List K)) (g : List Nat) (h : ∀ i ∈ g, i < xs.length)
    (hne : g ≠ []) : mergeGroup xs g = .ok (select xs g).flatten := by
  have hm := pyMap_pyGet_select xs g h
  match g, hne, hm with
  | [i], _, _ =>
      have := h i (by simp)
      simp [mergeGroup, pyGet_ok this, select, this]
  | i :: j :: r, _, hm => simp [mergeGroup, hm, nestVec, select]

theorem bareIfOne_ok : ∀ (l : List (List K)), l ≠ [] → bareIfOne l = .ok (pack l)
  | [], h => absurd rfl h
  | [v], _ => rfl
  | _ :: _ :: _, _ => rfl

theorem rearrangeTArg_pack : ∀ (l : List (List K)), rearrangeTArg (pack l) = .ok l
  | [] => rfl
  | [v] => rfl
  | a :: b :: l => by
      show flatBlocks ((a :: b :: l).map BVal.vec) = _
      exact flatBlocks_map_vec _

theorem mono_gather : ∀ (xs : List (List K)) (pre : List K),
    pyMap (gather (pre ++ xs.flatten)) (monoSets (xs.map (fun x => List.range x.length)) pre.length)
      = .ok xs
  | [], pre => rfl
  | x :: xs, pre => by
      have ih := mono_gather xs (pre ++ x)
      simp only [List.map_cons, monoSets, pyMap, shiftDofs_range, List.flatten_cons,
        gather_middle, List.length_range, py_bind_ok]
      simp only [List.append_assoc, List.length_append] at ih
      simp [ih]

/-- The index sets of a group for the standard dof numbering. -/
theorem group_gather (dims : List Nat) : ∀ (g : List Nat) (vs : List (List K)) (pre : List K),
    (∀ i ∈ g, i < dims.length) → vs.map List.length = g.map (fun i => dims.getD i 0) →
      ∃ sets, groupSets (dims.map List.range) pre.length g = .ok sets ∧ sets.length = g.length ∧
        pyMap (gather (pre ++ vs.flatten)) sets = .ok vs
  | [], vs, pre, _, h => by
      have : vs = [] := by simpa using h
      subst this
      exact ⟨[], rfl, rfl, rfl⟩
  | i :: g, [], pre, _, h => by simp at h
  | i :: g, v :: vs, pre, hr, h => by
      simp only [List.map_cons, List.cons.injEq] at h
      have hi : i < dims.length := hr i (by simp)
      have hv : v.length = dims[i] := by rw [h.1]; simp [hi]
      obtain ⟨sets, h1, h2, h3⟩ := group_gather dims g vs (pre ++ v)
        (fun j hj => hr j (by simp [hj])) h.2
      refine ⟨shiftDofs pre.length (List.range v.length) :: sets, ?_, by simp [h2], ?_⟩
      · have : pyGet (dims.map List.range) i = .ok (List.range v.length) := by
          rw [pyGet_ok (by simpa using hi)]; simp [hv]
        simp only [groupSets, this, py_bind_ok, List.length_range]
        simp only [List.length_append] at h1
        simp [h1]
      · simp only [pyMap, shiftDofs_range, List.flatten_cons, gather_middle, py_bind_ok]
        simp only [List.append_assoc] at h3
        simp [h3]

/-- `groupSets` does not depend on the vectors. -/
theorem groupWrites_ok {dims : List Nat} {g : List Nat} {vs : List (List K)}
    {sets : List (List Nat)}
    (hr : ∀ i ∈ g, i < dims.length) (hl : vs.map List.length = g.map (fun i => dims.getD i 0))
    (hs : groupSets (dims.map List.range) 0 g = .ok sets) :
    groupWrites vs.flatten sets g = .ok (g.zip vs) := by
  obtain ⟨sets', h1, h2, h3⟩ := group_gather dims g vs [] hr hl
  simp only [List.length_nil, hs, Except.ok.injEq] at h1
  subst h1
  simp only [List.nil_append] at h3
  match g, vs, hl, h3 with
  | [], _, _, h3 => simp [groupWrites, h3]
  | [i], [v], _, _ => simp [groupWrites]
  | [i], [], hl, _ => simp at hl
  | [i], _ :: _ :: _, hl, _ => simp at hl
  | i :: j :: g, vs, _, h3 => simp [groupWrites, h3]

theorem groupSets_ok (dims : List Nat) (g : List Nat) (hr : ∀ i ∈ g, i < dims.length) :
    ∃ sets, groupSets (dims.map List.range) 0 g = .ok sets ∧ sets.length = g.length := by
  obtain ⟨sets, h1, h2, _⟩ := group_gather dims g
    (g.map (fun i => List.replicate (dims.getD i 0) ())) [] hr (by simp)
  exact ⟨sets, h1, h2⟩

theorem allWrites_ok {dims : List Nat} : ∀ {mapping : List (List Nat)}
    {vss : List (List (List K))} {setss : List (List (List Nat))},
    (∀ g ∈ mapping, ∀ i ∈ g, i < dims.length) →
    List.Forall₂ (fun g vs => vs.map List.length = g.map (fun i => dims.getD i 0)) mapping vss →
    List.Forall₂ (fun g s => groupSets (dims.map List.range) 0 g = .ok s) mapping setss →
      allWrites (vss.map List.flatten) setss mapping = .ok (mapping.flatten.zip vss.flatten)
  | [], _, _, _, .nil, .nil => rfl
  | g :: mapping, vs :: vss, s :: setss, hr, .cons h1 h2, .cons h3 h4 => by
      have ih := allWrites_ok (fun g hg => hr g (by simp [hg])) h2 h4
      have hw := groupWrites_ok (hr g (by simp)) h1 h3
      have hl : g.length = vs.length := by
        have := congrArg List.length h1; simpa using this.symm
      simp only [List.map_cons, allWrites, hw, ih, py_bind_ok, List.flatten_cons]
      rw [List.zip_append hl]
      rfl

theorem applyWrites_ok : ∀ (js : List Nat) (vs : List (List K)) (u : List (Option (List K))),
    (∀ j ∈ js, j < u.length) → vs.length = js.length →
      applyWrites (js.zip vs) u = .ok (scat js (vs.map some) u)
  | [], vs, u, _, h => by simp [applyWrites, scat]
  | j :: js, [], u, _, h => by simp at h
  | j :: js, v :: vs, u, hr, h => by
      have hj := hr j (by simp)
      have ih := applyWrites_ok js vs (u.set j (some v))
        (by intro i hi; simp; exact hr i (by simp [hi])) (by simpa using h)
      simp [applyWrites, hj, ih, scat]

theorem dot_append [Semiring K] : ∀ (a b c d : List K), a.length = b.length →
    dot (a ++ c) (b ++ d) = dot a b + dot c d
  | [], [], c, d, _ => by simp [dot]
  | a :: as, b :: bs, c, d, h => by
      have := dot_append as bs c d (by simpa using h)
      simp only [dot] at this
      simp [dot, this, add_assoc]

theorem dot_flatten [Semiring K] : ∀ (xs ys : List (List K)),
    xs.map List.length = ys.map List.length → dot xs.flatten ys.flatten = bdot xs ys
  | [], [], _ => by simp [dot, bdot]
  | [], _ :: _, h => by simp at h
  | _ :: _, [], h => by simp at h
  | x :: xs, y :: ys, h => by
      simp only [List.map_cons, List.cons.injEq] at h
      have := dot_flatten xs ys h.2
      simp only [bdot] at this
      simp [List.flatten_cons, dot_append x y _ _ h.1, this, bdot]

theorem bdot_append [Semiring K] : ∀ (a b c d : List (List K)), a.length = b.length →
    bdot (a ++ c) (b ++ d) = bdot a b + bdot c d
  | [], [], c, d, _ => by simp [bdot]
  | a :: as, b :: bs, c, d, h => by
      have := bdot_append as bs c d (by simpa using h)
      simp only [bdot] at this
      simp [bdot, this, add_assoc]

theorem bdot_select [Semiring K] (xs ys : List (List K)) (is : List Nat) :
    bdot (select xs is) (select ys is) = (is.map (fun i => dot (xs.getD i []) (ys.getD i []))).sum := by
  induction is with
  | nil => simp [select, bdot]
  | cons i is ih => simp only [select, bdot] at ih; simp [select, bdot, ih]

theorem select_range (xs : List (List K)) : select xs (List.range xs.length) = xs := by
  apply List.ext_getElem
  · simp [select]
  · intro i h1 h2
    simp [select, h2]

theorem select_append (xs : List (List K)) (a b : List Nat) :
    select xs (a ++ b) = select xs a ++ select xs b := by simp [select]

theorem select_lengths {dims : List Nat} {xs : List (List K)} (h : HasDims dims xs) (is : List Nat) :
    (select xs is).map List.length = is.map (fun i => dims.getD i 0) := by
  unfold HasDims at h
  subst h
  simp only [select, List.map_map]
  apply List.map_congr_left
  intro i _
  simp only [Function.comp, List.getD_eq_getElem?_getD, List.getElem?_map]
  cases xs[i]? <;> simp

theorem flatten_map_select (xs : List (List K)) (mapping : List (List Nat)) :
    (mapping.map (select xs)).flatten = select xs mapping.flatten := by
  induction mapping with
  | nil => simp [select]
  | cons g m ih => simp [ih, select_append]

theorem bdot_merged [Semiring K] {dims : List Nat} {xs ys : List (List K)} (hx : HasDims dims xs)
    (hy : HasDims dims ys) : ∀ mapping : List (List Nat),
    bdot (mapping.map (fun g => (select xs g).flatten)) (mapping.map (fun g => (select ys g).flatten))
      = bdot (select xs mapping.flatten) (select ys mapping.flatten)
  | [] => by simp [select, bdot]
  | g :: m => by
      have ih := bdot_merged hx hy m
      rw [List.flatten_cons, select_append, select_append, bdot_append _ _ _ _ (by simp [select]),
        ← ih, ← dot_flatten (select xs g) (select ys g)
          (by rw [select_lengths hx, select_lengths hy])]
      simp [bdot]

/-- Split a vector into pieces of given lengths. -/
theorem exists_pieces : ∀ (ls : List Nat) (v : List K), v.length = ls.sum →
    ∃ vs : List (List K), vs.map List.length = ls ∧ vs.flatten = v
  | [], v, h => ⟨[], rfl, by simpa using (List.length_eq_zero_iff.1 h).symm⟩
  | l :: ls, v, h => by
      simp only [List.sum_cons] at h
      obtain ⟨vs, h1, h2⟩ := exists_pieces ls (v.drop l) (by simp [h])
      refine ⟨v.take l :: vs, ?_, by simp [h2]⟩
      simp [h1, h]

end rearrange

section offsets

theorem offsetPairs_flatten : ∀ (offs : List Nat) (f : Nat), isIncreasing offs = true →
    (∀ l ∈ offs.head?, f ≤ l) → ∀ n ∈ offs.getLast?,
      f ≤ n ∧
      ((offsetPairs f offs).map (fun fl => List.range' fl.1 (fl.2 - fl.1))).flatten =
        List.range' f (n - f)
  | [], f, h, _, n, hn => by simp [isIncreasing] at h
  | [l], f, h, hf, n, hn => by
      simp at hn hf; subst hn
      simp [offsetPairs, hf]
  | l :: m :: rest, f, h, hf, n, hn => by
      simp only [isIncreasing, Bool.and_eq_true, decide_eq_true_eq] at h
      simp at hf
      obtain ⟨h1, h2⟩ := offsetPairs_flatten (m :: rest) l h.2 (by simp; omega) n
        (by simpa using hn)
      refine ⟨by omega, ?_⟩
      rw [offsetPairs, List.map_cons, List.flatten_cons, h2]
      have e : n - f = (l - f) + (n - l) := by omega
      have e2 : f + (l - f) = l := by omega
      rw [e, ← List.range'_append_1, e2]

theorem offsetPairs_lt : ∀ (offs : List Nat) (f : Nat), isIncreasing offs = true →
    (∀ l ∈ offs.head?, f < l) → ∀ fl ∈ offsetPairs f offs, fl.1 < fl.2
  | [], f, h, _, n, hn => by simp [isIncreasing] at h
  | [l], f, h, hf, n, hn => by
      simp [offsetPairs] at hn hf; subst hn; exact hf
  | l :: m :: rest, f, h, hf, n, hn => by
      simp only [isIncreasing, Bool.and_eq_true, decide_eq_true_eq] at h
      simp at hf
      rw [offsetPairs] at hn
      rcases List.mem_cons.1 hn with rfl | hn
      · exact hf
      · exact offsetPairs_lt (m :: rest) l h.2 (by simp; omega) n hn

theorem checkOffsets_ok {offsets : List Nat} {n : Nat} (h : checkOffsets offsets n = .ok ()) :
    n ∈ offsets.getLast? ∧ isIncreasing offsets = true := by
  unfold checkOffsets at h
  cases hl : offsets.getLast? with
  | none => simp [hl] at h
  | some l =>
    simp only [hl, py_bind_eq_ok, pyAssert_eq_ok] at h
    obtain ⟨_, h1, h2⟩ := h
    simp at h1
    exact ⟨by simp [h1], h2⟩

end offsets
end Verif.BlockOps
