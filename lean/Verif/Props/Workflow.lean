import Verif.Lemmas.Workflow
import Verif.Props.IIFunction
/-! # Solving block systems from assembly to the solution (C84) -/
namespace Verif.Workflow
open Verif BlockOps Collapse ApplyBc IIFunction

variable {K : Type} [Field K]

/-- Boundary conditions turn a system into one whose solutions are the solutions wanted. -/
theorem constrain_solutions (tiny : Tiny K) {ns : List Nat} {A : List (List (Expr K))}
    (hA : Conforming ns ns A) {b : List (List K)} (hb : b.map List.length = ns) {bcs : BcArg K}
    {data : List (List (Nat × K))} (hbc : BcsAre ns.length bcs data) (hr : InRange ns data) {diag : K}
    (hd : diag ≠ 0) (sym : Bool) :
    ∃ A' b', Conforming ns ns A' ∧ b'.map List.length = ns ∧
      (∃ f, ∀ g, f ≤ g → constrain tiny g ns A b bcs diag sym = .ok (A', b')) ∧
      ∀ xs : List (List K), xs.map List.length = ns →
        (blockAct ns A' xs = b' ↔ IsConstrainedSolution ns A b data xs) := by
  have plain : (∀ g, applyBc tiny g (.block ns ns A) (.block b) bcs diag sym false = .ok .same) → data = [] →
      ∃ A' b', Conforming ns ns A' ∧ b'.map List.length = ns ∧
      (∃ f, ∀ g, f ≤ g → constrain tiny g ns A b bcs diag sym = .ok (A', b')) ∧
      ∀ xs : List (List K), xs.map List.length = ns →
        (blockAct ns A' xs = b' ↔ IsConstrainedSolution ns A b data xs) := by
    rintro hs rfl
    refine ⟨A, b, hA, hb, ⟨0, fun g _ => by simp [constrain, hs g]⟩, fun xs _ => ⟨?_, fun h => ?_⟩⟩
    · rintro rfl
      exact ⟨fun k d v h => by simp [prescribed, lastVal] at h, fun _ _ _ => rfl⟩
    · have hl := blockAct_length ns A hA.1 xs
      have he : ∀ k d, entry (blockAct ns A xs) k d = entry b k d := fun k d => h.2 k d (by simp [prescribed, lastVal])
      have hlen : (blockAct ns A xs).length = b.length := by
        have := congrArg List.length (hl.trans hb.symm); simpa using this
      refine List.ext_getElem hlen (fun k h1 h2 => List.ext_getElem ?_ (fun d h3 h4 => ?_))
      · have := congrArg (fun l => l[k]?) (hl.trans hb.symm)
        simpa [h1, h2] using this
      · have := he k d
        simpa [entry, h1, h2, h3, h4] using this
  cases hbc with
  | none => exact plain (fun _ => rfl) rfl
  | empty => exact plain (fun _ => rfl) rfl
  | empties =>
      exact plain (fun g => applyBc_nothing tiny g _ _ diag sym false _ (Or.inr (Or.inr (Or.inr ⟨_, rfl⟩)))) rfl
  | some h1 h2 =>
      obtain ⟨A', b', m, l, ⟨f, hf⟩, hs⟩ :=
        applyBc_solutions tiny ns A hA (.block b) b (.block hb) bcs data h1 hr h2 diag hd sym
      exact ⟨matBlocks A', b', layout_conforming m, l, ⟨f, fun g hg => by rw [constrain, hf g hg]; rfl⟩, hs⟩

/-- **C84** From the assembled blocks to the solution: what the program returns solves the equations of the given
block system at all dofs without a prescribed value, has the prescribed values at the others, component by
component of the product space, and no other function has changed. -/
theorem program_solves (tiny : Tiny K) {solve : Solver K} (hs : Exact solve) {ns : List Nat}
    {A : List (List (Expr K))} (hA : Conforming ns ns A) {b : List (List K)} (hb : b.map List.length = ns)
    {bcs : BcArg K} {data : List (List (Nat × K))} (hbc : BcsAre ns.length bcs data) (hr : InRange ns data)
    {diag : K} (hd : diag ≠ 0) (sym : Bool) {W : List Space} (hW : W.map (fun s => s.dim) = ns) (h : Heap K) :
    ∃ f, ∀ g, f ≤ g → ∀ fs h', run tiny g solve ns A b bcs diag sym W h = .ok (fs, h') →
      fs.map (fun f => f.space) = W ∧ (vectors h' fs).map List.length = ns ∧
        IsConstrainedSolution ns A b data (vectors h' fs) ∧ ∀ a, a < h.next → h'.vec a = h.vec a := by
  obtain ⟨A', b', hA', hb', ⟨f1, hf1⟩, hsol⟩ := constrain_solutions tiny hA hb hbc hr hd sym
  obtain ⟨M, m1, m2, ⟨f2, hf2⟩, hact⟩ := convert_acts_partial tiny ns ns A' hA'
  refine ⟨max f1 f2, fun g hg fs h' hrun => ?_⟩
  obtain ⟨u1, u2, u3, u4⟩ := create_sizes W h
  rw [run, hf1 g (le_trans (le_max_left _ _) hg), py_bind_ok, solveBlock,
    hf2 g (le_trans (le_max_right _ _) hg), py_bind_ok, init, py_bind_ok, py_bind_eq_ok] at hrun
  obtain ⟨y, hy, he⟩ := hrun
  obtain ⟨rfl, rfl⟩ : (create W h).1 = fs ∧ writeNest (create W h).2 (create W h).1 y = h' := by
    simpa using he
  obtain ⟨y1, y2⟩ := hs M _ y hy
  rw [m2] at y1
  obtain ⟨w1, w2⟩ := writeNest_split _ _ u1 (u2.trans hW) y y1
  refine ⟨(create_spec W h).1, w1, ?_, fun a ha => ?_⟩
  · rw [← hsol _ w1, ← converted_iff hA' m1 hact hb' w1, w2]
    exact y2
  · rw [writeNest_other _ _ _ (fun f hf => by have := u3 f hf; omega), u4 a ha]

/-- **C84** The program returns its solution when the constrained system has one and just one, with a solver of
regular systems. -/
theorem program_returns (tiny : Tiny K) {solve : Solver K} (hs : SolvesRegular solve) {ns : List Nat}
    {A : List (List (Expr K))} (hA : Conforming ns ns A) {b : List (List K)} (hb : b.map List.length = ns)
    {bcs : BcArg K} {data : List (List (Nat × K))} (hbc : BcsAre ns.length bcs data) (hr : InRange ns data)
    {diag : K} (hd : diag ≠ 0) (sym : Bool)
    (huniq : ∃! xs : List (List K), xs.map List.length = ns ∧ IsConstrainedSolution ns A b data xs)
    (W : List Space) (h : Heap K) :
    ∃ f, ∀ g, f ≤ g → ∃ r, run tiny g solve ns A b bcs diag sym W h = .ok r := by
  obtain ⟨A', b', hA', hb', ⟨f1, hf1⟩, hsol⟩ := constrain_solutions tiny hA hb hbc hr hd sym
  obtain ⟨M, m1, m2, ⟨f2, hf2⟩, hact⟩ := convert_acts_partial tiny ns ns A' hA'
  obtain ⟨xs, ⟨x1, x2⟩, x3⟩ := huniq
  have hlen : ∀ {z : List (List K)}, z.map List.length = ns → z.flatten.length = ns.sum := by
    intro z hz; rw [List.length_flatten, hz]
  obtain ⟨y, hy⟩ := hs M (convertVec b') (by rw [m1, m2]) (by rw [m1]; exact hlen hb') (by
    refine ⟨xs.flatten, ⟨by rw [m2, hlen x1], (converted_iff hA' m1 hact hb' x1).2 ((hsol xs x1).2 x2)⟩, ?_⟩
    rintro y ⟨y1, y2⟩
    obtain ⟨ys, e1, rfl⟩ := exists_pieces ns y (by rw [y1, m2])
    rw [x3 ys ⟨e1, (hsol ys e1).1 ((converted_iff hA' m1 hact hb' e1).1 y2)⟩])
  refine ⟨max f1 f2, fun g hg => ?_⟩
  rw [run, hf1 g (le_trans (le_max_left _ _) hg), py_bind_ok, solveBlock,
    hf2 g (le_trans (le_max_right _ _) hg), py_bind_ok, init, py_bind_ok, hy, py_bind_ok]
  exact ⟨_, rfl⟩

/-- One pass of the loop: the components solve the constrained problem, `u0` becomes the first of them. -/
theorem step_solves (tiny : Tiny K) {solve : Solver K} (hs : Exact solve) {ns : List Nat}
    {A : List (List (Expr K))} (hA : Conforming ns ns A) {b c : List (List K)} (hb : b.map List.length = ns)
    (hc : c.map List.length = ns) {bcs bcs' : List (List (List (Nat × K)))} (hn : bcs.length = ns.length)
    (hsame : SameDofs bcs bcs') (hr : InRange ns (bcs.map List.flatten)) (hcon : Constrains (bcs.map List.flatten))
    {g : Nat} {A' : List (List (Mat K))} {b' : List (List K)} {u : Updater K} {M : Mat K}
    (happ : ∀ k, g ≤ k →
      applyBc tiny k (.block ns ns A) (.block b) (.list (dirichlet bcs)) 1 true true = .ok (.triple A' b' u))
    (hlay : MatLayout ns A')
    (m1 : M.rows = ns.sum) (m2 : M.cols = ns.sum)
    (hact : ∀ xs : List (List K), xs.map List.length = ns →
        ∀ i, M.act (fnOf (convertVec xs)) i = fnOf (convertVec (blockAct ns (matBlocks A') xs)) i)
    {wh : List Fn} (hu : Unshared wh) {h h' : Heap K} (hsz : (vectors h wh).map List.length = ns) {u0 : Nat}
    (hu0 : ∀ f ∈ wh, f.addr ≠ u0) {rhs : List K → List (List K)} (hrhs : rhs (h.vec u0) = c)
    (hstep : step solve u M wh u0 rhs (dirichlet bcs') h = .ok h') :
    (vectors h' wh).map List.length = ns ∧
      IsConstrainedSolution ns A c (bcs'.map List.flatten) (vectors h' wh) ∧
      (vectors h' wh).head? = some (h'.vec u0) := by
  obtain ⟨A'', b'', c', u', f, hf⟩ := updater_agrees_partial tiny ns A hA b c hb hc bcs bcs' hn hsame hr hcon
  obtain ⟨e1, e2, e3⟩ := hf (max f g) (le_max_left _ _)
  rw [happ _ (le_max_right _ _)] at e1
  cases e1
  have hd := sameDofs_data hsame
  have hn' : bcs'.length = ns.length := by
    have := congrArg List.length hsame
    simp at this; omega
  obtain ⟨A3, b3, l3, s3, ⟨f3, hf3⟩, hsol⟩ := applyBc_solutions tiny ns A hA (.block c) c (.block hc)
    (.list (dirichlet bcs')) (bcs'.map List.flatten)
    (.list (by simpa [dirichlet] using hn') (dirichlet_data bcs')) (sameDofs_inRange hd hr)
    (sameDofs_constrains hd hcon) 1 one_ne_zero true
  have e4 := hf (max (max f g) f3) (le_trans (le_max_left _ _) (le_max_left _ _))
  rw [hf3 _ (le_max_right _ _)] at e4
  have e5 := e4.2.1
  cases e5
  rw [step, hrhs, e3, py_bind_ok, py_bind_eq_ok] at hstep
  obtain ⟨y, hy, hstep⟩ := hstep
  rw [py_bind_eq_ok] at hstep
  obtain ⟨w, hw, he⟩ := hstep
  obtain rfl : (writeNest h wh y).put u0 ((writeNest h wh y).vec w.addr) = h' := by simpa using he
  obtain ⟨y1, y2⟩ := hs M _ y hy
  rw [m2] at y1
  obtain ⟨w1, w2⟩ := writeNest_split _ _ hu hsz y y1
  have hv : vectors ((writeNest h wh y).put u0 ((writeNest h wh y).vec w.addr)) wh = vectors (writeNest h wh y) wh := by
    refine List.map_congr_left (fun f hf => ?_)
    exact put_other _ (hu0 f hf) _
  rw [hv]
  refine ⟨w1, ?_, ?_⟩
  · rw [← hsol _ w1, ← converted_iff (layout_conforming hlay) m1 hact s3 w1, w2]
    exact y2
  · rw [put_same]
    have := (item wh 0 w).1 hw
    rw [vectors, List.head?_map, List.head?_eq_getElem?]
    simp only [Int.toNat_zero] at this
    rw [this.2]
    rfl

/-- The passes of the loop from any one on. -/
theorem loop_solves (tiny : Tiny K) {solve : Solver K} (hs : Exact solve) {ns : List Nat}
    {A : List (List (Expr K))} (hA : Conforming ns ns A) {b : List (List K)} (hb : b.map List.length = ns)
    {bcs : List (List (List (Nat × K)))} {bcsAt : Nat → List (List (List (Nat × K)))} (hn : bcs.length = ns.length)
    (hsame : ∀ k, SameDofs bcs (bcsAt k)) (hr : InRange ns (bcs.map List.flatten))
    (hcon : Constrains (bcs.map List.flatten))
    {g : Nat} {A' : List (List (Mat K))} {b' : List (List K)} {u : Updater K} {M : Mat K}
    (happ : ∀ k, g ≤ k →
      applyBc tiny k (.block ns ns A) (.block b) (.list (dirichlet bcs)) 1 true true = .ok (.triple A' b' u))
    (hlay : MatLayout ns A')
    (m1 : M.rows = ns.sum) (m2 : M.cols = ns.sum)
    (hact : ∀ xs : List (List K), xs.map List.length = ns →
        ∀ i, M.act (fnOf (convertVec xs)) i = fnOf (convertVec (blockAct ns (matBlocks A') xs)) i)
    {wh : List Fn} (hu : Unshared wh) {u0 : Nat} (hu0 : ∀ f ∈ wh, f.addr ≠ u0)
    {rhs : Nat → List K → List (List K)} (hrhs : ∀ k v, (rhs k v).map List.length = ns) :
    ∀ (n k : Nat) (h : Heap K) (hist : List (List (List K))), (vectors h wh).map List.length = ns →
      loop solve u M wh u0 rhs (fun k => dirichlet (bcsAt k)) n k h = .ok hist →
      hist.length = n ∧ Evolves ns A rhs (fun k => (bcsAt k).map List.flatten) k (h.vec u0) hist
  | 0, k, h, hist, _, hl => by
      obtain rfl : [] = hist := by simpa [loop] using hl
      exact ⟨rfl, trivial⟩
  | n + 1, k, h, hist, hsz, hl => by
      rw [loop, py_bind_eq_ok] at hl
      obtain ⟨h', h1, hl⟩ := hl
      rw [py_bind_eq_ok] at hl
      obtain ⟨rest, h2, hl⟩ := hl
      obtain rfl : vectors h' wh :: rest = hist := by simpa using hl
      obtain ⟨s1, s2, s3⟩ := step_solves tiny hs hA hb (hrhs k _) hn (hsame k) hr hcon happ hlay m1 m2 hact hu hsz hu0
        rfl h1
      obtain ⟨t1, t2⟩ := loop_solves tiny hs hA hb hn hsame hr hcon happ hlay m1 m2 hact hu hu0 hrhs n (k + 1) h' rest
        s1 h2
      exact ⟨by simp [t1], s1, s2, _, s3, t2⟩

/-- **C84** Time stepping with one matrix: after any number of passes, the solution of each pass solves the
constrained problem with the right-hand side of its time, assembled with the solution of the pass before, and with
the boundary values of its time, although boundary conditions were applied to the matrix only once, with the values
of the initial time. -/
theorem time_stepping (tiny : Tiny K) {solve : Solver K} (hs : Exact solve) {ns : List Nat}
    {A : List (List (Expr K))} (hA : Conforming ns ns A) {b : List (List K)} (hb : b.map List.length = ns)
    {bcs : List (List (List (Nat × K)))} {bcsAt : Nat → List (List (List (Nat × K)))} (hn : bcs.length = ns.length)
    (hsame : ∀ k, SameDofs bcs (bcsAt k)) (hr : InRange ns (bcs.map List.flatten))
    (hcon : Constrains (bcs.map List.flatten)) {W : List Space} (hW : W.map (fun s => s.dim) = ns)
    {rhs : Nat → List K → List (List K)} (hrhs : ∀ k v, (rhs k v).map List.length = ns) (h : Heap K) {u0 : Nat}
    (hu0 : u0 < h.next) :
    ∃ f, ∀ g, f ≤ g → ∀ n hist,
      timeDep tiny g solve ns A b (.list (dirichlet bcs)) W u0 rhs (fun k => dirichlet (bcsAt k)) n h = .ok hist →
      hist.length = n ∧ Evolves ns A rhs (fun k => (bcsAt k).map List.flatten) 0 (h.vec u0) hist := by
  obtain ⟨A', b', u, f1, hlay, hl, hf1⟩ := applyBc_contract_partial tiny ns A hA (.block b) b (.block hb)
    (.list (dirichlet bcs)) (bcs.map List.flatten) (.list (by simpa [dirichlet] using hn) (dirichlet_data bcs)) hr hcon
    1 true
  obtain ⟨M, m1, m2, ⟨f2, hf2⟩, hact⟩ := convert_acts_partial tiny ns ns _ (layout_conforming hlay)
  refine ⟨max f1 f2, fun g hg n hist hrun => ?_⟩
  obtain ⟨u1, u2, u3, u4⟩ := create_sizes W h
  rw [timeDep, (hf1 g (le_trans (le_max_left _ _) hg)).2 rfl] at hrun
  dsimp only at hrun
  have hm := hf2 g (le_trans (le_max_right _ _) hg)
  simp only [matBlocks] at hm
  rw [init, py_bind_ok, hm, py_bind_ok] at hrun
  have := loop_solves tiny hs hA hb hn hsame hr hcon (fun k hk => (hf1 k hk).2 rfl) hlay m1 m2 hact u1
    (fun f hf => by have := u3 f hf; omega) hrhs n 0 _ hist (u2.trans hW) hrun
  rwa [u4 u0 hu0] at this

/-- A pass raises nothing when the constrained problem has one and just one solution. -/
theorem step_returns (tiny : Tiny K) {solve : Solver K} (hs : SolvesRegular solve) {ns : List Nat}
    {A : List (List (Expr K))} (hA : Conforming ns ns A) {b c : List (List K)} (hb : b.map List.length = ns)
    (hc : c.map List.length = ns) {bcs bcs' : List (List (List (Nat × K)))} (hn : bcs.length = ns.length)
    (hsame : SameDofs bcs bcs') (hr : InRange ns (bcs.map List.flatten)) (hcon : Constrains (bcs.map List.flatten))
    {g : Nat} {A' : List (List (Mat K))} {b' : List (List K)} {u : Updater K} {M : Mat K}
    (happ : ∀ k, g ≤ k →
      applyBc tiny k (.block ns ns A) (.block b) (.list (dirichlet bcs)) 1 true true = .ok (.triple A' b' u))
    (hlay : MatLayout ns A')
    (m1 : M.rows = ns.sum) (m2 : M.cols = ns.sum)
    (hact : ∀ xs : List (List K), xs.map List.length = ns →
        ∀ i, M.act (fnOf (convertVec xs)) i = fnOf (convertVec (blockAct ns (matBlocks A') xs)) i)
    (huniq : ∃! xs : List (List K), xs.map List.length = ns ∧ IsConstrainedSolution ns A c (bcs'.map List.flatten) xs)
    {wh : List Fn} (hwh : wh ≠ []) {h : Heap K} {u0 : Nat} {rhs : List K → List (List K)} (hrhs : rhs (h.vec u0) = c) :
    ∃ h', step solve u M wh u0 rhs (dirichlet bcs') h = .ok h' := by
  obtain ⟨A'', b'', c', u', f, hf⟩ := updater_agrees_partial tiny ns A hA b c hb hc bcs bcs' hn hsame hr hcon
  obtain ⟨e1, e2, e3⟩ := hf (max f g) (le_max_left _ _)
  rw [happ _ (le_max_right _ _)] at e1
  cases e1
  have hd := sameDofs_data hsame
  have hn' : bcs'.length = ns.length := by
    have := congrArg List.length hsame
    simp at this; omega
  obtain ⟨A3, b3, l3, s3, ⟨f3, hf3⟩, hsol⟩ := applyBc_solutions tiny ns A hA (.block c) c (.block hc)
    (.list (dirichlet bcs')) (bcs'.map List.flatten)
    (.list (by simpa [dirichlet] using hn') (dirichlet_data bcs')) (sameDofs_inRange hd hr)
    (sameDofs_constrains hd hcon) 1 one_ne_zero true
  have e4 := hf (max (max f g) f3) (le_trans (le_max_left _ _) (le_max_left _ _))
  rw [hf3 _ (le_max_right _ _)] at e4
  have e5 := e4.2.1
  cases e5
  obtain ⟨xs, ⟨x1, x2⟩, x3⟩ := huniq
  have hlen : ∀ {z : List (List K)}, z.map List.length = ns → z.flatten.length = ns.sum := by
    intro z hz; rw [List.length_flatten, hz]
  have hA' := layout_conforming hlay
  obtain ⟨y, hy⟩ := hs M (convertVec c') (by rw [m1, m2]) (by rw [m1]; exact hlen s3) (by
    refine ⟨xs.flatten, ⟨by rw [m2, hlen x1], (converted_iff hA' m1 hact s3 x1).2 ((hsol xs x1).2 x2)⟩, ?_⟩
    rintro y ⟨y1, y2⟩
    obtain ⟨ys, e1, rfl⟩ := exists_pieces ns y (by rw [y1, m2])
    rw [x3 ys ⟨e1, (hsol ys e1).1 ((converted_iff hA' m1 hact s3 e1).1 y2)⟩])
  cases wh with
  | nil => exact absurd rfl hwh
  | cons w wh =>
      have hw : getInt (w :: wh) 0 = .ok w := (item _ _ _).2 ⟨le_rfl, rfl⟩
      rw [step, hrhs, e3, py_bind_ok, hy, py_bind_ok, hw, py_bind_ok]
      exact ⟨_, rfl⟩

/-- **C84** No pass raises when the problems of all times have one and just one solution. -/
theorem time_stepping_returns (tiny : Tiny K) {solve : Solver K} (hex : Exact solve) (hs : SolvesRegular solve)
    {ns : List Nat} {A : List (List (Expr K))} (hA : Conforming ns ns A) {b : List (List K)}
    (hb : b.map List.length = ns)
    {bcs : List (List (List (Nat × K)))} {bcsAt : Nat → List (List (List (Nat × K)))} (hn : bcs.length = ns.length)
    (hsame : ∀ k, SameDofs bcs (bcsAt k)) (hr : InRange ns (bcs.map List.flatten))
    (hcon : Constrains (bcs.map List.flatten)) {W : List Space} (hW : W.map (fun s => s.dim) = ns)
    {rhs : Nat → List K → List (List K)} (hrhs : ∀ k v, (rhs k v).map List.length = ns)
    (huniq : ∀ k v, ∃! xs : List (List K), xs.map List.length = ns ∧
      IsConstrainedSolution ns A (rhs k v) ((bcsAt k).map List.flatten) xs)
    (h : Heap K) {u0 : Nat} (hu0 : u0 < h.next) :
    ∃ f, ∀ g, f ≤ g → ∀ n, ∃ hist,
      timeDep tiny g solve ns A b (.list (dirichlet bcs)) W u0 rhs (fun k => dirichlet (bcsAt k)) n h = .ok hist := by
  obtain ⟨A', b', u, f1, hlay, hl, hf1⟩ := applyBc_contract_partial tiny ns A hA (.block b) b (.block hb)
    (.list (dirichlet bcs)) (bcs.map List.flatten) (.list (by simpa [dirichlet] using hn) (dirichlet_data bcs)) hr hcon
    1 true
  obtain ⟨M, m1, m2, ⟨f2, hf2⟩, hact⟩ := convert_acts_partial tiny ns ns _ (layout_conforming hlay)
  refine ⟨max f1 f2, fun g hg n => ?_⟩
  obtain ⟨u1, u2, u3, u4⟩ := create_sizes W h
  rw [timeDep, (hf1 g (le_trans (le_max_left _ _) hg)).2 rfl]
  dsimp only
  have hm := hf2 g (le_trans (le_max_right _ _) hg)
  simp only [matBlocks] at hm
  rw [init, py_bind_ok, hm, py_bind_ok]
  have hwh : (create W h).1 ≠ [] := by
    intro e
    have hW0 : W = [] := by rw [← (create_spec W h).1, e]; rfl
    subst hW0
    obtain ⟨l, hl, _⟩ := hcon
    have : bcs = [] := by
      apply List.length_eq_zero_iff.mp
      rw [hn, ← hW]; rfl
    simp [this] at hl
  have hdis : ∀ f ∈ (create W h).1, f.addr ≠ u0 := fun f hf => by have := u3 f hf; omega
  have key : ∀ (n k : Nat) (h' : Heap K), (vectors h' (create W h).1).map List.length = ns →
      ∃ hist, loop solve u M (create W h).1 u0 rhs (fun k => dirichlet (bcsAt k)) n k h' = .ok hist := by
    intro n
    induction n with
    | zero => exact fun k h' _ => ⟨_, rfl⟩
    | succ n ih =>
        intro k h' hsz
        obtain ⟨h'', hst⟩ := step_returns tiny hs hA hb (hrhs k _) hn (hsame k) hr hcon (fun k hk => (hf1 k hk).2 rfl)
          hlay m1 m2 hact (huniq k _) hwh (h := h') (u0 := u0) (rhs := rhs k) rfl
        have hsz' := (step_solves tiny hex hA hb (hrhs k _) hn (hsame k) hr hcon (fun k hk => (hf1 k hk).2 rfl)
          hlay m1 m2 hact u1 hsz hdis rfl hst).1
        obtain ⟨hist, hh⟩ := ih (k + 1) h'' hsz'
        rw [loop, hst, py_bind_ok, hh, py_bind_ok]
        exact ⟨_, rfl⟩
  exact key n 0 _ (u2.trans hW)

/-! ### A system which meets the assumptions -/

open Classical in
/-- An exact solver. -/
noncomputable def oracle : Solver K := fun M b =>
  if h : ∃ y : List K, y.length = M.cols ∧ ∀ i, i < M.rows → M.act (fnOf y) i = fnOf b i then .ok h.choose
  else .error .runtimeError

theorem oracle_exact : Exact (oracle (K := K)) := by
  intro M b y hy
  unfold oracle at hy
  split at hy
  · rename_i h
    cases hy
    exact h.choose_spec
  · cases hy

theorem oracle_regular : SolvesRegular (oracle (K := K)) := by
  intro M b _ _ h
  obtain ⟨y, hy, _⟩ := h
  exact ⟨_, dif_pos ⟨y, hy⟩⟩

/-- Two unknowns `x, p` with `2 x + p = …` and `x = …`. -/
def sampleA : List (List (Expr ℚ)) := [[.num 2, .mat (Mat.lit 1 1 [[1]])], [.mat (Mat.lit 1 1 [[1]]), .num 0]]

theorem sampleA_conforming : Conforming [1, 1] [1, 1] sampleA := by
  refine ⟨rfl, ?_⟩
  intro i row r hi hr
  match i with
  | 0 =>
      simp [sampleA] at hi hr; subst hi hr
      refine ⟨rfl, fun j e c he hc => ?_⟩
      match j with
      | 0 => simp at he hc; subst he hc; exact Or.inr (Or.inr ⟨⟨2, rfl⟩, rfl, rfl⟩)
      | 1 => simp at he hc; subst he hc; exact Or.inl (.mat _)
      | j + 2 => simp at he
  | 1 =>
      simp [sampleA] at hi hr; subst hi hr
      refine ⟨rfl, fun j e c he hc => ?_⟩
      match j with
      | 0 => simp at he hc; subst he hc; exact Or.inl (.mat _)
      | 1 => simp at he hc; subst he hc; exact Or.inr (Or.inl rfl)
      | j + 2 => simp at he
  | i + 2 => simp [sampleA] at hi

theorem sample_prescribed (v : ℚ) (k j : Nat) :
    prescribed [[], [(0, v)]] k j = if k = 1 ∧ j = 0 then some v else none := by
  match k with
  | 0 => simp [prescribed, lastVal]
  | 1 =>
      match j with
      | 0 => simp [prescribed, lastVal]
      | j + 1 => simp [prescribed, lastVal]
  | k + 2 => simp [prescribed, lastVal]

theorem sample_act (x p : ℚ) : blockAct [1, 1] sampleA [[x], [p]] = [[2 * x + p], [x]] := by
  have : (Mat.lit 1 1 [[(1 : ℚ)]]).e 0 0 = 1 := by decide
  simp [blockAct, rowAct, sampleA, Expr.act, Mat.act, fnOf, this, show (Mat.lit 1 1 [[(1 : ℚ)]]).rows = 1 from rfl,
    show (Mat.lit 1 1 [[(1 : ℚ)]]).cols = 1 from rfl]

theorem sample_solution (c d v : ℚ) :
    IsConstrainedSolution [1, 1] sampleA [[c], [d]] [[], [(0, v)]] [[(c - v) / 2], [v]] := by
  refine ⟨fun k j w h => ?_, fun k j h => ?_⟩
  · rw [sample_prescribed] at h
    split at h
    · rename_i hk
      obtain ⟨rfl, rfl⟩ := hk
      simpa [entry] using h
    · cases h
  · rw [sample_prescribed] at h
    rw [sample_act]
    match k, j with
    | 0, 0 => simp [entry]; ring
    | 0, j + 1 => simp [entry]
    | 1, 0 => simp at h
    | 1, j + 1 => simp [entry]
    | k + 2, j => simp [entry]

/-- With `p` prescribed there is just one solution. -/
theorem sample_unique (c d v : ℚ) : ∃! xs : List (List ℚ), xs.map List.length = [1, 1] ∧
    IsConstrainedSolution [1, 1] sampleA [[c], [d]] [[], [(0, v)]] xs := by
  refine ⟨[[(c - v) / 2], [v]], ⟨rfl, sample_solution c d v⟩, ?_⟩
  rintro xs ⟨hx, h1, h2⟩
  match xs, hx with
  | [[x], [p]], _ =>
    have e1 := h1 1 0 v (by simp [sample_prescribed])
    have e2 := h2 0 0 (by simp [sample_prescribed])
    rw [sample_act] at e2
    simp [entry] at e1 e2
    subst e1
    have : x = (c - p) / 2 := by linarith
    rw [this]

example (h : Heap ℚ) : ∃ f, ∀ g, f ≤ g → ∃ fs h',
    run noTiny g oracle [1, 1] sampleA [[7], [0]] (.list [.list [], .dir [(0, 3)]]) 1 true [⟨0, 1⟩, ⟨1, 1⟩] h =
      .ok (fs, h') ∧ vectors h' fs = [[2], [3]] := by
  have hbc : BcsAre 2 (.list [.list [], .dir [(0, (3 : ℚ))]]) [[], [(0, 3)]] :=
    .some (.list rfl (.cons (.list (ds := []) .nil) (.cons (.dir _) .nil))) ⟨[(0, 3)], by simp, by simp⟩
  have hr : InRange [1, 1] [[], [(0, (3 : ℚ))]] := by
    intro k d v n h1 h2
    match k with
    | 0 => simp at h1
    | 1 => simp at h1 h2; omega
    | k + 2 => simp at h2
  obtain ⟨f1, h1⟩ := program_solves noTiny oracle_exact sampleA_conforming (b := [[7], [0]]) rfl hbc hr one_ne_zero true
    (W := [⟨0, 1⟩, ⟨1, 1⟩]) rfl h
  obtain ⟨f2, h2⟩ := program_returns noTiny oracle_regular sampleA_conforming (b := [[7], [0]]) rfl hbc hr one_ne_zero
    true (sample_unique 7 0 3) [⟨0, 1⟩, ⟨1, 1⟩] h
  refine ⟨max f1 f2, fun g hg => ?_⟩
  obtain ⟨⟨fs, h'⟩, hrun⟩ := h2 g (le_trans (le_max_right _ _) hg)
  obtain ⟨_, a2, a3, _⟩ := h1 g (le_trans (le_max_left _ _) hg) fs h' hrun
  have := (sample_unique 7 0 3).unique ⟨a2, a3⟩ ⟨rfl, sample_solution 7 0 3⟩
  exact ⟨fs, h', hrun, by rw [this]; norm_num⟩

example (h : Heap ℚ) (hn : 0 < h.next) : ∃ f, ∀ g, f ≤ g → ∀ n, ∃ hist,
    timeDep noTiny g oracle [1, 1] sampleA [[0], [0]] (.list (dirichlet [[], [[(0, 0)]]])) [⟨0, 1⟩, ⟨1, 1⟩] 0
      (fun _ u => [[fnOf u 0], [0]]) (fun k => dirichlet [[], [[(0, (k : ℚ))]]]) n h = .ok hist := by
  refine time_stepping_returns noTiny oracle_exact oracle_regular sampleA_conforming rfl
    (bcs := [[], [[(0, 0)]]]) (bcsAt := fun k => [[], [[(0, (k : ℚ))]]]) rfl (fun k => rfl) ?_
    ⟨[(0, 0)], by simp, by simp⟩ rfl (rhs := fun _ u => [[fnOf u 0], [0]]) (fun _ _ => rfl) (fun k v => ?_) h hn
  · intro k d v n h1 h2
    match k with
    | 0 => simp at h1
    | 1 => simp at h1 h2; omega
    | k + 2 => simp at h2
  · exact sample_unique (fnOf v 0) 0 k

end Verif.Workflow
