import Mathlib.Data.List.Basic
import Verif.Model.Memo
/-!
# C32: caches are transparent
-/
namespace Verif.Memo

section generic
variable {A κ V : Type} [DecidableEq κ]

theorem lookup_some {k : κ} {v : V} : ∀ {l : List (κ × V)}, lookup k l = some v → (k, v) ∈ l
  | [], h => by simp [lookup] at h
  | (k', v') :: r, h => by
      by_cases hk : k' = k
      · simp [lookup, hk] at h; simp [hk, h]
      · simp [lookup, hk] at h; simp [lookup_some h]

/-- The cache only holds results of calls from `S`. -/
theorem run_transparent_of (key : A → κ) (f : A → Py V) (S : A → Prop)
    (h : ∀ a b v, S a → S b → key a = key b → f a = .ok v → f b = .ok v) :
    ∀ (hist : List A) (cache : List (κ × V)), (∀ a ∈ hist, S a) →
      (∀ k v, (k, v) ∈ cache → ∃ a, S a ∧ key a = k ∧ f a = .ok v) →
      run key f cache hist = hist.map f
  | [], _, _, _ => rfl
  | a :: as, cache, hS, hc => by
      have hSa := hS a (by simp)
      have hSs : ∀ b ∈ as, S b := fun b hb => hS b (by simp [hb])
      simp only [run, List.map_cons, call]
      cases hl : lookup (key a) cache with
      | some v =>
        obtain ⟨b, hb, hk, hv⟩ := hc _ _ (lookup_some hl)
        rw [h b a v hb hSa hk hv, run_transparent_of key f S h as cache hSs hc]
      | none =>
        cases hf : f a with
        | error e => simp only; rw [run_transparent_of key f S h as cache hSs hc]
        | ok v =>
          simp only
          rw [run_transparent_of key f S h as ((key a, v) :: cache) hSs]
          intro k w hm
          rcases List.mem_cons.1 hm with he | hm
          · cases he; exact ⟨a, hSa, rfl, hf⟩
          · exact hc k w hm

/-- **C32**, all caches at once: a cache is transparent for every history of calls
exactly when two requests with the same key can be answered by the same matrix. -/
theorem cache_transparent_iff (key : A → κ) (f : A → Py V) :
    (∀ hist, run key f [] hist = hist.map f) ↔
      ∀ a b v, key a = key b → f a = .ok v → f b = .ok v := by
  constructor
  · intro h a b v hk ha
    have := h [a, b]
    simp [run, call, lookup, ha, hk] at this
    exact this.symm
  · intro h hist
    exact run_transparent_of key f (fun _ => True) (fun a b v _ _ => h a b v) hist [] (by simp)
      (by simp)

example : run (fun n : Nat => n % 3) (fun n => (.ok (n % 3) : Py Nat)) [] [1, 4, 5] =
    [.ok 1, .ok 1, .ok 2] :=
  (cache_transparent_iff _ _).2 (by intro a b v hk; simp [hk]) [1, 4, 5]

/-- Transparency for histories of well-formed requests. -/
theorem cache_transparent_on (key : A → κ) (f : A → Py V) (S : A → Prop)
    (h : ∀ a b, S a → S b → key a = key b → f a = f b) (hist : List A) (hS : ∀ a ∈ hist, S a) :
    run key f [] hist = hist.map f :=
  run_transparent_of key f S (fun a b _ ha hb hk hv => (h a b ha hb hk) ▸ hv) hist [] hS (by simp)

end generic

variable {M D : Type}

/-! ### The individual caches -/

/-- `interpolation_mat` (xii/assembler/interpolation_matrix.py:8-19): any matrix computed
from the two spaces. The number of cells, which is in the key as well, is determined by the
mesh. -/
theorem interpolation_cache_transparent (g : Space → Space → Py M) (hist : List (MeshReq D)) :
    run spacesKey (fun r => g r.V r.TV) [] hist = hist.map (fun r => g r.V r.TV) := by
  refine (cache_transparent_iff _ _).2 ?_ hist
  intro a b v hk ha
  simp only [spacesKey, Prod.mk.injEq] at hk
  rw [← hk.1, ← hk.2]; exact ha

/-- `mean_mat` (xii/assembler/mean_matrix.py:30-51): any matrix computed from the two
spaces and the data in the key. -/
theorem mean_cache_transparent [DecidableEq D] (g : Space → Space → D → Py M)
    (hist : List (MeshReq D)) :
    run dataKey (fun r => g r.V r.TV r.data) [] hist = hist.map (fun r => g r.V r.TV r.data) := by
  refine (cache_transparent_iff _ _).2 ?_ hist
  intro a b v hk ha
  simp only [dataKey, Prod.mk.injEq] at hk
  rw [← hk.1, ← hk.2.1, ← hk.2.2]; exact ha

/-- `transpose_trace_mat`, which does not read its data. -/
theorem transpose_trace_cache_transparent (g : Space → Space → Nat → Py M)
    (hist : List (MeshReq D)) :
    run transposeTraceKey (fun r => g r.V r.TV r.mesh) [] hist =
      hist.map (fun r => g r.V r.TV r.mesh) := by
  refine (cache_transparent_iff _ _).2 ?_ hist
  intro a b v hk ha
  simp only [transposeTraceKey, Prod.mk.injEq] at hk
  rw [← hk.1, ← hk.2.1, ← hk.2.2]; exact ha

/-- `avg_mat`, `flux_avg_mat`, `extension_mat` for requests in which the reduced space
lives on the reduced mesh, which is how the assembler calls them. -/
theorem average_cache_transparent_partial [DecidableEq D] (g : Space → Space → D → Py M)
    (hist : List (MeshReq D)) (hv : ∀ r ∈ hist, r.TV.mesh = r.mesh) :
    run dataKey (checkedMat g) [] hist = hist.map (checkedMat g) := by
  refine cache_transparent_on _ _ (fun r => r.TV.mesh = r.mesh) ?_ hist hv
  intro a b ha hb hk
  simp only [dataKey, Prod.mk.injEq] at hk
  unfold checkedMat
  rw [if_pos ha, if_pos hb]
  simp [hk]

/-- `restriction_mat`, `surface_mean_mat`, same condition; they do not read `data`. -/
theorem restriction_cache_transparent_partial (g : Space → Space → Py M)
    (hist : List (MeshReq D)) (hv : ∀ r ∈ hist, r.TV.mesh = r.mesh) :
    run spacesKey (checkedMat (fun V TV _ => g V TV)) [] hist =
      hist.map (checkedMat (fun V TV (_ : D) => g V TV)) := by
  refine cache_transparent_on _ _ (fun r => r.TV.mesh = r.mesh) ?_ hist hv
  intro a b ha hb hk
  simp only [spacesKey, Prod.mk.injEq] at hk
  unfold checkedMat
  rw [if_pos ha, if_pos hb]
  simp [hk]

/-- Non-vacuity of the two theorems above. -/
example : run dataKey (checkedMat (fun V TV (d : Nat) => (.ok (V.elm + TV.elm + d) : Py Nat))) []
    [⟨⟨1, 0⟩, ⟨2, 7⟩, 7, 3⟩, ⟨⟨1, 0⟩, ⟨2, 7⟩, 7, 4⟩, ⟨⟨1, 0⟩, ⟨2, 7⟩, 7, 3⟩] =
      [.ok 6, .ok 7, .ok 6] :=
  average_cache_transparent_partial _ _ (by simp)

/-- `trace_mat` for histories in which the marking function is determined by the mesh of
the trace space (each trace mesh is used with one marking function). -/
theorem trace_cache_transparent_partial (g : TraceReq → Py M) (markingOf : Nat → Nat)
    (hist : List TraceReq)
    (hv : ∀ r ∈ hist, r.traceMesh = r.TV.mesh ∧ r.marking = markingOf r.TV.mesh) :
    run TraceReq.key g [] hist = hist.map g := by
  refine cache_transparent_on _ _ (fun r => r.traceMesh = r.TV.mesh ∧ r.marking = markingOf r.TV.mesh)
    ?_ hist hv
  rintro ⟨V, TV, tm, re, no, ma, ta⟩ ⟨V', TV', tm', re', no', ma', ta'⟩ ⟨h1, h2⟩ ⟨h3, h4⟩ hk
  simp only [TraceReq.key, Prod.mk.injEq] at hk
  simp only at h1 h2 h3 h4
  obtain ⟨rfl, rfl, rfl, rfl, rfl⟩ := hk
  subst h1 h2 h3 h4
  rfl

/-- A trace matrix in which the cells with a marker in `tags` get a row,
xii/assembler/trace_matrix.py:513-558: rows are the cells of the trace mesh, `markers` the
values of the marking functions. -/
def tracedCells (markers : Nat → List Nat) (r : TraceReq) : Py (List Bool) :=
  .ok ((markers r.marking).map (fun m => r.tags.contains m))

/-- **C32** fails for `trace_mat`: the marking function is not in the key.  With the same
tags but another marking function the second request is answered by the matrix of the
first one, which has rows for other cells. -/
theorem trace_cache_not_transparent :
    ∃ markers hist, run TraceReq.key (tracedCells markers) [] hist ≠ hist.map (tracedCells markers) := by
  refine ⟨fun i => if i = 0 then [1, 0] else [0, 1],
    [⟨⟨0, 0⟩, ⟨0, 1⟩, 1, 0, 0, 0, [1]⟩, ⟨⟨0, 0⟩, ⟨0, 1⟩, 1, 0, 0, 1, [1]⟩], ?_⟩
  decide

/-- **C32** fails for `gradient_point_trace_mat`: the tangent is not in the key. For every
nonzero gradient there are two requests which differ only in the tangent, the second of
which is answered wrongly. -/
theorem gradient_point_trace_cache_not_transparent (V TV : Space) (mesh point cell : Nat)
    (g : Int) (gs : List Int) (hg : g ≠ 0) :
    let grads : MeshReq PointData → List (List Int) := fun _ => [g :: gs]
    let r₁ : MeshReq PointData := ⟨V, TV, mesh, ⟨point, cell, [1]⟩⟩
    let r₂ : MeshReq PointData := ⟨V, TV, mesh, ⟨point, cell, [-1]⟩⟩
    run pointKey (gradientRow grads) [] [r₁, r₂] ≠ [r₁, r₂].map (gradientRow grads) := by
  intro grads r₁ r₂ h
  simp [run, call, lookup, pointKey, gradientRow, grads, r₁, r₂] at h
  omega

/-- `point_trace_mat` (no tangent) and gradient traces with one tangent per point and cell. -/
theorem point_trace_cache_transparent_partial (g : MeshReq PointData → Py M)
    (tangentOf : Nat → Nat → List Int) (hist : List (MeshReq PointData))
    (hv : ∀ r ∈ hist, r.mesh = r.TV.mesh ∧ r.data.tangent = tangentOf r.data.point r.data.cell) :
    run pointKey g [] hist = hist.map g := by
  refine cache_transparent_on _ _
    (fun r => r.mesh = r.TV.mesh ∧ r.data.tangent = tangentOf r.data.point r.data.cell) ?_ hist hv
  rintro ⟨V, TV, m, ⟨p, c, t⟩⟩ ⟨V', TV', m', ⟨p', c', t'⟩⟩ ⟨h1, h2⟩ ⟨h3, h4⟩ hk
  simp only [pointKey, Prod.mk.injEq] at hk
  simp only at h1 h2 h3 h4
  obtain ⟨rfl, rfl, rfl, rfl⟩ := hk
  subst h1 h2 h3 h4
  rfl

/-- **C32** fails for `injection_matrix`: after an 'interpolate' request the 'project'
request, which is documented as missing and raises when fresh, silently gets the
interpolation matrix. -/
theorem injection_cache_not_transparent (transfer : Space → Space → M) (V TV : Space) :
    let r₁ : MeshReq InjMethod := ⟨V, TV, TV.mesh, .interpolate⟩
    let r₂ : MeshReq InjMethod := ⟨V, TV, TV.mesh, .project⟩
    run injectionKey (injectionMat transfer) [] [r₁, r₂] =
        [.ok (transfer V TV), .ok (transfer V TV)] ∧
      [r₁, r₂].map (injectionMat transfer) = [.ok (transfer V TV), .error .valueError] := by
  simp [run, call, lookup, injectionKey, injectionMat]

/-- `injection_matrix` with one and the same method throughout. -/
theorem injection_cache_transparent_partial (transfer : Space → Space → M) (m : InjMethod)
    (hist : List (MeshReq InjMethod)) (hv : ∀ r ∈ hist, r.data = m) :
    run injectionKey (injectionMat transfer) [] hist = hist.map (injectionMat transfer) := by
  refine cache_transparent_on _ _ (fun r => r.data = m) ?_ hist hv
  rintro ⟨V, TV, me, d⟩ ⟨V', TV', me', d'⟩ h1 h2 hk
  simp only [injectionKey, Prod.mk.injEq] at hk
  obtain ⟨rfl, rfl, rfl⟩ := hk
  simp only at h1 h2
  subst h1 h2
  rfl

example : run injectionKey (injectionMat (fun V TV => V.elm + TV.elm)) []
    [⟨⟨1, 0⟩, ⟨2, 1⟩, 1, .interpolate⟩, ⟨⟨1, 0⟩, ⟨2, 1⟩, 1, .interpolate⟩] = [.ok 3, .ok 3] :=
  injection_cache_transparent_partial _ .interpolate _ (by simp)

/-- **C32** for `patch_avg_mat`: transparent for all histories exactly when the matrix
does not depend on the colouring (which is not in the key). -/
theorem patch_cache_transparent_iff (g : MeshReq PatchData → Py M) :
    (∀ hist, run patchKey g [] hist = hist.map g) ↔
      ∀ V TV mesh mesh' vf pf c c' v, g ⟨V, TV, mesh, ⟨vf, pf, c⟩⟩ = .ok v →
        g ⟨V, TV, mesh', ⟨vf, pf, c'⟩⟩ = .ok v := by
  rw [cache_transparent_iff]
  constructor
  · intro h V TV mesh mesh' vf pf c c' v hv
    exact h ⟨V, TV, mesh, ⟨vf, pf, c⟩⟩ _ v rfl hv
  · rintro h ⟨V, TV, me, ⟨vf, pf, c⟩⟩ ⟨V', TV', me', ⟨vf', pf', c'⟩⟩ v hk hv
    simp only [patchKey, Prod.mk.injEq] at hk
    obtain ⟨rfl, rfl, rfl, rfl⟩ := hk
    exact h _ _ _ _ _ _ _ _ _ hv

end Verif.Memo
