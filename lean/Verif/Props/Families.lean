import Verif.Props.Elements
/-! # C61: families of the elements of reduced functions -/
namespace Verif.Elements
open Verif

theorem build_discontinuous {rank d : Nat} {c : UCell} {e : Elem} (h : build rank "Discontinuous Lagrange" c d = .ok e) :
    Discontinuous e := by
  unfold build at h
  split at h
  · injection h with h; subst h; rfl
  · injection h with h; subst h; rfl
  · injection h with h; subst h; rfl
  · cases h

mutual
/-- **C61** Traces are in discontinuous spaces, part by part. -/
theorem trace_discontinuous : ∀ (e e' : Elem), traceElement e = .ok e' → Discontinuous e'
  | .mixed subs, e', h => by
      simp only [traceElement] at h
      obtain ⟨es, h1, h2⟩ := py_bind_eq_ok.1 h
      injection h2 with h2
      subst h2
      exact traces_discontinuous subs es h1
  | .vector sub n, e', h => by
      simp only [traceElement] at h
      obtain ⟨e, h1, h2⟩ := py_bind_eq_ok.1 h
      injection h2 with h2
      subst h2
      exact trace_discontinuous sub e h1
  | .finite _ c d s, e', h => by
      simp only [traceElement] at h
      obtain ⟨c', _, h2⟩ := py_bind_eq_ok.1 h
      exact build_discontinuous h2
  | .other _ c d s, e', h => by
      simp only [traceElement] at h
      obtain ⟨c', _, h2⟩ := py_bind_eq_ok.1 h
      exact build_discontinuous h2
  | .tensor _ c d s, e', h => by
      simp only [traceElement] at h
      obtain ⟨c', _, h2⟩ := py_bind_eq_ok.1 h
      exact build_discontinuous h2
theorem traces_discontinuous : ∀ (es es' : List Elem), traceElements es = .ok es' → DiscontinuousAll es'
  | [], es', h => by
      simp only [traceElements] at h
      injection h with h
      subst h
      trivial
  | e :: es, es', h => by
      simp only [traceElements] at h
      obtain ⟨a, h1, h⟩ := py_bind_eq_ok.1 h
      obtain ⟨as, h2, h⟩ := py_bind_eq_ok.1 h
      injection h with h
      subst h
      exact ⟨trace_discontinuous e a h1, traces_discontinuous es as h2⟩
end

/-- **C61** Averages and fluxes are in discontinuous spaces. -/
theorem average_discontinuous {e e' : Elem} {m : UCell} (h : averageElement e m = .ok e' ∨ fluxElement e m = .ok e') :
    Discontinuous e' := by
  rcases h with h | h
  · obtain ⟨_, _, h⟩ := py_bind_eq_ok.1 h
    obtain ⟨_, _, h⟩ := py_bind_eq_ok.1 h
    exact build_discontinuous h
  · obtain ⟨_, _, h⟩ := py_bind_eq_ok.1 h
    obtain ⟨_, _, h⟩ := py_bind_eq_ok.1 h
    obtain ⟨_, _, h⟩ := py_bind_eq_ok.1 h
    injection h with h
    subst h
    rfl

/-- **C61** An extension of a function which is not continuous is discontinuous (of one which is continuous, continuous: see
`extension_element`). -/
theorem extension_discontinuous {e e' : Elem} (hm : ∀ es, e ≠ .mixed es) (hf : e.family ≠ "Lagrange")
    (h : extensionElement e = .ok e') : Discontinuous e' := by
  cases e with
  | mixed es => exact absurd rfl (hm es)
  | vector sub n =>
      simp only [extensionElement] at h
      obtain ⟨_, _, h⟩ := py_bind_eq_ok.1 h
      rw [extensionFamily, if_neg (by simpa only [Elem.family] using hf)] at h
      exact build_discontinuous h
  | finite f c d s =>
      simp only [extensionElement] at h
      obtain ⟨_, _, h⟩ := py_bind_eq_ok.1 h
      rw [extensionFamily, if_neg (by simpa only [Elem.family] using hf)] at h
      exact build_discontinuous h
  | other f c d s =>
      simp only [extensionElement] at h
      obtain ⟨_, _, h⟩ := py_bind_eq_ok.1 h
      rw [extensionFamily, if_neg (by simpa only [Elem.family] using hf)] at h
      exact build_discontinuous h
  | tensor f c d s =>
      simp only [extensionElement] at h
      obtain ⟨_, _, h⟩ := py_bind_eq_ok.1 h
      rw [extensionFamily, if_neg (by simpa only [Elem.family] using hf)] at h
      exact build_discontinuous h

/-- **C61** Means, means over surfaces and point values are numbers. -/
theorem values_real {e e' : Elem} {m : UCell} (h : meanElement e m = .ok e' ∨ surfaceMeanElement e = .ok e' ∨
    pointElement e m = .ok (some e') ∨ gradientPointElement e m = .ok e') : e'.family = "Real" ∧ e'.degree = 0 := by
  rcases h with h | h | h | h
  · obtain ⟨_, _, h⟩ := py_bind_eq_ok.1 h
    obtain ⟨_, _, h⟩ := py_bind_eq_ok.1 h
    obtain ⟨_, _, h⟩ := py_bind_eq_ok.1 h
    injection h with h
    subst h
    exact ⟨rfl, rfl⟩
  · obtain ⟨_, _, h⟩ := py_bind_eq_ok.1 h
    obtain ⟨_, _, h⟩ := py_bind_eq_ok.1 h
    injection h with h
    subst h
    exact ⟨rfl, rfl⟩
  · unfold pointElement at h
    split at h
    · simp only [Except.ok.injEq, Option.some.injEq] at h
      subst h
      exact ⟨rfl, rfl⟩
    · split at h
      · simp only [Except.ok.injEq, Option.some.injEq] at h
        subst h
        exact ⟨rfl, rfl⟩
      · cases h
    · split at h
      · simp only [Except.ok.injEq, Option.some.injEq] at h
        subst h
        exact ⟨rfl, rfl⟩
      · cases h
    · cases h
  · obtain ⟨_, _, h⟩ := py_bind_eq_ok.1 h
    injection h with h
    subst h
    exact ⟨rfl, rfl⟩

/-- The trace of a Taylor-Hood element on triangles: discontinuous quadratic vectors and linear functions on intervals. -/
example : traceElement (.mixed [.vector (.finite "Lagrange" ⟨.triangle, 2⟩ 2 []) 2, .finite "Lagrange" ⟨.triangle, 2⟩ 1 []]) =
    .ok (.mixed [.vector (.finite "Discontinuous Lagrange" ⟨.interval, 2⟩ 2 []) 2,
      .finite "Discontinuous Lagrange" ⟨.interval, 2⟩ 1 []]) := by
  simp [traceElement, traceElements, traceCell, build]

end Verif.Elements
