import Verif.Spec.Annotate
/-! # C54: annotations make copies -/
namespace Verif.Annotate
open Verif

theorem name_eq (A : Annotation) : A.name = attrName A := by cases A <;> rfl

theorem alloc_set (H : Heap) (k : Kind) (a : String) (d : Nat) :
    setAttr (alloc H ⟨k, []⟩).1 (alloc H ⟨k, []⟩).2 a d = H ++ [⟨k, [(a, d)]⟩] := by
  simp [setAttr, alloc]

theorem target_copies (dg : Nat → Nat) (A : Annotation) (H : Heap) (r : Nat) (o : Obj) (hc : Copies A o) (t : Heap × Nat)
    (h : target dg A H r o = .ok t) : t = alloc H ⟨resultKind dg A o.kind, []⟩ := by
  have hcopy : ∀ t, copyOf H o = .ok t → t = alloc H ⟨o.kind, []⟩ := by
    intro t h
    unfold copyOf at h
    split at h
    · rename_i V x hk; rw [hk]; injection h with h; exact h.symm
    · rename_i n V hk
      split at h
      · rw [hk]; injection h with h; exact h.symm
      · cases h
    · cases h
    · cases h
  have hflux : ∀ t, copyFlux dg H o = .ok t → t = alloc H ⟨resultKind dg .fluxAverage o.kind, []⟩ := by
    intro t h
    unfold copyFlux at h
    split at h
    · cases h
    · cases h
    · rename_i n V hk
      split at h
      · rw [hk]; injection h with h; exact h.symm
      · cases h
    · cases h
  have hrec : (∃ V, o.kind = .argument 0 V ∨ o.kind = .argument 1 V) → reconstruct H r o = alloc H ⟨o.kind, []⟩ := by
    rintro ⟨V, h | h⟩ <;> simp [reconstruct, h]
  cases A with
  | pointTrace =>
      rcases hc with hc | hc
      · exact absurd rfl hc.1
      · simp only [target] at h
        injection h with h
        rw [← h, hrec hc]
        rfl
  | gradientPointTrace =>
      rcases hc with hc | hc
      · exact absurd rfl hc.2
      · simp only [target] at h
        injection h with h
        rw [← h, hrec hc]
        rfl
  | fluxAverage => exact hflux t h
  | trace => exact hcopy t h
  | average => exact hcopy t h
  | restriction => exact hcopy t h
  | injection => exact hcopy t h
  | extension => exact hcopy t h
  | surfaceMean => exact hcopy t h
  | mean => exact hcopy t h
  | patchAverage => exact hcopy t h
  | transposeTrace => exact hcopy t h

/-- **C54**: an annotation which succeeds leaves all objects as they are and returns a new one of the same kind (for
functions: with the same vector) carrying the new annotation and no other.  False for `PointTrace` and
`GradientPointTrace` of functions, see `point_trace_changes_argument`. -/
theorem annotation_copies_partial (dg : Nat → Nat) (pre : Obj → Py Unit) (A : Annotation) (d : Nat) (H : Heap) (r : Nat)
    (o : Obj) (hr : H[r]? = some o) (hc : Copies A o) (H' : Heap) (s : Nat)
    (h : annotate dg pre A d H r = .ok (H', s)) :
    (∀ q, q < H.length → H'[q]? = H[q]?) ∧ H.length ≤ s ∧
      H'[s]? = some ⟨resultKind dg A o.kind, [(attrName A, d)]⟩ := by
  rw [annotate, hr] at h
  simp only [py_bind_ok, name_eq] at h
  obtain ⟨_, _, h⟩ := py_bind_eq_ok.1 h
  obtain ⟨t, ht, h⟩ := py_bind_eq_ok.1 h
  rw [target_copies dg A H r o hc t ht, alloc_set] at h
  injection h with h
  injection h with h1 h2
  subst h1
  subst h2
  refine ⟨fun q hq => by rw [List.getElem?_append_left hq], Nat.le_refl _, ?_⟩
  simp [alloc]

/-- A call either fails before writing or appends an object, if it copies. -/
theorem annotate_append (dg : Nat → Nat) (c : Call) (H : Heap)
    (hc : ∀ o, H[c.arg]? = some o → Copies c.annotation o) :
    (∃ e, annotate dg c.pre c.annotation c.data H c.arg = .error e) ∨
      ∃ o s, annotate dg c.pre c.annotation c.data H c.arg = .ok (H ++ [o], s) := by
  cases ho : H[c.arg]? with
  | none => exact .inl ⟨.nameError, by simp [annotate, ho]⟩
  | some o =>
      cases h : annotate dg c.pre c.annotation c.data H c.arg with
      | error e => exact .inl ⟨e, rfl⟩
      | ok p =>
          right
          rw [annotate, ho] at h
          simp only [py_bind_ok] at h
          obtain ⟨_, _, h⟩ := py_bind_eq_ok.1 h
          obtain ⟨t, ht, h⟩ := py_bind_eq_ok.1 h
          rw [target_copies dg _ H _ o (hc o ho) t ht, alloc_set] at h
          injection h with h
          exact ⟨_, _, by rw [← h]⟩

/-- **C54**: over any history of annotations, nested in any way and with failing calls, which does not contain
`PointTrace` or `GradientPointTrace`, no object is ever changed. -/
theorem annotations_history (dg : Nat → Nat) : ∀ (cs : List Call) (H : Heap),
    (∀ c ∈ cs, c.annotation ≠ .pointTrace ∧ c.annotation ≠ .gradientPointTrace) →
    ∀ q, q < H.length → (run dg H cs)[q]? = H[q]?
  | [], _, _, _, _ => rfl
  | c :: cs, H, h, q, hq => by
      have ih := annotations_history dg cs
      have h' : ∀ c ∈ cs, c.annotation ≠ .pointTrace ∧ c.annotation ≠ .gradientPointTrace :=
        fun c hc => h c (List.mem_cons_of_mem _ hc)
      rcases annotate_append dg c H (fun o _ => .inl (h c (by simp))) with ⟨e, he⟩ | ⟨o, s, ho⟩
      · simp only [run, he]
        exact ih H h' q hq
      · simp only [run, ho]
        rw [ih (H ++ [o]) h' q (by simp; omega), List.getElem?_append_left hq]

/-- **C54**, histories with point traces of test and trial functions: nothing is changed either. -/
theorem annotations_history_arguments (dg : Nat → Nat) : ∀ (cs : List Call) (H : Heap),
    (∀ o ∈ H, ∃ V, o.kind = .argument 0 V ∨ o.kind = .argument 1 V) →
    ∀ q, q < H.length → (run dg H cs)[q]? = H[q]?
  | [], _, _, _, _ => rfl
  | c :: cs, H, h, q, hq => by
      have ih := annotations_history_arguments dg cs
      cases hr : annotate dg c.pre c.annotation c.data H c.arg with
      | error e =>
          simp only [run, hr]
          exact ih H h q hq
      | ok p =>
          obtain ⟨H', s⟩ := p
          have ho : ∃ o, H[c.arg]? = some o := by
            cases ho : H[c.arg]? with
            | none => rw [annotate, ho] at hr; cases hr
            | some o => exact ⟨o, rfl⟩
          obtain ⟨o, ho⟩ := ho
          have hk := h o (List.mem_of_getElem? ho)
          have hcop : ∀ o', H[c.arg]? = some o' → Copies c.annotation o' := fun o' ho' =>
            .inr (h o' (List.mem_of_getElem? ho'))
          have h3 := annotation_copies_partial dg c.pre c.annotation c.data H c.arg o ho (hcop o ho) H' s hr
          rcases annotate_append dg c H hcop with ⟨e, he⟩ | ⟨o', s', ho'⟩
          · rw [he] at hr; cases hr
          · rw [ho'] at hr
            injection hr with hr
            injection hr with h1 h2
            subst h1
            simp only [run, ho']
            rw [ih (H ++ [o']) ?_ q (by simp; omega), List.getElem?_append_left hq]
            intro x hx
            rcases List.mem_append.1 hx with hx | hx
            · exact h x hx
            · rw [List.mem_singleton] at hx
              subst hx
              have hs : s = H.length := by
                have := (List.getElem?_eq_some_iff.1 h3.2.2).1
                simp at this
                omega
              have hx := h3.2.2
              rw [hs] at hx
              simp at hx
              rw [hx]
              obtain ⟨V, hV | hV⟩ := hk
              · cases hA : c.annotation <;> simp [hV, resultKind]
              · cases hA : c.annotation <;> simp [hV, resultKind]

/-- A function and its annotated copy have the same vector: changing the values of the function changes the copy. -/
theorem annotation_shares_vector (dg : Nat → Nat) (pre : Obj → Py Unit) (A : Annotation) (d : Nat) (H : Heap) (r : Nat)
    (V x : Nat) (as : List (String × Nat)) (hr : H[r]? = some ⟨.function V x, as⟩)
    (hA : A ≠ .pointTrace ∧ A ≠ .gradientPointTrace) (hp : pre ⟨.function V x, as⟩ = .ok ()) :
    (A = .fluxAverage ∧ annotate dg pre A d H r = .error .valueError) ∨
      ∃ H' s, annotate dg pre A d H r = .ok (H', s) ∧ H'[s]? = some ⟨.function V x, [(attrName A, d)]⟩ := by
  cases A with
  | fluxAverage => exact .inl ⟨rfl, by simp [annotate, hr, hp, target, copyFlux]⟩
  | pointTrace => exact absurd rfl hA.1
  | gradientPointTrace => exact absurd rfl hA.2
  | _ =>
      right
      refine ⟨H ++ [⟨.function V x, [(_, d)]⟩], H.length, ?_, by simp; rfl⟩
      simp only [annotate, hr, hp, target, copyOf, py_bind_ok]
      rw [alloc_set]
      rfl

/-- **C54**: every annotation of a test or trial function which passes the assertions returns. -/
theorem annotation_returns (dg : Nat → Nat) (pre : Obj → Py Unit) (A : Annotation) (d : Nat) (H : Heap) (r n V : Nat)
    (as : List (String × Nat)) (hn : n = 0 ∨ n = 1) (hr : H[r]? = some ⟨.argument n V, as⟩)
    (hp : pre ⟨.argument n V, as⟩ = .ok ()) :
    annotate dg pre A d H r = .ok (H ++ [⟨resultKind dg A (.argument n V), [(attrName A, d)]⟩], H.length) := by
  have ht : target dg A H r ⟨.argument n V, as⟩ = .ok (alloc H ⟨resultKind dg A (.argument n V), []⟩) := by
    rcases hn with rfl | rfl <;> cases A <;> simp [target, reconstruct, copyFlux, copyOf, resultKind]
  simp only [annotate, hr, py_bind_ok, hp, ht, alloc_set, name_eq]
  rfl

/-- Violation of C54: `PointTrace` of a function annotates the function itself and returns it. -/
theorem point_trace_changes_argument (dg : Nat → Nat) (pre : Obj → Py Unit) (d : Nat) (H : Heap) (r V x : Nat)
    (as : List (String × Nat)) (hr : H[r]? = some ⟨.function V x, as⟩) (hp : pre ⟨.function V x, as⟩ = .ok ()) :
    ∃ H', annotate dg pre .pointTrace d H r = .ok (H', r) ∧
      H'[r]? = some ⟨.function V x, ("dirac_", d) :: as.filter (fun p => p.1 ≠ "dirac_")⟩ := by
  have hlt := (List.getElem?_eq_some_iff.1 hr).1
  refine ⟨H.set r ⟨.function V x, ("dirac_", d) :: as.filter (fun p => p.1 ≠ "dirac_")⟩, ?_, ?_⟩
  · simp only [annotate, hr, hp, target, reconstruct, setAttr, Annotation.name, py_bind_ok]
    rfl
  · simp [hlt]

/-- Violation of C54: two point traces of one function are one object, at the last point. -/
theorem point_traces_collide (dg : Nat → Nat) : run dg [⟨.function 1 7, []⟩]
      [⟨.pointTrace, 3, 0, fun _ => .ok ()⟩, ⟨.pointTrace, 4, 0, fun _ => .ok ()⟩] =
    [⟨.function 1 7, [("dirac_", 4)]⟩] := by
  simp [run, annotate, target, reconstruct, setAttr, Annotation.name]

/-- A history: the trace of a function, the average of the trace (which loses the trace), a failing call, the trace of a
test function. -/
example (dg : Nat → Nat) : run dg [⟨.function 1 7, []⟩, ⟨.argument 0 1, []⟩]
      [⟨.trace, 3, 0, fun _ => .ok ()⟩, ⟨.average, 4, 2, fun _ => .ok ()⟩, ⟨.trace, 5, 0, fun _ => .error .assertion⟩,
        ⟨.trace, 3, 1, fun _ => .ok ()⟩] =
    [⟨.function 1 7, []⟩, ⟨.argument 0 1, []⟩, ⟨.function 1 7, [("trace_", 3)]⟩, ⟨.function 1 7, [("average_", 4)]⟩,
      ⟨.argument 0 1, [("trace_", 3)]⟩] := by
  simp [run, annotate, target, copyOf, alloc, setAttr, Annotation.name]

/-- Hypotheses of `annotation_copies_partial`. -/
example : ∃ H' s, annotate id (fun _ => .ok ()) .trace 3 [⟨.function 1 7, []⟩] 0 = .ok (H', s) ∧
    Copies .trace ⟨.function 1 7, []⟩ :=
  ⟨[⟨.function 1 7, []⟩, ⟨.function 1 7, [("trace_", 3)]⟩], 1, by
    simp [annotate, target, copyOf, alloc, setAttr, Annotation.name], .inl (by decide)⟩

end Verif.Annotate
