import Verif.Lemmas.Gmsh
/-!
# Lemmas about the import from gmsh: all types of elements
-/
namespace Verif.Gmsh
open Verif Verif.BlockOps Verif.Embedded
variable {K : Type}

theorem foldl_max (l : List Nat) (a : Nat) (ha : a ∈ [1, 2, 4]) (hl : ∀ x ∈ l, x ∈ [1, 2, 4]) :
    (l.foldl (fun m x => if elmTdim m < elmTdim x then x else m) a) ∈ a :: l ∧
    ((l.foldl (fun m x => if elmTdim m < elmTdim x then x else m) a) = 1 → ∀ x ∈ a :: l, x = 1) := by
  induction l generalizing a with
  | nil => simp
  | cons b l ih =>
      have hb := hl b (List.mem_cons_self ..)
      have hl' : ∀ x ∈ l, x ∈ [1, 2, 4] := fun x hx => hl x (List.mem_cons_of_mem _ hx)
      rw [List.foldl_cons]
      by_cases hlt : elmTdim a < elmTdim b
      · rw [if_pos hlt]
        obtain ⟨h1, h2⟩ := ih b hb hl'
        refine ⟨List.mem_cons_of_mem _ h1, fun e => ?_⟩
        have := h2 e b (List.mem_cons_self ..)
        subst this
        simp only [List.mem_cons, List.not_mem_nil, or_false] at ha
        rcases ha with rfl | rfl | rfl <;> simp [elmTdim] at hlt
      · rw [if_neg hlt]
        obtain ⟨h1, h2⟩ := ih a ha hl'
        refine ⟨?_, fun e => ?_⟩
        · rcases List.mem_cons.1 h1 with h1 | h1
          · rw [h1]; exact List.mem_cons_self ..
          · exact List.mem_cons_of_mem _ (List.mem_cons_of_mem _ h1)
        · intro x hx
          have h3 := h2 e
          have h4 := h3 a (List.mem_cons_self ..)
          rcases List.mem_cons.1 hx with rfl | hx
          · exact h4
          rcases List.mem_cons.1 hx with rfl | hx
          · subst h4
            simp only [List.mem_cons, List.not_mem_nil, or_false] at hb
            rcases hb with rfl | rfl | rfl
            · rfl
            all_goals simp [elmTdim] at hlt
          · exact h3 x (List.mem_cons_of_mem _ hx)

theorem maxBy_ok {data : List (Nat × Block)} {elm : Nat} (hd : DataOK data)
    (h : maxBy elmTdim (data.map (fun p => p.1)) = .ok elm) :
    elm ∈ data.map (fun p => p.1) ∧ (elm = 1 → ∀ p ∈ data, p.1 = 1) := by
  have hk : ∀ x ∈ data.map (fun p => p.1), x ∈ [1, 2, 4] := by
    intro x hx
    obtain ⟨p, hp, rfl⟩ := List.mem_map.1 hx
    exact hd.elms p hp
  generalize hl : data.map (fun p => p.1) = l at h hk
  cases l with
  | nil => simp [maxBy] at h
  | cons a l =>
      injection h with h
      obtain ⟨h1, h2⟩ := foldl_max l a (hk a (List.mem_cons_self ..)) (fun x hx => hk x (List.mem_cons_of_mem _ hx))
      rw [h] at h1 h2
      refine ⟨h1, fun e p hp => h2 e p.1 ?_⟩
      rw [← hl]
      exact List.mem_map.2 ⟨p, hp, rfl⟩

theorem maxBy_total {data : List (Nat × Block)} (hne : data ≠ []) :
    ∃ elm, maxBy elmTdim (data.map (fun p => p.1)) = .ok elm := by
  cases data with
  | nil => exact absurd rfl hne
  | cons a l => exact ⟨_, rfl⟩

theorem lookup_of_mem {data : List (Nat × Block)} (hk : (data.map (fun p => p.1)).Nodup) {elm : Nat} {b : Block}
    (h : (elm, b) ∈ data) : data.lookup elm = some b := by
  induction data with
  | nil => simp at h
  | cons p l ih =>
      obtain ⟨k, b'⟩ := p
      rw [List.map_cons, List.nodup_cons] at hk
      rcases List.mem_cons.1 h with h | h
      · injection h with h1 h2
        subst h1 h2
        simp
      · have hne : (elm == k) = false := by
          simp only [beq_eq_false_iff_ne, ne_eq]
          intro e
          exact hk.1 (List.mem_map.2 ⟨(elm, b), h, e⟩)
        rw [List.lookup_cons, hne]
        exact ih hk.2 h

theorem mem_of_lookup {data : List (Nat × Block)} {elm : Nat} {b : Block} (h : data.lookup elm = some b) :
    (elm, b) ∈ data := by
  induction data with
  | nil => simp at h
  | cons p l ih =>
      obtain ⟨k, b'⟩ := p
      rw [List.lookup_cons] at h
      by_cases hk : elm = k
      · subst hk
        simp at h
        rw [h]; exact List.mem_cons_self ..
      · have : (elm == k) = false := by simpa using hk
        rw [this] at h
        exact List.mem_cons_of_mem _ (ih h)

/-- No tetrahedra pass the loop over elements, and the values for other elements are as specified. -/
theorem elmLoop_ok {n : Nat} {ents : Nat → List (List Nat)} {cellElm : Nat} {l : List (Nat × Block)}
    {out out' : List (Nat × List Nat)} (hd : ∀ p ∈ l, BlockOK p.1 p.2) (he : ∀ p ∈ l, p.1 ∈ [1, 2, 4])
    (hc : cellElm ≠ 4) (hsize : ∀ vs ∈ ents 2, vs.length = 3) (hk : (l.map (fun p => p.1)).Nodup)
    (h : elmLoop (List.range n) ents cellElm l out = .ok out') :
    (∀ p ∈ l, p.1 ≠ 4) ∧
    (∀ d, (∀ p ∈ l, p.1 ≠ cellElm → elmTdim p.1 ≠ d) → out'.lookup d = out.lookup d) ∧
    (∀ b, (1, b) ∈ l → cellElm ≠ 1 → ∃ f, out'.lookup 1 = some f ∧ f.length = (ents 1).length ∧
      ∀ (e : Nat) vs, (ents 1)[e]? = some vs → f[e]? = some (lastOr (b.rows.zip b.tags) vs 0)) := by
  induction l generalizing out with
  | nil =>
      injection h with h
      subst h
      simp
  | cons p l ih =>
      obtain ⟨elm, b⟩ := p
      rw [List.map_cons, List.nodup_cons] at hk
      have ih' := fun out h => ih (out := out) (fun p hp => hd p (List.mem_cons_of_mem _ hp))
        (fun p hp => he p (List.mem_cons_of_mem _ hp)) hk.2 h
      unfold elmLoop at h
      by_cases hcell : elm = cellElm
      · rw [if_pos hcell] at h
        obtain ⟨h1, h2, h3⟩ := ih' out h
        refine ⟨?_, ?_, ?_⟩
        · intro p hp
          rcases List.mem_cons.1 hp with rfl | hp
          · dsimp only; rw [hcell]; exact hc
          · exact h1 p hp
        · intro d hdd
          exact h2 d (fun p hp => hdd p (List.mem_cons_of_mem _ hp))
        · intro b' hb' hc1
          rcases List.mem_cons.1 hb' with hb' | hb'
          · injection hb' with e1 _
            exact absurd (e1.trans hcell).symm hc1
          · exact h3 b' hb' hc1
      · rw [if_neg hcell] at h
        have hb : BlockOK elm b := hd (elm, b) (List.mem_cons_self ..)
        obtain ⟨m, hm, hm0⟩ := npMin_pos (tags_ne hb) hb.pos
        rw [hm, py_bind_ok, if_neg (by omega), py_bind_eq_ok] at h
        obtain ⟨f, hf, h⟩ := h
        obtain ⟨hlen, hval⟩ := tagLoop_ok (by simp) hf
        obtain ⟨h1, h2, h3⟩ := ih' _ h
        have h4 : elm ≠ 4 := by
          rintro rfl
          obtain ⟨r, hr⟩ := List.exists_mem_of_ne_nil _ hb.ne
          have hz : b.rows.zip b.tags ≠ [] := by
            intro e
            have h5 := congrArg List.length e
            rw [List.length_zip, hb.length] at h5
            simp at h5
            exact hb.ne h5
          cases hzz : b.rows.zip b.tags with
          | nil => exact hz hzz
          | cons q qs =>
              obtain ⟨row, tag⟩ := q
              have hmem : row ∈ b.rows := by
                have : (row, tag) ∈ b.rows.zip b.tags := by rw [hzz]; exact List.mem_cons_self ..
                exact (List.of_mem_zip this).1
              rw [hzz] at hf
              unfold tagLoop at hf
              rw [row_of_tagLoop hf, py_bind_ok] at hf
              by_cases hr : row = []
              · rw [if_pos hr] at hf; simp at hf
              rw [if_neg hr, py_bind_ok] at hf
              split at hf
              · rename_i e0 hc0
                rw [py_bind_eq_ok] at hf
                obtain ⟨_, ha, _⟩ := hf
                rw [pyAssert_eq_ok, decide_eq_true_eq] at ha
                have he0 : e0 ∈ common (ents (elmTdim 4)) row := by rw [hc0]; simp
                obtain ⟨vs, hvs, _⟩ := mem_common.1 he0
                rw [List.getD_eq_getElem?_getD, hvs] at ha
                have hcard := congrArg Finset.card ha
                rw [List.toFinset_card_of_nodup (hb.rows row hmem).2, (hb.rows row hmem).1, hb.width] at hcard
                have h6 := List.toFinset_card_le ((some vs).getD [])
                have h7 := hsize vs (List.mem_of_getElem? hvs)
                simp only [Option.getD_some] at hcard h6
                simp at hcard
                omega
              · simp at hf
        refine ⟨?_, ?_, ?_⟩
        · intro p hp
          rcases List.mem_cons.1 hp with rfl | hp
          · exact h4
          · exact h1 p hp
        · intro d hdd
          rw [h2 d (fun p hp => hdd p (List.mem_cons_of_mem _ hp))]
          have hne := hdd (elm, b) (List.mem_cons_self ..) hcell
          have : (d == elmTdim elm) = false := by
            simp only [beq_eq_false_iff_ne, ne_eq]
            exact fun e => hne e.symm
          rw [List.lookup_cons, this]
        · intro b' hb' hc1
          rcases List.mem_cons.1 hb' with hb' | hb'
          · injection hb' with e1 e2
            subst e1 e2
            refine ⟨f, ?_, hlen, ?_⟩
            · rw [h2 1 ?_]
              · simp [elmTdim]
              · intro p hp hpc
                have h8 : p.1 ≠ 1 := by
                  intro e
                  exact hk.1 (List.mem_map.2 ⟨p, hp, e⟩)
                have h9 := he p (List.mem_cons_of_mem _ hp)
                simp only [List.mem_cons, List.not_mem_nil, or_false] at h9
                rcases h9 with h9 | h9 | h9
                · exact absurd h9 h8
                all_goals rw [h9]; simp [elmTdim]
            · intro e vs hes
              rw [hval e vs hes]
              congr 2
              rw [List.getD_eq_getElem?_getD, List.getElem?_replicate]
              split <;> rfl
          · exact h3 b' hb' hc1

theorem buildMesh_ok {order : List Nat → List Nat} {verts : List (List K)} {cells : List (List Nat)} {tdim gdim cwidth : Nat}
    (hw : tdim + 1 = cwidth) (hlt : ∀ c ∈ cells, ∀ v ∈ c, v < verts.length) :
    buildMesh order verts gdim cells cwidth tdim gdim = .ok ⟨tdim, gdim, verts, cells.map order⟩ := by
  unfold buildMesh
  rw [decide_eq_true rfl, pyAssert_true, py_bind_ok, decide_eq_true hw, pyAssert_true, py_bind_ok, if_pos, py_bind_ok]
  rw [List.all_eq_true]
  intro c hc
  rw [List.all_eq_true]
  intro v hv
  exact decide_eq_true (hlt c hc v hv)

/-- A segment inside a cell is found among the edges. -/
theorem common_single {cells es : List (List Nat)} (hes : EntsOK cells 1 es) {r : List Nat} (hr : r.Nodup)
    (hlen : r.length = 2) (hin : ∃ t ∈ cells, ∀ n ∈ r, n ∈ t) :
    ∃ e, common es r = [e] ∧ r.toFinset = (es.getD e []).toFinset := by
  obtain ⟨t, ht, hsub⟩ := hin
  have hcard : r.toFinset.card = 1 + 1 := by rw [List.toFinset_card_of_nodup hr, hlen]
  obtain ⟨vs, hvs, heq⟩ := hes.all t ht r.toFinset (by
    intro x hx
    exact List.mem_toFinset.2 (hsub x (List.mem_toFinset.1 hx))) hcard
  obtain ⟨e, he, hee⟩ := List.mem_iff_getElem.1 hvs
  have hsome : es[e]? = some vs := by rw [List.getElem?_eq_getElem he, hee]
  have huniq : ∀ e', e' ∈ common es r ↔ e' = e := by
    intro e'
    rw [mem_common]
    constructor
    · rintro ⟨ws, hws, hall⟩
      apply hes.distinct e' e ws vs hws hsome
      rw [heq]
      symm
      apply Finset.eq_of_subset_of_card_le
      · intro x hx
        exact List.mem_toFinset.2 (hall x (List.mem_toFinset.1 hx))
      · rw [hcard]
        have h1 := List.toFinset_card_le ws
        have h2 := (hes.size ws (List.mem_of_getElem? hws)).2
        omega
    · rintro rfl
      refine ⟨vs, hsome, fun v hv => ?_⟩
      rw [← List.mem_toFinset, heq]
      exact List.mem_toFinset.2 hv
  refine ⟨e, ?_, ?_⟩
  · have hnd : (common es r).Nodup := List.Nodup.filter _ List.nodup_range
    rcases hcm : common es r with _ | ⟨a, l⟩
    · have := (huniq e).2 rfl
      rw [hcm] at this
      simp at this
    · have ha : a = e := (huniq a).1 (by rw [hcm]; exact List.mem_cons_self ..)
      rcases l with _ | ⟨a', l⟩
      · rw [ha]
      · have ha' : a' = e := (huniq a').1 (by rw [hcm]; simp)
        rw [hcm, ha, ha'] at hnd
        simp at hnd
  · rw [List.getD_eq_getElem?_getD, hsome]
    exact heq.symm

theorem elmLoop_total {n : Nat} {ents : Nat → List (List Nat)} {l : List (Nat × Block)} {out : List (Nat × List Nat)}
    (hb : ∀ p ∈ l, BlockOK p.1 p.2) (h12 : ∀ p ∈ l, p.1 = 1 ∨ p.1 = 2)
    (hlt : ∀ p ∈ l, p.1 = 1 → ∀ r ∈ p.2.rows, ∀ c ∈ r, c < n)
    (hex : ∀ p ∈ l, p.1 = 1 → ∀ r ∈ p.2.rows, ∃ e, common (ents 1) r = [e] ∧ r.toFinset = ((ents 1).getD e []).toFinset) :
    ∃ out', elmLoop (List.range n) ents 2 l out = .ok out' := by
  induction l generalizing out with
  | nil => exact ⟨out, rfl⟩
  | cons p l ih =>
      obtain ⟨elm, b⟩ := p
      have ih' := fun out => ih (out := out) (fun p hp => hb p (List.mem_cons_of_mem _ hp))
        (fun p hp => h12 p (List.mem_cons_of_mem _ hp)) (fun p hp => hlt p (List.mem_cons_of_mem _ hp))
        (fun p hp => hex p (List.mem_cons_of_mem _ hp))
      unfold elmLoop
      rcases h12 (elm, b) (List.mem_cons_self ..) with h | h
      · dsimp only at h
        subst h
        have hbb := hb (1, b) (List.mem_cons_self ..)
        dsimp only at hbb
        obtain ⟨m, hm, hm0⟩ := npMin_pos (tags_ne hbb) hbb.pos
        rw [if_neg (by simp), hm, py_bind_ok, if_neg (by omega)]
        obtain ⟨f, hf⟩ := tagLoop_total (n := n) (es := ents 1) (l := b.rows.zip b.tags)
          (f := List.replicate (ents 1).length 0)
          (fun p hp => hlt (1, b) (List.mem_cons_self ..) rfl p.1 (List.of_mem_zip hp).1)
          (fun p hp e => by
            have := (hbb.rows p.1 (List.of_mem_zip hp).1).1
            rw [e, hbb.width] at this
            simp at this)
          (fun p hp => hex (1, b) (List.mem_cons_self ..) rfl p.1 (List.of_mem_zip hp).1)
        obtain ⟨out', ho⟩ := ih' ((1, f) :: out)
        refine ⟨out', ?_⟩
        simp only [elmTdim]
        rw [hf, py_bind_ok]
        exact ho
      · dsimp only at h
        subst h
        rw [if_pos rfl]
        exact ih' out

end Verif.Gmsh
