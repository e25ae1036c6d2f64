import Verif.Lemmas.Branch
import Verif.Lemmas.Mortar
import Mathlib.Data.Finset.Range
/-!
# The invariant of the colouring
-/
namespace Verif.Branch
open Verif Verif.BlockOps Verif.Embedded
variable {G : Line}

theorem Line.OK.net (hG : G.OK) : Net G.c2v G.v2c (List.range G.nc) :=
  ⟨fun v c => by rw [List.mem_range]; exact hG.mem v c, hG.nodup, fun c hc => hG.ne c (List.mem_range.1 hc)⟩

theorem Meet.symm {c c' : Nat} (h : Meet G c c') : Meet G c' c := by
  obtain ⟨v, a, b, d⟩ := h
  exact ⟨v, a, d, b⟩

theorem Joined.symm {c c' : Nat} (h : Joined G c c') : Joined G c' c := by
  induction h with
  | refl => exact .refl
  | tail _ h ih => exact Relation.ReflTransGen.head h.symm ih

theorem Joined.trans {a b c : Nat} (h : Joined G a b) (h' : Joined G b c) : Joined G a c :=
  Relation.ReflTransGen.trans h h'

theorem terminals_keys (G : Line) : (terminals G).map (fun p => p.1) =
    (List.range G.nv).filter (fun v => decide ((G.v2c v).length ≠ 2)) := by
  unfold terminals
  rw [List.map_map]
  exact List.map_id' _

theorem mem_terminals {v : Nat} : v ∈ (terminals G).map (fun p => p.1) ↔ IsTerminal G v := by
  rw [terminals_keys, List.mem_filter, List.mem_range, decide_eq_true_eq]
  rfl

theorem terminals_nodup (G : Line) : ((terminals G).map (fun p => p.1)).Nodup := by
  rw [terminals_keys]
  exact List.nodup_range.filter _

/-- The walk from a terminal covers the branch and meets its two ends only. -/
theorem walk_branch (hG : G.OK) {stop : Nat → Bool} (hs : ∀ v, stop v = true ↔ IsTerminal G v) {link vertex : Nat}
    (hl : link ∈ G.v2c vertex) (hv : IsTerminal G vertex) :
    ∃ D l, walk G.c2v G.v2c stop (G.nc + 1) link vertex = .ok D ∧ D.getLast? = some l ∧
      (∀ c, c ∈ D.map (fun d => d.1) ↔ Joined G link c) ∧
      (∀ c ∈ D.map (fun d => d.1), c < G.nc) ∧
      l.1 ∈ G.v2c (nextVertex G.c2v l.1 l.2) ∧ IsTerminal G (nextVertex G.c2v l.1 l.2) ∧ Joined G link l.1 ∧
      ∀ c v, Joined G link c → IsTerminal G v → c ∈ G.v2c v →
        (v = vertex ∧ c = link) ∨ (v = nextVertex G.c2v l.1 l.2 ∧ c = l.1) := by
  have hN := hG.net
  have hd : Valid G.c2v (List.range G.nc) (link, vertex) := (hN.mem _ _).1 hl
  have hst : ∀ v c, stop v = false → c ∈ G.v2c v → (G.v2c v).length = 2 := by
    intro v c h hc
    by_contra hne
    have : v < G.nv := by
      obtain ⟨h1, h2⟩ := (hG.mem v c).1 hc
      rcases h2 with rfl | rfl
      · exact (hG.lt c h1).1
      · exact (hG.lt c h1).2
    rw [(hs v).2 ⟨this, hne⟩] at h
    simp at h
  obtain ⟨D, e, hD, h0, l, hlast, hstop⟩ := walk_ok hN hst (fuel := G.nc + 1) (by simp) hd ((hs _).2 hv)
  have hlv := hD.valid l (List.mem_of_getLast? hlast)
  have hone : ∀ v, IsTerminal G v → (G.v2c v).length ≤ 2 → ∀ c c', c ∈ G.v2c v → c' ∈ G.v2c v → c = c' := by
    intro v h1 h2 c c' hc hc'
    have h3 := h1.2
    rcases hh : G.v2c v with _ | ⟨a, _ | ⟨b, t⟩⟩
    · rw [hh] at hc; simp at hc
    · rw [hh] at hc hc'; simp at hc hc'; rw [hc, hc']
    · rw [hh] at h2 h3; simp only [List.length_cons] at h2 h3; exact absurd (by omega : t.length + 1 + 1 = 2) h3
  have hcls : ∀ c, c ∈ D.map (fun d => d.1) ↔ Joined G link c := by
    intro c
    constructor
    · intro hc
      obtain ⟨x, hx, rfl⟩ := List.mem_map.1 hc
      obtain ⟨i, hi⟩ := List.mem_iff_getElem?.1 hx
      clear hx hc
      induction i generalizing x with
      | zero =>
          rw [h0] at hi
          obtain rfl := Option.some.inj hi
          exact .refl
      | succ i ih =>
          obtain ⟨y, hy⟩ := getElem?_prev hi
          have hlink := hD.link i y x hy hi
          refine (ih y hy).tail ⟨x.2, ?_, ?_, ?_⟩
          · rcases hlink with ⟨_, _, _, h⟩ | ⟨_, _, _, h⟩ <;> rw [h] <;> simp
          · exact (hlink.other.2.2.2 _).2 (.inl rfl)
          · exact (hlink.other.2.2.2 _).2 (.inr rfl)
    · intro h
      induction h with
      | refl => exact List.mem_map.2 ⟨(link, vertex), List.mem_iff_getElem?.2 ⟨0, h0⟩, rfl⟩
      | tail _ h ih =>
          obtain ⟨v, h2, ha, hb⟩ := h
          obtain ⟨x, hx, rfl⟩ := List.mem_map.1 ih
          rcases hD.ends h0 hlast hx ((hG.mem _ _).1 ha).2 with ⟨rfl, _⟩ | ⟨rfl, _⟩ | ⟨_, h⟩
          · rw [← hone _ hv h2 _ _ ha hb]; exact ih
          · rw [← hone _ ((hs _).1 hstop) h2 _ _ ha hb]; exact ih
          · exact h _ hb
  have hlm : l.1 ∈ D.map (fun d => d.1) := List.mem_map.2 ⟨l, List.mem_of_getLast? hlast, rfl⟩
  refine ⟨D, l, e, hlast, hcls, ?_, ?_, (hs _).1 hstop, (hcls _).1 hlm, ?_⟩
  · intro c hc
    obtain ⟨x, hx, rfl⟩ := List.mem_map.1 hc
    exact List.mem_range.1 (hD.valid x hx).1
  · exact (hN.mem _ _).2 ⟨hlv.1, nextVertex_end _ _ _⟩
  · intro c v hj ht hc
    obtain ⟨x, hx, rfl⟩ := List.mem_map.1 ((hcls c).2 hj)
    rcases hD.ends h0 hlast hx ((hG.mem _ _).1 hc).2 with ⟨rfl, rfl⟩ | ⟨rfl, rfl⟩ | ⟨h, _⟩
    · exact .inl ⟨rfl, rfl⟩
    · exact .inr ⟨rfl, rfl⟩
    · rw [(hs _).2 ht] at h
      simp at h

theorem removeCell_keys (ts : Terminals) (v c : Nat) :
    (removeCell ts v c).map (fun p => p.1) = ts.map (fun p => p.1) := by
  unfold removeCell
  rw [List.map_map]
  apply List.map_congr_left
  intro p _
  simp only [Function.comp]
  split <;> rfl

theorem mem_removeCell {ts : Terminals} {w x v : Nat} {cs : List Nat} (h : (v, cs) ∈ removeCell ts w x) :
    ∃ cs', (v, cs') ∈ ts ∧ ∀ c, c ∈ cs ↔ c ∈ cs' ∧ ¬ (v = w ∧ c = x) := by
  unfold removeCell at h
  obtain ⟨⟨v', cs'⟩, hp, he⟩ := List.mem_map.1 h
  dsimp only at he
  by_cases hv : v' = w
  · rw [if_pos hv] at he
    obtain ⟨rfl, rfl⟩ := Prod.mk.inj he
    refine ⟨cs', hp, fun c => ?_⟩
    rw [List.mem_filter, decide_eq_true_eq]
    simp [hv]
  · rw [if_neg hv] at he
    obtain ⟨rfl, rfl⟩ := Prod.mk.inj he
    exact ⟨cs', hp, fun c => by simp [hv]⟩

/-- The invariant of `color_branches`. -/
structure Inv (G : Line) (st : State) : Prop where
  keys : st.ts.map (fun p => p.1) = (terminals G).map (fun p => p.1)
  vals : st.values.length = G.nc
  left : ∀ v cs, (v, cs) ∈ st.ts → ∀ c, c ∈ cs ↔ c ∈ G.v2c v ∧ st.values[c]? = some 0
  same : ∀ c c', c < G.nc → c' < G.nc → st.values[c]? ≠ some 0 → (st.values[c]? = st.values[c']? ↔ Joined G c c')
  used : ∀ k, k ≠ 0 → ((∃ c : Nat, st.values[c]? = some k) ↔ k ≤ st.color)
  onb : ∀ c, c < G.nc → st.values[c]? ≠ some 0 → OnBranch G c
  br : ∀ k, k ∈ st.branches ↔ ∃ c : Nat, st.values[c]? = some k ∧ k ≠ 0 ∧ ¬ Returns G c
  lo : ∀ k, k ∈ st.loops ↔ ∃ c : Nat, st.values[c]? = some k ∧ k ≠ 0 ∧ Returns G c
  brs : st.branches.Pairwise (fun a b => a < b)
  los : st.loops.Pairwise (fun a b => a < b)

/-- The number of cells without colour. -/
def todo (G : Line) (st : State) : Nat := ((Finset.range G.nc).filter (fun c => st.values[c]? = some 0)).card

theorem Returns.of_joined {c c' : Nat} (h : Joined G c c') (hr : Returns G c) : Returns G c' :=
  fun a v b w ha hv hav hb hw hbw => hr a v b w (h.trans ha) hv hav (h.trans hb) hw hbw

theorem colorStep_ok (hG : G.OK) {st : State} (hI : Inv G st) {vertex link : Nat} {cs : List Nat}
    (hv : (vertex, cs) ∈ st.ts) (hl : link ∈ cs) :
    ∃ st', colorStep G st vertex link = .ok st' ∧ Inv G st' ∧ todo G st' < todo G st := by
  obtain ⟨hlv, hl0⟩ := (hI.left vertex cs hv link).1 hl
  have hlt : link < G.nc := ((hG.mem _ _).1 hlv).1
  have hT : ∀ v, v ∈ st.ts.map (fun p => p.1) ↔ IsTerminal G v := fun v => by rw [hI.keys]; exact mem_terminals
  have hvT : IsTerminal G vertex := (hT _).1 (List.mem_map.2 ⟨_, hv, rfl⟩)
  obtain ⟨D, l, e1, e2, hcls, hnc, hlend, hlT, hlJ, hends⟩ := walk_branch hG
    (stop := fun v => decide (v ∈ st.ts.map (fun p => p.1))) (fun v => by rw [decide_eq_true_eq]; exact hT v) hlv hvT
  obtain ⟨values, e3, len3, g3⟩ := setAll_ok (st.color + 1) (D.map (fun d => d.1)) st.values
    (fun c hc => by rw [hI.vals]; exact hnc c hc)
  -- the cells of the branch have no colour yet
  have hzero : ∀ c, Joined G link c → st.values[c]? = some 0 := by
    intro c hc
    by_contra hne
    have := (hI.same c link (hnc c ((hcls c).2 hc)) hlt hne).2 hc.symm
    rw [hl0] at this
    exact hne this
  have hle : ∀ (c k : Nat), st.values[c]? = some k → k ≤ st.color := by
    intro c k h
    by_cases hk : k = 0
    · omega
    · exact (hI.used k hk).1 ⟨c, h⟩
  have gin : ∀ c, Joined G link c → values[c]? = some (st.color + 1) := by
    intro c hc; rw [g3, if_pos ((hcls c).2 hc)]
  have gout : ∀ c, ¬ Joined G link c → values[c]? = st.values[c]? := by
    intro c hc; rw [g3, if_neg (fun h => hc ((hcls c).1 h))]
  have gval : ∀ (c k : Nat), values[c]? = some k → (k = st.color + 1 ∧ Joined G link c) ∨
      (k ≤ st.color ∧ st.values[c]? = some k ∧ ¬ Joined G link c) := by
    intro c k h
    by_cases hc : Joined G link c
    · rw [gin c hc] at h
      exact .inl ⟨(Option.some.inj h).symm, hc⟩
    · rw [gout c hc] at h
      exact .inr ⟨hle c k h, h, hc⟩
  have hret : ∀ c, Joined G link c → (Returns G c ↔ nextVertex G.c2v l.1 l.2 = vertex) := by
    intro c hc
    constructor
    · intro h
      exact h l.1 _ link vertex (hc.symm.trans hlJ) hlT hlend hc.symm hvT hlv
    · intro h a v b w ha hav hv' hb hbw hw'
      have h1 : v = vertex := by
        rcases hends a v (hc.trans ha) hav hv' with ⟨h', _⟩ | ⟨h', _⟩
        · exact h'
        · rw [h', h]
      have h2 : w = vertex := by
        rcases hends b w (hc.trans hb) hbw hw' with ⟨h', _⟩ | ⟨h', _⟩
        · exact h'
        · rw [h', h]
      rw [h1, h2]
  have hold : ∀ (c k : Nat), k ≠ 0 → st.values[c]? = some k → values[c]? = some k := by
    intro c k hk h
    rw [gout c (fun hc => hk (by rw [hzero c hc] at h; exact (Option.some.inj h).symm)), h]
  refine ⟨⟨removeCell (removeCell (removeCell st.ts vertex link) vertex l.1) (nextVertex G.c2v l.1 l.2) l.1, values,
      st.color + 1, if nextVertex G.c2v l.1 l.2 = vertex then st.branches else st.branches ++ [st.color + 1],
      if nextVertex G.c2v l.1 l.2 = vertex then st.loops ++ [st.color + 1] else st.loops⟩, ?_,
      ⟨?_, by rw [len3, hI.vals], ?_, ?_, ?_, ?_, ?_, ?_, ?_, ?_⟩, ?_⟩
  · unfold colorStep
    rw [e1, py_bind_ok, e3, py_bind_ok, e2]
  · simp only [removeCell_keys]
    exact hI.keys
  · intro v cs' h c
    obtain ⟨cs1, h1, m1⟩ := mem_removeCell h
    obtain ⟨cs2, h2, m2⟩ := mem_removeCell h1
    obtain ⟨cs3, h3, m3⟩ := mem_removeCell h2
    rw [m1, m2, m3, hI.left v cs3 h3 c]
    have hvT' : IsTerminal G v := (hT _).1 (List.mem_map.2 ⟨_, h3, rfl⟩)
    change _ ↔ _ ∧ values[c]? = some 0
    by_cases hc : Joined G link c
    · rw [gin c hc]
      constructor
      · rintro ⟨⟨⟨⟨hcv, _⟩, a⟩, _⟩, b⟩
        rcases hends c v hc hvT' hcv with h | h
        · exact absurd h a
        · exact absurd h b
      · rintro ⟨_, h⟩
        have := Option.some.inj h
        omega
    · rw [gout c hc]
      constructor
      · rintro ⟨⟨⟨h, _⟩, _⟩, _⟩
        exact h
      · intro h
        refine ⟨⟨⟨h, ?_⟩, ?_⟩, ?_⟩
        · rintro ⟨_, rfl⟩; exact hc .refl
        · rintro ⟨_, rfl⟩; exact hc hlJ
        · rintro ⟨_, rfl⟩; exact hc hlJ
  · intro c c' hcn hcn' hne
    change values[c]? ≠ some 0 at hne
    change values[c]? = values[c']? ↔ _
    by_cases hc : Joined G link c
    · by_cases hc' : Joined G link c'
      · rw [gin c hc, gin c' hc']
        exact ⟨fun _ => hc.symm.trans hc', fun _ => rfl⟩
      · constructor
        · intro h
          rw [gin c hc, gout c' hc'] at h
          have := hle c' _ h.symm
          omega
        · intro h
          exact absurd (hc.trans h) hc'
    · rw [gout c hc] at hne ⊢
      by_cases hc' : Joined G link c'
      · constructor
        · intro h
          rw [gin c' hc'] at h
          have := hle c _ h
          omega
        · intro h
          exact absurd (hc'.trans h.symm) hc
      · rw [gout c' hc']
        exact hI.same c c' hcn hcn' hne
  · intro k hk
    change (∃ c : Nat, values[c]? = some k) ↔ k ≤ st.color + 1
    constructor
    · rintro ⟨c, h⟩
      rcases gval c k h with ⟨h, _⟩ | ⟨h, _⟩ <;> omega
    · intro h
      by_cases hk' : k = st.color + 1
      · exact ⟨link, by rw [gin link .refl, hk']⟩
      · obtain ⟨c, hc⟩ := (hI.used k hk).2 (by omega)
        exact ⟨c, hold c k hk hc⟩
  · intro c hcn hne
    by_cases hc : Joined G link c
    · exact ⟨link, vertex, hc.symm, hvT, hlv⟩
    · refine hI.onb c hcn ?_
      rw [← gout c hc]
      exact hne
  · intro k
    change k ∈ (if nextVertex G.c2v l.1 l.2 = vertex then st.branches else st.branches ++ [st.color + 1]) ↔
      ∃ c : Nat, values[c]? = some k ∧ k ≠ 0 ∧ ¬ Returns G c
    have key : k ∈ st.branches ∨ (k = st.color + 1 ∧ nextVertex G.c2v l.1 l.2 ≠ vertex) ↔
        ∃ c : Nat, values[c]? = some k ∧ k ≠ 0 ∧ ¬ Returns G c := by
      constructor
      · rintro (h | ⟨rfl, h⟩)
        · obtain ⟨c, a, b, d⟩ := (hI.br k).1 h
          exact ⟨c, hold c k b a, b, d⟩
        · exact ⟨link, gin link .refl, by omega, fun h' => h ((hret link .refl).1 h')⟩
      · rintro ⟨c, a, b, d⟩
        rcases gval c k a with ⟨h, hc⟩ | ⟨_, h, _⟩
        · exact .inr ⟨h, fun h' => d ((hret c hc).2 h')⟩
        · exact .inl ((hI.br k).2 ⟨c, h, b, d⟩)
    rw [← key]
    split
    · rename_i h; simp [h]
    · rename_i h; simp [h]
  · intro k
    change k ∈ (if nextVertex G.c2v l.1 l.2 = vertex then st.loops ++ [st.color + 1] else st.loops) ↔
      ∃ c : Nat, values[c]? = some k ∧ k ≠ 0 ∧ Returns G c
    have key : k ∈ st.loops ∨ (k = st.color + 1 ∧ nextVertex G.c2v l.1 l.2 = vertex) ↔
        ∃ c : Nat, values[c]? = some k ∧ k ≠ 0 ∧ Returns G c := by
      constructor
      · rintro (h | ⟨rfl, h⟩)
        · obtain ⟨c, a, b, d⟩ := (hI.lo k).1 h
          exact ⟨c, hold c k b a, b, d⟩
        · exact ⟨link, gin link .refl, by omega, (hret link .refl).2 h⟩
      · rintro ⟨c, a, b, d⟩
        rcases gval c k a with ⟨h, hc⟩ | ⟨_, h, _⟩
        · exact .inr ⟨h, (hret c hc).1 d⟩
        · exact .inl ((hI.lo k).2 ⟨c, h, b, d⟩)
    rw [← key]
    split
    · rename_i h; simp [h]
    · rename_i h; simp [h]
  · change List.Pairwise _ (if nextVertex G.c2v l.1 l.2 = vertex then st.branches else st.branches ++ [st.color + 1])
    split
    · exact hI.brs
    · refine List.pairwise_append.2 ⟨hI.brs, by simp, ?_⟩
      intro a ha b hb
      obtain ⟨c, h, _⟩ := (hI.br a).1 ha
      have := hle c a h
      rw [List.mem_singleton] at hb
      omega
  · change List.Pairwise _ (if nextVertex G.c2v l.1 l.2 = vertex then st.loops ++ [st.color + 1] else st.loops)
    split
    · refine List.pairwise_append.2 ⟨hI.los, by simp, ?_⟩
      intro a ha b hb
      obtain ⟨c, h, _⟩ := (hI.lo a).1 ha
      have := hle c a h
      rw [List.mem_singleton] at hb
      omega
    · exact hI.los
  · unfold todo
    apply Finset.card_lt_card
    rw [Finset.ssubset_iff_of_subset]
    · refine ⟨link, by simp [hlt, hl0], ?_⟩
      change ¬ link ∈ Finset.filter (fun c => values[c]? = some 0) _
      rw [Finset.mem_filter, gin link .refl]
      simp
    · intro c hc
      change c ∈ Finset.filter (fun c => values[c]? = some 0) _ at hc
      rw [Finset.mem_filter] at hc ⊢
      refine ⟨hc.1, ?_⟩
      rcases gval c 0 hc.2 with ⟨h, _⟩ | ⟨_, h, _⟩
      · omega
      · exact h

theorem lookup_terminals {ts : Terminals} (hn : (ts.map (fun p => p.1)).Nodup) {v : Nat} {cs : List Nat} :
    ts.lookup v = some cs ↔ (v, cs) ∈ ts := Mortar.lookup_iff_mem hn

theorem colorVertex_ok (hG : G.OK) {pick : Nat → List Nat → Nat} (hp : ∀ k l, l ≠ [] → pick k l ∈ l) {vertex : Nat}
    (hv : IsTerminal G vertex) : ∀ (fuel : Nat) (st : State), Inv G st → todo G st < fuel →
    ∃ st', colorVertex G pick vertex fuel st = .ok st' ∧ Inv G st' ∧ todo G st' ≤ todo G st ∧
      ((∀ cs, (vertex, cs) ∈ st.ts → cs ≠ []) → todo G st' < todo G st) := by
  intro fuel
  induction fuel with
  | zero => intro st _ h; omega
  | succ n ih =>
      intro st hI hf
      have hmem : vertex ∈ st.ts.map (fun p => p.1) := by rw [hI.keys]; exact mem_terminals.2 hv
      obtain ⟨⟨v, cs⟩, hvc, rfl⟩ := List.mem_map.1 hmem
      have hlook := (lookup_terminals (by rw [hI.keys]; exact terminals_nodup G)).2 hvc
      dsimp only at hlook hv ⊢
      unfold colorVertex
      rw [hlook]
      rcases cs with _ | ⟨c, cs⟩
      · exact ⟨st, rfl, hI, le_refl _, fun h => absurd rfl (h [] hvc)⟩
      · dsimp only
        obtain ⟨st1, e1, hI1, h1⟩ := colorStep_ok hG hI hvc (hp st.color (c :: cs) (by simp))
        obtain ⟨st2, e2, hI2, h2, _⟩ := ih st1 hI1 (by omega)
        rw [e1, py_bind_ok]
        exact ⟨st2, e2, hI2, by omega, fun _ => by omega⟩

theorem pyMaxSet_mem : ∀ (ts : Terminals) (t : Nat × List Nat), pyMaxSet t ts ∈ t :: ts
  | [], t => by simp [pyMaxSet]
  | s :: ts, t => by
      unfold pyMaxSet
      split
      · have := pyMaxSet_mem ts s
        exact List.mem_cons_of_mem _ this
      · have := pyMaxSet_mem ts t
        rcases List.mem_cons.1 this with h | h
        · rw [h]; simp
        · exact List.mem_cons_of_mem _ (List.mem_cons_of_mem _ h)

/-- The maximum is empty only if all the sets are. -/
theorem pyMaxSet_empty : ∀ (ts : Terminals) (t : Nat × List Nat), (pyMaxSet t ts).2 = [] → ∀ p ∈ t :: ts, p.2 = []
  | [], t, h => by simpa [pyMaxSet] using h
  | s :: ts, t, h => by
      unfold pyMaxSet at h
      split at h
      · rename_i hs
        have := pyMaxSet_empty ts s h
        have h2 := this s (by simp)
        exfalso
        unfold properSuperset at hs
        rw [h2] at hs
        simp at hs
      · rename_i hs
        have := pyMaxSet_empty ts t h
        have h2 := this t (by simp)
        intro p hp
        simp only [List.mem_cons] at hp
        rcases hp with rfl | rfl | hp
        · exact h2
        · unfold properSuperset at hs
          rw [h2] at hs
          rcases hh : p.2 with _ | ⟨a, l⟩
          · rfl
          · rw [hh] at hs; simp at hs
        · exact this p (by simp [hp])

theorem colorLoop_ok (hG : G.OK) {pick : Nat → List Nat → Nat} (hp : ∀ k l, l ≠ [] → pick k l ∈ l)
    (hne : ∃ v, IsTerminal G v) : ∀ (fuel : Nat) (st : State), Inv G st → todo G st < fuel →
    ∃ st', colorLoop G pick fuel st = .ok st' ∧ Inv G st' ∧ ∀ p ∈ st'.ts, p.2 = [] := by
  intro fuel
  induction fuel with
  | zero => intro st _ h; omega
  | succ n ih =>
      intro st hI hf
      unfold colorLoop
      obtain ⟨w, hw⟩ := hne
      have hmem : w ∈ st.ts.map (fun p => p.1) := by rw [hI.keys]; exact mem_terminals.2 hw
      rcases hts : st.ts with _ | ⟨t, ts⟩
      · rw [hts] at hmem; simp at hmem
      · dsimp only
        have h1 := pyMaxSet_mem ts t
        have h2 := pyMaxSet_empty ts t
        rcases hmx : pyMaxSet t ts with ⟨vertex, _ | ⟨c, cs⟩⟩
        · rw [hmx] at h2
          exact ⟨st, rfl, hI, by rw [hts]; exact h2 rfl⟩
        · dsimp only
          rw [hmx, ← hts] at h1
          have hv : IsTerminal G vertex := by
            rw [← mem_terminals, ← hI.keys]
            exact List.mem_map.2 ⟨_, h1, rfl⟩
          have hle : todo G st ≤ G.nc := by
            unfold todo
            exact (Finset.card_filter_le _ _).trans (by rw [Finset.card_range])
          obtain ⟨st1, e1, hI1, _, hlt⟩ := colorVertex_ok hG hp hv (G.nc + 1) st hI (by omega)
          have hlt := hlt (by
            intro cs' hcs'
            have hn : (st.ts.map (fun p => p.1)).Nodup := by rw [hI.keys]; exact terminals_nodup G
            have a := (lookup_terminals hn).2 hcs'
            rw [(lookup_terminals hn).2 h1] at a
            rw [← Option.some.inj a]
            simp)
          obtain ⟨st2, e2, hI2, h⟩ := ih st1 hI1 (by omega)
          rw [e1, py_bind_ok]
          exact ⟨st2, e2, hI2, h⟩

theorem inv_init (hG : G.OK) : Inv G ⟨terminals G, List.replicate G.nc 0, 0, [], []⟩ := by
  have h0 : ∀ c, c < G.nc → (List.replicate G.nc 0)[c]? = some 0 := by
    intro c hc; rw [List.getElem?_replicate, if_pos hc]
  refine ⟨rfl, by simp, ?_, ?_, ?_, ?_, ?_, ?_, by simp, by simp⟩
  · intro v cs h c
    unfold terminals at h
    obtain ⟨v', _, he⟩ := List.mem_map.1 h
    obtain ⟨rfl, rfl⟩ := Prod.mk.inj he
    exact ⟨fun h => ⟨h, h0 c ((hG.mem _ _).1 h).1⟩, fun h => h.1⟩
  · intro c c' hc _ hne
    exact absurd (h0 c hc) hne
  · intro k hk
    constructor
    · rintro ⟨c, h⟩
      rw [List.getElem?_replicate] at h
      split at h
      · exact absurd (Option.some.inj h).symm hk
      · simp at h
    · intro h
      exact absurd (Nat.le_zero.1 h) hk
  · intro c hc hne
    exact absurd (h0 c hc) hne
  · intro k
    constructor
    · intro h; simp at h
    · rintro ⟨c, h, hk, _⟩
      change (List.replicate G.nc 0)[c]? = some k at h
      rw [List.getElem?_replicate] at h
      split at h
      · exact absurd (Option.some.inj h).symm hk
      · simp at h
  · intro k
    constructor
    · intro h; simp at h
    · rintro ⟨c, h, hk, _⟩
      change (List.replicate G.nc 0)[c]? = some k at h
      rw [List.getElem?_replicate] at h
      split at h
      · exact absurd (Option.some.inj h).symm hk
      · simp at h

end Verif.Branch
