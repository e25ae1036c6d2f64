import Verif.Props.BlockForm
import Verif.Lemmas.PermuteExact
/-!
# C93: which orderings of a block form are accepted
-/
namespace Verif.BlockForm
open Verif Ufl BlockOps

variable {S : Type} [DecidableEq S]

/-- **C93**.  A bilinear block form can be permuted exactly if it has two or more spaces and the ordering
is a permutation of `0, ..., n - 1`.  (What is then returned: `permute_permutes_partial`.) -/
theorem permute_iff (W : List S) (rows : List (List (Entry S))) (h : Square W.length rows) (p : List Int) :
    (∃ g, permute (.bil W rows) p = .ok g) ↔ 2 ≤ W.length ∧ p.Perm (ints W.length) := by
  constructor
  · rintro ⟨g, hg⟩
    have hn : 2 ≤ W.length := by
      simp only [permute] at hg
      obtain ⟨_, h1, _⟩ := py_bind_eq_ok.mp hg
      exact checkOrdering_two h1
    refine ⟨hn, ?_⟩
    by_contra hp
    obtain ⟨e, he⟩ := (permute_permutes_partial W hn rows h p).1 hp
    rw [he] at hg; cases hg
  · rintro ⟨hn, hp⟩
    obtain ⟨W', rows', h1, _⟩ := (permute_permutes_partial W hn rows h p).2 hp
    exact ⟨_, h1⟩

/-- **C93**, linear forms. -/
theorem permute_linear_iff (W : List S) (es : List (Entry S)) (h : es.length = W.length) (p : List Int) :
    (∃ g, permute (.lin W es) p = .ok g) ↔ 2 ≤ W.length ∧ p.Perm (ints W.length) := by
  constructor
  · rintro ⟨g, hg⟩
    have hn : 2 ≤ W.length := by
      simp only [permute] at hg
      obtain ⟨_, h1, _⟩ := py_bind_eq_ok.mp hg
      exact checkOrdering_two h1
    refine ⟨hn, ?_⟩
    by_contra hp
    obtain ⟨e, he⟩ := (permute_permutes_linear W hn es h p).1 hp
    rw [he] at hg; cases hg
  · rintro ⟨hn, hp⟩
    obtain ⟨W', es', h1, _⟩ := (permute_permutes_linear W hn es h p).2 hp
    exact ⟨_, h1⟩

example : ∃ g, permute (.lin ["V", "Q"] [.num 0, .num 0]) [1, 0] = .ok g :=
  (permute_linear_iff ["V", "Q"] [.num 0, .num 0] rfl [1, 0]).2 ⟨by simp, by decide⟩

example : ¬ ∃ g, permute (.lin ["V"] [.num 0]) [0] = .ok g :=
  fun h => absurd ((permute_linear_iff ["V"] [.num 0] rfl [0]).1 h).1 (by simp)

end Verif.BlockForm
