import Verif.Model.Immersed
/-! # What the geometry of the immersed square should be -/
namespace Verif.Immersed

/-- `e` lies in the square `[lo, hi]²`: all of its vertices do. -/
def InSquare (n : ℕ) (lo hi : ℚ) (e : List Pt) : Prop :=
  ∀ p ∈ e, lo ≤ (coords n p).1 ∧ (coords n p).1 ≤ hi ∧ lo ≤ (coords n p).2 ∧ (coords n p).2 ≤ hi

/-- `f` is a facet of exactly one of the cells. -/
def OnBoundary (cells : List (List Pt)) (f : List Pt) : Prop := ∃ c, (c ∈ cells ∧ f ∈ facets c) ∧ ∀ c' ∈ cells, f ∈ facets c' → c' = c

/-- `nu` is the unit normal of the facet `f` pointing out of the cell `c`: orthogonal to the facet, of length one, with the other vertices of
    the cell behind the facet. -/
def OutwardNormal (n : ℕ) (c f : List Pt) (nu : ℚ × ℚ) : Prop :=
  nu.1 * nu.1 + nu.2 * nu.2 = 1 ∧
  ∀ p ∈ f, ∀ q ∈ c,
    let d := nu.1 * ((coords n q).1 - (coords n p).1) + nu.2 * ((coords n q).2 - (coords n p).2)
    (q ∈ f → d = 0) ∧ (q ∉ f → d < 0)

end Verif.Immersed
