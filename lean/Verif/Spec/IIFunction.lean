import Verif.Model.IIFunction
/-! # Specification of functions in products of spaces -/
namespace Verif.IIFunction

variable {K : Type}

/-- Entry `k` of vectors of the given sizes put one after another is entry `i` of the `j`-th of them. -/
structure EntryAt (sizes : List Nat) (k j i : Nat) : Prop where
  entry : ∃ n, sizes[j]? = some n ∧ i < n
  pos : k = (sizes.take j).sum + i

/-- No two functions share their coefficient vector. -/
def Unshared (fs : List Fn) : Prop := (fs.map (fun f => f.addr)).Nodup

/-- No function of the list of sources is a component which comes before the one it is assigned to. -/
def NoEarlierTarget (fs : List Fn) (g : List (Source K)) : Prop :=
  ∀ (i j : Nat) (f s : Fn), i < j → fs[i]? = some f → g[j]? = some (.fn s) → s.addr ≠ f.addr

/-- `v` are the coefficients in the space `t` of the interpolant of the source: a function in any space, with the
coefficients it has now, or an expression. -/
def Interpolates (transfer : Space → Space → List K → Py (List K)) (h : Heap K) (t : Space) (s : Source K) (v : List K) : Prop :=
  (∃ g, s = .fn g ∧ transfer g.space t (h.vec g.addr) = .ok v) ∨ ∃ e, s = .expr e ∧ e t = .ok v

end Verif.IIFunction
