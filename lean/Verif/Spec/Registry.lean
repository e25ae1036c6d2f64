import Verif.Model.Registry
import Verif.Spec.Embedding
/-!
# What the maps kept in a mesh should satisfy
-/
namespace Verif.Registry
open Verif Verif.Embedding

/-- The cell `c` is mapped to the entity `e` of the mesh `id`. -/
def Stored (t : TraceMesh) (id c e : Nat) : Prop :=
  ∃ maps m, t.maps = some maps ∧ maps.lookup id = some m ∧ m.lookup c = some e

/-- All that is stored is right: `right id c e` says that the cell `c` is the entity `e` of the mesh `id` (or is
    inside of it). -/
def AllRight (right : Nat → Nat → Nat → Prop) (t : TraceMesh) : Prop :=
  ∀ id c e, Stored t id c e → right id c e

end Verif.Registry
