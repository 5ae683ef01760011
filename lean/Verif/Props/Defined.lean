import Verif.TypeLemmas
import Verif.Props.Policy

/-!
# C183: editing rules leaves the definitions alone
-/

namespace Casbin
namespace DefinedProps

open Enforcer Fixtures PolicyProps

variable [IterOrder]

/-- C183: after any history of editing calls, with whatever arguments and however each of them ends, every section
has the types it had, in the same order, and each has the key, the value and the tokens it had. (After a call
that is undefined, like one about a type that is not there, C38, nothing can be said of the program.) -/
theorem C183_edits (E : Enforcer) (es : List Edit) (s : Str) :
    ((runEdits E es).model.secMap s).keys = (E.model.secMap s).keys ∧
    ∀ t, ((runEdits E es).model.find s t).map (fun a => (a.key, a.value, a.tokens)) =
      (E.model.find s t).map (fun a => (a.key, a.value, a.tokens)) := by
  have h : ∀ (es : List Edit) {ks ds} {E : Enforcer}, TypesKept.Types ks ds E →
      TypesKept.Types ks ds (runEdits E es) := by
    intro es ks ds
    induction es with
    | nil => exact fun h => h
    | cons e es ih => exact fun h => ih (TypesKept.keeps_edit e _ h)
  exact h es (ks := fun s => (E.model.secMap s).keys) (fun _ => ⟨rfl, fun _ => rfl⟩) s

/-- A rule too short for the role definition, which makes the call throw half-way, and a rule of the usual length:
the rules change, the types do not. -/
example :
    letI := insertionOrder
    let es : List Edit := [.add true c!"g" [c!"bob"], .add false c!"p" bob]
    ((Edit.add true c!"g" [c!"bob"]).run (rbac [alice] [])).1 = .throw .illegalArgument ∧
    (runEdits (rbac [alice] []) es).model ≠ (rbac [alice] []).model ∧
    ((runEdits (rbac [alice] []) es).model.secMap c!"g").keys = [c!"g"] := by
  let := insertionOrder
  exact ⟨by decide +kernel, by decide +kernel, (C183_edits (rbac [alice] []) _ c!"g").1⟩

end DefinedProps
end Casbin
