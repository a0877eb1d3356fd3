/-
Independent specification of when two models can be merged, and of the reachable states of the model API.
-/
import Verif.ModelSpec

namespace Verif.Spec

/-- No trait is applied under a member id. -/
def LegalTraits (ts : Traits) : Prop := ∀ id v, ts.get id = some v → id.isMember = false

/-- Two shapes with the same id can be combined: at most one definition, or two that agree; each trait both carry can
be combined; the traits to add have shape (not member) ids. -/
structure ShapeMergeable (a b : TopLevelShape) : Prop where
  body : a.body = .unresolved ∨ b.body = .unresolved ∨ SameDef a.body b.body
  traits : ∀ t x y, a.traits.get t = some x → b.traits.get t = some y → ∃ z, TraitMerge x y z
  legal : LegalTraits b.traits

/-- Two models can be merged: same version, every metadata key both have can be combined, every shape both have can be
combined. -/
structure Mergeable (a b : Model) : Prop where
  version : a.version = b.version
  metadata : ∀ k x y, a.metadata.get k = some x → b.metadata.get k = some y → ∃ z, MetaMerge x y z
  shapes : ∀ id x y, a.shape id = some x → b.shape id = some y → ShapeMergeable x y

/-- All traits of all shapes are applied under shape ids. -/
def LegalModel (m : Model) : Prop := ∀ id s, m.shape id = some s → LegalTraits s.traits

/-- The states a model can be in: any history of the mutating operations, failed calls included. The values and shapes
passed in are any that `HashMap`s can represent; the models merged in are themselves reachable. -/
inductive Reachable : Model → Prop
  | new (v : Version) : Reachable (Model.new v)
  | addMetadata {m : Model} (k : Str) {v : Value} : v.Wf → Reachable m → Reachable (m.addMetadata k v).1
  | removeMetadata {m : Model} (k : Str) : Reachable m → Reachable (m.removeMetadata k)
  | addShape {m : Model} {s : TopLevelShape} : WfShape s → Reachable m → Reachable (m.addShape s).1
  | removeShape {m : Model} (id : ShapeID) : Reachable m → Reachable (m.removeShape id)
  | merge {m o : Model} : Reachable m → Reachable o → Reachable (m.merge o).1

end Verif.Spec
