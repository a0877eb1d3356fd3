/-
Small independent specification of what can be in a model that was read from a text in the Smithy IDL.
-/
import Verif.IdlSpec
import Verif.IdentityLemmas

namespace Verif.Spec

/-- The keys of metadata as read: an identifier, or a text with its quotes. -/
def MetaKey (k : Str) : Prop := SmithyIdent k ∨ ∃ u, k = '"' :: u ++ ['"']

/-- A valid absolute id, not of a member. -/
def RootId (id : ShapeID) : Prop := id.Valid ∧ id.member = none

/-- Traits as read: each has a value. -/
def ReadTraits (ts : Traits) : Prop := ∀ id v, ts.get id = some v → RootId id ∧ ∃ x, v = some x

/-- Members of structures and unions as read. -/
structure ReadMember (x : MemberShape) : Prop where
  name : SmithyIdent x.id
  target : RootId x.target
  traits : ReadTraits x.traits

/-- Bodies as read: no sets, no traits on the members of lists and maps, no renames. -/
inductive ReadKind : ShapeKind → Prop
  | simple {s} : ReadKind (.simple s)
  | list {t} : RootId t → ReadKind (.list ⟨%s"member", [], t⟩)
  | map {k v} : RootId k → RootId v → ReadKind (.map ⟨%s"key", [], k⟩ ⟨%s"value", [], v⟩)
  | struct {ms : AMap Str MemberShape} : (∀ k x, ms.get k = some x → ReadMember x) → ReadKind (.struct ms)
  | union {ms : AMap Str MemberShape} : (∀ k x, ms.get k = some x → ReadMember x) → ReadKind (.union ms)
  | service {v ops res} : v ≠ [] → (∀ id ∈ ops, RootId id) → (∀ id ∈ res, RootId id) → ReadKind (.service ⟨v, ops, res, []⟩)
  | operation {x} : (∀ id, x.input = some id → RootId id) → (∀ id, x.output = some id → RootId id) → (∀ id ∈ x.errors, RootId id) →
      ReadKind (.operation x)
  | resource {x} : (∀ k id, x.identifiers.get k = some id → IsIdentifier k ∧ RootId id) → (∀ l id, x.lifecycle l = some id → RootId id) →
      (∀ id ∈ x.operations, RootId id) → (∀ id ∈ x.collectionOperations, RootId id) → (∀ id ∈ x.resources, RootId id) →
      ReadKind (.resource x)

/-- Shapes as read: a placeholder without traits, or such a body. -/
structure ReadShape (x : TopLevelShape) : Prop where
  id : RootId x.id
  traits : ReadTraits x.traits
  body : (x.body = .unresolved ∧ x.traits = []) ∨ ReadKind x.body

/-- The shape is one of the namespace, or its absolute id is in the text. -/
def Origin (s ns : Str) (id : ShapeID) : Prop := id.ns = ns ∨ id.display <:+: s

/-- Models as read from a text for a namespace. -/
structure ReadModel (s ns : Str) (m : Model) : Prop where
  nsText : SmithyNamespace ns
  nsThere : ns <:+: s
  keyword : %s"namespace" <:+: s
  metadata : ∀ k v, m.metadata.get k = some v → MetaKey k
  shapes : ∀ id x, m.shape id = some x → ReadShape x ∧ Origin s ns id

/-! ### Models that lose nothing when written and read back -/

/-- Each trait has a value that is not null. -/
def ExactTraits (ts : Traits) : Prop := ∀ e ∈ ts, ∃ v, e.2 = some v ∧ v ≠ .none

/-- Bodies that are in the text completely. -/
inductive ExactKind : ShapeKind → Prop
  | simple {s} : ExactKind (.simple s)
  | list {t} : ExactKind (.list ⟨%s"member", [], t⟩)
  | map {k v} : ExactKind (.map ⟨%s"key", [], k⟩ ⟨%s"value", [], v⟩)
  | struct {ms : AMap Str MemberShape} : (∀ e ∈ ms, ExactTraits e.2.traits) → ExactKind (.struct ms)
  | union {ms : AMap Str MemberShape} : (∀ e ∈ ms, ExactTraits e.2.traits) → ExactKind (.union ms)
  | service {x} : x.renames = [] → ExactKind (.service x)
  | operation {x} : ExactKind (.operation x)
  | resource {x} : ExactKind (.resource x)
  | unresolved : ExactKind .unresolved

/-- Models of one namespace, without metadata, that are in the text completely. -/
structure ExactModel (m : Model) (ns : Str) : Prop where
  metadata : m.metadata = []
  oneNamespace : ∀ id s, m.shape id = some s → s.body = .unresolved ∨ id.ns = ns
  traits : ∀ id s, m.shape id = some s → ExactTraits s.traits
  bodies : ∀ id s, m.shape id = some s → ExactKind s.body

/-! ### Models that no text stands for -/

/-- Something in the model that no text gives: a set; a trait without a value; a trait of a placeholder or of the member
of a list or of a map; a rename in a service; a metadata key that is neither an identifier nor in quotes; a member id. -/
inductive NoText (m : Model) : Prop
  | set {id s x} : m.shape id = some s → s.body = .set x → NoText m
  | valueless {id s t} : m.shape id = some s → s.traits.get t = some none → NoText m
  | memberValueless {id s t k x} {ms : AMap Str MemberShape} : m.shape id = some s → s.body = .struct ms ∨ s.body = .union ms →
      ms.get k = some x → x.traits.get t = some none → NoText m
  | placeholder {id s t v} : m.shape id = some s → s.body = .unresolved → s.traits.get t = some v → NoText m
  | list {id s x t v} : m.shape id = some s → s.body = .list x → x.traits.get t = some v → NoText m
  | key {id s x y t v} : m.shape id = some s → s.body = .map x y → x.traits.get t = some v → NoText m
  | value {id s x y t v} : m.shape id = some s → s.body = .map x y → y.traits.get t = some v → NoText m
  | rename {id s x t n} : m.shape id = some s → s.body = .service x → x.renames.get t = some n → NoText m
  | metadata {k v} : m.metadata.get k = some v → ¬ MetaKey k → NoText m
  | member {id s} : m.shape id = some s → id.member ≠ none → NoText m

end Verif.Spec
