/-
Small independent specification of the Smithy conflict resolution rules, and of when two models are "the same" up to the
enumeration order of maps.
-/
import Verif.Model
import Verif.ValuesSpec

namespace Verif.Spec

/-- Two optional things are both absent, or both present and related. -/
inductive OptRel {α β : Type} (R : α → β → Prop) : Option α → Option β → Prop
  | protected none : OptRel R none none
  | protected some {a b} : R a b → OptRel R (some a) (some b)

/-- Two maps have the same keys, with related values. -/
def MapRel {K V W : Type} [DecidableEq K] (R : V → W → Prop) (a : AMap K V) (b : AMap K W) : Prop :=
  ∀ k, OptRel R (a.get k) (b.get k)

/-- Two lists have the same length and related elements at each position. -/
def ListRel {α β : Type} (R : α → β → Prop) (a : List α) (b : List β) : Prop :=
  a.length = b.length ∧ ∀ (i : Nat) x y, a[i]? = some x → b[i]? = some y → R x y

/-- The two ids are `==` (ASCII case is ignored, see C04). -/
def SameId (a b : ShapeID) : Prop := a.ceq b = true

/-- The two names are `==`. -/
def SameName (a b : Str) : Prop := lower a = lower b

/-- "Members that target the same shapes": same name, same target. -/
def SameMember (a b : MemberShape) : Prop := SameName a.id b.id ∧ SameId a.target b.target

/-- The Smithy rules for conflicting shapes: same type; aggregates contain the same members that target the same
shapes; services, operations and resources contain the same properties and target the same shapes. -/
inductive SameDef : ShapeKind → ShapeKind → Prop
  | simple {s} : SameDef (.simple s) (.simple s)
  | list {a b} : SameMember a b → SameDef (.list a) (.list b)
  | set {a b} : SameMember a b → SameDef (.set a) (.set b)
  | map {k v k' v'} : SameMember k k' → SameMember v v' → SameDef (.map k v) (.map k' v')
  | struct {a b} : MapRel SameMember a b → SameDef (.struct a) (.struct b)
  | union {a b} : MapRel SameMember a b → SameDef (.union a) (.union b)
  | service {a b : Service} : a.version = b.version → ListRel SameId a.operations b.operations →
      ListRel SameId a.resources b.resources → MapRel SameName a.renames b.renames → SameDef (.service a) (.service b)
  | operation {a b : Operation} : OptRel SameId a.input b.input → OptRel SameId a.output b.output →
      ListRel SameId a.errors b.errors → SameDef (.operation a) (.operation b)
  | resource {a b : Resource} : MapRel SameId a.identifiers b.identifiers →
      (∀ l, OptRel SameId (a.lifecycle l) (b.lifecycle l)) → ListRel SameId a.operations b.operations →
      ListRel SameId a.collectionOperations b.collectionOperations → ListRel SameId a.resources b.resources →
      SameDef (.resource a) (.resource b)
  | unresolved : SameDef .unresolved .unresolved

/-! ### Conflict resolution of metadata and traits -/

/-- Combining two metadata values: arrays are concatenated, equal values keep the first; otherwise impossible. -/
inductive MetaMerge : Value → Value → Value → Prop
  | concat {a b} : MetaMerge (.array a) (.array b) (.array (a ++ b))
  | equal {a b} : ¬ (a.isArray ∧ b.isArray) → VEq a b → MetaMerge a b a

/-- Combining two trait values (an absent value equals only an absent value). -/
inductive TraitMerge : TraitValue → TraitValue → TraitValue → Prop
  | concat {a b} : TraitMerge (some (.array a)) (some (.array b)) (some (.array (a ++ b)))
  | valueless : TraitMerge none none none
  | equal {a b} : ¬ (a.isArray ∧ b.isArray) → VEq a b → TraitMerge (some a) (some b) (some a)

/-- Key-wise combination: what only one side has is kept, what both have is combined by `M`. -/
inductive Combine {V : Type} (M : V → V → V → Prop) : Option V → Option V → Option V → Prop
  | neither : Combine M none none none
  | left {a} : Combine M (some a) none (some a)
  | right {b} : Combine M none (some b) (some b)
  | both {a b c} : M a b c → Combine M (some a) (some b) (some c)

/-- `c` is the key-wise combination of `a` and `b`. -/
def MapMerge {K V : Type} [DecidableEq K] (M : V → V → V → Prop) (a b c : AMap K V) : Prop :=
  ∀ k, Combine M (a.get k) (b.get k) (c.get k)

/-- Combining two bodies: two definitions must agree, and the first is kept; a definition replaces a placeholder. -/
inductive BodyMerge : ShapeKind → ShapeKind → ShapeKind → Prop
  | same {a b} : a ≠ .unresolved → b ≠ .unresolved → SameDef a b → BodyMerge a b a
  | resolve {b} : b ≠ .unresolved → BodyMerge .unresolved b b
  | keep {a} : BodyMerge a .unresolved a

/-- Combining two shapes with the same id. -/
structure ShapeMerge (a b c : TopLevelShape) : Prop where
  idl : c.id = a.id
  idr : c.id = b.id
  body : BodyMerge a.body b.body c.body
  traits : MapMerge TraitMerge a.traits b.traits c.traits

/-- Combining two models. -/
structure ModelMerge (a b c : Model) : Prop where
  versionl : c.version = a.version
  versionr : c.version = b.version
  metadata : MapMerge MetaMerge a.metadata b.metadata c.metadata
  shapes : MapMerge ShapeMerge a.shapes b.shapes c.shapes

/-! ### Well-formed models: what `HashMap` and the constructors guarantee -/

/-- No duplicate trait ids, well-formed values. -/
structure WfTraits (ts : Traits) : Prop where
  nodup : AMap.Wf ts
  values : ∀ id v, ts.get id = some (some v) → v.Wf

/-- No duplicate member names, each member is stored under its own name, with well-formed traits. -/
structure WfMembers (ms : AMap Str MemberShape) : Prop where
  nodup : AMap.Wf ms
  key : ∀ k m, ms.get k = some m → m.id = k
  traits : ∀ k m, ms.get k = some m → WfTraits m.traits

/-- Well-formed bodies. -/
def WfKind : ShapeKind → Prop
  | .list m | .set m => WfTraits m.traits
  | .map k v => WfTraits k.traits ∧ WfTraits v.traits
  | .struct ms | .union ms => WfMembers ms
  | .service s => AMap.Wf s.renames
  | .resource r => AMap.Wf r.identifiers
  | _ => True

/-- Well-formed shapes. -/
structure WfShape (s : TopLevelShape) : Prop where
  traits : WfTraits s.traits
  body : WfKind s.body

/-- Well-formed models: each map has each key once, shapes are stored under their own id, and only placeholders have
member ids. -/
structure WfModel (m : Model) : Prop where
  metaNodup : AMap.Wf m.metadata
  metaValues : ∀ k v, m.metadata.get k = some v → v.Wf
  nodup : AMap.Wf m.shapes
  key : ∀ id s, m.shape id = some s → s.id = id
  member : ∀ id s, m.shape id = some s → id.isMember = true → s.body = .unresolved
  shapes : ∀ id s, m.shape id = some s → WfShape s

/-! ### The same model, up to the enumeration order of every map in it -/

def SameTraits (a b : Traits) : Prop := MapRel (OptRel Same) a b

def SameMemberShape (a b : MemberShape) : Prop := a.id = b.id ∧ a.target = b.target ∧ SameTraits a.traits b.traits

inductive SameKind : ShapeKind → ShapeKind → Prop
  | simple {s} : SameKind (.simple s) (.simple s)
  | list {a b} : SameMemberShape a b → SameKind (.list a) (.list b)
  | set {a b} : SameMemberShape a b → SameKind (.set a) (.set b)
  | map {k v k' v'} : SameMemberShape k k' → SameMemberShape v v' → SameKind (.map k v) (.map k' v')
  | struct {a b} : MapRel SameMemberShape a b → SameKind (.struct a) (.struct b)
  | union {a b} : MapRel SameMemberShape a b → SameKind (.union a) (.union b)
  | service {v o r} {m m' : AMap ShapeID Str} : MapRel Eq m m' → SameKind (.service ⟨v, o, r, m⟩) (.service ⟨v, o, r, m'⟩)
  | operation {o} : SameKind (.operation o) (.operation o)
  | resource {m m' : AMap Str ShapeID} {c p r u d l o co rs} : MapRel Eq m m' →
      SameKind (.resource ⟨m, c, p, r, u, d, l, o, co, rs⟩) (.resource ⟨m', c, p, r, u, d, l, o, co, rs⟩)
  | unresolved : SameKind .unresolved .unresolved

structure SameShape (a b : TopLevelShape) : Prop where
  id : a.id = b.id
  traits : SameTraits a.traits b.traits
  body : SameKind a.body b.body

structure SameModel (a b : Model) : Prop where
  version : a.version = b.version
  metadata : MapRel Same a.metadata b.metadata
  shapes : MapRel SameShape a.shapes b.shapes

end Verif.Spec
