/-
Small independent specification of the model builder: which absolute id a name stands for, and which shape a shape
builder stands for.
-/
import Verif.Builder
import Verif.ModelSpec

namespace Verif.Spec

/-- What `HashMap` and the constructors of the builders guarantee: each key once, each builder is stored under its own
name, and only absolute ids are imported. -/
structure WfBuilder (mb : ModelBuilder) : Prop where
  nodup : AMap.Wf mb.shapes
  key : ∀ n b, mb.shapes.get n = some b → b.name = n
  reference : ∀ n b, mb.shapes.get n = some b → b.body = .reference → ∃ id, n = .qualified id
  metaNodup : AMap.Wf mb.metadata
  metaValues : ∀ k v, mb.metadata.get k = some v → v.Wf
  renames : ∀ n b v o r ren, mb.shapes.get n = some b → b.body = .service v o r ren → AMap.Wf ren
  identifiers : ∀ n b ids c p r u d l o co rs, mb.shapes.get n = some b → b.body = .resource ids c p r u d l o co rs → AMap.Wf ids
  traitValues : ∀ n b t v, mb.shapes.get n = some b → t ∈ b.traits → t.value = some v → v.Wf
  memberTraitValues : ∀ n b m t v, mb.shapes.get n = some b →
    (b.body = .list m ∨ b.body = .set m ∨ (∃ k, b.body = .map k m) ∨ (∃ w, b.body = .map m w) ∨
      (∃ ms, b.body = .struct ms ∧ m ∈ ms) ∨ (∃ ms, b.body = .union ms ∧ m ∈ ms)) →
    t ∈ m.traits → t.value = some v → v.Wf

/-- The shape `id` has been imported (by `uses`, or as a reference) and its name is `n`. -/
def Imports (mb : ModelBuilder) (n : Str) (id : ShapeID) : Prop :=
  ∃ b, mb.shapes.get (.qualified id) = some b ∧ b.body = .reference ∧ SameName id.name n

/-- A shape named `n`, without a namespace, has been added to the builder. -/
def DefinedLocally (mb : ModelBuilder) (n : Str) : Prop := ∃ b, mb.shapes.get (.local' n) = some b

/-- `n` is the name of a prelude trait, respectively a prelude shape. -/
def InPrelude (isTrait : Bool) (n : Str) : Prop := if isTrait then n ∈ preludeTraits else n ∈ preludeShapes

/-- The rules of relative shape id resolution: the name stands for the id; the flag tells that nothing by that name is
known, so that the id is only a guess. -/
inductive Resolves (mb : ModelBuilder) (isTrait : Bool) : ShapeName → ShapeID → Bool → Prop
  | absolute {id} : id.member = none → Resolves mb isTrait (.qualified id) id false
  | imported {n id} : Imports mb n id → (∀ id', Imports mb n id' → id' = id) → Resolves mb isTrait (.local' n) id false
  | defined {n} : (∀ id, ¬ Imports mb n id) → DefinedLocally mb n →
      Resolves mb isTrait (.local' n) ⟨mb.defaultNs, n, none⟩ false
  | prelude {n} : (∀ id, ¬ Imports mb n id) → ¬ DefinedLocally mb n → InPrelude isTrait n →
      Resolves mb isTrait (.local' n) ⟨%s"smithy.api", n, none⟩ false
  | unknown {n} : (∀ id, ¬ Imports mb n id) → ¬ DefinedLocally mb n → ¬ InPrelude isTrait n →
      Resolves mb isTrait (.local' n) ⟨mb.defaultNs, n, none⟩ true

/-- The name stands for the id. -/
def Target (mb : ModelBuilder) (n : ShapeName) (id : ShapeID) : Prop := ∃ new, Resolves mb false n id new

/-- The trait name stands for the id. -/
def TraitTarget (mb : ModelBuilder) (n : ShapeName) (id : ShapeID) : Prop := ∃ new, Resolves mb true n id new

/-- `v` is the value of the last of the listed traits whose name stands for `id`. -/
def LastTrait (mb : ModelBuilder) (tbs : List TraitBuilder) (id : ShapeID) (v : TraitValue) : Prop :=
  ∃ pre tb post, tbs = pre ++ tb :: post ∧ TraitTarget mb tb.name id ∧ tb.value = v ∧
    ∀ t ∈ post, ¬ TraitTarget mb t.name id

/-- The trait map built for a list of trait builders. -/
structure BuildsTraits (mb : ModelBuilder) (tbs : List TraitBuilder) (ts : Traits) : Prop where
  nodup : AMap.Wf ts
  last : ∀ id v, ts.get id = some v ↔ LastTrait mb tbs id v

/-- The member built for a member builder. -/
structure BuildsMember (mb : ModelBuilder) (b : MemberBuilder) (m : MemberShape) : Prop where
  name : m.id = b.name
  target : Target mb b.target m.target
  traits : BuildsTraits mb b.traits m.traits

/-- The last member builder with that name. -/
def lastNamed (bs : List MemberBuilder) (k : Str) : Option MemberBuilder := bs.reverse.find? fun b => decide (b.name = k)

/-- The members built for a list of member builders: for each name, the last one. -/
structure BuildsMembers (mb : ModelBuilder) (bs : List MemberBuilder) (ms : AMap Str MemberShape) : Prop where
  nodup : AMap.Wf ms
  last : ∀ k, OptRel (BuildsMember mb) (lastNamed bs k) (ms.get k)

/-- The body built for a builder, as the code does it: a set builder gives a list. -/
inductive BuildsBody (mb : ModelBuilder) : BuilderBody → ShapeKind → Prop
  | simple {s} : BuildsBody mb (.simple s) (.simple s)
  | list {b m} : BuildsMember mb b m → BuildsBody mb (.list b) (.list m)
  | set {b m} : BuildsMember mb b m → BuildsBody mb (.set b) (.list m)
  | map {k v k' v'} : BuildsMember mb k k' → BuildsMember mb v v' → BuildsBody mb (.map k v) (.map k' v')
  | struct {bs ms} : BuildsMembers mb bs ms → BuildsBody mb (.struct bs) (.struct ms)
  | union {bs ms} : BuildsMembers mb bs ms → BuildsBody mb (.union bs) (.union ms)
  | service {v ops res ren ops' res' ren'} : ListRel (Target mb) ops ops' → ListRel (Target mb) res res' →
      AMap.Wf ren' → MapRel Eq ren ren' → BuildsBody mb (.service v ops res ren) (.service ⟨v, ops', res', ren'⟩)
  | operation {i o e i' o' e'} : OptRel (Target mb) i i' → OptRel (Target mb) o o' → ListRel (Target mb) e e' →
      BuildsBody mb (.operation i o e) (.operation ⟨i', o', e'⟩)
  | resource {ids c p r u d l o co rs ids' c' p' r' u' d' l' o' co' rs'} : AMap.Wf ids' → MapRel (Target mb) ids ids' →
      OptRel (Target mb) c c' → OptRel (Target mb) p p' → OptRel (Target mb) r r' → OptRel (Target mb) u u' →
      OptRel (Target mb) d d' → OptRel (Target mb) l l' → ListRel (Target mb) o o' → ListRel (Target mb) co co' →
      ListRel (Target mb) rs rs' →
      BuildsBody mb (.resource ids c p r u d l o co rs) (.resource ⟨ids', c', p', r', u', d', l', o', co', rs'⟩)
  | reference : BuildsBody mb .reference .unresolved

/-- The id of the shape a builder stands for. -/
def BuildsId (mb : ModelBuilder) (b : Builder) (id : ShapeID) : Prop :=
  (b.body = .reference ∧ b.name = .qualified id) ∨ (b.body ≠ .reference ∧ Target mb b.name id)

/-- The shape a builder stands for. -/
structure BuildsShape (mb : ModelBuilder) (b : Builder) (s : TopLevelShape) : Prop where
  id : BuildsId mb b s.id
  body : BuildsBody mb b.body s.body
  traits : BuildsTraits mb b.traits s.traits

/-- The member builders in a builder. -/
def memberBuilders : BuilderBody → List MemberBuilder
  | .list m | .set m => [m]
  | .map k v => [k, v]
  | .struct ms | .union ms => ms
  | _ => []

/-- The names of shapes a service, operation or resource builder refers to. -/
def targetNames : BuilderBody → List ShapeName
  | .service _ ops res _ => ops ++ res
  | .operation i o e => i.toList ++ o.toList ++ e
  | .resource ids c p r u d l o co rs =>
    ids.map (·.2) ++ c.toList ++ p.toList ++ r.toList ++ u.toList ++ d.toList ++ l.toList ++ o ++ co ++ rs
  | _ => []

/-- The builder mentions the name, as the name of a trait or not. -/
inductive Mentions (b : Builder) : Bool → ShapeName → Prop
  | name : b.body ≠ .reference → Mentions b false b.name
  | trait {t} : t ∈ b.traits → Mentions b true t.name
  | memberTarget {m} : m ∈ memberBuilders b.body → Mentions b false m.target
  | memberTrait {m t} : m ∈ memberBuilders b.body → t ∈ m.traits → Mentions b true t.name
  | target {n} : n ∈ targetNames b.body → Mentions b false n

/-- Building the shape succeeds: every mentioned name stands for an id, a service has a version, the member of a list or
set is called `member`. -/
structure Buildable (mb : ModelBuilder) (b : Builder) : Prop where
  names : ∀ tr n, Mentions b tr n → ∃ id new, Resolves mb tr n id new
  reference : b.body = .reference → ∃ id, b.name = .qualified id
  version : ∀ v o r ren, b.body = .service v o r ren → v ≠ []
  member : ∀ m, b.body = .list m ∨ b.body = .set m → m.name = %s"member"

/-- `enum` enumerates each set of ids, in some order, without repetition. -/
structure Enumerates (enum : List ShapeID → List ShapeID) : Prop where
  nodup : ∀ l, (enum l).Nodup
  mem : ∀ l id, id ∈ enum l ↔ id ∈ l

end Verif.Spec
