/-
What the document about a model should have.
-/
import Verif.Describe
import Verif.GraphMLSpec
import Verif.PlantUmlSpec

namespace Verif.Spec.Doc
open Describe (Label Inline Cell Block Document)

/-! ### Documentation and traits -/

/-- The text of a value in a table of metadata or in a link. -/
inductive ShownAs (f : Fmt) : Value → Str → Prop
  | string {s : Str} : ShownAs f (.string s) ('"' :: s ++ ['"'])
  | number {n : Number} : ShownAs f (.number n) (showNumber f n)
  | boolean {b : Bool} : ShownAs f (.boolean b) (showBool b)
  | none : ShownAs f .none %s"None"
  | array {vs : List Value} {ts : List Str} : ts.length = vs.length → (∀ (i : Nat) v t, vs[i]? = some v → ts[i]? = some t → ShownAs f v t) →
      ShownAs f (.array vs) (%s"[ " ++ joinWith %s", " ts ++ %s" ]")
  | object {vs : List (Str × Value)} {ts : List Str} : ts.length = vs.length →
      (∀ (i : Nat) k v t, vs[i]? = some (k, v) → ts[i]? = some t → ShownAs f v t) →
      ShownAs f (.object vs) (%s"{ " ++ joinWith %s", " ((vs.zip ts).map fun e => e.1.1 ++ %s": " ++ e.2) ++ %s" }")

/-- The rows (path and value) of a value in the table of traits, where only the last step of the path is shown. -/
inductive Rows (f : Fmt) : Option Str → Value → List (Option Str × Option Str) → Prop
  | string {p : Option Str} {s : Str} : Rows f p (.string s) [(p, some s)]
  | number {p : Option Str} {n : Number} : Rows f p (.number n) [(p, some (showNumber f n))]
  | boolean {p : Option Str} {b : Bool} : Rows f p (.boolean b) [(p, some (showBool b))]
  | null {p : Option Str} : Rows f p .none [(none, none)]
  | emptyArray {p : Option Str} : Rows f p (.array []) [(none, none)]
  | emptyObject {p : Option Str} : Rows f p (.object []) [(none, none)]
  | array {p : Option Str} {vs : List Value} {parts : List (List (Option Str × Option Str))} : vs ≠ [] → parts.length = vs.length →
      (∀ (i : Nat) v part, vs[i]? = some v → parts[i]? = some part → Rows f (some (%s"[" ++ showNat i ++ %s"]")) v part) → Rows f p (.array vs) parts.flatten
  | object {p : Option Str} {vs es : List (Str × Value)} {parts : List (List (Option Str × Option Str))} : vs ≠ [] → es.Perm vs →
      es.Pairwise (fun a b => strLe a.1 b.1 = true) → parts.length = es.length →
      (∀ (i : Nat) k v part, es[i]? = some (k, v) → parts[i]? = some part → Rows f (some (%s"." ++ k)) v part) → Rows f p (.object vs) parts.flatten

/-- The two traits that are shown in another way than the others; the case of letters makes no difference. -/
def isDocs (t : ShapeID) : Bool := t.ceq ⟨%s"smithy.api", %s"documentation", none⟩ || t.ceq ⟨%s"smithy.api", %s"externalDocumentation", none⟩

/-- The order of texts, without equality. -/
def Less (a b : Str) : Prop := strLe a b = true ∧ a ≠ b

/-- The order of ids: by namespace, then by name, then by member, and without a member first. -/
def Before (a b : ShapeID) : Prop :=
  Less a.ns b.ns ∨ (a.ns = b.ns ∧ (Less a.name b.name ∨ (a.name = b.name ∧
    ((a.member = none ∧ b.member ≠ none) ∨ ∃ x y, a.member = some x ∧ b.member = some y ∧ Less x y))))

/-- The name of a trait; those of the prelude go without a namespace. -/
def traitName (t : ShapeID) : Str := if lower t.ns = %s"smithy.api" then t.name else t.display

/-- The rows of the table for one trait. -/
def TraitPart (f : Fmt) (e : ShapeID × TraitValue) (rows : List (List Cell)) : Prop :=
  ∃ parts, (match e.2 with
    | none => parts = [(none, none)]
    | some v => Rows f none v parts) ∧
  rows = parts.map fun r => [.plain (traitName e.1), r.1.elim .skip .code, r.2.elim .skip .code]

/-- The rows of the table of traits: all traits except documentation, in order. -/
def TraitRows (f : Fmt) (ts : Traits) (rows : List (List Cell)) : Prop :=
  ∃ es parts, es.Perm (ts.filter fun e => !isDocs e.1) ∧ es.Pairwise (fun a b => Before a.1 b.1) ∧ List.Forall₂ (TraitPart f) es parts ∧ rows = parts.flatten

/-- What documents a shape or a member: its documentation, links to more of it, and a table of its traits. -/
def DocumentationPart (f : Fmt) (ts : Traits) (blocks : List Block) : Prop :=
  ∃ links rows, TraitRows f ts rows ∧
    (match AMap.get ts ⟨%s"smithy.api", %s"externalDocumentation", none⟩ with
      | some (some (.object (e :: es))) => ∃ urls, List.Forall₂ (fun x url => ShownAs f x.2 url) (e :: es) urls ∧
          links = [.paragraph (.plain %s"See also: " :: ((e :: es).zip urls).map fun x => .external x.2 x.1.1)]
      | _ => links = []) ∧
    blocks = (match AMap.get ts ⟨%s"smithy.api", %s"documentation", none⟩ with
      | some (some (.string s)) => [.paragraph [.plain s]]
      | _ => []) ++ links ++ (if rows = [] then [] else [.table [%s"Trait ID", %s"Path", %s"Value"] rows])

/-- The documentation is not a text. -/
def BadDocumentation (ts : Traits) : Prop :=
  ∃ v, AMap.get ts ⟨%s"smithy.api", %s"documentation", none⟩ = some (some v) ∧ ∀ s, v ≠ .string s

/-- The members that have traits of their own. -/
def memberShapes : ShapeKind → List MemberShape
  | .list m | .set m => [m]
  | .map k v => [k, v]
  | .struct ms | .union ms => ms.map (·.2)
  | _ => []

/-- A shape that is defined has documentation that is not a text, or one of its members has. -/
def Undocumentable (m : Model) : Prop :=
  ∃ id s, DefinesShape m id s ∧ (BadDocumentation s.traits ∨ ∃ x ∈ memberShapes s.body, BadDocumentation x.traits)

/-! ### Shapes -/

/-- The label of the heading of a shape. -/
def labelOf (id : ShapeID) : Label :=
  match id.member with
  | none => ⟨id.name, %s"shape"⟩
  | some x => ⟨id.name ++ %s"_" ++ x, %s"member"⟩

/-- How a shape refers to another: with a link if it is in the same namespace. -/
def refTo (source target : ShapeID) : Inline :=
  if lower source.ns = lower target.ns then .link (labelOf target) target.name else .code target.display

/-- A list of items under a title, unless it is empty. -/
def listOf (title : Str) (items : List (List Inline)) : List Block :=
  if items = [] then [] else [.heading 3 title none, .quote [.list items]]

/-- What describes the body of a shape. -/
def BodyPart (f : Fmt) (id : ShapeID) (blocks : List Block) : ShapeKind → Prop
  | .simple _ | .unresolved => blocks = []
  | .list m | .set m => ∃ docs, DocumentationPart f m.traits docs ∧ blocks = .paragraph [.bold %s"Member type: ", refTo id m.target] :: docs
  | .map k v => ∃ docs docs', DocumentationPart f k.traits docs ∧ DocumentationPart f v.traits docs' ∧
      blocks = .paragraph [.bold %s"Key type: ", refTo id k.target] :: docs ++ .paragraph [.bold %s", value type: ", refTo id v.target] :: docs'
  | .struct ms | .union ms => ∃ docs, List.Forall₂ (fun (e : Str × MemberShape) d => DocumentationPart f e.2.traits d) ms docs ∧
      blocks = if ms = [] then [] else .heading 3 %s"Members" none :: docs.flatten ++
        [.quote (ms.map fun (e : Str × MemberShape) => .paragraph [.code e.1, .plain %s": ", refTo id e.2.target])]
  | .service s => blocks = .paragraph [.bold %s"Service version", .plain %s": ", .plain s.version] ::
      listOf %s"Operations" (s.operations.map fun x => [refTo id x]) ++ listOf %s"Resources" (s.resources.map fun x => [refTo id x]) ++
      listOf %s"Renames" (s.renames.map fun (e : ShapeID × Str) => [.code e.1.display, .plain %s" renamed to ", .code e.2])
  | .operation o => blocks =
      (o.input.toList.map fun x => .quote [.paragraph [.bold %s"Input type", .plain %s": ", refTo id x]]) ++
      (o.output.toList.map fun x => .quote [.paragraph [.bold %s"Output type", .plain %s": ", refTo id x]]) ++
      if o.errors = [] then [] else [.quote [.paragraph [.bold %s"Errors", .plain %s":"], .list (o.errors.map fun x => [refTo id x])]]
  | .resource r =>
      let item (name : Str) (x : ShapeID) : List Inline := [.code name, .plain %s": ", refTo id x]
      blocks = listOf %s"Resource Operations" (r.create.toList.map (item %s"create") ++ r.put.toList.map (item %s"put") ++
          r.read.toList.map (item %s"read") ++ r.update.toList.map (item %s"update") ++ r.delete.toList.map (item %s"delete") ++ r.list.toList.map (item %s"list")) ++
        listOf %s"Operations" (r.operations.map fun x => [refTo id x]) ++
        listOf %s"Collection Operations" (r.collectionOperations.map fun x => [refTo id x]) ++ listOf %s"Resources" (r.resources.map fun x => [refTo id x])

/-- The heading of the part about a shape: its name and its type. -/
def headingOf (s : TopLevelShape) : Block := .heading 2 (s.id.name ++ %s" (" ++ GraphML.typeOf s.body ++ %s")") (some (labelOf s.id))

/-- The part about a shape. -/
def ShapePart (f : Fmt) (s : TopLevelShape) (blocks : List Block) : Prop :=
  ∃ docs body, DocumentationPart f s.traits docs ∧ BodyPart f s.id body s.body ∧ blocks = headingOf s :: docs ++ body

/-- The part about a namespace: all shapes that are defined in it (where the case of letters makes no difference), in the order of their ids. -/
def NamespacePart (f : Fmt) (m : Model) (ns : Str) (blocks : List Block) : Prop :=
  ∃ (ss : List TopLevelShape) (parts : List (List Block)), (∀ s, s ∈ ss ↔ DefinesShape m s.id s ∧ lower s.id.ns = lower ns) ∧ (ss.map (·.id)).Nodup ∧
    ss.Pairwise (fun a b => strLe a.id.display b.id.display = true) ∧ List.Forall₂ (ShapePart f) ss parts ∧
    blocks = .heading 1 (%s"Namespace " ++ ns) none :: parts.flatten

/-- The part about the metadata. -/
def MetadataPart (f : Fmt) (m : Model) (blocks : List Block) : Prop :=
  ∃ texts, List.Forall₂ (fun e t => ShownAs f e.2 t) m.metadata texts ∧
    blocks = if m.metadata = [] then [] else
      [.heading 1 %s"Metadata" none, .table [%s"Key", %s"Value"] ((m.metadata.zip texts).map fun e => [.plain e.1.1, .code e.2])]

/-- The document about the model. -/
def IsDocument (f : Fmt) (m : Model) (d : Document) : Prop :=
  ∃ about nss parts, MetadataPart f m about ∧ nss.Nodup ∧ (∀ ns, ns ∈ nss ↔ Uml.IsNamespaceOf m ns) ∧ List.Forall₂ (NamespacePart f m) nss parts ∧
    d.title = %s"Smithy Model" ∧ d.blocks = .paragraph [.plain (%s"Smithy Version: " ++ m.version.display)] :: about ++ parts.flatten

/-! ### Looking things up in a document -/

/-- The headings with labels: their titles and labels (there are no headings in quotes, see `IsDocument`). -/
def titles (blocks : List Block) : List (Str × Label) := blocks.filterMap fun
  | .heading _ t (some l) => some (t, l)
  | _ => none

/-- The labels of headings. -/
def labels (blocks : List Block) : List Label := (titles blocks).map (·.2)

mutual
  /-- The inline content of a block. -/
  def inlines : Block → List Inline
    | .paragraph l => l
    | .list items => items.flatten
    | .quote bs => inlinesAll bs
    | .heading _ _ _ | .table _ _ => []
  /-- The inline content of blocks. -/
  def inlinesAll : List Block → List Inline
    | [] => []
    | b :: bs => inlines b ++ inlinesAll bs
end

/-- There is a link to this label. -/
def LinksTo (blocks : List Block) (l : Label) : Prop := ∃ c, Inline.link l c ∈ inlinesAll blocks

/-- The ids a shape refers to, except the identifiers of a resource and the ids of traits. -/
def references (s : TopLevelShape) : List ShapeID := (GraphML.membersOf s.body).map (·.2)

/-- No two namespaces differ only in the case of letters. -/
def NamespacesDiffer (m : Model) : Prop := ∀ ns ns', Uml.IsNamespaceOf m ns → Uml.IsNamespaceOf m ns' → lower ns = lower ns' → ns = ns'

/-! ### What makes no difference -/

/-- A value that has no row with a path of its own: a list, a map or nothing. -/
inductive Composite : Value → Prop
  | array {vs : List Value} : Composite (.array vs)
  | object {vs : List (Str × Value)} : Composite (.object vs)
  | null : Composite .none

/-- Values of traits that are shown the same way: no value, null, and empty lists and maps; and a value that is a list or map (or null) and a list or
map with just that value. -/
inductive LikeValue : TraitValue → TraitValue → Prop
  | refl {v : TraitValue} : LikeValue v v
  | symm {v w : TraitValue} : LikeValue v w → LikeValue w v
  | trans {u v w : TraitValue} : LikeValue u v → LikeValue v w → LikeValue u w
  | null : LikeValue (some .none) none
  | emptyArray : LikeValue (some (.array [])) none
  | emptyObject : LikeValue (some (.object [])) none
  | array {v : Value} : Composite v → LikeValue (some (.array [v])) (some v)
  | object {k : Str} {v : Value} : Composite v → LikeValue (some (.object [(k, v)])) (some v)

/-- The same traits with values that are shown the same way, and the same documentation. -/
def LikeTraits : Traits → Traits → Prop := List.Forall₂ fun a b => a.1 = b.1 ∧ LikeValue a.2 b.2 ∧ (isDocs a.1 = true → a.2 = b.2)

/-- The same names and targets; and the same traits in all, whichever members have them. -/
def LikeMembers (a b : AMap Str MemberShape) : Prop :=
  List.Forall₂ (fun x y => x.2.id = y.2.id ∧ x.2.target = y.2.target) a b ∧
  (a.map (·.2.traits)).filter (· ≠ []) = (b.map (·.2.traits)).filter (· ≠ [])

/-- Shapes that are described the same way. -/
inductive Alike : TopLevelShape → TopLevelShape → Prop
  | same {id : ShapeID} {ts ts' : Traits} {b : ShapeKind} : LikeTraits ts ts' → Alike ⟨id, ts, b⟩ ⟨id, ts', b⟩
  | struct {id : ShapeID} {ts ts' : Traits} {ms ms' : AMap Str MemberShape} : LikeTraits ts ts' → LikeMembers ms ms' →
      Alike ⟨id, ts, .struct ms⟩ ⟨id, ts', .struct ms'⟩
  | union {id : ShapeID} {ts ts' : Traits} {ms ms' : AMap Str MemberShape} : LikeTraits ts ts' → LikeMembers ms ms' →
      Alike ⟨id, ts, .union ms⟩ ⟨id, ts', .union ms'⟩
  | resource {id : ShapeID} {ts ts' : Traits} {r : Resource} {identifiers : AMap Str ShapeID} : LikeTraits ts ts' →
      Alike ⟨id, ts, .resource r⟩ ⟨id, ts', .resource { r with identifiers := identifiers }⟩

/-- Models with the same version and metadata and with shapes, in the same order, that are described the same way. -/
def AlikeModels (m m' : Model) : Prop :=
  m.version = m'.version ∧ m.metadata = m'.metadata ∧ List.Forall₂ (fun a b => a.1 = b.1 ∧ Alike a.2 b.2) m.shapes m'.shapes

end Verif.Spec.Doc
