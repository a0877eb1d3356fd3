/-
Small independent specification of the concrete syntax of the Smithy IDL: which texts say what. Blank text (spaces, tabs, line
ends, commas and comments) may stand wherever the syntax allows it, in any amount.
-/
import Verif.IdlDocs

namespace Verif.Spec.Idl

/-! ### Blank text -/

/-- Blank text that is not empty. -/
def Gap (w : Str) : Prop := Blank w ∧ w ≠ []

/-- A line end. -/
def LineEnd (e : Str) : Prop := e = ['\n'] ∨ e = ['\r', '\n'] ∨ e = ['\r']

/-- Blank texts, each after an element of a list: only the last may be empty. -/
def Parted (ws : List Str) : Prop := (∀ w ∈ ws, Blank w) ∧ ∀ w ∈ ws.dropLast, w ≠ []

/-! ### Names and values -/

/-- The text of a name: a bare name, or the absolute id of a shape or of a member. -/
inductive NameText : ShapeName → Str → Prop
  | bare {n} : SmithyIdent n → NameText (.local' n) n
  | absolute {ns n} : SmithyNamespace ns → SmithyIdent n → NameText (.qualified ⟨ns, n, none⟩) (ns ++ %s"#" ++ n)
  | member {ns n m} : SmithyNamespace ns → SmithyIdent n → SmithyIdent m → NameText (.qualified ⟨ns, n, some m⟩) (ns ++ %s"#" ++ n ++ %s"$" ++ m)

/-- The text of a key: an identifier, or a text in quotes. -/
def KeyText (k : Str) : Prop := SmithyIdent k ∨ ∃ u, Escaped u ∧ k = %s"\"" ++ u ++ %s"\""

/-- A key without its quotes. -/
def unquoted (k : Str) : Str := if k.head? = some '"' then k.tail.dropLast else k

/-- An exponent. -/
def ExponentText (s : Str) : Prop :=
  ∃ letter sign ds, (letter = ['e'] ∨ letter = ['E']) ∧ (sign = [] ∨ sign = ['-'] ∨ sign = ['+']) ∧ Digits ds ∧ s = letter ++ sign ++ ds

/-- A number with a fraction, and maybe an exponent. -/
def FloatText (s : Str) : Prop := ∃ m x, FractionText m ∧ (x = [] ∨ ExponentText x) ∧ s = m ++ x

/-- The inside of a text block: as between quotes, with tabs, line ends, and one or two quotes that something else follows. -/
inductive BlockText : Str → Prop
  | nil : BlockText []
  | char {c u} : PlainChar c ∨ c ∈ ['\t', '\n', '\r'] → BlockText u → BlockText (c :: u)
  | escape {c u} : PlainChar c ∨ c = '\\' ∨ c = '"' → BlockText u → BlockText ('\\' :: c :: u)
  | quote {c u} : c ≠ '"' → BlockText (c :: u) → BlockText ('"' :: c :: u)
  | quotes {c u} : c ≠ '"' → BlockText (c :: u) → BlockText ('"' :: '"' :: c :: u)

/-- An element of an array: its value, its text, and the blank text after it. -/
structure Item where
  value : Value
  text : Str
  after : Str

/-- The text of the elements. -/
def itemsText (is : List Item) : Str := is.flatMap fun i => i.text ++ i.after

/-- An entry of an object: its key, the blank text before and after the colon, its value, the text of the value, and the blank
text after it. -/
structure Entry where
  key : Str
  before : Str
  behind : Str
  value : Value
  text : Str
  after : Str

/-- The parts other than the value are as they should be. -/
def Entry.Ok (e : Entry) : Prop := KeyText e.key ∧ Blank e.before ∧ Blank e.behind

/-- The text of the entry, up to its value; with the sign between key and value. -/
def Entry.show (sign : Str) (e : Entry) : Str := e.key ++ e.before ++ sign ++ e.behind ++ e.text

/-- The text of the entries. -/
def entriesText (es : List Entry) : Str := es.flatMap fun e => e.show %s":" ++ e.after

/-- The text of a value. `flt` reads numbers with a fraction. A name or an id stands for its text; so does what is between
quotes. The later of two entries with the same key counts. -/
inductive ValueText (flt : Str → Option F64) : Value → Str → Prop
  | array {w is} : Blank w → (∀ i ∈ is, ValueText flt i.value i.text) → Parted (is.map (·.after)) →
      ValueText flt (.array (is.map (·.value))) (%s"[" ++ w ++ itemsText is ++ %s"]")
  | object {w es} : Blank w → (∀ e ∈ es, Entry.Ok e) → (∀ e ∈ es, ValueText flt e.value e.text) → Parted (es.map (·.after)) →
      ValueText flt (.object (AMap.ofList (es.map fun e => (e.key, e.value)))) (%s"{" ++ w ++ entriesText es ++ %s"}")
  | integer {n} : i64 n → ValueText flt (.number (.integer n)) (showInt n)
  | minusZero : ValueText flt (.number (.integer 0)) %s"-0"
  | float {t x} : FloatText t → flt t = some x → ValueText flt (.number (.float x)) t
  | keyword {v t} : Keyword t v → ValueText flt v t
  | name {n t} : NameText n t → NotKeyword t → ValueText flt (.string t) t
  | quoted {u} : Escaped u → ValueText flt (.string u) (%s"\"" ++ u ++ %s"\"")
  | block {w u} : Blank w → BlockText u → (∀ c ∈ u.head?, c ∉ [' ', '\t', '\n', '\r', ',', '/']) →
      ValueText flt (.string u) (%s"\"\"\"" ++ w ++ u ++ %s"\"\"\"")

/-- A list of entries in order. -/
structure EntriesOk (flt : Str → Option F64) (es : List Entry) : Prop where
  ok : ∀ e ∈ es, Entry.Ok e
  values : ∀ e ∈ es, ValueText flt e.value e.text
  parted : Parted (es.map (·.after))

/-! ### Traits and documentation -/

/-- The text of a trait: one without a value, or with nothing between the parentheses, has the empty structure as its value;
names and values between the parentheses make a structure. -/
inductive TraitText (flt : Str → Option F64) : TraitBuilder → Str → Prop
  | plain {n x} : NameText n x → TraitText flt ⟨n, some (.object [])⟩ (%s"@" ++ x)
  | value {n x w v t w'} : NameText n x → Blank w → ValueText flt v t → Blank w' →
      TraitText flt ⟨n, some v⟩ (%s"@" ++ x ++ %s"(" ++ w ++ t ++ w' ++ %s")")
  | members {n x w es} : NameText n x → Blank w → EntriesOk flt es →
      TraitText flt ⟨n, some (.object (AMap.ofList (es.map fun e => (unquoted e.key, e.value))))⟩ (%s"@" ++ x ++ %s"(" ++ w ++ entriesText es ++ %s")")

/-- The text of traits before a member or a statement: what ends in a name is not followed by a letter. -/
inductive TraitsText (flt : Str → Option F64) : List TraitBuilder → Str → Prop
  | nil : TraitsText flt [] []
  | cons {t x w ts y} : TraitText flt t x → Blank w → TraitsText flt ts y → w ≠ [] ∨ y ≠ [] ∨ x.getLast? = some ')' →
      TraitsText flt (t :: ts) (x ++ w ++ y)

/-- The text of documentation comments. -/
inductive DocsText : List Str → Str → Prop
  | nil : DocsText [] []
  | cons {l e w ls u} : (∀ c ∈ l, CommentChar c) → LineEnd e → Blank w → DocsText ls u → DocsText (l :: ls) (%s"///" ++ l ++ e ++ w ++ u)

/-- The trait that documentation comments stand for. -/
inductive DocTrait : List Str → List TraitBuilder → Prop
  | none : DocTrait [] []
  | some {docs texts : List Str} : docs ≠ [] → List.Forall₂ Trimmed docs texts →
      DocTrait docs [⟨.qualified ⟨%s"smithy.api", %s"documentation", .none⟩, .some (.string (List.intercalate ['\n'] texts))⟩]

/-- The text of documentation and traits. -/
def Preface (flt : Str → Option F64) (ts : List TraitBuilder) (s : Str) : Prop :=
  ∃ docs d dt tb x, DocsText docs d ∧ DocTrait docs dt ∧ TraitsText flt tb x ∧ ts = dt ++ tb ∧ s = d ++ x

/-! ### Statements -/

/-- The text of a member: documentation, traits, the name, a colon and the target. -/
inductive MemberText (flt : Str → Option F64) : MemberBuilder → Str → Prop
  | mk {n ts target p w w' t} : Preface flt ts p → SmithyIdent n → Blank w → Blank w' → NameText target t →
      MemberText flt ⟨n, ts, target⟩ (p ++ n ++ w ++ %s":" ++ w' ++ t)

/-- The text of members, between braces. -/
def MembersText (flt : Str → Option F64) (ms : List MemberBuilder) (s : Str) : Prop :=
  ∃ (w : Str) (is : List (MemberBuilder × Str × Str)), Blank w ∧ (∀ i ∈ is, MemberText flt i.1 i.2.1) ∧ Parted (is.map (·.2.2)) ∧ ms = is.map (·.1) ∧
    s = %s"{" ++ w ++ is.flatMap (fun i => i.2.1 ++ i.2.2) ++ %s"}"

/-- A text that names a shape or a member, in quotes or not: the names are those of the models, which are a little more than
those of the grammar. -/
inductive AnyName : ShapeName → Str → Prop
  | bare {n} : IsIdentifier n → AnyName (.local' n) n
  | absolute {ns n} : IsNamespace ns → IsIdentifier n → AnyName (.qualified ⟨ns, n, none⟩) (ns ++ %s"#" ++ n)
  | member {ns n m} : IsNamespace ns → IsIdentifier n → IsIdentifier m → AnyName (.qualified ⟨ns, n, some m⟩) (ns ++ %s"#" ++ n ++ %s"$" ++ m)

/-- A value that names a shape. -/
def Names (v : Value) (n : ShapeName) : Prop := ∃ t, v = .string t ∧ AnyName n t

/-- A value that, if it is there, names a shape. -/
def NamesOne (v : Option Value) (n : Option ShapeName) : Prop := (v = none ∧ n = none) ∨ ∃ x y, v = some x ∧ n = some y ∧ Names x y

/-- A value that, if it is there, is an array of names of shapes. -/
def NamesAll (v : Option Value) (ns : List ShapeName) : Prop := (v = none ∧ ns = []) ∨ ∃ vs, v = some (.array vs) ∧ List.Forall₂ Names vs ns

/-- A value that, if it is there, is an object: identifiers with names of shapes. -/
def NamesBy (v : Option Value) (ids : AMap Str ShapeName) : Prop :=
  (v = none ∧ ids = []) ∨ ∃ (o : AMap Str Value) (l : List (Str × ShapeName)), v = some (.object o) ∧
    List.Forall₂ (fun e i => i.1 = e.1 ∧ IsIdentifier e.1 ∧ Names e.2 i.2) o l ∧ ids = AMap.ofList l

/-- The object has no other keys. -/
def Only (keys : List Str) (o : AMap Str Value) : Prop := ∀ k v, AMap.get o k = some v → k ∈ keys

/-- What the object after `service`, `operation` or `resource` says. -/
inductive ObjectSays (o : AMap Str Value) : Str → BuilderBody → Prop
  | service {v ops res} : Only [%s"version", %s"operations", %s"resources"] o → AMap.get o %s"version" = some (.string v) →
      NamesAll (AMap.get o %s"operations") ops → NamesAll (AMap.get o %s"resources") res → ObjectSays o %s"service" (.service v ops res [])
  | operation {input output errors} : Only [%s"input", %s"output", %s"errors"] o → NamesOne (AMap.get o %s"input") input →
      NamesOne (AMap.get o %s"output") output → NamesAll (AMap.get o %s"errors") errors →
      ObjectSays o %s"operation" (.operation input output errors)
  | resource {ids create put read update delete list ops cops res} :
      Only [%s"identifiers", %s"create", %s"put", %s"read", %s"update", %s"delete", %s"list", %s"operations", %s"collectionOperations", %s"resources"] o →
      NamesBy (AMap.get o %s"identifiers") ids → NamesOne (AMap.get o %s"create") create → NamesOne (AMap.get o %s"put") put →
      NamesOne (AMap.get o %s"read") read → NamesOne (AMap.get o %s"update") update → NamesOne (AMap.get o %s"delete") delete →
      NamesOne (AMap.get o %s"list") list → NamesAll (AMap.get o %s"operations") ops → NamesAll (AMap.get o %s"collectionOperations") cops →
      NamesAll (AMap.get o %s"resources") res →
      ObjectSays o %s"resource" (.resource ids create put read update delete list ops cops res)

/-- The text of a statement without documentation and traits: the keyword, the name and the rest. The traits of the members of
lists, sets and maps are left out. -/
inductive BodyText (flt : Str → Option F64) (n : Str) : BuilderBody → Str → Prop
  | simple {k w} : Gap w → BodyText flt n (.simple k) (k.display ++ w ++ n)
  | list {w w' m s} : Gap w → Blank w' → MembersText flt [m] s → SameName m.name %s"member" →
      BodyText flt n (.list ⟨%s"member", [], m.target⟩) (%s"list" ++ w ++ n ++ w' ++ s)
  | set {w w' m s} : Gap w → Blank w' → MembersText flt [m] s → SameName m.name %s"member" →
      BodyText flt n (.set ⟨%s"member", [], m.target⟩) (%s"set" ++ w ++ n ++ w' ++ s)
  | map {w w' k v ms s} : Gap w → Blank w' → MembersText flt ms s → ms = [k, v] ∨ ms = [v, k] → SameName k.name %s"key" →
      SameName v.name %s"value" → BodyText flt n (.map ⟨%s"key", [], k.target⟩ ⟨%s"value", [], v.target⟩) (%s"map" ++ w ++ n ++ w' ++ s)
  | struct {w w' ms s} : Gap w → Blank w' → MembersText flt ms s → BodyText flt n (.struct ms) (%s"structure" ++ w ++ n ++ w' ++ s)
  | union {w w' ms s} : Gap w → Blank w' → MembersText flt ms s → BodyText flt n (.union ms) (%s"union" ++ w ++ n ++ w' ++ s)
  | object {kw w w' o s b} : Gap w → Blank w' → ValueText flt (.object o) s → ObjectSays o kw b → BodyText flt n b (kw ++ w ++ n ++ w' ++ s)

/-- The text of a statement. -/
inductive StatementText (flt : Str → Option F64) : Builder → Str → Prop
  | mk {n ts b p s} : Preface flt ts p → SmithyIdent n → BodyText flt n b s → StatementText flt ⟨.local' n, ts, b⟩ (p ++ s)

/-- The text of statements: what ends in a name is followed by blank text. -/
inductive StatementsText (flt : Str → Option F64) : List Builder → Str → Prop
  | nil : StatementsText flt [] []
  | last {b t w} : StatementText flt b t → Blank w → StatementsText flt [b] (t ++ w)
  | cons {b t w bs u} : StatementText flt b t → Blank w → w ≠ [] ∨ t.getLast? = some '}' → StatementsText flt bs u →
      StatementsText flt (b :: bs) (t ++ w ++ u)

/-! ### Files -/

/-- The text of control or metadata statements: the keyword, blank text, and an entry. -/
inductive SectionText (flt : Str → Option F64) (kw sign : Str) : List (Str × Value) → Str → Prop
  | nil : SectionText flt kw sign [] []
  | cons {w e es u} : Blank w → w ≠ [] ∨ kw = %s"$" → Entry.Ok e → ValueText flt e.value e.text → Gap e.after → SectionText flt kw sign es u →
      SectionText flt kw sign ((e.key, e.value) :: es) (kw ++ w ++ e.show sign ++ e.after ++ u)

/-- The text of imports. -/
inductive UsesText : List ShapeID → Str → Prop
  | nil : UsesText [] []
  | cons {id ids w w' u} : SmithyId id → Gap w → Gap w' → UsesText ids u → UsesText (id :: ids) (w ++ %s"use" ++ w' ++ id.ns ++ %s"#" ++ id.name ++ u)

/-- What is in a file: the control statements, the metadata, the namespace, the imports and the shapes. -/
structure File where
  control : List (Str × Value)
  metadata : List (Str × Value)
  ns : Str
  uses : List ShapeID
  shapes : List Builder

/-- The text of a file. -/
inductive FileText (flt : Str → Option F64) (f : File) : Str → Prop
  | mk {w c m w1 us w2 b} : Blank w → SectionText flt %s"$" %s":" f.control c → SectionText flt %s"metadata" %s"=" f.metadata m →
      SmithyNamespace f.ns → Gap w1 → UsesText f.uses us → Blank w2 → w2 ≠ [] ∨ f.shapes = [] → StatementsText flt f.shapes b →
      FileText flt f (w ++ c ++ m ++ %s"namespace" ++ w1 ++ f.ns ++ us ++ w2 ++ b)

/-- The version of a file: the last value of `version` in the control statements, if it is a text; otherwise 1.0. -/
inductive File.HasVersion (f : File) : Version → Prop
  | given {t} : AMap.get (AMap.ofList f.control) %s"version" = some (.string t) → t = %s"1" ∨ t = %s"1.0" → HasVersion f .v10
  | default : (∀ t, AMap.get (AMap.ofList f.control) %s"version" ≠ some (.string t)) → HasVersion f .v10

/-- The model builder for what is in the file: the metadata, the imports and the shapes. -/
def File.builder (f : File) (v : Version) : ModelBuilder :=
  ⟨v, f.ns, AMap.ofList f.metadata,
    AMap.ofList ((f.uses.map fun id => (.qualified id, ⟨.qualified id, [], .reference⟩)) ++ f.shapes.map fun b => (b.name, b))⟩

end Verif.Spec.Idl
