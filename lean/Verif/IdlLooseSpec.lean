/-
Small independent specification of the syntax of the Smithy IDL, in general: as IdlLayoutSpec, but what could be written with blank
text between two parts may also be written without. These are the only texts that are read (C96), while the texts of IdlLayoutSpec
are all read (C95).
-/
import Verif.IdlLayoutSpec

namespace Verif.Spec.Idl.Loose

/-- The texts of some things, in order, with blank text before, between and after them. -/
inductive Spaced {α : Type} (P : α → Str → Prop) : List α → Str → Prop
  | nil {w} : Blank w → Spaced P [] w
  | cons {w a t as u} : Blank w → P a t → Spaced P as u → Spaced P (a :: as) (w ++ t ++ u)

/-- The text of a value. -/
inductive ValueText (flt : Str → Option F64) : Value → Str → Prop
  | array {w is} : Blank w → (∀ i ∈ is, ValueText flt i.value i.text) → (∀ i ∈ is, Blank i.after) →
      ValueText flt (.array (is.map (·.value))) (%s"[" ++ w ++ itemsText is ++ %s"]")
  | object {w es} : Blank w → (∀ e ∈ es, Entry.Ok e) → (∀ e ∈ es, ValueText flt e.value e.text) → (∀ e ∈ es, Blank e.after) →
      ValueText flt (.object (AMap.ofList (es.map fun e => (e.key, e.value)))) (%s"{" ++ w ++ entriesText es ++ %s"}")
  | integer {n} : i64 n → ValueText flt (.number (.integer n)) (showInt n)
  | minusZero : ValueText flt (.number (.integer 0)) %s"-0"
  | float {t x} : FloatText t → flt t = some x → ValueText flt (.number (.float x)) t
  | keyword {v t} : Keyword t v → ValueText flt v t
  | name {n t} : NameText n t → NotKeyword t → ValueText flt (.string t) t
  | member {n m} : SmithyIdent n → SmithyIdent m → NotKeyword n → ValueText flt (.string (n ++ %s"$" ++ m)) (n ++ %s"$" ++ m)
  | quoted {u} : Escaped u → ValueText flt (.string u) (%s"\"" ++ u ++ %s"\"")
  | block {w u} : Blank w → BlockText u → (∀ w' v, u = w' ++ v → Blank w' → w' = []) →
      ValueText flt (.string u) (%s"\"\"\"" ++ w ++ u ++ %s"\"\"\"")

/-- The text of an entry: a key, a sign and a value. -/
def EntryText (flt : Str → Option F64) (sign : Str) (e : Str × Value) (s : Str) : Prop :=
  ∃ before behind text, KeyText e.1 ∧ Blank before ∧ Blank behind ∧ ValueText flt e.2 text ∧ s = e.1 ++ before ++ sign ++ behind ++ text

/-- The text of a trait. Of several values between the parentheses the last counts. -/
inductive TraitText (flt : Str → Option F64) : TraitBuilder → Str → Prop
  | plain {n x} : NameText n x → TraitText flt ⟨n, some (.object [])⟩ (%s"@" ++ x)
  | value {n x vs v s} : NameText n x → Spaced (ValueText flt) (vs ++ [v]) s → TraitText flt ⟨n, some v⟩ (%s"@" ++ x ++ %s"(" ++ s ++ %s")")
  | members {n x es s} : NameText n x → Spaced (EntryText flt %s":") es s →
      TraitText flt ⟨n, some (.object (AMap.ofList (es.map fun e => (unquoted e.1, e.2))))⟩ (%s"@" ++ x ++ %s"(" ++ s ++ %s")")

/-- The text of a documentation comment. -/
def DocText (l s : Str) : Prop := ∃ e, (∀ c ∈ l, CommentChar c) ∧ LineEnd e ∧ s = %s"///" ++ l ++ e

/-- The text of documentation and traits, with the blank text around it. -/
def Preface (flt : Str → Option F64) (ts : List TraitBuilder) (s : Str) : Prop :=
  ∃ docs d dt tb x, Spaced DocText docs d ∧ DocTrait docs dt ∧ Spaced (TraitText flt) tb x ∧ ts = dt ++ tb ∧ s = d ++ x

/-- The text of a member. -/
inductive MemberText (flt : Str → Option F64) : MemberBuilder → Str → Prop
  | mk {n ts target p w w' t} : Preface flt ts p → SmithyIdent n → Blank w → Blank w' → NameText target t →
      MemberText flt ⟨n, ts, target⟩ (p ++ n ++ w ++ %s":" ++ w' ++ t)

/-- The text of members, between braces. -/
def MembersText (flt : Str → Option F64) (ms : List MemberBuilder) (s : Str) : Prop :=
  ∃ t, Spaced (MemberText flt) ms t ∧ s = %s"{" ++ t ++ %s"}"

/-- The last of the members with a name. -/
def LastNamed (n : Str) (ms : List MemberBuilder) (m : MemberBuilder) : Prop :=
  ∃ before after, ms = before ++ m :: after ∧ SameName m.name n ∧ ∀ x ∈ after, ¬ SameName x.name n

/-- The text of a statement without documentation and traits. -/
inductive BodyText (flt : Str → Option F64) (n : Str) : BuilderBody → Str → Prop
  | simple {k w} : Blank w → BodyText flt n (.simple k) (k.display ++ w ++ n)
  | list {w w' m s} : Blank w → Blank w' → MembersText flt [m] s → SameName m.name %s"member" →
      BodyText flt n (.list ⟨%s"member", [], m.target⟩) (%s"list" ++ w ++ n ++ w' ++ s)
  | set {w w' m s} : Blank w → Blank w' → MembersText flt [m] s → SameName m.name %s"member" →
      BodyText flt n (.set ⟨%s"member", [], m.target⟩) (%s"set" ++ w ++ n ++ w' ++ s)
  | map {w w' k v ms s} : Blank w → Blank w' → MembersText flt ms s → (∀ m ∈ ms, SameName m.name %s"key" ∨ SameName m.name %s"value") →
      LastNamed %s"key" ms k → LastNamed %s"value" ms v →
      BodyText flt n (.map ⟨%s"key", [], k.target⟩ ⟨%s"value", [], v.target⟩) (%s"map" ++ w ++ n ++ w' ++ s)
  | struct {w w' ms s} : Blank w → Blank w' → MembersText flt ms s → BodyText flt n (.struct ms) (%s"structure" ++ w ++ n ++ w' ++ s)
  | union {w w' ms s} : Blank w → Blank w' → MembersText flt ms s → BodyText flt n (.union ms) (%s"union" ++ w ++ n ++ w' ++ s)
  | object {kw w w' o s b} : Blank w → Blank w' → ValueText flt (.object o) s → ObjectSays o kw b → BodyText flt n b (kw ++ w ++ n ++ w' ++ s)

/-- The text of a statement, with the blank text before it. -/
inductive StatementText (flt : Str → Option F64) : Builder → Str → Prop
  | mk {n ts b p s} : Preface flt ts p → SmithyIdent n → BodyText flt n b s → StatementText flt ⟨.local' n, ts, b⟩ (p ++ s)

/-- The text of a control or metadata statement. -/
def FrontText (flt : Str → Option F64) (kw sign : Str) (e : Str × Value) (s : Str) : Prop :=
  ∃ w t, Blank w ∧ EntryText flt sign e t ∧ s = kw ++ w ++ t

/-- The text of an import. -/
def UseText (id : ShapeID) (s : Str) : Prop := ∃ w, SmithyId id ∧ Blank w ∧ s = %s"use" ++ w ++ id.ns ++ %s"#" ++ id.name

/-- The text of a file. -/
inductive FileText (flt : Str → Option F64) (f : File) : Str → Prop
  | mk {c m w us b} : Spaced (FrontText flt %s"$" %s":") f.control c → Spaced (FrontText flt %s"metadata" %s"=") f.metadata m →
      SmithyNamespace f.ns → Blank w → Spaced UseText f.uses us → Spaced (StatementText flt) f.shapes b →
      FileText flt f (c ++ m ++ %s"namespace" ++ w ++ f.ns ++ us ++ b)

end Verif.Spec.Idl.Loose
