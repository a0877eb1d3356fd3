/-
Which selectors have a text: the texts of the grammar atelier-smithy/src/selector.abnf, as restricted by the parser.
-/
import Verif.SelectorParser

namespace Verif.Spec

/-- An identifier of the grammar: a letter, after at most one underscore, then letters, digits and underscores. -/
inductive SmithyIdent : Str → Prop
  | plain {a r} : a.isAlpha = true → (∀ c ∈ r, c.isAlpha = true ∨ c.isDigit = true ∨ c = '_') → SmithyIdent (a :: r)
  | underscore {a r} : a.isAlpha = true → (∀ c ∈ r, c.isAlpha = true ∨ c.isDigit = true ∨ c = '_') → SmithyIdent ('_' :: a :: r)

/-- A namespace: identifiers separated by dots. -/
def SmithyNamespace (s : Str) : Prop := ∃ parts, parts ≠ [] ∧ (∀ p ∈ parts, SmithyIdent p) ∧ s = joinWith ['.'] parts

/-- Characters that can stand between double quotes: not a control character, a double quote or a backslash. -/
def Quotable (c : Char) : Prop := 0x20 ≤ c.toNat ∧ c ≠ '"' ∧ c ≠ '\\'

/-- Decimal digits, at least one. -/
def Digits (s : Str) : Prop := s ≠ [] ∧ ∀ c ∈ s, c.isDigit = true

/-- Digits without a superfluous leading zero. -/
def IntText (s : Str) : Prop := Digits s ∧ (s.head? = some '0' → s = ['0'])

/-- The text of a number with a fraction and without an exponent, as `Display for f64` gives for numbers that are not
integral (or infinite, or not a number). -/
def FractionText (s : Str) : Prop := ∃ sign int frac, (sign = [] ∨ sign = ['-']) ∧ IntText int ∧ Digits frac ∧ s = sign ++ int ++ '.' :: frac

/-- Values that can be written: non-empty quotable text, integers in the range of `i64`, floats whose text has a fraction
and is read back as the same float, identifiers, and absolute ids without a member. -/
inductive PrintableValue (f : Fmt) (flt : Str → Option F64) : SelValue → Prop
  | text {s} : s ≠ [] → (∀ c ∈ s, Quotable c) → PrintableValue f flt (.text s)
  | integer {n} : i64 n → PrintableValue f flt (.number (.integer n))
  | float {x} : FractionText (f.float x) → flt (f.float x) = some x → PrintableValue f flt (.number (.float x))
  | root {s} : SmithyIdent s → PrintableValue f flt (.rootShapeId s)
  | absolute {ns n} : SmithyNamespace ns → SmithyIdent n → PrintableValue f flt (.absoluteRootShapeId ⟨ns, n, none⟩)

section
variable (V : SelValue → Prop)

/-- Segments of a path, with values in `V`. -/
inductive SegmentOver : KeyPathSegment → Prop
  | value {v} : V v → SegmentOver (.value v)
  | property {s} : SmithyIdent s → SegmentOver (.functionProperty s)

/-- Keys. -/
def KeyOver (k : SelKey) : Prop := SmithyIdent k.identifier ∧ ∀ s ∈ k.path, SegmentOver V s

/-- The comparators that the parser can read: not `>=` and `<=`. -/
def ReadableComparator (c : Comparator) : Prop := c ≠ .numberGreaterOrEqual ∧ c ≠ .numberLessOrEqual

/-- Comparisons of attributes: a readable comparator and at least one value. -/
def ComparisonOver (c : AttributeComparison) : Prop := ReadableComparator c.comparator ∧ c.rhsValues ≠ [] ∧ ∀ v ∈ c.rhsValues, V v

/-- Values in scoped assertions. -/
inductive ScopedOver : ScopedValue → Prop
  | value {v} : V v → ScopedOver (.value v)
  | context {p} : p ≠ [] → (∀ s ∈ p, SegmentOver V s) → ScopedOver (.contextValue p)

/-- Scoped assertions. -/
def AssertionOver (a : ScopedAttributeAssertion) : Prop :=
  ScopedOver V a.lhsValue ∧ ReadableComparator a.comparator ∧ a.rhsValues ≠ [] ∧ ∀ v ∈ a.rhsValues, ScopedOver V v

/-- Lists of relationships. -/
def NamesOver (names : List Str) : Prop := names ≠ [] ∧ ∀ n ∈ names, SmithyIdent n

mutual
  /-- Expressions of the grammar, with values in `V`. -/
  inductive ExpressionOver : SelectorExpression → Prop
    | shapeType {t} : ExpressionOver (.shapeType t)
    | attr {a : AttributeSelector} : KeyOver V a.key → (∀ c, a.comparison = some c → ComparisonOver V c) → ExpressionOver (.attributeSelector a)
    | scopedAttr {a : ScopedAttributeSelector} : (∀ k, a.key = some k → KeyOver V k) → a.assertions ≠ [] →
        (∀ x ∈ a.assertions, AssertionOver V x) → ExpressionOver (.scopedAttributeSelector a)
    | forward : ExpressionOver (.neighborSelector .forwardUndirected)
    | reverse : ExpressionOver (.neighborSelector .reverseUndirected)
    | recursive : ExpressionOver (.neighborSelector .forwardRecursiveDirected)
    | forwardDirected {ns} : NamesOver ns → ExpressionOver (.neighborSelector (.forwardDirected ns))
    | reverseDirected {ns} : NamesOver ns → ExpressionOver (.neighborSelector (.reverseDirected ns))
    | function {n args} : SmithyIdent n → args ≠ [] → (∀ s ∈ args, SelectorOver s) → ExpressionOver (.function n args)
    | define {n s} : SmithyIdent n → SelectorOver s → ExpressionOver (.variableDefinition n s)
    | refer {n} : SmithyIdent n → ExpressionOver (.variableReference n)
  /-- Selectors of the grammar: at least one expression. -/
  inductive SelectorOver : Selector → Prop
    | mk {s} : s ≠ [] → (∀ e ∈ s, ExpressionOver e) → SelectorOver s
end
end

section
variable (f : Fmt) (flt : Str → Option F64)
/-- Selectors of the grammar whose values can be written, and their parts. -/
abbrev PrintableSelector := SelectorOver (PrintableValue f flt)
@[inherit_doc PrintableSelector] abbrev PrintableExpression := ExpressionOver (PrintableValue f flt)
@[inherit_doc PrintableSelector] abbrev PrintableSegment := SegmentOver (PrintableValue f flt)
@[inherit_doc PrintableSelector] abbrev PrintableKey := KeyOver (PrintableValue f flt)
@[inherit_doc PrintableSelector] abbrev PrintableComparison := ComparisonOver (PrintableValue f flt)
@[inherit_doc PrintableSelector] abbrev PrintableScoped := ScopedOver (PrintableValue f flt)
@[inherit_doc PrintableSelector] abbrev PrintableAssertion := AssertionOver (PrintableValue f flt)
end

/-- Characters that can stand between single quotes. -/
def SingleQuotable (c : Char) : Prop := 0x20 ≤ c.toNat ∧ c ≠ '\'' ∧ c ≠ '\\'

/-- The text of a number: sign, digits, fraction, exponent. -/
def NumberText (s : Str) : Prop :=
  ∃ sign int frac exp, (sign = [] ∨ sign = ['-']) ∧ IntText int ∧ (frac = [] ∨ ∃ ds, frac = '.' :: ds ∧ Digits ds) ∧
    (exp = [] ∨ ∃ e sg ds, exp = e :: sg ++ ds ∧ (e = 'e' ∨ e = 'E') ∧ (sg = [] ∨ sg = ['-'] ∨ sg = ['+']) ∧ Digits ds) ∧
    s = sign ++ int ++ frac ++ exp

/-- Values that stand in a text `s`: quoted text, numbers, identifiers and absolute ids. -/
inductive ValueIn (flt : Str → Option F64) (s : Str) : SelValue → Prop
  | double {t} : t ≠ [] → (∀ c ∈ t, Quotable c) → '"' :: t ++ ['"'] <:+: s → ValueIn flt s (.text t)
  | single {t} : t ≠ [] → (∀ c ∈ t, SingleQuotable c) → '\'' :: t ++ ['\''] <:+: s → ValueIn flt s (.text t)
  | integer {n t} : NumberText t → t <:+: s → '.' ∉ t → i64 n → showInt n = t ∨ (n = 0 ∧ t = %s"-0") → ValueIn flt s (.number (.integer n))
  | float {x t} : NumberText t → t <:+: s → '.' ∈ t → flt t = some x → ValueIn flt s (.number (.float x))
  | root {t} : SmithyIdent t → t <:+: s → ValueIn flt s (.rootShapeId t)
  | absolute {ns n} : SmithyNamespace ns → SmithyIdent n → ns ++ '#' :: n <:+: s → ValueIn flt s (.absoluteRootShapeId ⟨ns, n, none⟩)

/-- A number that cannot be read: with a decimal point and refused by the float reader `flt`, or without one and not the
decimal notation of an integer in the range of `i64` (too large, or with an exponent). -/
def Unreadable (flt : Str → Option F64) (t : Str) : Prop :=
  ('.' ∈ t ∧ flt t = none) ∨ ('.' ∉ t ∧ ∀ n, i64 n → ¬ (showInt n = t ∨ (n = 0 ∧ t = %s"-0")))

/-- The errors for a text that the grammar accepts: a panic, if it has an unreadable number; an invalid selector, if it has
an identifier that is not the name of a shape type. -/
def SelectorError (flt : Str → Option F64) (s : Str) (e : Err) : Prop :=
  (e = .panic ∧ ∃ t, t <:+: s ∧ NumberText t ∧ Unreadable flt t) ∨
  (∃ t, t <:+: s ∧ SmithyIdent t ∧ (∀ k : ShapeType, k.display ≠ t) ∧ e = .invalidSelector t)

end Verif.Spec
