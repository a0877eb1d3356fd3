/-
What programs with the builders of selectors ask for.
-/
import Verif.SelectorBuilders
import Verif.SelectorSpec

namespace Verif.Spec.SelApi
open Verif.SelApi

/-! ### Attributes -/

/-- The name of the key. -/
def keyName : KeyName → Str
  | .named n => n
  | .id => %s"id"
  | .service => %s"service"
  | .traits => %s"trait"
  | .var => %s"var"

/-- The segment that a call adds to the path; `path` replaces the whole path. -/
def segment : PathCall → Option KeyPathSegment
  | .path _ => none
  | .segment s => some s
  | .forId s => some (.value (.rootShapeId s))
  | .forShape id => some (.value (.absoluteRootShapeId id))
  | .forText s => some (.value (.text s))
  | .forNumber n => some (.value (.number n))
  | .forFunction s => some (.functionProperty s)

/-- The path after the calls: the segments added after the last call of `path`, following its argument; all segments if there is no such call. -/
def HasPath (calls : List PathCall) (p : List KeyPathSegment) : Prop :=
  (∃ added, calls.map segment = added.map some ∧ p = added) ∨
  ∃ before q after added, calls = before ++ .path q :: after ∧ after.map segment = added.map some ∧ p = q ++ added

/-- What a call compares with: the text of the comparator, the values, and whether the case of letters makes no difference. -/
def wanted : CompareCall → Str × List SelValue × Bool
  | .compare c => (c.comparator.display, c.rhsValues, c.caseInsensitive)
  | .stringCompare c rhs i => (c.display, rhs, i)
  | .stringEqual rhs i => (%s"=", rhs, i)
  | .stringNotEqual rhs i => (%s"!=", rhs, i)
  | .stringStartsWith rhs i => (%s"^=", rhs, i)
  | .stringEndsWith rhs i => (%s"$=", rhs, i)
  | .stringContains rhs i => (%s"*=", rhs, i)
  | .stringExists true i => (%s"?=", [.text %s"true"], i)
  | .stringExists false i => (%s"?=", [.text %s"false"], i)
  | .numberGreater rhs => (%s">", rhs.map .number, false)
  | .numberGreaterOrEqual rhs => (%s">=", rhs.map .number, false)
  | .numberLess rhs => (%s"<", rhs.map .number, false)
  | .numberLessOrEqual rhs => (%s"<=", rhs.map .number, false)
  | .projectionEqual rhs => (%s"{=}", rhs, false)
  | .projectionNotEqual rhs => (%s"{!=}", rhs, false)
  | .projectionSubset rhs => (%s"{<}", rhs, false)
  | .projectionProperSubset rhs => (%s"{<<}", rhs, false)

/-- The calls about the path. -/
def pathCalls (calls : List AttributeCall) : List PathCall := calls.filterMap fun
  | .path c => some c
  | .compare _ => none

/-- The calls that set a comparison. -/
def compareCalls (calls : List AttributeCall) : List CompareCall := calls.filterMap fun
  | .path _ => none
  | .compare c => some c

/-- The attribute selector that a program asks for: the last comparison counts. -/
def Asks (p : AttributeProgram) (a : AttributeSelector) : Prop :=
  a.key.identifier = keyName p.key ∧ HasPath (pathCalls p.calls) a.key.path ∧
  a.comparison.map (fun c => (c.comparator.display, c.rhsValues, c.caseInsensitive)) = (compareCalls p.calls).getLast?.map wanted

/-! ### Scoped attributes -/

/-- What a call asserts: the value on the left, the text of the comparator, the values on the right, and whether the case of letters makes no
difference. Numbers are asserted as texts. -/
def asserted (f : Fmt) : AssertCall → ScopedValue × Str × List ScopedValue × Bool
  | .assertion a => (a.lhsValue, a.comparator.display, a.rhsValues, a.caseInsensitive)
  | .stringAssertion lhs c rhs i => (lhs, c.display, rhs, i)
  | .stringEqual lhs rhs i => (lhs, %s"=", [rhs], i)
  | .stringNotEqual lhs rhs i => (lhs, %s"!=", [rhs], i)
  | .stringStartsWith lhs rhs i => (lhs, %s"^=", [rhs], i)
  | .stringEndsWith lhs rhs i => (lhs, %s"$=", [rhs], i)
  | .stringContains lhs rhs i => (lhs, %s"*=", [rhs], i)
  | .stringExists lhs true => (lhs, %s"?=", [.value (.text %s"true")], false)
  | .stringExists lhs false => (lhs, %s"?=", [.value (.text %s"false")], false)
  | .numberGreater lhs n => (lhs, %s">", [.value (.text (showNumber f n))], false)
  | .numberGreaterOrEqual lhs n => (lhs, %s">=", [.value (.text (showNumber f n))], false)
  | .numberLess lhs n => (lhs, %s"<", [.value (.text (showNumber f n))], false)
  | .numberLessOrEqual lhs n => (lhs, %s"<=", [.value (.text (showNumber f n))], false)
  | .projectionEqual lhs rhs => (lhs, %s"{=}", [rhs], false)
  | .projectionNotEqual lhs rhs => (lhs, %s"{!=}", [rhs], false)
  | .projectionSubset lhs rhs => (lhs, %s"{<}", rhs, false)
  | .projectionProperSubset lhs rhs => (lhs, %s"{<<}", rhs, false)

/-- The calls about the path. -/
def scopedPathCalls (calls : List ScopedCall) : List PathCall := calls.filterMap fun
  | .path c => some c
  | .assert _ => none

/-- The calls that add an assertion. -/
def assertCalls (calls : List ScopedCall) : List AssertCall := calls.filterMap fun
  | .path _ => none
  | .assert c => some c

/-- The scoped attribute selector that a program asks for. -/
def AsksScoped (f : Fmt) (p : ScopedProgram) (a : ScopedAttributeSelector) : Prop :=
  (match p.key with
    | none => a.key = none
    | some n => ∃ path, HasPath (scopedPathCalls p.calls) path ∧ a.key = some ⟨keyName n, path⟩) ∧
  a.assertions.map (fun x => (x.lhsValue, x.comparator.display, x.rhsValues, x.caseInsensitive)) = (assertCalls p.calls).map (asserted f)

/-- Programs that panic: without an assertion, or with a path but without a key. -/
def BadScoped (p : ScopedProgram) : Prop := assertCalls p.calls = [] ∨ (p.key = none ∧ scopedPathCalls p.calls ≠ [])

/-! ### Selectors -/

/-- The functions with calls of their own. -/
def knownName : KnownFn → Str
  | .test => %s"test"
  | .is => %s"is"
  | .not => %s"not"
  | .topdown => %s"topdown"

/-- The text of the shape type that a call is named after: the name in camel case, where `any_` is left out and any shape is a star. -/
def typeText : Str → Str
  | 'a' :: 'n' :: 'y' :: '_' :: 's' :: 'h' :: 'a' :: 'p' :: 'e' :: [] => ['*']
  | 'a' :: 'n' :: 'y' :: '_' :: s => camel s
  | s => camel s
where
  /-- Camel case. -/
  camel : Str → Str
    | '_' :: c :: s => c.toUpper :: camel s
    | c :: s => c :: camel s
    | [] => []

mutual
  /-- The expression that a call adds. -/
  inductive Adds (f : Fmt) : Call → SelectorExpression → Prop
    | add {e : SelectorExpression} : Adds f (.add e) e
    | shape {t : ShapeType} : Adds f (.shape t) (.shapeType t)
    | shapeFn {g : ShapeFn} {t : ShapeType} : t.display = typeText g.name → Adds f (.shapeFn g) (.shapeType t)
    | functionFrom {name : Str} {args : List Program} {ss : List Selector} : args ≠ [] → ss.length = args.length →
        (∀ (i : Nat) (p : Program) (s : Selector), args[i]? = some p → ss[i]? = some s → Builds f p s) → Adds f (.functionFrom name args) (.function name ss)
    | known {k : KnownFn} {args : List Program} {ss : List Selector} : args ≠ [] → ss.length = args.length →
        (∀ (i : Nat) (p : Program) (s : Selector), args[i]? = some p → ss[i]? = some s → Builds f p s) → Adds f (.known k args) (.function (knownName k) ss)
    | neighbor {n : NeighborSelector} : Adds f (.neighbor n) (.neighborSelector n)
    | forwardUndirected : Adds f .forwardUndirected (.neighborSelector .forwardUndirected)
    | reverseUndirected : Adds f .reverseUndirected (.neighborSelector .reverseUndirected)
    | forwardRecursiveDirected : Adds f .forwardRecursiveDirected (.neighborSelector .forwardRecursiveDirected)
    | forwardDirected {p : List Str} : Adds f (.forwardDirected p) (.neighborSelector (.forwardDirected p))
    | reverseDirected {p : List Str} : Adds f (.reverseDirected p) (.neighborSelector (.reverseDirected p))
    | variableReferenceFrom {name : Str} : Adds f (.variableReferenceFrom name) (.variableReference name)
    | variableDefinitionFrom {name : Str} {p : Program} {s : Selector} : Builds f p s →
        Adds f (.variableDefinitionFrom name p) (.variableDefinition name s)
    | attributeFrom {key : SelKey} {c : Option AttributeComparison} : Adds f (.attributeFrom key c) (.attributeSelector ⟨key, c⟩)
    | attr {p : AttributeProgram} {a : AttributeSelector} : Asks p a → Adds f (.attribute p) (.attributeSelector a)
    | scopedAttr {p : ScopedProgram} {a : ScopedAttributeSelector} : ¬ BadScoped p → AsksScoped f p a →
        Adds f (.scopedAttribute p) (.scopedAttributeSelector a)
  /-- The selector that a program builds: the expressions of its calls, in order. -/
  inductive Builds (f : Fmt) : Program → Selector → Prop
    | mk {c : Call} {cs : List Call} {s : Selector} : s.length = cs.length + 1 →
        (∀ (i : Nat) (x : Call) (e : SelectorExpression), (c :: cs)[i]? = some x → s[i]? = some e → Adds f x e) → Builds f (.mk c cs) s
end

mutual
  /-- Calls that panic. -/
  inductive Bad : Call → Prop
    | noArguments {name : Str} : Bad (.functionFrom name [])
    | argument {name : Str} {args : List Program} {p : Program} : p ∈ args → BadProgram p → Bad (.functionFrom name args)
    | knownNoArguments {k : KnownFn} : Bad (.known k [])
    | knownArgument {k : KnownFn} {args : List Program} {p : Program} : p ∈ args → BadProgram p → Bad (.known k args)
    | definition {name : Str} {p : Program} : BadProgram p → Bad (.variableDefinitionFrom name p)
    | scopedAttr {p : ScopedProgram} : BadScoped p → Bad (.scopedAttribute p)
  /-- Programs with a call that panics. -/
  inductive BadProgram : Program → Prop
    | mk {c x : Call} {cs : List Call} : x ∈ c :: cs → Bad x → BadProgram (.mk c cs)
end

/-! ### Programs whose selectors have a text that is read back -/

section
variable (f : Fmt) (flt : Str → Option F64)

/-- Calls about the path. -/
def ReadablePath : PathCall → Prop
  | .path p => ∀ s ∈ p, PrintableSegment f flt s
  | .segment s => PrintableSegment f flt s
  | .forId s => SmithyIdent s
  | .forShape id => PrintableValue f flt (.absoluteRootShapeId id)
  | .forText s => PrintableValue f flt (.text s)
  | .forNumber n => PrintableValue f flt (.number n)
  | .forFunction s => SmithyIdent s

/-- Values to compare with: at least one. -/
def ReadableValues (rhs : List SelValue) : Prop := rhs ≠ [] ∧ ∀ v ∈ rhs, PrintableValue f flt v
/-- Numbers to compare with: at least one. -/
def ReadableNumbers (rhs : List Number) : Prop := rhs ≠ [] ∧ ∀ n ∈ rhs, PrintableValue f flt (.number n)

/-- Comparisons. -/
def ReadableCompare : CompareCall → Prop
  | .compare c => PrintableComparison f flt c
  | .stringCompare c rhs _ => ReadableComparator c ∧ ReadableValues f flt rhs
  | .stringEqual rhs _ | .stringNotEqual rhs _ | .stringStartsWith rhs _ | .stringEndsWith rhs _ | .stringContains rhs _ => ReadableValues f flt rhs
  | .projectionEqual rhs | .projectionNotEqual rhs | .projectionSubset rhs | .projectionProperSubset rhs => ReadableValues f flt rhs
  | .stringExists _ _ => True
  | .numberGreater rhs | .numberLess rhs => ReadableNumbers f flt rhs
  | .numberGreaterOrEqual _ | .numberLessOrEqual _ => False

/-- Assertions. -/
def ReadableAssert : AssertCall → Prop
  | .assertion a => PrintableAssertion f flt a
  | .stringAssertion lhs c rhs _ => ReadableComparator c ∧ PrintableScoped f flt lhs ∧ rhs ≠ [] ∧ ∀ v ∈ rhs, PrintableScoped f flt v
  | .stringEqual lhs rhs _ | .stringNotEqual lhs rhs _ | .stringStartsWith lhs rhs _ | .stringEndsWith lhs rhs _ | .stringContains lhs rhs _ =>
    PrintableScoped f flt lhs ∧ PrintableScoped f flt rhs
  | .projectionEqual lhs rhs | .projectionNotEqual lhs rhs => PrintableScoped f flt lhs ∧ PrintableScoped f flt rhs
  | .projectionSubset lhs rhs | .projectionProperSubset lhs rhs => PrintableScoped f flt lhs ∧ rhs ≠ [] ∧ ∀ v ∈ rhs, PrintableScoped f flt v
  | .stringExists lhs _ => PrintableScoped f flt lhs
  | .numberGreater lhs n | .numberLess lhs n => PrintableScoped f flt lhs ∧ PrintableValue f flt (.number n)
  | .numberGreaterOrEqual _ _ | .numberLessOrEqual _ _ => False

mutual
  /-- Calls with names of the grammar, and with values that can be written. -/
  inductive Readable : Call → Prop
    | add {e : SelectorExpression} : PrintableExpression f flt e → Readable (.add e)
    | shape {t : ShapeType} : Readable (.shape t)
    | shapeFn {g : ShapeFn} : Readable (.shapeFn g)
    | functionFrom {name : Str} {args : List Program} : SmithyIdent name → (∀ p ∈ args, ReadableProgram p) → Readable (.functionFrom name args)
    | known {k : KnownFn} {args : List Program} : (∀ p ∈ args, ReadableProgram p) → Readable (.known k args)
    | neighbor {n : NeighborSelector} : PrintableExpression f flt (.neighborSelector n) → Readable (.neighbor n)
    | forwardUndirected : Readable .forwardUndirected
    | reverseUndirected : Readable .reverseUndirected
    | forwardRecursiveDirected : Readable .forwardRecursiveDirected
    | forwardDirected {p : List Str} : NamesOver p → Readable (.forwardDirected p)
    | reverseDirected {p : List Str} : NamesOver p → Readable (.reverseDirected p)
    | variableReferenceFrom {name : Str} : SmithyIdent name → Readable (.variableReferenceFrom name)
    | variableDefinitionFrom {name : Str} {p : Program} : SmithyIdent name → ReadableProgram p → Readable (.variableDefinitionFrom name p)
    | attributeFrom {key : SelKey} {c : Option AttributeComparison} : PrintableExpression f flt (.attributeSelector ⟨key, c⟩) → Readable (.attributeFrom key c)
    | attr {p : AttributeProgram} : SmithyIdent (keyName p.key) → (∀ c ∈ pathCalls p.calls, ReadablePath f flt c) →
        (∀ c ∈ compareCalls p.calls, ReadableCompare f flt c) → Readable (.attribute p)
    | scopedAttr {p : ScopedProgram} : (∀ n, p.key = some n → SmithyIdent (keyName n)) → (∀ c ∈ scopedPathCalls p.calls, ReadablePath f flt c) →
        (∀ c ∈ assertCalls p.calls, ReadableAssert f flt c) → Readable (.scopedAttribute p)
  /-- Programs with such calls only. -/
  inductive ReadableProgram : Program → Prop
    | mk {c : Call} {cs : List Call} : (∀ x ∈ c :: cs, Readable x) → ReadableProgram (.mk c cs)
end
end

/-! ### Programs whose selectors are never read -/

/-- A comparison that no text has: at least or at most a number, or with nothing. -/
def NoText {α : Type} (comparator : Str) (rhs : List α) : Prop := comparator = %s">=" ∨ comparator = %s"<=" ∨ rhs = []

mutual
  /-- Calls that add an expression that no text has, though they do not panic. -/
  inductive Hopeless (f : Fmt) : Call → Prop
    | attr {p : AttributeProgram} {c : CompareCall} : (compareCalls p.calls).getLast? = some c → NoText (wanted c).1 (wanted c).2.1 →
        Hopeless f (.attribute p)
    | scopedAttr {p : ScopedProgram} {c : AssertCall} : c ∈ assertCalls p.calls → NoText (asserted f c).2.1 (asserted f c).2.2.1 →
        Hopeless f (.scopedAttribute p)
    | forwardDirected : Hopeless f (.forwardDirected [])
    | reverseDirected : Hopeless f (.reverseDirected [])
    | argument {name : Str} {args : List Program} {p : Program} : p ∈ args → HopelessProgram f p → Hopeless f (.functionFrom name args)
    | knownArgument {k : KnownFn} {args : List Program} {p : Program} : p ∈ args → HopelessProgram f p → Hopeless f (.known k args)
    | definition {name : Str} {p : Program} : HopelessProgram f p → Hopeless f (.variableDefinitionFrom name p)
  /-- Programs with such a call. -/
  inductive HopelessProgram (f : Fmt) : Program → Prop
    | mk {c x : Call} {cs : List Call} : x ∈ c :: cs → Hopeless f x → HopelessProgram f (.mk c cs)
end

end Verif.Spec.SelApi
