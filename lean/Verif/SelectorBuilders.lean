/-
Model of atelier-core/src/builder/selector.rs: programs that build selectors with the builder API. A builder is modelled by its fields, and a program
by the constructor it starts with and the calls that follow.
-/
import Verif.Selector

namespace Verif.SelApi

/-! ### Attributes -/

/-- The constructors of `AttributeBuilder` (atelier-core/src/builder/selector.rs:644-677) and of `ScopedAttributeBuilder` (907-945). -/
inductive KeyName where
  | named (name : Str)
  | id
  | service
  | traits
  | var

/-- `Key::new(..)` in each of them, atelier-core/src/builder/selector.rs:646, 653, 660, 667, 674 and 909, 917, 925, 933, 941. -/
def KeyName.key : KeyName → SelKey
  | .named n => ⟨n, []⟩
  | .id => ⟨%s"id", []⟩
  | .service => ⟨%s"service", []⟩
  | .traits => ⟨%s"trait", []⟩
  | .var => ⟨%s"var", []⟩

/-- The calls that are about the path of the key, atelier-core/src/builder/selector.rs:679-719 and 947-989. -/
inductive PathCall where
  | path (p : List KeyPathSegment)
  | segment (s : KeyPathSegment)
  | forId (s : Str)
  | forShape (id : ShapeID)
  | forText (s : Str)
  | forNumber (n : Number)
  | forFunction (s : Str)

/-- `Key::set_path` and `Key::add_path_segment` (atelier-core/src/macros.rs:177-185) as the calls use them. -/
def PathCall.run (k : SelKey) : PathCall → SelKey
  | .path p => { k with path := p }
  | .segment s => { k with path := k.path ++ [s] }
  | .forId s => { k with path := k.path ++ [.value (.rootShapeId s)] }
  | .forShape id => { k with path := k.path ++ [.value (.absoluteRootShapeId id)] }
  | .forText s => { k with path := k.path ++ [.value (.text s)] }
  | .forNumber n => { k with path := k.path ++ [.value (.number n)] }
  | .forFunction s => { k with path := k.path ++ [.functionProperty s] }

/-- The other calls of `AttributeBuilder`, atelier-core/src/builder/selector.rs:722-842. -/
inductive CompareCall where
  | compare (c : AttributeComparison)
  | stringCompare (c : Comparator) (rhs : List SelValue) (caseInsensitive : Bool)
  | stringEqual (rhs : List SelValue) (caseInsensitive : Bool)
  | stringNotEqual (rhs : List SelValue) (caseInsensitive : Bool)
  | stringStartsWith (rhs : List SelValue) (caseInsensitive : Bool)
  | stringEndsWith (rhs : List SelValue) (caseInsensitive : Bool)
  | stringContains (rhs : List SelValue) (caseInsensitive : Bool)
  | stringExists (rhs : Bool) (caseInsensitive : Bool)
  | numberGreater (rhs : List Number)
  | numberGreaterOrEqual (rhs : List Number)
  | numberLess (rhs : List Number)
  | numberLessOrEqual (rhs : List Number)
  | projectionEqual (rhs : List SelValue)
  | projectionNotEqual (rhs : List SelValue)
  | projectionSubset (rhs : List SelValue)
  | projectionProperSubset (rhs : List SelValue)

/-- `string_compare`, atelier-core/src/builder/selector.rs:728-739. -/
def stringCompare (c : Comparator) (rhs : List SelValue) (caseInsensitive : Bool) : AttributeComparison :=
  if caseInsensitive then .newCaseInsensitive c rhs else .new c rhs

/-- The comparison that each call sets, atelier-core/src/builder/selector.rs:722-842. -/
def CompareCall.run : CompareCall → AttributeComparison
  | .compare c => c
  | .stringCompare c rhs i => SelApi.stringCompare c rhs i
  | .stringEqual rhs i => SelApi.stringCompare .stringEqual rhs i
  | .stringNotEqual rhs i => SelApi.stringCompare .stringNotEqual rhs i
  | .stringStartsWith rhs i => SelApi.stringCompare .stringStartsWith rhs i
  | .stringEndsWith rhs i => SelApi.stringCompare .stringEndsWith rhs i
  | .stringContains rhs i => SelApi.stringCompare .stringContains rhs i
  | .stringExists rhs i => SelApi.stringCompare .stringExists [.text (showBool rhs)] i
  | .numberGreater rhs => .new .numberGreaterThan (rhs.map .number)
  | .numberGreaterOrEqual rhs => .new .numberGreaterOrEqual (rhs.map .number)
  | .numberLess rhs => .new .numberLessThan (rhs.map .number)
  | .numberLessOrEqual rhs => .new .numberLessOrEqual (rhs.map .number)
  | .projectionEqual rhs => .new .projectionEqual rhs
  | .projectionNotEqual rhs => .new .projectionNotEqual rhs
  | .projectionSubset rhs => .new .projectionSubset rhs
  | .projectionProperSubset rhs => .new .projectionProperSubset rhs

/-- A call of `AttributeBuilder`. -/
inductive AttributeCall where
  | path (c : PathCall)
  | compare (c : CompareCall)

/-- A program with an `AttributeBuilder`. -/
structure AttributeProgram where
  key : KeyName
  calls : List AttributeCall

/-- The effect of a call, atelier-core/src/builder/selector.rs:679-842: `set_key` and `set_comparison`. -/
def AttributeCall.run (a : AttributeSelector) : AttributeCall → AttributeSelector
  | .path c => { a with key := c.run a.key }
  | .compare c => { a with comparison := some c.run }

/-- The selector in the builder after the calls. -/
def AttributeProgram.run (p : AttributeProgram) : AttributeSelector := p.calls.foldl AttributeCall.run ⟨p.key.key, none⟩

/-! ### Scoped attributes -/

/-- `ScopedAttributeBuilder`, atelier-core/src/builder/selector.rs:61-64. -/
structure ScopedBuilder where
  key : Option SelKey
  assertions : List ScopedAttributeAssertion

/-- The calls of `ScopedAttributeBuilder` about assertions, atelier-core/src/builder/selector.rs:992-1142. -/
inductive AssertCall where
  | assertion (a : ScopedAttributeAssertion)
  | stringAssertion (lhs : ScopedValue) (c : Comparator) (rhs : List ScopedValue) (caseInsensitive : Bool)
  | stringEqual (lhs rhs : ScopedValue) (caseInsensitive : Bool)
  | stringNotEqual (lhs rhs : ScopedValue) (caseInsensitive : Bool)
  | stringStartsWith (lhs rhs : ScopedValue) (caseInsensitive : Bool)
  | stringEndsWith (lhs rhs : ScopedValue) (caseInsensitive : Bool)
  | stringContains (lhs rhs : ScopedValue) (caseInsensitive : Bool)
  | stringExists (lhs : ScopedValue) (rhs : Bool)
  | numberGreater (lhs : ScopedValue) (rhs : Number)
  | numberGreaterOrEqual (lhs : ScopedValue) (rhs : Number)
  | numberLess (lhs : ScopedValue) (rhs : Number)
  | numberLessOrEqual (lhs : ScopedValue) (rhs : Number)
  | projectionEqual (lhs rhs : ScopedValue)
  | projectionNotEqual (lhs rhs : ScopedValue)
  | projectionSubset (lhs : ScopedValue) (rhs : List ScopedValue)
  | projectionProperSubset (lhs : ScopedValue) (rhs : List ScopedValue)

/-- The assertion that each call adds, atelier-core/src/builder/selector.rs:992-1142; `rhs.to_string()` turns numbers into texts. The constructors
`ScopedAttributeAssertion::new` and `new_case_insensitive` are at atelier-core/src/model/selector/mod.rs:1223-1246. -/
def AssertCall.run (f : Fmt) : AssertCall → ScopedAttributeAssertion
  | .assertion a => a
  | .stringAssertion lhs c rhs i => ⟨lhs, c, rhs, i⟩
  | .stringEqual lhs rhs i => ⟨lhs, .stringEqual, [rhs], i⟩
  | .stringNotEqual lhs rhs i => ⟨lhs, .stringNotEqual, [rhs], i⟩
  | .stringStartsWith lhs rhs i => ⟨lhs, .stringStartsWith, [rhs], i⟩
  | .stringEndsWith lhs rhs i => ⟨lhs, .stringEndsWith, [rhs], i⟩
  | .stringContains lhs rhs i => ⟨lhs, .stringContains, [rhs], i⟩
  | .stringExists lhs rhs => ⟨lhs, .stringExists, [.value (.text (showBool rhs))], false⟩
  | .numberGreater lhs rhs => ⟨lhs, .numberGreaterThan, [.value (.text (showNumber f rhs))], false⟩
  | .numberGreaterOrEqual lhs rhs => ⟨lhs, .numberGreaterOrEqual, [.value (.text (showNumber f rhs))], false⟩
  | .numberLess lhs rhs => ⟨lhs, .numberLessThan, [.value (.text (showNumber f rhs))], false⟩
  | .numberLessOrEqual lhs rhs => ⟨lhs, .numberLessOrEqual, [.value (.text (showNumber f rhs))], false⟩
  | .projectionEqual lhs rhs => ⟨lhs, .projectionEqual, [rhs], false⟩
  | .projectionNotEqual lhs rhs => ⟨lhs, .projectionNotEqual, [rhs], false⟩
  | .projectionSubset lhs rhs => ⟨lhs, .projectionSubset, rhs, false⟩
  | .projectionProperSubset lhs rhs => ⟨lhs, .projectionProperSubset, rhs, false⟩

/-- A call of `ScopedAttributeBuilder`. -/
inductive ScopedCall where
  | path (c : PathCall)
  | assert (c : AssertCall)

/-- A program with a `ScopedAttributeBuilder`: `default()` has no key. -/
structure ScopedProgram where
  key : Option KeyName
  calls : List ScopedCall

/-- The effect of a call, atelier-core/src/builder/selector.rs:947-1142: without a key, calls about the path panic. -/
def ScopedCall.run (f : Fmt) (b : ScopedBuilder) : ScopedCall → Except Err ScopedBuilder
  | .path c =>
    match b.key with
    | some k => .ok { b with key := some (c.run k) }
    | none => .error .panic
  | .assert c => .ok { b with assertions := b.assertions ++ [c.run f] }

/-- All calls, one after the other. -/
def runScoped (f : Fmt) (b : ScopedBuilder) : List ScopedCall → Except Err ScopedBuilder
  | [] => .ok b
  | c :: cs =>
    match c.run f b with
    | .ok b' => runScoped f b' cs
    | .error e => .error e

/-- The calls, and `From<ScopedAttributeBuilder>` for `SelectorExpression` and `ScopedAttributeSelector`, atelier-core/src/builder/selector.rs:857-890:
both fail if there are no assertions. -/
def ScopedProgram.run (f : Fmt) (p : ScopedProgram) : Except Err ScopedAttributeSelector :=
  match runScoped f ⟨p.key.map (·.key), []⟩ p.calls with
  | .ok b => ScopedAttributeSelector.new b.key b.assertions
  | .error e => .error e

/-! ### Selectors -/

/-- The functions for one shape type: a constructor of `SelectorBuilder` and an `add_` function each, atelier-core/src/builder/selector.rs:124-381. -/
inductive ShapeFn where
  | anyShape | anyNumber | anySimpleType | anyCollection | blob | boolean | document | string | integer | byte | short | long | float | double
  | bigDecimal | bigInteger | timestamp | list | set | map | structure | union | service | operation | resource | member
  deriving DecidableEq

/-- The shape type of each of them, atelier-core/src/builder/selector.rs:124-381. -/
def ShapeFn.type : ShapeFn → ShapeType
  | .anyShape => .any
  | .anyNumber => .number
  | .anySimpleType => .simpleType
  | .anyCollection => .collection
  | .blob => .blob
  | .boolean => .boolean
  | .document => .document
  | .string => .string
  | .integer => .integer
  | .byte => .byte
  | .short => .short
  | .long => .long
  | .float => .float
  | .double => .double
  | .bigDecimal => .bigDecimal
  | .bigInteger => .bigInteger
  | .timestamp => .timestamp
  | .list => .list
  | .set => .set
  | .map => .map
  | .structure => .structure
  | .union => .union
  | .service => .service
  | .operation => .operation
  | .resource => .resource
  | .member => .member

/-- The names of the constructors, atelier-core/src/builder/selector.rs:124-381. -/
def ShapeFn.name : ShapeFn → Str
  | .anyShape => %s"any_shape"
  | .anyNumber => %s"any_number"
  | .anySimpleType => %s"any_simple_type"
  | .anyCollection => %s"any_collection"
  | .blob => %s"blob"
  | .boolean => %s"boolean"
  | .document => %s"document"
  | .string => %s"string"
  | .integer => %s"integer"
  | .byte => %s"byte"
  | .short => %s"short"
  | .long => %s"long"
  | .float => %s"float"
  | .double => %s"double"
  | .bigDecimal => %s"big_decimal"
  | .bigInteger => %s"big_integer"
  | .timestamp => %s"timestamp"
  | .list => %s"list"
  | .set => %s"set"
  | .map => %s"map"
  | .structure => %s"structure"
  | .union => %s"union"
  | .service => %s"service"
  | .operation => %s"operation"
  | .resource => %s"resource"
  | .member => %s"member"

/-- The names of functions that have calls of their own, atelier-core/src/builder/selector.rs:418-456. -/
inductive KnownFn where
  | test | is | not | topdown

/-- `Identifier::new_unchecked(..)` in each of them. -/
def KnownFn.name : KnownFn → Str
  | .test => %s"test"
  | .is => %s"is"
  | .not => %s"not"
  | .topdown => %s"topdown"

mutual
  /-- A call of `SelectorBuilder`, either a constructor or the `add_` function that goes with it, atelier-core/src/builder/selector.rs:96-595. `add` stands
  also for `from`, `function`, `variable_reference`, `variable_definition`, `attribute` and `scoped_attribute`, which are given a complete expression. -/
  inductive Call where
    | add (e : SelectorExpression)
    | shape (t : ShapeType)
    | shapeFn (f : ShapeFn)
    | functionFrom (name : Str) (arguments : List Program)
    | known (k : KnownFn) (arguments : List Program)
    | neighbor (n : NeighborSelector)
    | forwardUndirected
    | reverseUndirected
    | forwardRecursiveDirected
    | forwardDirected (path : List Str)
    | reverseDirected (path : List Str)
    | variableReferenceFrom (name : Str)
    | variableDefinitionFrom (name : Str) (selector : Program)
    | attributeFrom (key : SelKey) (comparison : Option AttributeComparison)
    | attribute (p : AttributeProgram)
    | scopedAttribute (p : ScopedProgram)
  /-- A program with a `SelectorBuilder`: all constructors are calls with an expression, so that there is at least one. -/
  inductive Program where
    | mk (first : Call) (rest : List Call)
end

/-- The first of two errors, or both results. -/
def both {α : Type} (a : Except Err α) (b : Except Err (List α)) : Except Err (List α) :=
  match a with
  | .error e => .error e
  | .ok x =>
    match b with
    | .error e => .error e
    | .ok l => .ok (x :: l)

/-- `Function::new` with the arguments, if there are no errors. -/
def mkFunction (name : Str) (args : Except Err (List Selector)) : Except Err SelectorExpression :=
  match args with
  | .error e => .error e
  | .ok l => SelectorExpression.newFunction name l

mutual
  /-- The expression that a call pushes, atelier-core/src/builder/selector.rs:96-595. -/
  def Call.run (f : Fmt) : Call → Except Err SelectorExpression
    | .add e => .ok e
    | .shape t => .ok (.shapeType t)
    | .shapeFn g => .ok (.shapeType g.type)
    | .functionFrom name args => mkFunction name (runArguments f args)
    | .known k args => mkFunction k.name (runArguments f args)
    | .neighbor n => .ok (.neighborSelector n)
    | .forwardUndirected => .ok (.neighborSelector .forwardUndirected)
    | .reverseUndirected => .ok (.neighborSelector .reverseUndirected)
    | .forwardRecursiveDirected => .ok (.neighborSelector .forwardRecursiveDirected)
    | .forwardDirected p => .ok (.neighborSelector (.forwardDirected p))
    | .reverseDirected p => .ok (.neighborSelector (.reverseDirected p))
    | .variableReferenceFrom name => .ok (.variableReference name)
    | .variableDefinitionFrom name s =>
      match Program.run f s with
      | .ok l => .ok (.variableDefinition name l)
      | .error e => .error e
    | .attributeFrom key comparison => .ok (.attributeSelector ⟨key, comparison⟩)
    | .attribute p => .ok (.attributeSelector p.run)
    | .scopedAttribute p =>
      match p.run f with
      | .ok a => .ok (.scopedAttributeSelector a)
      | .error e => .error e
  termination_by structural x => x
  /-- The calls, and `From<SelectorBuilder> for Selector`, atelier-core/src/builder/selector.rs:76-94, whose `assert!` holds as there is at least one
  expression. -/
  def Program.run (f : Fmt) : Program → Except Err Selector
    | .mk c cs => both (Call.run f c) (runCalls f cs)
  termination_by structural x => x
  /-- The calls one after the other. -/
  def runCalls (f : Fmt) : List Call → Except Err Selector
    | [] => .ok []
    | c :: cs => both (Call.run f c) (runCalls f cs)
  termination_by structural x => x
  /-- The arguments one after the other, atelier-core/src/builder/selector.rs:394-416. -/
  def runArguments (f : Fmt) : List Program → Except Err (List Selector)
    | [] => .ok []
    | p :: ps => both (Program.run f p) (runArguments f ps)
  termination_by structural x => x
end

end Verif.SelApi
