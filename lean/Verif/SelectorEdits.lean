/-
Model of how the parts of selectors are made, taken apart, compared and edited in place: the conversions, `is_…`, `as_…`, setters and
`==` of atelier-core/src/model/selector/mod.rs, and the accessors of atelier-query/src/projection.rs.
-/
import Verif.Selector
import Verif.Query

namespace Verif

/-! ### `==` -/

/-- Derived `PartialEq for Value`, atelier-core/src/model/selector/mod.rs:78. -/
def SelValue.eq : SelValue → SelValue → Bool
  | .text a, .text b => a == b
  | .number a, .number b => a.neq b
  | .rootShapeId a, .rootShapeId b => identEq a b
  | .absoluteRootShapeId a, .absoluteRootShapeId b => a.ceq b
  | _, _ => false

/-- Derived `PartialEq for KeyPathSegment`, atelier-core/src/model/selector/mod.rs:92. -/
def KeyPathSegment.eq : KeyPathSegment → KeyPathSegment → Bool
  | .value a, .value b => a.eq b
  | .functionProperty a, .functionProperty b => identEq a b
  | _, _ => false

/-- Derived `PartialEq for Key`, atelier-core/src/model/selector/mod.rs:103. -/
def SelKey.eq (a b : SelKey) : Bool := identEq a.identifier b.identifier && vecEq KeyPathSegment.eq a.path b.path

/-- Derived `PartialEq for AttributeComparison`, atelier-core/src/model/selector/mod.rs:239. -/
def AttributeComparison.eq (a b : AttributeComparison) : Bool :=
  decide (a.comparator = b.comparator) && vecEq SelValue.eq a.rhsValues b.rhsValues && a.caseInsensitive == b.caseInsensitive

/-- Derived `PartialEq for AttributeSelector`, atelier-core/src/model/selector/mod.rs:249. -/
def AttributeSelector.eq (a b : AttributeSelector) : Bool := a.key.eq b.key && optEq AttributeComparison.eq a.comparison b.comparison

/-- Derived `PartialEq for ScopedValue`, atelier-core/src/model/selector/mod.rs:268. -/
def ScopedValue.eq : ScopedValue → ScopedValue → Bool
  | .value a, .value b => a.eq b
  | .contextValue a, .contextValue b => vecEq KeyPathSegment.eq a b
  | _, _ => false

/-- Derived `PartialEq for ScopedAttributeAssertion`, atelier-core/src/model/selector/mod.rs:308. -/
def ScopedAttributeAssertion.eq (a b : ScopedAttributeAssertion) : Bool :=
  a.lhsValue.eq b.lhsValue && decide (a.comparator = b.comparator) && vecEq ScopedValue.eq a.rhsValues b.rhsValues &&
    a.caseInsensitive == b.caseInsensitive

/-- Derived `PartialEq for ScopedAttributeSelector`, atelier-core/src/model/selector/mod.rs:259. -/
def ScopedAttributeSelector.eq (a b : ScopedAttributeSelector) : Bool :=
  optEq SelKey.eq a.key b.key && vecEq ScopedAttributeAssertion.eq a.assertions b.assertions

/-- Derived `PartialEq for NeighborSelector`, atelier-core/src/model/selector/mod.rs:322. -/
def NeighborSelector.eq : NeighborSelector → NeighborSelector → Bool
  | .forwardUndirected, .forwardUndirected => true
  | .reverseUndirected, .reverseUndirected => true
  | .forwardDirected a, .forwardDirected b => vecEq identEq a b
  | .reverseDirected a, .reverseDirected b => vecEq identEq a b
  | .forwardRecursiveDirected, .forwardRecursiveDirected => true
  | _, _ => false

mutual
  /-- Derived `PartialEq for SelectorExpression`, atelier-core/src/model/selector/mod.rs:467, with those of `Function` (429),
  `VariableDefinition` (444) and `VariableReference` (460). -/
  def SelectorExpression.eq : SelectorExpression → SelectorExpression → Bool
    | .shapeType a, .shapeType b => decide (a = b)
    | .attributeSelector a, .attributeSelector b => a.eq b
    | .scopedAttributeSelector a, .scopedAttributeSelector b => a.eq b
    | .neighborSelector a, .neighborSelector b => a.eq b
    | .function n a, .function m b => identEq n m && argumentsEq a b
    | .variableDefinition n a, .variableDefinition m b => identEq n m && selectorEq a b
    | .variableReference n, .variableReference m => identEq n m
    | _, _ => false
  termination_by structural x => x
  /-- Derived `PartialEq for Selector`, atelier-core/src/model/selector/mod.rs:495. -/
  def selectorEq : List SelectorExpression → List SelectorExpression → Bool
    | [], [] => true
    | a :: as, b :: bs => a.eq b && selectorEq as bs
    | _, _ => false
  termination_by structural x => x
  /-- `PartialEq for Vec<Selector>`, of the arguments of a function, atelier-core/src/model/selector/mod.rs:429. -/
  def argumentsEq : List (List SelectorExpression) → List (List SelectorExpression) → Bool
    | [], [] => true
    | a :: as, b :: bs => selectorEq a b && argumentsEq as bs
    | _, _ => false
  termination_by structural x => x
end

/-! ### Setters -/

/-- The calls that `array_member!` makes for a list, atelier-core/src/macros.rs:164-193: `set_…`, `add_…`, `append_…`, `remove_…`. -/
inductive ListEdit (α : Type) where
  | set (xs : List α)
  | add (x : α)
  | append (xs : List α)
  | remove (x : α)

/-- What they do, atelier-core/src/macros.rs:177-192; `append_…` is a loop of `add_…`, and `remove_…` is `retain` with the `!=` of the elements. -/
def ListEdit.run {α : Type} (eq : α → α → Bool) (l : List α) : ListEdit α → List α
  | .set xs => xs
  | .add x => l ++ [x]
  | .append xs => xs.foldl (fun l x => l ++ [x]) l
  | .remove x => l.filter fun y => !eq y x

/-- `has_…` of `array_member!`, atelier-core/src/macros.rs:168-170. -/
def hasAny {α : Type} (l : List α) : Bool := !l.isEmpty

/-- The setters of `Key`, atelier-core/src/model/selector/mod.rs:744-746. -/
inductive KeyEdit where
  | identifier (s : Str)
  | path (e : ListEdit KeyPathSegment)

/-- What they do, atelier-core/src/macros.rs:118-120, 177-192. -/
def KeyEdit.run (k : SelKey) : KeyEdit → SelKey
  | .identifier s => { k with identifier := s }
  | .path e => { k with path := e.run KeyPathSegment.eq k.path }

/-- The setters of `AttributeComparison`, atelier-core/src/model/selector/mod.rs:915-919. -/
inductive ComparisonEdit where
  | comparator (c : Comparator)
  | values (e : ListEdit SelValue)
  | caseInsensitive (b : Bool)

/-- What they do, atelier-core/src/macros.rs:118-120, 133-135, 177-192. -/
def ComparisonEdit.run (c : AttributeComparison) : ComparisonEdit → AttributeComparison
  | .comparator x => { c with comparator := x }
  | .values e => { c with rhsValues := e.run SelValue.eq c.rhsValues }
  | .caseInsensitive b => { c with caseInsensitive := b }

/-- The setters of `AttributeSelector`, atelier-core/src/model/selector/mod.rs:970-974. -/
inductive AttributeEdit where
  | key (k : SelKey)
  | comparison (c : AttributeComparison)
  | unsetComparison

/-- What they do, atelier-core/src/macros.rs:118-120, 153-160. -/
def AttributeEdit.run (a : AttributeSelector) : AttributeEdit → AttributeSelector
  | .key k => { a with key := k }
  | .comparison c => { a with comparison := some c }
  | .unsetComparison => { a with comparison := none }

/-- The setters of `ScopedAttributeSelector`, atelier-core/src/model/selector/mod.rs:1105-1110. -/
inductive ScopedEdit where
  | key (k : SelKey)
  | unsetKey
  | assertions (e : ListEdit ScopedAttributeAssertion)

/-- What they do, atelier-core/src/macros.rs:153-160, 177-192. -/
def ScopedEdit.run (a : ScopedAttributeSelector) : ScopedEdit → ScopedAttributeSelector
  | .key k => { a with key := some k }
  | .unsetKey => { a with key := none }
  | .assertions e => { a with assertions := e.run ScopedAttributeAssertion.eq a.assertions }

/-- The setters of `ScopedAttributeAssertion`, atelier-core/src/model/selector/mod.rs:1341-1347. -/
inductive AssertionEdit where
  | lhsValue (v : ScopedValue)
  | comparator (c : Comparator)
  | values (e : ListEdit ScopedValue)
  | caseInsensitive (b : Bool)

/-- What they do, atelier-core/src/macros.rs:118-120, 133-135, 177-192. -/
def AssertionEdit.run (a : ScopedAttributeAssertion) : AssertionEdit → ScopedAttributeAssertion
  | .lhsValue v => { a with lhsValue := v }
  | .comparator c => { a with comparator := c }
  | .values e => { a with rhsValues := e.run ScopedValue.eq a.rhsValues }
  | .caseInsensitive b => { a with caseInsensitive := b }

/-- `Function`, atelier-core/src/model/selector/mod.rs:430-433. -/
structure SelFunction where
  name : Str
  arguments : List Selector

/-- `Function::new`, atelier-core/src/model/selector/mod.rs:1423-1429: `assert!(!arguments.is_empty())`. -/
def SelFunction.new (name : Str) (args : List Selector) : Except Err SelFunction :=
  if args.isEmpty then .error .panic else .ok ⟨name, args⟩

/-- `From<Function> for SelectorExpression`, atelier-core/src/model/selector/mod.rs:1415-1419. -/
def SelFunction.expression (g : SelFunction) : SelectorExpression := .function g.name g.arguments

/-- The setters of `Function`, atelier-core/src/model/selector/mod.rs:1431-1436. -/
inductive FunctionEdit where
  | name (s : Str)
  | arguments (e : ListEdit Selector)

/-- What they do, atelier-core/src/macros.rs:118-120, 177-192. -/
def FunctionEdit.run (g : SelFunction) : FunctionEdit → SelFunction
  | .name s => { g with name := s }
  | .arguments e => { g with arguments := e.run selectorEq g.arguments }

/-- `VariableDefinition`, atelier-core/src/model/selector/mod.rs:445-448. -/
structure SelDefinition where
  name : Str
  selector : Selector

/-- `From<VariableDefinition> for SelectorExpression`, atelier-core/src/model/selector/mod.rs:1447-1451. -/
def SelDefinition.expression (d : SelDefinition) : SelectorExpression := .variableDefinition d.name d.selector

/-- The setters of `VariableDefinition`, atelier-core/src/model/selector/mod.rs:1459-1461. -/
inductive DefinitionEdit where
  | name (s : Str)
  | selector (s : Selector)

/-- What they do, atelier-core/src/macros.rs:118-120. -/
def DefinitionEdit.run (d : SelDefinition) : DefinitionEdit → SelDefinition
  | .name s => { d with name := s }
  | .selector s => { d with selector := s }

/-- `VariableReference` is its name; `new_reference`, atelier-core/src/model/selector/mod.rs:1464-1466, as an expression (1477-1481). -/
def SelDefinition.newReference (d : SelDefinition) : SelectorExpression := .variableReference d.name

/-! ### Constructors of scoped assertions -/

namespace ScopedAttributeAssertion

/-- `ScopedAttributeAssertion::new` and `new_case_insensitive`, atelier-core/src/model/selector/mod.rs:1223-1246. -/
def new (lhs : ScopedValue) (c : Comparator) (rhs : List ScopedValue) : ScopedAttributeAssertion := ⟨lhs, c, rhs, false⟩
@[inherit_doc new] def newCaseInsensitive (lhs : ScopedValue) (c : Comparator) (rhs : List ScopedValue) : ScopedAttributeAssertion :=
  ⟨lhs, c, rhs, true⟩

/-- `string_equal`, `string_not_equal`, `string_ends_with`, `string_contains`, atelier-core/src/model/selector/mod.rs:1248-1256, 1267-1275. -/
def stringEqual (lhs rhs : ScopedValue) : ScopedAttributeAssertion := new lhs .stringEqual [rhs]
@[inherit_doc stringEqual] def stringNotEqual (lhs rhs : ScopedValue) : ScopedAttributeAssertion := new lhs .stringNotEqual [rhs]
@[inherit_doc stringEqual] def stringEndsWith (lhs rhs : ScopedValue) : ScopedAttributeAssertion := new lhs .stringEndsWith [rhs]
@[inherit_doc stringEqual] def stringContains (lhs rhs : ScopedValue) : ScopedAttributeAssertion := new lhs .stringContains [rhs]

/-- `string_starts_with`, atelier-core/src/model/selector/mod.rs:1258-1265: the value is turned into text by `to_string`. -/
def stringStartsWith (f : Fmt) (lhs rhs : ScopedValue) : ScopedAttributeAssertion := new lhs .stringStartsWith [.value (.text (rhs.display f))]

/-- `string_exists`, atelier-core/src/model/selector/mod.rs:1277-1283. -/
def stringExists (lhs : ScopedValue) (rhs : Bool) : ScopedAttributeAssertion := new lhs .stringExists [.value (.text (showBool rhs))]

/-- `number_greater`, `number_greater_or_equal`, `number_less`, `number_less_or_equal`, atelier-core/src/model/selector/mod.rs:1286-1320. -/
def numberGreater (f : Fmt) (lhs : ScopedValue) (rhs : Number) : ScopedAttributeAssertion := new lhs .numberGreaterThan [.value (.text (showNumber f rhs))]
@[inherit_doc numberGreater] def numberGreaterOrEqual (f : Fmt) (lhs : ScopedValue) (rhs : Number) : ScopedAttributeAssertion :=
  new lhs .numberGreaterOrEqual [.value (.text (showNumber f rhs))]
@[inherit_doc numberGreater] def numberLess (f : Fmt) (lhs : ScopedValue) (rhs : Number) : ScopedAttributeAssertion :=
  new lhs .numberLessThan [.value (.text (showNumber f rhs))]
@[inherit_doc numberGreater] def numberLessOrEqual (f : Fmt) (lhs : ScopedValue) (rhs : Number) : ScopedAttributeAssertion :=
  new lhs .numberLessOrEqual [.value (.text (showNumber f rhs))]

/-- `projection_equal`, `projection_not_equal`, `projection_subset`, `projection_proper_subset`,
atelier-core/src/model/selector/mod.rs:1322-1339. -/
def projectionEqual (lhs rhs : ScopedValue) : ScopedAttributeAssertion := new lhs .projectionEqual [rhs]
@[inherit_doc projectionEqual] def projectionNotEqual (lhs rhs : ScopedValue) : ScopedAttributeAssertion := new lhs .projectionNotEqual [rhs]
@[inherit_doc projectionEqual] def projectionSubset (lhs : ScopedValue) (rhs : List ScopedValue) : ScopedAttributeAssertion := new lhs .projectionSubset rhs
@[inherit_doc projectionEqual] def projectionProperSubset (lhs : ScopedValue) (rhs : List ScopedValue) : ScopedAttributeAssertion :=
  new lhs .projectionProperSubset rhs

end ScopedAttributeAssertion

namespace AttributeComparison

/-- `projection_equal`, `projection_not_equal`, `projection_subset`, `projection_proper_subset`, atelier-core/src/model/selector/mod.rs:894-911. -/
def projectionEqual (rhs : SelValue) : AttributeComparison := new .projectionEqual [rhs]
@[inherit_doc projectionEqual] def projectionNotEqual (rhs : SelValue) : AttributeComparison := new .projectionNotEqual [rhs]
@[inherit_doc projectionEqual] def projectionSubset (rhs : List SelValue) : AttributeComparison := new .projectionSubset rhs
@[inherit_doc projectionEqual] def projectionProperSubset (rhs : List SelValue) : AttributeComparison := new .projectionProperSubset rhs

end AttributeComparison

/-! ### Conversions and questions -/

namespace SelValue

/-- `From<String>`, `From<&str>`, `From<Number>`, `From<i64>`, `From<f64>`, `From<Identifier>` and `From<ShapeID>` for `Value`,
atelier-core/src/model/selector/mod.rs:608-648. -/
def ofString (s : Str) : SelValue := .text s
@[inherit_doc ofString] def ofNumber (n : Number) : SelValue := .number n
@[inherit_doc ofString] def ofI64 (n : Int) : SelValue := .number (.integer n)
@[inherit_doc ofString] def ofF64 (x : F64) : SelValue := .number (.float x)
@[inherit_doc ofString] def ofIdentifier (s : Str) : SelValue := .rootShapeId s
@[inherit_doc ofString] def ofShapeID (id : ShapeID) : SelValue := .absoluteRootShapeId id

/-- `is_text`, …, `as_text`, … of `Value`, atelier-core/src/model/selector/mod.rs:650-660 and macros.rs:41-61. -/
def isText : SelValue → Bool | .text _ => true | _ => false
@[inherit_doc isText] def isNumber : SelValue → Bool | .number _ => true | _ => false
@[inherit_doc isText] def isRootShapeId : SelValue → Bool | .rootShapeId _ => true | _ => false
@[inherit_doc isText] def isAbsoluteRootShapeId : SelValue → Bool | .absoluteRootShapeId _ => true | _ => false
@[inherit_doc isText] def asText : SelValue → Option Str | .text s => some s | _ => none
@[inherit_doc isText] def asNumber : SelValue → Option Number | .number n => some n | _ => none
@[inherit_doc isText] def asRootShapeId : SelValue → Option Str | .rootShapeId s => some s | _ => none
@[inherit_doc isText] def asAbsoluteRootShapeId : SelValue → Option ShapeID | .absoluteRootShapeId id => some id | _ => none

end SelValue

namespace KeyPathSegment

/-- `is_value`, `is_function_property`, `as_…` of `KeyPathSegment`, atelier-core/src/model/selector/mod.rs:689-693. Its conversions
(677-687) are the constructors. -/
def isValue : KeyPathSegment → Bool | .value _ => true | _ => false
@[inherit_doc isValue] def isFunctionProperty : KeyPathSegment → Bool | .functionProperty _ => true | _ => false
@[inherit_doc isValue] def asValue : KeyPathSegment → Option SelValue | .value v => some v | _ => none
@[inherit_doc isValue] def asFunctionProperty : KeyPathSegment → Option Str | .functionProperty s => some s | _ => none

end KeyPathSegment

namespace ScopedValue

/-- `From<String>`, `From<&str>`, `From<Number>`, `From<i64>`, `From<f64>`, `From<Identifier>` and `From<ShapeID>` for `ScopedValue`,
atelier-core/src/model/selector/mod.rs:1134-1174; those from a `Value` and from segments (1176-1192) are the constructors. -/
def ofString (s : Str) : ScopedValue := .value (.text s)
@[inherit_doc ofString] def ofNumber (n : Number) : ScopedValue := .value (.number n)
@[inherit_doc ofString] def ofI64 (n : Int) : ScopedValue := .value (.number (.integer n))
@[inherit_doc ofString] def ofF64 (x : F64) : ScopedValue := .value (.number (.float x))
@[inherit_doc ofString] def ofIdentifier (s : Str) : ScopedValue := .value (.rootShapeId s)
@[inherit_doc ofString] def ofShapeID (id : ShapeID) : ScopedValue := .value (.absoluteRootShapeId id)

/-- `is_value`, `is_context_value`, `as_…` of `ScopedValue`, atelier-core/src/model/selector/mod.rs:1194-1198. -/
def isValue : ScopedValue → Bool | .value _ => true | _ => false
@[inherit_doc isValue] def isContextValue : ScopedValue → Bool | .contextValue _ => true | _ => false
@[inherit_doc isValue] def asValue : ScopedValue → Option SelValue | .value v => some v | _ => none
@[inherit_doc isValue] def asContextValue : ScopedValue → Option (List KeyPathSegment) | .contextValue p => some p | _ => none

end ScopedValue

namespace NeighborSelector

/-- `is_…` and `as_…` of `NeighborSelector`, atelier-core/src/model/selector/mod.rs:1386-1396. -/
def isForwardUndirected : NeighborSelector → Bool | .forwardUndirected => true | _ => false
@[inherit_doc isForwardUndirected] def isReverseUndirected : NeighborSelector → Bool | .reverseUndirected => true | _ => false
@[inherit_doc isForwardUndirected] def isForwardRecursiveDirected : NeighborSelector → Bool | .forwardRecursiveDirected => true | _ => false
@[inherit_doc isForwardUndirected] def isForwardDirected : NeighborSelector → Bool | .forwardDirected _ => true | _ => false
@[inherit_doc isForwardUndirected] def isReverseDirected : NeighborSelector → Bool | .reverseDirected _ => true | _ => false
@[inherit_doc isForwardUndirected] def asForwardDirected : NeighborSelector → Option (List Str) | .forwardDirected p => some p | _ => none
@[inherit_doc isForwardUndirected] def asReverseDirected : NeighborSelector → Option (List Str) | .reverseDirected p => some p | _ => none

end NeighborSelector

namespace SelectorExpression

/-- `is_…` and `as_…` of `SelectorExpression`, atelier-core/src/model/selector/mod.rs:998-1014. -/
def isShapeType : SelectorExpression → Bool | .shapeType _ => true | _ => false
@[inherit_doc isShapeType] def isAttributeSelector : SelectorExpression → Bool | .attributeSelector _ => true | _ => false
@[inherit_doc isShapeType] def isScopedAttributeSelector : SelectorExpression → Bool | .scopedAttributeSelector _ => true | _ => false
@[inherit_doc isShapeType] def isNeighborSelector : SelectorExpression → Bool | .neighborSelector _ => true | _ => false
@[inherit_doc isShapeType] def isFunction : SelectorExpression → Bool | .function _ _ => true | _ => false
@[inherit_doc isShapeType] def isVariableDefinition : SelectorExpression → Bool | .variableDefinition _ _ => true | _ => false
@[inherit_doc isShapeType] def isVariableReference : SelectorExpression → Bool | .variableReference _ => true | _ => false
@[inherit_doc isShapeType] def asShapeType : SelectorExpression → Option ShapeType | .shapeType t => some t | _ => none
@[inherit_doc isShapeType] def asAttributeSelector : SelectorExpression → Option AttributeSelector | .attributeSelector a => some a | _ => none
@[inherit_doc isShapeType] def asScopedAttributeSelector : SelectorExpression → Option ScopedAttributeSelector
  | .scopedAttributeSelector a => some a | _ => none
@[inherit_doc isShapeType] def asNeighborSelector : SelectorExpression → Option NeighborSelector | .neighborSelector n => some n | _ => none
@[inherit_doc isShapeType] def asFunction : SelectorExpression → Option SelFunction | .function n a => some ⟨n, a⟩ | _ => none
@[inherit_doc isShapeType] def asVariableDefinition : SelectorExpression → Option SelDefinition | .variableDefinition n s => some ⟨n, s⟩ | _ => none
@[inherit_doc isShapeType] def asVariableReference : SelectorExpression → Option Str | .variableReference n => some n | _ => none

end SelectorExpression

namespace Projection

/-- `Default`, `is_…` and `as_…` of `Projection`, atelier-query/src/projection.rs:37-41, 48-54 and macros.rs:5-50. -/
def default : Projection := .empty
/-- See `default`. -/
def isEmpty : Projection → Bool | .empty => true | _ => false
/-- See `default`. -/
def isShapes : Projection → Bool | .shapes _ => true | _ => false
/-- See `default`. -/
def isMembers : Projection → Bool | .members _ => true | _ => false
/-- See `default`. -/
def isValues : Projection → Bool | .values _ => true | _ => false
/-- See `default`. -/
def asShapes : Projection → Option (List ShapeID) | .shapes l => some l | _ => none
/-- See `default`. -/
def asMembers : Projection → Option (List ShapeID) | .members l => some l | _ => none
/-- See `default`. -/
def asValues : Projection → Option (List Value) | .values l => some l | _ => none

end Projection

end Verif
