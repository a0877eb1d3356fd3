/-
Model of the types of atelier-core/src/model/selector/mod.rs and their `Display`.
-/
import Verif.Lines

namespace Verif

/-- `selector::Value`, atelier-core/src/model/selector/mod.rs:79-88. -/
inductive SelValue where
  | text (s : Str)
  | number (n : Number)
  | rootShapeId (s : Str)
  | absoluteRootShapeId (id : ShapeID)
  deriving DecidableEq, Repr

/-- `KeyPathSegment`, atelier-core/src/model/selector/mod.rs:93-98. -/
inductive KeyPathSegment where
  | value (v : SelValue)
  | functionProperty (s : Str)
  deriving DecidableEq, Repr

/-- `Key`, atelier-core/src/model/selector/mod.rs:104-107. -/
structure SelKey where
  identifier : Str
  path : List KeyPathSegment
  deriving DecidableEq, Repr

/-- `AttributeComparison`, atelier-core/src/model/selector/mod.rs:240-244. -/
structure AttributeComparison where
  comparator : Comparator
  rhsValues : List SelValue
  caseInsensitive : Bool
  deriving DecidableEq, Repr

/-- `AttributeSelector`, atelier-core/src/model/selector/mod.rs:250-253. -/
structure AttributeSelector where
  key : SelKey
  comparison : Option AttributeComparison
  deriving DecidableEq, Repr

/-- `ScopedValue`, atelier-core/src/model/selector/mod.rs:269-274. -/
inductive ScopedValue where
  | value (v : SelValue)
  | contextValue (path : List KeyPathSegment)
  deriving DecidableEq, Repr

/-- `ScopedAttributeAssertion`, atelier-core/src/model/selector/mod.rs:309-314. -/
structure ScopedAttributeAssertion where
  lhsValue : ScopedValue
  comparator : Comparator
  rhsValues : List ScopedValue
  caseInsensitive : Bool
  deriving DecidableEq, Repr

/-- `ScopedAttributeSelector`, atelier-core/src/model/selector/mod.rs:260-263. -/
structure ScopedAttributeSelector where
  key : Option SelKey
  assertions : List ScopedAttributeAssertion
  deriving DecidableEq, Repr

/-- `NeighborSelector`, atelier-core/src/model/selector/mod.rs:323-420. -/
inductive NeighborSelector where
  | forwardUndirected
  | reverseUndirected
  | forwardDirected (names : List Str)
  | reverseDirected (names : List Str)
  | forwardRecursiveDirected
  deriving DecidableEq, Repr

/-- `SelectorExpression`, atelier-core/src/model/selector/mod.rs:468-486, with `Function` (428-431),
`VariableDefinition` (443-446) and `VariableReference` (459-461) inlined as their fields; a `Selector` (498-501) is its
list of expressions. -/
inductive SelectorExpression where
  | shapeType (t : ShapeType)
  | attributeSelector (a : AttributeSelector)
  | scopedAttributeSelector (a : ScopedAttributeSelector)
  | neighborSelector (n : NeighborSelector)
  | function (name : Str) (arguments : List (List SelectorExpression))
  | variableDefinition (name : Str) (selector : List SelectorExpression)
  | variableReference (name : Str)
  deriving Repr

/-- `Selector`, atelier-core/src/model/selector/mod.rs:496-498. -/
abbrev Selector := List SelectorExpression

/-! ### Display -/

/-- `Display for Value`, atelier-core/src/model/selector/mod.rs:593-606. -/
def SelValue.display (f : Fmt) : SelValue → Str
  | .text s => '"' :: s ++ ['"']
  | .number n => showNumber f n
  | .rootShapeId s => s
  | .absoluteRootShapeId id => id.display

/-- `Display for KeyPathSegment`, atelier-core/src/model/selector/mod.rs:664-675. -/
def KeyPathSegment.display (f : Fmt) : KeyPathSegment → Str
  | .value v => v.display f
  | .functionProperty s => '(' :: s ++ [')']

/-- `Display for Key`, atelier-core/src/model/selector/mod.rs:697-716. -/
def SelKey.display (f : Fmt) (k : SelKey) : Str :=
  k.identifier ++ (if k.path.isEmpty then [] else '|' :: joinWith ['|'] (k.path.map (·.display f)))

/-- The case suffix, atelier-core/src/model/selector/mod.rs:812-816, 1213-1217. -/
def caseSuffix (b : Bool) : Str := if b then %s" i" else []

/-- `Display for AttributeComparison`, atelier-core/src/model/selector/mod.rs:802-819. -/
def AttributeComparison.display (f : Fmt) (c : AttributeComparison) : Str :=
  ' ' :: c.comparator.display ++ [' '] ++ joinWith %s", " (c.rhsValues.map (·.display f)) ++ caseSuffix c.caseInsensitive

/-- `Display for AttributeSelector`, atelier-core/src/model/selector/mod.rs:924-936. -/
def AttributeSelector.display (f : Fmt) (a : AttributeSelector) : Str :=
  '[' :: a.key.display f ++ (match a.comparison with | none => [] | some c => c.display f) ++ [']']

/-- `Display for ScopedValue`, atelier-core/src/model/selector/mod.rs:1115-1132. -/
def ScopedValue.display (f : Fmt) : ScopedValue → Str
  | .value v => v.display f
  | .contextValue p => %s"@{" ++ joinWith ['|'] (p.map (·.display f)) ++ ['}']

/-- `Display for ScopedAttributeAssertion`, atelier-core/src/model/selector/mod.rs:1202-1220. -/
def ScopedAttributeAssertion.display (f : Fmt) (a : ScopedAttributeAssertion) : Str :=
  a.lhsValue.display f ++ [' '] ++ a.comparator.display ++ [' '] ++ joinWith %s", " (a.rhsValues.map (·.display f)) ++
    caseSuffix a.caseInsensitive

/-- `Display for ScopedAttributeSelector`, atelier-core/src/model/selector/mod.rs:1062-1078. -/
def ScopedAttributeSelector.display (f : Fmt) (a : ScopedAttributeSelector) : Str :=
  %s"[@" ++ (match a.key with | none => [] | some k => k.display f) ++ %s": " ++
    joinWith %s" && " (a.assertions.map (·.display f)) ++ [']']

/-- `Display for NeighborSelector`, atelier-core/src/model/selector/mod.rs:1352-1378. -/
def NeighborSelector.display : NeighborSelector → Str
  | .forwardUndirected => %s">"
  | .reverseUndirected => %s"<"
  | .forwardDirected vs => %s"-[" ++ joinWith %s", " vs ++ %s"]->"
  | .reverseDirected vs => %s"<-[" ++ joinWith %s", " vs ++ %s"]-"
  | .forwardRecursiveDirected => %s"~>"

mutual
  /-- `Display for SelectorExpression`, atelier-core/src/model/selector/mod.rs:979-995, with those for `Function`
  (1400-1413), `VariableDefinition` (1441-1445) and `VariableReference` (1471-1475). -/
  def SelectorExpression.display (f : Fmt) : SelectorExpression → Str
    | .shapeType t => t.display
    | .attributeSelector a => a.display f
    | .scopedAttributeSelector a => a.display f
    | .neighborSelector n => n.display
    | .function name args => ':' :: name ++ ['('] ++ joinWith %s", " (displayArguments f args) ++ [')']
    | .variableDefinition name sel => '$' :: name ++ ['('] ++ joinWith [' '] (displayExpressions f sel) ++ [')']
    | .variableReference name => %s"${" ++ name ++ ['}']
  termination_by structural x => x
  /-- The texts of the expressions of a selector, atelier-core/src/model/selector/mod.rs:1032-1034. -/
  def displayExpressions (f : Fmt) : List SelectorExpression → List Str
    | [] => []
    | e :: es => e.display f :: displayExpressions f es
  termination_by structural x => x
  /-- The texts of the arguments of a function, atelier-core/src/model/selector/mod.rs:1406-1409. -/
  def displayArguments (f : Fmt) : List (List SelectorExpression) → List Str
    | [] => []
    | s :: ss => joinWith [' '] (displayExpressions f s) :: displayArguments f ss
  termination_by structural x => x
end

/-- `Display for Selector`, atelier-core/src/model/selector/mod.rs:1027-1038. -/
def Selector.display (f : Fmt) (s : Selector) : Str := joinWith [' '] (displayExpressions f s)

/-! ### Constructors -/

namespace AttributeComparison

/-- `AttributeComparison::new` and `new_case_insensitive`, atelier-core/src/model/selector/mod.rs:823-838. -/
def new (c : Comparator) (values : List SelValue) : AttributeComparison := ⟨c, values, false⟩
@[inherit_doc new] def newCaseInsensitive (c : Comparator) (values : List SelValue) : AttributeComparison := ⟨c, values, true⟩

/-- `string_equal`, `string_not_equal`, `string_ends_with`, `string_contains`, atelier-core/src/model/selector/mod.rs:841-866. -/
def stringEqual (rhs : SelValue) : AttributeComparison := new .stringEqual [rhs]
@[inherit_doc stringEqual] def stringNotEqual (rhs : SelValue) : AttributeComparison := new .stringNotEqual [rhs]
@[inherit_doc stringEqual] def stringEndsWith (rhs : SelValue) : AttributeComparison := new .stringEndsWith [rhs]
@[inherit_doc stringEqual] def stringContains (rhs : SelValue) : AttributeComparison := new .stringContains [rhs]

/-- `string_starts_with`, atelier-core/src/model/selector/mod.rs:851-856: the value is turned into text by `to_string`. -/
def stringStartsWith (f : Fmt) (rhs : SelValue) : AttributeComparison := new .stringStartsWith [.text (rhs.display f)]

/-- `string_exists`, atelier-core/src/model/selector/mod.rs:869-871. -/
def stringExists (rhs : Bool) : AttributeComparison := new .stringExists [.text (showBool rhs)]

/-- `number_greater`, `number_greater_or_equal`, `number_less`, `number_less_or_equal`,
atelier-core/src/model/selector/mod.rs:874-891. -/
def numberGreater (rhs : Number) : AttributeComparison := new .numberGreaterThan [.number rhs]
@[inherit_doc numberGreater] def numberGreaterOrEqual (rhs : Number) : AttributeComparison := new .numberGreaterOrEqual [.number rhs]
@[inherit_doc numberGreater] def numberLess (rhs : Number) : AttributeComparison := new .numberLessThan [.number rhs]
@[inherit_doc numberGreater] def numberLessOrEqual (rhs : Number) : AttributeComparison := new .numberLessOrEqual [.number rhs]

end AttributeComparison

/-- `Function::new`, atelier-core/src/model/selector/mod.rs:1423-1429: `assert!(!arguments.is_empty())`. -/
def SelectorExpression.newFunction (name : Str) (args : List Selector) : Except Err SelectorExpression :=
  if args.isEmpty then .error .panic else .ok (.function name args)

/-- `ScopedAttributeSelector::new` and `with_key`, atelier-core/src/model/selector/mod.rs:1087-1102:
`assert!(!assertions.is_empty())`. -/
def ScopedAttributeSelector.new (key : Option SelKey) (assertions : List ScopedAttributeAssertion) : Except Err ScopedAttributeSelector :=
  if assertions.isEmpty then .error .panic else .ok ⟨key, assertions⟩

end Verif
