/-
Model of atelier-smithy/src/selector.pest and atelier-smithy/src/parser/selector.rs.
-/
import Verif.Peg
import Verif.Selector

namespace Verif
open Peg

/-- `Rule` of atelier-smithy/src/selector.pest:4-213 (`WHITESPACE` is part of the grammar's definition below). -/
inductive SelRule where
  | input | selector | expression | shapeTypes | forwardUndirected | reverseUndirected | forwardDirected | reverseDirected
  | directedRelationships | forwardRecursive | attr | attrComparison | caseSuffix | key | path | pathSegment | value
  | functionProperty | attrValues | comparator | stringComparator | stringEq | stringNeq | stringStarts | stringEnds
  | stringIn | stringExist | numericComparator | numberGt | numberGte | numberLt | numberLte | projectionComparator
  | projectionEq | projectionNeq | projectionSubset | projectionProper | scopedAttr | scopedAssertions | scopedAssertion
  | scopedValue | contextValue | scopedValues | function | functionArgs | text | singleQuotedText | doubleQuotedText
  | singleQuotedChar | doubleQuotedChar | variableSet | variableGet | identifier | nsName | rootShapeId
  | absoluteRootShapeId | number | decimalPoint | expLetter | exp | fraction | int | minus | plus | zero | EOI
  deriving DecidableEq, Repr

/-- `'a'..'b'` in a grammar. -/
def charRange (a b : Nat) (c : Char) : Bool := decide (a ≤ c.toNat) && decide (c.toNat ≤ b)

/-- `ASCII_ALPHA | ASCII_DIGIT | "_"`, `pest`'s built-in classes. -/
def identRest (c : Char) : Bool := c.isAlpha || c.isDigit || c == '_'

/-- `ASCII_NONZERO_DIGIT`. -/
def nonzeroDigit (c : Char) : Bool := charRange 0x31 0x39 c

/-- `WHITESPACE`, atelier-smithy/src/selector.pest:219. -/
def selWhite (c : Char) : Bool := c == ' ' || c == '\t' || c == '\n'

namespace SelGrammar
open SelRule

/-- A rule used in an expression. -/
abbrev r (x : SelRule) : Expr SelRule := .rule x

/-- `e ~ ("sep" ~ e)*`. -/
abbrev sepBy (sep : Str) (x : Expr SelRule) : Expr SelRule := x ~> .rep (.str sep ~> x)

/-- `ASCII_ALPHA ~ (ASCII_ALPHA | ASCII_DIGIT | "_")*`. -/
abbrev word : Expr SelRule := .chr Char.isAlpha ~> .rep (.chr identRest)

/-- The right-hand sides, atelier-smithy/src/selector.pest:4-213. -/
def body : SelRule → Expr SelRule
  | input => .soi ~> r selector ~> .eoi
  | selector => .plus (r expression)
  | expression => r shapeTypes <||> r attr <||> r scopedAttr <||> r function <||> r forwardDirected <||> r reverseDirected <||>
      r forwardUndirected <||> r reverseUndirected <||> r forwardRecursive <||> r variableSet <||> r variableGet
  | shapeTypes => .str %s"*" <||> r identifier
  | forwardUndirected => .str %s">"
  | reverseUndirected => .str %s"<"
  | forwardDirected => .str %s"-[" ~> r directedRelationships ~> .str %s"]->"
  | reverseDirected => .str %s"<-[" ~> r directedRelationships ~> .str %s"]-"
  | directedRelationships => sepBy %s"," (r identifier)
  | forwardRecursive => .str %s"~>"
  | attr => .str %s"[" ~> r key ~> .opt (r attrComparison) ~> .str %s"]"
  | attrComparison => r comparator ~> r attrValues ~> .opt (r SelRule.caseSuffix)
  | .caseSuffix => .str %s"i"
  | key => r identifier ~> .opt (.str %s"|" ~> r path)
  | path => sepBy %s"|" (r pathSegment)
  | pathSegment => r value <||> r functionProperty
  | value => r text <||> r number <||> r rootShapeId
  | functionProperty => .str %s"(" ~> r identifier ~> .str %s")"
  | attrValues => sepBy %s"," (r value)
  | comparator => r stringComparator <||> r numericComparator <||> r projectionComparator
  | stringComparator => r stringEq <||> r stringNeq <||> r stringStarts <||> r stringEnds <||> r stringIn <||> r stringExist
  | stringEq => .str %s"="
  | stringNeq => .str %s"!="
  | stringStarts => .str %s"^="
  | stringEnds => .str %s"$="
  | stringIn => .str %s"*="
  | stringExist => .str %s"?="
  | numericComparator => r numberGt <||> r numberGte <||> r numberLt <||> r numberLte
  | numberGt => .str %s">"
  | numberGte => .str %s">="
  | numberLt => .str %s"<"
  | numberLte => .str %s"<="
  | projectionComparator => r projectionEq <||> r projectionNeq <||> r projectionSubset <||> r projectionProper
  | projectionEq => .str %s"{=}"
  | projectionNeq => .str %s"{!=}"
  | projectionSubset => .str %s"{<}"
  | projectionProper => .str %s"{<<}"
  | scopedAttr => .str %s"[@" ~> .opt (r key) ~> .str %s":" ~> r scopedAssertions ~> .str %s"]"
  | scopedAssertions => sepBy %s"&&" (r scopedAssertion)
  | scopedAssertion => r scopedValue ~> r comparator ~> r scopedValues ~> .opt (r SelRule.caseSuffix)
  | scopedValue => r value <||> r contextValue
  | contextValue => .str %s"@{" ~> r path ~> .str %s"}"
  | scopedValues => sepBy %s"," (r scopedValue)
  | function => .str %s":" ~> r identifier ~> .str %s"(" ~> r functionArgs ~> .str %s")"
  | functionArgs => sepBy %s"," (r selector)
  | text => r singleQuotedText <||> r doubleQuotedText
  | singleQuotedText => .str %s"'" ~> .plus (r singleQuotedChar) ~> .str %s"'"
  | doubleQuotedText => .str ['"'] ~> .plus (r doubleQuotedChar) ~> .str ['"']
  | singleQuotedChar => .chr (charRange 0x20 0x26) <||> .chr (charRange 0x28 0x5B) <||> .chr (charRange 0x5D 0x10FFFF)
  | doubleQuotedChar => .chr (charRange 0x20 0x21) <||> .chr (charRange 0x23 0x5B) <||> .chr (charRange 0x5D 0x10FFFF)
  | variableSet => .str %s"$" ~> r identifier ~> .str %s"(" ~> r selector ~> .str %s")"
  | variableGet => .str %s"${" ~> r identifier ~> .str %s"}"
  | identifier => word <||> (.str %s"_" ~> word)
  | nsName => r identifier ~> .rep (.str %s"." ~> r identifier)
  | rootShapeId => r absoluteRootShapeId <||> r identifier
  | absoluteRootShapeId => r nsName ~> .str %s"#" ~> r identifier
  | number => .opt (r minus) ~> r int ~> .opt (r fraction) ~> .opt (r exp)
  | decimalPoint => .str %s"."
  | expLetter => .str %s"e" <||> .str %s"E"
  | exp => r expLetter ~> .opt (r minus <||> r plus) ~> .plus (.chr Char.isDigit)
  | fraction => r decimalPoint ~> .plus (.chr Char.isDigit)
  | int => r zero <||> (.chr nonzeroDigit ~> .rep (.chr Char.isDigit))
  | minus => .str %s"-"
  | plus => .str %s"+"
  | zero => .str %s"0"
  | EOI => .eoi

/-- The rules written `@{ .. }`: atelier-smithy/src/selector.pest:153-157, 175-180, 185-189. -/
def kind : SelRule → Kind
  | singleQuotedText => .atomic
  | doubleQuotedText => .atomic
  | identifier => .atomic
  | nsName => .atomic
  | absoluteRootShapeId => .atomic
  | number => .atomic
  | _ => .normal

end SelGrammar

/-- The grammar atelier-smithy/src/selector.pest. -/
def selGrammar : Grammar SelRule := ⟨SelGrammar.kind, SelGrammar.body, selWhite, .EOI⟩

namespace SelGrammar

/-- How deep each rule goes before it consumes a character (for `Terminating`). -/
def rank : SelRule → Nat
  | .EOI => 1 | .zero | .plus | .minus | .decimalPoint | .caseSuffix => 1
  | .expLetter => 2
  | .int => 3
  | .fraction => 3
  | .exp => 4
  | .number => 7
  | .identifier => 3
  | .nsName => 5
  | .absoluteRootShapeId => 7
  | .rootShapeId => 9
  | .singleQuotedChar | .doubleQuotedChar => 3
  | .singleQuotedText | .doubleQuotedText => 2
  | .text => 4
  | .value => 12
  | .functionProperty => 2
  | .pathSegment => 14
  | .path => 16
  | .key => 5
  | .attrValues => 14
  | .stringEq | .stringNeq | .stringStarts | .stringEnds | .stringIn | .stringExist => 1
  | .numberGt | .numberGte | .numberLt | .numberLte => 1
  | .projectionEq | .projectionNeq | .projectionSubset | .projectionProper => 1
  | .stringComparator => 8
  | .numericComparator => 8
  | .projectionComparator => 8
  | .comparator => 11
  | .attrComparison => 13
  | .attr => 2
  | .contextValue => 2
  | .scopedValue => 14
  | .scopedValues => 16
  | .scopedAssertion => 16
  | .scopedAssertions => 18
  | .scopedAttr => 2
  | .function => 2
  | .variableSet => 2
  | .variableGet => 2
  | .forwardUndirected | .reverseUndirected | .forwardRecursive => 1
  | .directedRelationships => 5
  | .forwardDirected | .reverseDirected => 2
  | .shapeTypes => 5
  | .expression => 13
  | .selector => 16
  | .functionArgs => 18
  | .input => 19

/-- Only `EOI` matches nothing. -/
def null : SelRule → Bool
  | .EOI => true
  | _ => false

theorem terminating : Terminating selGrammar null rank 20 where
  empties := by intro r; cases r <;> decide
  ranks := by intro r; cases r <;> decide
  bounds := by intro r; cases r <;> decide

end SelGrammar

/-- `SelectorParser::parse(Rule::input, input)`, atelier-smithy/src/parser/selector.rs:35: the pairs, if the text matches.
The bound is never the reason for a failure (`matchSelector_iff`). -/
def matchSelector (s : Str) : Option (List (Pair SelRule)) :=
  match run selGrammar (s.length * 20 + 20) false (.rule .input) s with
  | some (some (_, _, ps)) => some ps
  | _ => none

theorem matchSelector_iff (s : Str) (x : Option (List (Pair SelRule))) : matchSelector s = x ↔
    ∃ r, Parses selGrammar false (.rule .input) s r ∧ x = r.map (·.2.2) := by
  obtain ⟨r, hr⟩ := run_total SelGrammar.terminating (s.length * 20 + 20) false (.rule .input) s rfl (by simp [depth, SelGrammar.rank])
  have hp := run_sound hr
  have : matchSelector s = r.map (·.2.2) := by
    unfold matchSelector
    rw [hr]
    cases r with
    | none => rfl
    | some y => rfl
  rw [this]
  constructor
  · rintro rfl; exact ⟨r, hp, rfl⟩
  · rintro ⟨r', hp', rfl⟩; rw [hp.det hp']

namespace SelParser
open SelRule

/-- `ParserError::unexpected` and `ParserError::unreachable`, atelier-smithy/src/parser/error.rs:22-46, 74-92, with the name of the function. The
context is left out where it is the `Debug` or `Display` text of a part, a member or a value. -/
def astray {α : Type} (place : Str) (context : Option Str) : Except Err α :=
  .error (.deserialization %s"Smithy" (place ++ %s" should have been unreachable") context)

/-- `unexpected!` and `expecting!`, atelier-smithy/src/parser/mod.rs:5-19 with parser/error.rs:22-46, where texts that the grammar accepts do not
come to (C107): the name of the function is left out, as is what `expecting!` says instead of " should have been unreachable". -/
def unexpected {α : Type} : Except Err α := astray [] none

/-- `.next().unwrap()` on the pairs inside. -/
def next {R : Type} : List (Pair R) → Except Err (Pair R × List (Pair R))
  | [] => .error .panic
  | p :: ps => .ok (p, ps)

/-- `Result::unwrap`. -/
def unwrap {α : Type} : Except Err α → Except Err α
  | .ok a => .ok a
  | .error _ => .error .panic

/-- `for inner in pairs { match inner.as_rule() { rule => v.push(f(inner)?), _ => unexpected!(..) } }`. -/
def each {R α : Type} [DecidableEq R] (rule : R) (f : Pair R → Except Err α) : List (Pair R) → Except Err (List α)
  | [] => .ok []
  | p :: ps =>
    if p.asRule = rule then do
      let a ← f p
      let as ← each rule f ps
      return a :: as
    else unexpected

/-- The value of a string of decimal digits. -/
def digitsValue (s : Str) : Nat := s.foldl (fun n c => 10 * n + (c.toNat - 48)) 0

/-- `i64::from_str` of the standard library: an optional sign and digits, within the range of `i64`. -/
def parseI64 (s : Str) : Option Int :=
  match s with
  | '-' :: ds => if !ds.isEmpty && ds.all Char.isDigit && decide (digitsValue ds ≤ 2 ^ 63) then some (- (digitsValue ds : Int)) else none
  | '+' :: ds => if !ds.isEmpty && ds.all Char.isDigit && decide (digitsValue ds < 2 ^ 63) then some (digitsValue ds) else none
  | ds => if !ds.isEmpty && ds.all Char.isDigit && decide (digitsValue ds < 2 ^ 63) then some (digitsValue ds) else none

/-- The number in `parse_selector_value`, atelier-smithy/src/parser/selector.rs:224-233; `flt` is `f64::from_str` of the
standard library. -/
def numberOf (flt : Str → Option F64) (t : Str) : Except Err Number :=
  if t.contains '.' then
    match flt t with
    | some x => .ok (.float x)
    | none => .error .panic
  else
    match parseI64 t with
    | some n => .ok (.integer n)
    | none => .error .panic

/-- `parse_selector_value`, atelier-smithy/src/parser/selector.rs:216-248. -/
def value (flt : Str → Option F64) (p : Pair SelRule) : Except Err SelValue := do
  let (inner, _) ← next p.intoInner
  match inner.asRule with
  | text => return .text (inner.asStr.drop 1).dropLast
  | number => return .number (← numberOf flt inner.asStr)
  | rootShapeId =>
    let (inner, _) ← next inner.intoInner
    match inner.asRule with
    | identifier => return .rootShapeId (← unwrap (Identifier.fromStr inner.asStr))
    | absoluteRootShapeId => return .absoluteRootShapeId (← unwrap (ShapeID.fromStr inner.asStr))
    | _ => unexpected
  | _ => unexpected

/-- `parse_selector_path_segment`, atelier-smithy/src/parser/selector.rs:204-214. -/
def pathSegmentOf (flt : Str → Option F64) (p : Pair SelRule) : Except Err KeyPathSegment := do
  let (inner, _) ← next p.intoInner
  match inner.asRule with
  | SelRule.value => return .value (← SelParser.value flt inner)
  | functionProperty =>
    let (inner, _) ← next inner.intoInner
    return .functionProperty (← unwrap (Identifier.fromStr inner.asStr))
  | _ => unexpected

/-- `for inner in pairs { path.push(f(inner)?) }`, atelier-smithy/src/parser/selector.rs:194-196. -/
def all {R α : Type} (f : Pair R → Except Err α) : List (Pair R) → Except Err (List α)
  | [] => .ok []
  | p :: ps => do
    let a ← f p
    let as ← all f ps
    return a :: as

/-- `parse_selector_path`, atelier-smithy/src/parser/selector.rs:189-202. -/
def pathOf (flt : Str → Option F64) (ps : List (Pair SelRule)) : Except Err (List KeyPathSegment) := do
  let segs ← each path (fun p => all (pathSegmentOf flt) p.intoInner) ps
  return segs.flatten

/-- `parse_selector_key`, atelier-smithy/src/parser/selector.rs:178-187. -/
def keyOf (flt : Str → Option F64) (p : Pair SelRule) : Except Err SelKey := do
  let (first, inner) ← next p.intoInner
  if first.asRule = identifier then
    let id ← unwrap (Identifier.fromStr first.asStr)
    return ⟨id, ← pathOf flt inner⟩
  else unexpected

/-- The loops at atelier-smithy/src/parser/selector.rs:150-167 and 320-339: the values, and whether the suffix was seen. -/
def valuesAndCase {α : Type} (many one : SelRule) (f : Pair SelRule → Except Err α) : List (Pair SelRule) → Except Err (List α × Bool)
  | [] => .ok ([], false)
  | p :: ps =>
    if p.asRule = many then do
      let vs ← each one f p.intoInner
      let (rest, b) ← valuesAndCase many one f ps
      return (vs ++ rest, b)
    else if p.asRule = SelRule.caseSuffix then do
      let (rest, _) ← valuesAndCase many one f ps
      return (rest, true)
    else unexpected

/-- `Comparator::from_str(next.as_str()).unwrap()`, atelier-smithy/src/parser/selector.rs:145-148, 315-318. -/
def comparatorOf (p : Pair SelRule) : Except Err Comparator :=
  if p.asRule = comparator then unwrap (Comparator.fromStr p.asStr) else unexpected

/-- `parse_selector_attr_comparison`, atelier-smithy/src/parser/selector.rs:141-176. -/
def attrComparisonOf (flt : Str → Option F64) (p : Pair SelRule) : Except Err AttributeComparison := do
  let (first, inner) ← next p.intoInner
  let c ← comparatorOf first
  let (vs, ci) ← valuesAndCase attrValues SelRule.value (SelParser.value flt) inner
  return if ci then .newCaseInsensitive c vs else .new c vs

/-- `parse_selector_attr`, atelier-smithy/src/parser/selector.rs:118-139. -/
def attrOf (flt : Str → Option F64) (p : Pair SelRule) : Except Err AttributeSelector :=
  match p.intoInner with
  | [] => unexpected
  | k :: inner => do
    let key ← if k.asRule = key then keyOf flt k else unexpected
    match inner with
    | [] => return ⟨key, none⟩
    | c :: _ => if c.asRule = attrComparison then return ⟨key, some (← attrComparisonOf flt c)⟩ else unexpected

/-- `parse_selector_directed_relationships`, atelier-smithy/src/parser/selector.rs:250-268. -/
def directedOf (p : Pair SelRule) : Except Err (List Str) := do
  let (outer, _) ← next p.intoInner
  if outer.asRule = directedRelationships then each identifier (fun p => Identifier.fromStr p.asStr) outer.intoInner
  else unexpected

/-- `parse_selector_scoped_value`, atelier-smithy/src/parser/selector.rs:350-361. -/
def scopedValueOf (flt : Str → Option F64) (p : Pair SelRule) : Except Err ScopedValue := do
  let (first, _) ← next p.intoInner
  match first.asRule with
  | contextValue => return .contextValue (← pathOf flt first.intoInner)
  | SelRule.value => return .value (← SelParser.value flt first)
  | _ => unexpected

/-- `parse_selector_scoped_assertion`, atelier-smithy/src/parser/selector.rs:303-348. -/
def scopedAssertionOf (flt : Str → Option F64) (p : Pair SelRule) : Except Err ScopedAttributeAssertion := do
  let (first, inner) ← next p.intoInner
  let v ← if first.asRule = scopedValue then scopedValueOf flt first else unexpected
  let (second, inner) ← next inner
  let c ← comparatorOf second
  let (vs, ci) ← valuesAndCase scopedValues scopedValue (scopedValueOf flt) inner
  return ⟨v, c, vs, ci⟩

/-- `parse_selector_scoped_attr`, atelier-smithy/src/parser/selector.rs:270-301. -/
def scopedAttrOf (flt : Str → Option F64) (p : Pair SelRule) : Except Err ScopedAttributeSelector := do
  let (first, inner) ← next p.intoInner
  let (k, second) ← (do
    if first.asRule = key then
      let k ← keyOf flt first
      let (second, _) ← next inner
      return (some k, second)
    else return (none, first) : Except Err (Option SelKey × Pair SelRule))
  let as ← if second.asRule = scopedAssertions then each scopedAssertion (scopedAssertionOf flt) second.intoInner else unexpected
  ScopedAttributeSelector.new k as

/-- `parse_selector_shape_types`, atelier-smithy/src/parser/selector.rs:107-116. -/
def shapeTypesOf (p : Pair SelRule) : Except Err ShapeType :=
  match p.intoInner with
  | [] => .ok .any
  | inner :: _ => if inner.asRule = identifier then ShapeType.fromStr inner.asStr else unexpected

/-- The name in `parse_selector_function`, `_variable_set` and `_variable_get`,
atelier-smithy/src/parser/selector.rs:366-370, 392-396, 408-414. -/
def nameOf (p : Pair SelRule) : Except Err Str :=
  if p.asRule = identifier then Identifier.fromStr p.asStr else unexpected

/-- `parse_selector_variable_get`, atelier-smithy/src/parser/selector.rs:405-415. -/
def variableGetOf (ps : List (Pair SelRule)) : Except Err SelectorExpression := do
  let (first, _) ← next ps
  return .variableReference (← nameOf first)

mutual
  /-- `parse_a_selector`, atelier-smithy/src/parser/selector.rs:56-74. -/
  def selectorOf (flt : Str → Option F64) : Pair SelRule → Except Err Selector
    | .mk r _ ps => if r = selector then expressionsOf flt ps else unexpected
  termination_by structural x => x
  /-- The loop at atelier-smithy/src/parser/selector.rs:61-68. -/
  def expressionsOf (flt : Str → Option F64) : List (Pair SelRule) → Except Err Selector
    | [] => .ok []
    | p :: ps =>
      if p.asRule = expression then
        match expressionOf flt p with
        | .error e => .error e
        | .ok a =>
          match expressionsOf flt ps with
          | .error e => .error e
          | .ok as => .ok (a :: as)
      else unexpected
  termination_by structural x => x
  /-- `parse_selector_expression`, atelier-smithy/src/parser/selector.rs:76-105: `input_pair.into_inner().next().unwrap()`. -/
  def expressionOf (flt : Str → Option F64) : Pair SelRule → Except Err SelectorExpression
    | .mk _ _ ps => firstOf flt ps
  termination_by structural x => x
  /-- The first of the pairs inside. -/
  def firstOf (flt : Str → Option F64) : List (Pair SelRule) → Except Err SelectorExpression
    | [] => .error .panic
    | p :: _ => innerOf flt p
  termination_by structural x => x
  /-- The `match` of `parse_selector_expression`, atelier-smithy/src/parser/selector.rs:76-105. -/
  def innerOf (flt : Str → Option F64) : Pair SelRule → Except Err SelectorExpression
    | .mk r t ps =>
      match r with
      | shapeTypes => (shapeTypesOf (.mk r t ps)).map .shapeType
      | attr => (attrOf flt (.mk r t ps)).map .attributeSelector
      | scopedAttr => (scopedAttrOf flt (.mk r t ps)).map .scopedAttributeSelector
      | forwardUndirected => .ok (.neighborSelector .forwardUndirected)
      | reverseUndirected => .ok (.neighborSelector .reverseUndirected)
      | forwardDirected => (directedOf (.mk r t ps)).map fun v => .neighborSelector (.forwardDirected v)
      | reverseDirected => (directedOf (.mk r t ps)).map fun v => .neighborSelector (.reverseDirected v)
      | forwardRecursive => .ok (.neighborSelector .forwardRecursiveDirected)
      | function => functionOf flt ps
      | variableSet => variableSetOf flt ps
      | variableGet => variableGetOf ps
      | _ => unexpected
  termination_by structural x => x
  /-- `parse_selector_function`, atelier-smithy/src/parser/selector.rs:363-387, on the pairs inside. -/
  def functionOf (flt : Str → Option F64) : List (Pair SelRule) → Except Err SelectorExpression
    | [] => .error .panic
    | first :: rest =>
      match nameOf first with
      | .error e => .error e
      | .ok name =>
        match functionRest flt rest with
        | .error e => .error e
        | .ok args => SelectorExpression.newFunction name args
  termination_by structural x => x
  /-- The second pair of a function, atelier-smithy/src/parser/selector.rs:372-384. -/
  def functionRest (flt : Str → Option F64) : List (Pair SelRule) → Except Err (List Selector)
    | [] => .error .panic
    | p :: _ => argumentsOf flt p
  termination_by structural x => x
  /-- The pair of the arguments. -/
  def argumentsOf (flt : Str → Option F64) : Pair SelRule → Except Err (List Selector)
    | .mk r _ ps => if r = functionArgs then argumentList flt ps else unexpected
  termination_by structural x => x
  /-- The loop at atelier-smithy/src/parser/selector.rs:376-381. -/
  def argumentList (flt : Str → Option F64) : List (Pair SelRule) → Except Err (List Selector)
    | [] => .ok []
    | p :: ps =>
      match selectorOf flt p with
      | .error e => .error e
      | .ok a =>
        match argumentList flt ps with
        | .error e => .error e
        | .ok as => .ok (a :: as)
  termination_by structural x => x
  /-- `parse_selector_variable_set`, atelier-smithy/src/parser/selector.rs:389-403, on the pairs inside. -/
  def variableSetOf (flt : Str → Option F64) : List (Pair SelRule) → Except Err SelectorExpression
    | [] => .error .panic
    | first :: rest =>
      match nameOf first with
      | .error e => .error e
      | .ok name =>
        match variableRest flt rest with
        | .error e => .error e
        | .ok s => .ok (.variableDefinition name s)
  termination_by structural x => x
  /-- The second pair, atelier-smithy/src/parser/selector.rs:398-402. -/
  def variableRest (flt : Str → Option F64) : List (Pair SelRule) → Except Err Selector
    | [] => .error .panic
    | p :: _ => selectorOf flt p
  termination_by structural x => x
end

/-- What `parse_selector` does with the pairs, atelier-smithy/src/parser/selector.rs:36-49: the first is `input`, and the
first in it is the selector. -/
def ofPairs (flt : Str → Option F64) (ps : List (Pair SelRule)) : Except Err Selector := do
  let (top, _) ← next ps
  if top.asRule = input then
    let (inner, _) ← next top.intoInner
    if inner.asRule = selector then selectorOf flt inner else unexpected
  else unexpected

end SelParser

/-- `parse_selector`, atelier-smithy/src/parser/selector.rs:33-50, with `from_pest_error` (417-423). -/
def parseSelector (flt : Str → Option F64) (s : Str) : Except Err Selector :=
  match matchSelector s with
  | none => .error (.deserialization %s"Smithy" %s"pest" none)
  | some ps => SelParser.ofPairs flt ps

end Verif
