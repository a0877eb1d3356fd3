/-
What the calls that edit the parts of selectors in place should do, and when selectors are `==`.
-/
import Verif.SelectorEdits
import Verif.ModelSpec

namespace Verif.Spec.SelEdits

/-- Nothing is given for a part and it stays as it was, or it is the last thing that is given for it. -/
def Latest {ε α : Type} (gives : ε → Option α) (calls : List ε) (old new : α) : Prop :=
  (new = old ∧ ∀ c ∈ calls, gives c = none) ∨
  ∃ before c after, calls = before ++ c :: after ∧ gives c = some new ∧ ∀ d ∈ after, gives d = none

/-- The elements that a call gives to a list. -/
def given {α : Type} : ListEdit α → List α
  | .set xs => xs
  | .add x => [x]
  | .append xs => xs
  | .remove _ => []

/-- An element that was there before a call is taken away by it: the list is set, or elements are removed that are `==` to it. -/
def takes {α : Type} (eq : α → α → Bool) (x : α) : ListEdit α → Bool
  | .set _ => true
  | .remove y => eq x y
  | _ => false

/-- The elements that none of the calls takes away. -/
def kept {α : Type} (eq : α → α → Bool) (calls : List (ListEdit α)) (xs : List α) : List α :=
  xs.filter fun x => calls.all fun c => !takes eq x c

/-- The elements that each call gives, as long as no later call takes them away, in the order of the calls. -/
def gifts {α : Type} (eq : α → α → Bool) : List (ListEdit α) → List α
  | [] => []
  | c :: later => kept eq later (given c) ++ gifts eq later

/-- A list after calls: what was in it and what the calls gave, without what was taken away. -/
def Contents {α : Type} (eq : α → α → Bool) (calls : List (ListEdit α)) (old new : List α) : Prop :=
  new = kept eq calls old ++ gifts eq calls

/-! ### `==` -/

/-- Equal values: the same text, numbers that are `==`, names and ids that are the same but for the case of letters. -/
inductive SameValue : SelValue → SelValue → Prop
  | text {s} : SameValue (.text s) (.text s)
  | number {a b} : NumEq a b → SameValue (.number a) (.number b)
  | root {a b} : SameName a b → SameValue (.rootShapeId a) (.rootShapeId b)
  | absolute {a b} : SameId a b → SameValue (.absoluteRootShapeId a) (.absoluteRootShapeId b)

inductive SameSegment : KeyPathSegment → KeyPathSegment → Prop
  | value {a b} : SameValue a b → SameSegment (.value a) (.value b)
  | property {a b} : SameName a b → SameSegment (.functionProperty a) (.functionProperty b)

def SameKey (a b : SelKey) : Prop := SameName a.identifier b.identifier ∧ ListRel SameSegment a.path b.path

def SameComparison (a b : AttributeComparison) : Prop :=
  a.comparator = b.comparator ∧ ListRel SameValue a.rhsValues b.rhsValues ∧ a.caseInsensitive = b.caseInsensitive

def SameAttribute (a b : AttributeSelector) : Prop := SameKey a.key b.key ∧ OptRel SameComparison a.comparison b.comparison

inductive SameScopedValue : ScopedValue → ScopedValue → Prop
  | value {a b} : SameValue a b → SameScopedValue (.value a) (.value b)
  | context {a b} : ListRel SameSegment a b → SameScopedValue (.contextValue a) (.contextValue b)

def SameAssertion (a b : ScopedAttributeAssertion) : Prop :=
  SameScopedValue a.lhsValue b.lhsValue ∧ a.comparator = b.comparator ∧ ListRel SameScopedValue a.rhsValues b.rhsValues ∧
    a.caseInsensitive = b.caseInsensitive

def SameScoped (a b : ScopedAttributeSelector) : Prop := OptRel SameKey a.key b.key ∧ ListRel SameAssertion a.assertions b.assertions

inductive SameNeighbor : NeighborSelector → NeighborSelector → Prop
  | forward : SameNeighbor .forwardUndirected .forwardUndirected
  | reverse : SameNeighbor .reverseUndirected .reverseUndirected
  | recursive : SameNeighbor .forwardRecursiveDirected .forwardRecursiveDirected
  | forwardDirected {a b} : ListRel SameName a b → SameNeighbor (.forwardDirected a) (.forwardDirected b)
  | reverseDirected {a b} : ListRel SameName a b → SameNeighbor (.reverseDirected a) (.reverseDirected b)

mutual
  /-- Equal expressions: of the same kind, with equal parts. -/
  inductive SameExpression : SelectorExpression → SelectorExpression → Prop
    | shapeType {t} : SameExpression (.shapeType t) (.shapeType t)
    | attr {a b} : SameAttribute a b → SameExpression (.attributeSelector a) (.attributeSelector b)
    | scoped {a b} : SameScoped a b → SameExpression (.scopedAttributeSelector a) (.scopedAttributeSelector b)
    | neighbor {a b} : SameNeighbor a b → SameExpression (.neighborSelector a) (.neighborSelector b)
    | function {n m a b} : SameName n m → SameArguments a b → SameExpression (.function n a) (.function m b)
    | define {n m a b} : SameName n m → SameSelector a b → SameExpression (.variableDefinition n a) (.variableDefinition m b)
    | refer {n m} : SameName n m → SameExpression (.variableReference n) (.variableReference m)
  /-- Equal selectors: equal expressions at each place. -/
  inductive SameSelector : List SelectorExpression → List SelectorExpression → Prop
    | nil : SameSelector [] []
    | cons {x y xs ys} : SameExpression x y → SameSelector xs ys → SameSelector (x :: xs) (y :: ys)
  /-- Equal arguments of functions. -/
  inductive SameArguments : List (List SelectorExpression) → List (List SelectorExpression) → Prop
    | nil : SameArguments [] []
    | cons {x y xs ys} : SameSelector x y → SameArguments xs ys → SameArguments (x :: xs) (y :: ys)
end

/-! ### What the setters give to each part -/

def KeyPart.identifier : KeyEdit → Option Str | .identifier s => some s | _ => none
def KeyPart.path : KeyEdit → Option (ListEdit KeyPathSegment) | .path e => some e | _ => none
def ComparisonPart.comparator : ComparisonEdit → Option Comparator | .comparator c => some c | _ => none
def ComparisonPart.values : ComparisonEdit → Option (ListEdit SelValue) | .values e => some e | _ => none
def ComparisonPart.caseInsensitive : ComparisonEdit → Option Bool | .caseInsensitive b => some b | _ => none
def AttributePart.key : AttributeEdit → Option SelKey | .key k => some k | _ => none
def AttributePart.comparison : AttributeEdit → Option (Option AttributeComparison)
  | .comparison c => some (some c) | .unsetComparison => some none | _ => none
def ScopedPart.key : ScopedEdit → Option (Option SelKey) | .key k => some (some k) | .unsetKey => some none | _ => none
def ScopedPart.assertions : ScopedEdit → Option (ListEdit ScopedAttributeAssertion) | .assertions e => some e | _ => none
def AssertionPart.lhsValue : AssertionEdit → Option ScopedValue | .lhsValue v => some v | _ => none
def AssertionPart.comparator : AssertionEdit → Option Comparator | .comparator c => some c | _ => none
def AssertionPart.values : AssertionEdit → Option (ListEdit ScopedValue) | .values e => some e | _ => none
def AssertionPart.caseInsensitive : AssertionEdit → Option Bool | .caseInsensitive b => some b | _ => none
def FunctionPart.name : FunctionEdit → Option Str | .name s => some s | _ => none
def FunctionPart.arguments : FunctionEdit → Option (ListEdit Selector) | .arguments e => some e | _ => none
def DefinitionPart.name : DefinitionEdit → Option Str | .name s => some s | _ => none
def DefinitionPart.selector : DefinitionEdit → Option Selector | .selector s => some s | _ => none

/-- Exactly one of the questions is answered yes. -/
def OneYes (answers : List Bool) : Prop := answers.count true = 1

end Verif.Spec.SelEdits
