/-
The values of a selector, one after the other.
-/
import Verif.SelectorSpec

namespace Verif.Spec

/-- The values in a segment of a path. -/
def segmentValues : KeyPathSegment → List SelValue
  | .value v => [v]
  | .functionProperty _ => []

/-- The values in a key. -/
def keyValues (k : SelKey) : List SelValue := k.path.flatMap segmentValues

/-- The values in the attribute that is selected for. -/
def attributeValues (a : AttributeSelector) : List SelValue :=
  keyValues a.key ++ (match a.comparison with | none => [] | some c => c.rhsValues)

/-- The values in a value of a scoped assertion. -/
def scopedValues : ScopedValue → List SelValue
  | .value v => [v]
  | .contextValue p => p.flatMap segmentValues

/-- The values in a scoped assertion. -/
def assertionValues (a : ScopedAttributeAssertion) : List SelValue := scopedValues a.lhsValue ++ a.rhsValues.flatMap scopedValues

/-- The values in a scoped attribute. -/
def scopedAttributeValues (a : ScopedAttributeSelector) : List SelValue :=
  (match a.key with | none => [] | some k => keyValues k) ++ a.assertions.flatMap assertionValues

mutual
  /-- The values in an expression. -/
  def expressionValues : SelectorExpression → List SelValue
    | .attributeSelector a => attributeValues a
    | .scopedAttributeSelector a => scopedAttributeValues a
    | .function _ args => argumentValues args
    | .variableDefinition _ s => selectorValues s
    | _ => []
  termination_by structural x => x
  /-- The values in a selector. -/
  def selectorValues : List SelectorExpression → List SelValue
    | [] => []
    | e :: es => expressionValues e ++ selectorValues es
  termination_by structural x => x
  /-- The values in the arguments of a function. -/
  def argumentValues : List (List SelectorExpression) → List SelValue
    | [] => []
    | s :: ss => selectorValues s ++ argumentValues ss
  termination_by structural x => x
end

theorem selectorValues_eq (s : List SelectorExpression) : selectorValues s = s.flatMap expressionValues := by
  induction s with
  | nil => rfl
  | cons e es ih => simp [selectorValues, ih]

theorem argumentValues_eq (s : List (List SelectorExpression)) : argumentValues s = s.flatMap selectorValues := by
  induction s with
  | nil => rfl
  | cons e es ih => simp [argumentValues, ih]

/-- `f` writes floats with a fraction, such that `flt` reads them back, or without a dot and without quotes (integral numbers,
infinities, not a number). -/
def FloatsPrint (f : Fmt) (flt : Str → Option F64) : Prop :=
  ∀ x, (FractionText (f.float x) ∧ flt (f.float x) = some x) ∨ ('.' ∉ f.float x ∧ '"' ∉ f.float x)

end Verif.Spec
