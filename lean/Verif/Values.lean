/-
Model of atelier-core/src/model/values.rs.
-/
import Verif.Tables

namespace Verif

/-- An `f64` by its IEEE 754 bit pattern. -/
structure F64 where
  bits : UInt64
  deriving DecidableEq, Repr

namespace F64

/-- Exponent and fraction bits. -/
def mag (x : F64) : Nat := x.bits.toNat % 2 ^ 63

/-- IEEE 754: all exponent bits set and a non-zero fraction. -/
def isNaN (x : F64) : Bool := decide (0x7ff0000000000000 < x.mag)

/-- IEEE 754: not all exponent bits set. -/
def isFinite (x : F64) : Bool := decide (x.mag < 0x7ff0000000000000)

/-- IEEE 754 equality (`==` on `f64`): NaN differs from everything, `+0 == -0`. -/
def feq (x y : F64) : Bool := !x.isNaN && !y.isNaN && (x.bits == y.bits || (x.mag == 0 && y.mag == 0))

end F64

/-- `Number`, atelier-core/src/model/values.rs:24-29. The range of `i64` is the predicate `Number.InRange`. -/
inductive Number where
  | integer (n : Int)
  | float (x : F64)
  deriving DecidableEq, Repr

/-- Derived `PartialEq for Number`, atelier-core/src/model/values.rs:23. -/
def Number.neq : Number → Number → Bool
  | .integer a, .integer b => a == b
  | .float a, .float b => a.feq b
  | _, _ => false

/-- `n` is an `i64`. -/
def i64 (n : Int) : Prop := -(2 ^ 63) ≤ n ∧ n < 2 ^ 63

/-- The values a `Number` can have in the code (`Integer(i64)`). -/
def Number.InRange : Number → Prop
  | .integer n => i64 n
  | .float _ => True

/-- `Value`, atelier-core/src/model/values.rs:41-54; `ValueMap` (57) is an association list. -/
inductive Value where
  | array (vs : List Value)
  | object (vs : List (Str × Value))
  | number (n : Number)
  | boolean (b : Bool)
  | string (s : Str)
  | none
  deriving Repr

namespace Value

mutual
  /-- Derived `PartialEq for Value`, atelier-core/src/model/values.rs:39. -/
  def veq : Value → Value → Bool
    | .array a, .array b => arrayEq a b
    | .object a, .object b => a.length == b.length && objAll a b
    | .number a, .number b => a.neq b
    | .boolean a, .boolean b => a == b
    | .string a, .string b => a == b
    | .none, .none => true
    | _, _ => false
  termination_by structural x => x
  /-- `PartialEq for Vec<Value>`. -/
  def arrayEq : List Value → List Value → Bool
    | [], [] => true
    | x :: xs, y :: ys => veq x y && arrayEq xs ys
    | _, _ => false
  termination_by structural x => x
  /-- The `all` of `PartialEq for HashMap`: `self.iter().all(|(k, v)| other.get(k).map_or(false, |w| *v == *w))`. -/
  def objAll : List (Str × Value) → AMap Str Value → Bool
    | [], _ => true
    | e :: es, b => entryEq e b && objAll es b
  termination_by structural x => x
  /-- One entry of the above. -/
  def entryEq : Str × Value → AMap Str Value → Bool
    | (k, v), b => match AMap.get b k with
      | some w => veq v w
      | .none => false
  termination_by structural x => x
end

/-- Every object inside the value has each key once (what `HashMap` guarantees), and integers are `i64`. -/
inductive Wf : Value → Prop
  | array {vs} : (∀ v ∈ vs, Wf v) → Wf (.array vs)
  | object {m} : AMap.Wf m → (∀ e ∈ m, Wf e.2) → Wf (.object m)
  | number {n} : n.InRange → Wf (.number n)
  | boolean {b} : Wf (.boolean b)
  | string {s} : Wf (.string s)
  | none : Wf .none

/-- `Value::is_array`, atelier-core/src/model/values.rs:229 (`is_as!`). -/
def isArray : Value → Bool | .array _ => true | _ => false

end Value
end Verif
