/-
Independent description of when two node values are equal.
-/
import Verif.Values

namespace Verif.Spec

/-- Two values are related when they have the same structure, objects are compared as finite maps
(no order), arrays position by position, and numbers by `R`. -/
inductive VRel (R : Number → Number → Prop) : Value → Value → Prop
  | array {a b : List Value} : a.length = b.length →
      (∀ (i : Nat) (x y : Value), a[i]? = some x → b[i]? = some y → VRel R x y) → VRel R (.array a) (.array b)
  | object {a b : AMap Str Value} : (∀ k, (a.get k).isSome = (b.get k).isSome) →
      (∀ k x y, a.get k = some x → b.get k = some y → VRel R x y) → VRel R (.object a) (.object b)
  | number {m n : Number} : R m n → VRel R (.number m) (.number n)
  | boolean {b : Bool} : VRel R (.boolean b) (.boolean b)
  | string {s : Str} : VRel R (.string s) (.string s)
  | none : VRel R .none .none

/-- Numbers are equal: the same integer, or floats that are not NaN and are the same number. -/
inductive NumEq : Number → Number → Prop
  | integer {n : Int} : NumEq (.integer n) (.integer n)
  | float {x : F64} : x.isNaN = false → NumEq (.float x) (.float x)
  | zero {x y : F64} : x.mag = 0 → y.mag = 0 → NumEq (.float x) (.float y)

/-- Equality of values in the sense of the API. -/
abbrev VEq := VRel NumEq

/-- The same value, up to the order in which maps enumerate their entries. -/
abbrev Same := VRel (· = ·)

/-- A NaN occurs somewhere in the value. -/
inductive HasNaN : Value → Prop
  | here {x : F64} : x.isNaN = true → HasNaN (.number (.float x))
  | array {vs : List Value} {v : Value} : v ∈ vs → HasNaN v → HasNaN (.array vs)
  | object {m : AMap Str Value} {k : Str} {v : Value} : (k, v) ∈ m → HasNaN v → HasNaN (.object m)

end Verif.Spec
