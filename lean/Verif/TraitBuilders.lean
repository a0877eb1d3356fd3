/-
Model of atelier-core/src/builder/traits.rs (the functions for prelude traits and the methods of `TraitBuilder`) and of
atelier-core/src/builder/values.rs.
-/
import Verif.Idl

namespace Verif

/-! ### Values -/

/-- `usize as i64`: the same 64 bits, atelier-core/src/builder/traits.rs:92, 95, 154, 157 (with 64-bit `usize`, `n < 2 ^ 64`). -/
def asI64 (n : Nat) : Int := (BitVec.ofNat 64 n).toInt

/-- The methods of `ArrayBuilder`, atelier-core/src/builder/values.rs:56-92. -/
inductive ArrayCall where
  | push (v : Value)
  | number (n : Number)
  | integer (n : Int)
  | float (x : F64)
  | boolean (b : Bool)
  | string (s : Str)

namespace ArrayBuilder

/-- `ArrayBuilder::push`, atelier-core/src/builder/values.rs:58-61. -/
def push (inner : List Value) (v : Value) : List Value := inner ++ [v]

/-- Calling a method, atelier-core/src/builder/values.rs:56-92. -/
def call (inner : List Value) : ArrayCall → List Value
  | .push v => push inner v
  | .number n => push inner (.number n)
  | .integer n => push inner (.number (.integer n))
  | .float x => push inner (.number (.float x))
  | .boolean b => push inner (.boolean b)
  | .string s => push inner (.string s)

/-- `ValueBuilder::array()`, the calls, and `From<ArrayBuilder> for Value` (or `From<&mut ArrayBuilder>`),
atelier-core/src/builder/values.rs:36-54, 176-178. -/
def value (calls : List ArrayCall) : Value := .array (calls.foldl call [])

end ArrayBuilder

/-- The methods of `ObjectBuilder`, atelier-core/src/builder/values.rs:116-158. -/
inductive ObjectCall where
  | insert (k : Str) (v : Value)
  | number (k : Str) (n : Number)
  | integer (k : Str) (n : Int)
  | float (k : Str) (x : F64)
  | boolean (k : Str) (b : Bool)
  | string (k : Str) (s : Str)
  | reference (k : Str) (s : Str)

namespace ObjectBuilder

/-- `ObjectBuilder::insert`, atelier-core/src/builder/values.rs:118-121. -/
def insert (inner : AMap Str Value) (k : Str) (v : Value) : AMap Str Value := AMap.insert inner k v

/-- `ObjectBuilder::string`, atelier-core/src/builder/values.rs:148-151. -/
def string (inner : AMap Str Value) (k s : Str) : AMap Str Value := insert inner k (.string s)

/-- `ObjectBuilder::integer`, atelier-core/src/builder/values.rs:130-133. -/
def integer (inner : AMap Str Value) (k : Str) (n : Int) : AMap Str Value := insert inner k (.number (.integer n))

/-- Calling a method, atelier-core/src/builder/values.rs:116-158. -/
def call (inner : AMap Str Value) : ObjectCall → AMap Str Value
  | .insert k v => insert inner k v
  | .number k n => insert inner k (.number n)
  | .integer k n => integer inner k n
  | .float k x => insert inner k (.number (.float x))
  | .boolean k b => insert inner k (.boolean b)
  | .string k s => string inner k s
  | .reference k s => insert inner k (.string s)

/-- `ValueBuilder::object()`, the calls, and `From<ObjectBuilder> for Value` (or `From<&mut ObjectBuilder>`),
atelier-core/src/builder/values.rs:96-114, 181-183. -/
def value (calls : List ObjectCall) : Value := .object (calls.foldl call [])

end ObjectBuilder

/-! ### Trait builders -/

namespace TraitBuilder

/-- `TraitBuilder::new`, atelier-core/src/builder/traits.rs:277-282. -/
def new (id : Str) : Except Err TraitBuilder := do
  return ⟨← unwrap (ShapeName.fromStr id), none⟩

/-- `TraitBuilder::annotation`, atelier-core/src/builder/traits.rs:285-290. -/
def annotation (id : Str) : Except Err TraitBuilder := do
  return ⟨← unwrap (ShapeName.fromStr id), some (.object [])⟩

/-- The methods of `TraitBuilder`, atelier-core/src/builder/traits.rs:300-347. -/
inductive Setter where
  | array (vs : List Value)
  | object (m : AMap Str Value)
  | number (n : Number)
  | integer (n : Int)
  | float (x : F64)
  | boolean (b : Bool)
  | reference (id : ShapeID)
  | string (s : Str)
  | value (v : Value)

/-- The value of a setter: the `.into()` of its argument, atelier-core/src/builder/traits.rs:303-340 and
atelier-core/src/model/values.rs:107-196. -/
def Setter.toValue : Setter → Value
  | .array vs => .array vs
  | .object m => .object m
  | .number n => .number n
  | .integer n => .number (.integer n)
  | .float x => .number (.float x)
  | .boolean b => .boolean b
  | .reference id => .string id.display
  | .string s => .string s
  | .value v => v

/-- `TraitBuilder::value`, atelier-core/src/builder/traits.rs:343-346; the other setters call it. -/
def set (t : TraitBuilder) (s : Setter) : TraitBuilder := ⟨t.name, some s.toValue⟩

end TraitBuilder

/-! ### The functions for prelude traits -/

/-- The public functions of atelier-core/src/builder/traits.rs:47-242 and their arguments. `length_max`, `length_min`,
`range_max` and `range_min` call `length` and `range`. -/
inductive TraitFn where
  | boxed
  | deprecated (message since : Option Str)
  | documentation (s : Str)
  | errorSource (e : ErrorSource)
  | externalDocumentation (m : List (Str × Str))
  | idempotent
  | length (min max : Option Nat)
  | lengthMax (n : Nat)
  | lengthMin (n : Nat)
  | noReplace
  | paginated (inputToken outputToken items pageSize : Option Str)
  | pattern (s : Str)
  | private'
  | range (min max : Option Nat)
  | rangeMax (n : Nat)
  | rangeMin (n : Nat)
  | readonly
  | references (v : Value)
  | required
  | requiresLength
  | sensitive
  | streaming
  | since (s : Str)
  | tagged (tags : List Str)
  | title (s : Str)
  | aTrait
  | uniqueItems
  | unstable

namespace TraitFn

/-- `prelude_name`, atelier-core/src/builder/traits.rs:354-359 (`SHAPE_ID_ABSOLUTE_SEPARATOR` is `#`). -/
def preludeName (n : Str) : Str := preludeNs ++ ['#'] ++ n

/-- `if let Some(x) = x { values.string(k, x) }`, e.g. atelier-core/src/builder/traits.rs:54-56. -/
def optString (o : AMap Str Value) (k : Str) : Option Str → AMap Str Value
  | some s => ObjectBuilder.string o k s
  | none => o

/-- `if let Some(min) = min { values.integer("min", min as i64) }`, e.g. atelier-core/src/builder/traits.rs:91-93. -/
def optInteger (o : AMap Str Value) (k : Str) : Option Nat → AMap Str Value
  | some n => ObjectBuilder.integer o k (asI64 n)
  | none => o

/-- `length` and `range`, atelier-core/src/builder/traits.rs:88-98 and 150-160: they differ by the trait. -/
def bounds (n : Str) (min max : Option Nat) : Except Err TraitBuilder :=
  if min.isSome || max.isSome then
    TraitBuilder.withValue (preludeName n) (.object (optInteger (optInteger [] (%s"min") min) (%s"max") max))
  else .error .panic

/-- `pattern` and `since`, atelier-core/src/builder/traits.rs:139-142 and 211-214: they differ by the trait. -/
def nonEmpty (n : Str) (s : Str) : Except Err TraitBuilder :=
  if s.isEmpty then .error .panic else TraitBuilder.withValue (preludeName n) (.string s)

/-- The body of each function, atelier-core/src/builder/traits.rs:47-242; the trait names are at
atelier-core/src/prelude.rs:307-826. -/
def run : TraitFn → Except Err TraitBuilder
  | .boxed => TraitBuilder.annotation (preludeName (%s"box"))
  | .deprecated m d => TraitBuilder.withValue (preludeName (%s"deprecated"))
      (.object (optString (optString [] (%s"message") m) (%s"since") d))
  | .documentation s => TraitBuilder.withValue (preludeName (%s"documentation")) (.string s)
  | .errorSource e => TraitBuilder.withValue (preludeName (%s"error")) (.string e.display)
  | .externalDocumentation m => TraitBuilder.withValue (preludeName (%s"externalDocumentation"))
      (.object (AMap.ofList (m.map fun e => (e.1, Value.string e.2))))
  | .idempotent => TraitBuilder.annotation (preludeName (%s"idempotent"))
  | .length min max => bounds (%s"length") min max
  | .lengthMax n => bounds (%s"length") none (some n)
  | .lengthMin n => bounds (%s"length") (some n) none
  | .noReplace => TraitBuilder.annotation (preludeName (%s"noReplace"))
  | .paginated i o t p => TraitBuilder.withValue (preludeName (%s"paginated"))
      (.object (optString (optString (optString (optString [] (%s"inputToken") i) (%s"outputToken") o) (%s"items") t) (%s"pageSize") p))
  | .pattern s => nonEmpty (%s"pattern") s
  | .private' => TraitBuilder.annotation (preludeName (%s"private"))
  | .range min max => bounds (%s"range") min max
  | .rangeMax n => bounds (%s"range") none (some n)
  | .rangeMin n => bounds (%s"range") (some n) none
  | .readonly => TraitBuilder.annotation (preludeName (%s"readonly"))
  | .references v => if v.isArray then TraitBuilder.withValue (preludeName (%s"references")) v else .error .panic
  | .required => TraitBuilder.annotation (preludeName (%s"required"))
  | .requiresLength => TraitBuilder.annotation (preludeName (%s"requiresLength"))
  | .sensitive => TraitBuilder.annotation (preludeName (%s"sensitive"))
  | .streaming => TraitBuilder.annotation (preludeName (%s"streaming"))
  | .since s => nonEmpty (%s"since") s
  | .tagged tags => TraitBuilder.withValue (preludeName (%s"tags")) (.array (tags.map Value.string))
  | .title s => TraitBuilder.withValue (preludeName (%s"title")) (.string s)
  | .aTrait => TraitBuilder.new (preludeName (%s"trait"))
  | .uniqueItems => TraitBuilder.annotation (preludeName (%s"uniqueItems"))
  | .unstable => TraitBuilder.new (preludeName (%s"unstable"))

end TraitFn
end Verif
