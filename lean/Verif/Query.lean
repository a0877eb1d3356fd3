/-
Model of atelier-query/src/{evaluate,projection}.rs.
-/
import Verif.Model
import Verif.Selector

namespace Verif

/-- `Projection`, atelier-query/src/projection.rs:18-23. -/
inductive Projection where
  | empty
  | shapes (ids : List ShapeID)
  | members (ids : List ShapeID)
  | values (vs : List Value)

/-- `Projection::from`, atelier-query/src/projection.rs:44-46. -/
def Projection.from (m : Model) : Projection := .shapes m.shapeNames

namespace Query

/-- `shape_body.is_simple() && matches!(shape.body().as_simple().unwrap(), Simple::X)`, e.g. evaluate.rs:159-161. -/
def isSimpleOf (s : Simple) : ShapeKind → Bool
  | .simple t => decide (t = s)
  | _ => false

/-- `match_by_shape_type`, atelier-query/src/evaluate.rs:135-208. -/
def matchByShapeType (t : ShapeType) (shape : TopLevelShape) : Bool :=
  match t with
  | .any => true
  | .number =>
    isSimpleOf .bigDecimal shape.body || isSimpleOf .bigInteger shape.body || isSimpleOf .double shape.body ||
    isSimpleOf .float shape.body || isSimpleOf .integer shape.body || isSimpleOf .short shape.body
  | .simpleType => shape.body.isSimple
  | .collection => shape.body.isList || shape.body.isSet || shape.body.isMap
  | .blob => isSimpleOf .blob shape.body
  | .boolean => isSimpleOf .boolean shape.body
  | .document => isSimpleOf .document shape.body
  | .string => isSimpleOf .string shape.body
  | .integer => isSimpleOf .integer shape.body
  | .byte => isSimpleOf .byte shape.body
  | .short => isSimpleOf .short shape.body
  | .long => isSimpleOf .long shape.body
  | .float => isSimpleOf .float shape.body
  | .double => isSimpleOf .double shape.body
  | .bigDecimal => isSimpleOf .bigDecimal shape.body
  | .bigInteger => isSimpleOf .bigInteger shape.body
  | .timestamp => isSimpleOf .timestamp shape.body
  | .list => shape.body.isList
  | .set => shape.body.isSet
  | .map => shape.body.isMap
  | .structure => shape.body.isStructure
  | .union => shape.body.isUnion
  | .service => shape.body.isService
  | .operation => shape.body.isOperation
  | .resource => shape.body.isResource
  | .member => false

/-- The closure given to `retain` at atelier-query/src/evaluate.rs:80-86; `member_name().as_ref().unwrap()` panics for
an id without a member. -/
def memberRetained (m : Model) (id : ShapeID) : Except Err Bool :=
  match m.shape id.shapeOnly with
  | some shape =>
    match id.member with
    | some n => .ok (shape.hasMember n)
    | none => .error .panic
  | none => .ok false

/-- `Vec::retain` with a closure that may panic. -/
def retain (p : ShapeID → Except Err Bool) : List ShapeID → Except Err (List ShapeID)
  | [] => .ok []
  | x :: xs => do
    let keep ← p x
    let rest ← retain p xs
    return if keep then x :: rest else rest

/-- `query_by_shape_type`, atelier-query/src/evaluate.rs:73-101. -/
def byShapeType (t : ShapeType) (previously : Projection) (m : Model) : Except Err Projection :=
  match previously with
  | .members ids => (retain (memberRetained m) ids).map .shapes
  | .shapes ids => .ok (.shapes (ids.filter fun id => match m.shape id with | some s => matchByShapeType t s | none => false))
  | _ => .ok .empty

/-- `query_one`, atelier-query/src/evaluate.rs:50-71; the selectors by attribute, neighbor and function are
`unimplemented!()` (103-133), a panic. The `println!` is not modelled. -/
def queryOne (e : SelectorExpression) (previously : Projection) (m : Model) : Except Err Projection :=
  match e with
  | .shapeType t => byShapeType t previously m
  | .attributeSelector _ => .error .panic
  | .scopedAttributeSelector _ => .error .panic
  | .neighborSelector _ => .error .panic
  | .function _ _ => .error .panic
  | .variableDefinition _ _ => .ok previously
  | .variableReference _ => .ok previously

/-- The `fold` of `query`, atelier-query/src/evaluate.rs:30-36. -/
def queryFrom (m : Model) : List SelectorExpression → Projection → Except Err Projection
  | [], p => .ok p
  | e :: es, p => do
    let p' ← queryOne e p m
    queryFrom m es p'

/-- `query`, atelier-query/src/evaluate.rs:30-36. -/
def query (s : Selector) (m : Model) : Except Err Projection := queryFrom m s (.from m)

end Query
end Verif
