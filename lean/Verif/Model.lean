/-
Model of atelier-core/src/model/mod.rs.
-/
import Verif.Shapes

namespace Verif

/-- `Model`, atelier-core/src/model/mod.rs:27-31. -/
structure Model where
  version : Version
  metadata : AMap Str Value
  shapes : AMap ShapeID TopLevelShape
  deriving Repr

namespace Model

/-- `Model::new`, atelier-core/src/model/mod.rs:45-51; `Default` (37-41) uses the current version. -/
def new (v : Version) : Model := ⟨v, [], []⟩

/-- `Model::has_metadata`, atelier-core/src/model/mod.rs:122-124. -/
def hasMetadata (m : Model) : Bool := !m.metadata.isEmpty

/-- `Model::metadata_value`, atelier-core/src/model/mod.rs:132-134. -/
def metadataValue (m : Model) (k : Str) : Option Value := AMap.get m.metadata k

/-- `Model::has_metadata_value`, atelier-core/src/model/mod.rs:127-129 (as written, with the `!`). -/
def hasMetadataValue (m : Model) (k : Str) : Bool := !AMap.contains m.metadata k

/-- `Model::add_metadata`, atelier-core/src/model/mod.rs:155-171. The returned `Option<Value>` is the previous value
when the map was written, else `None`. -/
def addMetadata (m : Model) (k : Str) (v : Value) : Model × Except Err (Option Value) :=
  match m.metadataValue k with
  | some old =>
    match old, v with
    | .array a, .array b => ({ m with metadata := AMap.insert m.metadata k (.array (a ++ b)) }, .ok (some old))
    | _, _ => if old.veq v then (m, .ok none) else (m, .error (.mergeMetadataConflict k))
  | none => ({ m with metadata := AMap.insert m.metadata k v }, .ok none)

/-- `Model::remove_metadata`, atelier-core/src/model/mod.rs:174-176. -/
def removeMetadata (m : Model) (k : Str) : Model := { m with metadata := AMap.erase m.metadata k }

/-- `Model::has_shapes`, atelier-core/src/model/mod.rs:186-188. -/
def hasShapes (m : Model) : Bool := !m.shapes.isEmpty

/-- `Model::has_shape`, atelier-core/src/model/mod.rs:191-193 (as written, with the `!`). -/
def hasShape (m : Model) (id : ShapeID) : Bool := !AMap.contains m.shapes id

/-- `Model::shape`, atelier-core/src/model/mod.rs:196-198. -/
def shape (m : Model) (id : ShapeID) : Option TopLevelShape := AMap.get m.shapes id

/-- `copy_traits`, atelier-core/src/model/mod.rs:305-310. -/
def copyTraits (to from' : TopLevelShape) : TopLevelShape × Except Err Unit :=
  match appendTraits to.traits from'.traits with
  | (ts, r) => ({ to with traits := ts }, r)

/-- The reconciliation of an existing shape with a new one of the same id, atelier-core/src/model/mod.rs:225-248:
the updated existing shape and the result. -/
def reconcile (existing shape : TopLevelShape) : TopLevelShape × Except Err Unit :=
  match existing.body.isUnresolved, shape.body.isUnresolved with
  | false, false =>
    match existing.equalWithoutTraits shape with
    | .error e => (existing, .error e)
    | .ok true => copyTraits existing shape
    | .ok false => (existing, .error (.mergeShapeConflict existing.id))
  | true, false => copyTraits { existing with body := shape.body } shape
  | _, _ => copyTraits existing shape

/-- `Model::add_shape`, atelier-core/src/model/mod.rs:217-253. The existing shape is updated in place. -/
def addShape (m : Model) (s : TopLevelShape) : Model × Except Err Unit :=
  if s.id.isMember && !s.body.isUnresolved then (m, .error (.shapeIDExpected s.id))
  else match m.shape s.id with
    | some existing =>
      match reconcile existing s with
      | (existing', r) => ({ m with shapes := AMap.insert m.shapes s.id existing' }, r)
    | none => ({ m with shapes := AMap.insert m.shapes s.id s }, .ok ())

/-- `Model::remove_shape`, atelier-core/src/model/mod.rs:256-258. -/
def removeShape (m : Model) (id : ShapeID) : Model := { m with shapes := AMap.erase m.shapes id }

/-- The loop over `other.metadata` in `merge`, atelier-core/src/model/mod.rs:101-103. -/
def addAllMetadata (m : Model) : List (Str × Value) → Model × Except Err Unit
  | [] => (m, .ok ())
  | (k, v) :: rest =>
    match m.addMetadata k v with
    | (m', .ok _) => addAllMetadata m' rest
    | (m', .error e) => (m', .error e)

/-- The loop over `other.shapes` in `merge`, atelier-core/src/model/mod.rs:105-107. -/
def addAllShapes (m : Model) : List (ShapeID × TopLevelShape) → Model × Except Err Unit
  | [] => (m, .ok ())
  | (_, s) :: rest =>
    match m.addShape s with
    | (m', .ok ()) => addAllShapes m' rest
    | (m', .error e) => (m', .error e)

/-- `Model::merge`, atelier-core/src/model/mod.rs:91-110. -/
def merge (m other : Model) : Model × Except Err Unit :=
  if other.version ≠ m.version then
    (m, .error (.mergeVersionConflict m.version.display other.version.display))
  else
    match m.addAllMetadata other.metadata with
    | (m', .error e) => (m', .error e)
    | (m', .ok ()) => m'.addAllShapes other.shapes

/-- `Model::shapes`, atelier-core/src/model/mod.rs:261-263. -/
def shapesList (m : Model) : List TopLevelShape := AMap.values m.shapes

/-- `Model::shape_names`, atelier-core/src/model/mod.rs:267-272. -/
def shapeNames (m : Model) : List ShapeID := (m.shapesList.filter fun s => !s.isUnresolved).map (·.id)

/-- `Model::unresolved_shape_names`, atelier-core/src/model/mod.rs:276-281. -/
def unresolvedShapeNames (m : Model) : List ShapeID := (m.shapesList.filter fun s => s.isUnresolved).map (·.id)

/-- `Model::namespaces`, atelier-core/src/model/mod.rs:284-286 (a `HashSet`, here without duplicates). -/
def namespaces (m : Model) : List Str := (m.shapeNames.map (·.ns)).eraseDups

/-- `Model::is_complete`, atelier-core/src/model/mod.rs:295-297. -/
def isComplete (m : Model) : Bool := !m.shapesList.any fun s => s.isUnresolved

/-- Derived `PartialEq for Model`, atelier-core/src/model/mod.rs:26. -/
def meq (a b : Model) : Bool :=
  decide (a.version = b.version) && hmEq Value.veq a.metadata b.metadata && hmEq TopLevelShape.teq a.shapes b.shapes

end Model
end Verif
