/-
C24: what the prelude contains.
-/
import Verif.BuilderProps

namespace Verif

namespace Spec

/-- The simple types of Smithy 1.0, by the names of their shapes in the prelude. -/
def boxedTypes : List Str := [%s"Boolean", %s"Byte", %s"Short", %s"Integer", %s"Long", %s"Float", %s"Double"]

def otherTypes : List Str := [%s"Blob", %s"String", %s"BigInteger", %s"BigDecimal", %s"Timestamp", %s"Document"]

/-- The shapes of the prelude: one for each simple type, and a primitive one for each type that has a default value. -/
inductive PreludeShape : Str → Prop
  | boxed {n} : n ∈ boxedTypes → PreludeShape n
  | primitive {n} : n ∈ boxedTypes → PreludeShape (%s"Primitive" ++ n)
  | other {n} : n ∈ otherTypes → PreludeShape n

/-- The traits of Smithy 1.0 by the chapters of its specification. -/
def constraintTraits : List Str :=
  [%s"enum", %s"idRef", %s"length", %s"pattern", %s"private", %s"range", %s"required", %s"uniqueItems"]
def documentationTraits : List Str :=
  [%s"deprecated", %s"documentation", %s"examples", %s"externalDocumentation", %s"recommended", %s"sensitive", %s"since", %s"tags", %s"title", %s"unstable"]
def refinementTraits : List Str := [%s"box", %s"error", %s"trait"]
def protocolTraits : List Str := [%s"protocolDefinition", %s"jsonName", %s"mediaType", %s"timestampFormat"]
def authTraits : List Str :=
  [%s"authDefinition", %s"httpBasicAuth", %s"httpDigestAuth", %s"httpBearerAuth", %s"httpApiKeyAuth", %s"optionalAuth", %s"auth"]
def behaviourTraits : List Str := [%s"idempotencyToken", %s"idempotent", %s"readonly", %s"retryable", %s"paginated", %s"httpChecksumRequired"]
def resourceTraits : List Str := [%s"noReplace", %s"references", %s"resourceIdentifier"]
def streamTraits : List Str := [%s"streaming", %s"requiresLength", %s"eventHeader", %s"eventPayload"]
def httpTraits : List Str :=
  [%s"http", %s"httpError", %s"httpHeader", %s"httpLabel", %s"httpPayload", %s"httpPrefixHeaders", %s"httpQuery", %s"cors"]
def xmlTraits : List Str := [%s"xmlAttribute", %s"xmlFlattened", %s"xmlName", %s"xmlNamespace"]
def otherTraits : List Str := [%s"endpoint", %s"hostLabel", %s"suppress"]

/-- Shapes that only occur inside the definitions of traits; the code lists them with the traits. -/
def traitParts : List Str :=
  [%s"AuthTraitReference", %s"EnumConstantBodyName", %s"EnumDefinition", %s"Example", %s"HttpApiKeyLocations", %s"NonEmptyString",
   %s"NonEmptyStringList", %s"NonEmptyStringMap", %s"Reference", %s"StructurallyExclusive", %s"TraitShapeId", %s"TraitShapeIdList"]

def smithyTraits : List Str :=
  constraintTraits ++ documentationTraits ++ refinementTraits ++ protocolTraits ++ authTraits ++ behaviourTraits ++ resourceTraits ++
    streamTraits ++ httpTraits ++ xmlTraits ++ otherTraits

end Spec
open Spec

theorem preludeShape_iff (n : Str) :
    PreludeShape n ↔ n ∈ boxedTypes ++ boxedTypes.map (%s"Primitive" ++ ·) ++ otherTypes := by
  simp only [List.mem_append, List.mem_map]
  constructor
  · rintro (h | h | h)
    · exact .inl (.inl h)
    · exact .inl (.inr ⟨_, h, rfl⟩)
    · exact .inr h
  · rintro ((h | ⟨n, h, rfl⟩) | h)
    · exact .boxed h
    · exact .primitive h
    · exact .other h

/-- C24: a name that is neither imported nor defined stands for a shape of the prelude exactly if it is the name of a simple type, or that
of a primitive one; as a trait, exactly if it is the name of a trait of Smithy (or of a shape that a trait is made of). -/
theorem C24_prelude (n : Str) :
    (InPrelude false n ↔ PreludeShape n) ∧ (InPrelude true n ↔ n ∈ smithyTraits ++ traitParts) := by
  have sub : ∀ {a b : List Str}, (a.all fun x => b.contains x) = true → ∀ {x}, x ∈ a → x ∈ b := by
    intro a b h x hx
    simpa using List.all_eq_true.mp h x hx
  constructor
  · rw [preludeShape_iff]
    exact ⟨sub (by rfl), sub (by rfl)⟩
  · exact ⟨sub (by rfl), sub (by rfl)⟩

/-- The prelude of shapes and that of traits have no name in common. -/
theorem C24_prelude_apart (n : Str) : ¬ (InPrelude false n ∧ InPrelude true n) := by
  rintro ⟨h, h'⟩
  have : (preludeShapes.all fun x => !preludeTraits.contains x) = true := by rfl
  simpa [show n ∈ preludeTraits from h'] using List.all_eq_true.mp this n h

example : PreludeShape %s"PrimitiveBoolean" := .primitive (n := %s"Boolean") (by decide)

end Verif
