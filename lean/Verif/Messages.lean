/-
The texts of errors: atelier-core/src/error.rs.
-/
import Verif.Actions
import Verif.Lines

namespace Verif

/-- `Debug for Option<String>`: `None` or `Some(..)` with the debug text. -/
def showOption (f : Fmt) : Option Str → Str
  | none => %s"None"
  | some s => %s"Some(" ++ f.debug s ++ %s")"

/-- The text before the arguments in the `display` of each kind, atelier-core/src/error.rs:20-136. -/
def Err.opening : Err → Str
  | .invalidShapeID _ => %s"Invalid shape ID: '"
  | .shapeIDExpected _ => %s"Expected a shape, not member, ID: '"
  | .memberIDExpected _ => %s"Expected a member, not shape, ID: '"
  | .unknownShape _ => %s"A reference to an unknown shape ID was encountered: '"
  | .unknownMember _ => %s"An unknown member ID was encountered: '"
  | .ambiguousShape _ => %s"A shape name resolved to multiple shape IDs: '"
  | .mergeVersionConflict _ _ => %s"Merge cannot take place between models " ++ %s"with different versions ('"
  | .mergeShapeConflict _ => %s"A merge conflict occurred between two shapes named '"
  | .mergeTraitConflict _ => %s"A merge conflict occurred between two applied traits named '"
  | .mergeMetadataConflict _ => %s"A merge conflict occurred between two metadata values keyed '"
  | .invalidVersionNumber _ => %s"Invalid version number: '"
  | .invalidTraitValue _ => %s"Invalid, or missing, value specified for trait named '"
  | .invalidSimpleShape _ => %s"Invalid simple shape name: '"
  | .invalidSelector _ => %s"The selector expression(s) failed to parse: '"
  | .invalidRepresentation _ => %s"Requested action is not supported " ++ %s"by the selected representation '"
  | .serialization _ => %s"An error occurred serializing a model into representation '"
  | .deserialization _ _ _ => %s"An error occurred de-serializing " ++ %s"a model from representation '"
  | .other _ => []
  | .panic => []

/-- What follows. -/
def Err.closing (f : Fmt) : Err → Str
  | .invalidShapeID s => s ++ %s"'."
  | .shapeIDExpected id => id.display ++ %s"'."
  | .memberIDExpected id => id.display ++ %s"'."
  | .unknownShape s => s ++ %s"'."
  | .unknownMember s => s ++ %s"'."
  | .ambiguousShape s => s ++ %s"'."
  | .mergeVersionConflict a b => a ++ %s"' != '" ++ b ++ %s"')."
  | .mergeShapeConflict id => id.display ++ %s"'."
  | .mergeTraitConflict id => id.display ++ %s"'."
  | .mergeMetadataConflict s => s ++ %s"'."
  | .invalidVersionNumber v => showOption f v ++ %s"'."
  | .invalidTraitValue s => s ++ %s"'."
  | .invalidSimpleShape s => s ++ %s"'."
  | .invalidSelector s => s ++ %s"'."
  | .invalidRepresentation s => s ++ %s"'."
  | .serialization s => s ++ %s"'."
  | .deserialization r l c => r ++ %s"' at location '" ++ l ++ %s"' (context '" ++ showOption f c ++ %s"')."
  | .other s => s
  | .panic => []

/-- `Display for Error`, atelier-core/src/error.rs:20-136 (generated by `error_chain!`). The text of an error of another crate is its
own; a panic has none. -/
def Err.display (f : Fmt) (e : Err) : Str := e.opening ++ e.closing f

end Verif
