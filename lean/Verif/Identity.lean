/-
Model of atelier-core/src/model/identity.rs (identifiers, namespaces, shape ids) and of the error kinds
in atelier-core/src/error.rs.
-/
import Verif.Chars
import Verif.AMap

namespace Verif

/-- `[_[[:alnum:]]]` of the regular expressions at atelier-core/src/model/identity.rs:92-101
(ASCII classes: the `regex` crate's POSIX bracket classes are ASCII only, as are Lean's `Char.isAlphanum`). -/
def identChar (c : Char) : Bool := c == '_' || c.isAlphanum

/-- `Identifier::is_valid`, atelier-core/src/model/identity.rs:145-147: a recogniser for
`^_*[[:alpha:]][_[[:alnum:]]]*$`. (The regex engine itself is external; `isIdent_iff_regex` relates this
recogniser to the regular expression.) -/
def isIdent (s : Str) : Bool :=
  match s.dropWhile (· == '_') with
  | [] => false
  | c :: cs => c.isAlpha && cs.all identChar

/-- `NamespaceID::is_valid`, atelier-core/src/model/identity.rs:191-198. -/
def isNamespace (s : Str) : Bool := (splitOn '.' s).all isIdent

/-- `ShapeID`, atelier-core/src/model/identity.rs:62-66. `Identifier` (23) and `NamespaceID` (36) are
newtypes of `String` and are modelled by their text. Lean's `=` on this type is *textual* identity, not
Rust's `==`, which is `ShapeID.ceq` below. -/
structure ShapeID where
  ns : Str
  name : Str
  member : Option Str
  deriving DecidableEq, Repr, Inhabited

/-- The error kinds of atelier-core/src/error.rs:20-136, plus `panic` for `unwrap`/`assert!`/`unimplemented!`,
and `io`/`other` for errors of external crates. -/
inductive Err where
  | invalidShapeID (s : Str)
  | shapeIDExpected (id : ShapeID)
  | memberIDExpected (id : ShapeID)
  | unknownShape (s : Str)
  | unknownMember (s : Str)
  | ambiguousShape (s : Str)
  | mergeVersionConflict (a b : Str)
  | mergeShapeConflict (id : ShapeID)
  | mergeTraitConflict (id : ShapeID)
  | mergeMetadataConflict (key : Str)
  | invalidVersionNumber (v : Option Str)
  | invalidTraitValue (s : Str)
  | invalidSimpleShape (s : Str)
  | invalidSelector (s : Str)
  | invalidRepresentation (s : Str)
  | serialization (s : Str)
  | deserialization (repr loc : Str) (ctx : Option Str)
  | other (s : Str)
  | panic
  deriving DecidableEq, Repr

/-- `str::to_lowercase`, used at atelier-core/src/model/identity.rs:131 and 177. Simplification: ASCII
letters only; every identifier accepted by a parser is ASCII (`ascii_of_isIdent`). -/
def lower (s : Str) : Str := s.map Char.toLower

/-- `PartialEq for Identifier` / `for NamespaceID`, atelier-core/src/model/identity.rs:130-132, 176-178. -/
def identEq (a b : Str) : Bool := lower a == lower b

/-- What `derive(Hash)` feeds the hasher for `Identifier`/`NamespaceID`,
atelier-core/src/model/identity.rs:22, 35: the text itself. -/
def identHashInput (a : Str) : Str := a

namespace Identifier

/-- `FromStr for Identifier`, atelier-core/src/model/identity.rs:112-122. -/
def fromStr (s : Str) : Except Err Str :=
  if isIdent s then .ok s else .error (.invalidShapeID s)

end Identifier

namespace NamespaceID

/-- `FromStr for NamespaceID`, atelier-core/src/model/identity.rs:158-168. -/
def fromStr (s : Str) : Except Err Str :=
  if isNamespace s then .ok s else .error (.invalidShapeID s)

/-- `NamespaceID::split`, atelier-core/src/model/identity.rs:218-222. -/
def split (ns : Str) : List Str := splitOn '.' ns

/-- `NamespaceID::make_shape`, atelier-core/src/model/identity.rs:203-205. -/
def makeShape (ns name : Str) : ShapeID := ⟨ns, name, none⟩

/-- `NamespaceID::make_member`, atelier-core/src/model/identity.rs:211-213. -/
def makeMember (ns name member : Str) : ShapeID := ⟨ns, name, some member⟩

end NamespaceID

namespace ShapeID

/-- `Display for ShapeID`, atelier-core/src/model/identity.rs:227-236. -/
def display (id : ShapeID) : Str :=
  id.ns ++ '#' :: id.name ++ (match id.member with | none => [] | some m => '$' :: m)

/-- `FromStr for ShapeID`, atelier-core/src/model/identity.rs:238-255. The capture groups of `RE_SHAPE_ID`
are found by splitting at the first `#` and, in the rest, the first `$` (neither character can occur in an
identifier); `fromStr_iff_regex` relates this to the regular expression and its groups 1, 3, 5. -/
def fromStr (s : Str) : Except Err ShapeID :=
  match splitFirst '#' s with
  | none => .error (.invalidShapeID s)
  | some (ns, rest) =>
    match splitFirst '$' rest with
    | none => if isNamespace ns && isIdent rest then .ok ⟨ns, rest, none⟩ else .error (.invalidShapeID s)
    | some (n, m) =>
      if isNamespace ns && isIdent n && isIdent m then .ok ⟨ns, n, some m⟩ else .error (.invalidShapeID s)

/-- `ShapeID::is_valid`, atelier-core/src/model/identity.rs:262-264. -/
def isValid (s : Str) : Bool := match fromStr s with | .ok _ => true | .error _ => false

/-- Derived `PartialEq for ShapeID`, atelier-core/src/model/identity.rs:61: component-wise `==`. -/
def ceq (a b : ShapeID) : Bool :=
  identEq a.ns b.ns && identEq a.name b.name &&
    (match a.member, b.member with
     | none, none => true
     | some x, some y => identEq x y
     | _, _ => false)

/-- What derived `Hash for ShapeID` feeds the hasher, atelier-core/src/model/identity.rs:61. -/
def hashInput (a : ShapeID) : Str × Str × Option Str :=
  (identHashInput a.ns, identHashInput a.name, a.member.map identHashInput)

/-- `ShapeID::shape`, atelier-core/src/model/identity.rs:295-301 (`unwrap` of two parses). -/
def shape (ns name : Str) : Except Err ShapeID :=
  match NamespaceID.fromStr ns, Identifier.fromStr name with
  | .ok ns, .ok n => .ok ⟨ns, n, none⟩
  | _, _ => .error .panic

/-- `ShapeID::member`, atelier-core/src/model/identity.rs:305-311 (`unwrap` of three parses). -/
def memberOf (ns name member : Str) : Except Err ShapeID :=
  match NamespaceID.fromStr ns, Identifier.fromStr name, Identifier.fromStr member with
  | .ok ns, .ok n, .ok m => .ok ⟨ns, n, some m⟩
  | _, _, _ => .error .panic

/-- `ShapeID::is_member`, atelier-core/src/model/identity.rs:349-351. -/
def isMember (id : ShapeID) : Bool := id.member.isSome

/-- `ShapeID::shape_only`, atelier-core/src/model/identity.rs:317-323. -/
def shapeOnly (id : ShapeID) : ShapeID := if id.isMember then ⟨id.ns, id.name, none⟩ else id

/-- `ShapeID::is_in_same_namespace`, atelier-core/src/model/identity.rs:356-358. -/
def isInSameNamespace (a b : ShapeID) : Bool := identEq a.ns b.ns

/-- `ShapeID::is_valid_member`, atelier-core/src/model/identity.rs:365-370. -/
def isValidMember (a b : ShapeID) : Bool :=
  !a.isMember && b.isMember && a.isInSameNamespace b && identEq a.name b.name

/-- `ShapeID::make_shape`, atelier-core/src/model/identity.rs:376-381 (keeps the member name). -/
def makeShape (id : ShapeID) (name : Str) : ShapeID := { id with name := name }

/-- `ShapeID::make_member`, atelier-core/src/model/identity.rs:387-392. -/
def makeMember (id : ShapeID) (m : Str) : ShapeID := { id with member := some m }

end ShapeID
end Verif
