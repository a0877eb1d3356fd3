/-
Model of atelier-rdf/src/urn.rs (shape ids as URNs).
-/
import Verif.Identity

namespace Verif

/-- An IRI of the external crate `rdftk_iri`, by its RFC 3986 components; only the accessors used by
atelier-rdf/src/urn.rs (`scheme()`, `path()`) are interpreted. -/
structure Iri where
  scheme : Option Str
  authority : Option Str
  path : Str
  query : Option Str
  fragment : Option Str
  deriving DecidableEq, Repr

namespace Iri

/-- Everything up to the first of `/ ? #`, and the rest (RFC 3986 appendix B, group 4). -/
def untilAuthorityEnd (s : Str) : Str × Str := s.span fun c => c != '/' && c != '?' && c != '#'

/-- `IRI::from_str` of the external crate `rdftk_iri` (called at atelier-rdf/src/urn.rs:38), modelled by the
component split of RFC 3986 appendix B; it never fails here (the crate also validates characters, and the
text built by `shape_to_iri` from a valid shape id only contains letters, digits and `_ . : /`). -/
def ofText (s : Str) : Iri :=
  let (scheme, rest) :=
    match splitFirst ':' s with
    | some (a, b) => if a ≠ [] ∧ a.all (fun c => c != '/' && c != '?' && c != '#') then (some a, b) else (none, s)
    | none => (none, s)
  let (authority, rest) :=
    match rest with
    | '/' :: '/' :: r => (some (untilAuthorityEnd r).1, (untilAuthorityEnd r).2)
    | r => (none, r)
  let (beforeFragment, fragment) :=
    match splitFirst '#' rest with | some (a, b) => (a, some b) | none => (rest, none)
  let (path, query) :=
    match splitFirst '?' beforeFragment with | some (a, b) => (a, some b) | none => (beforeFragment, none)
  { scheme, authority, path, query, fragment }

/-- `Display for IRI` of `rdftk_iri`, RFC 3986 section 5.3. -/
def display (i : Iri) : Str :=
  (match i.scheme with | some s => s ++ [':'] | none => []) ++
  (match i.authority with | some a => '/' :: '/' :: a | none => []) ++ i.path ++
  (match i.query with | some q => '?' :: q | none => []) ++
  (match i.fragment with | some f => '#' :: f | none => [])

end Iri

/-- `str::replace` with a one character pattern and a one character replacement. -/
def replaceChar (a b : Char) (s : Str) : Str := s.map fun c => if c = a then b else c

/-- `URN_NID`, atelier-rdf/src/urn.rs:108. -/
def urnNid : Str := %s"smithy:"

/-- The text formatted by `shape_to_iri`, atelier-rdf/src/urn.rs:36-54 (separators at 103-105, and
atelier-core/src/model/identity.rs:77-82). -/
def shapeUrnText (id : ShapeID) : Str :=
  %s"urn:" ++ urnNid ++ replaceChar '$' '/' (replaceChar '#' ':' id.display)

/-- `shape_to_iri`, atelier-rdf/src/urn.rs:36-54. -/
def shapeToIri (id : ShapeID) : Iri := Iri.ofText (shapeUrnText id)

/-- The character filter at atelier-rdf/src/urn.rs:73. -/
def urnChar (c : Char) : Bool := c.isAlphanum || c == '_' || c == '.' || c == ':' || c == '/'

/-- `str::strip_prefix`. -/
def stripPrefix : Str → Str → Option Str
  | [], s => some s
  | p :: ps, c :: cs => if p = c then stripPrefix ps cs else none
  | _ :: _, [] => none

/-- `iri_to_shape`, atelier-rdf/src/urn.rs:67-98. -/
def iriToShape (iri : Iri) : Except Str ShapeID :=
  if iri.scheme = some (%s"urn") then
    match stripPrefix urnNid iri.path with
    | some path =>
      if path.all urnChar then
        match ShapeID.fromStr (replaceChar '/' '$' (replaceChar ':' '#' path)) with
        | .ok id => .ok id
        | .error _ => .error (%s"Could not parse into a Shape ID")
      else .error (%s"Smithy URN contains invalid characters")
    | none => .error (%s"Not a Smithy URN")
  else .error (%s"Not a URN")

/-- `is_shape_iri`, atelier-rdf/src/urn.rs:59-61. -/
def isShapeIri (iri : Iri) : Bool := match iriToShape iri with | .ok _ => true | .error _ => false

end Verif
