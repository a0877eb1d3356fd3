/-
Independent specification of the identifier syntax: regular expressions with their standard
(inductive) meaning, and the literal regular expressions of atelier-core/src/model/identity.rs:91-104.
-/
import Verif.Chars

namespace Verif.Spec

/-- Regular expressions. -/
inductive RE where
  | cls (p : Char → Bool)
  | seq (a b : RE)
  | star (a : RE)
  | opt (a : RE)

/-- The language of a regular expression (whole-string match, i.e. `^...$`). -/
inductive RE.Matches : RE → Str → Prop where
  | cls {p c} : p c = true → Matches (.cls p) [c]
  | seq {a b s t} : Matches a s → Matches b t → Matches (.seq a b) (s ++ t)
  | starNil {a} : Matches (.star a) []
  | starCons {a s t} : Matches a s → Matches (.star a) t → Matches (.star a) (s ++ t)
  | optNone {a} : Matches (.opt a) []
  | optSome {a s} : Matches a s → Matches (.opt a) s

/-- One literal character. -/
def RE.chr (c : Char) : RE := .cls (fun x => x == c)

/-- `_*[[:alpha:]][_[[:alnum:]]]*` -/
def reIdentifier : RE :=
  .seq (.star (.chr '_')) (.seq (.cls Char.isAlpha) (.star (.cls fun c => c == '_' || c.isAlphanum)))

/-- `_*[[:alpha:]][_[[:alnum:]]]*(\._*[[:alpha:]][_[[:alnum:]]]*)*` -/
def reNamespace : RE := .seq reIdentifier (.star (.seq (.chr '.') reIdentifier))

/-- The first alternative of the namespace group in `RE_SHAPE_ID`, with its doubled star:
`_*[[:alpha:]][_[[:alnum:]]]**(\._*[[:alpha:]][_[[:alnum:]]]*)*` -/
def reNamespace2 : RE :=
  .seq (.seq (.star (.chr '_'))
    (.seq (.cls Char.isAlpha) (.star (.star (.cls fun c => c == '_' || c.isAlphanum)))))
    (.star (.seq (.chr '.') reIdentifier))

/-- `(ns)\#(name)(\$(member))?` -/
def reShapeID : RE :=
  .seq reNamespace2 (.seq (.chr '#') (.seq reIdentifier (.opt (.seq (.chr '$') reIdentifier))))

/-- The optional last part of a shape id: nothing, or `$` and the member name. -/
def memberText : Option Str → Str
  | none => []
  | some m => ['$'] ++ m

/-- `s` matches `RE_SHAPE_ID` with groups 1, 3 and 5 capturing `ns`, `name` and `member`. -/
def Captures (s ns name : Str) (member : Option Str) : Prop :=
  reNamespace2.Matches ns ∧ reIdentifier.Matches name ∧
    (∀ m, member = some m → reIdentifier.Matches m) ∧
    s = ns ++ ['#'] ++ name ++ memberText member

/-- The English description of an identifier: underscores, a letter, then letters, digits, underscores. -/
def IsIdentifier (s : Str) : Prop :=
  ∃ n c rest, s = List.replicate n '_' ++ c :: rest ∧ c.isAlpha = true ∧
    ∀ x ∈ rest, x = '_' ∨ x.isAlphanum = true

/-- The English description of a namespace: one or more identifiers joined by dots. -/
def IsNamespace (s : Str) : Prop :=
  ∃ parts : List Str, parts ≠ [] ∧ (∀ p ∈ parts, IsIdentifier p) ∧ s = joinWith ['.'] parts

end Verif.Spec
