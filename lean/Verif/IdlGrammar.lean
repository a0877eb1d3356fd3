/-
Model of atelier-smithy/src/smithy.pest.
-/
import Verif.SelectorParser

namespace Verif
open Peg

/-- `Rule` of atelier-smithy/src/smithy.pest. -/
inductive IdlRule where
  | idl | ws | sp | NEWLINE | br | lineComment | documentationComment | documentationText | controlSection | controlStatement
  | versionString | shapeId | rootShapeId | absoluteRootShapeId | nsName | identifier | shapeIdMember | nodeValue
  | nodeArray | trailingComma | comma | nodeObject | nodeObjectKvp | nodeObjectKey | number | decimalPoint | expLetter
  | exp | frac | int | minus | plus | zero | nodeKeywords | kwTrue | kwFalse | kwNull | quotedText | quotedChars
  | escapedChar | unicodeEscape | preservedDouble | escape | textBlock | blockQuotedChars | DQUOTE | shapeSection
  | namespaceStatement | useSection | useStatement | shapeStatements | shapeStatement | shapeBody | simpleShapeStatement
  | simpleTypeName | typeBlob | typeBoolean | typeDocument | typeString | typeByte | typeShort | typeInteger | typeLong
  | typeFloat | typeDouble | typeBigInteger | typeBigDecimal | typeTimestamp | shapeMembers | shapeMemberKvp
  | listStatement | setStatement | mapStatement | structureStatement | unionStatement | serviceStatement
  | operationStatement | resourceStatement | applyStatement | traitStatements | aTrait | traitBody | traitBodyValue
  | traitStructure | traitStructureKvp | metadataSection | metadataStatement | EOI
  deriving DecidableEq, Repr

/-- `"\t" | '\u{20}'..'\u{10FFF}'`, atelier-smithy/src/smithy.pest:14, 20 (note that the bound is U+10FFF). -/
def commentChar (c : Char) : Bool := c == '\t' || charRange 0x20 0x10FFF c

/-- `'\u{20}'..'\u{21}' | '\u{23}'..'\u{5B}' | '\u{5D}'..'\u{10FFF}'`, atelier-smithy/src/smithy.pest:125, 134, 146: an
ordered choice of ranges of single characters is the union. -/
def plainChar (c : Char) : Bool := charRange 0x20 0x21 c || charRange 0x23 0x5B c || charRange 0x5D 0x10FFF c

/-- `ASCII_HEX_DIGIT`. -/
def hexDigit (c : Char) : Bool := charRange 0x30 0x39 c || charRange 0x61 0x66 c || charRange 0x41 0x46 c

namespace IdlGrammar
open IdlRule

/-- A rule used in an expression. -/
abbrev r (x : IdlRule) : Expr IdlRule := .rule x

/-- `ASCII_ALPHA ~ (ASCII_ALPHA | ASCII_DIGIT | "_")*`. -/
abbrev word : Expr IdlRule := .chr Char.isAlpha ~> .rep (.chr identRest)

/-- `keyword ~ ws ~ identifier ~ ws ~ body`, the statements atelier-smithy/src/smithy.pest:219-241. -/
abbrev named (keyword : Str) (b : IdlRule) : Expr IdlRule := .str keyword ~> r ws ~> r identifier ~> r ws ~> r b

/-- `key ~ ws ~ sep ~ ws ~ node_value`, atelier-smithy/src/smithy.pest:26, 80, 268, 274. -/
abbrev keyed (sep : Str) : Expr IdlRule := r nodeObjectKey ~> r ws ~> .str sep ~> r ws ~> r nodeValue

/-- The right-hand sides, atelier-smithy/src/smithy.pest:1-274; `NEWLINE` is built in. -/
def body : IdlRule → Expr IdlRule
  | idl => .soi ~> r ws ~> r controlSection ~> r metadataSection ~> r shapeSection ~> .eoi
  | ws => .rep (r sp <||> r NEWLINE <||> ((.not (.str %s"///") ~> r lineComment) <||> .str %s","))
  | sp => .str %s" " <||> .str ['\t']
  | NEWLINE => .str ['\n'] <||> .str ['\r', '\n'] <||> .str ['\r']
  | br => r ws ~> .opt .eoi
  | lineComment => .str %s"//" ~> .rep (.chr commentChar) ~> r NEWLINE
  | documentationComment => r ws ~> .str %s"///" ~> r documentationText ~> r NEWLINE
  | documentationText => .rep (.chr commentChar)
  | controlSection => .rep (r controlStatement)
  | controlStatement => .str %s"$" ~> r ws ~> r nodeObjectKey ~> r ws ~> .str %s":" ~> r ws ~> r nodeValue ~> r ws
  | versionString => .plus (.chr Char.isDigit) ~> .opt (.str %s"." ~> .plus (.chr Char.isDigit))
  | shapeId => r rootShapeId ~> .opt (r shapeIdMember)
  | rootShapeId => r absoluteRootShapeId <||> r identifier
  | absoluteRootShapeId => r nsName ~> .str %s"#" ~> r identifier
  | nsName => r identifier ~> .rep (.str %s"." ~> r identifier)
  | identifier => word <||> (.str %s"_" ~> word)
  | shapeIdMember => .str %s"$" ~> r identifier
  | nodeValue => r nodeArray <||> r nodeObject <||> r number <||> r nodeKeywords <||> r shapeId <||> r textBlock <||> r quotedText
  | nodeArray => .str %s"[" ~> r ws ~> .rep (r nodeValue ~> r ws) ~> .str %s"]"
  | trailingComma => .opt (r comma)
  | comma => .str %s"," ~> r ws
  | nodeObject => .str %s"{" ~> r ws ~> .rep (r nodeObjectKvp ~> r ws) ~> .str %s"}"
  | nodeObjectKvp => keyed %s":"
  | nodeObjectKey => r quotedText <||> r identifier
  | number => .opt (r minus) ~> r int ~> .opt (r frac) ~> .opt (r exp)
  | decimalPoint => .str %s"."
  | expLetter => .str %s"e" <||> .str %s"E"
  | exp => r expLetter ~> .opt (r minus <||> r plus) ~> .plus (.chr Char.isDigit)
  | frac => r decimalPoint ~> .plus (.chr Char.isDigit)
  | int => r zero <||> (.chr nonzeroDigit ~> .rep (.chr Char.isDigit))
  | minus => .str %s"-"
  | plus => .str %s"+"
  | zero => .str %s"0"
  | nodeKeywords => r kwTrue <||> r kwFalse <||> r kwNull
  | kwTrue => .str %s"true"
  | kwFalse => .str %s"false"
  | kwNull => .str %s"null"
  | quotedText => r DQUOTE ~> r quotedChars ~> r DQUOTE
  | quotedChars => .rep (.chr plainChar <||> r escapedChar <||> r preservedDouble)
  | escapedChar => r escape ~> (r escape <||> .str %s"'" <||> r DQUOTE <||> .str %s"b" <||> .str %s"f" <||> .str %s"n" <||>
      .str %s"r" <||> .str %s"t" <||> .str %s"/" <||> r unicodeEscape)
  | unicodeEscape => .str %s"u" ~> .chr hexDigit ~> .chr hexDigit ~> .chr hexDigit ~> .chr hexDigit
  | preservedDouble => r escape ~> .chr plainChar
  | escape => .str ['\\']
  | textBlock => (r DQUOTE ~> r DQUOTE ~> r DQUOTE) ~> r br ~> r blockQuotedChars ~> (r DQUOTE ~> r DQUOTE ~> r DQUOTE)
  | blockQuotedChars => .rep ((.not (.str ['"', '"', '"']) ~> r DQUOTE) <||> r sp <||> r NEWLINE <||> .chr plainChar <||>
      r escapedChar <||> r preservedDouble)
  | DQUOTE => .str ['"']
  | shapeSection => .opt (r namespaceStatement ~> .opt (r useSection) ~> .opt (r shapeStatements))
  | namespaceStatement => .str %s"namespace" ~> r ws ~> r nsName ~> r ws
  | useSection => .plus (r useStatement)
  | useStatement => .str %s"use" ~> r ws ~> r absoluteRootShapeId ~> r ws
  | shapeStatements => .plus (r shapeStatement <||> r applyStatement)
  | shapeStatement => .rep (r documentationComment) ~> r ws ~> r traitStatements ~> r shapeBody ~> r ws
  | shapeBody => r simpleShapeStatement <||> r listStatement <||> r setStatement <||> r mapStatement <||> r structureStatement <||>
      r unionStatement <||> r serviceStatement <||> r operationStatement <||> r resourceStatement
  | simpleShapeStatement => r simpleTypeName ~> r ws ~> r identifier
  | simpleTypeName => r typeBlob <||> r typeBoolean <||> r typeDocument <||> r typeString <||> r typeByte <||> r typeShort <||>
      r typeInteger <||> r typeLong <||> r typeFloat <||> r typeDouble <||> r typeBigInteger <||> r typeBigDecimal <||> r typeTimestamp
  | typeBlob => .str %s"blob"
  | typeBoolean => .str %s"boolean"
  | typeDocument => .str %s"document"
  | typeString => .str %s"string"
  | typeByte => .str %s"byte"
  | typeShort => .str %s"short"
  | typeInteger => .str %s"integer"
  | typeLong => .str %s"long"
  | typeFloat => .str %s"float"
  | typeDouble => .str %s"double"
  | typeBigInteger => .str %s"bigInteger"
  | typeBigDecimal => .str %s"bigDecimal"
  | typeTimestamp => .str %s"timestamp"
  | shapeMembers => .str %s"{" ~> r ws ~> .rep (r shapeMemberKvp ~> r ws) ~> .str %s"}"
  | shapeMemberKvp => .rep (r documentationComment) ~> r ws ~> r traitStatements ~> r identifier ~> r ws ~> .str %s":" ~> r ws ~> r shapeId
  | listStatement => named %s"list" shapeMembers
  | setStatement => named %s"set" shapeMembers
  | mapStatement => named %s"map" shapeMembers
  | structureStatement => named %s"structure" shapeMembers
  | unionStatement => named %s"union" shapeMembers
  | serviceStatement => named %s"service" nodeObject
  | operationStatement => named %s"operation" nodeObject
  | resourceStatement => named %s"resource" nodeObject
  | applyStatement => .str %s"apply" ~> r ws ~> r shapeId ~> r ws ~> r aTrait ~> r ws
  | traitStatements => .rep (r ws ~> r aTrait) ~> r ws
  | aTrait => .str %s"@" ~> r shapeId ~> .opt (r traitBody)
  | traitBody => .str %s"(" ~> r ws ~> .rep (r traitBodyValue ~> r ws) ~> .str %s")"
  | traitBodyValue => r traitStructure <||> r nodeValue
  | traitStructure => r traitStructureKvp ~> .rep (r ws ~> r traitStructureKvp)
  | traitStructureKvp => keyed %s":"
  | metadataSection => .rep (r metadataStatement)
  | metadataStatement => .str %s"metadata" ~> r ws ~> r nodeObjectKey ~> r ws ~> .str %s"=" ~> r ws ~> r nodeValue ~> r ws
  | EOI => .eoi

/-- The rules written `_{ .. }` and `@{ .. }`, atelier-smithy/src/smithy.pest. -/
def kind : IdlRule → Kind
  | ws | sp | NEWLINE | br | lineComment | documentationComment | trailingComma | comma | nodeObjectKey | nodeKeywords
  | DQUOTE | shapeBody | simpleTypeName | traitBody | traitBodyValue | traitStructure => .silent
  | shapeId | nsName | identifier | quotedChars | blockQuotedChars => .atomic
  | _ => .normal

end IdlGrammar

/-- The grammar atelier-smithy/src/smithy.pest: there is no rule `WHITESPACE`, so nothing is skipped implicitly. -/
def idlGrammar : Grammar IdlRule := ⟨IdlGrammar.kind, IdlGrammar.body, fun _ => false, .EOI⟩

namespace IdlGrammar

/-- How deep each rule goes before it consumes a character (for `Terminating`). -/
def rank : IdlRule → Nat
  | .decimalPoint | .minus | .plus | .zero | .kwTrue | .kwFalse | .kwNull | .escape | .DQUOTE | .typeBlob | .typeBoolean
  | .typeDocument | .typeString | .typeByte | .typeShort | .typeInteger | .typeLong | .typeFloat | .typeDouble
  | .typeBigInteger | .typeBigDecimal | .typeTimestamp | .EOI => 1
  | .sp | .lineComment | .documentationText | .controlStatement | .shapeIdMember | .nodeArray | .comma | .nodeObject
  | .expLetter | .unicodeEscape | .namespaceStatement | .useStatement | .shapeMembers | .listStatement | .setStatement
  | .mapStatement | .structureStatement | .unionStatement | .serviceStatement | .operationStatement | .resourceStatement
  | .applyStatement | .aTrait | .traitBody | .metadataStatement => 2
  | .NEWLINE | .versionString | .identifier | .frac | .int | .quotedText | .escapedChar | .preservedDouble => 3
  | .controlSection | .trailingComma | .exp | .nodeKeywords | .textBlock | .useSection | .metadataSection => 4
  | .nsName | .nodeObjectKey | .shapeSection => 5
  | .number => 6
  | .absoluteRootShapeId | .nodeObjectKvp | .quotedChars | .traitStructureKvp => 7
  | .ws => 8
  | .rootShapeId | .traitStructure => 9
  | .br | .documentationComment | .blockQuotedChars => 10
  | .idl | .shapeId => 11
  | .traitStatements => 12
  | .simpleTypeName => 14
  | .simpleShapeStatement | .shapeMemberKvp => 16
  | .nodeValue => 17
  | .shapeBody => 18
  | .traitBodyValue => 19
  | .shapeStatement => 23
  | .shapeStatements => 26

/-- The rules that may match nothing. -/
def null : IdlRule → Bool
  | .idl | .ws | .br | .documentationText | .controlSection | .trailingComma | .quotedChars | .blockQuotedChars
  | .shapeSection | .traitStatements | .metadataSection | .EOI => true
  | _ => false

theorem terminating : Terminating idlGrammar null rank 32 where
  empties := by intro r; cases r <;> decide
  ranks := by intro r; cases r <;> decide
  bounds := by intro r; cases r <;> decide

end IdlGrammar

/-- `SmithyParser::parse(Rule::idl, input)`, atelier-smithy/src/parser/smithy.rs:44: the pairs, if the text matches. The
bound is never the reason for a failure (`matchIdl_iff`). -/
def matchIdl (s : Str) : Option (List (Pair IdlRule)) :=
  match run idlGrammar (s.length * 32 + 32) false (.rule .idl) s with
  | some (some (_, _, ps)) => some ps
  | _ => none

theorem matchIdl_iff (s : Str) (x : Option (List (Pair IdlRule))) : matchIdl s = x ↔
    ∃ r, Parses idlGrammar false (.rule .idl) s r ∧ x = r.map (·.2.2) := by
  obtain ⟨r, hr⟩ := run_total IdlGrammar.terminating (s.length * 32 + 32) false (.rule .idl) s rfl (by simp [depth, IdlGrammar.rank])
  have hp := run_sound hr
  have : matchIdl s = r.map (·.2.2) := by
    unfold matchIdl
    rw [hr]
    cases r with
    | none => rfl
    | some y => rfl
  rw [this]
  constructor
  · rintro rfl; exact ⟨r, hp, rfl⟩
  · rintro ⟨r', hp', rfl⟩; rw [hp.det hp']

end Verif
