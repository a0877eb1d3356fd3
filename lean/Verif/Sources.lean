/-
Readers and sources that can fail: atelier-smithy/src/reader.rs, atelier-json/src/reader.rs:55-65 and
`read_model_from_string`, atelier-core/src/io/mod.rs, once more, this time from the bytes that a source gives.

`parseModel` and `JsonReader.model` model what is done with a text, and with a JSON value. Here a source (`impl std::io::Read`)
is anything that gives bytes, in any pieces, can be interrupted, and can fail at any time.
-/
import Verif.Idl
import Verif.Json

namespace Verif.Sources

/-- What `Read::read` answers: some bytes (none at the end), `ErrorKind::Interrupted`, or another error. -/
inductive Answer (ε : Type) where
  | bytes (l : List UInt8)
  | interrupted
  | failed (e : ε)

/-- A source, `impl std::io::Read`. How many bytes it is asked for is part of what its state and answers stand for. -/
structure Source (σ ε : Type) where
  read : σ → σ × Answer ε

variable {σ ε : Type}

/-- `Read::read_to_end` of the standard library: reads until there are no more bytes, again if it was interrupted. A source need not come to an
end: `none` if that takes more than `n` reads. -/
def readToEnd (k : Source σ ε) : Nat → σ → List UInt8 → Option (σ × Except ε (List UInt8))
  | 0, _, _ => none
  | n + 1, s, sofar =>
    match k.read s with
    | (s', .bytes []) => some (s', .ok sofar)
    | (s', .bytes (b :: l)) => readToEnd k n s' (sofar ++ b :: l)
    | (s', .interrupted) => readToEnd k n s' sofar
    | (s', .failed e) => some (s', .error e)

/-- `std::str::from_utf8`. Simplification: Lean's decoder is taken for that of Rust. -/
def decode (bytes : List UInt8) : Option Str := ((ByteArray.mk bytes.toArray).utf8Decode?).map Array.toList

/-- Why reading failed: an error of the source (`ErrorKind::Io`, made by `?`), bytes that are not UTF-8 (an `io::Error` too), bytes that are
not JSON (an error of serde_json, under `chain_err`), or an error of the reader. -/
inductive Failure (ε : Type) where
  | source (e : ε)
  | notUtf8
  | notJson
  | own (e : Err)

/-- An error of the reader itself. -/
def own (x : Except Err Model) : Except (Failure ε) Model :=
  match x with
  | .ok m => .ok m
  | .error e => .error (.own e)

/-- `SmithyReader::read`, atelier-smithy/src/reader.rs:37-41: `read_to_string`, which is `read_to_end` and `from_utf8`, and `parse_model`. -/
def smithyRead (flt : Str → Option F64) (enum : List ShapeID → List ShapeID) (k : Source σ ε) (n : Nat) (s : σ) :
    Option (σ × Except (Failure ε) Model) :=
  match readToEnd k n s [] with
  | none => none
  | some (s', .error e) => some (s', .error (.source e))
  | some (s', .ok bytes) =>
    match decode bytes with
    | none => some (s', .error .notUtf8)
    | some text => some (s', own (parseModel flt enum text))

/-- serde_json's parser: it takes one byte after the other, and refuses as soon as no JSON text begins in this way. At the end it
gives a value or refuses. Any such parser will do. -/
structure JsonParser (π : Type) where
  start : π
  feed : π → UInt8 → Option π
  finish : π → Option Json

/-- Some bytes that were read at once, taken one after the other. -/
def JsonParser.feedAll {π : Type} (p : JsonParser π) : π → List UInt8 → Option π
  | q, [] => some q
  | q, b :: l =>
    match p.feed q b with
    | none => none
    | some q' => p.feedAll q' l

/-- `serde_json::from_reader`: reads as long as the parser does not refuse, again if it was interrupted. A refused text is not
read to its end. -/
def fromReader {π : Type} (p : JsonParser π) (k : Source σ ε) : Nat → σ → π → Option (σ × Except (Failure ε) Json)
  | 0, _, _ => none
  | n + 1, s, q =>
    match k.read s with
    | (s', .bytes []) =>
      match p.finish q with
      | some j => some (s', .ok j)
      | none => some (s', .error .notJson)
    | (s', .bytes (b :: l)) =>
      match p.feedAll q (b :: l) with
      | some q' => fromReader p k n s' q'
      | none => some (s', .error .notJson)
    | (s', .interrupted) => fromReader p k n s' q
    | (s', .failed e) => some (s', .error (.source e))

/-- `JsonReader::read`, atelier-json/src/reader.rs:55-65. Simplification: the failure of a source is under the same `chain_err` as a text that is
not JSON; here they are told apart. -/
def jsonRead {π : Type} (p : JsonParser π) (k : Source σ ε) (n : Nat) (s : σ) : Option (σ × Except (Failure ε) Model) :=
  match fromReader p k n s p.start with
  | none => none
  | some (s', .error e) => some (s', .error e)
  | some (s', .ok j) => some (s', own (JsonReader.model j))

/-- `Cursor<[u8]>`, as in `read_model_from_string`, atelier-core/src/io/mod.rs:78-85: what is left, all of it at once. -/
def cursor : Source (List UInt8) Empty := ⟨fun l => ([], .bytes l)⟩

end Verif.Sources
