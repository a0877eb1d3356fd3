/-
C112: readers and sources that can fail.
-/
import Verif.Sources
import Verif.TargetsProps

namespace Verif
open Sources

/-! ### Specification -/

namespace Spec.Received
variable {σ ε : Type}

/-- The source gives these bytes, in any pieces and with any interruptions, and then comes to its end (`none`) or fails. -/
inductive Delivers (k : Source σ ε) : σ → List UInt8 → Option ε → σ → Prop
  | ends {s s'} : k.read s = (s', .bytes []) → Delivers k s [] none s'
  | fails {s s' e} : k.read s = (s', .failed e) → Delivers k s [] (some e) s'
  | waits {s s₁ s' bs x} : k.read s = (s₁, .interrupted) → Delivers k s₁ bs x s' → Delivers k s bs x s'
  | piece {s s₁ s' b l bs x} : k.read s = (s₁, .bytes (b :: l)) → Delivers k s₁ bs x s' → Delivers k s (b :: l ++ bs) x s'

/-- The bytes of a text in UTF-8. -/
def utf8 (text : Str) : List UInt8 := text.flatMap String.utf8EncodeChar

/-- It ends with this result, after enough reads. -/
def EndsWith {α : Type} (f : Nat → Option α) (a : α) : Prop := ∃ n₀, ∀ n, f n = if n₀ ≤ n then some a else none

/-- The bytes are those of a JSON text, with this value, for the parser. -/
def IsJson {π : Type} (p : JsonParser π) (bytes : List UInt8) (j : Json) : Prop := ∃ q, p.feedAll p.start bytes = some q ∧ p.finish q = some j

end Spec.Received

open Spec.Received
namespace Sources
variable {σ ε : Type}

theorem decode_utf8 (text : Str) : decode (utf8 text) = some text := by
  have h : ByteArray.mk (utf8 text).toArray = text.utf8Encode := by
    rw [List.utf8Encode]
    apply ByteArray.ext
    simp [utf8]
  rw [decode, h, List.utf8Decode?_utf8Encode]
  simp

theorem decode_iff (bytes : List UInt8) (text : Str) : decode bytes = some text ↔ bytes = utf8 text := by
  constructor
  · intro h
    unfold decode at h
    cases hd : (ByteArray.mk bytes.toArray).utf8Decode? with
    | none => rw [hd] at h; simp at h
    | some a =>
      rw [hd] at h
      simp only [Option.map_some, Option.some.injEq] at h
      subst h
      have := ByteArray.utf8Encode_get_utf8Decode? (b := ByteArray.mk bytes.toArray) (h := by rw [hd]; rfl)
      simp only [hd, Option.get_some] at this
      have h2 := congrArg (fun b => b.data.toList) this
      simp [List.utf8Encode] at h2
      exact h2.symm
  · rintro rfl
    exact decode_utf8 text

/-- How `read_to_end` ends. -/
def collected (bytes : List UInt8) : Option ε → Except ε (List UInt8)
  | none => .ok bytes
  | some e => .error e

/-- What the source delivers decides what `read_to_end` gives. -/
theorem readToEnd_of {k : Source σ ε} {s s' : σ} {bs : List UInt8} {x : Option ε} (h : Delivers k s bs x s') :
    ∃ n₀, ∀ n sofar, readToEnd k n s sofar =
      if n₀ ≤ n then some (s', collected (sofar ++ bs) x) else none := by
  induction h with
  | ends hr =>
    refine ⟨1, fun n sofar => ?_⟩
    cases n with
    | zero => rfl
    | succ n => simp [readToEnd, hr, collected]
  | fails hr =>
    refine ⟨1, fun n sofar => ?_⟩
    cases n with
    | zero => rfl
    | succ n => simp [readToEnd, hr, collected]
  | waits hr _ ih =>
    obtain ⟨n₀, ih⟩ := ih
    refine ⟨n₀ + 1, fun n sofar => ?_⟩
    cases n with
    | zero => rfl
    | succ n => simp [readToEnd, hr, ih]
  | piece hr _ ih =>
    obtain ⟨n₀, ih⟩ := ih
    refine ⟨n₀ + 1, fun n sofar => ?_⟩
    cases n with
    | zero => rfl
    | succ n => simp [readToEnd, hr, ih]

theorem delivers_of_readToEnd {k : Source σ ε} : ∀ (n : Nat) {s : σ} {sofar : List UInt8} {r : σ × Except ε (List UInt8)},
    readToEnd k n s sofar = some r → ∃ bs x, Delivers k s bs x r.1
  | 0, _, _, _, h => by simp [readToEnd] at h
  | n + 1, s, sofar, r, h => by
    rw [readToEnd] at h
    rcases hr : k.read s with ⟨s', ((_ | ⟨b, l⟩) | _ | e)⟩ <;> rw [hr] at h
    · cases h; exact ⟨[], none, .ends hr⟩
    · obtain ⟨bs, x, hd⟩ := delivers_of_readToEnd n h; exact ⟨_, x, .piece hr hd⟩
    · obtain ⟨bs, x, hd⟩ := delivers_of_readToEnd n h; exact ⟨_, x, .waits hr hd⟩
    · cases h; exact ⟨[], some e, .fails hr⟩

theorem feedAll_append {π : Type} (p : JsonParser π) : ∀ (l bs : List UInt8) (q : π),
    p.feedAll q (l ++ bs) = (p.feedAll q l).bind fun q' => p.feedAll q' bs
  | [], _, _ => rfl
  | b :: l, bs, q => by
    simp only [List.cons_append, JsonParser.feedAll]
    cases p.feed q b with
    | none => rfl
    | some q' => exact feedAll_append p l bs q'

/-- How `from_reader` ends. -/
def judged {π : Type} (p : JsonParser π) : Option π → Option ε → Except (Failure ε) Json
  | none, _ => .error .notJson
  | some _, some e => .error (.source e)
  | some q, none => match p.finish q with | some j => .ok j | none => .error .notJson

/-- What the source delivers decides what `from_reader` gives. -/
theorem fromReader_of {π : Type} (p : JsonParser π) {k : Source σ ε} {s s' : σ} {bs : List UInt8} {x : Option ε} (h : Delivers k s bs x s') :
    ∀ q, ∃ n₀ s₁, ∀ n, fromReader p k n s q = if n₀ ≤ n then some (s₁, judged p (p.feedAll q bs) x) else none := by
  induction h with
  | @ends s s' hr =>
    intro q
    refine ⟨1, s', fun n => ?_⟩
    cases n with
    | zero => rfl
    | succ n => cases hf : p.finish q <;> simp [fromReader, hr, hf, judged, JsonParser.feedAll]
  | @fails s s' e hr =>
    intro q
    refine ⟨1, s', fun n => ?_⟩
    cases n with
    | zero => rfl
    | succ n => simp [fromReader, hr, judged, JsonParser.feedAll]
  | waits hr _ ih =>
    intro q
    obtain ⟨n₀, s₁, ih⟩ := ih q
    refine ⟨n₀ + 1, s₁, fun n => ?_⟩
    cases n with
    | zero => rfl
    | succ n => simp [fromReader, hr, ih]
  | @piece s s₁ s' b l bs x hr _ ih =>
    intro q
    rw [feedAll_append]
    cases hq : p.feedAll q (b :: l) with
    | none =>
      refine ⟨1, s₁, fun n => ?_⟩
      cases n with
      | zero => rfl
      | succ n => simp [fromReader, hr, hq, judged]
    | some q' =>
      obtain ⟨n₀, s₂, ih⟩ := ih q'
      refine ⟨n₀ + 1, s₂, fun n => ?_⟩
      cases n with
      | zero => rfl
      | succ n => simp [fromReader, hr, hq, ih]

theorem delivers_cursor (bs : List UInt8) : ∃ s', Delivers cursor bs bs none s' := by
  cases bs with
  | nil => exact ⟨_, .ends rfl⟩
  | cons b l =>
    have := Delivers.piece (k := cursor) (s := b :: l) (b := b) (l := l) rfl (.ends rfl)
    rw [List.append_nil] at this
    exact ⟨_, this⟩

end Sources

/-! ### Theorems -/
variable {σ ε : Type}

/-- C112, Smithy IDL: reading ends exactly if the source does or fails. Then the failure of the source is reported; else bytes that are not
UTF-8 are an error; and the bytes of a text give what the text gives, whatever the pieces in which they come. -/
theorem C112_smithy (flt : Str → Option F64) (enum : List ShapeID → List ShapeID) (k : Source σ ε) (s : σ) :
    (∀ bytes e s', Delivers k s bytes (some e) s' → EndsWith (fun n => smithyRead flt enum k n s) (s', .error (.source e))) ∧
    (∀ bytes s', Delivers k s bytes none s' → (∀ text, bytes ≠ utf8 text) →
      EndsWith (fun n => smithyRead flt enum k n s) (s', .error .notUtf8)) ∧
    (∀ text s' m, Delivers k s (utf8 text) none s' → parseModel flt enum text = .ok m →
      EndsWith (fun n => smithyRead flt enum k n s) (s', .ok m)) ∧
    (∀ text s' e, Delivers k s (utf8 text) none s' → parseModel flt enum text = .error e →
      EndsWith (fun n => smithyRead flt enum k n s) (s', .error (.own e))) ∧
    (∀ n r, smithyRead flt enum k n s = some r → ∃ bytes x, Delivers k s bytes x r.1) := by
  refine ⟨fun bytes e s' h => ?_, fun bytes s' h hn => ?_, fun text s' m h hm => ?_, fun text s' e h hm => ?_, fun n r h => ?_⟩
  · obtain ⟨n₀, h⟩ := readToEnd_of h
    refine ⟨n₀, fun n => ?_⟩
    by_cases hc : n₀ ≤ n <;> simp [smithyRead, h, collected, hc]
  · obtain ⟨n₀, h⟩ := readToEnd_of h
    have hd : decode bytes = none := by
      cases hd : decode bytes with
      | none => rfl
      | some text => exact absurd ((decode_iff _ _).mp hd) (hn text)
    refine ⟨n₀, fun n => ?_⟩
    by_cases hc : n₀ ≤ n <;> simp [smithyRead, h, collected, hc, hd]
  · obtain ⟨n₀, h⟩ := readToEnd_of h
    refine ⟨n₀, fun n => ?_⟩
    by_cases hc : n₀ ≤ n <;> simp [smithyRead, h, collected, hc, decode_utf8, hm, own]
  · obtain ⟨n₀, h⟩ := readToEnd_of h
    refine ⟨n₀, fun n => ?_⟩
    by_cases hc : n₀ ≤ n <;> simp [smithyRead, h, collected, hc, decode_utf8, hm, own]
  · unfold smithyRead at h
    cases hr : readToEnd k n s [] with
    | none => rw [hr] at h; cases h
    | some q =>
      obtain ⟨bs, x, hd⟩ := delivers_of_readToEnd n hr
      rw [hr] at h
      refine ⟨bs, x, ?_⟩
      rcases q with ⟨s', e | bytes⟩
      · cases h; exact hd
      · simp only at h
        split at h <;> (cases h; exact hd)

/-- C112, JSON: with any parser of JSON that takes one byte after the other. If the source fails no model is read: its failure is
reported, or before that that the bytes are not JSON. If it ends, bytes that are not JSON are an error, and JSON gives what the value
gives, whatever the pieces in which the bytes come. -/
theorem C112_json {π : Type} (p : JsonParser π) (k : Source σ ε) (s : σ) :
    (∀ bytes e s', Delivers k s bytes (some e) s' → ∃ s₁ r, EndsWith (fun n => jsonRead p k n s) (s₁, r) ∧
      (r = .error (.source e) ∨ r = .error .notJson)) ∧
    (∀ bytes s', Delivers k s bytes none s' → (∀ j, ¬ IsJson p bytes j) → ∃ s₁, EndsWith (fun n => jsonRead p k n s) (s₁, .error .notJson)) ∧
    (∀ bytes s' j m, Delivers k s bytes none s' → IsJson p bytes j → JsonReader.model j = .ok m →
      ∃ s₁, EndsWith (fun n => jsonRead p k n s) (s₁, .ok m)) ∧
    (∀ bytes s' j e, Delivers k s bytes none s' → IsJson p bytes j → JsonReader.model j = .error e →
      ∃ s₁, EndsWith (fun n => jsonRead p k n s) (s₁, .error (.own e))) := by
  refine ⟨fun bytes e s' h => ?_, fun bytes s' h hn => ?_, fun bytes s' j m h hj hm => ?_, fun bytes s' j e h hj hm => ?_⟩
  · obtain ⟨n₀, s₁, h1⟩ := fromReader_of p h p.start
    cases hq : p.feedAll p.start bytes with
    | none =>
      refine ⟨s₁, _, ⟨n₀, fun n => ?_⟩, .inr rfl⟩
      by_cases hc : n₀ ≤ n <;> simp [jsonRead, hc, h1, hq, judged]
    | some q =>
      refine ⟨s₁, _, ⟨n₀, fun n => ?_⟩, .inl rfl⟩
      by_cases hc : n₀ ≤ n <;> simp [jsonRead, hc, h1, hq, judged]
  · obtain ⟨n₀, s₁, h1⟩ := fromReader_of p h p.start
    have hr : judged (ε := ε) p (p.feedAll p.start bytes) none = .error .notJson := by
      cases hq : p.feedAll p.start bytes with
      | none => rfl
      | some q =>
        cases hf : p.finish q with
        | none => simp [judged, hf]
        | some j => exact absurd ⟨q, hq, hf⟩ (hn j)
    refine ⟨s₁, n₀, fun n => ?_⟩
    by_cases hc : n₀ ≤ n <;> simp [jsonRead, hc, h1, hr]
  · obtain ⟨n₀, s₁, h1⟩ := fromReader_of p h p.start
    obtain ⟨q, hq, hf⟩ := hj
    refine ⟨s₁, n₀, fun n => ?_⟩
    by_cases hc : n₀ ≤ n <;> simp [jsonRead, hc, h1, hq, judged, hf, hm, own]
  · obtain ⟨n₀, s₁, h1⟩ := fromReader_of p h p.start
    obtain ⟨q, hq, hf⟩ := hj
    refine ⟨s₁, n₀, fun n => ?_⟩
    by_cases hc : n₀ ≤ n <;> simp [jsonRead, hc, h1, hq, judged, hf, hm, own]

/-- C112: `read_model_from_string` gives what the text gives: two reads are enough. -/
theorem C112_string (flt : Str → Option F64) (enum : List ShapeID → List ShapeID) (text : Str) (n : Nat) :
    smithyRead flt enum cursor (n + 2) (utf8 text) = some ([], own (parseModel flt enum text)) := by
  have h : readToEnd cursor (n + 2) (utf8 text) [] = some ([], .ok (utf8 text)) := by
    cases hu : utf8 text with
    | nil => rfl
    | cons b l => rfl
  rw [smithyRead, h]
  simp only [decode_utf8]

/-- A source that gives the listed answers, and then is at its end. -/
def exListed : Source (List (Answer Unit)) Unit := ⟨fun l => match l with | [] => ([], .bytes []) | a :: l => (l, a)⟩

/-- A model with two strings. -/
def exTwo : Model := ⟨.v10, [], [(⟨%s"a", %s"S", none⟩, ⟨⟨%s"a", %s"S", none⟩, [], .simple .string⟩),
  (⟨%s"a", %s"Tail", none⟩, ⟨⟨%s"a", %s"Tail", none⟩, [], .simple .string⟩)]⟩

/-- What its text cut off after 49 characters is read as. -/
def exCut : Model := ⟨.v10, [], [(⟨%s"a", %s"S", none⟩, ⟨⟨%s"a", %s"S", none⟩, [], .simple .string⟩),
  (⟨%s"a", %s"T", none⟩, ⟨⟨%s"a", %s"T", none⟩, [], .simple .string⟩)]⟩


/-- C112: a text of the IDL that was cut off can be the text of another model, and then nothing tells this: the text of a model is cut
off, by a target without more room, at the text of the model without its last shapes. -/
theorem C112_cut_off (f : Fmt) (ns : Str) (m : Model) (before after : AMap ShapeID TopLevelShape) (h : m.shapes = before ++ after)
    (ha : ∀ e ∈ after, e.2.isUnresolved = false) :
    ∃ n, ((Targets.Idl.write f ns m).run Spec.Sent.limited ⟨(), n, []⟩).1.arrived = writeIdl f ns { m with shapes := before } := by
  have hp : writeIdl f ns { m with shapes := before } <+: writeIdl f ns m := by
    have hu : IdlWriter.uses m = IdlWriter.uses { m with shapes := before } := by
      unfold IdlWriter.uses Model.shapesList
      rw [h]
      have : ((AMap.values after).filter fun s => s.isUnresolved && s.traits.isEmpty) = [] := by
        rw [List.filter_eq_nil_iff]
        intro s hs
        obtain ⟨e, he, rfl⟩ := List.mem_map.mp hs
        simp [ha e he]
      simp only [AMap.values, List.map_append, List.filter_append] at this ⊢
      rw [this, List.append_nil]
    unfold writeIdl
    rw [hu]
    simp only [← List.append_assoc]
    refine List.prefix_append_right_inj _ |>.mpr ?_
    unfold IdlWriter.shapes Model.shapesList
    rw [h]
    simp only [AMap.values, List.map_append, List.filter_append, List.flatMap_append]
    exact List.prefix_append _ _
  refine ⟨(writeIdl f ns { m with shapes := before }).length, ?_⟩
  rw [(C111_limited (C111_idl f ns m) _).1]
  exact (List.prefix_iff_eq_take.mp hp).symm

set_option maxRecDepth 100000 in
/-- C112: within the name of the last shape it is read as another model; and a source that gives the bytes of a text in two pieces, cut within
a character, and is interrupted, gives what the text gives; one that fails after the whole of a text gives no model. -/
theorem C112_examples :
    parseModel (fun _ => none) id ((writeIdl exFmt %s"a" exTwo).take 49) = .ok exCut ∧
    EndsWith (fun n => smithyRead (fun _ => none) id exListed n
      [.bytes (110 :: (utf8 %s"amespace a\n// " ++ [0xC3])), .interrupted, .bytes ([0xA9] ++ utf8 %s"\nstring S\n")])
      ([], .ok ⟨.v10, [], [(⟨%s"a", %s"S", none⟩, ⟨⟨%s"a", %s"S", none⟩, [], .simple .string⟩)]⟩) ∧
    EndsWith (fun n => smithyRead (fun _ => none) id exListed n [.bytes (110 :: utf8 %s"amespace a\n"), .failed ()])
      ([], .error (.source ())) := by
  refine ⟨rfl, ?_, ?_⟩
  · refine (C112_smithy _ _ _ _).2.2.1 %s"namespace a\n// é\nstring S\n" _ _ ?_ rfl
    have h1 : Delivers exListed [] [] none [] := .ends rfl
    have h2 : Delivers exListed [.bytes ([0xA9] ++ utf8 %s"\nstring S\n")] (0xA9 :: utf8 %s"\nstring S\n" ++ []) none [] := .piece rfl h1
    have h3 : Delivers exListed [.interrupted, .bytes ([0xA9] ++ utf8 %s"\nstring S\n")] _ none [] := .waits rfl h2
    have h4 : Delivers exListed [.bytes (110 :: (utf8 %s"amespace a\n// " ++ [0xC3])), .interrupted, .bytes ([0xA9] ++ utf8 %s"\nstring S\n")]
      _ none [] := .piece rfl h3
    exact h4
  · exact (C112_smithy _ _ _ _).1 _ _ _ (.piece rfl (.fails rfl))

/-- A small document, and a parser that takes no other one. -/
def exDocument : List UInt8 := utf8 %s"{\"smithy\":\"1.0\",\"shapes\":{}}"

def exParser : JsonParser (List UInt8) := ⟨exDocument, fun q b => match q with | [] => none | c :: q => if b = c then some q else none,
  fun q => match q with | [] => some (.object [(%s"smithy", .string %s"1.0"), (%s"shapes", .object [])]) | _ => none⟩

set_option maxRecDepth 100000 in
/-- C112, JSON: the same document in one piece and in two, with a source that fails after it, and cut off. -/
theorem C112_json_examples :
    JsonReader.model (.object [(%s"smithy", .string %s"1.0"), (%s"shapes", .object [])]) = .ok (.new .v10) ∧
    jsonRead exParser exListed 3 [.bytes exDocument] = some ([], .ok (.new .v10)) ∧
    jsonRead exParser exListed 4 [.bytes (exDocument.take 9), .interrupted, .bytes (exDocument.drop 9)] = some ([], .ok (.new .v10)) ∧
    jsonRead exParser exListed 4 [.bytes exDocument, .failed ()] = some ([], .error (.source ())) ∧
    jsonRead exParser exListed 2 [.bytes (exDocument.take 9)] = some ([], .error .notJson) := by
  refine ⟨rfl, rfl, rfl, rfl, rfl⟩

end Verif
