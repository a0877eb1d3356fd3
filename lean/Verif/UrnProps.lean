/-
Property theorems C07 (atelier-rdf/src/urn.rs).
-/
import Verif.Urn
import Verif.IdentityLemmas

namespace Verif
open Spec

theorem map_eq_self {α : Type} {f : α → α} {s : List α} (h : ∀ d ∈ s, f d = d) : s.map f = s := by
  induction s with
  | nil => rfl
  | cons a t ih => simp [h a (by simp), ih (fun d hd => h d (by simp [hd]))]

theorem stripPrefix_append (p s : Str) : stripPrefix p (p ++ s) = some s := by
  induction p with
  | nil => rfl
  | cons c cs ih => simp [stripPrefix, ih]

theorem stripPrefix_eq_some {p s t : Str} : stripPrefix p s = some t ↔ s = p ++ t := by
  constructor
  · induction p generalizing s with
    | nil => intro h; simp [stripPrefix] at h; simp [h]
    | cons c cs ih =>
      intro h
      cases s with
      | nil => simp [stripPrefix] at h
      | cons d ds =>
        simp only [stripPrefix] at h
        split at h
        · next e => subst e; simp [ih h]
        · simp at h
  · rintro rfl; exact stripPrefix_append p t

theorem display_chars {id : ShapeID} (h : id.Valid) {c : Char} (hc : c ∈ id.display) :
    identChar c = true ∨ c = '.' ∨ c = '#' ∨ c = '$' := by
  obtain ⟨hns, hn, hm⟩ := h
  unfold ShapeID.display at hc
  simp only [List.append_assoc, List.cons_append, List.mem_append, List.mem_cons] at hc
  rcases hc with hc | rfl | hc | hc
  · by_cases hd : c = '.'
    · simp [hd]
    · cases hi : identChar c with
      | true => simp
      | false => exact absurd hc (namespace_not_mem hns hd hi)
  · simp
  · exact .inl (identChar_of_identifier hn hc)
  · cases hmm : id.member with
    | none => simp [hmm] at hc
    | some m =>
      simp only [hmm, List.mem_cons] at hc
      rcases hc with rfl | hc
      · simp
      · exact .inl (identChar_of_identifier (hm m hmm) hc)

theorem identChar_urnChar {c : Char} (h : identChar c = true) : urnChar c = true := by
  simp only [identChar, urnChar, Bool.or_eq_true] at *
  rcases h with h | h <;> simp [h]

theorem replaceChar_mem {a b c : Char} {s : Str} (h : c ∈ replaceChar a b s) : (c = b ∧ a ∈ s) ∨ (c ≠ a ∧ c ∈ s) ∨ (c = b) := by
  unfold replaceChar at h
  obtain ⟨d, hd, rfl⟩ := List.mem_map.mp h
  by_cases e : d = a
  · simp [e]
  · simp [e, hd]

/-- The path text after `smithy:` of the URN of `id`. -/
theorem urnBody_chars {id : ShapeID} (h : id.Valid) :
    ∀ c ∈ replaceChar '$' '/' (replaceChar '#' ':' id.display), urnChar c = true := by
  intro c hc
  unfold replaceChar at hc
  simp only [List.map_map, List.mem_map, Function.comp] at hc
  obtain ⟨d, hd, rfl⟩ := hc
  rcases display_chars h hd with hi | rfl | rfl | rfl
  · have h1 : d ≠ '#' := by rintro rfl; revert hi; decide
    have h2 : d ≠ '$' := by rintro rfl; revert hi; decide
    simp [h1, h2, identChar_urnChar hi]
  all_goals decide

theorem replace_back {id : ShapeID} (h : id.Valid) :
    replaceChar '/' '$' (replaceChar ':' '#' (replaceChar '$' '/' (replaceChar '#' ':' id.display))) = id.display := by
  unfold replaceChar
  simp only [List.map_map]
  apply map_eq_self
  intro d hd
  rcases display_chars h hd with hi | rfl | rfl | rfl
  · have h1 : d ≠ '#' := by rintro rfl; revert hi; decide
    have h2 : d ≠ '$' := by rintro rfl; revert hi; decide
    have h3 : d ≠ ':' := by rintro rfl; revert hi; decide
    have h4 : d ≠ '/' := by rintro rfl; revert hi; decide
    simp [h1, h2, h3, h4]
  all_goals decide

theorem replace_forth {p : Str} (h : ∀ c ∈ p, urnChar c = true) :
    replaceChar '$' '/' (replaceChar '#' ':' (replaceChar '/' '$' (replaceChar ':' '#' p))) = p := by
  unfold replaceChar
  simp only [List.map_map]
  apply map_eq_self
  intro d hd
  have hu := h d hd
  by_cases e1 : d = ':'
  · subst e1; decide
  by_cases e2 : d = '/'
  · subst e2; decide
  have h1 : d ≠ '#' := by rintro rfl; revert hu; decide
  have h2 : d ≠ '$' := by rintro rfl; revert hu; decide
  simp [h1, h2, e1, e2]

theorem ofText_urn {p : Str} (h : ∀ c ∈ p, urnChar c = true) :
    Iri.ofText (%s"urn:" ++ urnNid ++ p) =
      { scheme := some (%s"urn"), authority := none, path := urnNid ++ p, query := none, fragment := none } := by
  have h1 : splitFirst '#' (urnNid ++ p) = none := by
    rw [splitFirst_eq_none]
    intro hm
    rcases List.mem_append.mp hm with hm | hm
    · revert hm; decide
    · have := h _ hm; revert this; decide
  have h2 : splitFirst '?' (urnNid ++ p) = none := by
    rw [splitFirst_eq_none]
    intro hm
    rcases List.mem_append.mp hm with hm | hm
    · revert hm; decide
    · have := h _ hm; revert this; decide
  have h0 : splitFirst ':' (%s"urn:" ++ urnNid ++ p) = some (%s"urn", urnNid ++ p) := by
    rw [splitFirst_eq_some]
    exact ⟨rfl, by decide⟩
  unfold Iri.ofText
  rw [h0]
  simp [urnNid] at h1 h2
  simp [urnNid, h1, h2]

/-- C07, one direction: the URN of a valid shape id has exactly the documented text
`urn:smithy:{namespace}:{name}(/{member})?`, and reading it back gives the id. -/
theorem C07_urn_roundtrip (id : ShapeID) (h : id.Valid) :
    iriToShape (shapeToIri id) = .ok id ∧
    (shapeToIri id).display = %s"urn:smithy:" ++ id.ns ++ ':' :: id.name ++
      (match id.member with | none => [] | some m => '/' :: m) := by
  have hp := urnBody_chars h
  have hc : shapeToIri id = _ := ofText_urn hp
  constructor
  · rw [hc]
    unfold iriToShape
    simp only [if_true, stripPrefix_append, List.all_eq_true.mpr hp]
    rw [replace_back h, ShapeID.fromStr_display h]
  · rw [hc]
    obtain ⟨hns, hn, hm⟩ := h
    have key : ∀ s : Str, (∀ c ∈ s, c ≠ '#' ∧ c ≠ '$') → replaceChar '$' '/' (replaceChar '#' ':' s) = s := by
      intro s hs
      unfold replaceChar
      simp only [List.map_map]
      apply map_eq_self
      intro d hd
      simp [hs d hd]
    have kident : ∀ s : Str, IsIdentifier s → ∀ c ∈ s, c ≠ '#' ∧ c ≠ '$' := by
      intro s hs c hc
      have := identChar_of_identifier hs hc
      constructor <;> (rintro rfl; revert this; decide)
    have kns : ∀ c ∈ id.ns, c ≠ '#' ∧ c ≠ '$' := by
      intro c hc
      constructor <;> (rintro rfl; exact absurd hc (namespace_not_mem hns (by decide) (by decide)))
    have happ : ∀ s t : Str, replaceChar '$' '/' (replaceChar '#' ':' (s ++ t)) =
        replaceChar '$' '/' (replaceChar '#' ':' s) ++ replaceChar '$' '/' (replaceChar '#' ':' t) := by
      intro s t; simp [replaceChar]
    have hcons : ∀ (c : Char) (t : Str), replaceChar '$' '/' (replaceChar '#' ':' (c :: t)) =
        replaceChar '$' '/' (replaceChar '#' ':' [c]) ++ replaceChar '$' '/' (replaceChar '#' ':' t) := by
      intro c t; simp [replaceChar]
    simp only [Iri.display, ShapeID.display]
    rw [List.append_assoc, happ, happ, hcons '#' id.name, key _ kns, key _ (kident _ hn)]
    cases hmm : id.member with
    | none => simp [replaceChar, urnNid]
    | some m =>
      simp only []
      rw [hcons '$' m, key _ (kident _ (hm m hmm))]
      simp [replaceChar, urnNid]

/-- C07, other direction: an IRI accepted as a shape id, without authority, query and fragment (a URN has none),
is exactly the URN of that id, and the id is valid. -/
theorem C07_urn_inverse (iri : Iri) (id : ShapeID) (h : iriToShape iri = .ok id)
    (ha : iri.authority = none) (hq : iri.query = none) (hf : iri.fragment = none) :
    shapeToIri id = iri ∧ id.Valid := by
  unfold iriToShape at h
  split at h
  · next hs =>
    split at h
    · next path hp =>
      split at h
      · next hall =>
        split at h
        · next id' hid =>
          injection h with h; subst h
          obtain ⟨hv, hd⟩ := ShapeID.of_fromStr hid
          refine ⟨?_, hv⟩
          have hall' := List.all_eq_true.mp hall
          have := replace_forth hall'
          unfold shapeToIri shapeUrnText
          rw [hd, this, ofText_urn hall']
          cases iri
          simp_all
          exact (stripPrefix_eq_some.mp hp).symm
        · simp at h
      · simp at h
    · simp at h
  · simp at h

/-- C07: distinct valid ids have distinct URNs, also as text. -/
theorem C07_urn_injective (a b : ShapeID) (ha : a.Valid) (hb : b.Valid) :
    (shapeToIri a = shapeToIri b → a = b) ∧ ((shapeToIri a).display = (shapeToIri b).display → a = b) := by
  have h1 : shapeToIri a = shapeToIri b → a = b := by
    intro h
    have h1 := (C07_urn_roundtrip a ha).1
    rw [h, (C07_urn_roundtrip b hb).1] at h1
    injection h1 with h1; exact h1.symm
  refine ⟨h1, fun h => h1 ?_⟩
  have ea : shapeToIri a = _ := ofText_urn (urnBody_chars ha)
  have eb : shapeToIri b = _ := ofText_urn (urnBody_chars hb)
  rw [ea, eb] at h
  simp [Iri.display] at h
  rw [ea, eb, h]

/-- C07: `is_shape_iri` accepts exactly the IRIs with scheme `urn` whose path is the path of the URN of some valid id. -/
theorem C07_isShapeIri_iff (iri : Iri) :
    isShapeIri iri = true ↔ ∃ id : ShapeID, id.Valid ∧ iri.scheme = some (%s"urn") ∧ iri.path = (shapeToIri id).path := by
  let iri' : Iri := { iri with authority := none, query := none, fragment := none }
  have e : iriToShape iri = iriToShape iri' := rfl
  unfold isShapeIri
  constructor
  · intro h
    cases hr : iriToShape iri with
    | error m => simp [hr] at h
    | ok id =>
      obtain ⟨h1, h2⟩ := C07_urn_inverse iri' id (e ▸ hr) rfl rfl rfl
      refine ⟨id, h2, ?_, ?_⟩
      · unfold iriToShape at hr; split at hr
        · assumption
        · simp at hr
      · rw [h1]
  · rintro ⟨id, hv, hs, hp⟩
    have : iri' = shapeToIri id := by
      have ea : shapeToIri id = _ := ofText_urn (urnBody_chars hv)
      rw [ea] at hp ⊢
      cases iri; simp_all [iri']
    rw [e, this, (C07_urn_roundtrip id hv).1]

/-- C07: why an IRI is refused: its scheme is not `urn`, its path does not begin with `smithy:`, what follows has a character that is not an
ASCII letter, a digit or one of `_ . : /`, or it has none but is not the path of the URN of any valid id. -/
theorem C07_refused (iri : Iri) (e : Str) : iriToShape iri = .error e ↔
    (iri.scheme ≠ some %s"urn" ∧ e = %s"Not a URN") ∨
    (iri.scheme = some %s"urn" ∧ (∀ rest, iri.path ≠ %s"smithy:" ++ rest) ∧ e = %s"Not a Smithy URN") ∨
    (iri.scheme = some %s"urn" ∧ ∃ rest, iri.path = %s"smithy:" ++ rest ∧
      (((∃ c ∈ rest, c.isAlphanum = false ∧ c ∉ %s"_.:/") ∧ e = %s"Smithy URN contains invalid characters") ∨
       ((∀ c ∈ rest, c.isAlphanum = true ∨ c ∈ %s"_.:/") ∧ (∀ id : ShapeID, id.Valid → iri.path ≠ (shapeToIri id).path) ∧
         e = %s"Could not parse into a Shape ID"))) := by
  have hchar : ∀ c, urnChar c = true ↔ c.isAlphanum = true ∨ c ∈ %s"_.:/" := by
    intro c
    simp only [urnChar, Bool.or_eq_true, beq_iff_eq, List.mem_cons, List.not_mem_nil, or_false, or_assoc]
  have hno : (∀ id : ShapeID, id.Valid → iri.scheme = some %s"urn" → iri.path ≠ (shapeToIri id).path) ↔ ∃ e, iriToShape iri = .error e := by
    have := C07_isShapeIri_iff iri
    unfold isShapeIri at this
    cases hr : iriToShape iri with
    | error m =>
      rw [hr] at this
      refine ⟨fun _ => ⟨m, rfl⟩, fun _ id hv hs hp => ?_⟩
      have := this.mpr ⟨id, hv, hs, hp⟩
      cases this
    | ok x =>
      rw [hr] at this
      obtain ⟨id, hv, hs, hp⟩ := this.mp rfl
      exact ⟨fun h => absurd hp (h id hv hs), fun ⟨_, h⟩ => by cases h⟩
  by_cases hs : iri.scheme = some %s"urn"
  · cases hp : stripPrefix urnNid iri.path with
    | none =>
      have hpre : ∀ rest, iri.path ≠ %s"smithy:" ++ rest := fun rest h => by
        rw [h, show (%s"smithy:" : Str) = urnNid from rfl, stripPrefix_append] at hp; cases hp
      have hr : iriToShape iri = .error %s"Not a Smithy URN" := by simp only [iriToShape, hs, if_true, hp]
      rw [hr]
      constructor
      · intro h; cases h; exact .inr (.inl ⟨hs, hpre, rfl⟩)
      · rintro (⟨h, _⟩ | ⟨_, _, rfl⟩ | ⟨_, rest, h, _⟩)
        · exact absurd hs h
        · rfl
        · exact absurd h (hpre rest)
    | some path =>
      have hpath : iri.path = %s"smithy:" ++ path := stripPrefix_eq_some.mp hp
      have huniq : ∀ rest, iri.path = %s"smithy:" ++ rest → rest = path := fun rest h => by
        rw [hpath] at h; exact (List.append_cancel_left h).symm
      by_cases ha : path.all urnChar = true
      · have hall : ∀ c ∈ path, c.isAlphanum = true ∨ c ∈ %s"_.:/" := fun c hc => (hchar c).mp (List.all_eq_true.mp ha c hc)
        have hr : ∀ m, iriToShape iri = .error m → m = %s"Could not parse into a Shape ID" := by
          intro m h
          simp only [iriToShape, hs, if_true, hp, ha] at h
          cases hf : ShapeID.fromStr (replaceChar '/' '$' (replaceChar ':' '#' path)) with
          | ok id => rw [hf] at h; cases h
          | error x => rw [hf] at h; cases h; rfl
        constructor
        · intro h
          exact .inr (.inr ⟨hs, path, hpath, .inr ⟨hall, fun id hv => hno.mpr ⟨e, h⟩ id hv hs, hr e h⟩⟩)
        · rintro (⟨h, _⟩ | ⟨_, h, _⟩ | ⟨_, rest, h, ⟨⟨c, hc, hn, hm⟩, _⟩ | ⟨_, hid, rfl⟩⟩)
          · exact absurd hs h
          · exact absurd hpath (h path)
          · rw [huniq rest h] at hc
            rcases hall c hc with h' | h'
            · rw [h'] at hn; cases hn
            · exact absurd h' hm
          · obtain ⟨m, h'⟩ := hno.mp fun id hv _ => hid id hv
            rw [h', hr m h']
      · have hr : iriToShape iri = .error %s"Smithy URN contains invalid characters" := by
          simp only [iriToShape, hs, if_true, hp, ha]; rfl
        have hbad : ∃ c ∈ path, c.isAlphanum = false ∧ c ∉ %s"_.:/" := by
          rw [List.all_eq_true] at ha
          obtain ⟨c, hc, hn⟩ : ∃ c, c ∈ path ∧ ¬ urnChar c = true := by
            apply Classical.byContradiction
            intro h
            exact ha fun c hc => Classical.byContradiction fun hn => h ⟨c, hc, hn⟩
          refine ⟨c, hc, ?_, fun h => hn ((hchar c).mpr (.inr h))⟩
          cases hx : c.isAlphanum with
          | false => rfl
          | true => exact absurd ((hchar c).mpr (.inl hx)) hn
        rw [hr]
        constructor
        · intro h; cases h; exact .inr (.inr ⟨hs, path, hpath, .inl ⟨hbad, rfl⟩⟩)
        · rintro (⟨h, _⟩ | ⟨_, h, _⟩ | ⟨_, rest, h, ⟨_, rfl⟩ | ⟨hall, _⟩⟩)
          · exact absurd hs h
          · exact absurd hpath (h path)
          · rfl
          · obtain ⟨c, hc, hn, hm⟩ := hbad
            rw [huniq rest h] at hall
            rcases hall c hc with h' | h'
            · rw [h'] at hn; cases hn
            · exact absurd h' hm
  · have hr : iriToShape iri = .error %s"Not a URN" := by simp only [iriToShape, hs, if_false]
    rw [hr]
    constructor
    · intro h; cases h; exact .inl ⟨hs, rfl⟩
    · rintro (⟨_, rfl⟩ | ⟨h, _⟩ | ⟨h, _⟩)
      · rfl
      · exact absurd h hs
      · exact absurd h hs

/-- Each of the four happens, e.g. to the IRIs of the unit test. -/
example : [Iri.ofText %s"smithy:a:B/c", .ofText %s"urn:a:B/c", .ofText %s"urn:smithy:a:B$c", .ofText %s"urn:smithy:B/c"].map iriToShape =
    [.error %s"Not a URN", .error %s"Not a Smithy URN", .error %s"Smithy URN contains invalid characters",
      .error %s"Could not parse into a Shape ID"] := by rfl

/-- C07, why the inverse needs the absence of query and fragment: they are ignored by `iri_to_shape`. -/
theorem C07_query_ignored : ∃ iri id, iriToShape iri = .ok id ∧ shapeToIri id ≠ iri :=
  ⟨⟨some (%s"urn"), none, %s"smithy:a.b:C/d", some (%s"q"), some (%s"f")⟩, ⟨%s"a.b", %s"C", some (%s"d")⟩,
    rfl, by decide⟩

example : ShapeID.Valid ⟨%s"a.b_c", %s"_C1", some (%s"d")⟩ := by
  have := ShapeID.of_fromStr (s := %s"a.b_c#_C1$d") (id := ⟨%s"a.b_c", %s"_C1", some (%s"d")⟩) rfl
  exact this.1

example : (shapeToIri ⟨%s"a.b_c", %s"_C1", some (%s"d")⟩).display = %s"urn:smithy:a.b_c:_C1/d" ∧
    isShapeIri (Iri.ofText (%s"urn:smithy:a.b_c:_C1/d")) = true ∧
    isShapeIri (Iri.ofText (%s"urn:smithy:a.b_c#_C1")) = false := by decide

end Verif
