/-
C113: names in the builder API (`ShapeName`): the accessors of atelier-core/src/builder/id.rs, and properties.
-/
import Verif.Builder
import Verif.IdentityProps

namespace Verif
namespace ShapeName

/-- `ShapeName::is_qualified`, `is_as!` in atelier-core/src/builder/id.rs:77 (atelier-core/src/macros.rs). -/
def isQualified : ShapeName → Bool
  | .qualified _ => true
  | .local' _ => false

/-- `ShapeName::as_qualified`, atelier-core/src/builder/id.rs:77. -/
def asQualified : ShapeName → Option ShapeID
  | .qualified id => some id
  | .local' _ => none

/-- `ShapeName::is_local`, atelier-core/src/builder/id.rs:86. -/
def isLocal : ShapeName → Bool
  | .qualified _ => false
  | .local' _ => true

/-- `ShapeName::as_local`, atelier-core/src/builder/id.rs:86. -/
def asLocal : ShapeName → Option Str
  | .qualified _ => none
  | .local' n => some n

/-- `ShapeName::eq_qualified`, atelier-core/src/builder/id.rs:79-84. -/
def eqQualified (n : ShapeName) (other : ShapeID) : Bool :=
  match n with
  | .qualified id => id.ceq other
  | .local' _ => false

/-- `ShapeName::eq_local`, atelier-core/src/builder/id.rs:88-93. -/
def eqLocal (n : ShapeName) (other : Str) : Bool :=
  match n with
  | .qualified _ => false
  | .local' l => identEq l other

/-- `ShapeName::namespace`, atelier-core/src/builder/id.rs:95-100. -/
def ns : ShapeName → Option Str
  | .qualified id => some id.ns
  | .local' _ => none

/-- `ShapeName::member_name`, atelier-core/src/builder/id.rs:109-114. -/
def memberName : ShapeName → Option Str
  | .qualified id => id.member
  | .local' _ => none

end ShapeName

open Spec

/-! ### Specification -/

namespace Spec

/-- A name with valid parts. -/
def ValidName : ShapeName → Prop
  | .qualified id => id.Valid
  | .local' n => IsIdentifier n

end Spec

/-! ### Theorems -/

/-- C113: which texts are names: those that are shape ids, as such, and those that are identifiers, as relative names. -/
theorem C113_parse (s : Str) (n : ShapeName) :
    ShapeName.fromStr s = .ok n ↔
      (∃ id, n = .qualified id ∧ Captures s id.ns id.name id.member) ∨ (n = .local' s ∧ reIdentifier.Matches s) := by
  have hv : ShapeID.isValid s = true ↔ ∃ id, ShapeID.fromStr s = .ok id := by
    unfold ShapeID.isValid; cases ShapeID.fromStr s <;> simp
  have hi := (isIdent_iff s).trans (identifier_iff_regex s)
  unfold ShapeName.fromStr
  by_cases h : ShapeID.isValid s = true
  · rw [if_pos h]
    obtain ⟨id, hid⟩ := hv.mp h
    rw [hid]
    have hc := (C03_fromStr_iff_captures s id).mp hid
    constructor
    · intro hn
      cases hn
      exact .inl ⟨id, rfl, hc⟩
    · rintro (⟨id', rfl, h'⟩ | ⟨rfl, h'⟩)
      · have := (C03_fromStr_iff_captures s id').mpr h'
        rw [hid] at this; cases this; rfl
      · exfalso
        have h2 := identChar_of_identifier ((identifier_iff_regex s).mpr h') (c := '#') (by rw [hc.2.2.2]; simp)
        revert h2; decide
  · rw [if_neg h]
    have hno : ∀ id : ShapeID, ¬ Captures s id.ns id.name id.member := fun id hc => h (hv.mpr ⟨id, (C03_fromStr_iff_captures s id).mpr hc⟩)
    by_cases h2 : isIdent s = true
    · rw [if_pos h2]
      constructor
      · intro hn; cases hn; exact .inr ⟨rfl, hi.mp h2⟩
      · rintro (⟨id, _, h'⟩ | ⟨rfl, _⟩)
        · exact absurd h' (hno id)
        · rfl
    · rw [if_neg h2]
      constructor
      · intro hn; cases hn
      · rintro (⟨id, _, h'⟩ | ⟨_, h'⟩)
        · exact absurd h' (hno id)
        · exact absurd (hi.mpr h') h2

/-- C113: any other text is an error, which names the text. -/
theorem C113_refused (s : Str) (h : ∀ n, ShapeName.fromStr s ≠ .ok n) : ShapeName.fromStr s = .error (.invalidShapeID s) := by
  unfold ShapeName.fromStr at h ⊢
  by_cases h1 : ShapeID.isValid s = true
  · exfalso
    rw [if_pos h1] at h
    unfold ShapeID.isValid at h1
    cases hid : ShapeID.fromStr s with
    | ok id => rw [hid] at h; exact h _ rfl
    | error e => rw [hid] at h1; cases h1
  · rw [if_neg h1] at h ⊢
    by_cases h2 : isIdent s = true
    · rw [if_pos h2] at h; exact absurd rfl (h _)
    · rw [if_neg h2]

/-- C113: a relative name with a member (`Shape$member`) is not a name. -/
theorem C113_relative_member (a b : Str) (ha : IsIdentifier a) (hb : IsIdentifier b) :
    ShapeName.fromStr (a ++ ['$'] ++ b) = .error (.invalidShapeID (a ++ ['$'] ++ b)) := by
  refine C113_refused _ fun n hn => ?_
  rcases (C113_parse _ _).mp hn with ⟨id, rfl, h⟩ | ⟨rfl, h⟩
  · have h1 : '#' ∈ a ++ ['$'] ++ b := by rw [h.2.2.2]; simp
    simp only [List.mem_append, List.mem_singleton] at h1
    rcases h1 with (h1 | h1) | h1
    · exact absurd (identChar_of_identifier ha h1) (by decide)
    · exact absurd h1 (by decide)
    · exact absurd (identChar_of_identifier hb h1) (by decide)
  · exact absurd (identChar_of_identifier ((identifier_iff_regex _).mpr h) (c := '$') (by simp)) (by decide)

/-- C113: a name that was read is printed as it was written, its parts are valid, and every name with valid parts is read from what is
printed: so two names that are printed the same are the same. -/
theorem C113_round_trip :
    (∀ s n, ShapeName.fromStr s = .ok n → n.display = s ∧ ValidName n) ∧
    (∀ n, ValidName n → ShapeName.fromStr n.display = .ok n) ∧
    (∀ n n' : ShapeName, ValidName n → ValidName n' → n.display = n'.display → n = n') := by
  have back : ∀ n, ValidName n → ShapeName.fromStr n.display = .ok n := by
    intro n h
    cases n with
    | qualified id =>
      exact (C113_parse _ _).mpr (.inl ⟨id, rfl, (C03_fromStr_iff_captures _ _).mp (ShapeID.fromStr_display h)⟩)
    | local' l => exact (C113_parse _ _).mpr (.inr ⟨rfl, (identifier_iff_regex _).mp h⟩)
  refine ⟨fun s n h => ?_, back, fun n n' h h' e => ?_⟩
  · rcases (C113_parse _ _).mp h with ⟨id, rfl, hc⟩ | ⟨rfl, hc⟩
    · obtain ⟨h1, h2⟩ := C03_display_parse s id ((C03_fromStr_iff_captures _ _).mpr hc)
      exact ⟨h1, h2⟩
    · exact ⟨rfl, (identifier_iff_regex _).mpr hc⟩
  · have := back n h
    rw [e, back n' h'] at this
    cases this
    rfl

/-- C113: what the accessors say: a name is either relative or qualified; the relative ones have neither a namespace nor a member; and
together the parts are the text. -/
theorem C113_parts (n : ShapeName) :
    (n.isQualified = !n.isLocal) ∧ (n.isQualified = true ↔ ∃ id, n.asQualified = some id ∧ n = .qualified id) ∧
    (n.isLocal = true ↔ ∃ l, n.asLocal = some l ∧ n = .local' l) ∧ (n.isQualified = true ↔ n.ns ≠ none) ∧
    (n.memberName ≠ none → n.isQualified = true) ∧
    n.display = (match n.ns with | some ns => ns ++ ['#'] | none => []) ++ n.shapeName ++
      (match n.memberName with | some m => ['$'] ++ m | none => []) := by
  cases n with
  | qualified id =>
    refine ⟨rfl, ⟨fun _ => ⟨id, rfl, rfl⟩, fun _ => rfl⟩, ⟨nofun, fun ⟨l, h, _⟩ => nomatch h⟩, ⟨fun _ => nofun, fun _ => rfl⟩, fun _ => rfl, ?_⟩
    rcases id with ⟨ns, name, _ | m⟩ <;> simp [ShapeName.display, ShapeID.display, ShapeName.ns, ShapeName.memberName, ShapeName.shapeName]
  | local' l =>
    refine ⟨rfl, ⟨nofun, fun ⟨id, h, _⟩ => nomatch h⟩, ⟨fun _ => ⟨l, rfl, rfl⟩, fun _ => rfl⟩, ⟨nofun, fun h => absurd rfl h⟩, fun h => absurd rfl h, ?_⟩
    simp [ShapeName.display, ShapeName.ns, ShapeName.memberName, ShapeName.shapeName]

/-! Equality -/

theorem split_unique {c : Char} : ∀ {a b x y : Str}, c ∉ a → c ∉ b → a ++ c :: x = b ++ c :: y → a = b ∧ x = y
  | [], [], _, _, _, _, h => by simpa using h
  | [], d :: b, _, _, _, hb, h => by simp at h; exact absurd (h.1 ▸ List.mem_cons_self) hb
  | d :: a, [], _, _, ha, _, h => by simp at h; exact absurd (h.1 ▸ List.mem_cons_self) ha
  | d :: a, e :: b, _, _, ha, hb, h => by
    simp only [List.cons_append, List.cons.injEq] at h
    obtain ⟨h1, h2⟩ := split_unique (fun m => ha (List.mem_cons_of_mem _ m)) (fun m => hb (List.mem_cons_of_mem _ m)) h.2
    exact ⟨by rw [h.1, h1], h2⟩

theorem sameText_lower (a b : Str) : SameText a b ↔ lower a = lower b := by rw [← C04_identEq_iff_sameText, identEq_iff]

theorem lower_mem {c : Char} (hc : c = '#' ∨ c = '$') {s : Str} (h : c ∈ lower s) : c ∈ s := by
  obtain ⟨x, hx, e⟩ := List.mem_map.mp h
  by_cases hu : x.isUpper = true
  · exfalso
    have h1 := congrArg UInt32.toNat (toLower_upper hu)
    rw [e, UInt32.toNat_add] at h1
    simp only [Char.isUpper, decide_eq_true_eq] at hu
    have h2 := UInt32.le_iff_toNat_le.mp hu.1
    have h3 := UInt32.le_iff_toNat_le.mp hu.2
    rcases hc with rfl | rfl <;> simp at h1 h2 h3 <;> omega
  · rw [toLower_not_upper (by simpa using hu)] at e
    exact e ▸ hx

theorem no_mark {s : Str} (h : IsIdentifier s) {c : Char} (hc : c = '#' ∨ c = '$') : c ∉ lower s := fun hm => by
  have := identChar_of_identifier h (lower_mem hc hm)
  rcases hc with rfl | rfl <;> exact absurd this (by decide)

theorem no_mark_ns {s : Str} (h : IsNamespace s) : '#' ∉ lower s := fun hm => by
  obtain ⟨ps, _, hp, rfl⟩ := h
  have hj : ∀ ps : List Str, (∀ p ∈ ps, IsIdentifier p) → '#' ∉ joinWith ['.'] ps := by
    intro ps
    induction ps with
    | nil => intro _ h; simp [joinWith] at h
    | cons p ps ih =>
      intro hp h
      have h1 : '#' ∉ p := fun hm => absurd (identChar_of_identifier (hp p (by simp)) hm) (by decide)
      cases ps with
      | nil => exact h1 (by simpa [joinWith] using h)
      | cons q ps =>
        simp only [joinWith, List.mem_append, List.mem_singleton] at h
        rcases h with (h | h) | h
        · exact h1 h
        · exact absurd h (by decide)
        · exact ih (fun x hx => hp x (by simp [hx])) h
  exact hj ps hp (lower_mem (.inl rfl) hm)

theorem lower_display (id : ShapeID) : lower id.display = lower id.ns ++ '#' :: (lower id.name ++ match id.member with
    | none => []
    | some m => '$' :: lower m) := by
  rcases id with ⟨ns, name, _ | m⟩ <;> simp [ShapeID.display, lower] <;> rfl

/-- C113: a name equals a shape id, or an identifier, exactly if they are written the same but for the case of letters. -/
theorem C113_equal (n : ShapeName) (hn : ValidName n) :
    (∀ id : ShapeID, id.Valid → (n.eqQualified id = true ↔ SameText n.display id.display)) ∧
    (∀ l, IsIdentifier l → (n.eqLocal l = true ↔ SameText n.display l)) := by
  have hash : ∀ (id : ShapeID), '#' ∈ lower id.display := fun id => by rw [lower_display]; simp
  constructor
  · intro id hid
    rw [sameText_lower]
    cases n with
    | local' l => exact ⟨nofun, fun h => absurd (hash id) (h ▸ no_mark hn (.inl rfl))⟩
    | qualified a =>
      have hn : a.Valid := hn
      show a.ceq id = true ↔ lower a.display = lower id.display
      rw [ceq_iff]
      constructor
      · rintro ⟨h1, h2, h3⟩
        rw [lower_display, lower_display, h1, h2]
        cases ha : a.member <;> cases hb : id.member <;> simp [ha, hb] at h3
        · rfl
        · simp only [h3]
      · intro h
        rw [lower_display, lower_display] at h
        obtain ⟨h1, h2⟩ := split_unique (no_mark_ns hn.1) (no_mark_ns hid.1) h
        refine ⟨h1, ?_⟩
        have ha := no_mark hn.2.1 (c := '$') (.inr rfl)
        have hb := no_mark hid.2.1 (c := '$') (.inr rfl)
        cases hm : a.member <;> cases hm' : id.member <;> simp only [hm, hm', List.append_nil] at h2
        · exact ⟨h2, rfl⟩
        · exact absurd (h2 ▸ (by simp : '$' ∈ _ ++ '$' :: _)) ha
        · exact absurd (h2 ▸ (by simp : '$' ∈ _ ++ '$' :: _)) hb
        · obtain ⟨h3, h4⟩ := split_unique ha hb h2
          exact ⟨h3, by simp [h4]⟩
  · intro l hl
    rw [sameText_lower]
    cases n with
    | local' a => exact identEq_iff a l
    | qualified a => exact ⟨nofun, fun h => absurd (hash a) (h ▸ no_mark hl (.inl rfl))⟩

/-- C113: names of both kinds, and texts that are none. -/
theorem C113_examples :
    ShapeName.fromStr %s"a.b#S$m" = .ok (.qualified ⟨%s"a.b", %s"S", some %s"m"⟩) ∧ ShapeName.fromStr %s"S" = .ok (.local' %s"S") ∧
    ShapeName.fromStr %s"S$m" = .error (.invalidShapeID %s"S$m") ∧ ShapeName.fromStr %s"a.b" = .error (.invalidShapeID %s"a.b") ∧
    (ShapeName.local' %s"S").eqLocal %s"s" = true ∧ (ShapeName.local' %s"S").eqQualified ⟨%s"a", %s"S", none⟩ = false := by
  refine ⟨rfl, rfl, rfl, rfl, rfl, rfl⟩

end Verif
