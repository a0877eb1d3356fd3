/-
Property theorems C01-C06 (atelier-core/src/model/identity.rs).
-/
import Verif.IdentityLemmas

namespace Verif
open Spec

/-! ### C01 Identifier syntax -/

/-- C01: parsing succeeds exactly on the language of the literal regular expression, which is also the
English description, returns the text unchanged, reports the text on failure, and agrees with `is_valid`. -/
theorem C01_identifier_syntax (s : Str) :
    (∀ t, Identifier.fromStr s = .ok t ↔ (t = s ∧ reIdentifier.Matches s)) ∧
    (reIdentifier.Matches s ↔ IsIdentifier s) ∧
    (isIdent s = true ↔ ∃ t, Identifier.fromStr s = .ok t) ∧
    (¬ reIdentifier.Matches s → Identifier.fromStr s = .error (.invalidShapeID s)) := by
  have h := (isIdent_iff s).trans (identifier_iff_regex s)
  refine ⟨?_, (identifier_iff_regex s).symm, ?_, ?_⟩
  · intro t
    rw [← h]
    unfold Identifier.fromStr
    cases isIdent s
    · simp
    · simp [eq_comm]
  · unfold Identifier.fromStr
    cases isIdent s <;> simp
  · intro hn
    rw [← h] at hn
    simp [Identifier.fromStr, hn]

example : reIdentifier.Matches (%s"__aB_9") ∧ ¬ reIdentifier.Matches (%s"_9a") := by
  constructor
  · rw [← identifier_iff_regex, ← isIdent_iff]; decide
  · rw [← identifier_iff_regex, ← isIdent_iff]; decide

/-- C01: identifiers accepted by the parser are ASCII (so ASCII lower-casing is `to_lowercase` on them). -/
theorem C01_identifier_ascii (s : Str) (h : reIdentifier.Matches s) : ∀ c ∈ s, c.val.toNat < 128 := by
  intro c hc
  have := identChar_of_identifier ((identifier_iff_regex s).mpr h) hc
  simp only [identChar, Bool.or_eq_true, beq_iff_eq, Char.isAlphanum, Char.isAlpha, Char.isUpper, Char.isLower,
    Char.isDigit, Bool.and_eq_true, decide_eq_true_eq] at this
  rcases this with rfl | (⟨_, h⟩ | ⟨_, h⟩) | ⟨_, h⟩
  · decide
  all_goals
    have h' := UInt32.le_iff_toNat_le.mp h
    simp at h'
    rw [← Char.toNat_val] at h'
    omega

/-! ### C02 Namespace syntax -/

/-- C02: parsing a namespace succeeds exactly on dotted lists of identifiers, which is the language of
`RE_NAMESPACE` and also that of the namespace group of `RE_SHAPE_ID`; the text is kept. -/
theorem C02_namespace_syntax (s : Str) :
    (∀ t, NamespaceID.fromStr s = .ok t ↔ (t = s ∧ IsNamespace s)) ∧
    (IsNamespace s ↔ reNamespace.Matches s) ∧ (IsNamespace s ↔ reNamespace2.Matches s) ∧
    (¬ IsNamespace s → NamespaceID.fromStr s = .error (.invalidShapeID s)) := by
  have h := isNamespace_iff s
  refine ⟨?_, namespace_iff_regex s, namespace_iff_regex2 s, ?_⟩
  · intro t
    rw [← h]
    unfold NamespaceID.fromStr
    cases isNamespace s
    · simp
    · simp [eq_comm]
  · intro hn
    rw [← h] at hn
    simp [NamespaceID.fromStr, hn]

/-- C02: `split` on a dotted list of identifiers gives back the list, and joining the split parts gives back
the text. -/
theorem C02_namespace_split (parts : List Str) (hne : parts ≠ []) (h : ∀ p ∈ parts, IsIdentifier p) :
    NamespaceID.fromStr (joinWith ['.'] parts) = .ok (joinWith ['.'] parts) ∧
    NamespaceID.split (joinWith ['.'] parts) = parts := by
  refine ⟨((C02_namespace_syntax _).1 _).mpr ⟨rfl, parts, hne, h, rfl⟩, ?_⟩
  exact splitOn_joinWith hne fun q hq => identifier_not_mem (h q hq) (by decide)

theorem C02_namespace_split_join (s : Str) : joinWith ['.'] (NamespaceID.split s) = s := joinWith_splitOn _ _

example : [%s"com", %s"foo"] ≠ [] ∧ ∀ p ∈ [%s"com", %s"foo"], IsIdentifier p := by
  refine ⟨by simp, ?_⟩
  intro p hp
  rw [← isIdent_iff]
  simp at hp; rcases hp with rfl | rfl <;> decide

/-! ### C03 Shape id text -/

/-- C03: printing then parsing a shape id with valid components gives it back. -/
theorem C03_parse_display (id : ShapeID) (hn : IsNamespace id.ns) (hi : IsIdentifier id.name)
    (hm : ∀ m, id.member = some m → IsIdentifier m) : ShapeID.fromStr id.display = .ok id :=
  ShapeID.fromStr_display ⟨hn, hi, hm⟩

/-- C03: parsing then printing gives back the text, and the components are valid. -/
theorem C03_display_parse (s : Str) (id : ShapeID) (h : ShapeID.fromStr s = .ok id) :
    id.display = s ∧ IsNamespace id.ns ∧ IsIdentifier id.name ∧ (∀ m, id.member = some m → IsIdentifier m) :=
  ⟨(ShapeID.of_fromStr h).2, (ShapeID.of_fromStr h).1⟩

/-- C03: the parser computes exactly the capture groups of the literal regular expression. -/
theorem C03_fromStr_iff_captures (s : Str) (id : ShapeID) :
    ShapeID.fromStr s = .ok id ↔ Captures s id.ns id.name id.member := by
  have hd : ∀ id : ShapeID, id.display =
      id.ns ++ ['#'] ++ id.name ++ memberText id.member := by
    intro id; unfold ShapeID.display memberText; cases id.member <;> simp
  constructor
  · intro h
    obtain ⟨⟨h1, h2, h3⟩, rfl⟩ := ShapeID.of_fromStr h
    exact ⟨(namespace_iff_regex2 _).mp h1, (identifier_iff_regex _).mp h2,
      fun m hm => (identifier_iff_regex _).mp (h3 m hm), hd id⟩
  · rintro ⟨h1, h2, h3, hs⟩
    rw [hs, ← hd id]
    exact ShapeID.fromStr_display ⟨(namespace_iff_regex2 _).mpr h1, (identifier_iff_regex _).mpr h2,
      fun m hm => (identifier_iff_regex _).mpr (h3 m hm)⟩

/-- C03: the parser accepts exactly the language of the literal regular expression. -/
theorem C03_isValid_iff_regex (s : Str) : ShapeID.isValid s = true ↔ reShapeID.Matches s := by
  have key : ShapeID.isValid s = true ↔ ∃ id, ShapeID.fromStr s = .ok id := by
    unfold ShapeID.isValid; cases ShapeID.fromStr s <;> simp
  rw [key]
  unfold reShapeID
  simp only [matches_seq, matches_opt, RE.chr, matches_cls]
  constructor
  · rintro ⟨id, h⟩
    obtain ⟨h1, h2, h3, hs⟩ := (C03_fromStr_iff_captures s id).mp h
    refine ⟨id.ns, _, ?_, h1, ['#'], _, rfl, ⟨'#', rfl, by decide⟩, id.name,
      memberText id.member, rfl, h2, ?_⟩
    · rw [hs]; simp
    · unfold memberText
      cases hm : id.member with
      | none => exact .inl rfl
      | some m => exact .inr ⟨['$'], m, rfl, ⟨'$', rfl, by decide⟩, h3 m hm⟩
  · rintro ⟨ns, r1, rfl, h1, c1, r2, rfl, ⟨c, rfl, hc⟩, n, r3, rfl, h2, h3⟩
    simp at hc; subst hc
    rcases h3 with rfl | ⟨c2, m, rfl, ⟨d, rfl, hd⟩, hm⟩
    · exact ⟨⟨ns, n, none⟩, (C03_fromStr_iff_captures _ _).mpr ⟨h1, h2, by simp, by simp [memberText]⟩⟩
    · simp at hd; subst hd
      exact ⟨⟨ns, n, some m⟩, (C03_fromStr_iff_captures _ _).mpr ⟨h1, h2, by simpa using hm, by simp [memberText]⟩⟩

/-- C03: printing is injective on ids with valid components. -/
theorem C03_display_injective (a b : ShapeID) (ha : a.Valid) (hb : b.Valid) (h : a.display = b.display) : a = b := by
  have h1 := ShapeID.fromStr_display ha
  rw [h, ShapeID.fromStr_display hb] at h1
  cases h1; rfl

example : (⟨%s"com.foo.baz", %s"ShapeName", some (%s"memberName")⟩ : ShapeID).Valid := by
  refine ⟨(isNamespace_iff _).mp (by decide), (isIdent_iff _).mp (by decide), ?_⟩
  intro m hm; cases hm; exact (isIdent_iff _).mp (by decide)

/-! ### C04 Equality -/

/-- Two characters that are the same up to ASCII case (specification). -/
def SameLetter (x y : Char) : Prop :=
  x = y ∨ (x.isUpper = true ∧ y.val = x.val + 32) ∨ (y.isUpper = true ∧ x.val = y.val + 32)

/-- Two texts that are the same up to ASCII case, position by position (specification). -/
inductive SameText : Str → Str → Prop where
  | nil : SameText [] []
  | cons {x y s t} : SameLetter x y → SameText s t → SameText (x :: s) (y :: t)

theorem toLower_upper {c : Char} (h : c.isUpper = true) : c.toLower.val = c.val + 32 := by
  unfold Char.toLower
  simp only [Char.isUpper, Bool.and_eq_true, decide_eq_true_eq] at h
  split
  · rfl
  · rename_i hn; exact absurd h hn

theorem toLower_not_upper {c : Char} (h : ¬ c.isUpper = true) : c.toLower = c := by
  unfold Char.toLower
  simp only [Char.isUpper, Bool.and_eq_true, decide_eq_true_eq] at h
  split
  · rename_i hn; exact absurd hn h
  · rfl

theorem toLower_eq_iff (x y : Char) : x.toLower = y.toLower ↔ SameLetter x y := by
  have ext : ∀ {a b : Char}, a.val = b.val → a = b := fun h => Char.ext h
  have up : ∀ {c d : Char}, c.isUpper = true → d.val = c.val + 32 → ¬ d.isUpper = true := by
    intro c d hc hd hu
    simp only [Char.isUpper, Bool.and_eq_true, decide_eq_true_eq] at hc hu
    have h1 := UInt32.le_iff_toNat_le.mp hc.1
    have h2 := UInt32.le_iff_toNat_le.mp hc.2
    have h3 := UInt32.le_iff_toNat_le.mp hu.2
    have h4 := congrArg UInt32.toNat hd
    rw [UInt32.toNat_add] at h4
    simp at h1 h2 h3 h4
    omega
  constructor
  · intro h
    by_cases hx : x.isUpper = true <;> by_cases hy : y.isUpper = true
    · left; apply ext
      have h1 := toLower_upper hx
      have h2 := toLower_upper hy
      rw [h, h2] at h1
      exact (UInt32.add_left_inj 32).mp h1.symm
    · right; left; refine ⟨hx, ?_⟩
      have h1 := toLower_upper hx
      rw [h, toLower_not_upper hy] at h1; exact h1
    · right; right; refine ⟨hy, ?_⟩
      have h1 := toLower_upper hy
      rw [← h, toLower_not_upper hx] at h1; exact h1
    · left; rw [toLower_not_upper hx, toLower_not_upper hy] at h; exact h
  · rintro (rfl | ⟨hu, h⟩ | ⟨hu, h⟩)
    · rfl
    · apply ext; rw [toLower_upper hu, toLower_not_upper (up hu h), h]
    · apply ext; rw [toLower_upper hu, toLower_not_upper (up hu h), h]

/-- C04: `==` on identifiers and namespaces ignores ASCII letter case and nothing else. -/
theorem C04_identEq_iff_sameText (a b : Str) : identEq a b = true ↔ SameText a b := by
  rw [identEq_iff]
  induction a generalizing b with
  | nil =>
    cases b with
    | nil => exact ⟨fun _ => .nil, fun _ => rfl⟩
    | cons y t => exact ⟨fun h => by simp [lower] at h, fun h => by cases h⟩
  | cons x s ih =>
    cases b with
    | nil => exact ⟨fun h => by simp [lower] at h, fun h => by cases h⟩
    | cons y t =>
      constructor
      · intro h
        simp only [lower, List.map_cons, List.cons.injEq] at h
        exact .cons ((toLower_eq_iff x y).mp h.1) ((ih t).mp h.2)
      · intro h
        cases h with
        | cons h1 h2 =>
          simp only [lower, List.map_cons, List.cons.injEq]
          exact ⟨(toLower_eq_iff x y).mpr h1, (ih t).mpr h2⟩

/-- C04: `==` on shape ids is component-wise equality up to case; a shape id never equals a member id. -/
theorem C04_ceq_iff (a b : ShapeID) : a.ceq b = true ↔
    SameText a.ns b.ns ∧ SameText a.name b.name ∧
      ((a.member = none ∧ b.member = none) ∨
        ∃ x y, a.member = some x ∧ b.member = some y ∧ SameText x y) := by
  rw [ceq_iff]
  rw [← C04_identEq_iff_sameText, ← C04_identEq_iff_sameText, identEq_iff, identEq_iff]
  cases ha : a.member <;> cases hb : b.member <;> simp [← C04_identEq_iff_sameText, identEq_iff]

/-- C04: `==` is an equivalence relation on shape ids. -/
theorem C04_ceq_equivalence : Equivalence (fun a b : ShapeID => a.ceq b = true) :=
  ⟨ceq_refl, ceq_symm, ceq_trans⟩

/-- C04: `==` is an equivalence relation on identifiers and namespaces. -/
theorem C04_identEq_equivalence : Equivalence (fun a b : Str => identEq a b = true) :=
  ⟨identEq_refl, identEq_symm, identEq_trans⟩

/-- C04: a shape id and its member ids are never equal. -/
theorem C04_member_ne_shape (id : ShapeID) (m : Str) : (id.makeMember m).ceq id.shapeOnly = false := by
  have : ¬ (id.makeMember m).ceq id.shapeOnly = true := by
    rw [ceq_iff]
    rintro ⟨_, _, h⟩
    unfold ShapeID.makeMember ShapeID.shapeOnly ShapeID.isMember at h
    cases hm : id.member <;> simp [hm] at h
  simpa using this

example : (⟨%s"com.Foo", %s"Bar", none⟩ : ShapeID).ceq ⟨%s"COM.foo", %s"bAR", none⟩ = true := by decide

/-! ### C05 The hash-map key contract -/

/-- Flip the case of an ASCII letter. -/
def flipCase (c : Char) : Char := if c.isUpper then c.toLower else c.toUpper

theorem alpha_flip {c : Char} (h : c.isAlpha = true) :
    (flipCase c).isAlpha = true ∧ flipCase c ≠ c ∧ (flipCase c).toLower = c.toLower := by
  have key : ∀ n : Fin 128, (Char.ofNat n.val).isAlpha = true →
      (flipCase (Char.ofNat n.val)).isAlpha = true ∧ flipCase (Char.ofNat n.val) ≠ Char.ofNat n.val ∧
        (flipCase (Char.ofNat n.val)).toLower = (Char.ofNat n.val).toLower := by decide +kernel
  have hlt : c.toNat < 128 := by
    simp only [Char.isAlpha, Char.isUpper, Char.isLower, Bool.or_eq_true, Bool.and_eq_true,
      decide_eq_true_eq] at h
    rcases h with ⟨_, h⟩ | ⟨_, h⟩ <;>
    · have h' := UInt32.le_iff_toNat_le.mp h
      simp at h'
      omega
  have := key ⟨c.toNat, hlt⟩
  simp only [Char.ofNat_toNat] at this
  exact this h

/-- C05 (negation): the contract "equal ids hash equally" fails for *every* valid shape id: each one has an
equal (`==`) valid id that feeds different data to the hasher. -/
theorem C05_hash_contract_violated (id : ShapeID) (h : id.Valid) :
    ∃ b : ShapeID, b.Valid ∧ id.ceq b = true ∧ b.hashInput ≠ id.hashInput := by
  obtain ⟨ns, n, m⟩ := id
  obtain ⟨h1, ⟨k, c, rest, rfl, hc, hr⟩, h3⟩ := h
  obtain ⟨f1, f2, f3⟩ := alpha_flip hc
  refine ⟨⟨ns, List.replicate k '_' ++ flipCase c :: rest, m⟩, ⟨h1, ⟨k, _, rest, rfl, f1, hr⟩, h3⟩, ?_, ?_⟩
  · rw [ceq_iff]
    simp [lower, f3]
  · simp [ShapeID.hashInput, identHashInput, f2]

example : (⟨%s"a.b", %s"Shape", none⟩ : ShapeID).Valid :=
  ⟨(isNamespace_iff _).mp (by decide), (isIdent_iff _).mp (by decide), by simp⟩

/-- A `HashMap::get` whose key comparison is decided by an oracle: the table may or may not find a key that
is `==` but hashes differently, depending on the hash seed and table layout. -/
def AMap.getBy {V : Type} (hit : ShapeID → ShapeID → Bool) (m : AMap ShapeID V) (k : ShapeID) : Option V :=
  (m.find? fun e => hit k e.1).map (·.2)

/-- What any run-time table can do: the identical key is always found, and only `==` keys are found. -/
structure LookupOracle (hit : ShapeID → ShapeID → Bool) : Prop where
  refl : ∀ k, hit k k = true
  sound : ∀ a b, hit a b = true → a.ceq b = true

/-- C05: when no stored key differs from the looked-up key
only by case, every lookup oracle finds exactly what exact-text lookup finds (`C05_lookup_iff` has
all tables). -/
theorem C05_lookup {V : Type} (hit : ShapeID → ShapeID → Bool) (ho : LookupOracle hit)
    (m : AMap ShapeID V) (k : ShapeID) (hd : ∀ a ∈ AMap.keys m, k.ceq a = true → k = a) :
    AMap.getBy hit m k = AMap.get m k := by
  induction m with
  | nil => rfl
  | cons e m ih =>
    obtain ⟨a, v⟩ := e
    have ih' := ih fun x hx => hd x (by simp [AMap.keys_cons, hx])
    have hda := hd a (by simp [AMap.keys_cons])
    unfold AMap.getBy at *
    rw [List.find?_cons, AMap.get_cons]
    by_cases h : a = k
    · subst h; simp [ho.refl]
    · have : hit k a = false := by
        by_cases hh : hit k a = true
        · exact absurd (hda (ho.sound _ _ hh)).symm h
        · simpa using hh
      simp only [this, h, if_false]
      exact ih'

/-- C05: two oracles allowed by the run time can disagree, so a lookup with an equal id is not determined. -/
theorem C05_lookup_not_determined : ∃ (m : AMap ShapeID Nat) (k : ShapeID) (h1 h2 : ShapeID → ShapeID → Bool),
    LookupOracle h1 ∧ LookupOracle h2 ∧ AMap.getBy h1 m k ≠ AMap.getBy h2 m k := by
  refine ⟨[(⟨%s"a", %s"B", none⟩, 1)], ⟨%s"a", %s"b", none⟩, fun a b => decide (a = b), fun a b => a.ceq b,
    ⟨by simp, ?_⟩, ⟨ceq_refl, fun _ _ h => h⟩, by decide⟩
  intro a b h
  simp at h; subst h; exact ceq_refl _

/-- The exact-equality oracle of the rest of the model is one the run time may implement. -/
example : LookupOracle (fun a b => decide (a = b)) :=
  ⟨by simp, by intro a b h; simp at h; subst h; exact ceq_refl _⟩

/-! ### C06 Navigation -/

/-- C06: `shape_only` removes exactly the member part and is idempotent. -/
theorem C06_shapeOnly (id : ShapeID) :
    id.shapeOnly = ⟨id.ns, id.name, none⟩ ∧ id.shapeOnly.shapeOnly = id.shapeOnly ∧
    id.shapeOnly.isMember = false := by
  obtain ⟨ns, n, m⟩ := id
  cases m <;> simp [ShapeID.shapeOnly, ShapeID.isMember]

/-- C06: `make_member` sets exactly the member part; `make_shape` sets exactly the name part. -/
theorem C06_make (id : ShapeID) (m n : Str) :
    id.makeMember m = ⟨id.ns, id.name, some m⟩ ∧ (id.makeMember m).shapeOnly = id.shapeOnly ∧
    (id.makeMember m).isMember = true ∧ id.makeShape n = ⟨id.ns, n, id.member⟩ := by
  obtain ⟨ns, n', m'⟩ := id
  cases m' <;> simp [ShapeID.makeMember, ShapeID.shapeOnly, ShapeID.isMember, ShapeID.makeShape]

/-- C06: `is_valid_member` holds exactly when `self` has no member part, `other` has one, and `other` without its
member part equals `self`. -/
theorem C06_isValidMember_iff (a b : ShapeID) :
    a.isValidMember b = true ↔ a.member = none ∧ (∃ m, b.member = some m) ∧ b.shapeOnly.ceq a = true := by
  obtain ⟨ns, n, m⟩ := a
  obtain ⟨ns', n', m'⟩ := b
  cases m <;> cases m' <;>
    simp [ShapeID.isValidMember, ShapeID.isMember, ShapeID.shapeOnly, ceq_iff, ShapeID.isInSameNamespace,
      identEq_iff, eq_comm (a := lower ns), eq_comm (a := lower n)]

/-- C06: the member ids made from a shape are valid members of it. -/
theorem C06_makeMember_valid (a : ShapeID) (h : a.member = none) (m : Str) :
    a.isValidMember (a.makeMember m) = true := by
  rw [C06_isValidMember_iff]
  refine ⟨h, ⟨m, rfl⟩, ?_⟩
  rw [(C06_make a m []).2.1, (C06_shapeOnly a).1]
  obtain ⟨ns, n, m'⟩ := a
  simp at h; subst h; exact ceq_refl _

/-- C06: `ShapeID::shape` / `ShapeID::member` build the id with the given components exactly when they are
valid, and otherwise panic. -/
theorem C06_constructors (ns n m : Str) :
    (IsNamespace ns ∧ IsIdentifier n → ShapeID.shape ns n = .ok ⟨ns, n, none⟩) ∧
    (¬ (IsNamespace ns ∧ IsIdentifier n) → ShapeID.shape ns n = .error .panic) ∧
    (IsNamespace ns ∧ IsIdentifier n ∧ IsIdentifier m → ShapeID.memberOf ns n m = .ok ⟨ns, n, some m⟩) ∧
    (¬ (IsNamespace ns ∧ IsIdentifier n ∧ IsIdentifier m) → ShapeID.memberOf ns n m = .error .panic) := by
  rw [← isNamespace_iff, ← isIdent_iff, ← isIdent_iff]
  unfold ShapeID.shape ShapeID.memberOf NamespaceID.fromStr Identifier.fromStr
  cases isNamespace ns <;> cases isIdent n <;> cases isIdent m <;> simp

example : IsNamespace (%s"com.foo") ∧ IsIdentifier (%s"Bar") ∧ IsIdentifier (%s"baz") ∧
    (⟨%s"com.foo", %s"Bar", none⟩ : ShapeID).isValidMember ⟨%s"com.FOO", %s"bar", some (%s"baz")⟩ = true := by
  rw [← isNamespace_iff, ← isIdent_iff, ← isIdent_iff]; decide

end Verif
