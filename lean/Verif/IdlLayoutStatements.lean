/-
The statements of the Smithy IDL in any layout: what they are read as.
-/
import Verif.IdlLayoutShapes

namespace Verif
open Peg Spec Spec.Idl
open IdlGrammar (r null rank named)

/-! ### The fields of an object -/

/-- The value of a key gives one name, in place of the one before. -/
def OneField (o : List (Str × Value)) (key : Str) (before after : Option ShapeName) : Prop :=
  (AMap.get o key = none ∧ after = before) ∨ ∃ v n, AMap.get o key = some v ∧ Names v n ∧ after = some n

/-- The value of a key gives names, after the ones before. -/
def ListField (o : List (Str × Value)) (key : Str) (before after : List ShapeName) : Prop :=
  (AMap.get o key = none ∧ after = before) ∨ ∃ vs ns, AMap.get o key = some (.array vs) ∧ List.Forall₂ Names vs ns ∧ after = before ++ ns

theorem oneField_of {o : AMap Str Value} {key : Str} {n : Option ShapeName} (h : NamesOne (AMap.get o key) n) : OneField o key none n := by
  rcases h with ⟨h, rfl⟩ | ⟨x, y, h1, h2, h3⟩
  · exact .inl ⟨h, rfl⟩
  · exact .inr ⟨x, y, h1, h3, h2⟩

theorem listField_of {o : AMap Str Value} {key : Str} {n : List ShapeName} (h : NamesAll (AMap.get o key) n) : ListField o key [] n := by
  rcases h with ⟨h, rfl⟩ | ⟨x, h1, h2⟩
  · exact .inl ⟨h, rfl⟩
  · exact .inr ⟨x, n, h1, h2, by simp⟩

theorem anyName_fromStr {n : ShapeName} {t : Str} : AnyName n t ↔ ShapeName.fromStr t = .ok n := by
  constructor
  · intro h
    cases h with
    | bare h => exact ((C24_name_syntax _).2.2.1 _).mpr ⟨rfl, h⟩
    | absolute h1 h2 => 
      refine ((C24_name_syntax _).2.1 _).mpr ?_
      have := C03_parse_display ⟨_, _, none⟩ h1 h2 (by simp)
      simpa [ShapeID.display] using this
    | member h1 h2 h3 =>
      refine ((C24_name_syntax _).2.1 _).mpr ?_
      have := C03_parse_display ⟨_, _, some _⟩ h1 h2 (by rintro m ⟨⟩; exact h3)
      simpa [ShapeID.display] using this
  · intro h
    cases n with
    | local' l =>
      obtain ⟨rfl, h⟩ := ((C24_name_syntax _).2.2.1 _).mp h
      exact .bare h
    | qualified id =>
      obtain ⟨rfl, h1, h2, h3⟩ := C03_display_parse _ _ (((C24_name_syntax _).2.1 _).mp h)
      obtain ⟨ns, n, m⟩ := id
      cases m with
      | none => simpa [ShapeID.display] using AnyName.absolute h1 h2
      | some m => simpa [ShapeID.display] using AnyName.member h1 h2 (h3 m rfl)

theorem nameOf_names {v : Value} {n : ShapeName} (h : Names v n) : IdlParser.nameOf v = .ok n := by
  obtain ⟨t, rfl, h⟩ := h
  change unwrap (ShapeName.fromStr t) = _
  rw [anyName_fromStr.mp h]
  rfl

theorem namesIn_all {vs : List Value} {ns : List ShapeName} (h : List.Forall₂ Names vs ns) : IdlParser.namesIn vs = .ok ns := by
  induction h with
  | nil => rfl
  | @cons v n vs ns h _ ih =>
    change (IdlParser.nameOf v >>= fun n => IdlParser.namesIn vs >>= fun ns => pure (n :: ns)) = _
    rw [nameOf_names h, ih]
    rfl

theorem get_skip {k key : Str} {v : Value} {o : List (Str × Value)} (h : key ≠ k) : AMap.get ((k, v) :: o) key = AMap.get o key := by
  rw [AMap.get_cons, if_neg (Ne.symm h)]

theorem get_take {k : Str} {v : Value} {o : List (Str × Value)} : AMap.get ((k, v) :: o) k = some v := by
  rw [AMap.get_cons, if_pos rfl]

theorem get_rest {k : Str} {v : Value} {o : List (Str × Value)} (h : AMap.Wf ((k, v) :: o)) : AMap.get o k = none ∧ AMap.Wf o := by
  obtain ⟨h1, h2⟩ := AMap.wf_cons.mp h
  exact ⟨(AMap.not_mem_keys_iff _ _).mp h1, h2⟩

theorem OneField.skip {k key : Str} {v : Value} {o : List (Str × Value)} {a b : Option ShapeName} (h : OneField ((k, v) :: o) key a b) (hk : key ≠ k) : OneField o key a b := by
  unfold OneField at h ⊢
  rwa [get_skip hk] at h

theorem ListField.skip {k key : Str} {v : Value} {o : List (Str × Value)} {a b : List ShapeName} (h : ListField ((k, v) :: o) key a b) (hk : key ≠ k) : ListField o key a b := by
  unfold ListField at h ⊢
  rwa [get_skip hk] at h

theorem OneField.take {k : Str} {v : Value} {o : List (Str × Value)} {a b : Option ShapeName} (h : OneField ((k, v) :: o) k a b) (hk : AMap.get o k = none) :
    ∃ n, IdlParser.nameOf v = .ok n ∧ OneField o k (some n) b := by
  unfold OneField at h
  rw [get_take] at h
  rcases h with ⟨h, -⟩ | ⟨_, n, h1, h2, rfl⟩
  · cases h
  · cases h1
    exact ⟨n, nameOf_names h2, .inl ⟨hk, rfl⟩⟩

theorem ListField.take {k : Str} {v : Value} {o : List (Str × Value)} {a b : List ShapeName} (h : ListField ((k, v) :: o) k a b) (hk : AMap.get o k = none) :
    ∃ ns, (∀ place, IdlParser.namesOf place v = .ok ns) ∧ ListField o k (a ++ ns) b := by
  unfold ListField at h
  rw [get_take] at h
  rcases h with ⟨h, -⟩ | ⟨vs, ns, h1, h2, rfl⟩
  · cases h
  · cases h1
    exact ⟨ns, fun _ => namesIn_all h2, .inl ⟨hk, rfl⟩⟩

theorem OneField.done {key : Str} {a b : Option ShapeName} (h : OneField [] key a b) : b = a := by
  rcases h with ⟨-, h⟩ | ⟨_, _, h, -⟩
  · exact h
  · cases h

theorem ListField.done {key : Str} {a b : List ShapeName} (h : ListField [] key a b) : b = a := by
  rcases h with ⟨-, h⟩ | ⟨_, _, h, -⟩
  · exact h
  · cases h

theorem only_cons {keys : List Str} {k : Str} {v : Value} {o : List (Str × Value)} (h : Only keys ((k, v) :: o)) (hw : AMap.Wf ((k, v) :: o)) :
    k ∈ keys ∧ Only keys o := by
  refine ⟨h k v get_take, fun j x hj => h j x ?_⟩
  have : j ≠ k := by rintro rfl; rw [(get_rest hw).1] at hj; cases hj
  rwa [get_skip this]

theorem serviceLoop_fields {o : List (Str × Value)} (hw : AMap.Wf o) (ho : Only [%s"version", %s"operations", %s"resources"] o) {a1 b1 a2 b2 : List ShapeName}
    (h1 : ListField o %s"operations" a1 b1) (h2 : ListField o %s"resources" a2 b2) : IdlParser.serviceLoop a1 a2 o = .ok (b1, b2) := by
  induction o generalizing a1 a2 with
  | nil => rw [h1.done, h2.done]; rfl
  | cons e o ih =>
    obtain ⟨k, v⟩ := e
    obtain ⟨hk, ho'⟩ := only_cons ho hw
    obtain ⟨hr, hw'⟩ := get_rest hw
    simp only [List.mem_cons, List.not_mem_nil, or_false] at hk
    rcases hk with rfl | rfl | rfl
    · exact ih hw' ho' (h1.skip (by decide)) (h2.skip (by decide))
    · obtain ⟨n, e, h⟩ := h1.take hr
      change (IdlParser.namesOf _ v >>= fun y => IdlParser.serviceLoop (a1 ++ y) a2 o) = _
      rw [e]
      exact ih hw' ho' h (h2.skip (by decide))
    · obtain ⟨n, e, h⟩ := h2.take hr
      change (IdlParser.namesOf _ v >>= fun y => IdlParser.serviceLoop a1 (a2 ++ y) o) = _
      rw [e]
      exact ih hw' ho' (h1.skip (by decide)) h

theorem operationLoop_fields {o : List (Str × Value)} (hw : AMap.Wf o) (ho : Only [%s"input", %s"output", %s"errors"] o) {a1 b1 a2 b2 : Option ShapeName}
    {a3 b3 : List ShapeName} (h1 : OneField o %s"input" a1 b1) (h2 : OneField o %s"output" a2 b2) (h3 : ListField o %s"errors" a3 b3) :
    IdlParser.operationLoop a1 a2 a3 o = .ok (.operation b1 b2 b3) := by
  induction o generalizing a1 a2 a3 with
  | nil => rw [h1.done, h2.done, h3.done]; rfl
  | cons e o ih =>
    obtain ⟨k, v⟩ := e
    obtain ⟨hk, ho'⟩ := only_cons ho hw
    obtain ⟨hr, hw'⟩ := get_rest hw
    simp only [List.mem_cons, List.not_mem_nil, or_false] at hk
    rcases hk with rfl | rfl | rfl
    · obtain ⟨n, e, h⟩ := h1.take hr
      change (IdlParser.nameOf v >>= fun y => IdlParser.operationLoop (some y) a2 a3 o) = _
      rw [e]
      exact ih hw' ho' h (h2.skip (by decide)) (h3.skip (by decide))
    · obtain ⟨n, e, h⟩ := h2.take hr
      change (IdlParser.nameOf v >>= fun y => IdlParser.operationLoop a1 (some y) a3 o) = _
      rw [e]
      exact ih hw' ho' (h1.skip (by decide)) h (h3.skip (by decide))
    · obtain ⟨n, e, h⟩ := h3.take hr
      change (IdlParser.namesOf _ v >>= fun y => IdlParser.operationLoop a1 a2 (a3 ++ y) o) = _
      rw [e]
      exact ih hw' ho' (h1.skip (by decide)) (h2.skip (by decide)) h

/-! ### Resources -/

theorem identifiersIn_all {o : List (Str × Value)} {l : List (Str × ShapeName)} (h : List.Forall₂ (fun e i => i.1 = e.1 ∧ IsIdentifier e.1 ∧ Names e.2 i.2) o l)
    (acc : AMap Str ShapeName) : IdlParser.identifiersIn acc o = .ok (l.foldl (fun m e => AMap.insert m e.1 e.2) acc) := by
  induction h generalizing acc with
  | nil => rfl
  | @cons e i o l h _ ih =>
    obtain ⟨k, v⟩ := e
    obtain ⟨j, n⟩ := i
    obtain ⟨rfl, h2, t, rfl, h3⟩ := h
    change (unwrap (Identifier.fromStr j) >>= fun k => unwrap (ShapeName.fromStr t) >>= fun n => IdlParser.identifiersIn (AMap.insert acc k n) o) = _
    rw [show Identifier.fromStr j = .ok j by unfold Identifier.fromStr; rw [if_pos ((isIdent_iff j).mpr h2)], anyName_fromStr.mp h3]
    exact ih _

/-- The value of the key gives identifiers. -/
def IdsField (o : List (Str × Value)) (before after : AMap Str ShapeName) : Prop :=
  (AMap.get o %s"identifiers" = none ∧ after = before) ∨ (before = [] ∧ NamesBy (AMap.get o %s"identifiers") after)

theorem IdsField.skip {k : Str} {v : Value} {o : List (Str × Value)} {a b : AMap Str ShapeName} (h : IdsField ((k, v) :: o) a b) (hk : %s"identifiers" ≠ k) : IdsField o a b := by
  unfold IdsField at h ⊢
  rwa [get_skip hk] at h

theorem IdsField.take {v : Value} {o : List (Str × Value)} {a b : AMap Str ShapeName} (h : IdsField ((%s"identifiers", v) :: o) a b) (hk : AMap.get o %s"identifiers" = none) :
    ∃ n, IdlParser.identifiersOf a v = .ok n ∧ IdsField o n b := by
  unfold IdsField at h
  rw [get_take] at h
  rcases h with ⟨h, -⟩ | ⟨rfl, ⟨h, -⟩ | ⟨o', l, h, hf, rfl⟩⟩
  · cases h
  · cases h
  · cases h
    exact ⟨_, identifiersIn_all hf [], .inl ⟨hk, rfl⟩⟩

theorem IdsField.done {a b : AMap Str ShapeName} (h : IdsField [] a b) : b = a := by
  rcases h with ⟨-, h⟩ | ⟨rfl, ⟨-, h⟩ | ⟨_, _, h, -⟩⟩
  · exact h
  · exact h
  · cases h

theorem resourceLoop_fields {o : List (Str × Value)} (hw : AMap.Wf o)
    (ho : Only [%s"identifiers", %s"create", %s"put", %s"read", %s"update", %s"delete", %s"list", %s"operations", %s"collectionOperations", %s"resources"] o)
    {a1 b1 : AMap Str ShapeName} {a2 b2 a3 b3 a4 b4 a5 b5 a6 b6 a7 b7 : Option ShapeName} {a8 b8 a9 b9 a10 b10 : List ShapeName}
    (h1 : IdsField o a1 b1) (h2 : OneField o %s"create" a2 b2) (h3 : OneField o %s"put" a3 b3) (h4 : OneField o %s"read" a4 b4)
    (h5 : OneField o %s"update" a5 b5) (h6 : OneField o %s"delete" a6 b6) (h7 : OneField o %s"list" a7 b7) (h8 : ListField o %s"operations" a8 b8)
    (h9 : ListField o %s"collectionOperations" a9 b9) (h10 : ListField o %s"resources" a10 b10) :
    IdlParser.resourceLoop ⟨a1, a2, a3, a4, a5, a6, a7, a8, a9, a10⟩ o = .ok ⟨b1, b2, b3, b4, b5, b6, b7, b8, b9, b10⟩ := by
  induction o generalizing a1 a2 a3 a4 a5 a6 a7 a8 a9 a10 with
  | nil => rw [h1.done, h2.done, h3.done, h4.done, h5.done, h6.done, h7.done, h8.done, h9.done, h10.done]; rfl
  | cons e o ih =>
    obtain ⟨k, v⟩ := e
    obtain ⟨hk, ho'⟩ := only_cons ho hw
    obtain ⟨hr, hw'⟩ := get_rest hw
    simp only [List.mem_cons, List.not_mem_nil, or_false] at hk
    rcases hk with rfl | rfl | rfl | rfl | rfl | rfl | rfl | rfl | rfl | rfl
    · obtain ⟨n, e, h⟩ := h1.take hr
      change (IdlParser.identifiersOf a1 v >>= fun y => IdlParser.resourceLoop ⟨y, a2, a3, a4, a5, a6, a7, a8, a9, a10⟩ o) = _
      rw [e]
      exact ih hw' ho' h (h2.skip (by decide)) (h3.skip (by decide)) (h4.skip (by decide)) (h5.skip (by decide)) (h6.skip (by decide)) (h7.skip (by decide))
        (h8.skip (by decide)) (h9.skip (by decide)) (h10.skip (by decide))
    · obtain ⟨n, e, h⟩ := h2.take hr
      change (IdlParser.nameOf v >>= fun y => IdlParser.resourceLoop ⟨a1, some y, a3, a4, a5, a6, a7, a8, a9, a10⟩ o) = _
      rw [e]
      exact ih hw' ho' (h1.skip (by decide)) h (h3.skip (by decide)) (h4.skip (by decide)) (h5.skip (by decide)) (h6.skip (by decide)) (h7.skip (by decide))
        (h8.skip (by decide)) (h9.skip (by decide)) (h10.skip (by decide))
    · obtain ⟨n, e, h⟩ := h3.take hr
      change (IdlParser.nameOf v >>= fun y => IdlParser.resourceLoop ⟨a1, a2, some y, a4, a5, a6, a7, a8, a9, a10⟩ o) = _
      rw [e]
      exact ih hw' ho' (h1.skip (by decide)) (h2.skip (by decide)) h (h4.skip (by decide)) (h5.skip (by decide)) (h6.skip (by decide)) (h7.skip (by decide))
        (h8.skip (by decide)) (h9.skip (by decide)) (h10.skip (by decide))
    · obtain ⟨n, e, h⟩ := h4.take hr
      change (IdlParser.nameOf v >>= fun y => IdlParser.resourceLoop ⟨a1, a2, a3, some y, a5, a6, a7, a8, a9, a10⟩ o) = _
      rw [e]
      exact ih hw' ho' (h1.skip (by decide)) (h2.skip (by decide)) (h3.skip (by decide)) h (h5.skip (by decide)) (h6.skip (by decide)) (h7.skip (by decide))
        (h8.skip (by decide)) (h9.skip (by decide)) (h10.skip (by decide))
    · obtain ⟨n, e, h⟩ := h5.take hr
      change (IdlParser.nameOf v >>= fun y => IdlParser.resourceLoop ⟨a1, a2, a3, a4, some y, a6, a7, a8, a9, a10⟩ o) = _
      rw [e]
      exact ih hw' ho' (h1.skip (by decide)) (h2.skip (by decide)) (h3.skip (by decide)) (h4.skip (by decide)) h (h6.skip (by decide)) (h7.skip (by decide))
        (h8.skip (by decide)) (h9.skip (by decide)) (h10.skip (by decide))
    · obtain ⟨n, e, h⟩ := h6.take hr
      change (IdlParser.nameOf v >>= fun y => IdlParser.resourceLoop ⟨a1, a2, a3, a4, a5, some y, a7, a8, a9, a10⟩ o) = _
      rw [e]
      exact ih hw' ho' (h1.skip (by decide)) (h2.skip (by decide)) (h3.skip (by decide)) (h4.skip (by decide)) (h5.skip (by decide)) h (h7.skip (by decide))
        (h8.skip (by decide)) (h9.skip (by decide)) (h10.skip (by decide))
    · obtain ⟨n, e, h⟩ := h7.take hr
      change (IdlParser.nameOf v >>= fun y => IdlParser.resourceLoop ⟨a1, a2, a3, a4, a5, a6, some y, a8, a9, a10⟩ o) = _
      rw [e]
      exact ih hw' ho' (h1.skip (by decide)) (h2.skip (by decide)) (h3.skip (by decide)) (h4.skip (by decide)) (h5.skip (by decide)) (h6.skip (by decide)) h
        (h8.skip (by decide)) (h9.skip (by decide)) (h10.skip (by decide))
    · obtain ⟨n, e, h⟩ := h8.take hr
      change (IdlParser.namesOf _ v >>= fun y => IdlParser.resourceLoop ⟨a1, a2, a3, a4, a5, a6, a7, a8 ++ y, a9, a10⟩ o) = _
      rw [e]
      exact ih hw' ho' (h1.skip (by decide)) (h2.skip (by decide)) (h3.skip (by decide)) (h4.skip (by decide)) (h5.skip (by decide)) (h6.skip (by decide)) (h7.skip (by decide))
        h (h9.skip (by decide)) (h10.skip (by decide))
    · obtain ⟨n, e, h⟩ := h9.take hr
      change (IdlParser.namesOf _ v >>= fun y => IdlParser.resourceLoop ⟨a1, a2, a3, a4, a5, a6, a7, a8, a9 ++ y, a10⟩ o) = _
      rw [e]
      exact ih hw' ho' (h1.skip (by decide)) (h2.skip (by decide)) (h3.skip (by decide)) (h4.skip (by decide)) (h5.skip (by decide)) (h6.skip (by decide)) (h7.skip (by decide))
        (h8.skip (by decide)) h (h10.skip (by decide))
    · obtain ⟨n, e, h⟩ := h10.take hr
      change (IdlParser.namesOf _ v >>= fun y => IdlParser.resourceLoop ⟨a1, a2, a3, a4, a5, a6, a7, a8, a9, a10 ++ y⟩ o) = _
      rw [e]
      exact ih hw' ho' (h1.skip (by decide)) (h2.skip (by decide)) (h3.skip (by decide)) (h4.skip (by decide)) (h5.skip (by decide)) (h6.skip (by decide)) (h7.skip (by decide))
        (h8.skip (by decide)) (h9.skip (by decide)) h

/-! ### Bodies -/

theorem membersText_target {flt : Str → Option F64} {ms : List MemberBuilder} {s : Str} (h : MembersText flt ms s) {m : MemberBuilder} (hm : m ∈ ms) :
    ∃ t, NameText m.target t := by
  obtain ⟨w, is, -, his, -, rfl, -⟩ := h
  obtain ⟨i, hi, rfl⟩ := List.mem_map.mp hm
  obtain ⟨i1, i2, i3⟩ := i
  cases his _ hi with
  | mk _ _ _ _ h => exact ⟨_, h⟩

theorem newMember {name : Str} {n : ShapeName} {t : Str} (hn : SmithyIdent name) (ht : NameText n t) : MemberBuilder.new name n.display = .ok ⟨name, [], n⟩ := by
  unfold MemberBuilder.new
  rw [nameText_display ht, fromStr_smithy hn, nameText_fromStr ht]
  rfl

theorem body_any {flt : Str → Option F64} {n : Str} {b : BuilderBody} {s rest : Str} (hn : SmithyIdent n) (h : BodyText flt n b s)
    (hr : s.getLast? = some '}' ∨ NameEnd rest) : Eats (r .shapeBody) (s ++ rest) rest (StatementPair flt ⟨.local' n, [], b⟩) := by
  cases h with
  | @simple k w hw =>
    have hr : NameEnd rest := by
      rcases hr with hr | hr
      · have h1 : n ≠ [] := by cases hn <;> simp
        rw [List.getLast?_append_of_ne_nil _ h1] at hr
        exact absurd rfl (ident_noClose hn _ (List.mem_of_getLast? hr)).2
      · exact hr
    have e : k.display ++ w ++ n ++ rest = k.display ++ (w ++ (n ++ rest)) := by simp
    rw [e]
    refine .silent rfl (.choiceL ((Eats.normal (r := .simpleShapeStatement) rfl
      ((typeName_eats k _).seq ((blank_stops hw.1 (head_stops (ident_starts hn _))).seqL (ident_eats hn hr)))).mono ?_))
    rintro _ ⟨t, _, rfl, _, _, rfl, ⟨rl, t', rfl, h1, h2⟩, rfl⟩
    refine ⟨_, rfl, by simp [statementRules, Pair.asRule], ?_⟩
    simp only [IdlParser.builderOf, Pair.asRule, Pair.intoInner, IdlParser.simpleLoop, List.cons_append, List.nil_append, if_neg h2, h1, if_true,
      Pair.asStr, builder_named hn]
  | @list w w' m s hw hw' hs hm =>
    refine membered_any (rl := .listStatement) (kw := %s"list") (by decide) rfl rfl (by decide) hn hw hw' hs ?_
    intro t ps h
    change IdlParser.listOf flt .list (.mk .listStatement t ps) = _
    unfold IdlParser.listOf
    rw [h]
    refine (if_pos (identEq_sameName.mpr hm)).trans (builder_named hn _)
  | @set w w' m s hw hw' hs hm =>
    refine membered_any (rl := .setStatement) (kw := %s"set") (by decide) rfl rfl (by decide) hn hw hw' hs ?_
    intro t ps h
    change IdlParser.listOf flt .set (.mk .setStatement t ps) = _
    unfold IdlParser.listOf
    rw [h]
    refine (if_pos (identEq_sameName.mpr hm)).trans (builder_named hn _)
  | @map w w' k v ms s hw hw' hs hms hk hv =>
    refine membered_any (rl := .mapStatement) (kw := %s"map") (by decide) rfl rfl (by decide) hn hw hw' hs ?_
    intro t ps h
    obtain ⟨tk, hk'⟩ := membersText_target hs (m := k) (by rcases hms with rfl | rfl <;> simp)
    obtain ⟨tv, hv'⟩ := membersText_target hs (m := v) (by rcases hms with rfl | rfl <;> simp)
    have hvk : ¬ SameName v.name %s"key" := by
      intro h
      have : lower %s"key" = lower %s"value" := h.symm.trans hv
      exact absurd this (by decide)
    have hkv : IdlParser.keyAndValue none none ms = .ok (some k.target.display, some v.target.display) := by
      have e1 : identEq k.name memberKey = true := identEq_sameName.mpr hk
      have e2 : identEq v.name memberValue = true := identEq_sameName.mpr hv
      have e3 : ¬ identEq v.name memberKey = true := fun h => hvk (identEq_sameName.mp h)
      rcases hms with rfl | rfl
      · simp only [IdlParser.keyAndValue, if_pos e1, if_pos e2, if_neg e3]
      · simp only [IdlParser.keyAndValue, if_pos e1, if_pos e2, if_neg e3]
    change IdlParser.mapOf flt (.mk .mapStatement t ps) = _
    unfold IdlParser.mapOf
    rw [h]
    change (IdlParser.keyAndValue none none ms >>= fun _ => _) = _
    rw [hkv]
    change (unwrap (ShapeName.fromStr n) >>= fun n => MemberBuilder.new memberKey k.target.display >>= fun k => MemberBuilder.new memberValue v.target.display >>= fun v => pure _) = _
    rw [newMember (name := memberKey) (.plain (by decide) (by decide)) hk', newMember (name := memberValue) (.plain (by decide) (by decide)) hv', shapeName_ident hn]
    rfl
  | @struct w w' ms s hw hw' hs =>
    refine membered_any (rl := .structureStatement) (kw := %s"structure") (by decide) rfl rfl (by decide) hn hw hw' hs ?_
    intro t ps h
    change IdlParser.structureOf flt .struct (.mk .structureStatement t ps) = _
    unfold IdlParser.structureOf
    rw [h]
    exact builder_named hn _
  | @union w w' ms s hw hw' hs =>
    refine membered_any (rl := .unionStatement) (kw := %s"union") (by decide) rfl rfl (by decide) hn hw hw' hs ?_
    intro t ps h
    change IdlParser.structureOf flt .union (.mk .unionStatement t ps) = _
    unfold IdlParser.structureOf
    rw [h]
    exact builder_named hn _
  | @object kw w w' o s b hw hw' hs ho =>
    cases ho with
    | @service v ops res h1 h2 h3 h4 =>
      refine objected_any (rl := .serviceStatement) (kw := %s"service") (by decide) rfl rfl (by decide) hn hw hw' hs ?_
      intro hwf t ps h
      change IdlParser.serviceOf flt (.mk .serviceStatement t ps) = _
      unfold IdlParser.serviceOf
      simp only [Pair.intoInner]
      rw [h]
      change (match AMap.get o %s"version" with
        | some (.string version) => (do
          let n ← unwrap (ShapeName.fromStr n)
          let (ops, res) ← IdlParser.serviceLoop [] [] o
          return (⟨n, [], .service version ops res []⟩ : Builder))
        | _ => Except.error Err.panic) = _
      rw [h2, shapeName_ident hn, serviceLoop_fields hwf h1 (listField_of h3) (listField_of h4)]
      rfl
    | @operation input output errors h1 h2 h3 h4 =>
      refine objected_any (rl := .operationStatement) (kw := %s"operation") (by decide) rfl rfl (by decide) hn hw hw' hs ?_
      intro hwf t ps h
      change IdlParser.operationOf flt (.mk .operationStatement t ps) = _
      unfold IdlParser.operationOf
      simp only [Pair.intoInner]
      rw [h]
      change (unwrap (ShapeName.fromStr n) >>= fun n => IdlParser.operationLoop none none [] o >>= fun y => pure _) = _
      rw [shapeName_ident hn, operationLoop_fields hwf h1 (oneField_of h2) (oneField_of h3) (listField_of h4)]
      rfl
    | @resource ids create put read update delete list ops cops res h0 h1 h2 h3 h4 h5 h6 h7 h8 h9 h10 =>
      refine objected_any (rl := .resourceStatement) (kw := %s"resource") (by decide) rfl rfl (by decide) hn hw hw' hs ?_
      intro hwf t ps h
      change IdlParser.resourceOf flt (.mk .resourceStatement t ps) = _
      unfold IdlParser.resourceOf
      simp only [Pair.intoInner]
      rw [h]
      change (unwrap (ShapeName.fromStr n) >>= fun n => IdlParser.resourceLoop _ o >>= fun y => pure _) = _
      rw [shapeName_ident hn, resourceLoop_fields hwf h0 (.inr ⟨rfl, h1⟩) (oneField_of h2) (oneField_of h3) (oneField_of h4) (oneField_of h5) (oneField_of h6)
        (oneField_of h7) (listField_of h8) (listField_of h9) (listField_of h10)]
      rfl

theorem bodyText_head {flt : Str → Option F64} {n : Str} {b : BuilderBody} {s : Str} (h : BodyText flt n b s) (u : Str) : ∃ c x, s ++ u = c :: x ∧ c ∈ identHeads := by
  cases h with
  | @simple k w hw => cases k <;> exact ⟨_, _, rfl, by decide⟩
  | object _ _ _ ho => cases ho <;> exact ⟨_, _, rfl, by decide⟩
  | _ => exact ⟨_, _, rfl, by decide⟩

/-! ### Statements -/

theorem getLast_append {a b : Str} (h : b ≠ []) : (a ++ b).getLast? = b.getLast? := List.getLast?_append_of_ne_nil _ h

theorem statement_any {flt : Str → Option F64} {b : Builder} {t w u : Str} (h : StatementText flt b t) (hw : Blank w) (hu : Stops u)
    (he : t.getLast? = some '}' ∨ NameEnd (w ++ u)) :
    Stops (t ++ (w ++ u)) ∧ Eats (r .shapeStatement) (t ++ (w ++ u)) u (fun ps => ∃ p, ps = [p] ∧ ShapePair flt b p) := by
  obtain ⟨hp, hn, hb⟩ := h
  rename_i n ts b p s
  have hne : s ≠ [] := by
    obtain ⟨c, x, e, -⟩ := bodyText_head hb []
    rw [List.append_nil] at e
    rw [e]
    exact List.cons_ne_nil _ _
  rw [getLast_append hne] at he
  rw [List.append_assoc]
  have h := preface_eats hp (bodyText_head hb (w ++ u)) ((body_any hn hb he).seqR (blank_stops hw hu))
  refine ⟨h.1, (Eats.normal (r := .shapeStatement) rfl h.2).mono ?_⟩
  rintro _ ⟨t', _, rfl, docs, tb, q, ps', rfl, hq1, hq2, ha, p', rfl, hp1, hp2⟩
  obtain ⟨rl, t'', inner⟩ := q
  cases hq1
  refine ⟨_, rfl, rfl, fun mb => ?_⟩
  refine (statementLoop_docs docs [] _).trans ?_
  change (IdlParser.traitsOf flt (.mk .traitStatements t'' inner) >>= fun ts => IdlParser.statementLoop flt mb _ ts [p']) = _
  rw [hq2]
  refine (statementLoop_documented hp1 hp2).trans ?_
  rw [← ha]
  rfl

end Verif
