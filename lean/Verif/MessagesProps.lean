/-
C105: messages tell what they are about.
-/
import Verif.Messages
import Verif.CommandsProps
import Verif.LintMore

namespace Verif

namespace Spec

/-- Errors of the library itself. -/
def Reported : Err → Prop
  | .other _ => False
  | .panic => False
  | _ => True

/-- The ids in an error are valid; of several texts in an error, all but the last are without quotes. -/
def PlainErr : Err → Prop
  | .shapeIDExpected id => id.Valid
  | .memberIDExpected id => id.Valid
  | .mergeShapeConflict id => id.Valid
  | .mergeTraitConflict id => id.Valid
  | .mergeVersionConflict a _ => '\'' ∉ a
  | .deserialization r l _ => '\'' ∉ r ∧ '\'' ∉ l
  | _ => True

end Spec
open Spec

/-- One of the texts is a prefix of the other. -/
def comparable : Str → Str → Bool
  | [], _ => true
  | _, [] => true
  | a :: s, b :: t => a == b && comparable s t

theorem comparable_of_append {a b x y : Str} (h : a ++ x = b ++ y) : comparable a b = true := by
  induction a generalizing b with
  | nil => cases b <;> rfl
  | cons c a ih =>
    cases b with
    | nil => rfl
    | cons d b =>
      simp only [List.cons_append, List.cons.injEq] at h
      simp only [comparable, Bool.and_eq_true, beq_iff_eq]
      exact ⟨h.1, ih h.2⟩

theorem quote_split {a b x y : Str} {c : Char} (ha : c ∉ a) (hb : c ∉ b) (h : a ++ c :: x = b ++ c :: y) : a = b ∧ x = y := by
  induction a generalizing b with
  | nil =>
    cases b with
    | nil => simpa using h
    | cons d b =>
      simp only [List.nil_append, List.cons_append, List.cons.injEq] at h
      exact absurd (by simp [h.1]) hb
  | cons d a ih =>
    cases b with
    | nil =>
      simp only [List.nil_append, List.cons_append, List.cons.injEq] at h
      exact absurd (by simp [h.1]) ha
    | cons e b =>
      simp only [List.cons_append, List.cons.injEq] at h
      obtain ⟨rfl, h⟩ := h
      obtain ⟨rfl, rfl⟩ := ih (fun m => ha (List.mem_cons_of_mem _ m)) (fun m => hb (List.mem_cons_of_mem _ m)) h
      exact ⟨rfl, rfl⟩

theorem showOption_inj {f : Fmt} (hf : ∀ a b, f.debug a = f.debug b → a = b) {a b : Option Str} (h : showOption f a = showOption f b) : a = b := by
  cases a with
  | none =>
    cases b with
    | none => rfl
    | some b => simp [showOption] at h
  | some a =>
    cases b with
    | none => simp [showOption] at h
    | some b =>
      simp only [showOption, List.append_cancel_left_eq, List.append_cancel_right_eq] at h
      rw [hf a b h]

/-- C105: the message of an error of the library tells its kind and its arguments: the text, the id, the key, or the representation, the
place and the context: two different errors never have the same message. -/
theorem C105_error (f : Fmt) (hf : ∀ a b, f.debug a = f.debug b → a = b) (e e' : Err) (hr : Reported e) (hr' : Reported e')
    (hp : PlainErr e) (hp' : PlainErr e') (h : e.display f = e'.display f) : e = e' := by
  have hc : comparable e.opening e'.opening = true := comparable_of_append h
  unfold Err.display at h
  cases e <;> simp only [Reported] at hr <;> cases e' <;> simp only [Reported] at hr' <;> first
    | (exfalso; revert hc; simp only [Err.opening]; decide)
    | (simp only [Err.opening, Err.closing, List.append_cancel_left_eq, List.append_cancel_right_eq] at h; subst h; rfl)
    | (simp only [Err.opening, Err.closing, List.append_cancel_left_eq, List.append_cancel_right_eq] at h
       have := C03_display_injective _ _ hp hp' h
       subst this; rfl)
    | (simp only [Err.opening, Err.closing, List.append_cancel_left_eq, List.append_cancel_right_eq] at h
       have := showOption_inj hf h
       subst this; rfl)
    | skip
  · simp only [Err.opening, Err.closing, List.append_cancel_left_eq] at h
    simp only [List.append_assoc, List.cons_append, List.nil_append] at h
    obtain ⟨rfl, h1⟩ := quote_split hp hp' h
    simp only [List.cons.injEq, true_and, List.append_cancel_right_eq] at h1
    rw [h1]
  · simp only [Err.opening, Err.closing, List.append_cancel_left_eq] at h
    simp only [List.append_assoc, List.cons_append, List.nil_append] at h
    obtain ⟨rfl, h1⟩ := quote_split hp.1 hp'.1 h
    simp only [List.cons.injEq, true_and] at h1
    obtain ⟨rfl, h2⟩ := quote_split hp.2 hp'.2 h1
    simp only [List.cons.injEq, true_and, List.append_cancel_right_eq] at h2
    rw [showOption_inj hf h2]

theorem display_colon {id : ShapeID} (h : id.Valid) {c : Char} (hc : identChar c = false) (h1 : c ≠ '.') (h2 : c ≠ '#') (h3 : c ≠ '$') :
    c ∉ id.display := by
  obtain ⟨ns, name, member⟩ := id
  obtain ⟨v1, v2, v3⟩ := h
  have hn := namespace_not_mem v1 (c := c) h1 hc
  have hi := identifier_not_mem v2 (c := c) hc
  cases member with
  | none => simp [ShapeID.display]; exact ⟨hn, h2, hi⟩
  | some mb =>
    have hm := identifier_not_mem (v3 mb rfl) (c := c) hc
    simp [ShapeID.display]
    exact ⟨hn, h2, hi, h3, hm⟩

/-- C105: the line printed for an issue tells everything about it: who reports it, how grave it is, where it is, and what it says. -/
theorem C105_issue (i j : Issue) (hi : ' ' ∉ i.reporter) (hj : ' ' ∉ j.reporter) (li : ∀ id, i.locus = some id → id.Valid)
    (lj : ∀ id, j.locus = some id → id.Valid) (h : i.display = j.display) : i = j := by
  obtain ⟨r, l, m, o⟩ := i
  obtain ⟨r', l', m', o'⟩ := j
  simp only [Issue.display, List.append_assoc, List.cons_append, List.nil_append] at h
  obtain ⟨rfl, h⟩ := quote_split hi hj h
  cases o with
  | none =>
    cases o' with
    | none =>
      have key : l = l' ∧ m = m' := by
        cases l <;> cases l' <;> simp [IssueLevel.display] at h ⊢ <;> exact h
      rw [key.1, key.2]
    | some id => exfalso; cases l <;> cases l' <;> simp [IssueLevel.display] at h
  | some id =>
    cases o' with
    | none => exfalso; cases l <;> cases l' <;> simp [IssueLevel.display] at h
    | some id' =>
      have key : l = l' ∧ id.display ++ ':' :: ' ' :: m = id'.display ++ ':' :: ' ' :: m' := by
        cases l <;> cases l' <;> simp [IssueLevel.display] at h ⊢ <;> exact h
      obtain ⟨rfl, h1⟩ := key
      have v := li id rfl
      have v' := lj id' rfl
      obtain ⟨hd, h2⟩ := quote_split (display_colon v (by decide) (by decide) (by decide) (by decide))
        (display_colon v' (by decide) (by decide) (by decide) (by decide)) h1
      rw [C03_display_injective _ _ v v' hd]
      simp only [List.cons.injEq, true_and] at h2
      rw [h2]

namespace Spec

/-- An issue that `ActionIssue::new` accepts, of a reporter whose label is one word, at a valid id if at any. -/
def WellMade (i : Issue) : Prop := i.message ≠ [] ∧ ' ' ∉ i.reporter ∧ ∀ id, i.locus = some id → id.Valid

/-- The issues found in a model by the two validators and the two linters. -/
inductive Found (h : Heck) (m : Model) : Issue → Prop
  | unresolved {i} : i ∈ unresolvedValidate m → Found h m i
  | reference {i} : i ∈ TypeRefs.validate m → Found h m i
  | naming {i} : i ∈ Naming.check h m → Found h m i
  | term {i} : i ∈ (Terms.check h m ⟨[], []⟩).issues → Found h m i

end Spec

theorem struct_member_valid {m : Model} (hv : ValidModel m) {id : ShapeID} {s : TopLevelShape} {ms : AMap Str MemberShape} {n : Str} {mem : MemberShape}
    (hs : m.shape id = some s) (hb : s.body = .struct ms ∨ s.body = .union ms) (hn : ms.get n = some mem) : ValidMember mem := by
  have hk := (hv id s hs).2.2
  rcases hb with hb | hb
  · rw [hb] at hk; exact (hk n mem hn).2
  · rw [hb] at hk; exact (hk n mem hn).2

theorem found_wellMade {h : Heck} {m : Model} (hm : WfModel m) (hv : ValidModel m) {i : Issue} (hi : Found h m i) : WellMade i := by
  cases hi with
  | unresolved hi =>
    obtain ⟨id, s, hs, hu, rfl⟩ := (C35_issues_iff m hm i).mp hi
    exact ⟨by simp, by simp, fun _ h => by cases h⟩
  | reference hi =>
    obtain ⟨id, s, hs, hi⟩ := (C36_issues_iff m hm i).mp hi
    have hid : ∀ x, some s.id = some x → x.Valid := fun x h => by
      cases h
      rw [hm.key _ _ hs]
      exact (hv id s hs).1
    cases hi with
    | synonym => exact ⟨by simp, by simp, hid⟩
    | wrong => exact ⟨by rename_i r _ _ _; cases r <;> simp [Role.complaint], by simp, hid⟩
    | dangling => exact ⟨by simp, by simp, hid⟩
  | naming hi =>
    obtain ⟨name, upper, text, locus, hn, -, rfl⟩ := (C47_issues_iff h m hm i).mp hi
    have ht : text ≠ [] := by cases hn <;> simp
    have hl : locus.Valid := by
      cases hn with
      | shape hs => exact (hv _ _ hs).1
      | traitShape hs => exact (hv _ _ hs).1
      | applied hs ht => exact ((hv _ _ hs).2.1 _ _ ht).1
      | member hs => exact (hv _ _ hs).1
      | target hs hb hn => exact (struct_member_valid hv hs hb hn).1
      | memberTrait hs hb hn ht => exact ((struct_member_valid hv hs hb hn).2 _ _ ht).1
    exact ⟨by simp [ht], by simp, fun _ h => by cases h; exact hl⟩
  | term hi =>
    obtain ⟨new, he, hn⟩ := C48_issues h m hm ⟨[], []⟩
    rw [he] at hi
    obtain ⟨locus, p, w, hn, -, -, -, rfl⟩ := hn i (by simpa using hi)
    have hl : locus.Valid := by
      cases hn with
      | shape hs => exact (hv _ _ hs).1
      | applied hs ht => exact ((hv _ _ hs).2.1 _ _ ht).1
      | member hs => exact (hv _ _ hs).1
      | target hs hb hn => exact (struct_member_valid hv hs hb hn).1
      | memberTrait hs hb hn ht => exact ((struct_member_valid hv hs hb hn).2 _ _ ht).1
    exact ⟨by simp [termMessage], by simp, fun _ h => by cases h; exact hl⟩

/-- C105: whatever the validators and linters find in a model, the issue can be made (its message is not empty, so the assertion of
`ActionIssue::new` holds), and the issues found in any two models print the same only if they are the same. -/
theorem C105_found (h h' : Heck) (m m' : Model) (hm : WfModel m) (hm' : WfModel m') (hv : ValidModel m) (hv' : ValidModel m')
    (i j : Issue) (hi : Found h m i) (hj : Found h' m' j) :
    Issue.new i.level i.reporter i.message i.locus = .ok i ∧ (i.display = j.display ↔ i = j) := by
  have wi := found_wellMade hm hv hi
  have wj := found_wellMade hm' hv' hj
  refine ⟨?_, C105_issue i j wi.2.1 wj.2.1 wi.2.2 wj.2.2, fun h => by rw [h]⟩
  obtain ⟨r, l, t, o⟩ := i
  cases t with
  | nil => exact absurd rfl wi.1
  | cons c t => rfl

/-- C105: what is printed for an issue: the reporter, the level, the identifier it is about when there is one, a colon
and the message. -/
theorem C105_issue_text :
    Issue.display ⟨%s"Naming", .info, %s"Shape names should be upper camel case.", some ⟨%s"ex", %s"s", none⟩⟩ =
      %s"Naming info ex#s: Shape names should be upper camel case." ∧
    (∀ r m, Issue.display ⟨r, .warning, m, none⟩ = r ++ %s" warning: " ++ m) ∧
    ∀ r m, Issue.display ⟨r, .error, m, none⟩ = r ++ %s" error: " ++ m := by
  refine ⟨by decide, fun r m => ?_, fun r m => ?_⟩ <;> simp [Issue.display, IssueLevel.display]

namespace Spec

/-- The text of a context, which may be missing. -/
inductive ContextText (f : Fmt) : Option Str → Str → Prop
  | none : ContextText f none %s"None"
  | some {s : Str} : ContextText f (some s) (%s"Some(" ++ f.debug s ++ %s")")

/-- The messages of errors. -/
inductive Message (f : Fmt) : Err → Str → Prop
  | invalidShapeID {s : Str} : Message f (.invalidShapeID s) (%s"Invalid shape ID: '" ++ s ++ %s"'.")
  | shapeIDExpected {id : ShapeID} : Message f (.shapeIDExpected id) (%s"Expected a shape, not member, ID: '" ++ id.display ++ %s"'.")
  | memberIDExpected {id : ShapeID} : Message f (.memberIDExpected id) (%s"Expected a member, not shape, ID: '" ++ id.display ++ %s"'.")
  | unknownShape {s : Str} : Message f (.unknownShape s) (%s"A reference to an unknown shape ID was encountered: '" ++ s ++ %s"'.")
  | unknownMember {s : Str} : Message f (.unknownMember s) (%s"An unknown member ID was encountered: '" ++ s ++ %s"'.")
  | ambiguousShape {s : Str} : Message f (.ambiguousShape s) (%s"A shape name resolved to multiple shape IDs: '" ++ s ++ %s"'.")
  | mergeShapeConflict {id : ShapeID} : Message f (.mergeShapeConflict id) (%s"A merge conflict occurred between two shapes named '" ++ id.display ++ %s"'.")
  | mergeTraitConflict {id : ShapeID} : Message f (.mergeTraitConflict id) (%s"A merge conflict occurred between two applied traits named '" ++ id.display ++ %s"'.")
  | mergeMetadataConflict {s : Str} : Message f (.mergeMetadataConflict s) (%s"A merge conflict occurred between two metadata values keyed '" ++ s ++ %s"'.")
  | invalidTraitValue {s : Str} : Message f (.invalidTraitValue s) (%s"Invalid, or missing, value specified for trait named '" ++ s ++ %s"'.")
  | invalidSimpleShape {s : Str} : Message f (.invalidSimpleShape s) (%s"Invalid simple shape name: '" ++ s ++ %s"'.")
  | invalidSelector {s : Str} : Message f (.invalidSelector s) (%s"The selector expression(s) failed to parse: '" ++ s ++ %s"'.")
  | invalidRepresentation {s : Str} : Message f (.invalidRepresentation s) (%s"Requested action is not supported by the selected representation '" ++ s ++ %s"'.")
  | serialization {s : Str} : Message f (.serialization s) (%s"An error occurred serializing a model into representation '" ++ s ++ %s"'.")
  | mergeVersionConflict {a b : Str} : Message f (.mergeVersionConflict a b)
      (%s"Merge cannot take place between models with different versions ('" ++ a ++ %s"' != '" ++ b ++ %s"').")
  | invalidVersionNumber {v : Option Str} {t : Str} : ContextText f v t → Message f (.invalidVersionNumber v) (%s"Invalid version number: '" ++ t ++ %s"'.")
  | deserialization {r l : Str} {c : Option Str} {t : Str} : ContextText f c t → Message f (.deserialization r l c)
      (%s"An error occurred de-serializing a model from representation '" ++ r ++ %s"' at location '" ++ l ++ %s"' (context '" ++ t ++ %s"').")
  | other {s : Str} : Message f (.other s) s

end Spec

theorem contextText (f : Fmt) : ∀ v, ContextText f v (showOption f v)
  | none => .none
  | some _ => .some

/-- C105: the texts of all errors; the text of an error of another crate is its own. -/
theorem C105_error_text (f : Fmt) (e : Err) (h : e ≠ .panic) (t : Str) : e.display f = t ↔ Message f e t := by
  have hm : Message f e (e.display f) := by
    unfold Err.display
    cases e with
    | panic => exact absurd rfl h
    | invalidVersionNumber v => exact (List.append_assoc _ _ _) ▸ .invalidVersionNumber (contextText f v)
    | mergeVersionConflict a b =>
      have := Message.mergeVersionConflict (f := f) (a := a) (b := b)
      simpa only [Err.opening, Err.closing, List.append_assoc, List.cons_append, List.nil_append] using this
    | deserialization r l c =>
      have := Message.deserialization (f := f) (r := r) (l := l) (contextText f c)
      simpa only [Err.opening, Err.closing, List.append_assoc, List.cons_append, List.nil_append] using this
    | other s => exact .other
    | _ => rw [Err.opening, Err.closing, ← List.append_assoc]; constructor
  constructor
  · rintro rfl; exact hm
  · intro ht
    have ctx : ∀ {v t t'}, ContextText f v t → ContextText f v t' → t = t' := by
      rintro v t t' ⟨⟩ ⟨⟩ <;> rfl
    generalize e.display f = x at hm
    cases hm <;> cases ht <;> first | rfl | (rename_i h1 _ h2; rw [ctx h1 h2])

/-- An unresolved shape is found. -/
example (h : Heck) : Found h ⟨.v10, [], [(⟨%s"ex", %s"S", none⟩, ⟨⟨%s"ex", %s"S", none⟩, [], .unresolved⟩)]⟩
    ⟨%s"NoUnresolvedReferences", .error, %s"The model has an unresolved reference to shape 'ex#S'", none⟩ :=
  .unresolved (by decide)

/-- An error of two texts and a context meets the conditions. -/
example : Reported (.deserialization %s"Smithy" %s"pest" (some %s"a 'b'")) ∧ PlainErr (.deserialization %s"Smithy" %s"pest" (some %s"a 'b'")) :=
  ⟨trivial, by decide, by decide⟩

/-- Without the condition on quotes two errors may share a message. -/
theorem C105_error_violated (f : Fmt) : ∃ e e' : Err, Reported e ∧ Reported e' ∧ e ≠ e' ∧ e.display f = e'.display f :=
  ⟨.mergeVersionConflict %s"1' != '2" %s"3", .mergeVersionConflict %s"1" %s"2' != '3", trivial, trivial, by decide, rfl⟩

end Verif
