/-
C67: the characters of texts that can be read.
-/
import Verif.IdlBlank

namespace Verif
open Peg Spec
open IdlGrammar (r)

namespace Spec

/-- Characters of texts that can be read: tabs, line ends, and U+0020 to U+10FFF. -/
def ReadableChar (c : Char) : Prop := c ∈ ['\t', '\n', '\r'] ∨ 0x20 ≤ c.toNat ∧ c.toNat ≤ 0x10FFF

end Spec

instance (c : Char) : Decidable (ReadableChar c) := by unfold ReadableChar; infer_instance

/-- The characters an expression accepts itself. -/
def CharsOk : Expr IdlRule → Prop
  | .str u => ∀ c ∈ u, ReadableChar c
  | .chr p => ∀ c, p c = true → ReadableChar c
  | .seq a b | .choice a b => CharsOk a ∧ CharsOk b
  | .opt a | .rep a | .more a => CharsOk a
  | .not _ | .soi | .eoi | .rule _ => True

theorem ok_comment (c : Char) (h : commentChar c = true) : ReadableChar c := by
  simp only [commentChar, charRange, Bool.or_eq_true, Bool.and_eq_true, decide_eq_true_eq, beq_iff_eq] at h
  rcases h with rfl | h
  · exact .inl (by decide)
  · exact .inr h

theorem ok_plain (c : Char) (h : plainChar c = true) : ReadableChar c := by
  simp only [plainChar, charRange, Bool.or_eq_true, Bool.and_eq_true, decide_eq_true_eq] at h
  exact .inr (by omega)

theorem ok_alpha (c : Char) (h : c.isAlpha = true) : ReadableChar c := by
  simp only [Char.isAlpha, Char.isUpper, Char.isLower, Bool.or_eq_true, Bool.and_eq_true, decide_eq_true_eq, UInt32.le_iff_toNat_le] at h
  refine .inr ?_
  have : c.toNat = c.val.toNat := rfl
  have h1 : (65 : UInt32).toNat = 65 := rfl
  have h2 : (90 : UInt32).toNat = 90 := rfl
  have h3 : (97 : UInt32).toNat = 97 := rfl
  have h4 : (122 : UInt32).toNat = 122 := rfl
  simp at h
  omega

theorem ok_digit (c : Char) (h : c.isDigit = true) : ReadableChar c := by
  simp only [Char.isDigit, Bool.and_eq_true, decide_eq_true_eq, UInt32.le_iff_toNat_le] at h
  refine .inr ?_
  have : c.toNat = c.val.toNat := rfl
  simp at h
  omega

theorem ok_identRest (c : Char) (h : identRest c = true) : ReadableChar c := by
  simp only [identRest, Bool.or_eq_true, beq_iff_eq] at h
  rcases h with (h | h) | rfl
  · exact ok_alpha c h
  · exact ok_digit c h
  · exact .inr (by decide)

theorem ok_nonzero (c : Char) (h : nonzeroDigit c = true) : ReadableChar c := by
  simp only [nonzeroDigit, charRange, Bool.and_eq_true, decide_eq_true_eq] at h
  exact .inr (by omega)

theorem ok_hex (c : Char) (h : hexDigit c = true) : ReadableChar c := by
  simp only [hexDigit, charRange, Bool.or_eq_true, Bool.and_eq_true, decide_eq_true_eq] at h
  exact .inr (by omega)

theorem charsOk_body (x : IdlRule) : CharsOk (IdlGrammar.body x) := by
  cases x <;> (
    simp only [IdlGrammar.body, CharsOk, IdlGrammar.word, IdlGrammar.named, IdlGrammar.keyed, Expr.plus]
    repeat' apply And.intro
    all_goals first
      | exact trivial
      | exact ok_comment | exact ok_plain | exact ok_alpha | exact ok_digit | exact ok_identRest | exact ok_nonzero | exact ok_hex
      | decide)

theorem tree_chars {m : Bool} {e : Expr IdlRule} {t : Str} {ps : List (Pair IdlRule)} (h : Tree idlGrammar m e t ps) (he : CharsOk e) :
    ∀ c ∈ t, ReadableChar c := by
  have white : ∀ {w : Str}, (∀ c ∈ w, idlGrammar.ws c = true) → ∀ c ∈ w, ReadableChar c := by
    intro w hw c hc
    exact absurd (hw _ hc) (by change ¬ false = true; decide)
  have app : ∀ {a b : Str}, (∀ c ∈ a, ReadableChar c) → (∀ c ∈ b, ReadableChar c) → ∀ c ∈ a ++ b, ReadableChar c := by
    intro a b ha hb c hc
    rcases List.mem_append.mp hc with h | h
    · exact ha c h
    · exact hb c h
  induction h with
  | str => exact he
  | @chr m p c hp =>
    intro d hd
    have := List.mem_singleton.mp hd
    subst this
    exact he _ hp
  | seq _ _ hw _ ia ib => exact app (ia he.1) (app (white hw) (ib he.2))
  | choiceL _ ih => exact ih he.1
  | choiceR _ _ ih => exact ih he.2
  | optSome _ ih => exact ih he
  | optNone | repNone | moreNone | not | soi | eoi => intro c hc; cases hc
  | repSome _ _ ia ib => exact app (ia he) (ib he)
  | moreSome _ hw _ _ ia ib => exact app (white hw) (app (ia he) (ib he))
  | @rule m x t ps h ih => exact ih (charsOk_body x)

/-- A text that matches has only these characters. -/
theorem matchIdl_chars {s : Str} {ps : List (Pair IdlRule)} (hm : matchIdl s = some ps) : ∀ c ∈ s, ReadableChar c := by
  obtain ⟨x, hx, e⟩ := (matchIdl_iff _ _).mp hm
  cases x with
  | none => cases e
  | some y =>
    obtain ⟨t, rest, ps'⟩ := y
    have hrest := idl_end hx
    subst hrest
    have ht := hx.split _ _ _ rfl
    rw [List.append_nil] at ht
    subst ht
    exact tree_chars (hx.tree _ _ _ rfl) trivial

/-- C67 is violated: a text with a character beyond U+10FFF, or a control character other than a tab or a line end, is not
read, even if the character is in a comment or in a quoted string. -/
theorem C67_rejected (flt : Str → Option F64) (enum : List ShapeID → List ShapeID) (s : Str) (c : Char) (hc : c ∈ s)
    (h : c.toNat > 0x10FFF ∨ c.toNat < 0x20 ∧ c ∉ ['\t', '\n', '\r']) : ∃ e, parseModel flt enum s = .error e := by
  have hm : matchIdl s = none := by
    cases hm : matchIdl s with
    | none => rfl
    | some ps =>
      exfalso
      rcases matchIdl_chars hm c hc with h1 | h1
      · rcases h with h | h
        · have : ∀ c ∈ ['\t', '\n', '\r'], c.toNat ≤ 0x10FFF := by decide
          have := this c h1
          omega
        · exact h.2 h1
      · omega
  unfold parseModel readBuilder
  rw [hm]
  exact ⟨_, rfl⟩

/-- C67: every other character can be in a text: in a comment, it does not change what is read. -/
theorem C67_comments (flt : Str → Option F64) (enum : List ShapeID → List ShapeID) (u s : Str) (hu : ∀ c ∈ u, CommentChar c) :
    parseModel flt enum (%s"// " ++ u ++ %s"\n" ++ s) = parseModel flt enum s := by
  have hb : Blank (%s"// " ++ u ++ %s"\n") := by
    have := Blank.comment (u := ' ' :: u) (e := '\n') (w := [])
      (by
        intro c hc
        rcases List.mem_cons.mp hc with rfl | hc
        · exact .inr (by decide)
        · exact hu c hc)
      (by intro v h; cases h) (.inl rfl) .nil
    simpa using this
  exact C59_leading_blank flt enum _ s hb

/-- A grinning face, U+1F600, in a comment: the text is rejected, while the text without the comment is read. -/
example : parseModel (fun _ => none) id %s"namespace a.b\n" = .ok ⟨.v10, [], []⟩ ∧
    ∃ e, parseModel (fun _ => none) id ('/' :: '/' :: (Char.ofNat 0x1F600) :: '\n' :: %s"namespace a.b\n") = .error e :=
  ⟨rfl, C67_rejected _ _ _ (Char.ofNat 0x1F600) (by simp) (.inl (by decide))⟩

end Verif
