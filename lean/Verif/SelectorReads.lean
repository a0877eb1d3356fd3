/-
The texts of selectors are matched by the grammar, and the pairs are turned back into the selector.
-/
import Verif.PegLemmas
import Verif.Decimal
import Verif.SelectorSpec
import Verif.IdentityLemmas
import Verif.TablesProps

namespace Verif
open Peg Spec SelParser

/-- The characters that follow a part of a selector when it is printed. -/
def stops : List Char := [' ', ',', ']', '|', '}', ':', ')']

/-- What follows starts with such a character, or there is nothing. -/
def Follow (rest : Str) : Prop := ∀ c s', rest = c :: s' → c ∈ stops

theorem follow_nil : Follow [] := fun _ _ h => by cases h
theorem follow_cons {c : Char} {s : Str} (h : c ∈ stops) : Follow (c :: s) := fun d s' e => by injection e with e _; rw [← e]; exact h

theorem Follow.not {rest : Str} (h : Follow rest) (p : Char → Bool) (hp : ∀ c ∈ stops, p c = false) : ∀ c s', rest = c :: s' → p c = false :=
  fun c s' e => hp c (h c s' e)

theorem Follow.ne {rest : Str} (h : Follow rest) (a : Char) (hp : a ∉ stops) : ∀ c s', rest = c :: s' → c ≠ a :=
  fun c s' e ha => hp (ha ▸ h c s' e)

/-- The text starts with something other than whitespace. -/
def Solid (s : Str) : Prop := ∃ c r, s = c :: r ∧ selWhite c = false

theorem Solid.trim {s : Str} (h : Solid s) (x : Str) : selGrammar.trim (s ++ x) = s ++ x := by
  obtain ⟨c, r, rfl, hc⟩ := h
  exact trim_cons (g := selGrammar) (r ++ x) hc

theorem Solid.append {s : Str} (h : Solid s) (x : Str) : Solid (s ++ x) := by
  obtain ⟨c, r, rfl, hc⟩ := h
  exact ⟨c, r ++ x, rfl, hc⟩

theorem trim_char (c : Char) (s : Str) (h : selWhite c = false) : selGrammar.trim (c :: s) = c :: s := trim_cons (g := selGrammar) s h
theorem trim_space (s : Str) : selGrammar.trim (' ' :: s) = selGrammar.trim s := rfl

theorem isAlpha_or {c : Char} (h : c.isAlpha = true ∨ c.isDigit = true ∨ c = '_') : identRest c = true := by
  unfold identRest
  rcases h with h | h | rfl
  · simp [h]
  · simp [h]
  · simp

theorem alpha_ne {c d : Char} (h : c.isAlpha = true) (hd : d.isAlpha = false) : c ≠ d := by
  rintro rfl; rw [h] at hd; cases hd

theorem alpha_not_digit {c : Char} (h : c.isAlpha = true) : c.isDigit = false := by
  cases hd : c.isDigit with
  | false => rfl
  | true =>
    exfalso
    simp only [Char.isAlpha, Char.isUpper, Char.isLower, Char.isDigit, Bool.or_eq_true, Bool.and_eq_true, decide_eq_true_eq, ge_iff_le,
      UInt32.le_iff_toNat_le] at h hd
    simp at h hd
    omega

theorem alpha_not_white {c : Char} (h : c.isAlpha = true) : selWhite c = false := by
  unfold selWhite
  have h1 := alpha_ne (d := ' ') h (by decide)
  have h2 := alpha_ne (d := '\t') h (by decide)
  have h3 := alpha_ne (d := '\n') h (by decide)
  simp [h1, h2, h3]

theorem digit_ne {c d : Char} (h : c.isDigit = true) (hd : d.isDigit = false) : c ≠ d := by
  rintro rfl; rw [h] at hd; cases hd

theorem digit_not_white {c : Char} (h : c.isDigit = true) : selWhite c = false := by
  unfold selWhite
  have h1 := digit_ne (d := ' ') h (by decide)
  have h2 := digit_ne (d := '\t') h (by decide)
  have h3 := digit_ne (d := '\n') h (by decide)
  simp [h1, h2, h3]

/-! ### Identifiers -/

theorem ident_head {t : Str} (h : SmithyIdent t) : ∃ c r, t = c :: r ∧ (c.isAlpha = true ∨ c = '_') := by
  cases h with
  | plain ha _ => exact ⟨_, _, rfl, .inl ha⟩
  | underscore => exact ⟨_, _, rfl, .inr rfl⟩

theorem ident_solid {t : Str} (h : SmithyIdent t) : Solid t := by
  obtain ⟨c, r, rfl, hc⟩ := ident_head h
  refine ⟨c, r, rfl, ?_⟩
  rcases hc with hc | rfl
  · exact alpha_not_white hc
  · rfl

theorem isIdent_of_smithy {t : Str} (h : SmithyIdent t) : isIdent t = true := by
  have rest : ∀ r : Str, (∀ c ∈ r, c.isAlpha = true ∨ c.isDigit = true ∨ c = '_') → r.all identChar = true := by
    intro r hr
    rw [List.all_eq_true]
    intro c hc
    unfold identChar Char.isAlphanum
    rcases hr c hc with h | h | rfl
    · simp [h]
    · simp [h]
    · simp
  cases h with
  | @plain a r ha hr =>
    have hne : (a == '_') = false := by simpa using alpha_ne (d := '_') ha (by decide)
    unfold isIdent
    rw [List.dropWhile_cons_of_neg (by simp [hne])]
    simp only [ha, rest r hr, Bool.and_self]
  | @underscore a r ha hr =>
    have hne : (a == '_') = false := by simpa using alpha_ne (d := '_') ha (by decide)
    unfold isIdent
    rw [List.dropWhile_cons_of_pos (by rfl), List.dropWhile_cons_of_neg (by simp [hne])]
    simp only [ha, rest r hr, Bool.and_self]

theorem fromStr_smithy {t : Str} (h : SmithyIdent t) : Identifier.fromStr t = .ok t := by
  unfold Identifier.fromStr; rw [if_pos (isIdent_of_smithy h)]

theorem word_reads {a : Char} {r rest : Str} (ha : a.isAlpha = true) (hr : ∀ c ∈ r, c.isAlpha = true ∨ c.isDigit = true ∨ c = '_')
    (hs : ∀ c s', rest = c :: s' → identRest c = false) : Parses selGrammar true SelGrammar.word (a :: r ++ rest) (some (a :: r, rest, [])) := by
  have := seqAtomic (g := selGrammar) (Parses.chr (g := selGrammar) (m := true) (s := r ++ rest) ha)
    (repChr (g := selGrammar) (p := identRest) (fun c hc => isAlpha_or (hr c hc)) hs)
  exact this

theorem ident_body {t rest : Str} (h : SmithyIdent t) (hs : ∀ c s', rest = c :: s' → identRest c = false) :
    Parses selGrammar true (selGrammar.body .identifier) (t ++ rest) (some (t, rest, [])) := by
  cases h with
  | plain ha hr => exact .choiceL (word_reads ha hr hs)
  | underscore ha hr =>
    refine .choiceR (.seqFail1 (.chrFail (by decide))) ?_
    exact seqAtomic (g := selGrammar) (Parses.str (t := ['_']) rfl) (word_reads ha hr hs)

theorem ident_atomic {t rest : Str} (h : SmithyIdent t) (hs : ∀ c s', rest = c :: s' → identRest c = false) :
    Parses selGrammar true (.rule .identifier) (t ++ rest) (some (t, rest, [])) := ruleAtomic (ident_body h hs)

theorem ident_reads {t rest : Str} (h : SmithyIdent t) (hs : ∀ c s', rest = c :: s' → identRest c = false) :
    Reads selGrammar (.rule .identifier) (t ++ rest) rest (· = [.mk .identifier t []]) := Reads.atomic rfl (ident_body h hs)

theorem stops_ident : ∀ c ∈ stops, identRest c = false := by decide

theorem ident_follow {t rest : Str} (h : SmithyIdent t) (hs : Follow rest) :
    Reads selGrammar (.rule .identifier) (t ++ rest) rest (· = [.mk .identifier t []]) := ident_reads h (hs.not _ stops_ident)

/-! ### Numbers -/

theorem digits_stop : ∀ c ∈ stops, Char.isDigit c = false := by decide

theorem intText_showNat (n : Nat) : IntText (showNat n) := by
  refine ⟨⟨showNat_ne_nil n, showNat_digits n⟩, ?_⟩
  intro h
  rcases Nat.eq_zero_or_pos n with rfl | hp
  · rfl
  · obtain ⟨c, ds, hs, hc, _⟩ := showNat_pos n hp
    rw [hs] at h
    injection h with h
    rw [h] at hc
    exact absurd hc (by decide)

theorem nonzero_of_digit {c : Char} (h : c.isDigit = true) (h0 : c ≠ '0') : nonzeroDigit c = true := by
  rw [Char.isDigit_iff_toNat] at h
  have : c.toNat ≠ 48 := fun e => h0 (by
    have := congrArg Char.ofNat e
    rw [Char.ofNat_toNat] at this
    exact this)
  simp only [nonzeroDigit, charRange, Bool.and_eq_true, decide_eq_true_eq]
  simp at h
  omega

theorem int_atomic {t rest : Str} (h : IntText t) (hs : ∀ c s', rest = c :: s' → Char.isDigit c = false) :
    Parses selGrammar true (.rule .int) (t ++ rest) (some (t, rest, [])) := by
  apply ruleAtomic (ps := [])
  obtain ⟨⟨hne, hd⟩, h0⟩ := h
  cases t with
  | nil => exact absurd rfl hne
  | cons c ds =>
    by_cases hc : c = '0'
    · subst hc
      have := h0 rfl
      injection this with _ hds
      subst hds
      exact .choiceL (ruleAtomic (ps := []) (Parses.str rfl))
    · refine .choiceR (ruleFailAtomic (strFail_head fun d s' e => ?_)) ?_
      · injection e with e _; rw [← e]; exact hc
      · have := seqAtomic (g := selGrammar) (Parses.chr (g := selGrammar) (m := true) (s := ds ++ rest) (nonzero_of_digit (hd c (by simp)) hc))
          (repChr (g := selGrammar) (p := Char.isDigit) (fun d hd' => hd d (by simp [hd'])) hs)
        exact this

/-- The sign before a number: nothing, or a minus. -/
theorem sign_atomic {sign : Str} {c : Char} {s : Str} (h : sign = [] ∨ sign = ['-']) (hc : c ≠ '-') :
    Parses selGrammar true (.opt (.rule .minus)) (sign ++ c :: s) (some (sign, c :: s, [])) := by
  rcases h with rfl | rfl
  · exact .optNone (ruleFailAtomic (strFail_head fun d s' e => by injection e with e _; rw [← e]; exact hc))
  · exact .optSome (ruleAtomic (ps := []) (Parses.str rfl))

theorem number_body {sign int frac rest : Str} (h1 : sign = [] ∨ sign = ['-']) (h2 : IntText int)
    (h3 : frac = [] ∨ ∃ ds, frac = '.' :: ds ∧ Digits ds) (hr : Follow rest) :
    Parses selGrammar true (selGrammar.body .number) (sign ++ int ++ frac ++ rest) (some (sign ++ int ++ frac, rest, [])) := by
  have hi : ∃ c s, int = c :: s ∧ c ≠ '-' := by
    obtain ⟨⟨hne, hd⟩, _⟩ := h2
    cases int with
    | nil => exact absurd rfl hne
    | cons c s => exact ⟨c, s, rfl, digit_ne (hd c (by simp)) (by decide)⟩
  obtain ⟨c, s, hcs, hc⟩ := hi
  have p1 := sign_atomic (s := s ++ (frac ++ rest)) h1 hc
  have p2 := int_atomic (rest := frac ++ rest) h2 (by
    intro d s' e
    rcases h3 with rfl | ⟨ds, rfl, -⟩
    · exact hr.not _ digits_stop d s' e
    · injection e with e _; rw [← e]; decide)
  have hexp : Parses selGrammar true (.opt (.rule .exp)) rest (some ([], rest, [])) := by
    refine .optNone (ruleFailAtomic (.seqFail1 (ruleFailAtomic (.choiceR ?_ ?_))))
    · exact strFail_head (hr.ne 'e' (by decide))
    · exact strFail_head (hr.ne 'E' (by decide))
  have p3 : Parses selGrammar true (.opt (.rule .fraction)) (frac ++ rest) (some (frac, rest, [])) := by
    rcases h3 with rfl | ⟨ds, rfl, hne, hd⟩
    · exact .optNone (ruleFailAtomic (.seqFail1 (ruleFailAtomic (strFail_head (hr.ne '.' (by decide))))))
    · refine .optSome (ruleAtomic (ps := []) ?_)
      exact seqAtomic (g := selGrammar) (t1 := ['.']) (ruleAtomic (ps := []) (Parses.str rfl))
        (plusChr (g := selGrammar) hne hd (hr.not _ digits_stop))
  have := seqAtomic p1 (seqAtomic (by rw [← List.cons_append, ← hcs]; exact p2) (seqAtomic p3 hexp))
  simp only [List.append_nil, List.nil_append, ← List.append_assoc, ← hcs] at this
  have e : sign ++ c :: s ++ frac ++ rest = sign ++ c :: (s ++ (frac ++ rest)) := by simp
  rw [hcs, e]
  rw [hcs] at this
  change Parses selGrammar true (.opt (.rule .minus) ~> .rule .int ~> .opt (.rule .fraction) ~> .opt (.rule .exp)) _ _
  simpa using this

theorem showInt_parts (n : Int) : ∃ sign int, (sign = [] ∨ sign = ['-']) ∧ IntText int ∧ showInt n = sign ++ int := by
  cases n with
  | ofNat m => exact ⟨[], showNat m, .inl rfl, intText_showNat m, rfl⟩
  | negSucc m => exact ⟨['-'], showNat (m + 1), .inr rfl, intText_showNat _, showInt_neg m⟩

theorem number_head {sign int x : Str} (h1 : sign = [] ∨ sign = ['-']) (h2 : IntText int) :
    ∃ c r, sign ++ int ++ x = c :: r ∧ (c.isDigit = true ∨ c = '-') := by
  rcases h1 with rfl | rfl
  · obtain ⟨⟨hne, hd⟩, _⟩ := h2
    cases int with
    | nil => exact absurd rfl hne
    | cons c s => exact ⟨c, s ++ x, rfl, .inl (hd c (by simp))⟩
  · exact ⟨'-', int ++ x, by simp, .inr rfl⟩

theorem numberHead_ne {c : Char} (h : c.isDigit = true ∨ c = '-') (d : Char) (hd : d.isDigit = false) (hm : d ≠ '-') : c ≠ d := by
  rcases h with h | rfl
  · exact digit_ne h hd
  · exact fun e => hm e.symm

theorem identHead_ne {c : Char} (h : c.isAlpha = true ∨ c = '_') (d : Char) (hd : d.isAlpha = false) (hm : d ≠ '_') : c ≠ d := by
  rcases h with h | rfl
  · exact alpha_ne h hd
  · exact fun e => hm e.symm

/-- No text starts here. -/
theorem text_fail {s : Str} (h1 : ∀ c s', s = c :: s' → c ≠ '\'') (h2 : ∀ c s', s = c :: s' → c ≠ '"') :
    Parses selGrammar false (.rule .text) s none := by
  refine ruleFail_normal rfl (.choiceR ?_ ?_)
  · exact ruleFail_atomic rfl (.seqFail1 (strFail_head h1))
  · exact ruleFail_atomic rfl (.seqFail1 (strFail_head h2))

/-- No number starts here. -/
theorem number_fail {c : Char} {s : Str} (h1 : c ≠ '-') (h2 : c.isDigit = false) : Parses selGrammar false (.rule .number) (c :: s) none := by
  refine ruleFail_atomic rfl ?_
  have hm : Parses selGrammar true (.opt (.rule .minus)) (c :: s) (some ([], c :: s, [])) :=
    .optNone (ruleFailAtomic (strFail_head fun d s' e => by injection e with e _; rw [← e]; exact h1))
  refine seqFailAtomic hm (.seqFail1 (ruleFailAtomic (.choiceR (ruleFailAtomic (strFail_head fun d s' e => ?_)) (.seqFail1 (.chrFail ?_)))))
  · injection e with e _; rw [← e]; rintro rfl; revert h2; decide
  · cases hn : nonzeroDigit c with
    | false => rfl
    | true =>
      exfalso
      rw [← Bool.not_eq_true, Char.isDigit_iff_toNat] at h2
      simp only [nonzeroDigit, charRange, Bool.and_eq_true, decide_eq_true_eq] at hn
      apply h2
      simp
      omega

/-! ### Absolute ids -/

theorem namespace_body {parts : List Str} {rest : Str} (hne : parts ≠ []) (hp : ∀ p ∈ parts, SmithyIdent p)
    (hi : ∀ c s', rest = c :: s' → identRest c = false) (hd : ∀ c s', rest = c :: s' → c ≠ '.') :
    Parses selGrammar true (selGrammar.body .nsName) (joinWith ['.'] parts ++ rest) (some (joinWith ['.'] parts, rest, [])) := by
  have hF : ∀ ps : List Str, ∀ c s', ps.flatMap (fun p => '.' :: p) ++ rest = c :: s' → identRest c = false := by
    intro ps c s' e
    cases ps with
    | nil => exact hi c s' e
    | cons p ps => injection e with e _; rw [← e]; decide
  have hmore : ∀ ps : List Str, (∀ p ∈ ps, SmithyIdent p) →
      Parses selGrammar true (.more (.str %s"." ~> .rule .identifier)) (ps.flatMap (fun p => '.' :: p) ++ rest)
        (some (ps.flatMap (fun p => '.' :: p), rest, [])) := by
    intro ps
    induction ps with
    | nil => intro _; exact .moreNone (.seqFail1 (strFail_head hd))
    | cons p ps ih =>
      intro h
      have h1 := seqAtomic (g := selGrammar) (Parses.str (t := ['.']) (s := '.' :: p ++ (ps.flatMap (fun p => '.' :: p) ++ rest)) rfl)
        (ident_atomic (h p (by simp)) (hF ps))
      have h2 := Parses.moreSome (g := selGrammar) (m := true) h1 (ih (fun q hq => h q (by simp [hq])))
      rw [skip_true] at h2
      simp only [List.flatMap_cons, List.append_assoc, List.cons_append, List.nil_append] at h2 ⊢
      exact h2
  have hjoin : ∀ p (ps : List Str), joinWith ['.'] (p :: ps) = p ++ ps.flatMap (fun q => '.' :: q) := by
    intro p ps
    induction ps generalizing p with
    | nil => simp [joinWith]
    | cons q qs ih => simp only [joinWith, ih q, List.flatMap_cons]; simp
  cases parts with
  | nil => exact absurd rfl hne
  | cons p ps =>
    rw [hjoin, List.append_assoc]
    refine seqAtomic (p1 := []) (ident_atomic (hp p (by simp)) (hF ps)) ?_
    cases ps with
    | nil => exact .repNone (.seqFail1 (strFail_head hd))
    | cons q qs =>
      have h1 := seqAtomic (g := selGrammar) (Parses.str (t := ['.']) (s := '.' :: q ++ (qs.flatMap (fun p => '.' :: p) ++ rest)) rfl)
        (ident_atomic (hp q (by simp)) (hF qs))
      have h2 := Parses.repSome (g := selGrammar) (m := true) h1 (hmore qs (fun r hr => hp r (by simp [hr])))
      simp only [List.flatMap_cons, List.append_assoc, List.cons_append, List.nil_append] at h2 ⊢
      exact h2

end Verif
