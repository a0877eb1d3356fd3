/-
C59: whitespace and comments at the start of a text; a comment at the end of a text.
-/
import Verif.IdlApply

namespace Verif
open Peg Spec
open IdlGrammar (r)

namespace Spec

/-- Characters that may be in a comment: tabs, and U+0020 to U+10FFF. -/
def CommentChar (c : Char) : Prop := c = '\t' ∨ 0x20 ≤ c.toNat ∧ c.toNat ≤ 0x10FFF

/-- Blank text: spaces, tabs, line ends, commas and comments, each on its line. -/
inductive Blank : Str → Prop
  | nil : Blank []
  | char {c w} : c ∈ [' ', '\t', '\n', '\r', ','] → Blank w → Blank (c :: w)
  | comment {u e w} : (∀ c ∈ u, CommentChar c) → (∀ v, u ≠ '/' :: v) → e = '\n' ∨ e = '\r' → Blank w → Blank ('/' :: '/' :: (u ++ e :: w))

end Spec

theorem commentChar_of {c : Char} (h : CommentChar c) : commentChar c = true := by
  rcases h with rfl | h
  · rfl
  · simp only [commentChar, charRange, Bool.or_eq_true, Bool.and_eq_true, decide_eq_true_eq]
    exact .inr h

/-- Whitespace is read from the start, to where it ends. -/
theorem ws_total (s : Str) : ∃ rest, Eats (r .ws) s rest (· = []) := by
  obtain ⟨x, hx⟩ := idl_total false (e := r .ws) (by decide) s
  cases x with
  | none =>
    exfalso
    cases hx with
    | ruleFail h => cases h
  | some y =>
    obtain ⟨t, rest, ps⟩ := y
    refine ⟨rest, t, ps, hx, ?_⟩
    have := (hx.tree _ _ _ rfl).emits 32 [] (by decide)
    cases ps with
    | nil => rfl
    | cons p q => exact absurd (this p (by simp)) (by simp)

theorem ws_rep {s rest : Str} : Eats (r .ws) s rest (· = []) ↔ Eats (.rep wsOne) s rest (· = []) := by
  constructor
  · rintro ⟨t, ps, h, rfl⟩
    cases h with
    | rule h => exact ⟨t, [], h, rfl⟩
  · intro h
    exact Eats.silent (r := .ws) rfl h

theorem Eats.rest_eq {e : Expr IdlRule} {s a b : Str} {Q Q' : List (Pair IdlRule) → Prop} (h1 : Eats e s a Q) (h2 : Eats e s b Q') : a = b := by
  obtain ⟨t1, p1, h1, -⟩ := h1
  obtain ⟨t2, p2, h2, -⟩ := h2
  have := h1.det h2
  injection this with this
  injection this with _ this
  injection this

theorem newline_eats {e : Char} {s rest : Str} (he : e = '\n' ∨ e = '\r') (h : Eats (r .ws) s rest (· = [])) :
    ∃ s', Eats (r .NEWLINE) (e :: s) s' (· = []) ∧ Eats (r .ws) s' rest (· = []) := by
  rcases he with rfl | rfl
  · exact ⟨s, .silent rfl (.choiceL (Eats.str (t := ['\n']))), h⟩
  · cases s with
    | nil => exact ⟨[], .silent rfl (.choiceR (fails 8 (by decide)) (.choiceR (.strFail (by decide)) (Eats.str (t := ['\r'])))), h⟩
    | cons c s =>
      by_cases hc : c = '\n'
      · subst hc
        obtain ⟨rest', hr⟩ := ws_total s
        have h2 : Eats (r .ws) ('\n' :: s) rest' (· = []) := by
          rw [ws_rep] at hr ⊢
          refine ((wsOne_eats (c := '\n') (by decide)).repCons hr).mono ?_
          rintro _ ⟨_, _, rfl, rfl, rfl⟩; rfl
        have := h.rest_eq h2
        subst this
        exact ⟨s, .silent rfl (.choiceR (fails 8 (by decide)) (.choiceL (Eats.str (t := ['\r', '\n'])))), hr⟩
      · refine ⟨c :: s, .silent rfl (.choiceR (fails 8 (by decide)) (.choiceR (.strFail ?_) (Eats.str (t := ['\r'])))), h⟩
        simp [stripPrefix, Ne.symm hc]

theorem cons_ws {s s' rest : Str} (h1 : Eats wsOne s s' (· = [])) (h2 : Eats (r .ws) s' rest (· = [])) : Eats (r .ws) s rest (· = []) := by
  rw [ws_rep] at h2 ⊢
  refine (h1.repCons h2).mono ?_
  rintro _ ⟨_, _, rfl, rfl, rfl⟩; rfl

theorem blank_eats {w s rest : Str} (hw : Blank w) (h : Eats (r .ws) s rest (· = [])) : Eats (r .ws) (w ++ s) rest (· = []) := by
  induction hw with
  | nil => exact h
  | @char c w hc hw ih =>
    simp only [List.mem_cons, List.not_mem_nil, or_false] at hc
    rcases hc with rfl | rfl | rfl | rfl | rfl
    · exact cons_ws (wsOne_eats (by decide)) ih
    · exact cons_ws (.choiceL (.silent rfl (.choiceR (fails 8 (by decide)) (Eats.str (t := ['\t']))))) ih
    · exact cons_ws (wsOne_eats (by decide)) ih
    · obtain ⟨s', h1, h2⟩ := newline_eats (.inr rfl) ih
      exact cons_ws (.choiceR (fails 8 (by decide)) (.choiceL h1)) h2
    · exact cons_ws (wsOne_eats (by decide)) ih
  | @comment u e w hu hns he hw ih =>
    obtain ⟨s', h1, h2⟩ := newline_eats he ih
    refine cons_ws (s' := s') ?_ h2
    have hassoc : '/' :: '/' :: (u ++ e :: w) ++ s = '/' :: '/' :: (u ++ e :: (w ++ s)) := by simp
    rw [hassoc]
    have hne : commentChar e = false := by rcases he with rfl | rfl <;> decide
    have hsl : e ≠ '/' := by rcases he with rfl | rfl <;> decide
    have hnot : Eats (.not (.str %s"///")) ('/' :: '/' :: (u ++ e :: (w ++ s))) ('/' :: '/' :: (u ++ e :: (w ++ s))) (· = []) := by
      refine ⟨_, _, .notOk (.strFail ?_), rfl⟩
      cases u with
      | nil => simp [stripPrefix, Ne.symm hsl]
      | cons c u =>
        have : c ≠ '/' := fun h => hns u (by rw [h])
        simp [stripPrefix, Ne.symm this]
    have hline : Eats (r .lineComment) ('/' :: '/' :: (u ++ e :: (w ++ s))) s' (· = []) :=
      .silent rfl ((Eats.str (t := %s"//")).seqL ((rep_digits (fun c hc => commentChar_of (hu c hc))
        (by intro c s'' h; injection h with h _; rw [← h]; exact hne)).seqL h1))
    exact .choiceR (fails 8 (by decide)) (.choiceR (fails 8 (by decide)) (.choiceL (hnot.seqL hline)))

/-- What is read depends only on what follows the whitespace at the start. -/
theorem readBuilder_rest (flt : Str → Option F64) {a b rest : Str} (ha : Eats (r .ws) a rest (· = [])) (hb : Eats (r .ws) b rest (· = [])) :
    readBuilder flt a = readBuilder flt b := by
  have key : ∀ {a}, Eats (r .ws) a rest (· = []) → ∀ x, Parses idlGrammar false (r .controlSection ~> r .metadataSection ~> r .shapeSection ~> .eoi) rest x →
      match x with
      | none => matchIdl a = none
      | some (_, _, ps) => ∃ t, matchIdl a = some [.mk .idl t ps] := by
    intro a ha x hx
    cases x with
    | none =>
      have : Parses idlGrammar false (.rule .idl) a none := failsNormal rfl (failsSeq Eats.soi (failsSeq ha hx))
      exact (matchIdl_iff _ _).mpr ⟨_, this, rfl⟩
    | some y =>
      obtain ⟨t, s', ps⟩ := y
      have hx : Eats (r .controlSection ~> r .metadataSection ~> r .shapeSection ~> .eoi) rest s' (· = ps) := ⟨t, ps, hx, rfl⟩
      obtain ⟨t', _, h, t'', _, rfl, rfl⟩ := Eats.normal (r := .idl) rfl (Eats.soi.seqL (ha.seqL hx))
      exact ⟨t'', (matchIdl_iff _ _).mpr ⟨_, h, rfl⟩⟩
  obtain ⟨x, hx⟩ := idl_total false (e := r .controlSection ~> r .metadataSection ~> r .shapeSection ~> .eoi) (by decide) rest
  have h1 := key ha x hx
  have h2 := key hb x hx
  unfold readBuilder
  cases x with
  | none =>
    simp only at h1 h2
    rw [h1, h2]
  | some y =>
    obtain ⟨t, s', ps⟩ := y
    simp only at h1 h2
    obtain ⟨t1, h1⟩ := h1
    obtain ⟨t2, h2⟩ := h2
    rw [h1, h2]
    rfl

/-- C59: blank text at the start changes nothing. -/
theorem C59_leading_blank (flt : Str → Option F64) (enum : List ShapeID → List ShapeID) (w s : Str) (h : Blank w) :
    parseModel flt enum (w ++ s) = parseModel flt enum s := by
  obtain ⟨rest, hr⟩ := ws_total s
  unfold parseModel
  rw [readBuilder_rest flt (blank_eats h hr) hr]

/-! ### Comments at the end -/

theorem Parses.seq_snd {m : Bool} {a b : Expr IdlRule} {s t rest : Str} {ps : List (Pair IdlRule)} (h : Parses idlGrammar m (.seq a b) s (some (t, rest, ps))) :
    ∃ s' t' ps', Parses idlGrammar m b s' (some (t', rest, ps')) := by
  cases h with
  | seq _ h => exact ⟨_, _, _, h⟩

/-- The whole text is matched. -/
theorem idl_end {s t rest : Str} {ps : List (Pair IdlRule)} (h : Parses idlGrammar false (.rule .idl) s (some (t, rest, ps))) : rest = [] := by
  have hb : ∃ ps', Parses idlGrammar false (IdlGrammar.body .idl) s (some (t, rest, ps')) := by
    cases h with
    | rule h => exact ⟨_, h⟩
  obtain ⟨_, h⟩ := hb
  obtain ⟨_, _, _, h⟩ := Parses.seq_snd h
  obtain ⟨_, _, _, h⟩ := Parses.seq_snd h
  obtain ⟨_, _, _, h⟩ := Parses.seq_snd h
  obtain ⟨_, _, _, h⟩ := Parses.seq_snd h
  obtain ⟨_, _, _, h⟩ := Parses.seq_snd h
  cases h
  rfl

/-- Each slash is followed, sooner or later, by a line end or a quote. -/
def SlashClosed (t : Str) : Prop := ∀ a u, t = a ++ '/' :: u → ∃ c ∈ u, c ∈ ['\n', '\r', '"']

/-- A line end or a quote at the end. -/
def Ends (t : Str) : Prop := ∃ x c, t = x ++ [c] ∧ c ∈ ['\n', '\r', '"']

theorem Ends.append {t : Str} (h : Ends t) (x : Str) : Ends (x ++ t) := by
  obtain ⟨y, c, rfl, hc⟩ := h
  exact ⟨x ++ y, c, by simp, hc⟩

theorem Ends.closed {t : Str} (h : Ends t) : SlashClosed t := by
  obtain ⟨x, c, rfl, hc⟩ := h
  intro a u e
  rcases List.eq_nil_or_concat u with rfl | ⟨u', d, rfl⟩
  · have := (List.append_inj' e rfl).2
    injection this with this
    subst this
    exact absurd hc (by decide)
  · have : x ++ [c] = (a ++ '/' :: u') ++ [d] := by rw [e]; simp
    have := (List.append_inj' this rfl).2
    injection this with this
    subst this
    exact ⟨c, by simp, hc⟩

theorem SlashClosed.append {s t : Str} (hs : SlashClosed s) (ht : SlashClosed t) : SlashClosed (s ++ t) := by
  intro a u e
  rcases List.append_eq_append_iff.mp e with ⟨as, e1, e2⟩ | ⟨bs, e1, e2⟩
  · exact ht as u e2
  · cases bs with
    | nil => exact ht [] u (by simpa using e2.symm)
    | cons b bs =>
      injection e2 with h1 h2
      subst h1
      obtain ⟨c, hc, h⟩ := hs a bs e1
      exact ⟨c, by rw [h2]; simp [hc], h⟩

theorem slashClosed_of_not_mem {t : Str} (h : '/' ∉ t) : SlashClosed t := by
  intro a u e
  exact absurd (by rw [e]; simp) h

/-- Slashes are only in these rules. -/
def slashRules : List IdlRule := [.documentationText, .quotedChars, .escapedChar, .preservedDouble, .blockQuotedChars]

/-- Rules that end in a line end or in a quote. -/
def endRules : List IdlRule := [.lineComment, .documentationComment, .quotedText, .textBlock]

/-- No slash is in the expression itself. -/
def slashFree : Expr IdlRule → Bool
  | .str u => !u.contains '/'
  | .chr p => !p '/'
  | .seq a b | .choice a b => slashFree a && slashFree b
  | .opt a | .rep a | .more a => slashFree a
  | .not _ | .soi | .eoi => true
  | .rule x => !slashRules.contains x

theorem slashFree_body (x : IdlRule) : (slashRules ++ endRules).contains x || slashFree (IdlGrammar.body x) = true := by
  cases x <;> decide

theorem tree_snd {m : Bool} {a b : Expr IdlRule} {t : Str} {ps : List (Pair IdlRule)} (h : Tree idlGrammar m (.seq a b) t ps) :
    ∃ x t2 p2, t = x ++ t2 ∧ Tree idlGrammar m b t2 p2 := by
  cases h with
  | @seq _ _ _ t1 p1 w t2 p2 _ _ _ hb => exact ⟨t1 ++ w, t2, p2, by simp, hb⟩

theorem newline_ends {m : Bool} {t : Str} {ps : List (Pair IdlRule)} (h : Tree idlGrammar m (r .NEWLINE) t ps) : Ends t := by
  have hm := h.literal (n := 8) (l := [['\n'], ['\r', '\n'], ['\r']]) (by decide)
  simp only [List.mem_cons, List.not_mem_nil, or_false] at hm
  rcases hm with rfl | rfl | rfl
  · exact ⟨[], '\n', rfl, by decide⟩
  · exact ⟨['\r'], '\n', rfl, by decide⟩
  · exact ⟨[], '\r', rfl, by decide⟩

theorem quote_ends {m : Bool} {t : Str} {ps : List (Pair IdlRule)} (h : Tree idlGrammar m (r .DQUOTE) t ps) : Ends t := by
  have hm := h.literal (n := 8) (l := [['"']]) (by decide)
  simp only [List.mem_singleton] at hm
  subst hm
  exact ⟨[], '"', rfl, by decide⟩

theorem endRules_end {m : Bool} {x : IdlRule} {t : Str} {ps : List (Pair IdlRule)} (hx : x ∈ endRules) (h : Tree idlGrammar m (IdlGrammar.body x) t ps) : Ends t := by
  simp only [endRules, List.mem_cons, List.not_mem_nil, or_false] at hx
  rcases hx with rfl | rfl | rfl | rfl
  · obtain ⟨x, t2, _, rfl, h1⟩ := tree_snd h
    obtain ⟨y, t3, _, rfl, h2⟩ := tree_snd h1
    exact ((newline_ends h2).append y).append x
  · obtain ⟨x, t2, _, rfl, h1⟩ := tree_snd h
    obtain ⟨y, t3, _, rfl, h2⟩ := tree_snd h1
    obtain ⟨z, t4, _, rfl, h3⟩ := tree_snd h2
    exact (((newline_ends h3).append z).append y).append x
  · obtain ⟨x, t2, _, rfl, h1⟩ := tree_snd h
    obtain ⟨y, t3, _, rfl, h2⟩ := tree_snd h1
    exact ((quote_ends h2).append y).append x
  · obtain ⟨x, t2, _, rfl, h1⟩ := tree_snd h
    obtain ⟨y, t3, _, rfl, h2⟩ := tree_snd h1
    obtain ⟨z, t4, _, rfl, h3⟩ := tree_snd h2
    obtain ⟨z', t5, _, rfl, h4⟩ := tree_snd h3
    obtain ⟨z'', t6, _, rfl, h5⟩ := tree_snd h4
    exact (((((quote_ends h5).append z'').append z').append z).append y).append x

theorem slashClosed {m : Bool} {e : Expr IdlRule} {t : Str} {ps : List (Pair IdlRule)} (h : Tree idlGrammar m e t ps) (he : slashFree e = true) : SlashClosed t := by
  have white : ∀ {w : Str}, (∀ c ∈ w, idlGrammar.ws c = true) → SlashClosed w := by
    intro w hw
    exact slashClosed_of_not_mem fun h => absurd (hw _ h) (by change ¬ false = true; decide)
  induction h with
  | str => exact slashClosed_of_not_mem (by simpa [slashFree] using he)
  | @chr m p c hp =>
    refine slashClosed_of_not_mem fun h => ?_
    have := List.mem_singleton.mp h
    subst this
    simp [slashFree, hp] at he
  | seq _ _ hw _ ia ib =>
    simp only [slashFree, Bool.and_eq_true] at he
    exact (ia he.1).append ((white hw).append (ib he.2))
  | choiceL _ ih =>
    simp only [slashFree, Bool.and_eq_true] at he
    exact ih he.1
  | choiceR _ _ ih =>
    simp only [slashFree, Bool.and_eq_true] at he
    exact ih he.2
  | optSome _ ih => exact ih he
  | optNone | repNone | moreNone | not | soi | eoi => exact slashClosed_of_not_mem (by simp)
  | repSome _ _ ia ib => exact (ia he).append (ib he)
  | moreSome _ hw _ _ ia ib => exact (white hw).append ((ia he).append (ib he))
  | @rule m x t ps h ih =>
    by_cases hx : x ∈ endRules
    · exact (endRules_end hx h).closed
    · refine ih ?_
      have := slashFree_body x
      simp only [slashFree, Bool.not_eq_true', List.contains_eq_mem, decide_eq_false_iff_not] at he
      simp only [Bool.or_eq_true, List.contains_eq_mem, List.mem_append, decide_eq_true_eq] at this
      rcases this with (h | h) | h
      · exact absurd h he
      · exact absurd h hx
      · exact h

/-- C59: a comment on the last line without a line end is not accepted: no slash may stand without a line end or a quote
after it. -/
theorem C59_open_comment (flt : Str → Option F64) (enum : List ShapeID → List ShapeID) (s u : Str)
    (h : ∀ c ∈ u, c ≠ '\n' ∧ c ≠ '\r' ∧ c ≠ '"') : ∃ e, parseModel flt enum (s ++ '/' :: u) = .error e := by
  have hm : matchIdl (s ++ '/' :: u) = none := by
    cases hm : matchIdl (s ++ '/' :: u) with
    | none => rfl
    | some ps =>
      exfalso
      obtain ⟨x, hx, e⟩ := (matchIdl_iff _ _).mp hm
      cases x with
      | none => cases e
      | some y =>
        obtain ⟨t, rest, ps'⟩ := y
        have hrest := idl_end hx
        subst hrest
        have ht := hx.split _ _ _ rfl
        rw [List.append_nil] at ht
        subst ht
        obtain ⟨c, hc, hc'⟩ := slashClosed (hx.tree _ _ _ rfl) (by decide) s u rfl
        have := h c hc
        simp only [List.mem_cons, List.not_mem_nil, or_false] at hc'
        rcases hc' with rfl | rfl | rfl
        · exact this.1 rfl
        · exact this.2.1 rfl
        · exact this.2.2 rfl
  unfold parseModel readBuilder
  rw [hm]
  exact ⟨_, rfl⟩

/-- A comment and an empty line. -/
example : Blank %s"// a comment\n\n" :=
  .comment (u := %s" a comment") (by unfold CommentChar; decide) (by intro v h; cases h) (.inl rfl) (.char (by decide) .nil)

end Verif
