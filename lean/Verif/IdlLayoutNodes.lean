/-
Text blocks, and the values of the Smithy IDL in any layout.
-/
import Verif.IdlLayoutValues

namespace Verif
open Peg Spec Spec.Idl
open IdlGrammar (r null rank keyed)

/-! ### Text blocks -/

/-- One round of the loop over the characters of a block. -/
abbrev blockOne : Expr IdlRule := (.not (.str ['"', '"', '"']) ~> r .DQUOTE) <||> r .sp <||> r .NEWLINE <||> .chr plainChar <||>
      r .escapedChar <||> r .preservedDouble

theorem block_hex {a : Char} {u rest s' : Str} (h : BlockText u) (ha : hexDigit a = true) (e : u ++ '"' :: rest = a :: s') :
    ∃ u', u = a :: u' ∧ BlockText u' ∧ s' = u' ++ '"' :: rest := by
  cases h with
  | nil => injection e with e _; subst e; exact absurd ha (by decide)
  | @char c u _ hu => injection e with e1 e2; exact ⟨u, by rw [e1], hu, e2.symm⟩
  | escape => injection e with e _; subst e; exact absurd ha (by decide)
  | quote => injection e with e _; subst e; exact absurd ha (by decide)
  | quotes => injection e with e _; subst e; exact absurd ha (by decide)

/-- A quote that is not the first of three. -/
theorem blockQuote {s : Str} (h : stripPrefix ['"', '"'] s = none) : Parses idlGrammar true blockOne ('"' :: s) (some (['"'], s, [])) := by
  have hq : Parses idlGrammar true (r .DQUOTE) ('"' :: s) (some (['"'], s, [])) := atomicRule (.str (stripPrefix_append ['"'] s))
  refine .choiceL ?_
  have := Parses.seq (g := idlGrammar) (m := true) (a := .not (.str ['"', '"', '"'])) (.notOk (s := '"' :: s) (.strFail (by simpa [stripPrefix] using h))) (by rw [skip_true]; exact hq)
  rw [skip_true] at this
  exact this

theorem blockOne_step {u : Str} (h : BlockText u) (hne : u ≠ []) (rest : Str) :
    ∃ x u', u = x ++ u' ∧ x ≠ [] ∧ BlockText u' ∧ Parses idlGrammar true blockOne (u ++ '"' :: rest) (some (x, u' ++ '"' :: rest, [])) := by
  have noQuote : ∀ {c : Char} {s : Str}, c ≠ '"' → Parses idlGrammar true (.not (.str ['"', '"', '"']) ~> r .DQUOTE) (c :: s) none := by
    intro c s hc
    refine .seqFail2 (.notOk (.strFail ?_)) (by
      rw [skip_true]
      exact atomicFails (.strFail (by simp [stripPrefix, Ne.symm hc])))
    simp [stripPrefix, Ne.symm hc]
  cases h with
  | nil => exact absurd rfl hne
  | @char c u hc hu =>
    by_cases hsp : c = ' ' ∨ c = '\t'
    · refine ⟨[c], u, rfl, by simp, hu, ?_⟩
      rcases hsp with rfl | rfl
      · exact .choiceR (noQuote (by decide)) (.choiceL (atomicRule (.choiceL (.str (stripPrefix_append [' '] _)))))
      · exact .choiceR (noQuote (by decide)) (.choiceL (atomicRule (.choiceR (fails 8 (by decide)) (.str (stripPrefix_append ['\t'] _)))))
    · by_cases hn : c = '\n'
      · subst hn
        exact ⟨['\n'], u, rfl, by simp, hu, .choiceR (noQuote (by decide)) (.choiceR (fails 8 (by decide)) (.choiceL (atomicRule (.choiceL (.str (stripPrefix_append ['\n'] _))))))⟩
      · by_cases hr : c = '\r'
        · subst hr
          have one : ∀ s : Str, s.head? ≠ some '\n' → Parses idlGrammar true blockOne ('\r' :: s) (some (['\r'], s, [])) := by
            intro s hs
            refine .choiceR (noQuote (by decide)) (.choiceR (fails 8 (by decide)) (.choiceL (atomicRule (.choiceR (fails 8 (by decide)) (.choiceR (.strFail ?_) (.str (stripPrefix_append ['\r'] _)))))))
            cases s with
            | nil => rfl
            | cons d s =>
              have : d ≠ '\n' := by simpa using hs
              simp [stripPrefix, Ne.symm this]
          by_cases hd : u.head? = some '\n'
          · obtain ⟨v, rfl⟩ : ∃ v, u = '\n' :: v := by
              cases u with
              | nil => simp at hd
              | cons d v => simp only [List.head?_cons, Option.some.injEq] at hd; subst hd; exact ⟨v, rfl⟩
            have hv : BlockText v := by cases hu with | char _ h => exact h
            exact ⟨['\r', '\n'], v, rfl, by simp, hv, .choiceR (noQuote (by decide)) (.choiceR (fails 8 (by decide)) (.choiceL (atomicRule
              (.choiceR (fails 8 (by decide)) (.choiceL (.str (stripPrefix_append ['\r', '\n'] _)))))))⟩
          · refine ⟨['\r'], u, rfl, by simp, hu, one _ ?_⟩
            cases u with
            | nil => simp
            | cons d u => simpa using hd
        · have hp : PlainChar c := by
            rcases hc with hc | hc
            · exact hc
            · simp only [List.mem_cons, List.not_mem_nil, or_false] at hc
              rcases hc with rfl | rfl | rfl
              · exact absurd (.inr rfl) hsp
              · exact absurd rfl hn
              · exact absurd rfl hr
          have ne : ∀ {d : Char} {t s : Str}, c ≠ d → Parses idlGrammar true (.str (d :: t)) (c :: s) none :=
            fun h => .strFail (by simp [stripPrefix, Ne.symm h])
          exact ⟨[c], u, rfl, by simp, hu, .choiceR (noQuote hp.2.2.1) (.choiceR (atomicFails (.choiceR (ne fun e => hsp (.inl e)) (ne fun e => hsp (.inr e))))
            (.choiceR (atomicFails (.choiceR (ne hn) (.choiceR (ne hr) (ne hr)))) (.choiceL (.chr (plainChar_of hp)))))⟩
  | @quote c u hc hu =>
    refine ⟨['"'], c :: u, rfl, by simp, hu, blockQuote ?_⟩
    simp [stripPrefix, Ne.symm hc]
  | @quotes c u hc hu =>
    refine ⟨['"'], '"' :: c :: u, rfl, by simp, .quote hc hu, blockQuote ?_⟩
    simp [stripPrefix, Ne.symm hc]
  | @escape c u hc hu =>
    have hs : ∀ {s : Str} {y}, Parses idlGrammar true (r .escapedChar <||> r .preservedDouble) ('\\' :: s) y → Parses idlGrammar true blockOne ('\\' :: s) y :=
      fun h => .choiceR (noQuote (by decide)) (.choiceR (fails 8 (by decide)) (.choiceR (fails 8 (by decide)) (.choiceR (fails 8 (by decide)) h)))
    have hesc : ∀ s, Parses idlGrammar true (r .escape) ('\\' :: s) (some (['\\'], s, [])) := fun s => atomicRule (.str (stripPrefix_append ['\\'] s))
    have hq : ∀ s, Parses idlGrammar true (r .DQUOTE) ('"' :: s) (some (['"'], s, [])) := fun s => atomicRule (.str (stripPrefix_append ['"'] s))
    have two : ∀ {e : Expr IdlRule} {d : Char} {s : Str}, Parses idlGrammar true e (d :: s) (some ([d], s, [])) →
        Parses idlGrammar true (r .escape ~> e) ('\\' :: d :: s) (some (['\\', d], s, [])) := by
      intro e d s h
      have := Parses.seq (g := idlGrammar) (m := true) (hesc (d :: s)) (by rw [skip_true]; exact h)
      rw [skip_true] at this
      exact this
    rcases hc with hc | rfl | rfl
    · obtain ⟨res, hres⟩ := idl_total true (e := r .escapedChar) (by decide) ('\\' :: c :: u ++ '"' :: rest)
      cases res with
      | none => exact ⟨['\\', c], u, rfl, by simp, hu, hs (.choiceR hres (atomicRule (two (.chr (plainChar_of hc)))))⟩
      | some y =>
        obtain ⟨x, s', ps⟩ := y
        have hsplit := hres.split _ _ _ rfl
        have htree := hres.tree _ _ _ rfl
        obtain rfl := htree.noPairs
        obtain ⟨t1, t2, rfl, h1, h2⟩ := htree.body.parts
        obtain ⟨rfl, -⟩ := (show Tree idlGrammar true (.str ['\\']) t1 [] from h1.body).str_eq
        rcases escape_tail h2 with ⟨d, rfl⟩ | ⟨a, b, x, d, rfl, hx⟩
        · injection hsplit with _ hsplit
          injection hsplit with h3 h4
          subst h3
          have h4 : u ++ '"' :: rest = s' := h4
          subst h4
          exact ⟨['\\', c], u, rfl, by simp, hu, hs (.choiceL hres)⟩
        · injection hsplit with _ hsplit
          injection hsplit with h3 h4
          subst h3
          simp only [List.mem_cons, List.not_mem_nil, or_false, forall_eq_or_imp, forall_eq] at hx
          obtain ⟨u1, rfl, hu, h4⟩ := block_hex hu hx.1 h4
          obtain ⟨u2, rfl, hu, h4⟩ := block_hex hu hx.2.1 h4.symm
          obtain ⟨u3, rfl, hu, h4⟩ := block_hex hu hx.2.2.1 h4.symm
          obtain ⟨u4, rfl, hu, h4⟩ := block_hex hu hx.2.2.2 h4.symm
          have h4 : s' = u4 ++ '"' :: rest := h4
          subst h4
          exact ⟨['\\', 'u', a, b, x, d], u4, rfl, by simp, hu, hs (.choiceL hres)⟩
    · exact ⟨['\\', '\\'], u, rfl, by simp, hu, hs (.choiceL (atomicRule (two (.choiceL (hesc _)))))⟩
    · exact ⟨['\\', '"'], u, rfl, by simp, hu, hs (.choiceL (atomicRule (two (.choiceR (fails 8 (by decide)) (.choiceR (fails 8 (by decide)) (.choiceL (hq _)))))))⟩

theorem block_body {u : Str} (h : BlockText u) (rest : Str) :
    Parses idlGrammar true (IdlGrammar.body .blockQuotedChars) (u ++ '"' :: '"' :: '"' :: rest) (some (u, '"' :: '"' :: '"' :: rest, [])) := by
  have hend : Parses idlGrammar true blockOne ('"' :: '"' :: '"' :: rest) none := by
    refine .choiceR (.seqFail1 (.notFail (.str (stripPrefix_append ['"', '"', '"'] rest)))) (.choiceR (fails 8 (by decide)) (.choiceR (fails 8 (by decide))
      (.choiceR (fails 8 (by decide)) (.choiceR (fails 8 (by decide)) (fails 8 (by decide))))))
  have more : ∀ (n : Nat) (u : Str), u.length ≤ n → BlockText u →
      Parses idlGrammar true (.more blockOne) (u ++ '"' :: '"' :: '"' :: rest) (some (u, '"' :: '"' :: '"' :: rest, [])) := by
    intro n
    induction n with
    | zero =>
      intro u hn _
      have : u = [] := List.length_eq_zero_iff.mp (by omega)
      subst this
      exact .moreNone (by rw [skip_true]; exact hend)
    | succ n ih =>
      intro u hn hu
      by_cases hne : u = []
      · subst hne
        exact .moreNone (by rw [skip_true]; exact hend)
      · obtain ⟨x, u', rfl, hx, hu', hp⟩ := blockOne_step hu hne ('"' :: '"' :: rest)
        have hl : 0 < x.length := List.length_pos_iff.mpr hx
        have := Parses.moreSome (g := idlGrammar) (m := true) (s := x ++ u' ++ '"' :: '"' :: '"' :: rest) (by rw [skip_true]; exact hp)
          (ih u' (by rw [List.length_append] at hn; omega) hu')
        rw [skip_true] at this
        exact this
  by_cases hne : u = []
  · subst hne
    exact .repNone hend
  · obtain ⟨x, u', rfl, hx, hu', hp⟩ := blockOne_step h hne ('"' :: '"' :: rest)
    exact .repSome hp (more _ u' le_rfl hu')

theorem block_text {flt : Str → Option F64} {w u : Str} (hw : Blank w) (h : BlockText u) (hu : ∀ c ∈ u.head?, c ∉ [' ', '\t', '\n', '\r', ',', '/']) :
    NodeText flt (%s"\"\"\"" ++ w ++ u ++ %s"\"\"\"") (.string u) := by
  refine ⟨⟨_, _, rfl, by decide⟩, fun rest _ => ?_⟩
  have e : %s"\"\"\"" ++ w ++ u ++ %s"\"\"\"" ++ rest = '"' :: '"' :: '"' :: (w ++ (u ++ '"' :: '"' :: '"' :: rest)) := by simp
  rw [e]
  have d : ∀ u, Eats (r .DQUOTE) ('"' :: u) u (· = []) := fun u => .silent rfl (Eats.str (t := ['"']))
  have ddd : ∀ u, Eats (r .DQUOTE ~> r .DQUOTE ~> r .DQUOTE) ('"' :: '"' :: '"' :: u) u (· = []) := fun u => (d _).seqL ((d _).seqL (d _))
  have hstop : Stops (u ++ '"' :: '"' :: '"' :: rest) := by
    cases u with
    | nil => exact stops_of_head ⟨_, _, rfl, by decide⟩
    | cons c u => exact stops_of_head ⟨c, _, rfl, hu c (by simp)⟩
  have hbr : Eats (r .br) (w ++ (u ++ '"' :: '"' :: '"' :: rest)) (u ++ '"' :: '"' :: '"' :: rest) (· = []) := by
    refine .silent rfl ((blank_stops hw hstop).seqL (.optNone ?_))
    cases u <;> exact .eoiFail
  have hb : Eats (r .blockQuotedChars) (u ++ '"' :: '"' :: '"' :: rest) ('"' :: '"' :: '"' :: rest) (· = [.mk .blockQuotedChars u []]) := .atomic rfl (block_body h rest)
  refine nodeValue_eats (.choiceR (fails 8 (by decide)) (.choiceR (fails 8 (by decide)) (.choiceR (fails 8 (by decide))
    (.choiceR (fails 8 (by decide)) (.choiceR (fails 12 (by decide)) (.choiceL ((Eats.normal (r := .textBlock) rfl ((ddd _).seqL (hbr.seqL (hb.seqR (ddd _))))).mono ?_)))))))
  rintro _ ⟨t, _, rfl, rfl⟩
  exact ⟨_, rfl, rfl⟩

/-! ### Values -/

theorem keyword_text {flt : Str → Option F64} {t : Str} {v : Value} (h : Keyword t v) : NodeText flt t v := by
  refine ⟨?_, fun rest _ => kwValue_eats h rest⟩
  cases h <;> exact ⟨_, _, rfl, by decide⟩

theorem nameValue_text {flt : Str → Option F64} {n : ShapeName} {t : Str} (h : NameText n t) (hk : NotKeyword t) : NodeText flt t (.string t) := by
  obtain ⟨c, x, e, hc⟩ := nameText_head h
  refine ⟨⟨c, x, e, by simp [valueHeads, hc]⟩, fun rest hr => ?_⟩
  have hf : ∀ {e' : Expr IdlRule} (n : Nat),
      (∀ c ∈ identHeads, (!mayBeEmpty null e' && (bounded null rank 32 e' && !starts n e' c)) = true) →
      Parses idlGrammar false e' (t ++ rest) none := by
    intro e' n h
    rw [e]
    exact fails n (h c hc)
  have hkw : ∀ k : Str, ¬ k <+: t → (∀ a ∈ k, a.isAlpha = true) → Parses idlGrammar false (.str k) (t ++ rest) none := by
    intro k hk ha
    apply Parses.strFail
    cases hs : stripPrefix k (t ++ rest) with
    | none => rfl
    | some u =>
      exfalso
      have := stripPrefix_some hs
      rcases List.append_eq_append_iff.mp this with ⟨as, e1, e2⟩ | ⟨bs, e1, e2⟩
      · cases as with
        | nil => exact hk ⟨[], by simpa using e1⟩
        | cons a as =>
          have h5 := (hr.name a (as ++ u) e2).1
          have h6 := ha a (by rw [e1]; simp)
          unfold identRest at h5
          simp [h6] at h5
      · exact hk ⟨bs, e1.symm⟩
  refine nodeValue_eats (.choiceR (hf 8 (by decide)) (.choiceR (hf 8 (by decide)) (.choiceR (hf 8 (by decide))
    (.choiceR ?_ (.choiceL ((name_eats h hr.name).mono ?_))))))
  · refine failsSilent rfl (.choiceR (failsNormal rfl (hkw _ (hk _ _ .true) (by decide))) (.choiceR (failsNormal rfl (hkw _ (hk _ _ .false) (by decide)))
      (failsNormal rfl (hkw _ (hk _ _ .null) (by decide)))))
  · rintro _ rfl
    exact ⟨_, rfl, rfl⟩

theorem integer_text {flt : Str → Option F64} {n : Int} (hn : i64 n) : NodeText flt (showInt n) (.number (.integer n)) := by
  obtain ⟨sign, int, h1, h2, e⟩ := showInt_parts n
  have := number_text (flt := flt) (n := .integer n) (frac := []) h1 h2 (.inl rfl) (by
    rw [List.append_nil, ← e]
    unfold IdlParser.numberOf
    rw [showInt_no_dot, parseI64_showInt n hn]
    rfl)
  rw [List.append_nil, ← e] at this
  exact this

theorem minusZero_text {flt : Str → Option F64} : NodeText flt %s"-0" (.number (.integer 0)) :=
  number_text (sign := ['-']) (int := ['0']) (frac := []) (.inr rfl) ⟨⟨by decide, by decide⟩, by decide⟩ (.inl rfl) rfl

/-- Every text of a value, in any layout, is read as the value. -/
theorem valueText_node {flt : Str → Option F64} {v : Value} {t : Str} (h : ValueText flt v t) : NodeText flt t v := by
  induction h with
  | array hw _ hp ih => exact array_any hw ih hp
  | @object w es hw hok _ hp ih =>
    refine ⟨⟨_, _, rfl, by decide⟩, fun rest _ => ?_⟩
    refine nodeValue_eats (.choiceR (fails 8 (by decide)) (.choiceL ((object_any hw hok ih hp rest).mono ?_)))
    rintro _ ⟨t, ps', rfl, hp⟩
    exact ⟨_, rfl, innerValue_object hp⟩
  | integer h => exact integer_text h
  | minusZero => exact minusZero_text
  | float h hx => exact float_text h hx
  | keyword h => exact keyword_text h
  | name h hk => exact nameValue_text h hk
  | @quoted u h =>
    have e : %s"\"" ++ u ++ %s"\"" = '"' :: u ++ ['"'] := by simp
    rw [e]
    exact escaped_text h
  | block hw h hu => exact block_text hw h hu

end Verif
