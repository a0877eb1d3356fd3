/-
The tokens of the Smithy IDL: whitespace, identifiers, ids, numbers and quoted texts are matched by the grammar.
-/
import Verif.IdlPeg
import Verif.Idl
import Verif.SelectorReads
import Mathlib.Tactic.IntervalCases

namespace Verif
open Peg Spec

/-- What an identifier starts with. -/
def identHeads : List Char := %s"_abcdefghijklmnopqrstuvwxyzABCDEFGHIJKLMNOPQRSTUVWXYZ"

/-- What a number starts with. -/
def numberHeads : List Char := %s"-0123456789"

theorem mem_identHeads {c : Char} (h : c.isAlpha = true ∨ c = '_') : c ∈ identHeads := by
  rcases h with h | rfl
  · have hc : c = Char.ofNat c.toNat := (Char.ofNat_toNat c).symm
    simp only [Char.isAlpha, Char.isUpper, Char.isLower, Bool.or_eq_true, Bool.and_eq_true, decide_eq_true_eq, ge_iff_le,
      UInt32.le_iff_toNat_le] at h
    change (_ ≤ c.toNat ∧ c.toNat ≤ _) ∨ (_ ≤ c.toNat ∧ c.toNat ≤ _) at h
    simp only [Char.reduceVal, UInt32.reduceToNat] at h
    generalize hn : c.toNat = n at *
    subst hc
    rcases h with ⟨h1, h2⟩ | ⟨h1, h2⟩ <;> interval_cases n <;> decide
  · decide

theorem mem_numberHeads {c : Char} (h : c.isDigit = true ∨ c = '-') : c ∈ numberHeads := by
  rcases h with h | rfl
  · have hc : c = Char.ofNat c.toNat := (Char.ofNat_toNat c).symm
    rw [Char.isDigit_iff_toNat] at h
    simp at h
    generalize hn : c.toNat = n at *
    subst hc
    obtain ⟨h1, h2⟩ := h
    interval_cases n <;> decide
  · decide

/-! ### Whitespace -/

/-- The whitespace that the writer writes. -/
def White (w : Str) : Prop := ∀ c ∈ w, c ∈ [' ', '\n', ',']

/-- What follows is not whitespace or a comment. -/
def Solid' (s : Str) : Prop := ∀ c r, s = c :: r → c ∉ [' ', '\t', '\n', '\r', ',', '/']

theorem solid_nil : Solid' [] := fun _ _ h => by cases h
theorem solid_cons {c : Char} {s : Str} (h : c ∉ [' ', '\t', '\n', '\r', ',', '/']) : Solid' (c :: s) :=
  fun d r e => by injection e with e _; rw [← e]; exact h

/-- One piece of whitespace. -/
abbrev wsOne : Expr IdlRule :=
  IdlGrammar.r .sp <||> IdlGrammar.r .NEWLINE <||> ((.not (.str %s"///") ~> IdlGrammar.r .lineComment) <||> .str %s",")

theorem wsOne_eats {c : Char} {s : Str} (h : c ∈ [' ', '\n', ',']) : Eats wsOne (c :: s) s (· = []) := by
  simp only [List.mem_cons, List.not_mem_nil, or_false] at h
  rcases h with rfl | rfl | rfl
  · exact .choiceL (.silent rfl (.choiceL (Eats.str (t := [' ']))))
  · exact .choiceR (fails 8 (by decide)) (.choiceL (.silent rfl (.choiceL (Eats.str (t := ['\n'])))))
  · exact .choiceR (fails 8 (by decide)) (.choiceR (fails 8 (by decide)) (.choiceR (fails 8 (by decide)) (Eats.str (t := [',']))))

theorem wsOne_fails {s : Str} (h : Solid' s) : Parses idlGrammar false wsOne s none := by
  cases s with
  | nil => exact fails_nil (by decide)
  | cons c s =>
    have := h c s rfl
    simp only [List.mem_cons, List.not_mem_nil, or_false, not_or] at this
    obtain ⟨h1, h2, h3, h4, h5, h6⟩ := this
    refine fails 8 ?_
    have e : starts 8 wsOne c = ((' ' == c || '\t' == c) || (('\n' == c || ('\r' == c || '\r' == c)) || ((false || (true && '/' == c)) || ',' == c))) := by
      simp [starts, IdlGrammar.body, mayBeEmpty]
    rw [e]
    have n : ∀ d : Char, c ≠ d → (d == c) = false := fun d hd => by simpa using fun e => hd e.symm
    rw [n _ h1, n _ h2, n _ h3, n _ h4, n _ h5, n _ h6]
    decide

theorem ws_eats {w rest : Str} (hw : White w) (hr : Solid' rest) : Eats (IdlGrammar.r .ws) (w ++ rest) rest (· = []) := by
  refine .silent rfl ?_
  change Eats (.rep wsOne) _ _ _
  induction w with
  | nil => exact .repNil (wsOne_fails hr)
  | cons c w ih =>
    refine (Eats.repCons (wsOne_eats (hw c (by simp))) (ih fun d hd => hw d (by simp [hd]))).mono ?_
    rintro _ ⟨_, _, rfl, rfl, rfl⟩
    rfl

theorem white_nil : White [] := fun _ h => by cases h

/-- No whitespace. -/
theorem ws_none {rest : Str} (hr : Solid' rest) : Eats (IdlGrammar.r .ws) rest rest (· = []) := ws_eats white_nil hr

/-! ### Identifiers -/

theorem idl_word {a : Char} {r rest : Str} (ha : a.isAlpha = true) (hr : ∀ c ∈ r, c.isAlpha = true ∨ c.isDigit = true ∨ c = '_')
    (hs : ∀ c s', rest = c :: s' → identRest c = false) : Parses idlGrammar true IdlGrammar.word (a :: r ++ rest) (some (a :: r, rest, [])) := by
  have := seqAtomic (g := idlGrammar) (Parses.chr (g := idlGrammar) (m := true) (s := r ++ rest) ha)
    (repChr (g := idlGrammar) (p := identRest) (fun c hc => isAlpha_or (hr c hc)) hs)
  exact this

theorem idl_ident_body {t rest : Str} (h : SmithyIdent t) (hs : ∀ c s', rest = c :: s' → identRest c = false) :
    Parses idlGrammar true (IdlGrammar.body .identifier) (t ++ rest) (some (t, rest, [])) := by
  cases h with
  | plain ha hr => exact .choiceL (idl_word ha hr hs)
  | underscore ha hr =>
    refine .choiceR (.seqFail1 (.chrFail (by decide))) ?_
    exact seqAtomic (g := idlGrammar) (Parses.str (t := ['_']) rfl) (idl_word ha hr hs)

theorem idl_ident_atomic {t rest : Str} (h : SmithyIdent t) (hs : ∀ c s', rest = c :: s' → identRest c = false) :
    Parses idlGrammar true (.rule .identifier) (t ++ rest) (some (t, rest, [])) := ruleAtomic (g := idlGrammar) (idl_ident_body h hs)

/-- What may follow a name: not a character of names or ids. -/
def NameEnd (rest : Str) : Prop := ∀ c s', rest = c :: s' → identRest c = false ∧ c ≠ '.' ∧ c ≠ '#' ∧ c ≠ '$'

theorem nameEnd_nil : NameEnd [] := fun _ _ h => by cases h
theorem nameEnd_cons {c : Char} {s : Str} (h : identRest c = false ∧ c ≠ '.' ∧ c ≠ '#' ∧ c ≠ '$') : NameEnd (c :: s) :=
  fun d r e => by injection e with e _; rw [← e]; exact h

theorem ident_eats' {t rest : Str} (h : SmithyIdent t) (hs : ∀ c s', rest = c :: s' → identRest c = false) :
    Eats (IdlGrammar.r .identifier) (t ++ rest) rest (· = [.mk .identifier t []]) := .atomic rfl (idl_ident_body h hs)

theorem ident_eats {t rest : Str} (h : SmithyIdent t) (hs : NameEnd rest) :
    Eats (IdlGrammar.r .identifier) (t ++ rest) rest (· = [.mk .identifier t []]) := ident_eats' h fun c s' e => (hs c s' e).1

/-- Something that fails on everything that starts as an identifier does. -/
theorem fails_ident {m : Bool} {e : Expr IdlRule} {t rest : Str} (n : Nat) (ht : SmithyIdent t)
    (h : ∀ c ∈ identHeads, (!mayBeEmpty IdlGrammar.null e && (bounded IdlGrammar.null IdlGrammar.rank 32 e && !starts n e c)) = true) :
    Parses idlGrammar m e (t ++ rest) none := by
  obtain ⟨c, r, rfl, hc⟩ := ident_head ht
  exact fails n (h c (mem_identHeads hc))

theorem solid_ident {t : Str} (ht : SmithyIdent t) (rest : Str) : Solid' (t ++ rest) := by
  obtain ⟨c, r, rfl, hc⟩ := ident_head ht
  have : ∀ c ∈ identHeads, c ∉ [' ', '\t', '\n', '\r', ',', '/'] := by decide
  exact solid_cons (this c (mem_identHeads hc))

/-! ### Ids -/

theorem idl_namespace_body {t rest : Str} (ht : SmithyNamespace t) (hs : ∀ c s', rest = c :: s' → identRest c = false ∧ c ≠ '.') :
    Parses idlGrammar true (IdlGrammar.body .nsName) (t ++ rest) (some (t, rest, [])) := by
  obtain ⟨parts, hne, hp, rfl⟩ := ht
  have hi : ∀ c s', rest = c :: s' → identRest c = false := fun c s' e => (hs c s' e).1
  have hd : ∀ c s', rest = c :: s' → c ≠ '.' := fun c s' e => (hs c s' e).2
  have hF : ∀ ps : List Str, ∀ c s', ps.flatMap (fun p => '.' :: p) ++ rest = c :: s' → identRest c = false := by
    intro ps c s' e
    cases ps with
    | nil => exact hi c s' e
    | cons p ps => injection e with e _; rw [← e]; decide
  have hmore : ∀ ps : List Str, (∀ p ∈ ps, SmithyIdent p) →
      Parses idlGrammar true (.more (.str %s"." ~> .rule .identifier)) (ps.flatMap (fun p => '.' :: p) ++ rest)
        (some (ps.flatMap (fun p => '.' :: p), rest, [])) := by
    intro ps
    induction ps with
    | nil => intro _; exact .moreNone (.seqFail1 (strFail_head (g := idlGrammar) hd))
    | cons p ps ih =>
      intro h
      have h1 := seqAtomic (g := idlGrammar) (Parses.str (t := ['.']) (s := '.' :: p ++ (ps.flatMap (fun p => '.' :: p) ++ rest)) rfl)
        (idl_ident_atomic (h p (by simp)) (hF ps))
      have h2 := Parses.moreSome (g := idlGrammar) (m := true) h1 (ih (fun q hq => h q (by simp [hq])))
      rw [skip_true] at h2
      simp only [List.flatMap_cons, List.append_assoc, List.cons_append, List.nil_append] at h2 ⊢
      exact h2
  have hjoin : ∀ p (ps : List Str), joinWith ['.'] (p :: ps) = p ++ ps.flatMap (fun q => '.' :: q) := by
    intro p ps
    induction ps generalizing p with
    | nil => simp [joinWith]
    | cons q qs ih => simp only [joinWith, ih q, List.flatMap_cons]; simp
  cases parts with
  | nil => exact absurd rfl hne
  | cons p ps =>
    rw [hjoin, List.append_assoc]
    refine seqAtomic (g := idlGrammar) (p1 := []) (idl_ident_atomic (hp p (by simp)) (hF ps)) ?_
    cases ps with
    | nil => exact .repNone (.seqFail1 (strFail_head (g := idlGrammar) hd))
    | cons q qs =>
      have h1 := seqAtomic (g := idlGrammar) (Parses.str (t := ['.']) (s := '.' :: q ++ (qs.flatMap (fun p => '.' :: p) ++ rest)) rfl)
        (idl_ident_atomic (hp q (by simp)) (hF qs))
      have h2 := Parses.repSome (g := idlGrammar) (m := true) h1 (hmore qs (fun r hr => hp r (by simp [hr])))
      simp only [List.flatMap_cons, List.append_assoc, List.cons_append, List.nil_append] at h2 ⊢
      exact h2

theorem namespace_eats {t rest : Str} (ht : SmithyNamespace t) (hs : ∀ c s', rest = c :: s' → identRest c = false ∧ c ≠ '.') :
    Eats (IdlGrammar.r .nsName) (t ++ rest) rest (· = [.mk .nsName t []]) := .atomic rfl (idl_namespace_body ht hs)

theorem smithyNamespace_ident {t : Str} (h : SmithyIdent t) : SmithyNamespace t :=
  ⟨[t], by simp, by simpa using h, by simp [joinWith]⟩

theorem namespace_head {t : Str} (h : SmithyNamespace t) : ∃ c r, t = c :: r ∧ c ∈ identHeads := by
  obtain ⟨parts, hne, hp, rfl⟩ := h
  cases parts with
  | nil => exact absurd rfl hne
  | cons p ps =>
    obtain ⟨c, r, rfl, hc⟩ := ident_head (hp _ List.mem_cons_self)
    cases ps with
    | nil => exact ⟨c, r, rfl, mem_identHeads hc⟩
    | cons q qs => exact ⟨c, r ++ (['.'] ++ joinWith ['.'] (q :: qs)), by simp [joinWith], mem_identHeads hc⟩

/-- An absolute id where the text is used. -/
theorem absolute_eats {ns n rest : Str} (hns : SmithyNamespace ns) (hn : SmithyIdent n) (hs : NameEnd rest) :
    Eats (IdlGrammar.r .absoluteRootShapeId) (ns ++ '#' :: n ++ rest) rest
      (fun ps => ∃ ps', ps = [.mk .absoluteRootShapeId (ns ++ '#' :: n) ps']) := by
  refine (Eats.normalText (r := .absoluteRootShapeId) (t := ns ++ '#' :: n) (Q := fun _ => True) rfl ?_).mono ?_
  · rw [List.append_assoc]
    refine ((namespace_eats hns ?_).seq ((Eats.str (t := ['#'])).seq (ident_eats hn hs))).mono fun _ _ => trivial
    intro c s' e
    injection e with e _
    rw [← e]
    decide
  · rintro _ ⟨ps', rfl, -⟩
    exact ⟨ps', rfl⟩

/-- The texts that are ids: a name, or an absolute id. -/
inductive IdText : Str → Prop
  | name {t} : SmithyIdent t → IdText t
  | absolute {ns n} : SmithyNamespace ns → SmithyIdent n → IdText (ns ++ '#' :: n)

theorem IdText.head {t : Str} (h : IdText t) : ∃ c r, t = c :: r ∧ c ∈ identHeads := by
  cases h with
  | name h => obtain ⟨c, r, e, hc⟩ := ident_head h; exact ⟨c, r, e, mem_identHeads hc⟩
  | absolute h _ => obtain ⟨c, r, rfl, hc⟩ := namespace_head h; exact ⟨c, _, rfl, hc⟩

theorem idl_shapeId_body {t rest : Str} (h : IdText t) (hs : NameEnd rest) :
    Parses idlGrammar true (IdlGrammar.body .shapeId) (t ++ rest) (some (t, rest, [])) := by
  have hm : Parses idlGrammar true (.opt (IdlGrammar.r .shapeIdMember)) rest (some ([], rest, [])) :=
    .optNone (ruleFailAtomic (g := idlGrammar) (.seqFail1 (strFail_head (g := idlGrammar) fun c s' e => (hs c s' e).2.2.2)))
  suffices h : Parses idlGrammar true (IdlGrammar.r .rootShapeId) (t ++ rest) (some (t, rest, [])) by
    have := seqAtomic (g := idlGrammar) h hm
    rw [List.append_nil] at this
    exact this
  refine ruleAtomic (g := idlGrammar) (ps := []) ?_
  cases h with
  | name h =>
    refine .choiceR (ruleFailAtomic (g := idlGrammar) ?_) (idl_ident_atomic h fun c s' e => (hs c s' e).1)
    refine seqFailAtomic (g := idlGrammar) (ruleAtomic (g := idlGrammar) (idl_namespace_body (smithyNamespace_ident h) ?_)) ?_
    · exact fun c s' e => ⟨(hs c s' e).1, (hs c s' e).2.1⟩
    · exact .seqFail1 (strFail_head (g := idlGrammar) fun c s' e => (hs c s' e).2.2.1)
  | @absolute ns n hns hn =>
    refine .choiceL (ruleAtomic (g := idlGrammar) (ps := []) ?_)
    rw [List.append_assoc]
    refine seqAtomic (g := idlGrammar) (p1 := []) (p2 := []) (ruleAtomic (g := idlGrammar) (idl_namespace_body hns ?_)) ?_
    · intro c s' e
      injection e with e _
      rw [← e]
      decide
    · exact seqAtomic (g := idlGrammar) (Parses.str (t := ['#']) rfl) (idl_ident_atomic hn fun c s' e => (hs c s' e).1)

theorem shapeId_eats {t rest : Str} (h : IdText t) (hs : NameEnd rest) :
    Eats (IdlGrammar.r .shapeId) (t ++ rest) rest (· = [.mk .shapeId t []]) := .atomic rfl (idl_shapeId_body h hs)

theorem fails_id {m : Bool} {e : Expr IdlRule} {t rest : Str} (n : Nat) (ht : IdText t)
    (h : ∀ c ∈ identHeads, (!mayBeEmpty IdlGrammar.null e && (bounded IdlGrammar.null IdlGrammar.rank 32 e && !starts n e c)) = true) :
    Parses idlGrammar m e (t ++ rest) none := by
  obtain ⟨c, r, rfl, hc⟩ := ht.head
  exact fails n (h c hc)

/-! ### Numbers -/

/-- Digits, outside atomic rules. -/
theorem rep_digits {t rest : Str} {p : Char → Bool} (ht : ∀ c ∈ t, p c = true) (hr : ∀ c s', rest = c :: s' → p c = false) :
    Eats (.rep (.chr p)) (t ++ rest) rest (· = []) := by
  induction t with
  | nil => exact .repNil (chrFail_head (g := idlGrammar) hr)
  | cons c t ih =>
    have h1 : Eats (.chr p) (c :: (t ++ rest)) (t ++ rest) (· = []) := ⟨[c], [], .chr (ht c (by simp)), rfl⟩
    refine (Eats.repCons h1 (ih fun d hd => ht d (by simp [hd]))).mono ?_
    rintro _ ⟨_, _, rfl, rfl, rfl⟩
    rfl

theorem plus_digits {t rest : Str} (ht : Digits t) (hr : ∀ c s', rest = c :: s' → Char.isDigit c = false) :
    Eats (.plus (.chr Char.isDigit)) (t ++ rest) rest (· = []) := by
  obtain ⟨hne, hd⟩ := ht
  cases t with
  | nil => exact absurd rfl hne
  | cons c t =>
    have h1 : Eats (.chr Char.isDigit) (c :: (t ++ rest)) (t ++ rest) (· = []) := ⟨[c], [], .chr (hd c (by simp)), rfl⟩
    exact h1.seqL (rep_digits (fun d hd' => hd d (by simp [hd'])) hr)

/-- What may follow a number. -/
def NumberEnd (rest : Str) : Prop := ∀ c s', rest = c :: s' → c.isDigit = false ∧ c ≠ '.' ∧ c ≠ 'e' ∧ c ≠ 'E'

theorem number_eats {sign int frac rest : Str} (h1 : sign = [] ∨ sign = ['-']) (h2 : IntText int)
    (h3 : frac = [] ∨ ∃ ds, frac = '.' :: ds ∧ Digits ds) (hr : NumberEnd rest) :
    Eats (IdlGrammar.r .number) (sign ++ int ++ frac ++ rest) rest (fun ps => ∃ ps', ps = [.mk .number (sign ++ int ++ frac) ps']) := by
  refine (Eats.normalText (r := .number) (Q := fun _ => True) rfl ?_).mono ?_
  · simp only [List.append_assoc]
    have hi : ∃ c s, int = c :: s ∧ c.isDigit = true := by
      obtain ⟨⟨hne, hd⟩, _⟩ := h2
      cases int with
      | nil => exact absurd rfl hne
      | cons c s => exact ⟨c, s, rfl, hd c (by simp)⟩
    have p1 : Eats (.opt (IdlGrammar.r .minus)) (sign ++ (int ++ (frac ++ rest))) (int ++ (frac ++ rest)) (fun _ => True) := by
      rcases h1 with rfl | rfl
      · obtain ⟨c, s, rfl, hc⟩ := hi
        refine (Eats.optNone ?_).mono fun _ _ => trivial
        exact failsNormal rfl (strFail_head (g := idlGrammar) fun d s' e => by
          injection e with e _; rw [← e]; exact digit_ne hc (by decide))
      · exact (Eats.opt (.normal (r := .minus) rfl (Eats.str (t := ['-'])))).mono fun _ _ => trivial
    have hF : ∀ c s', frac ++ rest = c :: s' → Char.isDigit c = false := by
      intro d s' e
      rcases h3 with rfl | ⟨ds, rfl, -⟩
      · exact (hr d s' e).1
      · injection e with e _; rw [← e]; decide
    have p2 : Eats (IdlGrammar.r .int) (int ++ (frac ++ rest)) (frac ++ rest) (fun _ => True) := by
      obtain ⟨⟨hne, hd⟩, h0⟩ := h2
      refine (Eats.normal (Q := fun _ => True) rfl ?_).mono fun _ _ => trivial
      cases int with
      | nil => exact absurd rfl hne
      | cons c ds =>
        by_cases hc : c = '0'
        · subst hc
          have := h0 rfl
          injection this with _ hds
          subst hds
          exact (Eats.choiceL (.normal (r := .zero) rfl (Eats.str (t := ['0'])))).mono fun _ _ => trivial
        · have hz : Eats (.chr nonzeroDigit) (c :: (ds ++ (frac ++ rest))) (ds ++ (frac ++ rest)) (· = []) :=
            ⟨[c], [], .chr (nonzero_of_digit (hd c (by simp)) hc), rfl⟩
          refine (Eats.choiceR ?_ (hz.seqL (rep_digits (fun d hd' => hd d (by simp [hd'])) hF))).mono fun _ _ => trivial
          exact failsNormal rfl (strFail_head (g := idlGrammar) fun d s' e => by injection e with e _; rw [← e]; exact hc)
    have p3 : Eats (.opt (IdlGrammar.r .frac)) (frac ++ rest) rest (fun _ => True) := by
      rcases h3 with rfl | ⟨ds, rfl, hds⟩
      · refine (Eats.optNone ?_).mono fun _ _ => trivial
        exact failsNormal rfl (.seqFail1 (failsNormal rfl (strFail_head (g := idlGrammar) fun c s' e => (hr c s' e).2.1)))
      · refine (Eats.opt (.normal (r := .frac) rfl ((Eats.normal (r := .decimalPoint) rfl (Eats.str (t := ['.']))).seq (plus_digits hds ?_)))).mono fun _ _ => trivial
        exact fun c s' e => (hr c s' e).1
    have p4 : Eats (.opt (IdlGrammar.r .exp)) rest rest (fun _ => True) := by
      refine (Eats.optNone ?_).mono fun _ _ => trivial
      refine failsNormal rfl (.seqFail1 (failsNormal rfl (.choiceR ?_ ?_)))
      · exact strFail_head (g := idlGrammar) fun c s' e => (hr c s' e).2.2.1
      · exact strFail_head (g := idlGrammar) fun c s' e => (hr c s' e).2.2.2
    exact (p1.seq (p2.seq (p3.seq p4))).mono fun _ _ => trivial
  · rintro _ ⟨ps', rfl, -⟩
    exact ⟨ps', rfl⟩

/-! ### Quoted text -/

theorem idl_quoted_body {t rest : Str} (ht : ∀ c ∈ t, plainChar c = true) :
    Parses idlGrammar true (IdlGrammar.body .quotedChars) (t ++ '"' :: rest) (some (t, '"' :: rest, [])) := by
  have hend : Parses idlGrammar true (.chr plainChar <||> IdlGrammar.r .escapedChar <||> IdlGrammar.r .preservedDouble) ('"' :: rest) none :=
    fails 8 (by decide)
  have more : ∀ t : Str, (∀ c ∈ t, plainChar c = true) →
      Parses idlGrammar true (.more (.chr plainChar <||> IdlGrammar.r .escapedChar <||> IdlGrammar.r .preservedDouble)) (t ++ '"' :: rest)
        (some (t, '"' :: rest, [])) := by
    intro t
    induction t with
    | nil => intro _; exact .moreNone (by rw [skip_true]; exact hend)
    | cons c t ih =>
      intro ht
      have h1 : Parses idlGrammar true (.chr plainChar <||> IdlGrammar.r .escapedChar <||> IdlGrammar.r .preservedDouble)
          (idlGrammar.skip true (c :: t ++ '"' :: rest)).2 (some ([c], t ++ '"' :: rest, [])) := by
        rw [skip_true]; exact .choiceL (.chr (ht c (by simp)))
      exact .moreSome h1 (ih (fun d hd => ht d (by simp [hd])))
  cases t with
  | nil => exact .repNone hend
  | cons c t => exact .repSome (.choiceL (.chr (ht c (by simp)))) (more t (fun d hd => ht d (by simp [hd])))

theorem quoted_eats {t rest : Str} (ht : ∀ c ∈ t, plainChar c = true) :
    Eats (IdlGrammar.r .quotedText) ('"' :: t ++ '"' :: rest) rest
      (· = [.mk .quotedText ('"' :: t ++ ['"']) [.mk .quotedChars t []]]) := by
  have e : '"' :: t ++ '"' :: rest = ('"' :: t ++ ['"']) ++ rest := by simp
  rw [e]
  refine (Eats.normalText (r := .quotedText) (Q := (· = [.mk .quotedChars t []])) rfl ?_).mono ?_
  · have h1 : Eats (IdlGrammar.r .DQUOTE) ('"' :: (t ++ '"' :: rest)) (t ++ '"' :: rest) (· = []) := .silent rfl (Eats.str (t := ['"']))
    have h2 : Eats (IdlGrammar.r .quotedChars) (t ++ '"' :: rest) ('"' :: rest) (· = [.mk .quotedChars t []]) := .atomic rfl (idl_quoted_body ht)
    have h3 : Eats (IdlGrammar.r .DQUOTE) ('"' :: rest) rest (· = []) := .silent rfl (Eats.str (t := ['"']))
    have := h1.seqL (h2.seqR h3)
    simp only [List.cons_append, List.append_assoc, List.nil_append]
    exact this
  · rintro _ ⟨_, rfl, rfl⟩
    rfl

end Verif
