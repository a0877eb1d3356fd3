/-
Values, objects and traits of the Smithy IDL: the texts that the writer writes are matched by the grammar, and the pairs are
turned back into the values.
-/
import Verif.IdlReads
import Verif.IdlSpec
import Verif.IdlWriter

namespace Verif
open Peg Spec IdlGrammar

/-- What follows a value in a text. -/
def ValueEnd (rest : Str) : Prop := ∀ c s', rest = c :: s' → c ∈ [',', ']', '}', ')', '\n', ' ', '\t', '\r', '/']

theorem valueEnd_nil : ValueEnd [] := fun _ _ h => by cases h
theorem valueEnd_cons {c : Char} {s : Str} (h : c ∈ [',', ']', '}', ')', '\n', ' ', '\t', '\r', '/']) : ValueEnd (c :: s) :=
  fun d r e => by injection e with e _; rw [← e]; exact h

theorem ValueEnd.name {rest : Str} (h : ValueEnd rest) : NameEnd rest := by
  intro c s' e
  have : ∀ c ∈ [',', ']', '}', ')', '\n', ' ', '\t', '\r', '/'], identRest c = false ∧ c ≠ '.' ∧ c ≠ '#' ∧ c ≠ '$' := by decide
  exact this c (h c s' e)

theorem ValueEnd.number {rest : Str} (h : ValueEnd rest) : NumberEnd rest := by
  intro c s' e
  have : ∀ c ∈ [',', ']', '}', ')', '\n', ' ', '\t', '\r', '/'], c.isDigit = false ∧ c ≠ '.' ∧ c ≠ 'e' ∧ c ≠ 'E' := by decide
  exact this c (h c s' e)

/-- What a value starts with. -/
def valueHeads : List Char := identHeads ++ numberHeads ++ ['[', '{', '"']

theorem solid_value {t : Str} (h : ∃ c r, t = c :: r ∧ c ∈ valueHeads) (rest : Str) : Solid' (t ++ rest) := by
  obtain ⟨c, r, rfl, hc⟩ := h
  have : ∀ c ∈ valueHeads, c ∉ [' ', '\t', '\n', '\r', ',', '/'] := by decide
  exact solid_cons (this c hc)

/-- The text stands for the value. -/
structure NodeText (flt : Str → Option F64) (t : Str) (v : Value) : Prop where
  head : ∃ c r, t = c :: r ∧ c ∈ valueHeads
  eats : ∀ rest, ValueEnd rest → Eats (r .nodeValue) (t ++ rest) rest
    (fun ps => ∃ p, ps = [p] ∧ p.asRule = .nodeValue ∧ IdlParser.nodeValueOf flt p = .ok v)

/-! ### Blocks -/

/-- Elements separated by whitespace. -/
theorem block_eats {α : Type} {x : Expr IdlRule} {w sep trail : Str} {d : α → Str} {Q : α → Pair IdlRule → Prop} {F : Str → Prop}
    {as : List α} {rest : Str} (hw : White w) (hsep : White sep) (htrail : White trail)
    (hx : ∀ a ∈ as, ∀ r, F r → Eats x (d a ++ r) r (fun ps => ∃ p, ps = [p] ∧ Q a p))
    (hs : ∀ a ∈ as, ∀ r, Solid' (d a ++ r)) (hF : ∀ r, F (sep ++ r)) (hFt : F (trail ++ rest)) (hr : Solid' rest)
    (hend : Parses idlGrammar false x rest none) :
    Eats (r .ws ~> .rep (x ~> r .ws)) (w ++ (joinWith sep (as.map d) ++ (trail ++ rest))) rest (List.Forall₂ Q as) := by
  have hstop : Parses idlGrammar false (x ~> r .ws) rest none := .seqFail1 hend
  have main : ∀ as' : List α, as' ≠ [] → (∀ a ∈ as', a ∈ as) →
      Eats (.rep (x ~> r .ws)) (joinWith sep (as'.map d) ++ (trail ++ rest)) rest (List.Forall₂ Q as') ∧
      ∀ u, Solid' (joinWith sep (as'.map d) ++ u) := by
    intro as'
    induction as' with
    | nil => intro h; exact absurd rfl h
    | cons a as' ih =>
      intro _ hin
      cases as' with
      | nil =>
        constructor
        · have h1 := (hx a (hin a (by simp)) (trail ++ rest) hFt).seqR (ws_eats htrail hr)
          refine (h1.repCons (.repNil hstop)).mono ?_
          rintro _ ⟨p, q, rfl, ⟨p', rfl, hp⟩, rfl⟩
          exact .cons hp .nil
        · exact fun u => hs a (hin a (by simp)) u
      | cons b bs =>
        obtain ⟨h2, h3⟩ := ih (by simp) (fun c hc => hin c (by simp only [List.mem_cons] at hc ⊢; exact .inr hc))
        constructor
        · have e : joinWith sep ((a :: b :: bs).map d) ++ (trail ++ rest) =
              d a ++ (sep ++ (joinWith sep ((b :: bs).map d) ++ (trail ++ rest))) := by simp [joinWith]
          rw [e]
          have h1 := (hx a (hin a (by simp)) _ (hF _)).seqR (ws_eats hsep (h3 (trail ++ rest)))
          refine (h1.repCons h2).mono ?_
          rintro _ ⟨p, q, rfl, ⟨p', rfl, hp⟩, hq⟩
          exact .cons hp hq
        · intro u
          have e : joinWith sep ((a :: b :: bs).map d) ++ u = d a ++ (sep ++ joinWith sep ((b :: bs).map d) ++ u) := by simp [joinWith]
          rw [e]
          exact hs a (hin a (by simp)) _
  cases as with
  | nil =>
    have hwt : White (w ++ trail) := by
      intro c hc
      rcases List.mem_append.mp hc with hc | hc
      · exact hw c hc
      · exact htrail c hc
    simp only [List.map_nil, joinWith, List.nil_append]
    rw [← List.append_assoc]
    refine ((ws_eats hwt hr).seqL (.repNil hstop)).mono ?_
    rintro _ rfl
    exact .nil
  | cons a as =>
    obtain ⟨h1, h2⟩ := main (a :: as) (by simp) (fun _ h => h)
    exact (ws_eats hw (h2 _)).seqL h1

theorem lines_join {α : Type} (pre : Str) (d : α → Str) (as : List α) (h : as ≠ []) (rest : Str) :
    as.flatMap (fun a => pre ++ (d a ++ ['\n'])) ++ rest = pre ++ (joinWith ('\n' :: pre) (as.map d) ++ '\n' :: rest) := by
  induction as with
  | nil => exact absurd rfl h
  | cons a as ih =>
    cases as with
    | nil => simp [joinWith]
    | cons b bs =>
      have := ih (by simp)
      rw [List.flatMap_cons, List.append_assoc, this]
      simp [joinWith]

/-- Elements on lines of their own. -/
theorem lines_eats {α : Type} {x : Expr IdlRule} {pre : Str} {d : α → Str} {Q : α → Pair IdlRule → Prop} {as : List α} {rest : Str}
    (hpre : White pre) (hx : ∀ a ∈ as, ∀ r, Eats x (d a ++ '\n' :: r) ('\n' :: r) (fun ps => ∃ p, ps = [p] ∧ Q a p))
    (hs : ∀ a ∈ as, ∀ r, Solid' (d a ++ r)) (hr : Solid' rest) (hend : Parses idlGrammar false x rest none) :
    Eats (r .ws ~> .rep (x ~> r .ws)) ('\n' :: (as.flatMap (fun a => pre ++ (d a ++ ['\n'])) ++ rest)) rest (List.Forall₂ Q as) := by
  have hnl : White ['\n'] := by intro c hc; simp only [List.mem_singleton] at hc; subst hc; decide
  have hnp : White ('\n' :: pre) := by
    intro c hc
    rcases List.mem_cons.mp hc with rfl | hc
    · decide
    · exact hpre c hc
  cases as with
  | nil =>
    simp only [List.flatMap_nil, List.nil_append]
    refine ((ws_eats hnl hr).seqL (.repNil (.seqFail1 hend))).mono ?_
    rintro _ rfl
    exact .nil
  | cons a as =>
    rw [lines_join _ _ _ (by simp)]
    have := block_eats (F := fun u => ∃ v, u = '\n' :: v) (trail := ['\n']) (as := a :: as) (rest := rest) hnp hnp hnl
      (by rintro b hb _ ⟨v, rfl⟩; exact hx b hb v) hs (fun u => ⟨_, rfl⟩) ⟨_, rfl⟩ hr hend
    simpa using this

/-! ### Reading the pairs back -/

theorem arrayOf_forall {flt : Str → Option F64} {vs : List Value} {ps : List (Pair IdlRule)}
    (h : List.Forall₂ (fun v p => Pair.asRule p = .nodeValue ∧ IdlParser.nodeValueOf flt p = .ok v) vs ps) :
    IdlParser.arrayOf flt ps = .ok vs := by
  induction h with
  | nil => rfl
  | cons h _ ih => simp only [IdlParser.arrayOf, h.1, h.2, ih, if_true]

theorem objectOf_forall {flt : Str → Option F64} {es : List (Str × Value)} {ps : List (Pair IdlRule)}
    (h : List.Forall₂ (fun e p => Pair.asRule p = .nodeObjectKvp ∧ IdlParser.kvpOf flt p = .ok e) es ps) (o : AMap Str Value) :
    IdlParser.objectOf flt o ps = .ok (es.foldl (fun m e => AMap.insert m e.1 e.2) o) := by
  induction h generalizing o with
  | nil => rfl
  | @cons e p es ps h _ ih => obtain ⟨k, v⟩ := e; simp only [IdlParser.objectOf, h.1, h.2, ih, if_true, List.foldl_cons]

/-! ### Values -/

theorem nodeValue_eats {s rest : Str} {flt : Str → Option F64} {v : Value}
    (h : Eats (body .nodeValue) s rest (fun ps => ∃ p, ps = [p] ∧ IdlParser.innerValue flt p = .ok v)) :
    Eats (r .nodeValue) s rest (fun ps => ∃ p, ps = [p] ∧ p.asRule = .nodeValue ∧ IdlParser.nodeValueOf flt p = .ok v) := by
  refine (Eats.normal rfl h).mono ?_
  rintro _ ⟨t, _, rfl, p, rfl, hp⟩
  exact ⟨_, rfl, rfl, hp⟩

/-- `: ` between a key and a value. -/
theorem colon_eats {t : Str} {e : Expr IdlRule} {rest : Str} {Q : List (Pair IdlRule) → Prop} (ht : Solid' (t ++ rest))
    (h : Eats e (t ++ rest) rest Q) : Eats (r .ws ~> .str %s":" ~> r .ws ~> e) (':' :: ' ' :: (t ++ rest)) rest Q := by
  have w : White [' '] := by intro c hc; simp only [List.mem_singleton] at hc; subst hc; decide
  exact (ws_none (solid_cons (by decide))).seqL ((Eats.str (t := [':'])).seqL ((ws_eats w ht).seqL h))

theorem key_eats {k rest : Str} (hk : SmithyIdent k) (hs : NameEnd rest) :
    Eats (r .nodeObjectKey) (k ++ rest) rest (· = [.mk .identifier k []]) :=
  .silent rfl (.choiceR (fails_ident 8 hk (by decide)) (ident_eats hk hs))

theorem keyed_eats {flt : Str → Option F64} {k t : Str} {v : Value} {rest : Str} (hk : SmithyIdent k) (ht : NodeText flt t v)
    (hr : ValueEnd rest) :
    Eats (keyed %s":") (k ++ (':' :: ' ' :: (t ++ rest))) rest
      (fun ps => ∃ p, ps = [.mk .identifier k [], p] ∧ p.asRule = .nodeValue ∧ IdlParser.nodeValueOf flt p = .ok v) := by
  refine ((key_eats hk (nameEnd_cons (by decide))).seq (colon_eats (solid_value ht.head _) (ht.eats rest hr))).mono ?_
  rintro _ ⟨_, _, rfl, rfl, p, rfl, h1, h2⟩
  exact ⟨p, rfl, h1, h2⟩

theorem kvp_eats {flt : Str → Option F64} {k t : Str} {v : Value} {rest : Str} (hk : SmithyIdent k) (ht : NodeText flt t v)
    (hr : ValueEnd rest) :
    Eats (r .nodeObjectKvp) (k ++ (':' :: ' ' :: (t ++ rest))) rest
      (fun ps => ∃ p, ps = [p] ∧ p.asRule = .nodeObjectKvp ∧ IdlParser.kvpOf flt p = .ok (k, v)) := by
  refine (Eats.normal (r := .nodeObjectKvp) rfl (keyed_eats hk ht hr)).mono ?_
  rintro _ ⟨t, _, rfl, p, rfl, h1, h2⟩
  obtain ⟨rl, t', ps'⟩ := p
  cases h1
  refine ⟨_, rfl, rfl, ?_⟩
  simp only [IdlParser.kvpOf, IdlParser.kvpLoop, Pair.asRule, h2, Pair.asStr]

/-- Objects, laid out in any way. -/
theorem object_eats {α : Type} {flt : Str → Option F64} {w sep trail : Str} {key d : α → Str} {val : α → Value} {as : List α} {rest : Str}
    (hw : White w) (hsep : White sep) (hne : sep ≠ []) (htrail : White trail) (hk : ∀ a ∈ as, SmithyIdent (key a))
    (hd : ∀ a ∈ as, NodeText flt (d a) (val a)) :
    Eats (r .nodeObject) ('{' :: (w ++ (joinWith sep (as.map fun a => key a ++ (':' :: ' ' :: d a)) ++ (trail ++ '}' :: rest)))) rest
      (fun ps => ∃ t ps', ps = [.mk .nodeObject t ps'] ∧
        IdlParser.objectOf flt [] ps' = .ok (AMap.ofList (as.map fun a => (key a, val a)))) := by
  have vsep : ∀ s u : Str, White s → s ≠ [] → ValueEnd (s ++ u) := by
    intro s u hs hn
    cases s with
    | nil => exact absurd rfl hn
    | cons c s =>
      have : ∀ c ∈ [' ', '\n', ','], c ∈ [',', ']', '}', ')', '\n', ' ', '\t', '\r', '/'] := by decide
      exact valueEnd_cons (this c (hs c (by simp)))
  have hb := block_eats (x := r .nodeObjectKvp) (as := as) (rest := '}' :: rest) (F := ValueEnd)
    (d := fun a => key a ++ (':' :: ' ' :: d a))
    (Q := fun a p => p.asRule = .nodeObjectKvp ∧ IdlParser.kvpOf flt p = .ok (key a, val a)) hw hsep htrail
    (by intro a ha u hu; simpa using kvp_eats (hk a ha) (hd a ha) hu)
    (by intro a ha u; rw [List.append_assoc]; exact solid_ident (hk a ha) _)
    (fun u => vsep sep u hsep hne)
    (by
      cases trail with
      | nil => exact valueEnd_cons (by decide)
      | cons c t => exact vsep (c :: t) _ htrail (by simp))
    (solid_cons (by decide)) (fails 20 (by decide))
  have hall : Eats (body .nodeObject) ('{' :: (w ++ (joinWith sep (as.map fun a => key a ++ (':' :: ' ' :: d a)) ++ (trail ++ '}' :: rest)))) rest
      (List.Forall₂ (fun a p => Pair.asRule p = .nodeObjectKvp ∧ IdlParser.kvpOf flt p = .ok (key a, val a)) as) := by
    exact (Eats.str (t := ['{'])).seqL (hb.thenR (Eats.str (t := ['}'])))
  refine (Eats.normal rfl hall).mono ?_
  rintro _ ⟨t, ps', rfl, h⟩
  refine ⟨t, ps', rfl, ?_⟩
  have h' : List.Forall₂ (fun e p => Pair.asRule p = .nodeObjectKvp ∧ IdlParser.kvpOf flt p = .ok e) (as.map fun a => (key a, val a)) ps' :=
    List.forall₂_map_left_iff.mpr h
  exact objectOf_forall h' []

theorem innerValue_object {flt : Str → Option F64} {t : Str} {ps : List (Pair IdlRule)} {o : AMap Str Value}
    (h : IdlParser.objectOf flt [] ps = .ok o) : IdlParser.innerValue flt (.mk .nodeObject t ps) = .ok (.object o) := by
  simp only [IdlParser.innerValue, h]
  rfl

theorem object_text {α : Type} {flt : Str → Option F64} {w sep trail : Str} {key d : α → Str} {val : α → Value} {as : List α}
    (hw : White w) (hsep : White sep) (hne : sep ≠ []) (htrail : White trail) (hk : ∀ a ∈ as, SmithyIdent (key a))
    (hd : ∀ a ∈ as, NodeText flt (d a) (val a)) :
    NodeText flt ('{' :: (w ++ (joinWith sep (as.map fun a => key a ++ (':' :: ' ' :: d a)) ++ (trail ++ ['}']))))
      (.object (AMap.ofList (as.map fun a => (key a, val a)))) := by
  refine ⟨⟨_, _, rfl, by decide⟩, ?_⟩
  intro rest _
  have h := object_eats (rest := rest) hw hsep hne htrail hk hd
  have e : '{' :: (w ++ (joinWith sep (as.map fun a => key a ++ (':' :: ' ' :: d a)) ++ (trail ++ ['}']))) ++ rest =
      '{' :: (w ++ (joinWith sep (as.map fun a => key a ++ (':' :: ' ' :: d a)) ++ (trail ++ '}' :: rest))) := by simp
  rw [e]
  refine nodeValue_eats (.choiceR (fails 8 (by decide)) (.choiceL (h.mono ?_)))
  rintro _ ⟨t, ps', rfl, hp⟩
  exact ⟨_, rfl, innerValue_object hp⟩

theorem array_text {α : Type} {flt : Str → Option F64} {d : α → Str} {val : α → Value} {as : List α}
    (hd : ∀ a ∈ as, NodeText flt (d a) (val a)) :
    NodeText flt ('[' :: (joinWith %s", " (as.map d) ++ [']'])) (.array (as.map val)) := by
  refine ⟨⟨_, _, rfl, by decide⟩, ?_⟩
  intro rest _
  have hb := block_eats (x := r .nodeValue) (w := []) (sep := %s", ") (trail := []) (as := as) (d := d) (rest := ']' :: rest) (F := ValueEnd)
    (Q := fun a p => p.asRule = .nodeValue ∧ IdlParser.nodeValueOf flt p = .ok (val a)) white_nil
    (by intro c hc; simp only [List.mem_cons, List.not_mem_nil, or_false] at hc; rcases hc with rfl | rfl <;> decide) white_nil
    (fun a ha u hu => (hd a ha).eats u hu) (fun a ha u => solid_value (hd a ha).head u)
    (fun u => valueEnd_cons (by decide)) (valueEnd_cons (by decide)) (solid_cons (by decide)) (fails 20 (by decide))
  have e : '[' :: (joinWith %s", " (as.map d) ++ [']']) ++ rest = '[' :: (joinWith %s", " (as.map d) ++ ']' :: rest) := by simp
  rw [e]
  refine nodeValue_eats (.choiceL ((Eats.normal (r := .nodeArray) rfl ((Eats.str (t := ['['])).seqL (hb.thenR (Eats.str (t := [']']))))).mono ?_))
  rintro _ ⟨t, ps', rfl, hp⟩
  refine ⟨_, rfl, ?_⟩
  have := arrayOf_forall (vs := as.map val) (List.forall₂_map_left_iff.mpr hp)
  simp only [IdlParser.innerValue, this]
  rfl

theorem number_text {flt : Str → Option F64} {sign int frac : Str} {n : Number} (h1 : sign = [] ∨ sign = ['-']) (h2 : IntText int)
    (h3 : frac = [] ∨ ∃ ds, frac = '.' :: ds ∧ Digits ds) (hn : IdlParser.numberOf flt (sign ++ int ++ frac) = .ok n) :
    NodeText flt (sign ++ int ++ frac) (.number n) := by
  obtain ⟨c, x, e, hc⟩ := number_head (x := frac) h1 h2
  have hc' := mem_numberHeads hc
  refine ⟨⟨c, x, e, by simp [valueHeads, hc']⟩, ?_⟩
  intro rest hr
  have hf : ∀ {e : Expr IdlRule} (n : Nat),
      (∀ c ∈ numberHeads, (!mayBeEmpty null e && (bounded null rank 32 e && !starts n e c)) = true) →
      Parses idlGrammar false e (sign ++ int ++ frac ++ rest) none := by
    intro e' n h
    rw [e]
    exact fails n (h c hc')
  refine nodeValue_eats (.choiceR (hf 8 (by decide)) (.choiceR (hf 8 (by decide)) (.choiceL ((number_eats h1 h2 h3 hr.number).mono ?_))))
  rintro _ ⟨ps', rfl⟩
  refine ⟨_, rfl, ?_⟩
  simp only [IdlParser.innerValue, hn]
  rfl

theorem boolean_text {flt : Str → Option F64} (b : Bool) : NodeText flt (showBool b) (.boolean b) := by
  cases b with
  | true =>
    refine ⟨⟨_, _, rfl, by decide⟩, fun rest _ => ?_⟩
    refine nodeValue_eats (.choiceR (fails 8 (by decide)) (.choiceR (fails 8 (by decide)) (.choiceR (fails 8 (by decide)) (.choiceL ?_))))
    refine ((Eats.normal (r := .kwTrue) (rest := rest) rfl (Eats.str (t := %s"true"))).choiceL.silent (r := .nodeKeywords) rfl).mono ?_
    rintro _ ⟨t, ps', rfl, -⟩
    exact ⟨_, rfl, rfl⟩
  | false =>
    refine ⟨⟨_, _, rfl, by decide⟩, fun rest _ => ?_⟩
    refine nodeValue_eats (.choiceR (fails 8 (by decide)) (.choiceR (fails 8 (by decide)) (.choiceR (fails 8 (by decide)) (.choiceL ?_))))
    refine ((Eats.choiceR (fails 8 (by decide))
      ((Eats.normal (r := .kwFalse) (rest := rest) rfl (Eats.str (t := %s"false"))).choiceL)).silent (r := .nodeKeywords) rfl).mono ?_
    rintro _ ⟨t, ps', rfl, -⟩
    exact ⟨_, rfl, rfl⟩

theorem plainChar_of {c : Char} (h : PlainChar c) : plainChar c = true := by
  obtain ⟨h1, h2, h3, h4⟩ := h
  have n3 : c.toNat ≠ 0x22 := fun e => h3 (by have := congrArg Char.ofNat e; rw [Char.ofNat_toNat] at this; exact this)
  have n4 : c.toNat ≠ 0x5C := fun e => h4 (by have := congrArg Char.ofNat e; rw [Char.ofNat_toNat] at this; exact this)
  simp only [plainChar, charRange, Bool.or_eq_true, Bool.and_eq_true, decide_eq_true_eq]
  omega

theorem string_text {flt : Str → Option F64} {s : Str} (h : ∀ c ∈ s, PlainChar c) : NodeText flt ('"' :: s ++ ['"']) (.string s) := by
  refine ⟨⟨_, _, rfl, by decide⟩, fun rest hr => ?_⟩
  have e : '"' :: s ++ ['"'] ++ rest = '"' :: s ++ '"' :: rest := by simp
  rw [e]
  have q := quoted_eats (rest := rest) (fun c hc => plainChar_of (h c hc))
  have hblock : Parses idlGrammar false (r .textBlock) ('"' :: s ++ '"' :: rest) none := by
    refine failsNormal rfl (.seqFail1 ?_)
    have d : ∀ u, Eats (r .DQUOTE) ('"' :: u) u (· = []) := fun u => .silent rfl (Eats.str (t := ['"']))
    cases s with
    | nil =>
      refine failsSeq (d _) (failsSeq (d _) ?_)
      refine failsSilent rfl (strFail_head (g := idlGrammar) ?_)
      intro c s' e
      have : ∀ c ∈ [',', ']', '}', ')', '\n', ' ', '\t', '\r', '/'], c ≠ '"' := by decide
      exact this c (hr c s' e)
    | cons c s =>
      refine failsSeq (d _) (.seqFail1 (failsSilent rfl (strFail_head (g := idlGrammar) ?_)))
      intro c' s' e
      injection e with e _
      rw [← e]
      exact (h c (by simp)).2.2.1
  refine nodeValue_eats (.choiceR (fails 8 (by decide)) (.choiceR (fails 8 (by decide)) (.choiceR (fails 8 (by decide))
    (.choiceR (fails 8 (by decide)) (.choiceR (fails 12 (by decide)) (.choiceR hblock (q.mono ?_)))))))
  rintro _ rfl
  exact ⟨_, rfl, rfl⟩

/-- A bare name, read as the text of the name. -/
theorem name_text {flt : Str → Option F64} {n : Str} (h : SmithyIdent n) (h1 : ¬ %s"true" <+: n) (h2 : ¬ %s"false" <+: n) (h3 : ¬ %s"null" <+: n) :
    NodeText flt n (.string n) := by
  obtain ⟨c, x, e, hc⟩ := (IdText.name h).head
  refine ⟨⟨c, x, e, by simp [valueHeads, hc]⟩, fun rest hr => ?_⟩
  have hkw : ∀ k : Str, ¬ k <+: n → (∀ a ∈ k, a.isAlpha = true) → Parses idlGrammar false (.str k) (n ++ rest) none := by
    intro k hk ha
    apply Parses.strFail
    cases hs : stripPrefix k (n ++ rest) with
    | none => rfl
    | some u =>
      exfalso
      have := stripPrefix_some hs
      rcases List.append_eq_append_iff.mp this with ⟨as, e1, e2⟩ | ⟨bs, e1, e2⟩
      · cases as with
        | nil => exact hk ⟨[], by simpa using e1⟩
        | cons a as =>
          have h5 := (hr.name a (as ++ u) e2).1
          have h6 := ha a (by rw [e1]; simp)
          unfold identRest at h5
          simp [h6] at h5
      · exact hk ⟨bs, e1.symm⟩
  refine nodeValue_eats (.choiceR (fails_ident 8 h (by decide)) (.choiceR (fails_ident 8 h (by decide)) (.choiceR (fails_ident 8 h (by decide))
    (.choiceR ?_ (.choiceL ((shapeId_eats (.name h) hr.name).mono ?_))))))
  · refine failsSilent rfl (.choiceR (failsNormal rfl (hkw _ h1 (by decide))) (.choiceR (failsNormal rfl (hkw _ h2 (by decide)))
      (failsNormal rfl (hkw _ h3 (by decide)))))
  · rintro _ rfl
    exact ⟨_, rfl, rfl⟩

/-! ### The writer's values -/

theorem items_eq (f : Fmt) (vs : List Value) : IdlWriter.items f vs = vs.map (IdlWriter.value f false) := by
  induction vs with
  | nil => rfl
  | cons v vs ih => simp only [IdlWriter.items, ih, List.map_cons]

theorem entries_eq (f : Fmt) (es : List (Str × Value)) :
    IdlWriter.entries f es = es.map fun e => e.1 ++ (':' :: ' ' :: IdlWriter.value f false e.2) := by
  induction es with
  | nil => rfl
  | cons e es ih => obtain ⟨k, v⟩ := e; simp [IdlWriter.entries, IdlWriter.entry, ih]

theorem white_comma : White %s", " := by
  intro c hc; simp only [List.mem_cons, List.not_mem_nil, or_false] at hc; rcases hc with rfl | rfl <;> decide

theorem value_text {f : Fmt} {flt : Str → Option F64} {v : Value} (h : WritableValue f flt v) : NodeText flt (IdlWriter.value f false v) v := by
  induction h with
  | @array vs _ ih =>
    have := array_text (as := vs) (d := IdlWriter.value f false) (val := id) ih
    simpa [IdlWriter.value, items_eq] using this
  | @object es hw hk _ ih =>
    have := object_text (w := []) (sep := %s", ") (trail := []) (as := es) (key := fun e => e.1) (d := fun e => IdlWriter.value f false e.2)
      (val := fun e => e.2) white_nil white_comma (by simp) white_nil hk ih
    have e : (es.map fun e => (e.1, e.2)) = es := by simp
    rw [e, AMap.ofList_of_wf hw] at this
    simpa [IdlWriter.value, entries_eq] using this
  | @integer n hn =>
    obtain ⟨sign, int, h1, h2, e⟩ := showInt_parts n
    have := number_text (flt := flt) (n := .integer n) (frac := []) h1 h2 (.inl rfl) (by
      rw [List.append_nil, ← e]
      unfold IdlParser.numberOf
      rw [showInt_no_dot, parseI64_showInt n hn]
      rfl)
    rw [List.append_nil, ← e] at this
    exact this
  | @float x h1 h2 =>
    obtain ⟨sign, int, frac, hs, hi, hf, e⟩ := h1
    have := number_text (flt := flt) (n := .float x) (frac := '.' :: frac) hs hi (.inr ⟨frac, rfl, hf⟩) (by
      rw [← e]
      unfold IdlParser.numberOf
      have : (f.float x).contains '.' = true := by rw [e]; simp
      rw [this, if_pos rfl, h2])
    rw [← e] at this
    exact this
  | boolean => exact boolean_text _
  | string h =>
    have := string_text (flt := flt) h.1
    rw [← h.2] at this
    exact this

end Verif
