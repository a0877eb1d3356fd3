/-
Traits, documentation and members of the Smithy IDL in any layout.
-/
import Verif.IdlLayoutNodes

namespace Verif
open Peg Spec Spec.Idl
open IdlGrammar (r null rank keyed)

/-! ### The body of a trait -/

theorem unquoted_ident {k : Str} (h : k.head? ≠ some '"') : unquoted k = k := by unfold unquoted; rw [if_neg h]

theorem structureKvp_key {flt : Str → Option F64} {k : Str} {q p : Pair IdlRule} {v : Value} (hk : KeyPair k q) (h1 : p.asRule = .nodeValue)
    (h2 : IdlParser.nodeValueOf flt p = .ok v) : IdlParser.structureKvp flt none none [q, p] = .ok (unquoted k, v) := by
  obtain ⟨rl, t', ps'⟩ := p
  cases h1
  rcases hk with ⟨rfl, hk⟩ | ⟨u, rfl, rfl⟩
  · rw [unquoted_ident hk]
    simp only [IdlParser.structureKvp, Pair.asRule, Pair.asStr, h2]
    rfl
  · have : unquoted ('"' :: u ++ ['"']) = u := by simp [unquoted]
    rw [this]
    simp only [IdlParser.structureKvp, Pair.asRule, Pair.intoInner, IdlParser.quotedKey, Pair.asStr, h2]
    rfl

theorem traitKvp_any {flt : Str → Option F64} {e : Entry} {rest : Str} (he : Entry.Ok e) (ht : ValueText flt e.value e.text) (hr : ValueEnd rest) :
    Eats (r .traitStructureKvp) (e.show %s":" ++ rest) rest (fun ps => ∃ p, ps = [p] ∧ KvpPair flt (unquoted e.key, e.value) p) := by
  refine (Eats.normal (r := .traitStructureKvp) rfl (keyed_any (.inl rfl) he (valueText_node ht) hr)).mono ?_
  rintro _ ⟨t, _, rfl, k, p, rfl, hk, h1, h2⟩
  exact ⟨_, rfl, rfl, structureKvp_key hk h1 h2⟩

theorem parted_tail {w : Str} {ws : List Str} (h : Parted (w :: ws)) : Parted ws := by
  refine ⟨fun x hx => h.1 x (List.mem_cons.mpr (.inr hx)), fun x hx => h.2 x ?_⟩
  cases ws with
  | nil => simp at hx
  | cons y ws => rw [List.dropLast_cons_cons]; exact List.mem_cons.mpr (.inr hx)

theorem entriesOk_tail {flt : Str → Option F64} {e : Entry} {es : List Entry} (h : EntriesOk flt (e :: es)) : EntriesOk flt es :=
  ⟨fun x hx => h.ok x (by simp [hx]), fun x hx => h.values x (by simp [hx]), parted_tail h.parted⟩

/-- What comes after the value of an entry. -/
theorem entry_end {flt : Str → Option F64} {e : Entry} {es : List Entry} {rest : Str} (h : EntriesOk flt (e :: es)) (hr : ValueEnd rest) :
    ValueEnd (e.after ++ (entriesText es ++ rest)) := by
  have hb : Blank e.after := h.parted.1 _ (by simp)
  cases es with
  | nil => exact valueEnd_blank hb hr
  | cons e' es => exact valueEnd_gap ⟨hb, h.parted.2 _ (by simp)⟩

theorem traitTail_eats {flt : Str → Option F64} {es : List Entry} (h : EntriesOk flt es) (rest : Str) {w : Str} (hw : Blank w) :
    ∃ w', Blank w' ∧ Eats (.rep (r .ws ~> r .traitStructureKvp)) (w ++ (entriesText es ++ ')' :: rest)) (w' ++ ')' :: rest)
      (List.Forall₂ (KvpPair flt) (es.map fun e => (unquoted e.key, e.value))) := by
  induction es generalizing w with
  | nil =>
    refine ⟨w, hw, (Eats.repNil (failsSeq (blank_stops hw (stops_of_head ⟨_, _, rfl, by decide⟩)) (fails 20 (by decide)))).mono ?_⟩
    rintro _ rfl
    exact .nil
  | cons e es ih =>
    obtain ⟨w', hw', h2⟩ := ih (entriesOk_tail h) (w := e.after) (h.parted.1 _ (by simp))
    refine ⟨w', hw', ?_⟩
    have eq : w ++ (entriesText (e :: es) ++ ')' :: rest) = w ++ (e.show %s":" ++ (e.after ++ (entriesText es ++ ')' :: rest))) := by simp [entriesText]
    rw [eq]
    have h1 := traitKvp_any (h.ok e (by simp)) (h.values e (by simp)) (entry_end h (valueEnd_cons (c := ')') (s := rest) (by decide)))
    refine (((blank_stops hw (stops_entry (h.ok e (by simp)) _ _)).seqL h1).repCons h2).mono ?_
    rintro _ ⟨_, _, rfl, ⟨p, rfl, hp⟩, hq⟩
    exact .cons hp hq

/-- Something in parentheses, with blank text. -/
theorem parens_any {w t w' rest : Str} {Q : List (Pair IdlRule) → Prop} (hw : Blank w) (hs : Stops (t ++ (w' ++ ')' :: rest))) (hw' : Blank w')
    (h : Eats (r .traitBodyValue) (t ++ (w' ++ ')' :: rest)) (w' ++ ')' :: rest) Q) :
    Eats (r .traitBody) (%s"(" ++ w ++ t ++ w' ++ %s")" ++ rest) rest Q := by
  have e : %s"(" ++ w ++ t ++ w' ++ %s")" ++ rest = ['('] ++ (w ++ (t ++ (w' ++ ([')'] ++ rest)))) := by simp
  rw [e]
  refine .silent rfl ((Eats.str (t := ['('])).seqL ((blank_stops hw hs).seqL (Eats.seqR (rest1 := ')' :: rest) ?_ (Eats.str (t := [')'])))))
  refine ((h.seqR (blank_stops hw' (stops_of_head ⟨_, _, rfl, by decide⟩))).repCons (.repNil (fails 24 (by decide)))).mono ?_
  rintro _ ⟨_, _, rfl, hq, rfl⟩
  simpa using hq

theorem kvp_notColon {s s' : Str} {Q} {w u : Str} (h : Eats (r .nodeObjectKey) s s' Q) (e : s' = w ++ u) (hw : Blank w) (hu : Stops u) (hne : ∀ c x, u = c :: x → c ≠ ':') :
    Parses idlGrammar false (r .traitStructure) s none := by
  subst e
  exact failsSilent rfl (.seqFail1 (failsNormal rfl (failsSeq h (failsSeq (blank_stops hw hu) (.seqFail1 (strFail_head (g := idlGrammar) hne))))))

theorem key_eats' {k rest : Str} (hk : SmithyIdent k) (hs : ∀ c s', rest = c :: s' → identRest c = false) :
    Eats (r .nodeObjectKey) (k ++ rest) rest (· = [.mk .identifier k []]) :=
  .silent rfl (.choiceR (fails_ident 8 hk (by decide)) (ident_eats' hk hs))

theorem namespace_key {ns : Str} (u : Str) (h : SmithyNamespace ns) :
    ∃ c x Q, (c = '.' ∨ c = '#') ∧ Eats (r .nodeObjectKey) (ns ++ '#' :: u) (c :: x) Q := by
  obtain ⟨parts, hne, hp, e⟩ := h
  cases parts with
  | nil => exact absurd rfl hne
  | cons a parts =>
    have ha := hp a (by simp)
    cases parts with
    | nil =>
      have : ns = a := by rw [e]; simp [joinWith]
      subst this
      exact ⟨'#', u, _, .inr rfl, key_eats' ha (by intro c s' e; injection e with e _; rw [← e]; decide)⟩
    | cons b parts =>
      have : ns ++ '#' :: u = a ++ '.' :: (joinWith ['.'] (b :: parts) ++ '#' :: u) := by rw [e]; simp [joinWith]
      rw [this]
      exact ⟨'.', _, _, .inl rfl, key_eats' ha (by intro c s' e; injection e with e _; rw [← e]; decide)⟩

/-- No structure starts where a value stands. -/
theorem notKvp_any {flt : Str → Option F64} {v : Value} {t w rest : Str} (h : ValueText flt v t) (hw : Blank w) :
    Parses idlGrammar false (r .traitStructure) (t ++ (w ++ ')' :: rest)) none := by
  have hclose : Stops (')' :: rest) := stops_of_head ⟨_, _, rfl, by decide⟩
  have hcol : ∀ c x, ')' :: rest = c :: x → c ≠ ':' := by intro c x e; injection e with e _; rw [← e]; decide
  have hend : NameEnd (w ++ ')' :: rest) := nameEnd_blank hw (nameEnd_cons (by decide))
  have ident : ∀ {t : Str}, SmithyIdent t → Parses idlGrammar false (r .traitStructure) (t ++ (w ++ ')' :: rest)) none :=
    fun ht => kvp_notColon (key_eats ht hend) rfl hw hclose hcol
  have num : ∀ {s : Str}, (∃ c x, s = c :: x ∧ c ∈ numberHeads) → Parses idlGrammar false (r .traitStructure) s none := by
    rintro s ⟨c, x, rfl, hc⟩
    have : ∀ c ∈ numberHeads, (!mayBeEmpty null (r .traitStructure) && (bounded null rank 32 (r .traitStructure) && !starts 20 (r .traitStructure) c)) = true := by
      decide
    exact fails 20 (this c hc)
  have path : ∀ {ns u : Str}, SmithyNamespace ns → Parses idlGrammar false (r .traitStructure) (ns ++ '#' :: u) none := by
    intro ns u hns
    obtain ⟨c, x, Q, hc, he⟩ := namespace_key u hns
    have hc' : c ∉ [' ', '\t', '\n', '\r', ',', '/'] ∧ c ≠ ':' := by rcases hc with rfl | rfl <;> decide
    exact kvp_notColon he (w := []) rfl .nil (stops_of_head ⟨c, x, rfl, hc'.1⟩) (by intro d y e; injection e with e _; rw [← e]; exact hc'.2)
  cases h with
  | array => exact fails 20 (by decide)
  | object => exact fails 20 (by decide)
  | @integer n hn =>
    obtain ⟨sign, int, h1, h2, e⟩ := showInt_parts n
    obtain ⟨c, x, e', hc⟩ := number_head (x := w ++ ')' :: rest) h1 h2
    exact num ⟨c, x, by rw [e, e'], mem_numberHeads hc⟩
  | minusZero => exact num ⟨_, _, rfl, by decide⟩
  | float h _ =>
    obtain ⟨_, e, ⟨sign, int, ds, h1, h2, h3, rfl⟩, he, rfl⟩ := h
    obtain ⟨c, y, ec, hc⟩ := number_head (x := '.' :: ds ++ e ++ (w ++ ')' :: rest)) h1 h2
    exact num ⟨c, y, by rw [← ec]; simp, mem_numberHeads hc⟩
  | keyword h => cases h <;> exact ident (.plain (by decide) (by decide))
  | name h _ =>
    cases h with
    | bare h => exact ident h
    | @absolute ns n h1 h2 =>
      have e : ns ++ %s"#" ++ n ++ (w ++ ')' :: rest) = ns ++ '#' :: (n ++ (w ++ ')' :: rest)) := by simp
      rw [e]
      exact path h1
    | @member ns n m h1 h2 h3 =>
      have e : ns ++ %s"#" ++ n ++ %s"$" ++ m ++ (w ++ ')' :: rest) = ns ++ '#' :: (n ++ %s"$" ++ m ++ (w ++ ')' :: rest)) := by simp
      rw [e]
      exact path h1
  | @quoted u h =>
    have e : %s"\"" ++ u ++ %s"\"" ++ (w ++ ')' :: rest) = '"' :: u ++ '"' :: (w ++ ')' :: rest) := by simp
    rw [e]
    exact kvp_notColon (.silent rfl (.choiceL (escaped_eats h (w ++ ')' :: rest)))) rfl hw hclose hcol
  | @block w' u hw' h hu =>
    have e : %s"\"\"\"" ++ w' ++ u ++ %s"\"\"\"" ++ (w ++ ')' :: rest) = '"' :: [] ++ '"' :: ('"' :: (w' ++ u ++ %s"\"\"\"" ++ (w ++ ')' :: rest))) := by simp
    rw [e]
    exact kvp_notColon (.silent rfl (.choiceL (escaped_eats .nil _))) (w := []) rfl .nil (stops_of_head ⟨_, _, rfl, by decide⟩)
      (by intro d y e; injection e with e _; rw [← e]; decide)

/-! ### Traits -/

theorem ident_noClose {n : Str} (h : SmithyIdent n) : ∀ c ∈ n, c ≠ ')' ∧ c ≠ '}' := by
  have h1 : ∀ {c : Char}, c.isAlpha = true ∨ c.isDigit = true ∨ c = '_' → c ≠ ')' ∧ c ≠ '}' := by
    intro c hc
    constructor <;> (rintro rfl; revert hc; decide)
  intro c hc
  cases h with
  | plain ha hr =>
    rcases List.mem_cons.mp hc with rfl | hc
    · exact h1 (.inl ha)
    · exact h1 (hr c hc)
  | underscore ha hr =>
    rcases List.mem_cons.mp hc with rfl | hc
    · decide
    · rcases List.mem_cons.mp hc with rfl | hc
      · exact h1 (.inl ha)
      · exact h1 (hr c hc)

theorem name_chars {n : ShapeName} {t : Str} (h : NameText n t) : ∀ c ∈ t, c ≠ ')' ∧ c ≠ '}' := by
  have hn : ∀ {ns : Str}, SmithyNamespace ns → ∀ c ∈ ns, c ≠ ')' ∧ c ≠ '}' := by
    rintro ns ⟨parts, -, hp, rfl⟩
    induction parts with
    | nil => intro c hc; cases hc
    | cons a parts ih =>
      have ih := ih fun p hp' => hp p (by simp [hp'])
      intro c hc
      cases parts with
      | nil => exact ident_noClose (hp a (by simp)) c (by simpa [joinWith] using hc)
      | cons b parts =>
        simp only [joinWith, List.mem_append, List.mem_singleton] at hc ih
        rcases hc with (hc | rfl) | hc
        · exact ident_noClose (hp a (by simp)) c hc
        · decide
        · exact ih c hc
  intro c hc
  cases h with
  | bare h => exact ident_noClose h c hc
  | absolute h1 h2 =>
    simp only [List.mem_append, List.mem_singleton] at hc
    rcases hc with (hc | rfl) | hc
    · exact hn h1 c hc
    · decide
    · exact ident_noClose h2 c hc
  | member h1 h2 h3 =>
    simp only [List.mem_append, List.mem_singleton] at hc
    rcases hc with (((hc | rfl) | hc) | rfl) | hc
    · exact hn h1 c hc
    · decide
    · exact ident_noClose h2 c hc
    · decide
    · exact ident_noClose h3 c hc

theorem trait_head {flt : Str → Option F64} {tb : TraitBuilder} {x : Str} (h : TraitText flt tb x) : ∃ y, x = '@' :: y := by
  cases h <;> exact ⟨_, rfl⟩

theorem trait_any {flt : Str → Option F64} {tb : TraitBuilder} {x u : Str} (h : TraitText flt tb x)
    (hu : x.getLast? = some ')' ∨ (NameEnd u ∧ ∀ c y, u = c :: y → c ≠ '(')) :
    Eats (r .aTrait) (x ++ u) u (fun ps => ∃ p, ps = [p] ∧ p.asRule = .aTrait ∧ IdlParser.traitOf flt p = .ok tb) := by
  -- the end: what is read, given the pairs of the body
  have fin : ∀ {n : ShapeName} {t s : Str} {v : Value} {Q : List (Pair IdlRule) → Prop}, NameText n t → NameEnd s → Eats (.opt (r .traitBody)) s u Q →
      (∀ ps, Q ps → ∃ value members, IdlParser.traitParts flt (some t) none [] ps = .ok (some t, value, members) ∧
        ((value = none ∧ v = .object members) ∨ (value = some v ∧ members = []))) →
      Eats (r .aTrait) (['@'] ++ (t ++ s)) u
        (fun ps => ∃ p, ps = [p] ∧ p.asRule = .aTrait ∧ IdlParser.traitOf flt p = .ok ⟨n, some v⟩) := by
    intro n t s v Q ht hs he hq
    refine (Eats.normal (r := .aTrait) rfl ((Eats.str (t := ['@'])).seqL ((name_eats ht hs).seq he))).mono ?_
    rintro _ ⟨t', _, rfl, _, ps, rfl, rfl, hps⟩
    refine ⟨_, rfl, rfl, ?_⟩
    obtain ⟨value, members, h1, h2⟩ := hq ps hps
    have h3 : IdlParser.traitParts flt none none [] ([Pair.mk .shapeId t []] ++ ps) = .ok (some t, value, members) := h1
    have hname := nameText_fromStr ht
    unfold IdlParser.traitOf
    simp only [Pair.intoInner, h3]
    rcases h2 with ⟨rfl, h2⟩ | ⟨rfl, rfl⟩
    · change TraitBuilder.withValue _ _ = _
      unfold TraitBuilder.withValue
      rw [hname, ← h2]
      rfl
    · change TraitBuilder.withValue _ _ = _
      unfold TraitBuilder.withValue
      rw [hname]
      rfl
  cases h with
  | @plain n t ht =>
    have hu' : NameEnd u ∧ ∀ c y, u = c :: y → c ≠ '(' := by
      rcases hu with hu | hu
      · exfalso
        have : ')' ∈ %s"@" ++ t := List.mem_of_getLast? hu
        simp only [List.mem_append, List.mem_singleton] at this
        rcases this with h | h
        · exact absurd h (by decide)
        · exact (name_chars ht _ h).1 rfl
      · exact hu
    have := fin (v := .object []) ht hu'.1 (.optNone (failsSilent rfl (.seqFail1 (strFail_head (g := idlGrammar) hu'.2))))
      (by rintro _ rfl; exact ⟨none, [], rfl, .inl ⟨rfl, rfl⟩⟩)
    simpa using this
  | @value n t w v y w' ht hw hv hw' =>
    have hn := valueText_node hv
    have hb := parens_any (rest := u) hw (stops_value hn _) hw' (.silent rfl (.choiceR (notKvp_any hv hw') (hn.eats _ (valueEnd_blank hw' (valueEnd_cons (by decide))))))
    have := fin (v := v) ht (nameEnd_cons (by decide)) (.opt hb) (by
      rintro _ ⟨p, rfl, h1, h2⟩
      obtain ⟨rl, t, inner⟩ := p
      cases h1
      refine ⟨some v, [], ?_, .inr ⟨rfl, rfl⟩⟩
      simp only [IdlParser.traitParts, Pair.asRule, h2]
      rfl)
    simpa using this
  | @members n t w es ht hw hes =>
    cases es with
    | nil =>
      have hb : Eats (r .traitBody) (['('] ++ (w ++ ([')'] ++ u))) u (· = []) :=
        .silent rfl ((Eats.str (t := ['('])).seqL ((blank_stops hw (stops_of_head ⟨_, _, rfl, by decide⟩)).seqL
          ((Eats.repNil (fails 24 (by decide))).seqL (Eats.str (t := [')'])))))
      have := fin (v := .object []) ht (nameEnd_cons (by decide)) (.opt hb) (by rintro _ rfl; exact ⟨none, [], rfl, .inl ⟨rfl, rfl⟩⟩)
      simpa [entriesText, AMap.ofList] using this
    | cons e es =>
      obtain ⟨w', hw', h2⟩ := traitTail_eats (entriesOk_tail hes) u (w := e.after) (hes.parted.1 _ (by simp))
      have h1 := traitKvp_any (hes.ok e (by simp)) (hes.values e (by simp)) (entry_end hes (valueEnd_cons (c := ')') (s := u) (by decide)))
      have hst := (h1.seq h2).silent (r := .traitStructure) rfl
      have hb : Eats (r .traitBody) (['('] ++ (w ++ (e.show %s":" ++ (e.after ++ (entriesText es ++ ')' :: u))))) u
          (List.Forall₂ (KvpPair flt) ((e :: es).map fun e => (unquoted e.key, e.value))) := by
        refine .silent rfl ((Eats.str (t := ['('])).seqL ((blank_stops hw (stops_entry (hes.ok e (by simp)) _ _)).seqL
          (Eats.seqR (rest1 := ')' :: u) ?_ (Eats.str (t := [')'])))))
        refine (((Eats.silent (r := .traitBodyValue) rfl (.choiceL hst)).seqR (blank_stops hw' (stops_of_head ⟨_, _, rfl, by decide⟩))).repCons (.repNil (fails 24 (by decide)))).mono ?_
        rintro _ ⟨_, _, rfl, ⟨_, _, rfl, ⟨p, rfl, hp⟩, hq⟩, rfl⟩
        simpa using List.Forall₂.cons hp hq
      have := fin (v := .object (AMap.ofList ((e :: es).map fun e => (unquoted e.key, e.value)))) ht (nameEnd_cons (by decide)) (.opt hb) (by
        intro ps hps
        exact ⟨none, _, traitParts_kvps hps _ none [], .inl ⟨rfl, rfl⟩⟩)
      simpa [entriesText] using this

theorem traits_any {flt : Str → Option F64} {ts : List TraitBuilder} {y u : Str} (h : TraitsText flt ts y) (hu : ∃ c x, u = c :: x ∧ c ∈ identHeads) :
    (∃ c x, y ++ u = c :: x ∧ (c = '@' ∨ c ∈ identHeads)) ∧
    ∀ {w : Str}, Blank w → Eats (r .traitStatements) (w ++ (y ++ u)) u
      (fun ps => ∃ p, ps = [p] ∧ p.asRule = .traitStatements ∧ IdlParser.traitsOf flt p = .ok ts) := by
  have hstop : Stops u := by
    obtain ⟨c, x, rfl, hc⟩ := hu
    have : ∀ c ∈ identHeads, c ∉ [' ', '\t', '\n', '\r', ',', '/'] := by decide
    exact stops_of_head ⟨c, x, rfl, this c hc⟩
  have hend : Parses idlGrammar false (r .aTrait) u none := by
    obtain ⟨c, x, rfl, hc⟩ := hu
    have hta : ∀ c ∈ identHeads, (!mayBeEmpty null (r .aTrait) && (bounded null rank 32 (r .aTrait) && !starts 8 (r .aTrait) c)) = true := by decide
    exact fails 8 (hta c hc)
  have main : (∃ c x, y ++ u = c :: x ∧ (c = '@' ∨ c ∈ identHeads)) ∧ (y ≠ [] → ∃ x, y = '@' :: x) ∧ ∀ {w : Str}, Blank w → ∃ w', Blank w' ∧
      Eats (.rep (r .ws ~> r .aTrait)) (w ++ (y ++ u)) (w' ++ u)
        (List.Forall₂ (fun e p => Pair.asRule p = .aTrait ∧ IdlParser.traitOf flt p = .ok e) ts) := by
    induction h with
    | nil =>
      obtain ⟨c, x, e, hc⟩ := hu
      refine ⟨⟨c, x, e, .inr hc⟩, fun h => absurd rfl h, fun {w} hw => ⟨w, hw, (Eats.repNil (failsSeq (blank_stops hw hstop) hend)).mono ?_⟩⟩
      rintro _ rfl
      exact .nil
    | @cons t x w1 ts y hx hw1 _ hor ih =>
      obtain ⟨h1, h2, h3⟩ := ih
      obtain ⟨x', rfl⟩ := trait_head hx
      refine ⟨⟨'@', _, rfl, .inl rfl⟩, fun _ => ⟨_, rfl⟩, fun {w} hw => ?_⟩
      obtain ⟨w', hw', h4⟩ := h3 hw1
      refine ⟨w', hw', ?_⟩
      have e : w ++ ('@' :: x' ++ w1 ++ y ++ u) = w ++ ('@' :: x' ++ (w1 ++ (y ++ u))) := by simp
      rw [e]
      have h5 := trait_any (u := w1 ++ (y ++ u)) hx (by
        have at' : ∀ {u}, NameEnd ('@' :: u) ∧ ∀ c z, '@' :: u = c :: z → c ≠ '(' :=
          ⟨nameEnd_cons (by decide), by intro c z e; injection e with e _; rw [← e]; decide⟩
        by_cases hw1' : w1 = []
        · subst hw1'
          rcases hor with hor | hor | hor
          · exact absurd rfl hor
          · obtain ⟨z, rfl⟩ := h2 hor
            exact .inr at'
          · exact .inl hor
        · exact .inr ⟨nameEnd_gap ⟨hw1, hw1'⟩, gap_or ⟨hw1, hw1'⟩ (by decide)⟩)
      refine (((blank_stops hw (stops_of_head ⟨'@', _, rfl, by decide⟩)).seqL h5).repCons h4).mono ?_
      rintro _ ⟨_, _, rfl, ⟨p, rfl, hp⟩, hq⟩
      exact .cons hp hq
  refine ⟨main.1, fun {w} hw => ?_⟩
  obtain ⟨w', hw', h2⟩ := main.2.2 hw
  refine (Eats.normal (r := .traitStatements) rfl (h2.seqR (blank_stops hw' hstop))).mono ?_
  rintro _ ⟨t, ps, rfl, hp⟩
  exact ⟨_, rfl, rfl, each_forall hp⟩

/-! ### Documentation -/

/-- A line end, and the blank text after it. -/
theorem lineEnd_eats {e w u : Str} (he : LineEnd e) (hw : Blank w) (hu : ∀ c x, u = c :: x → c ≠ '\n') :
    ∃ w', Blank w' ∧ Eats (r .NEWLINE) (e ++ (w ++ u)) (w' ++ u) (· = []) := by
  rcases he with rfl | rfl | rfl
  · exact ⟨w, hw, .silent rfl (.choiceL (Eats.str (t := ['\n'])))⟩
  · exact ⟨w, hw, .silent rfl (.choiceR (fails 8 (by decide)) (.choiceL (Eats.str (t := ['\r', '\n']))))⟩
  · by_cases h : ∃ v, w = '\n' :: v
    · obtain ⟨v, rfl⟩ := h
      have hv : Blank v := by
        cases hw with
        | char _ h => exact h
      exact ⟨v, hv, .silent rfl (.choiceR (fails 8 (by decide)) (.choiceL (Eats.str (t := ['\r', '\n']) (rest := v ++ u))))⟩
    · refine ⟨w, hw, .silent rfl (.choiceR (fails 8 (by decide)) (.choiceR (.strFail ?_) (Eats.str (t := ['\r']))))⟩
      have : ∀ c x, w ++ u = c :: x → c ≠ '\n' := by
        intro c x e
        cases w with
        | nil => exact hu c x e
        | cons d w =>
          injection e with e _
          subst e
          rintro rfl
          exact h ⟨w, rfl⟩
      cases hx : w ++ u with
      | nil => rfl
      | cons c x =>
        have := this c x hx
        simp [stripPrefix, Ne.symm this]

theorem docs_any {docs : List Str} {d u : Str} (h : DocsText docs d) (hu : ∃ c x, u = c :: x ∧ (c = '@' ∨ c ∈ identHeads)) :
    Stops (d ++ u) ∧ (∀ c x, d ++ u = c :: x → c ≠ '\n') ∧ ∀ {w : Str}, Blank w → ∃ w', Blank w' ∧
      Eats (.rep (r .documentationComment)) (w ++ (d ++ u)) (w' ++ u) (· = docs.map fun l => .mk .documentationText l []) := by
  have heads : ∀ c ∈ '@' :: identHeads, c ∉ [' ', '\t', '\n', '\r', ',', '/'] ∧ c ≠ '\n' ∧ c ≠ '/' := by decide
  induction h with
  | nil =>
    obtain ⟨c, x, rfl, hc⟩ := hu
    have hc' := heads c (List.mem_cons.mpr hc)
    have hs : Stops (c :: x) := stops_of_head ⟨c, x, rfl, hc'.1⟩
    refine ⟨hs, by rintro d y e; injection e with e _; rw [← e]; exact hc'.2.1, fun {w} hw => ⟨w, hw, (Eats.repNil ?_).mono (by rintro _ rfl; rfl)⟩⟩
    refine failsSilent rfl (failsSeq (blank_stops hw hs) (.seqFail1 (strFail_head (g := idlGrammar) ?_)))
    intro d y e
    injection e with e _
    rw [← e]
    exact hc'.2.2
  | @cons l e w1 ls d hl he hw1 _ ih =>
    obtain ⟨h1, h2, h3⟩ := ih
    refine ⟨by simpa [Stops] using notWs_doc _, by intro c x e; injection e with e _; rw [← e]; decide, fun {w} hw => ?_⟩
    obtain ⟨w2, hw2, h4⟩ := lineEnd_eats (u := d ++ u) he hw1 h2
    obtain ⟨w', hw', h5⟩ := h3 hw2
    refine ⟨w', hw', ?_⟩
    have eq : w ++ (%s"///" ++ l ++ e ++ w1 ++ d ++ u) = w ++ (%s"///" ++ (l ++ (e ++ (w1 ++ (d ++ u))))) := by simp
    rw [eq]
    have ht : Eats (r .documentationText) (l ++ (e ++ (w1 ++ (d ++ u)))) (e ++ (w1 ++ (d ++ u))) (· = [.mk .documentationText l []]) := by
      refine (Eats.normalText (r := .documentationText) rfl (rep_digits (fun c hc => commentChar_of (hl c hc)) ?_)).mono ?_
      · intro c s'' h
        rcases he with rfl | rfl | rfl <;> (injection h with h _; rw [← h]; decide)
      · rintro _ ⟨_, rfl, rfl⟩
        rfl
    have hdoc : Eats (r .documentationComment) (w ++ (%s"///" ++ (l ++ (e ++ (w1 ++ (d ++ u)))))) (w2 ++ (d ++ u)) (· = [.mk .documentationText l []]) :=
      .silent rfl ((blank_stops hw (notWs_doc _)).seqL ((Eats.str (t := %s"///")).seqL (ht.seqR h4)))
    refine (hdoc.repCons h5).mono ?_
    rintro _ ⟨_, _, rfl, rfl, rfl⟩
    rfl

theorem docTrait_applied {docs : List Str} {dt tb : List TraitBuilder} (h : DocTrait docs dt) :
    IdlParser.appliedTraits (docs.map trimStart) tb = dt ++ tb := by
  cases h with
  | none => rfl
  | @some docs texts hne hx =>
    have : texts = docs.map trimStart := by
      clear hne
      induction hx with
      | nil => rfl
      | cons h _ ih => rw [List.map_cons, ← ih, h.eq (trimmed_trimStart _)]
    subst this
    cases docs with
    | nil => exact absurd rfl hne
    | cons l docs =>
      rw [← joinWith_intercalate]
      rfl

/-- Documentation and traits, and what comes after. -/
theorem preface_eats {flt : Str → Option F64} {ts : List TraitBuilder} {p u rest : Str} {E : Expr IdlRule} {Q : List (Pair IdlRule) → Prop} (h : Preface flt ts p)
    (hu : ∃ c x, u = c :: x ∧ c ∈ identHeads) (hE : Eats E u rest Q) :
    Stops (p ++ u) ∧ Eats (.rep (r .documentationComment) ~> (r .ws ~> (r .traitStatements ~> E))) (p ++ u) rest
      (fun ps => ∃ (docs : List Str) (tb : List TraitBuilder) (q : Pair IdlRule) (ps' : List (Pair IdlRule)), ps = docs.map (fun l => .mk .documentationText l []) ++ ([q] ++ ps') ∧ q.asRule = .traitStatements ∧
        IdlParser.traitsOf flt q = .ok tb ∧ IdlParser.appliedTraits (docs.map trimStart) tb = ts ∧ Q ps') := by
  obtain ⟨docs, d, dt, tb, x, h1, h2, h3, rfl, rfl⟩ := h
  obtain ⟨hh, ht⟩ := traits_any h3 hu
  obtain ⟨hs, -, hd⟩ := docs_any h1 hh
  obtain ⟨w, hw, hd⟩ := hd (w := []) .nil
  rw [List.append_assoc]
  refine ⟨hs, ?_⟩
  have hst : Stops (x ++ u) := by
    obtain ⟨c, y, e, hc⟩ := hh
    have : ∀ c ∈ '@' :: identHeads, c ∉ [' ', '\t', '\n', '\r', ',', '/'] := by decide
    exact stops_of_head ⟨c, y, e, this c (List.mem_cons.mpr hc)⟩
  refine (hd.seq ((blank_stops hw hst).seqL ((ht (w := []) .nil).seq hE))).mono ?_
  rintro _ ⟨_, _, rfl, rfl, _, ps', rfl, ⟨q, rfl, hq1, hq2⟩, hq⟩
  exact ⟨docs, tb, q, ps', rfl, hq1, hq2, docTrait_applied h2, hq⟩

end Verif
