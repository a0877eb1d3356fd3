/-
The text of a printable selector is read back as that selector.
-/
import Verif.SelectorReads

namespace Verif
open Peg Spec SelParser

/-! ### More about matching -/

theorem ruleNormal {R : Type} {g : Grammar R} {r s t s' ps} (hk : g.kind r = .normal) (h : Parses g false (g.body r) s (some (t, s', ps))) :
    Parses g false (.rule r) s (some (t, s', [.mk r t ps])) := by
  have hm : g.mode false r = false := by unfold Grammar.mode; rw [hk]; rfl
  have hp : g.pairs false r t ps = [.mk r t ps] := by unfold Grammar.pairs; rw [hk]; rfl
  have := Parses.rule (g := g) (m := false) (r := r) (by rw [hm]; exact h)
  rw [hp] at this
  exact this

theorem ruleOfAtomic {R : Type} {g : Grammar R} {r s t s' ps} (hk : g.kind r = .atomic) (h : Parses g true (g.body r) s (some (t, s', ps))) :
    Parses g false (.rule r) s (some (t, s', [.mk r t ps])) := by
  have hm : g.mode false r = true := by unfold Grammar.mode; rw [hk]; rfl
  have hp : g.pairs false r t ps = [.mk r t ps] := by unfold Grammar.pairs; rw [hk]; rfl
  have := Parses.rule (g := g) (m := false) (r := r) (by rw [hm]; exact h)
  rw [hp] at this
  exact this

theorem Peg.Reads.exact {R : Type} {g : Grammar R} {e s t rest ps} (h : Parses g false e s (some (t, rest, ps))) : Reads g e s rest (· = ps) :=
  ⟨t, rest, ps, h, .inl rfl, rfl⟩

theorem selRule (r : SelRule) {s rest Q} (hk : selGrammar.kind r = .normal) (h : Reads selGrammar (SelGrammar.body r) s rest Q) :
    Reads selGrammar (.rule r) s rest (fun ps => ∃ t ps', ps = [.mk r t ps'] ∧ Q ps') := Reads.rule hk h

theorem Peg.Reads.andThen {R : Type} {g : Grammar R} {a b : Expr R} {s rest1 s2 rest2 Q1 Q2} (ha : Reads g a s rest1 Q1) (ht : g.trim rest1 = s2)
    (hb : Reads g b s2 rest2 Q2) : Reads g (a ~> b) s rest2 (fun ps => ∃ p q, ps = p ++ q ∧ Q1 p ∧ Q2 q) := ha.seq (by rw [ht]; exact hb)

/-- One or more of an expression that reads single characters, in atomic mode. -/
theorem plusOne {R : Type} {g : Grammar R} {e : Expr R} {t rest : Str} (hne : t ≠ [])
    (ht : ∀ c ∈ t, ∀ s, Parses g true e (c :: s) (some ([c], s, []))) (hr : Parses g true e rest none) :
    Parses g true (.plus e) (t ++ rest) (some (t, rest, [])) := by
  have more : ∀ t : Str, (∀ c ∈ t, ∀ s, Parses g true e (c :: s) (some ([c], s, []))) → Parses g true (.more e) (t ++ rest) (some (t, rest, [])) := by
    intro t
    induction t with
    | nil => intro _; exact .moreNone (by rw [skip_true]; exact hr)
    | cons c t ih =>
      intro ht
      have h1 : Parses g true e (g.skip true (c :: t ++ rest)).2 (some ([c], t ++ rest, [])) := by
        rw [skip_true]; exact ht c (by simp) _
      exact .moreSome h1 (ih (fun d hd => ht d (by simp [hd])))
  have rep : ∀ t : Str, (∀ c ∈ t, ∀ s, Parses g true e (c :: s) (some ([c], s, []))) → Parses g true (.rep e) (t ++ rest) (some (t, rest, [])) := by
    intro t ht
    cases t with
    | nil => exact .repNone hr
    | cons c t => exact .repSome (ht c (by simp) _) (more t (fun d hd => ht d (by simp [hd])))
  cases t with
  | nil => exact absurd rfl hne
  | cons c t =>
    have := seqAtomic (g := g) (ht c (by simp) (t ++ rest)) (rep t (fun d hd => ht d (by simp [hd])))
    exact this

/-! ### Values -/

theorem each_ok {R α : Type} [DecidableEq R] {rule : R} {f : Pair R → Except Err α} {as : List α} {ps : List (Pair R)}
    (h : List.Forall₂ (fun a p => p.asRule = rule ∧ f p = .ok a) as ps) : each rule f ps = .ok as := by
  induction h with
  | nil => rfl
  | cons h _ ih => unfold each; rw [if_pos h.1, h.2, ih]; rfl

theorem all_ok {R α : Type} {f : Pair R → Except Err α} {as : List α} {ps : List (Pair R)}
    (h : List.Forall₂ (fun a p => f p = .ok a) as ps) : all f ps = .ok as := by
  induction h with
  | nil => rfl
  | cons h _ ih => unfold all; rw [h, ih]; rfl

theorem quoted_char {c : Char} (h : Quotable c) (s : Str) : Parses selGrammar true (.rule .doubleQuotedChar) (c :: s) (some ([c], s, [])) := by
  apply ruleAtomic (ps := [])
  obtain ⟨h1, h2, h3⟩ := h
  have n2 : c.toNat ≠ 0x22 := fun e => h2 (by have := congrArg Char.ofNat e; rw [Char.ofNat_toNat] at this; exact this)
  have n3 : c.toNat ≠ 0x5C := fun e => h3 (by have := congrArg Char.ofNat e; rw [Char.ofNat_toNat] at this; exact this)
  have hmax : c.toNat ≤ 0x10FFFF := by
    have := c.valid
    rcases this with h | ⟨_, h⟩
    · exact Nat.le_trans (Nat.le_of_lt h) (by decide)
    · exact Nat.le_of_lt_succ h
  change Parses selGrammar true (.chr (charRange 0x20 0x21) <||> .chr (charRange 0x23 0x5B) <||> .chr (charRange 0x5D 0x10FFFF)) _ _
  by_cases a : c.toNat ≤ 0x21
  · exact .choiceL (.chr (by simp [charRange]; omega))
  · refine .choiceR (.chrFail (by simp [charRange]; omega)) ?_
    by_cases b : c.toNat ≤ 0x5B
    · exact .choiceL (.chr (by simp [charRange]; omega))
    · exact .choiceR (.chrFail (by simp [charRange]; omega)) (.chr (by simp [charRange]; omega))

theorem text_reads {s rest : Str} (hne : s ≠ []) (h : ∀ c ∈ s, Quotable c) :
    Parses selGrammar false (.rule .text) ('"' :: s ++ ['"'] ++ rest)
      (some ('"' :: s ++ ['"'], rest, [.mk .text ('"' :: s ++ ['"']) [.mk .doubleQuotedText ('"' :: s ++ ['"']) []]])) := by
  refine ruleNormal rfl (.choiceR ?_ ?_)
  · exact ruleFail_atomic rfl (.seqFail1 (strFail_head fun d s' e => by injection e with e _; rw [← e]; decide))
  · refine ruleOfAtomic rfl ?_
    have h2 := plusOne (g := selGrammar) (rest := '"' :: rest) hne (fun c hc s => quoted_char (h c hc) s)
      (run_sound (n := 8) rfl)
    have h3 : Parses selGrammar true (.str ['"']) ('"' :: rest) (some (['"'], rest, [])) := .str rfl
    have := seqAtomic (Parses.str (g := selGrammar) (m := true) (t := ['"']) (s := '"' :: (s ++ '"' :: rest)) rfl) (seqAtomic h2 h3)
    change Parses selGrammar true (.str ['"'] ~> .plus (.rule .doubleQuotedChar) ~> .str ['"']) _ _
    simpa using this

theorem value_solid {f flt v} (h : PrintableValue f flt v) : Solid (v.display f) := by
  have num : ∀ {sign int x : Str}, (sign = [] ∨ sign = ['-']) → IntText int → Solid (sign ++ int ++ x) := by
    intro sign int x h1 h2
    obtain ⟨c, r, e, hc⟩ := number_head (x := x) h1 h2
    refine ⟨c, r, e, ?_⟩
    rcases hc with hc | rfl
    · exact digit_not_white hc
    · rfl
  cases h with
  | text hne hq => exact ⟨'"', _, rfl, rfl⟩
  | @integer n _ =>
    obtain ⟨sign, int, h1, h2, h3⟩ := showInt_parts n
    have := num (x := []) h1 h2
    rw [List.append_nil, ← h3] at this
    exact this
  | float hf _ =>
    obtain ⟨sign, int, frac, h1, h2, h3, h4⟩ := hf
    have := num (x := '.' :: frac) h1 h2
    rw [← h4] at this
    exact this
  | root hi => exact ident_solid hi
  | absolute hns hn =>
    obtain ⟨parts, hne, hp, rfl⟩ := hns
    cases parts with
    | nil => exact absurd rfl hne
    | cons p ps =>
      obtain ⟨c, r, e, hc⟩ := ident_solid (hp p (by simp))
      subst e
      cases ps with
      | nil => exact ⟨c, _, rfl, hc⟩
      | cons q qs => exact ⟨c, _, rfl, hc⟩

/-- What the reader gives for a value. -/
def ReadsValue (flt : Str → Option F64) (v : SelValue) (p : Pair SelRule) : Prop := p.asRule = .value ∧ SelParser.value flt p = .ok v

theorem namespace_valid {ns : Str} (h : SmithyNamespace ns) : IsNamespace ns := by
  obtain ⟨parts, hne, hp, rfl⟩ := h
  exact ⟨parts, hne, fun p hm => (isIdent_iff p).mp (isIdent_of_smithy (hp p hm)), rfl⟩


theorem value_inner {flt : Str → Option F64} {v t} {p : Pair SelRule} (h : SelParser.value flt (.mk .value t [p]) = .ok v) :
    ∀ ps : List (Pair SelRule), (∃ t ps', ps = [.mk .value t ps'] ∧ ps' = [p]) → ∃ q, ps = [q] ∧ ReadsValue flt v q := by
  rintro _ ⟨t', _, rfl, rfl⟩
  exact ⟨_, rfl, rfl, h⟩

theorem value_reads {f flt v rest} (h : PrintableValue f flt v) (hr : Follow rest) :
    Reads selGrammar (.rule .value) (v.display f ++ rest) rest (fun ps => ∃ p, ps = [p] ∧ ReadsValue flt v p) := by
  have hnum : ∀ {sign int frac : Str} {n : Number}, (sign = [] ∨ sign = ['-']) → IntText int → (frac = [] ∨ ∃ ds, frac = '.' :: ds ∧ Digits ds) →
      numberOf flt (sign ++ int ++ frac) = .ok n →
      Reads selGrammar (.rule .value) (sign ++ int ++ frac ++ rest) rest (fun ps => ∃ p, ps = [p] ∧ ReadsValue flt (.number n) p) := by
    intro sign int frac n h1 h2 h3 h4
    have hb := ruleOfAtomic (r := .number) (g := selGrammar) rfl (number_body h1 h2 h3 hr)
    refine (Reads.rule rfl (Reads.choiceR (text_fail ?_ ?_) (Reads.choiceL (Reads.exact hb)))).mono (value_inner (t := []) ?_)
    · intro c s' e
      obtain ⟨d, r, e', hd⟩ := number_head (x := frac) h1 h2
      rw [e'] at e; injection e with e _; rw [← e]; exact numberHead_ne hd _ (by decide) (by decide)
    · intro c s' e
      obtain ⟨d, r, e', hd⟩ := number_head (x := frac) h1 h2
      rw [e'] at e; injection e with e _; rw [← e]; exact numberHead_ne hd _ (by decide) (by decide)
    · change (do return SelValue.number (← numberOf flt (sign ++ int ++ frac)) : Except Err SelValue) = _
      rw [h4]; rfl
  have hname : ∀ {t : Str} {q : Pair SelRule} {v : SelValue}, (∃ c r, t = c :: r ∧ (c.isAlpha = true ∨ c = '_')) →
      Reads selGrammar (.rule .absoluteRootShapeId <||> .rule .identifier) (t ++ rest) rest (· = [q]) →
      (∀ t1 t2, SelParser.value flt (.mk .value t1 [.mk .rootShapeId t2 [q]]) = .ok v) →
      Reads selGrammar (.rule .value) (t ++ rest) rest (fun ps => ∃ p, ps = [p] ∧ ReadsValue flt v p) := by
    rintro t q v ⟨c, r, rfl, hc⟩ h1 h2
    have hne : ∀ d : Char, d.isAlpha = false → d ≠ '_' → ∀ c' s', c :: r ++ rest = c' :: s' → c' ≠ d := by
      intro d hd hm c' s' e
      injection e with e _; rw [← e]; exact identHead_ne hc d hd hm
    refine (Reads.rule rfl (Reads.choiceR (text_fail (hne _ (by decide) (by decide)) (hne _ (by decide) (by decide)))
      (Reads.choiceR (number_fail (identHead_ne hc _ (by decide) (by decide)) ?_) (selRule .rootShapeId rfl h1)))).mono ?_
    · rcases hc with hc | rfl
      · exact alpha_not_digit hc
      · decide
    · rintro _ ⟨t1, _, rfl, t2, _, rfl, rfl⟩
      exact ⟨_, rfl, rfl, h2 t1 t2⟩
  cases h with
  | @text s hne hq =>
    refine (Reads.rule rfl (Reads.choiceL (Reads.exact (text_reads (rest := rest) hne hq)))).mono (value_inner (t := []) ?_)
    change (Except.ok (SelValue.text ((('"' :: s ++ ['"'] : Str)).drop 1).dropLast) : Except Err SelValue) = _
    simp
  | @integer n hn =>
    obtain ⟨sign, int, h1, h2, h3⟩ := showInt_parts n
    have := hnum (frac := []) (n := .integer n) h1 h2 (.inl rfl) (by
      rw [List.append_nil, ← h3]
      unfold numberOf
      rw [if_neg (by rw [showInt_no_dot]; decide), parseI64_showInt n hn])
    rw [List.append_nil, ← h3] at this
    exact this
  | @float x hf hx =>
    obtain ⟨sign, int, frac, h1, h2, h3, h4⟩ := hf
    have := hnum (frac := '.' :: frac) (n := .float x) h1 h2 (.inr ⟨frac, rfl, h3⟩) (by
      unfold numberOf
      rw [if_pos (by simp), ← h4, hx])
    rw [← h4] at this
    exact this
  | @root s hs =>
    refine hname (q := .mk .identifier s []) (ident_head hs) (Reads.choiceR ?_ (ident_follow hs hr)) ?_
    · refine ruleFail_atomic rfl (seqFailAtomic (t1 := s) (ruleAtomic (ps := []) ?_) (.seqFail1 (strFail_head (hr.ne '#' (by decide)))))
      have := namespace_body (parts := [s]) (rest := rest) (by simp) (by simpa using hs) (hr.not _ stops_ident) (hr.ne '.' (by decide))
      exact this
    · intro t1 t2
      change (do return SelValue.rootShapeId (← unwrap (Identifier.fromStr s)) : Except Err SelValue) = _
      rw [fromStr_smithy hs]; rfl
  | @absolute ns n hns hn =>
    have hval : ShapeID.Valid ⟨ns, n, none⟩ := ⟨namespace_valid hns, (isIdent_iff n).mp (isIdent_of_smithy hn), by simp⟩
    have hfs := ShapeID.fromStr_display hval
    have hdisp : ShapeID.display ⟨ns, n, none⟩ = ns ++ ['#'] ++ n := by simp [ShapeID.display]
    have hhead : ∃ c r, ShapeID.display ⟨ns, n, none⟩ = c :: r ∧ (c.isAlpha = true ∨ c = '_') := by
      obtain ⟨parts, hne, hp, rfl⟩ := hns
      cases parts with
      | nil => exact absurd rfl hne
      | cons p ps =>
        obtain ⟨c, r, e, hc⟩ := ident_head (hp p (by simp))
        subst e
        rw [hdisp]
        cases ps with
        | nil => exact ⟨c, _, rfl, hc⟩
        | cons q qs => exact ⟨c, _, rfl, hc⟩
    refine hname (q := .mk .absoluteRootShapeId (ShapeID.display ⟨ns, n, none⟩) []) hhead (Reads.choiceL ?_) ?_
    · obtain ⟨parts, hne, hp, rfl⟩ := hns
      refine Reads.atomic rfl ?_
      have h1 := namespace_body (parts := parts) (rest := '#' :: (n ++ rest)) hne hp
        (fun c s' e => by injection e with e _; rw [← e]; decide) (fun c s' e => by injection e with e _; rw [← e]; decide)
      have h2 := seqAtomic (ruleAtomic (r := .nsName) h1) (seqAtomic (Parses.str (g := selGrammar) (m := true) (t := ['#']) (s := '#' :: (n ++ rest)) rfl)
        (ident_atomic hn (hr.not _ stops_ident)))
      rw [show SelValue.display f (.absoluteRootShapeId ⟨joinWith ['.'] parts, n, none⟩) = _ from hdisp]
      change Parses selGrammar true (.rule .nsName ~> .str ['#'] ~> .rule .identifier) _ _
      simpa using h2
    · intro t1 t2
      change (do return SelValue.absoluteRootShapeId (← unwrap (ShapeID.fromStr (ShapeID.display ⟨ns, n, none⟩))) : Except Err SelValue) = _
      rw [hfs]; rfl

/-! ### Paths and keys -/

theorem segment_solid {f flt s} (h : PrintableSegment f flt s) : Solid (s.display f) := by
  cases h with
  | value h => exact value_solid h
  | property h => exact ⟨'(', _, rfl, rfl⟩

theorem segment_reads {f flt s rest} (h : PrintableSegment f flt s) (hr : Follow rest) :
    Reads selGrammar (.rule .pathSegment) (s.display f ++ rest) rest (fun ps => ∃ p, ps = [p] ∧ pathSegmentOf flt p = .ok s) := by
  cases h with
  | @value v h =>
    refine (Reads.rule rfl (Reads.choiceL (value_reads h hr))).mono ?_
    rintro _ ⟨t, _, rfl, p, rfl, h1, h2⟩
    refine ⟨_, rfl, ?_⟩
    obtain ⟨r, t', ps⟩ := p
    cases h1
    change (do return KeyPathSegment.value (← SelParser.value flt _) : Except Err KeyPathSegment) = _
    rw [h2]; rfl
  | @property n h =>
    have hv : Parses selGrammar false (.rule .value) ('(' :: (n ++ ')' :: rest)) none := run_sound (n := 20) rfl
    have h2 := (Reads.str (g := selGrammar) (t := ['(']) (rest := n ++ (')' :: rest))).seq (by
      rw [(ident_solid h).trim]
      exact (ident_reads h (fun c s' e => by injection e with e _; rw [← e]; decide)).seq (by
        rw [trim_char _ _ rfl]; exact Reads.str (t := [')']) (rest := rest)))
    have e : KeyPathSegment.display f (.functionProperty n) ++ rest = '(' :: (n ++ ')' :: rest) := by simp [KeyPathSegment.display]
    rw [e]
    refine (Reads.rule rfl (Reads.choiceR hv (selRule .functionProperty rfl h2))).mono ?_
    rintro _ ⟨t, _, rfl, t2, _, rfl, _, _, rfl, rfl, _, _, rfl, rfl, rfl⟩
    refine ⟨_, rfl, ?_⟩
    change (do return KeyPathSegment.functionProperty (← unwrap (Identifier.fromStr n)) : Except Err KeyPathSegment) = _
    rw [fromStr_smithy h]; rfl

/-- What may follow a path: not another segment. -/
def FollowPath (rest : Str) : Prop := Follow rest ∧ ∀ c s', selGrammar.trim rest = c :: s' → c ≠ '|'

theorem path_reads {f flt rest} {p : List KeyPathSegment} (hne : p ≠ []) (h : ∀ s ∈ p, PrintableSegment f flt s) (hr : FollowPath rest) :
    Reads selGrammar (.rule .path) (joinWith ['|'] (p.map (·.display f)) ++ rest) rest
      (fun ps => ∃ q, ps = [q] ∧ q.asRule = .path ∧ all (pathSegmentOf flt) q.intoInner = .ok p) := by
  have := Reads.sepBy (g := selGrammar) (x := .rule .pathSegment) (sep := ['|']) (psep := ['|']) (w := []) (d := fun s => KeyPathSegment.display f s)
    (Q := fun s p => pathSegmentOf flt p = .ok s) (F := Follow) (as := p) (rest := rest) hne
    (fun a ha r hf => segment_reads (h a ha) hf)
    (fun r => trim_char '|' r rfl)
    (fun a ha r => (segment_solid (h a ha)).trim r)
    hr.1 (fun r => follow_cons (by decide)) (strFail_head hr.2)
  refine (selRule .path rfl this).mono ?_
  rintro _ ⟨t, ps, rfl, hps⟩
  exact ⟨_, rfl, rfl, all_ok hps⟩

theorem pathOf_one {flt : Str → Option F64} {p : List KeyPathSegment} {q : Pair SelRule} (h1 : q.asRule = .path)
    (h2 : all (pathSegmentOf flt) q.intoInner = .ok p) : pathOf flt [q] = .ok p := by
  unfold pathOf each
  rw [if_pos h1, h2]
  simp [each, bind, Except.bind, pure, Except.pure]

theorem joinWith_solid {α : Type} {sep : Str} {d : α → Str} {as : List α} (hne : as ≠ []) (h : ∀ a ∈ as, Solid (d a)) :
    Solid (joinWith sep (as.map d)) := by
  cases as with
  | nil => exact absurd rfl hne
  | cons a as =>
    cases as with
    | nil => exact h a (by simp)
    | cons b bs => rw [List.map_cons, List.map_cons, joinWith, List.append_assoc]; exact (h a (by simp)).append _

theorem key_solid {f flt k} (h : PrintableKey f flt k) : Solid (k.display f) := (ident_solid h.1).append _

theorem key_reads {f flt k rest} (h : PrintableKey f flt k) (hr : FollowPath rest) :
    Reads selGrammar (.rule .key) (k.display f ++ rest) rest (fun ps => ∃ q, ps = [q] ∧ q.asRule = .key ∧ keyOf flt q = .ok k) := by
  obtain ⟨id, p⟩ := k
  obtain ⟨hi, hp⟩ := h
  simp only at hi hp
  by_cases hne : p = []
  · subst hne
    have e : SelKey.display f ⟨id, []⟩ ++ rest = id ++ rest := by simp [SelKey.display]
    rw [e]
    refine (selRule .key rfl ((ident_follow hi hr.1).seq (Reads.optNone (.seqFail1 (strFail_head hr.2)) (.inr rfl)))).mono ?_
    rintro _ ⟨t, _, rfl, _, _, rfl, rfl, rfl⟩
    refine ⟨_, rfl, rfl, ?_⟩
    change (do let id ← unwrap (Identifier.fromStr id); return (⟨id, ← pathOf flt []⟩ : SelKey) : Except Err SelKey) = _
    rw [fromStr_smithy hi]; rfl
  · have e : SelKey.display f ⟨id, p⟩ ++ rest = id ++ ('|' :: (joinWith ['|'] (p.map (·.display f)) ++ rest)) := by
      have : p.isEmpty = false := by cases p with | nil => exact absurd rfl hne | cons => rfl
      simp [SelKey.display, this]
    rw [e]
    have hs := joinWith_solid (sep := ['|']) (d := fun s => KeyPathSegment.display f s) hne (fun a ha => segment_solid (hp a ha))
    refine (selRule .key rfl ((ident_follow hi (follow_cons (by decide))).seq (rest2 := rest) (Reads.opt (by
      rw [trim_char _ _ rfl]
      exact (Reads.str (t := ['|']) (rest := joinWith ['|'] (p.map (·.display f)) ++ rest)).seq (by rw [hs.trim]; exact path_reads hne hp hr))))).mono ?_
    rintro _ ⟨t, _, rfl, _, _, rfl, rfl, _, _, rfl, rfl, q, rfl, h1, h2⟩
    refine ⟨_, rfl, rfl, ?_⟩
    change (do let id ← unwrap (Identifier.fromStr id); return (⟨id, ← pathOf flt [q]⟩ : SelKey) : Except Err SelKey) = _
    rw [fromStr_smithy hi, pathOf_one h1 h2]; rfl

/-! ### Comparisons -/

theorem comparator_reads {c : Comparator} (h : ReadableComparator c) (rest : Str) :
    Reads selGrammar (.rule .comparator) (c.display ++ ' ' :: rest) (' ' :: rest) (fun ps => ∃ q, ps = [q] ∧ q.asRule = .comparator ∧ comparatorOf q = .ok c) := by
  have key : ∀ ps, Parses selGrammar false (.rule .comparator) (c.display ++ ' ' :: rest) (some (c.display, ' ' :: rest, [.mk .comparator c.display ps])) →
      Reads selGrammar (.rule .comparator) (c.display ++ ' ' :: rest) (' ' :: rest) (fun ps => ∃ q, ps = [q] ∧ q.asRule = .comparator ∧ comparatorOf q = .ok c) := by
    intro ps hp
    refine ⟨_, _, _, hp, .inl rfl, _, rfl, rfl, ?_⟩
    cases c <;> rfl
  obtain ⟨h1, h2⟩ := h
  cases c <;> first | exact absurd rfl h1 | exact absurd rfl h2 | exact key _ (run_sound (n := 20) rfl)

theorem comparator_solid (c : Comparator) : Solid c.display := by cases c <;> exact ⟨_, _, rfl, rfl⟩

/-- Values separated by commas, then perhaps the case suffix. -/
theorem values_reads {α : Type} {one many : SelRule} {d : α → Str} {rd : Pair SelRule → Except Err α} {as : List α} {b : Bool} {rest : Str}
    (hk : selGrammar.kind many = .normal) (hbody : selGrammar.body many = SelGrammar.sepBy %s"," (.rule one))
    (hs : many ≠ .caseSuffix) (hne : as ≠ []) (hsol : ∀ a ∈ as, Solid (d a))
    (hone : ∀ a ∈ as, ∀ r, Follow r → Reads selGrammar (.rule one) (d a ++ r) r (fun ps => ∃ p, ps = [p] ∧ p.asRule = one ∧ rd p = .ok a))
    (hr : ∃ r, rest = ']' :: r ∨ rest = ' ' :: '&' :: r) :
    Reads selGrammar (.rule many ~> .opt (.rule .caseSuffix)) (joinWith %s", " (as.map d) ++ (caseSuffix b ++ rest)) rest
      (fun ps => valuesAndCase many one rd ps = .ok (as, b)) := by
  obtain ⟨r, hr⟩ := hr
  have hf : Follow (caseSuffix b ++ rest) := by
    cases b
    · rcases hr with rfl | rfl <;> exact follow_cons (by decide)
    · exact follow_cons (by decide)
  have hend : Parses selGrammar false (.str [',']) (selGrammar.trim (caseSuffix b ++ rest)) none := by
    cases b <;> rcases hr with rfl | rfl <;> exact .strFail rfl
  have h1 := Reads.sepBy (g := selGrammar) (x := .rule one) (sep := [',']) (psep := [',', ' ']) (w := [' ']) (d := d)
    (Q := fun a p => p.asRule = one ∧ rd p = .ok a) (F := Follow) (as := as) hne hone
    (fun r => trim_char ',' _ rfl) (fun a ha r => by
      change selGrammar.trim (' ' :: (d a ++ r)) = _
      rw [trim_space, (hsol a ha).trim]) hf (fun r => follow_cons (by decide)) hend
  have h1 := selRule many hk (by rw [show SelGrammar.body many = _ from hbody]; exact h1)
  cases b with
  | false =>
    refine (h1.seq (Reads.optNone (rest := rest) ?_ (.inr rfl))).mono ?_
    · rcases hr with rfl | rfl <;> exact run_sound (n := 5) rfl
    · rintro _ ⟨_, _, rfl, ⟨t, ps, rfl, hps⟩, rfl⟩
      change valuesAndCase many one rd [_] = _
      unfold valuesAndCase
      rw [if_pos (show (Pair.mk many t ps).asRule = many from rfl), show Pair.intoInner (Pair.mk many t ps) = ps from rfl, each_ok hps]
      simp [valuesAndCase, bind, Except.bind, pure, Except.pure]
  | true =>
    have e : selGrammar.trim (caseSuffix true ++ rest) = 'i' :: rest := rfl
    refine (h1.seq (Reads.opt (by rw [e]; exact selRule .caseSuffix rfl (Reads.str (t := ['i']))))).mono ?_
    rintro _ ⟨_, _, rfl, ⟨t, ps, rfl, hps⟩, ⟨t2, _, rfl, rfl⟩⟩
    change valuesAndCase many one rd [_, _] = _
    unfold valuesAndCase
    rw [if_pos (show (Pair.mk many t ps).asRule = many from rfl), show Pair.intoInner (Pair.mk many t ps) = ps from rfl, each_ok hps]
    unfold valuesAndCase
    rw [if_neg (fun e => hs e.symm), if_pos (show (Pair.mk SelRule.caseSuffix t2 []).asRule = SelRule.caseSuffix from rfl)]
    simp [valuesAndCase, bind, Except.bind, pure, Except.pure]

theorem comparison_reads {f flt c rest} (h : PrintableComparison f flt c) :
    Reads selGrammar (.rule .attrComparison) (selGrammar.trim (c.display f ++ ']' :: rest)) (']' :: rest)
      (fun ps => ∃ q, ps = [q] ∧ q.asRule = .attrComparison ∧ attrComparisonOf flt q = .ok c) := by
  obtain ⟨cmp, vs, ci⟩ := c
  obtain ⟨h1, h2, h3⟩ := h
  simp only at h1 h2 h3
  have e : AttributeComparison.display f ⟨cmp, vs, ci⟩ ++ ']' :: rest =
      ' ' :: (cmp.display ++ ' ' :: (joinWith %s", " (vs.map (·.display f)) ++ (caseSuffix ci ++ ']' :: rest))) := by
    simp [AttributeComparison.display]
  rw [e, trim_space, (comparator_solid cmp).trim]
  have hs := joinWith_solid (sep := %s", ") (d := fun s => SelValue.display f s) h2 (fun a ha => value_solid (h3 a ha))
  refine (selRule .attrComparison rfl ((comparator_reads h1 _).seq (rest2 := ']' :: rest) (by
    rw [trim_space, hs.trim]
    exact values_reads (rd := SelParser.value flt) (one := .value) (many := .attrValues) rfl rfl (by decide) h2 (fun a ha => value_solid (h3 a ha))
      (fun a ha r hf => value_reads (h3 a ha) hf) ⟨rest, .inl rfl⟩))).mono ?_
  rintro _ ⟨t, _, rfl, _, q, rfl, ⟨p, rfl, hp1, hp2⟩, hq⟩
  refine ⟨_, rfl, rfl, ?_⟩
  change (do
    let c ← comparatorOf p
    let (vs, ci) ← valuesAndCase SelRule.attrValues SelRule.value (SelParser.value flt) q
    return if ci then AttributeComparison.newCaseInsensitive c vs else .new c vs : Except Err AttributeComparison) = _
  rw [hp2, hq]
  cases ci <;> rfl

theorem attr_reads {f flt} {a : AttributeSelector} {rest} (hk : PrintableKey f flt a.key) (hc : ∀ c, a.comparison = some c → PrintableComparison f flt c) :
    Reads selGrammar (.rule .attr) (a.display f ++ rest) rest (fun ps => ∃ q, ps = [q] ∧ q.asRule = .attr ∧ attrOf flt q = .ok a) := by
  obtain ⟨k, c⟩ := a
  simp only at hk hc
  cases c with
  | none =>
    have e : AttributeSelector.display f ⟨k, none⟩ ++ rest = '[' :: (k.display f ++ ']' :: rest) := by simp [AttributeSelector.display]
    rw [e]
    have hfp : FollowPath (']' :: rest) := ⟨follow_cons (by decide), fun c s' e => by rw [trim_char _ _ rfl] at e; injection e with e _; rw [← e]; decide⟩
    have h1 := (Reads.optNone (g := selGrammar) (a := .rule .attrComparison) (rest := ']' :: rest) (run_sound (n := 20) rfl) (.inr rfl)).andThen
      (trim_char _ _ rfl) (Reads.str (t := [']']))
    have h2 := (Reads.str (g := selGrammar) (t := ['['])).andThen ((key_solid hk).trim _) ((key_reads hk hfp).andThen (trim_char _ _ rfl) h1)
    refine (selRule .attr rfl h2).mono ?_
    rintro _ ⟨t, _, rfl, _, _, rfl, rfl, _, _, rfl, ⟨q, rfl, hq1, hq2⟩, _, _, rfl, rfl, rfl⟩
    refine ⟨_, rfl, rfl, ?_⟩
    change (do
      let key ← if q.asRule = SelRule.key then keyOf flt q else unexpected
      return (⟨key, none⟩ : AttributeSelector) : Except Err AttributeSelector) = _
    rw [if_pos hq1, hq2]; rfl
  | some c =>
    have e : AttributeSelector.display f ⟨k, some c⟩ ++ rest = '[' :: (k.display f ++ (c.display f ++ ']' :: rest)) := by simp [AttributeSelector.display]
    rw [e]
    have hfp : FollowPath (c.display f ++ ']' :: rest) := by
      refine ⟨follow_cons (by decide), fun ch s' e => ?_⟩
      have : c.display f ++ ']' :: rest = ' ' :: (c.comparator.display ++ ' ' :: (joinWith %s", " (c.rhsValues.map (·.display f)) ++ (caseSuffix c.caseInsensitive ++ ']' :: rest))) := by
        simp [AttributeComparison.display]
      rw [this, trim_space, (comparator_solid _).trim] at e
      revert e
      cases c.comparator <;> (intro e; injection e with e _; rw [← e]; decide)
    have h1 := (Reads.opt (comparison_reads (rest := rest) (hc c rfl))).andThen (trim_char _ _ rfl) (Reads.str (t := [']']))
    have h2 := (Reads.str (g := selGrammar) (t := ['['])).andThen ((key_solid hk).trim _) ((key_reads hk hfp).andThen rfl h1)
    refine (selRule .attr rfl h2).mono ?_
    rintro _ ⟨t, _, rfl, _, _, rfl, rfl, _, _, rfl, ⟨q, rfl, hq1, hq2⟩, _, _, rfl, ⟨q', rfl, hq3, hq4⟩, rfl⟩
    refine ⟨_, rfl, rfl, ?_⟩
    change (do
      let key ← if q.asRule = SelRule.key then keyOf flt q else unexpected
      if q'.asRule = SelRule.attrComparison then return (⟨key, some (← attrComparisonOf flt q')⟩ : AttributeSelector) else unexpected : Except Err AttributeSelector) = _
    rw [if_pos hq1, hq2]
    change (if q'.asRule = SelRule.attrComparison then (do return (⟨k, some (← attrComparisonOf flt q')⟩ : AttributeSelector)) else unexpected : Except Err AttributeSelector) = _
    rw [if_pos hq3, hq4]; rfl


/-! ### Scoped attributes -/

theorem scoped_solid {f flt v} (h : PrintableScoped f flt v) : Solid (v.display f) := by
  cases h with
  | value h => exact value_solid h
  | context _ _ => exact ⟨'@', _, rfl, rfl⟩

theorem followPath_brace (rest : Str) : FollowPath ('}' :: rest) :=
  ⟨follow_cons (by decide), fun c s' e => by rw [trim_char _ _ rfl] at e; injection e with e _; rw [← e]; decide⟩

theorem scoped_reads {f flt v rest} (h : PrintableScoped f flt v) (hr : Follow rest) :
    Reads selGrammar (.rule .scopedValue) (v.display f ++ rest) rest (fun ps => ∃ p, ps = [p] ∧ p.asRule = .scopedValue ∧ scopedValueOf flt p = .ok v) := by
  cases h with
  | @value v h =>
    refine (selRule .scopedValue rfl (Reads.choiceL (value_reads h hr))).mono ?_
    rintro _ ⟨t, _, rfl, p, rfl, h1, h2⟩
    refine ⟨_, rfl, rfl, ?_⟩
    obtain ⟨r, t', ps⟩ := p
    cases h1
    change (do return ScopedValue.value (← SelParser.value flt _) : Except Err ScopedValue) = _
    rw [h2]; rfl
  | @context p hne hp =>
    have e : ScopedValue.display f (.contextValue p) ++ rest = '@' :: '{' :: (joinWith ['|'] (p.map (·.display f)) ++ '}' :: rest) := by
      simp [ScopedValue.display]
    rw [e]
    have hs := joinWith_solid (sep := ['|']) (d := fun s => KeyPathSegment.display f s) hne (fun a ha => segment_solid (hp a ha))
    have h1 := (Reads.str (g := selGrammar) (t := ['@', '{'])).andThen (hs.trim _)
      ((path_reads hne hp (followPath_brace rest)).andThen (trim_char _ _ rfl) (Reads.str (t := ['}'])))
    refine (selRule .scopedValue rfl (Reads.choiceR (run_sound (n := 20) rfl) (selRule .contextValue rfl h1))).mono ?_
    rintro _ ⟨t, _, rfl, t2, _, rfl, _, _, rfl, rfl, _, _, rfl, ⟨q, rfl, hq1, hq2⟩, rfl⟩
    refine ⟨_, rfl, rfl, ?_⟩
    change (do return ScopedValue.contextValue (← pathOf flt [q]) : Except Err ScopedValue) = _
    rw [pathOf_one hq1 hq2]; rfl

theorem assertion_solid {f flt a} (h : PrintableAssertion f flt a) : Solid (a.display f) := by
  unfold ScopedAttributeAssertion.display
  simp only [List.append_assoc]
  exact (scoped_solid h.1).append _

theorem assertion_reads {f flt a rest} (h : PrintableAssertion f flt a) (hr : ∃ r, rest = ']' :: r ∨ rest = ' ' :: '&' :: r) :
    Reads selGrammar (.rule .scopedAssertion) (a.display f ++ rest) rest
      (fun ps => ∃ p, ps = [p] ∧ p.asRule = .scopedAssertion ∧ scopedAssertionOf flt p = .ok a) := by
  obtain ⟨l, c, vs, ci⟩ := a
  obtain ⟨h1, h2, h3, h4⟩ := h
  simp only at h1 h2 h3 h4
  have e : ScopedAttributeAssertion.display f ⟨l, c, vs, ci⟩ ++ rest =
      l.display f ++ ' ' :: (c.display ++ ' ' :: (joinWith %s", " (vs.map (·.display f)) ++ (caseSuffix ci ++ rest))) := by
    simp [ScopedAttributeAssertion.display]
  rw [e]
  have hs := joinWith_solid (sep := %s", ") (d := fun s => ScopedValue.display f s) h3 (fun a ha => scoped_solid (h4 a ha))
  have hv := values_reads (rd := scopedValueOf flt) (one := .scopedValue) (many := .scopedValues) (b := ci) rfl rfl (by decide) h3
    (fun a ha => scoped_solid (h4 a ha)) (fun a ha r hf => scoped_reads (h4 a ha) hf) hr
  have h5 := (scoped_reads (rest := ' ' :: (c.display ++ ' ' :: (joinWith %s", " (vs.map (·.display f)) ++ (caseSuffix ci ++ rest)))) h1
    (follow_cons (by decide))).andThen ((trim_space _).trans ((comparator_solid c).trim _))
    ((comparator_reads h2 _).andThen ((trim_space _).trans (hs.trim _)) hv)
  refine (selRule .scopedAssertion rfl h5).mono ?_
  rintro _ ⟨t, _, rfl, _, _, rfl, ⟨p, rfl, hp1, hp2⟩, _, q, rfl, ⟨p', rfl, hp3, hp4⟩, hq⟩
  refine ⟨_, rfl, rfl, ?_⟩
  change (do
    let v ← if p.asRule = SelRule.scopedValue then scopedValueOf flt p else unexpected
    let c ← comparatorOf p'
    let (vs, ci) ← valuesAndCase SelRule.scopedValues SelRule.scopedValue (scopedValueOf flt) q
    return (⟨v, c, vs, ci⟩ : ScopedAttributeAssertion) : Except Err ScopedAttributeAssertion) = _
  rw [if_pos hp1, hp2, hp4, hq]
  rfl

theorem assertions_reads {f flt rest} {as : List ScopedAttributeAssertion} (hne : as ≠ []) (h : ∀ a ∈ as, PrintableAssertion f flt a) :
    Reads selGrammar (.rule .scopedAssertions) (joinWith %s" && " (as.map (·.display f)) ++ ']' :: rest) (']' :: rest)
      (fun ps => ∃ q, ps = [q] ∧ q.asRule = .scopedAssertions ∧ each SelRule.scopedAssertion (scopedAssertionOf flt) q.intoInner = .ok as) := by
  have := Reads.sepBy (g := selGrammar) (x := .rule .scopedAssertion) (sep := %s"&&") (psep := %s" && ") (w := [' ']) (d := fun s => ScopedAttributeAssertion.display f s)
    (Q := fun s p => p.asRule = .scopedAssertion ∧ scopedAssertionOf flt p = .ok s) (F := fun rest => ∃ r, rest = ']' :: r ∨ rest = ' ' :: '&' :: r)
    (as := as) (rest := ']' :: rest) hne
    (fun a ha r hf => assertion_reads (h a ha) hf)
    (fun r => rfl)
    (fun a ha r => (trim_space _).trans ((assertion_solid (h a ha)).trim r))
    ⟨rest, .inl rfl⟩ (fun r => ⟨_, .inr rfl⟩) (.strFail rfl)
  refine (selRule .scopedAssertions rfl this).mono ?_
  rintro _ ⟨t, ps, rfl, hps⟩
  exact ⟨_, rfl, rfl, each_ok hps⟩

theorem scopedAttr_reads {f flt} {a : ScopedAttributeSelector} {rest} (hk : ∀ k, a.key = some k → PrintableKey f flt k)
    (hne : a.assertions ≠ []) (hc : ∀ c ∈ a.assertions, PrintableAssertion f flt c) :
    Reads selGrammar (.rule .scopedAttr) (a.display f ++ rest) rest (fun ps => ∃ q, ps = [q] ∧ q.asRule = .scopedAttr ∧ scopedAttrOf flt q = .ok a) := by
  obtain ⟨k, as⟩ := a
  simp only at hk hne hc
  have hs := joinWith_solid (sep := %s" && ") (d := fun s => ScopedAttributeAssertion.display f s) hne (fun a ha => assertion_solid (hc a ha))
  have hempty : as.isEmpty = false := by cases as with | nil => exact absurd rfl hne | cons => rfl
  have h1 := (Reads.str (g := selGrammar) (t := [':'])).andThen ((trim_space _).trans (hs.trim _))
      ((assertions_reads hne hc).andThen (trim_char _ _ rfl) (Reads.str (t := [']']) (rest := rest)))
  cases k with
  | none =>
    have e : ScopedAttributeSelector.display f ⟨none, as⟩ ++ rest = '[' :: '@' :: ':' :: ' ' :: (joinWith %s" && " (as.map (·.display f)) ++ ']' :: rest) := by
      simp [ScopedAttributeSelector.display]
    rw [e]
    have h0 := (Reads.optNone (g := selGrammar) (a := .rule .key)
      (rest := ':' :: ' ' :: (joinWith %s" && " (as.map (·.display f)) ++ ']' :: rest)) (run_sound (n := 20) rfl) (.inr rfl)).andThen (trim_char _ _ rfl) h1
    have h2 := (Reads.str (g := selGrammar) (t := ['[', '@'])).andThen (trim_char ':' _ rfl) h0
    refine (selRule .scopedAttr rfl h2).mono ?_
    rintro _ ⟨t, _, rfl, _, _, rfl, rfl, _, _, rfl, rfl, _, _, rfl, rfl, _, _, rfl, ⟨q, rfl, hq1, hq2⟩, rfl⟩
    refine ⟨_, rfl, rfl, ?_⟩
    obtain ⟨r, t', ps⟩ := q
    cases hq1
    change (do
      let as ← each SelRule.scopedAssertion (scopedAssertionOf flt) ps
      ScopedAttributeSelector.new none as : Except Err ScopedAttributeSelector) = _
    rw [show each SelRule.scopedAssertion (scopedAssertionOf flt) ps = _ from hq2]
    change ScopedAttributeSelector.new none as = _
    unfold ScopedAttributeSelector.new
    rw [hempty]; rfl
  | some k =>
    have hk := hk k rfl
    have e : ScopedAttributeSelector.display f ⟨some k, as⟩ ++ rest =
        '[' :: '@' :: (k.display f ++ ':' :: ' ' :: (joinWith %s" && " (as.map (·.display f)) ++ ']' :: rest)) := by
      simp [ScopedAttributeSelector.display]
    rw [e]
    have hfp : FollowPath (':' :: ' ' :: (joinWith %s" && " (as.map (·.display f)) ++ ']' :: rest)) :=
      ⟨follow_cons (by decide), fun c s' e => by rw [trim_char _ _ rfl] at e; injection e with e _; rw [← e]; decide⟩
    have h2 := (Reads.str (g := selGrammar) (t := ['[', '@'])).andThen ((key_solid hk).trim _)
      ((Reads.opt (key_reads hk hfp)).andThen (trim_char _ _ rfl) h1)
    refine (selRule .scopedAttr rfl h2).mono ?_
    rintro _ ⟨t, _, rfl, _, _, rfl, rfl, _, _, rfl, ⟨q', rfl, hq3, hq4⟩, _, _, rfl, rfl, _, _, rfl, ⟨q, rfl, hq1, hq2⟩, rfl⟩
    refine ⟨_, rfl, rfl, ?_⟩
    obtain ⟨r, t', ps⟩ := q
    obtain ⟨r', t'', ps'⟩ := q'
    cases hq1
    cases hq3
    change (do
      let (k, second) ← (do
        let k ← keyOf flt (.mk .key t'' ps')
        return (some k, Pair.mk .scopedAssertions t' ps) : Except Err (Option SelKey × Pair SelRule))
      let as ← if second.asRule = SelRule.scopedAssertions then each SelRule.scopedAssertion (scopedAssertionOf flt) second.intoInner else unexpected
      ScopedAttributeSelector.new k as : Except Err ScopedAttributeSelector) = _
    rw [hq4]
    change (do
      let as ← each SelRule.scopedAssertion (scopedAssertionOf flt) ps
      ScopedAttributeSelector.new (some k) as : Except Err ScopedAttributeSelector) = _
    rw [show each SelRule.scopedAssertion (scopedAssertionOf flt) ps = _ from hq2]
    change ScopedAttributeSelector.new (some k) as = _
    unfold ScopedAttributeSelector.new
    rw [hempty]; rfl

/-! ### Relationships -/

theorem names_reads {ns : List Str} {rest : Str} (h : NamesOver ns) :
    Reads selGrammar (.rule .directedRelationships) (joinWith %s", " ns ++ ']' :: rest) (']' :: rest)
      (fun ps => ∃ q, ps = [q] ∧ q.asRule = .directedRelationships ∧ each SelRule.identifier (fun p => Identifier.fromStr p.asStr) q.intoInner = .ok ns) := by
  have := Reads.sepBy (g := selGrammar) (x := .rule .identifier) (sep := [',']) (psep := [',', ' ']) (w := [' ']) (d := fun s : Str => s)
    (Q := fun s p => p.asRule = .identifier ∧ Identifier.fromStr p.asStr = .ok s) (F := Follow) (as := ns) (rest := ']' :: rest) h.1
    (fun a ha r hf => (ident_follow (h.2 a ha) hf).mono (by rintro _ rfl; exact ⟨_, rfl, rfl, fromStr_smithy (h.2 a ha)⟩))
    (fun r => rfl)
    (fun a ha r => (trim_space _).trans ((ident_solid (h.2 a ha)).trim r))
    (follow_cons (by decide)) (fun r => follow_cons (by decide)) (.strFail rfl)
  rw [List.map_id'] at this
  refine (selRule .directedRelationships rfl this).mono ?_
  rintro _ ⟨t, ps, rfl, hps⟩
  exact ⟨_, rfl, rfl, each_ok hps⟩

theorem names_solid {ns : List Str} (h : NamesOver ns) : Solid (joinWith %s", " ns) := by
  have := joinWith_solid (sep := %s", ") (d := fun s : Str => s) h.1 (fun a ha => ident_solid (h.2 a ha))
  rwa [List.map_id'] at this

theorem directed_reads {o c : Str} {ns : List Str} {rest : Str} (h : NamesOver ns) :
    Reads selGrammar (.str o ~> .rule .directedRelationships ~> .str (']' :: c)) (o ++ (joinWith %s", " ns ++ ']' :: (c ++ rest))) rest
      (fun ps => ∀ r t, directedOf (.mk r t ps) = .ok ns) := by
  have h1 := (Reads.str (g := selGrammar) (t := o)).andThen ((names_solid h).trim _)
    ((names_reads (rest := c ++ rest) h).andThen (trim_char _ _ rfl) (Reads.str (t := ']' :: c) (rest := rest)))
  refine h1.mono ?_
  rintro _ ⟨_, _, rfl, rfl, _, _, rfl, ⟨q, rfl, hq1, hq2⟩, rfl⟩ r t
  change (if q.asRule = SelRule.directedRelationships then each SelRule.identifier (fun p => Identifier.fromStr p.asStr) q.intoInner else unexpected) = _
  rw [if_pos hq1, hq2]

/-! ### Expressions and selectors -/

/-- What follows an expression. -/
def AfterExpression (rest : Str) : Prop := rest = [] ∨ ∃ s, rest = ' ' :: s ∨ rest = ',' :: s ∨ rest = ')' :: s

/-- What follows a selector. -/
def AfterSelector (rest : Str) : Prop := rest = [] ∨ ∃ s, rest = ',' :: s ∨ rest = ')' :: s

theorem AfterSelector.expression {rest : Str} (h : AfterSelector rest) : AfterExpression rest := by
  rcases h with h | ⟨s, h | h⟩
  · exact .inl h
  · exact .inr ⟨s, .inr (.inl h)⟩
  · exact .inr ⟨s, .inr (.inr h)⟩

theorem AfterExpression.follow {rest : Str} (h : AfterExpression rest) : Follow rest := by
  rcases h with rfl | ⟨s, rfl | rfl | rfl⟩
  · exact follow_nil
  · exact follow_cons (by decide)
  · exact follow_cons (by decide)
  · exact follow_cons (by decide)

theorem no_expression {rest : Str} (h : AfterSelector rest) : Parses selGrammar false (.rule .expression) (selGrammar.trim rest) none := by
  rcases h with rfl | ⟨s, rfl | rfl⟩
  · exact run_sound (n := 30) rfl
  · rw [trim_char _ _ rfl]; exact run_sound (n := 30) rfl
  · rw [trim_char _ _ rfl]; exact run_sound (n := 30) rfl

theorem displayExpressions_eq (f : Fmt) (s : Selector) : displayExpressions f s = s.map (·.display f) := by
  induction s with
  | nil => rfl
  | cons e es ih => simp [displayExpressions, ih]

theorem displayArguments_eq (f : Fmt) (s : List Selector) : displayArguments f s = s.map (Selector.display f) := by
  induction s with
  | nil => rfl
  | cons e es ih => simp [displayArguments, ih, Selector.display]

theorem expressionsOf_ok {flt : Str → Option F64} {as : Selector} {ps : List (Pair SelRule)}
    (h : List.Forall₂ (fun a p => p.asRule = .expression ∧ expressionOf flt p = .ok a) as ps) : expressionsOf flt ps = .ok as := by
  induction h with
  | nil => rfl
  | cons h _ ih => unfold expressionsOf; rw [if_pos h.1, h.2, ih]

theorem argumentList_ok {flt : Str → Option F64} {as : List Selector} {ps : List (Pair SelRule)}
    (h : List.Forall₂ (fun a p => selectorOf flt p = .ok a) as ps) : argumentList flt ps = .ok as := by
  induction h with
  | nil => rfl
  | cons h _ ih => unfold argumentList; rw [h, ih]

theorem expression_solid {f flt e} (h : PrintableExpression f flt e) : Solid (e.display f) := by
  cases h with
  | @shapeType t => cases t <;> exact ⟨_, _, rfl, rfl⟩
  | attr _ _ => exact ⟨'[', _, rfl, rfl⟩
  | scopedAttr _ _ _ => exact ⟨'[', _, rfl, rfl⟩
  | forward => exact ⟨_, _, rfl, rfl⟩
  | reverse => exact ⟨_, _, rfl, rfl⟩
  | recursive => exact ⟨_, _, rfl, rfl⟩
  | forwardDirected _ => exact ⟨'-', _, rfl, rfl⟩
  | reverseDirected _ => exact ⟨'<', _, rfl, rfl⟩
  | function _ _ _ => exact ⟨':', _, rfl, rfl⟩
  | define _ _ => exact ⟨'$', _, rfl, rfl⟩
  | refer _ => exact ⟨'$', _, rfl, rfl⟩

theorem selector_of_expressions {f flt} {s : Selector} (hne : s ≠ []) (hp : ∀ e ∈ s, PrintableExpression f flt e)
    (h : ∀ e ∈ s, ∀ r, AfterExpression r → Reads selGrammar (.rule .expression) (e.display f ++ r) r
      (fun ps => ∃ p, ps = [p] ∧ p.asRule = .expression ∧ expressionOf flt p = .ok e)) {rest : Str} (hr : AfterSelector rest) :
    Reads selGrammar (.rule .selector) (Selector.display f s ++ rest) rest (fun ps => ∃ p, ps = [p] ∧ p.asRule = .selector ∧ selectorOf flt p = .ok s) := by
  have := Reads.list (g := selGrammar) (x := .rule .expression) (y := .rule .expression) (psep := [' ']) (d := fun s => SelectorExpression.display f s)
    (Q := fun s p => p.asRule = .expression ∧ expressionOf flt p = .ok s) (F := AfterExpression) (as := s) (rest := rest) hne h
    (fun a ha r hf => by
      rw [show selGrammar.trim ([' '] ++ (SelectorExpression.display f a ++ r)) = _ from (trim_space _).trans ((expression_solid (hp a ha)).trim r)]
      exact h a ha r hf)
    hr.expression (fun r => .inr ⟨r, .inl rfl⟩) (no_expression hr)
  unfold Selector.display
  rw [displayExpressions_eq]
  refine (selRule .selector rfl this).mono ?_
  rintro _ ⟨t, ps, rfl, hps⟩
  exact ⟨_, rfl, rfl, expressionsOf_ok hps⟩

theorem shapeType_reads {t : ShapeType} {rest : Str} (hr : Follow rest) :
    Reads selGrammar (.rule .shapeTypes) (t.display ++ rest) rest (fun ps => ∃ p, ps = [p] ∧ p.asRule = .shapeTypes ∧ shapeTypesOf p = .ok t) := by
  by_cases ht : t = .any
  · subst ht
    refine (selRule .shapeTypes rfl (Reads.choiceL (Reads.str (t := ['*']) (rest := rest)))).mono ?_
    rintro _ ⟨t, _, rfl, rfl⟩
    exact ⟨_, rfl, rfl, rfl⟩
  · have hi : SmithyIdent t.display := by
      cases t with
      | any => exact absurd rfl ht
      | _ => exact .plain (by decide) (by decide)
    have hstar : Parses selGrammar false (.str ['*']) (t.display ++ rest) none := by
      refine strFail_head fun c s' e => ?_
      obtain ⟨c', r, h1, h2⟩ := ident_head hi
      rw [h1] at e; injection e with e _; rw [← e]; exact identHead_ne h2 _ (by decide) (by decide)
    refine (selRule .shapeTypes rfl (Reads.choiceR hstar (ident_follow hi hr))).mono ?_
    rintro _ ⟨t', _, rfl, rfl⟩
    refine ⟨_, rfl, rfl, ?_⟩
    cases t with
    | any => exact absurd rfl ht
    | _ => rfl

theorem expressionOf_one {flt : Str → Option F64} {e : SelectorExpression} {q : Pair SelRule} (h : innerOf flt q = .ok e) :
    ∀ ps : List (Pair SelRule), (∃ t ps', ps = [.mk .expression t ps'] ∧ ps' = [q]) →
      ∃ p : Pair SelRule, ps = [p] ∧ p.asRule = .expression ∧ expressionOf flt p = .ok e := by
  rintro _ ⟨t, _, rfl, rfl⟩
  exact ⟨_, rfl, rfl, h⟩

theorem not_open {rest : Str} : ∀ c s', '(' :: rest = c :: s' → identRest c = false := fun c s' e => by
  injection e with e _; rw [← e]; decide

/-- Every expression smaller than `n` is read back. -/
theorem expression_reads {f : Fmt} {flt : Str → Option F64} (n : Nat) : ∀ e : SelectorExpression, sizeOf e < n → PrintableExpression f flt e → ∀ rest, AfterExpression rest →
    Reads selGrammar (.rule .expression) (e.display f ++ rest) rest (fun ps => ∃ p, ps = [p] ∧ p.asRule = .expression ∧ expressionOf flt p = .ok e) := by
  induction n with
  | zero => intro e h; exact absurd h (Nat.not_lt_zero _)
  | succ n ih =>
    intro e hsz h rest hr
    have hsel : ∀ s : Selector, sizeOf s < n → PrintableSelector f flt s → ∀ rest, AfterSelector rest →
        Reads selGrammar (.rule .selector) (Selector.display f s ++ rest) rest (fun ps => ∃ p, ps = [p] ∧ p.asRule = .selector ∧ selectorOf flt p = .ok s) := by
      intro s hs hp rest hr
      cases hp with
      | mk hne hp =>
        exact selector_of_expressions hne hp (fun e he r hr' => ih e (Nat.lt_trans (List.sizeOf_lt_of_mem he) hs) (hp e he) r hr') hr
    have ssolid : ∀ s : Selector, PrintableSelector f flt s → Solid (Selector.display f s) := by
      intro s hp
      cases hp with
      | mk hne hp =>
        unfold Selector.display
        rw [displayExpressions_eq]
        exact joinWith_solid hne (fun a ha => expression_solid (hp a ha))
    cases h with
    | @shapeType t =>
      refine (selRule .expression rfl (Reads.choiceL (shapeType_reads hr.follow))).mono ?_
      rintro _ ⟨t', _, rfl, p, rfl, h1, h2⟩
      refine ⟨_, rfl, rfl, ?_⟩
      obtain ⟨r, t'', ps⟩ := p
      cases h1
      change (shapeTypesOf _).map _ = _
      rw [h2]; rfl
    | @attr a hk hc =>
      refine (selRule .expression rfl (Reads.choiceR ?_ (Reads.choiceL (attr_reads hk hc)))).mono ?_
      · exact run_sound (n := 20) rfl
      · rintro _ ⟨t', _, rfl, p, rfl, h1, h2⟩
        refine ⟨_, rfl, rfl, ?_⟩
        obtain ⟨r, t'', ps⟩ := p
        cases h1
        change (attrOf flt _).map _ = _
        rw [h2]; rfl
    | @scopedAttr a hk hne hc =>
      refine (selRule .expression rfl (Reads.choiceR ?_ (Reads.choiceR ?_ (Reads.choiceL (scopedAttr_reads hk hne hc))))).mono ?_
      · exact run_sound (n := 20) rfl
      · obtain ⟨k, as⟩ := a
        cases k <;> exact run_sound (n := 20) rfl
      · rintro _ ⟨t', _, rfl, p, rfl, h1, h2⟩
        refine ⟨_, rfl, rfl, ?_⟩
        obtain ⟨r, t'', ps⟩ := p
        cases h1
        change (scopedAttrOf flt _).map _ = _
        rw [h2]; rfl
    | forward => exact ⟨['>'], rest, [.mk .expression ['>'] [.mk .forwardUndirected ['>'] []]], run_sound (n := 30) rfl, .inl rfl, _, rfl, rfl, rfl⟩
    | reverse =>
      refine ⟨['<'], rest, [.mk .expression ['<'] [.mk .reverseUndirected ['<'] []]], ?_, .inl rfl, _, rfl, rfl, rfl⟩
      rcases hr with rfl | ⟨s, rfl | rfl | rfl⟩ <;> exact run_sound (n := 30) rfl
    | recursive => exact ⟨%s"~>", rest, [.mk .expression %s"~>" [.mk .forwardRecursive %s"~>" []]], run_sound (n := 30) rfl, .inl rfl, _, rfl, rfl, rfl⟩
    | @forwardDirected ns hn =>
      have e : SelectorExpression.display f (.neighborSelector (.forwardDirected ns)) ++ rest = %s"-[" ++ (joinWith %s", " ns ++ ']' :: (%s"->" ++ rest)) := by
        simp [SelectorExpression.display, NeighborSelector.display]
      rw [e]
      have h1 := selRule .forwardDirected rfl (directed_reads (o := %s"-[") (c := %s"->") (rest := rest) hn)
      refine (selRule .expression rfl (Reads.choiceR ?_ (Reads.choiceR ?_ (Reads.choiceR ?_ (Reads.choiceR ?_ (Reads.choiceL h1)))))).mono ?_
      · exact run_sound (n := 20) rfl
      · exact run_sound (n := 20) rfl
      · exact run_sound (n := 20) rfl
      · exact run_sound (n := 20) rfl
      · rintro _ ⟨t', _, rfl, t2, ps, rfl, h2⟩
        refine ⟨_, rfl, rfl, ?_⟩
        change (directedOf _).map _ = _
        rw [h2]; rfl
    | @reverseDirected ns hn =>
      have e : SelectorExpression.display f (.neighborSelector (.reverseDirected ns)) ++ rest = %s"<-[" ++ (joinWith %s", " ns ++ ']' :: (%s"-" ++ rest)) := by
        simp [SelectorExpression.display, NeighborSelector.display]
      rw [e]
      have h1 := selRule .reverseDirected rfl (directed_reads (o := %s"<-[") (c := %s"-") (rest := rest) hn)
      refine (selRule .expression rfl (Reads.choiceR ?_ (Reads.choiceR ?_ (Reads.choiceR ?_ (Reads.choiceR ?_ (Reads.choiceR ?_ (Reads.choiceL h1))))))).mono ?_
      · exact run_sound (n := 20) rfl
      · exact run_sound (n := 20) rfl
      · exact run_sound (n := 20) rfl
      · exact run_sound (n := 20) rfl
      · exact run_sound (n := 20) rfl
      · rintro _ ⟨t', _, rfl, t2, ps, rfl, h2⟩
        refine ⟨_, rfl, rfl, ?_⟩
        change (directedOf _).map _ = _
        rw [h2]; rfl
    | @function nm args hn hne ha =>
      have e : SelectorExpression.display f (.function nm args) ++ rest = ':' :: (nm ++ '(' :: (joinWith %s", " (args.map (Selector.display f)) ++ ')' :: rest)) := by
        simp [SelectorExpression.display, displayArguments_eq]
      rw [e]
      have hs := joinWith_solid (sep := %s", ") (d := Selector.display f) hne (fun a hm => ssolid a (ha a hm))
      have hlt : ∀ a ∈ args, sizeOf a < n := by
        intro a hm
        have := List.sizeOf_lt_of_mem hm
        simp only [SelectorExpression.function.sizeOf_spec] at hsz
        omega
      have h1 := Reads.sepBy (g := selGrammar) (x := .rule .selector) (sep := [',']) (psep := [',', ' ']) (w := [' ']) (d := Selector.display f)
        (Q := fun s p => p.asRule = .selector ∧ selectorOf flt p = .ok s) (F := AfterSelector) (as := args) (rest := ')' :: rest) hne
        (fun a hm r hf => hsel a (hlt a hm) (ha a hm) r hf)
        (fun r => rfl)
        (fun a hm r => (trim_space _).trans ((ssolid a (ha a hm)).trim r))
        (.inr ⟨rest, .inr rfl⟩) (fun r => .inr ⟨_, .inl rfl⟩) (.strFail rfl)
      have h2 := (Reads.str (g := selGrammar) (t := ['('])).andThen (hs.trim _)
        ((selRule .functionArgs rfl h1).andThen (trim_char _ _ rfl) (Reads.str (t := [')'])))
      have h3 := (Reads.str (g := selGrammar) (t := [':'])).andThen ((ident_solid hn).trim _)
        ((ident_reads hn not_open).andThen (trim_char _ _ rfl) h2)
      refine (selRule .expression rfl (Reads.choiceR ?_ (Reads.choiceR ?_ (Reads.choiceR ?_ (Reads.choiceL (selRule .function rfl h3)))))).mono ?_
      · exact run_sound (n := 20) rfl
      · exact run_sound (n := 20) rfl
      · exact run_sound (n := 20) rfl
      · rintro _ ⟨t', _, rfl, t2, _, rfl, _, _, rfl, rfl, _, _, rfl, rfl, _, _, rfl, rfl, _, _, rfl, ⟨t3, ps, rfl, hps⟩, rfl⟩
        refine ⟨_, rfl, rfl, ?_⟩
        have hal : argumentList flt ps = .ok args := argumentList_ok (hps.imp (fun a b h => h.2))
        have hempty : args.isEmpty = false := by cases args with | nil => exact absurd rfl hne | cons => rfl
        change functionOf flt [.mk .identifier nm [], .mk .functionArgs t3 ps] = _
        have hrest : functionRest flt [.mk .functionArgs t3 ps] = .ok args := hal
        unfold functionOf
        rw [show nameOf (.mk .identifier nm []) = .ok nm from fromStr_smithy hn, hrest]
        change SelectorExpression.newFunction nm args = _
        unfold SelectorExpression.newFunction
        rw [hempty]; rfl
    | @define nm s hn hs =>
      have e : SelectorExpression.display f (.variableDefinition nm s) ++ rest = '$' :: (nm ++ '(' :: (Selector.display f s ++ ')' :: rest)) := by
        simp [SelectorExpression.display, Selector.display]
      rw [e]
      have hlt : sizeOf s < n := by
        simp only [SelectorExpression.variableDefinition.sizeOf_spec] at hsz
        omega
      have h2 := (Reads.str (g := selGrammar) (t := ['('])).andThen ((ssolid s hs).trim _)
        ((hsel s hlt hs (')' :: rest) (.inr ⟨rest, .inr rfl⟩)).andThen (trim_char _ _ rfl) (Reads.str (t := [')'])))
      have h3 := (Reads.str (g := selGrammar) (t := ['$'])).andThen ((ident_solid hn).trim _)
        ((ident_reads hn not_open).andThen (trim_char _ _ rfl) h2)
      refine (selRule .expression rfl (Reads.choiceR ?_ (Reads.choiceR ?_ (Reads.choiceR ?_ (Reads.choiceR ?_ (Reads.choiceR ?_ (Reads.choiceR ?_
        (Reads.choiceR ?_ (Reads.choiceR ?_ (Reads.choiceR ?_ (Reads.choiceL (selRule .variableSet rfl h3)))))))))))).mono ?_
      iterate 9 exact run_sound (n := 20) rfl
      · rintro _ ⟨t', _, rfl, t2, _, rfl, _, _, rfl, rfl, _, _, rfl, rfl, _, _, rfl, rfl, _, _, rfl, ⟨p, rfl, hp1, hp2⟩, rfl⟩
        refine ⟨_, rfl, rfl, ?_⟩
        change variableSetOf flt [.mk .identifier nm [], p] = _
        unfold variableSetOf
        rw [show nameOf (.mk .identifier nm []) = .ok nm from fromStr_smithy hn, show variableRest flt [p] = .ok s from hp2]
    | @refer nm hn =>
      have e : SelectorExpression.display f (.variableReference nm) ++ rest = '$' :: '{' :: (nm ++ '}' :: rest) := by
        simp [SelectorExpression.display]
      rw [e]
      have h3 := (Reads.str (g := selGrammar) (t := ['$', '{'])).andThen ((ident_solid hn).trim _)
        ((ident_follow (rest := '}' :: rest) hn (follow_cons (by decide))).andThen (trim_char _ _ rfl) (Reads.str (t := ['}'])))
      refine (selRule .expression rfl (Reads.choiceR ?_ (Reads.choiceR ?_ (Reads.choiceR ?_ (Reads.choiceR ?_ (Reads.choiceR ?_ (Reads.choiceR ?_
        (Reads.choiceR ?_ (Reads.choiceR ?_ (Reads.choiceR ?_ (Reads.choiceR ?_ (selRule .variableGet rfl h3)))))))))))).mono ?_
      iterate 10 exact run_sound (n := 20) rfl
      · rintro _ ⟨t', _, rfl, t2, _, rfl, _, _, rfl, rfl, _, _, rfl, rfl, rfl⟩
        refine ⟨_, rfl, rfl, ?_⟩
        change (do return SelectorExpression.variableReference (← nameOf (.mk .identifier nm [])) : Except Err SelectorExpression) = _
        rw [show nameOf (.mk .identifier nm []) = .ok nm from fromStr_smithy hn]
        rfl

theorem selector_reads {f flt} {s : Selector} (h : PrintableSelector f flt s) {rest : Str} (hr : AfterSelector rest) :
    Reads selGrammar (.rule .selector) (Selector.display f s ++ rest) rest (fun ps => ∃ p, ps = [p] ∧ p.asRule = .selector ∧ selectorOf flt p = .ok s) := by
  cases h with
  | mk hne hp => exact selector_of_expressions hne hp (fun e he r hr' => expression_reads (sizeOf e + 1) e (Nat.lt_succ_self _) (hp e he) r hr') hr

end Verif
