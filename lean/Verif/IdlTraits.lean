/-
Traits and members of the Smithy IDL.
-/
import Verif.IdlNodes
import Verif.SelectorRoundTrip
import Verif.BuilderProps

namespace Verif
open Peg Spec IdlGrammar

/-! ### Names -/

theorem shapeName_ident {n : Str} (h : SmithyIdent n) : ShapeName.fromStr n = .ok (.local' n) :=
  ((C24_name_syntax n).2.2.1 n).mpr ⟨rfl, (isIdent_iff n).mp (isIdent_of_smithy h)⟩

theorem smithyId_fromStr {id : ShapeID} (h : SmithyId id) : ShapeID.fromStr id.display = .ok id :=
  ShapeID.fromStr_display ⟨namespace_valid h.ns, (isIdent_iff _).mp (isIdent_of_smithy h.name), fun m hm => by rw [h.member] at hm; cases hm⟩

theorem shapeName_id {id : ShapeID} (h : SmithyId id) : ShapeName.fromStr id.display = .ok (.qualified id) :=
  ((C24_name_syntax id.display).2.1 id).mpr (smithyId_fromStr h)

theorem smithyId_display {id : ShapeID} (h : SmithyId id) : id.display = id.ns ++ '#' :: id.name := by
  unfold ShapeID.display; rw [h.member]; simp

theorem smithyId_text {id : ShapeID} (h : SmithyId id) : IdText id.display := by
  rw [smithyId_display h]; exact .absolute h.ns h.name

/-- How a trait is referred to. -/
def traitRef (ns : Str) (id : ShapeID) : ShapeName :=
  if identEq id.ns ns || identEq id.ns preludeNs then .local' id.name else .qualified id

/-- The trait builder for a trait in the text. -/
def traitBuilder (ns : Str) (e : ShapeID × TraitValue) : TraitBuilder := ⟨traitRef ns e.1, some (keptValue e.2)⟩

theorem identEq_sameName {a b : Str} : identEq a b = true ↔ SameName a b := by
  unfold identEq SameName; exact beq_iff_eq

theorem traitName_text {f : Fmt} {flt : Str → Option F64} {m : Model} {ns : Str} {id : ShapeID} {v : TraitValue}
    (h : WritableTrait f flt m ns id v) :
    IdText (IdlWriter.traitName ns id) ∧ ShapeName.fromStr (IdlWriter.traitName ns id) = .ok (traitRef ns id) := by
  unfold IdlWriter.traitName traitRef
  by_cases hc : identEq id.ns ns = true ∨ identEq id.ns preludeNs = true
  · have hc' : (identEq id.ns ns || identEq id.ns preludeNs) = true := by simpa using hc
    rw [if_pos hc', if_pos hc']
    have := (h.short (hc.imp identEq_sameName.mp identEq_sameName.mp)).1
    exact ⟨.name this, shapeName_ident this⟩
  · have hc' : ¬ (identEq id.ns ns || identEq id.ns preludeNs) = true := by simpa using hc
    rw [if_neg hc', if_neg hc']
    have := h.full (fun hs => hc (hs.imp identEq_sameName.mpr identEq_sameName.mpr))
    exact ⟨smithyId_text this, shapeName_id this⟩

/-! ### The body of a trait -/

/-- The pairs of a structure in a trait. -/
def KvpPair (flt : Str → Option F64) (e : Str × Value) (p : Pair IdlRule) : Prop :=
  p.asRule = .traitStructureKvp ∧ IdlParser.structureKvp flt none none p.intoInner = .ok e

theorem structureKvp_eats {flt : Str → Option F64} {k t : Str} {v : Value} {rest : Str} (hk : SmithyIdent k) (ht : NodeText flt t v)
    (hr : ValueEnd rest) :
    Eats (r .traitStructureKvp) (k ++ (':' :: ' ' :: (t ++ rest))) rest (fun ps => ∃ p, ps = [p] ∧ KvpPair flt (k, v) p) := by
  refine (Eats.normal (r := .traitStructureKvp) rfl (keyed_eats hk ht hr)).mono ?_
  rintro _ ⟨t, _, rfl, p, rfl, h1, h2⟩
  obtain ⟨rl, t', ps'⟩ := p
  cases h1
  refine ⟨_, rfl, rfl, ?_⟩
  simp only [IdlParser.structureKvp, Pair.intoInner, Pair.asRule, Pair.asStr, h2]
  rfl

theorem structure_eats {α : Type} {flt : Str → Option F64} {key d : α → Str} {val : α → Value} {as : List α} {rest : Str} (hne : as ≠ [])
    (hk : ∀ a ∈ as, SmithyIdent (key a)) (hd : ∀ a ∈ as, NodeText flt (d a) (val a)) :
    Eats (r .traitStructure) (joinWith %s", " (as.map fun a => key a ++ (':' :: ' ' :: d a)) ++ ')' :: rest) (')' :: rest)
      (List.Forall₂ (fun a => KvpPair flt (key a, val a)) as) := by
  have hend : Parses idlGrammar false (r .ws ~> r .traitStructureKvp) (')' :: rest) none := fails 20 (by decide)
  have tail : ∀ as' : List α, (∀ a ∈ as', a ∈ as) →
      Eats (.rep (r .ws ~> r .traitStructureKvp)) (as'.flatMap (fun a => %s", " ++ (key a ++ (':' :: ' ' :: d a))) ++ ')' :: rest) (')' :: rest)
        (List.Forall₂ (fun a => KvpPair flt (key a, val a)) as') ∧ ValueEnd (as'.flatMap (fun a => %s", " ++ (key a ++ (':' :: ' ' :: d a))) ++ ')' :: rest) := by
    intro as'
    induction as' with
    | nil =>
      intro _
      refine ⟨(Eats.repNil hend).mono ?_, valueEnd_cons (by decide)⟩
      rintro _ rfl
      exact .nil
    | cons a as' ih =>
      intro hin
      obtain ⟨h1, h2⟩ := ih fun b hb => hin b (by simp [hb])
      have ha := hin a (by simp)
      have h3 := structureKvp_eats (hk a ha) (hd a ha) h2
      refine ⟨?_, valueEnd_cons (by decide)⟩
      have e : (a :: as').flatMap (fun a => %s", " ++ (key a ++ (':' :: ' ' :: d a))) ++ ')' :: rest =
          %s", " ++ (key a ++ (':' :: ' ' :: (d a ++ (as'.flatMap (fun a => %s", " ++ (key a ++ (':' :: ' ' :: d a))) ++ ')' :: rest)))) := by simp
      rw [e]
      refine (((ws_eats white_comma (solid_ident (hk a ha) _)).seqL h3).repCons h1).mono ?_
      rintro _ ⟨_, _, rfl, ⟨p, rfl, hp⟩, hq⟩
      exact .cons hp hq
  have hjoin : ∀ a (as : List α), joinWith %s", " ((a :: as).map fun a => key a ++ (':' :: ' ' :: d a)) =
      key a ++ (':' :: ' ' :: d a) ++ as.flatMap (fun a => %s", " ++ (key a ++ (':' :: ' ' :: d a))) := by
    intro a as
    induction as generalizing a with
    | nil => simp [joinWith]
    | cons b bs ih =>
      have := ih b
      simp only [List.map_cons] at this
      simp only [List.map_cons, joinWith, this, List.flatMap_cons, List.append_assoc]
  cases as with
  | nil => exact absurd rfl hne
  | cons a as =>
    obtain ⟨h1, h2⟩ := tail as (fun b hb => by simp [hb])
    have h3 := structureKvp_eats (hk a (by simp)) (hd a (by simp)) h2
    have e : joinWith %s", " ((a :: as).map fun a => key a ++ (':' :: ' ' :: d a)) ++ ')' :: rest =
        key a ++ (':' :: ' ' :: (d a ++ (as.flatMap (fun a => %s", " ++ (key a ++ (':' :: ' ' :: d a))) ++ ')' :: rest))) := by
      rw [hjoin]; simp
    rw [e]
    refine ((h3.seq h1).silent (r := .traitStructure) rfl).mono ?_
    rintro _ ⟨_, _, rfl, ⟨p, rfl, hp⟩, hq⟩
    exact .cons hp hq

/-- One thing in parentheses. -/
theorem parens_eats {t rest : Str} {Q : List (Pair IdlRule) → Prop} (hs : Solid' (t ++ ')' :: rest))
    (h : Eats (r .traitBodyValue) (t ++ ')' :: rest) (')' :: rest) Q) : Eats (r .traitBody) ('(' :: (t ++ ')' :: rest)) rest Q := by
  refine .silent rfl ((Eats.str (t := ['('])).seqL ((ws_none hs).seqL (Eats.seqR (rest1 := ')' :: rest) ?_ (Eats.str (t := [')'])))))
  refine ((h.seqR (ws_none (solid_cons (by decide)))).repCons (.repNil (fails 24 (by decide)))).mono ?_
  rintro _ ⟨_, _, rfl, hq, rfl⟩
  simpa using hq

/-- No structure starts where a value stands. -/
theorem notKvp {f : Fmt} {flt : Str → Option F64} {v : Value} {rest : Str} (h : WritableValue f flt v) (hv : ∀ o, v ≠ .object o) :
    Parses idlGrammar false (r .traitStructure) (IdlWriter.value f false v ++ ')' :: rest) none := by
  have hkey : ∀ {t u : Str} {Q}, Eats (r .nodeObjectKey) (t ++ ')' :: u) (')' :: u) Q →
      Parses idlGrammar false (r .traitStructure) (t ++ ')' :: u) none := by
    intro t u Q hq
    refine failsSilent rfl (.seqFail1 (failsNormal rfl (failsSeq hq (failsSeq (ws_none (solid_cons (by decide))) (.seqFail1 ?_)))))
    exact fails 4 (by decide)
  cases h with
  | array => exact fails 20 (by decide)
  | object => exact absurd rfl (hv _)
  | @integer n hn =>
    obtain ⟨sign, int, h1, h2, e⟩ := showInt_parts n
    obtain ⟨c, x, e', hc⟩ := number_head (x := ')' :: rest) h1 h2
    change Parses idlGrammar false (r .traitStructure) (showInt n ++ ')' :: rest) none
    rw [e, e']
    have : ∀ c ∈ numberHeads, (!mayBeEmpty null (r .traitStructure) && (bounded null rank 32 (r .traitStructure) && !starts 20 (r .traitStructure) c)) = true := by
      decide
    exact fails 20 (this c (mem_numberHeads hc))
  | @float x h1 h2 =>
    obtain ⟨sign, int, frac, hs, hi, hf, e⟩ := h1
    obtain ⟨c, y, e', hc⟩ := number_head (x := '.' :: frac ++ ')' :: rest) hs hi
    change Parses idlGrammar false (r .traitStructure) (f.float x ++ ')' :: rest) none
    rw [e, List.append_assoc, e']
    have : ∀ c ∈ numberHeads, (!mayBeEmpty null (r .traitStructure) && (bounded null rank 32 (r .traitStructure) && !starts 20 (r .traitStructure) c)) = true := by
      decide
    exact fails 20 (this c (mem_numberHeads hc))
  | @boolean b =>
    cases b with
    | true => exact hkey (key_eats (k := %s"true") (.plain (by decide) (by decide)) (nameEnd_cons (by decide)))
    | false => exact hkey (key_eats (k := %s"false") (.plain (by decide) (by decide)) (nameEnd_cons (by decide)))
  | @string s h =>
    change Parses idlGrammar false (r .traitStructure) (f.debug s ++ ')' :: rest) none
    rw [h.2]
    have e : '"' :: s ++ ['"'] ++ ')' :: rest = '"' :: s ++ '"' :: ')' :: rest := by simp
    have q := quoted_eats (rest := ')' :: rest) (fun c hc => plainChar_of (h.1 c hc))
    rw [← e] at q
    exact hkey (.silent rfl (.choiceL q))

/-- The text of a trait. -/
def traitText (f : Fmt) (ns : Str) (e : ShapeID × TraitValue) : Str :=
  '@' :: (IdlWriter.traitName ns e.1 ++ (match e.2 with | none => [] | some v => '(' :: (IdlWriter.value f true v ++ [')'])))

theorem trait_eq (f : Fmt) (ns pre : Str) (e : ShapeID × TraitValue) : IdlWriter.trait f ns pre e = pre ++ (traitText f ns e ++ ['\n']) := by
  obtain ⟨id, v⟩ := e
  cases v <;> simp [IdlWriter.trait, traitText]

theorem traitParts_kvps {flt : Str → Option F64} {es : List (Str × Value)} {ps : List (Pair IdlRule)} (h : List.Forall₂ (KvpPair flt) es ps)
    (id : Option Str) (value : Option Value) (members : AMap Str Value) :
    IdlParser.traitParts flt id value members ps = .ok (id, value, es.foldl (fun m e => AMap.insert m e.1 e.2) members) := by
  induction h generalizing members with
  | nil => rfl
  | @cons e p es ps h _ ih =>
    obtain ⟨k, v⟩ := e
    obtain ⟨rl, t, inner⟩ := p
    obtain ⟨h1, h2⟩ := h
    cases h1
    simp only [IdlParser.traitParts, Pair.asRule, h2]
    exact ih _

theorem trait_eats {f : Fmt} {flt : Str → Option F64} {m : Model} {ns : Str} {id : ShapeID} {v : TraitValue} {rest : Str}
    (h : WritableTrait f flt m ns id v) :
    Eats (r .aTrait) (traitText f ns (id, v) ++ '\n' :: rest) ('\n' :: rest)
      (fun ps => ∃ p, ps = [p] ∧ p.asRule = .aTrait ∧ IdlParser.traitOf flt p = .ok (traitBuilder ns (id, v))) := by
  obtain ⟨hid, hname⟩ := traitName_text h
  -- the end: what is read, given the pairs of the body
  have fin : ∀ {s : Str} {Q : List (Pair IdlRule) → Prop}, NameEnd s → Eats (.opt (r .traitBody)) s ('\n' :: rest) Q →
      (∀ ps, Q ps → ∃ value members, IdlParser.traitParts flt (some (IdlWriter.traitName ns id)) none [] ps =
          .ok (some (IdlWriter.traitName ns id), value, members) ∧
        ((value = none ∧ keptValue v = .object members) ∨ (value = some (keptValue v) ∧ members = []))) →
      Eats (r .aTrait) ('@' :: (IdlWriter.traitName ns id ++ s)) ('\n' :: rest)
        (fun ps => ∃ p, ps = [p] ∧ p.asRule = .aTrait ∧ IdlParser.traitOf flt p = .ok (traitBuilder ns (id, v))) := by
    intro s Q hs he hq
    refine (Eats.normal (r := .aTrait) rfl ((Eats.str (t := ['@'])).seqL ((shapeId_eats hid hs).seq he))).mono ?_
    rintro _ ⟨t, _, rfl, _, ps, rfl, rfl, hps⟩
    refine ⟨_, rfl, rfl, ?_⟩
    obtain ⟨value, members, h1, h2⟩ := hq ps hps
    have h3 : IdlParser.traitParts flt none none [] ([Pair.mk .shapeId (IdlWriter.traitName ns id) []] ++ ps) =
        .ok (some (IdlWriter.traitName ns id), value, members) := h1
    unfold IdlParser.traitOf
    simp only [Pair.intoInner, h3]
    rcases h2 with ⟨rfl, h2⟩ | ⟨rfl, rfl⟩
    · change TraitBuilder.withValue _ _ = _
      unfold TraitBuilder.withValue
      rw [hname, ← h2]
      rfl
    · change TraitBuilder.withValue _ _ = _
      unfold TraitBuilder.withValue
      rw [hname]
      rfl
  have empty : Eats (r .traitBody) ('(' :: ')' :: '\n' :: rest) ('\n' :: rest) (· = []) :=
    .silent rfl ((Eats.str (t := ['('])).seqL ((ws_none (solid_cons (by decide))).seqL
      ((Eats.repNil (fails 24 (by decide))).seqL (Eats.str (t := [')'])))))
  have paren : ∀ {t : Str} {Q : List (Pair IdlRule) → Prop}, Eats (r .traitBody) ('(' :: (t ++ ')' :: '\n' :: rest)) ('\n' :: rest) Q →
      (∀ ps, Q ps → ∃ value members, IdlParser.traitParts flt (some (IdlWriter.traitName ns id)) none [] ps =
          .ok (some (IdlWriter.traitName ns id), value, members) ∧
        ((value = none ∧ keptValue v = .object members) ∨ (value = some (keptValue v) ∧ members = []))) →
      Eats (r .aTrait) ('@' :: (IdlWriter.traitName ns id ++ '(' :: (t ++ [')'])) ++ '\n' :: rest) ('\n' :: rest)
        (fun ps => ∃ p, ps = [p] ∧ p.asRule = .aTrait ∧ IdlParser.traitOf flt p = .ok (traitBuilder ns (id, v))) := by
    intro t Q he hq
    have := fin (s := '(' :: (t ++ ')' :: '\n' :: rest)) (nameEnd_cons (by decide)) (.opt he) hq
    simpa using this
  cases v with
  | none =>
    have := fin (s := '\n' :: rest) (nameEnd_cons (by decide)) (.optNone (fails 8 (by decide)))
      (by rintro _ rfl; exact ⟨none, [], rfl, .inl ⟨rfl, rfl⟩⟩)
    simpa [traitText] using this
  | some x =>
    unfold traitText
    rcases h.value x rfl with rfl | hx
    · exact paren (t := []) empty (by rintro _ rfl; exact ⟨none, [], rfl, .inl ⟨rfl, rfl⟩⟩)
    · by_cases ho : ∃ o, x = .object o
      · obtain ⟨es, rfl⟩ := ho
        cases hx with
        | object hw hk hv =>
          have ev : IdlWriter.value f true (.object es) = joinWith %s", " (es.map fun e => e.1 ++ (':' :: ' ' :: IdlWriter.value f false e.2)) := by
            simp [IdlWriter.value, entries_eq]
          simp only [ev]
          by_cases hes : es = []
          · subst hes
            exact paren (t := []) empty (by rintro _ rfl; exact ⟨none, [], rfl, .inl ⟨rfl, rfl⟩⟩)
          · have hst := structure_eats (rest := '\n' :: rest) (as := es) (key := fun e => e.1) (d := fun e => IdlWriter.value f false e.2)
              (val := fun e => e.2) hes hk (fun e he => value_text (hv e he))
            refine paren (parens_eats ?_ (.silent rfl (.choiceL hst))) ?_
            · cases es with
              | nil => exact absurd rfl hes
              | cons e es =>
                have : Solid' (joinWith %s", " ((e :: es).map fun e => e.1 ++ (':' :: ' ' :: IdlWriter.value f false e.2)) ++ ')' :: '\n' :: rest) := by
                  obtain ⟨c, x, ex, hc⟩ := (IdText.name (hk e (by simp))).head
                  have hn : ∀ c ∈ identHeads, c ∉ [' ', '\t', '\n', '\r', ',', '/'] := by decide
                  cases es with
                  | nil => simp only [List.map_cons, List.map_nil, joinWith, ex]; exact solid_cons (hn c hc)
                  | cons e' es => simp only [List.map_cons, joinWith, ex]; exact solid_cons (hn c hc)
                exact this
            · intro ps hps
              have h1 := traitParts_kvps (es := es) hps (some (IdlWriter.traitName ns id)) none []
              refine ⟨none, _, h1, .inl ⟨rfl, ?_⟩⟩
              change Value.object es = Value.object (AMap.ofList es)
              rw [AMap.ofList_of_wf hw]
      · have ho' : ∀ o, x ≠ .object o := fun o e => ho ⟨o, e⟩
        have ev : IdlWriter.value f true x = IdlWriter.value f false x := by
          cases x with
          | object o => exact absurd rfl (ho' o)
          | _ => rfl
        have ek : keptValue (some x) = x := by
          cases hx <;> rfl
        simp only [ev]
        have ht := value_text hx
        refine paren (parens_eats (solid_value ht.head _) (.silent rfl (.choiceR (notKvp hx ho') (ht.eats _ (valueEnd_cons (by decide)))))) ?_
        rintro _ ⟨p, rfl, h1, h2⟩
        obtain ⟨rl, t, inner⟩ := p
        cases h1
        refine ⟨some x, [], ?_, .inr ⟨by rw [ek], rfl⟩⟩
        simp only [IdlParser.traitParts, Pair.asRule, h2]
        rfl

/-! ### Trait statements -/

theorem each_forall {α : Type} {rule : IdlRule} {g : Pair IdlRule → Except Err α} {as : List α} {ps : List (Pair IdlRule)}
    (h : List.Forall₂ (fun a p => Pair.asRule p = rule ∧ g p = .ok a) as ps) : SelParser.each rule g ps = .ok as := by
  induction h with
  | nil => rfl
  | cons h _ ih =>
    simp only [SelParser.each, h.1, h.2, ih, if_true]
    rfl

theorem white_nl {pre : Str} (h : White pre) : White ('\n' :: pre) := by
  intro c hc
  rcases List.mem_cons.mp hc with rfl | hc
  · decide
  · exact h c hc

/-- The traits of a shape or member, each on a line of its own. -/
def traitLines (f : Fmt) (ns pre : Str) (ts : Traits) : Str := ts.flatMap fun e => traitText f ns e ++ '\n' :: pre

theorem traitLines_solid {f : Fmt} {ns pre : Str} {ts : Traits} {rest : Str} (hr : Solid' rest) : Solid' (traitLines f ns pre ts ++ rest) := by
  cases ts with
  | nil => exact hr
  | cons e ts => exact solid_cons (by decide)

theorem traits_eats {f : Fmt} {flt : Str → Option F64} {m : Model} {ns pre : Str} {ts : Traits} {rest : Str} (hpre : White pre)
    (h : ∀ e ∈ ts, WritableTrait f flt m ns e.1 e.2) (hr : Solid' rest) (hend : Parses idlGrammar false (r .aTrait) rest none) :
    Eats (r .traitStatements) (traitLines f ns pre ts ++ rest) rest
      (fun ps => ∃ p, ps = [p] ∧ p.asRule = .traitStatements ∧ IdlParser.traitsOf flt p = .ok (ts.map (traitBuilder ns))) := by
  have main : ∀ ts : Traits, (∀ e ∈ ts, WritableTrait f flt m ns e.1 e.2) → ∀ w, White w →
      ∃ w', White w' ∧ Eats (.rep (r .ws ~> r .aTrait)) (w ++ (traitLines f ns pre ts ++ rest)) (w' ++ rest)
        (List.Forall₂ (fun e p => Pair.asRule p = .aTrait ∧ IdlParser.traitOf flt p = .ok (traitBuilder ns e)) ts) := by
    intro ts
    induction ts with
    | nil =>
      intro _ w hw
      refine ⟨w, hw, (Eats.repNil (failsSeq (ws_eats hw hr) hend)).mono ?_⟩
      rintro _ rfl
      exact .nil
    | cons e ts ih =>
      intro h w hw
      obtain ⟨w', hw', h2⟩ := ih (fun x hx => h x (by simp [hx])) _ (white_nl hpre)
      refine ⟨w', hw', ?_⟩
      have h1 := trait_eats (rest := pre ++ (traitLines f ns pre ts ++ rest)) (h e (by simp))
      have eq : w ++ (traitLines f ns pre (e :: ts) ++ rest) = w ++ (traitText f ns (e.1, e.2) ++ '\n' :: (pre ++ (traitLines f ns pre ts ++ rest))) := by
        simp [traitLines]
      rw [eq]
      refine (((ws_eats hw ?_).seqL h1).repCons h2).mono ?_
      · exact solid_cons (by decide)
      · rintro _ ⟨_, _, rfl, ⟨p, rfl, hp⟩, hq⟩
        exact .cons hp hq
  obtain ⟨w', hw', h2⟩ := main ts h [] white_nil
  refine (Eats.normal (r := .traitStatements) rfl (h2.seqR (ws_eats hw' hr))).mono ?_
  rintro _ ⟨t, ps, rfl, hp⟩
  exact ⟨_, rfl, rfl, each_forall (List.forall₂_map_left_iff.mpr hp)⟩

/-! ### Members -/

theorem aTrait_ident {n rest : Str} (h : SmithyIdent n) : Parses idlGrammar false (r .aTrait) (n ++ rest) none := fails_ident 8 h (by decide)

theorem noDocs {s : Str} (h : ∃ c x, s = c :: x ∧ (c = '@' ∨ c ∈ identHeads)) :
    Eats (.rep (r .documentationComment)) s s (· = []) := by
  obtain ⟨c, x, rfl, hc⟩ := h
  have : ∀ c ∈ '@' :: identHeads,
      (!mayBeEmpty null (r .documentationComment) && (bounded null rank 32 (r .documentationComment) && !starts 20 (r .documentationComment) c)) = true := by
    decide
  exact .repNil (fails 20 (this c (List.mem_cons.mpr hc)))

/-- The text of a member. -/
def memberText (f : Fmt) (ns pre name target : Str) (ts : Traits) : Str := traitLines f ns pre ts ++ (name ++ (':' :: ' ' :: target))

theorem memberText_head {f : Fmt} {ns pre name target : Str} {ts : Traits} (hn : SmithyIdent name) (rest : Str) :
    ∃ c x, memberText f ns pre name target ts ++ rest = c :: x ∧ (c = '@' ∨ c ∈ identHeads) := by
  cases ts with
  | nil =>
    obtain ⟨c, x, e, hc⟩ := (IdText.name hn).head
    exact ⟨c, x ++ (':' :: ' ' :: target) ++ rest, by simp [memberText, traitLines, e], .inr hc⟩
  | cons e ts => exact ⟨'@', _, rfl, .inl rfl⟩

theorem memberText_solid {f : Fmt} {ns pre name target : Str} {ts : Traits} (hn : SmithyIdent name) (rest : Str) :
    Solid' (memberText f ns pre name target ts ++ rest) := by
  obtain ⟨c, x, e, hc⟩ := memberText_head (f := f) (ns := ns) (pre := pre) (target := target) (ts := ts) hn rest
  rw [e]
  have : ∀ c ∈ '@' :: identHeads, c ∉ [' ', '\t', '\n', '\r', ',', '/'] := by decide
  exact solid_cons (this c (List.mem_cons.mpr hc))

theorem member_eats {f : Fmt} {flt : Str → Option F64} {m : Model} {ns pre name target : Str} {tn : ShapeName} {ts : Traits} {rest : Str}
    (hpre : White pre) (hn : SmithyIdent name) (ht : IdText target) (htn : ShapeName.fromStr target = .ok tn)
    (h : ∀ e ∈ ts, WritableTrait f flt m ns e.1 e.2) :
    Eats (r .shapeMemberKvp) (memberText f ns pre name target ts ++ '\n' :: rest) ('\n' :: rest)
      (fun ps => ∃ p, ps = [p] ∧ p.asRule = .shapeMemberKvp ∧
        IdlParser.memberLoop flt [] [] none none p.intoInner = .ok ⟨name, ts.map (traitBuilder ns), tn⟩) := by
  have hs := memberText_solid (f := f) (ns := ns) (pre := pre) (target := target) (ts := ts) hn ('\n' :: rest)
  have h0 := noDocs (memberText_head (f := f) (ns := ns) (pre := pre) (target := target) (ts := ts) hn ('\n' :: rest))
  have e : memberText f ns pre name target ts ++ '\n' :: rest = traitLines f ns pre ts ++ (name ++ (':' :: ' ' :: (target ++ '\n' :: rest))) := by
    simp [memberText]
  have hts : Solid' (target ++ '\n' :: rest) := by
    obtain ⟨c, x, rfl, hc⟩ := ht.head
    have : ∀ c ∈ identHeads, c ∉ [' ', '\t', '\n', '\r', ',', '/'] := by decide
    exact solid_cons (this c hc)
  have h1 := traits_eats (rest := name ++ (':' :: ' ' :: (target ++ '\n' :: rest))) hpre h (solid_ident hn _) (aTrait_ident hn)
  have h2 := ident_eats (rest := ':' :: ' ' :: (target ++ '\n' :: rest)) hn (nameEnd_cons (by decide))
  have h3 := colon_eats hts (shapeId_eats ht (nameEnd_cons (by decide)))
  rw [e] at h0 hs ⊢
  refine (Eats.normal (r := .shapeMemberKvp) rfl (h0.seqL ((ws_none hs).seqL (h1.seq (h2.seq h3))))).mono ?_
  rintro _ ⟨t, _, rfl, _, _, rfl, ⟨p, rfl, hp1, hp2⟩, _, _, rfl, rfl, rfl⟩
  obtain ⟨rl, t', inner⟩ := p
  cases hp1
  refine ⟨_, rfl, rfl, ?_⟩
  have hnew : MemberBuilder.new name target = .ok ⟨name, [], tn⟩ := by
    unfold MemberBuilder.new
    rw [fromStr_smithy hn, htn]
    rfl
  simp only [IdlParser.memberLoop, Pair.intoInner, Pair.asRule, List.cons_append, List.nil_append, hp2]
  change (MemberBuilder.new name target >>= fun m => _) = _
  rw [hnew]
  rfl

end Verif
