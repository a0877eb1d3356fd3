/-
Names, keys and values of the Smithy IDL in any layout are matched by the grammar.
-/
import Verif.IdlLayoutSpec

namespace Verif
open Peg Spec Spec.Idl
open IdlGrammar (r null rank keyed)

/-! ### Blank text -/

theorem blank_stops {w u : Str} (hw : Blank w) (hu : Stops u) : Eats (r .ws) (w ++ u) u (· = []) := blank_eats hw hu

theorem blank_head {w : Str} (hw : Blank w) (hne : w ≠ []) : ∃ c x, w = c :: x ∧ c ∈ [' ', '\t', '\n', '\r', ',', '/'] := by
  cases hw with
  | nil => exact absurd rfl hne
  | @char c w hc _ =>
    refine ⟨c, w, rfl, ?_⟩
    have : ∀ c ∈ [' ', '\t', '\n', '\r', ','], c ∈ [' ', '\t', '\n', '\r', ',', '/'] := by decide
    exact this c hc
  | comment => exact ⟨'/', _, rfl, by decide⟩

/-- Blank text, and what it is followed by. -/
theorem blank_or {P : Char → Prop} {w u : Str} (hw : Blank w) (hb : ∀ c ∈ [' ', '\t', '\n', '\r', ',', '/'], P c) (hu : ∀ c s', u = c :: s' → P c) :
    ∀ c s', w ++ u = c :: s' → P c := by
  intro c s' e
  by_cases hne : w = []
  · subst hne
    exact hu c s' e
  · obtain ⟨d, x, rfl, hd⟩ := blank_head hw hne
    injection e with e _
    rw [← e]
    exact hb d hd

theorem gap_or {P : Char → Prop} {w u : Str} (hw : Gap w) (hb : ∀ c ∈ [' ', '\t', '\n', '\r', ',', '/'], P c) : ∀ c s', w ++ u = c :: s' → P c := by
  intro c s' e
  obtain ⟨d, x, rfl, hd⟩ := blank_head hw.1 hw.2
  injection e with e _
  rw [← e]
  exact hb d hd

theorem valueEnd_blank {w u : Str} (hw : Blank w) (hu : ValueEnd u) : ValueEnd (w ++ u) := blank_or hw (by decide) hu
theorem valueEnd_gap {w u : Str} (hw : Gap w) : ValueEnd (w ++ u) := gap_or hw (by decide)
theorem nameEnd_blank {w u : Str} (hw : Blank w) (hu : NameEnd u) : NameEnd (w ++ u) := blank_or hw (by decide) hu
theorem nameEnd_gap {w u : Str} (hw : Gap w) : NameEnd (w ++ u) := gap_or hw (by decide)

theorem stops_solid {u : Str} (h : Solid' u) : Stops u := ws_none h

theorem stops_of_head {u : Str} (h : ∃ c x, u = c :: x ∧ c ∉ [' ', '\t', '\n', '\r', ',', '/']) : Stops u := by
  obtain ⟨c, x, rfl, hc⟩ := h
  exact ws_none (solid_cons hc)

/-! ### Names -/

theorem nameText_head {n : ShapeName} {t : Str} (h : NameText n t) : ∃ c x, t = c :: x ∧ c ∈ identHeads := by
  cases h with
  | bare h => exact (IdText.name h).head
  | absolute h1 h2 =>
    obtain ⟨c, x, rfl, hc⟩ := namespace_head h1
    exact ⟨c, _, rfl, hc⟩
  | member h1 h2 h3 =>
    obtain ⟨c, x, rfl, hc⟩ := namespace_head h1
    exact ⟨c, _, rfl, hc⟩

theorem nameText_fromStr {n : ShapeName} {t : Str} (h : NameText n t) : ShapeName.fromStr t = .ok n := by
  have id : ∀ {id : ShapeID}, id.Valid → ShapeName.fromStr id.display = .ok (.qualified id) := fun {id} hv =>
    ((C24_name_syntax id.display).2.1 id).mpr (ShapeID.fromStr_display hv)
  cases h with
  | bare h => exact shapeName_ident h
  | @absolute ns n h1 h2 =>
    have := id (id := ⟨ns, n, none⟩) ⟨namespace_valid h1, (isIdent_iff _).mp (isIdent_of_smithy h2), fun m hm => by cases hm⟩
    simpa [ShapeID.display] using this
  | @member ns n m h1 h2 h3 =>
    have := id (id := ⟨ns, n, some m⟩) ⟨namespace_valid h1, (isIdent_iff _).mp (isIdent_of_smithy h2),
      fun m hm => by cases hm; exact (isIdent_iff _).mp (isIdent_of_smithy h3)⟩
    simpa [ShapeID.display] using this

theorem nameText_display {n : ShapeName} {t : Str} (h : NameText n t) : n.display = t := by
  cases h <;> simp [ShapeName.display, ShapeID.display]

theorem name_eats {n : ShapeName} {t rest : Str} (h : NameText n t) (hs : NameEnd rest) :
    Eats (r .shapeId) (t ++ rest) rest (· = [.mk .shapeId t []]) := by
  cases h with
  | bare h => exact shapeId_eats (.name h) hs
  | absolute h1 h2 => simpa using shapeId_eats (.absolute h1 h2) hs
  | @member ns n m h1 h2 h3 =>
    refine .atomic rfl ?_
    have hm : Parses idlGrammar true (.opt (r .shapeIdMember)) ('$' :: m ++ rest) (some ('$' :: m, rest, [])) := by
      refine .optSome (ruleAtomic (g := idlGrammar) (ps := []) ?_)
      exact seqAtomic (g := idlGrammar) (Parses.str (t := ['$']) (s := '$' :: m ++ rest) rfl) (idl_ident_atomic h3 fun c s' e => (hs c s' e).1)
    have hr : Parses idlGrammar true (r .rootShapeId) (ns ++ '#' :: n ++ ('$' :: m ++ rest)) (some (ns ++ '#' :: n, '$' :: m ++ rest, [])) := by
      refine ruleAtomic (g := idlGrammar) (ps := []) (.choiceL (ruleAtomic (g := idlGrammar) (ps := []) ?_))
      rw [List.append_assoc]
      refine seqAtomic (g := idlGrammar) (p1 := []) (p2 := []) (ruleAtomic (g := idlGrammar) (idl_namespace_body h1 ?_)) ?_
      · intro c s' e
        injection e with e _
        rw [← e]
        decide
      · refine seqAtomic (g := idlGrammar) (Parses.str (t := ['#']) rfl) (idl_ident_atomic h2 ?_)
        intro c s' e
        injection e with e _
        rw [← e]
        decide
    have := seqAtomic (g := idlGrammar) hr hm
    have e1 : ns ++ %s"#" ++ n ++ %s"$" ++ m ++ rest = ns ++ '#' :: n ++ ('$' :: m ++ rest) := by simp
    have e2 : ns ++ %s"#" ++ n ++ %s"$" ++ m = ns ++ '#' :: n ++ '$' :: m := by simp
    rw [e1, e2]
    exact this

/-! ### Keys -/

theorem key_head {k : Str} (h : KeyText k) : ∃ c x, k = c :: x ∧ (c ∈ identHeads ∨ c = '"') := by
  rcases h with h | ⟨u, -, rfl⟩
  · obtain ⟨c, x, e, hc⟩ := (IdText.name h).head
    exact ⟨c, x, e, .inl hc⟩
  · exact ⟨'"', _, rfl, .inr rfl⟩

theorem stops_key {k : Str} (h : KeyText k) (u : Str) : Stops (k ++ u) := by
  obtain ⟨c, x, rfl, hc⟩ := key_head h
  have : ∀ c ∈ '"' :: identHeads, c ∉ [' ', '\t', '\n', '\r', ',', '/'] := by decide
  exact stops_of_head ⟨c, _, rfl, this c (List.mem_cons.mpr hc.symm)⟩

/-- The pairs of a key. -/
def KeyPair (k : Str) (p : Pair IdlRule) : Prop :=
  p = .mk .identifier k [] ∧ k.head? ≠ some '"' ∨ ∃ u, k = '"' :: u ++ ['"'] ∧ p = .mk .quotedText k [.mk .quotedChars u []]

theorem anyKey_eats {k rest : Str} (hk : KeyText k) (hs : NameEnd rest) :
    Eats (r .nodeObjectKey) (k ++ rest) rest (fun ps => ∃ p, ps = [p] ∧ KeyPair k p) := by
  rcases hk with hk | ⟨u, hu, rfl⟩
  · refine (key_eats hk hs).mono ?_
    rintro _ rfl
    refine ⟨_, rfl, .inl ⟨rfl, ?_⟩⟩
    obtain ⟨c, x, rfl, hc⟩ := (IdText.name hk).head
    have : ∀ c ∈ identHeads, c ≠ '"' := by decide
    simpa using this c hc
  · have e : %s"\"" ++ u ++ %s"\"" ++ rest = '"' :: u ++ '"' :: rest := by simp
    rw [e]
    refine (Eats.silent (r := .nodeObjectKey) rfl (.choiceL (escaped_eats hu rest))).mono ?_
    rintro _ rfl
    exact ⟨_, rfl, .inr ⟨u, by simp, by simp⟩⟩

/-- A key, a sign and a value. -/
theorem keyed_any {flt : Str → Option F64} {e : Entry} {sign rest : Str} (hsign : sign = %s":" ∨ sign = %s"=") (he : Entry.Ok e)
    (ht : NodeText flt e.text e.value) (hr : ValueEnd rest) :
    Eats (keyed sign) (e.show sign ++ rest) rest
      (fun ps => ∃ k p, ps = [k, p] ∧ KeyPair e.key k ∧ p.asRule = .nodeValue ∧ IdlParser.nodeValueOf flt p = .ok e.value) := by
  obtain ⟨h1, h2, h3⟩ := he
  have eq : e.show sign ++ rest = e.key ++ (e.before ++ (sign ++ (e.behind ++ (e.text ++ rest)))) := by simp [Entry.show]
  rw [eq]
  have hs : ∀ u, NameEnd (sign ++ u) ∧ Stops (sign ++ u) := by
    intro u
    rcases hsign with rfl | rfl
    · exact ⟨nameEnd_cons (by decide), stops_of_head ⟨_, _, rfl, by decide⟩⟩
    · exact ⟨nameEnd_cons (by decide), stops_of_head ⟨_, _, rfl, by decide⟩⟩
  refine ((anyKey_eats h1 (nameEnd_blank h2 (hs _).1)).seq ((blank_stops h2 (hs _).2).seqL
    ((Eats.str (t := sign)).seqL ((blank_stops h3 (ws_none (solid_value ht.head _))).seqL (ht.eats rest hr))))).mono ?_
  rintro _ ⟨_, _, rfl, ⟨k, rfl, hk⟩, p, rfl, hp⟩
  exact ⟨k, p, rfl, hk, hp⟩

theorem kvpLoop_key {flt : Str → Option F64} {k : Str} {q p : Pair IdlRule} {v : Value} (hk : KeyPair k q) (h1 : p.asRule = .nodeValue)
    (h2 : IdlParser.nodeValueOf flt p = .ok v) : IdlParser.kvpLoop flt none none [q, p] = .ok (k, v) := by
  obtain ⟨rl, t', ps'⟩ := p
  cases h1
  rcases hk with ⟨rfl, -⟩ | ⟨u, rfl, rfl⟩ <;> simp only [IdlParser.kvpLoop, Pair.asRule, h2, Pair.asStr]

theorem kvp_any {flt : Str → Option F64} {e : Entry} {rest : Str} (he : Entry.Ok e) (ht : NodeText flt e.text e.value) (hr : ValueEnd rest) :
    Eats (r .nodeObjectKvp) (e.show %s":" ++ rest) rest
      (fun ps => ∃ p, ps = [p] ∧ p.asRule = .nodeObjectKvp ∧ IdlParser.kvpOf flt p = .ok (e.key, e.value)) := by
  refine (Eats.normal (r := .nodeObjectKvp) rfl (keyed_any (.inl rfl) he ht hr)).mono ?_
  rintro _ ⟨t, _, rfl, k, p, rfl, hk, h1, h2⟩
  exact ⟨_, rfl, rfl, kvpLoop_key hk h1 h2⟩

/-! ### Elements -/

/-- Elements, each followed by blank text. -/
theorem series_eats {α : Type} {x : Expr IdlRule} {text after : α → Str} {Q : α → Pair IdlRule → Prop} {F : Str → Prop} {is : List α} {rest : Str}
    (hx : ∀ i ∈ is, ∀ u, F u → Eats x (text i ++ u) u (fun ps => ∃ p, ps = [p] ∧ Q i p)) (hs : ∀ i ∈ is, ∀ u, Stops (text i ++ u))
    (hp : Parted (is.map after)) (hgap : ∀ w u, Gap w → F (w ++ u)) (hend : ∀ w, Blank w → F (w ++ rest)) (hr : Stops rest)
    (hf : Parses idlGrammar false x rest none) :
    Stops (is.flatMap (fun i => text i ++ after i) ++ rest) ∧
    Eats (.rep (x ~> r .ws)) (is.flatMap (fun i => text i ++ after i) ++ rest) rest (List.Forall₂ Q is) := by
  induction is with
  | nil =>
    refine ⟨hr, (Eats.repNil (.seqFail1 hf)).mono ?_⟩
    rintro _ rfl
    exact .nil
  | cons i is ih =>
    have hp' : Parted (is.map after) := by
      refine ⟨fun w hw => hp.1 w (by simp only [List.map_cons, List.mem_cons]; exact .inr hw), fun w hw => ?_⟩
      refine hp.2 w ?_
      cases is with
      | nil => simp at hw
      | cons j is => simp only [List.map_cons, List.dropLast_cons_cons, List.mem_cons] at hw ⊢; exact .inr hw
    obtain ⟨h1, h2⟩ := ih (fun j hj => hx j (by simp [hj])) (fun j hj => hs j (by simp [hj])) hp'
    have hb : Blank (after i) := hp.1 _ (by simp)
    have e : (i :: is).flatMap (fun i => text i ++ after i) ++ rest = text i ++ (after i ++ (is.flatMap (fun i => text i ++ after i) ++ rest)) := by simp
    rw [e]
    have hF : F (after i ++ (is.flatMap (fun i => text i ++ after i) ++ rest)) := by
      cases is with
      | nil => simpa using hend _ hb
      | cons j is => exact hgap _ _ ⟨hb, hp.2 _ (by simp)⟩
    refine ⟨hs i (by simp) _, (((hx i (by simp) _ hF).seqR (blank_stops hb h1)).repCons h2).mono ?_⟩
    rintro _ ⟨_, _, rfl, ⟨p, rfl, hp⟩, hq⟩
    exact .cons hp hq

theorem stops_value {flt : Str → Option F64} {t : Str} {v : Value} (h : NodeText flt t v) (u : Str) : Stops (t ++ u) := ws_none (solid_value h.head u)

theorem array_any {flt : Str → Option F64} {w : Str} {is : List Item} (hw : Blank w) (h : ∀ i ∈ is, NodeText flt i.text i.value)
    (hp : Parted (is.map (·.after))) : NodeText flt (%s"[" ++ w ++ itemsText is ++ %s"]") (.array (is.map (·.value))) := by
  refine ⟨⟨_, _, rfl, by decide⟩, fun rest _ => ?_⟩
  obtain ⟨h1, h2⟩ := series_eats (x := r .nodeValue) (text := Item.text) (after := Item.after) (F := ValueEnd) (rest := ']' :: rest)
    (Q := fun i p => p.asRule = .nodeValue ∧ IdlParser.nodeValueOf flt p = .ok i.value)
    (fun i hi u hu => (h i hi).eats u hu) (fun i hi u => stops_value (h i hi) u) hp (fun w u hw => valueEnd_gap hw)
    (fun w hw => valueEnd_blank hw (valueEnd_cons (by decide))) (stops_of_head ⟨_, _, rfl, by decide⟩) (fails 20 (by decide))
  have e : %s"[" ++ w ++ itemsText is ++ %s"]" ++ rest = ['['] ++ (w ++ (is.flatMap (fun i => i.text ++ i.after) ++ ']' :: rest)) := by simp [itemsText]
  rw [e]
  refine nodeValue_eats (.choiceL ((Eats.normal (r := .nodeArray) rfl ((Eats.str (t := ['['])).seqL ((blank_stops hw h1).seqL (h2.seqR (Eats.str (t := [']'])))))).mono ?_))
  rintro _ ⟨t, ps', rfl, hp⟩
  refine ⟨_, rfl, ?_⟩
  have := arrayOf_forall (vs := is.map (·.value)) (List.forall₂_map_left_iff.mpr hp)
  simp only [IdlParser.innerValue, this]
  rfl

theorem stops_entry {e : Entry} (h : Entry.Ok e) (sign u : Str) : Stops (e.show sign ++ u) := by
  have : e.show sign ++ u = e.key ++ (e.before ++ (sign ++ (e.behind ++ (e.text ++ u)))) := by simp [Entry.show]
  rw [this]
  exact stops_key h.1 _

/-- Objects, in any layout. -/
theorem object_any {flt : Str → Option F64} {w : Str} {es : List Entry} (hw : Blank w) (hok : ∀ e ∈ es, Entry.Ok e)
    (h : ∀ e ∈ es, NodeText flt e.text e.value) (hp : Parted (es.map (·.after))) (rest : Str) :
    Eats (r .nodeObject) (%s"{" ++ w ++ entriesText es ++ %s"}" ++ rest) rest
      (fun ps => ∃ t ps', ps = [.mk .nodeObject t ps'] ∧
        IdlParser.objectOf flt [] ps' = .ok (AMap.ofList (es.map fun e => (e.key, e.value)))) := by
  obtain ⟨h1, h2⟩ := series_eats (x := r .nodeObjectKvp) (text := Entry.show %s":") (after := Entry.after) (F := ValueEnd) (rest := '}' :: rest)
    (Q := fun e p => p.asRule = .nodeObjectKvp ∧ IdlParser.kvpOf flt p = .ok (e.key, e.value))
    (fun i hi u hu => kvp_any (hok i hi) (h i hi) hu) (fun i hi u => stops_entry (hok i hi) _ u) hp (fun w u hw => valueEnd_gap hw)
    (fun w hw => valueEnd_blank hw (valueEnd_cons (by decide))) (stops_of_head ⟨_, _, rfl, by decide⟩) (fails 20 (by decide))
  have e : %s"{" ++ w ++ entriesText es ++ %s"}" ++ rest = ['{'] ++ (w ++ (es.flatMap (fun i => i.show %s":" ++ i.after) ++ '}' :: rest)) := by simp [entriesText]
  rw [e]
  refine (Eats.normal (r := .nodeObject) rfl ((Eats.str (t := ['{'])).seqL ((blank_stops hw h1).seqL (h2.seqR (Eats.str (t := ['}'])))))).mono ?_
  rintro _ ⟨t, ps', rfl, hp⟩
  exact ⟨t, ps', rfl, objectOf_forall (List.forall₂_map_left_iff.mpr hp) []⟩

/-! ### Numbers -/

theorem exp_eats {x rest : Str} (hx : x = [] ∨ ExponentText x) (hr : NumberEnd rest) : Eats (.opt (r .exp)) (x ++ rest) rest (fun _ => True) := by
  rcases hx with rfl | ⟨letter, sign, ds, hl, hs, hd, rfl⟩
  · refine (Eats.optNone ?_).mono fun _ _ => trivial
    refine failsNormal rfl (.seqFail1 (failsNormal rfl (.choiceR ?_ ?_)))
    · exact strFail_head (g := idlGrammar) fun c s' e => (hr c s' e).2.2.1
    · exact strFail_head (g := idlGrammar) fun c s' e => (hr c s' e).2.2.2
  · simp only [List.append_assoc]
    have hdig : ∃ c y, ds = c :: y ∧ c.isDigit = true := by
      obtain ⟨hne, h⟩ := hd
      cases ds with
      | nil => exact absurd rfl hne
      | cons c y => exact ⟨c, y, rfl, h c (by simp)⟩
    have h1 : Eats (r .expLetter) (letter ++ (sign ++ (ds ++ rest))) (sign ++ (ds ++ rest)) (fun _ => True) := by
      refine (Eats.normal (r := .expLetter) (Q := fun _ => True) rfl ?_).mono fun _ _ => trivial
      rcases hl with rfl | rfl
      · exact (Eats.choiceL (Eats.str (t := ['e']))).mono fun _ _ => trivial
      · exact (Eats.choiceR (fails 4 (by decide)) (Eats.str (t := ['E']))).mono fun _ _ => trivial
    have h2 : Eats (.opt (r .minus <||> r .plus)) (sign ++ (ds ++ rest)) (ds ++ rest) (fun _ => True) := by
      rcases hs with rfl | rfl | rfl
      · obtain ⟨c, y, rfl, hc⟩ := hdig
        refine (Eats.optNone (.choiceR ?_ ?_)).mono fun _ _ => trivial
        · exact failsNormal rfl (strFail_head (g := idlGrammar) fun d s' e => by injection e with e _; rw [← e]; exact digit_ne hc (by decide))
        · exact failsNormal rfl (strFail_head (g := idlGrammar) fun d s' e => by injection e with e _; rw [← e]; exact digit_ne hc (by decide))
      · exact (Eats.opt (Eats.choiceL (.normal (r := .minus) rfl (Eats.str (t := ['-']))))).mono fun _ _ => trivial
      · exact (Eats.opt (Eats.choiceR (fails 4 (by decide)) (.normal (r := .plus) rfl (Eats.str (t := ['+']))))).mono fun _ _ => trivial
    exact (Eats.opt (.normal (r := .exp) (Q := fun _ => True) rfl ((h1.seq (h2.seq (plus_digits hd fun c s' e => (hr c s' e).1))).mono fun _ _ => trivial))).mono fun _ _ => trivial

theorem float_eats {sign int ds x rest : Str} (h1 : sign = [] ∨ sign = ['-']) (h2 : IntText int) (h3 : Digits ds) (hx : x = [] ∨ ExponentText x)
    (hr : NumberEnd rest) :
    Eats (r .number) (sign ++ int ++ '.' :: ds ++ x ++ rest) rest (fun ps => ∃ ps', ps = [.mk .number (sign ++ int ++ '.' :: ds ++ x) ps']) := by
  refine (Eats.normalText (r := .number) (Q := fun _ => True) rfl ?_).mono ?_
  · simp only [List.append_assoc]
    have hi : ∃ c s, int = c :: s ∧ c.isDigit = true := by
      obtain ⟨⟨hne, hd⟩, _⟩ := h2
      cases int with
      | nil => exact absurd rfl hne
      | cons c s => exact ⟨c, s, rfl, hd c (by simp)⟩
    have p1 : Eats (.opt (r .minus)) (sign ++ (int ++ ('.' :: ds ++ (x ++ rest)))) (int ++ ('.' :: ds ++ (x ++ rest))) (fun _ => True) := by
      rcases h1 with rfl | rfl
      · obtain ⟨c, s, rfl, hc⟩ := hi
        refine (Eats.optNone ?_).mono fun _ _ => trivial
        exact failsNormal rfl (strFail_head (g := idlGrammar) fun d s' e => by
          injection e with e _; rw [← e]; exact digit_ne hc (by decide))
      · exact (Eats.opt (.normal (r := .minus) rfl (Eats.str (t := ['-'])))).mono fun _ _ => trivial
    have p2 : Eats (r .int) (int ++ ('.' :: ds ++ (x ++ rest))) ('.' :: ds ++ (x ++ rest)) (fun _ => True) := by
      obtain ⟨⟨hne, hd⟩, h0⟩ := h2
      refine (Eats.normal (Q := fun _ => True) rfl ?_).mono fun _ _ => trivial
      cases int with
      | nil => exact absurd rfl hne
      | cons c cs =>
        by_cases hc : c = '0'
        · subst hc
          have := h0 rfl
          injection this with _ hds
          subst hds
          exact (Eats.choiceL (.normal (r := .zero) rfl (Eats.str (t := ['0'])))).mono fun _ _ => trivial
        · have hz : Eats (.chr nonzeroDigit) (c :: (cs ++ ('.' :: ds ++ (x ++ rest)))) (cs ++ ('.' :: ds ++ (x ++ rest))) (· = []) :=
            ⟨[c], [], .chr (nonzero_of_digit (hd c (by simp)) hc), rfl⟩
          refine (Eats.choiceR ?_ (hz.seqL (rep_digits (fun d hd' => hd d (by simp [hd']))
            (by intro d s' e; injection e with e _; rw [← e]; decide)))).mono fun _ _ => trivial
          exact failsNormal rfl (strFail_head (g := idlGrammar) fun d s' e => by injection e with e _; rw [← e]; exact hc)
    have hF : ∀ c s', x ++ rest = c :: s' → Char.isDigit c = false := by
      intro c s' e
      rcases hx with rfl | ⟨l, s, d, hl, -, -, rfl⟩
      · exact (hr c s' e).1
      · rcases hl with rfl | rfl
        · injection e with e _; rw [← e]; decide
        · injection e with e _; rw [← e]; decide
    have p3 : Eats (.opt (r .frac)) ('.' :: ds ++ (x ++ rest)) (x ++ rest) (fun _ => True) :=
      (Eats.opt (.normal (r := .frac) rfl ((Eats.normal (r := .decimalPoint) rfl (Eats.str (t := ['.']))).seq (plus_digits h3 hF)))).mono fun _ _ => trivial
    exact (p1.seq (p2.seq (p3.seq (exp_eats hx hr)))).mono fun _ _ => trivial
  · rintro _ ⟨ps', rfl, -⟩
    exact ⟨ps', rfl⟩

theorem float_text {flt : Str → Option F64} {t : Str} {x : F64} (h : FloatText t) (hx : flt t = some x) : NodeText flt t (.number (.float x)) := by
  obtain ⟨_, e, ⟨sign, int, ds, h1, h2, h3, rfl⟩, he, rfl⟩ := h
  obtain ⟨c, y, ec, hc⟩ := number_head (x := '.' :: ds ++ e) h1 h2
  have hc' := mem_numberHeads hc
  have e1 : sign ++ int ++ '.' :: ds ++ e = c :: y := by rw [← ec]; simp
  refine ⟨⟨c, y, e1, by simp [valueHeads, hc']⟩, ?_⟩
  intro rest hr
  have hf : ∀ {e' : Expr IdlRule} (n : Nat),
      (∀ c ∈ numberHeads, (!mayBeEmpty null e' && (bounded null rank 32 e' && !starts n e' c)) = true) →
      Parses idlGrammar false e' (sign ++ int ++ '.' :: ds ++ e ++ rest) none := by
    intro e' n h
    rw [e1]
    exact fails n (h c hc')
  refine nodeValue_eats (.choiceR (hf 8 (by decide)) (.choiceR (hf 8 (by decide)) (.choiceL ((float_eats h1 h2 h3 he hr.number).mono ?_))))
  rintro _ ⟨ps', rfl⟩
  refine ⟨_, rfl, ?_⟩
  have hn : IdlParser.numberOf flt (sign ++ int ++ '.' :: ds ++ e) = .ok (.float x) := by
    unfold IdlParser.numberOf
    have : (sign ++ int ++ '.' :: ds ++ e).contains '.' = true := by simp
    rw [if_pos this, hx]
  simp only [IdlParser.innerValue, hn]
  rfl

end Verif
