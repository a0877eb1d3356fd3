/-
Selectors as text: what is written is read back (C49), and what reading can give (C50).
-/
import Verif.SelectorTree

namespace Verif
open Peg Spec SelParser

/-- A text that is a selector is the whole input. -/
theorem input_reads {f flt} {s : Selector} (h : PrintableSelector f flt s) :
    Reads selGrammar (.rule .input) (Selector.display f s) [] (fun ps => SelParser.ofPairs flt ps = .ok s) := by
  have hs : Solid (Selector.display f s) := by
    cases h with
    | mk hne hp =>
      unfold Selector.display
      rw [displayExpressions_eq]
      exact joinWith_solid (d := fun e => SelectorExpression.display f e) hne (fun e he => expression_solid (hp e he))
  have h0 : Reads selGrammar .soi (Selector.display f s) (Selector.display f s) (· = []) := ⟨[], _, [], .soi, .inl rfl, rfl⟩
  have h1 := selector_reads h (rest := []) (.inl rfl)
  have he : Reads selGrammar .eoi [] [] (· = [.mk .EOI [] []]) := ⟨[], [], _, .eoi, .inl rfl, rfl⟩
  rw [List.append_nil] at h1
  have h2 := h0.andThen (by rw [← List.append_nil (Selector.display f s)]; exact hs.trim []) (h1.andThen (show selGrammar.trim [] = [] from rfl) he)
  refine (selRule .input rfl h2).mono ?_
  rintro _ ⟨t, _, rfl, _, _, rfl, rfl, _, _, rfl, ⟨p, rfl, hp1, hp2⟩, rfl⟩
  obtain ⟨r, t', ps⟩ := p
  cases hp1
  exact hp2

/-- **C49.** Every selector whose parts can be written is read back from its text as itself. -/
theorem C49_selector_roundTrip (f : Fmt) (flt : Str → Option F64) (s : Selector) (h : PrintableSelector f flt s) :
    parseSelector flt (Selector.display f s) = .ok s := by
  obtain ⟨t, s', ps, h1, h2, h3⟩ := input_reads h
  unfold parseSelector
  rw [(matchSelector_iff _ _).mpr ⟨_, h1, rfl⟩]
  exact h3

/-- **C49.** Different selectors have different texts. -/
theorem C49_selector_injective (f : Fmt) (flt : Str → Option F64) (s s' : Selector) (h : PrintableSelector f flt s)
    (h' : PrintableSelector f flt s') (e : Selector.display f s = Selector.display f s') : s = s' := by
  have h1 := C49_selector_roundTrip f flt s h
  have h2 := C49_selector_roundTrip f flt s' h'
  rw [e, h2] at h1
  injection h1 with h1
  exact h1.symm

/-- **C50.** The result of reading any text: an error of the grammar exactly if the text does not match; otherwise a selector
of the grammar whose values stand in the text, or an error that the text explains. -/
theorem C50_selector_outcome (flt : Str → Option F64) (x : Str) :
    (matchSelector x = none ∧ parseSelector flt x = .error (.deserialization %s"Smithy" %s"pest" none)) ∨
    (∃ s, parseSelector flt x = .ok s ∧ SelectorOver (ValueIn flt x) s) ∨
    (∃ e, parseSelector flt x = .error e ∧ SelectorError flt x e) := by
  unfold parseSelector
  cases hm : matchSelector x with
  | none => exact .inl ⟨rfl, rfl⟩
  | some ps =>
    right
    obtain ⟨r, hr, e⟩ := (matchSelector_iff _ _).mp hm
    cases r with
    | none => cases e
    | some y =>
      obtain ⟨t, s', qs⟩ := y
      injection e with e
      simp only at e
      subst e
      have hsplit := hr.split _ _ _ rfl
      have ht := hr.tree _ _ _ rfl
      have hi : t <:+: x := ⟨[], s', by simp [hsplit]⟩
      obtain ⟨ps', rfl, h'⟩ := ht.normal rfl
      obtain ⟨t1, p1, t2, p2, rfl, h1, h2, i1, i2⟩ := h'.infix_seq
      obtain ⟨t3, p3, t4, p4, rfl, h3, h4, i3, i4⟩ := h2.infix_seq
      cases h1
      obtain ⟨p, rfl, hp1, hp2⟩ := selector_tree (flt := flt) (s := x) h3 (i3.trans (i2.trans hi))
      obtain ⟨r, tp, pp⟩ := p
      cases hp1
      change (∃ s, selectorOf flt (.mk .selector tp pp) = .ok s ∧ _) ∨ (∃ e, selectorOf flt (.mk .selector tp pp) = .error e ∧ _)
      cases hx : selectorOf flt (.mk .selector tp pp) with
      | ok s => rw [hx] at hp2; exact .inl ⟨s, rfl, hp2⟩
      | error e => rw [hx] at hp2; exact .inr ⟨e, rfl, hp2⟩

namespace Spec

theorem SegmentOver.mono {V W : SelValue → Prop} (hv : ∀ v, V v → W v) {a} (h : SegmentOver V a) : SegmentOver W a := by
  cases h with
  | value h => exact .value (hv _ h)
  | property h => exact .property h

theorem KeyOver.mono {V W : SelValue → Prop} (hv : ∀ v, V v → W v) {k} (h : KeyOver V k) : KeyOver W k :=
  ⟨h.1, fun s hs => (h.2 s hs).mono hv⟩

theorem ComparisonOver.mono {V W : SelValue → Prop} (hv : ∀ v, V v → W v) {k} (h : ComparisonOver V k) : ComparisonOver W k :=
  ⟨h.1, h.2.1, fun v hx => hv v (h.2.2 v hx)⟩

theorem ScopedOver.mono {V W : SelValue → Prop} (hv : ∀ v, V v → W v) {a} (h : ScopedOver V a) : ScopedOver W a := by
  cases h with
  | value h => exact .value (hv _ h)
  | context h1 h2 => exact .context h1 (fun s hs => (h2 s hs).mono hv)

theorem AssertionOver.mono {V W : SelValue → Prop} (hv : ∀ v, V v → W v) {k} (h : AssertionOver V k) : AssertionOver W k :=
  ⟨h.1.mono hv, h.2.1, h.2.2.1, fun v hx => (h.2.2.2 v hx).mono hv⟩

mutual
  theorem ExpressionOver.mono {V W : SelValue → Prop} (hv : ∀ v, V v → W v) : ∀ {e}, ExpressionOver V e → ExpressionOver W e
    | _, .shapeType => .shapeType
    | _, .attr hk hc => .attr (hk.mono hv) (fun c e => (hc c e).mono hv)
    | _, .scopedAttr hk hn ha => .scopedAttr (fun k e => (hk k e).mono hv) hn (fun a h => (ha a h).mono hv)
    | _, .forward => .forward
    | _, .reverse => .reverse
    | _, .recursive => .recursive
    | _, .forwardDirected h => .forwardDirected h
    | _, .reverseDirected h => .reverseDirected h
    | _, .function h1 h2 h3 => .function h1 h2 (fun s hs => (h3 s hs).mono hv)
    | _, .define h1 h2 => .define h1 (h2.mono hv)
    | _, .refer h => .refer h
  theorem SelectorOver.mono {V W : SelValue → Prop} (hv : ∀ v, V v → W v) : ∀ {s}, SelectorOver V s → SelectorOver W s
    | _, .mk h1 h2 => .mk h1 (fun e he => (h2 e he).mono hv)
end

end Spec

/-- **C50.** Reading is stable: the selector read from a text is written as a text that is read as the same selector, if
quoted text has no double quotes inside and the floats are written as numbers with a fraction that are read as themselves. -/
theorem C50_selector_stable (f : Fmt) (flt : Str → Option F64) (x : Str) (s : Selector) (h : parseSelector flt x = .ok s)
    (hq : ∀ t, '\'' :: t ++ ['\''] <:+: x → '"' ∉ t)
    (hf : ∀ t v, NumberText t → t <:+: x → '.' ∈ t → flt t = some v → FractionText (f.float v) ∧ flt (f.float v) = some v) :
    parseSelector flt (Selector.display f s) = .ok s := by
  rcases C50_selector_outcome flt x with ⟨_, h'⟩ | ⟨s', h', hs⟩ | ⟨e, h', _⟩
  · rw [h] at h'; cases h'
  · rw [h] at h'; cases h'
    refine C49_selector_roundTrip f flt s (hs.mono ?_)
    intro v hv
    cases hv with
    | double h1 h2 _ => exact .text h1 h2
    | single h1 h2 h3 => exact .text h1 (fun c hc => ⟨(h2 c hc).1, fun e => hq _ h3 (e ▸ hc), (h2 c hc).2.2⟩)
    | integer _ _ _ h _ => exact .integer h
    | float h1 h2 h3 h4 => exact .float (hf _ _ h1 h2 h3 h4).1 (hf _ _ h1 h2 h3 h4).2
    | root h _ => exact .root h
    | absolute h1 h2 _ => exact .absolute h1 h2
  · rw [h] at h'; cases h'

/-! ### A concrete selector -/

/-- `resource [trait|range|(keys) > 1, -20 i] ~> -[member, input]-> :test(string, [id]) $x(<) ${x} [@tr: @{a|"b c"} {<<} a.b#C && 1 = _z]`. -/
def exSelector : Selector :=
  [.shapeType .resource,
   .attributeSelector ⟨⟨%s"trait", [.value (.rootShapeId %s"range"), .functionProperty %s"keys"]⟩,
     some ⟨.numberGreaterThan, [.number (.integer 1), .number (.integer (-20))], true⟩⟩,
   .neighborSelector .forwardRecursiveDirected,
   .neighborSelector (.forwardDirected [%s"member", %s"input"]),
   .function %s"test" [[.shapeType .string], [.attributeSelector ⟨⟨%s"id", []⟩, none⟩]],
   .variableDefinition %s"x" [.neighborSelector .reverseUndirected],
   .variableReference %s"x",
   .scopedAttributeSelector ⟨some ⟨%s"tr", []⟩,
     [⟨.contextValue [.value (.rootShapeId %s"a"), .value (.text %s"b c")], .projectionProperSubset, [.value (.absoluteRootShapeId ⟨%s"a.b", %s"C", none⟩)], false⟩,
      ⟨.value (.number (.integer 1)), .stringEqual, [.value (.rootShapeId %s"_z")], false⟩]⟩]

theorem exSelector_printable (f : Fmt) (flt : Str → Option F64) : PrintableSelector f flt exSelector := by
  have id1 : ∀ (a : Char) (r : Str), a.isAlpha = true → r.all (fun c => c.isAlpha || c.isDigit || c == '_') = true → SmithyIdent (a :: r) := by
    intro a r h1 h2
    refine .plain h1 (fun c hc => ?_)
    simpa [or_assoc] using List.all_eq_true.mp h2 c hc
  have rc : ∀ c : Comparator, c ≠ .numberGreaterOrEqual → c ≠ .numberLessOrEqual → ReadableComparator c := fun c h1 h2 => ⟨h1, h2⟩
  have z : SmithyIdent %s"_z" := .underscore (by decide) (by simp)
  refine .mk (by simp [exSelector]) ?_
  intro e he
  simp only [exSelector, List.mem_cons, List.not_mem_nil, or_false] at he
  rcases he with rfl | rfl | rfl | rfl | rfl | rfl | rfl | rfl
  · exact .shapeType
  · refine .attr ⟨id1 _ _ (by decide) (by decide), ?_⟩ ?_
    · intro s hs
      simp only [List.mem_cons, List.not_mem_nil, or_false] at hs
      rcases hs with rfl | rfl
      · exact .value (.root (id1 _ _ (by decide) (by decide)))
      · exact .property (id1 _ _ (by decide) (by decide))
    · intro c hc
      injection hc with hc
      subst hc
      refine ⟨rc _ (by decide) (by decide), by simp, ?_⟩
      intro v hv
      simp only [List.mem_cons, List.not_mem_nil, or_false] at hv
      rcases hv with rfl | rfl
      · exact .integer (by unfold i64; decide)
      · exact .integer (by unfold i64; decide)
  · exact .recursive
  · refine .forwardDirected ⟨by simp, ?_⟩
    intro n hn
    simp only [List.mem_cons, List.not_mem_nil, or_false] at hn
    rcases hn with rfl | rfl <;> exact id1 _ _ (by decide) (by decide)
  · refine .function (id1 _ _ (by decide) (by decide)) (by simp) ?_
    intro n hn
    simp only [List.mem_cons, List.not_mem_nil, or_false] at hn
    rcases hn with rfl | rfl
    · refine .mk (by simp) ?_
      intro e he
      rw [List.mem_singleton] at he; subst he
      exact .shapeType
    · refine .mk (by simp) ?_
      intro e he
      rw [List.mem_singleton] at he; subst he
      exact .attr ⟨id1 _ _ (by decide) (by decide), by simp⟩ (by simp)
  · refine .define (id1 _ _ (by decide) (by decide)) (.mk (by simp) ?_)
    intro e he
    rw [List.mem_singleton] at he; subst he
    exact .reverse
  · exact .refer (id1 _ _ (by decide) (by decide))
  · refine .scopedAttr ?_ (by simp) ?_
    · intro k hk
      injection hk with hk
      subst hk
      exact ⟨id1 _ _ (by decide) (by decide), by simp⟩
    · intro a ha
      simp only [List.mem_cons, List.not_mem_nil, or_false] at ha
      rcases ha with rfl | rfl
      · refine ⟨.context (by simp) ?_, rc _ (by decide) (by decide), by simp, ?_⟩
        · intro s hs
          simp only [List.mem_cons, List.not_mem_nil, or_false] at hs
          rcases hs with rfl | rfl
          · exact .value (.root (id1 _ _ (by decide) (by decide)))
          · refine .value (.text (by simp) ?_)
            intro c hc
            simp only [List.mem_cons, List.not_mem_nil, or_false] at hc
            rcases hc with rfl | rfl | rfl <;> exact ⟨by decide, by decide, by decide⟩
        · intro v hv
          rw [List.mem_singleton] at hv; subst hv
          refine .value (.absolute ⟨[%s"a", %s"b"], by simp, ?_, rfl⟩ (id1 _ _ (by decide) (by decide)))
          intro p hp
          simp only [List.mem_cons, List.not_mem_nil, or_false] at hp
          rcases hp with rfl | rfl <;> exact id1 _ _ (by decide) (by decide)
      · refine ⟨.value (.integer (by unfold i64; decide)), rc _ (by decide) (by decide), by simp, ?_⟩
        intro v hv
        rw [List.mem_singleton] at hv; subst hv
        exact .value (.root z)

/-- The theorems apply to it. -/
example (f : Fmt) (flt : Str → Option F64) : parseSelector flt (Selector.display f exSelector) = .ok exSelector :=
  C49_selector_roundTrip f flt exSelector (exSelector_printable f flt)

/-- The text of the example, and the parser on it, by evaluation. -/
example (f : Fmt) (flt : Str → Option F64) : Selector.display f exSelector =
      %s"resource [trait|range|(keys) > 1, -20 i] ~> -[member, input]-> :test(string, [id]) $x(<) ${x} [@tr: @{a|\"b c\"} {<<} a.b#C && 1 = _z]" ∧
    parseSelector flt (Selector.display f exSelector) = .ok exSelector := ⟨by rfl, by rfl⟩

/-! ### What is not read back -/

/-- A selector with one attribute comparison. -/
def oneComparison (c : AttributeComparison) : Selector := [.attributeSelector ⟨⟨%s"a", []⟩, some c⟩]

/-- **C49.** No text at all is read as a comparison with `>=` or `<=`, although `number_greater_or_equal` and
`number_less_or_equal` make them. -/
theorem C49_violation_orEqual (flt : Str → Option F64) (x : Str) (n : Number) :
    parseSelector flt x ≠ .ok (oneComparison (.numberGreaterOrEqual n)) ∧ parseSelector flt x ≠ .ok (oneComparison (.numberLessOrEqual n)) := by
  have key : ∀ c, parseSelector flt x = .ok (oneComparison c) → ReadableComparator c.comparator := by
    intro c h
    rcases C50_selector_outcome flt x with ⟨_, h'⟩ | ⟨s', h', hs⟩ | ⟨e, h', _⟩
    · rw [h] at h'; cases h'
    · rw [h] at h'; cases h'
      cases hs with
      | mk _ he =>
        have := he _ (List.mem_singleton.mpr rfl)
        cases this with
        | attr _ hc => exact (hc c rfl).1
    · rw [h] at h'; cases h'
  exact ⟨fun h => (key _ h).1 rfl, fun h => (key _ h).2 rfl⟩

/-- **C49.** A text with a double quote inside is written, but never read back: here the text is rejected; and a value made by
`string_starts_with` from a text is such a value. The empty text is not read back either. -/
theorem C49_violation_text (f : Fmt) (flt : Str → Option F64) :
    parseSelector flt (Selector.display f (oneComparison (.stringStartsWith f (.text %s"x")))) = .error (.deserialization %s"Smithy" %s"pest" none) ∧
    parseSelector flt (Selector.display f (oneComparison (.stringEqual (.text [])))) = .error (.deserialization %s"Smithy" %s"pest" none) :=
  ⟨by rfl, by rfl⟩

/-- **C49.** A text can also be read back as another selector: text with a quote, a comma and a quote becomes two values; a
float that is written without a fraction (as `1.0` is) becomes an integer. -/
theorem C49_violation_changed (f : Fmt) (flt : Str → Option F64) (x : F64) (hx : f.float x = %s"1") :
    parseSelector flt (Selector.display f (oneComparison (.stringEqual (.text ['a', '"', ',', '"', 'b'])))) =
      .ok (oneComparison ⟨.stringEqual, [.text %s"a", .text %s"b"], false⟩) ∧
    parseSelector flt (Selector.display f (oneComparison (.stringEqual (.number (.float x))))) =
      .ok (oneComparison (.stringEqual (.number (.integer 1)))) := by
  refine ⟨by rfl, ?_⟩
  have : Selector.display f (oneComparison (.stringEqual (.number (.float x)))) = %s"[a = 1]" := by
    simp [oneComparison, Selector.display, displayExpressions, SelectorExpression.display, AttributeSelector.display, SelKey.display,
      AttributeComparison.stringEqual, AttributeComparison.new, AttributeComparison.display, SelValue.display, showNumber, hx, joinWith,
      Comparator.display, caseSuffix]
  rw [this]
  rfl

/-- **C49.** Identifiers that `Identifier` accepts but the grammar of selectors does not: two leading underscores. -/
theorem C49_violation_identifier (f : Fmt) (flt : Str → Option F64) :
    Identifier.fromStr %s"__x" = .ok %s"__x" ∧
    parseSelector flt (Selector.display f [.variableReference %s"__x"]) = .error (.deserialization %s"Smithy" %s"pest" none) :=
  ⟨by rfl, by rfl⟩

/-- **C50.** Each kind of outcome occurs: a selector, an error of the grammar, a panic for a number that does not fit, and an
error for an unknown shape type. -/
theorem C50_outcomes_occur (flt : Str → Option F64) :
    parseSelector flt %s"[a = 'it\"]" = .error (.deserialization %s"Smithy" %s"pest" none) ∧
    parseSelector flt %s" [ a|(b) = 'x' ] " = .ok [.attributeSelector ⟨⟨%s"a", [.functionProperty %s"b"]⟩, some ⟨.stringEqual, [.text %s"x"], false⟩⟩] ∧
    parseSelector flt %s"[a = 9223372036854775808]" = .error .panic ∧
    parseSelector flt %s"[a = 1e3]" = .error .panic ∧
    parseSelector flt %s"thing" = .error (.invalidSelector %s"thing") := ⟨by rfl, by rfl, by rfl, by rfl, by rfl⟩

end Verif
