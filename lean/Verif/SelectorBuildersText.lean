/-
The texts of selectors that are built with the API (C85, C86).
-/
import Verif.SelectorBuildersProps

namespace Verif.SelApi
open Spec Spec.SelApi SelParser

theorem digit_quotable {c : Char} (h : c.isDigit = true) : Quotable c := by
  have h1 : 48 ≤ c.toNat ∧ c.toNat ≤ 57 := by
    simp only [Char.isDigit, Bool.and_eq_true, decide_eq_true_eq] at h
    exact ⟨h.1, h.2⟩
  refine ⟨by omega, ?_, ?_⟩
  · rintro rfl; revert h1; decide
  · rintro rfl; revert h1; decide

theorem number_text {f : Fmt} {flt : Str → Option F64} {n : Number} (h : PrintableValue f flt (.number n)) :
    PrintableValue f flt (.text (showNumber f n)) := by
  have sign_ok : ∀ {sign : Str}, sign = [] ∨ sign = ['-'] → ∀ c ∈ sign, Quotable c := by
    rintro _ (rfl | rfl) c hc
    · cases hc
    · rw [List.mem_singleton.mp hc]; unfold Quotable; decide
  cases h with
  | integer hn =>
    rename_i n
    obtain ⟨sign, int, h1, h2, h3⟩ := showInt_parts n
    change PrintableValue f flt (.text (showInt n))
    rw [h3]
    refine .text (fun h => h2.1.1 (List.append_eq_nil_iff.mp h).2) fun c hc => ?_
    rcases List.mem_append.mp hc with hc | hc
    · exact sign_ok h1 c hc
    · exact digit_quotable (h2.1.2 c hc)
  | float h1 h2 =>
    rename_i x
    obtain ⟨sign, int, frac, hs, hi, hf, he⟩ := h1
    change PrintableValue f flt (.text (f.float x))
    rw [he]
    refine .text (by simp) fun c hc => ?_
    rcases List.mem_append.mp hc with hc | hc
    · rcases List.mem_append.mp hc with hc | hc
      · exact sign_ok hs c hc
      · exact digit_quotable (hi.1.2 c hc)
    · rcases List.mem_cons.mp hc with rfl | hc
      · unfold Quotable; decide
      · exact digit_quotable (hf.2 c hc)

theorem bool_text {f : Fmt} {flt : Str → Option F64} (b : Bool) : PrintableValue f flt (.text (showBool b)) := by
  cases b
  · exact .text (by decide) (by unfold Quotable; decide)
  · exact .text (by decide) (by unfold Quotable; decide)

section
variable {f : Fmt} {flt : Str → Option F64}

theorem segment_readable {c : PathCall} {s : KeyPathSegment} (hc : ReadablePath f flt c) (hs : segment c = some s) : PrintableSegment f flt s := by
  cases c <;> cases hs
  · exact hc
  · exact .value (.root hc)
  · exact .value hc
  · exact .value hc
  · exact .value hc
  · exact .property hc

theorem path_readable {calls : List PathCall} {p : List KeyPathSegment} (hc : ∀ c ∈ calls, ReadablePath f flt c) (hp : HasPath calls p) :
    ∀ s ∈ p, PrintableSegment f flt s := by
  have seg : ∀ {l : List PathCall} {added : List KeyPathSegment}, (∀ c ∈ l, ReadablePath f flt c) → l.map segment = added.map some →
      ∀ s ∈ added, PrintableSegment f flt s := by
    intro l added hl h s hs
    have : some s ∈ l.map segment := h ▸ List.mem_map_of_mem hs
    obtain ⟨c, hc, he⟩ := List.mem_map.mp this
    exact segment_readable (hl c hc) he
  rcases hp with ⟨added, h, rfl⟩ | ⟨before, q, after, added, rfl, ha, rfl⟩
  · exact seg hc h
  · intro s hs
    rcases List.mem_append.mp hs with hs | hs
    · exact hc (.path q) (by simp) s hs
    · exact seg (fun c h => hc c (by simp [h])) ha s hs

theorem readable_comparators : ReadableComparator .stringEqual ∧ ReadableComparator .stringNotEqual ∧ ReadableComparator .stringStartsWith ∧
    ReadableComparator .stringEndsWith ∧ ReadableComparator .stringContains ∧ ReadableComparator .stringExists ∧ ReadableComparator .numberGreaterThan ∧
    ReadableComparator .numberLessThan ∧ ReadableComparator .projectionEqual ∧ ReadableComparator .projectionNotEqual ∧
    ReadableComparator .projectionSubset ∧ ReadableComparator .projectionProperSubset := by
  unfold ReadableComparator; decide

theorem stringCompare_eq (c : Comparator) (rhs : List SelValue) (i : Bool) : stringCompare c rhs i = ⟨c, rhs, i⟩ := by cases i <;> rfl

theorem string_readable {c : Comparator} {rhs : List SelValue} {i : Bool} (hc : ReadableComparator c) (h : ReadableValues f flt rhs) :
    PrintableComparison f flt (stringCompare c rhs i) := by
  rw [stringCompare_eq]; exact ⟨hc, h.1, h.2⟩

theorem compare_readable {c : CompareCall} (hc : ReadableCompare f flt c) : PrintableComparison f flt c.run := by
  obtain ⟨r1, r2, r3, r4, r5, r6, r7, r8, r9, r10, r11, r12⟩ := readable_comparators
  have num : ∀ {k : Comparator} {rhs : List Number}, ReadableComparator k → ReadableNumbers f flt rhs → PrintableComparison f flt (.new k (rhs.map .number)) := by
    intro k rhs hk h
    refine ⟨hk, by simpa [AttributeComparison.new] using h.1, fun v hv => ?_⟩
    obtain ⟨n, hn, rfl⟩ := List.mem_map.mp hv
    exact h.2 n hn
  cases c with
  | compare c => exact hc
  | stringCompare c rhs i => exact string_readable hc.1 hc.2
  | stringEqual rhs i => exact string_readable r1 hc
  | stringNotEqual rhs i => exact string_readable r2 hc
  | stringStartsWith rhs i => exact string_readable r3 hc
  | stringEndsWith rhs i => exact string_readable r4 hc
  | stringContains rhs i => exact string_readable r5 hc
  | stringExists b i =>
    exact string_readable r6 ⟨List.cons_ne_nil _ _, fun v hv => List.mem_singleton.mp hv ▸ bool_text b⟩
  | numberGreater rhs => exact num r7 hc
  | numberGreaterOrEqual rhs => exact hc.elim
  | numberLess rhs => exact num r8 hc
  | numberLessOrEqual rhs => exact hc.elim
  | projectionEqual rhs => exact ⟨r9, hc.1, hc.2⟩
  | projectionNotEqual rhs => exact ⟨r10, hc.1, hc.2⟩
  | projectionSubset rhs => exact ⟨r11, hc.1, hc.2⟩
  | projectionProperSubset rhs => exact ⟨r12, hc.1, hc.2⟩

theorem assert_readable {c : AssertCall} (hc : ReadableAssert f flt c) : PrintableAssertion f flt (c.run f) := by
  obtain ⟨r1, r2, r3, r4, r5, r6, r7, r8, r9, r10, r11, r12⟩ := readable_comparators
  have one : ∀ {lhs rhs : ScopedValue} {k : Comparator} {i : Bool}, ReadableComparator k → PrintableScoped f flt lhs ∧ PrintableScoped f flt rhs →
      PrintableAssertion f flt ⟨lhs, k, [rhs], i⟩ := by
    intro lhs rhs k i hk h
    exact ⟨h.1, hk, List.cons_ne_nil _ _, fun v hv => List.mem_singleton.mp hv ▸ h.2⟩
  cases c with
  | assertion a => exact hc
  | stringAssertion lhs c rhs i => exact ⟨hc.2.1, hc.1, hc.2.2.1, hc.2.2.2⟩
  | stringEqual lhs rhs i => exact one r1 hc
  | stringNotEqual lhs rhs i => exact one r2 hc
  | stringStartsWith lhs rhs i => exact one r3 hc
  | stringEndsWith lhs rhs i => exact one r4 hc
  | stringContains lhs rhs i => exact one r5 hc
  | stringExists lhs b => exact one r6 ⟨hc, .value (bool_text b)⟩
  | numberGreater lhs n => exact one r7 ⟨hc.1, .value (number_text hc.2)⟩
  | numberGreaterOrEqual lhs n => exact hc.elim
  | numberLess lhs n => exact one r8 ⟨hc.1, .value (number_text hc.2)⟩
  | numberLessOrEqual lhs n => exact hc.elim
  | projectionEqual lhs rhs => exact one r9 hc
  | projectionNotEqual lhs rhs => exact one r10 hc
  | projectionSubset lhs rhs => exact ⟨hc.1, r11, hc.2.1, hc.2.2⟩
  | projectionProperSubset lhs rhs => exact ⟨hc.1, r12, hc.2.1, hc.2.2⟩

theorem known_ident (k : KnownFn) : SmithyIdent (knownName k) := by
  cases k
  · exact .plain (by decide) (by decide)
  · exact .plain (by decide) (by decide)
  · exact .plain (by decide) (by decide)
  · exact .plain (by decide) (by decide)

theorem asks_readable {p : AttributeProgram} {a : AttributeSelector} (hk : SmithyIdent (keyName p.key))
    (hp : ∀ c ∈ pathCalls p.calls, ReadablePath f flt c) (hc : ∀ c ∈ compareCalls p.calls, ReadableCompare f flt c) (ha : Asks p a) :
    PrintableExpression f flt (.attributeSelector a) := by
  obtain ⟨h1, h2, h3⟩ := ha
  refine .attr ⟨h1 ▸ hk, path_readable hp h2⟩ fun c hcmp => ?_
  rw [hcmp] at h3
  cases hl : (compareCalls p.calls).getLast? with
  | none => rw [hl] at h3; cases h3
  | some x =>
    rw [hl] at h3
    have : c = x.run := shown_inj ((Option.some.inj h3).trans (wanted_eq x))
    rw [this]
    exact compare_readable (hc x (List.mem_of_getLast? hl))

theorem asksScoped_readable {p : ScopedProgram} {a : ScopedAttributeSelector} (hk : ∀ n, p.key = some n → SmithyIdent (keyName n))
    (hp : ∀ c ∈ scopedPathCalls p.calls, ReadablePath f flt c) (hc : ∀ c ∈ assertCalls p.calls, ReadableAssert f flt c) (hb : ¬ BadScoped p)
    (ha : AsksScoped f p a) : PrintableExpression f flt (.scopedAttributeSelector a) := by
  obtain ⟨h1, h2⟩ := ha
  have h3 := (map_asserted f _ _).mp h2
  refine .scopedAttr (fun k hkk => ?_) (fun h => hb (.inl ?_)) fun x hx => ?_
  · cases hpk : p.key with
    | none => rw [hpk] at h1; rw [h1] at hkk; cases hkk
    | some n =>
      rw [hpk] at h1
      obtain ⟨path, hpath, he⟩ := h1
      rw [he] at hkk; cases hkk
      exact ⟨hk n hpk, path_readable hp hpath⟩
  · rw [h] at h3; exact List.map_eq_nil_iff.mp h3
  · rw [← h3] at hx
    obtain ⟨c, hcc, rfl⟩ := List.mem_map.mp hx
    exact assert_readable (hc c hcc)

theorem mem_pairs {α β : Type} {l : List α} {l' : List β} (h : l'.length = l.length) {y : β} (hy : y ∈ l') :
    ∃ (i : Nat) (x : α), l[i]? = some x ∧ l'[i]? = some y := by
  obtain ⟨i, hi, rfl⟩ := List.mem_iff_getElem.mp hy
  have hi' : i < l.length := h ▸ hi
  exact ⟨i, l[i], List.getElem?_eq_getElem hi', List.getElem?_eq_getElem hi⟩

theorem mem_pairs' {α β : Type} {l : List α} {l' : List β} (h : l'.length = l.length) {x : α} (hx : x ∈ l) :
    ∃ (i : Nat) (y : β), l[i]? = some x ∧ l'[i]? = some y := by
  obtain ⟨i, hi, rfl⟩ := List.mem_iff_getElem.mp hx
  have hi' : i < l'.length := by omega
  exact ⟨i, l'[i], List.getElem?_eq_getElem hi, List.getElem?_eq_getElem hi'⟩

mutual
  theorem call_readable : ∀ (c : Call) (e : SelectorExpression), Readable f flt c → Adds f c e → PrintableExpression f flt e
    | .add x, e, hr, ha => by cases ha; cases hr with | add h => exact h
    | .shape t, e, hr, ha => by cases ha; exact .shapeType
    | .shapeFn g, e, hr, ha => by cases ha; exact .shapeType
    | .functionFrom n args, e, hr, ha => by
      have ih := args_readable args
      cases ha with
      | functionFrom h1 h2 h3 => cases hr with | functionFrom hn hp =>
        exact .function hn (fun h => by subst h; exact h1 (List.eq_nil_of_length_eq_zero h2.symm)) fun s hs => by
          obtain ⟨i, p, hi, hs⟩ := mem_pairs h2 hs
          exact ih p (List.mem_of_getElem? hi) s (hp p (List.mem_of_getElem? hi)) (h3 i p s hi hs)
    | .known k args, e, hr, ha => by
      have ih := args_readable args
      cases ha with
      | known h1 h2 h3 => cases hr with | known hp =>
        exact .function (known_ident k) (fun h => by subst h; exact h1 (List.eq_nil_of_length_eq_zero h2.symm)) fun s hs => by
          obtain ⟨i, p, hi, hs⟩ := mem_pairs h2 hs
          exact ih p (List.mem_of_getElem? hi) s (hp p (List.mem_of_getElem? hi)) (h3 i p s hi hs)
    | .neighbor n, e, hr, ha => by cases ha; cases hr with | neighbor h => exact h
    | .forwardUndirected, e, hr, ha => by cases ha; exact .forward
    | .reverseUndirected, e, hr, ha => by cases ha; exact .reverse
    | .forwardRecursiveDirected, e, hr, ha => by cases ha; exact .recursive
    | .forwardDirected p, e, hr, ha => by cases ha; cases hr with | forwardDirected h => exact .forwardDirected h
    | .reverseDirected p, e, hr, ha => by cases ha; cases hr with | reverseDirected h => exact .reverseDirected h
    | .variableReferenceFrom n, e, hr, ha => by cases ha; cases hr with | variableReferenceFrom h => exact .refer h
    | .variableDefinitionFrom n p, e, hr, ha => by
      have ih := program_readable p
      cases ha with | variableDefinitionFrom hb => cases hr with | variableDefinitionFrom hn hp => exact .define hn (ih _ hp hb)
    | .attributeFrom k c, e, hr, ha => by cases ha; cases hr with | attributeFrom h => exact h
    | .attribute p, e, hr, ha => by cases ha with | attr h => cases hr with | attr h1 h2 h3 => exact asks_readable h1 h2 h3 h
    | .scopedAttribute p, e, hr, ha => by
      cases ha with | scopedAttr hb h => cases hr with | scopedAttr h1 h2 h3 => exact asksScoped_readable h1 h2 h3 hb h
  theorem program_readable : ∀ (p : Program) (s : Selector), ReadableProgram f flt p → Builds f p s → PrintableSelector f flt s
    | .mk c cs, s, hr, hb => by
      have ih := call_readable c
      have ih' := calls_readable cs
      cases hr with | mk hr => cases hb with | mk h1 h2 =>
        refine .mk (fun h => by subst h; cases h1) fun e he => ?_
        obtain ⟨i, x, hx, hi⟩ := mem_pairs (l := c :: cs) h1 he
        have hm := List.mem_of_getElem? hx
        rcases List.mem_cons.mp hm with rfl | hm'
        · exact ih e (hr _ hm) (h2 i _ e hx hi)
        · exact ih' x hm' e (hr _ hm) (h2 i _ e hx hi)
  theorem calls_readable : ∀ (cs : List Call), ∀ c ∈ cs, ∀ (e : SelectorExpression), Readable f flt c → Adds f c e → PrintableExpression f flt e
    | [], c, h => by cases h
    | d :: cs, c, h => by
      have ih := call_readable d
      have ih' := calls_readable cs c
      rcases List.mem_cons.mp h with h | h
      · rw [h]; exact ih
      · exact ih' h
  theorem args_readable : ∀ (ps : List Program), ∀ p ∈ ps, ∀ (s : Selector), ReadableProgram f flt p → Builds f p s → PrintableSelector f flt s
    | [], c, h => by cases h
    | d :: cs, c, h => by
      have ih := program_readable d
      have ih' := args_readable cs c
      rcases List.mem_cons.mp h with h | h
      · rw [h]; exact ih
      · exact ih' h
end
end

/-- C85: the text of a selector that was built is read as that selector, if the names are those of the grammar, the values can be written, and there are
no comparisons with `>=` or `<=` or with nothing. -/
theorem C85_reads (f : Fmt) (flt : Str → Option F64) (p : Program) (s : Selector) (h : ReadableProgram f flt p) (hs : p.run f = .ok s) :
    parseSelector flt (Selector.display f s) = .ok s :=
  C49_selector_roundTrip f flt s (program_readable p s h ((program_ok f p s).mp hs))

/-! ### What is never read -/

section
variable {f : Fmt} {V : SelValue → Prop}

theorem noText_not {α : Type} {c : Comparator} {rhs : List α} (h : NoText c.display rhs) : ¬ (ReadableComparator c ∧ rhs ≠ []) := by
  rintro ⟨⟨h1, h2⟩, h3⟩
  rcases h with h | h | h
  · exact h1 (comparator_inj (b := .numberGreaterOrEqual) h)
  · exact h2 (comparator_inj (b := .numberLessOrEqual) h)
  · exact h3 h

mutual
  theorem call_hopeless : ∀ (c : Call) (e : SelectorExpression), Hopeless f c → Adds f c e → ¬ ExpressionOver V e
    | .add x, e, hr, ha => by cases hr
    | .shape t, e, hr, ha => by cases hr
    | .shapeFn g, e, hr, ha => by cases hr
    | .functionFrom n args, e, hr, ha => by
      have ih := args_hopeless args
      cases ha with
      | functionFrom h1 h2 h3 => cases hr with | argument hp hh =>
        intro hv
        cases hv with
        | function _ _ hv =>
          obtain ⟨i, s, hi, hs⟩ := mem_pairs' h2 hp
          exact ih _ hp s hh (h3 i _ s hi hs) (hv s (List.mem_of_getElem? hs))
    | .known k args, e, hr, ha => by
      have ih := args_hopeless args
      cases ha with
      | known h1 h2 h3 => cases hr with | knownArgument hp hh =>
        intro hv
        cases hv with
        | function _ _ hv =>
          obtain ⟨i, s, hi, hs⟩ := mem_pairs' h2 hp
          exact ih _ hp s hh (h3 i _ s hi hs) (hv s (List.mem_of_getElem? hs))
    | .neighbor n, e, hr, ha => by cases hr
    | .forwardUndirected, e, hr, ha => by cases hr
    | .reverseUndirected, e, hr, ha => by cases hr
    | .forwardRecursiveDirected, e, hr, ha => by cases hr
    | .forwardDirected p, e, hr, ha => by cases ha; cases hr; intro h; cases h with | forwardDirected h => exact h.1 rfl
    | .reverseDirected p, e, hr, ha => by cases ha; cases hr; intro h; cases h with | reverseDirected h => exact h.1 rfl
    | .variableReferenceFrom n, e, hr, ha => by cases hr
    | .variableDefinitionFrom n p, e, hr, ha => by
      have ih := program_hopeless p
      cases ha with | variableDefinitionFrom hb => cases hr with | definition hp => intro h; cases h with | define _ h => exact ih _ hp hb h
    | .attributeFrom k c, e, hr, ha => by cases hr
    | .attribute p, e, hr, ha => by
      cases ha with | attr h => cases hr with | attr hl hn =>
        obtain ⟨-, -, h3⟩ := h
        intro hv
        cases hv with
        | attr _ hc =>
          rename_i a _ _
          cases hac : a.comparison with
          | none => rw [hac, hl] at h3; cases h3
          | some c =>
            rw [hac, hl] at h3
            have h3 := Option.some.inj h3
            rw [← h3] at hn
            exact noText_not hn ⟨(hc c hac).1, (hc c hac).2.1⟩
    | .scopedAttribute p, e, hr, ha => by
      cases ha with | scopedAttr hb h => cases hr with | scopedAttr hm hn =>
        have h3 := (map_asserted f _ _).mp h.2
        intro hv
        cases hv with
        | scopedAttr _ _ hc =>
          have := hc _ (h3 ▸ List.mem_map_of_mem hm)
          rw [asserted_eq] at hn
          exact noText_not hn ⟨this.2.1, this.2.2.1⟩
  theorem program_hopeless : ∀ (p : Program) (s : Selector), HopelessProgram f p → Builds f p s → ¬ SelectorOver V s
    | .mk c cs, s, hr, hb => by
      have ih := call_hopeless c
      have ih' := calls_hopeless cs
      cases hr with | mk hm hr => cases hb with | mk h1 h2 =>
        intro hv
        cases hv with
        | mk _ hv =>
          obtain ⟨i, e, hx, hi⟩ := mem_pairs' (l := c :: cs) h1 hm
          have he := hv e (List.mem_of_getElem? hi)
          have ha := h2 i _ e hx hi
          rcases List.mem_cons.mp hm with hm' | hm'
          · rw [hm'] at hr ha; exact ih e hr ha he
          · exact ih' _ hm' e hr ha he
  theorem calls_hopeless : ∀ (cs : List Call), ∀ c ∈ cs, ∀ (e : SelectorExpression), Hopeless f c → Adds f c e → ¬ ExpressionOver V e
    | [], c, h => by cases h
    | d :: cs, c, h => by
      have ih := call_hopeless d
      have ih' := calls_hopeless cs c
      rcases List.mem_cons.mp h with h | h
      · rw [h]; exact ih
      · exact ih' h
  theorem args_hopeless : ∀ (ps : List Program), ∀ p ∈ ps, ∀ (s : Selector), HopelessProgram f p → Builds f p s → ¬ SelectorOver V s
    | [], c, h => by cases h
    | d :: cs, c, h => by
      have ih := program_hopeless d
      have ih' := args_hopeless cs c
      rcases List.mem_cons.mp h with h | h
      · rw [h]; exact ih
      · exact ih' h
end
end

/-- C85, where it fails: no text is read as a selector that was built with `>=` or `<=`, with a comparison with nothing, or with no relationships. -/
theorem C85_never_read (f : Fmt) (flt : Str → Option F64) (p : Program) (s : Selector) (h : HopelessProgram f p) (hs : p.run f = .ok s) (x : Str) :
    parseSelector flt x ≠ .ok s := by
  intro hx
  rcases C50_selector_outcome flt x with ⟨_, h'⟩ | ⟨s', h', hv⟩ | ⟨e, h', _⟩
  · rw [hx] at h'; cases h'
  · rw [hx] at h'; cases h'
    exact program_hopeless p s h ((program_ok f p s).mp hs) hv
  · rw [hx] at h'; cases h'

/-! ### Numbers -/

/-- The calls that compare with a number. -/
inductive NumberCall : AssertCall → Number → Prop
  | greater {lhs : ScopedValue} {n : Number} : NumberCall (.numberGreater lhs n) n
  | greaterOrEqual {lhs : ScopedValue} {n : Number} : NumberCall (.numberGreaterOrEqual lhs n) n
  | less {lhs : ScopedValue} {n : Number} : NumberCall (.numberLess lhs n) n
  | lessOrEqual {lhs : ScopedValue} {n : Number} : NumberCall (.numberLessOrEqual lhs n) n

/-- C86, where it fails: a scoped attribute that is compared with a number is compared with a text instead, in every selector that is built. -/
theorem C86_scoped_text (f : Fmt) (p : ScopedProgram) (a : ScopedAttributeSelector) (h : p.run f = .ok a) (c : AssertCall) (hc : .assert c ∈ p.calls)
    (n : Number) (hn : NumberCall c n) :
    ∃ x ∈ a.assertions, x.rhsValues = [.value (.text (showNumber f n))] ∧ x.rhsValues ≠ [.value (.number n)] := by
  have h3 := (map_asserted f _ _).mp ((scoped_ok f p a).mp h).2.2
  have hm : c ∈ assertCalls p.calls := List.mem_filterMap.mpr ⟨_, hc, rfl⟩
  refine ⟨c.run f, h3 ▸ List.mem_map_of_mem hm, ?_⟩
  cases hn <;> exact ⟨rfl, fun he => by cases he⟩

/-- C86: an attribute is compared with numbers. -/
theorem C86_attribute_number (key : KeyName) (calls : List AttributeCall) (rhs : List Number) (c : CompareCall)
    (hc : c = .numberGreater rhs ∨ c = .numberGreaterOrEqual rhs ∨ c = .numberLess rhs ∨ c = .numberLessOrEqual rhs) (a : AttributeSelector)
    (ha : Asks ⟨key, calls ++ [.compare c]⟩ a) : ∃ k, a.comparison = some k ∧ k.rhsValues = rhs.map .number := by
  obtain ⟨-, -, h3⟩ := ha
  have hl : (compareCalls (calls ++ [.compare c])).getLast? = some c := by
    unfold compareCalls
    rw [List.filterMap_append]
    exact List.getLast?_concat
  rw [hl] at h3
  cases hk : a.comparison with
  | none => rw [hk] at h3; cases h3
  | some k =>
    rw [hk] at h3
    have := Option.some.inj h3
    refine ⟨k, rfl, ?_⟩
    rcases hc with rfl | rfl | rfl | rfl <;> exact congrArg (·.2.1) this

/-! ### Examples -/

/-- `resource [id|a|(keys) ^= "x" i] -[member]-> :not(string, [@trait: @{a} > "5"]) $v(<) ${v}` -/
def exProgram : Program := .mk (.shapeFn .resource) [
  .attribute ⟨.id, [.path (.forText %s"old"), .compare (.numberGreater []), .path (.path [.value (.rootShapeId %s"a")]), .path (.forFunction %s"keys"),
    .compare (.stringStartsWith [.text %s"x"] true)]⟩,
  .forwardDirected [%s"member"],
  .known .not [.mk (.shape .string) [], .mk (.scopedAttribute ⟨some .traits, [.assert (.numberGreater (.contextValue [.value (.rootShapeId %s"a")]) (.integer 5))]⟩) []],
  .variableDefinitionFrom %s"v" (.mk .reverseUndirected []),
  .variableReferenceFrom %s"v"]

/-- What it builds. -/
def exBuilt : Selector := [.shapeType .resource,
  .attributeSelector ⟨⟨%s"id", [.value (.rootShapeId %s"a"), .functionProperty %s"keys"]⟩, some ⟨.stringStartsWith, [.text %s"x"], true⟩⟩,
  .neighborSelector (.forwardDirected [%s"member"]),
  .function %s"not" [[.shapeType .string],
    [.scopedAttributeSelector ⟨some ⟨%s"trait", []⟩, [⟨.contextValue [.value (.rootShapeId %s"a")], .numberGreaterThan, [.value (.text %s"5")], false⟩]⟩]],
  .variableDefinition %s"v" [.neighborSelector .reverseUndirected], .variableReference %s"v"]

theorem exProgram_runs (f : Fmt) : exProgram.run f = .ok exBuilt := by rfl

example (f : Fmt) (flt : Str → Option F64) : Selector.display f exBuilt =
    %s"resource [id|a|(keys) ^= \"x\" i] -[member]-> :not(string, [@trait: @{a} > \"5\"]) $v(<) ${v}" ∧
    parseSelector flt (Selector.display f exBuilt) = .ok exBuilt := ⟨by rfl, by rfl⟩

/-- A program that meets the hypotheses of `C85_reads`. -/
def exReadable : Program := .mk (.shapeFn .resource) [
  .attribute ⟨.id, [.path (.forFunction %s"keys"), .compare (.stringStartsWith [.text %s"x"] true)]⟩,
  .known .not [.mk (.scopedAttribute ⟨some .traits, [.assert (.numberGreater (.contextValue [.value (.rootShapeId %s"a")]) (.integer 5))]⟩) []]]

example (f : Fmt) (flt : Str → Option F64) : ReadableProgram f flt exReadable ∧ ∃ s, exReadable.run f = .ok s := by
  have i1 : SmithyIdent %s"id" := .plain (by decide) (by decide)
  have i2 : SmithyIdent %s"keys" := .plain (by decide) (by decide)
  have i3 : SmithyIdent %s"trait" := .plain (by decide) (by decide)
  have i4 : SmithyIdent %s"a" := .plain (by decide) (by decide)
  refine ⟨.mk fun x hx => ?_, _, rfl⟩
  simp only [List.mem_cons, List.not_mem_nil, or_false] at hx
  rcases hx with rfl | rfl | rfl
  · exact .shapeFn
  · refine .attr i1 (fun c hc => ?_) fun c hc => ?_
    · rw [List.mem_singleton.mp hc]; exact i2
    · rw [List.mem_singleton.mp hc]
      exact ⟨List.cons_ne_nil _ _, fun v hv => List.mem_singleton.mp hv ▸ .text (by decide) (by unfold Quotable; decide)⟩
  · refine .known fun p hp => ?_
    rw [List.mem_singleton.mp hp]
    refine .mk fun x hx => ?_
    rw [List.mem_singleton.mp hx]
    refine .scopedAttr (fun n hn => ?_) (fun c hc => ?_) fun c hc => ?_
    · cases hn; exact i3
    · cases hc
    · rw [List.mem_singleton.mp hc]
      refine ⟨.context (List.cons_ne_nil _ _) fun s hs => ?_, .integer (by unfold i64; decide)⟩
      rw [List.mem_singleton.mp hs]
      exact .value (.root i4)

/-- Programs that are never read, and programs that panic. -/
example (f : Fmt) :
    (HopelessProgram f (.mk (.attribute ⟨.var, [.compare (.numberLessOrEqual [.integer 1])]⟩) []) ∧
      (Program.mk (.attribute ⟨.var, [.compare (.numberLessOrEqual [.integer 1])]⟩) []).run f =
        .ok [.attributeSelector ⟨⟨%s"var", []⟩, some ⟨.numberLessOrEqual, [.number (.integer 1)], false⟩⟩]) ∧
    HopelessProgram f (.mk (.forwardDirected []) []) ∧ BadProgram (.mk (.shape .any) [.known .test []]) ∧
    BadProgram (.mk (.scopedAttribute ⟨none, [.path (.forId %s"a"), .assert (.stringExists (.contextValue []) true)]⟩) []) := by
  refine ⟨⟨.mk List.mem_cons_self (.attr rfl (.inr (.inl rfl))), rfl⟩, .mk List.mem_cons_self .forwardDirected,
    .mk (List.mem_cons_of_mem _ List.mem_cons_self) .knownNoArguments, .mk List.mem_cons_self (.scopedAttr (.inr ⟨rfl, by simp [scopedPathCalls]⟩))⟩

end Verif.SelApi
