/-
Property theorems C114: the parts of selectors can be made, taken apart, compared and edited in place.
-/
import Verif.SelectorEditsSpec
import Verif.SelectorProps
import Verif.ModelLemmas

namespace Verif.SelEdits
open Spec Spec.SelEdits

/-! ### Setters -/

theorem latest {σ ε α : Type} (run : σ → ε → σ) (part : σ → α) (gives : ε → Option α)
    (h : ∀ s e, part (run s e) = (gives e).getD (part s)) (calls : List ε) (s : σ) :
    Latest gives calls (part s) (part (calls.foldl run s)) := by
  induction calls generalizing s with
  | nil => exact .inl ⟨rfl, fun _ hc => nomatch hc⟩
  | cons e post ih =>
    rcases ih (run s e) with ⟨hn, hp⟩ | ⟨before, c, after, he, hg, ha⟩
    · cases hg : gives e with
      | none =>
        refine .inl ⟨?_, ?_⟩
        · rw [List.foldl_cons, hn, h, hg]; rfl
        · intro c hc
          rcases List.mem_cons.mp hc with rfl | hc
          · exact hg
          · exact hp c hc
      | some a =>
        refine .inr ⟨[], e, post, rfl, ?_, hp⟩
        rw [List.foldl_cons, hn, h, hg]; rfl
    · exact .inr ⟨e :: before, c, after, by rw [he]; rfl, hg, ha⟩

theorem foldl_append {α : Type} (xs l : List α) : xs.foldl (fun l x => l ++ [x]) l = l ++ xs := by
  induction xs generalizing l with
  | nil => simp
  | cons x xs ih => rw [List.foldl_cons, ih]; simp

theorem kept_cons {α : Type} (eq : α → α → Bool) (c : ListEdit α) (calls : List (ListEdit α)) (xs : List α) :
    kept eq (c :: calls) xs = kept eq calls (xs.filter fun x => !takes eq x c) := by
  unfold kept
  rw [List.filter_filter]
  apply List.filter_congr
  intro x _
  rw [List.all_cons, Bool.and_comm]

theorem kept_append {α : Type} (eq : α → α → Bool) (calls : List (ListEdit α)) (xs ys : List α) :
    kept eq calls (xs ++ ys) = kept eq calls xs ++ kept eq calls ys := List.filter_append ..

theorem contents {σ ε α : Type} (eq : α → α → Bool) (run : σ → ε → σ) (part : σ → List α) (gives : ε → Option (ListEdit α))
    (h : ∀ s e, part (run s e) = match gives e with | some l => l.run eq (part s) | none => part s) (calls : List ε) (s : σ) :
    Contents eq (calls.filterMap gives) (part s) (part (calls.foldl run s)) := by
  induction calls generalizing s with
  | nil => simp [Contents, kept, gifts]
  | cons e post ih =>
    have hi := ih (run s e)
    unfold Contents at hi ⊢
    rw [List.foldl_cons, hi, h]
    cases hg : gives e with
    | none => rw [List.filterMap_cons_none hg]
    | some l =>
      rw [List.filterMap_cons_some hg, kept_cons, gifts, ← List.append_assoc, ← kept_append]
      congr 2
      cases l with
      | set xs => simp [ListEdit.run, takes, given]
      | add x => simp [ListEdit.run, takes, given]
      | append xs => simp only [ListEdit.run, foldl_append]; simp [takes, given]
      | remove x => simp [ListEdit.run, takes, given]

/-- C114: after any setters each part of a key or of a comparison is what the last setter for it says, and a list is what was in it and
what was added, in order, without what was taken away since; other parts do not matter. -/
theorem C114_comparison (c : AttributeComparison) (calls : List ComparisonEdit) (k : SelKey) (edits : List KeyEdit) :
    Latest ComparisonPart.comparator calls c.comparator (calls.foldl ComparisonEdit.run c).comparator ∧
    Contents SelValue.eq (calls.filterMap ComparisonPart.values) c.rhsValues (calls.foldl ComparisonEdit.run c).rhsValues ∧
    Latest ComparisonPart.caseInsensitive calls c.caseInsensitive (calls.foldl ComparisonEdit.run c).caseInsensitive ∧
    Latest KeyPart.identifier edits k.identifier (edits.foldl KeyEdit.run k).identifier ∧
    Contents KeyPathSegment.eq (edits.filterMap KeyPart.path) k.path (edits.foldl KeyEdit.run k).path :=
  ⟨latest ComparisonEdit.run AttributeComparison.comparator _ (by intro s e; cases e <;> rfl) _ _, contents _ ComparisonEdit.run AttributeComparison.rhsValues _ (by intro s e; cases e <;> rfl) _ _,
    latest ComparisonEdit.run AttributeComparison.caseInsensitive _ (by intro s e; cases e <;> rfl) _ _, latest KeyEdit.run SelKey.identifier _ (by intro s e; cases e <;> rfl) _ _,
    contents _ KeyEdit.run SelKey.path _ (by intro s e; cases e <;> rfl) _ _⟩

/-- C114: the same for attributes, also after a comparison was taken away. -/
theorem C114_attribute (a : AttributeSelector) (calls : List AttributeEdit) :
    Latest AttributePart.key calls a.key (calls.foldl AttributeEdit.run a).key ∧
    Latest AttributePart.comparison calls a.comparison (calls.foldl AttributeEdit.run a).comparison :=
  ⟨latest AttributeEdit.run AttributeSelector.key _ (by intro s e; cases e <;> rfl) _ _, latest AttributeEdit.run AttributeSelector.comparison _ (by intro s e; cases e <;> rfl) _ _⟩

/-- C114: and for scoped attributes and assertions. -/
theorem C114_scoped (a : ScopedAttributeSelector) (calls : List ScopedEdit) (x : ScopedAttributeAssertion) (edits : List AssertionEdit) :
    Latest ScopedPart.key calls a.key (calls.foldl ScopedEdit.run a).key ∧
    Contents ScopedAttributeAssertion.eq (calls.filterMap ScopedPart.assertions) a.assertions (calls.foldl ScopedEdit.run a).assertions ∧
    Latest AssertionPart.lhsValue edits x.lhsValue (edits.foldl AssertionEdit.run x).lhsValue ∧
    Latest AssertionPart.comparator edits x.comparator (edits.foldl AssertionEdit.run x).comparator ∧
    Contents ScopedValue.eq (edits.filterMap AssertionPart.values) x.rhsValues (edits.foldl AssertionEdit.run x).rhsValues ∧
    Latest AssertionPart.caseInsensitive edits x.caseInsensitive (edits.foldl AssertionEdit.run x).caseInsensitive :=
  ⟨latest ScopedEdit.run ScopedAttributeSelector.key _ (by intro s e; cases e <;> rfl) _ _, contents _ ScopedEdit.run ScopedAttributeSelector.assertions _ (by intro s e; cases e <;> rfl) _ _,
    latest AssertionEdit.run ScopedAttributeAssertion.lhsValue _ (by intro s e; cases e <;> rfl) _ _, latest AssertionEdit.run ScopedAttributeAssertion.comparator _ (by intro s e; cases e <;> rfl) _ _,
    contents _ AssertionEdit.run ScopedAttributeAssertion.rhsValues _ (by intro s e; cases e <;> rfl) _ _, latest AssertionEdit.run ScopedAttributeAssertion.caseInsensitive _ (by intro s e; cases e <;> rfl) _ _⟩

/-- C114: and for functions, variables and selectors themselves; a reference made from a definition has the name the definition has then. -/
theorem C114_functions (g : SelFunction) (calls : List FunctionEdit) (d : SelDefinition) (edits : List DefinitionEdit) (s : Selector)
    (adds : List (ListEdit SelectorExpression)) :
    Latest FunctionPart.name calls g.name (calls.foldl FunctionEdit.run g).name ∧
    Contents selectorEq (calls.filterMap FunctionPart.arguments) g.arguments (calls.foldl FunctionEdit.run g).arguments ∧
    Latest DefinitionPart.name edits d.name (edits.foldl DefinitionEdit.run d).name ∧
    Latest DefinitionPart.selector edits d.selector (edits.foldl DefinitionEdit.run d).selector ∧
    Contents SelectorExpression.eq adds s (adds.foldl (ListEdit.run SelectorExpression.eq) s) ∧
    (∀ n, d.newReference = .variableReference n ↔ n = d.name) := by
  refine ⟨latest FunctionEdit.run SelFunction.name _ (by intro s e; cases e <;> rfl) _ _, contents _ FunctionEdit.run SelFunction.arguments _ (by intro s e; cases e <;> rfl) _ _,
    latest DefinitionEdit.run SelDefinition.name _ (by intro s e; cases e <;> rfl) _ _, latest DefinitionEdit.run SelDefinition.selector _ (by intro s e; cases e <;> rfl) _ _, ?_, ?_⟩
  · simpa using contents SelectorExpression.eq (ListEdit.run SelectorExpression.eq) id some (by intro s e; rfl) adds s
  · intro n; simp [SelDefinition.newReference, eq_comm]

/-- A key with a path that is set, extended, and has a segment taken away; and then its name is set. -/
example : ([.path (.set [.functionProperty %s"keys", .value (.text %s"a")]), .path (.append [.functionProperty %s"values", .functionProperty %s"KEYS"]),
      .path (.remove (.functionProperty %s"Keys")), .identifier %s"trait", .path (.add (.functionProperty %s"keys"))] : List KeyEdit).foldl
      KeyEdit.run ⟨%s"id", [.functionProperty %s"length"]⟩ =
    ⟨%s"trait", [.value (.text %s"a"), .functionProperty %s"values", .functionProperty %s"keys"]⟩ := by rfl

/-! ### `==` -/

theorem vec {α : Type} {eq : α → α → Bool} {R : α → α → Prop} (h : ∀ x y, eq x y = true ↔ R x y) (a b : List α) :
    vecEq eq a b = true ↔ ListRel R a b := by simp only [vecEq_iff, h]

theorem opt {α : Type} {eq : α → α → Bool} {R : α → α → Prop} (h : ∀ x y, eq x y = true ↔ R x y) (a b : Option α) :
    optEq eq a b = true ↔ OptRel R a b := by simp only [optEq_iff, h]

theorem name_iff (a b : Str) : identEq a b = true ↔ SameName a b := by simp [identEq, SameName]

theorem value_iff (a b : SelValue) : a.eq b = true ↔ SameValue a b := by
  cases a with
  | text a =>
    cases b with
    | text b => exact ⟨fun h => (beq_iff_eq.mp h) ▸ .text, fun h => by cases h; simp [SelValue.eq]⟩
    | _ => exact ⟨fun h => by simp [SelValue.eq] at h, fun h => by cases h⟩
  | number a =>
    cases b with
    | number b => exact ⟨fun h => .number ((Number.neq_iff _ _).mp h), fun h => by cases h with | number h => exact (Number.neq_iff _ _).mpr h⟩
    | _ => exact ⟨fun h => by simp [SelValue.eq] at h, fun h => by cases h⟩
  | rootShapeId a =>
    cases b with
    | rootShapeId b => exact ⟨fun h => .root ((name_iff _ _).mp h), fun h => by cases h with | root h => exact (name_iff _ _).mpr h⟩
    | _ => exact ⟨fun h => by simp [SelValue.eq] at h, fun h => by cases h⟩
  | absoluteRootShapeId a =>
    cases b with
    | absoluteRootShapeId b => exact ⟨fun h => .absolute h, fun h => by cases h with | absolute h => exact h⟩
    | _ => exact ⟨fun h => by simp [SelValue.eq] at h, fun h => by cases h⟩

theorem segment_iff (a b : KeyPathSegment) : a.eq b = true ↔ SameSegment a b := by
  cases a with
  | value a =>
    cases b with
    | value b => exact ⟨fun h => .value ((value_iff _ _).mp h), fun h => by cases h with | value h => exact (value_iff _ _).mpr h⟩
    | _ => exact ⟨fun h => by simp [KeyPathSegment.eq] at h, fun h => by cases h⟩
  | functionProperty a =>
    cases b with
    | functionProperty b => exact ⟨fun h => .property ((name_iff _ _).mp h), fun h => by cases h with | property h => exact (name_iff _ _).mpr h⟩
    | _ => exact ⟨fun h => by simp [KeyPathSegment.eq] at h, fun h => by cases h⟩

theorem key_iff (a b : SelKey) : a.eq b = true ↔ SameKey a b := by
  simp only [SelKey.eq, SameKey, Bool.and_eq_true, name_iff, vec segment_iff]

theorem comparison_iff (a b : AttributeComparison) : a.eq b = true ↔ SameComparison a b := by
  simp only [AttributeComparison.eq, SameComparison, Bool.and_eq_true, decide_eq_true_eq, vec value_iff, beq_iff_eq, and_assoc]

theorem attribute_iff (a b : AttributeSelector) : a.eq b = true ↔ SameAttribute a b := by
  simp only [AttributeSelector.eq, SameAttribute, Bool.and_eq_true, key_iff, opt comparison_iff]

theorem scopedValue_iff (a b : ScopedValue) : a.eq b = true ↔ SameScopedValue a b := by
  cases a with
  | value a =>
    cases b with
    | value b => exact ⟨fun h => .value ((value_iff _ _).mp h), fun h => by cases h with | value h => exact (value_iff _ _).mpr h⟩
    | _ => exact ⟨fun h => by simp [ScopedValue.eq] at h, fun h => by cases h⟩
  | contextValue a =>
    cases b with
    | contextValue b =>
      exact ⟨fun h => .context ((vec segment_iff _ _).mp h), fun h => by cases h with | context h => exact (vec segment_iff _ _).mpr h⟩
    | _ => exact ⟨fun h => by simp [ScopedValue.eq] at h, fun h => by cases h⟩

theorem assertion_iff (a b : ScopedAttributeAssertion) : a.eq b = true ↔ SameAssertion a b := by
  simp only [ScopedAttributeAssertion.eq, SameAssertion, Bool.and_eq_true, decide_eq_true_eq, vec scopedValue_iff, scopedValue_iff, beq_iff_eq,
    and_assoc]

theorem scoped_iff (a b : ScopedAttributeSelector) : a.eq b = true ↔ SameScoped a b := by
  simp only [ScopedAttributeSelector.eq, SameScoped, Bool.and_eq_true, opt key_iff, vec assertion_iff]

theorem neighbor_iff (a b : NeighborSelector) : a.eq b = true ↔ SameNeighbor a b := by
  constructor
  · intro h
    cases a <;> cases b <;> first
      | exact .forward
      | exact .reverse
      | exact .recursive
      | exact .forwardDirected ((vec name_iff _ _).mp h)
      | exact .reverseDirected ((vec name_iff _ _).mp h)
      | (simp [NeighborSelector.eq] at h)
  · intro h
    cases h with
    | forward => rfl
    | reverse => rfl
    | recursive => rfl
    | forwardDirected h => exact (vec name_iff _ _).mpr h
    | reverseDirected h => exact (vec name_iff _ _).mpr h

mutual
  theorem expression_iff (a b : SelectorExpression) : a.eq b = true ↔ SameExpression a b := by
    cases a with
    | shapeType s =>
      cases b with
      | shapeType t =>
        simp only [SelectorExpression.eq, decide_eq_true_eq]
        exact ⟨fun h => h ▸ .shapeType, fun h => by cases h; rfl⟩
      | _ => exact ⟨fun h => by simp [SelectorExpression.eq] at h, fun h => by cases h⟩
    | attributeSelector a =>
      cases b with
      | attributeSelector b =>
        simp only [SelectorExpression.eq, attribute_iff]
        exact ⟨.attr, fun h => by cases h with | attr h => exact h⟩
      | _ => exact ⟨fun h => by simp [SelectorExpression.eq] at h, fun h => by cases h⟩
    | scopedAttributeSelector a =>
      cases b with
      | scopedAttributeSelector b =>
        simp only [SelectorExpression.eq, scoped_iff]
        exact ⟨.«scoped», fun h => by cases h with | «scoped» h => exact h⟩
      | _ => exact ⟨fun h => by simp [SelectorExpression.eq] at h, fun h => by cases h⟩
    | neighborSelector a =>
      cases b with
      | neighborSelector b =>
        simp only [SelectorExpression.eq, neighbor_iff]
        exact ⟨.neighbor, fun h => by cases h with | neighbor h => exact h⟩
      | _ => exact ⟨fun h => by simp [SelectorExpression.eq] at h, fun h => by cases h⟩
    | function n as =>
      cases b with
      | function m bs =>
        simp only [SelectorExpression.eq, Bool.and_eq_true, name_iff, arguments_iff as bs]
        exact ⟨fun h => .function h.1 h.2, fun h => by cases h with | function h h' => exact ⟨h, h'⟩⟩
      | _ => exact ⟨fun h => by simp [SelectorExpression.eq] at h, fun h => by cases h⟩
    | variableDefinition n as =>
      cases b with
      | variableDefinition m bs =>
        simp only [SelectorExpression.eq, Bool.and_eq_true, name_iff, selector_iff as bs]
        exact ⟨fun h => .define h.1 h.2, fun h => by cases h with | define h h' => exact ⟨h, h'⟩⟩
      | _ => exact ⟨fun h => by simp [SelectorExpression.eq] at h, fun h => by cases h⟩
    | variableReference n =>
      cases b with
      | variableReference m =>
        simp only [SelectorExpression.eq, name_iff]
        exact ⟨.refer, fun h => by cases h with | refer h => exact h⟩
      | _ => exact ⟨fun h => by simp [SelectorExpression.eq] at h, fun h => by cases h⟩
  termination_by structural a

  theorem selector_iff (a b : List SelectorExpression) : selectorEq a b = true ↔ SameSelector a b := by
    cases a with
    | nil =>
      cases b with
      | nil => exact ⟨fun _ => .nil, fun _ => rfl⟩
      | cons => exact ⟨fun h => by simp [selectorEq] at h, fun h => by cases h⟩
    | cons x xs =>
      cases b with
      | nil => exact ⟨fun h => by simp [selectorEq] at h, fun h => by cases h⟩
      | cons y ys =>
        simp only [selectorEq, Bool.and_eq_true, expression_iff x y, selector_iff xs ys]
        exact ⟨fun h => .cons h.1 h.2, fun h => by cases h with | cons h h' => exact ⟨h, h'⟩⟩
  termination_by structural a

  theorem arguments_iff (a b : List (List SelectorExpression)) : argumentsEq a b = true ↔ SameArguments a b := by
    cases a with
    | nil =>
      cases b with
      | nil => exact ⟨fun _ => .nil, fun _ => rfl⟩
      | cons => exact ⟨fun h => by simp [argumentsEq] at h, fun h => by cases h⟩
    | cons x xs =>
      cases b with
      | nil => exact ⟨fun h => by simp [argumentsEq] at h, fun h => by cases h⟩
      | cons y ys =>
        simp only [argumentsEq, Bool.and_eq_true, selector_iff x y, arguments_iff xs ys]
        exact ⟨fun h => .cons h.1 h.2, fun h => by cases h with | cons h h' => exact ⟨h, h'⟩⟩
  termination_by structural a
end

/-- C114: two selectors are `==` exactly if they have the same expressions, with the same texts, numbers that are `==` and names and ids
that are the same but for the case of letters, at any depth. -/
theorem C114_equal (a b : Selector) : selectorEq a b = true ↔ SameSelector a b := selector_iff a b

/-- C114 is violated by the case of letters and by NaNs: different selectors are `==`, with different texts that are read as these two; removing a
segment of a path removes all that differ from it in case, whereas a NaN is not `==` to itself, and is never removed. -/
theorem C114_equal_violated (f : Fmt) (flt : Str → Option F64) :
    (∃ a b : Selector, selectorEq a b = true ∧ a ≠ b ∧ a.display f ≠ b.display f ∧ parseSelector flt (a.display f) = .ok a ∧
      parseSelector flt (b.display f) = .ok b) ∧
    (∀ (a b : Str) (l : List KeyPathSegment), SameName a b → .functionProperty a ∉ (ListEdit.remove (.functionProperty b)).run KeyPathSegment.eq l) ∧
    (∀ (x : F64) (l : List SelValue), x.isNaN = true → (ListEdit.remove (.number (.float x))).run SelValue.eq l = l) := by
  refine ⟨⟨[.variableReference %s"a"], [.variableReference %s"A"], ?_, ?_, ?_, ?_, ?_⟩, ?_, ?_⟩
  · rfl
  · intro h; simp at h
  · intro h; revert h; show %s"${a}" ≠ %s"${A}"; decide
  · rfl
  · rfl
  · intro a b l h hm
    have := (List.mem_filter.mp hm).2
    simp [KeyPathSegment.eq, (name_iff a b).mpr h] at this
  · intro x l hx
    apply List.filter_eq_self.mpr
    intro y _
    cases hy : SelValue.eq y (.number (.float x)) with
    | false => rfl
    | true =>
      exfalso
      cases (value_iff _ _).mp hy with
      | number hn =>
        cases hn with
        | float hn => rw [hx] at hn; cases hn
        | zero hm hm' =>
          have : 0x7ff0000000000000 < x.mag := by simpa [F64.isNaN] using hx
          omega

/-! ### What cannot be read -/

/-- C114 is violated by setters: functions without arguments and scoped attributes without assertions are refused when they are made, but the
setters make them from any function and scoped attribute; and no text at all is read as a selector with one. -/
theorem C114_emptied (flt : Str → Option F64) (x : Str) (g : SelFunction) (a : ScopedAttributeSelector) (s : Selector) :
    SelFunction.new g.name [] = .error .panic ∧ ScopedAttributeSelector.new a.key [] = .error .panic ∧
    (((FunctionEdit.arguments (.set [])).run g).expression ∈ s → parseSelector flt x ≠ .ok s) ∧
    (.scopedAttributeSelector ((ScopedEdit.assertions (.set [])).run a) ∈ s → parseSelector flt x ≠ .ok s) ∧
    parseSelector flt x ≠ .ok [] := by
  have key : ∀ s, parseSelector flt x = .ok s → SelectorOver (ValueIn flt x) s := by
    intro s h
    rcases C50_selector_outcome flt x with ⟨_, h'⟩ | ⟨s', h', hv⟩ | ⟨e, h', _⟩
    · rw [h] at h'; cases h'
    · rw [h] at h'; cases h'; exact hv
    · rw [h] at h'; cases h'
  refine ⟨rfl, rfl, ?_, ?_, ?_⟩
  · intro hm h
    cases key s h with
    | mk _ he => cases he _ hm with | function _ ha _ => exact ha rfl
  · intro hm h
    cases key s h with
    | mk _ he => cases he _ hm with | scopedAttr _ ha _ => exact ha rfl
  · intro h
    cases key [] h with
    | mk hn _ => exact hn rfl

/-- C114 is violated by `string_starts_with`: whatever the value it is given, the comparison, and the assertion, are not about that value,
but about a text with what is printed for it, quotes included; and assertions that are made with a number are about its text. -/
theorem C114_made_text (f : Fmt) (v : SelValue) (lhs rhs : ScopedValue) (n : Number) :
    (AttributeComparison.stringStartsWith f v).rhsValues ≠ [v] ∧
    (ScopedAttributeAssertion.stringStartsWith f lhs rhs).rhsValues ≠ [rhs] ∧
    (∀ t, (AttributeComparison.stringStartsWith f (.text t)).rhsValues = [.text ('"' :: t ++ ['"'])]) ∧
    ScopedAttributeAssertion.numberGreater f lhs n = ⟨lhs, .numberGreaterThan, [.value (.text (showNumber f n))], false⟩ ∧
    ScopedAttributeAssertion.numberGreaterOrEqual f lhs n = ⟨lhs, .numberGreaterOrEqual, [.value (.text (showNumber f n))], false⟩ ∧
    ScopedAttributeAssertion.numberLess f lhs n = ⟨lhs, .numberLessThan, [.value (.text (showNumber f n))], false⟩ ∧
    ScopedAttributeAssertion.numberLessOrEqual f lhs n = ⟨lhs, .numberLessOrEqual, [.value (.text (showNumber f n))], false⟩ := by
  have hv : ∀ v : SelValue, SelValue.text (v.display f) ≠ v := by
    intro v h
    cases v with
    | text s =>
      simp only [SelValue.display, SelValue.text.injEq] at h
      have := congrArg List.length h
      simp only [List.cons_append, List.length_cons, List.length_append, List.length_nil] at this
      omega
    | _ => cases h
  refine ⟨?_, ?_, fun _ => rfl, rfl, rfl, rfl, rfl⟩
  · intro h
    exact hv v (by simpa [AttributeComparison.stringStartsWith, AttributeComparison.new] using h)
  · intro h
    have h' : ScopedValue.value (.text (rhs.display f)) = rhs := by
      simpa [ScopedAttributeAssertion.stringStartsWith, ScopedAttributeAssertion.new] using h
    cases rhs with
    | value v => exact hv v (by simpa [ScopedValue.display] using h')
    | contextValue p => cases h'

/-- C114: all other constructors of comparisons and assertions have the comparator they are named after and the values they are given, and regard
the case of letters. -/
theorem C114_made (lhs rhs : ScopedValue) (l : List ScopedValue) (v : SelValue) (vs : List SelValue) (n : Number) :
    (∀ c, ScopedAttributeAssertion.new lhs c l = ⟨lhs, c, l, false⟩ ∧ ScopedAttributeAssertion.newCaseInsensitive lhs c l = ⟨lhs, c, l, true⟩) ∧
    (∀ c, AttributeComparison.new c vs = ⟨c, vs, false⟩ ∧ AttributeComparison.newCaseInsensitive c vs = ⟨c, vs, true⟩) ∧
    (hasAny l = true ↔ l ≠ []) ∧
    ScopedAttributeAssertion.stringEqual lhs rhs = ⟨lhs, .stringEqual, [rhs], false⟩ ∧
    ScopedAttributeAssertion.stringNotEqual lhs rhs = ⟨lhs, .stringNotEqual, [rhs], false⟩ ∧
    ScopedAttributeAssertion.stringEndsWith lhs rhs = ⟨lhs, .stringEndsWith, [rhs], false⟩ ∧
    ScopedAttributeAssertion.stringContains lhs rhs = ⟨lhs, .stringContains, [rhs], false⟩ ∧
    (∀ b, ScopedAttributeAssertion.stringExists lhs b = ⟨lhs, .stringExists, [.value (.text (if b then %s"true" else %s"false"))], false⟩) ∧
    ScopedAttributeAssertion.projectionEqual lhs rhs = ⟨lhs, .projectionEqual, [rhs], false⟩ ∧
    ScopedAttributeAssertion.projectionNotEqual lhs rhs = ⟨lhs, .projectionNotEqual, [rhs], false⟩ ∧
    ScopedAttributeAssertion.projectionSubset lhs l = ⟨lhs, .projectionSubset, l, false⟩ ∧
    ScopedAttributeAssertion.projectionProperSubset lhs l = ⟨lhs, .projectionProperSubset, l, false⟩ ∧
    AttributeComparison.stringEqual v = ⟨.stringEqual, [v], false⟩ ∧ AttributeComparison.stringNotEqual v = ⟨.stringNotEqual, [v], false⟩ ∧
    AttributeComparison.stringEndsWith v = ⟨.stringEndsWith, [v], false⟩ ∧ AttributeComparison.stringContains v = ⟨.stringContains, [v], false⟩ ∧
    (∀ b, AttributeComparison.stringExists b = ⟨.stringExists, [.text (if b then %s"true" else %s"false")], false⟩) ∧
    AttributeComparison.numberGreater n = ⟨.numberGreaterThan, [.number n], false⟩ ∧
    AttributeComparison.numberGreaterOrEqual n = ⟨.numberGreaterOrEqual, [.number n], false⟩ ∧
    AttributeComparison.numberLess n = ⟨.numberLessThan, [.number n], false⟩ ∧
    AttributeComparison.numberLessOrEqual n = ⟨.numberLessOrEqual, [.number n], false⟩ ∧
    AttributeComparison.projectionEqual v = ⟨.projectionEqual, [v], false⟩ ∧ AttributeComparison.projectionNotEqual v = ⟨.projectionNotEqual, [v], false⟩ ∧
    AttributeComparison.projectionSubset vs = ⟨.projectionSubset, vs, false⟩ ∧
    AttributeComparison.projectionProperSubset vs = ⟨.projectionProperSubset, vs, false⟩ := by
  refine ⟨fun _ => ⟨rfl, rfl⟩, fun _ => ⟨rfl, rfl⟩, by cases l <;> simp [hasAny], rfl, rfl, rfl, rfl, ?_, rfl, rfl, rfl, rfl, rfl, rfl, rfl, rfl, ?_,
    rfl, rfl, rfl, rfl, rfl, rfl, rfl, rfl⟩ <;> (intro b; cases b <;> rfl)

/-! ### Conversions and questions -/

/-- C114: each value, segment and scoped value answers yes to exactly one question about its kind; it is taken apart into exactly what it was
made from, and into nothing else. -/
theorem C114_values (v : SelValue) (p : KeyPathSegment) (w : ScopedValue) :
    OneYes [v.isText, v.isNumber, v.isRootShapeId, v.isAbsoluteRootShapeId] ∧ OneYes [p.isValue, p.isFunctionProperty] ∧
    OneYes [w.isValue, w.isContextValue] ∧
    (∀ s, v.asText = some s ↔ v = .ofString s) ∧ (∀ n, v.asNumber = some n ↔ v = .ofNumber n) ∧
    (∀ s, v.asRootShapeId = some s ↔ v = .ofIdentifier s) ∧ (∀ id, v.asAbsoluteRootShapeId = some id ↔ v = .ofShapeID id) ∧
    (v.isText = v.asText.isSome ∧ v.isNumber = v.asNumber.isSome ∧ v.isRootShapeId = v.asRootShapeId.isSome ∧
      v.isAbsoluteRootShapeId = v.asAbsoluteRootShapeId.isSome) ∧
    (∀ n : Int, SelValue.ofI64 n = .ofNumber (.integer n)) ∧ (∀ x, SelValue.ofF64 x = .ofNumber (.float x)) ∧
    (∀ x, p.asValue = some x ↔ p = .value x) ∧ (∀ s, p.asFunctionProperty = some s ↔ p = .functionProperty s) ∧
    (p.isValue = p.asValue.isSome ∧ p.isFunctionProperty = p.asFunctionProperty.isSome) ∧
    (∀ x, w.asValue = some x ↔ w = .value x) ∧ (∀ x, w.asContextValue = some x ↔ w = .contextValue x) ∧
    (w.isValue = w.asValue.isSome ∧ w.isContextValue = w.asContextValue.isSome) ∧
    (∀ s, ScopedValue.ofString s = .value (.ofString s)) ∧ (∀ n, ScopedValue.ofNumber n = .value (.ofNumber n)) ∧
    (∀ n, ScopedValue.ofI64 n = .value (.ofI64 n)) ∧ (∀ x, ScopedValue.ofF64 x = .value (.ofF64 x)) ∧
    (∀ s, ScopedValue.ofIdentifier s = .value (.ofIdentifier s)) ∧ (∀ id, ScopedValue.ofShapeID id = .value (.ofShapeID id)) := by
  refine ⟨by cases v <;> rfl, by cases p <;> rfl, by cases w <;> rfl, ?_, ?_, ?_, ?_, ?_, fun _ => rfl, fun _ => rfl, ?_, ?_, ?_, ?_, ?_, ?_,
    fun _ => rfl, fun _ => rfl, fun _ => rfl, fun _ => rfl, fun _ => rfl, fun _ => rfl⟩
  · intro s; cases v <;> simp [SelValue.asText, SelValue.ofString]
  · intro s; cases v <;> simp [SelValue.asNumber, SelValue.ofNumber]
  · intro s; cases v <;> simp [SelValue.asRootShapeId, SelValue.ofIdentifier]
  · intro s; cases v <;> simp [SelValue.asAbsoluteRootShapeId, SelValue.ofShapeID]
  · cases v <;> exact ⟨rfl, rfl, rfl, rfl⟩
  · intro s; cases p <;> simp [KeyPathSegment.asValue]
  · intro s; cases p <;> simp [KeyPathSegment.asFunctionProperty]
  · cases p <;> exact ⟨rfl, rfl⟩
  · intro s; cases w <;> simp [ScopedValue.asValue]
  · intro s; cases w <;> simp [ScopedValue.asContextValue]
  · cases w <;> exact ⟨rfl, rfl⟩

/-- C114: the same for the steps to neighbours and for expressions. -/
theorem C114_expressions (n : NeighborSelector) (e : SelectorExpression) :
    OneYes [n.isForwardUndirected, n.isReverseUndirected, n.isForwardRecursiveDirected, n.isForwardDirected, n.isReverseDirected] ∧
    OneYes [e.isShapeType, e.isAttributeSelector, e.isScopedAttributeSelector, e.isNeighborSelector, e.isFunction, e.isVariableDefinition,
      e.isVariableReference] ∧
    (n.isForwardUndirected = true ↔ n = .forwardUndirected) ∧ (n.isReverseUndirected = true ↔ n = .reverseUndirected) ∧
    (n.isForwardRecursiveDirected = true ↔ n = .forwardRecursiveDirected) ∧
    (∀ p, n.asForwardDirected = some p ↔ n = .forwardDirected p) ∧ (∀ p, n.asReverseDirected = some p ↔ n = .reverseDirected p) ∧
    (n.isForwardDirected = n.asForwardDirected.isSome ∧ n.isReverseDirected = n.asReverseDirected.isSome) ∧
    (∀ t, e.asShapeType = some t ↔ e = .shapeType t) ∧ (∀ a, e.asAttributeSelector = some a ↔ e = .attributeSelector a) ∧
    (∀ a, e.asScopedAttributeSelector = some a ↔ e = .scopedAttributeSelector a) ∧ (∀ a, e.asNeighborSelector = some a ↔ e = .neighborSelector a) ∧
    (∀ g, e.asFunction = some g ↔ e = g.expression) ∧ (∀ d, e.asVariableDefinition = some d ↔ e = d.expression) ∧
    (∀ x, e.asVariableReference = some x ↔ e = .variableReference x) ∧
    (e.isShapeType = e.asShapeType.isSome ∧ e.isAttributeSelector = e.asAttributeSelector.isSome ∧
      e.isScopedAttributeSelector = e.asScopedAttributeSelector.isSome ∧ e.isNeighborSelector = e.asNeighborSelector.isSome ∧
      e.isFunction = e.asFunction.isSome ∧ e.isVariableDefinition = e.asVariableDefinition.isSome ∧
      e.isVariableReference = e.asVariableReference.isSome) := by
  refine ⟨by cases n <;> rfl, by cases e <;> rfl, ?_, ?_, ?_, ?_, ?_, ?_, ?_, ?_, ?_, ?_, ?_, ?_, ?_, ?_⟩
  · cases n <;> simp [NeighborSelector.isForwardUndirected]
  · cases n <;> simp [NeighborSelector.isReverseUndirected]
  · cases n <;> simp [NeighborSelector.isForwardRecursiveDirected]
  · intro p; cases n <;> simp [NeighborSelector.asForwardDirected]
  · intro p; cases n <;> simp [NeighborSelector.asReverseDirected]
  · cases n <;> exact ⟨rfl, rfl⟩
  · intro p; cases e <;> simp [SelectorExpression.asShapeType]
  · intro p; cases e <;> simp [SelectorExpression.asAttributeSelector]
  · intro p; cases e <;> simp [SelectorExpression.asScopedAttributeSelector]
  · intro p; cases e <;> simp [SelectorExpression.asNeighborSelector]
  · intro ⟨_, _⟩; cases e <;> simp [SelectorExpression.asFunction, SelFunction.expression]
  · intro ⟨_, _⟩; cases e <;> simp [SelectorExpression.asVariableDefinition, SelDefinition.expression]
  · intro p; cases e <;> simp [SelectorExpression.asVariableReference]
  · cases e <;> exact ⟨rfl, rfl, rfl, rfl, rfl, rfl, rfl⟩

/-- C114: what a query gives can be taken apart in the same way; the projection that a query starts from has the shapes of the model. -/
theorem C114_projection (p : Projection) (m : Model) :
    OneYes [p.isEmpty, p.isShapes, p.isMembers, p.isValues] ∧ (p.isEmpty = true ↔ p = .empty) ∧ Projection.default = .empty ∧
    (∀ l, p.asShapes = some l ↔ p = .shapes l) ∧ (∀ l, p.asMembers = some l ↔ p = .members l) ∧ (∀ l, p.asValues = some l ↔ p = .values l) ∧
    (p.isShapes = p.asShapes.isSome ∧ p.isMembers = p.asMembers.isSome ∧ p.isValues = p.asValues.isSome) ∧
    (Projection.from m).asShapes = some m.shapeNames := by
  refine ⟨by cases p <;> rfl, by cases p <;> simp [Projection.isEmpty], rfl, ?_, ?_, ?_, ?_, rfl⟩
  · intro l; cases p <;> simp [Projection.asShapes]
  · intro l; cases p <;> simp [Projection.asMembers]
  · intro l; cases p <;> simp [Projection.asValues]
  · cases p <;> exact ⟨rfl, rfl, rfl⟩

end Verif.SelEdits
