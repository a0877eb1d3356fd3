/-
Programs that build selectors (C84-C86).
-/
import Verif.SelectorBuildersSpec
import Verif.SelectorProps
import Verif.TablesProps
import Mathlib.Data.List.Induction

namespace Verif.SelApi
open Spec Spec.SelApi

/-! ### Attributes -/

theorem map_none {l : List PathCall} {added : List KeyPathSegment} (h : l.map segment = added.map some) : ∀ c ∈ l, segment c ≠ none := by
  intro c hc hn
  have : (none : Option KeyPathSegment) ∈ added.map some := h ▸ (List.mem_map.mpr ⟨c, hc, hn⟩)
  simp at this

theorem hasPath_path {calls : List PathCall} {q p : List KeyPathSegment} : HasPath (calls ++ [.path q]) p ↔ p = q := by
  constructor
  · rintro (⟨added, h, rfl⟩ | ⟨before, q', after, added, h, ha, rfl⟩)
    · exact absurd rfl (map_none h (.path q) (by simp))
    · rcases List.eq_nil_or_concat after with rfl | ⟨after', c, rfl⟩
      · have := List.append_inj_right' h rfl
        cases this
        cases added with
        | nil => simp
        | cons _ _ => simp at ha
      · rw [show before ++ PathCall.path q' :: (after'.concat c) = (before ++ PathCall.path q' :: after') ++ [c] by simp] at h
        have := List.append_inj_right' h rfl
        cases this
        exact absurd rfl (map_none ha (.path q) (by simp))
  · rintro rfl
    exact .inr ⟨calls, p, [], [], rfl, rfl, by simp⟩

theorem map_some_concat {l : List PathCall} {c : PathCall} {added : List KeyPathSegment} (h : (l ++ [c]).map segment = added.map some) :
    ∃ a s, added = a ++ [s] ∧ l.map segment = a.map some ∧ segment c = some s := by
  rcases List.eq_nil_or_concat added with rfl | ⟨a, s, rfl⟩
  · simp at h
  · rw [List.concat_eq_append, List.map_append, List.map_append] at h
    obtain ⟨h1, h2⟩ := List.append_inj' h rfl
    exact ⟨a, s, by simp, h1, by simpa using h2⟩

theorem hasPath_segment {calls : List PathCall} {c : PathCall} {s : KeyPathSegment} (hc : segment c = some s) {p : List KeyPathSegment} :
    HasPath (calls ++ [c]) p ↔ ∃ p', HasPath calls p' ∧ p = p' ++ [s] := by
  constructor
  · rintro (⟨added, h, rfl⟩ | ⟨before, q, after, added, h, ha, rfl⟩)
    · obtain ⟨a, s', rfl, h1, h2⟩ := map_some_concat h
      rw [hc] at h2; cases h2
      exact ⟨a, .inl ⟨a, h1, rfl⟩, rfl⟩
    · rcases List.eq_nil_or_concat after with rfl | ⟨after', c', rfl⟩
      · have := List.append_inj_right' h rfl
        cases this
        cases hc
      · rw [show before ++ PathCall.path q :: (after'.concat c') = (before ++ PathCall.path q :: after') ++ [c'] by simp] at h
        obtain ⟨h1, h2⟩ := List.append_inj' h rfl
        cases h2
        rw [List.concat_eq_append] at ha
        obtain ⟨a, s', rfl, h3, h4⟩ := map_some_concat ha
        rw [hc] at h4; cases h4
        exact ⟨q ++ a, .inr ⟨before, q, after', a, h1, h3, rfl⟩, by simp⟩
  · rintro ⟨p', ⟨added, h, rfl⟩ | ⟨before, q, after, added, rfl, ha, rfl⟩, rfl⟩
    · exact .inl ⟨p' ++ [s], by simp [h, hc], rfl⟩
    · exact .inr ⟨before, q, after ++ [c], added ++ [s], by simp, by simp [ha, hc], by simp⟩

theorem path_identifier (l : List PathCall) (k : SelKey) : (l.foldl PathCall.run k).identifier = k.identifier := by
  induction l generalizing k with
  | nil => rfl
  | cons x l ihl => rw [List.foldl_cons, ihl]; cases x <;> rfl

theorem path_key (l : List PathCall) (n : Str) : l.foldl PathCall.run ⟨n, []⟩ = ⟨n, (l.foldl PathCall.run ⟨n, []⟩).path⟩ := by
  have := path_identifier l ⟨n, []⟩
  cases hk : l.foldl PathCall.run ⟨n, []⟩ with
  | mk i q => rw [hk] at this; cases this; rfl

/-- The key after the calls. -/
theorem hasPath_iff (n : Str) (calls : List PathCall) (p : List KeyPathSegment) :
    HasPath calls p ↔ calls.foldl PathCall.run ⟨n, []⟩ = ⟨n, p⟩ := by
  induction calls using List.reverseRecOn generalizing p with
  | nil =>
    constructor
    · rintro (⟨added, h, rfl⟩ | ⟨before, q, after, added, h, -⟩)
      · cases p with
        | nil => rfl
        | cons _ _ => cases h
      · simp at h
    · intro h
      cases h
      exact .inl ⟨[], rfl, rfl⟩
  | append_singleton calls c ih =>
    rw [List.foldl_append]
    have key : ∃ p', HasPath calls p' ∧ calls.foldl PathCall.run ⟨n, []⟩ = ⟨n, p'⟩ ∧ ∀ p'', HasPath calls p'' → p'' = p' := by
      have he := path_key calls n
      refine ⟨_, (ih _).mpr he, he, fun p'' h => ?_⟩
      have := (ih _).mp h
      rw [this]
    obtain ⟨p', hp, he, hu⟩ := key
    rw [he]
    have seg : ∀ s, segment c = some s → PathCall.run ⟨n, p'⟩ c = ⟨n, p' ++ [s]⟩ → (HasPath (calls ++ [c]) p ↔ [c].foldl PathCall.run ⟨n, p'⟩ = ⟨n, p⟩) := by
      intro s hs hr
      rw [hasPath_segment hs, List.foldl_cons, List.foldl_nil, hr]
      constructor
      · rintro ⟨p'', h, rfl⟩; rw [hu _ h]
      · intro h; cases h; exact ⟨p', hp, rfl⟩
    cases c with
    | path q =>
      rw [hasPath_path, List.foldl_cons, List.foldl_nil]
      constructor
      · rintro rfl; rfl
      · intro h; cases h; rfl
    | segment s => exact seg _ rfl rfl
    | forId s => exact seg _ rfl rfl
    | forShape s => exact seg _ rfl rfl
    | forText s => exact seg _ rfl rfl
    | forNumber s => exact seg _ rfl rfl
    | forFunction s => exact seg _ rfl rfl

theorem key_eq (n : KeyName) : n.key = ⟨keyName n, []⟩ := by cases n <;> rfl

theorem attribute_fold (calls : List AttributeCall) (a : AttributeSelector) :
    calls.foldl AttributeCall.run a = ⟨(pathCalls calls).foldl PathCall.run a.key, ((compareCalls calls).getLast?.map CompareCall.run).orElse fun _ => a.comparison⟩ := by
  induction calls generalizing a with
  | nil => cases a; rfl
  | cons c cs ih =>
    rw [List.foldl_cons, ih]
    cases c with
    | path c => rfl
    | compare c =>
      have h1 : pathCalls (.compare c :: cs) = pathCalls cs := rfl
      have h2 : compareCalls (.compare c :: cs) = c :: compareCalls cs := rfl
      rw [h1, h2]
      congr 1
      cases h : compareCalls cs with
      | nil => rfl
      | cons d ds => rw [List.getLast?_cons_cons]; cases hd : (d :: ds).getLast? with
        | none => simp at hd
        | some x => rfl

/-- What distinguishes comparisons. -/
def shown (c : AttributeComparison) : Str × List SelValue × Bool := (c.comparator.display, c.rhsValues, c.caseInsensitive)

theorem comparator_inj {a b : Comparator} (h : a.display = b.display) : a = b := by
  cases a <;> cases b <;> first | rfl | exact absurd h (by decide)

theorem shown_inj {a b : AttributeComparison} (h : shown a = shown b) : a = b := by
  obtain ⟨c, v, i⟩ := a
  obtain ⟨c', v', i'⟩ := b
  simp only [shown, Prod.mk.injEq] at h
  obtain ⟨h1, rfl, rfl⟩ := h
  rw [comparator_inj h1]

theorem wanted_eq (c : CompareCall) : wanted c = shown c.run := by
  cases c with
  | stringExists b i => cases b <;> cases i <;> rfl
  | stringCompare c rhs i => cases i <;> rfl
  | stringEqual rhs i => cases i <;> rfl
  | stringNotEqual rhs i => cases i <;> rfl
  | stringStartsWith rhs i => cases i <;> rfl
  | stringEndsWith rhs i => cases i <;> rfl
  | stringContains rhs i => cases i <;> rfl
  | _ => rfl

theorem asks_iff (p : AttributeProgram) (a : AttributeSelector) : Asks p a ↔ p.run = a := by
  unfold Asks AttributeProgram.run
  rw [attribute_fold, key_eq, hasPath_iff (keyName p.key)]
  obtain ⟨⟨i, path⟩, cmp⟩ := a
  have hopt : ∀ o : Option CompareCall, (o.map CompareCall.run).orElse (fun _ => (none : Option AttributeComparison)) = o.map CompareCall.run := by
    intro o; cases o <;> rfl
  have hcmp : (cmp.map (fun c => (c.comparator.display, c.rhsValues, c.caseInsensitive)) = (compareCalls p.calls).getLast?.map wanted) ↔
      (compareCalls p.calls).getLast?.map CompareCall.run = cmp := by
    cases (compareCalls p.calls).getLast? with
    | none => cases cmp <;> simp
    | some c =>
      cases cmp with
      | none => simp
      | some x =>
        simp only [Option.map_some, Option.some.injEq, wanted_eq]
        exact ⟨fun h => (shown_inj h).symm, fun h => h ▸ rfl⟩
  dsimp only
  rw [hcmp, hopt]
  constructor
  · rintro ⟨rfl, h1, h2⟩; rw [h1, h2]
  · intro h
    have h1 := congrArg AttributeSelector.key h
    have h2 := congrArg AttributeSelector.comparison h
    dsimp only at h1 h2
    have hid : i = keyName p.key := by
      have := path_identifier (pathCalls p.calls) ⟨keyName p.key, []⟩
      rw [h1] at this
      exact this
    subst hid
    exact ⟨rfl, h1, h2⟩

/-! ### Scoped attributes -/

theorem scoped_fold (f : Fmt) (calls : List ScopedCall) (k : SelKey) (as : List ScopedAttributeAssertion) :
    runScoped f ⟨some k, as⟩ calls = .ok ⟨some ((scopedPathCalls calls).foldl PathCall.run k), as ++ (assertCalls calls).map (AssertCall.run f)⟩ := by
  induction calls generalizing k as with
  | nil => simp [runScoped, scopedPathCalls, assertCalls]
  | cons c cs ih =>
    cases c with
    | path c => exact ih _ _
    | assert c =>
      refine (ih _ _).trans ?_
      rw [List.append_assoc]
      rfl

theorem scoped_none (f : Fmt) (calls : List ScopedCall) (as : List ScopedAttributeAssertion) :
    (scopedPathCalls calls = [] → runScoped f ⟨none, as⟩ calls = .ok ⟨none, as ++ (assertCalls calls).map (AssertCall.run f)⟩) ∧
    (scopedPathCalls calls ≠ [] → runScoped f ⟨none, as⟩ calls = .error .panic) := by
  induction calls generalizing as with
  | nil => exact ⟨fun _ => (by simp [runScoped, assertCalls]), fun h => absurd rfl h⟩
  | cons c cs ih =>
    cases c with
    | path c => exact ⟨fun h => (by cases h), fun _ => rfl⟩
    | assert c =>
      refine ⟨fun h => ((ih _).1 h).trans ?_, fun h => (ih _).2 h⟩
      rw [List.append_assoc]
      rfl

/-- What distinguishes assertions. -/
def shownAssertion (x : ScopedAttributeAssertion) : ScopedValue × Str × List ScopedValue × Bool :=
  (x.lhsValue, x.comparator.display, x.rhsValues, x.caseInsensitive)

theorem shownAssertion_inj {a b : ScopedAttributeAssertion} (h : shownAssertion a = shownAssertion b) : a = b := by
  obtain ⟨l, c, v, i⟩ := a
  obtain ⟨l', c', v', i'⟩ := b
  simp only [shownAssertion, Prod.mk.injEq] at h
  obtain ⟨rfl, h1, rfl, rfl⟩ := h
  rw [comparator_inj h1]

theorem asserted_eq (f : Fmt) (c : AssertCall) : asserted f c = shownAssertion (c.run f) := by
  cases c with
  | stringExists l b => cases b <;> rfl
  | _ => rfl

theorem map_asserted (f : Fmt) (l : List AssertCall) (as : List ScopedAttributeAssertion) :
    as.map shownAssertion = l.map (asserted f) ↔ l.map (AssertCall.run f) = as := by
  have : l.map (asserted f) = (l.map (AssertCall.run f)).map shownAssertion := by
    rw [List.map_map]; exact List.map_congr_left fun c _ => asserted_eq f c
  rw [this]
  constructor
  · exact fun h => (List.map_injective_iff.mpr (fun _ _ => shownAssertion_inj) h).symm
  · rintro rfl; rfl

theorem scoped_ok (f : Fmt) (p : ScopedProgram) (a : ScopedAttributeSelector) : p.run f = .ok a ↔ ¬ BadScoped p ∧ AsksScoped f p a := by
  obtain ⟨key, calls⟩ := p
  obtain ⟨k, as⟩ := a
  unfold ScopedProgram.run BadScoped AsksScoped
  dsimp only
  rw [show (as.map fun x => (x.lhsValue, x.comparator.display, x.rhsValues, x.caseInsensitive)) = as.map shownAssertion from rfl, map_asserted]
  have hne : ((assertCalls calls).map (AssertCall.run f)).isEmpty = true ↔ assertCalls calls = [] := by simp
  cases key with
  | none =>
    by_cases hp : scopedPathCalls calls = []
    · rw [Option.map_none, (scoped_none f calls []).1 hp]
      simp only [List.nil_append, ScopedAttributeSelector.new]
      by_cases ha : assertCalls calls = []
      · simp [ha]
      · rw [if_neg (fun h => ha (hne.mp h))]
        simp only [Except.ok.injEq, ScopedAttributeSelector.mk.injEq, ha, hp, ne_eq, not_true_eq_false, and_false, or_self, not_false_eq_true, true_and]
        exact ⟨fun h => ⟨h.1.symm, h.2⟩, fun h => ⟨h.1.symm, h.2⟩⟩
    · rw [Option.map_none, (scoped_none f calls []).2 hp]
      simp [hp]
  | some n =>
    rw [Option.map_some, scoped_fold, key_eq]
    simp only [List.nil_append, ScopedAttributeSelector.new]
    by_cases ha : assertCalls calls = []
    · simp [ha]
    · rw [if_neg (fun h => ha (hne.mp h))]
      simp only [Except.ok.injEq, ScopedAttributeSelector.mk.injEq, ha, reduceCtorEq, false_and, or_self, not_false_eq_true, true_and, hasPath_iff (keyName n)]
      constructor
      · rintro ⟨rfl, h⟩
        exact ⟨⟨((scopedPathCalls calls).foldl PathCall.run ⟨keyName n, []⟩).path, path_key _ _, congrArg some (path_key _ _)⟩, h⟩
      · rintro ⟨⟨path, h1, rfl⟩, h⟩
        exact ⟨by rw [h1], h⟩

theorem scoped_error (f : Fmt) (p : ScopedProgram) : (BadScoped p → p.run f = .error .panic) ∧ ((∃ a, p.run f = .ok a) ∨ p.run f = .error .panic) := by
  obtain ⟨key, calls⟩ := p
  unfold ScopedProgram.run BadScoped
  dsimp only
  have hne : ((assertCalls calls).map (AssertCall.run f)).isEmpty = true ↔ assertCalls calls = [] := by simp
  have hnew : ∀ k, (assertCalls calls = [] → ScopedAttributeSelector.new k ((assertCalls calls).map (AssertCall.run f)) = .error .panic) ∧
      ((∃ a, ScopedAttributeSelector.new k ((assertCalls calls).map (AssertCall.run f)) = .ok a) ∨
        ScopedAttributeSelector.new k ((assertCalls calls).map (AssertCall.run f)) = .error .panic) := by
    intro k
    unfold ScopedAttributeSelector.new
    split
    · exact ⟨fun _ => rfl, .inr rfl⟩
    · rename_i h
      exact ⟨fun ha => absurd (hne.mpr ha) h, .inl ⟨_, rfl⟩⟩
  cases key with
  | none =>
    by_cases hp : scopedPathCalls calls = []
    · rw [Option.map_none, (scoped_none f calls []).1 hp]
      refine ⟨?_, (hnew none).2⟩
      rintro (h | ⟨-, h⟩)
      · exact (hnew none).1 h
      · exact absurd hp h
    · rw [Option.map_none, (scoped_none f calls []).2 hp]
      exact ⟨fun _ => rfl, .inr rfl⟩
  | some n =>
    rw [Option.map_some, scoped_fold]
    refine ⟨?_, (hnew _).2⟩
    rintro (h | ⟨h, -⟩)
    · exact (hnew _).1 h
    · cases h

theorem scoped_good (f : Fmt) (p : ScopedProgram) (h : ¬ BadScoped p) : ∃ a, p.run f = .ok a := by
  obtain ⟨key, calls⟩ := p
  have ha : assertCalls calls ≠ [] := fun e => h (.inl e)
  have hne : ¬ ((assertCalls calls).map (AssertCall.run f)).isEmpty = true := by simpa using ha
  unfold ScopedProgram.run
  cases key with
  | none =>
    have hp : scopedPathCalls calls = [] := by
      by_contra hp
      exact h (.inr ⟨rfl, hp⟩)
    dsimp only
    rw [Option.map_none, (scoped_none f calls []).1 hp]
    simp only [List.nil_append, ScopedAttributeSelector.new]
    rw [if_neg hne]
    exact ⟨_, rfl⟩
  | some n =>
    dsimp only
    rw [Option.map_some, scoped_fold]
    simp only [List.nil_append, ScopedAttributeSelector.new]
    rw [if_neg hne]
    exact ⟨_, rfl⟩

/-! ### Selectors -/

theorem typeText_eq (g : ShapeFn) (t : ShapeType) : t.display = typeText g.name ↔ g.type = t := by
  cases g <;> cases t <;> decide

theorem knownName_eq (k : KnownFn) : k.name = knownName k := by cases k <;> rfl

theorem both_ok {α : Type} {a : Except Err α} {b : Except Err (List α)} {l : List α} :
    both a b = .ok l ↔ ∃ x l', a = .ok x ∧ b = .ok l' ∧ l = x :: l' := by
  unfold both
  cases a with
  | error e => simp
  | ok x => cases b with
    | error e => simp
    | ok l' => simp [eq_comm]

theorem each_cons {α β : Type} {R : α → β → Prop} {x : α} {xs : List α} {l : List β} :
    (l.length = (x :: xs).length ∧ ∀ (i : Nat) a b, (x :: xs)[i]? = some a → l[i]? = some b → R a b) ↔
    ∃ y l', R x y ∧ (l'.length = xs.length ∧ ∀ (i : Nat) a b, xs[i]? = some a → l'[i]? = some b → R a b) ∧ l = y :: l' := by
  constructor
  · rintro ⟨h1, h2⟩
    cases l with
    | nil => cases h1
    | cons y l' => exact ⟨y, l', h2 0 _ _ rfl rfl, ⟨by simpa using h1, fun i a b ha hb => h2 (i + 1) a b (by simpa using ha) (by simpa using hb)⟩, rfl⟩
  · rintro ⟨y, l', h1, ⟨h2, h3⟩, rfl⟩
    refine ⟨by simp [h2], fun i a b ha hb => ?_⟩
    cases i with
    | zero => cases ha; cases hb; exact h1
    | succ i => exact h3 i a b (by simpa using ha) (by simpa using hb)

theorem mkFunction_ok {n : Str} {r : Except Err (List Selector)} {e : SelectorExpression} :
    mkFunction n r = .ok e ↔ ∃ ss, r = .ok ss ∧ ss ≠ [] ∧ e = .function n ss := by
  unfold mkFunction
  cases r with
  | error e => simp
  | ok l =>
    unfold SelectorExpression.newFunction
    cases l with
    | nil => simp
    | cons a l => simp [eq_comm]

mutual
  theorem call_ok (f : Fmt) : ∀ (c : Call) (e : SelectorExpression), Call.run f c = .ok e ↔ Adds f c e
    | .add x, e => ⟨fun h => by cases h; exact .add, fun h => by cases h; rfl⟩
    | .shape t, e => ⟨fun h => by cases h; exact .shape, fun h => by cases h; rfl⟩
    | .shapeFn g, e => ⟨fun h => (by cases h; exact .shapeFn ((typeText_eq _ _).mpr rfl)), fun h => by
        cases h with
        | shapeFn ht => rw [← (typeText_eq _ _).mp ht]; rfl⟩
    | .functionFrom n args, e => by
      have ih := args_ok f args
      simp only [Call.run]
      rw [mkFunction_ok]
      constructor
      · rintro ⟨ss, h1, h2, rfl⟩
        obtain ⟨h3, h4⟩ := (ih ss).mp h1
        exact .functionFrom (fun h => by subst h; exact h2 (List.eq_nil_of_length_eq_zero h3)) h3 h4
      · intro h
        cases h with
        | functionFrom h2 h3 h4 =>
          exact ⟨_, (ih _).mpr ⟨h3, h4⟩, fun h => by subst h; exact h2 (List.eq_nil_of_length_eq_zero h3.symm), rfl⟩
    | .known k args, e => by
      have ih := args_ok f args
      simp only [Call.run]
      rw [mkFunction_ok, knownName_eq]
      constructor
      · rintro ⟨ss, h1, h2, rfl⟩
        obtain ⟨h3, h4⟩ := (ih ss).mp h1
        exact .known (fun h => by subst h; exact h2 (List.eq_nil_of_length_eq_zero h3)) h3 h4
      · intro h
        cases h with
        | known h2 h3 h4 =>
          exact ⟨_, (ih _).mpr ⟨h3, h4⟩, fun h => by subst h; exact h2 (List.eq_nil_of_length_eq_zero h3.symm), rfl⟩
    | .neighbor n, e => ⟨fun h => by cases h; exact .neighbor, fun h => by cases h; rfl⟩
    | .forwardUndirected, e => ⟨fun h => by cases h; exact .forwardUndirected, fun h => by cases h; rfl⟩
    | .reverseUndirected, e => ⟨fun h => by cases h; exact .reverseUndirected, fun h => by cases h; rfl⟩
    | .forwardRecursiveDirected, e => ⟨fun h => by cases h; exact .forwardRecursiveDirected, fun h => by cases h; rfl⟩
    | .forwardDirected p, e => ⟨fun h => by cases h; exact .forwardDirected, fun h => by cases h; rfl⟩
    | .reverseDirected p, e => ⟨fun h => by cases h; exact .reverseDirected, fun h => by cases h; rfl⟩
    | .variableReferenceFrom n, e => ⟨fun h => by cases h; exact .variableReferenceFrom, fun h => by cases h; rfl⟩
    | .variableDefinitionFrom n p, e => by
      have ih := program_ok f p
      simp only [Call.run]
      cases hr : Program.run f p with
      | error x =>
        refine ⟨fun h => (by cases h), fun h => ?_⟩
        cases h with
        | variableDefinitionFrom hb => rw [(ih _).mpr hb] at hr; cases hr
      | ok s =>
        refine ⟨fun h => by cases h; exact .variableDefinitionFrom ((ih _).mp hr), fun h => ?_⟩
        cases h with
        | variableDefinitionFrom hb => rw [(ih _).mpr hb] at hr; cases hr; rfl
    | .attributeFrom k c, e => ⟨fun h => by cases h; exact .attributeFrom, fun h => by cases h; rfl⟩
    | .attribute p, e => ⟨fun h => by cases h; exact .attr ((asks_iff _ _).mpr rfl), fun h => by
        cases h with
        | attr ha => rw [← (asks_iff _ _).mp ha]; rfl⟩
    | .scopedAttribute p, e => by
      simp only [Call.run]
      cases hr : p.run f with
      | error x =>
        refine ⟨fun h => (by cases h), fun h => ?_⟩
        cases h with
        | scopedAttr h1 h2 => rw [(scoped_ok _ _ _).mpr ⟨h1, h2⟩] at hr; cases hr
      | ok s =>
        refine ⟨fun h => by cases h; exact .scopedAttr ((scoped_ok _ _ _).mp hr).1 ((scoped_ok _ _ _).mp hr).2, fun h => ?_⟩
        cases h with
        | scopedAttr h1 h2 => rw [(scoped_ok _ _ _).mpr ⟨h1, h2⟩] at hr; cases hr; rfl
  theorem program_ok (f : Fmt) : ∀ (p : Program) (s : Selector), Program.run f p = .ok s ↔ Builds f p s
    | .mk c cs, s => by
      have ih := call_ok f c
      have ih' := calls_ok f cs
      simp only [Program.run]
      rw [both_ok]
      constructor
      · rintro ⟨e, l, h1, h2, rfl⟩
        obtain ⟨h3, h4⟩ := each_cons.mpr ⟨e, l, (ih e).mp h1, (ih' l).mp h2, rfl⟩
        exact .mk h3 h4
      · intro h
        cases h with
        | mk h3 h4 =>
          obtain ⟨e, l, h1, h2, rfl⟩ := each_cons.mp ⟨h3, h4⟩
          exact ⟨e, l, (ih e).mpr h1, (ih' l).mpr h2, rfl⟩
  theorem calls_ok (f : Fmt) : ∀ (cs : List Call) (s : Selector), runCalls f cs = .ok s ↔
      (s.length = cs.length ∧ ∀ (i : Nat) (x : Call) (e : SelectorExpression), cs[i]? = some x → s[i]? = some e → Adds f x e)
    | [], s => by
      constructor
      · intro h; cases h; exact ⟨rfl, fun i x e h => (by simp at h)⟩
      · intro h; rw [List.eq_nil_of_length_eq_zero h.1]; rfl
    | c :: cs, s => by
      have ih := call_ok f c
      have ih' := calls_ok f cs
      simp only [runCalls]
      rw [both_ok, each_cons]
      constructor
      · rintro ⟨e, l, h1, h2, rfl⟩; exact ⟨e, l, (ih e).mp h1, (ih' l).mp h2, rfl⟩
      · rintro ⟨e, l, h1, h2, rfl⟩; exact ⟨e, l, (ih e).mpr h1, (ih' l).mpr h2, rfl⟩
  theorem args_ok (f : Fmt) : ∀ (ps : List Program) (ss : List Selector), runArguments f ps = .ok ss ↔
      (ss.length = ps.length ∧ ∀ (i : Nat) (p : Program) (s : Selector), ps[i]? = some p → ss[i]? = some s → Builds f p s)
    | [], s => by
      constructor
      · intro h; cases h; exact ⟨rfl, fun i x e h => (by simp at h)⟩
      · intro h; rw [List.eq_nil_of_length_eq_zero h.1]; rfl
    | p :: ps, s => by
      have ih := program_ok f p
      have ih' := args_ok f ps
      simp only [runArguments]
      rw [both_ok, each_cons]
      constructor
      · rintro ⟨e, l, h1, h2, rfl⟩; exact ⟨e, l, (ih e).mp h1, (ih' l).mp h2, rfl⟩
      · rintro ⟨e, l, h1, h2, rfl⟩; exact ⟨e, l, (ih e).mpr h1, (ih' l).mpr h2, rfl⟩
end

/-- C84: a program builds the selector that it asks for, and no other. -/
theorem C84_builds (f : Fmt) (p : Program) (s : Selector) : p.run f = .ok s ↔ Builds f p s := program_ok f p s

theorem both_error {α : Type} {a : Except Err α} {b : Except Err (List α)} {e : Err} : both a b = .error e → a = .error e ∨ b = .error e := by
  unfold both
  cases a with
  | error e => intro h; cases h; exact .inl rfl
  | ok x => cases b with
    | error e => exact .inr
    | ok l' => intro h; cases h

mutual
  theorem call_error (f : Fmt) : ∀ (c : Call), (∀ e, Call.run f c = .error e → e = .panic ∧ Bad c) ∧ (Bad c → ∀ e, Call.run f c ≠ .ok e)
    | .add x => ⟨fun e h => (by cases h), fun h => by cases h⟩
    | .shape t => ⟨fun e h => (by cases h), fun h => by cases h⟩
    | .shapeFn g => ⟨fun e h => (by cases h), fun h => by cases h⟩
    | .functionFrom n args => by
      have ih := args_error f args
      simp only [Call.run]
      constructor
      · intro e h
        unfold mkFunction at h
        cases hr : runArguments f args with
        | error x =>
          rw [hr] at h; cases h
          obtain ⟨h1, p, hp, hb⟩ := ih.1 _ hr
          exact ⟨h1, .argument hp hb⟩
        | ok l =>
          rw [hr] at h
          cases l with
          | nil =>
            cases h
            have := ((args_ok f args []).mp hr).1
            rw [List.eq_nil_of_length_eq_zero this.symm]
            exact ⟨rfl, .noArguments⟩
          | cons a l => cases h
      · intro hb e h
        obtain ⟨ss, h1, h2, rfl⟩ := mkFunction_ok.mp h
        cases hb with
        | noArguments => cases h1; exact h2 rfl
        | argument hp hb => exact ih.2 ⟨_, hp, hb⟩ _ h1
    | .known k args => by
      have ih := args_error f args
      simp only [Call.run]
      constructor
      · intro e h
        unfold mkFunction at h
        cases hr : runArguments f args with
        | error x =>
          rw [hr] at h; cases h
          obtain ⟨h1, p, hp, hb⟩ := ih.1 _ hr
          exact ⟨h1, .knownArgument hp hb⟩
        | ok l =>
          rw [hr] at h
          cases l with
          | nil =>
            cases h
            have := ((args_ok f args []).mp hr).1
            rw [List.eq_nil_of_length_eq_zero this.symm]
            exact ⟨rfl, .knownNoArguments⟩
          | cons a l => cases h
      · intro hb e h
        obtain ⟨ss, h1, h2, rfl⟩ := mkFunction_ok.mp h
        cases hb with
        | knownNoArguments => cases h1; exact h2 rfl
        | knownArgument hp hb => exact ih.2 ⟨_, hp, hb⟩ _ h1
    | .neighbor n => ⟨fun e h => (by cases h), fun h => by cases h⟩
    | .forwardUndirected => ⟨fun e h => (by cases h), fun h => by cases h⟩
    | .reverseUndirected => ⟨fun e h => (by cases h), fun h => by cases h⟩
    | .forwardRecursiveDirected => ⟨fun e h => (by cases h), fun h => by cases h⟩
    | .forwardDirected p => ⟨fun e h => (by cases h), fun h => by cases h⟩
    | .reverseDirected p => ⟨fun e h => (by cases h), fun h => by cases h⟩
    | .variableReferenceFrom n => ⟨fun e h => (by cases h), fun h => by cases h⟩
    | .variableDefinitionFrom n p => by
      have ih := program_error f p
      simp only [Call.run]
      cases hr : Program.run f p with
      | error x =>
        refine ⟨fun e h => ?_, fun _ e h => by cases h⟩
        cases h
        exact ⟨(ih.1 _ hr).1, .definition (ih.1 _ hr).2⟩
      | ok s =>
        refine ⟨fun e h => (by cases h), fun h => ?_⟩
        cases h with
        | definition hb => exact absurd hr (ih.2 hb _)
    | .attributeFrom k c => ⟨fun e h => (by cases h), fun h => by cases h⟩
    | .attribute p => ⟨fun e h => (by cases h), fun h => by cases h⟩
    | .scopedAttribute p => by
      simp only [Call.run]
      cases hr : p.run f with
      | error x =>
        refine ⟨fun e h => ?_, fun _ e h => by cases h⟩
        cases h
        have hx : x = .panic := by
          rcases (scoped_error f p).2 with ⟨a, ha⟩ | ha
          · rw [ha] at hr; cases hr
          · rw [ha] at hr; cases hr; rfl
        subst hx
        refine ⟨rfl, .scopedAttr ?_⟩
        by_contra hb
        obtain ⟨a, ha⟩ := scoped_good f p hb
        rw [ha] at hr; cases hr
      | ok s =>
        refine ⟨fun e h => (by cases h), fun h => ?_⟩
        cases h with
        | scopedAttr hb => exact absurd hb ((scoped_ok f p s).mp hr).1
  theorem program_error (f : Fmt) : ∀ (p : Program), (∀ e, Program.run f p = .error e → e = .panic ∧ BadProgram p) ∧ (BadProgram p → ∀ s, Program.run f p ≠ .ok s)
    | .mk c cs => by
      have ih := call_error f c
      have ih' := calls_error f cs
      simp only [Program.run]
      constructor
      · intro e h
        rcases both_error h with h | h
        · exact ⟨(ih.1 _ h).1, .mk List.mem_cons_self (ih.1 _ h).2⟩
        · obtain ⟨h1, x, hx, hb⟩ := ih'.1 _ h
          exact ⟨h1, .mk (List.mem_cons_of_mem _ hx) hb⟩
      · intro hb s h
        obtain ⟨e, l, h1, h2, rfl⟩ := both_ok.mp h
        cases hb with
        | mk hx hb =>
          rcases List.mem_cons.mp hx with rfl | hx
          · exact ih.2 hb _ h1
          · exact ih'.2 ⟨_, hx, hb⟩ _ h2
  theorem calls_error (f : Fmt) : ∀ (cs : List Call), (∀ e, runCalls f cs = .error e → e = .panic ∧ ∃ x ∈ cs, Bad x) ∧
      ((∃ x ∈ cs, Bad x) → ∀ s, runCalls f cs ≠ .ok s)
    | [] => ⟨fun e h => (by cases h), fun ⟨_, h, _⟩ => by cases h⟩
    | c :: cs => by
      have ih := call_error f c
      have ih' := calls_error f cs
      simp only [runCalls]
      constructor
      · intro e h
        rcases both_error h with h | h
        · exact ⟨(ih.1 _ h).1, c, List.mem_cons_self, (ih.1 _ h).2⟩
        · obtain ⟨h1, x, hx, hb⟩ := ih'.1 _ h
          exact ⟨h1, x, List.mem_cons_of_mem _ hx, hb⟩
      · rintro ⟨x, hx, hb⟩ s h
        obtain ⟨e, l, h1, h2, rfl⟩ := both_ok.mp h
        rcases List.mem_cons.mp hx with rfl | hx
        · exact ih.2 hb _ h1
        · exact ih'.2 ⟨_, hx, hb⟩ _ h2
  theorem args_error (f : Fmt) : ∀ (ps : List Program), (∀ e, runArguments f ps = .error e → e = .panic ∧ ∃ p ∈ ps, BadProgram p) ∧
      ((∃ p ∈ ps, BadProgram p) → ∀ s, runArguments f ps ≠ .ok s)
    | [] => ⟨fun e h => (by cases h), fun ⟨_, h, _⟩ => by cases h⟩
    | p :: ps => by
      have ih := program_error f p
      have ih' := args_error f ps
      simp only [runArguments]
      constructor
      · intro e h
        rcases both_error h with h | h
        · exact ⟨(ih.1 _ h).1, p, List.mem_cons_self, (ih.1 _ h).2⟩
        · obtain ⟨h1, x, hx, hb⟩ := ih'.1 _ h
          exact ⟨h1, x, List.mem_cons_of_mem _ hx, hb⟩
      · rintro ⟨x, hx, hb⟩ s h
        obtain ⟨e, l, h1, h2, rfl⟩ := both_ok.mp h
        rcases List.mem_cons.mp hx with rfl | hx
        · exact ih.2 hb _ h1
        · exact ih'.2 ⟨_, hx, hb⟩ _ h2
end

/-- C84: exactly these programs panic: those with a function without arguments, a scoped attribute without assertions, or a path of a scoped attribute
without a key. -/
theorem C84_panics_iff (f : Fmt) (p : Program) : (p.run f = .error .panic ↔ BadProgram p) ∧ ∀ e, p.run f = .error e → e = .panic := by
  refine ⟨⟨fun h => ((program_error f p).1 _ h).2, fun hb => ?_⟩, fun e h => ((program_error f p).1 _ h).1⟩
  cases hr : p.run f with
  | error e => rw [((program_error f p).1 _ hr).1]
  | ok s => exact absurd hr ((program_error f p).2 hb s)

end Verif.SelApi
