/-
Property theorems C100 (questions about shapes) and C101 (editing shapes in place).
-/
import Verif.EditingSpec
import Verif.MergeProps
import Verif.TraitBuildersProps

namespace Verif
open Spec

/-! ### C100 Questions about traits -/

theorem ask_iff (q : TraitQuestion) (ts : Traits) : q.ask ts = true ↔ ∃ v, ts.get (preludeTrait q.constant) = some v := by
  rw [TraitQuestion.ask, hasTrait, AMap.contains, Option.isSome_iff_exists]; rfl

/-- C100: each question is answered yes exactly when the trait of the prelude that it is about is applied, with any value or none; every
question is about one trait of the prelude, and no two are about the same. -/
theorem C100_questions (ts : Traits) :
    (∀ e ∈ asks, e.1.ask ts = true ↔ ∃ v, ts.get (preludeTrait e.2) = some v) ∧
    (∀ q, ∃ n, (q, n) ∈ asks) ∧ (∀ e ∈ asks, e.2 ∈ preludeTraits) ∧ (asks.map (·.1)).Nodup ∧ (asks.map (·.2)).Nodup := by
  refine ⟨?_, ?_, by decide, by decide, by decide⟩
  · intro e he
    rw [ask_iff]
    have : ∀ e ∈ asks, e.1.constant = e.2 := by decide
    rw [this e he]
  · intro q; cases q <;> exact ⟨_, by unfold asks; simp; rfl⟩

theorem asks_of {q : TraitQuestion} {n : Str} (h : (q, n) ∈ asks) : q.constant = n :=
  (by decide : ∀ e ∈ asks, e.1.constant = e.2) _ h

/-- C100: other traits do not matter, and neither do values: what is asked is a matter of one key. -/
theorem C100_independent (q : TraitQuestion) (n : Str) (hq : (q, n) ∈ asks) (ts : Traits) (id : ShapeID) (v : TraitValue) :
    q.ask (AMap.insert ts id v) = (decide (id = preludeTrait n) || q.ask ts) := by
  rw [Bool.eq_iff_iff, Bool.or_eq_true, ask_iff, ask_iff, asks_of hq, decide_eq_true_iff]
  by_cases h : id = preludeTrait n
  · subst h; simp
  · rw [AMap.get_insert_ne _ _ h]; simp [h]

/-- C100: `has_traits` is whether any trait is applied, `trait_named` gives its value. -/
theorem C100_has_traits (ts : Traits) (id : ShapeID) :
    (hasTraits ts = true ↔ ∃ id v, traitNamed ts id = some v) ∧ (hasTrait ts id = true ↔ ∃ v, traitNamed ts id = some v) := by
  constructor
  · cases ts with
    | nil => simp [hasTraits, traitNamed]
    | cons e t =>
      obtain ⟨k, v⟩ := e
      refine ⟨fun _ => ⟨k, v, ?_⟩, fun _ => rfl⟩
      rw [traitNamed, AMap.get_cons, if_pos rfl]
  · rw [hasTrait, AMap.contains, Option.isSome_iff_exists]; rfl

theorem get_applyWithValue {ts : Traits} {id : ShapeID} {v : TraitValue} (h : (applyWithValue ts id v).2 = .ok ()) (j : ShapeID) :
    (AMap.get (applyWithValue ts id v).1 j).isSome = true ↔ j = id ∨ (AMap.get ts j).isSome = true := by
  unfold applyWithValue at h ⊢
  cases hm : id.isMember with
  | true => rw [hm] at h; simp at h
  | false =>
    rw [hm] at h
    simp only [Bool.false_eq_true, if_false] at h ⊢
    cases ho : AMap.get ts id with
    | none =>
      simp only
      by_cases hj : id = j
      · subst hj; simp
      · have hj' : ¬ j = id := fun e => hj e.symm
        rw [AMap.get_insert_ne _ _ hj]; simp [hj']
    | some old =>
      rw [ho] at h; simp only at h ⊢
      cases hr : mergeTraits id old v with
      | error e => rw [hr] at h; cases h
      | ok n =>
        simp only
        by_cases hj : id = j
        · subst hj; simp
        · have hj' : ¬ j = id := fun e => hj e.symm
          rw [AMap.get_insert_ne _ _ hj]; simp [hj']

theorem get_append {l : List (ShapeID × TraitValue)} : ∀ {ts : Traits}, (appendTraits ts l).2 = .ok () → ∀ (j : ShapeID),
    (AMap.get (appendTraits ts l).1 j).isSome = true ↔ (∃ v, (j, v) ∈ l) ∨ (AMap.get ts j).isSome = true := by
  induction l with
  | nil => intro ts _ j; simp [appendTraits]
  | cons e t ih =>
    obtain ⟨id, v⟩ := e
    intro ts h j
    unfold appendTraits at h ⊢
    cases ha : applyWithValue ts id v with
    | mk ts' r =>
      rw [ha] at h
      cases r with
      | error e => cases h
      | ok u =>
        simp only at h ⊢
        rw [ih h j]
        have := get_applyWithValue (ts := ts) (id := id) (v := v) (by rw [ha]) j
        rw [ha] at this; simp only at this
        rw [this]
        constructor
        · rintro (⟨w, hw⟩ | rfl | h)
          · exact .inl ⟨w, List.mem_cons_of_mem _ hw⟩
          · exact .inl ⟨v, List.mem_cons_self⟩
          · exact .inr h
        · rintro (⟨w, hw⟩ | h)
          · rcases List.mem_cons.mp hw with he | hw
            · injection he with he _; exact .inr (.inl he)
            · exact .inl ⟨w, hw⟩
          · exact .inr (.inr h)

theorem get_call {ts : Traits} {c : TraitCall} (h : (c.run ts).2 = .ok ()) (j : ShapeID) :
    (AMap.get (c.run ts).1 j).isSome = true ↔ Gives c j ∨ ((AMap.get ts j).isSome = true ∧ c ≠ .remove j) := by
  cases c with
  | apply id =>
    have := get_applyWithValue (v := none) h j
    rw [show (TraitCall.run ts (.apply id)).1 = (applyWithValue ts id none).1 from rfl, this]
    constructor
    · rintro (rfl | h)
      · exact .inl .apply
      · exact .inr ⟨h, TraitCall.noConfusion⟩
    · rintro (hg | ⟨h, -⟩)
      · cases hg; exact .inl rfl
      · exact .inr h
  | applyWithValue id v =>
    have := get_applyWithValue (v := v) h j
    rw [show (TraitCall.run ts (.applyWithValue id v)).1 = (applyWithValue ts id v).1 from rfl, this]
    constructor
    · rintro (rfl | h)
      · exact .inl .applyWithValue
      · exact .inr ⟨h, TraitCall.noConfusion⟩
    · rintro (hg | ⟨h, -⟩)
      · cases hg; exact .inl rfl
      · exact .inr h
  | append l =>
    have := get_append (l := l) h j
    rw [show (TraitCall.run ts (.append l)).1 = (appendTraits ts l).1 from rfl, this]
    constructor
    · rintro (⟨v, hv⟩ | h)
      · exact .inl (.append hv)
      · exact .inr ⟨h, TraitCall.noConfusion⟩
    · rintro (hg | ⟨h, -⟩)
      · cases hg with | append hv => exact .inl ⟨_, hv⟩
      · exact .inr h
  | remove id =>
    change (AMap.get (AMap.erase ts id) j).isSome = true ↔ _
    rw [AMap.get_erase]
    by_cases hj : id = j
    · subst hj
      simp only [if_true, Option.isSome_none, Bool.false_eq_true, false_iff]
      rintro (hg | ⟨-, h⟩)
      · cases hg
      · exact h rfl
    · rw [if_neg hj]
      constructor
      · intro h; exact .inr ⟨h, fun e => hj (by injection e)⟩
      · rintro (hg | ⟨h, -⟩)
        · cases hg
        · exact h

theorem left_cons {ts : Traits} {c : TraitCall} {cs : List TraitCall} {id : ShapeID} (h : (c.run ts).2 = .ok ()) :
    Left (c.run ts).1 cs id ↔ Left ts (c :: cs) id := by
  unfold Left
  rw [← Option.isSome_iff_exists, ← Option.isSome_iff_exists, get_call h]
  constructor
  · rintro (⟨h1 | ⟨h1, hn⟩, h2⟩ | ⟨e, d, l, rfl, hg, hl⟩)
    · exact .inr ⟨[], c, cs, rfl, h1, h2⟩
    · refine .inl ⟨h1, fun hm => ?_⟩
      rcases List.mem_cons.mp hm with h | h
      · exact hn h.symm
      · exact h2 h
    · exact .inr ⟨c :: e, d, l, rfl, hg, hl⟩
  · rintro (⟨h1, h2⟩ | ⟨e, d, l, he, hg, hl⟩)
    · exact .inl ⟨.inr ⟨h1, fun e => h2 (e ▸ List.mem_cons_self)⟩, fun hm => h2 (List.mem_cons_of_mem _ hm)⟩
    · cases e with
      | nil => injection he with h1 h2; subst h1 h2; exact .inl ⟨.inl hg, hl⟩
      | cons e0 e => injection he with h1 h2; subst h1 h2; exact .inr ⟨e, d, l, rfl, hg, hl⟩

/-- C100: after any calls that succeed, a trait is there exactly when it was there or was applied, and was not removed since. -/
theorem C100_history (ts : Traits) (calls : List TraitCall) (h : AllSucceed ts calls) (id : ShapeID) :
    hasTrait (TraitCall.runAll ts calls) id = true ↔ Left ts calls id := by
  induction h with
  | nil =>
    unfold Left TraitCall.runAll
    rw [hasTrait, AMap.contains, Option.isSome_iff_exists]
    constructor
    · intro h; exact .inl ⟨h, List.not_mem_nil⟩
    · rintro (⟨h, -⟩ | ⟨e, c, l, h, -⟩)
      · exact h
      · cases e <;> cases h
  | cons h1 _ ih => rw [← left_cons h1]; exact ih

/-- C100: the same for the questions. -/
theorem C100_history_questions (ts : Traits) (calls : List TraitCall) (h : AllSucceed ts calls) (q : TraitQuestion) (n : Str)
    (hq : (q, n) ∈ asks) : q.ask (TraitCall.runAll ts calls) = true ↔ Left ts calls (preludeTrait n) := by
  rw [← C100_history ts calls h, ← asks_of hq]; rfl

/-- C100: a call that fails never takes a trait away, and calls to apply one trait that fail change nothing. -/
theorem C100_failed_call (ts : Traits) (c : TraitCall) (e : Err) (h : (c.run ts).2 = .error e) :
    (∀ id, hasTrait ts id = true → hasTrait (c.run ts).1 id = true) ∧
    ((∀ l, c ≠ .append l) → (c.run ts).1 = ts) := by
  have key : ∀ (ts : Traits) id v e, (applyWithValue ts id v).2 = .error e → (applyWithValue ts id v).1 = ts := by
    intro ts id v e h
    unfold applyWithValue at h ⊢
    split
    · rfl
    · rename_i hm
      rw [if_neg hm] at h
      cases ho : AMap.get ts id with
      | none => rw [ho] at h; cases h
      | some old =>
        rw [ho] at h; simp only at h ⊢
        cases hr : mergeTraits id old v with
        | error e => rfl
        | ok n => rw [hr] at h; cases h
  have app : ∀ (l : List (ShapeID × TraitValue)) (ts : Traits) id, hasTrait ts id = true → hasTrait (appendTraits ts l).1 id = true := by
    intro l
    induction l with
    | nil => intro ts id h; exact h
    | cons e t ih =>
      obtain ⟨k, v⟩ := e
      intro ts id h
      unfold appendTraits
      cases ha : applyWithValue ts k v with
      | mk ts' r =>
        cases r with
        | error e =>
          have := key ts k v e (by rw [ha])
          rw [ha] at this; simp only at this ⊢; rw [this]; exact h
        | ok u =>
          simp only
          apply ih
          have := (get_applyWithValue (ts := ts) (id := k) (v := v) (by rw [ha]) id).mpr (.inr h)
          rw [ha] at this; exact this
  cases c with
  | apply id => exact ⟨fun j hj => by rw [show (TraitCall.run ts (.apply id)).1 = ts from key _ _ _ _ h]; exact hj, fun _ => key _ _ _ _ h⟩
  | applyWithValue id v => exact ⟨fun j hj => by rw [show (TraitCall.run ts (.applyWithValue id v)).1 = ts from key _ _ _ _ h]; exact hj, fun _ => key _ _ _ _ h⟩
  | append l => exact ⟨app l ts, fun h => absurd rfl (h l)⟩
  | remove id => cases h

/-- C100: the questions about a shape of a merged model are answered yes exactly when they are in either model. -/
theorem C100_merged (a b : Model) (ha : WfModel a) (hb : WfModel b) (hok : (a.merge b).2 = .ok ()) (id : ShapeID) (z : TopLevelShape)
    (hz : (a.merge b).1.shape id = some z) (q : TraitQuestion) :
    q.ask z.traits = true ↔ (∃ x, a.shape id = some x ∧ q.ask x.traits = true) ∨ (∃ y, b.shape id = some y ∧ q.ask y.traits = true) := by
  have h := (merge_spec ha hb hok).shapes id
  simp only [Model.shape] at hz ⊢
  generalize AMap.get a.shapes id = A at *
  generalize AMap.get b.shapes id = B at *
  generalize AMap.get (a.merge b).1.shapes id = C at *
  cases h with
  | neither => cases hz
  | left => injection hz with hz; subst hz; simp
  | right => injection hz with hz; subst hz; simp
  | both hm =>
    injection hz with hz; subst hz
    have ht := hm.traits (preludeTrait q.constant)
    simp only [Option.some.injEq, exists_eq_left', ask_iff, ← Option.isSome_iff_exists]
    exact Combine.isSome_iff ht

/-- C100: the questions and the functions of C62 that make traits agree: applying what a function makes turns to yes exactly the question
about the trait of that name. -/
theorem C100_functions (f : TraitFn) (n : Str) (v : Value) (hm : Makes f n v) (id : ShapeID) (t : TraitValue)
    (hr : f.run = .ok ⟨.qualified id, t⟩) (ts : Traits) (hok : (applyWithValue ts id t).2 = .ok ()) (q : TraitQuestion) (n' : Str)
    (hq : (q, n') ∈ asks) : q.ask (applyWithValue ts id t).1 = true ↔ n' = n ∨ q.ask ts = true := by
  have hid : id = preludeTrait n := by
    cases hm <;> simp only [TraitFn.run, TraitFn.bounds, TraitFn.nonEmpty] at hr <;> (try split at hr) <;> (try cases hr) <;> rfl
  subst hid
  rw [ask_iff, ask_iff, ← Option.isSome_iff_exists, ← Option.isSome_iff_exists, get_applyWithValue hok, asks_of hq]
  constructor
  · rintro (h | h)
    · unfold preludeTrait at h; injection h with _ h; exact .inl h
    · exact .inr h
  · rintro (rfl | h)
    · exact .inl rfl
    · exact .inr h

/-- C100 is violated by the case of letters: for each question there is a trait whose id is `==` to the one asked for, and that the model
keeps apart from it. -/
theorem C100_case_violated (q : TraitQuestion) : ∃ (id : ShapeID) (ts : Traits), id.ceq (preludeTrait q.constant) = true ∧ id.Valid ∧
    hasTrait ts id = true ∧ q.ask ts = false := by
  refine ⟨⟨%s"Smithy.api", q.constant, none⟩, [(⟨%s"Smithy.api", q.constant, none⟩, none)], ?_, ?_, ?_, ?_⟩
  · cases q <;> decide
  · refine ⟨(isNamespace_iff _).mp (by cases q <;> decide), (isIdent_iff _).mp ?_, fun _ h => (by cases h)⟩
    cases q <;> decide
  · cases q <;> decide
  · cases q <;> decide

/-- A case of C100: a member that is required and has documentation, of which the documentation is then removed. -/
example : AllSucceed [] [.apply (preludeTrait %s"required"), .applyWithValue (preludeTrait %s"documentation") (some (.string %s"x")),
      .append [(preludeTrait %s"length", none)], .remove (preludeTrait %s"documentation")] ∧
    Left [] [.apply (preludeTrait %s"required"), .applyWithValue (preludeTrait %s"documentation") (some (.string %s"x")),
      .append [(preludeTrait %s"length", none)], .remove (preludeTrait %s"documentation")] (preludeTrait %s"required") :=
  ⟨.cons rfl (.cons rfl (.cons rfl (.cons rfl .nil))),
    .inr ⟨[], _, _, rfl, .apply, by
      intro h
      rcases h with _ | ⟨_, h⟩
      rcases h with _ | ⟨_, h⟩
      rcases h with _ | ⟨_, h⟩
      cases h⟩⟩

/-! ### C100 Questions about members and the prelude -/

/-- C100: looking up a member gives exactly the member of that name. -/
theorem C100_member (s : TopLevelShape) (hs : WfShape s) (n : Str) (m : MemberShape) :
    s.member n = some m ↔ IsMemberOf s.body n m := by
  obtain ⟨id, ts, body⟩ := s
  have hb := hs.body
  have hsame : ∀ (a b : Str), identEq a b = true ↔ SameName a b := fun a b => by unfold identEq SameName; exact beq_iff_eq
  have hkv : ∀ n : Str, SameName n %s"key" → SameName n %s"value" → False := by
    intro n h1 h2; unfold SameName at h1 h2; rw [h1] at h2; revert h2; decide
  cases body with
  | simple t => exact ⟨fun h => (by cases h), fun h => (by cases h)⟩
  | list l =>
    change (if identEq n memberMember = true then some l else none) = some m ↔ _
    by_cases h : identEq n memberMember = true
    · rw [if_pos h]
      exact ⟨fun e => (by cases e; exact .list ((hsame _ _).mp h)), fun e => (by cases e; rfl)⟩
    · rw [if_neg h]
      refine ⟨fun e => (by cases e), fun e => ?_⟩
      cases e with | list e => exact absurd ((hsame _ _).mpr e) h
  | set l =>
    change (if identEq n memberMember = true then some l else none) = some m ↔ _
    by_cases h : identEq n memberMember = true
    · rw [if_pos h]
      exact ⟨fun e => (by cases e; exact .set ((hsame _ _).mp h)), fun e => (by cases e; rfl)⟩
    · rw [if_neg h]
      refine ⟨fun e => (by cases e), fun e => ?_⟩
      cases e with | set e => exact absurd ((hsame _ _).mpr e) h
  | map k v =>
    change (if identEq n memberKey = true then some k else if identEq n memberValue = true then some v else none) = some m ↔ _
    by_cases h : identEq n memberKey = true
    · rw [if_pos h]
      refine ⟨fun e => (by cases e; exact .key ((hsame _ _).mp h)), fun e => ?_⟩
      cases e with
      | key _ => rfl
      | value e => exact (hkv n ((hsame _ _).mp h) e).elim
    · rw [if_neg h]
      by_cases h' : identEq n memberValue = true
      · rw [if_pos h']
        refine ⟨fun e => (by cases e; exact .value ((hsame _ _).mp h')), fun e => ?_⟩
        cases e with
        | key e => exact absurd ((hsame _ _).mpr e) h
        | value _ => rfl
      · rw [if_neg h']
        refine ⟨fun e => (by cases e), fun e => ?_⟩
        cases e with
        | key e => exact absurd ((hsame _ _).mpr e) h
        | value e => exact absurd ((hsame _ _).mpr e) h'
  | struct ms =>
    change AMap.get ms n = some m ↔ _
    rw [← AMap.mem_iff_get (show AMap.Wf ms from hb.nodup)]
    exact ⟨.struct, fun e => by cases e; assumption⟩
  | union ms =>
    change AMap.get ms n = some m ↔ _
    rw [← AMap.mem_iff_get (show AMap.Wf ms from hb.nodup)]
    exact ⟨.union, fun e => by cases e; assumption⟩
  | service x => exact ⟨fun h => (by cases h), fun h => (by cases h)⟩
  | operation x => exact ⟨fun h => (by cases h), fun h => (by cases h)⟩
  | resource x => exact ⟨fun h => (by cases h), fun h => (by cases h)⟩
  | unresolved => exact ⟨fun h => (by cases h), fun h => (by cases h)⟩

/-- C100: a shape that has any member answers that it supports members; the types of the Smithy specification with members do. -/
theorem C100_has_members (s : TopLevelShape) (n : Str) (m : MemberShape) :
    (s.member n = some m → Aggregate s.body) ∧ (Aggregate s.body → s.hasMembers = true) := by
  obtain ⟨id, ts, body⟩ := s
  constructor
  · intro h
    cases body with
    | list => exact .list
    | set => exact .set
    | map => exact .map
    | struct => exact .struct
    | union => exact .union
    | _ => cases h
  · intro h; cases h <;> rfl

/-- C100 is violated by services, operations and resources: they answer that they support members, but have none under any name. -/
theorem C100_has_members_violated (s : TopLevelShape) :
    (s.hasMembers = true ∧ ¬ Aggregate s.body ↔ s.body.isService = true ∨ s.body.isOperation = true ∨ s.body.isResource = true) ∧
    (¬ Aggregate s.body → ∀ n, s.member n = none ∧ s.hasMember n = false) := by
  obtain ⟨id, ts, body⟩ := s
  constructor
  · cases body <;> simp [TopLevelShape.hasMembers, ShapeKind.isService, ShapeKind.isOperation, ShapeKind.isResource] <;>
      first | constructor | (intro h; cases h)
  · intro h n
    cases body with
    | list => exact absurd .list h
    | set => exact absurd .set h
    | map => exact absurd .map h
    | struct => exact absurd .struct h
    | union => exact absurd .union h
    | _ => exact ⟨rfl, rfl⟩

/-- C100: names of members are compared in two ways: a list has its member under `MEMBER` too, a structure does not have under `A` its
member `a`, although the two names are `==`. -/
theorem C100_member_case (l : MemberShape) : ∃ (n : Str) (ms : AMap Str MemberShape),
    SameName n %s"member" ∧ n ≠ %s"member" ∧ (TopLevelShape.new ⟨%s"a", %s"B", none⟩ (.list l)).member n = some l ∧
    ∃ a b : Str, SameName a b ∧ (TopLevelShape.new ⟨%s"a", %s"B", none⟩ (.struct ms)).member a ≠ none ∧
      (TopLevelShape.new ⟨%s"a", %s"B", none⟩ (.struct ms)).member b = none :=
  ⟨%s"MEMBER", [(%s"a", l)], by unfold SameName; decide, by decide, rfl, %s"a", %s"A", by unfold SameName; decide, by
    change AMap.get [(%s"a", l)] %s"a" ≠ none
    rw [AMap.get_cons, if_pos rfl]; simp, rfl⟩

/-- C100: the shapes of the prelude are those of its namespace, written in small letters; another way to write it is `==`, but does not
count. -/
theorem C100_prelude (s : TopLevelShape) :
    (s.isPreludeShape = true ↔ s.id.ns = %s"smithy.api") ∧
    (s.isPreludeShape = true → ∃ t : TopLevelShape, t.id.ceq s.id = true ∧ t.body = s.body ∧ t.traits = s.traits ∧ t.isPreludeShape = false) := by
  obtain ⟨⟨ns, n, mem⟩, ts, body⟩ := s
  have h : (TopLevelShape.isPreludeShape ⟨⟨ns, n, mem⟩, ts, body⟩ = true ↔ ns = %s"smithy.api") := by
    rw [TopLevelShape.isPreludeShape]; exact beq_iff_eq
  refine ⟨h, fun hp => ?_⟩
  obtain rfl := h.mp hp
  refine ⟨⟨⟨%s"Smithy.api", n, mem⟩, ts, body⟩, ?_, rfl, rfl, rfl⟩
  rw [ceq_iff]
  refine ⟨?_, rfl, ?_⟩
  · change lower %s"Smithy.api" = lower %s"smithy.api"; decide
  · cases mem <;> rfl

/-- C100: `prelude_shape_named` gives the absolute id of that name in the prelude, exactly for the names that are identifiers, whether
or not the prelude has such a shape; the names of the shapes and traits of the prelude are identifiers. -/
theorem C100_prelude_named (n : Str) :
    (∀ id, preludeShapeNamed n = .ok id ↔ IsIdentifier n ∧ id = preludeTrait n) ∧
    (¬ IsIdentifier n → preludeShapeNamed n = .error (.invalidShapeID n)) ∧
    (n ∈ preludeShapes ∨ n ∈ preludeTraits → IsIdentifier n) := by
  have h : ∀ n, (n ∈ preludeShapes ∨ n ∈ preludeTraits → IsIdentifier n) := by
    intro n h
    rw [← isIdent_iff]
    have h1 : ∀ n ∈ preludeShapes, isIdent n = true := by decide
    have h2 : ∀ n ∈ preludeTraits, isIdent n = true := by decide
    exact h.elim (h1 n) (h2 n)
  refine ⟨fun id => ?_, fun hn => ?_, h n⟩
  · unfold preludeShapeNamed Identifier.fromStr
    rw [← isIdent_iff]
    by_cases hi : isIdent n = true
    · rw [if_pos hi]
      constructor
      · intro h; cases h; exact ⟨hi, rfl⟩
      · rintro ⟨-, rfl⟩; rfl
    · rw [if_neg hi]
      exact ⟨fun h => (by cases h), fun h => absurd h.1 hi⟩
  · unfold preludeShapeNamed Identifier.fromStr
    rw [← isIdent_iff] at hn
    rw [if_neg hn]; rfl

/-! ### C101 Lists, sets, maps, structures and unions that a client can make -/

theorem identEq_same (a b : Str) : identEq a b = true ↔ SameName a b := by unfold identEq SameName; exact beq_iff_eq

theorem noTraits_wf : WfTraits [] := ⟨AMap.wf_nil, fun _ _ h => (by cases h)⟩

/-- C101: in every list or set that a client can make the member is called `member`, in some case of letters; replacing the member
succeeds exactly for one called like it, and panics otherwise. -/
theorem C101_list (l : MemberShape) (h : AList l) :
    SameName l.id %s"member" ∧
    (∀ m, listSetMember l m = if lower m.id = %s"member" then .ok m else .error .panic) ∧
    (∀ n, (TopLevelShape.new n (.list l)).member l.id = some l) := by
  have hl : SameName l.id %s"member" := by
    induction h with
    | new t => rfl
    | @«from» m l hm h =>
      unfold listFrom at h
      by_cases hi : m.id = memberMember
      · rw [if_pos hi] at h; injection h with h; subst h; rw [hi]; rfl
      · rw [if_neg hi] at h; cases h
    | @setMember l m l' _ _ h ih =>
      unfold listSetMember at h
      by_cases hi : identEq m.id l.id = true
      · rw [if_pos hi] at h; injection h with h; subst h
        have := (identEq_same _ _).mp hi
        unfold SameName at this ih ⊢; rw [this, ih]
      · rw [if_neg hi] at h; cases h
  have e : lower %s"member" = %s"member" := by decide
  refine ⟨hl, fun m => ?_, fun n => ?_⟩
  · unfold listSetMember
    unfold SameName at hl; rw [e] at hl
    by_cases hi : lower m.id = %s"member"
    · rw [if_pos hi, if_pos]; exact (identEq_same _ _).mpr (by unfold SameName; rw [hi, hl])
    · rw [if_neg hi, if_neg]; intro h; have := (identEq_same _ _).mp h; unfold SameName at this; rw [hl] at this; exact hi this
  · change (if identEq l.id memberMember = true then some l else none) = some l
    rw [if_pos ((identEq_same l.id memberMember).mpr hl)]

/-- C101: a list can be made from a member exactly when it is called `member`, letter for letter. -/
theorem C101_list_from (m : MemberShape) :
    (m.id = %s"member" → listFrom m = .ok m) ∧ (m.id ≠ %s"member" → listFrom m = .error .panic) := by
  unfold listFrom memberMember
  exact ⟨fun h => if_pos h, fun h => if_neg h⟩

/-- C101 is violated by `set_member`, which lets in a member that `from` does not: `MEMBER`. -/
theorem C101_list_violated : ∃ l m : MemberShape, AList l ∧ l.id ≠ %s"member" ∧ listFrom l = .error .panic ∧
    m = l ∧ listSetMember (listNew m.target) m = .ok l :=
  ⟨⟨%s"MEMBER", [], ⟨%s"smithy.api", %s"String", none⟩⟩, _,
    .setMember (m := ⟨%s"MEMBER", [], ⟨%s"smithy.api", %s"String", none⟩⟩) (.new ⟨%s"smithy.api", %s"String", none⟩) noTraits_wf rfl, by decide, rfl, rfl, rfl⟩

/-- C101: a map that was not made with `from` has a key called `key` and a value called `value`, in some case of letters, and gives
each under its name. -/
theorem C101_map (m : MemberShape × MemberShape) (h : ANewMap m) :
    SameName m.1.id %s"key" ∧ SameName m.2.id %s"value" ∧
    (∀ n, (TopLevelShape.new n (.map m.1 m.2)).member m.1.id = some m.1 ∧ (TopLevelShape.new n (.map m.1 m.2)).member m.2.id = some m.2) := by
  have hl : SameName m.1.id %s"key" ∧ SameName m.2.id %s"value" := by
    induction h with
    | new k v => exact ⟨rfl, rfl⟩
    | @setKey m k m' _ _ h ih =>
      unfold mapSetKey at h
      by_cases hi : identEq k.id m.1.id = true
      · rw [if_pos hi] at h; injection h with h; subst h
        have := (identEq_same _ _).mp hi
        unfold SameName at this ih ⊢; exact ⟨by rw [this, ih.1], ih.2⟩
      · rw [if_neg hi] at h; cases h
    | @setValue m v m' _ _ h ih =>
      unfold mapSetValue at h
      by_cases hi : identEq v.id m.2.id = true
      · rw [if_pos hi] at h; injection h with h; subst h
        have := (identEq_same _ _).mp hi
        unfold SameName at this ih ⊢; exact ⟨ih.1, by rw [this, ih.2]⟩
      · rw [if_neg hi] at h; cases h
  refine ⟨hl.1, hl.2, fun n => ⟨?_, ?_⟩⟩
  · change (if identEq m.1.id memberKey = true then some m.1 else if identEq m.1.id memberValue = true then some m.2 else none) = _
    rw [if_pos ((identEq_same m.1.id memberKey).mpr hl.1)]
  · change (if identEq m.2.id memberKey = true then some m.1 else if identEq m.2.id memberValue = true then some m.2 else none) = _
    rw [if_neg, if_pos ((identEq_same m.2.id memberValue).mpr hl.2)]
    intro h
    have h1 := (identEq_same _ _).mp h
    have h2 := hl.2
    unfold SameName at h1 h2
    rw [h2] at h1; revert h1; decide

/-- C101: replacing the key or the value of a map succeeds exactly with one of the same name, and changes nothing else. -/
theorem C101_map_set (m : MemberShape × MemberShape) (x : MemberShape) :
    (SameName x.id m.1.id → mapSetKey m x = .ok (x, m.2)) ∧ (¬ SameName x.id m.1.id → mapSetKey m x = .error .panic) ∧
    (SameName x.id m.2.id → mapSetValue m x = .ok (m.1, x)) ∧ (¬ SameName x.id m.2.id → mapSetValue m x = .error .panic) := by
  refine ⟨fun h => if_pos ((identEq_same _ _).mpr h), fun h => if_neg fun e => h ((identEq_same _ _).mp e),
    fun h => if_pos ((identEq_same _ _).mpr h), fun h => if_neg fun e => h ((identEq_same _ _).mp e)⟩

/-- C101 is violated by `Map::from`: it takes members of any names, in any order, and such a map gives under `key` a member that is not
called so. -/
theorem C101_map_violated (k v : MemberShape) (hk : AnyMember k) (hv : AnyMember v) :
    AMapShape (k, v) ∧ ∀ n, (TopLevelShape.new n (.map k v)).member %s"key" = some k ∧
      (TopLevelShape.new n (.map k v)).member %s"value" = some v :=
  ⟨.from hk hv, fun _ => ⟨rfl, rfl⟩⟩

/-- C101: what the constructors make: members under their names, with the targets given and no traits. -/
theorem C101_new (n t k v : ShapeID) :
    (TopLevelShape.new n (.list (listNew t))).member %s"member" = some ⟨%s"member", [], t⟩ ∧
    (TopLevelShape.new n (.map (mapNew k v).1 (mapNew k v).2)).member %s"key" = some ⟨%s"key", [], k⟩ ∧
    (TopLevelShape.new n (.map (mapNew k v).1 (mapNew k v).2)).member %s"value" = some ⟨%s"value", [], v⟩ ∧
    (∀ ms a, (TopLevelShape.new n (.struct (addMember ms a t))).member a = some ⟨a, [], t⟩) := by
  refine ⟨rfl, rfl, rfl, fun ms a => ?_⟩
  change AMap.get (AMap.insert ms a _) a = _
  rw [AMap.get_insert_self]; rfl

theorem astruct_wf {ms : AMap Str MemberShape} (h : AStruct ms) : WfMembers ms := by
  have add : ∀ {ms : AMap Str MemberShape} {m : MemberShape}, WfMembers ms → AnyMember m → WfMembers (addAMember ms m) := by
    intro ms m h hm
    refine ⟨AMap.wf_insert h.nodup _ _, fun k x hx => ?_, fun k x hx => ?_⟩
    · unfold addAMember at hx
      by_cases hk : m.id = k
      · subst hk; rw [AMap.get_insert_self] at hx; injection hx with hx; rw [hx]
      · rw [AMap.get_insert_ne _ _ hk] at hx; exact h.key k x hx
    · unfold addAMember at hx
      by_cases hk : m.id = k
      · subst hk; rw [AMap.get_insert_self] at hx; injection hx with hx; rw [← hx]; exact hm
      · rw [AMap.get_insert_ne _ _ hk] at hx; exact h.traits k x hx
  have nil : WfMembers [] := ⟨AMap.wf_nil, fun _ _ h => (by cases h), fun _ _ h => (by cases h)⟩
  induction h with
  | new => exact nil
  | @withMembers l hl =>
    unfold withMembers
    have : ∀ (l : List MemberShape) ms, (∀ m ∈ l, AnyMember m) → WfMembers ms → WfMembers (l.foldl addAMember ms) := by
      intro l
      induction l with
      | nil => intro ms _ h; exact h
      | cons a t ih => intro ms hl h; exact ih _ (fun m hm => hl m (List.mem_cons_of_mem _ hm)) (add h (hl a List.mem_cons_self))
    exact this l [] hl nil
  | addMember n t _ ih => exact add ih noTraits_wf
  | addAMember hm _ ih => exact add ih hm
  | removeMember n _ ih =>
    refine ⟨AMap.wf_erase ih.nodup _, fun k x hx => ?_, fun k x hx => ?_⟩
    · unfold removeMember at hx; rw [AMap.get_erase] at hx
      split at hx
      · cases hx
      · exact ih.key k x hx
    · unfold removeMember at hx; rw [AMap.get_erase] at hx
      split at hx
      · cases hx
      · exact ih.traits k x hx

/-- C101: in every structure or union that a client can make, each member is found under its own name and no name is used twice;
adding a member replaces the one of that name and no other, removing takes away that one alone. -/
theorem C101_struct (ms : AMap Str MemberShape) (h : AStruct ms) :
    (∀ n m, structMember ms n = some m → m.id = n) ∧ (AMap.keys ms).Nodup ∧
    (structHasMembers ms = true ↔ ∃ n m, structMember ms n = some m) ∧
    (∀ m n, structMember (addAMember ms m) n = if n = m.id then some m else structMember ms n) ∧
    (∀ a n, structMember (removeMember ms a) n = if n = a then none else structMember ms n) := by
  refine ⟨(astruct_wf h).key, (astruct_wf h).nodup, ?_, fun m n => ?_, fun a n => ?_⟩
  · cases ms with
    | nil => simp [structHasMembers, structMember]
    | cons e t =>
      obtain ⟨k, v⟩ := e
      refine ⟨fun _ => ⟨k, v, ?_⟩, fun _ => rfl⟩
      rw [structMember, AMap.get_cons, if_pos rfl]
  · unfold structMember addAMember
    by_cases hn : n = m.id
    · subst hn; rw [if_pos rfl, AMap.get_insert_self]
    · rw [if_neg hn, AMap.get_insert_ne _ _ fun e => hn e.symm]
  · unfold structMember removeMember
    rw [AMap.get_erase]
    by_cases hn : a = n
    · subst hn; simp
    · rw [if_neg hn, if_neg fun e => hn e.symm]

/-- C101: `with_members` keeps the last member of each name. -/
theorem C101_with_members (l : List MemberShape) (n : Str) (m : MemberShape) :
    structMember (withMembers l) n = some m ↔ ∃ before after, l = before ++ m :: after ∧ m.id = n ∧ ∀ x ∈ after, x.id ≠ n := by
  have key : ∀ (l : List MemberShape) ms, structMember (l.foldl addAMember ms) n = some m ↔
      (∃ before after, l = before ++ m :: after ∧ m.id = n ∧ ∀ x ∈ after, x.id ≠ n) ∨ (∀ x ∈ l, x.id ≠ n) ∧ structMember ms n = some m := by
    intro l
    induction l with
    | nil =>
      intro ms
      refine ⟨fun h => .inr ⟨fun _ h => (by cases h), h⟩, ?_⟩
      rintro (⟨b, a, h, -⟩ | ⟨-, h⟩)
      · cases b <;> cases h
      · exact h
    | cons a t ih =>
      intro ms
      rw [List.foldl_cons, ih]
      constructor
      · rintro (⟨b, c, rfl, h⟩ | ⟨h1, h2⟩)
        · exact .inl ⟨a :: b, c, rfl, h⟩
        · unfold structMember addAMember at h2
          by_cases ha : a.id = n
          · rw [ha, AMap.get_insert_self] at h2; injection h2 with h2; subst h2
            exact .inl ⟨[], t, rfl, ha, h1⟩
          · rw [AMap.get_insert_ne _ _ ha] at h2
            exact .inr ⟨fun x hx => (by
              rcases List.mem_cons.mp hx with rfl | hx
              · exact ha
              · exact h1 x hx), h2⟩
      · rintro (⟨b, c, hb, h⟩ | ⟨h1, h2⟩)
        · cases b with
          | nil =>
            injection hb with hb1 hb2; subst hb1 hb2
            refine .inr ⟨h.2, ?_⟩
            unfold structMember addAMember; rw [h.1, AMap.get_insert_self]
          | cons b0 b => injection hb with hb1 hb2; subst hb1 hb2; exact .inl ⟨b, c, rfl, h⟩
        · refine .inr ⟨fun x hx => h1 x (List.mem_cons_of_mem _ hx), ?_⟩
          unfold structMember addAMember
          rw [AMap.get_insert_ne _ _ (h1 a List.mem_cons_self)]; exact h2
  rw [withMembers, key]
  constructor
  · rintro (h | ⟨-, h⟩)
    · exact h
    · cases h
  · exact .inl

/-! ### C101 Editing a shape of a model -/

theorem editShape_shape (m : Model) (id : ShapeID) (e : ShapeEdit) (j : ShapeID) :
    (m.editShape id e).shape j = if j = id then (m.shape id).map e.run else m.shape j := by
  unfold Model.editShape Model.shape
  cases h : AMap.get m.shapes id with
  | none =>
    simp only [Option.map_none]
    by_cases hj : j = id
    · subst hj; rw [if_pos rfl, h]
    · rw [if_neg hj]
  | some s =>
    simp only [Option.map_some]
    by_cases hj : j = id
    · subst hj; rw [if_pos rfl, AMap.get_insert_self]
    · rw [if_neg hj, AMap.get_insert_ne _ _ fun e => hj e.symm]

/-- C101: an edit changes the shape that was asked for, and nothing else: other shapes, the stored ids, metadata and version stay. -/
theorem C101_edit_frame (m : Model) (id : ShapeID) (e : ShapeEdit) :
    (m.editShape id e).shape id = (m.shape id).map e.run ∧
    (∀ j, j ≠ id → (m.editShape id e).shape j = m.shape j) ∧
    AMap.keys (m.editShape id e).shapes = AMap.keys m.shapes ∧
    (m.editShape id e).metadata = m.metadata ∧ (m.editShape id e).version = m.version ∧
    (m.shape id = none → m.editShape id e = m) := by
  refine ⟨by rw [editShape_shape, if_pos rfl], fun j hj => by rw [editShape_shape, if_neg hj], ?_, ?_, ?_, ?_⟩
  · unfold Model.editShape
    cases h : AMap.get m.shapes id with
    | none => rfl
    | some s =>
      change AMap.keys (AMap.insert m.shapes id _) = _
      rw [AMap.keys_insert, if_pos]
      rw [AMap.mem_keys_iff, h]; rfl
  · unfold Model.editShape; split <;> rfl
  · unfold Model.editShape; split <;> rfl
  · intro h; unfold Model.editShape; unfold Model.shape at h; rw [h]

/-- C101: each edit changes the one part of the shape that it is about: the id, the body or the traits. -/
theorem C101_edit_parts (s : TopLevelShape) :
    (∀ id, (ShapeEdit.setId id).run s = ⟨id, s.traits, s.body⟩) ∧ (∀ b, (ShapeEdit.setBody b).run s = ⟨s.id, s.traits, b⟩) ∧
    (∀ ts, (ShapeEdit.traitsMut ts).run s = ⟨s.id, ts, s.body⟩) ∧
    (∀ c, ((ShapeEdit.traits c).run s).id = s.id ∧ ((ShapeEdit.traits c).run s).body = s.body) ∧
    (∀ id v, (applyWithValue s.traits id v).2 = .ok () → ∀ j,
      hasTrait ((ShapeEdit.traits (.applyWithValue id v)).run s).traits j = true ↔ j = id ∨ hasTrait s.traits j = true) ∧
    (∀ id j, hasTrait ((ShapeEdit.traits (.remove id)).run s).traits j = true ↔ j ≠ id ∧ hasTrait s.traits j = true) := by
  refine ⟨fun _ => rfl, fun _ => rfl, fun _ => rfl, fun _ => ⟨rfl, rfl⟩, fun id v h j => get_applyWithValue h j, fun id j => ?_⟩
  change (AMap.get (AMap.erase s.traits id) j).isSome = true ↔ _
  rw [AMap.get_erase]
  by_cases h : j = id
  · subst h; simp
  · rw [hasTrait, AMap.contains]
    split
    · rename_i h'; exact absurd h'.symm h
    · simp [h]

end Verif
