/-
When the IDL reader may panic.
-/
import Verif.IdlImage
import Verif.BuilderConflicts

namespace Verif
open Peg Spec

namespace Spec

/-- What a text has whenever reading it panics: a member of a relative id; one of the keywords of the statements with an
object; or an import. -/
inductive MayPanic (s : Str) : Prop
  | member {a b} : SmithyIdent a → SmithyIdent b → a ++ '$' :: b <:+: s → MayPanic s
  | service : %s"service" <:+: s → MayPanic s
  | operation : %s"operation" <:+: s → MayPanic s
  | resource : %s"resource" <:+: s → MayPanic s
  | uses : %s"use" <:+: s → MayPanic s

end Spec

/-- Not a panic. -/
def Calm {α : Type} (x : Except Err α) : Prop := x ≠ .error .panic

namespace Calm
variable {α β : Type}

theorem ok {a : α} : Calm (.ok a) := by intro h; cases h

theorem pure {a : α} : Calm (Pure.pure a : Except Err α) := ok

theorem unexpected {place : Str} {c : Option Str} : Calm (SelParser.astray place c : Except Err α) := by intro h; cases h

theorem bind {P : α → Prop} {x : Except Err α} {f : α → Except Err β} (h : Calm x) (hy : Yields P x) (hf : ∀ a, P a → Calm (f a)) : Calm (x >>= f) := by
  cases x with
  | error e =>
    intro he
    apply h
    cases he
    rfl
  | ok a => exact hf a (hy a rfl)

theorem bind' {x : Except Err α} {f : α → Except Err β} (h : Calm x) (hf : ∀ a, Calm (f a)) : Calm (x >>= f) := h.bind Yields.any fun a _ => hf a

theorem map {x : Except Err α} {f : α → β} (h : Calm x) : Calm (x.map f) := by
  cases x with
  | error e =>
    intro he
    apply h
    cases he
    rfl
  | ok a => exact ok

theorem ite {c : Prop} [Decidable c] {x y : Except Err α} (hx : c → Calm x) (hy : ¬ c → Calm y) : Calm (if c then x else y) := by
  split
  · next h => exact hx h
  · next h => exact hy h

end Calm

theorem each_calm {α : Type} {rule : IdlRule} {f : Pair IdlRule → Except Err α} {ps : List (Pair IdlRule)}
    (h : ∀ p ∈ ps, p.asRule = rule → Calm (f p)) : Calm (SelParser.each rule f ps) := by
  induction ps with
  | nil => exact .ok
  | cons p ps ih =>
    unfold SelParser.each
    refine Calm.ite (fun hr => ?_) (fun _ => .unexpected)
    exact (h p (by simp) hr).bind' fun a => (ih fun q hq => h q (by simp [hq])).bind' fun l => .pure

theorem next_calm {ps : List (Pair IdlRule)} (h : 1 ≤ ps.length) : Calm (SelParser.next ps) := by
  cases ps with
  | nil => exact absurd h (by decide)
  | cons p ps => exact .ok

theorem unwrap_ok_calm {α : Type} {x : Except Err α} {a : α} (h : x = .ok a) : Calm (unwrap x) := by
  rw [h]; exact .ok

namespace IdlParser
open IdlRule
variable {flt : Str → Option F64}

/-! ### Values -/

theorem numberOf_calm (t : Str) : Calm (numberOf flt t) := by
  unfold numberOf
  refine Calm.ite (fun _ => ?_) (fun _ => ?_)
  · split
    · exact .ok
    · intro h; cases h
  · split
    · exact .ok
    · intro h; cases h

theorem textOf_calm (rule : IdlRule) (ps : List (Pair IdlRule)) : Calm (textOf rule ps) := by
  cases ps with
  | nil => exact .unexpected
  | cons p ps => exact Calm.ite (fun _ => .ok) (fun _ => .unexpected)

/-- A value has something inside. -/
theorem nodeValue_inner {p : Pair IdlRule} (h : Sound idlGrammar p) (hr : p.asRule = nodeValue) : p.intoInner ≠ [] := by
  have := h.atLeast (by rw [hr]; decide) (by rw [hr]; decide) 8
  rw [hr] at this
  have h1 : 1 ≤ atLeast idlGrammar 8 (idlGrammar.body nodeValue) := by decide
  intro he
  rw [he] at this
  exact absurd (Nat.le_trans h1 this) (by decide)

mutual
  theorem nodeValueOf_calm (flt : Str → Option F64) : (p : Pair IdlRule) → Sound idlGrammar p → p.asRule = nodeValue → Calm (nodeValueOf flt p)
    | .mk r t ps => fun h hr => by
      unfold nodeValueOf
      exact firstValue_calm flt ps h.inner (nodeValue_inner h hr)
  termination_by structural x => x
  theorem firstValue_calm (flt : Str → Option F64) : (ps : List (Pair IdlRule)) → (∀ p ∈ ps, Sound idlGrammar p) → ps ≠ [] → Calm (firstValue flt ps)
    | [] => fun _ h => absurd rfl h
    | p :: _ => fun h _ => by unfold firstValue; exact innerValue_calm flt p (h p (by simp))
  termination_by structural x => x
  theorem innerValue_calm (flt : Str → Option F64) : (p : Pair IdlRule) → Sound idlGrammar p → Calm (innerValue flt p)
    | .mk r t ps => fun h => by
      have h1 := arrayOf_calm flt ps h.inner
      have h2 := objectOf_calm flt ps h.inner
      unfold innerValue
      split
      · exact h1.map
      · exact (h2 []).map
      · exact (numberOf_calm t).map
      · exact .ok
      · exact .ok
      · exact .ok
      · exact .ok
      · exact textOf_calm _ _
      · exact textOf_calm _ _
      · exact .unexpected
  termination_by structural x => x
  theorem arrayOf_calm (flt : Str → Option F64) : (ps : List (Pair IdlRule)) → (∀ p ∈ ps, Sound idlGrammar p) → Calm (arrayOf flt ps)
    | [] => fun _ => .ok
    | p :: ps => fun h => by
      have h1 := nodeValueOf_calm flt p (h p (by simp))
      have h2 := arrayOf_calm flt ps fun q hq => h q (by simp [hq])
      unfold arrayOf
      refine Calm.ite (fun hr => ?_) (fun _ => .unexpected)
      split
      · next e he =>
        have := h1 hr
        rw [he] at this
        intro h; apply this; cases h; rfl
      · split
        · next e he =>
          rw [he] at h2
          intro h; apply h2; cases h; rfl
        · exact .ok
  termination_by structural x => x
  theorem objectOf_calm (flt : Str → Option F64) : (ps : List (Pair IdlRule)) → (∀ p ∈ ps, Sound idlGrammar p) → ∀ o, Calm (objectOf flt o ps)
    | [] => fun _ o => .ok
    | p :: ps => fun h o => by
      have h1 := kvpOf_calm flt p (h p (by simp))
      have h2 := objectOf_calm flt ps fun q hq => h q (by simp [hq])
      unfold objectOf
      refine Calm.ite (fun hr => ?_) (fun _ => .unexpected)
      split
      · next e he =>
        rw [he] at h1
        intro h; apply h1; cases h; rfl
      · exact h2 _
  termination_by structural x => x
  theorem kvpOf_calm (flt : Str → Option F64) : (p : Pair IdlRule) → Sound idlGrammar p → Calm (kvpOf flt p)
    | .mk _ _ ps => fun h => by unfold kvpOf; exact kvpLoop_calm flt ps h.inner none none
  termination_by structural x => x
  theorem kvpLoop_calm (flt : Str → Option F64) : (ps : List (Pair IdlRule)) → (∀ p ∈ ps, Sound idlGrammar p) → ∀ k v, Calm (kvpLoop flt k v ps)
    | [] => fun _ k v => by
      unfold kvpLoop
      split
      · exact .ok
      · exact .unexpected
    | p :: ps => fun h k v => by
      have h1 := nodeValueOf_calm flt p (h p (by simp))
      have h2 := kvpLoop_calm flt ps fun q hq => h q (by simp [hq])
      unfold kvpLoop
      split
      · exact h2 _ _
      · exact h2 _ _
      · next hr =>
        split
        · next e he =>
          have := h1 hr
          rw [he] at this
          intro h; apply this; cases h; rfl
        · exact h2 _ _
      · exact .unexpected
  termination_by structural x => x
end

/-! ### Names -/

/-- The text of a pair for an id: an identifier or an absolute id, maybe with a member. -/
theorem sound_shapeId {p : Pair IdlRule} (h : Sound idlGrammar p) (hr : p.asRule = .shapeId) :
    (∃ n, SmithyIdent n ∧ (p.asStr = n ∨ ∃ m, SmithyIdent m ∧ p.asStr = n ++ '$' :: m)) ∨
    ∃ ns n, SmithyNamespace ns ∧ SmithyIdent n ∧ (p.asStr = ns ++ '#' :: n ∨ ∃ m, SmithyIdent m ∧ p.asStr = ns ++ '#' :: n ++ '$' :: m) := by
  obtain ⟨r, t, ps⟩ := p
  cases hr
  have ht : Tree idlGrammar true (IdlGrammar.body .shapeId) t ps := h.tree (by decide)
  obtain ⟨t1, t2, rfl, h1, h2⟩ := ht.parts
  have hm : t2 = [] ∨ ∃ m, SmithyIdent m ∧ t2 = '$' :: m := by
    cases h2 with
    | optNone => exact .inl rfl
    | optSome h2 =>
      obtain ⟨u1, u2, rfl, h3, h4⟩ := (show Tree idlGrammar true (.str %s"$" ~> .rule .identifier) t2 [] from h2.body).parts
      obtain ⟨rfl, -⟩ := h3.str_eq
      exact .inr ⟨u2, ident_idl h4.body, rfl⟩
  change _ ∨ _
  dsimp only [Pair.asStr]
  have hroot : Tree idlGrammar true (.rule .absoluteRootShapeId <||> .rule .identifier) t1 [] := h1.body
  cases hroot with
  | choiceL h1 =>
    right
    obtain ⟨u1, u2, rfl, h3, h4⟩ := (show Tree idlGrammar true (.rule .nsName ~> .str %s"#" ~> .rule .identifier) t1 [] from h1.body).parts
    obtain ⟨u3, u4, rfl, h5, h6⟩ := h4.parts
    obtain ⟨rfl, -⟩ := h5.str_eq
    refine ⟨u1, u4, namespace_idl h3.body, ident_idl h6.body, ?_⟩
    rcases hm with rfl | ⟨m, hm, rfl⟩
    · exact .inl (by simp)
    · exact .inr ⟨m, hm, by simp⟩
  | choiceR _ h1 =>
    left
    refine ⟨t1, ident_idl h1.body, ?_⟩
    rcases hm with rfl | ⟨m, hm, rfl⟩
    · exact .inl (by simp)
    · exact .inr ⟨m, hm, rfl⟩

/-- An id of the text can be parsed, unless it is relative with a member. -/
theorem shapeId_name {s : Str} (hq : ¬ MayPanic s) {p : Pair IdlRule} (h : Within s p) (hr : p.asRule = .shapeId) : ∃ n, ShapeName.fromStr p.asStr = .ok n := by
  rcases sound_shapeId h.1 hr with ⟨n, hn, he | ⟨m, hm, he⟩⟩ | ⟨ns, n, hns, hn, he | ⟨m, hm, he⟩⟩
  · rw [he]; exact ⟨_, nameFromStr_ident hn⟩
  · exact absurd (MayPanic.member hn hm (he ▸ h.2)) hq
  · rw [he]
    exact ⟨_, ((C24_name_syntax _).2.1 _).mpr (fromStr_absolute hns hn)⟩
  · rw [he]
    refine ⟨.qualified ⟨ns, n, some m⟩, ((C24_name_syntax _).2.1 _).mpr ?_⟩
    have := C03_parse_display ⟨ns, n, some m⟩ (smithyNamespace_isNamespace hns) (ident_isIdentifier hn) (by rintro _ ⟨⟩; exact ident_isIdentifier hm)
    simpa [ShapeID.display] using this

/-! ### Traits and members -/

theorem quotedKey_calm (ps : List (Pair IdlRule)) : ∀ id, Calm (quotedKey id ps) := by
  induction ps with
  | nil => intro id; exact .ok
  | cons p ps ih => intro id; exact Calm.ite (fun _ => ih _) (fun _ => .unexpected)

theorem structureKvp_calm (ps : List (Pair IdlRule)) (hs : ∀ p ∈ ps, Sound idlGrammar p) : ∀ k v, Calm (structureKvp flt k v ps) := by
  induction ps with
  | nil =>
    intro k v
    unfold structureKvp
    split
    · exact .ok
    · exact .unexpected
  | cons p ps ih =>
    intro k v
    have ih := ih fun q hq => hs q (by simp [hq])
    unfold structureKvp
    split
    · exact (quotedKey_calm _ _).bind' fun id => Calm.ite (fun _ => .unexpected) (fun _ => ih _ _)
    · exact ih _ _
    · next hr => exact (nodeValueOf_calm flt p (hs p (by simp)) hr).bind' fun w => ih _ _
    · exact .unexpected

theorem traitParts_calm (ps : List (Pair IdlRule)) (hs : ∀ p ∈ ps, Sound idlGrammar p) : ∀ id v m, Calm (traitParts flt id v m ps) := by
  induction ps with
  | nil => intro id v m; exact .ok
  | cons p ps ih =>
    intro id v m
    have ih := ih fun q hq => hs q (by simp [hq])
    unfold traitParts
    split
    · exact ih _ _ _
    · next hr => exact (nodeValueOf_calm flt p (hs p (by simp)) hr).bind' fun w => ih _ _ _
    · exact (structureKvp_calm p.intoInner (hs p (by simp)).inner none none).bind' fun x => ih _ _ _
    · exact .unexpected

/-- The id of a trait can be parsed. -/
theorem traitParts_id {s : Str} (hq : ¬ MayPanic s) (ps : List (Pair IdlRule)) (hs : ∀ p ∈ ps, Within s p) : ∀ id v m,
    (∀ x, id = some x → ∃ n, ShapeName.fromStr x = .ok n) → Yields (fun r => ∀ x, r.1 = some x → ∃ n, ShapeName.fromStr x = .ok n) (traitParts flt id v m ps) := by
  induction ps with
  | nil => intro id v m h; exact .ok h
  | cons p ps ih =>
    intro id v m h
    have ih := ih fun q hq => hs q (by simp [hq])
    unfold traitParts
    split
    · next hr => exact ih _ _ _ (by rintro _ ⟨⟩; exact shapeId_name hq (hs p (by simp)) hr)
    · exact Yields.any.bind fun w _ => ih _ _ _ h
    · exact Yields.any.bind fun w _ => ih _ _ _ h
    · exact .unexpected

theorem withValue_calm {id : Str} {v : Value} (h : ∃ n, ShapeName.fromStr id = .ok n) : Calm (TraitBuilder.withValue id v) := by
  obtain ⟨n, h⟩ := h
  exact (unwrap_ok_calm h).bind' fun _ => .pure

theorem traitOf_calm {s : Str} (hq : ¬ MayPanic s) {p : Pair IdlRule} (hs : Within s p) : Calm (traitOf flt p) := by
  refine (traitParts_calm _ hs.1.inner none none []).bind (traitParts_id hq _ hs.inner none none [] (by simp)) ?_
  rintro ⟨id, v, m⟩ hid
  dsimp only
  split
  · exact .unexpected
  · exact withValue_calm (hid _ rfl)
  · exact withValue_calm (hid _ rfl)
  · exact .unexpected

theorem traitsOf_calm {s : Str} (hq : ¬ MayPanic s) {p : Pair IdlRule} (hs : Within s p) : Calm (traitsOf flt p) :=
  each_calm fun q hq' _ => traitOf_calm hq (hs.inner q hq')

theorem memberNew_calm {n t : Str} (hn : IsIdentifier n) (ht : ∃ x, ShapeName.fromStr t = .ok x) : Calm (MemberBuilder.new n t) := by
  obtain ⟨x, ht⟩ := ht
  have : Identifier.fromStr n = .ok n := by
    unfold Identifier.fromStr
    rw [if_pos ((isIdent_iff n).mpr hn)]
  exact (unwrap_ok_calm this).bind' fun _ => (unwrap_ok_calm ht).bind' fun _ => .pure

theorem memberLoop_calm {s : Str} (hq : ¬ MayPanic s) (ps : List (Pair IdlRule)) (hs : ∀ p ∈ ps, Within s p) : ∀ docs ts id t,
    (∀ x, id = some x → SmithyIdent x) → (∀ x, t = some x → ∃ n, ShapeName.fromStr x = .ok n) → Calm (memberLoop flt docs ts id t ps) := by
  induction ps with
  | nil =>
    intro docs ts id t hid ht
    unfold memberLoop
    split
    · exact (memberNew_calm (ident_isIdentifier (hid _ rfl)) (ht _ rfl)).bind' fun _ => .pure
    · exact .unexpected
  | cons p ps ih =>
    intro docs ts id t hid ht
    have ih := ih fun q hq => hs q (by simp [hq])
    unfold memberLoop
    split
    · exact ih _ _ _ _ hid ht
    · exact (traitsOf_calm hq (hs p (by simp))).bind' fun ts => ih _ _ _ _ hid ht
    · next hr => exact ih _ _ _ _ (by rintro _ ⟨⟩; exact sound_identifier (hs p (by simp)).1 hr) ht
    · next hr => exact ih _ _ _ _ hid (by rintro _ ⟨⟩; exact shapeId_name hq (hs p (by simp)) hr)
    · exact .unexpected

theorem membersOf_calm {s : Str} (hq : ¬ MayPanic s) {p : Pair IdlRule} (hs : Within s p) : Calm (membersOf flt p) :=
  each_calm fun q hq' _ => memberLoop_calm hq _ (hs.inner q hq').inner _ _ _ _ (by simp) (by simp)

/-- The statements with members. -/
def Membered (r : IdlRule) : Prop := r = listStatement ∨ r = setStatement ∨ r = mapStatement ∨ r = structureStatement ∨ r = unionStatement

theorem membered_inner {p : Pair IdlRule} (h : Sound idlGrammar p) (hr : Membered p.asRule) : 2 ≤ p.intoInner.length := by
  rcases hr with hr | hr | hr | hr | hr <;>
  · have := h.atLeast (by rw [hr]; decide) (by rw [hr]; decide) 16
    rw [hr] at this
    exact Nat.le_trans (by decide) this

theorem memberedOf_calm {s : Str} (hq : ¬ MayPanic s) {p : Pair IdlRule} (hs : Within s p) (hr : Membered p.asRule) : Calm (memberedOf flt p) := by
  have hlen := membered_inner hs.1 hr
  have hin := hs.inner
  unfold memberedOf
  generalize p.intoInner = ps at hlen hin
  match ps, hlen with
  | p1 :: p2 :: rest, _ =>
    have hm := membersOf_calm (flt := flt) hq (hin p2 (by simp))
    change Calm (do
      let id ← if p1.asRule = identifier then .ok p1.asStr else SelParser.unexpected
      let members ← if p2.asRule = shapeMembers then membersOf flt p2 else SelParser.unexpected
      return (id, members))
    by_cases h1 : p1.asRule = identifier
    · by_cases h2 : p2.asRule = shapeMembers
      · simp only [h1, h2, if_true]
        exact hm.bind' fun _ => .pure
      · simp only [h1, h2, if_true, if_false]
        exact Calm.unexpected
    · simp only [h1, if_false]
      exact Calm.unexpected

/-! ### Statements -/

theorem named_calm {id : Str} {b : BuilderBody} (hid : SmithyIdent id) : Calm (Builder.named id b) := by
  unfold Builder.named
  rw [nameFromStr_ident hid]
  exact .ok

/-- Nothing for a service. -/
def NotService (b : Builder) : Prop := ∀ v o r n, b.body ≠ .service v o r n

theorem named_notService {id : Str} {b : BuilderBody} (h : ∀ v o r n, b ≠ .service v o r n) : Yields NotService (Builder.named id b) :=
  Yields.any.bind fun _ _ => .pure h

theorem simpleLoop_calm (ps : List (Pair IdlRule)) (hs : ∀ p ∈ ps, Sound idlGrammar p) : ∀ id ty, (∀ x, id = some x → SmithyIdent x) →
    Calm (simpleLoop id ty ps) ∧ Yields NotService (simpleLoop id ty ps) := by
  induction ps with
  | nil =>
    intro id ty hid
    unfold simpleLoop
    split
    · exact ⟨named_calm (hid _ rfl), named_notService (by simp)⟩
    · exact ⟨.unexpected, .unexpected⟩
  | cons p ps ih =>
    intro id ty hid
    have ih := ih fun q hq => hs q (by simp [hq])
    unfold simpleLoop
    split
    · next hr => exact ih _ _ (by rintro _ ⟨⟩; exact sound_identifier (hs p (by simp)) hr)
    · split
      · exact ih _ _ hid
      · exact ⟨.unexpected, .unexpected⟩

theorem listOf_calm {s : Str} (hq : ¬ MayPanic s) {p : Pair IdlRule} (hs : Within s p) (hr : Membered p.asRule) {kind : MemberBuilder → BuilderBody} :
    Calm (listOf flt kind p) := by
  refine (memberedOf_calm hq hs hr).bind (memberedOf_yields hs.1) ?_
  rintro ⟨id, ms⟩ ⟨hid, -⟩
  dsimp only
  split
  · exact Calm.ite (fun _ => named_calm hid) (fun _ => .unexpected)
  · exact .unexpected

theorem listOf_notService {p : Pair IdlRule} {kind : MemberBuilder → BuilderBody} (hk : kind = .list ∨ kind = .set) : Yields NotService (listOf flt kind p) := by
  refine Yields.any.bind ?_
  rintro ⟨id, ms⟩ -
  dsimp only
  split
  · refine ite_yields (named_notService ?_) .unexpected
    rcases hk with rfl | rfl <;> simp
  · exact .unexpected

/-- The name of a good target can be parsed. -/
theorem goodName_fromStr {n : ShapeName} (h : GoodName n) : ∃ x, ShapeName.fromStr n.display = .ok x := by
  cases n with
  | qualified id =>
    refine ⟨.qualified id, ((C24_name_syntax _).2.1 _).mpr ?_⟩
    exact C03_parse_display id h.1 h.2.1 h.2.2
  | local' l => exact ⟨.local' l, ((C24_name_syntax l).2.2.1 l).mpr ⟨rfl, h⟩⟩

theorem keyAndValue_calm (ms : List MemberBuilder) : ∀ k v, Calm (keyAndValue k v ms) := by
  induction ms with
  | nil => intro k v; exact .ok
  | cons m ms ih => intro k v; exact Calm.ite (fun _ => ih _ _) (fun _ => Calm.ite (fun _ => ih _ _) (fun _ => .unexpected))

theorem keyAndValue_names (ms : List MemberBuilder) (hms : ∀ m ∈ ms, GoodMember m) : ∀ k v, (∀ x, k = some x → ∃ n, ShapeName.fromStr x = .ok n) →
    (∀ x, v = some x → ∃ n, ShapeName.fromStr x = .ok n) →
    Yields (fun r => (∀ x, r.1 = some x → ∃ n, ShapeName.fromStr x = .ok n) ∧ ∀ x, r.2 = some x → ∃ n, ShapeName.fromStr x = .ok n) (keyAndValue k v ms) := by
  induction ms with
  | nil => intro k v h1 h2; exact .ok ⟨h1, h2⟩
  | cons m ms ih =>
    intro k v h1 h2
    have ih := ih fun m hm => hms m (by simp [hm])
    have ht := goodName_fromStr (hms m (by simp)).target
    exact ite_yields (ih _ _ (by rintro _ ⟨⟩; exact ht) h2) (ite_yields (ih _ _ h1 (by rintro _ ⟨⟩; exact ht)) .unexpected)

theorem mapOf_calm {s : Str} (hq : ¬ MayPanic s) {p : Pair IdlRule} (hs : Within s p) (hr : Membered p.asRule) : Calm (mapOf flt p) := by
  refine (memberedOf_calm hq hs hr).bind (memberedOf_yields hs.1) ?_
  rintro ⟨id, ms⟩ ⟨hid, hms⟩
  refine (keyAndValue_calm ms none none).bind (keyAndValue_names ms hms none none (by simp) (by simp)) ?_
  rintro ⟨k, v⟩ ⟨hk, hv⟩
  dsimp only
  split
  · refine Calm.bind' (unwrap_ok_calm (nameFromStr_ident hid)) fun n => Calm.bind' (memberNew_calm ?_ (hk _ rfl)) fun _ =>
      Calm.bind' (memberNew_calm ?_ (hv _ rfl)) fun _ => .pure
    · exact (isIdent_iff _).mp (by decide)
    · exact (isIdent_iff _).mp (by decide)
  · exact .unexpected

theorem mapOf_notService {p : Pair IdlRule} : Yields NotService (mapOf flt p) := by
  refine Yields.any.bind ?_
  rintro ⟨id, ms⟩ -
  refine Yields.any.bind ?_
  rintro ⟨k, v⟩ -
  dsimp only
  split
  · exact Yields.any.bind fun _ _ => Yields.any.bind fun _ _ => Yields.any.bind fun _ _ => .pure (by intro v o r n h; cases h)
  · exact .unexpected

theorem structureOf_calm {s : Str} (hq : ¬ MayPanic s) {p : Pair IdlRule} (hs : Within s p) (hr : Membered p.asRule) {kind : List MemberBuilder → BuilderBody} :
    Calm (structureOf flt kind p) := by
  refine (memberedOf_calm hq hs hr).bind (memberedOf_yields hs.1) ?_
  rintro ⟨id, ms⟩ ⟨hid, -⟩
  exact named_calm hid

theorem structureOf_notService {p : Pair IdlRule} {kind : List MemberBuilder → BuilderBody} (hk : kind = .struct ∨ kind = .union) :
    Yields NotService (structureOf flt kind p) := by
  refine Yields.any.bind ?_
  rintro ⟨id, ms⟩ -
  refine named_notService ?_
  rcases hk with rfl | rfl <;> simp

/-- The text of a pair starts with a keyword. -/
theorem sound_keyword {s : Str} {p : Pair IdlRule} (h : Within s p) {k : Str} {b : Expr IdlRule} (hr : p.asRule ≠ EOI)
    (hk : IdlGrammar.kind p.asRule = .normal) (hb : IdlGrammar.body p.asRule = .str k ~> b) : k <:+: s := by
  obtain ⟨⟨r, t, ps⟩, hs⟩ : ∃ p', p' = p := ⟨p, rfl⟩
  subst hs
  have ht := h.1.tree hr
  have hmode : decide (idlGrammar.kind r = .atomic) = false := decide_eq_false (by
    change IdlGrammar.kind r ≠ .atomic
    change IdlGrammar.kind r = .normal at hk
    rw [hk]; decide)
  rw [hmode] at ht
  change IdlGrammar.body r = _ at hb
  change Tree idlGrammar false (IdlGrammar.body r) t ps at ht
  rw [hb] at ht
  obtain ⟨t1, t2, p1, p2, rfl, rfl, h1, h2⟩ := parts_idl ht
  obtain ⟨rfl, -⟩ := h1.str_eq
  exact (List.prefix_append _ _).isInfix.trans h.2

theorem builderOf_calm {s : Str} (hq : ¬ MayPanic s) {p : Pair IdlRule} (hs : Within s p) : Calm (builderOf flt p) ∧ Yields NotService (builderOf flt p) := by
  unfold builderOf
  split
  · exact simpleLoop_calm _ hs.1.inner _ _ (by simp)
  · next hr => exact ⟨listOf_calm hq hs (.inl hr), listOf_notService (.inl rfl)⟩
  · next hr => exact ⟨listOf_calm hq hs (.inr (.inl hr)), listOf_notService (.inr rfl)⟩
  · next hr => exact ⟨mapOf_calm hq hs (.inr (.inr (.inl hr))), mapOf_notService⟩
  · next hr => exact ⟨structureOf_calm hq hs (.inr (.inr (.inr (.inl hr)))), structureOf_notService (.inl rfl)⟩
  · next hr => exact ⟨structureOf_calm hq hs (.inr (.inr (.inr (.inr hr)))), structureOf_notService (.inr rfl)⟩
  · next hr => exact absurd (.service (sound_keyword hs (by rw [hr]; decide) (by rw [hr]; rfl) (by rw [hr]; rfl))) hq
  · next hr => exact absurd (.operation (sound_keyword hs (by rw [hr]; decide) (by rw [hr]; rfl) (by rw [hr]; rfl))) hq
  · next hr => exact absurd (.resource (sound_keyword hs (by rw [hr]; decide) (by rw [hr]; rfl) (by rw [hr]; rfl))) hq
  · exact ⟨.unexpected, .unexpected⟩

/-! ### The builder -/

/-- A builder of local statements, none of them a service. -/
structure Plainly (mb : ModelBuilder) : Prop where
  wf : WfBuilder mb
  entries : ∀ n b, mb.shapes.get n = some b → Statement b ∧ NotService b

theorem Plainly.insert {mb : ModelBuilder} (h : Plainly mb) {b : Builder} (hb : Statement b) (hn : NotService b) : Plainly (mb.insert b) := by
  refine ⟨wfBuilder_insert h.wf hb.legal, fun n b' hn' => ?_⟩
  simp only [ModelBuilder.insert, AMap.get_insert] at hn'
  split at hn'
  · cases hn'; exact ⟨hb, hn⟩
  · exact h.entries n b' hn'

/-- Both: no panic, and the result as told. -/
def Good {α : Type} (P : α → Prop) (x : Except Err α) : Prop := Calm x ∧ Yields P x

theorem Good.bind {α β : Type} {P : α → Prop} {Q : β → Prop} {x : Except Err α} {f : α → Except Err β} (h : Good P x) (hf : ∀ a, P a → Good Q (f a)) :
    Good Q (x >>= f) := ⟨h.1.bind h.2 fun a ha => (hf a ha).1, h.2.bind fun a ha => (hf a ha).2⟩

theorem Good.ok {α : Type} {P : α → Prop} {a : α} (h : P a) : Good P (.ok a) := ⟨.ok, .ok h⟩

theorem Good.pure {α : Type} {P : α → Prop} {a : α} (h : P a) : Good P (Pure.pure a) := ⟨.ok, .ok h⟩

theorem Good.unexpected {α : Type} {P : α → Prop} {place : Str} {c : Option Str} : Good P (SelParser.astray place c : Except Err α) := ⟨.unexpected, .unexpected⟩

theorem Good.mono {α : Type} {P Q : α → Prop} {x : Except Err α} (h : Good P x) (hp : ∀ a, P a → Q a) : Good Q x := ⟨h.1, h.2.mono hp⟩

theorem statementLoop_good {s : Str} (hq : ¬ MayPanic s) (ps : List (Pair IdlRule)) (hs : ∀ p ∈ ps, Within s p ∧ p.asRule ≠ applyStatement) : ∀ mb docs ts,
    Plainly mb → (∀ t ∈ ts, GoodTrait t) → Good Plainly (statementLoop flt mb docs ts ps) := by
  induction ps with
  | nil => intro mb docs ts h _; exact .ok h
  | cons p ps ih =>
    intro mb docs ts h hts
    have ih := ih fun q hq => hs q (by simp [hq])
    have hp := hs p (by simp)
    unfold statementLoop
    split
    · exact ih _ _ _ h hts
    · exact Good.bind ⟨traitsOf_calm hq hp.1, traitsOf_yields p⟩ fun ts hts => ih _ _ _ h hts
    · next hr => exact absurd hr hp.2
    · exact ih _ _ _ h hts
    · have hb := builderOf_calm (flt := flt) hq hp.1
      refine Good.bind (P := fun b => Statement b ∧ NotService b) ⟨hb.1, fun a ha => ⟨builderOf_yields hp.1.1 a ha, hb.2 a ha⟩⟩ fun b hb => ?_
      exact ih _ _ _ (h.insert (hb.1.withTraits (appliedTraits_good hts)) hb.2) hts

theorem shapeStatement_noApply {p : Pair IdlRule} (h : Sound idlGrammar p) (hr : p.asRule = shapeStatement) : ∀ q ∈ p.intoInner, q.asRule ≠ applyStatement := by
  intro q hq he
  have hl : (emits idlGrammar 32 (idlGrammar.body p.asRule)).all (fun l => !l.contains applyStatement) = true := by rw [hr]; decide
  have hs : (emits idlGrammar 32 (idlGrammar.body p.asRule)).isSome = true := by rw [hr]; decide
  obtain ⟨l, hl'⟩ := Option.isSome_iff_exists.mp hs
  have := h.emits hl' q hq
  rw [hl'] at hl
  rw [he] at this
  exact absurd this (by simpa using hl)

theorem statementsLoop_good {s : Str} (hq : ¬ MayPanic s) (ps : List (Pair IdlRule)) (hs : ∀ p ∈ ps, Within s p) : ∀ mb,
    Plainly mb → Good Plainly (statementsLoop flt mb ps) := by
  induction ps with
  | nil => intro mb h; exact .ok h
  | cons p ps ih =>
    intro mb h
    have ih := ih fun q hq => hs q (by simp [hq])
    have hp := hs p (by simp)
    unfold statementsLoop
    split
    · next hr => exact (statementLoop_good hq p.intoInner (fun q hq => ⟨hp.inner q hq, shapeStatement_noApply hp.1 hr q hq⟩) mb [] [] h (by simp)).bind fun mb h => ih _ h
    · exact ih _ h
    · exact .unexpected

theorem useLoop_good {s : Str} (hq : ¬ MayPanic s) (ps : List (Pair IdlRule)) (hs : ∀ p ∈ ps, Within s p) (mb : ModelBuilder) (h : Plainly mb) :
    Good Plainly (useLoop mb ps) := by
  cases ps with
  | nil => exact .ok h
  | cons p ps =>
    unfold useLoop
    split
    · next hr => exact absurd (.uses (sound_keyword (hs p (by simp)) (by rw [hr]; decide) (by rw [hr]; rfl) (by rw [hr]; rfl))) hq
    · exact .unexpected

theorem namespaceOf_good {s : Str} {v : Version} {p : Pair IdlRule} (hs : Within s p) (hr : p.asRule = .namespaceStatement) : Good Plainly (namespaceOf v p) := by
  have hlen : 1 ≤ p.intoInner.length := by
    have := hs.1.atLeast (by rw [hr]; decide) (by rw [hr]; decide) 16
    rw [hr] at this
    exact Nat.le_trans (by decide) this
  refine Good.bind (P := fun x => Within s x.1) ⟨next_calm hlen, (next_yields hs.inner).mono fun a ha => ha.1⟩ ?_
  rintro ⟨inner, _⟩ h1
  dsimp only
  split
  · next hr' =>
    have hn := sound_namespace h1.1 hr'
    have : NamespaceID.fromStr inner.asStr = .ok inner.asStr := by
      unfold NamespaceID.fromStr
      rw [if_pos ((isNamespace_iff _).mpr (smithyNamespace_isNamespace hn))]
    unfold ModelBuilder.new
    rw [this]
    exact .ok ⟨wfBuilder_new _ _, by rintro _ _ ⟨⟩⟩
  · exact .unexpected

theorem sectionLoop_good {s : Str} (hq : ¬ MayPanic s) {v : Version} (ps : List (Pair IdlRule)) (hs : ∀ p ∈ ps, Within s p) : ∀ mb, Plainly mb →
    Good (fun x => ∀ mb, x = some mb → Plainly mb) (sectionLoop flt v (some mb) ps) := by
  induction ps with
  | nil => intro mb h; exact .ok (by rintro _ ⟨⟩; exact h)
  | cons p ps ih =>
    intro mb h
    have ih := ih fun q hq => hs q (by simp [hq])
    have hp := hs p (by simp)
    unfold sectionLoop
    split
    · next hr => exact (namespaceOf_good hp hr).bind fun mb h => ih _ h
    · exact (useLoop_good hq _ hp.inner mb h).bind fun mb h => ih _ h
    · exact (statementsLoop_good hq _ hp.inner mb h).bind fun mb h => ih _ h
    · exact .unexpected

/-- A section has nothing, or starts with the namespace. -/
theorem section_inner {p : Pair IdlRule} (h : Sound idlGrammar p) (hr : p.asRule = shapeSection) :
    p.intoInner = [] ∨ ∃ q rest, p.intoInner = q :: rest ∧ q.asRule = namespaceStatement := by
  obtain ⟨r, t, ps⟩ := p
  cases hr
  have ht : Tree idlGrammar false (IdlGrammar.body .shapeSection) t ps := h.tree (by decide)
  cases ht with
  | optNone => exact .inl rfl
  | optSome ht =>
    obtain ⟨t1, t2, p1, p2, rfl, rfl, h1, h2⟩ := parts_idl ht
    obtain ⟨ps', rfl, -⟩ := Tree.normal (r := IdlRule.namespaceStatement) rfl h1
    exact .inr ⟨_, _, rfl, rfl⟩

theorem section_good {s : Str} (hq : ¬ MayPanic s) {v : Version} {p : Pair IdlRule} (hs : Within s p) (hr : p.asRule = shapeSection) :
    Good (fun x => ∀ mb, x = some mb → Plainly mb) (sectionLoop flt v none p.intoInner) := by
  rcases section_inner hs.1 hr with he | ⟨q, rest, he, hq'⟩
  · rw [he]; exact .ok (by simp)
  · have hin := hs.inner
    rw [he] at hin ⊢
    unfold sectionLoop
    rw [hq']
    exact (namespaceOf_good (hin q (by simp)) hq').bind fun mb h => sectionLoop_good hq rest (fun q hq => hin q (by simp [hq])) mb h

theorem entriesOf_calm (rule : IdlRule) (ps : List (Pair IdlRule)) (hs : ∀ p ∈ ps, Sound idlGrammar p) : ∀ es, Calm (entriesOf flt rule es ps) := by
  induction ps with
  | nil => intro es; exact .ok
  | cons p ps ih =>
    intro es
    unfold entriesOf
    exact Calm.ite (fun _ => (kvpOf_calm flt p (hs p (by simp))).bind' fun x => ih (fun q hq => hs q (by simp [hq])) _) (fun _ => .unexpected)

theorem nextInto_good {α : Type} {P : α → Prop} {s : Str} {rule : IdlRule} {f : Pair IdlRule → Except Err α} {ps : List (Pair IdlRule)} {n : Nat}
    (hs : ∀ p ∈ ps, Within s p) (hl : n + 1 ≤ ps.length) (hf : ∀ p, Within s p → p.asRule = rule → Good P (f p)) :
    Good (fun x => P x.1 ∧ (∀ p ∈ x.2, Within s p) ∧ n ≤ x.2.length) (nextInto rule f ps) := by
  cases ps with
  | nil => exact absurd hl (by simp)
  | cons p ps =>
    change Good _ (if p.asRule = rule then _ else _)
    split
    · next hr => exact (hf p (hs p (by simp)) hr).bind fun a ha => .pure ⟨ha, fun q hq => hs q (by simp [hq]), Nat.le_of_succ_le_succ hl⟩
    · exact .unexpected

theorem Plainly.metaDataFrom (es : List (Str × Value)) (hes : ∀ e ∈ es, Value.Wf e.2) : ∀ mb, Plainly mb → Plainly (mb.metaDataFrom es) := by
  induction es with
  | nil => intro mb h; exact h
  | cons e es ih =>
    obtain ⟨k, v⟩ := e
    intro mb h
    exact ih (fun e he => hes e (by simp [he])) _ ⟨wfBuilder_metaData h.wf k (hes (k, v) (by simp)), h.entries⟩

theorem versionOf_calm (c : AMap Str Value) : Calm (versionOf c) := by
  unfold versionOf
  split
  · unfold Version.fromStr
    split
    · exact .ok
    · intro h; cases h
  · exact .ok

theorem readIdl_good {s : Str} (hq : ¬ MayPanic s) {p : Pair IdlRule} (hs : Within s p) :
    Good (fun x => ∀ mb, x = some mb → Plainly mb) (readIdl flt p) := by
  unfold readIdl
  split
  · next hr =>
    have hlen : 3 ≤ p.intoInner.length := by
      have := hs.1.atLeast (by rw [hr]; decide) (by rw [hr]; decide) 16
      rw [hr] at this
      exact Nat.le_trans (by decide) this
    refine (nextInto_good (n := 2) (P := fun _ => True) hs.inner hlen fun p hp _ => ⟨entriesOf_calm _ _ hp.1.inner [], Yields.any⟩).bind ?_
    rintro ⟨control, inner⟩ ⟨-, h2, h3⟩
    refine Good.bind (P := fun _ => True) ⟨versionOf_calm _, Yields.any⟩ fun v _ => ?_
    refine (nextInto_good (n := 1) (P := ReadEntries) h2 h3 fun p hp _ =>
      ⟨entriesOf_calm _ _ hp.1.inner [], entriesOf_yields metadataStatement p.intoInner hp.1.inner [] readEntries_nil⟩).bind ?_
    rintro ⟨md, inner⟩ ⟨h4, h5, h6⟩
    refine (nextInto_good (n := 0) h5 h6 fun p hp hr => section_good hq hp hr).bind ?_
    rintro ⟨mb, _⟩ ⟨h7, -, -⟩
    refine .pure fun x hx => ?_
    cases mb with
    | none => cases hx
    | some mb =>
      cases hx
      exact Plainly.metaDataFrom md (fun e he => (h4.2 e he).2) mb (h7 mb rfl)
  · exact .unexpected

end IdlParser

theorem readBuilder_good {flt : Str → Option F64} {s : Str} (hq : ¬ MayPanic s) :
    IdlParser.Good (fun x => ∀ mb, x = some mb → IdlParser.Plainly mb) (readBuilder flt s) := by
  unfold readBuilder
  split
  · exact ⟨(by intro h; cases h), .error⟩
  · next ps hm =>
    obtain ⟨r, hp, hr⟩ := (matchIdl_iff _ _).mp hm
    cases r with
    | none => cases hr
    | some x =>
      obtain ⟨t, s', ps'⟩ := x
      cases hr
      have ht := hp.tree _ _ _ rfl
      have hsplit : s = t ++ s' := hp.split _ _ _ rfl
      obtain ⟨ps'', rfl, -⟩ := Tree.normal (r := IdlRule.idl) rfl ht
      have hs := ht.sound (.mk .idl t ps'') (List.mem_singleton_self _)
      exact IdlParser.readIdl_good hq ⟨hs.1, hs.2.trans (by rw [hsplit]; exact (List.prefix_append _ _).isInfix)⟩

/-! ### Building -/

/-- A step that does not panic. -/
def MkCalm {α : Type} (x : Mk α) : Prop := x ≠ (Except.error .panic : Except Err (α × List ShapeID))

namespace MkCalm
variable {α β : Type}

theorem pure (a : α) : MkCalm (pure a : Mk α) := by intro h; cases h

theorem bind {x : Mk α} {f : α → Mk β} (hx : MkCalm x) (hf : ∀ a r, x = Except.ok (a, r) → MkCalm (f a)) : MkCalm (x >>= f) := by
  intro he
  rcases bind_error.mp he with he | ⟨a, r, hr, he⟩
  · exact hx he
  · exact hf a r hr he

theorem mapL {f : α → Mk β} (l : List α) (hf : ∀ a ∈ l, MkCalm (f a)) : MkCalm (Mk.mapL f l) := by
  induction l with
  | nil => exact pure []
  | cons a l ih => exact (hf a (by simp)).bind fun b _ _ => (ih fun c hc => hf c (by simp [hc])).bind fun bs _ _ => pure _

theorem mapO {f : α → Mk β} (hf : ∀ a, MkCalm (f a)) (o : Option α) : MkCalm (Mk.mapO f o) := by
  cases o with
  | none => exact pure none
  | some a => exact (hf a).bind fun b _ _ => pure _

end MkCalm

theorem resolve_calm {mb : ModelBuilder} (h : WfBuilder mb) (tr : Bool) (n : ShapeName) : MkCalm (mb.resolve tr n) := by
  intro he
  unfold ModelBuilder.resolve at he
  split at he
  · cases he
  · next e' he' =>
    cases he
    rcases (C24_resolution_fails mb h tr n _).mp he' with ⟨id, _, _, h⟩ | ⟨l, _, _, _, _, _, _, h⟩
    · cases h
    · cases h

theorem makeTraits_calm {mb : ModelBuilder} (h : WfBuilder mb) (ts : List TraitBuilder) : MkCalm (mb.makeTraits ts) :=
  (MkCalm.mapL (f := mb.makeTrait) ts fun t _ => (resolve_calm h true t.name).bind fun _ _ _ => MkCalm.pure _).bind fun _ _ _ => MkCalm.pure _

theorem makeMember_calm {mb : ModelBuilder} (h : WfBuilder mb) (m : MemberBuilder) : MkCalm (mb.makeMember m) :=
  (resolve_calm h false m.target).bind fun _ _ _ => (makeTraits_calm h m.traits).bind fun _ _ _ => MkCalm.pure _

theorem makeMember_id {mb : ModelBuilder} {m : MemberBuilder} {x : MemberShape} {r : List ShapeID} (h : mb.makeMember m = Except.ok (x, r)) : x.id = m.name := by
  obtain ⟨t, r1, r2, h1, h2, -⟩ := Mk.bind_ok.mp h
  obtain ⟨ts, r3, r4, h3, h4, -⟩ := Mk.bind_ok.mp h2
  cases h4
  rfl

theorem makeOnly_calm {mb : ModelBuilder} (h : WfBuilder mb) {t : ShapeName} : MkCalm (do
    let m ← mb.makeMember ⟨memberMember, [], t⟩
    let m ← Mk.lift (listFrom m)
    pure (ShapeKind.list m)) := by
  refine (makeMember_calm h _).bind fun x r hx => MkCalm.bind ?_ fun _ _ _ => MkCalm.pure _
  have := makeMember_id hx
  unfold listFrom
  rw [if_pos this]
  intro h; cases h

theorem makeBody_calm {mb : ModelBuilder} (h : WfBuilder mb) {b : BuilderBody} (hb : IdlParser.GoodBody b) (hn : ∀ v o r n, b ≠ .service v o r n) :
    MkCalm (mb.makeBody b) := by
  have hr := resolve_calm h false
  cases hb with
  | simple => exact MkCalm.pure _
  | list => exact makeOnly_calm h
  | set => exact makeOnly_calm h
  | map =>
    exact ((hr _).bind fun _ _ _ => (hr _).bind fun _ _ _ => (makeTraits_calm h _).bind fun _ _ _ => (makeTraits_calm h _).bind fun _ _ _ =>
      MkCalm.pure _).bind fun _ _ _ => MkCalm.pure _
  | struct => exact (MkCalm.mapL _ fun m _ => makeMember_calm h m).bind fun _ _ _ => MkCalm.pure _
  | union => exact (MkCalm.mapL _ fun m _ => makeMember_calm h m).bind fun _ _ _ => MkCalm.pure _
  | service => exact absurd rfl (hn _ _ _ _)
  | operation =>
    exact (MkCalm.mapO hr _).bind fun _ _ _ => (MkCalm.mapO hr _).bind fun _ _ _ => (MkCalm.mapL _ fun n _ => hr n).bind fun _ _ _ => MkCalm.pure _
  | resource =>
    exact (MkCalm.mapL _ fun e _ => (hr e.2).bind fun _ _ _ => MkCalm.pure _).bind fun _ _ _ => (MkCalm.mapO hr _).bind fun _ _ _ =>
      (MkCalm.mapO hr _).bind fun _ _ _ => (MkCalm.mapO hr _).bind fun _ _ _ => (MkCalm.mapO hr _).bind fun _ _ _ =>
      (MkCalm.mapO hr _).bind fun _ _ _ => (MkCalm.mapO hr _).bind fun _ _ _ => (MkCalm.mapL _ fun n _ => hr n).bind fun _ _ _ =>
      (MkCalm.mapL _ fun n _ => hr n).bind fun _ _ _ => (MkCalm.mapL _ fun n _ => hr n).bind fun _ _ _ => MkCalm.pure _

theorem makeShape_calm {mb : ModelBuilder} (h : WfBuilder mb) {b : Builder} (hb : IdlParser.Statement b) (hn : IdlParser.NotService b) : MkCalm (mb.makeShape b) := by
  refine MkCalm.bind ?_ fun _ _ _ => (makeBody_calm h hb.body hn).bind fun _ _ _ => (makeTraits_calm h b.traits).bind fun _ _ _ => MkCalm.pure _
  intro he
  have hd := hb.defines
  unfold ModelBuilder.makeId at he
  cases hbody : b.body <;> cases hname : b.name <;> rw [hbody, hname] at he <;>
    first
    | exact absurd hbody hd
    | exact resolve_calm h false _ he

/-! ### Adding the shapes -/

theorem applyWithValue_calm (ts : Traits) (id : ShapeID) (v : TraitValue) : (applyWithValue ts id v).2 ≠ .error .panic := by
  unfold applyWithValue
  split
  · intro h; cases h
  · split
    · split
      · intro h; cases h
      · next e he =>
        have := mergeTraits_error _ _ _ _ he
        intro h
        cases h
        cases this
    · intro h; cases h

theorem appendTraits_calm (l : List (ShapeID × TraitValue)) : ∀ ts, (appendTraits ts l).2 ≠ .error .panic := by
  induction l with
  | nil => intro ts h; cases h
  | cons e l ih =>
    obtain ⟨id, v⟩ := e
    intro ts
    unfold appendTraits
    have := applyWithValue_calm ts id v
    split
    · exact ih _
    · next ts' e' he =>
      rw [he] at this
      exact this

theorem copyTraits_calm (a b : TopLevelShape) : (Model.copyTraits a b).2 ≠ .error .panic := appendTraits_calm _ _

theorem reconcile_calm {e s : TopLevelShape} (h : e.body = .unresolved ∨ s.body = .unresolved) : (Model.reconcile e s).2 ≠ .error .panic := by
  unfold Model.reconcile
  split
  · next h1 h2 =>
    rw [isUnresolved_false_iff] at h1 h2
    exact absurd h (by simp [h1, h2])
  · exact copyTraits_calm _ _
  · exact copyTraits_calm _ _

theorem addShapeIgnoring_calm {m : Model} {s : TopLevelShape} (h : ∀ e, m.shape s.id = some e → e.body = .unresolved ∨ s.body = .unresolved) :
    ∃ m', m.addShapeIgnoring s = .ok m' := by
  have hp : (m.addShape s).2 ≠ .error .panic := by
    unfold Model.addShape
    split
    · intro h; cases h
    · split
      · next e he => exact reconcile_calm (h e he)
      · intro h; cases h
  unfold Model.addShapeIgnoring
  split
  · next m' he => rw [he] at hp; exact absurd rfl hp
  · exact ⟨_, rfl⟩

theorem addUnresolved_calm (ids : List ShapeID) : ∀ m, ∃ m', ModelBuilder.addUnresolved m ids = .ok m' := by
  induction ids with
  | nil => intro m; exact ⟨m, rfl⟩
  | cons id ids ih =>
    intro m
    obtain ⟨m1, h1⟩ := addShapeIgnoring_calm (m := m) (s := TopLevelShape.new id .unresolved) fun _ _ => .inr rfl
    unfold ModelBuilder.addUnresolved
    rw [h1]
    exact ih m1

/-- Without imports, a statement makes the shape of its name in the namespace. -/
theorem plainly_id {mb : ModelBuilder} (h : IdlParser.Plainly mb) {b : Builder} (hb : b ∈ AMap.values mb.shapes) {s : TopLevelShape} {r : List ShapeID}
    (hs : mb.makeShape b = Except.ok (s, r)) : ∃ n, b.name = .local' n ∧ s.id = ⟨mb.defaultNs, n, none⟩ := by
  have hg := (mem_values h.wf).mp hb
  have hst := (h.entries _ _ hg).1
  obtain ⟨n, -, hn⟩ := hst.name
  refine ⟨n, hn, ?_⟩
  have hpost := ((makeShape_ok h.wf b (entry_mapsWf h.wf hg)).post _ _ hs).1
  have hno : ∀ x id, ¬ Imports mb x id := by
    rintro x id ⟨b', h1, h2, -⟩
    exact (h.entries _ _ h1).1.defines h2
  rcases hpost.id with ⟨h1, -⟩ | ⟨-, new, hres⟩
  · exact absurd h1 hst.defines
  · rw [hn] at hres
    generalize hid : s.id = i at hres
    cases hres with
    | imported h1 _ => exact absurd h1 (hno _ _)
    | defined => rfl
    | prelude _ h1 _ => exact absurd ⟨b, hn ▸ hg⟩ h1
    | unknown => rfl

theorem addBuilt_calm {mb : ModelBuilder} (h : IdlParser.Plainly mb) (bs : List Builder) (hsub : ∀ b ∈ bs, b ∈ AMap.values mb.shapes)
    (hnd : bs.Pairwise fun a b => a.name ≠ b.name) : ∀ m : Model,
    (∀ b ∈ bs, ∀ n, b.name = .local' n → m.shape ⟨mb.defaultNs, n, none⟩ = none) → MkCalm (mb.addBuilt m bs) := by
  induction bs with
  | nil => intro m _; exact MkCalm.pure _
  | cons b bs ih =>
    intro m hm
    obtain ⟨hnd1, hnd2⟩ := List.pairwise_cons.mp hnd
    have hb := hsub b (by simp)
    have hst := h.entries _ _ ((mem_values h.wf).mp hb)
    change MkCalm (mb.makeShape b >>= fun s => Mk.lift (m.addShapeIgnoring s) >>= fun m => mb.addBuilt m bs)
    refine (makeShape_calm h.wf hst.1 hst.2).bind fun s r hs => ?_
    obtain ⟨n, hn, hid⟩ := plainly_id h hb hs
    obtain ⟨m1, h1⟩ := addShapeIgnoring_calm (m := m) (s := s) fun e he => by
      rw [hid, hm b (by simp) n hn] at he; cases he
    refine MkCalm.bind (by rw [h1]; intro h; cases h) fun m2 r2 h2 => ?_
    rw [h1] at h2
    cases h2
    refine ih (fun b hb => hsub b (by simp [hb])) hnd2 _ fun b' hb' n' hn' => ?_
    rw [addShapeIgnoring_ok h1, addShape_slot, if_neg]
    · exact hm b' (by simp [hb']) n' hn'
    · rw [hid]
      intro he
      have : n = n' := congrArg ShapeID.name he
      apply hnd1 b' hb'
      rw [hn, hn', this]

theorem values_distinct {mb : ModelBuilder} (h : WfBuilder mb) : (AMap.values mb.shapes).Pairwise fun a b => a.name ≠ b.name := by
  have hn := h.nodup
  have hk : ∀ e ∈ mb.shapes, e.2.name = e.1 := fun e he => h.key e.1 e.2 (AMap.get_of_mem hn he)
  unfold AMap.Wf AMap.keys at hn
  unfold AMap.values
  generalize mb.shapes = l at hn hk
  rw [List.Nodup, List.pairwise_map] at hn
  rw [List.pairwise_map]
  refine hn.imp_of_mem fun {a b} ha hb hab => ?_
  rw [hk a ha, hk b hb]
  exact hab

theorem build_calm {mb : ModelBuilder} (h : IdlParser.Plainly mb) (enum : List ShapeID → List ShapeID) : Calm (mb.build enum) := by
  have hm : (Model.new mb.version).addMetadataIgnoring mb.metadata = ⟨mb.version, mb.metadata, []⟩ := by
    have := addMetadataIgnoring_fresh mb.version [] mb.metadata [] (by simpa using h.wf.metaNodup)
    simpa [Model.new] using this
  unfold ModelBuilder.build
  rw [hm]
  have hc := addBuilt_calm h (AMap.values mb.shapes) (fun b hb => hb) (values_distinct h.wf) ⟨mb.version, mb.metadata, []⟩ (fun _ _ _ _ => rfl)
  split
  · next e he =>
    rw [he] at hc
    intro h; apply hc; cases h; rfl
  · next m refs _ =>
    obtain ⟨m', h'⟩ := addUnresolved_calm (enum refs) m
    rw [h']
    exact .ok

/-- C57: reading panics only for a text that has a member of a relative id, or one of the words `service`, `operation`,
`resource`, `use`. -/
theorem C57_no_panic (flt : Str → Option F64) (enum : List ShapeID → List ShapeID) (s : Str)
    (h : parseModel flt enum s = .error .panic) : MayPanic s := by
  apply Classical.byContradiction
  intro hq
  obtain ⟨h1, h2⟩ := readBuilder_good (flt := flt) hq
  revert h
  change Calm (parseModel flt enum s)
  unfold parseModel
  refine h1.bind h2 fun x hx => ?_
  cases x with
  | none => exact .pure
  | some mb => exact build_calm (hx mb rfl) enum

/-! ### Texts that panic -/

theorem parseModel_panics {flt : Str → Option F64} {s : Str} (h : readBuilder flt s = .error .panic) (enum : List ShapeID → List ShapeID) :
    parseModel flt enum s = .error .panic := by
  unfold parseModel
  rw [h]
  rfl

/-- Two structures whose names differ in case, after an import of that name. -/
def exCase : Str := %s"namespace a\nuse b#T\nstructure T{x:X}\nstructure t{y:Y}"

set_option maxRecDepth 100000 in
/-- C57 is violated: each of the things in `MayPanic` is in a text that panics: a member of a relative id as a target; a
service without a version; an operation whose input is not a name; a resource with a quoted key; two structures that stand
for the same import. -/
theorem C57_violated (flt : Str → Option F64) (enum : List ShapeID → List ShapeID) :
    parseModel flt enum %s"namespace a\nstructure S{m:T$x}" = .error .panic ∧
    parseModel flt enum %s"namespace a\nservice S{}" = .error .panic ∧
    parseModel flt enum %s"namespace a\noperation O{input:[]}" = .error .panic ∧
    parseModel flt enum %s"namespace a\nresource R{identifiers:{\"k\":T}}" = .error .panic ∧
    parseModel flt enum exCase = .error .panic :=
  ⟨parseModel_panics (by rfl) _, parseModel_panics (by rfl) _, parseModel_panics (by rfl) _, parseModel_panics (by rfl) _, by rfl⟩

/-- None of these is in an ordinary text. -/
example : ¬ %s"use" <:+: %s"namespace a\nstructure S{m:String}" := by decide

end Verif
