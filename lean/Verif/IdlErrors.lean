/-
C102: the errors of the Smithy reader say what is wrong with the text.
-/
import Verif.BuilderErrors
import Verif.IdlLoose
import Verif.IdlApply

namespace Verif
open Peg Spec Idl

namespace Spec

/-- The pair is the other one, or inside it, at any depth. -/
inductive Inside (q : Pair IdlRule) : Pair IdlRule → Prop
  | here : Inside q q
  | inner {p p'} : p' ∈ p.intoInner → Inside q p' → Inside q p

/-- The grammar accepts the text. -/
def Accepted (s : Str) : Prop := ∃ t rest ps, Parses idlGrammar false (.rule .idl) s (some (t, rest, ps))

/-- The grammar accepts the text, and takes a part `t` of it for a `rule`. -/
def Finds (s : Str) (rule : IdlRule) (t : Str) : Prop :=
  ∃ u rest ps, Parses idlGrammar false (.rule .idl) s (some (u, rest, ps)) ∧ ∃ p ∈ ps, ∃ qs, Inside (.mk rule t qs) p

/-- What is wrong with a number: it has a point but is not a floating point number; or it has no point and is not a 64 bit integer. (`-0` is zero.) -/
inductive NumberFault (flt : Str → Option F64) (t : Str) : Prop
  | float : '.' ∈ t → flt t = none → NumberFault flt t
  | integer : '.' ∉ t → (∀ n, i64 n → t ≠ showInt n) → t ≠ %s"-0" → NumberFault flt t

/-- The version that the control statements at the beginning of the text give; of several the last counts. -/
def ControlVersion (flt : Str → Option F64) (s v : Str) : Prop :=
  ∃ es c rest, s = c ++ rest ∧ Loose.Spaced (Loose.FrontText flt %s"$" %s":") es c ∧
    AMap.get (AMap.ofList es) %s"version" = some (.string v)

/-- What is wrong with a text. -/
inductive TextFault (flt : Str → Option F64) (s : Str) : Err → Prop
  | syntax : ¬ Accepted s → TextFault flt s (.deserialization %s"Smithy" %s"pest" none)
  | unexpected {place context} : Accepted s → TextFault flt s (.deserialization %s"Smithy" (place ++ %s" should have been unreachable") context)
  | number {t} : Finds s .number t → NumberFault flt t → TextFault flt s (.other %s"number format error")
  | version {v} : ControlVersion flt s v → v ∉ [%s"1", %s"1.0"] → TextFault flt s (.invalidVersionNumber (some v))
  | panic : MayPanic s → TextFault flt s .panic
  | name {f v e} : Loose.FileText flt f s → f.HasVersion v → BuilderFault (f.builder v) e → TextFault flt s e

end Spec

/-- Errors other than panics and unexpected pairs come from numbers. -/
def Blames {α : Type} (flt : Str → Option F64) (ps : List (Pair IdlRule)) (x : Except Err α) : Prop :=
  ∀ e, x = .error e → e = .panic ∨ (∃ place context, e = .deserialization %s"Smithy" (place ++ %s" should have been unreachable") context) ∨
    (e = .other %s"number format error" ∧ ∃ p ∈ ps, ∃ t qs, Inside (.mk .number t qs) p ∧ NumberFault flt t)

namespace Blames
variable {α β : Type} {flt : Str → Option F64} {ps : List (Pair IdlRule)}

theorem ok {a : α} : Blames flt ps (.ok a) := by intro e h; cases h

theorem pure {a : α} : Blames flt ps (Pure.pure a : Except Err α) := ok

theorem unexpected {place : Str} {c : Option Str} : Blames flt ps (SelParser.astray place c : Except Err α) := by
  intro e h; cases h; exact .inr (.inl ⟨_, _, rfl⟩)

theorem panic : Blames flt ps (.error .panic : Except Err α) := by intro e h; cases h; exact .inl rfl

theorem bind {x : Except Err α} {f : α → Except Err β} (h : Blames flt ps x) (hf : ∀ a, Blames flt ps (f a)) : Blames flt ps (x >>= f) := by
  cases x with
  | error e => intro e' he; cases he; exact h _ rfl
  | ok a => exact hf a

theorem map {x : Except Err α} {f : α → β} (h : Blames flt ps x) : Blames flt ps (x.map f) := by
  cases x with
  | error e => intro e' he; cases he; exact h _ rfl
  | ok a => exact ok

theorem ite {c : Prop} [Decidable c] {x y : Except Err α} (hx : c → Blames flt ps x) (hy : ¬ c → Blames flt ps y) : Blames flt ps (if c then x else y) := by
  split
  · next h => exact hx h
  · next h => exact hy h

theorem unwrap {x : Except Err α} : Blames flt ps (Verif.unwrap x) := by
  cases x with
  | error e => exact panic
  | ok a => exact ok

theorem mono {x : Except Err α} {qs : List (Pair IdlRule)} (h : Blames flt ps x) (hs : ∀ p ∈ ps, p ∈ qs) : Blames flt qs x := by
  intro e he
  rcases h e he with h | h | ⟨h, p, hp, h'⟩
  · exact .inl h
  · exact .inr (.inl h)
  · exact .inr (.inr ⟨h, p, hs p hp, h'⟩)

theorem inner {x : Except Err α} {p : Pair IdlRule} (h : Blames flt p.intoInner x) (hp : p ∈ ps) : Blames flt ps x := by
  intro e he
  rcases h e he with h | h | ⟨h, q, hq, t, qs, h', h''⟩
  · exact .inl h
  · exact .inr (.inl h)
  · exact .inr (.inr ⟨h, p, hp, t, qs, .inner hq h', h''⟩)

theorem error {x : Except Err α} {e : Err} (h : Blames flt ps x) (hx : x = .error e) : Blames flt ps (.error e : Except Err β) := by
  intro e' he; cases he; exact h _ hx

theorem tail {x : Except Err α} {p : Pair IdlRule} (h : Blames flt ps x) : Blames flt (p :: ps) x := h.mono fun q hq => by simp [hq]

end Blames

theorem numberFault_of {flt : Str → Option F64} {t : Str} {e : Err} (h : IdlParser.numberOf flt t = .error e) :
    e = .other %s"number format error" ∧ NumberFault flt t := by
  unfold IdlParser.numberOf at h
  split at h
  · next hd =>
    split at h
    · cases h
    · next hf => cases h; exact ⟨rfl, .float (by simpa using hd) hf⟩
  · next hd =>
    split at h
    · cases h
    · next hi =>
      cases h
      refine ⟨rfl, .integer (by simpa using hd) (fun n hn ht => ?_) ?_⟩
      · rw [ht, parseI64_showInt n hn] at hi
        cases hi
      · rintro rfl
        cases hi

theorem next_blames {flt : Str → Option F64} {qs : List (Pair IdlRule)} (ps : List (Pair IdlRule)) : Blames flt qs (SelParser.next ps) := by
  cases ps with
  | nil => exact .panic
  | cons p ps => exact .ok

theorem each_blames {α : Type} {flt : Str → Option F64} {rule : IdlRule} {f : Pair IdlRule → Except Err α} {ps : List (Pair IdlRule)}
    (h : ∀ p ∈ ps, Blames flt p.intoInner (f p)) : Blames flt ps (SelParser.each rule f ps) := by
  induction ps with
  | nil => exact .ok
  | cons p ps ih =>
    unfold SelParser.each
    refine Blames.ite (fun _ => ?_) (fun _ => .unexpected)
    exact ((h p (by simp)).inner (by simp)).bind fun a => (ih fun q hq => h q (by simp [hq])).tail.bind fun l => .pure

namespace IdlParser
open IdlRule
variable {flt : Str → Option F64}

theorem textOf_blames {qs : List (Pair IdlRule)} (rule : IdlRule) (ps : List (Pair IdlRule)) : Blames flt qs (textOf rule ps) := by
  cases ps with
  | nil => exact .unexpected
  | cons p ps => exact Blames.ite (fun _ => .ok) (fun _ => .unexpected)

mutual
  theorem nodeValueOf_blames (flt : Str → Option F64) : (p : Pair IdlRule) → Blames flt p.intoInner (nodeValueOf flt p)
    | .mk r t ps => by unfold nodeValueOf; exact firstValue_blames flt ps
  termination_by structural x => x
  theorem firstValue_blames (flt : Str → Option F64) : (ps : List (Pair IdlRule)) → Blames flt ps (firstValue flt ps)
    | [] => by unfold firstValue; exact .panic
    | p :: ps => by
      have h := innerValue_blames flt p
      unfold firstValue
      exact h.mono fun q hq => by simp at hq; simp [hq]
  termination_by structural x => x
  theorem innerValue_blames (flt : Str → Option F64) : (p : Pair IdlRule) → Blames flt [p] (innerValue flt p)
    | .mk r t ps => by
      have h1 := arrayOf_blames flt ps
      have h2 := objectOf_blames flt ps
      unfold innerValue
      split
      · exact (Blames.inner (p := .mk nodeArray t ps) h1 (by simp)).map
      · exact (Blames.inner (p := .mk nodeObject t ps) (h2 []) (by simp)).map
      · refine Blames.map fun e he => ?_
        obtain ⟨h, hf⟩ := numberFault_of he
        exact .inr (.inr ⟨h, .mk number t ps, by simp, t, ps, .here, hf⟩)
      · exact .ok
      · exact .ok
      · exact .ok
      · exact .ok
      · exact textOf_blames _ _
      · exact textOf_blames _ _
      · exact .unexpected
  termination_by structural x => x
  theorem arrayOf_blames (flt : Str → Option F64) : (ps : List (Pair IdlRule)) → Blames flt ps (arrayOf flt ps)
    | [] => by unfold arrayOf; exact .ok
    | p :: ps => by
      have h1 := nodeValueOf_blames flt p
      have h2 := arrayOf_blames flt ps
      unfold arrayOf
      refine Blames.ite (fun _ => ?_) (fun _ => .unexpected)
      split
      · next e he => exact (h1.inner (by simp)).error he
      · split
        · next e he => exact h2.tail.error he
        · exact .ok
  termination_by structural x => x
  theorem objectOf_blames (flt : Str → Option F64) : (ps : List (Pair IdlRule)) → ∀ o, Blames flt ps (objectOf flt o ps)
    | [] => fun o => by unfold objectOf; exact .ok
    | p :: ps => fun o => by
      have h1 := kvpOf_blames flt p
      have h2 := objectOf_blames flt ps
      unfold objectOf
      refine Blames.ite (fun _ => ?_) (fun _ => .unexpected)
      split
      · next e he => exact (h1.inner (by simp)).error he
      · exact (h2 _).tail
  termination_by structural x => x
  theorem kvpOf_blames (flt : Str → Option F64) : (p : Pair IdlRule) → Blames flt p.intoInner (kvpOf flt p)
    | .mk _ _ ps => by unfold kvpOf; exact kvpLoop_blames flt ps none none
  termination_by structural x => x
  theorem kvpLoop_blames (flt : Str → Option F64) : (ps : List (Pair IdlRule)) → ∀ k v, Blames flt ps (kvpLoop flt k v ps)
    | [] => fun k v => by
      unfold kvpLoop
      split
      · exact .ok
      · exact .unexpected
    | p :: ps => fun k v => by
      have h1 := nodeValueOf_blames flt p
      have h2 := kvpLoop_blames flt ps
      unfold kvpLoop
      split
      · exact (h2 _ _).tail
      · exact (h2 _ _).tail
      · split
        · next e he => exact (h1.inner (by simp)).error he
        · exact (h2 _ _).tail
      · exact .unexpected
  termination_by structural x => x
end

theorem quotedKey_blames {qs : List (Pair IdlRule)} (ps : List (Pair IdlRule)) : ∀ id, Blames flt qs (quotedKey id ps) := by
  induction ps with
  | nil => intro id; exact .ok
  | cons p ps ih => intro id; exact Blames.ite (fun _ => ih _) (fun _ => .unexpected)

theorem structureKvp_blames (ps : List (Pair IdlRule)) : ∀ k v, Blames flt ps (structureKvp flt k v ps) := by
  induction ps with
  | nil =>
    intro k v
    unfold structureKvp
    split
    · exact .ok
    · exact .unexpected
  | cons p ps ih =>
    intro k v
    unfold structureKvp
    split
    · exact (quotedKey_blames _ _).bind fun id => Blames.ite (fun _ => .unexpected) (fun _ => (ih _ _).tail)
    · exact (ih _ _).tail
    · exact ((nodeValueOf_blames flt p).inner (by simp)).bind fun w => (ih _ _).tail
    · exact .unexpected

theorem traitParts_blames (ps : List (Pair IdlRule)) : ∀ id v m, Blames flt ps (traitParts flt id v m ps) := by
  induction ps with
  | nil => intro id v m; exact .ok
  | cons p ps ih =>
    intro id v m
    unfold traitParts
    split
    · exact (ih _ _ _).tail
    · exact ((nodeValueOf_blames flt p).inner (by simp)).bind fun w => (ih _ _ _).tail
    · exact ((structureKvp_blames p.intoInner none none).inner (by simp)).bind fun x => (ih _ _ _).tail
    · exact .unexpected

theorem withValue_blames {qs : List (Pair IdlRule)} {id : Str} {v : Value} : Blames flt qs (TraitBuilder.withValue id v) := Blames.unwrap.bind fun _ => .pure

theorem traitOf_blames (p : Pair IdlRule) : Blames flt p.intoInner (traitOf flt p) := by
  refine (traitParts_blames _ none none []).bind ?_
  rintro ⟨id, v, m⟩
  dsimp only
  split
  · exact .unexpected
  · exact withValue_blames
  · exact withValue_blames
  · exact .unexpected

theorem traitsOf_blames (p : Pair IdlRule) : Blames flt p.intoInner (traitsOf flt p) := each_blames fun q _ => traitOf_blames q

theorem memberNew_blames {qs : List (Pair IdlRule)} {n t : Str} : Blames flt qs (MemberBuilder.new n t) :=
  Blames.unwrap.bind fun _ => Blames.unwrap.bind fun _ => .pure

theorem memberLoop_blames (ps : List (Pair IdlRule)) : ∀ docs ts id t, Blames flt ps (memberLoop flt docs ts id t ps) := by
  induction ps with
  | nil =>
    intro docs ts id t
    unfold memberLoop
    split
    · exact memberNew_blames.bind fun _ => .pure
    · exact .unexpected
  | cons p ps ih =>
    intro docs ts id t
    unfold memberLoop
    split
    · exact (ih _ _ _ _).tail
    · exact ((traitsOf_blames p).inner (by simp)).bind fun _ => (ih _ _ _ _).tail
    · exact (ih _ _ _ _).tail
    · exact (ih _ _ _ _).tail
    · exact .unexpected

theorem membersOf_blames (p : Pair IdlRule) : Blames flt p.intoInner (membersOf flt p) := each_blames fun _ _ => memberLoop_blames _ _ _ _ _

theorem memberedOf_blames (p : Pair IdlRule) : Blames flt p.intoInner (memberedOf flt p) := by
  unfold memberedOf
  generalize p.intoInner = ps
  cases ps with
  | nil => exact .panic
  | cons a ps =>
    have second : ∀ id : Str, Blames flt (a :: ps) (SelParser.next ps >>= fun x => match x with
        | (second, _) => (if second.asRule = shapeMembers then membersOf flt second >>= fun ms => pure (id, ms) else SelParser.unexpected >>= fun ms => pure (id, ms))) := by
      intro id
      cases ps with
      | nil => exact .panic
      | cons b ps =>
        exact Blames.ite (fun _ => ((membersOf_blames b).inner (by simp)).bind fun _ => .pure) (fun _ => Blames.unexpected.bind fun _ => .pure)
    exact Blames.ite (fun _ => second a.asStr) (fun _ => Blames.unexpected.bind fun id => second id)

theorem named_blames {qs : List (Pair IdlRule)} {id : Str} {b : BuilderBody} : Blames flt qs (Builder.named id b) := Blames.unwrap.bind fun _ => .pure

theorem simpleLoop_blames {qs : List (Pair IdlRule)} (ps : List (Pair IdlRule)) : ∀ id ty, Blames flt qs (simpleLoop id ty ps) := by
  induction ps with
  | nil =>
    intro id ty
    unfold simpleLoop
    split
    · exact named_blames
    · exact .unexpected
  | cons p ps ih =>
    intro id ty
    unfold simpleLoop
    refine Blames.ite (fun _ => ih _ _) (fun _ => ?_)
    split
    · exact ih _ _
    · exact .unexpected

theorem listOf_blames {kind : MemberBuilder → BuilderBody} (p : Pair IdlRule) : Blames flt p.intoInner (listOf flt kind p) := by
  refine (memberedOf_blames p).bind ?_
  rintro ⟨id, ms⟩
  dsimp only
  split
  · exact Blames.ite (fun _ => named_blames) (fun _ => .unexpected)
  · exact .unexpected

theorem keyAndValue_blames {qs : List (Pair IdlRule)} (ms : List MemberBuilder) : ∀ k v, Blames flt qs (keyAndValue k v ms) := by
  induction ms with
  | nil => intro k v; exact .ok
  | cons m ms ih =>
    intro k v
    unfold keyAndValue
    exact Blames.ite (fun _ => ih _ _) (fun _ => Blames.ite (fun _ => ih _ _) (fun _ => .unexpected))

theorem mapOf_blames (p : Pair IdlRule) : Blames flt p.intoInner (mapOf flt p) := by
  refine (memberedOf_blames p).bind ?_
  rintro ⟨id, ms⟩
  refine (keyAndValue_blames ms none none).bind ?_
  rintro ⟨k, v⟩
  dsimp only
  split
  · exact Blames.unwrap.bind fun _ => memberNew_blames.bind fun _ => memberNew_blames.bind fun _ => .pure
  · exact .unexpected

theorem structureOf_blames {kind : List MemberBuilder → BuilderBody} (p : Pair IdlRule) : Blames flt p.intoInner (structureOf flt kind p) := by
  refine (memberedOf_blames p).bind ?_
  rintro ⟨id, ms⟩
  exact named_blames

theorem idAndObject_blames (ps : List (Pair IdlRule)) : ∀ id o, Blames flt ps (idAndObject flt id o ps) := by
  induction ps with
  | nil =>
    intro id o
    unfold idAndObject
    split
    · exact .ok
    · exact .unexpected
  | cons p ps ih =>
    intro id o
    unfold idAndObject
    split
    · exact (ih _ _).tail
    · exact ((objectOf_blames flt p.intoInner []).inner (by simp)).bind fun _ => (ih _ _).tail
    · exact .unexpected

theorem nameOf_blames {qs : List (Pair IdlRule)} (v : Value) : Blames flt qs (nameOf v) := by
  cases v with
  | string s => exact Blames.unwrap
  | _ => exact .panic

theorem namesIn_blames {qs : List (Pair IdlRule)} (vs : List Value) : Blames flt qs (namesIn vs) := by
  induction vs with
  | nil => exact .ok
  | cons v vs ih => exact (nameOf_blames v).bind fun _ => ih.bind fun _ => .pure

theorem namesOf_blames {qs : List (Pair IdlRule)} {place : Str} (v : Value) : Blames flt qs (namesOf place v) := by
  cases v with
  | array vs => exact namesIn_blames vs
  | _ => exact .unexpected

theorem serviceLoop_blames {qs : List (Pair IdlRule)} (o : List (Str × Value)) : ∀ a b, Blames flt qs (serviceLoop a b o) := by
  induction o with
  | nil => intro a b; exact .ok
  | cons e o ih =>
    intro a b
    obtain ⟨k, v⟩ := e
    unfold serviceLoop
    exact Blames.ite (fun _ => ih _ _) fun _ => Blames.ite (fun _ => (namesOf_blames v).bind fun _ => ih _ _) fun _ =>
      Blames.ite (fun _ => (namesOf_blames v).bind fun _ => ih _ _) fun _ => .unexpected

theorem serviceOf_blames (p : Pair IdlRule) : Blames flt p.intoInner (serviceOf flt p) := by
  refine (idAndObject_blames _ none none).bind ?_
  rintro ⟨id, o⟩
  dsimp only
  split
  · exact Blames.unwrap.bind fun _ => (serviceLoop_blames _ _ _).bind fun _ => .pure
  · exact .panic

theorem operationLoop_blames {qs : List (Pair IdlRule)} (o : List (Str × Value)) : ∀ a b c, Blames flt qs (operationLoop a b c o) := by
  induction o with
  | nil => intro a b c; exact .ok
  | cons e o ih =>
    intro a b c
    obtain ⟨k, v⟩ := e
    unfold operationLoop
    exact Blames.ite (fun _ => (nameOf_blames v).bind fun _ => ih _ _ _) fun _ => Blames.ite (fun _ => (nameOf_blames v).bind fun _ => ih _ _ _) fun _ =>
      Blames.ite (fun _ => (namesOf_blames v).bind fun _ => ih _ _ _) fun _ => .unexpected

theorem operationOf_blames (p : Pair IdlRule) : Blames flt p.intoInner (operationOf flt p) := by
  refine (idAndObject_blames _ none none).bind ?_
  rintro ⟨id, o⟩
  exact Blames.unwrap.bind fun _ => (operationLoop_blames _ _ _ _).bind fun _ => .pure

theorem identifiersIn_blames {qs : List (Pair IdlRule)} (o : List (Str × Value)) : ∀ a, Blames flt qs (identifiersIn a o) := by
  induction o with
  | nil => intro a; exact .ok
  | cons e o ih =>
    intro a
    obtain ⟨k, v⟩ := e
    unfold identifiersIn
    split
    · exact Blames.unwrap.bind fun _ => Blames.unwrap.bind fun _ => ih _
    · exact .panic

theorem identifiersOf_blames {qs : List (Pair IdlRule)} (a : AMap Str ShapeName) (v : Value) : Blames flt qs (identifiersOf a v) := by
  cases v with
  | object o => exact identifiersIn_blames o a
  | _ => exact .unexpected

theorem resourceLoop_blames {qs : List (Pair IdlRule)} (o : List (Str × Value)) : ∀ a, Blames flt qs (resourceLoop a o) := by
  induction o with
  | nil => intro a; exact .ok
  | cons e o ih =>
    intro a
    obtain ⟨k, v⟩ := e
    have one : ∀ f : ShapeName → ResourceFields, Blames flt qs (nameOf v >>= fun n => resourceLoop (f n) o) := fun f => (nameOf_blames v).bind fun _ => ih _
    have many : ∀ f : List ShapeName → ResourceFields, Blames flt qs (namesOf %s"parse_resource_statement" v >>= fun n => resourceLoop (f n) o) := fun f => (namesOf_blames v).bind fun _ => ih _
    unfold resourceLoop
    exact Blames.ite (fun _ => (identifiersOf_blames _ v).bind fun _ => ih _) fun _ => Blames.ite (fun _ => one _) fun _ => Blames.ite (fun _ => one _) fun _ =>
      Blames.ite (fun _ => one _) fun _ => Blames.ite (fun _ => one _) fun _ => Blames.ite (fun _ => one _) fun _ => Blames.ite (fun _ => one _) fun _ =>
      Blames.ite (fun _ => many _) fun _ => Blames.ite (fun _ => many _) fun _ => Blames.ite (fun _ => many _) fun _ => .unexpected

theorem resourceOf_blames (p : Pair IdlRule) : Blames flt p.intoInner (resourceOf flt p) := by
  refine (idAndObject_blames _ none none).bind ?_
  rintro ⟨id, o⟩
  exact Blames.unwrap.bind fun _ => (resourceLoop_blames _ _).bind fun _ => .pure

theorem applyLoop_blames (ps : List (Pair IdlRule)) : ∀ id t, Blames flt ps (applyLoop flt id t ps) := by
  induction ps with
  | nil =>
    intro id t
    unfold applyLoop
    split
    · exact Blames.unwrap.bind fun _ => .pure
    · exact .unexpected
  | cons p ps ih =>
    intro id t
    unfold applyLoop
    split
    · exact (ih _ _).tail
    · exact ((traitOf_blames p).inner (by simp)).bind fun _ => (ih _ _).tail
    · exact .unexpected

theorem builderOf_blames (p : Pair IdlRule) : Blames flt p.intoInner (builderOf flt p) := by
  unfold builderOf
  split
  · exact simpleLoop_blames _ _ _
  · exact listOf_blames p
  · exact listOf_blames p
  · exact mapOf_blames p
  · exact structureOf_blames p
  · exact structureOf_blames p
  · exact serviceOf_blames p
  · exact operationOf_blames p
  · exact resourceOf_blames p
  · exact .unexpected

theorem statementLoop_blames (ps : List (Pair IdlRule)) : ∀ mb docs ts, Blames flt ps (statementLoop flt mb docs ts ps) := by
  induction ps with
  | nil => intro mb docs ts; exact .ok
  | cons p ps ih =>
    intro mb docs ts
    unfold statementLoop
    split
    · exact (ih _ _ _).tail
    · exact ((traitsOf_blames p).inner (by simp)).bind fun _ => (ih _ _ _).tail
    · exact ((applyLoop_blames p.intoInner none none).inner (by simp)).bind fun _ => (ih _ _ _).tail
    · exact (ih _ _ _).tail
    · exact ((builderOf_blames p).inner (by simp)).bind fun _ => (ih _ _ _).tail

theorem statementsLoop_blames (ps : List (Pair IdlRule)) : ∀ mb, Blames flt ps (statementsLoop flt mb ps) := by
  induction ps with
  | nil => intro mb; exact .ok
  | cons p ps ih =>
    intro mb
    unfold statementsLoop
    split
    · exact ((statementLoop_blames p.intoInner mb [] []).inner (by simp)).bind fun _ => (ih _).tail
    · exact (ih _).tail
    · exact .unexpected

theorem useLoop_blames (ps : List (Pair IdlRule)) : ∀ mb, Blames flt ps (useLoop mb ps) := by
  induction ps with
  | nil => intro mb; exact .ok
  | cons p ps ih =>
    intro mb
    unfold useLoop
    refine Blames.ite (fun _ => (next_blames _).bind ?_) (fun _ => .unexpected)
    rintro ⟨inner, rest⟩
    exact Blames.ite (fun _ => (Blames.map Blames.unwrap).bind fun _ => (ih _).tail) (fun _ => .unexpected)

theorem namespaceOf_blames {qs : List (Pair IdlRule)} {v : Version} (p : Pair IdlRule) : Blames flt qs (namespaceOf v p) := by
  refine (next_blames _).bind ?_
  rintro ⟨inner, rest⟩
  exact Blames.ite (fun _ => Blames.map Blames.unwrap) (fun _ => .unexpected)

theorem someBuilder_blames {qs : List (Pair IdlRule)} (mb : Option ModelBuilder) : Blames flt qs (someBuilder mb) := by
  cases mb with
  | none => exact .panic
  | some mb => exact .ok

theorem sectionLoop_blames {v : Version} (ps : List (Pair IdlRule)) : ∀ mb, Blames flt ps (sectionLoop flt v mb ps) := by
  induction ps with
  | nil => intro mb; exact .ok
  | cons p ps ih =>
    intro mb
    unfold sectionLoop
    split
    · exact (namespaceOf_blames p).bind fun _ => (ih _).tail
    · exact (someBuilder_blames mb).bind fun mb' => ((useLoop_blames p.intoInner mb').inner (by simp)).bind fun _ => (ih _).tail
    · exact (someBuilder_blames mb).bind fun mb' => ((statementsLoop_blames p.intoInner mb').inner (by simp)).bind fun _ => (ih _).tail
    · exact .unexpected

theorem entriesOf_blames {rule : IdlRule} (ps : List (Pair IdlRule)) : ∀ m, Blames flt ps (entriesOf flt rule m ps) := by
  induction ps with
  | nil => intro m; exact .ok
  | cons p ps ih =>
    intro m
    unfold entriesOf
    refine Blames.ite (fun _ => ((kvpOf_blames flt p).inner (by simp)).bind ?_) (fun _ => .unexpected)
    rintro ⟨k, v⟩
    exact (ih _).tail

end IdlParser

theorem nextInto_blames {α : Type} {flt : Str → Option F64} {rule : IdlRule} {f : Pair IdlRule → Except Err α} {ps : List (Pair IdlRule)}
    (h : ∀ p, Blames flt p.intoInner (f p)) : Blames flt ps (IdlParser.nextInto rule f ps) := by
  cases ps with
  | nil => exact .panic
  | cons p ps => exact Blames.ite (fun _ => ((h p).inner (by simp)).bind fun _ => .pure) (fun _ => .unexpected)

theorem nextInto_rest {α : Type} {rule : IdlRule} {f : Pair IdlRule → Except Err α} {ps : List (Pair IdlRule)} {a : α} {rest : List (Pair IdlRule)}
    (h : IdlParser.nextInto rule f ps = .ok (a, rest)) : ∀ p ∈ rest, p ∈ ps := by
  cases ps with
  | nil => cases h
  | cons p ps =>
    by_cases hr : p.asRule = rule
    · rw [nextInto_eq hr] at h
      obtain ⟨x, -, h⟩ := ok_of_bind h
      cases h
      intro q hq; simp [hq]
    · unfold IdlParser.nextInto at h
      change (if p.asRule = rule then _ else _) = _ at h
      rw [if_neg hr] at h
      cases h

theorem versionOf_error {control : AMap Str Value} {e : Err} (h : IdlParser.versionOf control = .error e) :
    ∃ v, AMap.get control %s"version" = some (.string v) ∧ v ∉ [%s"1", %s"1.0"] ∧ e = .invalidVersionNumber (some v) := by
  unfold IdlParser.versionOf at h
  split at h
  · next v hv =>
    refine ⟨v, hv, ?_⟩
    unfold Version.fromStr at h
    split at h
    · cases h
    · next hn => cases h; exact ⟨by simpa using hn, rfl⟩
  · cases h

theorem Spec.Inside.trans {a b c : Pair IdlRule} (h : Inside b c) (h' : Inside a b) : Inside a c := by
  induction h with
  | here => exact h'
  | inner hm _ ih => exact .inner hm ih

theorem accepted_iff (s : Str) : Accepted s ↔ ∃ ps, matchIdl s = some ps := by
  constructor
  · rintro ⟨t, rest, ps, h⟩
    exact ⟨ps, (matchIdl_iff _ _).mpr ⟨_, h, rfl⟩⟩
  · rintro ⟨ps, h⟩
    obtain ⟨y, hp, hr⟩ := (matchIdl_iff _ _).mp h
    cases y with
    | none => cases hr
    | some y => obtain ⟨t, s', ps'⟩ := y; exact ⟨t, s', ps', hp⟩

/-- C102: when reading a text fails, the error tells what is wrong: the grammar does not accept the text; or there is a number that does not
fit; or the version is not known; or a name of the file cannot be resolved, as with the builder; or the error is about something unexpected
in a text that the grammar accepts; or the reader panics, which it does only for the texts of C57. -/
theorem C102_idl (flt : Str → Option F64) (enum : List ShapeID → List ShapeID) (he : Enumerates enum) (s : Str) :
    (∀ e, parseModel flt enum s = .error e → TextFault flt s e) ∧
    (¬ Accepted s → parseModel flt enum s = .error (.deserialization %s"Smithy" %s"pest" none)) := by
  constructor
  swap
  · intro hn
    unfold parseModel readBuilder
    cases hm : matchIdl s with
    | none => rfl
    | some ps => exact absurd ((accepted_iff s).mpr ⟨ps, hm⟩) hn
  intro e h
  by_cases hpan : e = .panic
  · subst hpan; exact .panic (C57_no_panic flt enum s h)
  unfold parseModel at h
  cases hr : readBuilder flt s with
  | ok x =>
    rw [hr] at h
    cases x with
    | none => cases h
    | some mb =>
      obtain ⟨f, v, h1, h2, rfl⟩ := C96_read flt s mb hr
      obtain ⟨_, hff⟩ := readBuilder_fromFile hr
      rcases (C102_builder _ hff.2.2.2.wf enum he).1 e h with hp | hf
      · exact absurd hp hpan
      · exact .name h1 h2 hf
  | error e' =>
    rw [hr] at h
    cases h
    unfold readBuilder at hr
    split at hr
    · next hm =>
      cases hr
      exact .syntax fun ha => by obtain ⟨ps, h⟩ := (accepted_iff s).mp ha; rw [hm] at h; cases h
    · next ps hm =>
      have hacc : Accepted s := (accepted_iff s).mpr ⟨ps, hm⟩
      obtain ⟨y, hp, hy⟩ := (matchIdl_iff _ _).mp hm
      cases y with
      | none => cases hy
      | some y =>
        obtain ⟨t, s', ps'⟩ := y
        cases hy
        have number : ∀ {α : Type} {x : Except Err α} {qs : List (Pair IdlRule)}, Blames flt qs x → (∀ q ∈ qs, ∃ p ∈ ps', Inside q p) →
            x = .error e → TextFault flt s e := by
          intro α x qs hb hin hx
          rcases hb e hx with h | h | ⟨rfl, q, hq, n, rs, h1, h2⟩
          · exact absurd h hpan
          · obtain ⟨_, _, rfl⟩ := h; exact .unexpected hacc
          · obtain ⟨p, hp', hi⟩ := hin q hq
            exact .number ⟨t, s', ps', hp, p, hp', rs, hi.trans h1⟩ h2
        obtain ⟨qs, e0, k⟩ := Got.inv_normal (x := .idl) rfl hp
        subst e0
        obtain ⟨t0, _, _, _, _, h0, k0, rfl, rfl⟩ := k.inv_seq
        obtain ⟨w, _, _, _, _, h1, k1, rfl, rfl⟩ := k0.inv_seq
        obtain ⟨c, _, _, rest, rs, h2, k2, rfl, rfl⟩ := k1.inv_seq
        obtain ⟨rfl, rfl, -⟩ := h0.inv_soi
        obtain ⟨hw, rfl, -⟩ := got_ws h1
        obtain ⟨pc, rfl, hpc, hc⟩ := section_says (flt := flt) (sec := .controlSection) (rl := .controlStatement) (kw := %s"$") (sign := %s":") rfl rfl ⟨rfl, rfl⟩ h2
        have hs := hp.split _ _ _ rfl
        have hin : ∀ q ∈ pc :: rs, ∃ p ∈ [Pair.mk IdlRule.idl ([] ++ (w ++ (c ++ rest))) (pc :: rs)], Inside q p := fun q hq =>
          ⟨_, List.mem_singleton.mpr rfl, .inner hq .here⟩
        change (IdlParser.nextInto .controlSection (fun p => IdlParser.entriesOf flt .controlStatement [] p.intoInner) (pc :: rs) >>= fun y =>
          IdlParser.versionOf y.1 >>= fun v => IdlParser.nextInto .metadataSection (fun p => IdlParser.entriesOf flt .metadataStatement [] p.intoInner) y.2 >>= fun z =>
          IdlParser.nextInto .shapeSection (fun p => IdlParser.sectionLoop flt v none p.intoInner) z.2 >>= fun o =>
            (.ok (o.1.map fun mb : ModelBuilder => mb.metaDataFrom z.1) : Except Err (Option ModelBuilder))) = .error e at hr
        have hctl := nextInto_blames (flt := flt) (rule := .controlSection) (ps := pc :: rs) fun p => IdlParser.entriesOf_blames (rule := .controlStatement) p.intoInner []
        cases hc1 : IdlParser.nextInto .controlSection (fun p => IdlParser.entriesOf flt .controlStatement [] p.intoInner) (pc :: rs) with
        | error e1 => rw [hc1] at hr hctl; cases hr; exact number hctl hin rfl
        | ok y =>
          rw [hc1] at hr
          rw [nextInto_eq hpc] at hc1
          obtain ⟨c1, hce, hc1⟩ := ok_of_bind hc1
          cases hc1
          obtain ⟨es, hes, rfl⟩ := hc _ hce
          cases hv : IdlParser.versionOf (AMap.ofList es) with
          | error e1 =>
            change (IdlParser.versionOf (AMap.ofList es) >>= _) = _ at hr
            rw [hv] at hr
            cases hr
            obtain ⟨v, hv1, hv2, rfl⟩ := versionOf_error hv
            exact .version ⟨es, w ++ c, rest ++ s', by rw [hs]; simp, spaced_before hw hes, hv1⟩ hv2
          | ok v =>
            change (IdlParser.versionOf (AMap.ofList es) >>= _) = _ at hr
            rw [hv] at hr
            change (IdlParser.nextInto .metadataSection (fun p => IdlParser.entriesOf flt .metadataStatement [] p.intoInner) rs >>= fun z =>
              IdlParser.nextInto .shapeSection (fun p => IdlParser.sectionLoop flt v none p.intoInner) z.2 >>= fun o =>
                (.ok (o.1.map fun mb : ModelBuilder => mb.metaDataFrom z.1) : Except Err (Option ModelBuilder))) = .error e at hr
            have hmeta := nextInto_blames (flt := flt) (rule := .metadataSection) (ps := rs) fun p => IdlParser.entriesOf_blames (rule := .metadataStatement) p.intoInner []
            cases hm1 : IdlParser.nextInto .metadataSection (fun p => IdlParser.entriesOf flt .metadataStatement [] p.intoInner) rs with
            | error e1 => rw [hm1] at hr hmeta; cases hr; exact number hmeta.tail hin rfl
            | ok z =>
              obtain ⟨m, zs⟩ := z
              rw [hm1] at hr
              have hz := nextInto_rest hm1
              refine number (qs := pc :: rs) ?_ hin hr
              exact (((nextInto_blames fun p => IdlParser.sectionLoop_blames p.intoInner none).mono hz).tail).bind fun _ => .ok

/-- C102: one text for each error. -/
theorem C102_idl_examples (flt : Str → Option F64) (enum : List ShapeID → List ShapeID) :
    parseModel flt enum %s"namespace" = .error (.deserialization %s"Smithy" %s"pest" none) ∧
    parseModel flt enum %s"metadata a = [1, 9223372036854775808]\n" = .error (.other %s"number format error") ∧
    parseModel flt enum %s"metadata a = 1e5\n" = .error (.other %s"number format error") ∧
    parseModel flt enum %s"$version: \"2.0\"\n" = .error (.invalidVersionNumber (some %s"2.0")) ∧
    parseModel flt enum %s"namespace a\nlist L { element: String }" = .error (.deserialization %s"Smithy" %s"parse_list_statement should have been unreachable" none) ∧
    parseModel flt enum %s"namespace a\nuse b#T\nuse c#T\nstructure S { m: T }" = .error (.ambiguousShape %s"T") ∧
    parseModel flt enum %s"namespace a\nstructure S { m: b#T$n }" = .error (.shapeIDExpected ⟨%s"b", %s"T", some %s"n"⟩) :=
  ⟨by rfl, by rfl, by rfl, by rfl, by rfl, by rfl, by rfl⟩

end Verif
