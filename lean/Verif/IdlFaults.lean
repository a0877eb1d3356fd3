/-
Faults of accepted texts: values, traits and members.
-/
import Verif.IdlFaultsSpec
import Verif.PegCount
import Verif.IdlLooseNodes

namespace Verif
open Peg Spec Idl Spec.Faults

/-- A fault at one of the pairs, or inside. -/
def Blamed (flt : Str → Option F64) (ps : List (Pair IdlRule)) (e : Err) : Prop := ∃ p ∈ ps, ∃ q, Inside q p ∧ PartFault flt q e

/-- No fault at the pair or inside. -/
def Clean (flt : Str → Option F64) (p : Pair IdlRule) : Prop := ∀ q, Inside q p → ∀ e, ¬ PartFault flt q e

/-- An error is for a fault; without an error there is no fault. -/
def Judged {α : Type} (flt : Str → Option F64) (ps : List (Pair IdlRule)) (x : Except Err α) : Prop :=
  (∀ e, x = .error e → Blamed flt ps e) ∧ ∀ a, x = .ok a → ∀ p ∈ ps, Clean flt p

theorem clean_iff {flt : Str → Option F64} {p : Pair IdlRule} : Clean flt p ↔ (∀ e, ¬ PartFault flt p e) ∧ ∀ q ∈ p.intoInner, Clean flt q := by
  constructor
  · intro h
    exact ⟨h p .here, fun q hq r hr => h r (.inner hq hr)⟩
  · rintro ⟨h1, h2⟩ q hq
    cases hq with
    | here => exact h1
    | inner hp hq => exact h2 _ hp q hq

/-- The rules at which there are faults. -/
def faulty : List IdlRule := [.number, .controlSection, .listStatement, .setStatement, .mapStatement, .serviceStatement, .operationStatement,
  .resourceStatement, .applyStatement, .aTrait, .shapeMemberKvp]

theorem plain_pair {flt : Str → Option F64} {p : Pair IdlRule} (h : p.asRule ∉ faulty) : ∀ e, ¬ PartFault flt p e := by
  intro e he
  apply h
  cases he with
  | number hr => rw [hr]; decide
  | version hr => rw [hr]; decide
  | collection hr => rcases hr with hr | hr <;> (rw [hr]; decide)
  | mapMember hr => rw [hr]; decide
  | mapMissing hr => rw [hr]; decide
  | service hr => rw [hr]; decide
  | property hr =>
    simp only [List.mem_cons, List.not_mem_nil, or_false] at hr
    rcases hr with hr | hr | hr <;> (rw [hr]; decide)
  | apply hr => rw [hr]; decide
  | trait hr => rw [hr]; decide
  | name hr => rcases hr with hr | hr <;> (rw [hr]; decide)

/-- The rules at which there are no faults, and inside which there are none. -/
def quiet : IdlRule → Bool
  | .documentationText | .shapeId | .rootShapeId | .absoluteRootShapeId | .nsName | .identifier | .shapeIdMember | .decimalPoint | .expLetter
  | .exp | .frac | .int | .minus | .plus | .zero | .kwTrue | .kwFalse | .kwNull | .quotedText | .quotedChars
  | .escapedChar | .unicodeEscape | .preservedDouble | .escape | .textBlock | .blockQuotedChars
  | .namespaceStatement | .useSection | .useStatement | .simpleShapeStatement | .typeBlob | .typeBoolean | .typeDocument | .typeString | .typeByte
  | .typeShort | .typeInteger | .typeLong | .typeFloat | .typeDouble | .typeBigInteger | .typeBigDecimal | .typeTimestamp | .EOI => true
  | _ => false

theorem quiet_faulty (r : IdlRule) (h : quiet r = true) : r ∉ faulty := by
  revert h
  cases r <;> decide

theorem quiet_emits (r : IdlRule) (h : quiet r = true) : ∃ l, emits idlGrammar 32 (idlGrammar.body r) = some l ∧ ∀ x ∈ l, quiet x = true := by
  have : (match emits idlGrammar 32 (idlGrammar.body r) with
    | some l => l.all quiet
    | none => false) = true := by
    revert h
    cases r <;> decide
  split at this
  · next l hl => exact ⟨l, hl, by simpa using this⟩
  · cases this

/-- The same holds inside. -/
theorem quiet_inside {p q : Pair IdlRule} (hi : Inside q p) (h : Made idlGrammar p) (hr : quiet p.asRule = true) :
    quiet q.asRule = true := by
  induction hi with
  | here => exact hr
  | inner hm _ ih =>
    obtain ⟨l, hl, hq⟩ := quiet_emits _ hr
    exact ih (h.inner _ hm) (hq _ (h.sound.emits hl _ hm))

theorem Clean.quiet {flt : Str → Option F64} {p : Pair IdlRule} (h : Made idlGrammar p) (hr : quiet p.asRule = true) : Clean flt p :=
  fun _ hq => plain_pair (quiet_faulty _ (quiet_inside hq h hr))

namespace Judged
variable {α β : Type} {flt : Str → Option F64} {ps : List (Pair IdlRule)} {p : Pair IdlRule}

theorem nil {a : α} : Judged flt [] (.ok a) := ⟨(by intro e h; cases h), (by intro _ _ p hp; cases hp)⟩

theorem skip {x : Except Err α} (hp : Clean flt p) (h : Judged flt ps x) : Judged flt (p :: ps) x := by
  refine ⟨fun e he => ?_, fun a ha q hq => ?_⟩
  · obtain ⟨q, hq, h⟩ := h.1 e he
    exact ⟨q, by simp [hq], h⟩
  · rcases List.mem_cons.mp hq with rfl | hq
    · exact hp
    · exact h.2 a ha q hq

theorem cons {x : Except Err α} {f : α → Except Err β} (h : Judged flt [p] x) (hf : ∀ a, x = .ok a → Judged flt ps (f a)) : Judged flt (p :: ps) (x >>= f) := by
  cases x with
  | error e =>
    refine ⟨fun e' he => ?_, fun a ha => by cases ha⟩
    cases he
    obtain ⟨q, hq, h⟩ := h.1 e rfl
    exact ⟨q, by simp at hq; simp [hq], h⟩
  | ok a => exact skip (h.2 a rfl p (by simp)) (hf a rfl)

/-- What is left to check is about the pair itself. -/
theorem up {x : Except Err α} {f : α → Except Err β} (h : Judged flt p.intoInner x)
    (hf : ∀ a, x = .ok a → (∀ e, f a = .error e → PartFault flt p e) ∧ ∀ b, f a = .ok b → ∀ e, ¬ PartFault flt p e) : Judged flt [p] (x >>= f) := by
  cases x with
  | error e =>
    refine ⟨fun e' he => ?_, fun a ha => by cases ha⟩
    cases he
    obtain ⟨q, hq, r, hr, h⟩ := h.1 e rfl
    exact ⟨p, by simp, r, .inner hq hr, h⟩
  | ok a =>
    refine ⟨fun e' he => ⟨p, by simp, p, .here, (hf a rfl).1 e' he⟩, fun b hb q hq => ?_⟩
    rcases List.mem_singleton.mp hq with rfl
    exact clean_iff.mpr ⟨(hf a rfl).2 b hb, h.2 a rfl⟩

theorem inner {x : Except Err α} (h : Judged flt p.intoInner x) (hp : p.asRule ∉ faulty) : Judged flt [p] x := by
  have := up (f := fun a => (.ok a : Except Err α)) h fun a _ => ⟨(by intro e h; cases h), fun _ _ => plain_pair hp⟩
  cases x with
  | error e => exact this
  | ok a => exact this

theorem map {x : Except Err α} {f : α → β} (h : Judged flt ps x) : Judged flt ps (x.map f) := by
  cases x with
  | error e => exact ⟨fun e' he => h.1 e' (by cases he; rfl), fun a ha => by cases ha⟩
  | ok a => exact ⟨(by intro e h; cases h), fun _ _ => h.2 a rfl⟩

theorem ok {a : α} (h : ∀ p ∈ ps, Clean flt p) : Judged flt ps (.ok a) := ⟨(by intro e h; cases h), fun _ _ => h⟩

theorem bind_ok {x : Except Err α} {f : α → Except Err β} (h : Judged flt ps x) (hf : ∀ a, x = .ok a → ∃ b, f a = .ok b) : Judged flt ps (x >>= f) := by
  cases x with
  | error e => exact ⟨fun e' he => h.1 e' (by cases he; rfl), fun a ha => by cases ha⟩
  | ok a =>
    obtain ⟨b, hb⟩ := hf a rfl
    refine ⟨fun e he => ?_, fun _ _ => h.2 a rfl⟩
    change f a = _ at he
    rw [hb] at he; cases he

/-- As a step of a `match`. -/
theorem error {x : Except Err α} {e : Err} (h : Judged flt ps x) (hx : x = .error e) : Judged flt ps (.error e : Except Err β) :=
  ⟨fun e' he => by cases he; exact h.1 e hx, fun a ha => by cases ha⟩

theorem fault {e : Err} (h : PartFault flt p e) : Judged flt [p] (.error e : Except Err β) :=
  ⟨fun e' he => by cases he; exact ⟨p, by simp, p, .here, h⟩, fun a ha => by cases ha⟩

theorem front {x : Except Err α} (h : Judged flt [p] x) (hx : ∀ a, x ≠ .ok a) : Judged flt (p :: ps) x :=
  ⟨fun e he => by
    obtain ⟨q, hq, h⟩ := h.1 e he
    exact ⟨q, by simp at hq; simp [hq], h⟩, fun a ha => absurd ha (hx a)⟩

end Judged

/-! ### The parts of pairs -/

/-- What a pair came from. -/
theorem Peg.Made.got {r : IdlRule} {t : Str} {ps : List (Pair IdlRule)} (h : Made idlGrammar (.mk r t ps)) (hk : IdlGrammar.kind r = .normal) (hr : r ≠ .EOI) :
    ∃ s s', Got false (.rule r) s t s' [.mk r t ps] ∧ Got false (IdlGrammar.body r) s t s' ps := by
  cases h with
  | @mk _ s _ s' _ h =>
    have hk' : idlGrammar.kind r = .normal := hk
    have hd : decide (idlGrammar.kind r = .atomic) = false := decide_eq_false (by rw [hk']; decide)
    rw [hd] at h
    refine ⟨s, s', ?_, h⟩
    have hm : idlGrammar.mode false r = false := by unfold Grammar.mode; rw [hk']; rfl
    have := Parses.rule (m := false) (r := r) (hm ▸ h)
    unfold Grammar.pairs at this
    rw [hk'] at this
    exact this
  | eoi => exact absurd rfl hr

/-- The pairs inside, by the rule. -/
theorem made_exactly {p : Pair IdlRule} {r : IdlRule} (h : Made idlGrammar p) (hr : p.asRule = r) {l : List (List IdlRule)}
    (hl : exactly idlGrammar 32 (IdlGrammar.body r) = some l) (h1 : r ≠ .EOI := by decide) (h2 : IdlGrammar.kind r ≠ .atomic := by decide) : Match p.intoInner l := by
  subst hr
  exact h.exactly h1 h2 hl

theorem made_emits {p : Pair IdlRule} {r : IdlRule} (h : Made idlGrammar p) (hr : p.asRule = r) {l : List IdlRule}
    (hl : emits idlGrammar 32 (IdlGrammar.body r) = some l) : ∀ q ∈ p.intoInner, q.asRule ∈ l := by
  subst hr
  exact h.sound.emits hl

theorem made_counts {p : Pair IdlRule} {r : IdlRule} (h : Made idlGrammar p) (hr : p.asRule = r) {S : IdlRule → Bool} {k : Nat}
    (hl : counts idlGrammar S 32 (IdlGrammar.body r) = some k) (h1 : r ≠ .EOI := by decide) (h2 : IdlGrammar.kind r ≠ .atomic := by decide) :
    (p.intoInner.filter fun q => S q.asRule).length = k := by
  subst hr
  exact h.counts h1 h2 hl

namespace IdlParser
open IdlRule
variable {flt : Str → Option F64}

/-! ### Values -/

theorem number_said {t : Str} {ps : List (Pair IdlRule)} (h : Made idlGrammar (.mk .number t ps)) : NumberText t := by
  obtain ⟨s, s', hg, -⟩ := h.got rfl (by decide)
  obtain ⟨⟨sign, int, frac, x, h1, h2, h3, h4, e⟩, -⟩ := got_number hg
  refine ⟨sign, int, frac, x, h1, h2, ?_, ?_, e⟩
  · rcases h3 with h | ⟨ds, hd, h⟩
    · exact .inl h
    · exact .inr ⟨ds, h, hd⟩
  · rcases h4 with h | ⟨a, b, c, ha, hb, hc, h⟩
    · exact .inl h
    · rcases ha with rfl | rfl
      · exact .inr ⟨'e', b, c, h, .inl rfl, hb, hc⟩
      · exact .inr ⟨'E', b, c, h, .inr rfl, hb, hc⟩

theorem numberOf_ok {t : Str} (ht : NumberText t) {n : Number} (h : numberOf flt t = .ok n) : ¬ NumberFault flt t := by
  intro hf
  unfold numberOf at h
  cases hf with
  | float hd hn =>
    rw [if_pos (by simpa using hd), hn] at h
    cases h
  | integer hd hn hz =>
    rw [if_neg (by simpa using hd)] at h
    split at h
    · next k hk =>
      obtain ⟨hi, h | ⟨-, h'⟩⟩ := parseI64_number ht hk
      · exact hn k hi h.symm
      · exact hz h'
    · cases h

theorem number_judged {t : Str} {ps : List (Pair IdlRule)} (h : Made idlGrammar (.mk .number t ps)) : Judged flt [.mk .number t ps] (numberOf flt t) := by
  refine ⟨fun e he => ?_, fun n hn q hq => ?_⟩
  · obtain ⟨rfl, hf⟩ := numberFault_of he
    exact ⟨_, List.mem_singleton.mpr rfl, _, .here, .number rfl hf⟩
  · rcases List.mem_singleton.mp hq with rfl
    refine clean_iff.mpr ⟨fun e he => ?_, fun q hq => ?_⟩
    · cases he with
      | number _ hf => exact numberOf_ok (number_said h) hn hf
      | collection hr => rcases hr with hr | hr <;> cases hr
      | name hr => rcases hr with hr | hr <;> cases hr
      | property hr => exact absurd hr (by simp [Pair.asRule])
      | version hr => cases hr
      | mapMember hr => cases hr
      | mapMissing hr => cases hr
      | service hr => cases hr
      | apply hr => cases hr
      | trait hr => cases hr
    · refine Clean.quiet (h.inner q hq) ?_
      have := made_emits (r := .number) h rfl rfl q hq
      simp only [List.mem_append, List.mem_cons, List.not_mem_nil, or_false] at this
      rcases this with h | h | h | h <;> (rw [h]; rfl)

/-- The text of a text block. -/
theorem block_inner {t : Str} {ps : List (Pair IdlRule)} (h : Made idlGrammar (.mk .textBlock t ps)) : ∃ u qs, ps = [.mk .blockQuotedChars u qs] := by
  obtain ⟨s, s', -, k⟩ := h.got rfl (by decide)
  have quotes : ∀ {s t s' ps}, Got false (.rule .DQUOTE ~> .rule .DQUOTE ~> .rule .DQUOTE) s t s' ps → t = %s"\"\"\"" ∧ ps = [] := by
    intro s t s' ps h
    obtain ⟨t1, _, _, t2, _, h1, k, rfl, rfl⟩ := h.inv_seq
    obtain ⟨t3, _, _, t4, _, h3, h4, rfl, rfl⟩ := k.inv_seq
    obtain ⟨rfl, rfl⟩ := got_dquote h1
    obtain ⟨rfl, rfl⟩ := got_dquote h3
    obtain ⟨rfl, rfl⟩ := got_dquote h4
    exact ⟨rfl, rfl⟩
  obtain ⟨t1, _, _, t2, _, h1, k1, rfl, rfl⟩ := k.inv_seq
  obtain ⟨rfl, rfl⟩ := quotes h1
  obtain ⟨t3, s3, _, t4, _, h3, k2, rfl, rfl⟩ := k1.inv_seq
  obtain ⟨u, s5, _, t6, _, h5, h6, rfl, rfl⟩ := k2.inv_seq
  obtain ⟨rfl, rfl⟩ := quotes h6
  obtain ⟨w, s7, _, t7, _, h7, h8, rfl, rfl⟩ := (h3.inv_silent rfl).inv_seq
  obtain ⟨hw, rfl, hmax⟩ := got_ws h7
  have e5 := h5.eq
  have e6 := h6.eq
  obtain ⟨rfl, h9⟩ := h5.inv_atomic rfl
  rcases h8.inv_opt with h | ⟨-, rfl, -⟩
  · exfalso
    cases h with
    | eoi =>
      rw [e6] at e5
      have := congrArg List.length e5
      simp at this
  · exact ⟨u, [], by simp⟩

/-- The pair inside a value. -/
theorem value_inner {p : Pair IdlRule} (h : Made idlGrammar p) (hr : p.asRule = nodeValue) : ∃ x, p.intoInner = [x] ∧ Made idlGrammar x ∧
    x.asRule ∈ [nodeArray, nodeObject, number, kwTrue, kwFalse, kwNull, shapeId, textBlock, quotedText] := by
  obtain ⟨x, hx, hm⟩ := (made_exactly h hr rfl).one
  exact ⟨x, hx, h.inner x (by rw [hx]; simp), by simpa using hm⟩

/-- The rules for a key, a sign and a value. -/
def Keyed (r : IdlRule) : Prop := r = nodeObjectKvp ∨ r = controlStatement ∨ r = metadataStatement ∨ r = traitStructureKvp

theorem keyed_inner {p : Pair IdlRule} (h : Made idlGrammar p) (hr : Keyed p.asRule) : ∃ k v, p.intoInner = [k, v] ∧ Made idlGrammar k ∧ Made idlGrammar v ∧
    (k.asRule = quotedText ∨ k.asRule = identifier) ∧ v.asRule = nodeValue := by
  have : ∃ k v, p.intoInner = [k, v] ∧ k.asRule ∈ [quotedText, identifier] ∧ v.asRule ∈ [nodeValue] := by
    rcases hr with hr | hr | hr | hr
    · exact (made_exactly h hr rfl).two
    · exact (made_exactly h hr rfl).two
    · exact (made_exactly h hr rfl).two
    · exact (made_exactly h hr rfl).two
  obtain ⟨k, v, he, hk, hv⟩ := this
  exact ⟨k, v, he, h.inner k (by simp [he]), h.inner v (by simp [he]), by simpa using hk, by simpa using hv⟩

theorem key_clean {k : Pair IdlRule} (h : Made idlGrammar k) (hr : k.asRule = quotedText ∨ k.asRule = identifier) : Clean flt k :=
  Clean.quiet h (by rcases hr with hr | hr <;> (rw [hr]; rfl))

mutual
  theorem nodeValueOf_judged (flt : Str → Option F64) : (p : Pair IdlRule) → Made idlGrammar p → p.asRule = nodeValue → Judged flt [p] (nodeValueOf flt p)
    | .mk r t ps => fun h hr => by
      refine Judged.inner ?_ (by rw [hr]; decide)
      have h1 := firstValue_judged flt ps
      obtain ⟨x, hx, hm, hl⟩ := value_inner h hr
      unfold nodeValueOf
      exact h1 x hx hm hl
  termination_by structural x => x
  theorem firstValue_judged (flt : Str → Option F64) : (ps : List (Pair IdlRule)) → ∀ x, ps = [x] → Made idlGrammar x →
      x.asRule ∈ [nodeArray, nodeObject, number, kwTrue, kwFalse, kwNull, shapeId, textBlock, quotedText] → Judged flt ps (firstValue flt ps)
    | [] => fun _ h => by cases h
    | y :: ys => fun x hx hm hl => by
      have h1 := innerValue_judged flt y
      cases hx
      unfold firstValue
      exact h1 hm hl
  termination_by structural x => x
  theorem innerValue_judged (flt : Str → Option F64) : (p : Pair IdlRule) → Made idlGrammar p →
      p.asRule ∈ [nodeArray, nodeObject, number, kwTrue, kwFalse, kwNull, shapeId, textBlock, quotedText] → Judged flt [p] (innerValue flt p)
    | .mk r t ps => fun h hl => by
      have h1 := arrayOf_judged flt ps
      have h2 := objectOf_judged flt ps
      unfold innerValue
      simp only [Pair.asRule, List.mem_cons, List.not_mem_nil, or_false] at hl
      rcases hl with rfl | rfl | rfl | rfl | rfl | rfl | rfl | rfl | rfl
      · refine (Judged.inner (p := .mk nodeArray t ps) (h1 h.inner fun q hq => ?_) (by decide : nodeArray ∉ faulty)).map
        simpa using made_emits (r := nodeArray) h rfl rfl q hq
      · refine (Judged.inner (p := .mk nodeObject t ps) (h2 h.inner (fun q hq => ?_) []) (by decide : nodeObject ∉ faulty)).map
        simpa using made_emits (r := nodeObject) h rfl rfl q hq
      · exact (number_judged h).map
      · exact .skip (Clean.quiet h rfl) .nil
      · exact .skip (Clean.quiet h rfl) .nil
      · exact .skip (Clean.quiet h rfl) .nil
      · exact .skip (Clean.quiet h rfl) .nil
      · obtain ⟨u, qs, rfl⟩ := block_inner h
        exact .skip (Clean.quiet h rfl) .nil
      · obtain ⟨x, hx, hx'⟩ := (made_exactly (r := quotedText) h rfl rfl).one
        change ps = [x] at hx
        subst hx
        refine .skip (Clean.quiet h rfl) ?_
        dsimp only [textOf]
        rw [if_pos (by simpa using hx')]
        exact .nil
  termination_by structural x => x
  theorem arrayOf_judged (flt : Str → Option F64) : (ps : List (Pair IdlRule)) → (∀ p ∈ ps, Made idlGrammar p) → (∀ p ∈ ps, p.asRule = nodeValue) →
      Judged flt ps (arrayOf flt ps)
    | [] => fun _ _ => by unfold arrayOf; exact .nil
    | p :: ps => fun h hr => by
      have h1 := nodeValueOf_judged flt p (h p (by simp)) (hr p (by simp))
      have h2 := arrayOf_judged flt ps (fun q hq => h q (by simp [hq])) (fun q hq => hr q (by simp [hq]))
      unfold arrayOf
      rw [if_pos (hr p (by simp))]
      split
      · next e he => exact (h1.error he).front (by rintro _ ⟨⟩)
      · next v hv =>
        have hp := h1.2 v hv p (by simp)
        split
        · next e he => exact .skip hp (h2.error he)
        · next vs hvs => exact .skip hp (.ok (h2.2 vs hvs))
  termination_by structural x => x
  theorem objectOf_judged (flt : Str → Option F64) : (ps : List (Pair IdlRule)) → (∀ p ∈ ps, Made idlGrammar p) → (∀ p ∈ ps, p.asRule = nodeObjectKvp) →
      ∀ o, Judged flt ps (objectOf flt o ps)
    | [] => fun _ _ o => by unfold objectOf; exact .nil
    | p :: ps => fun h hr o => by
      have h1 := kvpOf_judged flt p (h p (by simp)) (.inl (hr p (by simp)))
      have h2 := objectOf_judged flt ps (fun q hq => h q (by simp [hq])) (fun q hq => hr q (by simp [hq]))
      unfold objectOf
      rw [if_pos (hr p (by simp))]
      split
      · next e he => exact (h1.error he).front (by rintro _ ⟨⟩)
      · next v hv => exact .skip (h1.2 _ hv p (by simp)) (h2 _)
  termination_by structural x => x
  theorem kvpOf_judged (flt : Str → Option F64) : (p : Pair IdlRule) → Made idlGrammar p → Keyed p.asRule → Judged flt [p] (kvpOf flt p)
    | .mk r t ps => fun h hr => by
      refine Judged.inner ?_ (by rcases hr with hr | hr | hr | hr <;> (rw [hr]; decide))
      have h1 := pairLoop_judged flt ps
      obtain ⟨k, v, hx, hk, hv, hkr, hvr⟩ := keyed_inner h hr
      unfold kvpOf
      exact h1 k v hx hk hv hkr hvr
  termination_by structural x => x
  theorem pairLoop_judged (flt : Str → Option F64) : (ps : List (Pair IdlRule)) → ∀ k v, ps = [k, v] → Made idlGrammar k → Made idlGrammar v →
      (k.asRule = quotedText ∨ k.asRule = identifier) → v.asRule = nodeValue → Judged flt ps (kvpLoop flt none none ps)
    | [] => fun _ _ h => by cases h
    | [_] => fun _ _ h => by cases h
    | k' :: v' :: qs => fun k v hx hk hv hkr hvr => by
      have h1 := nodeValueOf_judged flt v'
      cases hx
      have h1 := h1 hv hvr
      refine .skip (key_clean hk hkr) ?_
      have : kvpLoop flt none none [k', v'] = kvpLoop flt (some k'.asStr) none [v'] := by
        rcases hkr with hkr | hkr <;> (rw [kvpLoop]; simp only [hkr])
      rw [this]
      unfold kvpLoop
      rw [hvr]
      dsimp only
      split
      · next e he => exact h1.error he
      · next x hx => exact .ok (h1.2 x hx)
  termination_by structural x => x
end

end IdlParser
end Verif
