/-
What the IDL reader gives for any text that it accepts.
-/
import Verif.PegSound
import Verif.Idl
import Verif.IdlReadSpec
import Verif.BuilderProps
import Verif.SelectorTree

namespace Verif
open Peg Spec

/-! ### The tokens -/

theorem word_idl {t ps} (h : Tree idlGrammar true IdlGrammar.word t ps) :
    ∃ a r, t = a :: r ∧ a.isAlpha = true ∧ ∀ c ∈ r, c.isAlpha = true ∨ c.isDigit = true ∨ c = '_' := by
  obtain ⟨t1, t2, rfl, h1, h2⟩ := h.parts
  obtain ⟨a, rfl, ha⟩ := h1.chr_one
  refine ⟨a, t2, rfl, ha, h2.rep_all (fun t ht => ?_)⟩
  obtain ⟨c, rfl, hc⟩ := ht.chr_one
  refine ⟨c, rfl, ?_⟩
  simpa [identRest, or_assoc] using hc

theorem ident_idl {t ps} (h : Tree idlGrammar true (idlGrammar.body .identifier) t ps) : SmithyIdent t := by
  have := h.noPairs; subst this
  cases h with
  | choiceL h =>
    obtain ⟨a, r, rfl, ha, hr⟩ := word_idl h
    exact .plain ha hr
  | choiceR _ h =>
    obtain ⟨t1, t2, rfl, h1, h2⟩ := h.parts
    obtain ⟨rfl, -⟩ := h1.str_eq
    obtain ⟨a, r, rfl, ha, hr⟩ := word_idl h2
    exact .underscore ha hr

theorem namespace_idl {t ps} (h : Tree idlGrammar true (idlGrammar.body .nsName) t ps) : SmithyNamespace t := by
  have hmore : ∀ {t ps}, Tree idlGrammar true (.more (.str %s"." ~> .rule .identifier)) t ps →
      ∃ qs : List Str, (∀ q ∈ qs, SmithyIdent q) ∧ t = qs.flatMap (fun q => '.' :: q) := by
    intro t ps h
    generalize he : Expr.more (Expr.str %s"." ~> Expr.rule IdlRule.identifier) = e at h
    generalize hm : true = m at h
    induction h with
    | moreNone => exact ⟨[], by simp, rfl⟩
    | @moreSome _ b w t1 p1 t2 p2 hw _ ha hb _ ih =>
      injection he with he; subst he; subst hm
      rw [hw rfl]
      obtain ⟨qs, h1, h2⟩ := ih rfl rfl
      obtain ⟨u1, u2, rfl, h3, h4⟩ := ha.parts
      obtain ⟨rfl, -⟩ := h3.str_eq
      refine ⟨u2 :: qs, ?_, by simp [h2]⟩
      intro q hq
      rcases List.mem_cons.mp hq with rfl | hq
      · exact ident_idl h4.body
      · exact h1 q hq
    | _ => cases he
  have hjoin : ∀ p (ps : List Str), joinWith ['.'] (p :: ps) = p ++ ps.flatMap (fun q => '.' :: q) := by
    intro p ps
    induction ps generalizing p with
    | nil => simp [joinWith]
    | cons q qs ih => simp only [joinWith, ih q, List.flatMap_cons]; simp
  obtain ⟨t1, t2, rfl, h1, h2⟩ := h.parts
  have i1 := ident_idl h1.body
  have : ∃ qs : List Str, (∀ q ∈ qs, SmithyIdent q) ∧ t2 = qs.flatMap (fun q => '.' :: q) := by
    rcases h2.rep_cases with rfl | ⟨_, _, rfl, ha, hb⟩
    · exact ⟨[], by simp, rfl⟩
    · obtain ⟨qs, h1, hq⟩ := hmore hb
      obtain ⟨u1, u2, rfl, h3, h4⟩ := ha.parts
      obtain ⟨rfl, -⟩ := h3.str_eq
      refine ⟨u2 :: qs, ?_, by simp [hq]⟩
      intro q hq
      rcases List.mem_cons.mp hq with rfl | hq
      · exact ident_idl h4.body
      · exact h1 q hq
  obtain ⟨qs, hq, rfl⟩ := this
  refine ⟨t1 :: qs, by simp, ?_, (hjoin _ _).symm⟩
  intro q hm
  rcases List.mem_cons.mp hm with rfl | hm
  · exact i1
  · exact hq q hm

/-- The text of a pair for an identifier. -/
theorem sound_identifier {p : Pair IdlRule} (h : Sound idlGrammar p) (hr : p.asRule = .identifier) : SmithyIdent p.asStr := by
  obtain ⟨r, t, ps⟩ := p
  cases hr
  exact ident_idl (h.tree (by decide))

/-- The text of a pair for a namespace. -/
theorem sound_namespace {p : Pair IdlRule} (h : Sound idlGrammar p) (hr : p.asRule = .nsName) : SmithyNamespace p.asStr := by
  obtain ⟨r, t, ps⟩ := p
  cases hr
  exact namespace_idl (h.tree (by decide))

/-- The parts of a sequence: nothing is skipped. -/
theorem parts_idl {a b t ps} (h : Tree idlGrammar false (.seq a b) t ps) :
    ∃ t1 t2 p1 p2, t = t1 ++ t2 ∧ ps = p1 ++ p2 ∧ Tree idlGrammar false a t1 p1 ∧ Tree idlGrammar false b t2 p2 := by
  cases h with
  | @seq _ _ _ t1 p1 w t2 p2 ha hw hws hb =>
    have : w = [] := by
      cases w with
      | nil => rfl
      | cons c w => exact absurd (hws c (by simp)) (by change ¬ false = true; decide)
    subst this
    exact ⟨t1, t2, p1, p2, rfl, rfl, ha, hb⟩

/-- The text of a pair for an absolute id. -/
theorem sound_absolute {p : Pair IdlRule} (h : Sound idlGrammar p) (hr : p.asRule = .absoluteRootShapeId) :
    ∃ ns n, SmithyNamespace ns ∧ SmithyIdent n ∧ p.asStr = ns ++ '#' :: n := by
  obtain ⟨r, t, ps⟩ := p
  cases hr
  have ht := h.tree (by decide)
  obtain ⟨t1, t2, p1, p2, rfl, rfl, h1, h2⟩ := parts_idl ht
  obtain ⟨t3, t4, p3, p4, rfl, rfl, h3, h4⟩ := parts_idl h2
  obtain ⟨_, rfl, i1⟩ := h1.atomic rfl
  obtain ⟨_, rfl, i4⟩ := h4.atomic rfl
  obtain ⟨rfl, -⟩ := h3.str_eq
  exact ⟨t1, t4, namespace_idl i1, ident_idl i4, rfl⟩

/-! ### Results -/

/-- What holds of the result, if there is one. -/
def Yields {α : Type} (P : α → Prop) (x : Except Err α) : Prop := ∀ a, x = .ok a → P a

namespace Yields
variable {α β : Type} {P : α → Prop} {Q : β → Prop}

theorem ok {a : α} (h : P a) : Yields P (.ok a) := by rintro _ ⟨⟩; exact h

theorem pure {a : α} (h : P a) : Yields P (pure a) := ok h

theorem error {e : Err} : Yields P (.error e) := by rintro _ ⟨⟩

theorem unexpected {place : Str} {c : Option Str} : Yields P (SelParser.astray place c) := error

theorem bind {x : Except Err α} {f : α → Except Err β} (h : Yields P x) (hf : ∀ a, P a → Yields Q (f a)) : Yields Q (x >>= f) := by
  cases x with
  | error e => exact error
  | ok a => exact hf a (h a rfl)

theorem map {x : Except Err α} {f : α → β} (h : Yields P x) (hf : ∀ a, P a → Q (f a)) : Yields Q (x.map f) := by
  cases x with
  | error e => exact error
  | ok a => exact ok (hf a (h a rfl))

theorem any {x : Except Err α} : Yields (fun _ => True) x := fun _ _ => trivial

theorem mono {P' : α → Prop} {x : Except Err α} (h : Yields P x) (hp : ∀ a, P a → P' a) : Yields P' x := fun a ha => hp a (h a ha)

end Yields

theorem each_yields {α : Type} {P : α → Prop} {rule : IdlRule} {f : Pair IdlRule → Except Err α} {ps : List (Pair IdlRule)}
    (h : ∀ p ∈ ps, p.asRule = rule → Yields P (f p)) : Yields (fun l => ∀ a ∈ l, P a) (SelParser.each rule f ps) := by
  induction ps with
  | nil => exact .ok (by simp)
  | cons p ps ih =>
    unfold SelParser.each
    split
    · next hr =>
      refine (h p (by simp) hr).bind fun a ha => (ih fun q hq => h q (by simp [hq])).bind fun l hl => .pure ?_
      intro b hb
      rcases List.mem_cons.mp hb with rfl | hb
      · exact ha
      · exact hl b hb
    · exact .unexpected

theorem next_yields {ps : List (Pair IdlRule)} {Q : Pair IdlRule → Prop} (h : ∀ p ∈ ps, Q p) :
    Yields (fun x => Q x.1 ∧ ∀ q ∈ x.2, Q q) (SelParser.next ps) := by
  cases ps with
  | nil => exact .error
  | cons p ps => exact .ok ⟨h p (by simp), fun q hq => h q (by simp [hq])⟩

theorem unwrap_yields {α : Type} {P : α → Prop} {x : Except Err α} (h : Yields P x) : Yields P (unwrap x) := by
  cases x with
  | error e => exact .error
  | ok a => exact .ok (h a rfl)

/-! ### Values -/

theorem parseI64_range {t : Str} {n : Int} (h : SelParser.parseI64 t = some n) : i64 n := by
  have key : ∀ (k : Nat), k < 2 ^ 63 → i64 (k : Int) := by intro k hk; unfold i64; omega
  unfold SelParser.parseI64 at h
  split at h
  · split at h
    · next hc =>
      simp only [Bool.and_eq_true, decide_eq_true_eq] at hc
      cases h
      have := hc.2
      unfold i64; omega
    · cases h
  · split at h
    · next hc =>
      simp only [Bool.and_eq_true, decide_eq_true_eq] at hc
      cases h
      exact key _ hc.2
    · cases h
  · split at h
    · next hc =>
      simp only [Bool.and_eq_true, decide_eq_true_eq] at hc
      cases h
      exact key _ hc.2
    · cases h

namespace IdlParser
open IdlRule
variable {flt : Str → Option F64}

theorem numberOf_yields (t : Str) : Yields Number.InRange (numberOf flt t) := by
  unfold numberOf
  split
  · split
    · exact .ok trivial
    · exact .error
  · split
    · next h => exact .ok (parseI64_range h)
    · exact .error

theorem textOf_yields (rule : IdlRule) (ps : List (Pair IdlRule)) : Yields Value.Wf (textOf rule ps) := by
  cases ps with
  | nil => exact .unexpected
  | cons p ps =>
    change Yields _ (if p.asRule = rule then Except.ok (Value.string p.asStr) else SelParser.unexpected)
    split
    · exact .ok Value.Wf.string
    · exact .unexpected

/-- Maps that have each key once and well-formed values. -/
def WfEntries (es : AMap Str Value) : Prop := AMap.Wf es ∧ ∀ e ∈ es, Value.Wf e.2

theorem wfEntries_nil : WfEntries [] := ⟨AMap.wf_nil, by simp⟩

theorem WfEntries.insert {es : AMap Str Value} (h : WfEntries es) (k : Str) {v : Value} (hv : v.Wf) : WfEntries (AMap.insert es k v) := by
  have hw := AMap.wf_insert h.1 k v
  refine ⟨hw, fun e he => ?_⟩
  have hg := AMap.get_of_mem hw he
  rw [AMap.get_insert] at hg
  split at hg
  · cases hg; exact hv
  · exact h.2 e (AMap.mem_of_get hg)

theorem WfEntries.object {es : AMap Str Value} (h : WfEntries es) : Value.Wf (.object es) := .object h.1 h.2

mutual
  theorem nodeValueOf_yields (flt : Str → Option F64) : (p : Pair IdlRule) → Yields Value.Wf (nodeValueOf flt p)
    | .mk _ _ ps => by unfold nodeValueOf; exact firstValue_yields flt ps
  termination_by structural x => x
  theorem firstValue_yields (flt : Str → Option F64) : (ps : List (Pair IdlRule)) → Yields Value.Wf (firstValue flt ps)
    | [] => .error
    | p :: _ => by unfold firstValue; exact innerValue_yields flt p
  termination_by structural x => x
  theorem innerValue_yields (flt : Str → Option F64) : (p : Pair IdlRule) → Yields Value.Wf (innerValue flt p)
    | .mk r t ps => by
      have h1 := arrayOf_yields flt ps
      have h2 := objectOf_yields flt ps
      unfold innerValue
      split
      · exact h1.map fun vs hv => .array hv
      · exact (h2 [] wfEntries_nil).map fun _ h => h.object
      · exact (numberOf_yields t).map fun _ h => .number h
      · exact .ok Value.Wf.boolean
      · exact .ok Value.Wf.boolean
      · exact .ok Value.Wf.none
      · exact .ok Value.Wf.string
      · exact textOf_yields _ _
      · exact textOf_yields _ _
      · exact .unexpected
  termination_by structural x => x
  theorem arrayOf_yields (flt : Str → Option F64) : (ps : List (Pair IdlRule)) → Yields (fun vs => ∀ v ∈ vs, Value.Wf v) (arrayOf flt ps)
    | [] => .ok (by simp)
    | p :: ps => by
      have h1 := nodeValueOf_yields flt p
      have h2 := arrayOf_yields flt ps
      unfold arrayOf
      split
      · split
        · exact .error
        · next v hv =>
          split
          · exact .error
          · next vs hvs =>
            refine .ok fun w hw => ?_
            rcases List.mem_cons.mp hw with rfl | hw
            · exact h1 _ hv
            · exact h2 _ hvs w hw
      · exact .unexpected
  termination_by structural x => x
  theorem objectOf_yields (flt : Str → Option F64) : (ps : List (Pair IdlRule)) → ∀ o, WfEntries o → Yields WfEntries (objectOf flt o ps)
    | [] => fun o ho => .ok ho
    | p :: ps => fun o ho => by
      have h1 := kvpOf_yields flt p
      have h2 := objectOf_yields flt ps
      unfold objectOf
      split
      · split
        · exact .error
        · next k v hv => exact h2 _ (ho.insert k (h1 _ hv))
      · exact .unexpected
  termination_by structural x => x
  theorem kvpOf_yields (flt : Str → Option F64) : (p : Pair IdlRule) → Yields (fun e => Value.Wf e.2) (kvpOf flt p)
    | .mk _ _ ps => by unfold kvpOf; exact kvpLoop_yields flt ps none none (by simp)
  termination_by structural x => x
  theorem kvpLoop_yields (flt : Str → Option F64) : (ps : List (Pair IdlRule)) → ∀ k v, (∀ x, v = some x → Value.Wf x) →
      Yields (fun e => Value.Wf e.2) (kvpLoop flt k v ps)
    | [] => fun k v hv => by
      unfold kvpLoop
      split
      · exact .ok (hv _ rfl)
      · exact .unexpected
    | p :: ps => fun k v hv => by
      have h1 := nodeValueOf_yields flt p
      have h2 := kvpLoop_yields flt ps
      unfold kvpLoop
      split
      · exact h2 _ _ hv
      · exact h2 _ _ hv
      · split
        · exact .error
        · next w hw => exact h2 _ _ (by rintro _ ⟨⟩; exact h1 _ hw)
      · exact .unexpected
  termination_by structural x => x
end

/-- The text of a quoted text has its quotes. -/
theorem sound_quoted {p : Pair IdlRule} (h : Sound idlGrammar p) (hr : p.asRule = .quotedText) : ∃ u, p.asStr = '"' :: u ++ ['"'] := by
  obtain ⟨r, t, ps⟩ := p
  cases hr
  have ht := h.tree (by decide)
  obtain ⟨t1, t2, p1, p2, rfl, rfl, h1, h2⟩ := parts_idl ht
  obtain ⟨t3, t4, p3, p4, rfl, rfl, h3, h4⟩ := parts_idl h2
  obtain ⟨rfl, -⟩ := (show Tree idlGrammar false (.str ['"']) t1 p1 from h1.silent rfl).str_eq
  obtain ⟨rfl, -⟩ := (show Tree idlGrammar false (.str ['"']) t4 p4 from h4.silent rfl).str_eq
  exact ⟨t3, rfl⟩

theorem kvpLoop_key (ps : List (Pair IdlRule)) (hs : ∀ p ∈ ps, Sound idlGrammar p) : ∀ k v, (∀ x, k = some x → MetaKey x) →
    Yields (fun e => MetaKey e.1) (kvpLoop flt k v ps) := by
  induction ps with
  | nil =>
    intro k v hk
    unfold kvpLoop
    split
    · exact .ok (hk _ rfl)
    · exact .unexpected
  | cons p ps ih =>
    intro k v hk
    have ih := ih fun q hq => hs q (by simp [hq])
    unfold kvpLoop
    split
    · next hr => exact ih _ _ (by rintro _ ⟨⟩; exact .inl (sound_identifier (hs p (by simp)) hr))
    · next hr => exact ih _ _ (by rintro _ ⟨⟩; exact .inr (sound_quoted (hs p (by simp)) hr))
    · split
      · exact .error
      · exact ih _ _ hk
    · exact .unexpected

theorem kvpOf_key {p : Pair IdlRule} (h : Sound idlGrammar p) : Yields (fun e => MetaKey e.1) (kvpOf flt p) := by
  obtain ⟨r, t, ps⟩ := p
  unfold kvpOf
  exact kvpLoop_key ps h.inner none none (by simp)

/-! ### Traits -/

theorem structureKvp_yields (ps : List (Pair IdlRule)) : ∀ k v, (∀ x, v = some x → Value.Wf x) →
    Yields (fun e => Value.Wf e.2) (structureKvp flt k v ps) := by
  induction ps with
  | nil =>
    intro k v hv
    unfold structureKvp
    split
    · exact .ok (hv _ rfl)
    · exact .unexpected
  | cons p ps ih =>
    intro k v hv
    unfold structureKvp
    split
    · refine Yields.any.bind fun id _ => ?_
      split
      · exact .unexpected
      · exact ih _ _ hv
    · exact ih _ _ hv
    · refine (nodeValueOf_yields flt p).bind fun w hw => ih _ _ ?_
      rintro _ ⟨⟩; exact hw
    · exact .unexpected

theorem traitParts_yields (ps : List (Pair IdlRule)) : ∀ id v m, (∀ x, v = some x → Value.Wf x) → WfEntries m →
    Yields (fun x => (∀ y, x.2.1 = some y → Value.Wf y) ∧ WfEntries x.2.2) (traitParts flt id v m ps) := by
  induction ps with
  | nil => intro id v m hv hm; exact .ok ⟨hv, hm⟩
  | cons p ps ih =>
    intro id v m hv hm
    unfold traitParts
    split
    · exact ih _ _ _ hv hm
    · refine (nodeValueOf_yields flt p).bind fun w hw => ih _ _ _ ?_ hm
      rintro _ ⟨⟩; exact hw
    · refine (structureKvp_yields p.intoInner none none (by simp)).bind ?_
      rintro ⟨k, w⟩ hw
      exact ih _ _ _ hv (hm.insert k hw)
    · exact .unexpected

/-- A valid absolute id, or an identifier. -/
def GoodName : ShapeName → Prop
  | .qualified id => id.Valid
  | .local' n => IsIdentifier n

theorem nameFromStr_yields (s : Str) : Yields GoodName (ShapeName.fromStr s) := by
  intro n hn
  cases n with
  | qualified id => exact (ShapeID.of_fromStr (((C24_name_syntax s).2.1 id).mp hn)).1
  | local' l =>
    obtain ⟨rfl, h⟩ := ((C24_name_syntax s).2.2.1 l).mp hn
    exact h

/-- A trait builder with a valid name and a well-formed value. -/
structure GoodTrait (t : TraitBuilder) : Prop where
  name : GoodName t.name
  value : ∃ v, t.value = some v ∧ v.Wf

theorem withValue_yields {id : Str} {v : Value} (hv : v.Wf) : Yields GoodTrait (TraitBuilder.withValue id v) :=
  (unwrap_yields (nameFromStr_yields id)).bind fun _ hn => .pure ⟨hn, v, rfl, hv⟩

theorem traitOf_yields (p : Pair IdlRule) : Yields GoodTrait (traitOf flt p) := by
  refine (traitParts_yields p.intoInner none none [] (by simp) wfEntries_nil).bind ?_
  rintro ⟨id, v, m⟩ ⟨hv, hm⟩
  dsimp only
  split
  · exact .unexpected
  · exact withValue_yields (hv _ rfl)
  · exact withValue_yields hm.object
  · exact .unexpected

theorem traitsOf_yields (p : Pair IdlRule) : Yields (fun ts => ∀ t ∈ ts, GoodTrait t) (traitsOf flt p) :=
  each_yields fun q _ _ => traitOf_yields q

theorem appliedTraits_good {docs : List Str} {ts : List TraitBuilder} (h : ∀ t ∈ ts, GoodTrait t) : ∀ t ∈ appliedTraits docs ts, GoodTrait t := by
  intro t ht
  unfold appliedTraits at ht
  rcases List.mem_append.mp ht with ht | ht
  · split at ht
    · cases ht
    · rcases List.mem_singleton.mp ht with rfl
      refine ⟨⟨(isNamespace_iff _).mp (by decide), (isIdent_iff _).mp (by decide), by simp⟩, _, rfl, .string⟩
  · exact h t ht

theorem traitsWf_of_good {ts : List TraitBuilder} (h : ∀ t ∈ ts, GoodTrait t) : TraitsWf ts := by
  intro t v ht hv
  obtain ⟨w, h1, h2⟩ := (h t ht).value
  rw [h1] at hv
  cases hv
  exact h2

/-! ### Members -/

/-- A member builder with a Smithy name, a valid target and good traits. -/
structure GoodMember (m : MemberBuilder) : Prop where
  name : SmithyIdent m.name
  target : GoodName m.target
  traits : ∀ t ∈ m.traits, GoodTrait t

theorem memberNew_yields {n t : Str} : Yields (fun m => GoodName m.target ∧ m = ⟨n, [], m.target⟩) (MemberBuilder.new n t) := by
  have : Yields (fun k => k = n) (unwrap (Identifier.fromStr n)) := by
    refine unwrap_yields ?_
    unfold Identifier.fromStr
    split
    · exact .ok rfl
    · exact .error
  refine this.bind fun k hk => (unwrap_yields (nameFromStr_yields t)).bind fun t ht => .pure ⟨ht, ?_⟩
  subst hk; rfl

theorem memberLoop_yields (ps : List (Pair IdlRule)) (hs : ∀ p ∈ ps, Sound idlGrammar p) : ∀ docs ts id t, (∀ x ∈ ts, GoodTrait x) →
    (∀ x, id = some x → SmithyIdent x) → Yields GoodMember (memberLoop flt docs ts id t ps) := by
  induction ps with
  | nil =>
    intro docs ts id t hts hid
    unfold memberLoop
    split
    · refine memberNew_yields.bind ?_
      rintro m ⟨h1, h2⟩
      rw [h2]
      exact .pure ⟨hid _ rfl, h1, appliedTraits_good hts⟩
    · exact .unexpected
  | cons p ps ih =>
    intro docs ts id t hts hid
    have ih := ih fun q hq => hs q (by simp [hq])
    unfold memberLoop
    split
    · exact ih _ _ _ _ hts hid
    · exact (traitsOf_yields p).bind fun ts hts => ih _ _ _ _ hts hid
    · next hr => exact ih _ _ _ _ hts (by rintro _ ⟨⟩; exact sound_identifier (hs p (by simp)) hr)
    · exact ih _ _ _ _ hts hid
    · exact .unexpected

theorem membersOf_yields {p : Pair IdlRule} (hs : Sound idlGrammar p) : Yields (fun ms => ∀ m ∈ ms, GoodMember m) (membersOf flt p) :=
  each_yields fun q hq _ => memberLoop_yields _ (hs.inner q hq).inner _ _ _ _ (by simp) (by simp)

theorem memberedOf_yields {p : Pair IdlRule} (hs : Sound idlGrammar p) :
    Yields (fun x => SmithyIdent x.1 ∧ ∀ m ∈ x.2, GoodMember m) (memberedOf flt p) := by
  refine (next_yields hs.inner).bind ?_
  rintro ⟨first, inner⟩ ⟨h1, h2⟩
  dsimp only
  have key : ∀ id, SmithyIdent id → Yields (fun x : Str × List MemberBuilder => SmithyIdent x.1 ∧ ∀ m ∈ x.2, GoodMember m)
      (do
        let (second, _) ← SelParser.next inner
        let members ← if second.asRule = shapeMembers then membersOf flt second else SelParser.unexpected
        return (id, members)) := by
    intro id hid
    refine (next_yields h2).bind ?_
    rintro ⟨second, _⟩ ⟨h3, -⟩
    dsimp only
    split
    · exact (membersOf_yields h3).bind fun ms hms => .pure ⟨hid, hms⟩
    · exact .error
  split
  · next hr => exact key _ (sound_identifier h1 hr)
  · exact .error

/-! ### Statements -/

/-- A body as a statement of a file makes it. -/
inductive GoodBody : BuilderBody → Prop
  | simple {t} : GoodBody (.simple t)
  | list {t} : GoodName t → GoodBody (.list ⟨memberMember, [], t⟩)
  | set {t} : GoodName t → GoodBody (.set ⟨memberMember, [], t⟩)
  | map {k v} : GoodName k → GoodName v → GoodBody (.map ⟨memberKey, [], k⟩ ⟨memberValue, [], v⟩)
  | struct {ms} : (∀ m ∈ ms, GoodMember m) → GoodBody (.struct ms)
  | union {ms} : (∀ m ∈ ms, GoodMember m) → GoodBody (.union ms)
  | service {v ops res} : (∀ n ∈ ops, GoodName n) → (∀ n ∈ res, GoodName n) → GoodBody (.service v ops res [])
  | operation {i o e} : (∀ n, i = some n → GoodName n) → (∀ n, o = some n → GoodName n) → (∀ n ∈ e, GoodName n) → GoodBody (.operation i o e)
  | resource {ids c p r u d l o co rs} : AMap.Wf ids → (∀ e ∈ ids, IsIdentifier e.1 ∧ GoodName e.2) → (∀ n, c = some n → GoodName n) →
      (∀ n, p = some n → GoodName n) → (∀ n, r = some n → GoodName n) → (∀ n, u = some n → GoodName n) →
      (∀ n, d = some n → GoodName n) → (∀ n, l = some n → GoodName n) → (∀ n ∈ o, GoodName n) → (∀ n ∈ co, GoodName n) →
      (∀ n ∈ rs, GoodName n) → GoodBody (.resource ids c p r u d l o co rs)

/-- A builder as a statement of a file makes it. -/
structure Statement (b : Builder) : Prop where
  name : ∃ n, SmithyIdent n ∧ b.name = .local' n
  traits : ∀ t ∈ b.traits, GoodTrait t
  body : GoodBody b.body

theorem Statement.defines {b : Builder} (h : Statement b) : b.body ≠ .reference := by
  have := h.body
  intro he
  rw [he] at this
  cases this

theorem Statement.legal {b : Builder} (h : Statement b) : LegalBuilder b := by
  refine ⟨fun he => absurd he h.defines, ?_, traitsWf_of_good h.traits, ?_⟩
  · have := h.body
    revert this
    generalize b.body = k
    intro hk
    cases hk with
    | service => exact AMap.wf_nil
    | resource h => exact h
    | _ => trivial
  · have := h.body
    revert this
    generalize b.body = k
    intro hk m hm
    cases hk with
    | list => rcases List.mem_singleton.mp hm with rfl; intro t v ht; cases ht
    | set => rcases List.mem_singleton.mp hm with rfl; intro t v ht; cases ht
    | map =>
      rcases List.mem_cons.mp hm with rfl | hm
      · intro t v ht; cases ht
      · rcases List.mem_singleton.mp hm with rfl; intro t v ht; cases ht
    | struct h => exact traitsWf_of_good (h m hm).traits
    | union h => exact traitsWf_of_good (h m hm).traits
    | _ => cases hm

theorem ident_isIdentifier {n : Str} (h : SmithyIdent n) : IsIdentifier n := (isIdent_iff n).mp (isIdent_of_smithy h)

theorem nameFromStr_ident {n : Str} (h : SmithyIdent n) : ShapeName.fromStr n = .ok (.local' n) :=
  ((C24_name_syntax n).2.2.1 n).mpr ⟨rfl, ident_isIdentifier h⟩

theorem statement_plain {id : Str} {b : BuilderBody} (hid : SmithyIdent id) (h : GoodBody b) : Statement ⟨.local' id, [], b⟩ :=
  ⟨⟨id, hid, rfl⟩, by simp, h⟩

theorem named_yields {id : Str} {b : BuilderBody} (hid : SmithyIdent id) (h : GoodBody b) : Yields Statement (Builder.named id b) := by
  unfold Builder.named
  rw [nameFromStr_ident hid]
  exact .ok (statement_plain hid h)

theorem simpleLoop_yields (ps : List (Pair IdlRule)) (hs : ∀ p ∈ ps, Sound idlGrammar p) : ∀ id ty, (∀ x, id = some x → SmithyIdent x) →
    Yields Statement (simpleLoop id ty ps) := by
  induction ps with
  | nil =>
    intro id ty hid
    unfold simpleLoop
    split
    · next ty => exact named_yields (b := .simple ty) (hid _ rfl) .simple
    · exact .unexpected
  | cons p ps ih =>
    intro id ty hid
    have ih := ih fun q hq => hs q (by simp [hq])
    unfold simpleLoop
    split
    · next hr => exact ih _ _ (by rintro _ ⟨⟩; exact sound_identifier (hs p (by simp)) hr)
    · split
      · exact ih _ _ hid
      · exact .unexpected

theorem listOf_yields {p : Pair IdlRule} (hs : Sound idlGrammar p) {kind : MemberBuilder → BuilderBody} (hk : kind = .list ∨ kind = .set) :
    Yields Statement (listOf flt kind p) := by
  refine (memberedOf_yields hs).bind ?_
  rintro ⟨id, ms⟩ ⟨hid, hms⟩
  dsimp only
  split
  · next m =>
    split
    · refine named_yields hid ?_
      have ht := (hms m (by simp)).target
      rcases hk with rfl | rfl
      · exact .list ht
      · exact .set ht
    · exact .unexpected
  · exact .unexpected

theorem mapOf_yields {p : Pair IdlRule} (hs : Sound idlGrammar p) : Yields Statement (mapOf flt p) := by
  refine (memberedOf_yields hs).bind ?_
  rintro ⟨id, ms⟩ ⟨hid, hms⟩
  dsimp only
  refine Yields.any.bind ?_
  rintro ⟨k, v⟩ -
  dsimp only
  split
  · next k v =>
    rw [nameFromStr_ident hid]
    change Yields Statement (do
      let k ← MemberBuilder.new memberKey k
      let v ← MemberBuilder.new memberValue v
      return ⟨.local' id, [], .map k v⟩)
    refine memberNew_yields.bind fun k hk => memberNew_yields.bind fun v hv => .pure ?_
    rw [hk.2, hv.2]
    exact statement_plain hid (.map hk.1 hv.1)
  · exact .unexpected

theorem structureOf_yields {p : Pair IdlRule} (hs : Sound idlGrammar p) {kind : List MemberBuilder → BuilderBody}
    (hk : kind = .struct ∨ kind = .union) : Yields Statement (structureOf flt kind p) := by
  refine (memberedOf_yields hs).bind ?_
  rintro ⟨id, ms⟩ ⟨hid, hms⟩
  refine named_yields hid ?_
  rcases hk with rfl | rfl
  · exact .struct hms
  · exact .union hms

theorem idAndObject_yields (ps : List (Pair IdlRule)) (hs : ∀ p ∈ ps, Sound idlGrammar p) : ∀ id o, (∀ x, id = some x → SmithyIdent x) →
    Yields (fun x => SmithyIdent x.1) (idAndObject flt id o ps) := by
  induction ps with
  | nil =>
    intro id o hid
    unfold idAndObject
    split
    · exact .ok (hid _ rfl)
    · exact .unexpected
  | cons p ps ih =>
    intro id o hid
    have ih := ih fun q hq => hs q (by simp [hq])
    unfold idAndObject
    split
    · next hr => exact ih _ _ (by rintro _ ⟨⟩; exact sound_identifier (hs p (by simp)) hr)
    · exact Yields.any.bind fun o _ => ih _ _ hid
    · exact .unexpected

theorem nameOf_yields (v : Value) : Yields GoodName (nameOf v) := by
  unfold nameOf
  split
  · exact unwrap_yields (nameFromStr_yields _)
  · exact .error

theorem namesIn_yields (vs : List Value) : Yields (fun ns => ∀ n ∈ ns, GoodName n) (namesIn vs) := by
  induction vs with
  | nil => exact .ok (by simp)
  | cons v vs ih =>
    refine (nameOf_yields v).bind fun n hn => ih.bind fun ns hns => .pure ?_
    intro x hx
    rcases List.mem_cons.mp hx with rfl | hx
    · exact hn
    · exact hns x hx

theorem namesOf_yields {place : Str} (v : Value) : Yields (fun ns => ∀ n ∈ ns, GoodName n) (namesOf place v) := by
  unfold namesOf
  split
  · exact namesIn_yields _
  · exact .unexpected

theorem append_good {a b : List ShapeName} (ha : ∀ n ∈ a, GoodName n) (hb : ∀ n ∈ b, GoodName n) : ∀ n ∈ a ++ b, GoodName n := by
  intro n hn
  rcases List.mem_append.mp hn with h | h
  · exact ha n h
  · exact hb n h

theorem some_good {n : ShapeName} (h : GoodName n) : ∀ x, some n = some x → GoodName x := by rintro _ ⟨⟩; exact h

theorem ite_yields {α : Type} {P : α → Prop} {c : Prop} [Decidable c] {x y : Except Err α} (hx : Yields P x) (hy : Yields P y) :
    Yields P (if c then x else y) := by
  split
  · exact hx
  · exact hy

theorem serviceLoop_yields (es : List (Str × Value)) : ∀ ops res, (∀ n ∈ ops, GoodName n) → (∀ n ∈ res, GoodName n) →
    Yields (fun x => (∀ n ∈ x.1, GoodName n) ∧ ∀ n ∈ x.2, GoodName n) (serviceLoop ops res es) := by
  induction es with
  | nil => intro ops res h1 h2; exact .ok ⟨h1, h2⟩
  | cons x es ih =>
    obtain ⟨k, v⟩ := x
    intro ops res h1 h2
    unfold serviceLoop
    refine ite_yields (ih _ _ h1 h2) (ite_yields ?_ (ite_yields ?_ .unexpected))
    · exact (namesOf_yields v).bind fun ns hns => ih _ _ (append_good h1 hns) h2
    · exact (namesOf_yields v).bind fun ns hns => ih _ _ h1 (append_good h2 hns)

theorem serviceOf_yields {p : Pair IdlRule} (hs : Sound idlGrammar p) : Yields Statement (serviceOf flt p) := by
  refine (idAndObject_yields _ hs.inner none none (by simp)).bind ?_
  rintro ⟨id, o⟩ hid
  dsimp only
  split
  · rw [nameFromStr_ident hid]
    refine Yields.bind (P := fun n => n = .local' id) (.ok rfl) ?_
    rintro n rfl
    refine (serviceLoop_yields _ [] [] (by simp) (by simp)).bind ?_
    rintro ⟨ops, res⟩ ⟨h1, h2⟩
    exact .pure (statement_plain hid (.service h1 h2))
  · exact .error

theorem operationLoop_yields (es : List (Str × Value)) : ∀ i o e, (∀ n, i = some n → GoodName n) → (∀ n, o = some n → GoodName n) →
    (∀ n ∈ e, GoodName n) → Yields GoodBody (operationLoop i o e es) := by
  induction es with
  | nil => intro i o e h1 h2 h3; exact .ok (.operation h1 h2 h3)
  | cons x es ih =>
    obtain ⟨k, v⟩ := x
    intro i o e h1 h2 h3
    unfold operationLoop
    refine ite_yields ?_ (ite_yields ?_ (ite_yields ?_ .unexpected))
    · exact (nameOf_yields v).bind fun n hn => ih _ _ _ (some_good hn) h2 h3
    · exact (nameOf_yields v).bind fun n hn => ih _ _ _ h1 (some_good hn) h3
    · exact (namesOf_yields v).bind fun ns hns => ih _ _ _ h1 h2 (append_good h3 hns)

theorem operationOf_yields {p : Pair IdlRule} (hs : Sound idlGrammar p) : Yields Statement (operationOf flt p) := by
  refine (idAndObject_yields _ hs.inner none none (by simp)).bind ?_
  rintro ⟨id, o⟩ hid
  dsimp only
  rw [nameFromStr_ident hid]
  refine Yields.bind (P := fun n => n = .local' id) (.ok rfl) ?_
  rintro n rfl
  exact (operationLoop_yields _ none none [] (by simp) (by simp) (by simp)).bind fun b hb => .pure (statement_plain hid hb)

/-- The identifiers of a resource builder. -/
def GoodIds (ids : AMap Str ShapeName) : Prop := AMap.Wf ids ∧ ∀ e ∈ ids, IsIdentifier e.1 ∧ GoodName e.2

theorem GoodIds.insert {ids : AMap Str ShapeName} (h : GoodIds ids) {k : Str} {n : ShapeName} (hk : IsIdentifier k) (hn : GoodName n) :
    GoodIds (AMap.insert ids k n) := by
  have hw := AMap.wf_insert h.1 k n
  refine ⟨hw, fun e he => ?_⟩
  have hg := AMap.get_of_mem hw he
  rw [AMap.get_insert] at hg
  split at hg
  · next hk' => cases hg; rw [← hk']; exact ⟨hk, hn⟩
  · exact h.2 e (AMap.mem_of_get hg)

theorem identifierFromStr_yields (s : Str) : Yields (fun k => IsIdentifier k) (Identifier.fromStr s) := by
  unfold Identifier.fromStr
  split
  · next h => exact .ok ((isIdent_iff s).mp h)
  · exact .error

theorem identifiersIn_yields (es : List (Str × Value)) : ∀ ids, GoodIds ids → Yields GoodIds (identifiersIn ids es) := by
  induction es with
  | nil => intro ids h; exact .ok h
  | cons x es ih =>
    obtain ⟨k, v⟩ := x
    intro ids h
    unfold identifiersIn
    split
    · exact (unwrap_yields (identifierFromStr_yields k)).bind fun k hk => (unwrap_yields (nameFromStr_yields _)).bind fun n hn => ih _ (h.insert hk hn)
    · exact .error

theorem resourceLoop_yields (es : List (Str × Value)) : ∀ r : ResourceFields, GoodBody r.body →
    Yields (fun r : ResourceFields => GoodBody r.body) (resourceLoop r es) := by
  induction es with
  | nil => intro r h; exact .ok h
  | cons x es ih =>
    obtain ⟨k, v⟩ := x
    rintro ⟨ids, c, p, r, u, d, l, o, co, rs⟩ h
    unfold resourceLoop
    have hn := nameOf_yields v
    have hns := namesOf_yields (place := %s"parse_resource_statement") v
    cases h with
    | resource h1 h2 h3 h4 h5 h6 h7 h8 h9 h10 h11 =>
    have : Yields GoodIds (identifiersOf ids v) := by
      unfold identifiersOf
      split
      · exact identifiersIn_yields _ _ ⟨h1, h2⟩
      · exact .unexpected
    refine ite_yields (this.bind fun ids hids => ih _ (.resource hids.1 hids.2 h3 h4 h5 h6 h7 h8 h9 h10 h11)) ?_
    refine ite_yields (hn.bind fun n hn => ih _ (.resource h1 h2 (some_good hn) h4 h5 h6 h7 h8 h9 h10 h11)) ?_
    refine ite_yields (hn.bind fun n hn => ih _ (.resource h1 h2 h3 (some_good hn) h5 h6 h7 h8 h9 h10 h11)) ?_
    refine ite_yields (hn.bind fun n hn => ih _ (.resource h1 h2 h3 h4 (some_good hn) h6 h7 h8 h9 h10 h11)) ?_
    refine ite_yields (hn.bind fun n hn => ih _ (.resource h1 h2 h3 h4 h5 (some_good hn) h7 h8 h9 h10 h11)) ?_
    refine ite_yields (hn.bind fun n hn => ih _ (.resource h1 h2 h3 h4 h5 h6 (some_good hn) h8 h9 h10 h11)) ?_
    refine ite_yields (hn.bind fun n hn => ih _ (.resource h1 h2 h3 h4 h5 h6 h7 (some_good hn) h9 h10 h11)) ?_
    refine ite_yields (hns.bind fun n hn => ih _ (.resource h1 h2 h3 h4 h5 h6 h7 h8 (append_good h9 hn) h10 h11)) ?_
    refine ite_yields (hns.bind fun n hn => ih _ (.resource h1 h2 h3 h4 h5 h6 h7 h8 h9 (append_good h10 hn) h11)) ?_
    refine ite_yields (hns.bind fun n hn => ih _ (.resource h1 h2 h3 h4 h5 h6 h7 h8 h9 h10 (append_good h11 hn))) ?_
    exact .unexpected

theorem resourceOf_yields {p : Pair IdlRule} (hs : Sound idlGrammar p) : Yields Statement (resourceOf flt p) := by
  refine (idAndObject_yields _ hs.inner none none (by simp)).bind ?_
  rintro ⟨id, o⟩ hid
  dsimp only
  rw [nameFromStr_ident hid]
  refine Yields.bind (P := fun n => n = .local' id) (.ok rfl) ?_
  rintro n rfl
  refine (resourceLoop_yields _ ⟨[], none, none, none, none, none, none, [], [], []⟩ ?_).bind fun r hr => .pure (statement_plain hid hr)
  refine .resource AMap.wf_nil ?_ ?_ ?_ ?_ ?_ ?_ ?_ ?_ ?_ ?_ <;> simp

theorem builderOf_yields {p : Pair IdlRule} (hs : Sound idlGrammar p) : Yields Statement (builderOf flt p) := by
  unfold builderOf
  split
  · exact simpleLoop_yields _ hs.inner _ _ (by simp)
  · exact listOf_yields hs (.inl rfl)
  · exact listOf_yields hs (.inr rfl)
  · exact mapOf_yields hs
  · exact structureOf_yields hs (.inl rfl)
  · exact structureOf_yields hs (.inr rfl)
  · exact serviceOf_yields hs
  · exact operationOf_yields hs
  · exact resourceOf_yields hs
  · exact .unexpected

theorem Statement.withTraits {b : Builder} (h : Statement b) {ts : List TraitBuilder} (ht : ∀ t ∈ ts, GoodTrait t) :
    Statement { b with traits := b.traits ++ ts } := by
  refine ⟨h.name, ?_, h.body⟩
  intro t hm
  rcases List.mem_append.mp hm with hm | hm
  · exact h.traits t hm
  · exact ht t hm

/-! ### The builder -/

/-- A pair as its rule says, with a part of the text. -/
def Within (s : Str) (p : Pair IdlRule) : Prop := Sound idlGrammar p ∧ p.asStr <:+: s

theorem Within.inner {s : Str} {p : Pair IdlRule} (h : Within s p) : ∀ q ∈ p.intoInner, Within s q := by
  intro q hq
  exact ⟨h.1.inner q hq, (h.1.texts q hq).trans h.2⟩

/-- The builder of an import in the text. -/
def Import (s : Str) (b : Builder) : Prop := ∃ id, SmithyId id ∧ id.display <:+: s ∧ b = ⟨.qualified id, [], .reference⟩

/-- A model builder as a file for the namespace makes it: imports and statements. -/
structure FromFile (s ns : Str) (mb : ModelBuilder) : Prop where
  wf : WfBuilder mb
  defaultNs : mb.defaultNs = ns
  entries : ∀ n b, mb.shapes.get n = some b → Statement b ∨ Import s b
  metadata : ∀ k v, mb.metadata.get k = some v → MetaKey k

theorem Import.legal {s : Str} {b : Builder} (h : Import s b) : LegalBuilder b := by
  obtain ⟨id, -, -, rfl⟩ := h
  exact ⟨fun _ => ⟨id, rfl⟩, trivial, (fun t v ht => by cases ht), fun m hm => by cases hm⟩

theorem FromFile.insert {s ns : Str} {mb : ModelBuilder} (h : FromFile s ns mb) {b : Builder} (hb : Statement b ∨ Import s b) : FromFile s ns (mb.insert b) := by
  refine ⟨wfBuilder_insert h.wf (hb.elim (·.legal) (·.legal)), h.defaultNs, fun n b' hn => ?_, h.metadata⟩
  simp only [ModelBuilder.insert, AMap.get_insert] at hn
  split at hn
  · cases hn; exact hb
  · exact h.entries n b' hn

theorem FromFile.metaDataFrom {s ns : Str} (es : List (Str × Value)) (hes : ∀ e ∈ es, MetaKey e.1 ∧ Value.Wf e.2) :
    ∀ mb, FromFile s ns mb → FromFile s ns (mb.metaDataFrom es) := by
  induction es with
  | nil => intro mb h; exact h
  | cons e es ih =>
    obtain ⟨k, v⟩ := e
    intro mb h
    obtain ⟨hk, hv⟩ := hes (k, v) (by simp)
    refine ih (fun e he => hes e (by simp [he])) _ ⟨wfBuilder_metaData h.wf k hv, h.defaultNs, h.entries, ?_⟩
    intro j w hw
    simp only [ModelBuilder.metaData, AMap.get_insert] at hw
    split at hw
    · next he => rw [← he]; exact hk
    · exact h.metadata j w hw

theorem statementLoop_yields {s ns : Str} (ps : List (Pair IdlRule)) (hs : ∀ p ∈ ps, Sound idlGrammar p ∧ p.asRule ≠ applyStatement) : ∀ mb docs ts, FromFile s ns mb →
    (∀ t ∈ ts, GoodTrait t) → Yields (FromFile s ns) (statementLoop flt mb docs ts ps) := by
  induction ps with
  | nil => intro mb docs ts h _; exact .ok h
  | cons p ps ih =>
    intro mb docs ts h hts
    have ih := ih fun q hq => hs q (by simp [hq])
    unfold statementLoop
    split
    · exact ih _ _ _ h hts
    · exact (traitsOf_yields p).bind fun ts hts => ih _ _ _ h hts
    · next hr => exact absurd hr (hs p (by simp)).2
    · exact ih _ _ _ h hts
    · exact (builderOf_yields (hs p (by simp)).1).bind fun b hb => ih _ _ _ (h.insert (.inl (hb.withTraits (appliedTraits_good hts)))) hts

theorem statementsLoop_yields {s ns : Str} (ps : List (Pair IdlRule)) (hs : ∀ p ∈ ps, Sound idlGrammar p) : ∀ mb, FromFile s ns mb →
    Yields (FromFile s ns) (statementsLoop flt mb ps) := by
  induction ps with
  | nil => intro mb h; exact .ok h
  | cons p ps ih =>
    intro mb h
    have ih := ih fun q hq => hs q (by simp [hq])
    unfold statementsLoop
    split
    · next hr =>
      refine (statementLoop_yields p.intoInner (fun q hq => ⟨(hs p (by simp)).inner q hq, ?_⟩) mb [] [] h (by simp)).bind fun mb h => ih _ h
      have hl : (emits idlGrammar 32 (idlGrammar.body p.asRule)).isSome = true := by rw [hr]; decide
      obtain ⟨l, hl⟩ := Option.isSome_iff_exists.mp hl
      have := (hs p (by simp)).emits hl q hq
      intro he
      rw [he] at this
      have hno : ∀ l, emits idlGrammar 32 (idlGrammar.body p.asRule) = some l → applyStatement ∉ l := by
        rw [hr]
        intro l hl
        have : (emits idlGrammar 32 (idlGrammar.body shapeStatement)).all (fun l => !l.contains applyStatement) = true := by decide
        rw [hl] at this
        simpa using this
      exact hno l hl this
    · exact ih _ h
    · exact .unexpected

theorem smithyNamespace_isNamespace {ns : Str} (h : SmithyNamespace ns) : IsNamespace ns := by
  obtain ⟨parts, h1, h2, h3⟩ := h
  exact ⟨parts, h1, fun p hp => ident_isIdentifier (h2 p hp), h3⟩

theorem fromStr_absolute {ns n : Str} (h1 : SmithyNamespace ns) (h2 : SmithyIdent n) : ShapeID.fromStr (ns ++ '#' :: n) = .ok ⟨ns, n, none⟩ := by
  have := C03_parse_display ⟨ns, n, none⟩ (smithyNamespace_isNamespace h1) (ident_isIdentifier h2) (by simp)
  simpa [ShapeID.display] using this

theorem useLoop_yields {s ns : Str} (ps : List (Pair IdlRule)) (hs : ∀ p ∈ ps, Within s p) : ∀ mb, FromFile s ns mb →
    Yields (FromFile s ns) (useLoop mb ps) := by
  induction ps with
  | nil => intro mb h; exact .ok h
  | cons p ps ih =>
    intro mb h
    have ih := ih fun q hq => hs q (by simp [hq])
    unfold useLoop
    split
    · refine (next_yields (hs p (by simp)).inner).bind ?_
      rintro ⟨inner, _⟩ ⟨h1, -⟩
      dsimp only
      split
      · next hr =>
        obtain ⟨n1, n2, h2, h3, h4⟩ := sound_absolute h1.1 hr
        refine Yields.bind (P := FromFile s ns) ?_ fun mb h => ih _ h
        have h5 := h1.2
        unfold ModelBuilder.uses
        rw [h4] at h5 ⊢
        rw [fromStr_absolute h2 h3]
        exact .ok (h.insert (.inr ⟨_, ⟨h2, h3, rfl⟩, by simpa [ShapeID.display] using h5, rfl⟩))
      · exact .unexpected
    · exact .unexpected

/-- The text of a namespace statement. -/
theorem sound_namespaceStatement {p : Pair IdlRule} (h : Sound idlGrammar p) (hr : p.asRule = .namespaceStatement) : %s"namespace" <+: p.asStr := by
  obtain ⟨r, t, ps⟩ := p
  cases hr
  have ht := h.tree (by decide)
  obtain ⟨t1, t2, p1, p2, rfl, rfl, h1, h2⟩ := parts_idl ht
  obtain ⟨rfl, -⟩ := h1.str_eq
  exact List.prefix_append _ _

/-- The builder, if there is one, is from a file with a Smithy namespace, that the text has. -/
def FromSomeFile (s : Str) (mb : ModelBuilder) : Prop := ∃ ns, SmithyNamespace ns ∧ ns <:+: s ∧ %s"namespace" <:+: s ∧ FromFile s ns mb

theorem namespaceOf_yields {s : Str} {v : Version} {p : Pair IdlRule} (hs : Within s p) (hr : p.asRule = .namespaceStatement) :
    Yields (FromSomeFile s) (namespaceOf v p) := by
  refine (next_yields hs.inner).bind ?_
  rintro ⟨inner, _⟩ ⟨h1, -⟩
  dsimp only
  split
  · next hr' =>
    have hn := sound_namespace h1.1 hr'
    unfold ModelBuilder.new NamespaceID.fromStr
    split
    · exact .ok ⟨_, hn, h1.2, (sound_namespaceStatement hs.1 hr).isInfix.trans hs.2, wfBuilder_new _ _, rfl, by rintro _ _ ⟨⟩, by rintro _ _ ⟨⟩⟩
    · exact .error
  · exact .unexpected

theorem sectionLoop_yields {s : Str} {v : Version} (ps : List (Pair IdlRule)) (hs : ∀ p ∈ ps, Within s p) : ∀ mb, (∀ x, mb = some x → FromSomeFile s x) →
    Yields (fun mb => ∀ x, mb = some x → FromSomeFile s x) (sectionLoop flt v mb ps) := by
  induction ps with
  | nil => intro mb h; exact .ok h
  | cons p ps ih =>
    intro mb h
    have ih := ih fun q hq => hs q (by simp [hq])
    have hsome : Yields (FromSomeFile s) (someBuilder mb) := by
      cases mb with
      | none => exact .error
      | some mb => exact .ok (h mb rfl)
    unfold sectionLoop
    split
    · next hr => exact (namespaceOf_yields (hs p (by simp)) hr).bind fun mb h => ih _ (by rintro _ ⟨⟩; exact h)
    · refine hsome.bind ?_
      rintro mb ⟨ns, h1, h2, h3, h⟩
      exact (useLoop_yields _ (hs p (by simp)).inner mb h).bind fun mb h => ih _ (by rintro _ ⟨⟩; exact ⟨ns, h1, h2, h3, h⟩)
    · refine hsome.bind ?_
      rintro mb ⟨ns, h1, h2, h3, h⟩
      exact (statementsLoop_yields _ (hs p (by simp)).1.inner mb h).bind fun mb h => ih _ (by rintro _ ⟨⟩; exact ⟨ns, h1, h2, h3, h⟩)
    · exact .unexpected

/-- Entries with such keys and well-formed values, each key once. -/
def ReadEntries (es : AMap Str Value) : Prop := AMap.Wf es ∧ ∀ e ∈ es, MetaKey e.1 ∧ Value.Wf e.2

theorem ReadEntries.insert {es : AMap Str Value} (h : ReadEntries es) {k : Str} {v : Value} (hk : MetaKey k) (hv : v.Wf) :
    ReadEntries (AMap.insert es k v) := by
  have hw := AMap.wf_insert h.1 k v
  refine ⟨hw, fun e he => ?_⟩
  have hg := AMap.get_of_mem hw he
  rw [AMap.get_insert] at hg
  split at hg
  · next hk' => cases hg; rw [← hk']; exact ⟨hk, hv⟩
  · exact h.2 e (AMap.mem_of_get hg)

theorem entriesOf_yields (rule : IdlRule) (ps : List (Pair IdlRule)) (hs : ∀ p ∈ ps, Sound idlGrammar p) : ∀ es, ReadEntries es →
    Yields ReadEntries (entriesOf flt rule es ps) := by
  induction ps with
  | nil => intro es h; exact .ok h
  | cons p ps ih =>
    intro es h
    have ih := ih fun q hq => hs q (by simp [hq])
    unfold entriesOf
    split
    · have : Yields (fun e => MetaKey e.1 ∧ Value.Wf e.2) (kvpOf flt p) := fun a ha => ⟨kvpOf_key (hs p (by simp)) a ha, kvpOf_yields flt p a ha⟩
      refine this.bind ?_
      rintro ⟨k, v⟩ ⟨hk, hv⟩
      exact ih _ (h.insert hk hv)
    · exact .unexpected

theorem readEntries_nil : ReadEntries [] := ⟨AMap.wf_nil, by simp⟩

theorem nextInto_yields {α : Type} {P : α → Prop} {s : Str} {rule : IdlRule} {f : Pair IdlRule → Except Err α} {ps : List (Pair IdlRule)}
    (hs : ∀ p ∈ ps, Within s p) (hf : ∀ p, Within s p → Yields P (f p)) :
    Yields (fun x => P x.1 ∧ ∀ p ∈ x.2, Within s p) (nextInto rule f ps) := by
  refine (next_yields hs).bind ?_
  rintro ⟨p, rest⟩ ⟨h1, h2⟩
  dsimp only
  split
  · exact (hf p h1).bind fun a ha => .pure ⟨ha, h2⟩
  · exact .unexpected

theorem readIdl_yields {s : Str} {p : Pair IdlRule} (hs : Within s p) : Yields (fun mb => ∀ x, mb = some x → FromSomeFile s x) (readIdl flt p) := by
  unfold readIdl
  split
  · refine (nextInto_yields hs.inner fun p hp => entriesOf_yields controlStatement p.intoInner hp.1.inner [] readEntries_nil).bind ?_
    rintro ⟨control, inner⟩ ⟨h1, h2⟩
    refine Yields.any.bind fun v _ => ?_
    refine (nextInto_yields h2 fun p hp => entriesOf_yields metadataStatement p.intoInner hp.1.inner [] readEntries_nil).bind ?_
    rintro ⟨md, inner⟩ ⟨h3, h4⟩
    refine (nextInto_yields h4 fun p hp => sectionLoop_yields p.intoInner hp.inner none (by simp)).bind ?_
    rintro ⟨mb, _⟩ ⟨h5, -⟩
    refine .pure fun x hx => ?_
    cases mb with
    | none => cases hx
    | some mb =>
      cases hx
      obtain ⟨ns, h6, h7, h8, h⟩ := h5 mb rfl
      exact ⟨ns, h6, h7, h8, h.metaDataFrom md h3.2⟩
  · exact .unexpected

end IdlParser

/-- Whatever builder the reader gives is one that a file for a namespace makes. -/
theorem readBuilder_fromFile {flt : Str → Option F64} {s : Str} {mb : ModelBuilder} (h : readBuilder flt s = .ok (some mb)) :
    IdlParser.FromSomeFile s mb := by
  unfold readBuilder at h
  split at h
  · cases h
  · next ps hm =>
    obtain ⟨r, hp, hr⟩ := (matchIdl_iff _ _).mp hm
    cases r with
    | none => cases hr
    | some x =>
      obtain ⟨t, s', ps'⟩ := x
      cases hr
      have ht := hp.tree _ _ _ rfl
      have hsplit : s = t ++ s' := hp.split _ _ _ rfl
      obtain ⟨ps'', rfl, -⟩ := Tree.normal (r := IdlRule.idl) rfl ht
      have hs := ht.sound (.mk .idl t ps'') (List.mem_singleton_self _)
      exact IdlParser.readIdl_yields ⟨hs.1, hs.2.trans (by rw [hsplit]; exact (List.prefix_append _ _).isInfix)⟩ _ h mb rfl

end Verif
