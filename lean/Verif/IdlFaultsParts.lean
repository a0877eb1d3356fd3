/-
Faults of accepted texts: traits, members and statements.
-/
import Verif.IdlFaultsValues

namespace Verif
open Peg Spec Idl Spec.Faults

theorem isName_iff (t : Str) : IsName t ↔ ∃ n, ShapeName.fromStr t = .ok n := by
  obtain ⟨-, h2, h3, h4⟩ := C24_name_syntax t
  constructor
  · rintro (h | ⟨id, hv, rfl⟩)
    · exact ⟨.local' t, (h3 t).mpr ⟨rfl, h⟩⟩
    · exact ⟨.qualified id, (h2 id).mpr (ShapeID.fromStr_display hv)⟩
  · rintro ⟨n, h⟩
    cases n with
    | qualified id =>
      obtain ⟨h5, h6⟩ := ShapeID.of_fromStr ((h2 id).mp h)
      exact .inr ⟨id, h5, h6⟩
    | local' l => exact .inl ((h3 l).mp h).2

theorem unwrap_name (t : Str) : (IsName t ∧ ∃ n, Verif.unwrap (ShapeName.fromStr t) = .ok n) ∨ (¬ IsName t ∧ Verif.unwrap (ShapeName.fromStr t) = .error .panic) := by
  rw [isName_iff]
  cases h : ShapeName.fromStr t with
  | ok n => exact .inl ⟨⟨n, rfl⟩, n, rfl⟩
  | error e => exact .inr ⟨(by rintro ⟨n, h⟩; cases h), rfl⟩

theorem unwrap_identifier (t : Str) : (IsIdentifier t ∧ Verif.unwrap (Identifier.fromStr t) = .ok t) ∨ (¬ IsIdentifier t ∧ Verif.unwrap (Identifier.fromStr t) = .error .panic) := by
  rw [← isIdent_iff]
  unfold Identifier.fromStr
  by_cases h : isIdent t = true
  · rw [if_pos h]; exact .inl ⟨h, rfl⟩
  · rw [if_neg h]; exact .inr ⟨h, rfl⟩

/-- One pair of a kind. -/
theorem parts_single {r : IdlRule} {p : Pair IdlRule} (h : (p.intoInner.filter fun q => decide (q.asRule = r)).length = 1) : ∃ x, parts r p = [x] ∧ x ∈ p.intoInner ∧ x.asRule = r := by
  obtain ⟨x, hx⟩ := List.length_eq_one_iff.mp h
  have hm : x ∈ parts r p := by unfold parts; rw [hx]; simp
  exact ⟨x, hx, (mem_parts.mp hm).1, (mem_parts.mp hm).2⟩

namespace IdlParser
open IdlRule
variable {flt : Str → Option F64}

/-! ### Traits -/

theorem structureKvp_judged {p : Pair IdlRule} (h : Made idlGrammar p) (hr : p.asRule = traitStructureKvp) : Judged flt [p] (structureKvp flt none none p.intoInner) := by
  refine Judged.inner ?_ (by rw [hr]; decide)
  obtain ⟨k, v, hx, hk, hv, hkr, hvr⟩ := keyed_inner h (.inr (.inr (.inr hr)))
  rw [hx]
  refine .skip (key_clean hk hkr) ?_
  have hv1 := nodeValueOf_judged flt v hv hvr
  have last : ∀ id : Str, Judged flt [v] (structureKvp flt (some id) none [v]) := by
    intro id
    unfold structureKvp
    simp only [hvr]
    exact hv1.bind_ok fun x _ => ⟨_, rfl⟩
  rcases hkr with hkr | hkr
  · obtain ⟨x, hxx, hx'⟩ := (made_exactly hk hkr rfl).one
    unfold structureKvp
    simp only [hkr, hxx]
    have : quotedKey none [x] = .ok (some x.asStr) := by
      unfold quotedKey
      rw [if_pos (by simpa using hx')]; rfl
    rw [this]
    exact last x.asStr
  · unfold structureKvp
    simp only [hkr]
    exact last k.asStr

/-- The loop over the parts of a trait. -/
theorem traitParts_judged (ps : List (Pair IdlRule)) (h : ∀ p ∈ ps, Made idlGrammar p) (hr : ∀ p ∈ ps, p.asRule = shapeId ∨ p.asRule = nodeValue ∨ p.asRule = traitStructureKvp) :
    ∀ id v m, Judged flt ps (traitParts flt id v m ps) ∧ ∀ id' v' m', traitParts flt id v m ps = .ok (id', v', m') →
      (v'.isSome = true ↔ v.isSome = true ∨ ∃ p ∈ ps, p.asRule = nodeValue) ∧ (m' ≠ [] ↔ m ≠ [] ∨ ∃ p ∈ ps, p.asRule = traitStructureKvp) ∧
      (id' = ((ps.filter fun p => decide (p.asRule = shapeId)).getLast?.map (·.asStr)).or id) := by
  induction ps with
  | nil =>
    intro id v m
    unfold traitParts
    refine ⟨.nil, ?_⟩
    rintro _ _ _ ⟨⟩
    simp
  | cons p ps ih =>
    intro id v m
    have ih := ih (fun q hq => h q (by simp [hq])) (fun q hq => hr q (by simp [hq]))
    have hp := h p (by simp)
    unfold traitParts
    rcases hr p (by simp) with hr | hr | hr
    · simp only [hr]
      refine ⟨.skip (Clean.quiet hp (by rw [hr]; rfl)) (ih _ _ _).1, fun id' v' m' he => ?_⟩
      obtain ⟨h1, h2, h3⟩ := (ih _ _ _).2 _ _ _ he
      refine ⟨by rw [h1]; simp [hr], by rw [h2]; simp [hr], ?_⟩
      rw [h3]
      simp only [hr, decide_true, List.filter_cons_of_pos, List.getLast?_cons]
      cases (ps.filter fun p => decide (p.asRule = shapeId)).getLast? <;> rfl
    · simp only [hr]
      refine ⟨(nodeValueOf_judged flt p hp hr).cons fun _ _ => (ih _ _ _).1, fun id' v' m' he => ?_⟩
      obtain ⟨x, -, he⟩ := ok_of_bind he
      obtain ⟨h1, h2, h3⟩ := (ih _ _ _).2 _ _ _ he
      exact ⟨by rw [h1]; simp [hr], by rw [h2]; simp [hr], by rw [h3]; simp [hr]⟩
    · simp only [hr]
      refine ⟨(structureKvp_judged hp hr).cons fun _ _ => (ih _ _ _).1, fun id' v' m' he => ?_⟩
      obtain ⟨⟨k, x⟩, -, he⟩ := ok_of_bind he
      obtain ⟨h1, h2, h3⟩ := (ih _ _ _).2 _ _ _ he
      have hne : AMap.insert m k x ≠ [] := by
        intro h0
        have := AMap.get_insert_self m k x
        rw [h0] at this
        cases this
      exact ⟨by rw [h1]; simp [hr], by rw [h2]; simp [hr, hne], by rw [h3]; simp [hr]⟩

theorem trait_faults {p : Pair IdlRule} (hr : p.asRule = aTrait) {x : Pair IdlRule} (hx : parts shapeId p = [x]) (e : Err) :
    PartFault flt p e ↔ (e = surprise %s"parse_a_trait" none ∧ (∃ v ∈ p.intoInner, v.asRule = nodeValue) ∧ ∃ m ∈ p.intoInner, m.asRule = traitStructureKvp) ∨ (e = .panic ∧ ¬ IsName x.asStr) := by
  constructor
  · intro h
    cases h with
    | trait _ hv hm => exact .inl ⟨by rw [hr]; rfl, ⟨_, mem_parts.mp hv⟩, _, mem_parts.mp hm⟩
    | name _ hx' hn =>
      rw [hx, List.mem_singleton] at hx'
      subst hx'
      exact .inr ⟨rfl, hn⟩
    | collection h => rcases h with h | h <;> rw [hr] at h <;> cases h
    | property h => rw [hr] at h; exact absurd h (by decide)
    | number h => rw [hr] at h; cases h
    | version h => rw [hr] at h; cases h
    | mapMember h => rw [hr] at h; cases h
    | mapMissing h => rw [hr] at h; cases h
    | service h => rw [hr] at h; cases h
    | apply h => rw [hr] at h; cases h
  · rintro (⟨rfl, ⟨v, h1, h2⟩, m, h3, h4⟩ | ⟨rfl, hn⟩)
    · have := PartFault.trait (flt := flt) hr (mem_parts.mpr ⟨h1, h2⟩) (mem_parts.mpr ⟨h3, h4⟩)
      rw [hr] at this
      exact this
    · exact .name (.inl hr) (x := x) (by rw [hx]; simp) hn

theorem traitOf_judged {p : Pair IdlRule} (h : Made idlGrammar p) (hr : p.asRule = aTrait) : Judged flt [p] (traitOf flt p) := by
  have hall : ∀ q ∈ p.intoInner, q.asRule = shapeId ∨ q.asRule = nodeValue ∨ q.asRule = traitStructureKvp := by
    intro q hq
    have := made_emits h hr rfl q hq
    simp at this
    rcases this with h | h | h
    · exact .inl h
    · exact .inr (.inr h)
    · exact .inr (.inl h)
  obtain ⟨x, hx, -, -⟩ := parts_single (r := shapeId) (made_counts h hr (S := fun r => decide (r = shapeId)) rfl)
  obtain ⟨h1, h2⟩ := traitParts_judged (flt := flt) p.intoInner h.inner hall none none []
  refine h1.up ?_
  rintro ⟨id, v, m⟩ ho
  obtain ⟨h3, h4, h5⟩ := h2 _ _ _ ho
  have hid : id = some x.asStr := by
    rw [h5]
    change ((parts shapeId p).getLast?.map (·.asStr)).or none = _
    rw [hx]; rfl
  subst hid
  simp only [trait_faults hr hx]
  simp only [Option.isSome_none, Bool.false_eq_true, false_or, ne_eq, not_true_eq_false] at h3 h4
  rw [← h3, ← h4]
  have withValue : ∀ v : Value, (∀ e, TraitBuilder.withValue x.asStr v = .error e → e = .panic ∧ ¬ IsName x.asStr) ∧ ∀ b, TraitBuilder.withValue x.asStr v = .ok b → IsName x.asStr := by
    intro v
    unfold TraitBuilder.withValue
    rcases unwrap_name x.asStr with ⟨hn, n, hu⟩ | ⟨hn, hu⟩
    · rw [hu]; exact ⟨by rintro e ⟨⟩, fun _ _ => hn⟩
    · rw [hu]; exact ⟨by rintro e ⟨⟩; exact ⟨rfl, hn⟩, by rintro b ⟨⟩⟩
  cases v with
  | none =>
    dsimp only
    refine ⟨fun e he => .inr ((withValue _).1 e he), fun b hb e he => ?_⟩
    rcases he with ⟨-, h, -⟩ | ⟨-, hn⟩
    · cases h
    · exact hn ((withValue _).2 b hb)
  | some v =>
    cases m with
    | nil =>
      dsimp only
      refine ⟨fun e he => .inr ((withValue _).1 e he), fun b hb e he => ?_⟩
      rcases he with ⟨-, -, h⟩ | ⟨-, hn⟩
      · exact h rfl
      · exact hn ((withValue _).2 b hb)
    | cons y m =>
      dsimp only
      exact ⟨by rintro e ⟨⟩; exact .inl ⟨rfl, rfl, by simp⟩, by rintro b ⟨⟩⟩

theorem each_judged {α : Type} {rule : IdlRule} {f : Pair IdlRule → Except Err α} {ps : List (Pair IdlRule)} (hr : ∀ p ∈ ps, p.asRule = rule)
    (h : ∀ p ∈ ps, Judged flt [p] (f p)) : Judged flt ps (SelParser.each rule f ps) := by
  induction ps with
  | nil => exact .nil
  | cons p ps ih =>
    unfold SelParser.each
    rw [if_pos (hr p (by simp))]
    exact (h p (by simp)).cons fun a _ => (ih (fun q hq => hr q (by simp [hq])) fun q hq => h q (by simp [hq])).bind_ok fun l _ => ⟨_, rfl⟩

theorem traitsOf_judged {p : Pair IdlRule} (h : Made idlGrammar p) (hr : p.asRule = traitStatements) : Judged flt [p] (traitsOf flt p) := by
  refine Judged.inner ?_ (by rw [hr]; decide)
  have hall : ∀ q ∈ p.intoInner, q.asRule = aTrait := fun q hq => by simpa using made_emits h hr rfl q hq
  exact each_judged hall fun q hq => traitOf_judged (h.inner q hq) (hall q hq)

/-! ### Members -/

theorem member_faults {p : Pair IdlRule} (hr : p.asRule = shapeMemberKvp) {x : Pair IdlRule} (hx : parts shapeId p = [x]) (e : Err) :
    PartFault flt p e ↔ e = .panic ∧ ¬ IsName x.asStr := by
  constructor
  · intro h
    cases h with
    | name _ hx' hn =>
      rw [hx, List.mem_singleton] at hx'
      subst hx'
      exact ⟨rfl, hn⟩
    | collection h => rcases h with h | h <;> rw [hr] at h <;> cases h
    | property h => rw [hr] at h; exact absurd h (by decide)
    | number h => rw [hr] at h; cases h
    | version h => rw [hr] at h; cases h
    | mapMember h => rw [hr] at h; cases h
    | mapMissing h => rw [hr] at h; cases h
    | service h => rw [hr] at h; cases h
    | apply h => rw [hr] at h; cases h
    | trait h => rw [hr] at h; cases h
  · rintro ⟨rfl, hn⟩
    exact .name (.inr hr) (x := x) (by rw [hx]; simp) hn

/-- What remains to be done when all parts of a member are seen. -/
def memberDone (docs : List Str) (traits : List TraitBuilder) (id target : Option Str) : Except Err MemberBuilder :=
  match id, target with
  | some id, some target => do
    let m ← MemberBuilder.new id target
    return { m with traits := m.traits ++ appliedTraits docs traits }
  | _, _ => SelParser.unexpected

/-- The loop over the parts of a member, without the end. -/
theorem memberLoop_judged (ps : List (Pair IdlRule)) (h : ∀ p ∈ ps, Made idlGrammar p)
    (hr : ∀ p ∈ ps, p.asRule = documentationText ∨ p.asRule = traitStatements ∨ p.asRule = identifier ∨ p.asRule = shapeId) : ∀ docs ts id t,
    ∃ x : Except Err (List Str × List TraitBuilder), Judged flt ps x ∧ memberLoop flt docs ts id t ps = x >>= fun y =>
      memberDone y.1 y.2 (((ps.filter fun p => decide (p.asRule = identifier)).getLast?.map (·.asStr)).or id)
        (((ps.filter fun p => decide (p.asRule = shapeId)).getLast?.map (·.asStr)).or t) := by
  induction ps with
  | nil =>
    intro docs ts id t
    refine ⟨.ok (docs, ts), .nil, ?_⟩
    cases id <;> cases t <;> rfl
  | cons p ps ih =>
    intro docs ts id t
    have ih := ih (fun q hq => h q (by simp [hq])) (fun q hq => hr q (by simp [hq]))
    have hp := h p (by simp)
    unfold memberLoop
    rcases hr p (by simp) with hr | hr | hr | hr
    · simp only [hr]
      obtain ⟨x, hx, he⟩ := ih (docs ++ [trimStart p.asStr]) ts id t
      exact ⟨x, .skip (Clean.quiet hp (by rw [hr]; rfl)) hx, by rw [he]; simp [hr]⟩
    · simp only [hr]
      cases ht : traitsOf flt p with
      | error e =>
        refine ⟨.error e, ((traitsOf_judged (flt := flt) hp hr).error ht).front (by rintro _ ⟨⟩), rfl⟩
      | ok ts' =>
        obtain ⟨x, hx, he⟩ := ih docs ts' id t
        refine ⟨x, .skip ((traitsOf_judged (flt := flt) hp hr).2 _ ht p (by simp)) hx, ?_⟩
        change memberLoop flt docs ts' id t ps = _
        rw [he]; simp [hr]
    · simp only [hr]
      obtain ⟨x, hx, he⟩ := ih docs ts (some p.asStr) t
      refine ⟨x, .skip (Clean.quiet hp (by rw [hr]; rfl)) hx, ?_⟩
      rw [he]
      simp only [hr, decide_true, List.filter_cons_of_pos, List.getLast?_cons]
      cases (ps.filter fun p => decide (p.asRule = identifier)).getLast? <;> simp [hr]
    · simp only [hr]
      obtain ⟨x, hx, he⟩ := ih docs ts id (some p.asStr)
      refine ⟨x, .skip (Clean.quiet hp (by rw [hr]; rfl)) hx, ?_⟩
      rw [he]
      simp only [hr, decide_true, List.filter_cons_of_pos, List.getLast?_cons]
      cases (ps.filter fun p => decide (p.asRule = shapeId)).getLast? <;> simp [hr]

theorem member_judged {p : Pair IdlRule} (h : Made idlGrammar p) (hr : p.asRule = shapeMemberKvp) : Judged flt [p] (memberLoop flt [] [] none none p.intoInner) ∧
    ∀ m, memberLoop flt [] [] none none p.intoInner = .ok m → (parts identifier p).map (·.asStr) = [m.name] := by
  have hall : ∀ q ∈ p.intoInner, q.asRule = documentationText ∨ q.asRule = traitStatements ∨ q.asRule = identifier ∨ q.asRule = shapeId := by
    intro q hq
    have := made_emits h hr rfl q hq
    simpa using this
  obtain ⟨x, hx, -, -⟩ := parts_single (r := shapeId) (made_counts h hr (S := fun r => decide (r = shapeId)) rfl)
  obtain ⟨i, hi, him, hir⟩ := parts_single (r := identifier) (made_counts h hr (S := fun r => decide (r = identifier)) rfl)
  obtain ⟨y, hy, he⟩ := memberLoop_judged (flt := flt) p.intoInner h.inner hall [] [] none none
  have hid := ident_isIdentifier (sound_identifier (h.inner i him).sound hir)
  have e1 : (((p.intoInner.filter fun p => decide (p.asRule = identifier)).getLast?.map (·.asStr)).or none) = some i.asStr := by
    change ((parts identifier p).getLast?.map (·.asStr)).or none = _
    rw [hi]; rfl
  have e2 : (((p.intoInner.filter fun p => decide (p.asRule = shapeId)).getLast?.map (·.asStr)).or none) = some x.asStr := by
    change ((parts shapeId p).getLast?.map (·.asStr)).or none = _
    rw [hx]; rfl
  rw [e1, e2] at he
  have done : ∀ a b, (IsName x.asStr ∧ ∃ m : MemberBuilder, memberDone a b (some i.asStr) (some x.asStr) = .ok m ∧ m.name = i.asStr) ∨
      (¬ IsName x.asStr ∧ memberDone a b (some i.asStr) (some x.asStr) = .error .panic) := by
    intro a b
    unfold memberDone MemberBuilder.new
    rcases unwrap_identifier i.asStr with ⟨-, hu⟩ | ⟨hn, -⟩
    · rcases unwrap_name x.asStr with ⟨hn, n, hu'⟩ | ⟨hn, hu'⟩
      · refine .inl ⟨hn, ?_⟩
        dsimp only
        rw [hu, hu']
        exact ⟨_, rfl, rfl⟩
      · refine .inr ⟨hn, ?_⟩
        dsimp only
        rw [hu, hu']
        rfl
    · exact absurd hid hn
  rw [he]
  constructor
  · refine hy.up ?_
    rintro ⟨a, b⟩ -
    simp only [member_faults hr hx]
    rcases done a b with ⟨hn, m, hd, -⟩ | ⟨hn, hd⟩
    · rw [hd]; exact ⟨by rintro e ⟨⟩, fun _ _ e h => h.2 hn⟩
    · rw [hd]; exact ⟨by rintro e ⟨⟩; exact ⟨rfl, hn⟩, by rintro b ⟨⟩⟩
  · intro m hm
    obtain ⟨⟨a, b⟩, -, hm⟩ := ok_of_bind hm
    rcases done a b with ⟨hn, m', hd, hn'⟩ | ⟨hn, hd⟩
    · dsimp only at hm
      rw [hd] at hm
      cases hm
      rw [hi, hn']; rfl
    · dsimp only at hm
      rw [hd] at hm; cases hm

theorem members_judged {p : Pair IdlRule} (h : Made idlGrammar p) (hr : p.asRule = shapeMembers) : Judged flt [p] (membersOf flt p) ∧
    ∀ ms, membersOf flt p = .ok ms → ((parts shapeMemberKvp p).flatMap fun m => (parts identifier m).map (·.asStr)) = ms.map (·.name) := by
  have hall : ∀ q ∈ p.intoInner, q.asRule = shapeMemberKvp := fun q hq => by simpa using made_emits h hr rfl q hq
  refine ⟨Judged.inner (each_judged hall fun q hq => (member_judged (h.inner q hq) (hall q hq)).1) (by rw [hr]; decide), fun ms hm => ?_⟩
  rw [parts_all hall]
  have hin := h.inner
  unfold membersOf at hm
  generalize p.intoInner = ps at hall hm hin ⊢
  clear h hr
  revert ms
  induction ps with
  | nil => intro ms hm; cases hm; rfl
  | cons q ps ih =>
    intro ms hm
    unfold SelParser.each at hm
    rw [if_pos (hall q (by simp))] at hm
    obtain ⟨a, ha, hm⟩ := ok_of_bind hm
    obtain ⟨as, has, hm⟩ := ok_of_bind hm
    cases hm
    rw [List.flatMap_cons, (member_judged (hin q (by simp)) (hall q (by simp))).2 a ha]
    simp [ih (fun q hq => hall q (by simp [hq])) (fun q hq => hin q (by simp [hq])) as has]

theorem membered_judged {p : Pair IdlRule} (h : Made idlGrammar p) (hr : Membered p.asRule) : Judged flt p.intoInner (memberedOf flt p) ∧
    ∀ id ms, memberedOf flt p = .ok (id, ms) → memberNames p = ms.map (·.name) ∧ SmithyIdent id := by
  have : ∃ i b, p.intoInner = [i, b] ∧ i.asRule ∈ [identifier] ∧ b.asRule ∈ [shapeMembers] := by
    rcases hr with hr | hr | hr | hr | hr
    · exact (made_exactly h hr rfl).two
    · exact (made_exactly h hr rfl).two
    · exact (made_exactly h hr rfl).two
    · exact (made_exactly h hr rfl).two
    · exact (made_exactly h hr rfl).two
  obtain ⟨i, b, he, hi, hb⟩ := this
  have hi : i.asRule = identifier := by simpa using hi
  have hb : b.asRule = shapeMembers := by simpa using hb
  have mi := h.inner i (by simp [he])
  have mb := h.inner b (by simp [he])
  have hm : memberedOf flt p = membersOf flt b >>= fun ms => (Except.ok (i.asStr, ms) : Except Err (Str × List MemberBuilder)) := by
    obtain ⟨ri, ti, pi⟩ := i
    obtain ⟨rb, tb, pb⟩ := b
    cases hi
    cases hb
    unfold memberedOf
    rw [he]
    rfl
  obtain ⟨h1, h2⟩ := members_judged (flt := flt) mb hb
  refine ⟨?_, fun id ms hok => ?_⟩
  · rw [hm, he]
    exact .skip (Clean.quiet mi (by rw [hi]; rfl)) (h1.bind_ok fun a _ => ⟨(i.asStr, a), rfl⟩)
  · rw [hm] at hok
    obtain ⟨ms', hms, hok⟩ := ok_of_bind hok
    cases hok
    refine ⟨?_, sound_identifier mi.sound hi⟩
    have : parts shapeMembers p = [b] := by unfold parts; rw [he]; simp [hi, hb]
    unfold memberNames
    rw [this]
    simpa using h2 _ hms

end IdlParser
end Verif
