/-
Faults of accepted texts: statements.
-/
import Verif.IdlFaultsParts

namespace Verif
open Peg Spec Idl Spec.Faults

namespace IdlParser
open IdlRule
variable {flt : Str → Option F64}

theorem named_ok {id : Str} (h : SmithyIdent id) (b : BuilderBody) : Builder.named id b = .ok ⟨.local' id, [], b⟩ := by
  unfold Builder.named
  rw [nameFromStr_ident h]
  rfl

/-! ### Lists, sets, maps, structures, unions -/

theorem collection_faults {p : Pair IdlRule} (hr : p.asRule = listStatement ∨ p.asRule = setStatement) (e : Err) :
    PartFault flt p e ↔ e = surprise %s"parse_list_statement" none ∧ ∀ n, memberNames p = [n] → ¬ SameName n %s"member" := by
  constructor
  · intro h
    cases h with
    | collection _ h => exact ⟨by rcases hr with hr | hr <;> rw [hr] <;> rfl, h⟩
    | name h => rcases hr with hr | hr <;> rcases h with h | h <;> rw [hr] at h <;> cases h
    | property h => rcases hr with hr | hr <;> rw [hr] at h <;> exact absurd h (by decide)
    | number h => rcases hr with hr | hr <;> rw [hr] at h <;> cases h
    | version h => rcases hr with hr | hr <;> rw [hr] at h <;> cases h
    | mapMember h => rcases hr with hr | hr <;> rw [hr] at h <;> cases h
    | mapMissing h => rcases hr with hr | hr <;> rw [hr] at h <;> cases h
    | service h => rcases hr with hr | hr <;> rw [hr] at h <;> cases h
    | apply h => rcases hr with hr | hr <;> rw [hr] at h <;> cases h
    | trait h => rcases hr with hr | hr <;> rw [hr] at h <;> cases h
  · rintro ⟨rfl, h⟩
    have := PartFault.collection (flt := flt) hr h
    rcases hr with hr | hr <;> rw [hr] at this <;> exact this

theorem listOf_judged {p : Pair IdlRule} (h : Made idlGrammar p) (hr : p.asRule = listStatement ∨ p.asRule = setStatement) (kind : MemberBuilder → BuilderBody) :
    Judged flt [p] (listOf flt kind p) := by
  obtain ⟨h1, h2⟩ := membered_judged (flt := flt) h (hr.imp id .inl)
  refine h1.up ?_
  rintro ⟨id, ms⟩ ho
  obtain ⟨h3, h4⟩ := h2 _ _ ho
  simp only [collection_faults hr, h3]
  match ms with
  | [] => exact ⟨by rintro e ⟨⟩; exact ⟨rfl, by simp⟩, by rintro b ⟨⟩⟩
  | [m] =>
    dsimp only
    by_cases hm : identEq m.name memberMember = true
    · rw [if_pos hm, named_ok h4]
      refine ⟨by rintro e ⟨⟩, fun b _ e he => ?_⟩
      exact he.2 m.name rfl (identEq_sameName.mp hm)
    · rw [if_neg hm]
      refine ⟨?_, by rintro b ⟨⟩⟩
      rintro e ⟨⟩
      refine ⟨rfl, fun n hn hs => hm ?_⟩
      cases hn
      exact identEq_sameName.mpr hs
  | m :: m' :: ms => exact ⟨by rintro e ⟨⟩; exact ⟨rfl, by simp⟩, by rintro b ⟨⟩⟩

theorem map_faults {p : Pair IdlRule} (hr : p.asRule = mapStatement) (e : Err) :
    PartFault flt p e ↔ e = surprise %s"parse_map_statement" none ∧ ((∃ n ∈ memberNames p, ¬ SameName n %s"key" ∧ ¬ SameName n %s"value") ∨
      (∀ n ∈ memberNames p, ¬ SameName n %s"key") ∨ ∀ n ∈ memberNames p, ¬ SameName n %s"value") := by
  constructor
  · intro h
    cases h with
    | mapMember _ h h1 h2 => exact ⟨by rw [hr]; rfl, .inl ⟨_, h, h1, h2⟩⟩
    | mapMissing _ hw h =>
      simp only [List.mem_cons, List.not_mem_nil, or_false] at hw
      rcases hw with rfl | rfl
      · exact ⟨by rw [hr]; rfl, .inr (.inl h)⟩
      · exact ⟨by rw [hr]; rfl, .inr (.inr h)⟩
    | collection h => rcases h with h | h <;> rw [hr] at h <;> cases h
    | name h => rcases h with h | h <;> rw [hr] at h <;> cases h
    | property h => rw [hr] at h; exact absurd h (by decide)
    | number h => rw [hr] at h; cases h
    | version h => rw [hr] at h; cases h
    | service h => rw [hr] at h; cases h
    | apply h => rw [hr] at h; cases h
    | trait h => rw [hr] at h; cases h
  · rintro ⟨rfl, h⟩
    have he : surprise %s"parse_map_statement" none = surprise (reader p.asRule) none := by rw [hr]; rfl
    rw [he]
    rcases h with ⟨n, h, h1, h2⟩ | h | h
    · exact .mapMember hr h h1 h2
    · exact .mapMissing hr (w := %s"key") (by simp) h
    · exact .mapMissing hr (w := %s"value") (by simp) h

theorem keyAndValue_said (ms : List MemberBuilder) : ∀ k v,
    (∀ e, keyAndValue k v ms = .error e → e = surprise %s"parse_map_statement" none ∧ ∃ n ∈ ms.map (·.name), ¬ SameName n %s"key" ∧ ¬ SameName n %s"value") ∧
    ∀ k' v', keyAndValue k v ms = .ok (k', v') → (∀ n ∈ ms.map (·.name), SameName n %s"key" ∨ SameName n %s"value") ∧
      (k'.isSome = true ↔ k.isSome = true ∨ ∃ n ∈ ms.map (·.name), SameName n %s"key") ∧
      (v'.isSome = true ↔ v.isSome = true ∨ ∃ n ∈ ms.map (·.name), ¬ SameName n %s"key" ∧ SameName n %s"value") := by
  induction ms with
  | nil =>
    intro k v
    refine ⟨by rintro e ⟨⟩, ?_⟩
    rintro k' v' ⟨⟩
    simp
  | cons m ms ih =>
    intro k v
    unfold keyAndValue
    by_cases hk : identEq m.name memberKey = true
    · rw [if_pos hk]
      have hk : SameName m.name %s"key" := identEq_sameName.mp hk
      obtain ⟨h1, h2⟩ := ih (some m.target.display) v
      refine ⟨fun e he => ?_, fun k' v' he => ?_⟩
      · obtain ⟨rfl, n, hn, h⟩ := h1 e he
        exact ⟨rfl, n, by simp only [List.map_cons, List.mem_cons]; exact .inr hn, h⟩
      · obtain ⟨h3, h4, h5⟩ := h2 _ _ he
        refine ⟨?_, ?_, ?_⟩
        · intro n hn
          rcases List.mem_cons.mp hn with rfl | hn
          · exact .inl hk
          · exact h3 n hn
        · simp [h4, hk]
        · rw [h5]; simp [hk]
    · rw [if_neg hk]
      have hk : ¬ SameName m.name %s"key" := fun h => hk (identEq_sameName.mpr h)
      by_cases hv : identEq m.name memberValue = true
      · rw [if_pos hv]
        have hv : SameName m.name %s"value" := identEq_sameName.mp hv
        obtain ⟨h1, h2⟩ := ih k (some m.target.display)
        refine ⟨fun e he => ?_, fun k' v' he => ?_⟩
        · obtain ⟨rfl, n, hn, h⟩ := h1 e he
          exact ⟨rfl, n, by simp only [List.map_cons, List.mem_cons]; exact .inr hn, h⟩
        · obtain ⟨h3, h4, h5⟩ := h2 _ _ he
          refine ⟨?_, ?_, ?_⟩
          · intro n hn
            rcases List.mem_cons.mp hn with rfl | hn
            · exact .inr hv
            · exact h3 n hn
          · rw [h4]; simp [hk]
          · simp [h5, hk, hv]
      · rw [if_neg hv]
        have hv : ¬ SameName m.name %s"value" := fun h => hv (identEq_sameName.mpr h)
        refine ⟨?_, by rintro _ _ ⟨⟩⟩
        rintro e ⟨⟩
        exact ⟨rfl, m.name, by simp, hk, hv⟩

theorem mapOf_judged {p : Pair IdlRule} (h : Made idlGrammar p) (hr : p.asRule = mapStatement) : Judged flt [p] (mapOf flt p) := by
  obtain ⟨h1, h2⟩ := membered_judged (flt := flt) h (.inr (.inr (.inl hr)))
  have h0 := memberedOf_yields (flt := flt) h.sound
  refine h1.up ?_
  rintro ⟨id, ms⟩ ho
  obtain ⟨h3, h4⟩ := h2 _ _ ho
  have h5 := (h0 _ ho).2
  simp only [map_faults hr, h3]
  have hd : ¬ SameName %s"value" %s"key" := by unfold SameName; decide
  obtain ⟨h6, h7⟩ := keyAndValue_said ms none none
  cases hkv : keyAndValue none none ms with
  | error e =>
    refine ⟨?_, by rintro b ⟨⟩⟩
    rintro e' ⟨⟩
    obtain ⟨rfl, h⟩ := h6 _ hkv
    exact ⟨rfl, .inl h⟩
  | ok kv =>
    obtain ⟨k, v⟩ := kv
    obtain ⟨h8, h9, h10⟩ := h7 _ _ hkv
    obtain ⟨hk, hv⟩ := keyAndValue_names ms h5 none none (by simp) (by simp) _ hkv
    have member : ∀ n t, IsIdentifier n → (∃ x, ShapeName.fromStr t = .ok x) → ∃ m, MemberBuilder.new n t = .ok m := by
      rintro n t hn ⟨x, hx⟩
      unfold MemberBuilder.new
      rcases unwrap_identifier n with ⟨-, hu⟩ | ⟨hn', -⟩
      · rw [hu, hx]; exact ⟨_, rfl⟩
      · exact absurd hn hn'
    cases k with
    | none =>
      refine ⟨?_, by cases v <;> rintro b ⟨⟩⟩
      have hno : ∀ n ∈ ms.map (·.name), ¬ SameName n %s"key" := fun n hn hs => by
        have := h9.mpr (.inr ⟨n, hn, hs⟩); cases this
      cases v <;> (rintro e ⟨⟩; exact ⟨rfl, .inr (.inl hno)⟩)
    | some k =>
      cases v with
      | none =>
        refine ⟨?_, by rintro b ⟨⟩⟩
        have hno : ∀ n ∈ ms.map (·.name), ¬ SameName n %s"value" := fun n hn hs => by
          by_cases hk : SameName n %s"key"
          · exact hd (by unfold SameName at *; rw [← hs, hk])
          · have := h10.mpr (.inr ⟨n, hn, hk, hs⟩); cases this
        rintro e ⟨⟩; exact ⟨rfl, .inr (.inr hno)⟩
      | some v =>
        obtain ⟨mk, hmk⟩ := member memberKey k ((isIdent_iff _).mp rfl) (hk k rfl)
        obtain ⟨mv, hmv⟩ := member memberValue v ((isIdent_iff _).mp rfl) (hv v rfl)
        have hok : (Verif.unwrap (ShapeName.fromStr id) >>= fun n => MemberBuilder.new memberKey k >>= fun k => MemberBuilder.new memberValue v >>= fun v =>
            (.ok ⟨n, [], .map k v⟩ : Except Err Builder)) = .ok ⟨.local' id, [], .map mk mv⟩ := by
          rw [nameFromStr_ident h4, hmk, hmv]; rfl
        refine ⟨fun e he => ?_, fun b _ e he => ?_⟩
        · have := hok.symm.trans he
          cases this
        · rcases he.2 with ⟨n, hn, h11, h12⟩ | h | h
          · rcases h8 n hn with h | h
            · exact h11 h
            · exact h12 h
          · rcases h9.mp rfl with h' | ⟨n, hn, hs⟩
            · cases h'
            · exact h n hn hs
          · rcases h10.mp rfl with h' | ⟨n, hn, -, hs⟩
            · cases h'
            · exact h n hn hs

theorem structureOf_judged {p : Pair IdlRule} (h : Made idlGrammar p) (hr : p.asRule = structureStatement ∨ p.asRule = unionStatement)
    (kind : List MemberBuilder → BuilderBody) : Judged flt [p] (structureOf flt kind p) := by
  obtain ⟨h1, h2⟩ := membered_judged (flt := flt) h (.inr (.inr (.inr hr)))
  refine Judged.inner (h1.bind_ok ?_) (by rcases hr with hr | hr <;> (rw [hr]; decide))
  rintro ⟨id, ms⟩ ho
  exact ⟨_, named_ok (h2 _ _ ho).2 _⟩

theorem simpleOf_some (r : IdlRule) (h : r ∈ [typeBlob, typeBoolean, typeDocument, typeString, typeByte, typeShort, typeInteger, typeLong, typeFloat, typeDouble,
    typeBigInteger, typeBigDecimal, typeTimestamp]) : r ≠ identifier ∧ ∃ s, simpleOf r = some s := by
  simp only [List.mem_cons, List.not_mem_nil, or_false] at h
  rcases h with rfl | rfl | rfl | rfl | rfl | rfl | rfl | rfl | rfl | rfl | rfl | rfl | rfl <;> exact ⟨by decide, _, rfl⟩

theorem simple_judged {p : Pair IdlRule} (h : Made idlGrammar p) (hr : p.asRule = simpleShapeStatement) : Judged flt [p] (simpleLoop none none p.intoInner) := by
  obtain ⟨t, i, he, ht, hi⟩ := (made_exactly h hr rfl).two
  have hi : i.asRule = identifier := by simpa using hi
  obtain ⟨hne, s, hs⟩ := simpleOf_some t.asRule (by simpa using ht)
  have : simpleLoop none none p.intoInner = .ok ⟨.local' i.asStr, [], .simple s⟩ := by
    rw [he]
    unfold simpleLoop
    rw [if_neg hne, hs]
    dsimp only
    unfold simpleLoop
    rw [if_pos hi]
    exact named_ok (sound_identifier (h.inner i (by simp [he])).sound hi) _
  rw [this]
  exact .ok fun q hq => by
    rw [List.mem_singleton] at hq
    subst hq
    exact Clean.quiet h (by rw [hr]; rfl)

end IdlParser
end Verif
