/-
Faults of accepted texts: services, operations and resources.
-/
import Verif.IdlFaultsStatements

namespace Verif
open Peg Spec Idl Spec.Faults

/-- The value is a text that is a name. -/
def NameV (v : Value) : Prop := ∃ t, v = .string t ∧ IsName t

/-- `PropertyFault`, for the values that are read. -/
inductive ValueFault (rule : IdlRule) (k : Str) (v : Value) : Err → Prop
  | unknown : k ∉ arrays rule ++ singles rule ++ others rule → ValueFault rule k v (surprise (reader rule) (some k))
  | array : k ∈ arrays rule → (∀ vs, v ≠ .array vs) → ValueFault rule k v (surprise (reader rule) none)
  | element {vs x} : k ∈ arrays rule → v = .array vs → x ∈ vs → ¬ NameV x → ValueFault rule k v .panic
  | single : k ∈ singles rule → ¬ NameV v → ValueFault rule k v .panic
  | identifiers : rule = .resourceStatement → k = %s"identifiers" → (∀ o, v ≠ .object o) → ValueFault rule k v (surprise (reader rule) none)
  | identifier {o i x} : rule = .resourceStatement → k = %s"identifiers" → v = .object o → (i, x) ∈ o → ¬ (IsIdentifier i ∧ NameV x) →
      ValueFault rule k v .panic

theorem Reads.names {flt : Str → Option F64} {p : Pair IdlRule} {v : Value} (h : Reads flt p v) : Faults.Names p ↔ NameV v := by
  unfold Faults.Names NameV
  cases h.kinds with
  | text h1 => simp [h1]
  | array h1 => simp [h1]
  | object h1 => simp [h1]
  | other h1 _ _ h2 => simp [h1, h2]

theorem forall₂_mem {α β : Type} {R : α → β → Prop} {as : List α} {bs : List β} (h : List.Forall₂ R as bs) :
    (∀ a ∈ as, ∃ b ∈ bs, R a b) ∧ ∀ b ∈ bs, ∃ a ∈ as, R a b := by
  induction h with
  | nil => simp
  | cons h _ ih =>
    refine ⟨fun a ha => ?_, fun b hb => ?_⟩
    · rcases List.mem_cons.mp ha with rfl | ha
      · exact ⟨_, by simp, h⟩
      · obtain ⟨b, hb, hr⟩ := ih.1 a ha
        exact ⟨b, by simp [hb], hr⟩
    · rcases List.mem_cons.mp hb with rfl | hb
      · exact ⟨_, by simp, h⟩
      · obtain ⟨a, ha, hr⟩ := ih.2 b hb
        exact ⟨a, by simp [ha], hr⟩

theorem Reads.faults {flt : Str → Option F64} {p : Pair IdlRule} {v : Value} (hd : Reads flt p v) (rule : IdlRule) (k : Str) (e : Err) :
    PropertyFault rule k p e ↔ ValueFault rule k v e := by
  have hn := hd.names
  have hk := hd.kinds
  clear hd
  constructor
  · intro hf
    cases hf with
    | unknown h1 => exact .unknown h1
    | array h1 h2 =>
      refine .array h1 fun vs hv => ?_
      subst hv
      cases hk with
      | array _ ha => exact h2 _ ha
      | other _ _ _ _ h => exact h _ rfl
    | element h1 h2 h3 h4 =>
      cases hk with
      | array _ ha hu _ hr =>
        rcases hu _ h2 with rfl
        obtain ⟨x, hx, hrx⟩ := (forall₂_mem hr).1 _ h3
        exact .element h1 rfl hx (mt hrx.names.mpr h4)
      | text _ h => exact absurd h2 (h _)
      | object _ h => exact absurd h2 (h _)
      | other _ h => exact absurd h2 (h _)
    | single h1 h2 => exact .single h1 (mt hn.mpr h2)
    | identifiers h1 h2 h3 =>
      refine .identifiers h1 h2 fun o ho => ?_
      subst ho
      cases hk with
      | object _ _ ha => exact h3 _ ha
      | other _ _ _ _ _ h => exact h _ rfl
    | identifier h1 h2 h3 h4 h5 =>
      cases hk with
      | object _ _ ha hu hr =>
        rcases hu _ h3 with rfl
        obtain ⟨x, hx, hrx⟩ := (last_reads hr _).1 _ h4
        exact .identifier h1 h2 rfl (AMap.mem_of_get hx) fun h => h5 ⟨h.1, hrx.names.mpr h.2⟩
      | text _ _ h => exact absurd h3 (h _)
      | array _ _ _ h => exact absurd h3 (h _)
      | other _ _ h => exact absurd h3 (h _)
  · intro hf
    cases hf with
    | unknown h1 => exact .unknown h1
    | array h1 h2 =>
      refine .array h1 fun ws hw => ?_
      cases hk with
      | array => exact h2 _ rfl
      | text _ h => exact h _ hw
      | object _ h => exact h _ hw
      | other _ h => exact h _ hw
    | element h1 h2 h3 h4 =>
      subst h2
      cases hk with
      | array _ ha hu _ hr =>
        obtain ⟨x, hx, hrx⟩ := (forall₂_mem hr).2 _ h3
        exact .element h1 ha hx (mt hrx.names.mp h4)
      | other _ _ _ _ h => exact absurd rfl (h _)
    | single h1 h2 => exact .single h1 (mt hn.mp h2)
    | identifiers h1 h2 h3 =>
      refine .identifiers h1 h2 fun es he => ?_
      cases hk with
      | object => exact h3 _ rfl
      | text _ _ h => exact h _ he
      | array _ _ _ h => exact h _ he
      | other _ _ h => exact h _ he
    | identifier h1 h2 h3 h4 h5 =>
      subst h3
      generalize ho : Value.object _ = w at hk
      cases hk with
      | object _ _ ha hu hr =>
        cases ho
        obtain ⟨x, hx, hrx⟩ := (last_reads hr _).2 _ (AMap.get_of_mem (AMap.wf_ofList _) h4)
        exact .identifier h1 h2 ha hx fun h => h5 ⟨h.1, hrx.names.mp h.2⟩
      | text => cases ho
      | array => cases ho
      | other _ _ _ _ _ h => exact absurd ho.symm (h _)

/-- An error is for a fault of one of the entries; without an error there is no fault. -/
def Weighed {α : Type} (rule : IdlRule) (es : List (Str × Value)) (x : Except Err α) : Prop :=
  (∀ e, x = .error e → ∃ en ∈ es, ValueFault rule en.1 en.2 e) ∧ ∀ a, x = .ok a → ∀ en ∈ es, ∀ e, ¬ ValueFault rule en.1 en.2 e

namespace Weighed
variable {α β : Type} {rule : IdlRule} {es : List (Str × Value)} {en : Str × Value}

theorem nil {a : α} : Weighed rule [] (.ok a) := ⟨by rintro e ⟨⟩, by rintro a - en ⟨⟩⟩

theorem cons {x : Except Err α} {f : α → Except Err β} (h : Weighed rule [en] x) (hf : ∀ a, Weighed rule es (f a)) : Weighed rule (en :: es) (x >>= f) := by
  cases x with
  | error e =>
    refine ⟨fun e' he => ?_, by rintro a ⟨⟩⟩
    cases he
    obtain ⟨y, hy, h⟩ := h.1 e rfl
    exact ⟨y, by simp at hy; simp [hy], h⟩
  | ok a =>
    refine ⟨fun e he => ?_, fun b hb y hy => ?_⟩
    · obtain ⟨y, hy, h⟩ := (hf a).1 e he
      exact ⟨y, by simp [hy], h⟩
    · rcases List.mem_cons.mp hy with rfl | hy
      · exact h.2 a rfl _ (by simp)
      · exact (hf a).2 b hb y hy

theorem skip {x : Except Err α} (h : ∀ e, ¬ ValueFault rule en.1 en.2 e) (hx : Weighed rule es x) : Weighed rule (en :: es) x := by
  refine ⟨fun e he => ?_, fun b hb y hy => ?_⟩
  · obtain ⟨y, hy, h⟩ := hx.1 e he
    exact ⟨y, by simp [hy], h⟩
  · rcases List.mem_cons.mp hy with rfl | hy
    · exact h
    · exact hx.2 b hb y hy

theorem unknown {k : Str} {v : Value} (h : k ∉ arrays rule ++ singles rule ++ others rule) : Weighed rule ((k, v) :: es) (SelParser.astray (reader rule) (some k) : Except Err α) :=
  ⟨by rintro e ⟨⟩; exact ⟨(k, v), by simp, .unknown h⟩, by rintro a ⟨⟩⟩

end Weighed

namespace IdlParser
open IdlRule
variable {flt : Str → Option F64}

theorem nameOf_said (v : Value) : (NameV v ∧ ∃ n, nameOf v = .ok n) ∨ (¬ NameV v ∧ nameOf v = .error .panic) := by
  cases v with
  | string t =>
    rcases unwrap_name t with ⟨h, n, hu⟩ | ⟨h, hu⟩
    · exact .inl ⟨⟨t, rfl, h⟩, n, hu⟩
    · exact .inr ⟨(by rintro ⟨u, ⟨⟩, hn⟩; exact h hn), hu⟩
  | _ => exact .inr ⟨(by rintro ⟨u, ⟨⟩, hn⟩), rfl⟩

theorem namesIn_said (vs : List Value) : ((∀ v ∈ vs, NameV v) ∧ ∃ ns, namesIn vs = .ok ns) ∨ ((∃ v ∈ vs, ¬ NameV v) ∧ namesIn vs = .error .panic) := by
  induction vs with
  | nil => exact .inl ⟨by simp, _, rfl⟩
  | cons v vs ih =>
    unfold namesIn
    rcases nameOf_said v with ⟨h, n, hn⟩ | ⟨h, hn⟩
    · rw [hn]
      rcases ih with ⟨h', ns, hs⟩ | ⟨⟨w, hw, h'⟩, hs⟩
      · rw [hs]
        exact .inl ⟨by simpa [h] using h', _, rfl⟩
      · rw [hs]
        exact .inr ⟨⟨w, by simp [hw], h'⟩, rfl⟩
    · rw [hn]
      exact .inr ⟨⟨v, by simp, h⟩, rfl⟩

theorem array_weighed {rule : IdlRule} {k : Str} (v : Value) (hk : k ∈ arrays rule) (hs : k ∉ singles rule) (hi : k ≠ %s"identifiers") :
    Weighed rule [(k, v)] (namesOf (reader rule) v) := by
  have hu : ¬ k ∉ arrays rule ++ singles rule ++ others rule := by simp [hk]
  cases v with
  | array vs =>
    change Weighed rule [(k, .array vs)] (namesIn vs)
    rcases namesIn_said vs with ⟨h, ns, hn⟩ | ⟨⟨w, hw, h⟩, hn⟩
    · rw [hn]
      refine ⟨by rintro e ⟨⟩, fun a _ en hen e he => ?_⟩
      rw [List.mem_singleton] at hen
      subst hen
      cases he with
      | unknown h1 => exact hu h1
      | array _ h1 => exact h1 _ rfl
      | element _ h1 h2 h3 => cases h1; exact h3 (h _ h2)
      | single h1 => exact hs h1
      | identifiers _ h1 => exact hi h1
      | identifier _ h1 => exact hi h1
    · rw [hn]
      exact ⟨by rintro e ⟨⟩; exact ⟨_, List.mem_singleton.mpr rfl, .element hk rfl hw h⟩, by rintro a ⟨⟩⟩
  | _ => exact ⟨by rintro e ⟨⟩; exact ⟨_, List.mem_singleton.mpr rfl, .array hk (by rintro vs ⟨⟩)⟩, by rintro a ⟨⟩⟩

theorem single_weighed {rule : IdlRule} {k : Str} (v : Value) (hk : k ∈ singles rule) (hs : k ∉ arrays rule) (hi : k ≠ %s"identifiers") :
    Weighed rule [(k, v)] (nameOf v) := by
  have hu : ¬ k ∉ arrays rule ++ singles rule ++ others rule := by simp [hk]
  rcases nameOf_said v with ⟨h, ns, hn⟩ | ⟨h, hn⟩
  · rw [hn]
    refine ⟨by rintro e ⟨⟩, fun a _ en hen e he => ?_⟩
    rw [List.mem_singleton] at hen
    subst hen
    cases he with
    | unknown h1 => exact hu h1
    | array h1 => exact hs h1
    | element h1 => exact hs h1
    | single _ h1 => exact h1 h
    | identifiers _ h1 => exact hi h1
    | identifier _ h1 => exact hi h1
  · rw [hn]
    exact ⟨by rintro e ⟨⟩; exact ⟨_, List.mem_singleton.mpr rfl, .single hk h⟩, by rintro a ⟨⟩⟩

theorem identifiersIn_said (es : List (Str × Value)) : ∀ ids, ((∀ en ∈ es, IsIdentifier en.1 ∧ NameV en.2) ∧ ∃ o, identifiersIn ids es = .ok o) ∨
    ((∃ en ∈ es, ¬ (IsIdentifier en.1 ∧ NameV en.2)) ∧ identifiersIn ids es = .error .panic) := by
  induction es with
  | nil => intro ids; exact .inl ⟨by simp, _, rfl⟩
  | cons en es ih =>
    obtain ⟨k, v⟩ := en
    intro ids
    unfold identifiersIn
    cases v with
    | string t =>
      dsimp only
      rcases unwrap_identifier k with ⟨hk, hu⟩ | ⟨hk, hu⟩
      · rcases unwrap_name t with ⟨h, n, hu'⟩ | ⟨h, hu'⟩
        · rw [hu, hu']
          rcases ih (AMap.insert ids k n) with ⟨h', o, ho⟩ | ⟨⟨w, hw, h'⟩, ho⟩
          · refine .inl ⟨?_, o, ho⟩
            intro en hen
            rcases List.mem_cons.mp hen with rfl | hen
            · exact ⟨hk, t, rfl, h⟩
            · exact h' en hen
          · exact .inr ⟨⟨w, by simp [hw], h'⟩, ho⟩
        · rw [hu, hu']
          exact .inr ⟨⟨_, List.mem_cons_self, fun h1 => by obtain ⟨-, u, ⟨⟩, h2⟩ := h1; exact h h2⟩, rfl⟩
      · rw [hu]
        exact .inr ⟨⟨_, List.mem_cons_self, fun h1 => hk h1.1⟩, rfl⟩
    | _ => exact .inr ⟨⟨_, List.mem_cons_self, fun h1 => by obtain ⟨-, u, ⟨⟩, h2⟩ := h1⟩, rfl⟩

theorem identifiers_weighed (v : Value) (ids : AMap Str ShapeName) : Weighed resourceStatement [(%s"identifiers", v)] (identifiersOf ids v) := by
  have h1 : %s"identifiers" ∉ arrays resourceStatement := by decide
  have h2 : %s"identifiers" ∉ singles resourceStatement := by decide
  have h3 : ¬ %s"identifiers" ∉ arrays resourceStatement ++ singles resourceStatement ++ others resourceStatement := by decide
  cases v with
  | object o =>
    change Weighed _ [(_, .object o)] (identifiersIn ids o)
    rcases identifiersIn_said o ids with ⟨h, r, hr⟩ | ⟨⟨w, hw, h⟩, hr⟩
    · rw [hr]
      refine ⟨by rintro e ⟨⟩, fun a _ en hen e he => ?_⟩
      rw [List.mem_singleton] at hen
      subst hen
      cases he with
      | unknown h => exact h3 h
      | array h => exact h1 h
      | element h => exact h1 h
      | single h => exact h2 h
      | identifiers _ _ h => exact h _ rfl
      | identifier _ _ h4 h5 h6 => cases h4; exact h6 (h _ h5)
    · rw [hr]
      exact ⟨by rintro e ⟨⟩; exact ⟨_, List.mem_singleton.mpr rfl, .identifier rfl rfl rfl hw h⟩, by rintro a ⟨⟩⟩
  | _ => exact ⟨by rintro e ⟨⟩; exact ⟨_, List.mem_singleton.mpr rfl, .identifiers rfl rfl (by rintro vs ⟨⟩)⟩, by rintro a ⟨⟩⟩

theorem version_fine (v : Value) (e : Err) : ¬ ValueFault serviceStatement %s"version" v e := by
  intro h
  cases h with
  | unknown h => exact h (by decide)
  | array h => exact absurd h (by decide)
  | element h => exact absurd h (by decide)
  | single h => exact absurd h (by decide)
  | identifiers h => cases h
  | identifier h => cases h

theorem serviceLoop_weighed (es : List (Str × Value)) : ∀ ops res, Weighed serviceStatement es (serviceLoop ops res es) := by
  induction es with
  | nil => intro ops res; exact .nil
  | cons en es ih =>
    obtain ⟨k, v⟩ := en
    intro ops res
    unfold serviceLoop
    split
    · next h => subst h; exact .skip (version_fine v) (ih _ _)
    · split
      · next h => subst h; exact (array_weighed v (by decide) (by decide) (by decide)).cons fun _ => ih _ _
      · split
        · next h => subst h; exact (array_weighed v (by decide) (by decide) (by decide)).cons fun _ => ih _ _
        · next h1 h2 h3 => exact .unknown (by simp [arrays, singles, others, h1, h2, h3])

theorem operationLoop_weighed (es : List (Str × Value)) : ∀ i o er, Weighed operationStatement es (operationLoop i o er es) := by
  induction es with
  | nil => intro i o er; exact .nil
  | cons en es ih =>
    obtain ⟨k, v⟩ := en
    intro i o er
    unfold operationLoop
    split
    · next h => subst h; exact (single_weighed v (by decide) (by decide) (by decide)).cons fun _ => ih _ _ _
    · split
      · next h => subst h; exact (single_weighed v (by decide) (by decide) (by decide)).cons fun _ => ih _ _ _
      · split
        · next h => subst h; exact (array_weighed v (by decide) (by decide) (by decide)).cons fun _ => ih _ _ _
        · next h1 h2 h3 => exact .unknown (by simp [arrays, singles, others, h1, h2, h3])

theorem resourceLoop_weighed (es : List (Str × Value)) : ∀ r, Weighed resourceStatement es (resourceLoop r es) := by
  induction es with
  | nil => intro r; exact .nil
  | cons en es ih =>
    obtain ⟨k, v⟩ := en
    intro r
    unfold resourceLoop
    by_cases h0 : k = %s"identifiers"
    · rw [if_pos h0]; subst h0; exact (identifiers_weighed v _).cons fun _ => ih _
    rw [if_neg h0]
    by_cases h1 : k = %s"create"
    · rw [if_pos h1]; subst h1; exact (single_weighed v (by decide) (by decide) (by decide)).cons fun _ => ih _
    rw [if_neg h1]
    by_cases h2 : k = %s"put"
    · rw [if_pos h2]; subst h2; exact (single_weighed v (by decide) (by decide) (by decide)).cons fun _ => ih _
    rw [if_neg h2]
    by_cases h3 : k = %s"read"
    · rw [if_pos h3]; subst h3; exact (single_weighed v (by decide) (by decide) (by decide)).cons fun _ => ih _
    rw [if_neg h3]
    by_cases h4 : k = %s"update"
    · rw [if_pos h4]; subst h4; exact (single_weighed v (by decide) (by decide) (by decide)).cons fun _ => ih _
    rw [if_neg h4]
    by_cases h5 : k = %s"delete"
    · rw [if_pos h5]; subst h5; exact (single_weighed v (by decide) (by decide) (by decide)).cons fun _ => ih _
    rw [if_neg h5]
    by_cases h6 : k = %s"list"
    · rw [if_pos h6]; subst h6; exact (single_weighed v (by decide) (by decide) (by decide)).cons fun _ => ih _
    rw [if_neg h6]
    by_cases h7 : k = %s"operations"
    · rw [if_pos h7]; subst h7; exact (array_weighed v (by decide) (by decide) (by decide)).cons fun _ => ih _
    rw [if_neg h7]
    by_cases h8 : k = %s"collectionOperations"
    · rw [if_pos h8]; subst h8; exact (array_weighed v (by decide) (by decide) (by decide)).cons fun _ => ih _
    rw [if_neg h8]
    by_cases h9 : k = %s"resources"
    · rw [if_pos h9]; subst h9; exact (array_weighed v (by decide) (by decide) (by decide)).cons fun _ => ih _
    rw [if_neg h9]
    exact .unknown (by simp only [arrays, singles, others, List.cons_append, List.nil_append, List.mem_cons, List.not_mem_nil, or_false, not_or]; exact ⟨h7, h8, h9, h1, h2, h3, h4, h5, h6, h0⟩)

/-- The statements with an object. -/
def Objected (r : IdlRule) : Prop := r ∈ [serviceStatement, operationStatement, resourceStatement]

theorem object_judged {p : Pair IdlRule} (h : Made idlGrammar p) (hr : Objected p.asRule) : Judged flt p.intoInner (idAndObject flt none none p.intoInner) ∧
    ∀ id o, idAndObject flt none none p.intoInner = .ok (id, o) → SmithyIdent id ∧ ∃ b xs, parts nodeObject p = [b] ∧ o = AMap.ofList xs ∧
      List.Forall₂ (ReadsEntry flt) (entries nodeObjectKvp b) xs := by
  have : ∃ i b, p.intoInner = [i, b] ∧ i.asRule ∈ [identifier] ∧ b.asRule ∈ [nodeObject] := by
    simp only [Objected, List.mem_cons, List.not_mem_nil, or_false] at hr
    rcases hr with hr | hr | hr
    · exact (made_exactly h hr rfl).two
    · exact (made_exactly h hr rfl).two
    · exact (made_exactly h hr rfl).two
  obtain ⟨i, b, he, hi, hb⟩ := this
  have hi : i.asRule = identifier := by simpa using hi
  have hb : b.asRule = nodeObject := by simpa using hb
  have mi := h.inner i (by simp [he])
  have mb := h.inner b (by simp [he])
  have hall : ∀ q ∈ b.intoInner, q.asRule = nodeObjectKvp := fun q hq => by simpa using made_emits mb hb rfl q hq
  have hm : idAndObject flt none none p.intoInner = objectOf flt [] b.intoInner >>= fun o => (Except.ok (i.asStr, o) : Except Err (Str × AMap Str Value)) := by
    rw [he]
    unfold idAndObject
    rw [hi]
    dsimp only
    unfold idAndObject
    rw [hb]
    rfl
  have h1 := objectOf_judged flt b.intoInner mb.inner hall []
  refine ⟨?_, fun id o hok => ?_⟩
  · rw [hm, he]
    exact .skip (Clean.quiet mi (by rw [hi]; rfl)) ((h1.inner (by rw [hb]; decide)).bind_ok fun a _ => ⟨_, rfl⟩)
  · rw [hm] at hok
    obtain ⟨o', ho, hok⟩ := ok_of_bind hok
    cases hok
    obtain ⟨xs, rfl, hx⟩ := objectOf_reads mb.inner hall _ _ ho
    refine ⟨sound_identifier mi.sound hi, b, xs, ?_, rfl, ?_⟩
    · unfold parts; rw [he]; simp [hi, hb]
    · unfold entries
      rw [parts_all hall]
      exact hx

theorem object_faults {p : Pair IdlRule} (hr : Objected p.asRule) {b : Pair IdlRule} (hb : parts nodeObject p = [b]) {xs : List (Str × Value)}
    (hx : List.Forall₂ (ReadsEntry flt) (entries nodeObjectKvp b) xs) (e : Err) :
    PartFault flt p e ↔ (p.asRule = serviceStatement ∧ e = .panic ∧ ∀ t, AMap.get (AMap.ofList xs) %s"version" ≠ some (.string t)) ∨
      ∃ en ∈ AMap.ofList xs, ValueFault p.asRule en.1 en.2 e := by
  have hr' : p.asRule ∈ [serviceStatement, operationStatement, resourceStatement] := hr
  constructor
  · intro h
    cases h with
    | service hs ho hv =>
      rw [hb, List.mem_singleton] at ho
      subst ho
      refine .inl ⟨hs, rfl, fun t ht => ?_⟩
      obtain ⟨q, hq, hr⟩ := (last_reads hx _).2 _ ht
      cases hr.kinds with
      | text h1 => exact hv q hq t ((h1 t).mpr rfl)
      | other _ _ _ h1 => exact h1 _ rfl
    | property _ ho hl hf =>
      rw [hb, List.mem_singleton] at ho
      subst ho
      obtain ⟨v, hv, hr⟩ := (last_reads hx _).1 _ hl
      exact .inr ⟨_, AMap.mem_of_get hv, (hr.faults _ _ _).mp hf⟩
    | collection h => exfalso; rcases h with h | h <;> rw [h] at hr' <;> exact absurd hr' (by decide)
    | name h => exfalso; rcases h with h | h <;> rw [h] at hr' <;> exact absurd hr' (by decide)
    | number h => rw [h] at hr'; exact absurd hr' (by decide)
    | version h => rw [h] at hr'; exact absurd hr' (by decide)
    | mapMember h => rw [h] at hr'; exact absurd hr' (by decide)
    | mapMissing h => rw [h] at hr'; exact absurd hr' (by decide)
    | apply h => rw [h] at hr'; exact absurd hr' (by decide)
    | trait h => rw [h] at hr'; exact absurd hr' (by decide)
  · rintro (⟨hs, rfl, hv⟩ | ⟨⟨k, v⟩, hm, hf⟩)
    · refine .service hs (o := b) (by rw [hb]; simp) fun q hq t ht => ?_
      obtain ⟨v, hg, hr⟩ := (last_reads hx _).1 _ hq
      cases hr.kinds with
      | text h1 => exact hv _ hg
      | array h1 => exact h1 _ ht
      | object h1 => exact h1 _ ht
      | other h1 => exact h1 _ ht
    · obtain ⟨q, hq, hr⟩ := (last_reads hx k).2 v (AMap.get_of_mem (AMap.wf_ofList _) hm)
      exact .property hr' (o := b) (by rw [hb]; simp) hq ((hr.faults _ _ _).mpr hf)

theorem serviceOf_judged {p : Pair IdlRule} (h : Made idlGrammar p) (hr : p.asRule = serviceStatement) : Judged flt [p] (serviceOf flt p) := by
  have hr' : Objected p.asRule := by rw [hr]; unfold Objected; decide
  obtain ⟨h1, h2⟩ := object_judged (flt := flt) h hr'
  refine h1.up ?_
  rintro ⟨id, o⟩ ho
  obtain ⟨h3, b, xs, hb, rfl, hx⟩ := h2 _ _ ho
  simp only [object_faults hr' hb hx, hr]
  generalize AMap.ofList xs = o
  have other : (∀ t, AMap.get o %s"version" ≠ some (.string t)) → (match AMap.get o %s"version" with
      | some (.string version) => do
        let n ← Verif.unwrap (ShapeName.fromStr id)
        let (ops, res) ← serviceLoop [] [] o
        return (⟨n, [], .service version ops res []⟩ : Builder)
      | _ => .error .panic) = (.error .panic : Except Err Builder) := by
    intro hn
    split
    · next v hv => exact absurd hv (hn v)
    · rfl
  by_cases hv : ∃ t, AMap.get o %s"version" = some (.string t)
  · obtain ⟨t, hv⟩ := hv
    obtain ⟨h4, h5⟩ := serviceLoop_weighed o [] []
    rw [hv]
    dsimp only
    rw [nameFromStr_ident h3]
    cases hl : serviceLoop [] [] o with
    | error e =>
      refine ⟨?_, by rintro b ⟨⟩⟩
      rintro e' ⟨⟩
      exact .inr (h4 _ hl)
    | ok r =>
      refine ⟨by rintro e' ⟨⟩, fun b _ e he => ?_⟩
      rcases he with ⟨-, -, h⟩ | ⟨en, hen, hf⟩
      · exact h t rfl
      · exact h5 _ hl en hen e hf
  · have hn : ∀ t, AMap.get o %s"version" ≠ some (.string t) := fun t ht => hv ⟨t, ht⟩
    refine ⟨fun e he => ?_, fun b hb => ?_⟩
    · have := (other hn).symm.trans he
      cases this
      exact .inl ⟨trivial, rfl, hn⟩
    · have := (other hn).symm.trans hb
      cases this

theorem operationOf_judged {p : Pair IdlRule} (h : Made idlGrammar p) (hr : p.asRule = operationStatement) : Judged flt [p] (operationOf flt p) := by
  have hr' : Objected p.asRule := by rw [hr]; unfold Objected; decide
  obtain ⟨h1, h2⟩ := object_judged (flt := flt) h hr'
  refine h1.up ?_
  rintro ⟨id, o⟩ ho
  obtain ⟨h3, b, xs, hb, rfl, hx⟩ := h2 _ _ ho
  simp only [object_faults hr' hb hx, hr]
  generalize AMap.ofList xs = o
  obtain ⟨h4, h5⟩ := operationLoop_weighed o none none []
  rw [nameFromStr_ident h3]
  cases hl : operationLoop none none [] o with
  | error e =>
    refine ⟨?_, by rintro b ⟨⟩⟩
    rintro e' ⟨⟩
    exact .inr (h4 _ hl)
  | ok r =>
    refine ⟨by rintro e' ⟨⟩, fun b _ e he => ?_⟩
    rcases he with ⟨h, -⟩ | ⟨en, hen, hf⟩
    · cases h
    · exact h5 _ hl en hen e hf

theorem resourceOf_judged {p : Pair IdlRule} (h : Made idlGrammar p) (hr : p.asRule = resourceStatement) : Judged flt [p] (resourceOf flt p) := by
  have hr' : Objected p.asRule := by rw [hr]; unfold Objected; decide
  obtain ⟨h1, h2⟩ := object_judged (flt := flt) h hr'
  refine h1.up ?_
  rintro ⟨id, o⟩ ho
  obtain ⟨h3, b, xs, hb, rfl, hx⟩ := h2 _ _ ho
  simp only [object_faults hr' hb hx, hr]
  generalize AMap.ofList xs = o
  obtain ⟨h4, h5⟩ := resourceLoop_weighed o ⟨[], none, none, none, none, none, none, [], [], []⟩
  rw [nameFromStr_ident h3]
  cases hl : resourceLoop ⟨[], none, none, none, none, none, none, [], [], []⟩ o with
  | error e =>
    refine ⟨?_, by rintro b ⟨⟩⟩
    rintro e' ⟨⟩
    exact .inr (h4 _ hl)
  | ok r =>
    refine ⟨by rintro e' ⟨⟩, fun b _ e he => ?_⟩
    rcases he with ⟨h, -⟩ | ⟨en, hen, hf⟩
    · cases h
    · exact h5 _ hl en hen e hf

end IdlParser
end Verif
