/-
C103, for the Smithy IDL: writing and reading again changes nothing any more once a model without metadata was read; with metadata,
the text that is written for what was read is no IDL.
-/
import Verif.IdlExact

namespace Verif
open Peg Spec Spec.Idl
open IdlGrammar (r)

/-! ### Writable models stay writable -/

/-- Two models with the same placeholders that define the same names in the namespace. -/
structure SameNames (m m' : Model) (ns : Str) : Prop where
  named : ∀ n id, NamedPlaceholder m' n id ↔ NamedPlaceholder m n id
  defined : ∀ n, (∃ s, m'.shape ⟨ns, n, none⟩ = some s ∧ s.body ≠ .unresolved) ↔ ∃ s, m.shape ⟨ns, n, none⟩ = some s ∧ s.body ≠ .unresolved

section names
variable {f : Fmt} {flt : Str → Option F64} {m m' : Model} {ns : Str}

theorem SameNames.short (h : SameNames m m' ns) {b : Bool} {id : ShapeID} (hs : ShortName m ns b id) : ShortName m' ns b id := by
  cases hs with
  | imported h1 h2 => exact .imported ((h.named _ _).mpr h1) fun id' h' => h2 id' ((h.named _ _).mp h')
  | defined h1 h2 h3 =>
    obtain ⟨s, a, b⟩ := (h.defined _).mpr ⟨_, h2, h3⟩
    exact .defined (fun id h' => h1 id ((h.named _ _).mp h')) a b
  | «prelude» h1 h2 h3 =>
    refine .prelude (fun id h' => h1 id ((h.named _ _).mp h')) (fun s hs => ?_) h3
    refine Classical.byContradiction fun hb => ?_
    obtain ⟨s0, a, b⟩ := (h.defined _).mp ⟨s, hs, hb⟩
    exact b (h2 s0 a)

theorem SameNames.target (h : SameNames m m' ns) {id : ShapeID} (hs : ShortTarget m ns id) : ShortTarget m' ns id := ⟨hs.1, h.short hs.2⟩

theorem SameNames.bare (h : SameNames m m' ns) {id : ShapeID} (hs : BareTarget m ns id) : BareTarget m' ns id := ⟨h.target hs.1, hs.2⟩

theorem SameNames.trait (h : SameNames m m' ns) {id : ShapeID} {v v' : TraitValue} (hs : WritableTrait f flt m ns id v)
    (hv : ∀ x, v' = some x → x = .none ∨ WritableValue f flt x) : WritableTrait f flt m' ns id v' :=
  ⟨fun a => ⟨(hs.short a).1, h.short (hs.short a).2⟩, hs.full, hv⟩

theorem keptValue_writable {v : TraitValue} (h : ∀ x, v = some x → x = .none ∨ WritableValue f flt x) : WritableValue f flt (keptValue v) := by
  have he : WritableValue f flt (.object []) := .object AMap.wf_nil (by simp) (by simp)
  cases v with
  | none => exact he
  | some x =>
    rcases h x rfl with rfl | hx
    · exact he
    · cases x with
      | none => exact he
      | _ => exact hx

theorem SameNames.keptTraits (h : SameNames m m' ns) {ts : Traits} (ht : ∀ e ∈ ts, WritableTrait f flt m ns e.1 e.2) :
    ∀ e ∈ keptTraits ts, WritableTrait f flt m' ns e.1 e.2 := by
  intro e he
  obtain ⟨x, hx, rfl⟩ := List.mem_map.mp he
  refine h.trait (ht x hx) fun v hv => .inr ?_
  cases hv
  exact keptValue_writable (ht x hx).value

theorem SameNames.keptMembers (h : SameNames m m' ns) {ms : AMap Str MemberShape} (ht : ∀ e ∈ ms, WritableMember f flt m ns e.2) :
    ∀ e ∈ ms.map (fun e => (e.1, keptMember e.2)), WritableMember f flt m' ns e.2 := by
  intro e he
  obtain ⟨x, hx, rfl⟩ := List.mem_map.mp he
  exact ⟨(ht x hx).name, h.target (ht x hx).target, h.keptTraits (ht x hx).traits⟩

theorem SameNames.keptKind (h : SameNames m m' ns) {k : ShapeKind} (hk : WritableKind f flt m ns k) : WritableKind f flt m' ns (keptKind k) := by
  cases hk with
  | simple => exact .simple
  | list a => exact .list a
  | set a => exact .list a
  | map a b => exact .map (h.target a) (h.target b)
  | struct a => exact .struct (h.keptMembers a)
  | union a => exact .union (h.keptMembers a)
  | service a b c d => exact .service a b (fun id hi => h.bare (c id hi)) fun id hi => h.bare (d id hi)
  | operation a b c => exact .operation (fun id hi => h.bare (a id hi)) (fun id hi => h.bare (b id hi)) fun id hi => h.bare (c id hi)
  | resource a b c d e g i j k l =>
    exact .resource (fun e he => ⟨(a e he).1, h.bare (a e he).2⟩) (fun id hi => h.bare (b id hi)) (fun id hi => h.bare (c id hi))
      (fun id hi => h.bare (d id hi)) (fun id hi => h.bare (e id hi)) (fun id hi => h.bare (g id hi)) (fun id hi => h.bare (i id hi))
      (fun id hi => h.bare (j id hi)) (fun id hi => h.bare (k id hi)) fun id hi => h.bare (l id hi)

theorem keptKind_unresolved {k : ShapeKind} : Spec.keptKind k = .unresolved ↔ k = .unresolved := by
  cases k <;> simp [Spec.keptKind]

theorem keptTraits_full (ts : Traits) (h : ∀ e ∈ ts, WritableTrait f flt m ns e.1 e.2) : ExactTraits (Spec.keptTraits ts) := by
  intro e he
  obtain ⟨x, hx, rfl⟩ := List.mem_map.mp he
  refine ⟨_, rfl, ?_⟩
  have := keptValue_writable (h x hx).value
  intro hn
  rw [hn] at this
  cases this

theorem keptKind_full {k : ShapeKind} (hk : WritableKind f flt m ns k) : ExactKind (Spec.keptKind k) := by
  have hm : ∀ {ms : AMap Str MemberShape}, (∀ e ∈ ms, WritableMember f flt m ns e.2) →
      ∀ e ∈ ms.map (fun e => (e.1, keptMember e.2)), ExactTraits e.2.traits := by
    intro ms h e he
    obtain ⟨x, hx, rfl⟩ := List.mem_map.mp he
    exact keptTraits_full _ (h x hx).traits
  cases hk with
  | simple => exact .simple
  | list a => exact .list
  | set a => exact .list
  | map a b => exact .map
  | struct a => exact .struct (hm a)
  | union a => exact .union (hm a)
  | service a b c d => exact .service rfl
  | operation a b c => exact .operation
  | resource => exact .resource

theorem Spec.ReadBack.sameNames (hr : ReadBack m ns m') : SameNames m m' ns := by
  refine ⟨fun n id => ⟨?_, ?_⟩, fun n => ⟨?_, ?_⟩⟩
  · rintro ⟨s', h1, h2, h3⟩
    obtain ⟨s, a, b, rfl⟩ := (hr.shapes id s').mp h1
    exact ⟨s, a, keptKind_unresolved.mp h2, h3⟩
  · rintro ⟨s, h1, h2, h3⟩
    exact ⟨kept s, (hr.shapes id _).mpr ⟨s, h1, .inl h2, rfl⟩, keptKind_unresolved.mpr h2, h3⟩
  · rintro ⟨s', h1, h2⟩
    obtain ⟨s, a, b, rfl⟩ := (hr.shapes _ s').mp h1
    exact ⟨s, a, fun h => h2 (keptKind_unresolved.mpr h)⟩
  · rintro ⟨s, h1, h2⟩
    exact ⟨kept s, (hr.shapes _ _).mpr ⟨s, h1, .inr rfl, rfl⟩, fun h => h2 (keptKind_unresolved.mp h)⟩

/-- What was read from the text of a writable model without metadata is writable, and completely in the text. -/
theorem Spec.ReadBack.writable (h : WritableModel f flt m ns) (hm : m.metadata = []) (hr : ReadBack m ns m') (hw : WfModel m') :
    WritableModel f flt m' ns ∧ ExactModel m' ns := by
  have hn := hr.sameNames
  have hmd : m'.metadata = [] := by
    cases e : m'.metadata with
    | nil => rfl
    | cons x l =>
      obtain ⟨k, v⟩ := x
      obtain ⟨k0, -, h0⟩ := (hr.metadata k v).mp (by rw [e]; simp [AMap.get_cons])
      rw [hm] at h0; cases h0
  refine ⟨⟨hw, h.nsText, by rw [hmd]; simp, ?_, ?_⟩, ⟨hmd, ?_, ?_, ?_⟩⟩
  · intro id s' hs hb
    obtain ⟨s, a, b, rfl⟩ := (hr.shapes id s').mp hs
    obtain ⟨h1, h2⟩ := h.placeholders id s a (keptKind_unresolved.mp hb)
    exact ⟨(by simp only [kept, h1]; rfl), h2⟩
  · intro id s' hs hb hns
    obtain ⟨s, a, b, rfl⟩ := (hr.shapes id s').mp hs
    have hk := h.shapes id s a (fun e => hb (keptKind_unresolved.mpr e)) hns
    exact ⟨hk.inNs, hk.name, hk.member, fun i hi => hk.alone i ((hn.named _ _).mp hi), hn.keptTraits hk.traits, hn.keptKind hk.body⟩
  · intro id s' hs
    obtain ⟨s, a, b, rfl⟩ := (hr.shapes id s').mp hs
    exact b.imp keptKind_unresolved.mpr fun h => h
  · intro id s' hs
    obtain ⟨s, a, b, rfl⟩ := (hr.shapes id s').mp hs
    by_cases hu : s.body = .unresolved
    · rw [kept, (h.placeholders id s a hu).1]
      intro e he
      cases he
    · rcases b with b | b
      · exact absurd b hu
      · exact keptTraits_full _ (h.shapes id s a hu (by rw [b]; exact rfl)).traits
  · intro id s' hs
    obtain ⟨s, a, b, rfl⟩ := (hr.shapes id s').mp hs
    by_cases hu : s.body = .unresolved
    · rw [kept, hu]
      exact .unresolved
    · rcases b with b | b
      · exact absurd b hu
      · exact keptKind_full (h.shapes id s a hu (by rw [b]; exact rfl)).body

end names

/-- C103: a writable model without metadata is written and read; what is read is written and read without any change. -/
theorem C103_idl (f : Fmt) (flt : Str → Option F64) (enum : List ShapeID → List ShapeID) (he : Enumerates enum)
    (m : Model) (ns : Str) (h : WritableModel f flt m ns) (hm : m.metadata = []) :
    ∃ m1 m2, parseModel flt enum (writeIdl f ns m) = .ok m1 ∧ parseModel flt enum (writeIdl f ns m1) = .ok m2 ∧
      m2.version = m1.version ∧ m2.metadata = m1.metadata ∧ ∀ id, m2.shape id = m1.shape id := by
  obtain ⟨m1, h1, h2, h3⟩ := C51_round_trip f flt enum he m ns h
  obtain ⟨a, b⟩ := h2.writable h hm h3
  obtain ⟨m2, k1, k2, k3, k4⟩ := C51_same_model f flt enum he m1 ns a b
  exact ⟨m1, m2, h1, k1, k2, k3.trans b.metadata.symm, k4⟩

/-! ### Metadata -/

/-- Keys that do not start like blanks, a comment or an equals sign. -/
def Spec.Idl.OrdinaryKey (k : Str) : Prop := ∀ c t, k = c :: t → c ∉ [' ', '\t', '\n', '\r', ',', '/', '=']

/-- A statement with a quoted key in quotes does not match. -/
theorem quotedTwice_fails {k u : Str} (hk : OrdinaryKey k) : Parses idlGrammar false (r .metadataStatement) (%s"metadata \"\"" ++ k ++ '"' :: u) none := by
  obtain ⟨c, t, e, hc⟩ : ∃ c t, k ++ '"' :: u = c :: t ∧ c ∉ [' ', '\t', '\n', '\r', ',', '/', '='] := by
    cases k with
    | nil => exact ⟨'"', u, rfl, by decide⟩
    | cons c t => exact ⟨c, t ++ '"' :: u, rfl, hk c t rfl⟩
  have h1 : %s"metadata \"\"" ++ k ++ '"' :: u = %s"metadata" ++ ([' '] ++ ('"' :: [] ++ '"' :: (c :: t))) := by
    rw [List.append_assoc, e]; rfl
  rw [h1]
  have q := quoted_eats (t := []) (rest := c :: t) (by simp)
  have hs : Solid' (c :: t) := solid_cons fun h => hc (by simp only [List.mem_cons, List.not_mem_nil, or_false] at h ⊢; tauto)
  have hne : c ≠ '=' := fun h => hc (by simp [h])
  refine failsNormal (r := .metadataStatement) rfl ?_
  refine failsSeq Eats.str (failsSeq (ws_eats white_space (solid_cons (by decide))) (failsSeq (Eats.silent (r := .nodeObjectKey) rfl (.choiceL q))
    (failsSeq (ws_none hs) (.seqFail1 (.strFail ?_)))))
  simp [stripPrefix, Ne.symm hne]

/-- The text of a model whose first metadata key is a quoted key is not in the grammar. -/
theorem quotedMetadata_rejected {f : Fmt} {m : Model} {ns : Str} {k : Str} {v : Value} {l : AMap Str Value}
    (hm : m.metadata = ('"' :: k ++ ['"'], v) :: l) (hk : OrdinaryKey k) : matchIdl (writeIdl f ns m) = none := by
  obtain ⟨u, hu⟩ : ∃ u, IdlWriter.metadata f m ++ (IdlWriter.namespaceStatement ns ++ (IdlWriter.uses m ++ IdlWriter.shapes f ns m)) =
      %s"metadata \"\"" ++ k ++ '"' :: u := by
    unfold IdlWriter.metadata Model.hasMetadata
    rw [hm]
    simp only [List.isEmpty_cons, Bool.not_false, if_true, List.flatMap_cons, List.append_assoc, List.cons_append, List.nil_append]
    exact ⟨_, rfl⟩
  have hf := quotedTwice_fails (u := u) hk
  have hs : Solid' (%s"metadata \"\"" ++ k ++ '"' :: u) := solid_cons (by decide)
  have h1 := control_eats (flt := fun _ => none) m hs (fails 8 (by decide))
  have h2 : Eats (r .metadataSection) (%s"metadata \"\"" ++ k ++ '"' :: u) (%s"metadata \"\"" ++ k ++ '"' :: u) _ :=
    Eats.normal (r := .metadataSection) rfl (.repNil hf)
  have h3 : Eats (r .shapeSection) (%s"metadata \"\"" ++ k ++ '"' :: u) (%s"metadata \"\"" ++ k ++ '"' :: u) _ :=
    Eats.normal (r := .shapeSection) rfl (.optNone (.seqFail1 (fails 8 (by decide))))
  have hw : writeIdl f ns m = IdlWriter.control m ++ (%s"metadata \"\"" ++ k ++ '"' :: u) := by rw [← hu]; rfl
  rw [hw]
  refine (matchIdl_iff _ _).mpr ⟨none, failsNormal (r := .idl) rfl (failsSeq Eats.soi (failsSeq (ws_none (solid_cons (by decide)))
    (failsSeq h1 (failsSeq h2 (failsSeq h3 ?_))))), rfl⟩
  exact .eoiFail

/-- C103 is violated: models with metadata are written and read back once (`C51_round_trip`), but what is written for the model that was
read is no text of the IDL: its keys are in quotes already and are written in quotes. -/
theorem C103_idl_metadata (f : Fmt) (flt : Str → Option F64) (enum : List ShapeID → List ShapeID) (he : Enumerates enum)
    (m : Model) (ns : Str) (h : WritableModel f flt m ns) (hm : m.metadata ≠ []) (hk : ∀ k v, m.metadata.get k = some v → OrdinaryKey k) :
    ∃ m1, parseModel flt enum (writeIdl f ns m) = .ok m1 ∧
      ∀ f' ns', parseModel flt enum (writeIdl f' ns' m1) = .error (.deserialization %s"Smithy" %s"pest" none) := by
  obtain ⟨m1, h1, h2, h3⟩ := C51_round_trip f flt enum he m ns h
  refine ⟨m1, h1, fun f' ns' => ?_⟩
  have : m1.metadata ≠ [] := by
    cases e : m.metadata with
    | nil => exact absurd e hm
    | cons x l =>
      obtain ⟨k, v⟩ := x
      intro h0
      have := (h2.metadata _ v).mpr ⟨k, rfl, by rw [e]; simp [AMap.get_cons]⟩
      rw [h0] at this; cases this
  obtain ⟨k, v, l, e, hk1⟩ : ∃ k v l, m1.metadata = ('"' :: k ++ ['"'], v) :: l ∧ OrdinaryKey k := by
    cases e : m1.metadata with
    | nil => exact absurd e this
    | cons x l =>
      obtain ⟨k', v⟩ := x
      obtain ⟨k, rfl, h0⟩ := (h2.metadata k' v).mp (by rw [e]; simp [AMap.get_cons])
      exact ⟨k, v, l, rfl, hk k v h0⟩
  have hr := quotedMetadata_rejected (f := f') (ns := ns') e hk1
  unfold parseModel readBuilder
  rw [hr]
  rfl

/-! ### Cases -/

example (flt : Str → Option F64) : WritableModel exFmt flt exIdl %s"a" ∧ exIdl.metadata = [] := ⟨exIdl_writable flt, rfl⟩

/-- The same with one metadata entry. -/
def exKeyed : Model := ⟨.v10, [(%s"k", .boolean true)], exIdl.shapes⟩

theorem exKeyed_writable (flt : Str → Option F64) : WritableModel exFmt flt exKeyed %s"a" := by
  have h := exIdl_writable flt
  have hx := exIdl_exact
  have hn : SameNames exIdl exKeyed %s"a" := ⟨fun _ _ => .rfl, fun _ => .rfl⟩
  refine ⟨⟨(by unfold AMap.Wf; decide), ?_, h.wf.nodup, h.wf.key, h.wf.member, h.wf.shapes⟩, h.nsText, ?_, h.placeholders, ?_⟩
  · intro k v hv
    cases List.mem_singleton.mp (AMap.mem_of_get hv)
    exact .boolean
  · intro e he
    rcases List.mem_singleton.mp he with rfl
    exact ⟨by intro c hc; rcases List.mem_singleton.mp hc with rfl; unfold PlainChar; decide, .boolean, fun o => nofun⟩
  · intro id s hs hb hns
    have hk := h.shapes id s hs hb hns
    refine ⟨hk.inNs, hk.name, hk.member, hk.alone, ?_, ?_⟩
    · rw [← keptTraits_eq_iff.mpr (hx.traits id s hs)]
      exact hn.keptTraits hk.traits
    · rw [← (keptKind_eq_iff _).mpr (hx.bodies id s hs)]
      exact hn.keptKind hk.body

example : ∀ k v, exKeyed.metadata.get k = some v → OrdinaryKey k := by
  intro k v h
  cases List.mem_singleton.mp (AMap.mem_of_get h)
  rintro c t ⟨⟩
  decide

end Verif
