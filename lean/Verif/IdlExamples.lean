/-
Concrete cases for the properties of the Smithy IDL: models that meet the hypotheses, and texts that show the violations.
-/
import Verif.IdlProps
import Verif.IdlTexts

namespace Verif
open Peg Spec

/-- A format whose debug format adds quotes, and nothing else; it is right for the strings below. -/
def exFmt : Fmt := ⟨fun _ => %s"0.5", fun s => '"' :: s ++ ['"']⟩

/-- A structure with traits and members, an operation, a list, and a placeholder. -/
def exIdl : Model := ⟨.v10, [],
  [(⟨%s"a", %s"S", none⟩, ⟨⟨%s"a", %s"S", none⟩, [(⟨%s"smithy.api", %s"documentation", none⟩, some (.string %s"text"))],
      .struct [(%s"x", ⟨%s"x", [(⟨%s"smithy.api", %s"required", none⟩, some (.object []))], ⟨%s"smithy.api", %s"String", none⟩⟩),
               (%s"y", ⟨%s"y", [], ⟨%s"b", %s"T", none⟩⟩)]⟩),
   (⟨%s"b", %s"T", none⟩, ⟨⟨%s"b", %s"T", none⟩, [], .unresolved⟩),
   (⟨%s"a", %s"O", none⟩, ⟨⟨%s"a", %s"O", none⟩, [], .operation ⟨some ⟨%s"a", %s"S", none⟩, none, []⟩⟩),
   (⟨%s"a", %s"L", none⟩, ⟨⟨%s"a", %s"L", none⟩, [], .list ⟨%s"member", [], ⟨%s"a", %s"S", none⟩⟩⟩)]⟩

theorem exIdl_mem {id : ShapeID} {s : TopLevelShape} (h : exIdl.shape id = some s) : (id, s) ∈ exIdl.shapes := AMap.mem_of_get h

theorem exIdl_placeholder {n : Str} {id : ShapeID} : NamedPlaceholder exIdl n id ↔ id = ⟨%s"b", %s"T", none⟩ ∧ SameName %s"T" n := by
  constructor
  · rintro ⟨s, h, hb, hn⟩
    have := exIdl_mem h
    simp only [exIdl, List.mem_cons, List.not_mem_nil, or_false, Prod.mk.injEq] at this
    rcases this with ⟨rfl, rfl⟩ | ⟨rfl, rfl⟩ | ⟨rfl, rfl⟩ | ⟨rfl, rfl⟩
    · cases hb
    · exact ⟨rfl, hn⟩
    · cases hb
    · cases hb
  · rintro ⟨rfl, hn⟩
    exact ⟨_, rfl, rfl, hn⟩

theorem ident_one (c : Char) (h : c.isAlpha = true) : SmithyIdent [c] := .plain (r := []) h (by simp)

theorem exIdl_alone {n : Str} (h : lower %s"T" ≠ lower n) : ∀ id, ¬ NamedPlaceholder exIdl n id := fun _ hp => h (exIdl_placeholder.mp hp).2

theorem exIdl_trait {n : Str} (h1 : lower %s"T" ≠ lower n) (h2 : exIdl.shape ⟨%s"a", n, none⟩ = none) (h3 : n ∈ preludeTraits) :
    ShortName exIdl %s"a" true ⟨%s"smithy.api", n, none⟩ :=
  .prelude (exIdl_alone h1) (by intro s h; rw [h2] at h; cases h) h3

theorem exIdl_wf : WfModel exIdl := by
  refine ⟨AMap.wf_nil, by rintro _ _ ⟨⟩, by unfold AMap.Wf; decide, ?_, ?_, ?_⟩
  all_goals
    intro id s h
    have := exIdl_mem h
    simp only [exIdl, List.mem_cons, List.not_mem_nil, or_false, Prod.mk.injEq] at this
    rcases this with ⟨rfl, rfl⟩ | ⟨rfl, rfl⟩ | ⟨rfl, rfl⟩ | ⟨rfl, rfl⟩
  all_goals first | rfl | (intro h; cases h) | skip
  · refine ⟨⟨by unfold AMap.Wf; decide, ?_⟩, ⟨by unfold AMap.Wf; decide, ?_, ?_⟩⟩
    · intro id v h
      have := AMap.mem_of_get h
      simp only [List.mem_singleton, Prod.mk.injEq, Option.some.injEq] at this
      rw [this.2]
      exact .string
    · intro k m h
      have := AMap.mem_of_get h
      simp only [List.mem_cons, List.not_mem_nil, or_false, Prod.mk.injEq] at this
      rcases this with ⟨rfl, rfl⟩ | ⟨rfl, rfl⟩ <;> rfl
    · intro k m h
      have := AMap.mem_of_get h
      simp only [List.mem_cons, List.not_mem_nil, or_false, Prod.mk.injEq] at this
      rcases this with ⟨rfl, rfl⟩ | ⟨rfl, rfl⟩
      · refine ⟨by unfold AMap.Wf; decide, ?_⟩
        intro id v h
        have := AMap.mem_of_get h
        simp only [List.mem_singleton, Prod.mk.injEq, Option.some.injEq] at this
        rw [this.2]
        exact .object AMap.wf_nil (by simp)
      · exact ⟨AMap.wf_nil, by rintro _ _ ⟨⟩⟩
  · exact ⟨⟨AMap.wf_nil, by rintro _ _ ⟨⟩⟩, trivial⟩
  · exact ⟨⟨AMap.wf_nil, by rintro _ _ ⟨⟩⟩, trivial⟩
  · exact ⟨⟨AMap.wf_nil, by rintro _ _ ⟨⟩⟩, AMap.wf_nil, by rintro _ _ ⟨⟩⟩

theorem exIdl_writable (flt : Str → Option F64) : WritableModel exFmt flt exIdl %s"a" := by
  have target : ShortTarget exIdl %s"a" ⟨%s"a", %s"S", none⟩ :=
    ⟨ident_one _ (by decide), .defined (exIdl_alone (by decide)) (s := ⟨⟨%s"a", %s"S", none⟩, _, _⟩) rfl (by simp)⟩
  refine ⟨exIdl_wf, ⟨[%s"a"], by simp, by simpa using ident_one _ (by decide), rfl⟩, by rintro _ ⟨⟩, ?_, ?_⟩
  · intro id s h hb
    have := exIdl_mem h
    simp only [exIdl, List.mem_cons, List.not_mem_nil, or_false, Prod.mk.injEq] at this
    rcases this with ⟨rfl, rfl⟩ | ⟨rfl, rfl⟩ | ⟨rfl, rfl⟩ | ⟨rfl, rfl⟩
    · cases hb
    · exact ⟨rfl, ⟨[%s"b"], by simp, by simpa using ident_one _ (by decide), rfl⟩, ident_one _ (by decide), rfl⟩
    · cases hb
    · cases hb
  · intro id s h hb hns
    have := exIdl_mem h
    simp only [exIdl, List.mem_cons, List.not_mem_nil, or_false, Prod.mk.injEq] at this
    rcases this with ⟨rfl, rfl⟩ | ⟨rfl, rfl⟩ | ⟨rfl, rfl⟩ | ⟨rfl, rfl⟩
    · refine ⟨rfl, ident_one _ (by decide), rfl, exIdl_alone (by decide), ?_, .struct ?_⟩
      · intro e he
        rcases List.mem_singleton.mp he with rfl
        refine ⟨fun _ => ⟨.plain (by decide) (by decide), exIdl_trait (by decide) (by decide) (by decide)⟩, fun h => absurd (.inr rfl) h, ?_⟩
        rintro _ ⟨⟩
        exact .inr (.string ⟨by unfold PlainChar; decide, rfl⟩)
      · intro e he
        simp only [List.mem_cons, List.not_mem_nil, or_false] at he
        rcases he with rfl | rfl
        · refine ⟨ident_one _ (by decide), ⟨.plain (by decide) (by decide), .prelude (exIdl_alone (by decide)) (by rintro s ⟨⟩) (by unfold InPrelude; decide)⟩, ?_⟩
          intro e he
          rcases List.mem_singleton.mp he with rfl
          refine ⟨fun _ => ⟨.plain (by decide) (by decide), exIdl_trait (by decide) (by decide) (by decide)⟩, fun h => absurd (.inr rfl) h, ?_⟩
          rintro _ ⟨⟩
          exact .inr (.object AMap.wf_nil (by simp) (by simp))
        · exact ⟨ident_one _ (by decide), ⟨ident_one _ (by decide), .imported (exIdl_placeholder.mpr ⟨rfl, rfl⟩) fun id h => (exIdl_placeholder.mp h).1⟩, by rintro _ ⟨⟩⟩
    · exact absurd rfl hb
    · refine ⟨rfl, ident_one _ (by decide), rfl, exIdl_alone (by decide), by rintro _ ⟨⟩, .operation ?_ (by rintro _ ⟨⟩) (by rintro _ ⟨⟩)⟩
      rintro _ ⟨⟩
      exact ⟨target, by decide, by decide, by decide⟩
    · exact ⟨rfl, ident_one _ (by decide), rfl, exIdl_alone (by decide), by rintro _ ⟨⟩,
        .list ⟨⟨[%s"a"], by simp, by simpa using ident_one _ (by decide), rfl⟩, ident_one _ (by decide), rfl⟩⟩

theorem exIdl_exact : ExactModel exIdl %s"a" := by
  refine ⟨rfl, ?_, ?_, ?_⟩
  all_goals
    intro id s h
    have := exIdl_mem h
    simp only [exIdl, List.mem_cons, List.not_mem_nil, or_false, Prod.mk.injEq] at this
    rcases this with ⟨rfl, rfl⟩ | ⟨rfl, rfl⟩ | ⟨rfl, rfl⟩ | ⟨rfl, rfl⟩
  · exact .inr rfl
  · exact .inl rfl
  · exact .inr rfl
  · exact .inr rfl
  · intro e he
    rcases List.mem_singleton.mp he with rfl
    exact ⟨_, rfl, by simp⟩
  · rintro _ ⟨⟩
  · rintro _ ⟨⟩
  · rintro _ ⟨⟩
  · refine .struct ?_
    intro e he
    simp only [List.mem_cons, List.not_mem_nil, or_false] at he
    rcases he with rfl | rfl
    · intro e he
      rcases List.mem_singleton.mp he with rfl
      exact ⟨_, rfl, by simp⟩
    · rintro _ ⟨⟩
  · exact .unresolved
  · exact .operation
  · exact .list

/-- The model is read back as it is. -/
example (flt : Str → Option F64) (enum : List ShapeID → List ShapeID) (he : Enumerates enum) :
    ∃ m', parseModel flt enum (writeIdl exFmt %s"a" exIdl) = .ok m' ∧ ∀ id, m'.shape id = exIdl.shape id := by
  obtain ⟨m', h, -, -, hs⟩ := C51_same_model exFmt flt enum he exIdl %s"a" (exIdl_writable flt) exIdl_exact
  exact ⟨m', h, hs⟩

/-- A set has no text. -/
example : NoText ⟨.v10, [], [(⟨%s"a", %s"S", none⟩, ⟨⟨%s"a", %s"S", none⟩, [], .set ⟨%s"member", [], ⟨%s"a", %s"T", none⟩⟩⟩)]⟩ :=
  .set (id := ⟨%s"a", %s"S", none⟩) rfl rfl

/-! ### Texts that the writer writes and the reader rejects -/

set_option maxRecDepth 100000 in
/-- C51 is violated: the writer's own text for these is rejected: an operation whose input starts like a keyword; metadata that is an
object; metadata that is null. -/
theorem C51_written_rejected (flt : Str → Option F64) (enum : List ShapeID → List ShapeID) :
    (∃ e, parseModel flt enum (writeIdl exFmt %s"a" ⟨.v10, [], [(⟨%s"a", %s"O", none⟩, ⟨⟨%s"a", %s"O", none⟩, [], .operation ⟨some ⟨%s"a", %s"nullable", none⟩, none, []⟩⟩)]⟩) = .error e) ∧
    (∃ e, parseModel flt enum (writeIdl exFmt %s"a" ⟨.v10, [(%s"k", .object [(%s"x", .boolean true)])], []⟩) = .error e) ∧
    (∃ e, parseModel flt enum (writeIdl exFmt %s"a" ⟨.v10, [(%s"k", .none)], []⟩) = .error e) :=
  ⟨⟨_, rfl⟩, ⟨_, rfl⟩, ⟨_, rfl⟩⟩

/-! ### Texts that lose something -/

set_option maxRecDepth 100000 in
/-- C53 is violated: a text without a namespace loses its metadata. -/
theorem C53_metadata_lost (flt : Str → Option F64) (enum : List ShapeID → List ShapeID) :
    parseModel flt enum %s"metadata a = 1" = .ok (Model.new .v10) := by rfl

set_option maxRecDepth 100000 in
/-- C55 is violated: the structure is defined in the namespace of the import. -/
theorem C55_import_defined (flt : Str → Option F64) (enum : List ShapeID → List ShapeID) (he : Enumerates enum) :
    ∃ m, parseModel flt enum %s"namespace a\nuse b#T\nstructure T {}" = .ok m ∧ m.shape ⟨%s"a", %s"T", none⟩ = none ∧
      m.shape ⟨%s"b", %s"T", none⟩ = some ⟨⟨%s"b", %s"T", none⟩, [], .struct []⟩ := by
  have hn : enum [] = [] := List.eq_nil_iff_forall_not_mem.mpr fun id hid => by simpa using (he.mem [] id).mp hid
  have hr : readBuilder flt %s"namespace a\nuse b#T\nstructure T {}" = .ok (some ⟨.v10, %s"a", [],
      [(.qualified ⟨%s"b", %s"T", none⟩, ⟨.qualified ⟨%s"b", %s"T", none⟩, [], .reference⟩), (.local' %s"T", ⟨.local' %s"T", [], .struct []⟩)]⟩) := by rfl
  refine ⟨⟨.v10, [], [(⟨%s"b", %s"T", none⟩, ⟨⟨%s"b", %s"T", none⟩, [], .struct []⟩)]⟩, ?_, by rfl, by rfl⟩
  unfold parseModel
  rw [hr]
  obtain ⟨_, -, -, -, hf⟩ := readBuilder_fromFile hr
  refine (build_ok hf.wf enum _).mpr ⟨_, [], rfl, ?_⟩
  rw [hn]
  rfl

end Verif
