/-
Properties of the Smithy IDL reader and writer (C51-C56).
-/
import Verif.IdlImage
import Verif.IdlRoundTrip

namespace Verif
open Peg Spec

/-! ### C51: the round trip -/

/-- C51: reading the text of a writable model gives what is in the text: the version, the metadata (with quotes around the
keys), the placeholders and the shapes of the namespace, as `kept` says. -/
theorem C51_round_trip (f : Fmt) (flt : Str → Option F64) (enum : List ShapeID → List ShapeID) (he : Enumerates enum)
    (m : Model) (ns : Str) (h : WritableModel f flt m ns) :
    ∃ m', parseModel flt enum (writeIdl f ns m) = .ok m' ∧ ReadBack m ns m' ∧ WfModel m' := by
  refine ⟨_, parseModel_write h he, readBack_write h, ?_⟩
  have hp := parseModel_write h he
  rcases parseModel_read he hp with ⟨h1, h2⟩ | ⟨ns', -, h2⟩
  · rw [h2]
    exact ⟨AMap.wf_nil, by simp [Model.new], AMap.wf_nil, by simp [Model.shape, Model.new], by simp [Model.shape, Model.new],
      by simp [Model.shape, Model.new]⟩
  · exact h2

theorem keptTraits_exact {ts : Traits} (h : ExactTraits ts) : keptTraits ts = ts := by
  unfold keptTraits
  refine (List.map_congr_left fun e he => ?_).trans (List.map_id _)
  obtain ⟨id, v⟩ := e
  obtain ⟨x, hx, hn⟩ := h _ he
  simp only at hx
  subst hx
  cases x <;> first | rfl | exact absurd rfl hn

theorem keptMembers_exact {ms : AMap Str MemberShape} (h : ∀ e ∈ ms, ExactTraits e.2.traits) : (ms.map fun e => (e.1, keptMember e.2)) = ms := by
  refine (List.map_congr_left fun e he => ?_).trans (List.map_id _)
  obtain ⟨k, i, ts, t⟩ := e
  simp only [keptMember, id, keptTraits_exact (h _ he)]

theorem kept_exact {s : TopLevelShape} (h1 : ExactTraits s.traits) (h2 : ExactKind s.body) : kept s = s := by
  obtain ⟨i, ts, b⟩ := s
  simp only at h1 h2
  unfold kept
  simp only [keptTraits_exact h1]
  cases h2 with
  | struct h => simp only [keptKind, keptMembers_exact h]
  | union h => simp only [keptKind, keptMembers_exact h]
  | service h =>
    rename_i x
    obtain ⟨v, o, r, ren⟩ := x
    simp only at h
    subst h
    rfl
  | _ => rfl

/-- C51: a writable model of one namespace without metadata, sets, renames, traits on members of lists and maps, and
traits without a value, is read back as the same model. -/
theorem C51_same_model (f : Fmt) (flt : Str → Option F64) (enum : List ShapeID → List ShapeID) (he : Enumerates enum)
    (m : Model) (ns : Str) (h : WritableModel f flt m ns) (hx : ExactModel m ns) :
    ∃ m', parseModel flt enum (writeIdl f ns m) = .ok m' ∧ m'.version = m.version ∧ m'.metadata = [] ∧ ∀ id, m'.shape id = m.shape id := by
  refine ⟨_, parseModel_write h he, rfl, by simp [quotedMetadata, hx.metadata], fun id => ?_⟩
  have hb := (readBack_write h).shapes id
  cases hm : m.shape id with
  | none =>
    cases hs : Model.shape _ id with
    | none => rfl
    | some s' =>
      obtain ⟨s, h1, -⟩ := (hb s').mp hs
      rw [hm] at h1; cases h1
  | some s =>
    exact (hb s).mpr ⟨s, hm, hx.oneNamespace id s hm, (kept_exact (hx.traits id s hm) (hx.bodies id s hm)).symm⟩

/-- C51 is violated: no text at all is read as a model with a set, a rename, a trait without a value, a trait of a
placeholder, a trait of the member of a list or map, or a metadata key that is no identifier. -/
theorem C51_no_text (flt : Str → Option F64) (enum : List ShapeID → List ShapeID) (he : Enumerates enum) (m : Model) (h : NoText m) :
    ∀ s m', parseModel flt enum s = .ok m' → ¬ SameModel m m' := by
  intro s m' hp hsame
  rcases parseModel_read he hp with ⟨-, rfl⟩ | ⟨ns, hr, hw⟩
  · -- the empty model
    have hs : ∀ id x, m.shape id ≠ some x := by
      intro id x hx
      have := hsame.shapes id
      change OptRel SameShape (m.shape id) none at this
      rw [hx] at this
      cases this
    cases h with
    | @metadata k v hk _ =>
      have := hsame.metadata k
      rw [hk] at this
      cases this
    | set h => exact hs _ _ h
    | valueless h => exact hs _ _ h
    | memberValueless h => exact hs _ _ h
    | placeholder h => exact hs _ _ h
    | list h => exact hs _ _ h
    | key h => exact hs _ _ h
    | value h => exact hs _ _ h
    | rename h => exact hs _ _ h
    | member h => exact hs _ _ h
  · have get : ∀ {id x}, m.shape id = some x → ∃ y, m'.shape id = some y ∧ SameShape x y ∧ ReadShape y := by
      intro id x hx
      have := hsame.shapes id
      change OptRel SameShape (m.shape id) (m'.shape id) at this
      rw [hx] at this
      generalize ho : m'.shape id = o at this
      cases this with
      | some h => exact ⟨_, rfl, h, (hr.shapes id _ ho).1⟩
    have trait : ∀ {a b : Traits} {t v}, SameTraits a b → a.get t = some v → ∃ w, b.get t = some w ∧ OptRel Same v w := by
      intro a b t v hab hv
      have := hab t
      rw [hv] at this
      generalize ho : b.get t = o at this
      cases this with
      | some h => exact ⟨_, rfl, h⟩
    have none_trait : ∀ {a b : Traits} {t}, SameTraits a b → ReadTraits b → a.get t ≠ some none := by
      intro a b t hab hb hv
      obtain ⟨w, h1, h2⟩ := trait hab hv
      obtain ⟨-, x, rfl⟩ := hb _ _ h1
      cases h2
    have no_trait : ∀ {a b : Traits} {t v}, SameTraits a b → b = [] → a.get t ≠ some v := by
      rintro a b t v hab rfl hv
      obtain ⟨w, h1, h2⟩ := trait hab hv
      cases h1
    cases h with
    | set h hb =>
      obtain ⟨y, -, h2, h3⟩ := get h
      have := h2.body
      rw [hb] at this
      generalize hy : y.body = k at this
      cases this with
      | set =>
      rcases h3.body with ⟨h, -⟩ | h
      · rw [hy] at h; cases h
      · rw [hy] at h; cases h
    | valueless h ht =>
      obtain ⟨y, -, h2, h3⟩ := get h
      exact none_trait h2.traits h3.traits ht
    | @memberValueless id s t k x ms h hb hk ht =>
      obtain ⟨y, -, h2, h3⟩ := get h
      have hbody := h2.body
      have hread := h3.body
      generalize y.body = yb at hbody hread
      rcases hb with hb | hb
      · rw [hb] at hbody
        cases hbody with
        | struct hms =>
        rcases hread with ⟨h, -⟩ | h
        · cases h
        · cases h with
          | struct hread =>
          have := hms k
          rw [hk] at this
          generalize ho : AMap.get _ k = o at this
          cases this with
          | some hm => exact none_trait hm.2.2 (hread _ _ ho).traits ht
      · rw [hb] at hbody
        cases hbody with
        | union hms =>
        rcases hread with ⟨h, -⟩ | h
        · cases h
        · cases h with
          | union hread =>
          have := hms k
          rw [hk] at this
          generalize ho : AMap.get _ k = o at this
          cases this with
          | some hm => exact none_trait hm.2.2 (hread _ _ ho).traits ht
    | placeholder h hb ht =>
      obtain ⟨y, -, h2, h3⟩ := get h
      have hbody := h2.body
      rw [hb] at hbody
      generalize hy : y.body = k at hbody
      cases hbody with
      | unresolved =>
      rcases h3.body with ⟨-, h⟩ | h
      · exact no_trait h2.traits h ht
      · rw [hy] at h; cases h
    | list h hb ht =>
      obtain ⟨y, -, h2, h3⟩ := get h
      have hbody := h2.body
      have hread := h3.body
      rw [hb] at hbody
      generalize y.body = k at hbody hread
      cases hbody with
      | list hm =>
      rcases hread with ⟨h, -⟩ | h
      · cases h
      · cases h with | list => exact no_trait hm.2.2 rfl ht
    | key h hb ht =>
      obtain ⟨y, -, h2, h3⟩ := get h
      have hbody := h2.body
      have hread := h3.body
      rw [hb] at hbody
      generalize y.body = k at hbody hread
      cases hbody with
      | map hm _ =>
      rcases hread with ⟨h, -⟩ | h
      · cases h
      · cases h with | map => exact no_trait hm.2.2 rfl ht
    | value h hb ht =>
      obtain ⟨y, -, h2, h3⟩ := get h
      have hbody := h2.body
      have hread := h3.body
      rw [hb] at hbody
      generalize y.body = k at hbody hread
      cases hbody with
      | map _ hm =>
      rcases hread with ⟨h, -⟩ | h
      · cases h
      · cases h with | map => exact no_trait hm.2.2 rfl ht
    | @rename id s x t n h hb ht =>
      obtain ⟨y, -, h2, h3⟩ := get h
      have hbody := h2.body
      have hread := h3.body
      rw [hb] at hbody
      generalize y.body = k at hbody hread
      cases hbody with
      | service hm =>
      rcases hread with ⟨h, -⟩ | h
      · cases h
      · cases h with
        | service =>
        have := hm t
        rw [ht] at this
        cases this
    | @metadata k v hk hn =>
      have := hsame.metadata k
      rw [hk] at this
      generalize ho : m'.metadata.get k = o at this
      cases this with
      | some => exact hn (hr.metadata _ _ ho)
    | member h hn =>
      obtain ⟨y, h1, h2, h3⟩ := get h
      rw [← hw.key _ _ h1] at hn
      exact hn h3.id.2

/-! ### What the text does not determine -/

theorem insert_flatMap {K V : Type} [DecidableEq K] (m : AMap K V) (k : K) {a b : V} {p : V → Bool} {g : V → Str} (hp : p a = p b) (hg : g a = g b) :
    ((AMap.values (AMap.insert m k a)).filter p).flatMap g = ((AMap.values (AMap.insert m k b)).filter p).flatMap g := by
  induction m with
  | nil =>
    simp only [AMap.insert, AMap.values, List.map_cons, List.map_nil, List.filter_cons, List.filter_nil, hp]
    split <;> simp [hg]
  | cons e m ih =>
    obtain ⟨k', v⟩ := e
    simp only [AMap.values] at ih
    by_cases hk : k' = k
    · simp only [AMap.insert, hk, if_true, AMap.values, List.map_cons, List.filter_cons, hp]
      split <;> simp [hg]
    · simp only [AMap.insert, hk, if_false, AMap.values, List.map_cons, List.filter_cons]
      split <;> simp [ih]

theorem writeIdl_congr (f : Fmt) (ns : Str) {m m' : Model} (h1 : m.version = m'.version) (h2 : m.metadata = m'.metadata)
    (h3 : IdlWriter.uses m = IdlWriter.uses m') (h4 : IdlWriter.shapes f ns m = IdlWriter.shapes f ns m') : writeIdl f ns m = writeIdl f ns m' := by
  unfold writeIdl IdlWriter.control IdlWriter.metadata Model.hasMetadata
  rw [h1, h2, h3, h4]

/-- Two shapes that are written alike can be exchanged. -/
theorem writeIdl_exchange (f : Fmt) (ns : Str) (m : Model) {a b : TopLevelShape} (hid : a.id = b.id) (hu : a.isUnresolved = b.isUnresolved)
    (ht : a.traits = b.traits) (hs : IdlWriter.shape f ns a = IdlWriter.shape f ns b) :
    writeIdl f ns { m with shapes := AMap.insert m.shapes a.id a } = writeIdl f ns { m with shapes := AMap.insert m.shapes a.id b } := by
  refine writeIdl_congr f ns rfl rfl ?_ ?_
  · unfold IdlWriter.uses Model.shapesList
    congr 1
    exact insert_flatMap _ _ (by rw [hu, ht]) (by rw [hid])
  · unfold IdlWriter.shapes Model.shapesList
    exact insert_flatMap _ _ (by rw [hid]) hs

theorem insert_members_text {f : Fmt} {ns pre : Str} (ms : AMap Str MemberShape) (k : Str) {x y : MemberShape}
    (h : IdlWriter.member f ns pre x = IdlWriter.member f ns pre y) :
    IdlWriter.members f ns pre (AMap.insert ms k x) = IdlWriter.members f ns pre (AMap.insert ms k y) := by
  unfold IdlWriter.members
  have := insert_flatMap ms k (p := fun _ => true) (g := IdlWriter.member f ns pre) rfl h
  simpa using this

/-- C51 is violated, whatever the reader: the members of structures are written without the namespace of their targets, so
that two models that differ in it have the same text. -/
theorem C51_target_namespace_lost (f : Fmt) (ns : Str) (m : Model) (id : ShapeID) (ts mts : Traits) (ms : AMap Str MemberShape) (k n a b : Str)
    (hab : a ≠ b) : ∃ m1 m2 : Model,
      m1 = { m with shapes := AMap.insert m.shapes id ⟨id, ts, .struct (AMap.insert ms k ⟨k, mts, ⟨a, n, none⟩⟩)⟩ } ∧
      m2 = { m with shapes := AMap.insert m.shapes id ⟨id, ts, .struct (AMap.insert ms k ⟨k, mts, ⟨b, n, none⟩⟩)⟩ } ∧
      writeIdl f ns m1 = writeIdl f ns m2 ∧ ¬ SameModel m1 m2 := by
  refine ⟨_, _, rfl, rfl, ?_, ?_⟩
  · refine writeIdl_exchange f ns m (a := ⟨id, ts, _⟩) (b := ⟨id, ts, _⟩) rfl rfl rfl ?_
    simp only [IdlWriter.shape, IdlWriter.statement, ShapeKind.isUnresolved]
    rw [insert_members_text ms k (x := ⟨k, mts, ⟨a, n, none⟩⟩) (y := ⟨k, mts, ⟨b, n, none⟩⟩) rfl]
    rfl
  · intro h
    have := h.shapes id
    simp only [AMap.get_insert, if_true] at this
    cases this with
    | some h =>
    have := h.body
    cases this with
    | struct h =>
    have := h k
    simp only [AMap.get_insert, if_true] at this
    cases this with
    | some h => exact hab (congrArg ShapeID.ns h.2.1)

/-! ### C52: what is read -/

/-- C52: whatever text is read, the model is well-formed: each shape under its own id, each id valid and not of a member, each
target valid, member names as in the grammar, versions of services not empty. Only sets, renames, and some traits are
missing (C51). -/
theorem C52_read_models (flt : Str → Option F64) (enum : List ShapeID → List ShapeID) (he : Enumerates enum) (s : Str) (m : Model)
    (h : parseModel flt enum s = .ok m) : WfModel m ∧ ∀ id x, m.shape id = some x → ReadShape x := by
  rcases parseModel_read he h with ⟨-, rfl⟩ | ⟨ns, hr, hw⟩
  · exact ⟨⟨AMap.wf_nil, by simp [Model.new], AMap.wf_nil, by simp [Model.shape, Model.new], by simp [Model.shape, Model.new],
      by simp [Model.shape, Model.new]⟩, by simp [Model.shape, Model.new]⟩
  · exact ⟨hw, fun id x hx => (hr.shapes id x hx).1⟩

/-! ### C53: texts without a namespace -/

/-- C53: a text that does not have the word `namespace` gives nothing: it is rejected, or read as the empty model, whatever
metadata it has. -/
theorem C53_no_namespace (flt : Str → Option F64) (enum : List ShapeID → List ShapeID) (he : Enumerates enum) (s : Str)
    (h : ¬ %s"namespace" <:+: s) : (∃ e, parseModel flt enum s = .error e) ∨ parseModel flt enum s = .ok (Model.new .v10) := by
  cases hp : parseModel flt enum s with
  | error e => exact .inl ⟨e, rfl⟩
  | ok m =>
    rcases parseModel_read he hp with ⟨-, rfl⟩ | ⟨ns, hr, -⟩
    · exact .inr rfl
    · exact absurd hr.keyword h

/-- C53: the keys of metadata are identifiers, or have their quotes. -/
theorem C53_metadata_keys (flt : Str → Option F64) (enum : List ShapeID → List ShapeID) (he : Enumerates enum) (s : Str) (m : Model)
    (h : parseModel flt enum s = .ok m) (k : Str) (v : Value) (hk : m.metadata.get k = some v) : MetaKey k := by
  rcases parseModel_read he h with ⟨-, rfl⟩ | ⟨ns, hr, -⟩
  · cases hk
  · exact hr.metadata k v hk

/-! ### C55: where shapes come from -/

/-- C55: each shape of a model that was read is in the namespace of the file, or its absolute id is in the text. -/
theorem C55_origin (flt : Str → Option F64) (enum : List ShapeID → List ShapeID) (he : Enumerates enum) (s : Str) (m : Model)
    (h : parseModel flt enum s = .ok m) : ∃ ns, ∀ id x, m.shape id = some x → SmithyNamespace ns ∧ ns <:+: s ∧ (id.ns = ns ∨ id.display <:+: s) := by
  rcases parseModel_read he h with ⟨-, rfl⟩ | ⟨ns, hr, -⟩
  · exact ⟨[], by simp [Model.shape, Model.new]⟩
  · exact ⟨ns, fun id x hx => ⟨hr.nsText, hr.nsThere, (hr.shapes id x hx).2⟩⟩

/-! ### C56: what is written -/

/-- C56: shapes of other namespaces are not written: without them the text is the same. -/
theorem C56_one_namespace (f : Fmt) (ns : Str) (m : Model) :
    writeIdl f ns m = writeIdl f ns { m with shapes := m.shapes.filter fun e => e.2.isUnresolved || identEq e.2.id.ns ns } := by
  refine writeIdl_congr f ns rfl rfl ?_ ?_
  · unfold IdlWriter.uses Model.shapesList AMap.values
    congr 1
    rw [List.filter_map, List.filter_map, List.filter_filter]
    congr 2
    apply List.filter_congr
    intro e _
    simp only [Function.comp]
    cases e.2.isUnresolved <;> simp
  · unfold IdlWriter.shapes Model.shapesList AMap.values
    rw [List.filter_map, List.filter_map, List.filter_filter]
    congr 2
    apply List.filter_congr
    intro e _
    simp only [Function.comp]
    cases identEq e.2.id.ns ns <;> simp

end Verif
