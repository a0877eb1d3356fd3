/-
Properties of the model builder (C24-C29, C44).
-/
import Verif.BuilderModel
import Verif.IdentityProps

namespace Verif
open Spec Mk

/-! ### The builders that can be made -/

/-- The builder methods keep the invariant: `new`, ... -/
theorem wfBuilder_new (v : Version) (ns : Str) : WfBuilder ⟨v, ns, [], []⟩ := by
  refine ⟨AMap.wf_nil, ?_, ?_, AMap.wf_nil, ?_, ?_, ?_, ?_, ?_⟩ <;> intros <;> contradiction

/-- The shape builder can be made with the constructors of the builder API: references are absolute, the maps have no
duplicate keys and the values are well-formed. -/
structure LegalBuilder (b : Builder) : Prop where
  reference : b.body = .reference → ∃ id, b.name = .qualified id
  maps : BodyMapsWf b.body
  traitValues : TraitsWf b.traits
  memberTraitValues : ∀ m ∈ memberBuilders b.body, TraitsWf m.traits

theorem WfBuilder.legal {mb : ModelBuilder} (h : WfBuilder mb) {n : ShapeName} {b : Builder} (hb : mb.shapes.get n = some b) :
    LegalBuilder b :=
  ⟨fun hr => by obtain ⟨id, rfl⟩ := h.reference n b hb hr; exact ⟨id, h.key _ _ hb⟩, entry_mapsWf h hb,
    fun t v ht hv => h.traitValues n b t v hb ht hv, entry_memberTraits h hb⟩

theorem WfBuilder.of_legal {mb : ModelBuilder} (h1 : AMap.Wf mb.shapes) (h2 : ∀ n b, mb.shapes.get n = some b → b.name = n)
    (h3 : AMap.Wf mb.metadata) (h4 : ∀ k v, mb.metadata.get k = some v → v.Wf)
    (h5 : ∀ n b, mb.shapes.get n = some b → LegalBuilder b) : WfBuilder mb := by
  refine ⟨h1, h2, ?_, h3, h4, ?_, ?_, ?_, ?_⟩
  · intro n b hb hr
    obtain ⟨id, hid⟩ := (h5 n b hb).reference hr
    exact ⟨id, (h2 n b hb).symm.trans hid⟩
  · intro n b v o r ren hb hs
    have := (h5 n b hb).maps
    rw [hs] at this; exact this
  · intro n b ids c p r u d l o co rs hb hs
    have := (h5 n b hb).maps
    rw [hs] at this; exact this
  · intro n b t v hb ht hv; exact (h5 n b hb).traitValues t v ht hv
  · intro n b m t v hb hm ht hv
    refine (h5 n b hb).memberTraitValues m ?_ t v ht hv
    rcases hm with hm | hm | ⟨k, hm⟩ | ⟨k, hm⟩ | ⟨ms, hm, hi⟩ | ⟨ms, hm, hi⟩ <;> rw [hm] <;> simp [memberBuilders, *]

theorem wfBuilder_insert {mb : ModelBuilder} (h : WfBuilder mb) {b : Builder} (hb : LegalBuilder b) : WfBuilder (mb.insert b) := by
  refine WfBuilder.of_legal (AMap.wf_insert h.nodup _ _) ?_ h.metaNodup h.metaValues ?_
  all_goals
    intro n b' hn
    simp only [ModelBuilder.insert, AMap.get_insert] at hn
    split at hn
  · next he => cases hn; exact he
  · exact h.key n b' hn
  · cases hn; exact hb
  · exact WfBuilder.legal h hn

theorem wfBuilder_metaData {mb : ModelBuilder} (h : WfBuilder mb) (k : Str) {v : Value} (hv : v.Wf) : WfBuilder (mb.metaData k v) := by
  refine WfBuilder.of_legal h.nodup h.key (AMap.wf_insert h.metaNodup _ _) ?_ fun n b hb => WfBuilder.legal h hb
  intro j w hw
  simp only [ModelBuilder.metaData, AMap.get_insert] at hw
  split at hw
  · cases hw; exact hv
  · exact h.metaValues j w hw

/-! ### C24: name resolution -/

/-- C24: resolution follows the rules, and is a function of the name: each name stands for at most one id. -/
theorem C24_resolution (mb : ModelBuilder) (h : WfBuilder mb) (isTrait : Bool) (n : ShapeName) (id : ShapeID) (new : Bool) :
    mb.resolveShapeName n isTrait = .ok (id, new) ↔ Resolves mb isTrait n id new := resolveShapeName_iff h isTrait n id new

/-- C24: resolution fails in two cases only: a member id is not the id of a shape, and two imports with one name are
ambiguous. -/
theorem C24_resolution_fails (mb : ModelBuilder) (h : WfBuilder mb) (isTrait : Bool) (n : ShapeName) (e : Err) :
    mb.resolveShapeName n isTrait = .error e ↔
      (∃ id, n = .qualified id ∧ id.member ≠ none ∧ e = .shapeIDExpected id) ∨
      (∃ l i j, n = .local' l ∧ Imports mb l i ∧ Imports mb l j ∧ i ≠ j ∧ e = .ambiguousShape l) := by
  cases n with
  | qualified q =>
    by_cases hq : q.member = none
    · simp only [ModelBuilder.resolveShapeName, ShapeID.isMember, hq]
      constructor
      · intro he; cases he
      · rintro (⟨id, h1, h2, _⟩ | ⟨_, _, _, h1, _⟩)
        · cases h1; exact absurd hq h2
        · cases h1
    · have hs : q.member.isSome = true := by cases hm : q.member <;> simp_all
      simp only [ModelBuilder.resolveShapeName, ShapeID.isMember, hs, Bool.not_true, Bool.false_eq_true, if_false]
      constructor
      · intro he; cases he; exact .inl ⟨q, rfl, hq, rfl⟩
      · rintro (⟨id, h1, _, rfl⟩ | ⟨_, _, _, h1, _⟩)
        · cases h1; rfl
        · cases h1
  | local' l =>
    have hm := mem_matching h l
    have hnd : (mb.referenceNames.filter (fun n => identEq n.shapeName l)).Nodup :=
      List.Sublist.nodup List.filter_sublist (referenceNames_nodup h)
    constructor
    · intro he
      match hL : mb.referenceNames.filter (fun n => identEq n.shapeName l) with
      | [] =>
        rw [resolve_local_none isTrait l hL] at he
        split at he
        · cases he
        · split at he <;> cases he
      | [.qualified q] => simp only [ModelBuilder.resolveShapeName, hL] at he; cases he
      | [.local' q] =>
        obtain ⟨_, h1, _⟩ := (hm (.local' q)).mp (by rw [hL]; simp)
        cases h1
      | a :: b :: t =>
        simp only [ModelBuilder.resolveShapeName, hL] at he
        obtain ⟨i, rfl, hi⟩ := (hm a).mp (by rw [hL]; simp)
        obtain ⟨j, rfl, hj⟩ := (hm b).mp (by rw [hL]; simp)
        rw [hL] at hnd
        refine .inr ⟨l, i, j, rfl, hi, hj, ?_, ?_⟩
        · rintro rfl; simp at hnd
        · cases he; rfl
    · rintro (⟨id, h1, _⟩ | ⟨_, i, j, h1, hi, hj, hne, rfl⟩)
      · cases h1
      · cases h1
        have h1 := (hm (.qualified i)).mpr ⟨i, rfl, hi⟩
        have h2 := (hm (.qualified j)).mpr ⟨j, rfl, hj⟩
        match hL : mb.referenceNames.filter (fun n => identEq n.shapeName l) with
        | [] => rw [hL] at h1; simp at h1
        | [x] => rw [hL] at h1 h2; simp at h1 h2; exact absurd (ShapeName.qualified.inj (h1.trans h2.symm)) hne
        | a :: b :: t => simp only [ModelBuilder.resolveShapeName, hL]

/-- C24: the result does not depend on the order in which the builder's maps are enumerated. -/
theorem C24_order_independent (mb mb' : ModelBuilder) (h : WfBuilder mb) (h' : WfBuilder mb')
    (hns : mb.defaultNs = mb'.defaultNs) (hs : mb.shapes.Perm mb'.shapes) (isTrait : Bool) (n : ShapeName) :
    mb.resolveShapeName n isTrait = mb'.resolveShapeName n isTrait := by
  have hg : ∀ k, mb.shapes.get k = mb'.shapes.get k := fun k => AMap.get_perm hs h.nodup k
  have hi : ∀ l id, Imports mb l id ↔ Imports mb' l id := fun l id => by simp only [Imports, hg]
  have hd : ∀ l, DefinedLocally mb l ↔ DefinedLocally mb' l := fun l => by simp only [DefinedLocally, hg]
  have key : ∀ id new, Resolves mb isTrait n id new ↔ Resolves mb' isTrait n id new := by
    intro id new
    constructor
    · rintro (hq | ⟨h1, h2⟩ | ⟨h1, h2⟩ | ⟨h1, h2, h3⟩ | ⟨h1, h2, h3⟩)
      · exact .absolute hq
      · exact .imported ((hi _ _).mp h1) fun j hj => h2 j ((hi _ _).mpr hj)
      · rw [hns]; exact .defined (fun j hj => h1 j ((hi _ _).mpr hj)) ((hd _).mp h2)
      · exact .prelude (fun j hj => h1 j ((hi _ _).mpr hj)) (fun hx => h2 ((hd _).mpr hx)) h3
      · rw [hns]; exact .unknown (fun j hj => h1 j ((hi _ _).mpr hj)) (fun hx => h2 ((hd _).mpr hx)) h3
    · rintro (hq | ⟨h1, h2⟩ | ⟨h1, h2⟩ | ⟨h1, h2, h3⟩ | ⟨h1, h2, h3⟩)
      · exact .absolute hq
      · exact .imported ((hi _ _).mpr h1) fun j hj => h2 j ((hi _ _).mp hj)
      · rw [← hns]; exact .defined (fun j hj => h1 j ((hi _ _).mp hj)) ((hd _).mpr h2)
      · exact .prelude (fun j hj => h1 j ((hi _ _).mp hj)) (fun hx => h2 ((hd _).mp hx)) h3
      · rw [← hns]; exact .unknown (fun j hj => h1 j ((hi _ _).mp hj)) (fun hx => h2 ((hd _).mp hx)) h3
  cases he : mb.resolveShapeName n isTrait with
  | ok r =>
    obtain ⟨id, new⟩ := r
    exact ((C24_resolution mb' h' isTrait n id new).mpr ((key id new).mp ((C24_resolution mb h isTrait n id new).mp he))).symm
  | error e =>
    symm
    rw [C24_resolution_fails mb' h']
    rw [C24_resolution_fails mb h] at he
    rcases he with he | ⟨l, i, j, h1, h2, h3, h4⟩
    · exact .inl he
    · exact .inr ⟨l, i, j, h1, (hi _ _).mp h2, (hi _ _).mp h3, h4⟩

/-- C24: how the text of a name is read: a valid absolute id is absolute, otherwise a valid identifier is local. -/
theorem C24_name_syntax (s : Str) :
    (∀ n, ShapeName.fromStr s = .ok n → n.display = s) ∧
    (∀ id, ShapeName.fromStr s = .ok (.qualified id) ↔ ShapeID.fromStr s = .ok id) ∧
    (∀ l, ShapeName.fromStr s = .ok (.local' l) ↔ l = s ∧ IsIdentifier s) ∧
    (∀ e, ShapeName.fromStr s = .error e → e = .invalidShapeID s ∧ ¬ IsIdentifier s ∧ ∀ id, ShapeID.fromStr s ≠ .ok id) := by
  have hid : IsIdentifier s → ∀ id, ShapeID.fromStr s ≠ .ok id := by
    intro hi id hs
    have h1 : '#' ∈ s := by
      rw [← (C03_display_parse s id hs).1]; unfold ShapeID.display; cases id.member <;> simp
    exact identifier_not_mem hi (by decide) h1
  cases hs : ShapeID.fromStr s with
  | ok id =>
    have hv : ShapeID.isValid s = true := by simp [ShapeID.isValid, hs]
    have he : ShapeName.fromStr s = .ok (.qualified id) := by simp [ShapeName.fromStr, hv, hs, Except.map]
    rw [he]
    refine ⟨?_, ?_, ?_, ?_⟩
    · intro n hn; cases hn; exact (C03_display_parse s id hs).1
    · intro j; constructor
      · intro h; cases h; rfl
      · intro h; cases h; rfl
    · intro l; constructor
      · intro h; cases h
      · rintro ⟨_, h⟩; exact absurd hs (hid h id)
    · intro e h; cases h
  | error e =>
    have hv : ShapeID.isValid s = false := by simp [ShapeID.isValid, hs]
    by_cases hi : IsIdentifier s
    · have he : ShapeName.fromStr s = .ok (.local' s) := by simp [ShapeName.fromStr, hv, (isIdent_iff s).mpr hi]
      rw [he]
      refine ⟨?_, ?_, ?_, ?_⟩
      · intro n hn; cases hn; rfl
      · intro j; constructor
        · intro h; cases h
        · intro h; cases h
      · intro l; constructor
        · intro h; cases h; exact ⟨rfl, hi⟩
        · rintro ⟨rfl, _⟩; rfl
      · intro e h; cases h
    · have hi' : isIdent s = false := by
        rw [← isIdent_iff] at hi; simpa using hi
      have he : ShapeName.fromStr s = .error (.invalidShapeID s) := by simp [ShapeName.fromStr, hv, hi']
      rw [he]
      refine ⟨?_, ?_, ?_, ?_⟩
      · intro n hn; cases hn
      · intro j; constructor
        · intro h; cases h
        · intro h; cases h
      · intro l; constructor
        · intro h; cases h
        · rintro ⟨_, h⟩; exact absurd h hi
      · intro e' h; cases h; exact ⟨rfl, hi, fun id h => by cases h⟩

/-! ### C25: what a built model contains -/

theorem Spec.BuildsId.unique {mb : ModelBuilder} (h : WfBuilder mb) {b : Builder} {i j : ShapeID} (h1 : BuildsId mb b i)
    (h2 : BuildsId mb b j) : i = j := by
  rcases h1 with ⟨a1, b1⟩ | ⟨a1, x, b1⟩ <;> rcases h2 with ⟨a2, b2⟩ | ⟨a2, y, b2⟩
  · rw [b1] at b2; cases b2; rfl
  · exact absurd a1 a2
  · exact absurd a2 a1
  · exact (b1.unique h b2).1

theorem Spec.BuildsBody.unresolved_iff {mb : ModelBuilder} {b : BuilderBody} {k : ShapeKind} (h : BuildsBody mb b k) :
    k = .unresolved ↔ b = .reference := by cases h <;> simp

/-- Everything a successful build consists of. -/
theorem build_parts {mb : ModelBuilder} (h : WfBuilder mb) {enum : List ShapeID → List ShapeID} (he : Enumerates enum) {m : Model}
    (hb : mb.build enum = .ok m) : ∃ (ss : List TopLevelShape) (gs : List ShapeID), ListRel (BuildsShape mb) (AMap.values mb.shapes) ss ∧
      (∀ id, id ∈ gs ↔ Guessed mb id) ∧ (∀ n b, mb.shapes.get n = some b → Buildable mb b) ∧
      Model.addAllIgnoring ⟨mb.version, mb.metadata, []⟩ (ss ++ gs.map fun id => TopLevelShape.new id .unresolved) = .ok m := by
  obtain ⟨ss, r, h1, h2⟩ := (build_ok h enum m).mp hb
  have h3 := (makeAll_ok h).post _ _ h1
  exact ⟨ss, enum r, h3.1, fun id => (he.mem r id).trans (h3.2 id), (makeAll_ok h).good.mp ⟨_, _, h1⟩, h2⟩

theorem start_shape (mb : ModelBuilder) (id : ShapeID) : Model.shape ⟨mb.version, mb.metadata, []⟩ id = none := rfl

/-- C25: building succeeds only when every name mentioned in the builder stands for an id. Conversely if they all do,
building succeeds or panics (C14). -/
theorem C25_build_needs_names (mb : ModelBuilder) (h : WfBuilder mb) (enum : List ShapeID → List ShapeID) (he : Enumerates enum) :
    (∀ m, mb.build enum = .ok m → ∀ n b, mb.shapes.get n = some b → Buildable mb b) ∧
    ((∀ n b, mb.shapes.get n = some b → Buildable mb b) → (∃ m, mb.build enum = .ok m) ∨ mb.build enum = .error .panic) := by
  constructor
  · intro m hb
    obtain ⟨_, _, _, _, h3, _⟩ := build_parts h he hb
    exact h3
  · intro hg
    obtain ⟨ss, r, h1⟩ := (makeAll_ok h).good.mpr hg
    cases hb : mb.build enum with
    | ok m => exact .inl ⟨m, rfl⟩
    | error e =>
      right
      cases hm : Model.addAllIgnoring ⟨mb.version, mb.metadata, []⟩ (ss ++ (enum r).map fun id => TopLevelShape.new id .unresolved) with
      | ok m => rw [(build_ok h enum m).mpr ⟨ss, r, h1, hm⟩] at hb; cases hb
      | error e' =>
        have hp := addAllIgnoring_error hm
        subst hp
        unfold ModelBuilder.build at hb
        have hmd : (Model.new mb.version).addMetadataIgnoring mb.metadata = ⟨mb.version, mb.metadata, []⟩ := by
          have := addMetadataIgnoring_fresh mb.version [] mb.metadata [] (by simpa using h.metaNodup)
          simpa [Model.new] using this
        rw [hmd] at hb
        split at hb
        · next e'' hx =>
          cases hb
          have := addBuilt_error h hx h1
          rw [this]
        · next m' refs hx =>
          rw [addUnresolved_eq] at hb
          rw [addAllIgnoring_error hb]

/-- C25: a built model is well-formed (each shape under its own id, only placeholders may have member ids), has the
version and the metadata given, and contains exactly the ids of the entries of the builder, and the ids guessed for
unknown names. An entry whose name stands for a member id is the exception: it is dropped unless it is a reference. -/
theorem C25_built_model (mb : ModelBuilder) (h : WfBuilder mb) (enum : List ShapeID → List ShapeID) (he : Enumerates enum)
    (m : Model) (hb : mb.build enum = .ok m) :
    WfModel m ∧ m.version = mb.version ∧ m.metadata = mb.metadata ∧
    ∀ id, (m.shape id).isSome = true ↔
      (∃ n b, mb.shapes.get n = some b ∧ BuildsId mb b id ∧ (id.member = none ∨ b.body = .reference)) ∨ Guessed mb id := by
  obtain ⟨ss, gs, h1, h2, h3, h4⟩ := build_parts h he hb
  have hr := addAllIgnoring_rest h4
  refine ⟨addAllIgnoring_wf h4 ?_ ?_, hr.1, hr.2, ?_⟩
  · exact ⟨h.metaNodup, h.metaValues, AMap.wf_nil, by simp [Model.shape], by simp [Model.shape], by simp [Model.shape]⟩
  · intro s hs
    rcases List.mem_append.mp hs with hs | hs
    · obtain ⟨b, hb', hs'⟩ := (listRel_split h1).2 s hs
      exact hs'.wf h ((mem_values h).mp hb')
    · obtain ⟨id, _, rfl⟩ := List.mem_map.mp hs
      exact ⟨⟨AMap.wf_nil, fun _ _ h => by cases h⟩, trivial⟩
  · intro id
    rw [addAllIgnoring_slot h4 id, slot_isSome, start_shape]
    simp only [Option.isSome_none, Bool.false_eq_true, false_or, List.mem_filter, List.mem_append, List.mem_map, decide_eq_true_eq]
    constructor
    · rintro ⟨s, ⟨hs | ⟨j, hj, rfl⟩, rfl⟩, ha⟩
      · obtain ⟨b, hb', hs'⟩ := (listRel_split h1).2 s hs
        refine .inl ⟨b.name, b, (mem_values h).mp hb', hs'.id, ?_⟩
        by_cases hm : s.id.member = none
        · exact .inl hm
        · right
          rw [← hs'.body.unresolved_iff]
          exact ha (by cases hx : s.id.member <;> simp_all [ShapeID.isMember])
      · exact .inr ((h2 _).mp hj)
    · rintro (⟨n, b, hn, hid, hm⟩ | hg)
      · have hk := h.key n b hn
        subst hk
        obtain ⟨s, hs, hs'⟩ := (listRel_split h1).1 b ((mem_values h).mpr hn)
        have hsid : s.id = id := hs'.id.unique h hid
        refine ⟨s, ⟨.inl hs, hsid⟩, ?_⟩
        intro hmem
        rcases hm with hm | hm
        · rw [hsid] at hmem; simp [ShapeID.isMember, hm] at hmem
        · exact hs'.body.unresolved_iff.mpr hm
      · exact ⟨TopLevelShape.new id .unresolved, ⟨.inr ⟨id, (h2 id).mpr hg, rfl⟩, rfl⟩, fun _ => rfl⟩


/-- When exactly one element of a list is related to elements satisfying `P`, there is exactly one such element. -/
theorem listRel_filter_unique {α β : Type} {R : α → β → Prop} {P : β → Bool} {l : List α} {m : List β} (h : ListRel R l m)
    (hnd : l.Nodup) {a : α} (ha : a ∈ l) (h1 : ∀ y, R a y → P y = true) (h2 : ∀ x ∈ l, ∀ y, R x y → P y = true → x = a) :
    ∃ y, R a y ∧ m.filter P = [y] := by
  induction l generalizing m with
  | nil => cases ha
  | cons x l ih =>
    obtain ⟨y, m', rfl, hxy, hrest⟩ := listRel_cons_left h
    rw [List.nodup_cons] at hnd
    rcases List.mem_cons.mp ha with rfl | ha'
    · refine ⟨y, hxy, ?_⟩
      rw [List.filter_cons, h1 y hxy]
      simp only [if_true, List.cons.injEq, true_and, List.filter_eq_nil_iff]
      intro z hz hp
      obtain ⟨x, hx, hxz⟩ := (listRel_split hrest).2 z hz
      have := h2 x (by simp [hx]) z hxz hp
      subst this
      exact hnd.1 hx
    · obtain ⟨z, hz, hf⟩ := ih hrest hnd.2 ha' fun x hx => h2 x (by simp [hx])
      refine ⟨z, hz, ?_⟩
      rw [List.filter_cons, if_neg, hf]
      intro hp
      have := h2 x (by simp) y hxy hp
      subst this
      exact hnd.1 ha'

theorem values_nodup {mb : ModelBuilder} (h : WfBuilder mb) : (AMap.values mb.shapes).Nodup := by
  have : (AMap.values mb.shapes).map (·.name) = AMap.keys mb.shapes := by
    simp only [AMap.values, AMap.keys, List.map_map]
    apply List.map_congr_left
    rintro ⟨n, b⟩ he
    exact h.key n b (AMap.get_of_mem h.nodup he)
  have hnd : ((AMap.values mb.shapes).map (·.name)).Nodup := this ▸ h.nodup
  exact List.Pairwise.of_map (·.name) (fun a b hab he => hab (congrArg _ he)) hnd

/-- C25: an entry of the builder that is the only one to stand for its id gives the shape of that id, with all its
content: `BuildsShape` is the specification of the content. -/
theorem C25_entry_built (mb : ModelBuilder) (h : WfBuilder mb) (enum : List ShapeID → List ShapeID) (he : Enumerates enum)
    (m : Model) (hb : mb.build enum = .ok m) (n : ShapeName) (b : Builder) (id : ShapeID) (hn : mb.shapes.get n = some b)
    (hid : BuildsId mb b id) (hmem : id.member = none ∨ b.body = .reference)
    (huniq : ∀ n' b', mb.shapes.get n' = some b' → BuildsId mb b' id → n' = n) :
    ∃ s, m.shape id = some s ∧ BuildsShape mb b s := by
  obtain ⟨ss, gs, h1, h2, h3, h4⟩ := build_parts h he hb
  have hk := h.key n b hn
  subst hk
  obtain ⟨s, hs, hf⟩ := listRel_filter_unique (P := fun s => decide (s.id = id)) h1 (values_nodup h) ((mem_values h).mpr hn)
    (fun y hy => decide_eq_true (hy.id.unique h hid))
    (fun x hx y hy hp => by
      have hx' := (mem_values h).mp hx
      have := huniq x.name x hx' (of_decide_eq_true hp ▸ hy.id)
      rw [this, hn] at hx'
      exact (Option.some.inj hx').symm)
  refine ⟨s, ?_, hs⟩
  have hsid : s.id = id := hs.id.unique h hid
  rw [addAllIgnoring_slot h4 id, List.filter_append, hf, start_shape, List.foldl_append, List.foldl_cons, List.foldl_nil,
    slotStep_admissible]
  · apply slot_bare
    intro t ht
    obtain ⟨j, _, rfl⟩ := List.mem_map.mp (List.mem_filter.mp ht).1
    exact ⟨rfl, rfl⟩
  · intro hm
    rcases hmem with hm' | hr
    · rw [hsid, ShapeID.isMember, hm'] at hm; cases hm
    · exact hs.body.unresolved_iff.mpr hr

/-- C25: member ids get into a built model only as imports that name a member. -/
theorem C25_member_ids (mb : ModelBuilder) (h : WfBuilder mb) (enum : List ShapeID → List ShapeID) (he : Enumerates enum)
    (m : Model) (hb : mb.build enum = .ok m) (id : ShapeID) (hs : (m.shape id).isSome = true) (hm : id.member ≠ none) :
    ∃ b, mb.shapes.get (.qualified id) = some b ∧ b.body = .reference := by
  rcases ((C25_built_model mb h enum he m hb).2.2.2 id).mp hs with ⟨n, b, hn, hid, hr⟩ | ⟨_, _, _, x, _, _, hx⟩
  · rcases hr with hr | hr
    · exact absurd hr hm
    · rcases hid with ⟨_, h2⟩ | ⟨h2, _⟩
      · rw [h.key n b hn] at h2; subst h2; exact ⟨b, hn, hr⟩
      · exact absurd hr h2
  · cases hx; exact absurd rfl hm

/-! ### C26: the placeholders of a built model -/

/-- C26: the built model defines exactly the ids that the non-reference entries of the builder stand for. -/
theorem C26_defines_iff (mb : ModelBuilder) (h : WfBuilder mb) (enum : List ShapeID → List ShapeID) (he : Enumerates enum)
    (m : Model) (hb : mb.build enum = .ok m) (id : ShapeID) :
    Defines m id ↔ id.member = none ∧ ∃ n b, mb.shapes.get n = some b ∧ b.body ≠ .reference ∧ Target mb n id := by
  obtain ⟨ss, gs, h1, h2, h3, h4⟩ := build_parts h he hb
  unfold Defines
  rw [addAllIgnoring_slot h4 id, start_shape, slot_defined _ none (by simp)]
  simp only [List.mem_filter, List.mem_append, List.mem_map, decide_eq_true_eq]
  constructor
  · rintro ⟨s, ⟨hs | ⟨j, _, rfl⟩, rfl⟩, ha, hd⟩
    · obtain ⟨b, hb', hs'⟩ := (listRel_split h1).2 s hs
      have hnr : b.body ≠ .reference := fun hr => hd (hs'.body.unresolved_iff.mpr hr)
      refine ⟨?_, b.name, b, (mem_values h).mp hb', hnr, ?_⟩
      · apply Classical.byContradiction
        intro hm
        exact hd (ha (by cases hx : s.id.member <;> simp_all [ShapeID.isMember]))
      · rcases hs'.id with ⟨hr, _⟩ | ⟨_, ht⟩
        · exact absurd hr hnr
        · exact ht
    · exact absurd rfl hd
  · rintro ⟨hm, n, b, hn, hnr, ht⟩
    have hk := h.key n b hn
    subst hk
    obtain ⟨s, hs, hs'⟩ := (listRel_split h1).1 b ((mem_values h).mpr hn)
    have hsid : s.id = id := hs'.id.unique h (.inr ⟨hnr, ht⟩)
    refine ⟨s, ⟨.inl hs, hsid⟩, ?_, fun hu => hnr (hs'.body.unresolved_iff.mp hu)⟩
    intro hx
    rw [hsid, ShapeID.isMember, hm] at hx; cases hx

theorem present_iff (m : Model) (id : ShapeID) : (m.shape id).isSome = true ↔ Defines m id ∨ Placeholder m id := by
  unfold Defines Placeholder
  cases m.shape id with
  | none => simp
  | some s => by_cases hs : s.body = .unresolved <;> simp [hs]

theorem placeholder_not_defines {m : Model} {id : ShapeID} (hp : Placeholder m id) : ¬ Defines m id := by
  obtain ⟨s, hs, hu⟩ := hp
  rintro ⟨t, ht, hd⟩
  rw [hs] at ht; injection ht with ht; subst ht; exact hd hu

/-- C26: the placeholders of the built model are the imported ids and the ids guessed for unknown names, unless
defined. -/
theorem C26_placeholder_iff (mb : ModelBuilder) (h : WfBuilder mb) (enum : List ShapeID → List ShapeID) (he : Enumerates enum)
    (m : Model) (hb : mb.build enum = .ok m) (id : ShapeID) :
    Placeholder m id ↔ ¬ Defines m id ∧
      (Guessed mb id ∨ ∃ b, mb.shapes.get (.qualified id) = some b ∧ b.body = .reference) := by
  have hp := (C25_built_model mb h enum he m hb).2.2.2 id
  rw [present_iff] at hp
  have hd := C26_defines_iff mb h enum he m hb id
  constructor
  · intro hpl
    have hnd := placeholder_not_defines hpl
    refine ⟨hnd, ?_⟩
    rcases hp.mp (.inr hpl) with ⟨n, b, hn, hid, hmr⟩ | hg
    · have hk := h.key n b hn
      subst hk
      rcases hid with ⟨hr, hnm⟩ | ⟨hnr, ht⟩
      · exact .inr ⟨b, hnm ▸ hn, hr⟩
      · rcases hmr with hm | hr
        · exact absurd (hd.mpr ⟨hm, _, b, hn, hnr, ht⟩) hnd
        · exact absurd hr hnr
    · exact .inl hg
  · rintro ⟨hnd, hg⟩
    have : Defines m id ∨ Placeholder m id := by
      rw [hp]
      rcases hg with hg | ⟨b, hb', hr⟩
      · exact .inr hg
      · exact .inl ⟨_, b, hb', .inl ⟨hr, h.key _ _ hb'⟩, .inr hr⟩
    exact this.resolve_left hnd

/-- C26: the built model is complete exactly when every imported id and every guessed id is defined. -/
theorem C26_complete_iff (mb : ModelBuilder) (h : WfBuilder mb) (enum : List ShapeID → List ShapeID) (he : Enumerates enum)
    (m : Model) (hb : mb.build enum = .ok m) :
    m.isComplete = true ↔ ∀ id, (Guessed mb id ∨ ∃ b, mb.shapes.get (.qualified id) = some b ∧ b.body = .reference) →
      id.member = none ∧ ∃ n b, mb.shapes.get n = some b ∧ b.body ≠ .reference ∧ Target mb n id := by
  rw [(C21_isComplete_iff m (C25_built_model mb h enum he m hb).1).2]
  constructor
  · intro hc id hg
    rw [← C26_defines_iff mb h enum he m hb]
    apply Classical.byContradiction
    intro hn
    obtain ⟨s, hs, hu⟩ := (C26_placeholder_iff mb h enum he m hb id).mpr ⟨hn, hg⟩
    exact hc id s hs hu
  · intro hc id s hs hu
    have hp := (C26_placeholder_iff mb h enum he m hb id).mp ⟨s, hs, hu⟩
    exact hp.1 ((C26_defines_iff mb h enum he m hb id).mpr (hc id hp.2))

/-- C26: a name that is not imported, not defined and not in the prelude leaves a placeholder in the built model, which is
then not complete, unless the shape has been added under its absolute id. -/
theorem C26_unknown_name (mb : ModelBuilder) (h : WfBuilder mb) (enum : List ShapeID → List ShapeID) (he : Enumerates enum)
    (m : Model) (hb : mb.build enum = .ok m) (n : ShapeName) (b : Builder) (tr : Bool) (l : Str)
    (hn : mb.shapes.get n = some b) (hl : Mentions b tr (.local' l)) (hi : ∀ id, ¬ Imports mb l id)
    (hd : ¬ DefinedLocally mb l) (hp : ¬ InPrelude tr l) :
    (Placeholder m ⟨mb.defaultNs, l, none⟩ ∧ m.isComplete = false) ∨
    (Defines m ⟨mb.defaultNs, l, none⟩ ∧ ∃ b, mb.shapes.get (.qualified ⟨mb.defaultNs, l, none⟩) = some b ∧ b.body ≠ .reference) := by
  have hg : Guessed mb ⟨mb.defaultNs, l, none⟩ := ⟨n, b, tr, _, hn, hl, .unknown hi hd hp⟩
  by_cases hdef : Defines m ⟨mb.defaultNs, l, none⟩
  · refine .inr ⟨hdef, ?_⟩
    obtain ⟨_, n', b', hn', hnr, new, ht⟩ := (C26_defines_iff mb h enum he m hb _).mp hdef
    generalize hj : (⟨mb.defaultNs, l, none⟩ : ShapeID) = j at ht
    cases ht with
    | absolute _ => subst hj; exact ⟨b', hn', hnr⟩
    | imported h1 h2 =>
      subst hj
      obtain ⟨b2, hb2, hr2, _⟩ := h1
      exact absurd ⟨b2, hb2, hr2, rfl⟩ (hi ⟨mb.defaultNs, l, none⟩)
    | defined h1 h2 => cases hj; exact absurd h2 hd
    | «prelude» h1 h2 => exact absurd ⟨b', hn'⟩ h2
    | unknown h1 h2 => exact absurd ⟨b', hn'⟩ h2
  · have hpl := (C26_placeholder_iff mb h enum he m hb _).mpr ⟨hdef, .inl hg⟩
    refine .inl ⟨hpl, ?_⟩
    rw [Bool.eq_false_iff]
    intro hc
    obtain ⟨s, hs, hu⟩ := hpl
    exact ((C21_isComplete_iff m (C25_built_model mb h enum he m hb).1).2.mp hc) _ s hs hu

/-! ### C27: the declared shape type -/

/-- The shape has the type the builder declares. -/
inductive SameType : BuilderBody → ShapeKind → Prop
  | simple {s} : SameType (.simple s) (.simple s)
  | list {b m} : SameType (.list b) (.list m)
  | set {b m} : SameType (.set b) (.set m)
  | map {a b m n} : SameType (.map a b) (.map m n)
  | struct {b m} : SameType (.struct b) (.struct m)
  | union {b m} : SameType (.union b) (.union m)
  | service {v o r n s} : SameType (.service v o r n) (.service s)
  | operation {a b c s} : SameType (.operation a b c) (.operation s)
  | resource {a b c d e f g h i j s} : SameType (.resource a b c d e f g h i j) (.resource s)
  | reference : SameType .reference .unresolved

theorem Spec.BuildsBody.type_iff {mb : ModelBuilder} {b : BuilderBody} {k : ShapeKind} (h : BuildsBody mb b k) :
    SameType b k ↔ ∀ x, b ≠ .set x := by
  cases h with
  | set hm => exact ⟨fun h => (by cases h), fun h => absurd rfl (h _)⟩
  | _ => exact ⟨fun _ _ => by simp, fun _ => by constructor⟩

/-- C27: a defined id has the type one of its entries declares, unless that is a set. Sets
become lists (`C27_set_becomes_list`); see `C27_type` for the full statement. -/
theorem C27_type_kept (mb : ModelBuilder) (h : WfBuilder mb) (enum : List ShapeID → List ShapeID) (he : Enumerates enum)
    (m : Model) (hb : mb.build enum = .ok m) (id : ShapeID) (s : TopLevelShape) (hs : m.shape id = some s)
    (hd : s.body ≠ .unresolved)
    (hnoset : ∀ n b x, mb.shapes.get n = some b → BuildsId mb b id → b.body ≠ .set x) :
    ∃ n b, mb.shapes.get n = some b ∧ BuildsId mb b id ∧ SameType b.body s.body := by
  obtain ⟨ss, gs, h1, h2, h3, h4⟩ := build_parts h he hb
  rw [addAllIgnoring_slot h4 id, start_shape] at hs
  rcases slot_body _ _ _ hs with ⟨_, hx, _⟩ | ⟨t, ht, _, hbody⟩
  · cases hx
  · simp only [List.mem_filter, List.mem_append, List.mem_map, decide_eq_true_eq] at ht
    obtain ⟨ht | ⟨j, _, rfl⟩, hid⟩ := ht
    · obtain ⟨b, hb', hs'⟩ := (listRel_split h1).2 t ht
      have hid' : BuildsId mb b id := hid ▸ hs'.id
      refine ⟨b.name, b, (mem_values h).mp hb', hid', ?_⟩
      rw [hbody, hs'.body.type_iff]
      exact fun x => hnoset _ b x ((mem_values h).mp hb') hid'
    · exact absurd hbody hd

/-- C27 is violated: a set builder never gives a set, but a list. -/
theorem C27_set_becomes_list (mb : ModelBuilder) (h : WfBuilder mb) (enum : List ShapeID → List ShapeID) (he : Enumerates enum)
    (m : Model) (hb : mb.build enum = .ok m) :
    (∀ id s x, m.shape id = some s → s.body ≠ .set x) ∧
    (∀ n b x id, mb.shapes.get n = some b → b.body = .set x → Target mb n id →
      (∀ n' b', mb.shapes.get n' = some b' → BuildsId mb b' id → n' = n) → id.member = none →
      ∃ s y, m.shape id = some s ∧ s.body = .list y) := by
  constructor
  · intro id s x hs hx
    obtain ⟨ss, gs, h1, h2, h3, h4⟩ := build_parts h he hb
    rw [addAllIgnoring_slot h4 id, start_shape] at hs
    rcases slot_body _ _ _ hs with ⟨_, hx, _⟩ | ⟨t, ht, _, hbody⟩
    · cases hx
    · simp only [List.mem_filter, List.mem_append, List.mem_map] at ht
      obtain ⟨ht | ⟨j, _, rfl⟩, _⟩ := ht
      · obtain ⟨b, hb', hs'⟩ := (listRel_split h1).2 t ht
        have := hs'.body
        rw [← hbody, hx] at this
        generalize b.body = bb at this
        cases this
      · rw [hx] at hbody; cases hbody
  · intro n b x id hn hbx ht hu hm
    have hnr : b.body ≠ .reference := by rw [hbx]; simp
    have hk := h.key n b hn
    obtain ⟨s, hs, hs'⟩ := C25_entry_built mb h enum he m hb n b id hn (.inr ⟨hnr, by rw [hk]; exact ht⟩) (.inl hm) hu
    have hbody := hs'.body
    rw [hbx] at hbody
    generalize hk2 : s.body = k at hbody
    cases hbody with
    | set hm => exact ⟨s, _, hs, hk2⟩

end Verif
