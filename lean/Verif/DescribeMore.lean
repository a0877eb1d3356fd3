/-
C82 and C83: what the document about a model says, what it does not say, and where its links lead.
-/
import Verif.DescribeProps
import Verif.Idl
import Mathlib.Data.List.Pairwise

namespace Verif
open Spec
namespace Describe
open Spec.Doc

theorem mem_model {f : Fmt} {m : Model} (hw : WfModel m) {x : Inline} : x ∈ inlinesAll (modelBlocks f m) ↔
    x = .plain (%s"Smithy Version: " ++ m.version.display) ∨ ∃ id s, DefinesShape m id s ∧ x ∈ inlinesAll (shapeBlocks f s) := by
  have h1 : inlinesAll (frontBlocks f m) = [.plain (%s"Smithy Version: " ++ m.version.display)] := by
    unfold frontBlocks
    split <;> simp [inlinesAll, inlines, describeModelMetadata]
  rw [modelBlocks, inlines_append, h1, List.mem_append, List.mem_singleton, mem_inlines_flatMap]
  refine or_congr Iff.rfl ?_
  have h2 : ∀ ns, inlinesAll (namespaceBlocks f m ns) = inlinesAll ((shapesIn m ns).flatMap (shapeBlocks f)) := fun ns => by
    simp [namespaceBlocks, inlinesAll, inlines]
  simp only [h2, mem_inlines_flatMap]
  constructor
  · rintro ⟨ns, -, s, hs, hx⟩; exact ⟨s.id, s, ((mem_shapesIn hw).mp hs).1, hx⟩
  · rintro ⟨id, s, hd, hx⟩
    obtain ⟨rfl, -⟩ := member_none hw hd
    exact ⟨s.id.ns, (PlantUml.mem_namespaces hw).mpr ⟨s.id, s, hd, rfl⟩, s, (mem_shapesIn hw).mpr ⟨hd, rfl⟩, hx⟩

theorem mem_shape {f : Fmt} {s : TopLevelShape} {x : Inline} : x ∈ inlinesAll (shapeBlocks f s) ↔
    x ∈ inlinesAll (documentation f s.traits) ∨ x ∈ inlinesAll (bodyBlocks f s.id s.body) := by
  unfold shapeBlocks
  rw [inlines_append, List.mem_append]
  rfl

/-- C82: the document names everything a shape refers to, except identifiers of resources, and has all documentation. -/
theorem C82_described (f : Fmt) (m : Model) (hw : WfModel m) (d : Document) (h : describeModel f m = .ok d) (id : ShapeID) (s : TopLevelShape)
    (hs : DefinesShape m id s) :
    (∀ t ∈ references s, refTo id t ∈ inlinesAll d.blocks) ∧
    (∀ x, AMap.get s.traits ⟨%s"smithy.api", %s"documentation", none⟩ = some (some (.string x)) → .plain x ∈ inlinesAll d.blocks) ∧
    (∀ y ∈ memberShapes s.body, ∀ x, AMap.get y.traits ⟨%s"smithy.api", %s"documentation", none⟩ = some (some (.string x)) →
      .plain x ∈ inlinesAll d.blocks) := by
  obtain ⟨rfl, hm⟩ := member_none hw hs
  rw [describe_ok hw h]
  obtain ⟨h1, h2, -⟩ := mem_body (f := f) (id := s.id) (k := s.body) (x := .plain [])
  refine ⟨fun t ht => ?_, fun x hx => ?_, fun y hy x hx => ?_⟩
  · rw [← link_eq hm]
    exact (mem_model hw).mpr (.inr ⟨_, s, hs, mem_shape.mpr (.inr (h1 t ht))⟩)
  · exact (mem_model hw).mpr (.inr ⟨_, s, hs, mem_shape.mpr (.inl (mem_docs.mpr (.inl ⟨x, hx, rfl⟩)))⟩)
  · exact (mem_model hw).mpr (.inr ⟨_, s, hs, mem_shape.mpr (.inr (h2 y hy _ (mem_docs.mpr (.inl ⟨x, hx, rfl⟩))))⟩)

/-! ### What makes no difference -/

/-- The rows of a value. -/
def valueRows (f : Fmt) (id : Str) : TraitValue → List TraitRow
  | some v => traitValue f id none v
  | none => [(id, none, none)]

theorem composite_rows {f : Fmt} {id : Str} {v : Value} (h : Composite v) (p q : Option Str) : traitValue f id p v = traitValue f id q v := by
  cases h <;> simp only [traitValue]

theorem like_rows {f : Fmt} {id : Str} {v w : TraitValue} (h : LikeValue v w) : valueRows f id v = valueRows f id w := by
  induction h with
  | refl => rfl
  | symm _ ih => exact ih.symm
  | trans _ _ ih ih' => exact ih.trans ih'
  | null => rfl
  | emptyArray => rfl
  | emptyObject => rfl
  | @array v hc =>
    have : valueRows f id (some (.array [v])) = traitValue f id (some (%s"[" ++ showNat 0 ++ %s"]")) v := by
      change traitValue f id none (.array [v]) = _
      simp only [traitValue, arrayRows, List.isEmpty_cons, Bool.false_eq_true, if_false, List.append_nil]
      rfl
    rw [this]
    exact composite_rows hc _ _
  | @object k v hc =>
    have : valueRows f id (some (.object [(k, v)])) = traitValue f id (some ('.' :: k)) v := by
      change traitValue f id none (.object [(k, v)]) = _
      simp [traitValue, objectRows, entryRows]
    rw [this]
    exact composite_rows hc _ _

theorem forall₂_map_eq {α β γ : Type} {R : α → β → Prop} {l : List α} {l' : List β} (h : List.Forall₂ R l l') (g : α → γ) (g' : β → γ)
    (hg : ∀ x y, R x y → g x = g' y) : l.map g = l'.map g' := by
  induction h with
  | nil => rfl
  | cons hxy _ ih => rw [List.map_cons, List.map_cons, ih, hg _ _ hxy]

theorem like_get {a b : Traits} (h : LikeTraits a b) {t : ShapeID} (ht : isDocs t = true) : AMap.get a t = AMap.get b t := by
  induction h with
  | nil => rfl
  | @cons x y l l' hxy _ ih =>
    obtain ⟨i, v⟩ := x
    obtain ⟨j, w⟩ := y
    obtain ⟨h1, h2, h3⟩ := hxy
    dsimp only at h1 h2 h3
    subst h1
    rw [AMap.get_cons, AMap.get_cons, ih]
    by_cases he : i = t
    · subst he; rw [h3 ht]
    · rw [if_neg he, if_neg he]

theorem like_docs (f : Fmt) {a b : Traits} (h : LikeTraits a b) : describeDocumentation f a = describeDocumentation f b := by
  have h1 : AMap.get a docTrait = AMap.get b docTrait := like_get h (by decide)
  have h2 : AMap.get a extDocTrait = AMap.get b extDocTrait := like_get h (by decide)
  have h3 : describeTraits f a = describeTraits f b := by
    unfold describeTraits
    have hr : ∀ e : ShapeID × TraitValue, rowsOfTrait f e = if isDocs e.1 then [] else valueRows f (traitName e.1) e.2 := by
      intro e
      unfold rowsOfTrait
      rw [docs_eq]
      simp only [traitName_eq]
      cases isDocs e.1 with
      | true => rfl
      | false => cases e.2 <;> rfl
    have hm : a.map (fun e => (e.1, rowsOfTrait f e)) = b.map (fun e => (e.1, rowsOfTrait f e)) := by
      refine forall₂_map_eq h _ _ fun x y hxy => ?_
      rw [hr, hr, ← hxy.1, like_rows hxy.2.1]
    have key : ∀ ts : Traits, (ts.mergeSort fun a b => idLe a.1 b.1).flatMap (rowsOfTrait f) =
        ((ts.map (fun e => (e.1, rowsOfTrait f e))).mergeSort fun a b => idLe a.1 b.1).flatMap (·.2) := by
      intro ts
      rw [← List.map_mergeSort (r := fun a b => idLe a.1 b.1) (fun a _ b _ => rfl), List.flatMap_map]
    rw [key, key, hm]
  unfold describeDocumentation
  rw [h1, h2, h3]

theorem docs_nil (f : Fmt) : describeDocumentation f [] = .ok [] := by
  simp [describeDocumentation, describeTraits, AMap.get]

theorem andThen_nil (x : Except Err (List Block)) : andThen (.ok []) x = x := by cases x <;> rfl

theorem forAll_map {α β : Type} (g : α → Except Err (List Block)) (h : β → α) (l : List β) : forAll g (l.map h) = forAll (fun x => g (h x)) l := by
  induction l with
  | nil => rfl
  | cons x l ih => simp only [List.map_cons, forAll, ih]

theorem forAll_filter (f : Fmt) (l : List Traits) : forAll (describeDocumentation f) l = forAll (describeDocumentation f) (l.filter (· ≠ [])) := by
  induction l with
  | nil => rfl
  | cons x l ih =>
    cases x with
    | nil => rw [List.filter_cons_of_neg (by simp), forAll, docs_nil, andThen_nil, ih]
    | cons y x => rw [List.filter_cons_of_pos (by simp), forAll, forAll, ih]

theorem like_members (f : Fmt) (id : ShapeID) {a b : AMap Str MemberShape} (h : LikeMembers a b) :
    describeStructureOrUnion f id a = describeStructureOrUnion f id b := by
  obtain ⟨h1, h2⟩ := h
  have he : a.isEmpty = b.isEmpty := by cases h1 <;> rfl
  have hd : ∀ ms : AMap Str MemberShape, forAll (fun (x : MemberShape) => describeDocumentation f x.traits) (AMap.values ms) =
      forAll (describeDocumentation f) ((ms.map (·.2.traits)).filter (· ≠ [])) := by
    intro ms
    rw [← forAll_filter, AMap.values, forAll_map, forAll_map]
  have hq : (AMap.values a).map (fun x => Block.paragraph [.code x.id, .plain %s": ", shapeLink id x.target]) =
      (AMap.values b).map fun x => Block.paragraph [.code x.id, .plain %s": ", shapeLink id x.target] := by
    unfold AMap.values
    rw [List.map_map, List.map_map]
    refine forall₂_map_eq h1 _ _ fun x y hxy => ?_
    simp only [Function.comp, hxy.1, hxy.2]
  unfold describeStructureOrUnion
  rw [he, hd, hd, h2, hq]

theorem like_shape (f : Fmt) {a b : TopLevelShape} (h : Alike a b) :
    a.id = b.id ∧ a.isUnresolved = b.isUnresolved ∧ describeShape f a = describeShape f b := by
  cases h with
  | same ht => exact ⟨rfl, rfl, by unfold describeShape; rw [like_docs f ht]⟩
  | struct ht hm => exact ⟨rfl, rfl, by unfold describeShape; rw [like_docs f ht]; simp only [describeBody, like_members f _ hm, kindText]⟩
  | union ht hm => exact ⟨rfl, rfl, by unfold describeShape; rw [like_docs f ht]; simp only [describeBody, like_members f _ hm, kindText]⟩
  | resource ht => exact ⟨rfl, rfl, by unfold describeShape; rw [like_docs f ht]; rfl⟩

/-- C82, where it fails: the document does not tell a model from others with other identifiers of resources, with other values of traits that have the same
rows in the table, or with the documentation and traits of a member at another one. -/
theorem C82_alike (f : Fmt) (m m' : Model) (h : AlikeModels m m') : describeModel f m = describeModel f m' := by
  obtain ⟨hv, hm, hs⟩ := h
  have hn : m.shapeNames = m'.shapeNames := by
    unfold Model.shapeNames Model.shapesList AMap.values
    revert hs
    generalize m.shapes = l
    generalize m'.shapes = l'
    intro hs
    induction hs with
    | nil => rfl
    | @cons x y l l' hxy _ ih =>
      obtain ⟨h1, h2, -⟩ := like_shape f hxy.2
      simp only [List.map_cons, List.filter_cons, h2]
      split
      · rw [List.map_cons, List.map_cons, ih, h1]
      · exact ih
  have hg : ∀ id, (match m.shape id with | some s => describeShape f s | none => .error .panic) =
      (match m'.shape id with | some s => describeShape f s | none => .error .panic) := by
    intro id
    unfold Model.shape
    revert hs
    generalize m.shapes = l
    generalize m'.shapes = l'
    intro hs
    induction hs with
    | nil => rfl
    | @cons x y l l' hxy _ ih =>
      obtain ⟨i, v⟩ := x
      obtain ⟨j, w⟩ := y
      obtain ⟨h1, h2⟩ := hxy
      dsimp only at h1 h2
      subst h1
      rw [AMap.get_cons, AMap.get_cons]
      by_cases he : i = id
      · rw [if_pos he, if_pos he]; exact (like_shape f h2).2.2
      · rw [if_neg he, if_neg he]; exact ih
  have hns : m.namespaces = m'.namespaces := by unfold Model.namespaces; rw [hn]
  have hmeta : describeModelMetadata f m = describeModelMetadata f m' := by unfold describeModelMetadata; rw [hm]
  have h1 : m.hasMetadata = m'.hasMetadata := by unfold Model.hasMetadata; rw [hm]
  have h2 : m.hasShapes = m'.hasShapes := by
    unfold Model.hasShapes
    revert hs; generalize m.shapes = l; generalize m'.shapes = l'; intro hs
    cases hs <;> rfl
  have h3 : ∀ ns, describeModelShapes f m ns = describeModelShapes f m' ns := by
    intro ns
    unfold describeModelShapes
    rw [hn]
    dsimp only
    split
    · rfl
    · exact congrArg (fun g => andThen _ (forAll g _)) (funext hg)
  have h4 : describeModelShapes f m = describeModelShapes f m' := funext h3
  unfold describeModel
  rw [hv, hns, hmeta, h1, h2, h4]

/-! ### Links -/

theorem refTo_link {s t : ShapeID} {l : Label} {c : Str} : Inline.link l c = refTo s t ↔ lower s.ns = lower t.ns ∧ l = labelOf t ∧ c = t.name := by
  unfold refTo
  split
  · rename_i h; simp [h]
  · rename_i h; simp [h]

/-- C83: the links are those from a shape to what it refers to in the same namespace. -/
theorem C83_links (f : Fmt) (m : Model) (hw : WfModel m) (d : Document) (h : describeModel f m = .ok d) (l : Label) :
    LinksTo d.blocks l ↔ ∃ id s t, DefinesShape m id s ∧ t ∈ references s ∧ lower id.ns = lower t.ns ∧ l = labelOf t := by
  rw [describe_ok hw h]
  constructor
  · rintro ⟨c, hc⟩
    rcases (mem_model hw).mp hc with hc | ⟨id, s, hs, hc⟩
    · cases hc
    · obtain ⟨rfl, hm⟩ := member_none hw hs
      rcases mem_shape.mp hc with hc | hc
      · exact absurd hc link_not_docs
      · rcases (mem_body (f := f) (id := s.id) (k := s.body) (x := .link l c)).2.2 hc with ⟨t, ht, he⟩ | ⟨y, -, hy⟩ | ⟨x, hx | hx | hx⟩
        · rw [link_eq hm, refTo_link] at he
          exact ⟨s.id, s, t, hs, ht, he.1, he.2.1⟩
        · exact absurd hy link_not_docs
        · cases hx
        · cases hx
        · cases hx
  · rintro ⟨id, s, t, hs, ht, hn, rfl⟩
    obtain ⟨rfl, hm⟩ := member_none hw hs
    refine ⟨t.name, (mem_model hw).mpr (.inr ⟨_, s, hs, mem_shape.mpr (.inr ?_)⟩)⟩
    have := (mem_body (f := f) (id := s.id) (k := s.body) (x := .plain [])).1 t ht
    rw [link_eq hm] at this
    rwa [refTo_link.mpr ⟨hn, rfl, rfl⟩]

theorem mem_labels {f : Fmt} {m : Model} (hw : WfModel m) {l : Label} : l ∈ labels (modelBlocks f m) ↔ ∃ id s, DefinesShape m id s ∧ l = ⟨id.name, %s"shape"⟩ := by
  rw [labels, titles_model f hw, List.map_map, List.mem_map]
  have hl : ∀ {id s}, DefinesShape m id s → labelOf s.id = ⟨id.name, %s"shape"⟩ := fun {id s} hs => by
    obtain ⟨rfl, hm⟩ := member_none hw hs
    unfold labelOf; rw [hm]
  constructor
  · rintro ⟨s, hs, rfl⟩
    obtain ⟨ns, -, hs⟩ := List.mem_flatMap.mp hs
    have := ((mem_shapesIn hw).mp hs).1
    exact ⟨s.id, s, this, hl this⟩
  · rintro ⟨id, s, hs, rfl⟩
    refine ⟨s, List.mem_flatMap.mpr ?_, hl hs⟩
    obtain ⟨rfl, -⟩ := member_none hw hs
    exact ⟨s.id.ns, (PlantUml.mem_namespaces hw).mpr ⟨s.id, s, hs, rfl⟩, (mem_shapesIn hw).mpr ⟨hs, rfl⟩⟩

/-- C83: all links lead to headings exactly when everything a shape refers to in its own namespace has the name of a shape that is defined - in whatever namespace. -/
theorem C83_links_lead (f : Fmt) (m : Model) (hw : WfModel m) (d : Document) (h : describeModel f m = .ok d) :
    (∀ l, LinksTo d.blocks l → l ∈ labels d.blocks) ↔
    ∀ id s t, DefinesShape m id s → t ∈ references s → lower id.ns = lower t.ns → t.member = none ∧ ∃ id' s', DefinesShape m id' s' ∧ id'.name = t.name := by
  have hb := describe_ok hw h
  constructor
  · intro hl id s t hs ht hn
    have := hl _ ((C83_links f m hw d h _).mpr ⟨id, s, t, hs, ht, hn, rfl⟩)
    rw [hb, mem_labels hw] at this
    obtain ⟨id', s', hs', he⟩ := this
    unfold labelOf at he
    cases hm : t.member with
    | none =>
      rw [hm] at he
      exact ⟨rfl, id', s', hs', (Label.mk.inj he).1.symm⟩
    | some x =>
      rw [hm] at he
      exact absurd (Label.mk.inj he).2 (by decide)
  · intro ha l hl
    obtain ⟨id, s, t, hs, ht, hn, rfl⟩ := (C83_links f m hw d h l).mp hl
    obtain ⟨hm, id', s', hs', he⟩ := ha id s t hs ht hn
    rw [hb, mem_labels hw]
    refine ⟨id', s', hs', ?_⟩
    unfold labelOf
    rw [hm, he]

/-- C83: the labels of headings are distinct exactly when all shapes that are defined have distinct names - even those in different namespaces - and no
two namespaces differ only in the case of letters. -/
theorem C83_labels_distinct (f : Fmt) (m : Model) (hw : WfModel m) (d : Document) (h : describeModel f m = .ok d) :
    (labels d.blocks).Nodup ↔
    (∀ id id' s s', DefinesShape m id s → DefinesShape m id' s' → id.name = id'.name → id = id') ∧ NamespacesDiffer m := by
  rw [describe_ok hw h, labels, titles_model f hw, List.map_map]
  have hl : ∀ {id s}, DefinesShape m id s → ((·.2) ∘ titleOf) s = (⟨id.name, %s"shape"⟩ : Label) := fun {id s} hs => by
    obtain ⟨rfl, hm⟩ := member_none hw hs
    change labelOf s.id = _
    unfold labelOf; rw [hm]
  have hin : ∀ {id s}, DefinesShape m id s → s.id = id := fun hs => (member_none hw hs).1
  constructor
  · intro hnd
    have hn : NamespacesDiffer m := by
      intro a b ha hb hab
      by_contra hne
      obtain ⟨id, s, hs, rfl⟩ := ha
      rw [List.map_flatMap, List.nodup_flatMap] at hnd
      have hp := hnd.2
      have hma := (PlantUml.mem_namespaces hw).mpr ⟨id, s, hs, rfl⟩
      have hmb := (PlantUml.mem_namespaces hw).mpr hb
      have hsym : ∀ x y : Str, (Function.onFun List.Disjoint fun a => (shapesIn m a).map ((·.2) ∘ titleOf)) x y →
          (Function.onFun List.Disjoint fun a => (shapesIn m a).map ((·.2) ∘ titleOf)) y x := fun x y h _ h1 h2 => h h2 h1
      have : Std.Symm (Function.onFun List.Disjoint fun a => (shapesIn m a).map ((·.2) ∘ titleOf)) := ⟨hsym⟩
      have := hp.forall hma hmb hne
      have hid := hin hs
      subst hid
      exact this (List.mem_map_of_mem ((mem_shapesIn hw).mpr ⟨hs, rfl⟩)) (List.mem_map_of_mem ((mem_shapesIn hw).mpr ⟨hs, hab⟩))
    refine ⟨fun id id' s s' hs hs' he => ?_, hn⟩
    have hnd' := ((all_shapes hw hn).map ((·.2) ∘ titleOf)).nodup_iff.mp hnd
    have e1 := hin hs; have e2 := hin hs'
    subst e1; subst e2
    have := List.inj_on_of_nodup_map hnd' ((mem_definedShapes hw).mpr hs) ((mem_definedShapes hw).mpr hs') (by rw [hl hs, hl hs', he])
    rw [this]
  · rintro ⟨hu, hn⟩
    refine ((all_shapes hw hn).map ((·.2) ∘ titleOf)).nodup_iff.mpr ?_
    have hnd : (GraphML.definedShapes m).Nodup := by
      have h : (m.shapesList.map (·.id)).Nodup := by rw [shapesList_ids hw]; exact nodup_of_wf hw.nodup
      exact (List.Nodup.of_map _ h).filter _
    refine List.Nodup.map_on ?_ hnd
    intro s hs s' hs' he
    have h1 := (mem_definedShapes hw).mp hs
    have h2 := (mem_definedShapes hw).mp hs'
    rw [hl h1, hl h2] at he
    have := hu _ _ _ _ h1 h2 (Label.mk.inj he).1
    have h3 := h1.1
    rw [this, h2.1] at h3
    exact (Option.some.inj h3).symm

/-- C83, where it fails: for each address of external documentation there is a link to the address in quotes, which is another one. -/
theorem C83_external (f : Fmt) (m : Model) (hw : WfModel m) (d : Document) (h : describeModel f m = .ok d) (id : ShapeID) (s : TopLevelShape)
    (hs : DefinesShape m id s) (o : AMap Str Value) (ho : AMap.get s.traits ⟨%s"smithy.api", %s"externalDocumentation", none⟩ = some (some (.object o)))
    (k url : Str) (hk : (k, Value.string url) ∈ o) :
    .external ('"' :: url ++ ['"']) k ∈ inlinesAll d.blocks ∧ '"' :: url ++ ['"'] ≠ url := by
  refine ⟨?_, fun he => absurd (congrArg List.length he) (by simp only [List.length_append, List.length_cons, List.length_nil]; omega)⟩
  rw [describe_ok hw h]
  exact (mem_model hw).mpr (.inr ⟨id, s, hs, mem_shape.mpr (.inl (mem_docs.mpr (.inr ⟨o, ho, List.ne_nil_of_mem hk, .inr ⟨k, _, hk, rfl⟩⟩)))⟩)

/-! ### Examples -/

/-- A model of strings, with these traits. -/
def strings (l : List (ShapeID × Traits)) : Model := ⟨.v10, [], l.map fun e => (e.1, ⟨e.1, e.2, .simple .string⟩)⟩

theorem strings_wf {l : List (ShapeID × Traits)} (h : AMap.Wf l) (hm : ∀ e ∈ l, e.1.member = none) (ht : ∀ e ∈ l, WfTraits e.2) : WfModel (strings l) := by
  have hk : ∀ id s, (strings l).shape id = some s → ∃ e ∈ l, e.1 = id ∧ s = ⟨e.1, e.2, .simple .string⟩ := by
    intro id s h
    obtain ⟨e, he, hx⟩ := List.mem_map.mp (AMap.mem_of_get h)
    cases hx
    exact ⟨e, he, rfl, rfl⟩
  refine ⟨AMap.wf_nil, fun k v h => by simp [strings] at h, ?_, ?_, ?_, ?_⟩
  · unfold AMap.Wf AMap.keys strings at *
    rw [List.map_map]
    exact h
  · intro id s h
    obtain ⟨e, -, rfl, rfl⟩ := hk id s h; rfl
  · intro id s h hx
    obtain ⟨e, he, rfl, rfl⟩ := hk id s h
    rw [ShapeID.isMember, hm e he] at hx; cases hx
  · intro id s h
    obtain ⟨e, he, rfl, rfl⟩ := hk id s h
    exact ⟨ht e he, trivial⟩

/-- C80: a text in the Smithy IDL that is read as a model which cannot be described. -/
theorem C80_reachable (flt : Str → Option F64) (f : Fmt) : ∃ m, parseModel flt (fun l => l) %s"namespace ex\n@documentation(5)\nstring S\n" = .ok m ∧
    describeModel f m = .error .panic := by
  refine ⟨strings [(sid %s"S", [(docTrait, some (.number (.integer 5)))])], rfl, ?_⟩
  refine (C80_panics_iff f _ (strings_wf (by unfold AMap.Wf; decide) (by simp [sid]) ?_)).1.mpr ⟨sid %s"S", _, ⟨rfl, nofun⟩, .inl ⟨_, rfl, nofun⟩⟩
  intro e he
  rw [List.mem_singleton.mp he]
  refine ⟨by unfold AMap.Wf; decide, fun id v h => ?_⟩
  obtain ⟨_, h⟩ := get_one h
  cases h
  exact .number (by unfold Number.InRange i64; decide)

theorem plain_ok {l : List ShapeID} (h : l.Nodup) (hm : ∀ id ∈ l, id.member = none) (f : Fmt) :
    WfModel (strings (l.map fun id => (id, []))) ∧ ∃ d, describeModel f (strings (l.map fun id => (id, []))) = .ok d := by
  have hw : WfModel (strings (l.map fun id => (id, []))) := by
    refine strings_wf ?_ (fun e he => ?_) fun e he => ?_
    · have e : (l.map fun id => (id, ([] : Traits))).map (·.1) = l := by simp [List.map_map, Function.comp_def]
      unfold AMap.Wf AMap.keys; rw [e]; exact h
    · obtain ⟨id, hi, rfl⟩ := List.mem_map.mp he; exact hm id hi
    · obtain ⟨id, hi, rfl⟩ := List.mem_map.mp he; exact goodTraits_nil.wf
  refine ⟨hw, (C80_panics_iff f _ hw).2 ?_⟩
  rintro ⟨id, s, hs, hb⟩
  obtain ⟨e, he, hx⟩ := List.mem_map.mp (AMap.mem_of_get hs.1)
  obtain ⟨id', -, rfl⟩ := List.mem_map.mp he
  cases hx
  rcases hb with ⟨v, hv, -⟩ | ⟨x, hx, -⟩
  · cases hv
  · cases hx

theorem exUml_shapes {id : ShapeID} {s : TopLevelShape} (h : DefinesShape PlantUml.exUml id s) : (id, s) ∈ PlantUml.exUml.shapes := AMap.mem_of_get h.1

/-- C80 and C81: a model with two namespaces that is described. -/
example (f : Fmt) : (∃ d, describeModel f PlantUml.exUml = .ok d) ∧ NamespacesDiffer PlantUml.exUml := by
  constructor
  · refine (C80_panics_iff f _ PlantUml.exUml_wf).2 ?_
    rintro ⟨id, s, hs, hb⟩
    have := exUml_shapes hs
    simp only [PlantUml.exUml, List.mem_cons, Prod.mk.injEq, List.not_mem_nil, or_false] at this
    rcases this with ⟨rfl, rfl⟩ | ⟨rfl, rfl⟩ | ⟨rfl, rfl⟩ | ⟨rfl, rfl⟩ <;> rcases hb with ⟨v, hv, -⟩ | ⟨x, hx, v, hv, -⟩ <;> first | cases hv | cases hx
    all_goals first | cases hv | skip
    rename_i h; cases h
  · rintro a b ⟨id, s, hs, rfl⟩ ⟨id', s', hs', rfl⟩ hl
    have h1 := exUml_shapes hs
    have h2 := exUml_shapes hs'
    simp only [PlantUml.exUml, List.mem_cons, Prod.mk.injEq, List.not_mem_nil, or_false] at h1 h2
    rcases h1 with ⟨rfl, -⟩ | ⟨rfl, -⟩ | ⟨rfl, -⟩ | ⟨rfl, -⟩ <;> rcases h2 with ⟨rfl, -⟩ | ⟨rfl, -⟩ | ⟨rfl, -⟩ | ⟨rfl, -⟩ <;>
      first | rfl | exact absurd hl (by decide)

/-- C81: two namespaces that differ only in the case of letters, in a model that is described. -/
example (f : Fmt) : ∃ m d, WfModel m ∧ describeModel f m = .ok d ∧ Uml.IsNamespaceOf m %s"ex" ∧ Uml.IsNamespaceOf m %s"Ex" ∧ lower %s"ex" = lower %s"Ex" := by
  obtain ⟨hw, d, hd⟩ := plain_ok (l := [sid %s"A", ⟨%s"Ex", %s"B", none⟩]) (by decide) (by decide) f
  exact ⟨_, d, hw, hd, ⟨sid %s"A", _, ⟨rfl, nofun⟩, rfl⟩, ⟨⟨%s"Ex", %s"B", none⟩, _, ⟨rfl, nofun⟩, rfl⟩, by decide⟩

/-- C82: the documentation of `a` or the documentation of `b`, and another identifier, and another value of a trait. -/
example : AlikeModels
    ⟨.v10, [], [(sid %s"S", ⟨sid %s"S", [(sid %s"t", some (.array []))], .struct [(%s"a", ⟨%s"a", [(docTrait, some (.string %s"x"))], sid %s"T"⟩), (%s"b", ⟨%s"b", [], sid %s"T"⟩)]⟩),
      (sid %s"R", ⟨sid %s"R", [], .resource ⟨[(%s"id", sid %s"T")], none, none, none, none, none, none, [], [], []⟩⟩)]⟩
    ⟨.v10, [], [(sid %s"S", ⟨sid %s"S", [(sid %s"t", some (.object [(%s"k", .array [])]))], .struct [(%s"a", ⟨%s"a", [], sid %s"T"⟩), (%s"b", ⟨%s"b", [(docTrait, some (.string %s"x"))], sid %s"T"⟩)]⟩),
      (sid %s"R", ⟨sid %s"R", [], .resource ⟨[], none, none, none, none, none, none, [], [], []⟩⟩)]⟩ :=
  ⟨rfl, rfl, .cons ⟨rfl, .struct (.cons ⟨rfl, .symm (.object .array), fun h => absurd h (by decide)⟩ .nil) ⟨.cons ⟨rfl, rfl⟩ (.cons ⟨rfl, rfl⟩ .nil), rfl⟩⟩
    (.cons ⟨rfl, .resource (r := ⟨[(%s"id", sid %s"T")], none, none, none, none, none, none, [], [], []⟩) .nil⟩ .nil)⟩

/-- C83: shapes of the same name in two namespaces have the same label. -/
example (f : Fmt) : ∃ m d, WfModel m ∧ describeModel f m = .ok d ∧ ¬ (labels d.blocks).Nodup := by
  obtain ⟨hw, d, hd⟩ := plain_ok (l := [sid %s"A", ⟨%s"other", %s"A", none⟩]) (by decide) (by decide) f
  refine ⟨_, d, hw, hd, fun h => ?_⟩
  have := ((C83_labels_distinct f _ hw d hd).mp h).1 (sid %s"A") ⟨%s"other", %s"A", none⟩ _ _ ⟨rfl, nofun⟩ ⟨rfl, nofun⟩ rfl
  exact absurd this (by decide)

/-- C83: the service of this model refers to an operation that is not defined, and there is a link that leads nowhere. -/
example (f : Fmt) (d : Document) (h : describeModel f exJsonModel = .ok d) : ∃ l, LinksTo d.blocks l ∧ l ∉ labels d.blocks := by
  by_contra hc
  have hall : ∀ l, LinksTo d.blocks l → l ∈ labels d.blocks := fun l hl => by
    by_contra hn; exact hc ⟨l, hl, hn⟩
  obtain ⟨-, id', s', hs', he⟩ := (C83_links_lead f _ exJsonModel_ok.1 d h).mp hall (sid %s"V") _ (sid %s"O") ⟨rfl, nofun⟩ (by simp [references, GraphML.membersOf]) rfl
  have := AMap.mem_of_get hs'.1
  simp only [exJsonModel, List.mem_cons, Prod.mk.injEq, List.not_mem_nil, or_false] at this
  rcases this with ⟨rfl, -⟩ | ⟨rfl, -⟩ | ⟨rfl, -⟩ <;> exact absurd he (by decide)

/-- C83: external documentation. -/
example : AMap.get ([(extDocTrait, some (.object [(%s"Home", .string %s"https://example.com")]))] : Traits) ⟨%s"smithy.api", %s"externalDocumentation", none⟩ =
    some (some (.object [(%s"Home", .string %s"https://example.com")])) := rfl

end Describe
end Verif
