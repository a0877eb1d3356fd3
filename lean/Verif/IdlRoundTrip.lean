/-
From the builder that is read from a written model to the model.
-/
import Verif.IdlSections
import Verif.IdlWf

namespace Verif
open Peg Spec Mk

/-! ### Names that are known -/

/-- A computation that gives `a` and finds no new name. -/
def Gives {α : Type} (x : Mk α) (a : α) : Prop := x = Except.ok (a, [])

theorem Gives.pure {α : Type} (a : α) : Gives (pure a) a := rfl

theorem Gives.bind {α β : Type} {x : Mk α} {f : α → Mk β} {a : α} {b : β} (h1 : Gives x a) (h2 : Gives (f a) b) : Gives (x >>= f) b := by
  unfold Gives at *
  exact bind_ok.mpr ⟨a, [], [], h1, h2, rfl⟩

theorem Gives.mapL {α β : Type} {f : α → Mk β} {g : α → β} {l : List α} (h : ∀ a ∈ l, Gives (f a) (g a)) : Gives (Mk.mapL f l) (l.map g) := by
  induction l with
  | nil => exact .pure _
  | cons a l ih =>
    exact (h a (by simp)).bind ((ih fun b hb => h b (by simp [hb])).bind (.pure _))

theorem Gives.mapO {α β : Type} {f : α → Mk β} {g : α → β} {o : Option α} (h : ∀ a, o = some a → Gives (f a) (g a)) : Gives (Mk.mapO f o) (o.map g) := by
  cases o with
  | none => exact .pure _
  | some a => exact (h a rfl).bind (.pure _)

theorem resolve_gives {mb : ModelBuilder} (h : WfBuilder mb) {tr : Bool} {n : ShapeName} {id : ShapeID} (hr : Resolves mb tr n id false) :
    Gives (mb.resolve tr n) id := by
  unfold Gives ModelBuilder.resolve
  rw [(resolveShapeName_iff h tr n id false).mpr hr]
  rfl

/-- The bare name of the id, in the builder. -/
def Short (mb : ModelBuilder) (tr : Bool) (id : ShapeID) : Prop := Resolves mb tr (shortRef id) id false

theorem names_give {mb : ModelBuilder} (h : WfBuilder mb) {ids : List ShapeID} (hs : ∀ id ∈ ids, Short mb false id) :
    Gives (Mk.mapL (mb.resolve false) (ids.map shortRef)) ids := by
  have := Gives.mapL (f := fun id => mb.resolve false (shortRef id)) (g := fun id => id) (l := ids) fun id hid => resolve_gives h (hs id hid)
  rw [List.map_id'] at this
  have e : Mk.mapL (mb.resolve false) (ids.map shortRef) = Mk.mapL (fun id => mb.resolve false (shortRef id)) ids := by
    clear hs this
    induction ids with
    | nil => rfl
    | cons a l ih => simp only [List.map_cons, Mk.mapL, ih]
  rw [e]
  exact this

theorem name_gives {mb : ModelBuilder} (h : WfBuilder mb) {o : Option ShapeID} (hs : ∀ id, o = some id → Short mb false id) :
    Gives (Mk.mapO (mb.resolve false) (o.map shortRef)) o := by
  cases o with
  | none => exact .pure _
  | some id => exact (resolve_gives h (hs id rfl)).bind (.pure _)

/-! ### Traits, members, bodies -/

theorem mapL_map {α β γ : Type} (f : β → Mk γ) (g : α → β) (l : List α) : Mk.mapL f (l.map g) = Mk.mapL (fun a => f (g a)) l := by
  induction l with
  | nil => rfl
  | cons a l ih => simp only [List.map_cons, Mk.mapL, ih]

theorem keptTraits_wf {ts : Traits} (h : AMap.Wf ts) : AMap.Wf (keptTraits ts) := by
  unfold AMap.Wf keptTraits AMap.keys at *
  rw [List.map_map]
  exact h

theorem makeTraits_gives {mb : ModelBuilder} (h : WfBuilder mb) {ns : Str} {ts : Traits} (hw : AMap.Wf ts)
    (hs : ∀ e ∈ ts, Resolves mb true (traitRef ns e.1) e.1 false) : Gives (mb.makeTraits (ts.map (traitBuilder ns))) (keptTraits ts) := by
  have h1 : Gives (Mk.mapL mb.makeTrait (ts.map (traitBuilder ns))) (keptTraits ts) := by
    rw [mapL_map]
    exact Gives.mapL fun e he => (resolve_gives h (hs e he)).bind (.pure _)
  refine h1.bind ?_
  rw [AMap.ofList_of_wf (keptTraits_wf hw)]
  exact .pure _

theorem makeMember_gives {mb : ModelBuilder} (h : WfBuilder mb) {ns : Str} {x : MemberShape} (hw : WfTraits x.traits)
    (ht : Short mb false x.target) (hs : ∀ e ∈ x.traits, Resolves mb true (traitRef ns e.1) e.1 false) :
    Gives (mb.makeMember (memberRef ns x)) (keptMember x) :=
  (resolve_gives h ht).bind ((makeTraits_gives h hw.nodup hs).bind (.pure _))

theorem makeMembers_gives {mb : ModelBuilder} (h : WfBuilder mb) {ns : Str} {ms : AMap Str MemberShape} (hw : WfMembers ms)
    (hs : ∀ e ∈ ms, Short mb false e.2.target ∧ ∀ t ∈ e.2.traits, Resolves mb true (traitRef ns t.1) t.1 false) :
    Gives (Mk.mapL mb.makeMember (ms.map fun e => memberRef ns e.2)) (ms.map fun e => keptMember e.2) ∧
    withMembers (ms.map fun e => keptMember e.2) = ms.map fun e => (e.1, keptMember e.2) := by
  constructor
  · rw [mapL_map]
    exact Gives.mapL fun e he => makeMember_gives h (hw.traits e.1 e.2 (AMap.get_of_mem hw.nodup he)) (hs e he).1 (hs e he).2
  · rw [withMembers_eq, List.map_map]
    have e : ms.map ((fun m : MemberShape => (m.id, m)) ∘ fun e => keptMember e.2) = ms.map fun e => (e.1, keptMember e.2) := by
      refine List.map_congr_left fun e he => ?_
      have := hw.key e.1 e.2 (AMap.get_of_mem hw.nodup he)
      simp [keptMember, this]
    rw [e]
    refine AMap.ofList_of_wf ?_
    have := hw.nodup
    unfold AMap.Wf AMap.keys at *
    rw [List.map_map]
    exact this

theorem append_to_nil (l : List ShapeID) : arrayAppend [] l = l := by
  have : ∀ (l a : List ShapeID), arrayAppend a l = a ++ l := by
    intro l
    induction l with
    | nil => intro a; simp [arrayAppend]
    | cons x l ih => intro a; have := ih (a ++ [x]); simpa [arrayAppend, arrayAdd] using this
  simpa using this l []

/-- What the names in the builder stand for. -/
structure Agrees (mb : ModelBuilder) (m : Model) (ns : Str) : Prop where
  short : ∀ tr id, ShortName m ns tr id → Short mb tr id

theorem trait_resolves {f : Fmt} {flt : Str → Option F64} {mb : ModelBuilder} {m : Model} {ns : Str} (ha : Agrees mb m ns) {id : ShapeID} {v : TraitValue}
    (h : WritableTrait f flt m ns id v) : Resolves mb true (traitRef ns id) id false := by
  unfold traitRef
  split
  · next hc =>
    have : SameName id.ns ns ∨ SameName id.ns %s"smithy.api" := by
      rw [Bool.or_eq_true, identEq_sameName, identEq_sameName] at hc
      exact hc
    exact ha.short true id (h.short this).2
  · next hc =>
    have : ¬ (SameName id.ns ns ∨ SameName id.ns %s"smithy.api") := by
      rw [Bool.or_eq_true, identEq_sameName, identEq_sameName] at hc
      exact hc
    exact .absolute (h.full this).member

theorem makeBody_gives {f : Fmt} {flt : Str → Option F64} {mb : ModelBuilder} {m : Model} {ns : Str} (hb : WfBuilder mb) (ha : Agrees mb m ns) {k : ShapeKind}
    (hw : WfKind k) (h : WritableKind f flt m ns k) : Gives (mb.makeBody (bodyRef ns k)) (keptKind k) := by
  have hs : ∀ id, ShortTarget m ns id → Short mb false id := fun id hid => ha.short false id hid.2
  have hr : ∀ id, BareTarget m ns id → Short mb false id := fun id hid => hs id hid.1
  have hm : ∀ {ms : AMap Str MemberShape}, (∀ e ∈ ms, WritableMember f flt m ns e.2) →
      ∀ e ∈ ms, Short mb false e.2.target ∧ ∀ t ∈ e.2.traits, Resolves mb true (traitRef ns t.1) t.1 false := fun h e he =>
    ⟨hs _ (h e he).target, fun t ht => trait_resolves ha ((h e he).traits t ht)⟩
  have hl : ∀ {x : ShapeID}, SmithyId x → Gives (mb.makeMember ⟨memberMember, [], .qualified x⟩) ⟨memberMember, [], x⟩ := fun {x} hx =>
    (resolve_gives hb (.absolute hx.member)).bind (.pure _)
  have hlf : ∀ x : ShapeID, Gives (Mk.lift (listFrom ⟨memberMember, [], x⟩)) ⟨memberMember, [], x⟩ := fun x => rfl
  cases h with
  | simple => exact .pure _
  | list h => exact (hl h).bind ((hlf _).bind (.pure _))
  | set h => exact (hl h).bind ((hlf _).bind (.pure _))
  | map h1 h2 =>
    refine Gives.bind (a := (⟨memberKey, [], _⟩, ⟨memberValue, [], _⟩)) ?_ (.pure _)
    refine (resolve_gives hb (hs _ h1)).bind ((resolve_gives hb (hs _ h2)).bind ?_)
    exact Gives.bind (a := []) rfl (Gives.bind (a := []) rfl (.pure _))
  | struct h =>
    obtain ⟨h1, h2⟩ := makeMembers_gives hb hw (hm h)
    refine h1.bind ?_
    rw [h2]
    exact .pure _
  | union h =>
    obtain ⟨h1, h2⟩ := makeMembers_gives hb hw (hm h)
    refine h1.bind ?_
    rw [h2]
    exact .pure _
  | @service x h1 h2 h3 h4 =>
    have e1 : Gives (Mk.lift (Service.new x.version)) ⟨x.version, [], [], []⟩ := by
      unfold Service.new
      cases hv : x.version with
      | nil => exact absurd hv h1
      | cons c v => rfl
    refine e1.bind ((names_give hb fun id hid => hr id (h3 id hid)).bind ((names_give hb fun id hid => hr id (h4 id hid)).bind ?_))
    simp only [append_to_nil]
    exact .pure _
  | @operation x h1 h2 h3 =>
    refine (name_gives hb fun id hid => hr id (h1 id hid)).bind ((name_gives hb fun id hid => hr id (h2 id hid)).bind
      ((names_give hb fun id hid => hr id (h3 id hid)).bind ?_))
    simp only [append_to_nil]
    exact .pure _
  | @resource x h1 h2 h3 h4 h5 h6 h7 h8 h9 h10 =>
    have hi : Gives (Mk.mapL mb.makeIdentifier (x.identifiers.map fun e => (e.1, shortRef e.2))) x.identifiers := by
      rw [mapL_map]
      have := Gives.mapL (f := fun e : Str × ShapeID => mb.makeIdentifier (e.1, shortRef e.2)) (g := fun e => e) (l := x.identifiers)
        fun e he => (resolve_gives hb (hr e.2 (h1 e he).2)).bind (.pure _)
      rwa [List.map_id'] at this
    refine hi.bind ((name_gives hb fun id hid => hr id (h2 id hid)).bind ((name_gives hb fun id hid => hr id (h3 id hid)).bind
      ((name_gives hb fun id hid => hr id (h4 id hid)).bind ((name_gives hb fun id hid => hr id (h5 id hid)).bind
      ((name_gives hb fun id hid => hr id (h6 id hid)).bind ((name_gives hb fun id hid => hr id (h7 id hid)).bind
      ((names_give hb fun id hid => hr id (h8 id hid)).bind ((names_give hb fun id hid => hr id (h9 id hid)).bind
      ((names_give hb fun id hid => hr id (h10 id hid)).bind ?_)))))))))
    simp only [append_to_nil, AMap.ofList_of_wf (show AMap.Wf x.identifiers from hw)]
    exact .pure _

theorem makeShape_gives {f : Fmt} {flt : Str → Option F64} {mb : ModelBuilder} {m : Model} {ns : Str} (hb : WfBuilder mb) (ha : Agrees mb m ns) {s : TopLevelShape}
    (hw : WfShape s) (hr : s.body ≠ .unresolved) (hd : ShortName m ns false s.id) (h : WritableShape f flt m ns s) :
    Gives (mb.makeShape (shapeRef ns s)) (kept s) := by
  have h1 : Gives (mb.makeId (shapeRef ns s)) s.id := by
    have : mb.makeId (shapeRef ns s) = mb.resolve false (shortRef s.id) := by
      unfold ModelBuilder.makeId shapeRef
      cases hk : s.body <;> first | rfl | exact absurd hk hr
    rw [this]
    exact resolve_gives hb (ha.short false _ hd)
  exact h1.bind ((makeBody_gives hb ha hw.body h.body).bind ((makeTraits_gives hb hw.traits.nodup fun e he => trait_resolves ha (h.traits e he)).bind (.pure _)))

theorem makeUse_gives (mb : ModelBuilder) (s : TopLevelShape) : Gives (mb.makeShape (useRef s)) ⟨s.id, [], .unresolved⟩ := rfl

/-! ### The builder -/

theorem insertAll_eq (bs : List Builder) (mb : ModelBuilder) :
    insertAll mb bs = { mb with shapes := (bs.map fun b => (b.name, b)).foldl (fun m e => AMap.insert m e.1 e.2) mb.shapes } := by
  induction bs generalizing mb with
  | nil => rfl
  | cons b bs ih => exact ih (mb.insert b)

theorem metaDataFrom_eq (es : List (Str × Value)) (mb : ModelBuilder) :
    mb.metaDataFrom es = { mb with metadata := es.foldl (fun m e => AMap.insert m e.1 e.2) mb.metadata } := by
  induction es generalizing mb with
  | nil => rfl
  | cons e es ih => obtain ⟨k, v⟩ := e; exact ih (mb.metaData k v)

section
variable {f : Fmt} {flt : Str → Option F64} {m : Model} {ns : Str}

theorem shapesList_get (h : WfModel m) (s : TopLevelShape) : s ∈ m.shapesList ↔ m.shape s.id = some s := by
  constructor
  · intro hs
    obtain ⟨e, he, rfl⟩ := List.mem_map.mp hs
    have := AMap.get_of_mem h.nodup he
    have hk := h.key e.1 e.2 this
    change AMap.get m.shapes e.2.id = _
    rw [hk]
    exact this
  · intro hs
    exact List.mem_map.mpr ⟨_, AMap.mem_of_get hs, rfl⟩

theorem shapesList_ids (h : WfModel m) : (m.shapesList.map (·.id)).Nodup := by
  have : m.shapesList.map (·.id) = AMap.keys m.shapes := by
    unfold Model.shapesList AMap.values AMap.keys
    rw [List.map_map]
    exact List.map_congr_left fun e he => h.key e.1 e.2 (AMap.get_of_mem h.nodup he)
  rw [this]
  exact h.nodup

theorem mem_usedOf (h : WritableModel f flt m ns) (s : TopLevelShape) : s ∈ usedOf m ↔ m.shape s.id = some s ∧ s.body = .unresolved := by
  unfold usedOf
  rw [List.mem_filter, shapesList_get h.wf]
  simp only [Bool.and_eq_true, TopLevelShape.isUnresolved, isUnresolved_iff, List.isEmpty_iff]
  constructor
  · rintro ⟨h1, h2, -⟩; exact ⟨h1, h2⟩
  · rintro ⟨h1, h2⟩; exact ⟨h1, h2, (h.placeholders s.id s h1 h2).1⟩

theorem mem_resolvedOf (h : WritableModel f flt m ns) (s : TopLevelShape) :
    s ∈ resolvedOf (inNamespace m ns) ↔ m.shape s.id = some s ∧ s.body ≠ .unresolved ∧ s.id.ns = ns := by
  unfold resolvedOf inNamespace
  rw [List.mem_filter, List.mem_filter, shapesList_get h.wf]
  have e : (!s.isUnresolved) = true ↔ s.body ≠ .unresolved := by
    rw [Bool.not_eq_true', ← Bool.not_eq_true, TopLevelShape.isUnresolved, isUnresolved_iff]
  rw [e, identEq_sameName]
  constructor
  · rintro ⟨⟨h1, h2⟩, h3⟩
    exact ⟨h1, h3, (h.shapes s.id s h1 h3 h2).inNs⟩
  · rintro ⟨h1, h2, h3⟩
    refine ⟨⟨h1, ?_⟩, h2⟩
    rw [h3]; exact identEq_sameName.mp (by simp [identEq])

/-- The entries of the builder. -/
def writtenEntries (m : Model) (ns : Str) : List Builder := (usedOf m).map useRef ++ (resolvedOf (inNamespace m ns)).map (shapeRef ns)

theorem writtenEntries_names (h : WritableModel f flt m ns) : ((writtenEntries m ns).map (·.name)).Nodup := by
  have hids := shapesList_ids h.wf
  unfold writtenEntries
  rw [List.map_append, List.nodup_append]
  refine ⟨?_, ?_, ?_⟩
  · rw [List.map_map]
    have : List.Sublist ((usedOf m).map (·.id)) (m.shapesList.map (·.id)) := List.Sublist.map _ List.filter_sublist
    have h2 := hids.sublist this
    have e : (usedOf m).map ((·.name) ∘ useRef) = ((usedOf m).map (·.id)).map ShapeName.qualified := by rw [List.map_map]; rfl
    rw [e]
    exact List.Pairwise.map _ (fun a b hab he => hab (by injection he)) h2
  · rw [List.map_map]
    have hsub : List.Sublist (resolvedOf (inNamespace m ns)) m.shapesList := List.filter_sublist.trans List.filter_sublist
    have h2 := hids.sublist (hsub.map (·.id))
    rw [List.nodup_iff_pairwise_ne, List.pairwise_map] at h2 ⊢
    refine h2.imp_of_mem ?_
    intro a b ha hb hab he
    obtain ⟨ha1, ha2, ha3⟩ := (mem_resolvedOf h a).mp ha
    obtain ⟨hb1, hb2, hb3⟩ := (mem_resolvedOf h b).mp hb
    have hsa : SameName a.id.ns ns := by rw [ha3]; exact identEq_sameName.mp (by simp [identEq])
    have hsb : SameName b.id.ns ns := by rw [hb3]; exact identEq_sameName.mp (by simp [identEq])
    have ma := (h.shapes _ a ha1 ha2 hsa).member
    have mb := (h.shapes _ b hb1 hb2 hsb).member
    have hn : a.id.name = b.id.name := by simpa [shapeRef] using he
    apply hab
    obtain ⟨⟨a1, a2, a3⟩, at', ab⟩ := a
    obtain ⟨⟨b1, b2, b3⟩, bt', bb⟩ := b
    simp only at ha3 hb3 ma mb hn
    subst ha3 hb3 ma mb hn
    rfl
  · intro a ha b hb
    simp only [List.map_map, List.mem_map, Function.comp_apply] at ha hb
    obtain ⟨s, -, rfl⟩ := ha
    obtain ⟨t, -, rfl⟩ := hb
    simp [useRef, shapeRef]

theorem writtenBuilder_shapes (h : WritableModel f flt m ns) : (writtenBuilder m ns).shapes = (writtenEntries m ns).map fun b => (b.name, b) := by
  unfold writtenBuilder
  rw [metaDataFrom_eq, insertAll_eq]
  change List.foldl _ [] _ = _
  rw [AMap.foldl_insert_of_wf]
  · rfl
  · have := writtenEntries_names h
    unfold AMap.Wf AMap.keys
    rw [List.nil_append, List.map_map]
    exact this

theorem writtenBuilder_metadata (h : WritableModel f flt m ns) : (writtenBuilder m ns).metadata = quotedMetadata m := by
  unfold writtenBuilder
  rw [metaDataFrom_eq, insertAll_eq]
  change List.foldl _ [] _ = _
  rw [AMap.foldl_insert_of_wf]
  · rfl
  · exact quotedMetadata_wf h.wf.metaNodup

theorem writtenBuilder_rest : (writtenBuilder m ns).version = m.version ∧ (writtenBuilder m ns).defaultNs = ns := by
  unfold writtenBuilder
  rw [metaDataFrom_eq, insertAll_eq]
  exact ⟨rfl, rfl⟩

theorem writtenBuilder_wf (h : WritableModel f flt m ns) : WfBuilder (writtenBuilder m ns) := by
  obtain ⟨_, _, _, _, h'⟩ := readBuilder_fromFile (readBuilder_write h)
  exact h'.wf

theorem writtenBuilder_get (h : WritableModel f flt m ns) (n : ShapeName) (b : Builder) :
    (writtenBuilder m ns).shapes.get n = some b ↔ b ∈ writtenEntries m ns ∧ b.name = n := by
  have hw := (writtenBuilder_wf h).nodup
  rw [← AMap.mem_iff_get hw, writtenBuilder_shapes h, List.mem_map]
  constructor
  · rintro ⟨b', h1, h2⟩; cases h2; exact ⟨h1, rfl⟩
  · rintro ⟨h1, rfl⟩; exact ⟨b, h1, rfl⟩

theorem shapeRef_notReference {s : TopLevelShape} (h : s.body ≠ .unresolved) : (shapeRef ns s).body ≠ .reference := by
  unfold shapeRef
  cases hk : s.body <;> first | (simp [bodyRef]; done) | exact absurd hk h

theorem imports_iff (h : WritableModel f flt m ns) (n : Str) (id : ShapeID) : Imports (writtenBuilder m ns) n id ↔ NamedPlaceholder m n id := by
  unfold Imports NamedPlaceholder
  constructor
  · rintro ⟨b, h1, h2, h3⟩
    obtain ⟨h4, h5⟩ := (writtenBuilder_get h _ _).mp h1
    rcases List.mem_append.mp h4 with h4 | h4
    · obtain ⟨s, hs, rfl⟩ := List.mem_map.mp h4
      obtain ⟨h6, h7⟩ := (mem_usedOf h s).mp hs
      cases h5
      exact ⟨s, h6, h7, h3⟩
    · obtain ⟨s, hs, rfl⟩ := List.mem_map.mp h4
      cases h5
  · rintro ⟨s, h1, h2, h3⟩
    have hid := h.wf.key id s h1
    subst hid
    exact ⟨useRef s, (writtenBuilder_get h _ _).mpr ⟨List.mem_append_left _ (List.mem_map.mpr ⟨s, (mem_usedOf h s).mpr ⟨h1, h2⟩, rfl⟩), rfl⟩, rfl, h3⟩

theorem definedLocally_iff' (h : WritableModel f flt m ns) (n : Str) :
    DefinedLocally (writtenBuilder m ns) n ↔ ∃ s, m.shape ⟨ns, n, none⟩ = some s ∧ s.body ≠ .unresolved := by
  unfold DefinedLocally
  constructor
  · rintro ⟨b, h1⟩
    obtain ⟨h4, h5⟩ := (writtenBuilder_get h _ _).mp h1
    rcases List.mem_append.mp h4 with h4 | h4
    · obtain ⟨s, hs, rfl⟩ := List.mem_map.mp h4
      cases h5
    · obtain ⟨s, hs, rfl⟩ := List.mem_map.mp h4
      obtain ⟨h6, h7, h8⟩ := (mem_resolvedOf h s).mp hs
      have hsn : SameName s.id.ns ns := by rw [h8]; exact identEq_sameName.mp (by simp [identEq])
      have hm := (h.shapes _ s h6 h7 hsn).member
      have : s.id = ⟨ns, n, none⟩ := by
        have hn : s.id.name = n := by injection h5
        rcases hs : s.id with ⟨a, b, c⟩
        rw [hs] at h8 hm hn
        simp only at h8 hm hn
        rw [h8, hm, hn]
      exact ⟨s, this ▸ h6, h7⟩
  · rintro ⟨s, h1, h2⟩
    have hid := h.wf.key _ s h1
    refine ⟨shapeRef ns s, (writtenBuilder_get h _ _).mpr ⟨List.mem_append_right _ (List.mem_map.mpr ⟨s, (mem_resolvedOf h s).mpr ⟨by rw [hid]; exact h1, h2, by rw [hid]⟩, rfl⟩), ?_⟩⟩
    simp [shapeRef, hid]

theorem agrees (h : WritableModel f flt m ns) : Agrees (writtenBuilder m ns) m ns := by
  refine ⟨fun tr id hs => ?_⟩
  have hns := (writtenBuilder_rest (m := m) (ns := ns)).2
  cases hs with
  | imported h1 h2 => exact .imported ((imports_iff h _ _).mpr h1) fun id' h' => h2 id' ((imports_iff h _ _).mp h')
  | @defined n s h1 h2 h3 =>
    have := Resolves.defined (mb := writtenBuilder m ns) (isTrait := tr) (n := n) (fun id hi => h1 id ((imports_iff h _ _).mp hi))
      ((definedLocally_iff' h n).mpr ⟨s, h2, h3⟩)
    rw [hns] at this
    exact this
  | @prelude n h1 h2 h3 =>
    exact .prelude (fun id hi => h1 id ((imports_iff h _ _).mp hi)) (fun hd => by
      obtain ⟨s, h4, h5⟩ := (definedLocally_iff' h n).mp hd
      exact h5 (h2 s h4)) h3

theorem shape_short (h : WritableModel f flt m ns) {s : TopLevelShape} (hs : s ∈ resolvedOf (inNamespace m ns)) :
    WritableShape f flt m ns s ∧ ShortName m ns false s.id := by
  obtain ⟨h6, h7, h8⟩ := (mem_resolvedOf h s).mp hs
  have hsn : SameName s.id.ns ns := by rw [h8]; exact identEq_sameName.mp (by simp [identEq])
  have hw := h.shapes _ s h6 h7 hsn
  refine ⟨hw, ?_⟩
  have hm := hw.member
  have : s.id = ⟨ns, s.id.name, none⟩ := by
    rcases hs : s.id with ⟨a, b, c⟩
    rw [hs] at h8 hm
    simp only at h8 hm
    rw [h8, hm]
  rw [this]
  exact .defined hw.alone (this ▸ h6) h7

/-! ### The model -/

theorem addAllIgnoring_fresh (v : Version) (md : AMap Str Value) (L : List TopLevelShape) :
    ∀ acc : AMap ShapeID TopLevelShape, AMap.Wf (acc ++ L.map fun s => (s.id, s)) → (∀ s ∈ L, s.id.member = none) →
    Model.addAllIgnoring ⟨v, md, acc⟩ L = .ok ⟨v, md, acc ++ L.map fun s => (s.id, s)⟩ := by
  induction L with
  | nil => intro acc _ _; simp [Model.addAllIgnoring]
  | cons s L ih =>
    intro acc hw hm
    have hk : s.id ∉ AMap.keys acc := by
      have : (AMap.keys acc ++ AMap.keys ((s.id, s) :: L.map fun s => (s.id, s))).Nodup := by simpa [AMap.Wf, AMap.keys] using hw
      rw [List.nodup_append] at this
      exact fun hk => this.2.2 s.id hk s.id (by simp [AMap.keys]) rfl
    have e : Model.addShapeIgnoring ⟨v, md, acc⟩ s = .ok ⟨v, md, acc ++ [(s.id, s)]⟩ := by
      have : Model.addShape ⟨v, md, acc⟩ s = (⟨v, md, acc ++ [(s.id, s)]⟩, .ok ()) := by
        unfold Model.addShape
        rw [if_neg (by simp [ShapeID.isMember, hm s (by simp)])]
        simp only [Model.shape, (AMap.not_mem_keys_iff _ _).mp hk, AMap.insert_of_not_mem s hk]
      unfold Model.addShapeIgnoring
      rw [this]
    simp only [Model.addAllIgnoring, e]
    rw [ih _ (by simpa using hw) fun t ht => hm t (by simp [ht])]
    simp

/-- The shapes that are read. -/
def readShapes (m : Model) (ns : Str) : List TopLevelShape := (usedOf m ++ resolvedOf (inNamespace m ns)).map kept

theorem kept_used (h : WritableModel f flt m ns) {s : TopLevelShape} (hs : s ∈ usedOf m) : kept s = ⟨s.id, [], .unresolved⟩ := by
  obtain ⟨h1, h2⟩ := (mem_usedOf h s).mp hs
  have h3 := (h.placeholders s.id s h1 h2).1
  simp [kept, keptKind, keptTraits, h2, h3]

theorem makeAll_gives (h : WritableModel f flt m ns) :
    Gives (Mk.mapL (writtenBuilder m ns).makeShape (AMap.values (writtenBuilder m ns).shapes)) (readShapes m ns) := by
  have hb := writtenBuilder_wf h
  have e : AMap.values (writtenBuilder m ns).shapes = writtenEntries m ns := by
    rw [writtenBuilder_shapes h]
    unfold AMap.values
    rw [List.map_map]
    exact List.map_id' _
  rw [e]
  have key : ∀ (A B : List TopLevelShape), (∀ s ∈ A, s ∈ usedOf m) → (∀ s ∈ B, s ∈ resolvedOf (inNamespace m ns)) →
      Gives (Mk.mapL (writtenBuilder m ns).makeShape (A.map useRef ++ B.map (shapeRef ns))) ((A ++ B).map kept) := by
    intro A B hA hB
    induction A with
    | nil =>
      change Gives (Mk.mapL _ (B.map (shapeRef ns))) (B.map kept)
      rw [mapL_map]
      refine Gives.mapL fun s hs => ?_
      obtain ⟨h1, h2⟩ := shape_short h (hB s hs)
      obtain ⟨h3, h4, -⟩ := (mem_resolvedOf h s).mp (hB s hs)
      exact makeShape_gives hb (agrees h) (h.wf.shapes _ s h3) h4 h2 h1
    | cons s A ih =>
      have := makeUse_gives (writtenBuilder m ns) s
      rw [← kept_used h (hA s (by simp))] at this
      exact this.bind ((ih fun t ht => hA t (by simp [ht])).bind (.pure _))
  exact key _ _ (fun _ h => h) (fun _ h => h)

theorem mem_read (h : WritableModel f flt m ns) (s : TopLevelShape) :
    s ∈ usedOf m ++ resolvedOf (inNamespace m ns) ↔ m.shape s.id = some s ∧ (s.body = .unresolved ∨ s.id.ns = ns) := by
  rw [List.mem_append, mem_usedOf h, mem_resolvedOf h]
  constructor
  · rintro (⟨h1, h2⟩ | ⟨h1, h2, h3⟩)
    · exact ⟨h1, .inl h2⟩
    · exact ⟨h1, .inr h3⟩
  · rintro ⟨h1, h2⟩
    by_cases hb : s.body = .unresolved
    · exact .inl ⟨h1, hb⟩
    · exact .inr ⟨h1, hb, h2.resolve_left hb⟩

theorem read_ids (h : WritableModel f flt m ns) : ((usedOf m ++ resolvedOf (inNamespace m ns)).map (·.id)).Nodup := by
  have hids := shapesList_ids h.wf
  rw [List.map_append, List.nodup_append]
  refine ⟨hids.sublist (List.Sublist.map _ List.filter_sublist), hids.sublist (List.Sublist.map _ (List.filter_sublist.trans List.filter_sublist)), ?_⟩
  intro a ha b hb hab
  obtain ⟨s, hs, rfl⟩ := List.mem_map.mp ha
  obtain ⟨t, ht, rfl⟩ := List.mem_map.mp hb
  obtain ⟨h1, h2⟩ := (mem_usedOf h s).mp hs
  obtain ⟨h3, h4, -⟩ := (mem_resolvedOf h t).mp ht
  rw [hab, h3] at h1
  cases h1
  exact h4 h2

theorem parseModel_write (h : WritableModel f flt m ns) {enum : List ShapeID → List ShapeID} (he : Enumerates enum) :
    parseModel flt enum (writeIdl f ns m) = .ok ⟨m.version, quotedMetadata m, (readShapes m ns).map fun s => (s.id, s)⟩ := by
  unfold parseModel
  rw [readBuilder_write h]
  change (writtenBuilder m ns).build enum = _
  rw [build_ok (writtenBuilder_wf h)]
  refine ⟨readShapes m ns, [], makeAll_gives h, ?_⟩
  have : enum [] = [] := List.eq_nil_iff_forall_not_mem.mpr fun id hid => by simpa using (he.mem [] id).mp hid
  rw [this, writtenBuilder_metadata h, writtenBuilder_rest.1, List.map_nil, List.append_nil]
  have hid := read_ids h
  have := addAllIgnoring_fresh m.version (quotedMetadata m) (readShapes m ns) [] ?_ ?_
  · exact this
  · unfold AMap.Wf AMap.keys readShapes
    rw [List.nil_append, List.map_map, List.map_map]
    exact hid
  · intro s hs
    obtain ⟨t, ht, rfl⟩ := List.mem_map.mp hs
    change t.id.member = none
    rcases List.mem_append.mp ht with ht | ht
    · obtain ⟨h1, h2⟩ := (mem_usedOf h t).mp ht
      exact (h.placeholders _ t h1 h2).2.member
    · exact (shape_short h ht).1.member

theorem readBack_write (h : WritableModel f flt m ns) : ReadBack m ns ⟨m.version, quotedMetadata m, (readShapes m ns).map fun s => (s.id, s)⟩ := by
  refine ⟨rfl, fun k' v => ?_, fun id s' => ?_⟩
  · rw [← AMap.mem_iff_get (quotedMetadata_wf h.wf.metaNodup)]
    unfold quotedMetadata
    rw [List.mem_map]
    constructor
    · rintro ⟨e, h1, h2⟩
      cases h2
      exact ⟨e.1, rfl, AMap.get_of_mem h.wf.metaNodup h1⟩
    · rintro ⟨k, rfl, h1⟩
      exact ⟨(k, v), AMap.mem_of_get h1, rfl⟩
  · have hw : AMap.Wf ((readShapes m ns).map fun s => (s.id, s)) := by
      unfold AMap.Wf AMap.keys readShapes
      rw [List.map_map, List.map_map]
      exact read_ids h
    change AMap.get _ id = some s' ↔ _
    rw [← AMap.mem_iff_get hw]
    unfold readShapes
    rw [List.map_map, List.mem_map]
    constructor
    · rintro ⟨s, h1, h2⟩
      obtain ⟨h3, h4⟩ := (mem_read h s).mp h1
      cases h2
      exact ⟨s, h3, h4, rfl⟩
    · rintro ⟨s, h1, h2, rfl⟩
      have hid := h.wf.key id s h1
      subst hid
      exact ⟨s, (mem_read h s).mpr ⟨h1, h2⟩, rfl⟩

end

end Verif
