/-
C104: from one format to the other and back.
-/
import Verif.SettleIdl
import Verif.SettleJson
import Verif.JsonExact

namespace Verif
open Peg Spec Spec.Idl

/-! ### From the IDL to JSON -/

theorem readTraits_valid {ts : Traits} (h : ReadTraits ts) : ValidTraits ts ∧ TraitsHaveValues ts :=
  ⟨fun id v hv => (h id v hv).1, fun id v hv => by obtain ⟨x, rfl⟩ := (h id v hv).2; simp⟩

theorem readMembers_valid {ms : AMap Str MemberShape} (hw : WfMembers ms) (h : ∀ k x, ms.get k = some x → ReadMember x) :
    ∀ k x, ms.get k = some x → IsIdentifier k ∧ ValidMember x := by
  intro k x hx
  have := h k x hx
  refine ⟨?_, this.target.1, (readTraits_valid this.traits).1⟩
  rw [← hw.key k x hx]
  exact (isIdent_iff _).mp (isIdent_of_smithy this.name)

theorem readKind_valid {k : ShapeKind} (hw : WfKind k) (h : ReadKind k) : ValidKind k := by
  have hv : ∀ {id : ShapeID}, RootId id → id.Valid := fun h => h.1
  cases h with
  | simple => trivial
  | list h => exact ⟨h.1, fun _ _ h => by cases h⟩
  | map h h' => exact ⟨⟨h.1, fun _ _ h => by cases h⟩, h'.1, fun _ _ h => by cases h⟩
  | struct h => exact readMembers_valid hw h
  | union h => exact readMembers_valid hw h
  | service h1 h2 h3 => exact ⟨h1, fun id hi => hv (h2 id hi), fun id hi => hv (h3 id hi), fun _ _ h => by cases h⟩
  | operation h1 h2 h3 => exact ⟨fun id hi => hv (h1 id hi), fun id hi => hv (h2 id hi), fun id hi => hv (h3 id hi)⟩
  | resource h1 h2 h3 h4 h5 =>
    exact ⟨fun n id hi => ⟨(h1 n id hi).1, hv (h1 n id hi).2⟩, fun l id hi => hv (h2 l id hi), fun id hi => hv (h3 id hi),
      fun id hi => hv (h4 id hi), fun id hi => hv (h5 id hi)⟩

/-- Every model that is read from a text of the IDL is well formed and valid. -/
theorem parsed_valid {flt : Str → Option F64} {enum : List ShapeID → List ShapeID} (he : Enumerates enum) {s : Str} {m : Model}
    (h : parseModel flt enum s = .ok m) : WfModel m ∧ ValidModel m := by
  rcases parseModel_read he h with ⟨-, rfl⟩ | ⟨ns, h1, h2⟩
  · exact ⟨(Reachable.new .v10).wf, fun _ _ h => by cases h⟩
  · refine ⟨h2, fun id x hx => ?_⟩
    obtain ⟨h3, -⟩ := h1.shapes id x hx
    refine ⟨(h2.key id x hx) ▸ h3.id.1, (readTraits_valid h3.traits).1, ?_⟩
    rcases h3.body with ⟨h4, -⟩ | h4
    · rw [h4]; trivial
    · exact readKind_valid (h2.shapes id x hx).body h4

namespace Spec

/-- Map shapes whose key and value are named `member`. -/
def mapNamed : ShapeKind → ShapeKind
  | .map k v => .map { k with id := memberMember } { v with id := memberMember }
  | k => k

/-- The model with the members of its maps named `member`. -/
def mapsNamed (m : Model) : Model := ⟨m.version, m.metadata, m.shapes.map fun e => (e.1, ⟨e.2.id, e.2.traits, mapNamed e.2.body⟩)⟩

end Spec

theorem normTraits_eq {ts : Traits} (h : ∀ e ∈ ts, ∃ v, e.2 = some v) : normTraits ts = ts := by
  induction ts with
  | nil => rfl
  | cons e ts ih =>
    obtain ⟨k, v⟩ := e
    obtain ⟨x, hx⟩ := h _ (List.mem_cons_self ..)
    dsimp only at hx
    subst hx
    simp only [normTraits, List.map_cons, normTraitValue, List.cons.injEq, true_and]
    exact ih fun e he => h e (List.mem_cons_of_mem _ he)

theorem readTraits_eq {ts : Traits} (hw : AMap.Wf ts) (h : ReadTraits ts) : normTraits ts = ts :=
  normTraits_eq fun e he => (h e.1 e.2 (AMap.get_of_mem hw he)).2

theorem readMembers_eq {ms : AMap Str MemberShape} (hw : WfMembers ms) (h : ∀ k x, ms.get k = some x → ReadMember x) :
    (ms.map fun e => (e.1, normMember e.2)) = ms := by
  refine (List.map_congr_left ?_).trans (List.map_id _)
  rintro ⟨k, x⟩ he
  have hx := AMap.get_of_mem hw.nodup he
  have := readTraits_eq (hw.traits k x hx).nodup (h k x hx).traits
  obtain ⟨i, ts, t⟩ := x
  simp only [normMember, id, Prod.mk.injEq, true_and] at this ⊢
  rw [this]

theorem readKind_eq {k : ShapeKind} (hw : WfKind k) (h : ReadKind k) : normKind k = mapNamed k := by
  cases h with
  | simple => rfl
  | list h => rfl
  | map h h' => rfl
  | struct h => exact congrArg ShapeKind.struct (readMembers_eq hw h)
  | union h => exact congrArg ShapeKind.union (readMembers_eq hw h)
  | service h1 h2 h3 => rfl
  | operation h1 h2 h3 => rfl
  | resource h1 h2 h3 h4 h5 => rfl

theorem parsed_normal {flt : Str → Option F64} {enum : List ShapeID → List ShapeID} (he : Enumerates enum) {s : Str} {m : Model}
    (h : parseModel flt enum s = .ok m) : jsonNormal m = mapsNamed m := by
  rcases parseModel_read he h with ⟨-, rfl⟩ | ⟨ns, h1, h2⟩
  · rfl
  · unfold jsonNormal mapsNamed
    refine congrArg (Model.mk m.version m.metadata) (List.map_congr_left ?_)
    rintro ⟨id, x⟩ he
    have hx : m.shape id = some x := AMap.get_of_mem h2.nodup he
    obtain ⟨h3, -⟩ := h1.shapes id x hx
    have hb : normKind x.body = mapNamed x.body := by
      rcases h3.body with ⟨h4, -⟩ | h4
      · rw [h4]; rfl
      · exact readKind_eq (h2.shapes id x hx).body h4
    simp only [normShape, hb, readTraits_eq (h2.shapes id x hx).traits.nodup h3.traits]

/-- C104: every model that is read from a text of the IDL and has no NaNs and infinities is written as JSON, and reading that gives the
model with the members of its maps named `member`. -/
theorem C104_idl_to_json (flt : Str → Option F64) (enum : List ShapeID → List ShapeID) (he : Enumerates enum) (s : Str) (m : Model)
    (h : parseModel flt enum s = .ok m) (hf : FiniteModel m) :
    ∃ j m', JsonWriter.modelToJson m = .ok j ∧ JsonReader.model j = .ok m' ∧ SameModel (mapsNamed m) m' := by
  obtain ⟨hw, hv⟩ := parsed_valid he h
  obtain ⟨j, m', h1, h2, h3⟩ := C30_round_trip_changes m hw hv hf
  exact ⟨j, m', h1, h2, parsed_normal he h ▸ h3⟩

/-- C104: so a model that is read from a text of the IDL without map shapes comes back from JSON as it was; with one, it does not. -/
theorem C104_idl_json_same_iff (flt : Str → Option F64) (enum : List ShapeID → List ShapeID) (he : Enumerates enum) (s : Str) (m : Model)
    (h : parseModel flt enum s = .ok m) (hf : FiniteModel m) :
    ∃ j m', JsonWriter.modelToJson m = .ok j ∧ JsonReader.model j = .ok m' ∧
      (SameModel m m' ↔ ∀ id x k v, m.shape id = some x → x.body ≠ .map k v) := by
  obtain ⟨hw, hv⟩ := parsed_valid he h
  obtain ⟨j, m', h1, h2, h3⟩ := C104_idl_to_json flt enum he s m h hf
  refine ⟨j, m', h1, h2, fun hs id x k v hx hb => ?_, fun hn => ?_⟩
  · have hr := (C30_round_trip_iff m hw hv hf).mp ⟨j, m', h1, h2, hs⟩
    have hk := (hr id x hx).2
    rw [hb] at hk
    rcases parseModel_read he h with ⟨-, rfl⟩ | ⟨ns, g1, -⟩
    · cases hx
    · rcases (g1.shapes id x hx).1.body with ⟨g, -⟩ | g
      · rw [hb] at g; cases g
      · rw [hb] at g
        cases g
        exact absurd hk.1.1 (show ¬ (%s"key" = memberMember) by decide)
  · have : mapsNamed m = m := by
      unfold mapsNamed
      have : (m.shapes.map fun e => (e.1, (⟨e.2.id, e.2.traits, mapNamed e.2.body⟩ : TopLevelShape))) = m.shapes := by
        refine (List.map_congr_left ?_).trans (List.map_id _)
        rintro ⟨id, ⟨i, ts, b⟩⟩ hm
        have hb := hn id ⟨i, ts, b⟩
        cases b with
        | map k v => exact absurd rfl (hb k v (AMap.get_of_mem hw.nodup hm))
        | _ => rfl
      rw [this]
    rwa [this] at h3

/-! ### From the IDL to JSON and back to the IDL -/

section back
variable {f : Fmt} {flt : Str → Option F64} {m m' : Model} {ns : Str}

/-- What can be written does not depend on the order of the entries of objects. -/
theorem same_writable {v v' : Value} (h : Same v v') : v'.Wf → WritableValue f flt v → WritableValue f flt v' := by
  induction h with
  | @array a b hl hab ih =>
    intro hw hv
    cases hw with
    | array hw =>
    cases hv with
    | array hv =>
    refine .array fun y hy => ?_
    obtain ⟨i, hi⟩ := List.mem_iff_getElem?.mp hy
    obtain ⟨x, hx⟩ : ∃ x, a[i]? = some x := by
      have : i < b.length := (List.getElem?_eq_some_iff.mp hi).1
      exact ⟨a[i], List.getElem?_eq_getElem (by omega)⟩
    exact ih i x y hx hi (hw y hy) (hv x (List.mem_iff_getElem?.mpr ⟨i, hx⟩))
  | @object a b hk hab ih =>
    intro hw hv
    cases hw with
    | object hn hw =>
    cases hv with
    | object ha hi hv =>
    have key : ∀ e ∈ b, ∃ x, a.get e.1 = some x := fun e he => by
      have h1 := AMap.get_of_mem hn he
      have h2 := hk e.1
      rw [h1] at h2
      exact Option.isSome_iff_exists.mp h2
    refine .object hn (fun e he => ?_) fun e he => ?_
    · obtain ⟨x, hx⟩ := key e he
      exact hi (e.1, x) (AMap.mem_of_get hx)
    · obtain ⟨x, hx⟩ := key e he
      exact ih e.1 x e.2 hx (AMap.get_of_mem hn he) (hw e he) (hv (e.1, x) (AMap.mem_of_get hx))
  | number h => subst h; exact fun _ h => h
  | boolean => exact fun _ h => h
  | string => exact fun _ h => h
  | none => exact fun _ h => h

theorem same_ne_none {v v' : Value} (h : Same v v') (hv : v ≠ .none) : v' ≠ .none := by
  cases h <;> first | exact hv | nofun

/-- Traits with the same values up to order: they can be written, and are read as the same traits. -/
theorem SameNames.sameTraits (h : SameNames m m' ns) {ts ts' : Traits} (hs : SameTraits ts ts') (hw' : WfTraits ts')
    (hx : ExactTraits ts) (ht : ∀ e ∈ ts, WritableTrait f flt m ns e.1 e.2) :
    (∀ e ∈ ts', WritableTrait f flt m' ns e.1 e.2) ∧ Spec.keptTraits ts' = ts' := by
  have hall : ∀ e ∈ ts', ∃ v v', e.2 = some v' ∧ Same v v' ∧ v ≠ .none ∧ (e.1, some v) ∈ ts := by
    intro e he
    have h1 := AMap.get_of_mem hw'.nodup he
    have h2 := hs e.1
    rw [h1] at h2
    generalize h3 : AMap.get ts e.1 = o at h2
    cases h2 with
    | some h2 =>
      have hm := AMap.mem_of_get h3
      obtain ⟨v, hv, hv'⟩ := hx _ hm
      dsimp only at hv
      subst hv
      generalize e.2 = o' at h2
      cases h2 with
      | some h2 => exact ⟨v, _, rfl, h2, hv', hm⟩
  refine ⟨fun e he => ?_, ?_⟩
  · obtain ⟨v, v', e1, h1, h2, h3⟩ := hall e he
    refine h.trait (v := some v) (ht _ h3) fun x hx => .inr ?_
    rw [e1] at hx
    cases hx
    refine same_writable h1 (hw'.values e.1 v' ?_) (((ht _ h3).value v rfl).resolve_left h2)
    rw [← e1]
    exact AMap.get_of_mem hw'.nodup he
  · refine keptTraits_eq_iff.mpr fun e he => ?_
    obtain ⟨v, v', e1, h1, h2, h3⟩ := hall e he
    exact ⟨v', e1, same_ne_none h1 h2⟩

theorem SameNames.sameMembers (h : SameNames m m' ns) {ms ms' : AMap Str MemberShape} (hs : MapRel SameMemberShape ms ms')
    (hw' : WfMembers ms') (hx : ∀ e ∈ ms, ExactTraits e.2.traits) (ht : ∀ e ∈ ms, WritableMember f flt m ns e.2) :
    (∀ e ∈ ms', WritableMember f flt m' ns e.2) ∧ (ms'.map fun e => (e.1, keptMember e.2)) = ms' := by
  have hall : ∀ e ∈ ms', WritableMember f flt m' ns e.2 ∧ Spec.keptTraits e.2.traits = e.2.traits := by
    rintro ⟨k, x'⟩ he
    have h1 := AMap.get_of_mem hw'.nodup he
    have h2 := hs k
    rw [h1] at h2
    generalize h3 : AMap.get ms k = o at h2
    cases h2 with
    | @some x _ h2 =>
      obtain ⟨a, b, c⟩ := h2
      have hm := AMap.mem_of_get h3
      obtain ⟨p, q⟩ := h.sameTraits c (hw'.traits k x' h1) (hx _ hm) (ht _ hm).traits
      exact ⟨⟨a ▸ (ht _ hm).name, b ▸ h.target (ht _ hm).target, p⟩, q⟩
  exact ⟨fun e he => (hall e he).1, keptMembers_eq_iff.mpr fun e he => keptTraits_eq_iff.mp (hall e he).2⟩

/-- Bodies that are in the text completely, after JSON: they can be written, and what is read is the body as it was. -/
theorem SameNames.sameKind (h : SameNames m m' ns) {k k' : ShapeKind} (hs : SameKind (mapNamed k) k') (hw' : WfKind k')
    (hx : ExactKind k) (hk : WritableKind f flt m ns k) : WritableKind f flt m' ns k' ∧ SameKind k (Spec.keptKind k') := by
  cases hx with
  | simple => cases hs; exact ⟨.simple, .simple⟩
  | list =>
    cases hs with
    | @list _ b hs =>
      obtain ⟨a, b', c⟩ := hs
      cases hk with
      | list hk => exact ⟨.list (b' ▸ hk), .list ⟨rfl, b', SameTraits.refl []⟩⟩
  | map =>
    cases hs with
    | map hs hs' =>
      cases hk with
      | map h1 h2 =>
        exact ⟨.map (hs.2.1 ▸ h.target h1) (hs'.2.1 ▸ h.target h2), .map ⟨rfl, hs.2.1, SameTraits.refl []⟩ ⟨rfl, hs'.2.1, SameTraits.refl []⟩⟩
  | struct hx =>
    cases hs with
    | struct hs =>
      cases hk with
      | struct hk =>
        obtain ⟨p, q⟩ := h.sameMembers hs hw' hx hk
        exact ⟨.struct p, (by simp only [Spec.keptKind, q]; exact .struct hs)⟩
  | union hx =>
    cases hs with
    | union hs =>
      cases hk with
      | union hk =>
        obtain ⟨p, q⟩ := h.sameMembers hs hw' hx hk
        exact ⟨.union p, (by simp only [Spec.keptKind, q]; exact .union hs)⟩
  | @service x hx =>
    cases hk with
    | service h1 h2 h3 h4 =>
      obtain ⟨v, o, rs, rn⟩ := x
      dsimp only at hx
      subst hx
      cases hs with
      | service hs => exact ⟨.service h1 h2 (fun id hi => h.bare (h3 id hi)) fun id hi => h.bare (h4 id hi), .service (MapRel.refl (fun _ => rfl) _)⟩
  | operation =>
    cases hs with
    | operation =>
      cases hk with
      | operation a b c =>
        exact ⟨.operation (fun id hi => h.bare (a id hi)) (fun id hi => h.bare (b id hi)) fun id hi => h.bare (c id hi), .operation⟩
  | @resource x =>
    cases hk with
    | resource a b c d e g i j k l =>
      obtain ⟨ids, x1, x2, x3, x4, x5, x6, x7, x8, x9⟩ := x
      cases hs with
      | @resource _ ids' _ _ _ _ _ _ _ _ _ hs =>
        refine ⟨.resource (fun e he => ?_) (fun id hi => h.bare (b id hi)) (fun id hi => h.bare (c id hi))
          (fun id hi => h.bare (d id hi)) (fun id hi => h.bare (e id hi)) (fun id hi => h.bare (g id hi)) (fun id hi => h.bare (i id hi))
          (fun id hi => h.bare (j id hi)) (fun id hi => h.bare (k id hi)) (fun id hi => h.bare (l id hi)), .resource hs⟩
        have h1 : AMap.get ids' e.1 = some e.2 := AMap.get_of_mem hw' he
        have h2 := hs e.1
        rw [h1] at h2
        generalize h3 : AMap.get ids e.1 = o at h2
        cases h2 with
        | some h2 =>
          subst h2
          have := a _ (AMap.mem_of_get h3)
          exact ⟨this.1, h.bare this.2⟩
  | unresolved => cases hk

theorem mapNamed_unresolved {k : ShapeKind} : mapNamed k = .unresolved ↔ k = .unresolved := by
  cases k <;> simp [mapNamed]

theorem sameKind_unresolved {k k' : ShapeKind} (h : SameKind k k') : k = .unresolved ↔ k' = .unresolved := by
  cases h <;> simp

/-- What JSON makes of a model that is completely in its text can be written, and is read as the model it was. -/
theorem after_json (hw : WritableModel f flt m ns) (hx : ExactModel m ns) (hw' : WfModel m') (hs : SameModel (mapsNamed m) m') :
    WritableModel f flt m' ns ∧ ∀ m3, ReadBack m' ns m3 → m3.metadata = [] → SameModel m m3 := by
  have hmd : m'.metadata = [] := by
    cases e : m'.metadata with
    | nil => rfl
    | cons x l =>
      have h1 := hs.metadata x.1
      rw [e, AMap.get_cons, if_pos rfl] at h1
      simp only [mapsNamed, hx.metadata] at h1
      cases h1
  have hsh : ∀ id, OptRel (fun s s' => SameShape ⟨s.id, s.traits, mapNamed s.body⟩ s') (m.shape id) (m'.shape id) := by
    intro id
    have h1 := hs.shapes id
    simp only [mapsNamed] at h1
    rw [AMap.get_map_val (fun _ (s : TopLevelShape) => (⟨s.id, s.traits, mapNamed s.body⟩ : TopLevelShape))] at h1
    change OptRel SameShape (Option.map _ (m.shape id)) (m'.shape id) at h1
    generalize m.shape id = o at h1 ⊢
    generalize m'.shape id = o' at h1 ⊢
    cases o with
    | none => cases h1; exact .none
    | some s => cases h1 with | some h1 => exact .some h1
  have hback : ∀ id s', m'.shape id = some s' → ∃ s, m.shape id = some s ∧ SameShape ⟨s.id, s.traits, mapNamed s.body⟩ s' := by
    intro id s' h
    have h1 := hsh id
    rw [h] at h1
    generalize m.shape id = o at h1 ⊢
    cases h1 with | some h1 => exact ⟨_, rfl, h1⟩
  have hforth : ∀ id s, m.shape id = some s → ∃ s', m'.shape id = some s' ∧ SameShape ⟨s.id, s.traits, mapNamed s.body⟩ s' := by
    intro id s h
    have h1 := hsh id
    rw [h] at h1
    generalize m'.shape id = o at h1 ⊢
    cases h1 with | some h1 => exact ⟨_, rfl, h1⟩
  have hun : ∀ {s s' : TopLevelShape}, SameShape ⟨s.id, s.traits, mapNamed s.body⟩ s' → (s.body = .unresolved ↔ s'.body = .unresolved) :=
    fun h => mapNamed_unresolved.symm.trans (sameKind_unresolved h.body)
  have hn : SameNames m m' ns := by
    refine ⟨fun n id => ⟨?_, ?_⟩, fun n => ⟨?_, ?_⟩⟩
    · rintro ⟨s', h1, h2, h3⟩
      obtain ⟨s, a, b⟩ := hback _ _ h1
      exact ⟨s, a, (hun b).mpr h2, h3⟩
    · rintro ⟨s, h1, h2, h3⟩
      obtain ⟨s', a, b⟩ := hforth _ _ h1
      exact ⟨s', a, (hun b).mp h2, h3⟩
    · rintro ⟨s', h1, h2⟩
      obtain ⟨s, a, b⟩ := hback _ _ h1
      exact ⟨s, a, fun h => h2 ((hun b).mp h)⟩
    · rintro ⟨s, h1, h2⟩
      obtain ⟨s', a, b⟩ := hforth _ _ h1
      exact ⟨s', a, fun h => h2 ((hun b).mpr h)⟩
  have hempty : ∀ {ts ts' : Traits}, ts = [] → SameTraits ts ts' → ts' = [] := by
    rintro _ ts' rfl h
    cases ts' with
    | nil => rfl
    | cons e l =>
      have := h e.1
      rw [AMap.get_cons, if_pos rfl] at this
      cases this
  have hns : ∀ id s, m.shape id = some s → s.body ≠ .unresolved → id.ns = ns := fun id s h hb => (hx.oneNamespace id s h).resolve_left hb
  have hshape : ∀ {id s s'}, m.shape id = some s → m'.shape id = some s' → s.body ≠ .unresolved → SameShape ⟨s.id, s.traits, mapNamed s.body⟩ s' →
      WritableShape f flt m' ns s' ∧ SameShape s (kept s') := by
    intro id s s' h1 h2 h3 h4
    have hk := hw.shapes id s h1 h3 (by rw [hns id s h1 h3]; exact rfl)
    obtain ⟨p, q⟩ := hn.sameTraits h4.traits (hw'.shapes id s' h2).traits (hx.traits id s h1) hk.traits
    obtain ⟨p', q'⟩ := hn.sameKind h4.body (hw'.shapes id s' h2).body (hx.bodies id s h1) hk.body
    have e : s.id = s'.id := h4.id
    refine ⟨⟨e ▸ hk.inNs, e ▸ hk.name, e ▸ hk.member, fun i hi => hk.alone i (e ▸ (hn.named _ _).mp hi), p, p'⟩, ⟨e, ?_, q'⟩⟩
    rw [kept, q]
    exact h4.traits
  refine ⟨⟨hw', hw.nsText, by rw [hmd]; simp, ?_, ?_⟩, ?_⟩
  · intro id s' h hb
    obtain ⟨s, a, b⟩ := hback _ _ h
    obtain ⟨h1, h2⟩ := hw.placeholders id s a ((hun b).mpr hb)
    exact ⟨hempty h1 b.traits, h2⟩
  · intro id s' h hb _
    obtain ⟨s, a, b⟩ := hback _ _ h
    exact (hshape a h (fun h => hb ((hun b).mp h)) b).1
  · intro m3 h3 hm3
    refine ⟨?_, ?_, ?_⟩
    · exact hs.version.trans h3.version.symm
    · rw [hx.metadata, hm3]; exact MapRel.nil
    · intro id
      change OptRel SameShape (m.shape id) (m3.shape id)
      cases h : m.shape id with
      | none =>
        have : m3.shape id = none := by
          cases e : m3.shape id with
          | none => rfl
          | some s3 =>
            obtain ⟨s', a, -, -⟩ := (h3.shapes id s3).mp e
            obtain ⟨s, a', -⟩ := hback _ _ a
            rw [h] at a'; cases a'
        rw [this]; exact .none
      | some s =>
        obtain ⟨s', a, b⟩ := hforth _ _ h
        by_cases hu : s.body = .unresolved
        · have hu' := (hun b).mp hu
          rw [(h3.shapes id (kept s')).mpr ⟨s', a, .inl hu', rfl⟩]
          have h1 := (hw.placeholders id s h hu).1
          refine .some ⟨b.id, ?_, ?_⟩
          · rw [kept, hempty h1 b.traits, h1]; exact SameTraits.refl []
          · rw [kept, hu', hu]; exact .unresolved
        · rw [(h3.shapes id (kept s')).mpr ⟨s', a, .inr (hns id s h hu), rfl⟩]
          exact .some (hshape h a hu b).2

end back

theorem keptTraits_all {P : Value → Prop} (he : P (.object [])) {ts : Traits} (h : TraitsAll P ts) : TraitsAll P (keptTraits ts) := by
  intro id v hv
  rw [keptTraits, AMap.get_map_val (fun _ v => some (keptValue v))] at hv
  cases hx : AMap.get ts id with
  | none => rw [hx] at hv; cases hv
  | some o =>
    rw [hx] at hv
    cases o with
    | none => cases hv; exact he
    | some x =>
      have := h id x hx
      cases x <;> (cases hv; first | exact he | exact this)

theorem keptKind_all {P : Value → Prop} (he : P (.object [])) {k : ShapeKind} (h : KindAll P k) : KindAll P (keptKind k) := by
  have hm : ∀ {ms : AMap Str MemberShape}, (∀ k x, ms.get k = some x → TraitsAll P x.traits) →
      ∀ k x, AMap.get (ms.map fun e => (e.1, keptMember e.2)) k = some x → TraitsAll P x.traits := by
    intro ms h k x hx
    rw [AMap.get_map_val (fun _ x => keptMember x)] at hx
    cases hy : AMap.get ms k with
    | none => rw [hy] at hx; cases hx
    | some y => rw [hy] at hx; cases hx; exact keptTraits_all he (h k y hy)
  cases k with
  | list x => exact fun _ _ h => by cases h
  | set x => exact fun _ _ h => by cases h
  | map k v => exact ⟨fun _ _ h => (by cases h), fun _ _ h => (by cases h)⟩
  | struct ms => exact hm h
  | union ms => exact hm h
  | _ => trivial

/-- C104: a writable model without metadata, NaNs and infinities is written in the IDL and read; what is read is written as JSON and
read; what is read from that is written in the IDL and read, and is the model that was read first. -/
theorem C104_idl_json_idl (f : Fmt) (flt : Str → Option F64) (enum : List ShapeID → List ShapeID) (he : Enumerates enum)
    (m : Model) (ns : Str) (h : WritableModel f flt m ns) (hm : m.metadata = []) (hf : FiniteModel m) :
    ∃ m1 j m2 m3, parseModel flt enum (writeIdl f ns m) = .ok m1 ∧ JsonWriter.modelToJson m1 = .ok j ∧ JsonReader.model j = .ok m2 ∧
      parseModel flt enum (writeIdl f ns m2) = .ok m3 ∧ SameModel m1 m3 := by
  obtain ⟨m1, h1, h2, h3⟩ := C51_round_trip f flt enum he m ns h
  obtain ⟨a, b⟩ := h2.writable h hm h3
  have hobj : ¬ NonFinite (.object []) := by rintro (_ | _ | ⟨h, -⟩); cases h
  have hf1 : FiniteModel m1 := by
    refine ⟨fun k v hv => (by rw [b.metadata] at hv; cases hv), fun id s hs => ?_⟩
    obtain ⟨s0, k1, -, rfl⟩ := (h2.shapes id s).mp hs
    exact ⟨keptTraits_all hobj (hf.2 id s0 k1).1, keptKind_all hobj (hf.2 id s0 k1).2⟩
  obtain ⟨j, m2, k1, k2, k3⟩ := C104_idl_to_json flt enum he _ m1 h1 hf1
  have hw2 := (C30_read_model_wf j m2 (modelToJson_wf h3 k1) k2).1
  obtain ⟨p, q⟩ := after_json a b hw2 k3
  obtain ⟨m3, l1, l2, l3⟩ := C51_round_trip f flt enum he m2 ns p
  refine ⟨m1, j, m2, m3, h1, k1, k2, l1, q m3 l2 ?_⟩
  cases e : m3.metadata with
  | nil => rfl
  | cons x l =>
    obtain ⟨k, v⟩ := x
    obtain ⟨k0, -, h0⟩ := (l2.metadata k v).mp (by rw [e]; simp [AMap.get_cons])
    have := k3.metadata k0
    rw [h0] at this
    simp only [mapsNamed, b.metadata] at this
    cases this

/-! ### Cases -/

/-- A map, whose members JSON renames and the IDL names again. -/
def exMapIdl : Model := ⟨.v10, [], [(⟨%s"a", %s"M", none⟩, ⟨⟨%s"a", %s"M", none⟩, [],
  .map ⟨%s"key", [], ⟨%s"smithy.api", %s"String", none⟩⟩ ⟨%s"value", [], ⟨%s"a", %s"M", none⟩⟩⟩)]⟩

theorem exMapIdl_ok (flt : Str → Option F64) : WritableModel exFmt flt exMapIdl %s"a" ∧ exMapIdl.metadata = [] ∧ FiniteModel exMapIdl := by
  have hget : ∀ {id s}, exMapIdl.shape id = some s → id = ⟨%s"a", %s"M", none⟩ ∧ s = ⟨⟨%s"a", %s"M", none⟩, [],
      .map ⟨%s"key", [], ⟨%s"smithy.api", %s"String", none⟩⟩ ⟨%s"value", [], ⟨%s"a", %s"M", none⟩⟩⟩ := fun h => get_one h
  have hnone : ∀ n id, ¬ NamedPlaceholder exMapIdl n id := by
    rintro n id ⟨s, h1, h2, -⟩
    obtain ⟨rfl, rfl⟩ := hget h1
    cases h2
  refine ⟨⟨⟨AMap.wf_nil, (fun _ _ h => by cases h), (by unfold AMap.Wf; decide), ?_, ?_, ?_⟩, ?_, (by simp [exMapIdl]), ?_, ?_⟩, rfl, ?_, ?_⟩
  · intro id s h; obtain ⟨rfl, rfl⟩ := hget h; rfl
  · intro id s h hm; obtain ⟨rfl, rfl⟩ := hget h; cases hm
  · intro id s h
    obtain ⟨rfl, rfl⟩ := hget h
    have hn : WfTraits [] := ⟨AMap.wf_nil, fun _ _ h => by cases h⟩
    exact ⟨hn, hn, hn⟩
  · exact ⟨[%s"a"], by simp, (by simpa using ident_one _ (by decide)), rfl⟩
  · intro id s h hb; obtain ⟨rfl, rfl⟩ := hget h; cases hb
  · intro id s h hb _
    obtain ⟨rfl, rfl⟩ := hget h
    refine ⟨rfl, ident_one _ (by decide), rfl, hnone _, fun _ h => (by cases h), .map ⟨?_, ?_⟩ ⟨ident_one _ (by decide), ?_⟩⟩
    · exact .plain (by decide) (by decide)
    · refine .prelude (hnone _) (fun s hs => ?_) (by unfold InPrelude; decide)
      obtain ⟨h, -⟩ := hget hs
      cases h
    · exact .defined (hnone _) (s := ⟨⟨%s"a", %s"M", none⟩, _, _⟩) rfl (by simp)
  · intro k v h; cases h
  · intro id s h
    obtain ⟨rfl, rfl⟩ := hget h
    exact ⟨fun _ _ h => (by cases h), fun _ _ h => (by cases h), fun _ _ h => (by cases h)⟩

end Verif
