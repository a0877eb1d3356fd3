/-
C108, the part on the IDL: what the text written for a model says does not depend on the order in which the maps of the model enumerate.
-/
import Verif.SettleCross
import Verif.IdlExamples
import Verif.RdfSame

namespace Verif
open Peg Spec Spec.Idl

theorem sameKept_value {v v' : TraitValue} (h : OptRel Same v v') : Same (keptValue v) (keptValue v') := by
  cases h with
  | none => exact Same.refl _
  | some h =>
    cases h
    case none => exact Same.refl _
    case boolean => exact Same.refl _
    case string => exact Same.refl _
    case number h => exact .number h
    case array h h' => exact .array h h'
    case object h h' => exact .object h h'

theorem sameKept_traits {ts ts' : Traits} (h : SameTraits ts ts') : SameTraits (keptTraits ts) (keptTraits ts') := by
  intro k
  have h1 := h k
  unfold keptTraits
  rw [AMap.get_map_val (fun _ (v : TraitValue) => some (keptValue v)), AMap.get_map_val (fun _ (v : TraitValue) => some (keptValue v))]
  generalize AMap.get ts k = a at h1
  generalize AMap.get ts' k = b at h1
  cases h1 with
  | none => exact .none
  | some h1 => exact .some (.some (sameKept_value h1))

theorem sameKept_members {ms ms' : AMap Str MemberShape} (h : MapRel SameMemberShape ms ms') :
    MapRel SameMemberShape (ms.map fun e => (e.1, keptMember e.2)) (ms'.map fun e => (e.1, keptMember e.2)) := by
  intro k
  have h1 := h k
  rw [AMap.get_map_val (fun _ (v : MemberShape) => keptMember v), AMap.get_map_val (fun _ (v : MemberShape) => keptMember v)]
  generalize AMap.get ms k = a at h1
  generalize AMap.get ms' k = b at h1
  cases h1 with
  | none => exact .none
  | some h1 => exact .some ⟨h1.1, h1.2.1, sameKept_traits h1.2.2⟩

theorem sameKept_kind {k k' : ShapeKind} (h : SameKind k k') : SameKind (keptKind k) (keptKind k') := by
  cases h with
  | simple => exact .simple
  | list h => exact .list ⟨rfl, h.2.1, SameTraits.refl []⟩
  | set h => exact .list ⟨rfl, h.2.1, SameTraits.refl []⟩
  | map h h' => exact .map ⟨rfl, h.2.1, SameTraits.refl []⟩ ⟨rfl, h'.2.1, SameTraits.refl []⟩
  | struct h => exact .struct (sameKept_members h)
  | union h => exact .union (sameKept_members h)
  | service h => exact .service (MapRel.refl (fun _ => rfl) _)
  | operation => exact .operation
  | resource h => exact .resource h
  | unresolved => exact .unresolved

theorem sameKept {s s' : TopLevelShape} (h : SameShape s s') : SameShape (kept s) (kept s') :=
  ⟨h.id, sameKept_traits h.traits, sameKept_kind h.body⟩

/-- Same models have the same shapes at every id. -/
theorem Spec.SameModel.shapeAt {a b : Model} (h : SameModel a b) {id : ShapeID} {t : TopLevelShape} (ht : b.shape id = some t) :
    ∃ s, a.shape id = some s ∧ SameShape s t := by
  have h1 : OptRel SameShape (a.shape id) (b.shape id) := h.shapes id
  rw [ht] at h1
  generalize a.shape id = x at h1
  cases h1 with | some h1 => exact ⟨_, rfl, h1⟩

section
variable {f : Fmt} {flt : Str → Option F64} {a b : Model} {ns : Str}

theorem Spec.SameModel.readBack (h : SameModel a b) {a' b' : Model} (ha : ReadBack a ns a') (hb : ReadBack b ns b') : SameModel a' b' := by
  refine ⟨ha.version.trans (h.version.trans hb.version.symm), fun k => ?_, fun id => ?_⟩
  · have half : ∀ {m m' n n' : Model}, SameModel m n → ReadBack m ns m' → ReadBack n ns n' → ∀ v, m'.metadata.get k = some v → ∃ w, n'.metadata.get k = some w ∧ Same v w := by
      intro m m' n n' hs hm hn v hv
      obtain ⟨k', e, h1⟩ := (hm.metadata k v).mp hv
      have h2 := hs.metadata k'
      rw [h1] at h2
      generalize h3 : AMap.get n.metadata k' = o at h2
      cases h2 with | some h2 => exact ⟨_, (hn.metadata k _).mpr ⟨k', e, h3⟩, h2⟩
    cases h1 : AMap.get a'.metadata k with
    | some v =>
      obtain ⟨w, h2, h3⟩ := half h ha hb v h1
      rw [h2]; exact .some h3
    | none =>
      cases h2 : AMap.get b'.metadata k with
      | none => exact .none
      | some w =>
        obtain ⟨v, h3, -⟩ := half h.symm hb ha w h2
        rw [h1] at h3; cases h3
  · change OptRel SameShape (a'.shape id) (b'.shape id)
    have half : ∀ {m m' n n' : Model}, SameModel m n → ReadBack m ns m' → ReadBack n ns n' → ∀ v, m'.shape id = some v → ∃ w, n'.shape id = some w ∧ SameShape w v := by
      intro m m' n n' hs hm hn v hv
      obtain ⟨s, e, h1, rfl⟩ := (hm.shapes id v).mp hv
      obtain ⟨t, h2, h3⟩ := hs.symm.shapeAt e
      exact ⟨kept t, (hn.shapes id _).mpr ⟨t, h2, h1.imp (sameKind_unresolved h3.body).mpr (·), rfl⟩, sameKept h3⟩
    cases h1 : a'.shape id with
    | some v =>
      obtain ⟨w, h2, h3⟩ := half h ha hb v h1
      rw [h2]; exact .some h3.symm
    | none =>
      cases h2 : b'.shape id with
      | none => exact .none
      | some w =>
        obtain ⟨v, h3, -⟩ := half h.symm hb ha w h2
        rw [h1] at h3; cases h3

theorem Spec.SameModel.sameNames (h : SameModel a b) : SameNames a b ns := by
  refine ⟨fun n id => ⟨?_, ?_⟩, fun n => ⟨?_, ?_⟩⟩
  · rintro ⟨s', h1, h2, h3⟩
    obtain ⟨s, p, q⟩ := h.shapeAt h1
    exact ⟨s, p, (sameKind_unresolved q.body).mpr h2, h3⟩
  · rintro ⟨s', h1, h2, h3⟩
    obtain ⟨s, p, q⟩ := h.symm.shapeAt h1
    exact ⟨s, p, (sameKind_unresolved q.body).mpr h2, h3⟩
  · rintro ⟨s', h1, h2⟩
    obtain ⟨s, p, q⟩ := h.shapeAt h1
    exact ⟨s, p, fun hu => h2 ((sameKind_unresolved q.body).mp hu)⟩
  · rintro ⟨s', h1, h2⟩
    obtain ⟨s, p, q⟩ := h.symm.shapeAt h1
    exact ⟨s, p, fun hu => h2 ((sameKind_unresolved q.body).mp hu)⟩

theorem SameNames.writableTraits (h : SameNames a b ns) {ts ts' : Traits} (hs : SameTraits ts ts') (hw' : WfTraits ts')
    (ht : ∀ e ∈ ts, WritableTrait f flt a ns e.1 e.2) : ∀ e ∈ ts', WritableTrait f flt b ns e.1 e.2 := by
  rintro ⟨k, v'⟩ he
  have h1 := AMap.get_of_mem hw'.nodup he
  have h2 := hs k
  rw [h1] at h2
  generalize h3 : AMap.get ts k = o at h2
  cases h2 with
  | @some v _ h2 =>
    have hm := ht _ (AMap.mem_of_get h3)
    refine h.trait (v := v) hm fun x hx => ?_
    dsimp only at hx
    subst hx
    cases h2 with
    | some h2 =>
      rcases hm.value _ rfl with e | hv
      · subst e; cases h2; exact .inl rfl
      · exact .inr (same_writable h2 (hw'.values k _ h1) hv)

theorem SameNames.writableMembers (h : SameNames a b ns) {ms ms' : AMap Str MemberShape} (hs : MapRel SameMemberShape ms ms')
    (hw' : WfMembers ms') (ht : ∀ e ∈ ms, WritableMember f flt a ns e.2) : ∀ e ∈ ms', WritableMember f flt b ns e.2 := by
  rintro ⟨k, x'⟩ he
  have h1 := AMap.get_of_mem hw'.nodup he
  have h2 := hs k
  rw [h1] at h2
  generalize h3 : AMap.get ms k = o at h2
  cases h2 with
  | @some x _ h2 =>
    obtain ⟨p, q, r⟩ := h2
    have hm := ht _ (AMap.mem_of_get h3)
    exact ⟨p ▸ hm.name, q ▸ h.target hm.target, h.writableTraits r (hw'.traits k x' h1) hm.traits⟩

theorem SameNames.writableKind (h : SameNames a b ns) {k k' : ShapeKind} (hs : SameKind k k') (hw' : WfKind k')
    (hk : WritableKind f flt a ns k) : WritableKind f flt b ns k' := by
  cases hs with
  | simple => exact .simple
  | list hs => cases hk with | list hk => exact .list (hs.2.1 ▸ hk)
  | set hs => cases hk with | set hk => exact .set (hs.2.1 ▸ hk)
  | map hs hs' => cases hk with | map h1 h2 => exact .map (hs.2.1 ▸ h.target h1) (hs'.2.1 ▸ h.target h2)
  | struct hs => cases hk with | struct hk => exact .struct (h.writableMembers hs hw' hk)
  | union hs => cases hk with | union hk => exact .union (h.writableMembers hs hw' hk)
  | service hs =>
    cases hk with
    | service h1 h2 h3 h4 => exact .service h1 h2 (fun id hi => h.bare (h3 id hi)) fun id hi => h.bare (h4 id hi)
  | operation =>
    cases hk with
    | operation a b c => exact .operation (fun id hi => h.bare (a id hi)) (fun id hi => h.bare (b id hi)) fun id hi => h.bare (c id hi)
  | @resource ids ids' _ _ _ _ _ _ _ _ _ hs =>
    cases hk with
    | resource a b c d e g i j k l =>
      refine .resource (fun e he => ?_) (fun id hi => h.bare (b id hi)) (fun id hi => h.bare (c id hi))
        (fun id hi => h.bare (d id hi)) (fun id hi => h.bare (e id hi)) (fun id hi => h.bare (g id hi)) (fun id hi => h.bare (i id hi))
        (fun id hi => h.bare (j id hi)) (fun id hi => h.bare (k id hi)) (fun id hi => h.bare (l id hi))
      have h1 : AMap.get ids' e.1 = some e.2 := AMap.get_of_mem hw' he
      have h2 := hs e.1
      rw [h1] at h2
      generalize h3 : AMap.get ids e.1 = o at h2
      cases h2 with
      | some h2 =>
        subst h2
        have := a _ (AMap.mem_of_get h3)
        exact ⟨this.1, h.bare this.2⟩
  | unresolved => cases hk

theorem Spec.SameModel.writable (h : SameModel a b) (hb : WfModel b) (hw : WritableModel f flt a ns) : WritableModel f flt b ns := by
  have hn : SameNames a b ns := h.sameNames
  refine ⟨hb, hw.nsText, fun e he => ?_, fun id t ht hu => ?_, fun id t ht hu hns => ?_⟩
  · have h1 := AMap.get_of_mem hb.metaNodup he
    have h2 := h.metadata e.1
    rw [h1] at h2
    generalize h3 : AMap.get a.metadata e.1 = o at h2
    cases h2 with
    | @some v _ h2 =>
      obtain ⟨p, q, r⟩ := hw.metadata _ (AMap.mem_of_get h3)
      refine ⟨p, same_writable h2 (hb.metaValues _ _ h1) q, fun o ho => ?_⟩
      rw [ho] at h2
      generalize hv : v = w at h2
      cases h2
      exact r _ hv
  · obtain ⟨s, p, q⟩ := h.shapeAt ht
    obtain ⟨h1, h2⟩ := hw.placeholders id s p ((sameKind_unresolved q.body).mpr hu)
    refine ⟨?_, h2⟩
    have h3 := q.traits
    rw [h1] at h3
    cases e : t.traits with
    | nil => rfl
    | cons x l =>
      have := h3 x.1
      rw [e, AMap.get_cons, if_pos rfl] at this
      cases this
  · obtain ⟨s, p, q⟩ := h.shapeAt ht
    have hk := hw.shapes id s p (fun hs => hu ((sameKind_unresolved q.body).mp hs)) hns
    have e : s.id = t.id := q.id
    exact ⟨e ▸ hk.inNs, e ▸ hk.name, e ▸ hk.member, fun i hi => hk.alone i (e ▸ (hn.named _ _).mp hi),
      hn.writableTraits q.traits (hb.shapes id t ht).traits hk.traits, hn.writableKind q.body (hb.shapes id t ht).body hk.body⟩

end

/-- **C108** If one namespace of a model can be written in the IDL then so can it when the maps of the model enumerate in another order, and
reading the two texts (with whatever orders of the maps in the reader) gives the same model. -/
theorem C108_idl (f : Fmt) (flt : Str → Option F64) (enum enum' : List ShapeID → List ShapeID) (he : Enumerates enum) (he' : Enumerates enum')
    (a b : Model) (ns : Str) (hw : WritableModel f flt a ns) (hb : WfModel b) (h : SameModel a b) :
    WritableModel f flt b ns ∧ ∃ a' b', parseModel flt enum (writeIdl f ns a) = .ok a' ∧ parseModel flt enum' (writeIdl f ns b) = .ok b' ∧ SameModel a' b' := by
  have hwb := h.writable hb hw
  obtain ⟨a', h1, h2, -⟩ := C51_round_trip f flt enum he a ns hw
  obtain ⟨b', k1, k2, -⟩ := C51_round_trip f flt enum' he' b ns hwb
  exact ⟨hwb, a', b', h1, k1, h.readBack h2 k2⟩

/-- The hypotheses hold of the example model and the same model enumerated in the opposite order, whose texts differ. -/
example (flt : Str → Option F64) : exIdl ≠ turned exIdl ∧ WritableModel exFmt flt exIdl %s"a" ∧ WfModel (turned exIdl) ∧ SameModel exIdl (turned exIdl) ∧
    writeIdl exFmt %s"a" exIdl ≠ writeIdl exFmt %s"a" (turned exIdl) := by
  obtain ⟨h1, h2, -⟩ := Rdf.turned_same exIdl_wf
  refine ⟨fun h => ?_, exIdl_writable flt, h2, h1, by decide⟩
  have := congrArg (fun m => (m.shapes.map (·.1)).head?) h
  revert this
  decide

end Verif
