/-
Lemmas about the JSON writer and reader: traits, members, bodies, shapes and models.
-/
import Verif.JsonLemmas

namespace Verif
open Spec

/-! ### Generic -/

theorem display_inj {K : List ShapeID} (h : ∀ a ∈ K, a.Valid) : ∀ a ∈ K, ∀ b ∈ K, a.display = b.display → a = b :=
  fun a ha b hb e => C03_display_injective a b (h a ha) (h b hb) e

theorem keys_valid {V : Type} {m : AMap ShapeID V} (h : ∀ id v, m.get id = some v → id.Valid) : ∀ a ∈ AMap.keys m, a.Valid := by
  intro a ha
  rw [AMap.mem_keys_iff] at ha
  cases hv : m.get a with
  | none => rw [hv] at ha; cases ha
  | some v => exact h a v hv

theorem isEmpty_iff_nil {α : Type} {l : List α} : l.isEmpty = true ↔ l = [] := by cases l <;> simp

theorem identifier_ok {s : Str} (h : IsIdentifier s) : Identifier.fromStr s = .ok s := by
  simp [Identifier.fromStr, (isIdent_iff s).mpr h]

theorem bindE_ok {α β : Type} {a : α} {f : α → Except Err β} : (Except.ok a >>= f) = f a := rfl
theorem bindE_error {α β : Type} {e : Err} {f : α → Except Err β} : ((Except.error e : Except Err α) >>= f) = .error e := rfl

theorem bindE_eq_error {α β : Type} {x : Except Err α} {f : α → Except Err β} {e : Err} (h : (x >>= f) = .error e) :
    x = .error e ∨ ∃ a, x = .ok a ∧ f a = .error e := by
  cases x with
  | error e' => simp only [bindE_error] at h; cases h; exact .inl rfl
  | ok a => exact .inr ⟨a, rfl, h⟩

/-- `fields`: what a sequence of inserts under distinct names gives. -/
theorem fields_aux (l : List (Str × Option Json)) (m : AMap Str Json) (hm : AMap.Wf m) :
    AMap.Wf (l.foldl JsonWriter.putField m) ∧
    ((l.map (·.1)).Nodup → (∀ e ∈ l, AMap.get m e.1 = none) → ∀ k,
      AMap.get (l.foldl JsonWriter.putField m) k =
        ((AMap.get l k).join).or (AMap.get m k)) := by
  induction l generalizing m with
  | nil => exact ⟨hm, by simp⟩
  | cons e l ih =>
    obtain ⟨n, o⟩ := e
    simp only [List.foldl_cons]
    cases o with
    | none =>
      refine ⟨(ih m hm).1, ?_⟩
      intro hn hne k
      simp only [List.map_cons, List.nodup_cons] at hn
      rw [JsonWriter.putField, (ih m hm).2 hn.2 (fun e he => hne e (by simp [he]))]
      rw [AMap.get_cons]
      by_cases e : n = k
      · subst e
        have : AMap.get l n = none := (AMap.not_mem_keys_iff l n).mp hn.1
        simp [this]
      · simp [e]
    | some j =>
      have hw := AMap.wf_insert hm n j
      refine ⟨(ih _ hw).1, ?_⟩
      intro hn hne k
      simp only [List.map_cons, List.nodup_cons] at hn
      rw [JsonWriter.putField, (ih _ hw).2 hn.2 ?_]
      · rw [AMap.get_cons, AMap.get_insert]
        by_cases e : n = k
        · subst e
          have : AMap.get l n = none := (AMap.not_mem_keys_iff l n).mp hn.1
          simp [this]
        · simp [e]
      · intro e he
        rw [AMap.get_insert_ne]
        · exact hne e (by simp [he])
        · intro e'; apply hn.1; rw [e']; exact List.mem_map_of_mem he

theorem wf_fields (l : List (Str × Option Json)) : AMap.Wf (JsonWriter.fields l) :=
  (fields_aux l [] AMap.wf_nil).1

theorem get_fields {l : List (Str × Option Json)} (h : (l.map (·.1)).Nodup) (k : Str) :
    AMap.get (JsonWriter.fields l) k = (AMap.get l k).join := by
  have := (fields_aux l [] AMap.wf_nil).2 h (by simp) k
  unfold JsonWriter.fields
  rw [this]; simp

/-! ### Traits -/

theorem fromTraits_ok {ts : Traits} (hw : WfTraits ts) (hv : ValidTraits ts) (hf : TraitsAll (fun v => ¬ NonFinite v) ts) :
    ∃ j, JsonWriter.fromTraits ts = .ok j ∧ ObjOf ShapeID.display TraitOf ts j := by
  obtain ⟨js, hjs, hr⟩ := mapE_ok (l := ts) (f := fun e : ShapeID × TraitValue => okMap (fun j => (e.1.display, j)) (JsonWriter.fromTraitValue e.2))
      (R := fun e e' => e'.1 = e.1.display ∧ TraitOf e.2 e'.2) fun ⟨id, v⟩ he => by
    have hg := AMap.get_of_mem hw.nodup he
    cases v with
    | none => exact ⟨(id.display, .object []), by simp [JsonWriter.fromTraitValue, okMap], rfl, rfl⟩
    | some v =>
      obtain ⟨j, hj, hjo⟩ := fromValue_ok v (hw.values id v hg) (hf id v hg)
      exact ⟨(id.display, j), by simp [JsonWriter.fromTraitValue, hj, okMap], rfl, hjo⟩
  refine ⟨.object (AMap.ofList js), by simp [JsonWriter.fromTraits, hjs], ?_⟩
  exact objOf_write hw.nodup (display_inj (keys_valid fun id v h => (hv id v h).1)) hr

theorem optTraits_ok {ts : Traits} (hw : WfTraits ts) (hv : ValidTraits ts) (hf : TraitsAll (fun v => ¬ NonFinite v) ts) :
    ∃ o, JsonWriter.optTraits ts = .ok o ∧ TraitsOf ts o := by
  unfold JsonWriter.optTraits
  by_cases h : ts.isEmpty = true
  · exact ⟨none, by simp [h], .inl ⟨isEmpty_iff_nil.mp h, rfl⟩⟩
  · obtain ⟨j, hj, ho⟩ := fromTraits_ok hw hv hf
    exact ⟨some j, by simp [h, hj], .inr ⟨j, rfl, ho⟩⟩

theorem appendTraits_fresh (acc l : Traits) (hw : AMap.Wf (acc ++ l)) (hm : ∀ e ∈ l, e.1.member = none) :
    appendTraits acc l = (acc ++ l, .ok ()) := by
  induction l generalizing acc with
  | nil => simp [appendTraits]
  | cons e l ih =>
    obtain ⟨id, v⟩ := e
    have hid : id ∉ AMap.keys acc := by
      simp only [AMap.Wf, AMap.keys, List.map_append, List.map_cons, List.nodup_append] at hw
      intro hk; exact hw.2.2 id hk id (by simp) rfl
    have h0 : id.member = none := hm (id, v) (by simp)
    have : applyWithValue acc id v = (acc ++ [(id, v)], .ok ()) := by
      unfold applyWithValue
      simp [ShapeID.isMember, h0, (AMap.not_mem_keys_iff acc id).mp hid, AMap.insert_of_not_mem v hid]
    simp only [appendTraits, this]
    rw [ih]
    · simp
    · simpa using hw
    · intro e he; exact hm e (by simp [he])

theorem same_object_nil_iff {x : Value} : Same (.object []) x ↔ ∃ m, x = .object m ∧ ∀ k, AMap.get m k = none := by
  constructor
  · intro h
    cases h with
    | object h1 h2 =>
      rename_i b
      exact ⟨b, rfl, fun k => by have := h1 k; simpa using this.symm⟩
  · rintro ⟨m, rfl, hm⟩
    exact .object (fun k => by simp [hm]) (fun k x y hx => by simp at hx)

theorem sameTraits_norm {ts ts' : Traits} (h : MapRel (fun a b => OptRel Same (normTraitValue a) b) ts ts') :
    SameTraits (normTraits ts) ts' := by
  intro k
  unfold normTraits
  rw [AMap.get_map_val (fun _ v => normTraitValue v)]
  have := h k
  cases h1 : AMap.get ts k <;> rw [h1] at this
  · rw [OptRel.none_left.mp this]; exact .none
  · cases h2 : AMap.get ts' k <;> rw [h2] at this
    · cases this
    · cases this with | some hr => exact .some hr

theorem readTraits_ok {ts : Traits} {j : Option Json} (hw : WfTraits ts) (hv : ValidTraits ts) (h : TraitsOf ts j) :
    ∃ ts', JsonReader.readTraits j = .ok ts' ∧ AMap.Wf ts' ∧ SameTraits (normTraits ts) ts' := by
  rcases h with ⟨rfl, rfl⟩ | ⟨x, rfl, h⟩
  · exact ⟨[], rfl, AMap.wf_nil, fun k => .none⟩
  · obtain ⟨o, rfl, _⟩ := id h
    obtain ⟨l, hl, hwl, hr⟩ := objOf_read (S := fun a b => OptRel Same (normTraitValue a) b)
      (display_inj (keys_valid fun id v h => (hv id v h).1)) h (f := JsonReader.traitEntry) fun id v w hid hvw => by
        have hp := ShapeID.fromStr_display (hv id v hid).1
        cases v with
        | none =>
          cases hvw
          exact ⟨some (.object []), by simp [JsonReader.traitEntry, hp, JsonReader.value, JsonReader.valueEntries, AMap.ofList],
            .some (Same.refl _)⟩
        | some v =>
          obtain ⟨v', hv', hs⟩ := value_ok v (hw.values id v hid) w hvw
          exact ⟨some v', by simp [JsonReader.traitEntry, hp, hv'], .some hs⟩
    have hmem : ∀ e ∈ l, e.1.member = none := by
      intro ⟨id, v⟩ he
      have := hr id
      rw [AMap.get_of_mem hwl he] at this
      cases hg : AMap.get ts id with
      | none => rw [hg] at this; cases this
      | some v' => exact (hv id v' hg).2
    refine ⟨l, ?_, hwl, sameTraits_norm hr⟩
    have := appendTraits_fresh [] l (by simpa using hwl) hmem
    simp only [List.nil_append] at this
    simp [JsonReader.readTraits, JsonReader.traits, hl, AMap.ofList_of_wf hwl, this]

/-! ### Members and references -/

theorem fromMember_ok {m : MemberShape} (hw : WfTraits m.traits) (hv : ValidMember m)
    (hf : TraitsAll (fun v => ¬ NonFinite v) m.traits) : ∃ j, JsonWriter.fromMember m = .ok j ∧ MemberOf m j := by
  obtain ⟨t, ht, hto⟩ := optTraits_ok hw hv.2 hf
  refine ⟨_, by simp [JsonWriter.fromMember, ht]; rfl, _, rfl, wf_fields _, ?_, ?_⟩
  · rw [get_fields (by simp)]; simp [AMap.get]
  · rw [get_fields (by simp)]; simpa [AMap.get] using hto

theorem member_ok {m : MemberShape} {j : Option Json} (hw : WfTraits m.traits) (hv : ValidMember m)
    (h : OptRel MemberOf (some m) j) : ∃ m', JsonReader.member j = .ok m' ∧ AMap.Wf m'.traits ∧ SameMemberShape (normNamed m) m' := by
  obtain ⟨x, rfl, o, rfl, ho, h1, h2⟩ := h.some_left
  obtain ⟨ts', hts, hwts, hs⟩ := readTraits_ok hw hv.2 h2
  exact ⟨⟨memberMember, ts', m.target⟩, by simp [JsonReader.member, h1, ShapeID.fromStr_display hv.1, hts], hwts, rfl, rfl, hs⟩

theorem memberEntry_ok {m : MemberShape} {j : Json} (hw : WfTraits m.traits) (hv : ValidMember m) (hn : IsIdentifier m.id)
    (h : MemberOf m j) : ∃ m', JsonReader.memberEntry (m.id, j) = .ok m' ∧ m'.id = m.id ∧ SameMemberShape (normMember m) m' := by
  obtain ⟨o, rfl, ho, h1, h2⟩ := h
  obtain ⟨ts', hts, _, hs⟩ := readTraits_ok hw hv.2 h2
  exact ⟨⟨m.id, ts', m.target⟩,
    by simp [JsonReader.memberEntry, h1, ShapeID.fromStr_display hv.1, hts, identifier_ok hn], rfl, rfl, rfl, hs⟩

theorem fromMembers_ok {ms : AMap Str MemberShape} (hw : WfMembers ms) (hv : ∀ k m, ms.get k = some m → IsIdentifier k ∧ ValidMember m)
    (hf : ∀ k m, ms.get k = some m → TraitsAll (fun v => ¬ NonFinite v) m.traits) :
    ∃ o, JsonWriter.optMembers ms = .ok o ∧ MaybeObj (fun k => k) MemberOf ms o := by
  unfold JsonWriter.optMembers
  by_cases h : ms.isEmpty = true
  · exact ⟨none, by simp [h], .inl ⟨isEmpty_iff_nil.mp h, rfl⟩⟩
  · obtain ⟨js, hjs, hr⟩ := mapE_ok (l := AMap.values ms) (f := fun m : MemberShape => okMap (fun j => (m.id, j)) (JsonWriter.fromMember m))
        (R := fun m e' => e'.1 = m.id ∧ MemberOf m e'.2) fun m hm => by
      obtain ⟨⟨k, m'⟩, he, rfl⟩ := List.mem_map.mp hm
      have hg := AMap.get_of_mem hw.nodup he
      obtain ⟨j, hj, hjo⟩ := fromMember_ok (hw.traits k m' hg) (hv k m' hg).2 (hf k m' hg)
      exact ⟨(m'.id, j), by simp [hj, okMap], rfl, hjo⟩
    refine ⟨some (.object (AMap.ofList js)), by simp [h, JsonWriter.fromMembers, hjs], .inr ⟨_, rfl, ?_⟩⟩
    apply objOf_write hw.nodup (fun _ _ _ _ h => h)
    have hlen : ms.length = js.length := by have := hr.1; simpa [AMap.values] using this
    refine ⟨hlen, ?_⟩
    intro i x y hx hy
    have h2 : (AMap.values ms)[i]? = some x.2 := by simp [AMap.values, hx]
    have h3 := hr.2 i x.2 y h2 hy
    have h4 : x.2.id = x.1 := hw.key x.1 x.2 (AMap.get_of_mem hw.nodup (List.mem_of_getElem? hx))
    exact ⟨by rw [h3.1, h4], h3.2⟩

theorem okMap_ok {α β : Type} (g : α → β) (a : α) : okMap g (.ok a) = .ok (g a) := rfl
theorem okMap_error {α β : Type} (g : α → β) (e : Err) : okMap g (.error e) = .error e := rfl

theorem mapE_map {α β γ : Type} (f : α → Except Err β) (g : β → γ) (l : List α) {ys : List γ}
    (h : mapE (fun x => okMap g (f x)) l = .ok ys) : ∃ zs, mapE f l = .ok zs ∧ zs.map g = ys := by
  induction l generalizing ys with
  | nil => simp [mapE] at h; subst h; exact ⟨[], rfl, rfl⟩
  | cons x xs ih =>
    simp only [mapE] at h
    cases hx : f x with
    | error e => simp only [hx, okMap_error] at h; simp at h
    | ok y =>
      cases hxs : mapE (fun x => okMap g (f x)) xs with
      | error e => simp only [hx, hxs, okMap_ok] at h; simp at h
      | ok zs =>
        simp only [hx, hxs, okMap_ok] at h; simp at h; subst h
        obtain ⟨zs', h1, rfl⟩ := ih hxs
        exact ⟨y :: zs', by simp [mapE, hx, h1], rfl⟩

theorem members_ok {ms : AMap Str MemberShape} {j : Option Json} (hw : WfMembers ms)
    (hv : ∀ k m, ms.get k = some m → IsIdentifier k ∧ ValidMember m) (h : MaybeObj (fun k => k) MemberOf ms j) :
    ∃ ms', JsonReader.members j = .ok ms' ∧ MapRel SameMemberShape (ms.map fun e => (e.1, normMember e.2)) ms' := by
  rcases h with ⟨rfl, rfl⟩ | ⟨x, rfl, h⟩
  · exact ⟨[], rfl, fun k => .none⟩
  · obtain ⟨o, rfl, _⟩ := id h
    obtain ⟨l, hl, hwl, hr⟩ := objOf_read (S := fun a b => SameMemberShape (normMember a) b) (fun _ _ _ _ h => h) h
      (f := fun e => okMap (fun m => (m.id, m)) (JsonReader.memberEntry e)) fun k m w hk hmw => by
        obtain ⟨hi, hm⟩ := hv k m hk
        have hkey := hw.key k m hk
        obtain ⟨m', hm', hid, hs⟩ := memberEntry_ok (hw.traits k m hk) hm (hkey ▸ hi) hmw
        rw [hkey] at hm' hid
        exact ⟨m', by simp [hm', hid, okMap], hs⟩
    obtain ⟨zs, hz, rfl⟩ := mapE_map JsonReader.memberEntry (fun m => (m.id, m)) o hl
    refine ⟨_, by simp [JsonReader.members, hz]; rfl, ?_⟩
    rw [withMembers_eq, AMap.ofList_of_wf hwl]
    intro k
    rw [AMap.get_map_val (fun _ v => normMember v)]
    have := hr k
    cases h1 : AMap.get ms k <;> rw [h1] at this
    · cases h2 : AMap.get (zs.map fun m => (m.id, m)) k <;> rw [h2] at this
      · exact .none
      · cases this
    · cases h2 : AMap.get (zs.map fun m => (m.id, m)) k <;> rw [h2] at this
      · cases this
      · cases this with | some hr => exact .some hr

theorem refOf_fromReference (id : ShapeID) : RefOf id (JsonWriter.fromReference id) :=
  ⟨_, rfl, by simp [AMap.Wf, AMap.keys], rfl⟩

theorem jsonTarget_ok {id : ShapeID} {j : Json} (hv : id.Valid) (h : RefOf id j) : JsonReader.target (some j) = .ok id := by
  obtain ⟨o, rfl, _, h⟩ := h
  simp [JsonReader.target, h, ShapeID.fromStr_display hv]

theorem optRef_ok (o : Option ShapeID) : OptRel RefOf o (JsonWriter.optRef o) := by
  cases o with
  | none => exact .none
  | some id => exact .some (refOf_fromReference id)

theorem optionalTarget_ok {o : Option ShapeID} {j : Option Json} (hv : ∀ id, o = some id → id.Valid) (h : OptRel RefOf o j) :
    JsonReader.optionalTarget j = .ok o := by
  cases h with
  | none => rfl
  | some hr => simp [JsonReader.optionalTarget, jsonTarget_ok (hv _ rfl) hr]

theorem optRefs_ok (ids : List ShapeID) : MaybeRefs ids (JsonWriter.optRefs ids) := by
  unfold JsonWriter.optRefs
  split
  · rename_i h; exact .inl ⟨isEmpty_iff_nil.mp h, rfl⟩
  · refine .inr ⟨_, rfl, by simp, ?_⟩
    intro i x y hx hy
    simp [hx] at hy; subst hy; exact refOf_fromReference x

theorem targetList_ok {ids : List ShapeID} {j : Option Json} (hv : ∀ id ∈ ids, id.Valid) (h : MaybeRefs ids j) :
    JsonReader.targetList j = .ok ids := by
  rcases h with ⟨rfl, rfl⟩ | ⟨l, rfl, h⟩
  · rfl
  · simp only [JsonReader.targetList]
    rw [mapE_iff]
    refine ⟨h.1.symm, ?_⟩
    intro i x y hx hy
    exact jsonTarget_ok (hv y (List.mem_of_getElem? hy)) (h.2 i y x hy hx)

theorem optRenames_ok {m : AMap ShapeID Str} (hw : AMap.Wf m) (hv : ∀ id n, m.get id = some n → id.Valid) :
    MaybeObj ShapeID.display (fun n j => j = .string n) m (JsonWriter.optRenames m) := by
  unfold JsonWriter.optRenames
  split
  · rename_i h; exact .inl ⟨isEmpty_iff_nil.mp h, rfl⟩
  · refine .inr ⟨_, rfl, objOf_write hw (display_inj (keys_valid hv)) ⟨by simp, ?_⟩⟩
    intro i x y hx hy
    simp [hx] at hy; subst hy; exact ⟨rfl, rfl⟩

theorem optIdentifiers_ok {m : AMap Str ShapeID} (hw : AMap.Wf m) :
    MaybeObj (fun k => k) RefOf m (JsonWriter.optIdentifiers m) := by
  unfold JsonWriter.optIdentifiers
  split
  · rename_i h; exact .inl ⟨isEmpty_iff_nil.mp h, rfl⟩
  · refine .inr ⟨_, rfl, objOf_write hw (fun _ _ _ _ h => h) ⟨by simp, ?_⟩⟩
    intro i x y hx hy
    simp [hx] at hy; subst hy; exact ⟨rfl, refOf_fromReference _⟩

theorem renamesHash_ok {m : AMap ShapeID Str} {j : Option Json} (hv : ∀ id n, m.get id = some n → id.Valid ∧ IsIdentifier n)
    (h : MaybeObj ShapeID.display (fun n j => j = .string n) m j) :
    ∃ m', JsonReader.renamesHash j = .ok m' ∧ AMap.Wf m' ∧ MapRel Eq m m' := by
  rcases h with ⟨rfl, rfl⟩ | ⟨x, rfl, h⟩
  · exact ⟨[], rfl, AMap.wf_nil, fun k => .none⟩
  · obtain ⟨o, rfl, _⟩ := id h
    obtain ⟨l, hl, hwl, hr⟩ := objOf_read (S := Eq) (display_inj (keys_valid fun id n h => (hv id n h).1)) h
      (f := JsonReader.renameEntry) fun k n w hk hw => by
        subst hw
        exact ⟨n, by simp [JsonReader.renameEntry, ShapeID.fromStr_display (hv k n hk).1, JsonReader.stringValue,
          identifier_ok (hv k n hk).2], rfl⟩
    exact ⟨l, by simp [JsonReader.renamesHash, hl, AMap.ofList_of_wf hwl], hwl, hr⟩

theorem identifiersHash_ok {m : AMap Str ShapeID} {j : Option Json} (hv : ∀ n id, m.get n = some id → IsIdentifier n ∧ id.Valid)
    (h : MaybeObj (fun k => k) RefOf m j) : ∃ m', JsonReader.identifiersHash j = .ok m' ∧ AMap.Wf m' ∧ MapRel Eq m m' := by
  rcases h with ⟨rfl, rfl⟩ | ⟨x, rfl, h⟩
  · exact ⟨[], rfl, AMap.wf_nil, fun k => .none⟩
  · obtain ⟨o, rfl, _⟩ := id h
    obtain ⟨l, hl, hwl, hr⟩ := objOf_read (S := Eq) (fun _ _ _ _ h => h) h
      (f := JsonReader.identifierEntry) fun k n w hk hw =>
        ⟨n, by simp [JsonReader.identifierEntry, identifier_ok (hv k n hk).1, jsonTarget_ok (hv k n hk).2 hw], rfl⟩
    exact ⟨l, by simp [JsonReader.identifiersHash, hl, AMap.ofList_of_wf hwl], hwl, hr⟩

/-! ### Bodies -/

/-- The names under which `from_shape` inserts are distinct. -/
theorem fromKind_names {k : ShapeKind} {l : List (Str × Option Json)} (h : JsonWriter.fromKind k = .ok l) :
    (l.map (·.1)).Nodup ∧ %s"traits" ∉ l.map (·.1) := by
  cases k <;> simp only [JsonWriter.fromKind] at h
  case simple => cases h; simp
  case list m => cases hm : JsonWriter.fromMember m <;> simp [hm] at h; subst h; simp
  case set m => cases hm : JsonWriter.fromMember m <;> simp [hm] at h; subst h; simp
  case map a b =>
    cases ha : JsonWriter.fromMember a <;> simp [ha] at h
    cases hb : JsonWriter.fromMember b <;> simp [hb] at h; subst h; simp
  case struct ms => cases hm : JsonWriter.optMembers ms <;> simp [hm] at h; subst h; simp
  case union ms => cases hm : JsonWriter.optMembers ms <;> simp [hm] at h; subst h; simp
  case service s => cases h; simp
  case operation s => cases h; simp
  case resource s => cases h; simp
  case unresolved => cases h; simp

theorem fromShape_ok {s : TopLevelShape} (hw : WfShape s) (hvt : ValidTraits s.traits) (hv : ValidKind s.body)
    (hft : TraitsAll (fun v => ¬ NonFinite v) s.traits) (hf : KindAll (fun v => ¬ NonFinite v) s.body) :
    ∃ j, JsonWriter.fromShape s = .ok j ∧ ShapeOf s j := by
  obtain ⟨t, ht, hto⟩ := optTraits_ok hw.traits hvt hft
  have hk : ∃ l, JsonWriter.fromKind s.body = .ok l ∧ KindOf s.body (JsonWriter.fields ((%s"traits", t) :: l)) := by
    have hwb := hw.body
    obtain ⟨sid, sts, body⟩ := s
    simp only at *
    have key : ∀ l, JsonWriter.fromKind body = .ok l → ∀ k, k ≠ %s"traits" →
        AMap.get (JsonWriter.fields ((%s"traits", t) :: l)) k = (AMap.get l k).join := by
      intro l hl k hk
      obtain ⟨h1, h2⟩ := fromKind_names hl
      rw [get_fields (by simp only [List.map_cons, List.nodup_cons]; exact ⟨h2, h1⟩)]
      rw [AMap.get_cons, if_neg (Ne.symm hk)]
    cases body with
    | simple k => exact ⟨_, rfl, by simp only [KindOf]; rw [key _ rfl _ (by decide)]; rfl⟩
    | list m =>
      obtain ⟨j, hj, hjo⟩ := fromMember_ok hwb hv hf
      have hl : JsonWriter.fromKind (.list m) = .ok [(%s"type", some (.string %s"list")), (%s"member", some j)] := by
        simp [JsonWriter.fromKind, hj]
      refine ⟨_, hl, ?_⟩
      simp only [KindOf]
      rw [key _ hl _ (by decide), key _ hl _ (by decide)]
      exact ⟨rfl, .some hjo⟩
    | set m =>
      obtain ⟨j, hj, hjo⟩ := fromMember_ok hwb hv hf
      have hl : JsonWriter.fromKind (.set m) = .ok [(%s"type", some (.string %s"set")), (%s"member", some j)] := by
        simp [JsonWriter.fromKind, hj]
      refine ⟨_, hl, ?_⟩
      simp only [KindOf]
      rw [key _ hl _ (by decide), key _ hl _ (by decide)]
      exact ⟨rfl, .some hjo⟩
    | map a b =>
      obtain ⟨ja, hja, hjao⟩ := fromMember_ok hwb.1 hv.1 hf.1
      obtain ⟨jb, hjb, hjbo⟩ := fromMember_ok hwb.2 hv.2 hf.2
      have hl : JsonWriter.fromKind (.map a b) =
          .ok [(%s"type", some (.string %s"map")), (%s"key", some ja), (%s"value", some jb)] := by
        simp [JsonWriter.fromKind, hja, hjb]
      refine ⟨_, hl, ?_⟩
      simp only [KindOf]
      rw [key _ hl _ (by decide), key _ hl _ (by decide), key _ hl _ (by decide)]
      exact ⟨rfl, .some hjao, .some hjbo⟩
    | struct ms =>
      obtain ⟨o, ho, hoo⟩ := fromMembers_ok hwb hv hf
      have hl : JsonWriter.fromKind (.struct ms) = .ok [(%s"type", some (.string %s"structure")), (%s"members", o)] := by
        simp [JsonWriter.fromKind, ho]
      refine ⟨_, hl, ?_⟩
      simp only [KindOf]
      rw [key _ hl _ (by decide), key _ hl _ (by decide)]
      exact ⟨rfl, hoo⟩
    | union ms =>
      obtain ⟨o, ho, hoo⟩ := fromMembers_ok hwb hv hf
      have hl : JsonWriter.fromKind (.union ms) = .ok [(%s"type", some (.string %s"union")), (%s"members", o)] := by
        simp [JsonWriter.fromKind, ho]
      refine ⟨_, hl, ?_⟩
      simp only [KindOf]
      rw [key _ hl _ (by decide), key _ hl _ (by decide)]
      exact ⟨rfl, hoo⟩
    | service x =>
      refine ⟨_, rfl, ?_⟩
      simp only [KindOf]
      rw [key _ rfl _ (by decide), key _ rfl _ (by decide), key _ rfl _ (by decide), key _ rfl _ (by decide),
        key _ rfl _ (by decide)]
      exact ⟨rfl, rfl, optRefs_ok _, optRefs_ok _, optRenames_ok hwb fun id n h => (hv.2.2.2 id n h).1⟩
    | operation x =>
      refine ⟨_, rfl, ?_⟩
      simp only [KindOf]
      rw [key _ rfl _ (by decide), key _ rfl _ (by decide), key _ rfl _ (by decide), key _ rfl _ (by decide)]
      exact ⟨rfl, optRef_ok _, optRef_ok _, optRefs_ok _⟩
    | resource x =>
      refine ⟨_, rfl, ?_⟩
      simp only [KindOf]
      rw [key _ rfl _ (by decide), key _ rfl _ (by decide), key _ rfl _ (by decide), key _ rfl _ (by decide),
        key _ rfl _ (by decide), key _ rfl _ (by decide), key _ rfl _ (by decide), key _ rfl _ (by decide),
        key _ rfl _ (by decide), key _ rfl _ (by decide), key _ rfl _ (by decide)]
      exact ⟨rfl, optIdentifiers_ok hwb, optRef_ok _, optRef_ok _, optRef_ok _, optRef_ok _, optRef_ok _, optRef_ok _,
        optRefs_ok _, optRefs_ok _, optRefs_ok _⟩
    | unresolved => exact ⟨_, rfl, by simp only [KindOf]; rw [key _ rfl _ (by decide)]; rfl⟩
  obtain ⟨l, hl, hlo⟩ := hk
  refine ⟨_, by simp [JsonWriter.fromShape, ht, hl], _, rfl, wf_fields _, ?_, hlo⟩
  obtain ⟨h1, h2⟩ := fromKind_names hl
  rw [get_fields (by simp only [List.map_cons, List.nodup_cons]; exact ⟨h2, h1⟩)]
  simpa [AMap.get_cons] using hto

/-! ### Reading bodies -/

theorem shape_ok {k : ShapeKind} {o : AMap Str Json} (hw : WfKind k) (hv : ValidKind k) (h : KindOf k o) :
    ∃ k', JsonReader.shape (.object o) = .ok k' ∧ SameKind (normKind k) k' := by
  cases k with
  | simple s =>
    simp only [KindOf] at h
    have := (C08_simple.1 s)
    exact ⟨.simple s, by simp [JsonReader.shape, Json.get, h, this], .simple⟩
  | unresolved =>
    simp only [KindOf] at h
    exact ⟨.unresolved, by simp only [JsonReader.shape, Json.get, h]; rfl, .unresolved⟩
  | list m =>
    obtain ⟨h1, h2⟩ := h
    obtain ⟨m', hm', _, hs⟩ := member_ok hw hv h2
    refine ⟨.list m', ?_, .list hs⟩
    have : JsonReader.shape (.object o) = (do
        let m ← JsonReader.member (AMap.get o %s"member")
        let m ← listFrom m
        .ok (.list m)) := by simp only [JsonReader.shape, Json.get, h1]; rfl
    rw [this, hm']
    have hid : m'.id = memberMember := hs.1.symm
    simp [bindE_ok, listFrom, hid]
  | set m =>
    obtain ⟨h1, h2⟩ := h
    obtain ⟨m', hm', _, hs⟩ := member_ok hw hv h2
    refine ⟨.set m', ?_, .set hs⟩
    have : JsonReader.shape (.object o) = (do
        let m ← JsonReader.member (AMap.get o %s"member")
        let m ← listFrom m
        .ok (.set m)) := by simp only [JsonReader.shape, Json.get, h1]; rfl
    rw [this, hm']
    have hid : m'.id = memberMember := hs.1.symm
    simp [bindE_ok, listFrom, hid]
  | map a b =>
    obtain ⟨h1, h2, h3⟩ := h
    obtain ⟨a', ha', _, hsa⟩ := member_ok hw.1 hv.1 h2
    obtain ⟨b', hb', _, hsb⟩ := member_ok hw.2 hv.2 h3
    refine ⟨.map a' b', ?_, .map hsa hsb⟩
    have : JsonReader.shape (.object o) = (do
        let k ← JsonReader.member (AMap.get o %s"key")
        let v ← JsonReader.member (AMap.get o %s"value")
        .ok (.map k v)) := by simp only [JsonReader.shape, Json.get, h1]; rfl
    rw [this, ha', hb']; rfl
  | struct ms =>
    obtain ⟨h1, h2⟩ := h
    obtain ⟨ms', hms, hs⟩ := members_ok hw hv h2
    refine ⟨.struct ms', ?_, .struct hs⟩
    have : JsonReader.shape (.object o) = (do
        let ms ← JsonReader.members (AMap.get o %s"members")
        .ok (.struct ms)) := by simp only [JsonReader.shape, Json.get, h1]; rfl
    rw [this, hms]; rfl
  | union ms =>
    obtain ⟨h1, h2⟩ := h
    obtain ⟨ms', hms, hs⟩ := members_ok hw hv h2
    refine ⟨.union ms', ?_, .union hs⟩
    have : JsonReader.shape (.object o) = (do
        let ms ← JsonReader.members (AMap.get o %s"members")
        .ok (.union ms)) := by simp only [JsonReader.shape, Json.get, h1]; rfl
    rw [this, hms]; rfl
  | service x =>
    obtain ⟨h1, h2, h3, h4, h5⟩ := h
    obtain ⟨v1, v2, v3, v4⟩ := hv
    obtain ⟨rn, hrn, _, hs⟩ := renamesHash_ok v4 h5
    refine ⟨.service ⟨x.version, x.operations, x.resources, rn⟩, ?_, ?_⟩
    · have : JsonReader.shape (.object o) = JsonReader.service (.object o) := by
        simp only [JsonReader.shape, Json.get, h1]; rfl
      rw [this]
      have hn : Service.new x.version = .ok ⟨x.version, [], [], []⟩ := by
        unfold Service.new; rw [if_neg]; simpa using v1
      simp only [JsonReader.service, Json.get, h2, hn, targetList_ok v2 h3, targetList_ok v3 h4, hrn, bindE_ok, arrayAppend_eq,
        List.nil_append]
    · obtain ⟨a, b, c, d⟩ := x
      exact .service hs
  | operation x =>
    obtain ⟨h1, h2, h3, h4⟩ := h
    obtain ⟨v1, v2, v3⟩ := hv
    refine ⟨.operation x, ?_, .operation⟩
    have : JsonReader.shape (.object o) = JsonReader.operation (.object o) := by
      simp only [JsonReader.shape, Json.get, h1]; rfl
    rw [this]
    simp only [JsonReader.operation, Json.get, optionalTarget_ok v1 h2, optionalTarget_ok v2 h3, targetList_ok v3 h4, bindE_ok,
      arrayAppend_eq, List.nil_append]
  | resource x =>
    obtain ⟨h1, h2, h3, h4, h5, h6, h7, h8, h9, h10, h11⟩ := h
    obtain ⟨v1, v2, v3, v4, v5⟩ := hv
    obtain ⟨ids, hids, _, hs⟩ := identifiersHash_ok v1 h2
    have w1 : ∀ id, x.create = some id → id.Valid := v2 .create
    have w2 : ∀ id, x.put = some id → id.Valid := v2 .put
    have w3 : ∀ id, x.read = some id → id.Valid := v2 .read
    have w4 : ∀ id, x.update = some id → id.Valid := v2 .update
    have w5 : ∀ id, x.delete = some id → id.Valid := v2 .delete
    have w6 : ∀ id, x.list = some id → id.Valid := v2 .list
    refine ⟨.resource ⟨ids, x.create, x.put, x.read, x.update, x.delete, x.list, x.operations, x.collectionOperations,
      x.resources⟩, ?_, ?_⟩
    · have : JsonReader.shape (.object o) = JsonReader.resource (.object o) := by
        simp only [JsonReader.shape, Json.get, h1]; rfl
      rw [this]
      simp only [JsonReader.resource, Json.get, hids, optionalTarget_ok w1 h3, optionalTarget_ok w2 h4,
        optionalTarget_ok w3 h5, optionalTarget_ok w4 h6, optionalTarget_ok w5 h7,
        optionalTarget_ok w6 h8, targetList_ok v3 h9, targetList_ok v4 h10, targetList_ok v5 h11, bindE_ok,
        arrayAppend_eq, List.nil_append]
    · cases x; exact .resource hs

theorem shapeEntry_ok {s : TopLevelShape} {j : Json} (hw : WfShape s) (hid : s.id.Valid) (hvt : ValidTraits s.traits)
    (hv : ValidKind s.body) (h : ShapeOf s j) :
    ∃ s', JsonReader.shapeEntry (s.id.display, j) = .ok (s.id, s') ∧ SameShape (normShape s) s' := by
  obtain ⟨o, rfl, ho, h1, h2⟩ := h
  obtain ⟨k', hk', hs⟩ := shape_ok hw.body hv h2
  obtain ⟨ts', hts, _, hst⟩ := readTraits_ok hw.traits hvt h1
  exact ⟨⟨s.id, ts', k'⟩, by simp [JsonReader.shapeEntry, ShapeID.fromStr_display hid, hk', Json.get, hts], rfl, hst, hs⟩

/-! ### Models -/

theorem addAllMetadata_fresh (v : Version) (acc l : AMap Str Value) (ss : AMap ShapeID TopLevelShape) (h : AMap.Wf (acc ++ l)) :
    (Model.mk v acc ss).addAllMetadata l = (⟨v, acc ++ l, ss⟩, .ok ()) := by
  induction l generalizing acc with
  | nil => simp [Model.addAllMetadata]
  | cons e l ih =>
    obtain ⟨k, x⟩ := e
    have hk : k ∉ AMap.keys acc := by
      simp only [AMap.Wf, AMap.keys, List.map_append, List.map_cons, List.nodup_append] at h
      intro hk; exact h.2.2 k hk k (by simp) rfl
    have : (Model.mk v acc ss).addMetadata k x = (⟨v, acc ++ [(k, x)], ss⟩, .ok none) := by
      simp [Model.addMetadata, Model.metadataValue, (AMap.not_mem_keys_iff acc k).mp hk, AMap.insert_of_not_mem x hk]
    simp only [Model.addAllMetadata, this]
    rw [ih]
    · simp
    · simpa using h

theorem addAllShapes_fresh (v : Version) (md : AMap Str Value) (acc l : AMap ShapeID TopLevelShape) (h : AMap.Wf (acc ++ l))
    (hk : ∀ e ∈ l, e.2.id = e.1) (hm : ∀ e ∈ l, e.1.isMember = true → e.2.body.isUnresolved = true) :
    (Model.mk v md acc).addAllShapes l = (⟨v, md, acc ++ l⟩, .ok ()) := by
  induction l generalizing acc with
  | nil => simp [Model.addAllShapes]
  | cons e l ih =>
    obtain ⟨k, x⟩ := e
    have hkn : k ∉ AMap.keys acc := by
      simp only [AMap.Wf, AMap.keys, List.map_append, List.map_cons, List.nodup_append] at h
      intro hk; exact h.2.2 k hk k (by simp) rfl
    have hid : x.id = k := hk (k, x) (by simp)
    have hmm : ¬ (x.id.isMember && !x.body.isUnresolved) = true := by
      intro hc
      simp only [Bool.and_eq_true, Bool.not_eq_true'] at hc
      have := hm (k, x) (by simp) (hid ▸ hc.1)
      rw [hc.2] at this; cases this
    have : (Model.mk v md acc).addShape x = (⟨v, md, acc ++ [(k, x)]⟩, .ok ()) := by
      unfold Model.addShape
      rw [if_neg hmm]
      simp only [Model.shape, hid, (AMap.not_mem_keys_iff acc k).mp hkn, AMap.insert_of_not_mem x hkn]
    simp only [Model.addAllShapes, this]
    rw [ih]
    · simp
    · simpa using h
    · exact fun e he => hk e (by simp [he])
    · exact fun e he => hm e (by simp [he])

end Verif
