/-
Property theorems C30-C32 and C46 (atelier-json/src/{writer,reader}.rs).
-/
import Verif.JsonPanic
import Verif.ModelEq
import Verif.MergeProps

namespace Verif
open Spec

/-! ### C32 Node values -/

/-- Reading the JSON written for a value gives the value back, at any nesting. -/
theorem C32_value_round_trip (v : Value) (hw : v.Wf) (hf : ¬ NonFinite v) :
    ∃ j v', JsonWriter.fromValue v = .ok j ∧ JsonReader.value j = .ok v' ∧ Same v v' := by
  obtain ⟨j, hj, ho⟩ := fromValue_ok v hw hf
  obtain ⟨v', hv', hs⟩ := value_ok v hw j ho
  exact ⟨j, v', hj, hv', hs⟩

/-- The JSON written for a value denotes it. -/
theorem C32_written_denotes (v : Value) (hw : v.Wf) (hf : ¬ NonFinite v) : ∃ j, JsonWriter.fromValue v = .ok j ∧ JsonOf v j :=
  fromValue_ok v hw hf

/-- Writing fails exactly for values that contain a NaN or an infinity, and then it panics. -/
theorem C32_write_panics_iff (v : Value) :
    (JsonWriter.fromValue v = .error .panic ↔ NonFinite v) ∧ ∀ e, JsonWriter.fromValue v = .error e → e = .panic :=
  ⟨⟨fun h => (fromValue_error v _ h).2, fromValue_panics v⟩, fun e h => (fromValue_error v e h).1⟩

/-- Reading a JSON value never fails; the result is what the JSON denotes, unless an integer exceeds `i64::MAX`. -/
theorem C32_read_denotes (j : Json) (hj : WfJson j) :
    ∃ v, JsonReader.value j = .ok v ∧ v.Wf ∧ ¬ NonFinite v ∧ (¬ HasBigInt j → JsonOf v j) := by
  obtain ⟨v, hv⟩ := value_total j
  exact ⟨v, hv, value_spec j hj v hv⟩

/-- An integer above `i64::MAX` comes back as a different, negative integer. -/
theorem C32_big_integers_change (n : Nat) (h1 : 2 ^ 63 ≤ n) (h2 : n < 2 ^ 64) :
    JsonReader.value (.number (.posInt n)) = .ok (.number (.integer ((n : Int) - 2 ^ 64))) ∧
    ∀ v, JsonReader.value (.number (.posInt n)) = .ok v → ¬ JsonOf v (.number (.posInt n)) := by
  have hr : JsonReader.value (.number (.posInt n)) = .ok (.number (.integer ((n : Int) - 2 ^ 64))) := by
    simp only [JsonReader.value, JsonReader.number]
    rw [if_neg (by omega)]
    have : (n : Int).bmod (2 ^ 64) = (n : Int) - 2 ^ 64 := by
      rw [Int.bmod_def]
      have : (n : Int) % ((2 ^ 64 : Nat) : Int) = n := Int.emod_eq_of_lt (by omega) (by omega)
      rw [this, if_neg (by omega)]
      rfl
    rw [this]
  refine ⟨hr, fun v hv hj => ?_⟩
  rw [hr] at hv
  cases hv
  generalize hk : (n : Int) - 2 ^ 64 = k at hj
  cases hj with
  | integer hi =>
    cases hi with
    | nonneg => omega

example : ¬ NonFinite (.object [(%s"a", .array [.number (.integer (-5)), .number (.float ⟨0x3ff0000000000000⟩), .none])]) := by
  rintro ⟨⟩
  rename_i k v hn hm
  simp at hm; obtain ⟨rfl, rfl⟩ := hm
  rcases hn with _ | ⟨hm, hn⟩ | _
  simp at hm
  rcases hm with rfl | rfl | rfl
  · cases hn
  · rcases hn with ⟨h⟩
    exact absurd h (by decide)
  · cases hn

example : NonFinite (.number (.float ⟨0x7ff8000000000000⟩)) := .here (by decide)

/-! ### C30 Models -/

/-! Everything the writer makes is a well-formed `serde_json` value. -/

theorem wfJson_ofList {l : List (Str × Json)} (h : ∀ e ∈ l, WfJson e.2) : WfJson (.object (AMap.ofList l)) := by
  refine .object (AMap.wf_ofList l) fun ⟨k, j⟩ he => ?_
  have := AMap.get_of_mem (AMap.wf_ofList l) he
  rw [AMap.get_ofList] at this
  exact h (k, j) (by simpa using AMap.mem_of_get this)

theorem wfJson_fields {l : List (Str × Option Json)} (h : ∀ e ∈ l, ∀ j, e.2 = some j → WfJson j) :
    WfJson (.object (JsonWriter.fields l)) := by
  have key : ∀ m : AMap Str Json, AMap.Wf m → (∀ e ∈ m, WfJson e.2) → WfJson (.object (l.foldl JsonWriter.putField m)) := by
    induction l with
    | nil => intro m hm he; exact .object hm he
    | cons e l ih =>
      intro m hm he
      obtain ⟨k, o⟩ := e
      refine ih (fun e he => h e (by simp [he])) _ ?_ ?_
      · cases o with
        | none => exact hm
        | some j => exact AMap.wf_insert hm k j
      · cases o with
        | none => exact he
        | some j =>
          rintro ⟨k', j'⟩ hm'
          have := AMap.get_of_mem (AMap.wf_insert hm k j) hm'
          rw [AMap.get_insert] at this
          split at this
          · cases this; exact h (k, some j) (by simp) j rfl
          · exact he _ (AMap.mem_of_get this)
  exact key [] AMap.wf_nil (by simp)

theorem jsonOf_wf (v : Value) (hw : v.Wf) (j : Json) (h : JsonOf v j) : WfJson j := by
  induction v using Value.ind generalizing j with
  | array vs ih =>
    cases h with
    | array hl hr =>
      cases hw with
      | array hw =>
        refine .array fun y hy => ?_
        obtain ⟨x, hx, hxy⟩ := ListRel.mem_right ⟨hl, hr⟩ hy
        exact ih x hx (hw x hx) y hxy
  | object m ih =>
    cases h with
    | object ho h1 h2 =>
      rename_i o
      cases hw with
      | object hwm hw =>
        refine .object ho fun ⟨k, y⟩ hy => ?_
        have hy := AMap.get_of_mem ho hy
        have := h1 k
        rw [hy] at this
        cases hx : AMap.get m k with
        | none => rw [hx] at this; cases this
        | some x => exact ih _ (AMap.mem_of_get hx) (hw _ (AMap.mem_of_get hx)) y (h2 k x y hx hy)
  | number n =>
    cases h with
    | integer hi =>
      cases hw with
      | number hr =>
        cases hi with
        | nonneg => simp only [Number.InRange, i64] at hr; exact .posInt (by omega)
        | negative hn => simp only [Number.InRange, i64] at hr; exact .negInt hn (by omega)
    | float hx => exact .float hx
  | boolean b => cases h; exact .bool
  | string s => cases h; exact .string
  | none => cases h; exact .null

theorem fromValue_wf {v : Value} {j : Json} (hw : v.Wf) (h : JsonWriter.fromValue v = .ok j) : WfJson j := by
  by_cases hf : NonFinite v
  · rw [fromValue_panics v hf] at h; cases h
  · obtain ⟨j', hj', ho⟩ := fromValue_ok v hw hf
    rw [h] at hj'; cases hj'
    exact jsonOf_wf v hw j ho

theorem optTraits_wf {ts : Traits} (hw : WfTraits ts) {o : Option Json} (h : JsonWriter.optTraits ts = .ok o) :
    ∀ j, o = some j → WfJson j := by
  unfold JsonWriter.optTraits at h
  split at h
  · cases h; simp
  · split at h
    · cases h
    · rename_i j hj
      cases h
      rintro _ ⟨⟩
      unfold JsonWriter.fromTraits at hj
      split at hj
      · cases hj
      · rename_i js hjs
        cases hj
        refine wfJson_ofList fun e he => ?_
        obtain ⟨⟨id, v⟩, hx, hxy⟩ := ListRel.mem_right (mapE_iff.mp hjs) he
        have hg := AMap.get_of_mem hw.nodup hx
        cases v with
        | none => simp only [JsonWriter.fromTraitValue, okMap_ok] at hxy; cases hxy; exact .object AMap.wf_nil (by simp)
        | some v =>
          simp only [JsonWriter.fromTraitValue] at hxy
          cases hv : JsonWriter.fromValue v with
          | error er => rw [hv, okMap_error] at hxy; cases hxy
          | ok j => rw [hv, okMap_ok] at hxy; cases hxy; exact fromValue_wf (hw.values id v hg) hv

theorem fromMember_wf {m : MemberShape} (hw : WfTraits m.traits) {j : Json} (h : JsonWriter.fromMember m = .ok j) : WfJson j := by
  unfold JsonWriter.fromMember at h
  split at h
  · cases h
  · rename_i t ht
    cases h
    refine wfJson_fields fun e he j hj => ?_
    simp at he
    rcases he with rfl | rfl
    · cases hj; exact .string
    · exact optTraits_wf hw ht j hj

theorem optMembers_wf {ms : AMap Str MemberShape} (hw : WfMembers ms) {o : Option Json} (h : JsonWriter.optMembers ms = .ok o) :
    ∀ j, o = some j → WfJson j := by
  unfold JsonWriter.optMembers at h
  split at h
  · cases h; simp
  · split at h
    · cases h
    · rename_i j hj
      cases h
      rintro _ ⟨⟩
      unfold JsonWriter.fromMembers at hj
      split at hj
      · cases hj
      · rename_i js hjs
        cases hj
        refine wfJson_ofList fun e he => ?_
        obtain ⟨m, hx, hxy⟩ := ListRel.mem_right (mapE_iff.mp hjs) he
        obtain ⟨⟨k, m'⟩, hm, rfl⟩ := List.mem_map.mp hx
        cases hv : JsonWriter.fromMember m' with
        | error er => simp only [hv, okMap_error] at hxy; cases hxy
        | ok j =>
          simp only [hv, okMap_ok] at hxy; cases hxy
          exact fromMember_wf (hw.traits k m' (AMap.get_of_mem hw.nodup hm)) hv

theorem fromReference_wf (id : ShapeID) : WfJson (JsonWriter.fromReference id) :=
  .object (by simp [AMap.Wf, AMap.keys]) (by intro e he; simp at he; subst he; exact .string)

theorem optRefs_wf (ids : List ShapeID) : ∀ j, JsonWriter.optRefs ids = some j → WfJson j := by
  intro j h
  unfold JsonWriter.optRefs at h
  split at h
  · cases h
  · cases h
    refine .array fun j hj => ?_
    obtain ⟨id, _, rfl⟩ := List.mem_map.mp hj
    exact fromReference_wf id

theorem optRef_wf (id : Option ShapeID) : ∀ j, JsonWriter.optRef id = some j → WfJson j := by
  intro j h
  cases id with
  | none => cases h
  | some id => cases h; exact fromReference_wf id

theorem fromKind_wf {k : ShapeKind} (hw : WfKind k) {l : List (Str × Option Json)} (h : JsonWriter.fromKind k = .ok l) :
    ∀ e ∈ l, ∀ j, e.2 = some j → WfJson j := by
  cases k <;> simp only [JsonWriter.fromKind] at h
  case simple s => cases h; intro e he j hj; simp at he; subst he; cases hj; exact .string
  case unresolved => cases h; intro e he j hj; simp at he; subst he; cases hj; exact .string
  case list m =>
    cases hm : JsonWriter.fromMember m <;> simp [hm] at h
    subst h; intro e he j hj; simp at he
    rcases he with rfl | rfl <;> cases hj
    · exact .string
    · exact fromMember_wf hw hm
  case set m =>
    cases hm : JsonWriter.fromMember m <;> simp [hm] at h
    subst h; intro e he j hj; simp at he
    rcases he with rfl | rfl <;> cases hj
    · exact .string
    · exact fromMember_wf hw hm
  case map a b =>
    cases ha : JsonWriter.fromMember a <;> simp [ha] at h
    cases hb : JsonWriter.fromMember b <;> simp [hb] at h
    subst h; intro e he j hj; simp at he
    rcases he with rfl | rfl | rfl <;> cases hj
    · exact .string
    · exact fromMember_wf hw.1 ha
    · exact fromMember_wf hw.2 hb
  case struct ms =>
    cases hm : JsonWriter.optMembers ms <;> simp [hm] at h
    subst h; intro e he j hj; simp at he
    rcases he with rfl | rfl
    · cases hj; exact .string
    · exact optMembers_wf hw hm j hj
  case union ms =>
    cases hm : JsonWriter.optMembers ms <;> simp [hm] at h
    subst h; intro e he j hj; simp at he
    rcases he with rfl | rfl
    · cases hj; exact .string
    · exact optMembers_wf hw hm j hj
  case service s =>
    cases h; intro e he j hj; simp at he
    rcases he with rfl | rfl | rfl | rfl | rfl
    · cases hj; exact .string
    · cases hj; exact .string
    · exact optRefs_wf _ j hj
    · exact optRefs_wf _ j hj
    · unfold JsonWriter.optRenames at hj
      simp only at hj
      split at hj
      · cases hj
      · cases hj
        refine wfJson_ofList fun e he => ?_
        obtain ⟨x, _, rfl⟩ := List.mem_map.mp he
        exact .string
  case operation o =>
    cases h; intro e he j hj; simp at he
    rcases he with rfl | rfl | rfl | rfl
    · cases hj; exact .string
    · exact optRef_wf _ j hj
    · exact optRef_wf _ j hj
    · exact optRefs_wf _ j hj
  case resource r =>
    cases h; intro e he j hj; simp at he
    rcases he with rfl | rfl | rfl | rfl | rfl | rfl | rfl | rfl | rfl | rfl | rfl
    · cases hj; exact .string
    · unfold JsonWriter.optIdentifiers at hj
      simp only at hj
      split at hj
      · cases hj
      · cases hj
        refine wfJson_ofList fun e he => ?_
        obtain ⟨x, _, rfl⟩ := List.mem_map.mp he
        exact fromReference_wf _
    · exact optRef_wf _ j hj
    · exact optRef_wf _ j hj
    · exact optRef_wf _ j hj
    · exact optRef_wf _ j hj
    · exact optRef_wf _ j hj
    · exact optRef_wf _ j hj
    · exact optRefs_wf _ j hj
    · exact optRefs_wf _ j hj
    · exact optRefs_wf _ j hj

theorem fromShape_wf {s : TopLevelShape} (hw : WfShape s) {j : Json} (h : JsonWriter.fromShape s = .ok j) : WfJson j := by
  unfold JsonWriter.fromShape at h
  split at h
  · cases h
  · rename_i t ht
    split at h
    · cases h
    · rename_i l hl
      cases h
      refine wfJson_fields fun e he j hj => ?_
      rcases List.mem_cons.mp he with rfl | he
      · exact optTraits_wf hw.traits ht j hj
      · exact fromKind_wf hw.body hl e he j hj

theorem modelToJson_wf {m : Model} (hw : WfModel m) {j : Json} (h : JsonWriter.modelToJson m = .ok j) : WfJson j := by
  unfold JsonWriter.modelToJson at h
  split at h
  · cases h
  · rename_i md hmd
    split at h
    · cases h
    · rename_i ss hss
      cases h
      refine wfJson_fields fun e he j hj => ?_
      simp at he
      rcases he with rfl | rfl | rfl
      · cases hj; exact .string
      · simp only at hj; subst hj
        unfold JsonWriter.optMetadata at hmd
        split at hmd
        · split at hmd
          · cases hmd
          · rename_i js hjs
            cases hmd
            rw [JsonWriter.fromEntries_eq] at hjs
            refine wfJson_ofList fun e he => ?_
            obtain ⟨⟨k, v⟩, hx, hxy⟩ := ListRel.mem_right (mapE_iff.mp hjs) he
            simp only [JsonWriter.fromEntry] at hxy
            cases hv : JsonWriter.fromValue v with
            | error er => simp [hv] at hxy
            | ok j =>
              simp [hv] at hxy; subst hxy
              exact fromValue_wf (hw.metaValues k v (AMap.get_of_mem hw.metaNodup hx)) hv
        · cases hmd
      · simp only at hj; cases hj
        unfold JsonWriter.fromShapes at hss
        split at hss
        · cases hss
        · rename_i js hjs
          cases hss
          refine wfJson_ofList fun e he => ?_
          obtain ⟨s, hx, hxy⟩ := ListRel.mem_right (mapE_iff.mp hjs) he
          obtain ⟨⟨id, s'⟩, hm, rfl⟩ := List.mem_map.mp hx
          cases hv : JsonWriter.fromShape s' with
          | error er => simp only [hv, okMap_error] at hxy; cases hxy
          | ok j =>
            simp only [hv, okMap_ok] at hxy; cases hxy
            exact fromShape_wf (hw.shapes id s' (AMap.get_of_mem hw.nodup hm)) hv


theorem normTraits_same {ts : Traits} (h : TraitsHaveValues ts) : SameTraits (normTraits ts) ts := by
  intro k
  unfold normTraits
  rw [AMap.get_map_val (fun _ v => normTraitValue v)]
  cases hk : AMap.get ts k with
  | none => exact .none
  | some v =>
    cases v with
    | none => exact absurd rfl (h k none hk)
    | some v => exact .some (.some (Same.refl v))

theorem normMembers_same {ms : AMap Str MemberShape} (h : ∀ k m, ms.get k = some m → TraitsHaveValues m.traits) :
    MapRel SameMemberShape (ms.map fun e => (e.1, normMember e.2)) ms := by
  intro k
  rw [AMap.get_map_val (fun _ v => normMember v)]
  cases hk : AMap.get ms k with
  | none => exact .none
  | some m => exact .some ⟨rfl, rfl, normTraits_same (h k m hk)⟩

theorem normKind_same {k : ShapeKind} (h : KindRoundTrips k) : SameKind (normKind k) k := by
  cases k with
  | list m => exact .list ⟨h.1.symm, rfl, normTraits_same h.2⟩
  | set m => exact .set ⟨h.1.symm, rfl, normTraits_same h.2⟩
  | map a b => exact .map ⟨h.1.1.symm, rfl, normTraits_same h.1.2⟩ ⟨h.2.1.symm, rfl, normTraits_same h.2.2⟩
  | struct ms => exact .struct (normMembers_same h)
  | union ms => exact .union (normMembers_same h)
  | simple s => exact .simple
  | service s => exact .service (MapRel.refl (fun _ => rfl) _)
  | operation o => exact .operation
  | resource r => exact .resource (MapRel.refl (fun _ => rfl) _)
  | unresolved => exact .unresolved

theorem jsonNormal_same {m : Model} (h : RoundTrips m) : SameModel (jsonNormal m) m := by
  refine ⟨rfl, MapRel.refl Same.refl _, fun k => ?_⟩
  simp only [jsonNormal]
  rw [AMap.get_map_val (fun _ v => normShape v)]
  cases hk : AMap.get m.shapes k with
  | none => exact .none
  | some s => exact .some ⟨rfl, normTraits_same (h k s hk).1, normKind_same (h k s hk).2⟩

/-- C30: the writer produces a JSON AST of the model. -/
theorem C30_written_is_ast (m : Model) (hw : WfModel m) (hv : ValidModel m) (hf : FiniteModel m) :
    ∃ j, JsonWriter.modelToJson m = .ok j ∧ ModelOf m j := by
  have hmd : ∃ o, JsonWriter.optMetadata m = .ok o ∧ MaybeObj (fun k => k) JsonOf m.metadata o := by
    unfold JsonWriter.optMetadata Model.hasMetadata
    cases hm : m.metadata with
    | nil => exact ⟨none, by simp, .inl ⟨rfl, rfl⟩⟩
    | cons e t =>
      obtain ⟨js, hjs, hr⟩ := mapE_ok (l := m.metadata) (f := JsonWriter.fromEntry)
          (R := fun e e' => e'.1 = e.1 ∧ JsonOf e.2 e'.2) fun ⟨k, v⟩ he => by
        have hg := AMap.get_of_mem hw.metaNodup he
        obtain ⟨j, hj, ho⟩ := fromValue_ok v (hw.metaValues k v hg) (hf.1 k v hg)
        exact ⟨(k, j), by simp [JsonWriter.fromEntry, hj], rfl, ho⟩
      have := objOf_write hw.metaNodup (fun _ _ _ _ h => h) hr
      rw [← hm, JsonWriter.fromEntries_eq, hjs]
      refine ⟨some (.object (AMap.ofList js)), by rw [hm]; rfl, .inr ⟨_, rfl, this⟩⟩
  have hss : ∃ j, JsonWriter.fromShapes m = .ok j ∧ ObjOf ShapeID.display ShapeOf m.shapes j := by
    obtain ⟨js, hjs, hr⟩ := mapE_ok (l := m.shapesList)
        (f := fun s : TopLevelShape => okMap (fun j => (s.id.display, j)) (JsonWriter.fromShape s))
        (R := fun s e' => e'.1 = s.id.display ∧ ShapeOf s e'.2) fun s hs => by
      obtain ⟨⟨id, s'⟩, he, rfl⟩ := List.mem_map.mp hs
      have hg : m.shape id = some s' := AMap.get_of_mem hw.nodup he
      obtain ⟨_, h2, h3⟩ := hv id s' hg
      obtain ⟨h4, h5⟩ := hf.2 id s' hg
      obtain ⟨j, hj, ho⟩ := fromShape_ok (hw.shapes id s' hg) h2 h3 h4 h5
      exact ⟨(s'.id.display, j), by simp only [hj, okMap_ok], rfl, ho⟩
    refine ⟨_, by unfold JsonWriter.fromShapes; rw [hjs], objOf_write hw.nodup (display_inj (keys_valid fun id s h => (hv id s h).1)) ?_⟩
    refine ⟨by rw [← hr.1]; simp [Model.shapesList, AMap.values], fun i x y hx hy => ?_⟩
    have this : y.1 = x.2.id.display ∧ ShapeOf x.2 y.2 := hr.2 i x.2 y (by simp [Model.shapesList, AMap.values, hx]) hy
    have hk : x.2.id = x.1 := hw.key x.1 x.2 (AMap.get_of_mem hw.nodup (List.mem_of_getElem? hx))
    rw [hk] at this
    exact this
  obtain ⟨o, ho, hmo⟩ := hmd
  obtain ⟨j, hj, hjo⟩ := hss
  refine ⟨_, by simp only [JsonWriter.modelToJson, ho, hj]; rfl, _, rfl, wf_fields _, ?_, ?_, ?_⟩
  · rw [get_fields (by simp)]; rfl
  · rw [get_fields (by simp)]; simpa [AMap.get] using hmo
  · rw [get_fields (by simp)]; exact .inr ⟨j, by simp [AMap.get], hjo⟩

/-- C30: reading any JSON AST of the model, whatever the order of its entries and whichever optional parts are left out,
gives the model back, with the names and trait values that `jsonNormal` describes. -/
theorem C30_read_ast (m : Model) (j : Json) (hw : WfModel m) (hv : ValidModel m) (h : ModelOf m j) :
    ∃ m', JsonReader.model j = .ok m' ∧ SameModel (jsonNormal m) m' := by
  obtain ⟨o, rfl, ho, hver, hmd, hss⟩ := h
  have h1 : JsonReader.version (AMap.get o %s"smithy") = .ok m.version := by
    rw [hver]; exact (C08_version [] m.version).1
  have h2 : ∃ md, JsonReader.metadata (AMap.get o %s"metadata") = .ok md ∧ AMap.Wf md ∧ MapRel Same m.metadata md := by
    rcases hmd with ⟨hn, hj⟩ | ⟨x, hx, hxo⟩
    · rw [hj, hn]; exact ⟨[], rfl, AMap.wf_nil, fun _ => .none⟩
    · rw [hx]
      obtain ⟨vs, rfl, _⟩ := id hxo
      obtain ⟨l, hl, hwl, hr⟩ := objOf_read (S := Same) (fun _ _ _ _ h => h) hxo (f := JsonReader.valueEntry)
        fun k v w hk hvw => by
          obtain ⟨v', hv', hs⟩ := value_ok v (hw.metaValues k v hk) w hvw
          exact ⟨v', by simp [JsonReader.valueEntry, hv'], hs⟩
      exact ⟨l, by simp [JsonReader.metadata, JsonReader.valueEntries_eq, hl, AMap.ofList_of_wf hwl], hwl, hr⟩
  have h3 : ∃ ss, JsonReader.shapes (AMap.get o %s"shapes") = .ok ss ∧ AMap.Wf ss ∧
      MapRel (fun a b => SameShape (normShape a) b) m.shapes ss := by
    rcases hss with ⟨hn, hj⟩ | ⟨x, hx, hxo⟩
    · rw [hj, hn]; exact ⟨[], rfl, AMap.wf_nil, fun _ => .none⟩
    · rw [hx]
      obtain ⟨vs, rfl, _⟩ := id hxo
      obtain ⟨l, hl, hwl, hr⟩ := objOf_read (S := fun a b => SameShape (normShape a) b)
        (display_inj (keys_valid fun id s h => (hv id s h).1)) hxo (f := JsonReader.shapeEntry)
        fun k v w hk hvw => by
          obtain ⟨hid, hvt, hvk⟩ := hv k v hk
          have hkey : v.id = k := hw.key k v hk
          obtain ⟨s', hs', hs⟩ := shapeEntry_ok (hw.shapes k v hk) (hkey ▸ hid) hvt hvk hvw
          rw [hkey] at hs'
          exact ⟨s', hs', hs⟩
      exact ⟨l, by simp [JsonReader.shapes, hl], hwl, hr⟩
  obtain ⟨md, hmd1, hmd2, hmd3⟩ := h2
  obtain ⟨ss, hss1, hss2, hss3⟩ := h3
  have hrel : ∀ e ∈ ss, ∃ s, m.shape e.1 = some s ∧ SameShape (normShape s) e.2 := by
    intro e he
    have := hss3 e.1
    rw [AMap.get_of_mem hss2 he] at this
    cases hm : m.shapes.get e.1 with
    | none => rw [hm] at this; cases this
    | some s => rw [hm] at this; cases this with | some h => exact ⟨s, hm, h⟩
  have hk : ∀ e ∈ ss, e.2.id = e.1 := by
    intro e he
    obtain ⟨s, hs, hss⟩ := hrel e he
    rw [← hss.id]; exact hw.key e.1 s hs
  have hmem : ∀ e ∈ ss, e.1.isMember = true → e.2.body.isUnresolved = true := by
    intro e he hm
    obtain ⟨s, hs, hss⟩ := hrel e he
    have hb := hss.body
    rw [show (normShape s).body = normKind s.body from rfl, hw.member e.1 s hs hm] at hb
    simp only [normKind] at hb
    generalize e.2.body = b at hb
    cases hb
    rfl
  refine ⟨⟨m.version, md, ss⟩, ?_, rfl, hmd3, ?_⟩
  · simp only [JsonReader.model, h1, hmd1, Model.new, addAllMetadata_fresh m.version [] md [] (by simpa using hmd2), hss1,
      List.nil_append, addAllShapes_fresh m.version md [] ss (by simpa using hss2) hk hmem]
  · intro k
    simp only [jsonNormal]
    rw [AMap.get_map_val (fun _ v => normShape v)]
    have := hss3 k
    cases h1 : AMap.get m.shapes k <;> rw [h1] at this
    · cases h2 : AMap.get ss k <;> rw [h2] at this
      · exact .none
      · cases this
    · cases h2 : AMap.get ss k <;> rw [h2] at this
      · cases this
      · cases this with | some hr => exact .some hr

/-- Every model read from JSON is well formed, valid and finite. -/
theorem C30_read_model_wf (j : Json) (m : Model) (hj : WfJson j) (h : JsonReader.model j = .ok m) :
    WfModel m ∧ ValidModel m ∧ FiniteModel m := by
  obtain ⟨o, rfl, ho, _, h1, h2, h3, h4, h5, _⟩ := model_parts hj h
  exact ⟨⟨h1, fun k v hv => (h2 k v hv).1, h3, fun id s hs => (h4 id s hs).1, h5, fun id s hs => (h4 id s hs).2.wf⟩,
    fun id s hs => by
      have := h4 id s hs
      exact ⟨this.1 ▸ this.2.id, this.2.traits, this.2.kind⟩,
    fun k v hv => (h2 k v hv).2, fun id s hs => ⟨(h4 id s hs).2.finTraits, (h4 id s hs).2.finKind⟩⟩


theorem hasNaN_nonFinite {v : Value} (h : HasNaN v) : NonFinite v := by
  induction h with
  | here hx =>
    refine .here ?_
    unfold F64.isNaN at hx
    unfold F64.isFinite
    simp only [decide_eq_true_eq] at hx
    simp; omega
  | array hm _ ih => exact .array hm ih
  | object hm _ ih => exact .object hm ih

theorem traitsAll_mono {P Q : Value → Prop} (h : ∀ v, P v → Q v) {ts : Traits} (ht : TraitsAll P ts) : TraitsAll Q ts :=
  fun id v hv => h v (ht id v hv)

theorem kindAll_mono {P Q : Value → Prop} (h : ∀ v, P v → Q v) {k : ShapeKind} (hk : KindAll P k) : KindAll Q k := by
  cases k with
  | list m => exact traitsAll_mono h hk
  | set m => exact traitsAll_mono h hk
  | map a b => exact ⟨traitsAll_mono h hk.1, traitsAll_mono h hk.2⟩
  | struct ms => exact fun k m hm => traitsAll_mono h (hk k m hm)
  | union ms => exact fun k m hm => traitsAll_mono h (hk k m hm)
  | _ => trivial

/-- C30: a valid model without NaNs, infinities and valueless traits, whose list, set and map members are named `member`, is written, and reading what was written gives the same model, which is `==` to the original. -/
theorem C30_round_trip (m : Model) (hw : WfModel m) (hv : ValidModel m) (hf : FiniteModel m) (hr : RoundTrips m) :
    ∃ j m', JsonWriter.modelToJson m = .ok j ∧ JsonReader.model j = .ok m' ∧ SameModel m m' ∧ m.meq m' = true := by
  obtain ⟨j, hj, ho⟩ := C30_written_is_ast m hw hv hf
  obtain ⟨m', hm', hs⟩ := C30_read_ast m j hw hv ho
  have hsame := SameModel.trans (SameModel.symm (jsonNormal_same hr)) hs
  have hn : ∀ v, ¬ NonFinite v → ¬ HasNaN v := fun v h hn => h (hasNaN_nonFinite hn)
  exact ⟨j, m', hj, hm', hsame, C45_order_independent m m' hw (C30_read_model_wf j m' (modelToJson_wf hw hj) hm').1
    ⟨fun k v h => hn v (hf.1 k v h), fun id s h => ⟨traitsAll_mono hn (hf.2 id s h).1, kindAll_mono hn (hf.2 id s h).2⟩⟩ hsame⟩

/-- C30 in full for every valid model: the model that comes back is the original with the members of maps (and of lists
and sets) renamed `member` and with an empty object as the value of every valueless trait. -/
theorem C30_round_trip_changes (m : Model) (hw : WfModel m) (hv : ValidModel m) (hf : FiniteModel m) :
    ∃ j m', JsonWriter.modelToJson m = .ok j ∧ JsonReader.model j = .ok m' ∧ SameModel (jsonNormal m) m' := by
  obtain ⟨j, hj, ho⟩ := C30_written_is_ast m hw hv hf
  obtain ⟨m', hm', hs⟩ := C30_read_ast m j hw hv ho
  exact ⟨j, m', hj, hm', hs⟩

/-- C30 fails for every valid model with a map shape whose key is not named `member`: what comes back is not `==`. -/
theorem C30_map_changes (m : Model) (hw : WfModel m) (hv : ValidModel m) (hf : FiniteModel m) (id : ShapeID)
    (s : TopLevelShape) (k v : MemberShape) (hs : m.shape id = some s) (hb : s.body = .map k v)
    (hk : lower k.id ≠ lower memberMember) :
    ∃ j m', JsonWriter.modelToJson m = .ok j ∧ JsonReader.model j = .ok m' ∧ m.meq m' = false := by
  obtain ⟨j, m', hj, hm', hsame⟩ := C30_round_trip_changes m hw hv hf
  refine ⟨j, m', hj, hm', ?_⟩
  rw [Bool.eq_false_iff]
  intro h
  have he := (C45_meq_iff m m' hw (C30_read_model_wf j m' (modelToJson_wf hw hj) hm').1).mp h
  have h1 := hsame.shapes id
  simp only [jsonNormal] at h1
  rw [AMap.get_map_val (fun _ v => normShape v)] at h1
  have h2 := he.shapes id
  unfold Model.shape at hs
  rw [hs] at h1 h2
  cases hx : m'.shapes.get id with
  | none => rw [hx] at h2; cases h2
  | some s' =>
    rw [hx] at h1 h2
    cases h1 with
    | some h1 =>
      cases h2 with
      | some h2 =>
        have hb1 := h1.body
        have hb2 := h2.body
        rw [show (normShape s).body = normKind s.body from rfl, hb] at hb1
        rw [hb] at hb2
        simp only [normKind] at hb1
        generalize s'.body = b at hb1 hb2
        cases hb1 with
        | map hkk _ =>
          cases hb2 with
          | map hkk' _ =>
            have := hkk'.1
            unfold SameName at this
            rw [← hkk.1] at this
            exact hk this

/-- C30 fails for every valid model with a shape that has a valueless trait. -/
theorem C30_valueless_changes (m : Model) (hw : WfModel m) (hv : ValidModel m) (hf : FiniteModel m) (id t : ShapeID)
    (s : TopLevelShape) (hs : m.shape id = some s) (ht : s.traits.get t = some none) :
    ∃ j m', JsonWriter.modelToJson m = .ok j ∧ JsonReader.model j = .ok m' ∧ m.meq m' = false := by
  obtain ⟨j, m', hj, hm', hsame⟩ := C30_round_trip_changes m hw hv hf
  refine ⟨j, m', hj, hm', ?_⟩
  rw [Bool.eq_false_iff]
  intro h
  have he := (C45_meq_iff m m' hw (C30_read_model_wf j m' (modelToJson_wf hw hj) hm').1).mp h
  have h1 := hsame.shapes id
  simp only [jsonNormal] at h1
  rw [AMap.get_map_val (fun _ v => normShape v)] at h1
  have h2 := he.shapes id
  unfold Model.shape at hs
  rw [hs] at h1 h2
  cases hx : m'.shapes.get id with
  | none => rw [hx] at h2; cases h2
  | some s' =>
    rw [hx] at h1 h2
    cases h1 with
    | some h1 =>
      cases h2 with
      | some h2 =>
        have ha := h1.traits t
        have hb := h2.traits t
        rw [show (normShape s).traits = normTraits s.traits from rfl] at ha
        unfold normTraits at ha
        rw [AMap.get_map_val (fun _ v => normTraitValue v), ht] at ha
        rw [ht] at hb
        cases hg : s'.traits.get t with
        | none => rw [hg] at hb; cases hb
        | some w =>
          rw [hg] at ha hb
          cases hb with
          | some hb =>
            cases hb
            cases ha with
            | some ha => cases ha

/-! ### C31 Errors, not panics -/

/-- C31: unless the document defines a service with an empty version, the reader returns a model or
an error. -/
theorem C31_no_panic (j : Json) (hj : WfJson j) (h : ¬ EmptyServiceVersion j) : JsonReader.model j ≠ .error .panic :=
  fun hp => h (model_panics hj hp)

/-- C31 fails: a document whose only shape is a service with an empty version panics, whatever else the service has. -/
theorem C31_empty_version_panics (o x : AMap Str Json) (id : ShapeID) (hid : id.Valid)
    (hv : AMap.get o %s"smithy" = some (.string %s"1.0")) (hm : AMap.get o %s"metadata" = none)
    (hs : AMap.get o %s"shapes" = some (.object [(id.display, .object x)]))
    (ht : AMap.get x %s"type" = some (.string %s"service")) (hx : AMap.get x %s"version" = some (.string [])) :
    JsonReader.model (.object o) = .error .panic := by
  have h1 : Version.fromStr %s"1.0" = .ok .v10 := rfl
  have h2 : Simple.fromStr %s"service" = .error (.invalidSimpleShape %s"service") := rfl
  have h3 : JsonReader.shape (.object x) = .error .panic := by
    unfold JsonReader.shape
    simp only [Json.get, ht, h2]
    unfold JsonReader.service
    simp only [Json.get, hx]
    rfl
  simp only [JsonReader.model, hv, hm, hs, JsonReader.version, h1, JsonReader.metadata, Model.addAllMetadata, JsonReader.shapes,
    mapE, JsonReader.shapeEntry, ShapeID.fromStr_display hid, h3]

/-! ### C46 What the reader accepts -/

/-- C46: a document that is accepted is a JSON AST of the model returned, provided the parts the reader would skip silently
are objects, and integers are in range. -/
theorem C46_read_is_ast (j : Json) (m : Model) (hj : WfJson j) (hs : StrictDoc j) (h : JsonReader.model j = .ok m) : ModelOf m j := by
  obtain ⟨o, rfl, ho, ⟨s, hsm, hv⟩, _, _, _, _, _, h1, h2⟩ := model_parts hj h
  have hver : s = m.version.display := by
    rcases ((C08_version s m.version).2.1.mp hv) with h | rfl
    · exact h
    · exact absurd hsm hs.version
  exact ⟨o, rfl, ho, by rw [hsm, hver], h1 hs.metadata hs.ints, h2 hs.shapes hs.each hs.ints⟩

/-- C46: for such documents the reader decides whether the document is a JSON AST of some valid model; and the model is
unique up to the order of maps and `jsonNormal`. -/
theorem C46_accepts_iff (j : Json) (hj : WfJson j) (hs : StrictDoc j) :
    (∃ m, JsonReader.model j = .ok m) ↔ ∃ m, WfModel m ∧ ValidModel m ∧ ModelOf m j := by
  constructor
  · rintro ⟨m, hm⟩
    obtain ⟨h1, h2, _⟩ := C30_read_model_wf j m hj hm
    exact ⟨m, h1, h2, C46_read_is_ast j m hj hs hm⟩
  · rintro ⟨m, h1, h2, h3⟩
    obtain ⟨m', hm', _⟩ := C30_read_ast m j h1 h2 h3
    exact ⟨m', hm'⟩

/-- C46, violation: `metadata` that is not an object is dropped without an error (and so are `shapes`). -/
theorem C46_skips_metadata (o : AMap Str Json) (x : Json) (hx : ∀ l, x ≠ .object l)
    (hv : AMap.get o %s"smithy" = some (.string %s"1.0")) (hm : AMap.get o %s"metadata" = some x)
    (hs : AMap.get o %s"shapes" = some x) : JsonReader.model (.object o) = .ok ⟨.v10, [], []⟩ := by
  have h1 : Version.fromStr %s"1.0" = .ok .v10 := rfl
  cases x <;> first | exact absurd rfl (hx _) |
    simp [JsonReader.model, hv, hm, hs, JsonReader.version, h1, JsonReader.metadata, Model.addAllMetadata, JsonReader.shapes,
      Model.addAllShapes, Model.new]

/-- C46, violation: traits that are not an object are dropped without an error. -/
theorem C46_skips_traits (x : Json) (hx : ∀ l, x ≠ .object l) : JsonReader.readTraits (some x) = .ok [] := by
  cases x <;> first | exact absurd rfl (hx _) | rfl

/-! ### Non-vacuity -/

/-- A structure with a documented member and a documentation trait, a list, a service, and metadata. -/
def exJsonModel : Model :=
  ⟨.v10, [(%s"k", .array [.number (.integer (-3)), .string %s"x"])],
   [(sid %s"S", ⟨sid %s"S", [(tid %s"documentation", some (.string %s"doc"))],
      .struct [(%s"a", ⟨%s"a", [(tid %s"tags", some (.array []))], sid %s"L"⟩)]⟩),
    (sid %s"L", ⟨sid %s"L", [], .list ⟨memberMember, [], sid %s"S"⟩⟩),
    (sid %s"V", ⟨sid %s"V", [], .service ⟨%s"1", [sid %s"O"], [], [(sid %s"S", %s"T")]⟩⟩)]⟩

/-- A map shape. -/
def exJsonMap : Model :=
  ⟨.v10, [], [(sid %s"M", ⟨sid %s"M", [(tid %s"sensitive", none)], .map ⟨memberKey, [], sid %s"K"⟩ ⟨memberValue, [], sid %s"K"⟩⟩)]⟩

theorem valid_sid {n : Str} (h : isIdent n = true) : (sid n).Valid :=
  ⟨(isNamespace_iff %s"ex").mp (by decide), (isIdent_iff _).mp h, fun m hm => by simp [sid] at hm⟩

theorem valid_tid {n : Str} (h : isIdent n = true) : (tid n).Valid :=
  ⟨(isNamespace_iff %s"smithy.api").mp (by decide), (isIdent_iff _).mp h, fun m hm => by simp [tid] at hm⟩

theorem get_one {K V : Type} [DecidableEq K] {k k' : K} {v v' : V} (h : AMap.get [(k, v)] k' = some v') : k' = k ∧ v' = v := by
  rw [AMap.get_cons] at h
  split at h
  · rename_i e; cases h; exact ⟨e.symm, rfl⟩
  · simp at h

theorem exJsonModel_ok : WfModel exJsonModel ∧ ValidModel exJsonModel ∧ FiniteModel exJsonModel ∧ RoundTrips exJsonModel := by
  have hk : ∀ id s, exJsonModel.shape id = some s → (id, s) ∈ exJsonModel.shapes := fun id s h => AMap.mem_of_get h
  have hnt : WfTraits [] := goodTraits_nil.wf
  have hd : WfTraits [(tid %s"documentation", some (.string %s"doc"))] :=
    ⟨by unfold AMap.Wf; decide, fun id v h => by obtain ⟨_, h⟩ := get_one h; cases h; exact .string⟩
  have ht : WfTraits [(tid %s"tags", some (.array []))] :=
    ⟨by unfold AMap.Wf; decide, fun id v h => by obtain ⟨_, h⟩ := get_one h; cases h; exact .array (by simp)⟩
  refine ⟨⟨?_, ?_, ?_, ?_, ?_, ?_⟩, ?_, ⟨?_, ?_⟩, ?_⟩
  · unfold AMap.Wf; decide
  · intro k v h
    obtain ⟨_, rfl⟩ := get_one h
    refine .array fun v hv => ?_
    simp at hv
    rcases hv with rfl | rfl
    · exact .number (by unfold Number.InRange i64; omega)
    · exact .string
  · unfold AMap.Wf; decide
  · intro id s h
    have := hk id s h
    simp [exJsonModel] at this
    rcases this with ⟨rfl, rfl⟩ | ⟨rfl, rfl⟩ | ⟨rfl, rfl⟩ <;> rfl
  · intro id s h hm
    have := hk id s h
    simp [exJsonModel] at this
    rcases this with ⟨rfl, rfl⟩ | ⟨rfl, rfl⟩ | ⟨rfl, rfl⟩ <;> cases hm
  · intro id s h
    have := hk id s h
    simp only [exJsonModel, List.mem_cons, Prod.mk.injEq, List.not_mem_nil, or_false] at this
    rcases this with ⟨rfl, rfl⟩ | ⟨rfl, rfl⟩ | ⟨rfl, rfl⟩
    · exact ⟨hd, ⟨by unfold AMap.Wf; decide, fun k m h => by obtain ⟨rfl, rfl⟩ := get_one h; rfl,
        fun k m h => by obtain ⟨rfl, rfl⟩ := get_one h; exact ht⟩⟩
    · exact ⟨hnt, hnt⟩
    · exact ⟨hnt, by simp only [WfKind]; unfold AMap.Wf; decide⟩
  · intro id s h
    have := hk id s h
    simp only [exJsonModel, List.mem_cons, Prod.mk.injEq, List.not_mem_nil, or_false] at this
    rcases this with ⟨rfl, rfl⟩ | ⟨rfl, rfl⟩ | ⟨rfl, rfl⟩
    · refine ⟨valid_sid (by decide), fun id v h => ?_, fun k m h => ?_⟩
      · obtain ⟨rfl, _⟩ := get_one h; exact ⟨valid_tid (by decide), rfl⟩
      · obtain ⟨rfl, rfl⟩ := get_one h
        exact ⟨(isIdent_iff _).mp (by decide), valid_sid (by decide), fun id v h => by
          obtain ⟨rfl, _⟩ := get_one h; exact ⟨valid_tid (by decide), rfl⟩⟩
    · exact ⟨valid_sid (by decide), goodTraits_nil.valid, valid_sid (by decide), goodTraits_nil.valid⟩
    · refine ⟨valid_sid (by decide), goodTraits_nil.valid, by decide, ?_, ?_, ?_⟩
      · intro id hid; simp at hid; subst hid; exact valid_sid (by decide)
      · intro id hid; simp at hid
      · intro id n h; obtain ⟨rfl, rfl⟩ := get_one h; exact ⟨valid_sid (by decide), (isIdent_iff _).mp (by decide)⟩
  · intro k v h hn
    obtain ⟨_, rfl⟩ := get_one h
    cases hn with
    | array hm hn => simp at hm; rcases hm with rfl | rfl <;> cases hn
  · intro id s h
    have := hk id s h
    simp only [exJsonModel, List.mem_cons, Prod.mk.injEq, List.not_mem_nil, or_false] at this
    rcases this with ⟨rfl, rfl⟩ | ⟨rfl, rfl⟩ | ⟨rfl, rfl⟩
    · refine ⟨fun id v h hn => ?_, fun k m h id v h' hn => ?_⟩
      · obtain ⟨_, h⟩ := get_one h; cases h; cases hn
      · obtain ⟨rfl, rfl⟩ := get_one h
        obtain ⟨_, h⟩ := get_one h'; cases h
        cases hn with | array hm _ => simp at hm
    · exact ⟨goodTraits_nil.finite, goodTraits_nil.finite⟩
    · exact ⟨goodTraits_nil.finite, trivial⟩
  · intro id s h
    have := hk id s h
    simp only [exJsonModel, List.mem_cons, Prod.mk.injEq, List.not_mem_nil, or_false] at this
    rcases this with ⟨rfl, rfl⟩ | ⟨rfl, rfl⟩ | ⟨rfl, rfl⟩
    · refine ⟨fun id v h => ?_, fun k m h id v h' => ?_⟩
      · obtain ⟨_, rfl⟩ := get_one h; simp
      · obtain ⟨rfl, rfl⟩ := get_one h
        obtain ⟨_, rfl⟩ := get_one h'; simp
    · exact ⟨goodTraits_nil.values, rfl, goodTraits_nil.values⟩
    · exact ⟨goodTraits_nil.values, trivial⟩

/-- The hypotheses of `C30_map_changes` and `C30_valueless_changes` hold of `exJsonMap`. -/
theorem exJsonMap_ok : WfModel exJsonMap ∧ ValidModel exJsonMap ∧ FiniteModel exJsonMap := by
  have hk : ∀ id s, exJsonMap.shape id = some s → id = sid %s"M" ∧ s = ⟨sid %s"M", [(tid %s"sensitive", none)],
      .map ⟨memberKey, [], sid %s"K"⟩ ⟨memberValue, [], sid %s"K"⟩⟩ := fun id s h => get_one h
  refine ⟨⟨AMap.wf_nil, fun k v h => by simp [exJsonMap] at h, by unfold AMap.Wf; decide, ?_, ?_, ?_⟩, ?_, fun k v h => by simp [exJsonMap] at h, ?_⟩
  · intro id s h; obtain ⟨rfl, rfl⟩ := hk id s h; rfl
  · intro id s h hm; obtain ⟨rfl, rfl⟩ := hk id s h; cases hm
  · intro id s h; obtain ⟨rfl, rfl⟩ := hk id s h
    exact ⟨⟨by unfold AMap.Wf; decide, fun id v h => by obtain ⟨_, h⟩ := get_one h; cases h⟩, goodTraits_nil.wf, goodTraits_nil.wf⟩
  · intro id s h; obtain ⟨rfl, rfl⟩ := hk id s h
    exact ⟨valid_sid (by decide), fun id v h => (by obtain ⟨rfl, _⟩ := get_one h; exact ⟨valid_tid (by decide), rfl⟩),
      ⟨valid_sid (by decide), goodTraits_nil.valid⟩, valid_sid (by decide), goodTraits_nil.valid⟩
  · intro id s h; obtain ⟨rfl, rfl⟩ := hk id s h
    exact ⟨fun id v h => (by obtain ⟨_, h⟩ := get_one h; cases h), goodTraits_nil.finite, goodTraits_nil.finite⟩

example : ∃ j m', JsonWriter.modelToJson exJsonModel = .ok j ∧ JsonReader.model j = .ok m' ∧ SameModel exJsonModel m' ∧
    exJsonModel.meq m' = true :=
  C30_round_trip _ exJsonModel_ok.1 exJsonModel_ok.2.1 exJsonModel_ok.2.2.1 exJsonModel_ok.2.2.2

example : ∃ j m', JsonWriter.modelToJson exJsonMap = .ok j ∧ JsonReader.model j = .ok m' ∧ exJsonMap.meq m' = false :=
  C30_map_changes _ exJsonMap_ok.1 exJsonMap_ok.2.1 exJsonMap_ok.2.2 (sid %s"M") _ _ _ rfl rfl (by decide)

example : ∃ j m', JsonWriter.modelToJson exJsonMap = .ok j ∧ JsonReader.model j = .ok m' ∧ exJsonMap.meq m' = false :=
  C30_valueless_changes _ exJsonMap_ok.1 exJsonMap_ok.2.1 exJsonMap_ok.2.2 (sid %s"M") (tid %s"sensitive") _ rfl rfl

/-- A document that satisfies the hypotheses of C31 and C46 and is accepted. -/
def exDoc : Json := .object [(%s"smithy", .string %s"1.0"),
  (%s"shapes", .object [(%s"ex#S", .object [(%s"type", .string %s"structure"), (%s"members", .object
    [(%s"a", .object [(%s"target", .string %s"ex#T")])])])])]

example : ∃ m, JsonReader.model exDoc = .ok m := ⟨_, rfl⟩

example : JsonReader.model (.object [(%s"smithy", .string %s"1.0"),
    (%s"shapes", .object [(%s"ex#V", .object [(%s"type", .string %s"service"), (%s"version", .string [])])])]) = .error .panic :=
  C31_empty_version_panics _ _ (sid %s"V") (valid_sid (by decide)) rfl rfl rfl rfl rfl

theorem wfJson_one {k : Str} {j : Json} (h : WfJson j) : WfJson (.object [(k, j)]) :=
  .object (by unfold AMap.Wf; simp [AMap.keys]) (by intro e he; simp at he; subst he; exact h)

example : WfJson exDoc ∧ StrictDoc exDoc ∧ ¬ EmptyServiceVersion exDoc := by
  refine ⟨?_, ⟨by simp [exDoc, Json.get, AMap.get], trivial, trivial, ?_, ?_⟩, ?_⟩
  · refine .object (by unfold AMap.Wf; decide) ?_
    intro e he
    simp at he
    rcases he with rfl | rfl
    · exact .string
    · refine wfJson_one (.object (by unfold AMap.Wf; decide) ?_)
      intro e he
      simp at he
      rcases he with rfl | rfl
      · exact .string
      · exact wfJson_one (wfJson_one .string)
  · intro ss k x hss hx
    simp [exDoc, Json.get, AMap.get] at hss
    subst hss
    obtain ⟨_, rfl⟩ := get_one hx
    refine ⟨trivial, ?_, trivial, ?_⟩
    · intro k x hx hk
      rcases hk with rfl | rfl | rfl <;> simp [Json.get, AMap.get] at hx
    · intro ms k x hm hx
      simp [Json.get, AMap.get] at hm
      subst hm
      obtain ⟨_, rfl⟩ := get_one hx
      trivial
  · intro h
    rcases h with _ | _ | ⟨hm, h⟩
    simp at hm
    rcases hm with ⟨rfl, rfl⟩ | ⟨rfl, rfl⟩
    · cases h
    rcases h with _ | _ | ⟨hm, h⟩
    simp at hm
    obtain ⟨rfl, rfl⟩ := hm
    rcases h with _ | _ | ⟨hm, h⟩
    simp at hm
    rcases hm with ⟨rfl, rfl⟩ | ⟨rfl, rfl⟩
    · cases h
    rcases h with _ | _ | ⟨hm, h⟩
    simp at hm
    obtain ⟨rfl, rfl⟩ := hm
    rcases h with _ | _ | ⟨hm, h⟩
    simp at hm
    obtain ⟨rfl, rfl⟩ := hm
    cases h
  · rintro ⟨ss, k, x, hss, hx, ht, _⟩
    simp [exDoc, Json.get, AMap.get] at hss
    subst hss
    obtain ⟨_, rfl⟩ := get_one hx
    simp [Json.get, AMap.get] at ht

end Verif
