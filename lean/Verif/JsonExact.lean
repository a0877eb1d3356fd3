/-
The JSON AST reader on all documents: exactly when it panics (C31), what it makes of documents that are not in the strict
form (C46), and exactly which models come back unchanged from the writer and the reader (C30).
-/
import Verif.JsonProps

namespace Verif
open Spec

/-! ### C30 -/

theorem normTraits_same_iff {ts ts' : Traits} (h : SameTraits (normTraits ts) ts') (hs : SameTraits ts ts') : TraitsHaveValues ts := by
  intro id v hv hn
  subst hn
  have h1 := h id
  have h2 := hs id
  unfold normTraits at h1
  rw [AMap.get_map_val (fun _ v => normTraitValue v), hv] at h1
  rw [hv] at h2
  generalize AMap.get ts' id = x at h1 h2
  cases h1 with | some h1 => cases h2 with | some h2 => cases h1; cases h2

theorem normMembers_same_iff {ms ms' : AMap Str MemberShape} (h : MapRel SameMemberShape (ms.map fun e => (e.1, normMember e.2)) ms')
    (hs : MapRel SameMemberShape ms ms') : ∀ k m, ms.get k = some m → TraitsHaveValues m.traits := by
  intro k m hm
  have h1 := h k
  have h2 := hs k
  rw [AMap.get_map_val (fun _ v => normMember v), hm] at h1
  rw [hm] at h2
  generalize AMap.get ms' k = x at h1 h2
  cases h1 with | some h1 => cases h2 with | some h2 => exact normTraits_same_iff h1.2.2 h2.2.2

theorem normKind_same_iff {k k' : ShapeKind} (h : SameKind (normKind k) k') (hs : SameKind k k') : KindRoundTrips k := by
  cases hs with
  | list hm => cases h with | list hn => exact ⟨hm.1.trans hn.1.symm, normTraits_same_iff hn.2.2 hm.2.2⟩
  | set hm => cases h with | set hn => exact ⟨hm.1.trans hn.1.symm, normTraits_same_iff hn.2.2 hm.2.2⟩
  | map hk hv => cases h with | map hk' hv' => exact ⟨⟨hk.1.trans hk'.1.symm, normTraits_same_iff hk'.2.2 hk.2.2⟩, hv.1.trans hv'.1.symm, normTraits_same_iff hv'.2.2 hv.2.2⟩
  | struct hm => cases h with | struct hn => exact normMembers_same_iff hn hm
  | union hm => cases h with | union hn => exact normMembers_same_iff hn hm
  | _ => trivial

/-- C30: exactly which models come back from the writer and the reader as they were. -/
theorem C30_round_trip_iff (m : Model) (hw : WfModel m) (hv : ValidModel m) (hf : FiniteModel m) :
    (∃ j m', JsonWriter.modelToJson m = .ok j ∧ JsonReader.model j = .ok m' ∧ SameModel m m') ↔ RoundTrips m := by
  constructor
  · rintro ⟨j, m', hj, hm', hs⟩
    obtain ⟨j', m'', hj', hm'', hs'⟩ := C30_round_trip_changes m hw hv hf
    rw [hj] at hj'; cases hj'
    rw [hm'] at hm''; cases hm''
    intro id s hid
    have h1 := hs.shapes id
    have h2 := hs'.shapes id
    simp only [jsonNormal] at h2
    unfold Model.shape at hid
    rw [AMap.get_map_val (fun _ v => normShape v), hid] at h2
    rw [hid] at h1
    generalize AMap.get m'.shapes id = x at h1 h2
    cases h1 with
    | some h1 => cases h2 with
      | some h2 => exact ⟨normTraits_same_iff h2.traits h1.traits, normKind_same_iff h2.body h1.body⟩
  · intro hr
    obtain ⟨j, m', h1, h2, h3, _⟩ := C30_round_trip m hw hv hf hr
    exact ⟨j, m', h1, h2, h3⟩

/-! ### C31 -/

/-- A document with one shape. -/
def oneShape (x : Json) : Json :=
  .object [(%s"smithy", .string %s"1.0"), (%s"shapes", .object [(%s"a#A", x)])]

/-- The definition can be read: the reader accepts the document that has it as its only shape. -/
def ReadableShape (x : Json) : Prop := ∃ m, JsonReader.model (oneShape x) = .ok m

/-- The id can be read. -/
def ReadableId (k : Str) : Prop := ∃ id : ShapeID, id.Valid ∧ k = id.display

theorem readableId_iff {k : Str} : ReadableId k ↔ ∃ id, ShapeID.fromStr k = .ok id := by
  constructor
  · rintro ⟨id, hid, rfl⟩; exact ⟨id, ShapeID.fromStr_display hid⟩
  · rintro ⟨id, hid⟩
    obtain ⟨h1, h2⟩ := C03_display_parse k id hid
    exact ⟨id, h2, h1.symm⟩

/-- After the version and the metadata, which can always be read, come the shapes. -/
theorem model_shapes {o : AMap Str Json} {v : Version} (hv : JsonReader.version (AMap.get o %s"smithy") = .ok v) :
    ∃ md, JsonReader.model (.object o) = match JsonReader.shapes (AMap.get o %s"shapes") with
      | .error e => .error e
      | .ok ss =>
        match (Model.mk v md []).addAllShapes ss with
        | (_, .error e) => .error e
        | (m', .ok ()) => .ok m' := by
  obtain ⟨md, hw, hmd⟩ : ∃ md, AMap.Wf md ∧ JsonReader.metadata (AMap.get o %s"metadata") = .ok md := by
    unfold JsonReader.metadata
    split
    · rename_i vs _
      obtain ⟨l, hl⟩ := valueEntries_total vs
      rw [hl]
      exact ⟨_, AMap.wf_ofList l, rfl⟩
    · exact ⟨[], AMap.wf_nil, rfl⟩
  refine ⟨md, ?_⟩
  unfold JsonReader.model
  simp only [hv, hmd]
  rw [show Model.new v = Model.mk v [] [] from rfl, addAllMetadata_fresh v [] md [] (by simpa using hw)]
  rfl

theorem mapE_error_iff {α β : Type} {f : α → Except Err β} {l : List α} {e : Err} :
    mapE f l = .error e ↔ ∃ pre x post, l = pre ++ x :: post ∧ (∀ y ∈ pre, ∃ z, f y = .ok z) ∧ f x = .error e := by
  induction l with
  | nil => simp [mapE]
  | cons a l ih =>
    cases ha : f a with
    | error e' =>
      simp only [mapE, ha]
      constructor
      · intro h; cases h; exact ⟨[], a, l, rfl, by simp, ha⟩
      · rintro ⟨pre, x, post, he, hp, hx⟩
        cases pre with
        | nil => cases he; rw [ha] at hx; cases hx; rfl
        | cons y pre =>
          cases he
          obtain ⟨z, hz⟩ := hp a (by simp)
          rw [ha] at hz; cases hz
    | ok b =>
      have : mapE f (a :: l) = .error e ↔ mapE f l = .error e := by
        simp only [mapE, ha]
        cases mapE f l with
        | error e' => simp
        | ok ys => simp
      rw [this, ih]
      constructor
      · rintro ⟨pre, x, post, rfl, hp, hx⟩
        refine ⟨a :: pre, x, post, rfl, ?_, hx⟩
        intro y hy
        rcases List.mem_cons.mp hy with rfl | hy
        · exact ⟨b, ha⟩
        · exact hp y hy
      · rintro ⟨pre, x, post, he, hp, hx⟩
        cases pre with
        | nil => cases he; rw [ha] at hx; cases hx
        | cons y pre =>
          cases he
          exact ⟨pre, x, post, rfl, fun y hy => hp y (by simp [hy]), hx⟩

/-- One entry of `shapes` is read when its id and its definition can be read. -/
theorem shapeEntry_ok_iff (k : Str) (x : Json) : (∃ y, JsonReader.shapeEntry (k, x) = .ok y) ↔ ReadableId k ∧ ReadableShape x := by
  have hone : ReadableShape x ↔ ∃ y, JsonReader.shapeEntry (%s"a#A", x) = .ok y := by
    unfold ReadableShape oneShape
    obtain ⟨md, hmd⟩ := model_shapes (o := [(%s"smithy", .string %s"1.0"), (%s"shapes", .object [(%s"a#A", x)])]) (v := .v10) rfl
    rw [hmd]
    rw [show JsonReader.shapes (AMap.get [(%s"smithy", Json.string %s"1.0"), (%s"shapes", .object [(%s"a#A", x)])] %s"shapes")
      = mapE JsonReader.shapeEntry [(%s"a#A", x)] from rfl]
    unfold mapE
    cases hy : JsonReader.shapeEntry (%s"a#A", x) with
    | error e => simp
    | ok y =>
      obtain ⟨id, s⟩ := y
      have h1 : id = ⟨%s"a", %s"A", none⟩ ∧ s.id = id := by
        unfold JsonReader.shapeEntry at hy
        rw [show ShapeID.fromStr (%s"a#A", x).1 = .ok ⟨%s"a", %s"A", none⟩ from rfl] at hy
        simp only at hy
        repeat' split at hy
        all_goals cases hy
        exact ⟨rfl, rfl⟩
      simp only [mapE]
      rw [addAllShapes_fresh .v10 md [] [(id, s)] (by simp [AMap.Wf, AMap.keys]) (by simp [h1.2]) (by simp [h1.1, ShapeID.isMember])]
      simp
  rw [hone, readableId_iff]
  unfold JsonReader.shapeEntry
  rw [show ShapeID.fromStr (%s"a#A", x).1 = .ok ⟨%s"a", %s"A", none⟩ from rfl]
  simp only
  cases ShapeID.fromStr k with
  | error e => simp
  | ok id =>
    cases JsonReader.shape x with
    | error e => simp
    | ok b =>
      simp only
      cases JsonReader.readTraits (x.get %s"traits") with
      | error e => simp
      | ok ts => simp

/-- The definition is that of a service with an empty version. -/
def EmptyVersion (x : Json) : Prop :=
  x.get %s"type" = some (.string %s"service") ∧ x.get %s"version" = some (.string [])

theorem shapeEntry_panic_iff (k : Str) (x : Json) :
    JsonReader.shapeEntry (k, x) = .error .panic ↔ ReadableId k ∧ EmptyVersion x := by
  rw [readableId_iff]
  constructor
  · intro h
    refine ⟨?_, shapeEntry_panics h⟩
    unfold JsonReader.shapeEntry at h
    have h1 := np_shapeID k
    cases hi : ShapeID.fromStr k with
    | error er => simp only [hi] at h; cases h; exact absurd hi h1
    | ok id => exact ⟨id, rfl⟩
  · rintro ⟨⟨id, hid⟩, ht, hx⟩
    have h3 : JsonReader.shape x = .error .panic := by
      have h2 : Simple.fromStr %s"service" = .error (.invalidSimpleShape %s"service") := rfl
      unfold JsonReader.shape
      simp only [ht, h2]
      unfold JsonReader.service
      simp only [hx]
      rfl
    unfold JsonReader.shapeEntry
    simp only [hid, h3]

/-- C31: exactly when the reader panics. It reads the version, then the shapes in order, and panics when it comes to a service
with an empty version, if it could read everything before. In all other cases it returns a model or an error. -/
theorem C31_panic_iff (j : Json) (hj : WfJson j) : JsonReader.model j = .error .panic ↔
    ∃ o ss pre k x post, j = .object o ∧
      (AMap.get o %s"smithy" = some (.string %s"1.0") ∨ AMap.get o %s"smithy" = some (.string %s"1")) ∧
      AMap.get o %s"shapes" = some (.object ss) ∧ ss = pre ++ (k, x) :: post ∧
      (∀ k' x', (k', x') ∈ pre → ReadableId k' ∧ ReadableShape x') ∧ ReadableId k ∧ EmptyVersion x := by
  constructor
  · intro h
    obtain ⟨ss, k, x, hss, hx, -, -⟩ := model_panics hj h
    cases j with
    | object o =>
      cases hv : JsonReader.version (AMap.get o %s"smithy") with
      | error e =>
        unfold JsonReader.model at h
        simp only [hv] at h
        cases h
        unfold JsonReader.version at hv
        split at hv
        · exact absurd hv (np_version _)
        · cases hv
      | ok v =>
        obtain ⟨md, hmd⟩ := model_shapes hv
        have hsm : AMap.get o %s"smithy" = some (.string %s"1.0") ∨ AMap.get o %s"smithy" = some (.string %s"1") := by
          unfold JsonReader.version at hv
          split at hv
          · rename_i s hs
            unfold Version.fromStr at hv
            split at hv
            · rename_i hc
              rw [hs]
              exact hc.elim (fun h => .inr (by rw [h])) (fun h => .inl (by rw [h]))
            · cases hv
          · cases hv
        change AMap.get o %s"shapes" = _ at hss
        have hsw := WfJson.get (j := .object o) hj hss
        rw [h, hss] at hmd
        change _ = match mapE JsonReader.shapeEntry ss with | .error e => _ | .ok ss => _ at hmd
        cases hm : mapE JsonReader.shapeEntry ss with
        | error e =>
          rw [hm] at hmd
          simp only at hmd
          cases hmd
          obtain ⟨pre, ⟨k, x⟩, post, h1, h2, h3⟩ := mapE_error_iff.mp hm
          exact ⟨o, ss, pre, k, x, post, rfl, hsm, hss, h1, fun k' x' hm => (shapeEntry_ok_iff k' x').mp (h2 _ hm),
            (shapeEntry_panic_iff k x).mp h3⟩
        | ok l =>
          exfalso
          rw [hm] at hmd
          simp only at hmd
          have hw : AMap.Wf l ∧ ∀ e ∈ l, e.2.id = e.1 := by
            cases hsw with
            | object hvw he =>
              refine ⟨(objOf_of_mapE (name := ShapeID.display) (R := fun _ _ => True) hvw hm
                fun e hm y hy => ⟨(shapeEntry_spec (he e hm) hy).1, trivial⟩).1, fun e hme => ?_⟩
              obtain ⟨⟨k', x'⟩, hx', hy⟩ := ListRel.mem_right (mapE_iff.mp hm) hme
              unfold JsonReader.shapeEntry at hy
              repeat' split at hy
              all_goals cases hy
              rfl
          have := np_addAllShapes_fresh v md [] l (by simpa using hw.1) hw.2
          cases ha : (Model.mk v md []).addAllShapes l with
          | mk m1 r =>
            rw [ha] at hmd this
            cases r with
            | error e => simp only at hmd; cases hmd; exact this rfl
            | ok u => cases hmd
    | _ => cases hss
  · rintro ⟨o, ss, pre, k, x, post, rfl, hsm, hss, hs, hpre, hk, hx⟩
    obtain ⟨md, hmd⟩ := model_shapes (o := o) (v := .v10) (by rcases hsm with h | h <;> rw [h] <;> rfl)
    have hm : mapE JsonReader.shapeEntry ss = .error .panic := mapE_error_iff.mpr
      ⟨pre, (k, x), post, hs, fun y hy => (shapeEntry_ok_iff y.1 y.2).mpr (hpre y.1 y.2 hy), (shapeEntry_panic_iff k x).mpr ⟨hk, hx⟩⟩
    rw [hmd, hss]
    change (match mapE JsonReader.shapeEntry ss with | .error e => Except.error e | .ok ss => _) = _
    rw [hm]

/-- A document that meets the right-hand side: a string shape, then a service with an empty version. -/
example : JsonReader.model (.object [(%s"smithy", .string %s"1"), (%s"shapes", .object [(%s"a#B", .object [(%s"type", .string %s"string")]),
    (%s"a#C", .object [(%s"type", .string %s"service"), (%s"version", .string [])])])]) = .error .panic :=
  (C31_panic_iff _ (by
    refine .object (by unfold AMap.Wf; decide) fun e he => ?_
    rcases List.mem_cons.mp he with rfl | he
    · exact .string
    rcases List.mem_cons.mp he with rfl | he
    · refine .object (by unfold AMap.Wf; decide) fun e he => ?_
      rcases List.mem_cons.mp he with rfl | he
      · refine .object (by unfold AMap.Wf; decide) fun e he => ?_
        rcases List.mem_cons.mp he with rfl | he
        · exact .string
        · cases he
      rcases List.mem_cons.mp he with rfl | he
      · refine .object (by unfold AMap.Wf; decide) fun e he => ?_
        rcases List.mem_cons.mp he with rfl | he
        · exact .string
        rcases List.mem_cons.mp he with rfl | he
        · exact .string
        · cases he
      · cases he
    · cases he)).mpr ⟨_, _, [_], _, _, [], rfl, .inr rfl, rfl, rfl, (by
      intro k x h
      rcases List.mem_cons.mp h with h | h
      · cases h
        exact ⟨readableId_iff.mpr ⟨_, rfl⟩, _, rfl⟩
      · cases h), readableId_iff.mpr ⟨_, rfl⟩, rfl, rfl⟩

/-! ### C46 -/

mutual
  /-- The value with every integer reduced to the range of `i64`, modulo 2^64. -/
  def wrapInts : Json → Json
    | .null => .null
    | .bool b => .bool b
    | .string s => .string s
    | .number (.float x) => .number (.float x)
    | .number (.negInt n) => .number (.negInt n)
    | .number (.posInt n) => if n < 2 ^ 63 then .number (.posInt n) else .number (.negInt (n - 2 ^ 64))
    | .array l => .array (wrapList l)
    | .object o => .object (wrapEntries o)
  termination_by structural x => x
  def wrapList : List Json → List Json
    | [] => []
    | j :: js => wrapInts j :: wrapList js
  termination_by structural x => x
  def wrapEntries : List (Str × Json) → List (Str × Json)
    | [] => []
    | e :: es => wrapEntry e :: wrapEntries es
  termination_by structural x => x
  def wrapEntry : Str × Json → Str × Json
    | (k, j) => (k, wrapInts j)
  termination_by structural x => x
end

/-- The object with the entry `k ↦ x` kept as `k ↦ f k x`, or left out. -/
def mend (f : Str → Json → Option Json) : Json → Json
  | .object o => .object (o.filterMap fun e => (f e.1 e.2).map fun x => (e.1, x))
  | j => j

/-- Left out, unless it is an object. -/
def onlyObject : Json → Option Json
  | .object o => some (.object o)
  | _ => none

/-- A member without `traits` that are not an object. -/
def tidyMember : Json → Json := mend fun k x => if k = %s"traits" then onlyObject x else some x

/-- A shape definition without `traits` and `members` that are not objects, and with tidy members. -/
def tidyShape : Json → Json := mend fun k x =>
  if k = %s"traits" then onlyObject x
  else if k = %s"members" then (onlyObject x).map (mend fun _ y => some (tidyMember y))
  else if k = %s"member" ∨ k = %s"key" ∨ k = %s"value" then some (tidyMember x)
  else some x

/-- `"1"` is another way to write the version `"1.0"`. -/
def fullVersion : Json → Json
  | .string s => if s = %s"1" then .string %s"1.0" else .string s
  | j => j

/-- The entries of a document: `metadata` and `shapes` are left out unless they are objects, the version is full, and shapes are
tidy. -/
def tidyEntry (k : Str) (x : Json) : Option Json :=
  if k = %s"smithy" then some (fullVersion x)
  else if k = %s"metadata" then onlyObject x
  else if k = %s"shapes" then (onlyObject x).map (mend fun _ y => some (tidyShape y))
  else some x

/-- What the reader takes the document for. -/
def tidyDoc (j : Json) : Json := mend tidyEntry (wrapInts j)

theorem wrapEntries_map (o : List (Str × Json)) : wrapEntries o = o.map fun e => (e.1, wrapInts e.2) := by
  induction o with
  | nil => rfl
  | cons e o ih => obtain ⟨k, j⟩ := e; simp [wrapEntries, wrapEntry, ih]

theorem wrapList_map (l : List Json) : wrapList l = l.map wrapInts := by
  induction l with
  | nil => rfl
  | cons e o ih => simp [wrapList, ih]

theorem get_wrap (j : Json) (k : Str) : (wrapInts j).get k = (j.get k).map wrapInts := by
  cases j with
  | object o =>
    simp only [wrapInts, Json.get, wrapEntries_map]
    rw [AMap.get_map_val (fun _ v => wrapInts v)]
  | number n => cases n <;> simp only [wrapInts] <;> (try split) <;> rfl
  | _ => rfl

theorem get_filterMap (f : Str → Json → Option Json) (o : AMap Str Json) (ho : AMap.Wf o) (k : Str) :
    AMap.get (o.filterMap fun e => (f e.1 e.2).map fun x => (e.1, x)) k = (AMap.get o k).bind (f k) := by
  induction o with
  | nil => rfl
  | cons e o ih =>
    obtain ⟨a, x⟩ := e
    have hw : AMap.Wf o := by
      simp only [AMap.Wf, AMap.keys, List.map_cons, List.nodup_cons] at ho ⊢
      exact ho.2
    have hna : AMap.get o a = none := by
      rw [← AMap.not_mem_keys_iff]
      simp only [AMap.Wf, AMap.keys, List.map_cons, List.nodup_cons] at ho ⊢
      exact ho.1
    have ih := ih hw
    simp only [List.filterMap_cons]
    cases hf : f a x with
    | none =>
      simp only [Option.map_none]
      rw [ih, AMap.get_cons]
      by_cases hk : a = k
      · subst hk; simp [hna, hf]
      · simp [hk]
    | some y =>
      simp only [Option.map_some]
      rw [AMap.get_cons, AMap.get_cons]
      by_cases hk : a = k
      · subst hk; simp [hf]
      · simp [hk, ih]

theorem get_mend (f : Str → Json → Option Json) {j : Json} (hj : WfJson j) (k : Str) :
    (mend f j).get k = (j.get k).bind (f k) := by
  cases hj with
  | object ho _ => exact get_filterMap f _ ho k
  | _ => rfl

theorem wf_mend (f : Str → Json → Option Json) {j : Json} (hj : WfJson j) (hf : ∀ k x y, WfJson x → f k x = some y → WfJson y) :
    WfJson (mend f j) := by
  cases hj with
  | object ho he =>
    rename_i o
    refine .object ?_ ?_
    · unfold AMap.Wf AMap.keys at *
      rw [List.map_filterMap]
      refine ho.sublist ?_
      clear ho he
      induction o with
      | nil => exact .slnil
      | cons e o ih =>
        obtain ⟨a, x⟩ := e
        simp only [List.filterMap_cons, List.map_cons]
        cases f a x with
        | none => simpa using ih.cons a
        | some y => simpa using ih.cons_cons a
    · intro e hm
      obtain ⟨d, hd, hde⟩ := List.mem_filterMap.mp hm
      cases hy : f d.1 d.2 with
      | none => rw [hy] at hde; cases hde
      | some y => rw [hy] at hde; cases hde; exact hf _ _ _ (he d hd) hy
  | null => exact .null
  | bool => exact .bool
  | string => exact .string
  | posInt h => exact .posInt h
  | negInt h h' => exact .negInt h h'
  | float h => exact .float h
  | array h => exact .array h

theorem wf_wrap {j : Json} (hj : WfJson j) : WfJson (wrapInts j) := by
  induction hj with
  | null => exact .null
  | bool => exact .bool
  | string => exact .string
  | posInt h =>
    rename_i n
    simp only [wrapInts]
    split
    · exact .posInt h
    · exact .negInt (by omega) (by omega)
  | negInt h h' => exact .negInt h h'
  | float h => exact .float h
  | array _ ih =>
    simp only [wrapInts, wrapList_map]
    exact .array fun j hj => by
      obtain ⟨x, hx, rfl⟩ := List.mem_map.mp hj
      exact ih x hx
  | object ho _ ih =>
    simp only [wrapInts, wrapEntries_map]
    refine .object (by unfold AMap.Wf at *; rw [AMap.keys_map_val (fun _ v => wrapInts v)]; exact ho) fun j hj => ?_
    obtain ⟨x, hx, rfl⟩ := List.mem_map.mp hj
    exact ih x hx

theorem value_wrap (j : Json) (hj : WfJson j) : JsonReader.value (wrapInts j) = JsonReader.value j := by
  induction hj with
  | null => rfl
  | bool => rfl
  | string => rfl
  | posInt h =>
    rename_i n
    simp only [wrapInts]
    split
    · rfl
    · rename_i hn
      simp only [JsonReader.value, JsonReader.number, if_neg hn]
      have : Int.bmod (n : Int) (2 ^ 64) = (n : Int) - 2 ^ 64 := by
        rw [Int.bmod_def]
        omega
      rw [this]
  | negInt h h' => rfl
  | float h => rfl
  | array _ ih =>
    rename_i l hl
    have : JsonReader.valueList (wrapList l) = JsonReader.valueList l := by
      clear hl
      induction l with
      | nil => rfl
      | cons x l ihl =>
        simp only [wrapList, JsonReader.valueList, ih x (by simp)]
        rw [ihl fun y hy => ih y (by simp [hy])]
    simp only [wrapInts, JsonReader.value, this]
  | object ho _ ih =>
    rename_i o ho'
    have : JsonReader.valueEntries (wrapEntries o) = JsonReader.valueEntries o := by
      clear ho ho'
      induction o with
      | nil => rfl
      | cons x l ihl =>
        obtain ⟨k, x⟩ := x
        simp only [wrapEntries, wrapEntry, JsonReader.valueEntries, JsonReader.valueEntry, ih (k, x) (by simp)]
        rw [ihl fun y hy => ih y (by simp [hy])]
    simp only [wrapInts, JsonReader.value, this]

theorem not_big_wrap (j : Json) : ¬ HasBigInt (wrapInts j) := by
  induction j using Json.ind with
  | null => intro h; cases h
  | bool => intro h; cases h
  | string => intro h; cases h
  | number n =>
    intro h
    cases n with
    | posInt n =>
      simp only [wrapInts] at h
      split at h
      · cases h; omega
      · cases h
    | negInt n => cases h
    | float x => cases h
  | array l ih =>
    intro h
    simp only [wrapInts, wrapList_map] at h
    cases h with
    | array hm hb =>
      obtain ⟨x, hx, rfl⟩ := List.mem_map.mp hm
      exact ih x hx hb
  | object o ih =>
    intro h
    simp only [wrapInts, wrapEntries_map] at h
    cases h with
    | object hm hb =>
      obtain ⟨x, hx, he⟩ := List.mem_map.mp hm
      cases he
      exact ih x hx hb

/-! #### Reading values with the integers wrapped -/

/-- Not a string, array or object. -/
inductive Scalar : Json → Prop
  | null : Scalar .null
  | bool {b} : Scalar (.bool b)
  | number {n} : Scalar (.number n)

inductive Wrapped : Json → Json → Prop
  | string {s} : Wrapped (.string s) (.string s)
  | array {l : List Json} : Wrapped (.array l) (.array (l.map wrapInts))
  | object {o : List (Str × Json)} : Wrapped (.object o) (.object (o.map fun e => (e.1, wrapInts e.2)))
  | scalar {x y} : Scalar x → Scalar y → Wrapped x y

theorem wrapped (x : Json) : Wrapped x (wrapInts x) := by
  cases x with
  | null => exact .scalar .null .null
  | bool => exact .scalar .bool .bool
  | string => exact .string
  | number n =>
    cases n with
    | posInt n => simp only [wrapInts]; split <;> exact .scalar .number .number
    | negInt n => exact .scalar .number .number
    | float n => exact .scalar .number .number
  | array l => simp only [wrapInts, wrapList_map]; exact .array
  | object o => simp only [wrapInts, wrapEntries_map]; exact .object

theorem mapE_congr_map {α β : Type} {f : α → Except Err β} {g : α → α} {l : List α} (h : ∀ x ∈ l, f (g x) = f x) :
    mapE f (l.map g) = mapE f l := by
  induction l with
  | nil => rfl
  | cons a l ih =>
    simp only [List.map_cons, mapE, h a (by simp)]
    rw [ih fun x hx => h x (by simp [hx])]

theorem target_wrap (j : Json) : JsonReader.target (some (wrapInts j)) = JsonReader.target (some j) := by
  have := wrapped j
  generalize wrapInts j = y at this
  cases this with
  | string => rfl
  | array => rfl
  | scalar h1 h2 => cases h1 <;> cases h2 <;> rfl
  | object =>
    rename_i o
    simp only [JsonReader.target]
    rw [AMap.get_map_val (fun _ v => wrapInts v)]
    cases AMap.get o %s"target" with
    | none => rfl
    | some x =>
      have := wrapped x
      simp only [Option.map_some]
      generalize wrapInts x = y at this
      cases this with
      | scalar h1 h2 => cases h1 <;> cases h2 <;> rfl
      | _ => rfl

theorem optionalTarget_wrap (j : Option Json) : JsonReader.optionalTarget (j.map wrapInts) = JsonReader.optionalTarget j := by
  cases j with
  | none => rfl
  | some x => simp only [Option.map_some, JsonReader.optionalTarget, target_wrap]

theorem targetList_wrap (j : Option Json) : JsonReader.targetList (j.map wrapInts) = JsonReader.targetList j := by
  cases j with
  | none => rfl
  | some x =>
    have := wrapped x
    simp only [Option.map_some]
    generalize wrapInts x = y at this
    cases this with
    | string => rfl
    | object => rfl
    | scalar h1 h2 => cases h1 <;> cases h2 <;> rfl
    | array => exact mapE_congr_map fun x _ => target_wrap x

theorem renamesHash_wrap (j : Option Json) : JsonReader.renamesHash (j.map wrapInts) = JsonReader.renamesHash j := by
  cases j with
  | none => rfl
  | some x =>
    have := wrapped x
    simp only [Option.map_some]
    generalize wrapInts x = y at this
    cases this with
    | string => rfl
    | array => rfl
    | scalar h1 h2 => cases h1 <;> cases h2 <;> rfl
    | object =>
      simp only [JsonReader.renamesHash]
      rw [mapE_congr_map]
      rintro ⟨k, x⟩ _
      unfold JsonReader.renameEntry
      have : JsonReader.stringValue (wrapInts x) = JsonReader.stringValue x := by
        have := wrapped x
        generalize wrapInts x = y at this
        cases this with
        | scalar h1 h2 => cases h1 <;> cases h2 <;> rfl
        | _ => rfl
      simp only [this]

theorem identifiersHash_wrap (j : Option Json) : JsonReader.identifiersHash (j.map wrapInts) = JsonReader.identifiersHash j := by
  cases j with
  | none => rfl
  | some x =>
    have := wrapped x
    simp only [Option.map_some]
    generalize wrapInts x = y at this
    cases this with
    | string => rfl
    | array => rfl
    | scalar h1 h2 => cases h1 <;> cases h2 <;> rfl
    | object =>
      simp only [JsonReader.identifiersHash]
      rw [mapE_congr_map]
      rintro ⟨k, x⟩ _
      simp only [JsonReader.identifierEntry, target_wrap]

theorem readTraits_wrap {j : Option Json} (hj : ∀ x, j = some x → WfJson x) : JsonReader.readTraits (j.map wrapInts) = JsonReader.readTraits j := by
  cases j with
  | none => rfl
  | some x =>
    have hx := hj x rfl
    have := wrapped x
    simp only [Option.map_some]
    generalize wrapInts x = y at this
    cases this with
    | string => rfl
    | array => rfl
    | scalar h1 h2 => cases h1 <;> cases h2 <;> rfl
    | object =>
      cases hx with
      | object ho he =>
        simp only [JsonReader.readTraits, JsonReader.traits]
        rw [mapE_congr_map]
        rintro ⟨k, x⟩ hm
        simp only [JsonReader.traitEntry, value_wrap x (he _ hm)]

theorem member_wrap {j : Option Json} (hj : ∀ x, j = some x → WfJson x) : JsonReader.member (j.map wrapInts) = JsonReader.member j := by
  cases j with
  | none => rfl
  | some x =>
    have hx := hj x rfl
    have := wrapped x
    simp only [Option.map_some]
    generalize wrapInts x = y at this
    cases this with
    | string => rfl
    | array => rfl
    | scalar h1 h2 => cases h1 <;> cases h2 <;> rfl
    | object =>
      rename_i o
      simp only [JsonReader.member]
      rw [AMap.get_map_val (fun _ v => wrapInts v), AMap.get_map_val (fun _ v => wrapInts v),
        readTraits_wrap (j := AMap.get o %s"traits") fun x h => WfJson.get (j := .object o) hx h]
      cases AMap.get o %s"target" with
      | none => rfl
      | some x =>
        have := wrapped x
        simp only [Option.map_some]
        generalize wrapInts x = y at this
        cases this with
        | scalar h1 h2 => cases h1 <;> cases h2 <;> rfl
        | _ => rfl

theorem memberEntry_wrap (k : Str) {x : Json} (hx : WfJson x) : JsonReader.memberEntry (k, wrapInts x) = JsonReader.memberEntry (k, x) := by
  have := wrapped x
  generalize wrapInts x = y at this
  cases this with
  | string => rfl
  | array => rfl
  | scalar h1 h2 => cases h1 <;> cases h2 <;> rfl
  | object =>
    rename_i o
    simp only [JsonReader.memberEntry]
    rw [AMap.get_map_val (fun _ v => wrapInts v), AMap.get_map_val (fun _ v => wrapInts v),
      readTraits_wrap (j := AMap.get o %s"traits") fun x h => WfJson.get (j := .object o) hx h]
    cases AMap.get o %s"target" with
    | none => rfl
    | some x =>
      have := wrapped x
      simp only [Option.map_some]
      generalize wrapInts x = y at this
      cases this with
      | scalar h1 h2 => cases h1 <;> cases h2 <;> rfl
      | _ => rfl

theorem members_wrap {j : Option Json} (hj : ∀ x, j = some x → WfJson x) : JsonReader.members (j.map wrapInts) = JsonReader.members j := by
  cases j with
  | none => rfl
  | some x =>
    have hx := hj x rfl
    have := wrapped x
    simp only [Option.map_some]
    generalize wrapInts x = y at this
    cases this with
    | string => rfl
    | array => rfl
    | scalar h1 h2 => cases h1 <;> cases h2 <;> rfl
    | object =>
      cases hx with
      | object ho he =>
        simp only [JsonReader.members]
        rw [mapE_congr_map]
        rintro ⟨k, x⟩ hm
        exact memberEntry_wrap k (he _ hm)

theorem shape_wrap {j : Json} (hj : WfJson j) : JsonReader.shape (wrapInts j) = JsonReader.shape j := by
  have hg : ∀ k x, j.get k = some x → WfJson x := fun k x h => WfJson.get hj h
  have hsv : JsonReader.service (wrapInts j) = JsonReader.service j := by
    unfold JsonReader.service
    simp only [get_wrap, targetList_wrap, renamesHash_wrap]
    cases j.get %s"version" with
    | none => rfl
    | some x =>
      have := wrapped x
      simp only [Option.map_some]
      generalize wrapInts x = y at this
      cases this with
      | scalar h1 h2 => cases h1 <;> cases h2 <;> rfl
      | _ => rfl
  have hop : JsonReader.operation (wrapInts j) = JsonReader.operation j := by
    unfold JsonReader.operation
    simp only [get_wrap, targetList_wrap, optionalTarget_wrap]
  have hre : JsonReader.resource (wrapInts j) = JsonReader.resource j := by
    unfold JsonReader.resource
    simp only [get_wrap, targetList_wrap, optionalTarget_wrap, identifiersHash_wrap]
  unfold JsonReader.shape
  rw [hsv, hop, hre]
  simp only [get_wrap, member_wrap (hg _), members_wrap (hg _)]
  cases j.get %s"type" with
  | none => rfl
  | some x =>
    have := wrapped x
    simp only [Option.map_some]
    generalize wrapInts x = y at this
    cases this with
    | scalar h1 h2 => cases h1 <;> cases h2 <;> rfl
    | _ => rfl

theorem shapeEntry_wrap (k : Str) {x : Json} (hx : WfJson x) : JsonReader.shapeEntry (k, wrapInts x) = JsonReader.shapeEntry (k, x) := by
  unfold JsonReader.shapeEntry
  simp only [shape_wrap hx, get_wrap, readTraits_wrap fun y h => WfJson.get hx h]

theorem model_wrap {j : Json} (hj : WfJson j) : JsonReader.model (wrapInts j) = JsonReader.model j := by
  have := wrapped j
  generalize wrapInts j = y at this
  cases this with
  | string => rfl
  | array => rfl
  | scalar h1 h2 => cases h1 <;> cases h2 <;> rfl
  | object =>
    rename_i o
    have hver : JsonReader.version (AMap.get (o.map fun e => (e.1, wrapInts e.2)) %s"smithy") = JsonReader.version (AMap.get o %s"smithy") := by
      rw [AMap.get_map_val (fun _ v => wrapInts v)]
      cases AMap.get o %s"smithy" with
      | none => rfl
      | some x =>
        have := wrapped x
        simp only [Option.map_some]
        generalize wrapInts x = y at this
        cases this with
        | scalar h1 h2 => cases h1 <;> cases h2 <;> rfl
        | _ => rfl
    have hmd : JsonReader.metadata (AMap.get (o.map fun e => (e.1, wrapInts e.2)) %s"metadata") = JsonReader.metadata (AMap.get o %s"metadata") := by
      rw [AMap.get_map_val (fun _ v => wrapInts v)]
      cases hx : AMap.get o %s"metadata" with
      | none => rfl
      | some x =>
        have hw := WfJson.get (j := .object o) hj hx
        have hval := value_wrap x hw
        have := wrapped x
        simp only [Option.map_some]
        generalize wrapInts x = y at this hval
        cases this with
        | scalar h1 h2 => cases h1 <;> cases h2 <;> rfl
        | object =>
          rename_i p
          simp only [JsonReader.metadata]
          simp only [JsonReader.value] at hval
          cases h1 : JsonReader.valueEntries p with
          | error e =>
            obtain ⟨l, hl⟩ := valueEntries_total p
            rw [hl] at h1; cases h1
          | ok l =>
            obtain ⟨l', hl'⟩ := valueEntries_total (p.map fun e => (e.1, wrapInts e.2))
            rw [h1, hl'] at hval
            simp only [Except.ok.injEq, Value.object.injEq] at hval
            rw [hl']
            simp only [hval]
        | _ => rfl
    have hss : JsonReader.shapes (AMap.get (o.map fun e => (e.1, wrapInts e.2)) %s"shapes") = JsonReader.shapes (AMap.get o %s"shapes") := by
      rw [AMap.get_map_val (fun _ v => wrapInts v)]
      cases hx : AMap.get o %s"shapes" with
      | none => rfl
      | some x =>
        have hw := WfJson.get (j := .object o) hj hx
        have := wrapped x
        simp only [Option.map_some]
        generalize wrapInts x = y at this
        cases this with
        | scalar h1 h2 => cases h1 <;> cases h2 <;> rfl
        | object =>
          cases hw with
          | object ho he =>
            simp only [JsonReader.shapes]
            rw [mapE_congr_map]
            rintro ⟨k, x⟩ hm
            exact shapeEntry_wrap k (he _ hm)
        | _ => rfl
    unfold JsonReader.model
    simp only [hver, hmd, hss]

/-! #### Reading documents without the parts that are skipped -/

theorem mend_all (f : Json → Json) (o : List (Str × Json)) :
    mend (fun _ y => some (f y)) (.object o) = .object (o.map fun e => (e.1, f e.2)) := by
  simp [mend, List.filterMap_eq_map']

theorem onlyObject_eq {x y : Json} (h : onlyObject x = some y) : y = x ∧ ∃ o, x = .object o := by
  cases x with
  | object o => cases h; exact ⟨rfl, o, rfl⟩
  | _ => cases h

theorem onlyObject_strict (j : Option Json) : ObjectOrAbsent (j.bind onlyObject) := by
  cases j with
  | none => trivial
  | some x => cases x <;> trivial

theorem readTraits_onlyObject (j : Option Json) : JsonReader.readTraits (j.bind onlyObject) = JsonReader.readTraits j := by
  cases j with
  | none => rfl
  | some x => cases x <;> rfl

theorem get_tidyMember {j : Json} (hj : WfJson j) (k : Str) :
    (tidyMember j).get k = if k = %s"traits" then (j.get k).bind onlyObject else j.get k := by
  unfold tidyMember
  rw [get_mend _ hj]
  split <;> cases j.get k <;> rfl

theorem tidyMember_object {o : AMap Str Json} : ∃ o', tidyMember (.object o) = .object o' := ⟨_, rfl⟩

theorem wf_tidyMember {j : Json} (hj : WfJson j) : WfJson (tidyMember j) := by
  refine wf_mend _ hj fun k x y hx h => ?_
  split at h
  · exact (onlyObject_eq h).1 ▸ hx
  · cases h; exact hx

theorem member_tidy {j : Json} (hj : WfJson j) : JsonReader.member (some (tidyMember j)) = JsonReader.member (some j) := by
  cases j with
  | object o =>
    obtain ⟨o', ho'⟩ := tidyMember_object (o := o)
    have h1 := get_tidyMember hj %s"target"
    have h2 := get_tidyMember hj %s"traits"
    rw [ho'] at h1 h2 ⊢
    rw [if_neg (by decide)] at h1
    rw [if_pos rfl] at h2
    simp only [Json.get] at h1 h2
    simp only [JsonReader.member, h1, h2, readTraits_onlyObject]
  | _ => rfl

theorem memberEntry_tidy (k : Str) {j : Json} (hj : WfJson j) : JsonReader.memberEntry (k, tidyMember j) = JsonReader.memberEntry (k, j) := by
  cases j with
  | object o =>
    obtain ⟨o', ho'⟩ := tidyMember_object (o := o)
    have h1 := get_tidyMember hj %s"target"
    have h2 := get_tidyMember hj %s"traits"
    rw [ho'] at h1 h2 ⊢
    rw [if_neg (by decide)] at h1
    rw [if_pos rfl] at h2
    simp only [Json.get] at h1 h2
    simp only [JsonReader.memberEntry, h1, h2, readTraits_onlyObject]
  | _ => rfl

theorem members_tidy {j : Option Json} (hj : ∀ x, j = some x → WfJson x) :
    JsonReader.members (j.bind fun x => (onlyObject x).map (mend fun _ y => some (tidyMember y))) = JsonReader.members j := by
  cases j with
  | none => rfl
  | some x =>
    cases hj x rfl with
    | object ho he =>
      simp only [Option.bind_some, onlyObject, Option.map_some, mend_all, JsonReader.members]
      rw [mapE_congr_map]
      rintro ⟨k, x⟩ hm
      exact memberEntry_tidy k (he _ hm)
    | _ => rfl

theorem get_tidyShape {j : Json} (hj : WfJson j) (k : Str) : (tidyShape j).get k =
    if k = %s"traits" then (j.get k).bind onlyObject
    else if k = %s"members" then (j.get k).bind fun x => (onlyObject x).map (mend fun _ y => some (tidyMember y))
    else if k = %s"member" ∨ k = %s"key" ∨ k = %s"value" then (j.get k).map tidyMember
    else j.get k := by
  unfold tidyShape
  rw [get_mend _ hj]
  split
  · rfl
  split
  · rfl
  split
  · cases j.get k <;> rfl
  · cases j.get k <;> rfl

theorem wf_tidyShape {j : Json} (hj : WfJson j) : WfJson (tidyShape j) := by
  refine wf_mend _ hj fun k x y hx h => ?_
  split at h
  · exact (onlyObject_eq h).1 ▸ hx
  split at h
  · cases hx with
    | object ho he =>
      cases h
      exact wf_mend _ (.object ho he) fun k x y hx h => by cases h; exact wf_tidyMember hx
    | _ => cases h
  split at h
  · cases h; exact wf_tidyMember hx
  · cases h; exact hx

theorem member_tidy' {j : Option Json} (hj : ∀ x, j = some x → WfJson x) : JsonReader.member (j.map tidyMember) = JsonReader.member j := by
  cases j with
  | none => rfl
  | some x => exact member_tidy (hj x rfl)

theorem shape_tidy {j : Json} (hj : WfJson j) : JsonReader.shape (tidyShape j) = JsonReader.shape j := by
  have hg : ∀ k x, j.get k = some x → WfJson x := fun k x h => WfJson.get hj h
  have hother : ∀ k, k ≠ %s"traits" → k ≠ %s"members" → ¬ (k = %s"member" ∨ k = %s"key" ∨ k = %s"value") → (tidyShape j).get k = j.get k := by
    intro k h1 h2 h3
    rw [get_tidyShape hj, if_neg h1, if_neg h2, if_neg h3]
  have hmem : ∀ k, k ≠ %s"traits" → k ≠ %s"members" → (k = %s"member" ∨ k = %s"key" ∨ k = %s"value") →
      (tidyShape j).get k = (j.get k).map tidyMember := by
    intro k h1 h2 h3
    rw [get_tidyShape hj, if_neg h1, if_neg h2, if_pos h3]
  have hms : (tidyShape j).get %s"members" = (j.get %s"members").bind fun x => (onlyObject x).map (mend fun _ y => some (tidyMember y)) := by
    rw [get_tidyShape hj]; rfl
  have hsv : JsonReader.service (tidyShape j) = JsonReader.service j := by
    unfold JsonReader.service
    rw [hother %s"version" (by decide) (by decide) (by decide), hother %s"operations" (by decide) (by decide) (by decide),
      hother %s"resources" (by decide) (by decide) (by decide), hother %s"rename" (by decide) (by decide) (by decide)]
  have hop : JsonReader.operation (tidyShape j) = JsonReader.operation j := by
    unfold JsonReader.operation
    rw [hother %s"input" (by decide) (by decide) (by decide), hother %s"output" (by decide) (by decide) (by decide),
      hother %s"errors" (by decide) (by decide) (by decide)]
  have hre : JsonReader.resource (tidyShape j) = JsonReader.resource j := by
    unfold JsonReader.resource
    rw [hother %s"identifiers" (by decide) (by decide) (by decide), hother %s"create" (by decide) (by decide) (by decide),
      hother %s"put" (by decide) (by decide) (by decide), hother %s"read" (by decide) (by decide) (by decide),
      hother %s"update" (by decide) (by decide) (by decide), hother %s"delete" (by decide) (by decide) (by decide),
      hother %s"list" (by decide) (by decide) (by decide), hother %s"operations" (by decide) (by decide) (by decide),
      hother %s"collectionOperations" (by decide) (by decide) (by decide), hother %s"resources" (by decide) (by decide) (by decide)]
  unfold JsonReader.shape
  rw [hsv, hop, hre, hms, hother %s"type" (by decide) (by decide) (by decide), hmem %s"member" (by decide) (by decide) (by decide),
    hmem %s"key" (by decide) (by decide) (by decide), hmem %s"value" (by decide) (by decide) (by decide)]
  simp only [members_tidy (hg _), member_tidy' (hg _)]

theorem shapeEntry_tidy (k : Str) {x : Json} (hx : WfJson x) : JsonReader.shapeEntry (k, tidyShape x) = JsonReader.shapeEntry (k, x) := by
  have ht : (tidyShape x).get %s"traits" = (x.get %s"traits").bind onlyObject := by rw [get_tidyShape hx]; rfl
  unfold JsonReader.shapeEntry
  simp only [shape_tidy hx, ht, readTraits_onlyObject]

/-- The entries of a tidy document. -/
theorem get_tidyDoc {j : Json} (hj : WfJson j) (k : Str) : (tidyDoc j).get k =
    if k = %s"smithy" then ((j.get k).map wrapInts).map fullVersion
    else if k = %s"metadata" then ((j.get k).map wrapInts).bind onlyObject
    else if k = %s"shapes" then ((j.get k).map wrapInts).bind fun x => (onlyObject x).map (mend fun _ y => some (tidyShape y))
    else (j.get k).map wrapInts := by
  unfold tidyDoc
  rw [get_mend _ (wf_wrap hj), get_wrap]
  unfold tidyEntry
  split
  · cases j.get k <;> rfl
  split
  · rfl
  split
  · rfl
  · cases j.get k <;> rfl

theorem wf_tidyDoc {j : Json} (hj : WfJson j) : WfJson (tidyDoc j) := by
  refine wf_mend _ (wf_wrap hj) fun k x y hx h => ?_
  unfold tidyEntry at h
  split at h
  · cases h
    cases x with
    | string s => simp only [fullVersion]; split <;> exact .string
    | _ => exact hx
  split at h
  · exact (onlyObject_eq h).1 ▸ hx
  split at h
  · cases hx with
    | object ho he =>
      cases h
      exact wf_mend _ (.object ho he) fun k x y hx h => by cases h; exact wf_tidyShape hx
    | _ => cases h
  · cases h; exact hx

/-- C46: the reader does with every document what it does with the tidy one. -/
theorem C46_reads_tidy (j : Json) (hj : WfJson j) : JsonReader.model (tidyDoc j) = JsonReader.model j := by
  rw [← model_wrap hj]
  have hw := wf_wrap hj
  have hver : ∀ x : Option Json, JsonReader.version (x.map fullVersion) = JsonReader.version x := by
    intro x
    cases x with
    | none => rfl
    | some x =>
      cases x with
      | string s =>
        simp only [Option.map_some, fullVersion]
        split
        · rename_i h; subst h; rfl
        · rfl
      | _ => rfl
  have hmd : ∀ x : Option Json, JsonReader.metadata (x.bind onlyObject) = JsonReader.metadata x := by
    intro x
    cases x with
    | none => rfl
    | some x => cases x <;> rfl
  have hss : ∀ x : Option Json, (∀ y, x = some y → WfJson y) →
      JsonReader.shapes (x.bind fun x => (onlyObject x).map (mend fun _ y => some (tidyShape y))) = JsonReader.shapes x := by
    intro x hx
    cases x with
    | none => rfl
    | some x =>
      cases hx x rfl with
      | object ho he =>
        simp only [Option.bind_some, onlyObject, Option.map_some, mend_all, JsonReader.shapes]
        rw [mapE_congr_map]
        rintro ⟨k, x⟩ hm
        exact shapeEntry_tidy k (he _ hm)
      | _ => rfl
  unfold tidyDoc
  generalize wrapInts j = w at hw
  cases hw with
  | object ho he =>
    rename_i o
    have hwo : WfJson (.object o) := .object ho he
    simp only [mend, JsonReader.model]
    rw [get_filterMap tidyEntry o ho, get_filterMap tidyEntry o ho, get_filterMap tidyEntry o ho]
    have h1 : (AMap.get o %s"smithy").bind (tidyEntry %s"smithy") = (AMap.get o %s"smithy").map fullVersion := by
      cases AMap.get o %s"smithy" <;> rfl
    have h2 : (AMap.get o %s"metadata").bind (tidyEntry %s"metadata") = (AMap.get o %s"metadata").bind onlyObject := by
      cases AMap.get o %s"metadata" <;> rfl
    have h3 : (AMap.get o %s"shapes").bind (tidyEntry %s"shapes") =
        (AMap.get o %s"shapes").bind fun x => (onlyObject x).map (mend fun _ y => some (tidyShape y)) := by
      cases AMap.get o %s"shapes" <;> rfl
    rw [h1, h2, h3, hver, hmd, hss (AMap.get o %s"shapes") fun y h => WfJson.get hwo h]
  | _ => rfl

theorem strict_tidyMember {j : Json} (hj : WfJson j) : ObjectOrAbsent ((tidyMember j).get %s"traits") := by
  rw [get_tidyMember hj, if_pos rfl]
  exact onlyObject_strict _

theorem strict_tidyShape {j : Json} (hj : WfJson j) : StrictShape (tidyShape j) := by
  have hg : ∀ k x, j.get k = some x → WfJson x := fun k x h => WfJson.get hj h
  have hms : (tidyShape j).get %s"members" = (j.get %s"members").bind fun x => (onlyObject x).map (mend fun _ y => some (tidyMember y)) := by
    rw [get_tidyShape hj]; rfl
  refine ⟨?_, ?_, ?_, ?_⟩
  · rw [get_tidyShape hj, if_pos rfl]
    exact onlyObject_strict _
  · intro k x hx hk
    rw [get_tidyShape hj, if_neg (by rintro rfl; revert hk; decide), if_neg (by rintro rfl; revert hk; decide), if_pos hk] at hx
    cases hy : j.get k with
    | none => rw [hy] at hx; cases hx
    | some y =>
      rw [hy] at hx; cases hx
      exact strict_tidyMember (hg k y hy)
  · rw [hms]
    cases j.get %s"members" with
    | none => trivial
    | some x => cases x <;> trivial
  · intro ms k x h hx
    rw [hms] at h
    cases hy : j.get %s"members" with
    | none => rw [hy] at h; cases h
    | some y =>
      rw [hy] at h
      have hwy := hg _ y hy
      cases hwy with
      | object ho he =>
        simp only [Option.bind_some, onlyObject, Option.map_some, mend_all, Option.some.injEq, Json.object.injEq] at h
        subst h
        rename_i o
        rw [AMap.get_map_val (fun _ v => tidyMember v)] at hx
        cases hz : AMap.get o k with
        | none => rw [hz] at hx; cases hx
        | some z =>
          rw [hz] at hx; cases hx
          exact strict_tidyMember (he _ (AMap.mem_of_get hz))
      | _ => cases h

theorem big_mend {f : Str → Json → Option Json} {j : Json} (h : HasBigInt (mend f j))
    (hf : ∀ k x y, f k x = some y → HasBigInt y → HasBigInt x) : HasBigInt j := by
  cases j with
  | object o =>
    cases h with
    | object hm hb =>
      obtain ⟨d, hd, hde⟩ := List.mem_filterMap.mp hm
      cases hy : f d.1 d.2 with
      | none => rw [hy] at hde; cases hde
      | some y =>
        rw [hy] at hde; cases hde
        exact .object (k := d.1) (j := d.2) hd (hf _ _ _ hy hb)
  | _ => exact h

theorem big_tidyMember {j : Json} (h : HasBigInt (tidyMember j)) : HasBigInt j := by
  refine big_mend h fun k x y hy hb => ?_
  split at hy
  · exact (onlyObject_eq hy).1 ▸ hb
  · cases hy; exact hb

theorem big_tidyShape {j : Json} (h : HasBigInt (tidyShape j)) : HasBigInt j := by
  refine big_mend h fun k x y hy hb => ?_
  split at hy
  · exact (onlyObject_eq hy).1 ▸ hb
  split at hy
  · cases x with
    | object o => cases hy; exact big_mend hb fun k x y hy hb => by cases hy; exact big_tidyMember hb
    | _ => cases hy
  split at hy
  · cases hy; exact big_tidyMember hb
  · cases hy; exact hb

/-- C46: what the reader takes a document for is in the strict form. -/
theorem C46_tidy_strict (j : Json) (hj : WfJson j) : WfJson (tidyDoc j) ∧ StrictDoc (tidyDoc j) := by
  have hsh : (tidyDoc j).get %s"shapes" = ((j.get %s"shapes").map wrapInts).bind fun x => (onlyObject x).map (mend fun _ y => some (tidyShape y)) := by
    rw [get_tidyDoc hj]; rfl
  refine ⟨wf_tidyDoc hj, ?_, ?_, ?_, ?_, ?_⟩
  · rw [get_tidyDoc hj, if_pos rfl]
    cases (j.get %s"smithy").map wrapInts with
    | none => exact fun h => by cases h
    | some x =>
      cases x with
      | string s =>
        simp only [Option.map_some, fullVersion]
        split
        · exact fun h => by cases h
        · rename_i hs
          intro h
          cases h
          exact hs rfl
      | _ => exact fun h => by cases h
  · rw [get_tidyDoc hj, if_neg (by decide), if_pos rfl]
    exact onlyObject_strict _
  · rw [hsh]
    cases (j.get %s"shapes").map wrapInts with
    | none => trivial
    | some x => cases x <;> trivial
  · intro ss k x h hx
    rw [hsh] at h
    cases hy : j.get %s"shapes" with
    | none => rw [hy] at h; cases h
    | some y =>
      rw [hy] at h
      have hwy := wf_wrap (WfJson.get hj hy)
      simp only [Option.map_some] at h
      generalize wrapInts y = y' at hwy h
      cases hwy with
      | object ho he =>
        simp only [Option.bind_some, onlyObject, Option.map_some, mend_all, Option.some.injEq, Json.object.injEq] at h
        subst h
        rename_i o
        rw [AMap.get_map_val (fun _ v => tidyShape v)] at hx
        cases hz : AMap.get o k with
        | none => rw [hz] at hx; cases hx
        | some z =>
          rw [hz] at hx; cases hx
          exact strict_tidyShape (he _ (AMap.mem_of_get hz))
      | _ => cases h
  · intro h
    refine not_big_wrap j (big_mend h fun k x y hy hb => ?_)
    unfold tidyEntry at hy
    split at hy
    · cases hy
      cases x with
      | string s => simp only [fullVersion] at hb; split at hb <;> cases hb
      | _ => exact hb
    split at hy
    · exact (onlyObject_eq hy).1 ▸ hb
    split at hy
    · cases x with
      | object o => cases hy; exact big_mend hb fun k x y hy hb => by cases hy; exact big_tidyShape hb
      | _ => cases hy
    · cases hy; exact hb

/-- C46 for every document: the reader accepts it exactly when the tidy document is the JSON AST of some valid model, and then
the tidy document is the AST of the model it returns. -/
theorem C46_accepts_tidy_iff (j : Json) (hj : WfJson j) :
    ((∃ m, JsonReader.model j = .ok m) ↔ ∃ m, WfModel m ∧ ValidModel m ∧ ModelOf m (tidyDoc j)) ∧
    ∀ m, JsonReader.model j = .ok m → ModelOf m (tidyDoc j) := by
  obtain ⟨h1, h2⟩ := C46_tidy_strict j hj
  rw [← C46_reads_tidy j hj]
  exact ⟨C46_accepts_iff _ h1 h2, fun m hm => C46_read_is_ast _ m h1 h2 hm⟩

theorem mend_id {f : Str → Json → Option Json} {j : Json} (h : ∀ o, j = .object o → ∀ k x, (k, x) ∈ o → f k x = some x) : mend f j = j := by
  cases j with
  | object o =>
    replace h := h o rfl
    simp only [mend, Json.object.injEq]
    induction o with
    | nil => rfl
    | cons e o ih =>
      obtain ⟨k, x⟩ := e
      rw [List.filterMap_cons_some (b := (k, x)) (by simp [h k x (by simp)]), ih fun k x hm => h k x (by simp [hm])]
  | _ => rfl

theorem wrap_id {j : Json} (h : ¬ HasBigInt j) : wrapInts j = j := by
  induction j using Json.ind with
  | null => rfl
  | bool => rfl
  | string => rfl
  | number n =>
    cases n with
    | posInt n =>
      simp only [wrapInts]
      split
      · rfl
      · rename_i hn; exact absurd (.here (by omega)) h
    | negInt n => rfl
    | float x => rfl
  | array l ih =>
    simp only [wrapInts, wrapList_map, Json.array.injEq]
    rw [List.map_congr_left (g := id) fun x hx => ih x hx fun hb => h (.array hx hb)]
    simp
  | object o ih =>
    simp only [wrapInts, wrapEntries_map, Json.object.injEq]
    rw [List.map_congr_left (g := id) fun x hx => by
      obtain ⟨k, x⟩ := x
      simp only [id, Prod.mk.injEq, true_and]
      exact ih (k, x) hx fun hb => h (.object hx hb)]
    simp

theorem onlyObject_id {x : Json} (h : ObjectOrAbsent (some x)) : onlyObject x = some x := by
  cases x <;> first | rfl | exact absurd h id

theorem tidyMember_id {j : Json} (hj : WfJson j) (h : ObjectOrAbsent (j.get %s"traits")) : tidyMember j = j := by
  refine mend_id fun o ho k x hm => ?_
  subst ho
  split
  · rename_i hk; subst hk
    cases hj with
    | object hw he =>
      simp only [Json.get] at h
      rw [AMap.get_of_mem hw hm] at h
      exact onlyObject_id h
  · rfl

theorem tidyShape_id {j : Json} (hj : WfJson j) (h : StrictShape j) : tidyShape j = j := by
  refine mend_id fun o ho k x hm => ?_
  subst ho
  cases hj with
  | object hw he =>
    have hg : (Json.object o).get k = some x := AMap.get_of_mem hw hm
    split
    · rename_i hk; subst hk
      have := h.traits
      rw [hg] at this
      exact onlyObject_id this
    split
    · rename_i hk; subst hk
      have h1 := h.members
      rw [hg] at h1
      rw [onlyObject_id h1]
      cases x with
      | object ms =>
        simp only [Option.map_some, Option.some.injEq]
        refine mend_id fun o' ho' k' x' hm' => ?_
        cases ho'
        have hwx := he _ hm
        cases hwx with
        | object hw' he' =>
          rw [tidyMember_id (he' _ hm') (h.each _ k' x' hg (AMap.get_of_mem hw' hm'))]
      | _ => exact absurd h1 id
    split
    · rename_i hk
      rw [tidyMember_id (he _ hm) (h.member k x hg hk)]
    · rfl

/-- C46: a document in the strict form is taken for what it is. -/
theorem C46_strict_is_tidy (j : Json) (hj : WfJson j) (h : StrictDoc j) : tidyDoc j = j := by
  unfold tidyDoc
  rw [wrap_id h.ints]
  refine mend_id fun o ho k x hm => ?_
  subst ho
  cases hj with
  | object hw he =>
    have hg : (Json.object o).get k = some x := AMap.get_of_mem hw hm
    unfold tidyEntry
    split
    · rename_i hk; subst hk
      have h1 := h.version
      rw [hg] at h1
      cases x with
      | string s =>
        simp only [fullVersion]
        rw [if_neg fun hs => h1 (by rw [hs])]
      | _ => rfl
    split
    · rename_i hk; subst hk
      have := h.metadata
      rw [hg] at this
      exact onlyObject_id this
    split
    · rename_i hk; subst hk
      have h1 := h.shapes
      rw [hg] at h1
      rw [onlyObject_id h1]
      cases x with
      | object ms =>
        simp only [Option.map_some, Option.some.injEq]
        refine mend_id fun o' ho' k' x' hm' => ?_
        cases ho'
        have hwx := he _ hm
        cases hwx with
        | object hw' he' =>
          rw [tidyShape_id (he' _ hm') (h.each _ k' x' hg (AMap.get_of_mem hw' hm'))]
      | _ => exact absurd h1 id
    · rfl

/-- A document that is not in the strict form, and what the reader takes it for. -/
example : tidyDoc (.object [(%s"smithy", .string %s"1"), (%s"metadata", .array []), (%s"shapes", .object [(%s"a#B",
      .object [(%s"type", .string %s"structure"), (%s"traits", .null), (%s"members", .object [(%s"m", .object [(%s"target", .string %s"a#C"),
        (%s"traits", .object [(%s"a#t", .number (.posInt (2 ^ 64 - 1)))])])])])])]) =
    .object [(%s"smithy", .string %s"1.0"), (%s"shapes", .object [(%s"a#B",
      .object [(%s"type", .string %s"structure"), (%s"members", .object [(%s"m", .object [(%s"target", .string %s"a#C"),
        (%s"traits", .object [(%s"a#t", .number (.negInt (-1)))])])])])])] := rfl

end Verif
