/-
What the JSON reader guarantees about everything it accepts, and which errors it can report.
-/
import Verif.JsonShapes
import Verif.MergeSame

namespace Verif
open Spec

/-- Induction over nested JSON. -/
theorem Json.ind {P : Json → Prop} (null : P .null) (bool : ∀ b, P (.bool b)) (number : ∀ n, P (.number n))
    (string : ∀ s, P (.string s)) (array : ∀ vs, (∀ v ∈ vs, P v) → P (.array vs))
    (object : ∀ m : List (Str × Json), (∀ e ∈ m, P e.2) → P (.object m)) : ∀ v, P v := by
  intro v
  refine Json.rec (motive_1 := P) (motive_2 := fun vs => ∀ v ∈ vs, P v)
    (motive_3 := fun m => ∀ e ∈ m, P e.2) (motive_4 := fun e => P e.2)
    null bool number string array object ?_ ?_ ?_ ?_ ?_ v
  · simp
  · intro h t hh ht v hv
    rcases List.mem_cons.mp hv with rfl | hv
    · exact hh
    · exact ht v hv
  · simp
  · intro h t hh ht v hv
    rcases List.mem_cons.mp hv with rfl | hv
    · exact hh
    · exact ht v hv
  · intro _ _ h; exact h

/-! ### Values -/

/-- Reading a value never fails. -/
theorem value_total (j : Json) : ∃ v, JsonReader.value j = .ok v := by
  induction j using Json.ind with
  | null => exact ⟨_, rfl⟩
  | bool b => exact ⟨_, rfl⟩
  | number n => cases n <;> simp only [JsonReader.value, JsonReader.number] <;> first | exact ⟨_, rfl⟩ | (split <;> exact ⟨_, rfl⟩)
  | string s => exact ⟨_, rfl⟩
  | array l ih =>
    obtain ⟨ys, hys, _⟩ := mapE_ok (f := JsonReader.value) (R := fun _ _ => True) fun x hx => (ih x hx).imp fun v h => ⟨h, trivial⟩
    exact ⟨.array ys, by simp [JsonReader.value, JsonReader.valueList_eq, hys]⟩
  | object o ih =>
    obtain ⟨ys, hys, _⟩ := mapE_ok (f := JsonReader.valueEntry) (l := o) (R := fun _ _ => True) fun x hx => by
      obtain ⟨v, hv⟩ := ih x hx
      exact ⟨(x.1, v), by obtain ⟨k, w⟩ := x; simp only at hv; simp [JsonReader.valueEntry, hv], trivial⟩
    exact ⟨.object (AMap.ofList ys), by simp [JsonReader.value, JsonReader.valueEntries_eq, hys]⟩

theorem valueEntries_total (o : List (Str × Json)) : ∃ l, JsonReader.valueEntries o = .ok l := by
  obtain ⟨v, hv⟩ := value_total (.object o)
  simp only [JsonReader.value] at hv
  cases h : JsonReader.valueEntries o with
  | ok l => exact ⟨l, rfl⟩
  | error e => simp [h] at hv

theorem valueEntry_ok {e : Str × Json} {y : Str × Value} (h : JsonReader.valueEntry e = .ok y) :
    y.1 = e.1 ∧ JsonReader.value e.2 = .ok y.2 := by
  obtain ⟨k, j⟩ := e
  simp only [JsonReader.valueEntry] at h
  cases hj : JsonReader.value j with
  | error e => simp [hj] at h
  | ok v => simp [hj] at h; subst h; exact ⟨rfl, rfl⟩

/-- What a successful read of every entry of an object gives. -/
theorem objOf_of_mapE {K V : Type} [DecidableEq K] {name : K → Str} {R : V → Json → Prop} {o : AMap Str Json} (ho : AMap.Wf o)
    {f : Str × Json → Except Err (K × V)} {l : AMap K V} (h : mapE f o = .ok l)
    (hf : ∀ e ∈ o, ∀ y, f e = .ok y → name y.1 = e.1 ∧ R y.2 e.2) :
    AMap.Wf l ∧ ObjOf name R l (.object o) := by
  have hr := mapE_iff.mp h
  have hr' : ListRel (fun e y => name y.1 = e.1 ∧ R y.2 e.2) o l :=
    ⟨hr.1, fun i x y hx hy => hf x (List.mem_of_getElem? hx) y (hr.2 i x y hx hy)⟩
  have hkeys : AMap.keys o = (AMap.keys l).map name := by
    unfold AMap.keys
    rw [List.map_map]
    exact ListRel.map_eq hr' fun x y hxy => hxy.1.symm
  have hwl : AMap.Wf l := by
    unfold AMap.Wf at ho ⊢
    rw [hkeys] at ho
    exact nodup_of_map name ho
  refine ⟨hwl, o, rfl, ho, ?_, ?_⟩
  · intro k v hk
    obtain ⟨⟨s, w⟩, hm, hn, hR⟩ := ListRel.mem_right hr' (AMap.mem_of_get hk)
    simp only at hn hR
    exact ⟨w, by rw [hn]; exact AMap.get_of_mem ho hm, hR⟩
  · intro s w hs
    obtain ⟨⟨k, v⟩, hm, hn, hR⟩ := ListRel.mem_left hr' (AMap.mem_of_get hs)
    exact ⟨k, v, AMap.get_of_mem hwl hm, hn⟩

theorem Spec.WfJson.get {j : Json} (h : WfJson j) {k : Str} {x : Json} (hx : j.get k = some x) : WfJson x := by
  cases h with
  | object ho he => exact he (k, x) (AMap.mem_of_get hx)
  | _ => simp [Json.get] at hx

theorem Spec.HasBigInt.get {j x : Json} {k : Str} (hx : j.get k = some x) (h : HasBigInt x) : HasBigInt j := by
  cases j with
  | object o => exact .object (AMap.mem_of_get hx) h
  | _ => simp [Json.get] at hx

theorem bmod_i64 (n : Int) : i64 (Int.bmod n (2 ^ 64)) := by
  have h1 := @Int.bmod_lt n (2 ^ 64) (by decide)
  have h2 := @Int.le_bmod n (2 ^ 64) (by decide)
  unfold i64
  omega

/-- Everything the reader makes of a JSON value is a value whose numbers are in range and finite, and it is what the
JSON denotes unless an integer is out of range. -/
theorem value_spec (j : Json) (hj : WfJson j) (v : Value) (h : JsonReader.value j = .ok v) :
    v.Wf ∧ ¬ NonFinite v ∧ (¬ HasBigInt j → JsonOf v j) := by
  induction j using Json.ind generalizing v with
  | null => cases h; exact ⟨.none, by rintro ⟨⟩, fun _ => .none⟩
  | bool b => cases h; exact ⟨.boolean, by rintro ⟨⟩, fun _ => .boolean⟩
  | string s => cases h; exact ⟨.string, by rintro ⟨⟩, fun _ => .string⟩
  | number n =>
    cases hj with
    | posInt hn =>
      rename_i n
      simp only [JsonReader.value, JsonReader.number] at h
      split at h
      · rename_i hlt
        cases h
        exact ⟨.number (by unfold Number.InRange i64; omega), by rintro ⟨⟩, fun _ => .integer .nonneg⟩
      · rename_i hlt
        cases h
        exact ⟨.number (bmod_i64 _), by rintro ⟨⟩, fun hb => absurd (.here (by omega)) hb⟩
    | negInt hn hm =>
      cases h
      exact ⟨.number (by unfold Number.InRange i64; omega), by rintro ⟨⟩, fun _ => .integer (.negative hn)⟩
    | float hx =>
      cases h
      exact ⟨.number trivial, (by rintro ⟨h⟩; rw [hx] at h; cases h), fun _ => .float hx⟩
  | array l ih =>
    cases hj with
    | array hl =>
      simp only [JsonReader.value, JsonReader.valueList_eq] at h
      cases hm : mapE JsonReader.value l with
      | error e => simp [hm] at h
      | ok vs =>
        simp [hm] at h; subst h
        have hr := mapE_iff.mp hm
        have key : ∀ v ∈ vs, ∃ x ∈ l, JsonReader.value x = .ok v := fun v hv => ListRel.mem_right hr hv
        refine ⟨.array fun v hv => ?_, ?_, fun hb => .array hr.1.symm fun i x y hx hy => ?_⟩
        · obtain ⟨x, hx, hxv⟩ := key v hv
          exact (ih x hx (hl x hx) v hxv).1
        · rintro ⟨⟩
          rename_i v hn hv
          obtain ⟨x, hx, hxv⟩ := key v hv
          exact (ih x hx (hl x hx) v hxv).2.1 hn
        · have := List.mem_of_getElem? hy
          exact (ih y this (hl y this) x (hr.2 i y x hy hx)).2.2 fun h => hb (.array this h)
  | object o ih =>
    cases hj with
    | object ho he =>
      simp only [JsonReader.value, JsonReader.valueEntries_eq] at h
      cases hm : mapE JsonReader.valueEntry o with
      | error e => simp [hm] at h
      | ok l =>
        simp [hm] at h; subst h
        have key : ∀ e ∈ o, ∀ y, JsonReader.valueEntry e = .ok y → y.1 = e.1 ∧ (y.2.Wf ∧ ¬ NonFinite y.2 ∧ (¬ HasBigInt e.2 → JsonOf y.2 e.2)) := by
          intro e hm y hy
          obtain ⟨h1, h2⟩ := valueEntry_ok hy
          exact ⟨h1, ih e hm (he e hm) y.2 h2⟩
        obtain ⟨hwl, o', ho', hwo, h1, h2⟩ := objOf_of_mapE (name := fun k => k)
          (R := fun v j => v.Wf ∧ ¬ NonFinite v ∧ (¬ HasBigInt j → JsonOf v j)) ho hm key
        cases ho'
        rw [AMap.ofList_of_wf hwl]
        refine ⟨.object hwl fun ⟨k, v⟩ hv => ?_, ?_, fun hb => objOf_jsonOf ⟨o, rfl, ho, ?_, h2⟩⟩
        · obtain ⟨w, _, hw, _⟩ := h1 k v (AMap.get_of_mem hwl hv)
          exact hw
        · rintro ⟨⟩
          rename_i k v hn hv
          obtain ⟨w, _, _, hw, _⟩ := h1 k v (AMap.get_of_mem hwl hv)
          exact hw hn
        · intro k v hk
          obtain ⟨w, hw, _, _, hj⟩ := h1 k v hk
          exact ⟨w, hw, hj fun h => hb (.object (AMap.mem_of_get hw) h)⟩

/-! ### Traits -/

theorem bindE_eq_ok {α β : Type} {x : Except Err α} {f : α → Except Err β} {b : β} (h : (x >>= f) = .ok b) :
    ∃ a, x = .ok a ∧ f a = .ok b := by
  cases x with
  | error e' => simp only [bindE_error] at h; cases h
  | ok a => exact ⟨a, rfl, h⟩

/-- What holds of a trait map that was read. -/
structure GoodTraits (ts : Traits) : Prop where
  wf : WfTraits ts
  valid : ValidTraits ts
  finite : TraitsAll (fun v => ¬ NonFinite v) ts
  values : TraitsHaveValues ts

theorem goodTraits_nil : GoodTraits [] :=
  ⟨⟨AMap.wf_nil, by simp⟩, fun _ _ h => by simp at h, fun _ _ h => by simp at h, fun _ _ h => by simp at h⟩

theorem isMember_false {id : ShapeID} : id.isMember = false ↔ id.member = none := by
  unfold ShapeID.isMember; cases id.member <;> simp

theorem appendTraits_no_member (acc l ts : Traits) (h : appendTraits acc l = (ts, .ok ())) : ∀ e ∈ l, e.1.member = none := by
  induction l generalizing acc with
  | nil => simp
  | cons e l ih =>
    obtain ⟨id, v⟩ := e
    simp only [appendTraits] at h
    cases ha : applyWithValue acc id v with
    | mk acc' r =>
      cases r with
      | error e => simp [ha] at h
      | ok u =>
        simp only [ha] at h
        intro e he
        rcases List.mem_cons.mp he with rfl | he
        · unfold applyWithValue at ha
          rw [← isMember_false]
          cases hm : id.isMember with
          | false => rfl
          | true => simp [hm] at ha
        · exact ih acc' h e he

theorem traitEntry_spec {e : Str × Json} {y : ShapeID × TraitValue} (hj : WfJson e.2) (h : JsonReader.traitEntry e = .ok y) :
    y.1.display = e.1 ∧ (y.1.Valid ∧ ∃ v, y.2 = some v ∧ v.Wf ∧ ¬ NonFinite v ∧ (¬ HasBigInt e.2 → JsonOf v e.2)) := by
  unfold JsonReader.traitEntry at h
  cases h1 : ShapeID.fromStr e.1 with
  | error e' => simp [h1] at h
  | ok id =>
    cases h2 : JsonReader.value e.2 with
    | error e' => simp [h1, h2] at h
    | ok v =>
      simp [h1, h2] at h; subst h
      obtain ⟨hv, hd⟩ := ShapeID.of_fromStr h1
      exact ⟨hd, hv, v, rfl, value_spec _ hj v h2⟩

theorem readTraits_spec {j : Option Json} {ts : Traits} (hj : ∀ x, j = some x → WfJson x) (h : JsonReader.readTraits j = .ok ts) :
    GoodTraits ts ∧ (ObjectOrAbsent j → (∀ x, j = some x → ¬ HasBigInt x) → TraitsOf ts j) := by
  unfold JsonReader.readTraits at h
  split at h
  · rename_i o
    cases hj _ rfl with
    | object ho he =>
      unfold JsonReader.traits at h
      cases hm : mapE JsonReader.traitEntry o with
      | error e => simp [hm] at h
      | ok l =>
        obtain ⟨hwl, hol⟩ := objOf_of_mapE (name := ShapeID.display)
          (R := fun (y : TraitValue) w => ∃ v, y = some v ∧ v.Wf ∧ ¬ NonFinite v ∧ (¬ HasBigInt w → JsonOf v w)) ho hm
          fun e hm y hy => ⟨(traitEntry_spec (he e hm) hy).1, (traitEntry_spec (he e hm) hy).2.2⟩
        simp only [hm, AMap.ofList_of_wf hwl] at h
        split at h
        · rename_i ts' hap
          cases h
          have hnm := appendTraits_no_member _ _ _ hap
          rw [appendTraits_fresh [] l (by simpa using hwl) hnm] at hap
          simp only [List.nil_append, Prod.mk.injEq] at hap
          obtain ⟨rfl, _⟩ := hap
          obtain ⟨o', ho', _, h1, h2⟩ := hol
          cases ho'
          have hval : ∀ id v, AMap.get l id = some v → id.Valid := by
            intro id v hv
            obtain ⟨x, hx, hxy⟩ := ListRel.mem_right (mapE_iff.mp hm) (AMap.mem_of_get hv)
            exact (traitEntry_spec (he x hx) hxy).2.1
          refine ⟨⟨⟨hwl, ?_⟩, ?_, ?_, ?_⟩, fun _ hb => .inr ⟨_, rfl, _, rfl, ho, ?_, h2⟩⟩
          · intro id v hv
            obtain ⟨w, _, v', hv', hw, _⟩ := h1 id _ hv
            cases hv'; exact hw
          · intro id v hv
            exact ⟨hval id v hv, hnm _ (AMap.mem_of_get hv)⟩
          · intro id v hv
            obtain ⟨w, _, v', hv', _, hw, _⟩ := h1 id _ hv
            cases hv'; exact hw
          · intro id v hv
            obtain ⟨w, _, v', rfl, _⟩ := h1 id _ hv
            simp
          · intro id v hv
            obtain ⟨w, hw, v', rfl, _, _, hj⟩ := h1 id _ hv
            exact ⟨w, hw, hj fun hx => hb _ rfl (.object (AMap.mem_of_get hw) hx)⟩
        · cases h
  · rename_i hno
    cases h
    refine ⟨goodTraits_nil, fun hs _ => ?_⟩
    cases j with
    | none => exact .inl ⟨rfl, rfl⟩
    | some x =>
      cases x with
      | object o => exact absurd rfl (hno o)
      | _ => exact absurd hs (by simp [ObjectOrAbsent])

/-! ### Members and references -/

structure GoodMember (m : MemberShape) : Prop where
  target : m.target.Valid
  traits : GoodTraits m.traits

theorem GoodMember.validMember {m : MemberShape} (h : GoodMember m) : ValidMember m := ⟨h.target, h.traits.valid⟩

theorem member_spec {j : Option Json} {m : MemberShape} (hj : ∀ x, j = some x → WfJson x) (h : JsonReader.member j = .ok m) :
    m.id = memberMember ∧ GoodMember m ∧ ((∀ x, j = some x → ObjectOrAbsent (x.get %s"traits") ∧ ¬ HasBigInt x) →
      OptRel MemberOf (some m) j) := by
  unfold JsonReader.member at h
  split at h
  · rename_i o
    cases hj _ rfl with
    | object ho he =>
      split at h
      · rename_i t ht
        cases h1 : ShapeID.fromStr t with
        | error e => simp [h1] at h
        | ok id =>
          simp only [h1] at h
          cases h2 : JsonReader.readTraits (AMap.get o %s"traits") with
          | error e => simp [h2] at h
          | ok ts =>
            simp only [h2] at h
            cases h
            obtain ⟨hv, rfl⟩ := ShapeID.of_fromStr h1
            obtain ⟨hg, hto⟩ := readTraits_spec (fun x hx => he (_, x) (AMap.mem_of_get hx)) h2
            refine ⟨rfl, ⟨hv, hg⟩, fun hs => .some ⟨_, rfl, ho, ht, ?_⟩⟩
            exact hto (hs _ rfl).1 fun x hx hb => (hs _ rfl).2 (.object (AMap.mem_of_get hx) hb)
      · cases h
  · cases h

theorem memberEntry_spec {e : Str × Json} {m : MemberShape} (hj : WfJson e.2) (h : JsonReader.memberEntry e = .ok m) :
    m.id = e.1 ∧ IsIdentifier m.id ∧ GoodMember m ∧ (ObjectOrAbsent (e.2.get %s"traits") → ¬ HasBigInt e.2 → MemberOf m e.2) := by
  obtain ⟨k, j⟩ := e
  unfold JsonReader.memberEntry at h
  simp only at h hj ⊢
  split at h
  · rename_i o
    cases hj with
    | object ho he =>
      split at h
      · rename_i t ht
        cases h1 : ShapeID.fromStr t with
        | error e => simp [h1] at h
        | ok id =>
          simp only [h1] at h
          cases h3 : Identifier.fromStr k with
          | error e => simp [h3] at h
          | ok n =>
          simp only [h3] at h
          cases h2 : JsonReader.readTraits (AMap.get o %s"traits") with
          | error e => simp [h2] at h
          | ok ts =>
            simp only [h2] at h
            cases h
            obtain ⟨hv, rfl⟩ := ShapeID.of_fromStr h1
            obtain ⟨hg, hto⟩ := readTraits_spec (fun x hx => he (_, x) (AMap.mem_of_get hx)) h2
            have hn : n = k ∧ IsIdentifier n := by
              unfold Identifier.fromStr at h3
              split at h3
              · rename_i hi; cases h3; exact ⟨rfl, (isIdent_iff _).mp hi⟩
              · cases h3
            refine ⟨hn.1, hn.2, ⟨hv, hg⟩, fun hs hb => ⟨_, rfl, ho, ht, ?_⟩⟩
            exact hto hs fun x hx h => hb (.object (AMap.mem_of_get hx) h)
      · cases h
  · cases h

theorem mapE_okMap {α β γ : Type} {f : α → Except Err β} (g : β → γ) {l : List α} {ys : List β}
    (h : mapE f l = .ok ys) : mapE (fun x => okMap g (f x)) l = .ok (ys.map g) := by
  induction l generalizing ys with
  | nil => simp [mapE] at h; subst h; rfl
  | cons x xs ih =>
    simp only [mapE] at h ⊢
    cases hx : f x with
    | error e => simp [hx] at h
    | ok y =>
      cases hxs : mapE f xs with
      | error e => simp [hx, hxs] at h
      | ok zs =>
        simp [hx, hxs] at h; subst h
        simp [okMap_ok, ih hxs]

theorem members_spec {j : Option Json} {ms : AMap Str MemberShape} (hj : ∀ x, j = some x → WfJson x)
    (h : JsonReader.members j = .ok ms) :
    AMap.Wf ms ∧ (∀ k m, ms.get k = some m → m.id = k ∧ IsIdentifier k ∧ GoodMember m) ∧
    (ObjectOrAbsent j → (∀ o k x, j = some (.object o) → AMap.get o k = some x → ObjectOrAbsent (x.get %s"traits")) →
      (∀ x, j = some x → ¬ HasBigInt x) → MaybeObj (fun k => k) MemberOf ms j) := by
  unfold JsonReader.members at h
  split at h
  · rename_i o
    cases hj _ rfl with
    | object ho he =>
      cases hm : mapE JsonReader.memberEntry o with
      | error e => simp [hm] at h
      | ok l =>
        simp only [hm] at h
        cases h
        have hm' := mapE_okMap (fun m : MemberShape => (m.id, m)) hm
        have key : ∀ e ∈ o, ∀ y : Str × MemberShape, okMap (fun m : MemberShape => (m.id, m)) (JsonReader.memberEntry e) = .ok y →
            y.1 = e.1 ∧ y.2.id = y.1 ∧ IsIdentifier y.1 ∧ GoodMember y.2 ∧
            (ObjectOrAbsent (e.2.get %s"traits") → ¬ HasBigInt e.2 → MemberOf y.2 e.2) := by
          intro e hme y hy
          cases hx : JsonReader.memberEntry e with
          | error er => rw [hx, okMap_error] at hy; cases hy
          | ok m =>
            rw [hx, okMap_ok] at hy; cases hy
            obtain ⟨h1, h2, h3, h4⟩ := memberEntry_spec (he e hme) hx
            exact ⟨h1, rfl, h2, h3, h4⟩
        obtain ⟨hwl, hol⟩ := objOf_of_mapE (name := fun k => k)
          (R := fun m w => ObjectOrAbsent (w.get %s"traits") → ¬ HasBigInt w → MemberOf m w) ho hm'
          fun e hm y hy => ⟨(key e hm y hy).1, (key e hm y hy).2.2.2.2⟩
        rw [withMembers_eq, AMap.ofList_of_wf hwl]
        refine ⟨hwl, ?_, fun _ hs hb => .inr ⟨_, rfl, ?_⟩⟩
        · intro k m hk
          obtain ⟨x, hx, hxy⟩ := ListRel.mem_right (mapE_iff.mp hm') (AMap.mem_of_get hk)
          obtain ⟨h1, h2, h3, h4, _⟩ := key x hx _ hxy
          exact ⟨h2, h3, h4⟩
        · obtain ⟨o', ho', hw', h1, h2⟩ := hol
          cases ho'
          refine ⟨o, rfl, ho, fun k v hk => ?_, h2⟩
          obtain ⟨w, hw, hR⟩ := h1 k v hk
          exact ⟨w, hw, hR (hs _ _ _ rfl hw) fun hx => hb _ rfl (.object (AMap.mem_of_get hw) hx)⟩
  · rename_i hno
    cases h
    refine ⟨AMap.wf_nil, fun k m hk => by simp [withMembers] at hk, fun hs _ _ => ?_⟩
    cases j with
    | none => exact .inl ⟨rfl, rfl⟩
    | some x =>
      cases x with
      | object o => exact absurd rfl (hno o)
      | _ => exact absurd hs (by simp [ObjectOrAbsent])

theorem target_spec {j : Json} {id : ShapeID} (hj : WfJson j) (h : JsonReader.target (some j) = .ok id) : id.Valid ∧ RefOf id j := by
  unfold JsonReader.target at h
  split at h
  · rename_i o heq
    cases heq
    cases hj with
    | object ho he =>
      split at h
      · rename_i s hs
        obtain ⟨h1, rfl⟩ := ShapeID.of_fromStr h
        exact ⟨h1, o, rfl, ho, hs⟩
      · cases h
  · cases h

theorem optionalTarget_spec {j : Option Json} {o : Option ShapeID} (hj : ∀ x, j = some x → WfJson x)
    (h : JsonReader.optionalTarget j = .ok o) : (∀ id, o = some id → id.Valid) ∧ OptRel RefOf o j := by
  cases j with
  | none => cases h; exact ⟨by simp, .none⟩
  | some x =>
    unfold JsonReader.optionalTarget at h
    simp only at h
    cases ht : JsonReader.target (some x) with
    | error e => simp [ht] at h
    | ok id =>
      simp [ht] at h; subst h
      obtain ⟨h1, h2⟩ := target_spec (hj x rfl) ht
      exact ⟨fun id h => by cases h; exact h1, .some h2⟩

theorem targetList_spec {j : Option Json} {ids : List ShapeID} (hj : ∀ x, j = some x → WfJson x)
    (h : JsonReader.targetList j = .ok ids) : (∀ id ∈ ids, id.Valid) ∧ MaybeRefs ids j := by
  unfold JsonReader.targetList at h
  split at h
  · rename_i l
    cases hj _ rfl with
    | array hl =>
      have hr := mapE_iff.mp h
      refine ⟨fun id hid => ?_, .inr ⟨l, rfl, hr.1.symm, fun i x y hx hy => ?_⟩⟩
      · obtain ⟨x, hx, hxy⟩ := ListRel.mem_right hr hid
        exact (target_spec (hl x hx) hxy).1
      · exact (target_spec (hl y (List.mem_of_getElem? hy)) (hr.2 i y x hy hx)).2
  · cases h
  · cases h; exact ⟨by simp, .inl ⟨rfl, rfl⟩⟩

theorem identifier_spec {s n : Str} (h : Identifier.fromStr s = .ok n) : n = s ∧ IsIdentifier n := by
  unfold Identifier.fromStr at h
  split at h
  · rename_i hi; cases h; exact ⟨rfl, (isIdent_iff _).mp hi⟩
  · cases h

theorem renameEntry_spec {e : Str × Json} {y : ShapeID × Str} (h : JsonReader.renameEntry e = .ok y) :
    y.1.display = e.1 ∧ y.1.Valid ∧ IsIdentifier y.2 ∧ e.2 = .string y.2 := by
  unfold JsonReader.renameEntry at h
  cases h1 : ShapeID.fromStr e.1 with
  | error er => simp [h1] at h
  | ok k =>
    cases h2 : JsonReader.stringValue e.2 with
    | error er => simp [h1, h2] at h
    | ok s =>
      cases h3 : Identifier.fromStr s with
      | error er => simp [h1, h2, h3] at h
      | ok v =>
        simp [h1, h2, h3] at h; subst h
        obtain ⟨hv, hd⟩ := ShapeID.of_fromStr h1
        obtain ⟨rfl, hi⟩ := identifier_spec h3
        refine ⟨hd, hv, hi, ?_⟩
        unfold JsonReader.stringValue at h2
        split at h2
        · rename_i hs; cases h2; exact hs
        · cases h2

theorem renamesHash_spec {j : Option Json} {m : AMap ShapeID Str} (hj : ∀ x, j = some x → WfJson x)
    (h : JsonReader.renamesHash j = .ok m) : AMap.Wf m ∧ (∀ id n, m.get id = some n → id.Valid ∧ IsIdentifier n) ∧
      MaybeObj ShapeID.display (fun n j => j = .string n) m j := by
  unfold JsonReader.renamesHash at h
  split at h
  · rename_i o
    cases hj _ rfl with
    | object ho he =>
      cases hm : mapE JsonReader.renameEntry o with
      | error e => simp [hm] at h
      | ok l =>
        simp only [hm] at h; cases h
        obtain ⟨hwl, hol⟩ := objOf_of_mapE (name := ShapeID.display) (R := fun n j => j = .string n) ho hm
          fun e _ y hy => ⟨(renameEntry_spec hy).1, (renameEntry_spec hy).2.2.2⟩
        rw [AMap.ofList_of_wf hwl]
        refine ⟨hwl, fun id n hid => ?_, .inr ⟨_, rfl, hol⟩⟩
        obtain ⟨x, hx, hxy⟩ := ListRel.mem_right (mapE_iff.mp hm) (AMap.mem_of_get hid)
        exact ⟨(renameEntry_spec hxy).2.1, (renameEntry_spec hxy).2.2.1⟩
  · cases h
  · cases h; exact ⟨AMap.wf_nil, by simp, .inl ⟨rfl, rfl⟩⟩

theorem identifierEntry_spec {e : Str × Json} {y : Str × ShapeID} (hj : WfJson e.2) (h : JsonReader.identifierEntry e = .ok y) :
    y.1 = e.1 ∧ IsIdentifier y.1 ∧ y.2.Valid ∧ RefOf y.2 e.2 := by
  unfold JsonReader.identifierEntry at h
  cases h1 : Identifier.fromStr e.1 with
  | error er => simp [h1] at h
  | ok k =>
    cases h2 : JsonReader.target (some e.2) with
    | error er => simp [h1, h2] at h
    | ok v =>
      simp [h1, h2] at h; subst h
      obtain ⟨hk, hi⟩ := identifier_spec h1
      obtain ⟨hv, hr⟩ := target_spec hj h2
      exact ⟨hk, hi, hv, hr⟩

theorem identifiersHash_spec {j : Option Json} {m : AMap Str ShapeID} (hj : ∀ x, j = some x → WfJson x)
    (h : JsonReader.identifiersHash j = .ok m) : AMap.Wf m ∧ (∀ n id, m.get n = some id → IsIdentifier n ∧ id.Valid) ∧
      MaybeObj (fun k => k) RefOf m j := by
  unfold JsonReader.identifiersHash at h
  split at h
  · rename_i o
    cases hj _ rfl with
    | object ho he =>
      cases hm : mapE JsonReader.identifierEntry o with
      | error e => simp [hm] at h
      | ok l =>
        simp only [hm] at h; cases h
        obtain ⟨hwl, hol⟩ := objOf_of_mapE (name := fun k => k) (R := RefOf) ho hm
          fun e hm y hy => ⟨(identifierEntry_spec (he e hm) hy).1, (identifierEntry_spec (he e hm) hy).2.2.2⟩
        rw [AMap.ofList_of_wf hwl]
        refine ⟨hwl, fun n id hid => ?_, .inr ⟨_, rfl, hol⟩⟩
        obtain ⟨x, hx, hxy⟩ := ListRel.mem_right (mapE_iff.mp hm) (AMap.mem_of_get hid)
        exact ⟨(identifierEntry_spec (he x hx) hxy).2.1, (identifierEntry_spec (he x hx) hxy).2.2.1⟩
  · cases h
  · cases h; exact ⟨AMap.wf_nil, by simp, .inl ⟨rfl, rfl⟩⟩

end Verif
