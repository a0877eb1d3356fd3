/-
Lemmas about the JSON writer and reader: generic loops, node values, traits, members.
-/
import Verif.JsonSpec
import Verif.BuilderLemmas
import Verif.IdentityProps
import Verif.TablesProps

namespace Verif
open Spec

/-! ### Loops -/

theorem mapE_iff {α β : Type} {f : α → Except Err β} {l : List α} {ys : List β} :
    mapE f l = .ok ys ↔ ListRel (fun x y => f x = .ok y) l ys := by
  induction l generalizing ys with
  | nil =>
    simp only [mapE]
    constructor
    · intro h; cases h; exact listRel_nil
    · intro h; rw [listRel_nil_left h]
  | cons x xs ih =>
    simp only [mapE]
    constructor
    · intro h
      cases hx : f x with
      | error e => simp [hx] at h
      | ok y =>
        cases hxs : mapE f xs with
        | error e => simp [hx, hxs] at h
        | ok zs =>
          simp [hx, hxs] at h
          subst h
          exact listRel_cons.mpr ⟨hx, ih.mp hxs⟩
    · intro h
      obtain ⟨y, zs, rfl, hx, hr⟩ := listRel_cons_left h
      simp [hx, ih.mpr hr]

theorem mapE_ok {α β : Type} {f : α → Except Err β} {l : List α} {R : α → β → Prop}
    (h : ∀ x ∈ l, ∃ y, f x = .ok y ∧ R x y) : ∃ ys, mapE f l = .ok ys ∧ ListRel R l ys := by
  induction l with
  | nil => exact ⟨[], rfl, listRel_nil⟩
  | cons x xs ih =>
    obtain ⟨y, hy, hr⟩ := h x (by simp)
    obtain ⟨ys, hys, hrs⟩ := ih fun z hz => h z (by simp [hz])
    exact ⟨y :: ys, by simp [mapE, hy, hys], listRel_cons.mpr ⟨hr, hrs⟩⟩

theorem mapE_error {α β : Type} {f : α → Except Err β} {l : List α} {e : Err} (h : mapE f l = .error e) :
    ∃ x ∈ l, f x = .error e := by
  induction l with
  | nil => simp [mapE] at h
  | cons x xs ih =>
    simp only [mapE] at h
    cases hx : f x with
    | error e' => simp [hx] at h; subst h; exact ⟨x, by simp, hx⟩
    | ok y =>
      cases hxs : mapE f xs with
      | error e' =>
        simp [hx, hxs] at h; subst h
        obtain ⟨z, hz, hf⟩ := ih hxs
        exact ⟨z, by simp [hz], hf⟩
      | ok zs => simp [hx, hxs] at h

theorem mapE_error_of_mem {α β : Type} {f : α → Except Err β} {l : List α} {e : Err} {x : α} (hx : x ∈ l)
    (hf : f x = .error e) : ∃ e', mapE f l = .error e' := by
  cases h : mapE f l with
  | error e' => exact ⟨e', rfl⟩
  | ok ys =>
    have := mapE_iff.mp h
    obtain ⟨i, hi⟩ := List.mem_iff_getElem?.mp hx
    have hl : i < ys.length := by
      rw [← this.1]; exact (List.getElem?_eq_some_iff.mp hi).1
    have : f x = .ok ys[i] := this.2 i x ys[i] hi (List.getElem?_eq_getElem hl)
    rw [hf] at this; cases this

theorem ListRel.mem_left {α β : Type} {R : α → β → Prop} {a : List α} {b : List β} (h : ListRel R a b) {x : α} (hx : x ∈ a) :
    ∃ y ∈ b, R x y := by
  obtain ⟨i, hi⟩ := List.mem_iff_getElem?.mp hx
  have hl : i < b.length := by rw [← h.1]; exact (List.getElem?_eq_some_iff.mp hi).1
  exact ⟨b[i], List.getElem_mem hl, h.2 i x b[i] hi (List.getElem?_eq_getElem hl)⟩

theorem ListRel.mem_right {α β : Type} {R : α → β → Prop} {a : List α} {b : List β} (h : ListRel R a b) {y : β} (hy : y ∈ b) :
    ∃ x ∈ a, R x y := by
  obtain ⟨i, hi⟩ := List.mem_iff_getElem?.mp hy
  have hl : i < a.length := by rw [h.1]; exact (List.getElem?_eq_some_iff.mp hi).1
  exact ⟨a[i], List.getElem_mem hl, h.2 i a[i] y (List.getElem?_eq_getElem hl) hi⟩

theorem ListRel.map_eq {α β γ : Type} {R : α → β → Prop} {f : α → γ} {g : β → γ} {a : List α} {b : List β} (h : ListRel R a b)
    (hfg : ∀ x y, R x y → f x = g y) : a.map f = b.map g := by
  induction a generalizing b with
  | nil => rw [listRel_nil_left h]; rfl
  | cons x xs ih =>
    obtain ⟨y, ys, rfl, hx, hr⟩ := listRel_cons_left h
    simp [hfg x y hx, ih hr]

theorem ListRel.map_right {α β γ : Type} {R : α → γ → Prop} {g : β → γ} {a : List α} {b : List β}
    (h : ListRel (fun x y => R x (g y)) a b) : ListRel R a (b.map g) := by
  induction a generalizing b with
  | nil => rw [listRel_nil_left h]; exact listRel_nil
  | cons x xs ih =>
    obtain ⟨y, ys, rfl, hx, hr⟩ := listRel_cons_left h
    exact listRel_cons.mpr ⟨hx, ih hr⟩

theorem nodup_map_inj {α β : Type} {f : α → β} {l : List α} (h : l.Nodup) (hf : ∀ x ∈ l, ∀ y ∈ l, f x = f y → x = y) :
    (l.map f).Nodup := by
  induction l with
  | nil => simp
  | cons a t ih =>
    rw [List.map_cons, List.nodup_cons]
    rw [List.nodup_cons] at h
    refine ⟨?_, ih h.2 fun x hx y hy => hf x (by simp [hx]) y (by simp [hy])⟩
    intro hm
    obtain ⟨b, hb, he⟩ := List.mem_map.mp hm
    have := hf b (by simp [hb]) a (by simp) he
    subst this; exact h.1 hb

theorem nodup_of_map {α β : Type} (f : α → β) {l : List α} (h : (l.map f).Nodup) : l.Nodup := by
  induction l with
  | nil => simp
  | cons a t ih =>
    rw [List.map_cons, List.nodup_cons] at h
    rw [List.nodup_cons]
    exact ⟨fun hm => h.1 (List.mem_map_of_mem hm), ih h.2⟩

/-- Writing a map entry by entry. -/
theorem objOf_write {K V : Type} [DecidableEq K] {name : K → Str} {R : V → Json → Prop} {m : AMap K V} (hm : AMap.Wf m)
    (hinj : ∀ a ∈ AMap.keys m, ∀ b ∈ AMap.keys m, name a = name b → a = b) {js : List (Str × Json)}
    (h : ListRel (fun (e : K × V) (e' : Str × Json) => e'.1 = name e.1 ∧ R e.2 e'.2) m js) :
    ObjOf name R m (.object (AMap.ofList js)) := by
  have hkeys : (AMap.keys m).map name = AMap.keys js := by
    unfold AMap.keys
    rw [List.map_map]
    exact ListRel.map_eq h fun x y hxy => hxy.1.symm
  have hw : AMap.Wf js := by
    unfold AMap.Wf
    rw [← hkeys]; exact nodup_map_inj hm hinj
  refine ⟨_, rfl, AMap.wf_ofList _, ?_, ?_⟩
  · intro k v hk
    rw [AMap.ofList_of_wf hw]
    obtain ⟨⟨s, w⟩, hmem, h1, h2⟩ := ListRel.mem_left h (AMap.mem_of_get hk)
    simp only at h1 h2
    subst h1
    exact ⟨w, AMap.get_of_mem hw hmem, h2⟩
  · intro s w hs
    rw [AMap.ofList_of_wf hw] at hs
    obtain ⟨⟨k, v⟩, hmem, h1, h2⟩ := ListRel.mem_right h (AMap.mem_of_get hs)
    exact ⟨k, v, AMap.get_of_mem hm hmem, h1.symm⟩

/-- Reading an object entry by entry. -/
theorem objOf_read {K V W : Type} [DecidableEq K] {name : K → Str} {R : V → Json → Prop} {S : V → W → Prop} {m : AMap K V}
    (hinj : ∀ a ∈ AMap.keys m, ∀ b ∈ AMap.keys m, name a = name b → a = b) {o : AMap Str Json}
    (h : ObjOf name R m (.object o)) {f : Str × Json → Except Err (K × W)}
    (hf : ∀ k v w, m.get k = some v → R v w → ∃ v', f (name k, w) = .ok (k, v') ∧ S v v') :
    ∃ l, mapE f o = .ok l ∧ AMap.Wf l ∧ MapRel S m l := by
  obtain ⟨o', ho, hw, h1, h2⟩ := h
  cases ho
  have key : ∀ x ∈ o, ∃ y, f x = .ok y ∧ (x.1 = name y.1 ∧ ∃ v, m.get y.1 = some v ∧ S v y.2) := by
    intro ⟨s, w⟩ hx
    obtain ⟨k, v, hk, rfl⟩ := h2 s w (AMap.get_of_mem hw hx)
    obtain ⟨w', hw', hr⟩ := h1 k v hk
    rw [AMap.get_of_mem hw hx] at hw'
    cases hw'
    obtain ⟨v', hfv, hs⟩ := hf k v w hk hr
    exact ⟨(k, v'), hfv, rfl, v, hk, hs⟩
  obtain ⟨l, hl, hrel⟩ := mapE_ok key
  have hkeys : AMap.keys o = (AMap.keys l).map name := by
    unfold AMap.keys
    rw [List.map_map]
    exact ListRel.map_eq hrel fun x y hxy => hxy.1
  have hwl : AMap.Wf l := by
    apply nodup_of_map name
    rw [← hkeys]; exact hw
  refine ⟨l, hl, hwl, ?_⟩
  intro k
  cases hk : m.get k with
  | some v =>
    obtain ⟨w, hw', hr⟩ := h1 k v hk
    obtain ⟨⟨k', v'⟩, hmem, hn, v2, hk', hs⟩ := ListRel.mem_left hrel (AMap.mem_of_get hw')
    simp only at hn hk' hs
    have : k = k' := hinj k ((AMap.mem_keys_iff _ _).mpr (by simp [hk])) k' ((AMap.mem_keys_iff _ _).mpr (by simp [hk'])) hn
    subst this
    rw [hk] at hk'; cases hk'
    rw [AMap.get_of_mem hwl hmem]
    exact .some hs
  | none =>
    cases hl' : AMap.get l k with
    | none => exact .none
    | some v' =>
      obtain ⟨x, _, _, v, hv, _⟩ := ListRel.mem_right hrel (AMap.mem_of_get hl')
      simp only at hv
      rw [hk] at hv; cases hv

/-! ### Node values -/

namespace JsonWriter

theorem fromValues_eq (vs : List Value) : fromValues vs = mapE fromValue vs := by
  induction vs with
  | nil => rfl
  | cons v vs ih =>
    simp only [fromValues, mapE, ih]
    cases fromValue v with
    | error e => rfl
    | ok j => cases mapE _ vs <;> rfl

theorem fromEntries_eq (vs : List (Str × Value)) : fromEntries vs = mapE fromEntry vs := by
  induction vs with
  | nil => rfl
  | cons v vs ih =>
    simp only [fromEntries, mapE, ih]
    cases fromEntry v with
    | error e => rfl
    | ok j => cases mapE _ vs <;> rfl

end JsonWriter

namespace JsonReader

theorem valueList_eq (vs : List Json) : valueList vs = mapE value vs := by
  induction vs with
  | nil => rfl
  | cons v vs ih =>
    simp only [valueList, mapE, ih]
    cases value v with
    | error e => rfl
    | ok j => cases mapE _ vs <;> rfl

theorem valueEntries_eq (vs : List (Str × Json)) : valueEntries vs = mapE valueEntry vs := by
  induction vs with
  | nil => rfl
  | cons v vs ih =>
    simp only [valueEntries, mapE, ih]
    cases valueEntry v with
    | error e => rfl
    | ok j => cases mapE _ vs <;> rfl

end JsonReader

theorem objOf_jsonOf {m : AMap Str Value} {j : Json} (h : ObjOf (fun k => k) JsonOf m j) : JsonOf (.object m) j := by
  obtain ⟨o, rfl, hw, h1, h2⟩ := h
  refine .object hw ?_ ?_
  · intro k
    cases hk : m.get k with
    | some v => obtain ⟨w, hw', _⟩ := h1 k v hk; simp [hw']
    | none =>
      cases ho : o.get k with
      | none => rfl
      | some w => obtain ⟨k', v, hv, rfl⟩ := h2 k w ho; rw [hk] at hv; cases hv
  · intro k x y hx hy
    obtain ⟨w, hw', hr⟩ := h1 k x hx
    rw [hy] at hw'; cases hw'; exact hr

theorem jsonOf_objOf {m : AMap Str Value} {o : AMap Str Json} (h : JsonOf (.object m) (.object o)) :
    ObjOf (fun k => k) JsonOf m (.object o) := by
  cases h with
  | object hw h1 h2 =>
    refine ⟨o, rfl, hw, ?_, ?_⟩
    · intro k v hk
      have := h1 k
      rw [hk] at this
      cases ho : o.get k with
      | none => rw [ho] at this; cases this
      | some w => exact ⟨w, rfl, h2 k v w hk ho⟩
    · intro s w hs
      have := h1 s
      rw [hs] at this
      cases hk : m.get s with
      | none => rw [hk] at this; cases this
      | some v => exact ⟨s, v, hk, rfl⟩

/-- Writing a finite value gives JSON that denotes it. -/
theorem fromValue_ok (v : Value) (hw : v.Wf) (hf : ¬ NonFinite v) : ∃ j, JsonWriter.fromValue v = .ok j ∧ JsonOf v j := by
  induction v using Value.ind with
  | array vs ih =>
    have hwv : ∀ x ∈ vs, x.Wf := by cases hw; assumption
    obtain ⟨js, hjs, hr⟩ := mapE_ok (R := JsonOf) fun x hx => ih x hx (hwv x hx) fun hn => hf (.array hx hn)
    refine ⟨.array js, by simp [JsonWriter.fromValue, JsonWriter.fromValues_eq, hjs], .array hr.1 hr.2⟩
  | object m ih =>
    have hwm : AMap.Wf m ∧ ∀ e ∈ m, e.2.Wf := by cases hw; exact ⟨‹_›, ‹_›⟩
    obtain ⟨js, hjs, hr⟩ := mapE_ok (f := JsonWriter.fromEntry) (l := m)
      (R := fun e e' => e'.1 = e.1 ∧ JsonOf e.2 e'.2) fun e he => by
        obtain ⟨j, hj, hjo⟩ := ih e he (hwm.2 e he) fun hn => hf (.object (k := e.1) he hn)
        obtain ⟨k, v⟩ := e
        exact ⟨(k, j), by simp only at hj; simp [JsonWriter.fromEntry, hj], rfl, hjo⟩
    refine ⟨.object (AMap.ofList js), by simp [JsonWriter.fromValue, JsonWriter.fromEntries_eq, hjs], objOf_jsonOf ?_⟩
    exact objOf_write hwm.1 (fun _ _ _ _ h => h) hr
  | number n =>
    cases n with
    | integer n =>
      refine ⟨_, rfl, .integer ?_⟩
      split
      · exact .negative ‹_›
      · have : n = ((n.toNat : Nat) : Int) := by omega
        rw [this]; exact .nonneg
    | float x =>
      have hx : x.isFinite = true := by
        cases h : x.isFinite with
        | true => rfl
        | false => exact absurd (.here h) hf
      exact ⟨_, by simp [JsonWriter.fromValue, JsonWriter.fromNumber, hx], .float hx⟩
  | boolean b => exact ⟨_, rfl, .boolean⟩
  | string s => exact ⟨_, rfl, .string⟩
  | none => exact ⟨_, rfl, .none⟩

/-- Writing fails only by panicking, and only on a NaN or an infinity. -/
theorem fromValue_error (v : Value) (e : Err) (h : JsonWriter.fromValue v = .error e) : e = .panic ∧ NonFinite v := by
  induction v using Value.ind with
  | array vs ih =>
    simp only [JsonWriter.fromValue, JsonWriter.fromValues_eq] at h
    cases hm : mapE JsonWriter.fromValue vs with
    | ok js => simp [hm] at h
    | error e' =>
      simp [hm] at h; subst h
      obtain ⟨x, hx, hf⟩ := mapE_error hm
      exact ⟨(ih x hx hf).1, .array hx (ih x hx hf).2⟩
  | object m ih =>
    simp only [JsonWriter.fromValue, JsonWriter.fromEntries_eq] at h
    cases hm : mapE JsonWriter.fromEntry m with
    | ok js => simp [hm] at h
    | error e' =>
      simp [hm] at h; subst h
      obtain ⟨⟨k, x⟩, hx, hf⟩ := mapE_error hm
      simp only [JsonWriter.fromEntry] at hf
      cases hx' : JsonWriter.fromValue x with
      | ok j => simp [hx'] at hf
      | error e'' =>
        simp [hx'] at hf; subst hf
        exact ⟨(ih _ hx hx').1, .object hx (ih _ hx hx').2⟩
  | number n =>
    cases n with
    | integer n => simp [JsonWriter.fromValue, JsonWriter.fromNumber] at h
    | float x =>
      simp only [JsonWriter.fromValue, JsonWriter.fromNumber] at h
      split at h
      · cases h
      · rename_i hx
        cases h; exact ⟨rfl, .here (by simpa using hx)⟩
  | boolean b => simp [JsonWriter.fromValue] at h
  | string s => simp [JsonWriter.fromValue] at h
  | none => simp [JsonWriter.fromValue] at h

theorem fromValue_panics (v : Value) (h : NonFinite v) : JsonWriter.fromValue v = .error .panic := by
  have key : ∃ e, JsonWriter.fromValue v = .error e := by
    induction h with
    | here hx => exact ⟨.panic, by simp [JsonWriter.fromValue, JsonWriter.fromNumber, hx]⟩
    | array hm _ ih =>
      obtain ⟨e, he⟩ := ih
      obtain ⟨e', he'⟩ := mapE_error_of_mem hm he
      exact ⟨e', by simp [JsonWriter.fromValue, JsonWriter.fromValues_eq, he']⟩
    | object hm _ ih =>
      obtain ⟨e, he⟩ := ih
      obtain ⟨e', he'⟩ := mapE_error_of_mem (f := JsonWriter.fromEntry) (e := e) hm (by simp only [JsonWriter.fromEntry, he])
      exact ⟨e', by simp [JsonWriter.fromValue, JsonWriter.fromEntries_eq, he']⟩
  obtain ⟨e, he⟩ := key
  rw [he, (fromValue_error v e he).1]

/-- Reading JSON that denotes a value gives that value. -/
theorem value_ok (v : Value) (hw : v.Wf) (j : Json) (h : JsonOf v j) : ∃ v', JsonReader.value j = .ok v' ∧ Same v v' := by
  induction v using Value.ind generalizing j with
  | array vs ih =>
    have hwv : ∀ x ∈ vs, x.Wf := by cases hw; assumption
    cases h with
    | array hl hr =>
      rename_i l
      have : ∀ y ∈ l, ∃ v', JsonReader.value y = .ok v' := by
        intro y hy
        obtain ⟨x, hx, hxy⟩ := ListRel.mem_right ⟨hl, hr⟩ hy
        obtain ⟨v', hv', _⟩ := ih x hx (hwv x hx) y hxy
        exact ⟨v', hv'⟩
      obtain ⟨ys, hys, hrs⟩ := mapE_ok (R := fun y v' => JsonReader.value y = .ok v') fun y hy => by
        obtain ⟨v', hv'⟩ := this y hy; exact ⟨v', hv', hv'⟩
      refine ⟨.array ys, by simp [JsonReader.value, JsonReader.valueList_eq, hys], .array (hl.trans hrs.1) ?_⟩
      intro i x z hx hz
      have hi : i < l.length := by rw [← hl]; exact (List.getElem?_eq_some_iff.mp hx).1
      have hy := hr i x l[i] hx (List.getElem?_eq_getElem hi)
      obtain ⟨v', hv', hs⟩ := ih x (List.mem_of_getElem? hx) (hwv x (List.mem_of_getElem? hx)) _ hy
      have : JsonReader.value l[i] = .ok z := hrs.2 i l[i] z (List.getElem?_eq_getElem hi) hz
      rw [hv'] at this; cases this; exact hs
  | object m ih =>
    have hwm : AMap.Wf m ∧ ∀ e ∈ m, e.2.Wf := by cases hw; exact ⟨‹_›, ‹_›⟩
    cases h with
    | object ho h1 h2 =>
      rename_i o
      obtain ⟨l, hl, hwl, hr⟩ := objOf_read (S := Same) (fun _ _ _ _ h => h) (jsonOf_objOf (.object ho h1 h2))
        (f := JsonReader.valueEntry) fun k v w hk hvw => by
          obtain ⟨v', hv', hs⟩ := ih (k, v) (AMap.mem_of_get hk) (hwm.2 _ (AMap.mem_of_get hk)) w hvw
          exact ⟨v', by simp [JsonReader.valueEntry, hv'], hs⟩
      refine ⟨.object (AMap.ofList l), by simp [JsonReader.value, JsonReader.valueEntries_eq, hl], ?_⟩
      rw [AMap.ofList_of_wf hwl]
      refine .object (fun k => (hr k).isSome_eq) ?_
      intro k x y hx hy
      have := hr k
      rw [hx, hy] at this
      cases this; assumption
  | number n =>
    cases h with
    | integer hj =>
      rename_i n j
      have hr : i64 n := by cases hw; assumption
      cases hj with
      | nonneg =>
        rename_i k
        refine ⟨.number (.integer k), ?_, Same.refl _⟩
        unfold i64 at hr
        simp only [JsonReader.value, JsonReader.number]
        rw [if_pos (by omega)]
      | negative h0 => exact ⟨_, rfl, Same.refl _⟩
    | float hx => exact ⟨_, rfl, Same.refl _⟩
  | boolean b => cases h; exact ⟨_, rfl, Same.refl _⟩
  | string s => cases h; exact ⟨_, rfl, Same.refl _⟩
  | none => cases h; exact ⟨_, rfl, Same.refl _⟩

end Verif
