/-
C108 for JSON: the JSON document of a model does not depend on the order in which the maps of the model are enumerated. (`serde_json`
keeps the entries of objects sorted by key, so that the text does not depend on it either.)
-/
import Verif.JsonExact
import Verif.RdfSame

namespace Verif
namespace Spec

/-- The same JSON, up to the order of the entries of objects. -/
inductive SameJson : Json → Json → Prop
  | null : SameJson .null .null
  | bool {b} : SameJson (.bool b) (.bool b)
  | number {n} : SameJson (.number n) (.number n)
  | string {s} : SameJson (.string s) (.string s)
  | array {a b : List Json} : a.length = b.length →
      (∀ (i : Nat) (x y : Json), a[i]? = some x → b[i]? = some y → SameJson x y) → SameJson (.array a) (.array b)
  | object {a b : AMap Str Json} : (∀ k, (a.get k).isSome = (b.get k).isSome) →
      (∀ k x y, a.get k = some x → b.get k = some y → SameJson x y) → SameJson (.object a) (.object b)

/-- The entries of every object are in the order of their keys, as `serde_json` keeps them. -/
inductive SortedJson : Json → Prop
  | null : SortedJson .null
  | bool {b} : SortedJson (.bool b)
  | number {n} : SortedJson (.number n)
  | string {s} : SortedJson (.string s)
  | array {l : List Json} : (∀ j ∈ l, SortedJson j) → SortedJson (.array l)
  | object {o : AMap Str Json} : (o.map (·.1)).Pairwise (fun a b => DictLe a b ∧ a ≠ b) → (∀ e ∈ o, SortedJson e.2) → SortedJson (.object o)

end Spec
open Spec
namespace JsonWriter

/-! ### Results that correspond -/

/-- Both are values, that correspond, or both are panics. -/
inductive Out {α β : Type} (R : α → β → Prop) : Except Err α → Except Err β → Prop
  | ok {a b} : R a b → Out R (.ok a) (.ok b)
  | error : Out R (.error .panic) (.error .panic)

theorem Out.imp {α β : Type} {R S : α → β → Prop} {x : Except Err α} {y : Except Err β} (h : Out R x y) (hi : ∀ a b, R a b → S a b) : Out S x y := by
  cases h with
  | ok h => exact .ok (hi _ _ h)
  | error => exact .error

theorem Out.map {α β γ δ : Type} {R : α → β → Prop} {S : γ → δ → Prop} {x : Except Err α} {y : Except Err β} (h : Out R x y) {f : α → γ} {g : β → δ}
    (hi : ∀ a b, R a b → S (f a) (g b)) : Out S (okMap f x) (okMap g y) := by
  cases h with
  | ok h => exact .ok (hi _ _ h)
  | error => exact .error

theorem mapE_perm {α β : Type} {f : α → Except Err β} {l c : List α} (h : l.Perm c) : (∀ x ∈ l, ∀ e, f x = .error e → e = .panic) →
    Out List.Perm (mapE f l) (mapE f c) := by
  induction h with
  | nil => exact fun _ => .ok .nil
  | @cons x l c _ ih =>
    intro hp
    have h1 := ih fun y hy => hp y (by simp [hy])
    have h2 := hp x (by simp)
    simp only [mapE]
    cases hx : f x with
    | error e => rw [h2 e hx]; exact .error
    | ok y =>
      generalize mapE f l = p at h1
      generalize mapE f c = q at h1
      cases h1 with
      | ok h => exact .ok (.cons _ h)
      | error => exact .error
  | swap x y l =>
    intro hp
    have h1 := hp y (by simp)
    have h2 := hp x (by simp)
    simp only [mapE]
    cases hx : f x with
    | error e =>
      rw [h2 e hx]
      cases hy : f y with
      | error e => rw [h1 e hy]; exact .error
      | ok y => exact .error
    | ok x' =>
      cases hy : f y with
      | error e => rw [h1 e hy]; exact .error
      | ok y' =>
        cases hl : mapE f l with
        | ok l' => exact .ok (.swap ..)
        | error e =>
          obtain ⟨z, hz, he⟩ := mapE_error hl
          rw [hp z (by simp [hz]) e he]
          exact .error
  | @trans a b c p1 _ ih1 ih2 =>
    intro hp
    have h1 := ih1 hp
    have h2 := ih2 fun x hx => hp x (p1.mem_iff.mpr hx)
    generalize mapE f a = p at h1
    generalize mapE f b = q at h1 h2
    generalize mapE f c = r at h2
    cases h1 with
    | ok h => cases h2 with | ok h' => exact .ok (h.trans h')
    | error => cases h2; exact .error

theorem mapE_forall₂ {α β γ δ : Type} {R : γ → δ → Prop} {f : α → Except Err γ} {f' : β → Except Err δ} {l : List α} {l' : List β}
    (h : List.Forall₂ (fun x y => Out R (f x) (f' y)) l l') : Out (List.Forall₂ R) (mapE f l) (mapE f' l') := by
  induction h with
  | nil => exact .ok .nil
  | @cons x y l l' h1 _ ih =>
    simp only [mapE]
    generalize f x = p at h1
    generalize f' y = q at h1
    generalize mapE f l = u at ih
    generalize mapE f' l' = v at ih
    cases h1 with
    | error => exact .error
    | ok h =>
      cases ih with
      | ok h' => exact .ok (.cons h h')
      | error => exact .error

/-- Entries with the same key and the same JSON. -/
def SameField (p q : Str × Json) : Prop := p.1 = q.1 ∧ SameJson p.2 q.2

theorem forall₂_keys {l l' : List (Str × Json)} (h : List.Forall₂ SameField l l') : l.map (·.1) = l'.map (·.1) := by
  induction h with
  | nil => rfl
  | cons h1 _ ih => simp only [List.map_cons, h1.1, ih]

theorem forall₂_get {l l' : AMap Str Json} (h : List.Forall₂ SameField l l') (k : Str) : OptRel SameJson (AMap.get l k) (AMap.get l' k) := by
  induction h with
  | nil => exact .none
  | @cons x y l l' h1 _ ih =>
    obtain ⟨j, x⟩ := x
    obtain ⟨j', y⟩ := y
    obtain ⟨h1, h2⟩ := h1
    simp only at h1 h2
    subst h1
    rw [AMap.get_cons, AMap.get_cons]
    by_cases hj : j = k
    · rw [if_pos hj, if_pos hj]; exact .some h2
    · rw [if_neg hj, if_neg hj]; exact ih

theorem sameJson_object {a b : AMap Str Json} (h : ∀ k, OptRel SameJson (AMap.get a k) (AMap.get b k)) : SameJson (.object a) (.object b) := by
  refine .object (fun k => ?_) fun k x y hx hy => ?_
  · have := h k
    generalize AMap.get a k = p at this
    generalize AMap.get b k = q at this
    cases this <;> rfl
  · have := h k
    rw [hx, hy] at this
    cases this with | some h => exact h

theorem object_same {l c l' : AMap Str Json} (hp : l.Perm c) (h : List.Forall₂ SameField c l') (hw : AMap.Wf l') :
    SameJson (.object (AMap.ofList l)) (.object (AMap.ofList l')) := by
  have hk := forall₂_keys h
  have hc : AMap.Wf c := by unfold AMap.Wf AMap.keys at hw ⊢; rw [hk]; exact hw
  have hl : AMap.Wf l := by unfold AMap.Wf AMap.keys at hc ⊢; exact (hp.map _).nodup_iff.mpr hc
  rw [AMap.ofList_of_wf hl, AMap.ofList_of_wf hw]
  refine sameJson_object fun k => ?_
  have : AMap.get l k = AMap.get c k := AMap.get_perm hp hl k
  rw [this]; exact forall₂_get h k

/-- Maps with the same entries become the same objects. -/
theorem object_out {K V W : Type} [DecidableEq K] {R : V → W → Prop} {a : AMap K V} {b : AMap K W} (ha : AMap.Wf a) (hb : AMap.Wf b)
    (h : MapRel R a b) {F : K × V → Except Err (Str × Json)} {F' : K × W → Except Err (Str × Json)} (key : K → Str)
    (hk : ∀ x ∈ b, ∀ y ∈ b, key x.1 = key y.1 → x.1 = y.1) (hF' : ∀ x ∈ b, ∀ p, F' x = .ok p → p.1 = key x.1)
    (hF : ∀ k x y, AMap.get a k = some x → AMap.get b k = some y → R x y → Out SameField (F (k, x)) (F' (k, y))) :
    Out SameJson (okMap (fun js => .object (AMap.ofList js)) (mapE F a)) (okMap (fun js => .object (AMap.ofList js)) (mapE F' b)) := by
  obtain ⟨c, h1, h2⟩ := Rdf.mapRel_forall₂ ha hb h
  have hwc : AMap.Wf c := by unfold AMap.Wf AMap.keys at ha ⊢; exact (h1.map _).nodup_iff.mp ha
  have h3 : List.Forall₂ (fun x y => Out SameField (F x) (F' y)) c b := by
    refine (Rdf.forall₂_and_mem h2).imp ?_
    rintro ⟨k, x⟩ ⟨k', y⟩ ⟨hx, hy, he, hr⟩
    simp only at he hr
    subst he
    exact hF k x y (AMap.get_of_mem ha (h1.mem_iff.mpr hx)) (AMap.get_of_mem hb hy) hr
  have h4 : ∀ x ∈ a, ∀ e, F x = .error e → e = .panic := by
    intro x hx e he
    obtain ⟨y, -, hy⟩ := Rdf.forall₂_left h3 (h1.mem_iff.mp hx)
    rw [he] at hy
    generalize F' y = q at hy
    cases hy; rfl
  have h5 := mapE_perm (f := F) h1 h4
  have h6 := mapE_forall₂ h3
  generalize mapE F a = p at h5
  generalize mapE F c = q at h5 h6
  generalize hr : mapE F' b = r at h6
  cases h5 with
  | error => cases h6; exact .error
  | ok hp =>
    cases h6 with
    | @ok _ ys hf =>
      refine .ok (object_same hp hf ?_)
      have h7 := mapE_iff.mp hr
      have h8 : ys.map (·.1) = b.map fun x => key x.1 := by
        clear hf h2 h3 h4 hwc h1 hb hF h hk hp
        clear hr
        induction b generalizing ys with
        | nil => rw [listRel_nil_left h7]; rfl
        | cons x b ih =>
          obtain ⟨y, zs, rfl, hx, hr⟩ := listRel_cons_left h7
          simp only [List.map_cons]
          rw [hF' x (by simp) y hx, ih (fun x hx => hF' x (by simp [hx])) hr]
      unfold AMap.Wf AMap.keys
      rw [h8]
      refine List.Nodup.map_on ?_ (List.Nodup.of_map _ hb)
      intro x hx y hy he
      have h9 := hk x hx y hy he
      obtain ⟨k, x⟩ := x
      obtain ⟨k', y⟩ := y
      simp only at h9
      subst h9
      have e1 := AMap.get_of_mem hb hx
      have e2 := AMap.get_of_mem hb hy
      rw [e1] at e2
      cases e2; rfl

/-! ### Values -/

theorem SameJson_array {a b : List Json} (h : List.Forall₂ SameJson a b) : SameJson (.array a) (.array b) := by
  refine .array h.length_eq ?_
  induction h with
  | nil => intro i x y hx; simp at hx
  | cons h1 _ ih =>
    intro i x y hx hy
    cases i with
    | zero => simp at hx hy; subst hx hy; exact h1
    | succ i => exact ih i x y (by simpa using hx) (by simpa using hy)

theorem sameJson_refs (l : List ShapeID) : SameJson (.array (l.map fromReference)) (.array (l.map fromReference)) := by
  refine SameJson_array (List.forall₂_map_left_iff.mpr (List.forall₂_map_right_iff.mpr (List.forall₂_same.mpr fun x _ => ?_)))
  exact sameJson_object fun k => forall₂_get (.cons ⟨rfl, .string⟩ .nil) k

theorem out_number (n : Number) : Out SameJson (fromNumber n) (fromNumber n) := by
  cases n with
  | integer n => exact .ok .number
  | float x =>
    unfold fromNumber
    by_cases h : x.isFinite = true
    · simp only [h, if_true]; exact .ok .number
    · simp only [h]; exact .error

theorem fromValue_object (es : List (Str × Value)) : fromValue (.object es) = okMap (fun js => .object (AMap.ofList js)) (mapE fromEntry es) := by
  rw [fromValue, fromEntries_eq]; cases mapE fromEntry es <;> rfl

theorem fromValue_array (vs : List Value) : fromValue (.array vs) = okMap .array (mapE fromValue vs) := by
  rw [fromValue, fromValues_eq]; cases mapE fromValue vs <;> rfl

theorem fromEntry_eq (k : Str) (v : Value) : fromEntry (k, v) = okMap (fun j => (k, j)) (fromValue v) := by
  rw [fromEntry]; cases fromValue v <;> rfl

theorem okMap_key {α : Type} {k : Str} {x : Except Err α} {f : α → Json} {p : Str × Json} (h : okMap (fun j => (k, f j)) x = .ok p) : p.1 = k := by
  cases x with
  | ok a => cases h; rfl
  | error e => cases h

/-- The same values become the same JSON. -/
theorem out_value {v w : Value} (h : Same v w) : v.Wf → w.Wf → Out SameJson (fromValue v) (fromValue w) := by
  induction h with
  | none => exact fun _ _ => .ok .null
  | boolean => exact fun _ _ => .ok .bool
  | string => exact fun _ _ => .ok .string
  | number h => subst h; exact fun _ _ => out_number _
  | @array a b hl _ ih =>
    intro hv hw
    cases hv with | array hv =>
    cases hw with | array hw =>
    rw [fromValue_array, fromValue_array]
    refine (mapE_forall₂ (Rdf.vrel_forall₂ hl fun i x y hx hy => ?_)).map fun _ _ => SameJson_array
    exact ih i x y hx hy (hv x (List.mem_of_getElem? hx)) (hw y (List.mem_of_getElem? hy))
  | @object a b hk hr ih =>
    intro hv hw
    cases hv with | object ha hv =>
    cases hw with | object hb hw =>
    rw [fromValue_object, fromValue_object]
    have hm : MapRel (fun x y => x.Wf → y.Wf → Out SameJson (fromValue x) (fromValue y)) a b := by
      intro k
      have h1 := hk k
      cases hx : AMap.get a k with
      | none =>
        rw [hx] at h1
        cases hy : AMap.get b k with
        | none => exact .none
        | some y => rw [hy] at h1; cases h1
      | some x =>
        rw [hx] at h1
        cases hy : AMap.get b k with
        | none => rw [hy] at h1; cases h1
        | some y => exact .some (ih k x y hx hy)
    refine object_out ha hb hm (fun k => k) (fun x _ y _ h => h) (fun x _ p hp => ?_) fun k x y hx hy h => ?_
    · obtain ⟨k, v⟩ := x
      rw [fromEntry_eq] at hp
      exact okMap_key (f := fun j => j) hp
    · rw [fromEntry_eq, fromEntry_eq]
      exact (h (hv _ (AMap.mem_of_get hx)) (hw _ (AMap.mem_of_get hy))).map fun _ _ h => ⟨rfl, h⟩


/-! ### Traits, members, shapes -/

theorem fields_same {l l' : List (Str × Option Json)} (h : List.Forall₂ (fun p q => p.1 = q.1 ∧ OptRel SameJson p.2 q.2) l l') :
    SameJson (.object (fields l)) (.object (fields l')) := by
  have key : ∀ (m m' : AMap Str Json), (∀ k, OptRel SameJson (AMap.get m k) (AMap.get m' k)) →
      ∀ k, OptRel SameJson (AMap.get (l.foldl putField m) k) (AMap.get (l'.foldl putField m') k) := by
    induction h with
    | nil => exact fun _ _ h => h
    | @cons x y l l' h1 _ ih =>
      intro m m' hm
      obtain ⟨j, x⟩ := x
      obtain ⟨j', y⟩ := y
      obtain ⟨h1, h2⟩ := h1
      simp only at h1 h2
      subst h1
      refine ih _ _ fun k => ?_
      cases h2 with
      | none => exact hm k
      | some h2 =>
        simp only [putField]
        by_cases hj : j = k
        · subst hj; rw [AMap.get_insert_self, AMap.get_insert_self]; exact .some h2
        · rw [AMap.get_insert_ne _ _ hj, AMap.get_insert_ne _ _ hj]; exact hm k
  exact sameJson_object (key [] [] fun _ => .none)

theorem mapRel_isEmpty {K V W : Type} [DecidableEq K] {R : V → W → Prop} {a : AMap K V} {b : AMap K W} (h : MapRel R a b) : a.isEmpty = b.isEmpty := by
  cases a with
  | nil =>
    cases b with
    | nil => rfl
    | cons e b => have := h e.1; rw [AMap.get_cons, if_pos rfl, AMap.get_nil] at this; cases this
  | cons e a =>
    cases b with
    | nil => have := h e.1; rw [AMap.get_cons, if_pos rfl, AMap.get_nil] at this; cases this
    | cons e b => rfl

/-- All keys are valid. -/
def ValidKeys {V : Type} (a : AMap ShapeID V) : Prop := ∀ x ∈ a, x.1.Valid

theorem ValidKeys.inj {V : Type} {a : AMap ShapeID V} (h : ValidKeys a) : ∀ x ∈ a, ∀ y ∈ a, x.1.display = y.1.display → x.1 = y.1 :=
  fun x hx y hy he => C03_display_injective _ _ (h x hx) (h y hy) he

theorem fromTraits_eq (ts : Traits) : fromTraits ts = okMap (fun js => .object (AMap.ofList js))
    (mapE (fun e => okMap (fun j => (e.1.display, j)) (fromTraitValue e.2)) ts) := by
  unfold fromTraits; cases mapE _ ts <;> rfl

theorem out_optTraits {a b : Traits} (ha : WfTraits a) (hb : WfTraits b) (hv : ValidKeys b) (h : SameTraits a b) :
    Out (OptRel SameJson) (optTraits a) (optTraits b) := by
  unfold optTraits
  rw [mapRel_isEmpty h]
  by_cases he : b.isEmpty = true
  · rw [if_pos he, if_pos he]; exact .ok .none
  · rw [if_neg he, if_neg he]
    have : Out SameJson (fromTraits a) (fromTraits b) := by
      rw [fromTraits_eq, fromTraits_eq]
      refine object_out ha.nodup hb.nodup h ShapeID.display hv.inj (fun x _ p hp => okMap_key (f := fun j => j) hp) fun k x y hx hy h => ?_
      refine Out.map (R := SameJson) ?_ fun _ _ h => ⟨rfl, h⟩
      cases h with
      | none => exact .ok (sameJson_object fun _ => .none)
      | some h => exact out_value h (ha.values _ _ hx) (hb.values _ _ hy)
    generalize fromTraits a = p at this
    generalize fromTraits b = q at this
    cases this with
    | ok h => exact .ok (.some h)
    | error => exact .error

theorem out_member {a b : MemberShape} (ha : WfTraits a.traits) (hb : WfTraits b.traits) (hv : ValidKeys b.traits) (h : SameMemberShape a b) :
    Out SameJson (fromMember a) (fromMember b) := by
  unfold fromMember
  have := out_optTraits ha hb hv h.2.2
  generalize optTraits a.traits = p at this
  generalize optTraits b.traits = q at this
  cases this with
  | error => exact .error
  | ok ht =>
    refine .ok (fields_same (.cons ⟨rfl, ?_⟩ (.cons ⟨rfl, ht⟩ .nil)))
    rw [h.2.1]; exact .some .string

theorem mapE_map {α β γ : Type} (f : β → Except Err γ) (g : α → β) (l : List α) : mapE f (l.map g) = mapE (fun x => f (g x)) l := by
  induction l with
  | nil => rfl
  | cons x l ih => simp only [List.map_cons, mapE, ih]

theorem fromMembers_eq (ms : AMap Str MemberShape) : fromMembers (AMap.values ms) = okMap (fun js => .object (AMap.ofList js))
    (mapE (fun (e : Str × MemberShape) => okMap (fun j => (e.2.id, j)) (fromMember e.2)) ms) := by
  unfold fromMembers AMap.values
  rw [mapE_map]
  cases mapE _ ms <;> rfl

theorem out_members {a b : AMap Str MemberShape} (ha : WfMembers a) (hb : WfMembers b) (hv : ∀ e ∈ b, ValidKeys e.2.traits)
    (h : MapRel SameMemberShape a b) : Out (OptRel SameJson) (optMembers a) (optMembers b) := by
  unfold optMembers
  rw [mapRel_isEmpty h]
  by_cases he : b.isEmpty = true
  · rw [if_pos he, if_pos he]; exact .ok .none
  · rw [if_neg he, if_neg he]
    have : Out SameJson (fromMembers (AMap.values a)) (fromMembers (AMap.values b)) := by
      rw [fromMembers_eq, fromMembers_eq]
      refine object_out ha.nodup hb.nodup h (fun k => k) (fun _ _ _ _ h => h) (fun x hx p hp => ?_) fun k x y hx hy h => ?_
      · rw [okMap_key (f := fun j => j) hp]; exact hb.key _ _ (AMap.get_of_mem hb.nodup hx)
      · exact (out_member (ha.traits _ _ hx) (hb.traits _ _ hy) (hv _ (AMap.mem_of_get hy)) h).map fun _ _ h' => ⟨h.1, h'⟩
    generalize fromMembers (AMap.values a) = p at this
    generalize fromMembers (AMap.values b) = q at this
    cases this with
    | ok h => exact .ok (.some h)
    | error => exact .error

/-- A map of texts or references becomes an object in which the order does not matter. -/
theorem simple_object {K V : Type} [DecidableEq K] {a b : AMap K V} (ha : AMap.Wf a) (hb : AMap.Wf b) (h : MapRel Eq a b) (key : K → Str) (j : V → Json)
    (hj : ∀ v, SameJson (j v) (j v)) (hk : ∀ x ∈ b, ∀ y ∈ b, key x.1 = key y.1 → x.1 = y.1) :
    SameJson (.object (AMap.ofList (a.map fun e => (key e.1, j e.2)))) (.object (AMap.ofList (b.map fun e => (key e.1, j e.2)))) := by
  have hm : ∀ l : List (K × V), mapE (fun e => (.ok (key e.1, j e.2) : Except Err (Str × Json))) l = .ok (l.map fun e => (key e.1, j e.2)) := by
    intro l
    induction l with
    | nil => rfl
    | cons x l ih => simp only [mapE, ih, List.map_cons]
  have := object_out ha hb h (F := fun e => .ok (key e.1, j e.2)) (F' := fun e => .ok (key e.1, j e.2)) key hk (fun x _ p hp => by cases hp; rfl)
    (fun k x y _ _ h => by subst h; exact .ok ⟨rfl, hj x⟩)
  rw [hm, hm] at this
  cases this with | ok h => exact h

theorem sameJson_reference (id : ShapeID) : SameJson (fromReference id) (fromReference id) :=
  sameJson_object fun k => forall₂_get (.cons ⟨rfl, .string⟩ .nil) k

theorem optRefs_same (l : List ShapeID) : OptRel SameJson (optRefs l) (optRefs l) := by
  unfold optRefs
  split
  · exact .none
  · exact .some (sameJson_refs l)

theorem optRef_same (o : Option ShapeID) : OptRel SameJson (optRef o) (optRef o) := by
  cases o
  · exact .none
  · exact .some (sameJson_reference _)

theorem optRenames_same {a b : AMap ShapeID Str} (ha : AMap.Wf a) (hb : AMap.Wf b) (h : MapRel Eq a b) (hv : ValidKeys b) :
    OptRel SameJson (optRenames a) (optRenames b) := by
  unfold optRenames
  rw [mapRel_isEmpty h]
  split
  · exact .none
  · exact .some (simple_object ha hb h ShapeID.display .string (fun _ => .string) hv.inj)

theorem optIdentifiers_same {a b : AMap Str ShapeID} (ha : AMap.Wf a) (hb : AMap.Wf b) (h : MapRel Eq a b) :
    OptRel SameJson (optIdentifiers a) (optIdentifiers b) := by
  unfold optIdentifiers
  rw [mapRel_isEmpty h]
  split
  · exact .none
  · exact .some (simple_object ha hb h (fun k => k) fromReference sameJson_reference fun _ _ _ _ h => h)

/-- The keys of the traits of members, and of renamed shapes, are valid. -/
def KeysOf : ShapeKind → Prop
  | .list m | .set m => ValidKeys m.traits
  | .map k v => ValidKeys k.traits ∧ ValidKeys v.traits
  | .struct ms | .union ms => ∀ e ∈ ms, ValidKeys e.2.traits
  | .service s => ValidKeys s.renames
  | _ => True

theorem out_kind {k k' : ShapeKind} (hw : WfKind k) (hw' : WfKind k') (hv : KeysOf k') (h : SameKind k k') :
    Out (List.Forall₂ (fun p q => p.1 = q.1 ∧ OptRel SameJson p.2 q.2)) (fromKind k) (fromKind k') := by
  cases h with
  | simple => exact .ok (.cons ⟨rfl, .some .string⟩ .nil)
  | @list a b h =>
    have := out_member hw hw' hv h
    simp only [fromKind]
    generalize fromMember a = p at this
    generalize fromMember b = q at this
    cases this with
    | ok h => exact .ok (.cons ⟨rfl, .some .string⟩ (.cons ⟨rfl, .some h⟩ .nil))
    | error => exact .error
  | @set a b h =>
    have := out_member hw hw' hv h
    simp only [fromKind]
    generalize fromMember a = p at this
    generalize fromMember b = q at this
    cases this with
    | ok h => exact .ok (.cons ⟨rfl, .some .string⟩ (.cons ⟨rfl, .some h⟩ .nil))
    | error => exact .error
  | @map a c b d h h2 =>
    have h3 := out_member hw.1 hw'.1 hv.1 h
    have h4 := out_member hw.2 hw'.2 hv.2 h2
    simp only [fromKind]
    generalize fromMember a = p at h3
    generalize fromMember b = q at h3
    generalize fromMember c = r at h4
    generalize fromMember d = s at h4
    cases h3 with
    | ok h =>
      cases h4 with
      | ok h' => exact .ok (.cons ⟨rfl, .some .string⟩ (.cons ⟨rfl, .some h⟩ (.cons ⟨rfl, .some h'⟩ .nil)))
      | error => exact .error
    | error => exact .error
  | @struct a b h =>
    have := out_members hw hw' hv h
    simp only [fromKind]
    generalize optMembers a = p at this
    generalize optMembers b = q at this
    cases this with
    | ok h => exact .ok (.cons ⟨rfl, .some .string⟩ (.cons ⟨rfl, h⟩ .nil))
    | error => exact .error
  | @union a b h =>
    have := out_members hw hw' hv h
    simp only [fromKind]
    generalize optMembers a = p at this
    generalize optMembers b = q at this
    cases this with
    | ok h => exact .ok (.cons ⟨rfl, .some .string⟩ (.cons ⟨rfl, h⟩ .nil))
    | error => exact .error
  | service h =>
    exact .ok (.cons ⟨rfl, .some .string⟩ (.cons ⟨rfl, .some .string⟩ (.cons ⟨rfl, optRefs_same _⟩ (.cons ⟨rfl, optRefs_same _⟩
      (.cons ⟨rfl, optRenames_same hw hw' h hv⟩ .nil)))))
  | operation =>
    exact .ok (.cons ⟨rfl, .some .string⟩ (.cons ⟨rfl, optRef_same _⟩ (.cons ⟨rfl, optRef_same _⟩ (.cons ⟨rfl, optRefs_same _⟩ .nil))))
  | resource h =>
    exact .ok (.cons ⟨rfl, .some .string⟩ (.cons ⟨rfl, optIdentifiers_same hw hw' h⟩ (.cons ⟨rfl, optRef_same _⟩ (.cons ⟨rfl, optRef_same _⟩
      (.cons ⟨rfl, optRef_same _⟩ (.cons ⟨rfl, optRef_same _⟩ (.cons ⟨rfl, optRef_same _⟩ (.cons ⟨rfl, optRef_same _⟩ (.cons ⟨rfl, optRefs_same _⟩
      (.cons ⟨rfl, optRefs_same _⟩ (.cons ⟨rfl, optRefs_same _⟩ .nil)))))))))))
  | unresolved => exact .ok (.cons ⟨rfl, .some .string⟩ .nil)

theorem out_shape {a b : TopLevelShape} (ha : WfShape a) (hb : WfShape b) (hv : ValidKeys b.traits) (hk : KeysOf b.body) (h : SameShape a b) :
    Out SameJson (fromShape a) (fromShape b) := by
  unfold fromShape
  have h1 := out_optTraits ha.traits hb.traits hv h.traits
  have h2 := out_kind ha.body hb.body hk h.body
  generalize optTraits a.traits = p at h1
  generalize optTraits b.traits = q at h1
  generalize fromKind a.body = r at h2
  generalize fromKind b.body = s at h2
  cases h1 with
  | error => exact .error
  | ok h1 =>
    cases h2 with
    | error => exact .error
    | ok h2 => exact .ok (fields_same (.cons ⟨rfl, h1⟩ h2))

theorem fromShapes_eq (m : Model) : fromShapes m = okMap (fun js => .object (AMap.ofList js))
    (mapE (fun (e : ShapeID × TopLevelShape) => okMap (fun j => (e.2.id.display, j)) (fromShape e.2)) m.shapes) := by
  unfold fromShapes Model.shapesList AMap.values
  rw [mapE_map]
  cases mapE _ m.shapes <;> rfl

theorem validKeys_traits {ts : Traits} (hw : WfTraits ts) (hv : ValidTraits ts) : ValidKeys ts :=
  fun x hx => (hv x.1 x.2 (AMap.get_of_mem hw.nodup hx)).1

theorem keysOf_valid {k : ShapeKind} (hw : WfKind k) (hv : ValidKind k) : KeysOf k := by
  cases k with
  | list m => exact validKeys_traits hw hv.2
  | set m => exact validKeys_traits hw hv.2
  | map k v => exact ⟨validKeys_traits hw.1 hv.1.2, validKeys_traits hw.2 hv.2.2⟩
  | struct ms => exact fun e he => validKeys_traits (hw.traits _ _ (AMap.get_of_mem hw.nodup he)) (hv _ _ (AMap.get_of_mem hw.nodup he)).2.2
  | union ms => exact fun e he => validKeys_traits (hw.traits _ _ (AMap.get_of_mem hw.nodup he)) (hv _ _ (AMap.get_of_mem hw.nodup he)).2.2
  | service s => exact fun e he => (hv.2.2.2 _ _ (AMap.get_of_mem hw he)).1
  | _ => trivial

theorem out_model {a b : Model} (ha : WfModel a) (hb : WfModel b) (hvb : ValidModel b) (h : SameModel a b) :
    Out SameJson (modelToJson a) (modelToJson b) := by
  have h1 : Out (OptRel SameJson) (optMetadata a) (optMetadata b) := by
    unfold optMetadata Model.hasMetadata
    rw [mapRel_isEmpty h.metadata]
    by_cases he : (!b.metadata.isEmpty) = true
    · rw [if_pos he, if_pos he]
      have : Out SameJson (fromValue (.object a.metadata)) (fromValue (.object b.metadata)) := by
        refine out_value ?_ ?_ ?_
        · refine .object (fun k => ?_) fun k x y hx hy => ?_
          · have := h.metadata k
            generalize AMap.get a.metadata k = p at this
            generalize AMap.get b.metadata k = q at this
            cases this <;> rfl
          · have := h.metadata k
            rw [hx, hy] at this
            cases this with | some h => exact h
        · exact .object ha.metaNodup fun e he => ha.metaValues _ _ (AMap.get_of_mem ha.metaNodup he)
        · exact .object hb.metaNodup fun e he => hb.metaValues _ _ (AMap.get_of_mem hb.metaNodup he)
      rw [fromValue_object, fromValue_object, ← fromEntries_eq, ← fromEntries_eq] at this
      generalize fromEntries a.metadata = p at this
      generalize fromEntries b.metadata = q at this
      cases p <;> cases q <;> cases this
      · exact .error
      · next h => exact .ok (.some h)
    · rw [if_neg he, if_neg he]; exact .ok .none
  have h2 : Out SameJson (fromShapes a) (fromShapes b) := by
    rw [fromShapes_eq, fromShapes_eq]
    have hk : ValidKeys b.shapes := fun x hx => by
      have hx' : b.shape x.1 = some x.2 := AMap.get_of_mem hb.nodup hx
      exact (hvb x.1 x.2 hx').1
    refine object_out ha.nodup hb.nodup h.shapes ShapeID.display hk.inj (fun x hx p hp => ?_) fun k x y hx hy h' => ?_
    · rw [okMap_key (f := fun j => j) hp, hb.key x.1 x.2 (AMap.get_of_mem hb.nodup hx)]
    · have hv := hvb k y hy
      have wb := hb.shapes k y hy
      refine (out_shape (ha.shapes k x hx) wb (validKeys_traits wb.traits hv.2.1) (keysOf_valid wb.body hv.2.2) h').map fun _ _ hj => ⟨?_, hj⟩
      simp only [h'.id]
  unfold modelToJson
  generalize optMetadata a = p at h1
  generalize optMetadata b = q at h1
  generalize fromShapes a = r at h2
  generalize fromShapes b = s at h2
  cases h1 with
  | error => exact .error
  | ok h1 =>
    cases h2 with
    | error => exact .error
    | ok h2 =>
      refine .ok (fields_same (.cons ⟨rfl, ?_⟩ (.cons ⟨rfl, h1⟩ (.cons ⟨rfl, .some h2⟩ .nil))))
      rw [h.version]; exact .some .string

/-! ### Sorted objects -/

theorem sorted_same {a b : Json} (h : SameJson a b) : SortedJson a → SortedJson b → a = b := by
  induction h with
  | null => exact fun _ _ => rfl
  | bool => exact fun _ _ => rfl
  | number => exact fun _ _ => rfl
  | string => exact fun _ _ => rfl
  | @array a b hl _ ih =>
    intro ha hb
    cases ha with | array ha =>
    cases hb with | array hb =>
    refine congrArg _ (List.ext_getElem hl fun i h1 h2 => ?_)
    exact ih i _ _ (List.getElem?_eq_getElem h1) (List.getElem?_eq_getElem h2) (ha _ (List.getElem_mem h1)) (hb _ (List.getElem_mem h2))
  | @object a b hk _ ih =>
    intro ha hb
    cases ha with | object ha ha' =>
    cases hb with | object hb hb' =>
    have wa : AMap.Wf a := ha.imp fun h => h.2
    have wb : AMap.Wf b := hb.imp fun h => h.2
    have hget : ∀ k, AMap.get a k = AMap.get b k := by
      intro k
      have h1 := hk k
      cases hx : AMap.get a k with
      | none =>
        rw [hx] at h1
        cases hy : AMap.get b k with
        | none => rfl
        | some y => rw [hy] at h1; cases h1
      | some x =>
        rw [hx] at h1
        cases hy : AMap.get b k with
        | none => rw [hy] at h1; cases h1
        | some y => rw [ih k x y hx hy (ha' _ (AMap.mem_of_get hx)) (hb' _ (AMap.mem_of_get hy))]
    have hp := AMap.perm_of_get_eq wa wb hget
    refine congrArg _ (List.Perm.eq_of_pairwise (le := fun x y => strLe x.1 y.1 = true) ?_ ?_ ?_ hp)
    · intro x y hx hy h1 h2
      have := strLe_antisymm h1 h2
      obtain ⟨k, x⟩ := x
      obtain ⟨k', y⟩ := y
      simp only at this
      subst this
      have e1 := AMap.get_of_mem wa hx
      have e2 := AMap.get_of_mem wb hy
      rw [hget, e2] at e1
      cases e1; rfl
    · rw [List.pairwise_map] at ha
      exact ha.imp fun h => (strLe_iff _ _).mpr h.1
    · rw [List.pairwise_map] at hb
      exact hb.imp fun h => (strLe_iff _ _).mpr h.1

/-- **C108** The JSON document of a model does not depend on the order in which its maps are enumerated: either the same document is
made (with its objects in the order of their keys, as they are written, there is no difference at all), or both runs end in a
panic. -/
theorem C108_json (a b : Model) (ha : WfModel a) (hb : WfModel b) (hvb : ValidModel b) (h : SameModel a b) :
    (∃ j j', modelToJson a = .ok j ∧ modelToJson b = .ok j' ∧ SameJson j j') ∨
    (modelToJson a = .error .panic ∧ modelToJson b = .error .panic) := by
  have := out_model ha hb hvb h
  generalize modelToJson a = p at this
  generalize modelToJson b = q at this
  cases this with
  | ok h => exact .inl ⟨_, _, rfl, rfl, h⟩
  | error => exact .inr ⟨rfl, rfl⟩

/-- **C108** JSON documents that are the same up to the order of entries, and have their entries in the order of the keys, are equal. -/
theorem C108_json_sorted (j j' : Json) (h : SameJson j j') (hj : SortedJson j) (hj' : SortedJson j') : j = j' := sorted_same h hj hj'

/-- The documents of the example model and of the same model enumerated in the opposite order are the same. -/
example : ∃ j j', modelToJson exJsonModel = .ok j ∧ modelToJson (turned exJsonModel) = .ok j' ∧ SameJson j j' := by
  obtain ⟨h1, h2, h3⟩ := Rdf.turned_ok exJsonModel_ok.1 exJsonModel_ok.2.1
  rcases C108_json exJsonModel (turned exJsonModel) exJsonModel_ok.1 h2 h3 h1 with h | ⟨h, -⟩
  · exact h
  · obtain ⟨j, m', hj, -⟩ := C30_round_trip _ exJsonModel_ok.1 exJsonModel_ok.2.1 exJsonModel_ok.2.2.1 exJsonModel_ok.2.2.2
    rw [h] at hj; cases hj

/-- A document with its entries in the order of the keys, and the same document with them in another order. -/
example : SortedJson (.object [(%s"a", .null), (%s"b", .null)]) ∧ ¬ SortedJson (.object [(%s"b", .null), (%s"a", .null)]) ∧
    SameJson (.object [(%s"a", .null), (%s"b", .null)]) (.object [(%s"b", .null), (%s"a", .null)]) := by
  refine ⟨.object ?_ ?_, ?_, ?_⟩
  · simp only [List.map_cons, List.map_nil, List.pairwise_cons]
    refine ⟨fun x hx => ?_, by simp⟩
    rw [List.mem_singleton.mp hx]
    exact ⟨(strLe_iff _ _).mp (by decide), by decide⟩
  · intro e he
    simp at he
    rcases he with rfl | rfl <;> exact .null
  · intro h
    cases h with
    | object h =>
      have := (List.pairwise_cons.mp h).1 %s"a" (by simp)
      exact absurd ((strLe_iff _ _).mpr this.1) (by decide)
  · refine sameJson_object fun k => ?_
    rw [AMap.get_perm (.swap _ _ _) (by unfold AMap.Wf; decide)]
    simp only [AMap.get_cons, AMap.get_nil]
    split
    · exact .some .null
    · split
      · exact .some .null
      · exact .none

end JsonWriter
end Verif
