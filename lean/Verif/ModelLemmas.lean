/-
Lemmas about shapes and models.
-/
import Verif.MergeSpec
import Verif.ValuesLemmas
import Verif.KFold
import Verif.IdentityLemmas

namespace Verif
open Spec

/-! ### Relations -/

section optrel
variable {α β γ : Type}

theorem Spec.OptRel.iff_cases {R : α → β → Prop} {a : Option α} {b : Option β} :
    OptRel R a b ↔ (a = none ∧ b = none) ∨ ∃ x y, a = some x ∧ b = some y ∧ R x y := by
  constructor
  · rintro (_ | h)
    · exact .inl ⟨rfl, rfl⟩
    · exact .inr ⟨_, _, rfl, rfl, h⟩
  · rintro (⟨rfl, rfl⟩ | ⟨x, y, rfl, rfl, h⟩)
    · exact .none
    · exact .some h

theorem Spec.OptRel.refl {R : α → α → Prop} (h : ∀ a, R a a) (o : Option α) : OptRel R o o := by
  cases o with
  | none => exact .none
  | some a => exact .some (h a)

theorem Spec.OptRel.symm {R : α → β → Prop} {S : β → α → Prop} (h : ∀ a b, R a b → S b a) {a : Option α} {b : Option β}
    (hr : OptRel R a b) : OptRel S b a := by
  cases hr with
  | none => exact .none
  | some hr => exact .some (h _ _ hr)

theorem Spec.OptRel.trans {R : α → β → Prop} {S : β → γ → Prop} {T : α → γ → Prop} (h : ∀ a b c, R a b → S b c → T a c)
    {a : Option α} {b : Option β} {c : Option γ} (hr : OptRel R a b) (hs : OptRel S b c) : OptRel T a c := by
  cases hr with
  | none => cases hs; exact .none
  | some hr => cases hs with | some hs => exact .some (h _ _ _ hr hs)

theorem Spec.OptRel.mono {R S : α → β → Prop} (h : ∀ a b, R a b → S a b) {a : Option α} {b : Option β} (hr : OptRel R a b) :
    OptRel S a b := by
  cases hr with
  | none => exact .none
  | some hr => exact .some (h _ _ hr)

theorem Spec.OptRel.isSome_eq {R : α → β → Prop} {a : Option α} {b : Option β} (h : OptRel R a b) : a.isSome = b.isSome := by
  cases h <;> rfl

theorem Spec.OptRel.eq_iff {a b : Option α} : OptRel Eq a b ↔ a = b := by
  constructor
  · rintro (_ | rfl) <;> rfl
  · rintro rfl; exact OptRel.refl (fun _ => rfl) a

theorem Spec.OptRel.none_left {R : α → β → Prop} {b : Option β} : OptRel R none b ↔ b = none :=
  ⟨by rintro ⟨⟩; rfl, by rintro rfl; exact .none⟩

theorem Spec.OptRel.some_left {R : α → β → Prop} {a : α} {b : Option β} (h : OptRel R (some a) b) : ∃ b', b = some b' ∧ R a b' := by
  cases h with | some h => exact ⟨_, rfl, h⟩

theorem Spec.OptRel.some_right {R : α → β → Prop} {b : β} {a : Option α} (h : OptRel R a (some b)) : ∃ a', a = some a' ∧ R a' b := by
  cases h with | some h => exact ⟨_, rfl, h⟩

end optrel

theorem Spec.ListRel.iff_nil_cons {α β : Type} {R : α → β → Prop} {x : α} {y : β} {xs : List α} {ys : List β} :
    ListRel R (x :: xs) (y :: ys) ↔ R x y ∧ ListRel R xs ys := by
  constructor
  · rintro ⟨hl, h⟩
    refine ⟨h 0 x y rfl rfl, by simpa using hl, fun i a b ha hb => h (i + 1) a b (by simpa using ha) (by simpa using hb)⟩
  · rintro ⟨h0, hl, h⟩
    refine ⟨by simpa using hl, fun i a b ha hb => ?_⟩
    cases i with
    | zero => simp at ha hb; subst ha; subst hb; exact h0
    | succ i => exact h i a b (by simpa using ha) (by simpa using hb)

theorem Spec.ListRel.nil {α β : Type} {R : α → β → Prop} : ListRel R ([] : List α) ([] : List β) := by simp [ListRel]

theorem Spec.ListRel.refl {α : Type} {R : α → α → Prop} (h : ∀ a, R a a) (l : List α) : ListRel R l l :=
  ⟨rfl, fun i x y hx hy => by rw [hx] at hy; injection hy with hy; subst hy; exact h x⟩

theorem Spec.ListRel.symm {α β : Type} {R : α → β → Prop} {S : β → α → Prop} (h : ∀ a b, R a b → S b a) {a : List α} {b : List β}
    (hr : ListRel R a b) : ListRel S b a :=
  ⟨hr.1.symm, fun i x y hx hy => h _ _ (hr.2 i y x hy hx)⟩

theorem Spec.ListRel.trans {α β γ : Type} {R : α → β → Prop} {S : β → γ → Prop} {T : α → γ → Prop}
    (h : ∀ a b c, R a b → S b c → T a c)
    {a : List α} {b : List β} {c : List γ} (hr : ListRel R a b) (hs : ListRel S b c) : ListRel T a c := by
  refine ⟨hr.1.trans hs.1, fun i x z hx hz => ?_⟩
  have hi : i < b.length := by
    obtain ⟨h, _⟩ := List.getElem?_eq_some_iff.mp hx
    have := hr.1
    omega
  exact h _ b[i] _ (hr.2 i x b[i] hx (by simp [hi])) (hs.2 i b[i] z (by simp [hi]) hz)

theorem vecEq_iff {α : Type} {eq : α → α → Bool} {a b : List α} :
    vecEq eq a b = true ↔ ListRel (fun x y => eq x y = true) a b := by
  induction a generalizing b with
  | nil => cases b <;> simp [vecEq, ListRel]
  | cons x xs ih =>
    cases b with
    | nil => simp [vecEq, ListRel]
    | cons y ys => rw [ListRel.iff_nil_cons, ← ih]; simp [vecEq]

theorem optEq_iff {α : Type} {eq : α → α → Bool} {a b : Option α} :
    optEq eq a b = true ↔ OptRel (fun x y => eq x y = true) a b := by
  rw [OptRel.iff_cases]
  cases a <;> cases b <;> simp [optEq]

section maps
variable {K : Type} [DecidableEq K] {V W X : Type}

theorem Spec.MapRel.refl {R : V → V → Prop} (h : ∀ a, R a a) (m : AMap K V) : MapRel R m m := fun _ => OptRel.refl h _
theorem Spec.MapRel.symm {R : V → W → Prop} {S : W → V → Prop} (h : ∀ a b, R a b → S b a) {a : AMap K V} {b : AMap K W}
    (hr : MapRel R a b) : MapRel S b a := fun k => OptRel.symm h (hr k)
theorem Spec.MapRel.trans {R : V → W → Prop} {S : W → X → Prop} {T : V → X → Prop} (h : ∀ a b c, R a b → S b c → T a c)
    {a : AMap K V} {b : AMap K W} {c : AMap K X} (hr : MapRel R a b) (hs : MapRel S b c) : MapRel T a c :=
  fun k => OptRel.trans h (hr k) (hs k)
theorem Spec.MapRel.mono {R S : V → W → Prop} (h : ∀ a b, R a b → S a b) {a : AMap K V} {b : AMap K W} (hr : MapRel R a b) :
    MapRel S a b := fun k => OptRel.mono h (hr k)

/-- `MapRel` where the implication between value relations may use that the values are in the maps. -/
theorem Spec.MapRel.mono' {R S : V → W → Prop} {a : AMap K V} {b : AMap K W}
    (h : ∀ k x y, a.get k = some x → b.get k = some y → R x y → S x y) (hr : MapRel R a b) : MapRel S a b := by
  intro k
  have := hr k
  rw [OptRel.iff_cases] at this ⊢
  rcases this with h' | ⟨x, y, hx, hy, hxy⟩
  · exact .inl h'
  · exact .inr ⟨x, y, hx, hy, h k x y hx hy hxy⟩

theorem Spec.MapRel.of_perm {a b : AMap K V} (ha : AMap.Wf a) (hp : a.Perm b) : MapRel Eq a b := by
  intro k; rw [AMap.get_perm hp ha]; exact OptRel.eq_iff.mpr rfl

theorem Spec.MapRel.nil {R : V → W → Prop} : MapRel R ([] : AMap K V) ([] : AMap K W) := fun _ => .none

theorem hmEq_iff {eq : V → V → Bool} {a b : AMap K V} (ha : AMap.Wf a) (hb : AMap.Wf b) :
    hmEq eq a b = true ↔ MapRel (fun x y => eq x y = true) a b := by
  simp only [hmEq, Bool.and_eq_true, beq_iff_eq, List.all_eq_true]
  constructor
  · rintro ⟨hl, h⟩
    have h' : ∀ k v, AMap.get a k = some v → ∃ w, AMap.get b k = some w ∧ eq v w = true := by
      intro k v hk
      have := h _ (AMap.mem_of_get hk)
      simp only at this
      cases hw : AMap.get b k with
      | none => simp [hw] at this
      | some w => rw [hw] at this; exact ⟨w, rfl, this⟩
    have hk := AMap.keys_eq_of_subset ha hl (b := b) (by
      intro k hk
      rw [AMap.mem_keys_iff, Option.isSome_iff_exists] at hk
      obtain ⟨v, hv⟩ := hk
      obtain ⟨w, hw, _⟩ := h' k v hv
      rw [AMap.mem_keys_iff, hw]; rfl)
    intro k
    cases hv : AMap.get a k with
    | none =>
      have : k ∉ AMap.keys b := by rw [← hk k, AMap.not_mem_keys_iff, hv]
      rw [AMap.not_mem_keys_iff] at this
      rw [this]; exact .none
    | some v =>
      obtain ⟨w, hw, he⟩ := h' k v hv
      rw [hw]; exact .some he
  · intro h
    refine ⟨AMap.length_eq_of_keys ha hb fun k => by rw [AMap.mem_keys_iff, AMap.mem_keys_iff, (h k).isSome_eq], ?_⟩
    rintro ⟨k, v⟩ he
    have := h k
    rw [AMap.get_of_mem ha he] at this
    obtain ⟨w, hw, hr⟩ := this.some_left
    simp only [hw, hr]

theorem Spec.MapRel.length_eq {R : V → W → Prop} {a : AMap K V} {b : AMap K W} (ha : AMap.Wf a) (hb : AMap.Wf b)
    (h : MapRel R a b) : a.length = b.length :=
  AMap.length_eq_of_keys ha hb fun k => by rw [AMap.mem_keys_iff, AMap.mem_keys_iff, (h k).isSome_eq]

end maps

/-! ### Same definition -/

theorem sameId_iff (a b : ShapeID) : a.ceq b = true ↔ SameId a b := Iff.rfl

theorem member_equalWithoutTraits_iff (a b : MemberShape) : a.equalWithoutTraits b = true ↔ SameMember a b := by
  simp [MemberShape.equalWithoutTraits, SameMember, SameName, SameId, identEq_iff]

theorem membersAllEqual_ok_true {l : List (Str × MemberShape)} {r : AMap Str MemberShape} :
    membersAllEqual l r = .ok true ↔ ∀ e ∈ l, ∃ m', AMap.get r e.1 = some m' ∧ SameMember e.2 m' := by
  induction l with
  | nil => simp [membersAllEqual]
  | cons e t ih =>
    obtain ⟨k, m⟩ := e
    simp only [membersAllEqual, List.mem_cons, forall_eq_or_imp]
    cases AMap.get r k with
    | none => simp
    | some m' =>
      simp only
      by_cases h : m.equalWithoutTraits m' = true
      · simp only [h, if_true, ih, Option.some.injEq, exists_eq_left']
        simp [(member_equalWithoutTraits_iff m m').mp h]
      · simp only [h]
        have : ¬ SameMember m m' := fun h' => h ((member_equalWithoutTraits_iff m m').mpr h')
        simp [this]

theorem membersEqual_ok_true {l r : AMap Str MemberShape} (hl : AMap.Wf l) (hr : AMap.Wf r) :
    membersEqual l r = .ok true ↔ MapRel SameMember l r := by
  unfold membersEqual
  constructor
  · intro h
    split at h
    · next hlen =>
      rw [membersAllEqual_ok_true] at h
      have : hmEq MemberShape.equalWithoutTraits l r = true := by
        simp only [hmEq, Bool.and_eq_true, List.all_eq_true]
        refine ⟨hlen, fun e he => ?_⟩
        obtain ⟨m', hm', hs⟩ := h e he
        simp only [hm', (member_equalWithoutTraits_iff _ _).mpr hs]
      exact MapRel.mono (fun a b h => (member_equalWithoutTraits_iff a b).mp h) ((hmEq_iff hl hr).mp this)
    · cases h
  · intro h
    have hlen := MapRel.length_eq hl hr h
    simp only [hlen, beq_self_eq_true, if_true]
    rw [membersAllEqual_ok_true]
    rintro ⟨k, m⟩ he
    have := h k
    rw [AMap.get_of_mem hl he] at this
    exact this.some_left

theorem lifecycle_iff (a b : Resource) : (∀ l, OptRel SameId (a.lifecycle l) (b.lifecycle l)) ↔
    OptRel SameId a.create b.create ∧ OptRel SameId a.put b.put ∧ OptRel SameId a.read b.read ∧
    OptRel SameId a.update b.update ∧ OptRel SameId a.delete b.delete ∧ OptRel SameId a.list b.list := by
  constructor
  · intro h
    exact ⟨h .create, h .put, h .read, h .update, h .delete, h .list⟩
  · rintro ⟨h1, h2, h3, h4, h5, h6⟩ l
    cases l <;> assumption

theorem kind_equalWithoutTraits_iff {a b : ShapeKind} (ha : WfKind a) (hb : WfKind b) :
    a.equalWithoutTraits b = .ok true ↔ SameDef a b := by
  cases a <;> cases b
  case simple.simple s t =>
    simp only [ShapeKind.equalWithoutTraits, Except.ok.injEq, beq_iff_eq]
    exact ⟨by rintro rfl; exact .simple, by rintro ⟨⟩; rfl⟩
  case list.list l r =>
    simp only [ShapeKind.equalWithoutTraits, Except.ok.injEq, member_equalWithoutTraits_iff]
    exact ⟨.list, by rintro ⟨⟩; assumption⟩
  case set.set l r =>
    simp only [ShapeKind.equalWithoutTraits, Except.ok.injEq, member_equalWithoutTraits_iff]
    exact ⟨.set, by rintro ⟨⟩; assumption⟩
  case map.map lk lv rk rv =>
    simp only [ShapeKind.equalWithoutTraits, Except.ok.injEq, Bool.and_eq_true, member_equalWithoutTraits_iff]
    exact ⟨fun h => .map h.1 h.2, by rintro ⟨⟩; exact ⟨by assumption, by assumption⟩⟩
  case struct.struct l r =>
    simp only [ShapeKind.equalWithoutTraits, membersEqual_ok_true ha.nodup hb.nodup]
    exact ⟨.struct, by rintro ⟨⟩; assumption⟩
  case union.union l r =>
    simp only [ShapeKind.equalWithoutTraits, membersEqual_ok_true ha.nodup hb.nodup]
    exact ⟨.union, by rintro ⟨⟩; assumption⟩
  case service.service l r =>
    simp only [ShapeKind.equalWithoutTraits, Except.ok.injEq, Service.seq, Bool.and_eq_true, beq_iff_eq, vecEq_iff,
      hmEq_iff ha hb, identEq_iff]
    exact ⟨fun ⟨⟨⟨h1, h2⟩, h3⟩, h4⟩ => .service h1 h2 h3 h4, by
      rintro ⟨⟩; exact ⟨⟨⟨by assumption, by assumption⟩, by assumption⟩, by assumption⟩⟩
  case operation.operation l r =>
    simp only [ShapeKind.equalWithoutTraits, Except.ok.injEq, Operation.oeq, Bool.and_eq_true, vecEq_iff, optEq_iff]
    refine ⟨fun ⟨⟨h1, h2⟩, h3⟩ => .operation h1 h2 h3, ?_⟩
    intro h
    cases h with
    | operation h1 h2 h3 => exact ⟨⟨h1, h2⟩, h3⟩
  case resource.resource l r =>
    simp only [ShapeKind.equalWithoutTraits, Except.ok.injEq, Resource.req, Bool.and_eq_true, vecEq_iff, optEq_iff,
      hmEq_iff ha hb]
    constructor
    · rintro ⟨⟨⟨⟨⟨⟨⟨⟨⟨h1, h2⟩, h3⟩, h4⟩, h5⟩, h6⟩, h7⟩, h8⟩, h9⟩, h10⟩
      exact .resource h1 ((lifecycle_iff l r).mpr ⟨h2, h3, h4, h5, h6, h7⟩) h8 h9 h10
    · intro h
      cases h with
      | resource h1 h2 h3 h4 h5 =>
        obtain ⟨a, b, c, d, e, f⟩ := (lifecycle_iff l r).mp h2
        exact ⟨⟨⟨⟨⟨⟨⟨⟨⟨h1, a⟩, b⟩, c⟩, d⟩, e⟩, f⟩, h3⟩, h4⟩, h5⟩
  case unresolved.unresolved => simp only [ShapeKind.equalWithoutTraits, true_iff]; exact .unresolved
  all_goals
    simp only [ShapeKind.equalWithoutTraits, Except.ok.injEq, Bool.false_eq_true, false_iff]
    rintro ⟨⟩

theorem equalWithoutTraits_iff {a b : TopLevelShape} (hid : a.id = b.id) (ha : WfKind a.body) (hb : WfKind b.body) :
    a.equalWithoutTraits b = .ok true ↔ SameDef a.body b.body := by
  rw [← kind_equalWithoutTraits_iff ha hb, TopLevelShape.equalWithoutTraits, hid]
  simp [ceq_refl]

theorem Spec.SameMember.refl (a : MemberShape) : SameMember a a := ⟨rfl, ceq_refl _⟩
theorem Spec.SameMember.symm {a b : MemberShape} (h : SameMember a b) : SameMember b a := ⟨h.1.symm, ceq_symm h.2⟩
theorem Spec.SameMember.trans {a b c : MemberShape} (h : SameMember a b) (h' : SameMember b c) : SameMember a c :=
  ⟨h.1.trans h'.1, ceq_trans h.2 h'.2⟩

theorem Spec.SameDef.refl (a : ShapeKind) : SameDef a a := by
  have hid : ∀ i, SameId i i := ceq_refl
  cases a
  case simple => exact .simple
  case list => exact .list (SameMember.refl _)
  case set => exact .set (SameMember.refl _)
  case map => exact .map (SameMember.refl _) (SameMember.refl _)
  case struct => exact .struct (MapRel.refl SameMember.refl _)
  case union => exact .union (MapRel.refl SameMember.refl _)
  case service => exact .service rfl (ListRel.refl hid _) (ListRel.refl hid _) (MapRel.refl (R := SameName) (fun _ => rfl) _)
  case operation => exact .operation (OptRel.refl hid _) (OptRel.refl hid _) (ListRel.refl hid _)
  case resource =>
    exact .resource (MapRel.refl hid _) (fun _ => OptRel.refl hid _) (ListRel.refl hid _) (ListRel.refl hid _)
      (ListRel.refl hid _)
  case unresolved => exact .unresolved

theorem Spec.SameDef.symm {a b : ShapeKind} (h : SameDef a b) : SameDef b a := by
  have hid : ∀ i j, SameId i j → SameId j i := fun _ _ => ceq_symm
  cases h with
  | simple => exact .simple
  | list h => exact .list h.symm
  | set h => exact .set h.symm
  | map h h' => exact .map h.symm h'.symm
  | struct h => exact .struct (MapRel.symm (fun _ _ => SameMember.symm) h)
  | union h => exact .union (MapRel.symm (fun _ _ => SameMember.symm) h)
  | service h1 h2 h3 h4 =>
    exact .service h1.symm (ListRel.symm hid h2) (ListRel.symm hid h3) (MapRel.symm (fun _ _ => Eq.symm) h4)
  | operation h1 h2 h3 => exact .operation (OptRel.symm hid h1) (OptRel.symm hid h2) (ListRel.symm hid h3)
  | resource h1 h2 h3 h4 h5 =>
    exact .resource (MapRel.symm hid h1) (fun l => OptRel.symm hid (h2 l)) (ListRel.symm hid h3) (ListRel.symm hid h4)
      (ListRel.symm hid h5)
  | unresolved => exact .unresolved

theorem Spec.SameDef.trans {a b c : ShapeKind} (h : SameDef a b) (h' : SameDef b c) : SameDef a c := by
  have hid : ∀ i j k, SameId i j → SameId j k → SameId i k := fun _ _ _ => ceq_trans
  have hm : ∀ i j k, SameMember i j → SameMember j k → SameMember i k := fun _ _ _ => SameMember.trans
  cases h with
  | simple => exact h'
  | list h => cases h' with | list h' => exact .list (h.trans h')
  | set h => cases h' with | set h' => exact .set (h.trans h')
  | map h1 h2 => cases h' with | map h1' h2' => exact .map (h1.trans h1') (h2.trans h2')
  | struct h => cases h' with | struct h' => exact .struct (MapRel.trans hm h h')
  | union h => cases h' with | union h' => exact .union (MapRel.trans hm h h')
  | service h1 h2 h3 h4 =>
    cases h' with
    | service h1' h2' h3' h4' =>
      exact .service (h1.trans h1') (ListRel.trans hid h2 h2') (ListRel.trans hid h3 h3')
        (MapRel.trans (R := SameName) (S := SameName) (T := SameName)
          (fun _ _ _ (h : _ = _) (h' : _ = _) => Eq.trans h h') h4 h4')
  | operation h1 h2 h3 =>
    cases h' with
    | operation h1' h2' h3' =>
      exact .operation (OptRel.trans hid h1 h1') (OptRel.trans hid h2 h2') (ListRel.trans hid h3 h3')
  | resource h1 h2 h3 h4 h5 =>
    cases h' with
    | resource h1' h2' h3' h4' h5' =>
      exact .resource (MapRel.trans hid h1 h1') (fun l => OptRel.trans hid (h2 l) (h2' l)) (ListRel.trans hid h3 h3')
        (ListRel.trans hid h4 h4') (ListRel.trans hid h5 h5')
  | unresolved => exact h'

/-- A definition is never the same as a placeholder. -/
theorem Spec.SameDef.isUnresolved_eq {a b : ShapeKind} (h : SameDef a b) : a.isUnresolved = b.isUnresolved := by
  cases h <;> rfl

end Verif
