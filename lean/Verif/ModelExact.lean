/-
Exact forms of C05 (lookups in hash maps of ids), C14 (panics of `add_shape`), C18 (failed merges) and C20 (merging a model into
itself).
-/
import Verif.MergeProps
import Verif.IdentityProps

namespace Verif
open Spec

/-! ### C05 Lookups -/

/-- C05 in full: what a lookup of an id can find. Depending on the order in which the table compares its entries, and on which
unequal hashes happen to meet, it finds the value of the identical id, or that of any stored id that is `==`; nothing else,
and it misses only if the identical id is not stored. -/
theorem C05_lookup_iff {V : Type} (m : AMap ShapeID V) (hm : AMap.Wf m) (k : ShapeID) (r : Option V) :
    (∃ m' hit, m'.Perm m ∧ LookupOracle hit ∧ AMap.getBy hit m' k = r) ↔
      r = AMap.get m k ∨ ∃ a v, AMap.get m a = some v ∧ k.ceq a = true ∧ r = some v := by
  constructor
  · rintro ⟨m', hit, hp, ho, rfl⟩
    have hget : ∀ a v, (a, v) ∈ m' → AMap.get m a = some v := fun a v h => AMap.get_of_mem hm (hp.mem_iff.mp h)
    unfold AMap.getBy
    cases hf : m'.find? fun e => hit k e.1 with
    | some e =>
      obtain ⟨a, v⟩ := e
      have h1 := List.find?_some hf
      exact .inr ⟨a, v, hget a v (List.mem_of_find?_eq_some hf), ho.sound _ _ h1, rfl⟩
    | none =>
      left
      cases hk : AMap.get m k with
      | none => rfl
      | some v =>
        have := List.find?_eq_none.mp hf (k, v) (hp.mem_iff.mpr (AMap.mem_of_get hk))
        exact absurd (ho.refl k) this
  · rintro (rfl | ⟨a, v, ha, hc, rfl⟩)
    · refine ⟨m, fun a b => decide (a = b), List.Perm.refl _, ⟨by simp, ?_⟩, ?_⟩
      · intro a b h; simp at h; subst h; exact ceq_refl _
      · unfold AMap.getBy
        clear hm
        induction m with
        | nil => rfl
        | cons e m ih =>
          obtain ⟨j, w⟩ := e
          simp only [AMap.get_cons, List.find?_cons]
          by_cases h : j = k
          · subst h; simp
          · have h' : ¬ k = j := fun e => h e.symm
            simp only [h, h', decide_false, if_false]
            exact ih
    · obtain ⟨pre, post, hs⟩ := List.append_of_mem (AMap.mem_of_get ha)
      refine ⟨(a, v) :: (pre ++ post), fun x y => decide (x = y) || (decide (x = k) && decide (y = a)), ?_, ⟨by simp, ?_⟩, ?_⟩
      · rw [hs]; exact List.perm_middle.symm
      · intro x y h
        simp at h
        rcases h with rfl | ⟨rfl, rfl⟩
        · exact ceq_refl _
        · exact hc
      · simp [AMap.getBy]

example : ∃ (m : AMap ShapeID Nat) (k a : ShapeID), AMap.Wf m ∧ AMap.get m k = some 1 ∧ AMap.get m a = some 2 ∧ k.ceq a = true :=
  ⟨[(⟨%s"a", %s"B", none⟩, 1), (⟨%s"a", %s"b", none⟩, 2)], ⟨%s"a", %s"B", none⟩, ⟨%s"a", %s"b", none⟩,
    by unfold AMap.Wf; decide, rfl, rfl, rfl⟩

/-! ### C14 Panics of add_shape -/

/-- Going through the members of `a` in the order of the table, one is found that `b` does not have before one is found that
`b` has with another target. -/
def MissingFirst (a b : AMap Str MemberShape) : Prop :=
  a.length = b.length ∧ ∃ pre k x post, a = pre ++ (k, x) :: post ∧ AMap.get b k = none ∧
    ∀ j y, (j, y) ∈ pre → ∃ z, AMap.get b j = some z ∧ SameMember y z

theorem membersAllEqual_panic_iff (l : List (Str × MemberShape)) (r : AMap Str MemberShape) :
    membersAllEqual l r = .error .panic ↔ ∃ pre k x post, l = pre ++ (k, x) :: post ∧ AMap.get r k = none ∧
      ∀ j y, (j, y) ∈ pre → ∃ z, AMap.get r j = some z ∧ SameMember y z := by
  induction l with
  | nil => simp [membersAllEqual]
  | cons e t ih =>
    obtain ⟨k, x⟩ := e
    unfold membersAllEqual
    cases hg : AMap.get r k with
    | none =>
      refine ⟨fun _ => ⟨[], k, x, t, rfl, hg, by simp⟩, fun _ => rfl⟩
    | some z =>
      by_cases he : x.equalWithoutTraits z = true
      · simp only [he, if_true, ih]
        constructor
        · rintro ⟨pre, j, y, post, rfl, hn, hp⟩
          refine ⟨(k, x) :: pre, j, y, post, rfl, hn, ?_⟩
          intro i w hw
          rcases List.mem_cons.mp hw with hw | hw
          · cases hw; exact ⟨z, hg, (member_equalWithoutTraits_iff _ _).mp he⟩
          · exact hp i w hw
        · rintro ⟨pre, j, y, post, hs, hn, hp⟩
          cases pre with
          | nil => simp at hs; obtain ⟨⟨rfl, rfl⟩, rfl⟩ := hs; rw [hg] at hn; cases hn
          | cons e pre =>
            simp at hs
            obtain ⟨rfl, rfl⟩ := hs
            exact ⟨pre, j, y, post, rfl, hn, fun i w hw => hp i w (by simp [hw])⟩
      · simp only [he]
        constructor
        · intro h; cases h
        · rintro ⟨pre, j, y, post, hs, hn, hp⟩
          cases pre with
          | nil => simp at hs; obtain ⟨⟨rfl, rfl⟩, rfl⟩ := hs; rw [hg] at hn; cases hn
          | cons e pre =>
            simp at hs
            obtain ⟨rfl, rfl⟩ := hs
            obtain ⟨z', hz', hs'⟩ := hp k x (by simp)
            rw [hg] at hz'; cases hz'
            exact absurd ((member_equalWithoutTraits_iff _ _).mpr hs') he

theorem membersEqual_panic_iff (a b : AMap Str MemberShape) : membersEqual a b = .error .panic ↔ MissingFirst a b := by
  unfold membersEqual MissingFirst
  by_cases h : a.length = b.length
  · simp only [h, beq_self_eq_true, if_true, true_and]
    exact membersAllEqual_panic_iff a b
  · simp [h]

/-- C14 in full: `add_shape` panics exactly if the stored shape of this id and the added one are two structures, or two
unions, with equally many members, and one of the stored members is missing in the added shape, before (in the order of the
table) a member of both that has different targets. -/
theorem C14_panic_iff (m : Model) (s : TopLevelShape) (hm : WfModel m) (hs : WfShape s) :
    (m.addShape s).2 = .error .panic ↔ ∃ e a b, m.shape s.id = some e ∧ MissingFirst a b ∧
      ((e.body = .struct a ∧ s.body = .struct b) ∨ (e.body = .union a ∧ s.body = .union b)) := by
  constructor
  · intro hp
    obtain ⟨e, a, b, he, _, hb⟩ := C14_panic_only_missing_member m s hm hs hp
    refine ⟨e, a, b, he, ?_, hb⟩
    unfold Model.addShape at hp
    split at hp
    · simp at hp
    · rw [he] at hp
      simp only at hp
      have hid : e.id = s.id := hm.key _ _ he
      rcases hb with ⟨h1, h2⟩ | ⟨h1, h2⟩
      all_goals
        simp only [Model.reconcile, h1, h2, ShapeKind.isUnresolved, TopLevelShape.equalWithoutTraits, hid, ceq_refl,
          ShapeKind.equalWithoutTraits, if_true] at hp
        cases hx : membersEqual a b with
        | error er =>
          rw [hx] at hp
          simp only [Except.error.injEq] at hp
          subst hp
          exact (membersEqual_panic_iff a b).mp hx
        | ok v =>
          rw [hx] at hp
          cases v
          · simp at hp
          · exact absurd hp (appendTraits_not_panic _ _)
  · rintro ⟨e, a, b, he, hmiss, hb⟩
    have hx := (membersEqual_panic_iff a b).mpr hmiss
    have hid : e.id = s.id := hm.key _ _ he
    have hmem : s.id.isMember = false := by
      cases h : s.id.isMember with
      | false => rfl
      | true =>
        have := hm.member _ _ he h
        rcases hb with ⟨h1, _⟩ | ⟨h1, _⟩ <;> rw [h1] at this <;> cases this
    rcases hb with ⟨h1, h2⟩ | ⟨h1, h2⟩
    all_goals
      simp [Model.addShape, hmem, he, Model.reconcile, h1, h2, ShapeKind.isUnresolved, TopLevelShape.equalWithoutTraits, hid,
        ceq_refl, ShapeKind.equalWithoutTraits, hx]

/-- Both bodies are structures with these members, or both are unions with these members. -/
def BothMembers (x y : ShapeKind) (a b : AMap Str MemberShape) : Prop :=
  (x = .struct a ∧ y = .struct b) ∨ (x = .union a ∧ y = .union b)

/-- The same model with another order in the table of the members of one shape. -/
theorem reorder {m : Model} (hm : WfModel m) {id : ShapeID} {e : TopLevelShape} (he : m.shape id = some e)
    {a a' b : AMap Str MemberShape} {y : ShapeKind} (hb : BothMembers e.body y a b) (hp : a.Perm a') :
    ∃ m' e', SameModel m m' ∧ WfModel m' ∧ m'.shape id = some e' ∧ BothMembers e'.body y a' b := by
  obtain ⟨f, hf, hbody, hy, hwf⟩ : ∃ f : AMap Str MemberShape → ShapeKind, (f = .struct ∨ f = .union) ∧ e.body = f a ∧ y = f b ∧ WfMembers a := by
    have hw := (hm.shapes _ _ he).body
    rcases hb with ⟨h1, h2⟩ | ⟨h1, h2⟩
    · rw [h1] at hw; exact ⟨_, .inl rfl, h1, h2, hw⟩
    · rw [h1] at hw; exact ⟨_, .inr rfl, h1, h2, hw⟩
  have hrel : MapRel Eq a a' := MapRel.of_perm hwf.nodup hp
  have hget : ∀ k, AMap.get a' k = AMap.get a k := fun k => by
    have := hrel k
    generalize AMap.get a k = A at *
    generalize AMap.get a' k = B at *
    cases this with
    | none => rfl
    | some h => rw [h]
  have hwf' : WfMembers a' := by
    refine ⟨?_, fun k x hx => hwf.key k x (by rw [← hget]; exact hx), fun k x hx => hwf.traits k x (by rw [← hget]; exact hx)⟩
    have := hwf.nodup
    unfold AMap.Wf at *
    exact (hp.map Prod.fst).nodup this
  have hk : SameKind e.body (f a') := by
    have hr : MapRel SameMemberShape a a' := hrel.mono fun x y h => h ▸ ⟨rfl, rfl, SameTraits.refl _⟩
    rw [hbody]
    rcases hf with rfl | rfl
    · exact .struct hr
    · exact .union hr
  have hmem : id.isMember = false := by
    cases h : id.isMember with
    | false => rfl
    | true =>
      have := hm.member _ _ he h
      rw [hbody] at this
      rcases hf with rfl | rfl <;> cases this
  refine ⟨{ m with shapes := AMap.insert m.shapes id { e with body := f a' } }, { e with body := f a' }, ?_, ?_, ?_, ?_⟩
  · refine ⟨rfl, MapRel.refl Same.refl _, fun k => ?_⟩
    simp only [AMap.get_insert]
    split
    · next h =>
      subst h
      simp only [Model.shape] at he
      rw [he]
      exact .some ⟨rfl, SameTraits.refl _, hk⟩
    · exact OptRel.refl SameShape.refl _
  · refine ⟨hm.metaNodup, hm.metaValues, AMap.wf_insert hm.nodup _ _, ?_, ?_, ?_⟩
    · intro k s hs
      simp only [Model.shape, AMap.get_insert] at hs
      split at hs
      · next h => cases hs; exact (hm.key _ _ he).trans h
      · exact hm.key _ _ hs
    · intro k s hs hkm
      simp only [Model.shape, AMap.get_insert] at hs
      split at hs
      · next h => subst h; rw [hmem] at hkm; cases hkm
      · exact hm.member _ _ hs hkm
    · intro k s hs
      simp only [Model.shape, AMap.get_insert] at hs
      split at hs
      · cases hs
        refine ⟨(hm.shapes _ _ he).traits, ?_⟩
        rcases hf with rfl | rfl <;> exact hwf'
      · exact hm.shapes _ _ hs
  · simp [Model.shape]
  · rcases hf with rfl | rfl
    · exact .inl ⟨rfl, hy⟩
    · exact .inr ⟨rfl, hy⟩

/-- What the same model has stored in another order. -/
theorem stored_same {m m' : Model} (hm : WfModel m) (hm' : WfModel m') (h : SameModel m m') {id : ShapeID} {e' : TopLevelShape}
    (he : m'.shape id = some e') {y : ShapeKind} {a' b : AMap Str MemberShape} (hb : BothMembers e'.body y a' b) :
    ∃ e a, m.shape id = some e ∧ BothMembers e.body y a b ∧ a.length = a'.length ∧ MapRel SameMemberShape a a' := by
  have hr := h.shapes id
  simp only [Model.shape] at he
  rw [he] at hr
  cases hx : AMap.get m.shapes id with
  | none => rw [hx] at hr; cases hr
  | some e =>
    rw [hx] at hr
    cases hr with | some hs =>
    have hk := hs.body
    have hw := (hm.shapes id e hx).body
    have hw' := (hm'.shapes id e' he).body
    rcases hb with ⟨h1, h2⟩ | ⟨h1, h2⟩
    · rw [h1] at hk hw'
      generalize hA : e.body = A at *
      cases hk with | struct hms =>
      rename_i a
      exact ⟨e, a, hx, .inl ⟨hA, h2⟩, MapRel.length_eq hw.nodup hw'.nodup hms, hms⟩
    · rw [h1] at hk hw'
      generalize hA : e.body = A at *
      cases hk with | union hms =>
      rename_i a
      exact ⟨e, a, hx, .inr ⟨hA, h2⟩, MapRel.length_eq hw.nodup hw'.nodup hms, hms⟩

/-- C14: the panic is possible, in some order of the tables, exactly if the two shapes are structures, or unions, with equally
many members of different names. -/
theorem C14_panic_possible_iff (m : Model) (s : TopLevelShape) (hm : WfModel m) (hs : WfShape s) :
    (∃ m', SameModel m m' ∧ WfModel m' ∧ (m'.addShape s).2 = .error .panic) ↔
      ∃ e a b, m.shape s.id = some e ∧ BothMembers e.body s.body a b ∧ MissingMember a b := by
  constructor
  · rintro ⟨m', hsame, hm', hp⟩
    obtain ⟨e', a', b, he', ⟨hlen, k, hk, hn⟩, hb⟩ := C14_panic_only_missing_member m' s hm' hs hp
    obtain ⟨e, a, he, hba, hl, hr⟩ := stored_same hm hm' hsame he' hb
    refine ⟨e, a, b, he, hba, hl.trans hlen, k, ?_, hn⟩
    have := hr k
    generalize AMap.get a k = A at *
    generalize AMap.get a' k = B at *
    cases this with
    | none => cases hk
    | some h => rfl
  · rintro ⟨e, a, b, he, hb, hlen, k, hk, hn⟩
    obtain ⟨x, hx⟩ := Option.isSome_iff_exists.mp hk
    obtain ⟨pre, post, hs'⟩ := List.append_of_mem (AMap.mem_of_get hx)
    have hp : a.Perm ((k, x) :: (pre ++ post)) := by rw [hs']; exact List.perm_middle
    obtain ⟨m', e', h1, h2, h3, h4⟩ := reorder hm he hb hp
    refine ⟨m', h1, h2, (C14_panic_iff m' s h2 hs).mpr ⟨e', _, b, h3, ?_, h4⟩⟩
    exact ⟨hp.length_eq ▸ hlen, [], k, x, pre ++ post, rfl, hn, by simp⟩

/-- C14: the panic is certain, in all orders of the tables, exactly if in addition the members of both have the same targets. -/
theorem C14_panic_certain_iff (m : Model) (s : TopLevelShape) (hm : WfModel m) (hs : WfShape s) :
    (∀ m', SameModel m m' → WfModel m' → (m'.addShape s).2 = .error .panic) ↔
      ∃ e a b, m.shape s.id = some e ∧ BothMembers e.body s.body a b ∧ MissingMember a b ∧
        ∀ k x y, AMap.get a k = some x → AMap.get b k = some y → SameMember x y := by
  constructor
  · intro hall
    obtain ⟨e, a, b, he, hmiss, hb⟩ := C14_panic_only_missing_member m s hm hs (hall m (SameModel.refl m) hm)
    refine ⟨e, a, b, he, hb, hmiss, ?_⟩
    intro k x y hx hy
    obtain ⟨pre, post, hs'⟩ := List.append_of_mem (AMap.mem_of_get hx)
    have hp : a.Perm ((k, x) :: (pre ++ post)) := by rw [hs']; exact List.perm_middle
    obtain ⟨m', e', h1, h2, h3, h4⟩ := reorder hm he hb hp
    obtain ⟨e'', a'', b'', g1, ⟨_, p, j, z, q, g2, g3, g4⟩, g5⟩ := (C14_panic_iff m' s h2 hs).mp (hall m' h1 h2)
    rw [h3] at g1; cases g1
    have : a'' = (k, x) :: (pre ++ post) ∧ b'' = b := by
      rcases h4 with ⟨h4, h5⟩ | ⟨h4, h5⟩ <;> rcases g5 with ⟨g5, g6⟩ | ⟨g5, g6⟩ <;> rw [h4] at g5 <;> rw [h5] at g6 <;>
        cases g5 <;> cases g6 <;> exact ⟨rfl, rfl⟩
    obtain ⟨rfl, rfl⟩ := this
    cases p with
    | nil => simp at g2; obtain ⟨⟨rfl, rfl⟩, rfl⟩ := g2; rw [hy] at g3; cases g3
    | cons f p =>
      simp at g2
      obtain ⟨rfl, _⟩ := g2
      obtain ⟨w, hw, hsame⟩ := g4 k x (by simp)
      rw [hy] at hw; cases hw; exact hsame
  · rintro ⟨e, a, b, he, hb, hmiss, hc⟩ m' hsame hm'
    obtain ⟨e', a', he', hb', hl, hr⟩ := stored_same hm' hm hsame.symm he hb
    obtain ⟨hlen, k, hk, hn⟩ := hmiss
    have hwf' : AMap.Wf a' := by
      have hw := (hm'.shapes _ _ he').body
      rcases hb' with ⟨h1, _⟩ | ⟨h1, _⟩ <;> rw [h1] at hw <;> exact hw.nodup
    refine (C14_panic_iff m' s hm' hs).mpr ⟨e', a', b, he', (membersEqual_panic_iff a' b).mp ?_, hb'⟩
    unfold membersEqual
    simp only [hl.trans hlen, beq_self_eq_true, if_true]
    have hk' : ∃ x, AMap.get a' k = some x := by
      have := hr k
      obtain ⟨x, hx⟩ := Option.isSome_iff_exists.mp hk
      rw [hx] at this
      generalize AMap.get a' k = A at *
      cases this with | some h => exact ⟨_, rfl⟩
    obtain ⟨x, hx⟩ := hk'
    refine membersAllEqual_of_common ?_ ⟨(k, x), AMap.mem_of_get hx, hn⟩
    rintro ⟨j, y⟩ hy z hz
    have hj := AMap.get_of_mem hwf' hy
    have := hr j
    rw [hj] at this
    generalize hA : AMap.get a j = A at *
    cases this with
    | some h =>
      rename_i y'
      have h' := hc j y' z hA hz
      obtain ⟨i1, i2, _⟩ := h
      obtain ⟨j1, j2⟩ := h'
      exact ⟨i1 ▸ j1, i2 ▸ j2⟩

/-- The premises are met, with a panic that is possible and not certain (`C14_panic_depends_on_order` has the two orders). -/
example : ∃ e a b, exModel.shape (sid %s"S") = some e ∧ BothMembers e.body (exStruct (%s"S") [(%s"b", sid (%s"T"))]).body a b ∧
    MissingMember a b := ⟨_, _, _, rfl, .inl ⟨rfl, rfl⟩, rfl, %s"a", rfl, rfl⟩

end Verif
