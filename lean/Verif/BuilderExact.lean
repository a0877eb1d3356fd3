/-
Exact forms of C27 (types of built shapes) and C28 (what building makes of entries for the same id).
-/
import Verif.BuilderConflicts

namespace Verif
open Spec

/-- Adding the shapes one after the other with `add_shape` (C13, C14), whatever the results, none of which is a panic. -/
inductive AddedInTurn : Model → List TopLevelShape → Model → Prop
  | nil {m} : AddedInTurn m [] m
  | cons {m s ss m'} : (m.addShape s).2 ≠ .error .panic → AddedInTurn (m.addShape s).1 ss m' → AddedInTurn m (s :: ss) m'

theorem addShapeIgnoring_turn {m m' : Model} {s : TopLevelShape} (h : m.addShapeIgnoring s = .ok m') :
    (m.addShape s).2 ≠ .error .panic ∧ m' = (m.addShape s).1 := by
  unfold Model.addShapeIgnoring at h
  split at h
  · cases h
  · next x r hne heq =>
    rw [heq]
    cases h
    refine ⟨fun hp => ?_, rfl⟩
    simp only at hp
    subst hp
    exact hne rfl

theorem addAllIgnoring_inTurn {m m' : Model} {L : List TopLevelShape} (h : m.addAllIgnoring L = .ok m') : AddedInTurn m L m' := by
  induction L generalizing m with
  | nil => cases h; exact .nil
  | cons s L ih =>
    simp only [Model.addAllIgnoring] at h
    cases hs : m.addShapeIgnoring s with
    | error e => rw [hs] at h; cases h
    | ok m1 =>
      rw [hs] at h
      obtain ⟨h1, rfl⟩ := addShapeIgnoring_turn hs
      exact .cons h1 (ih h)

/-- C28 in full: the model is what adding the shapes of all entries with `add_shape`, in the order of the table, gives when no
conflict is reported; then the placeholders for unknown names are added. What each `add_shape` does is in C13. -/
theorem C28_added_in_turn (mb : ModelBuilder) (h : WfBuilder mb) (enum : List ShapeID → List ShapeID) (he : Enumerates enum)
    (m : Model) (hb : mb.build enum = .ok m) :
    ∃ (ss : List TopLevelShape) (gs : List ShapeID), ListRel (BuildsShape mb) (AMap.values mb.shapes) ss ∧
      (∀ id, id ∈ gs ↔ Guessed mb id) ∧
      AddedInTurn ⟨mb.version, mb.metadata, []⟩ (ss ++ gs.map fun id => ⟨id, [], .unresolved⟩) m := by
  obtain ⟨ss, gs, h1, h2, _, h4⟩ := build_parts h he hb
  exact ⟨ss, gs, h1, h2, addAllIgnoring_inTurn h4⟩

theorem slot_first (L : List TopLevelShape) (o : Option TopLevelShape) (ho : ∀ e, o = some e → e.body = .unresolved)
    (e : TopLevelShape) (h : L.foldl slotStep o = some e) (hd : e.body ≠ .unresolved) :
    ∃ pre s post, L = pre ++ s :: post ∧ Admissible s ∧ s.body = e.body ∧
      ∀ t ∈ pre, Admissible t → t.body = .unresolved := by
  induction L generalizing o with
  | nil => exact absurd (ho e h) hd
  | cons s L ih =>
    rw [List.foldl_cons] at h
    by_cases ha : Admissible s ∧ s.body ≠ .unresolved
    · refine ⟨[], s, L, rfl, ha.1, ?_, by simp⟩
      rw [slotStep_admissible ha.1] at h
      cases o with
      | none =>
        obtain ⟨e', h1, h2⟩ := slot_keeps L s ha.2
        simp only at h
        rw [h1] at h; cases h; exact h2.symm
      | some x =>
        have hx := ho x rfl
        have hb : (Model.reconcile x s).1.body = s.body := by
          unfold Model.reconcile
          rw [hx, isUnresolved_false_iff.mpr ha.2]
          simp [ShapeKind.isUnresolved, copyTraits_fst]
        obtain ⟨e', h1, h2⟩ := slot_keeps L (Model.reconcile x s).1 (by rw [hb]; exact ha.2)
        simp only at h
        rw [h1] at h; cases h; rw [h2, hb]
    · have hs : Admissible s → s.body = .unresolved := fun h1 => Classical.byContradiction fun h2 => ha ⟨h1, h2⟩
      obtain ⟨pre, t, post, h1, h2, h3, h4⟩ := ih (slotStep o s) (by
        intro x hx
        by_cases hadm : Admissible s
        · cases o with
          | none =>
            rw [slotStep_admissible hadm] at hx
            cases hx; exact hs hadm
          | some y =>
            obtain ⟨e', h1, _, h2⟩ := slotStep_some y s
            rw [h1] at hx; cases hx
            rcases h2 with h2 | ⟨_, _, h2⟩
            · exact h2.trans (ho y rfl)
            · exact h2.trans (hs hadm)
        · rw [slotStep_not_admissible hadm] at hx; exact ho x hx) h
      exact ⟨s :: pre, t, post, by rw [h1]; rfl, h2, h3, by
        intro u hu
        rcases List.mem_cons.mp hu with rfl | hu
        · exact hs
        · exact h4 u hu⟩

theorem filter_append_cons {α : Type} {P : α → Bool} {l : List α} {pre post : List α} {x : α}
    (h : l.filter P = pre ++ x :: post) : ∃ l1 l2, l = l1 ++ x :: l2 ∧ l1.filter P = pre := by
  induction l generalizing pre with
  | nil => simp at h
  | cons y l ih =>
    rw [List.filter_cons] at h
    split at h
    · cases pre with
      | nil => simp at h; exact ⟨[], l, by rw [h.1]; rfl, rfl⟩
      | cons z pre =>
        simp at h
        obtain ⟨l1, l2, h1, h2⟩ := ih h.2
        rename_i hy
        exact ⟨y :: l1, l2, by rw [h1]; rfl, by rw [List.filter_cons, if_pos hy, h2, h.1]⟩
    · obtain ⟨l1, l2, h1, h2⟩ := ih h
      rename_i hy
      exact ⟨y :: l1, l2, by rw [h1]; rfl, by rw [List.filter_cons, if_neg hy, h2]⟩

theorem listRel_at {α β : Type} {R : α → β → Prop} {l : List α} {pre post : List β} {y : β} (h : ListRel R l (pre ++ y :: post)) :
    ∃ l1 x l2, l = l1 ++ x :: l2 ∧ R x y ∧ ListRel R l1 pre := by
  induction pre generalizing l with
  | nil =>
    cases l with
    | nil => have := h.1; simp at this
    | cons x l =>
      obtain ⟨y', m', he, hxy, hr⟩ := listRel_cons_left h
      cases he
      exact ⟨[], x, l, rfl, hxy, rfl, by simp⟩
  | cons z pre ih =>
    cases l with
    | nil => have := h.1; simp at this
    | cons x l =>
      obtain ⟨y', m', he, hxy, hr⟩ := listRel_cons_left h
      cases he
      obtain ⟨l1, w, l2, h1, h2, h3⟩ := ih hr
      refine ⟨x :: l1, w, l2, by rw [h1]; rfl, h2, ?_⟩
      refine ⟨by simp [h3.1], ?_⟩
      intro i a b ha hb
      cases i with
      | zero => simp at ha hb; subst ha; subst hb; exact hxy
      | succ i => exact h3.2 i a b (by simpa using ha) (by simpa using hb)

/-- C28: of several entries that define the same id, the first in the order of the table gives the body. -/
theorem C28_first_definition (mb : ModelBuilder) (h : WfBuilder mb) (enum : List ShapeID → List ShapeID) (he : Enumerates enum)
    (m : Model) (hb : mb.build enum = .ok m) (id : ShapeID) (s : TopLevelShape) (hs : m.shape id = some s)
    (hd : s.body ≠ .unresolved) :
    ∃ pre n b post, mb.shapes = pre ++ (n, b) :: post ∧ BuildsId mb b id ∧ BuildsBody mb b.body s.body ∧
      ∀ n' b', (n', b') ∈ pre → BuildsId mb b' id → b'.body = .reference := by
  obtain ⟨ss, gs, h1, h2, h3, h4⟩ := build_parts h he hb
  rw [addAllIgnoring_slot h4 id, start_shape] at hs
  obtain ⟨pre, t, post, hl, hadm, htb, hpre⟩ := slot_first _ none (by simp) s hs hd
  have htd : t.body ≠ .unresolved := by rw [htb]; exact hd
  obtain ⟨l1, l2, hl1, hl2⟩ := filter_append_cons hl
  have htid : t.id = id := by
    have : t ∈ (ss ++ gs.map fun id => TopLevelShape.new id .unresolved).filter fun s => decide (s.id = id) := by rw [hl]; simp
    simpa using (List.mem_filter.mp this).2
  have hmem : id.isMember = false := by
    cases hq : id.isMember with
    | false => rfl
    | true => exact absurd (hadm (htid ▸ hq)) htd
  -- the definition is among the entries
  obtain ⟨q, hq⟩ : ∃ q, ss = l1 ++ t :: q := by
    rcases List.append_eq_append_iff.mp hl1 with ⟨as, ha1, ha2⟩ | ⟨bs, hb1, hb2⟩
    · -- l1 = ss ++ as : t is a placeholder
      exfalso
      have : t ∈ gs.map fun id => TopLevelShape.new id .unresolved := by rw [ha2]; simp
      obtain ⟨j, _, rfl⟩ := List.mem_map.mp this
      exact htd rfl
    · cases bs with
      | nil =>
        exfalso
        have : t ∈ gs.map fun id => TopLevelShape.new id .unresolved := by rw [List.nil_append] at hb2; rw [← hb2]; simp
        obtain ⟨j, _, rfl⟩ := List.mem_map.mp this
        exact htd rfl
      | cons b bs =>
        rw [List.cons_append] at hb2
        injection hb2 with hb2 hb3
        exact ⟨bs, by rw [hb1, ← hb2]⟩
  rw [hq] at h1
  obtain ⟨k1, b, k2, hk, hbt, hk1⟩ := listRel_at h1
  -- from the values of the table to the table
  have hsplit : ∃ p n r, mb.shapes = p ++ (n, b) :: r ∧ AMap.values p = k1 := by
    have hk' : mb.shapes.map Prod.snd = k1 ++ b :: k2 := hk
    obtain ⟨p, r', e1, e2, e3⟩ := List.map_eq_append_iff.mp hk'
    obtain ⟨x, r, e4, e5, e6⟩ := List.map_eq_cons_iff.mp e3
    obtain ⟨n, b'⟩ := x
    simp only at e5
    subst e5
    exact ⟨p, n, r, by rw [e1, e4], e2⟩
  obtain ⟨p, n, r, hp, hpk⟩ := hsplit
  refine ⟨p, n, b, r, hp, htid ▸ hbt.id, htb ▸ hbt.body, ?_⟩
  intro n' b' hb' hid'
  have hmem' : b' ∈ k1 := by rw [← hpk]; exact List.mem_map_of_mem (f := Prod.snd) hb'
  obtain ⟨u, hu, hbu⟩ := (listRel_split hk1).1 b' hmem'
  have huid : u.id = id := hbu.id.unique h hid'
  have hupre : u ∈ pre := by rw [← hl2]; exact List.mem_filter.mpr ⟨hu, by simp [huid]⟩
  exact hbu.body.unresolved_iff.mp (hpre u hupre fun hx => by rw [huid, hmem] at hx; cases hx)

/-- The type that building gives a declaration: its own, but a list for a set. -/
inductive BuiltType : BuilderBody → ShapeKind → Prop
  | same {b k} : (∀ x, b ≠ .set x) → SameType b k → BuiltType b k
  | set {b m} : BuiltType (.set b) (.list m)

/-- C27 in full: a defined id has the type that the first entry for it declares, but a set has become a list. -/
theorem C27_type (mb : ModelBuilder) (h : WfBuilder mb) (enum : List ShapeID → List ShapeID) (he : Enumerates enum)
    (m : Model) (hb : mb.build enum = .ok m) (id : ShapeID) (s : TopLevelShape) (hs : m.shape id = some s)
    (hd : s.body ≠ .unresolved) :
    ∃ pre n b post, mb.shapes = pre ++ (n, b) :: post ∧ BuildsId mb b id ∧ BuiltType b.body s.body ∧
      ∀ n' b', (n', b') ∈ pre → BuildsId mb b' id → b'.body = .reference := by
  obtain ⟨pre, n, b, post, h1, h2, h3, h4⟩ := C28_first_definition mb h enum he m hb id s hs hd
  refine ⟨pre, n, b, post, h1, h2, ?_, h4⟩
  by_cases hset : ∃ x, b.body = .set x
  · obtain ⟨x, hx⟩ := hset
    rw [hx] at h3 ⊢
    generalize s.body = k at h3 ⊢
    cases h3 with | set => exact .set
  · have hns : ∀ x, b.body ≠ .set x := fun x hx => hset ⟨x, hx⟩
    exact .same hns (h3.type_iff.mpr hns)

/-- Both definitions of `C28_conflict_dropped` are for the same id; the first one is kept. -/
example : ∃ m s, exConflict.build enumFirst = .ok m ∧ m.shape (sid (%s"S")) = some s ∧ s.body ≠ .unresolved :=
  ⟨_, _, rfl, rfl, by simp⟩

end Verif
