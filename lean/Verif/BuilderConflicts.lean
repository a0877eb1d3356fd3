/-
Properties of the model builder: conflicts (C28) and repeated traits (C29).
-/
import Verif.BuilderProps

namespace Verif
open Spec Mk

/-! ### C28: conflicts are not reported -/

/-- The errors about names; everything else is a panic. -/
def NameError (e : Err) : Prop := e = .panic ∨ (∃ id, e = .shapeIDExpected id) ∨ ∃ l, e = .ambiguousShape l

/-- All the errors of the computation are about names. -/
def Fails {α : Type} (x : Mk α) : Prop := ∀ e, x = Except.error e → NameError e

theorem Fails.pure {α : Type} (a : α) : Fails (pure a : Mk α) := fun e h => (by cases h)

theorem Fails.bind {α β : Type} {x : Mk α} {f : α → Mk β} (hx : Fails x) (hf : ∀ a, Fails (f a)) : Fails (x >>= f) := by
  intro e he
  rcases bind_error.mp he with he | ⟨a, _, _, he⟩
  · exact hx e he
  · exact hf a e he

theorem Fails.mapL {α β : Type} {f : α → Mk β} (hf : ∀ a, Fails (f a)) (l : List α) : Fails (Mk.mapL f l) := by
  induction l with
  | nil => exact Fails.pure []
  | cons a l ih => exact (hf a).bind fun b => ih.bind fun bs => Fails.pure _

theorem Fails.mapO {α β : Type} {f : α → Mk β} (hf : ∀ a, Fails (f a)) (o : Option α) : Fails (Mk.mapO f o) := by
  cases o with
  | none => exact Fails.pure none
  | some a => exact (hf a).bind fun b => Fails.pure _

theorem Fails.lift {α : Type} {x : Except Err α} (h : ∀ e, x = .error e → e = .panic) : Fails (Mk.lift x) := by
  intro e he
  cases x with
  | ok a => cases he
  | error e' => cases he; exact .inl (h _ rfl)

theorem fails_resolve {mb : ModelBuilder} (h : WfBuilder mb) (tr : Bool) (n : ShapeName) : Fails (mb.resolve tr n) := by
  intro e he
  unfold ModelBuilder.resolve at he
  split at he
  · cases he
  · next e' he' =>
    cases he
    rcases (C24_resolution_fails mb h tr n e).mp he' with ⟨id, _, _, rfl⟩ | ⟨l, _, _, _, _, _, _, rfl⟩
    · exact .inr (.inl ⟨id, rfl⟩)
    · exact .inr (.inr ⟨l, rfl⟩)

theorem fails_makeTraits {mb : ModelBuilder} (h : WfBuilder mb) (ts : List TraitBuilder) : Fails (mb.makeTraits ts) :=
  (Fails.mapL (f := mb.makeTrait) (fun t => (fails_resolve h true t.name).bind fun _ => Fails.pure _) ts).bind fun _ => Fails.pure _

theorem fails_makeMember {mb : ModelBuilder} (h : WfBuilder mb) (m : MemberBuilder) : Fails (mb.makeMember m) :=
  (fails_resolve h false m.target).bind fun _ => (fails_makeTraits h m.traits).bind fun _ => Fails.pure _

theorem listFrom_error {m : MemberShape} {e : Err} (h : listFrom m = .error e) : e = .panic := by
  unfold listFrom at h; split at h <;> cases h; rfl

theorem serviceNew_error {v : Str} {e : Err} (h : Service.new v = .error e) : e = .panic := by
  unfold Service.new at h; split at h <;> cases h; rfl

theorem fails_makeBody {mb : ModelBuilder} (h : WfBuilder mb) (b : BuilderBody) : Fails (mb.makeBody b) := by
  have hr := fails_resolve h false
  cases b with
  | simple s => exact Fails.pure _
  | list m => exact (fails_makeMember h m).bind fun _ => (Fails.lift fun _ => listFrom_error).bind fun _ => Fails.pure _
  | set m => exact (fails_makeMember h m).bind fun _ => (Fails.lift fun _ => listFrom_error).bind fun _ => Fails.pure _
  | map k v =>
    exact ((hr _).bind fun _ => (hr _).bind fun _ => (fails_makeTraits h _).bind fun _ => (fails_makeTraits h _).bind fun _ =>
      Fails.pure _).bind fun _ => Fails.pure _
  | struct ms => exact (Fails.mapL (fails_makeMember h) ms).bind fun _ => Fails.pure _
  | union ms => exact (Fails.mapL (fails_makeMember h) ms).bind fun _ => Fails.pure _
  | service v o r n =>
    exact (Fails.lift fun _ => serviceNew_error).bind fun _ => (Fails.mapL hr o).bind fun _ => (Fails.mapL hr r).bind fun _ =>
      Fails.pure _
  | operation i o e =>
    exact (Fails.mapO hr i).bind fun _ => (Fails.mapO hr o).bind fun _ => (Fails.mapL hr e).bind fun _ => Fails.pure _
  | resource ids c p r u d l o co rs =>
    exact (Fails.mapL (fun e => (hr e.2).bind fun _ => Fails.pure _) ids).bind fun _ => (Fails.mapO hr c).bind fun _ =>
      (Fails.mapO hr p).bind fun _ => (Fails.mapO hr r).bind fun _ => (Fails.mapO hr u).bind fun _ =>
      (Fails.mapO hr d).bind fun _ => (Fails.mapO hr l).bind fun _ => (Fails.mapL hr o).bind fun _ =>
      (Fails.mapL hr co).bind fun _ => (Fails.mapL hr rs).bind fun _ => Fails.pure _
  | reference => exact Fails.pure _

theorem fails_makeShape {mb : ModelBuilder} (h : WfBuilder mb) (b : Builder) : Fails (mb.makeShape b) := by
  refine Fails.bind ?_ fun _ => (fails_makeBody h b.body).bind fun _ => (fails_makeTraits h b.traits).bind fun _ => Fails.pure _
  intro e he
  unfold ModelBuilder.makeId at he
  cases hb : b.body <;> cases hn : b.name <;> rw [hb, hn] at he <;>
    first
    | exact fails_resolve h false _ e he
    | (cases he; exact .inl rfl)
    | cases he

theorem addShapeIgnoring_error {m : Model} {s : TopLevelShape} {e : Err} (h : m.addShapeIgnoring s = .error e) : e = .panic := by
  unfold Model.addShapeIgnoring at h
  split at h <;> cases h
  rfl

/-- C28 is violated: building never reports a conflict of metadata, shapes or traits; its only errors are about names. -/
theorem C28_no_conflict_reported (mb : ModelBuilder) (h : WfBuilder mb) (enum : List ShapeID → List ShapeID) (e : Err)
    (he : mb.build enum = .error e) : e = .panic ∨ (∃ id, e = .shapeIDExpected id) ∨ ∃ l, e = .ambiguousShape l := by
  have hb : ∀ (bs : List Builder) (m : Model), Fails (mb.addBuilt m bs) := by
    intro bs
    induction bs with
    | nil => intro m; exact Fails.pure m
    | cons b bs ih =>
      intro m
      exact (fails_makeShape h b).bind fun s => (Fails.lift fun _ => addShapeIgnoring_error).bind fun m => ih m
  unfold ModelBuilder.build at he
  split at he
  · next e' hx => cases he; exact hb _ _ e hx
  · rw [addUnresolved_eq] at he
    exact .inl (addAllIgnoring_error he)

/-- An enumeration of sets of ids. -/
def enumFirst : List ShapeID → List ShapeID
  | [] => []
  | a :: l => if a ∈ enumFirst l then enumFirst l else a :: enumFirst l

theorem enumFirst_mem (l : List ShapeID) (i : ShapeID) : i ∈ enumFirst l ↔ i ∈ l := by
  induction l generalizing i with
  | nil => rfl
  | cons a l ih =>
    unfold enumFirst
    split
    · next h =>
      rw [ih] at h
      rw [ih, List.mem_cons]
      exact ⟨.inr, fun hx => hx.elim (fun he => he ▸ h) id⟩
    · simp [ih]

theorem enumFirst_enumerates : Enumerates enumFirst := by
  refine ⟨fun l => ?_, enumFirst_mem⟩
  induction l with
  | nil => exact List.nodup_nil
  | cons a l ih =>
    unfold enumFirst
    split
    · exact ih
    · next h => exact List.nodup_cons.mpr ⟨h, ih⟩

/-- A string and an integer shape with the same id: one entry has a local name, the other an absolute one. -/
def exConflict : ModelBuilder :=
  ⟨.v10, %s"ex", [], [(.local' (%s"S"), ⟨.local' (%s"S"), [], .simple .string⟩), (.qualified (sid (%s"S")), ⟨.qualified (sid (%s"S")), [], .simple .integer⟩)]⟩

/-- The same builder, enumerated in the other order. -/
def exConflict' : ModelBuilder := { exConflict with shapes := exConflict.shapes.reverse }

theorem exConflict_wf (mb : ModelBuilder) (hm : mb.metadata = [])
    (hs : AMap.Wf mb.shapes ∧ ∀ e ∈ mb.shapes, e.2.name = e.1 ∧ e.2.traits = [] ∧ ∃ s, e.2.body = .simple s) : WfBuilder mb := by
  refine WfBuilder.of_legal hs.1 (fun n b hb => (hs.2 _ (AMap.mem_of_get hb)).1) ?_ ?_ ?_
  · rw [hm]; exact AMap.wf_nil
  · rw [hm]; intro k v hv; cases hv
  · intro n b hb
    obtain ⟨h1, h2, s, h3⟩ := hs.2 _ (AMap.mem_of_get hb)
    simp only at h1 h2 h3
    refine ⟨?_, ?_, ?_, ?_⟩
    · intro h; rw [h3] at h; cases h
    · rw [h3]; trivial
    · rw [h2]; intro t v ht; cases ht
    · rw [h3]; intro m hm; cases hm

/-- C28 is violated: the two definitions conflict, both are entries of one builder, yet building succeeds; which
definition is kept depends on the order in which the hash map enumerates the entries. -/
theorem C28_conflict_dropped :
    WfBuilder exConflict ∧ WfBuilder exConflict' ∧ exConflict.shapes.Perm exConflict'.shapes ∧
    (∃ m, exConflict.build enumFirst = .ok m ∧ m.shape (sid (%s"S")) = some ⟨sid (%s"S"), [], .simple .string⟩) ∧
    (∃ m, exConflict'.build enumFirst = .ok m ∧ m.shape (sid (%s"S")) = some ⟨sid (%s"S"), [], .simple .integer⟩) ∧
    ¬ SameDef (.simple .string) (.simple .integer) := by
  refine ⟨exConflict_wf _ rfl ⟨by unfold AMap.Wf; decide, ?_⟩, exConflict_wf _ rfl ⟨by unfold AMap.Wf; decide, ?_⟩, ?_, ⟨_, rfl, rfl⟩, ⟨_, rfl, rfl⟩, ?_⟩
  · simp [exConflict]
  · simp [exConflict, exConflict']
  · exact (List.reverse_perm _).symm
  · intro h; cases h

/-- C28 is violated: adding a second shape or metadata value under the same name silently replaces the first. -/
theorem C28_insert_replaces (mb : ModelBuilder) (a b : Builder) (hab : a.name = b.name) (k : Str) (v w : Value) :
    (∀ n, ((mb.insert a).insert b).shapes.get n = (mb.insert b).shapes.get n) ∧
    (∀ j, ((mb.metaData k v).metaData k w).metadata.get j = (mb.metaData k w).metadata.get j) := by
  constructor
  · intro n
    simp only [ModelBuilder.insert, AMap.get_insert, hab]
    split <;> rfl
  · intro j
    simp only [ModelBuilder.metaData, AMap.get_insert]
    split <;> rfl

/-- C28: when no two entries stand for the same id, nothing is lost: the build has the shape of every
entry (see also `C25_entry_built`). -/
theorem C28_distinct_ids (mb : ModelBuilder) (h : WfBuilder mb) (enum : List ShapeID → List ShapeID) (he : Enumerates enum)
    (m : Model) (hb : mb.build enum = .ok m)
    (hd : ∀ n n' b b' id, mb.shapes.get n = some b → mb.shapes.get n' = some b' → BuildsId mb b id → BuildsId mb b' id → n = n')
    (n : ShapeName) (b : Builder) (hn : mb.shapes.get n = some b) :
    ∃ id, BuildsId mb b id ∧ (id.member = none ∨ b.body = .reference → ∃ s, m.shape id = some s ∧ BuildsShape mb b s) := by
  obtain ⟨ss, _, h1, _, _, _⟩ := build_parts h he hb
  have hk := h.key n b hn
  obtain ⟨s, _, hs⟩ := (listRel_split h1).1 b ((mem_values h).mpr (hk ▸ hn))
  exact ⟨s.id, hs.id, fun hm => C25_entry_built mb h enum he m hb n b s.id hn hs.id hm
    fun n' b' hn' hid' => hd n' n b' b s.id hn' hn hid' hs.id⟩

/-! ### C29: repeated traits -/

/-- C29, as the code has it: of several traits with the same id, in one builder entry, the last one replaces the others. -/
theorem C29_last_wins (mb : ModelBuilder) (h : WfBuilder mb) (enum : List ShapeID → List ShapeID) (he : Enumerates enum)
    (m : Model) (hb : mb.build enum = .ok m) (n : ShapeName) (b : Builder) (id : ShapeID) (hn : mb.shapes.get n = some b)
    (hid : BuildsId mb b id) (hmem : id.member = none ∨ b.body = .reference)
    (huniq : ∀ n' b', mb.shapes.get n' = some b' → BuildsId mb b' id → n' = n) :
    ∃ s, m.shape id = some s ∧ ∀ t v, s.traits.get t = some v ↔
      ∃ pre tb post, b.traits = pre ++ tb :: post ∧ TraitTarget mb tb.name t ∧ tb.value = v ∧
        ∀ x ∈ post, ¬ TraitTarget mb x.name t := by
  obtain ⟨s, hs, hs'⟩ := C25_entry_built mb h enum he m hb n b id hn hid hmem huniq
  exact ⟨s, hs, fun t v => hs'.traits.last t v⟩

/-- C29: when the traits of an entry stand for different ids, each gets its own value, so the
conflict rules are vacuously respected. -/
theorem C29_distinct_traits (mb : ModelBuilder) (h : WfBuilder mb) (enum : List ShapeID → List ShapeID) (he : Enumerates enum)
    (m : Model) (hb : mb.build enum = .ok m) (n : ShapeName) (b : Builder) (id : ShapeID) (hn : mb.shapes.get n = some b)
    (hid : BuildsId mb b id) (hmem : id.member = none ∨ b.body = .reference)
    (huniq : ∀ n' b', mb.shapes.get n' = some b' → BuildsId mb b' id → n' = n)
    (hdist : b.traits.Pairwise fun x y => ∀ t, TraitTarget mb x.name t → ¬ TraitTarget mb y.name t) :
    ∃ s, m.shape id = some s ∧ ∀ t v, s.traits.get t = some v ↔ ∃ tb ∈ b.traits, TraitTarget mb tb.name t ∧ tb.value = v := by
  obtain ⟨s, hs, hl⟩ := C29_last_wins mb h enum he m hb n b id hn hid hmem huniq
  refine ⟨s, hs, fun t v => (hl t v).trans ?_⟩
  constructor
  · rintro ⟨pre, tb, post, he, ht, hv, _⟩
    exact ⟨tb, by rw [he]; simp, ht, hv⟩
  · rintro ⟨tb, htb, ht, hv⟩
    obtain ⟨pre, post, he⟩ := List.append_of_mem htb
    refine ⟨pre, tb, post, he, ht, hv, fun x hx => ?_⟩
    rw [he, List.pairwise_append] at hdist
    exact (List.pairwise_cons.mp hdist.2.1).1 x hx t ht

/-- A string with the `tags` trait applied twice. -/
def exTags : ModelBuilder :=
  ⟨.v10, %s"ex", [], [(.local' (%s"S"), ⟨.local' (%s"S"),
    [⟨.local' (%s"tags"), some (.array [.string (%s"a")])⟩, ⟨.local' (%s"tags"), some (.array [.string (%s"b")])⟩,
     ⟨.local' (%s"title"), some (.string (%s"a"))⟩, ⟨.local' (%s"title"), some (.string (%s"b"))⟩], .simple .string⟩)]⟩

/-- C29 is violated: repeated arrays are not concatenated, and repeated different values are not reported. The conflict
rules require otherwise. -/
theorem C29_rules_violated :
    (∃ m, exTags.build enumFirst = .ok m ∧
      (m.shape (sid (%s"S"))).map (·.traits.get (tid (%s"tags"))) = some (some (some (.array [.string (%s"b")]))) ∧
      (m.shape (sid (%s"S"))).map (·.traits.get (tid (%s"title"))) = some (some (some (.string (%s"b"))))) ∧
    TraitMerge (some (.array [.string (%s"a")])) (some (.array [.string (%s"b")]))
      (some (.array [.string (%s"a"), .string (%s"b")])) ∧
    ¬ ∃ c, TraitMerge (some (.string (%s"a"))) (some (.string (%s"b"))) c := by
  refine ⟨⟨_, rfl, rfl, rfl⟩, .concat, ?_⟩
  rintro ⟨c, hc⟩
  cases hc with
  | equal _ h =>
    cases h

end Verif
