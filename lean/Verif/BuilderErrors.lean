/-
C102: the errors of the model builder say which name of which shape is wrong.
-/
import Verif.BuilderConflicts

namespace Verif
open Spec Mk

namespace Spec

/-- What is wrong with a name that a builder mentions: it is absolute and of a member; or it is relative, and two different imported shapes
have it. -/
inductive BadName (mb : ModelBuilder) : ShapeName → Err → Prop
  | member {id : ShapeID} : id.member ≠ none → BadName mb (.qualified id) (.shapeIDExpected id)
  | ambiguous {n i j} : Imports mb n i → Imports mb n j → i ≠ j → BadName mb (.local' n) (.ambiguousShape n)

/-- One of the shapes of the builder mentions a bad name. -/
def BuilderFault (mb : ModelBuilder) (e : Err) : Prop :=
  ∃ n b tr name, mb.shapes.get n = some b ∧ Mentions b tr name ∧ BadName mb name e

end Spec

/-- Everything but a panic has the cause. -/
def Because {α : Type} (P : Err → Prop) (x : Mk α) : Prop := ∀ e, x = Except.error e → e = .panic ∨ P e

section
variable {P : Err → Prop}

theorem Because.pure {α : Type} (a : α) : Because P (pure a : Mk α) := fun e h => (by cases h)

theorem Because.bind {α β : Type} {x : Mk α} {f : α → Mk β} (hx : Because P x) (hf : ∀ a, Because P (f a)) : Because P (x >>= f) := by
  intro e he
  rcases bind_error.mp he with he | ⟨a, _, _, he⟩
  · exact hx e he
  · exact hf a e he

theorem Because.mapL {α β : Type} {f : α → Mk β} {l : List α} (hf : ∀ a ∈ l, Because P (f a)) : Because P (Mk.mapL f l) := by
  induction l with
  | nil => exact Because.pure []
  | cons a l ih => exact (hf a (by simp)).bind fun b => (ih fun x hx => hf x (by simp [hx])).bind fun bs => Because.pure _

theorem Because.mapO {α β : Type} {f : α → Mk β} {o : Option α} (hf : ∀ a ∈ o.toList, Because P (f a)) : Because P (Mk.mapO f o) := by
  cases o with
  | none => exact Because.pure none
  | some a => exact (hf a (by simp)).bind fun b => Because.pure _

theorem Because.lift {α : Type} {x : Except Err α} (h : ∀ e, x = .error e → e = .panic) : Because P (Mk.lift x) := by
  intro e he
  cases x with
  | ok a => cases he
  | error e' => cases he; exact .inl (h _ rfl)

end

section
variable {mb : ModelBuilder} {P : Err → Prop}

theorem because_resolve (h : WfBuilder mb) (tr : Bool) (n : ShapeName) (hp : ∀ e, BadName mb n e → P e) : Because P (mb.resolve tr n) := by
  intro e he
  unfold ModelBuilder.resolve at he
  split at he
  · cases he
  · next e' he' =>
    cases he
    right
    rcases (C24_resolution_fails mb h tr n e).mp he' with ⟨id, rfl, hm, rfl⟩ | ⟨l, i, j, rfl, h1, h2, h3, rfl⟩
    · exact hp _ (.member hm)
    · exact hp _ (.ambiguous h1 h2 h3)

theorem because_makeTraits (h : WfBuilder mb) (ts : List TraitBuilder) (hp : ∀ t ∈ ts, ∀ e, BadName mb t.name e → P e) :
    Because P (mb.makeTraits ts) :=
  (Because.mapL (f := mb.makeTrait) fun t ht => (because_resolve h true t.name (hp t ht)).bind fun _ => Because.pure _).bind fun _ => Because.pure _

theorem because_makeMember (h : WfBuilder mb) (m : MemberBuilder) (hp : ∀ e, BadName mb m.target e → P e)
    (ht : ∀ t ∈ m.traits, ∀ e, BadName mb t.name e → P e) : Because P (mb.makeMember m) :=
  (because_resolve h false m.target hp).bind fun _ => (because_makeTraits h m.traits ht).bind fun _ => Because.pure _

theorem because_makeBody (h : WfBuilder mb) (b : BuilderBody)
    (hm : ∀ m ∈ memberBuilders b, (∀ e, BadName mb m.target e → P e) ∧ ∀ t ∈ m.traits, ∀ e, BadName mb t.name e → P e)
    (ht : ∀ n ∈ targetNames b, ∀ e, BadName mb n e → P e) : Because P (mb.makeBody b) := by
  have hr : ∀ n ∈ targetNames b, Because P (mb.resolve false n) := fun n hn => because_resolve h false n (ht n hn)
  have hmm : ∀ m ∈ memberBuilders b, Because P (mb.makeMember m) := fun m hx => because_makeMember h m (hm m hx).1 (hm m hx).2
  cases b with
  | simple s => exact Because.pure _
  | list m => exact (hmm m (by simp [memberBuilders])).bind fun _ => (Because.lift fun _ => listFrom_error).bind fun _ => Because.pure _
  | set m => exact (hmm m (by simp [memberBuilders])).bind fun _ => (Because.lift fun _ => listFrom_error).bind fun _ => Because.pure _
  | map k v =>
    have hk := hm k (by simp [memberBuilders])
    have hv := hm v (by simp [memberBuilders])
    exact ((because_resolve h false _ hk.1).bind fun _ => (because_resolve h false _ hv.1).bind fun _ =>
      (because_makeTraits h _ hk.2).bind fun _ => (because_makeTraits h _ hv.2).bind fun _ => Because.pure _).bind fun _ => Because.pure _
  | struct ms => exact (Because.mapL fun m hx => hmm m hx).bind fun _ => Because.pure _
  | union ms => exact (Because.mapL fun m hx => hmm m hx).bind fun _ => Because.pure _
  | service v o r n =>
    have ho : ∀ x ∈ o, Because P (mb.resolve false x) := fun x hx => hr x (by simp [targetNames, hx])
    have hre : ∀ x ∈ r, Because P (mb.resolve false x) := fun x hx => hr x (by simp [targetNames, hx])
    exact (Because.lift fun _ => serviceNew_error).bind fun _ => (Because.mapL ho).bind fun _ => (Because.mapL hre).bind fun _ => Because.pure _
  | operation i o e =>
    have hi : ∀ x ∈ i.toList, Because P (mb.resolve false x) := fun x hx => hr x (by simp only [targetNames, List.mem_append]; simp [hx])
    have ho : ∀ x ∈ o.toList, Because P (mb.resolve false x) := fun x hx => hr x (by simp only [targetNames, List.mem_append]; simp [hx])
    have he : ∀ x ∈ e, Because P (mb.resolve false x) := fun x hx => hr x (by simp only [targetNames, List.mem_append]; simp [hx])
    exact (Because.mapO hi).bind fun _ => (Because.mapO ho).bind fun _ => (Because.mapL he).bind fun _ => Because.pure _
  | resource ids c p r u d l o co rs =>
    have hids : ∀ x ∈ ids, Because P (mb.resolve false x.2) := fun x hx =>
      hr _ (by simp only [targetNames, List.mem_append, List.mem_map]; simp [show ∃ a, (a, x.2) ∈ ids from ⟨x.1, hx⟩])
    have hc : ∀ x ∈ c.toList, Because P (mb.resolve false x) := fun x hx => hr x (by simp only [targetNames, List.mem_append]; simp [hx])
    have hp : ∀ x ∈ p.toList, Because P (mb.resolve false x) := fun x hx => hr x (by simp only [targetNames, List.mem_append]; simp [hx])
    have hrd : ∀ x ∈ r.toList, Because P (mb.resolve false x) := fun x hx => hr x (by simp only [targetNames, List.mem_append]; simp [hx])
    have hu : ∀ x ∈ u.toList, Because P (mb.resolve false x) := fun x hx => hr x (by simp only [targetNames, List.mem_append]; simp [hx])
    have hd : ∀ x ∈ d.toList, Because P (mb.resolve false x) := fun x hx => hr x (by simp only [targetNames, List.mem_append]; simp [hx])
    have hl : ∀ x ∈ l.toList, Because P (mb.resolve false x) := fun x hx => hr x (by simp only [targetNames, List.mem_append]; simp [hx])
    have ho : ∀ x ∈ o, Because P (mb.resolve false x) := fun x hx => hr x (by simp only [targetNames, List.mem_append]; simp [hx])
    have hco : ∀ x ∈ co, Because P (mb.resolve false x) := fun x hx => hr x (by simp only [targetNames, List.mem_append]; simp [hx])
    have hrs : ∀ x ∈ rs, Because P (mb.resolve false x) := fun x hx => hr x (by simp only [targetNames, List.mem_append]; simp [hx])
    exact (Because.mapL fun e he => (hids e he).bind fun _ => Because.pure _).bind fun _ => (Because.mapO hc).bind fun _ =>
      (Because.mapO hp).bind fun _ => (Because.mapO hrd).bind fun _ => (Because.mapO hu).bind fun _ =>
      (Because.mapO hd).bind fun _ => (Because.mapO hl).bind fun _ => (Because.mapL ho).bind fun _ =>
      (Because.mapL hco).bind fun _ => (Because.mapL hrs).bind fun _ => Because.pure _
  | reference => exact Because.pure _

theorem because_makeShape (h : WfBuilder mb) (b : Builder) (hp : ∀ tr n, Mentions b tr n → ∀ e, BadName mb n e → P e) :
    Because P (mb.makeShape b) := by
  refine Because.bind ?_ fun _ => (because_makeBody h b.body (fun m hm => ⟨hp _ _ (.memberTarget hm), fun t ht => hp _ _ (.memberTrait hm ht)⟩)
    fun n hn => hp _ _ (.target hn)).bind fun _ => (because_makeTraits h b.traits fun t ht => hp _ _ (.trait ht)).bind fun _ => Because.pure _
  intro e he
  by_cases hb : b.body = .reference
  · unfold ModelBuilder.makeId at he
    cases hn : b.name <;> rw [hb, hn] at he
    · cases he
    · cases he; exact .inl rfl
  · refine because_resolve h false b.name (hp _ _ (.name hb)) e ?_
    unfold ModelBuilder.makeId at he
    cases hb' : b.body <;> simp only [hb'] at he <;> first | exact he | exact absurd hb' hb

end

/-- C102: when building fails, it panics, or the error is about a name mentioned by one of the shapes: the name is absolute and of a member
(the error gives the id), or it is relative and two different imported shapes have it (the error gives the name). Conversely when a name
is bad, building fails. -/
theorem C102_builder (mb : ModelBuilder) (h : WfBuilder mb) (enum : List ShapeID → List ShapeID) (he : Enumerates enum) :
    (∀ e, mb.build enum = .error e → e = .panic ∨ BuilderFault mb e) ∧
    ((∃ e, BuilderFault mb e) → ∃ e, mb.build enum = .error e) := by
  constructor
  · intro e hbuild
    have hb : ∀ (bs : List Builder) (m : Model), (∀ b ∈ bs, ∃ n, mb.shapes.get n = some b) → Because (BuilderFault mb) (mb.addBuilt m bs) := by
      intro bs
      induction bs with
      | nil => intro m _; exact Because.pure m
      | cons b bs ih =>
        intro m hin
        obtain ⟨n, hn⟩ := hin b (by simp)
        exact (because_makeShape h b fun tr name hm e hf => ⟨n, b, tr, name, hn, hm, hf⟩).bind fun s =>
          (Because.lift fun _ => addShapeIgnoring_error).bind fun m => ih m fun x hx => hin x (by simp [hx])
    unfold ModelBuilder.build at hbuild
    split at hbuild
    · next e' hx =>
      cases hbuild
      refine hb _ _ ?_ e hx
      intro b hb
      exact ⟨_, (mem_values h).mp hb⟩
    · rw [addUnresolved_eq] at hbuild
      exact .inl (addAllIgnoring_error hbuild)
  · rintro ⟨e, n, b, tr, name, hn, hm, hf⟩
    cases hbuild : mb.build enum with
    | error e' => exact ⟨e', rfl⟩
    | ok m =>
      exfalso
      obtain ⟨id, new, hr⟩ := ((C25_build_needs_names mb h enum he).1 m hbuild n b hn).names tr name hm
      cases hf with
      | member hid => cases hr with | absolute h => exact hid h
      | ambiguous h1 h2 h3 =>
        cases hr with
        | imported _ hu => exact h3 ((hu _ h1).trans (hu _ h2).symm)
        | defined h => exact h _ h1
        | «prelude» h => exact h _ h1
        | unknown h => exact h _ h1

/-- Two imports with the same name, and a list of that name. -/
def exAmbiguous : ModelBuilder :=
  ⟨.v10, %s"ex", [], [(.qualified ⟨%s"a", %s"T", none⟩, ⟨.qualified ⟨%s"a", %s"T", none⟩, [], .reference⟩),
    (.qualified ⟨%s"b", %s"t", none⟩, ⟨.qualified ⟨%s"b", %s"t", none⟩, [], .reference⟩),
    (.local' %s"L", ⟨.local' %s"L", [], .list ⟨%s"member", [], .local' %s"T"⟩⟩)]⟩

/-- C102: a builder with a bad name (names are compared without regard to case). -/
theorem C102_builder_example :
    exAmbiguous.build enumFirst = .error (.ambiguousShape %s"T") ∧ BuilderFault exAmbiguous (.ambiguousShape %s"T") :=
  ⟨by rfl, .local' %s"L", _, false, .local' %s"T", rfl, .memberTarget (m := ⟨%s"member", [], .local' %s"T"⟩) (by simp [memberBuilders]),
    .ambiguous (i := ⟨%s"a", %s"T", none⟩) (j := ⟨%s"b", %s"t", none⟩) ⟨_, rfl, rfl, by unfold SameName; decide⟩ ⟨_, rfl, rfl, by unfold SameName; decide⟩ (by decide)⟩

end Verif
