/-
When a model can be written as JSON (C32 for whole models).
-/
import Verif.JsonProps

namespace Verif
open Spec JsonWriter

/-- The computation panics if `bad`, and otherwise gives a result. -/
def PanicsIf {α : Type} (r : Except Err α) (bad : Prop) : Prop := (bad → r = .error .panic) ∧ (¬ bad → ∃ x, r = .ok x)

namespace PanicsIf
variable {α β : Type}

theorem ok (x : α) : PanicsIf (.ok x : Except Err α) False := ⟨nofun, fun _ => ⟨x, rfl⟩⟩

theorem congr {r : Except Err α} {P Q : Prop} (h : PanicsIf r P) (hpq : P ↔ Q) : PanicsIf r Q :=
  ⟨fun hq => h.1 (hpq.mpr hq), fun hq => h.2 (mt hpq.mp hq)⟩

/-- A computation that goes on from a result. -/
theorem andThen {r : Except Err α} {s : Except Err β} {P Q : Prop} (h : PanicsIf r P) (he : r = .error .panic → s = .error .panic)
    (ho : ∀ x, r = .ok x → PanicsIf s Q) : PanicsIf s (P ∨ Q) := by
  constructor
  · intro hpq
    by_cases hp : P
    · exact he (h.1 hp)
    · obtain ⟨x, hx⟩ := h.2 hp
      exact (ho x hx).1 (hpq.resolve_left hp)
  · intro hpq
    obtain ⟨x, hx⟩ := h.2 fun hp => hpq (.inl hp)
    exact (ho x hx).2 fun hq => hpq (.inr hq)

/-- A computation that goes on from a result without failing. -/
theorem thenOk {r : Except Err α} {s : Except Err β} {P : Prop} (h : PanicsIf r P) (he : r = .error .panic → s = .error .panic)
    (ho : ∀ x, r = .ok x → ∃ y, s = .ok y) : PanicsIf s P :=
  ⟨fun hp => he (h.1 hp), fun hp => let ⟨x, hx⟩ := h.2 hp; ho x hx⟩

theorem mapE {f : α → Except Err β} {l : List α} {P : α → Prop} (h : ∀ x ∈ l, PanicsIf (f x) (P x)) :
    PanicsIf (Verif.mapE f l) (∃ x ∈ l, P x) := by
  induction l with
  | nil => exact (ok []).congr (by simp)
  | cons x xs ih =>
    have hx := h x (by simp)
    have ih := ih fun y hy => h y (by simp [hy])
    refine (hx.andThen (fun e => by simp [Verif.mapE, e]) fun y hy => ih.thenOk (fun e => by simp [Verif.mapE, hy, e])
      fun ys hys => (by simp only [Verif.mapE, hy, hys]; exact ⟨_, rfl⟩)).congr ?_
    simp

theorem okMap {r : Except Err α} {P : Prop} (h : PanicsIf r P) (g : α → β) : PanicsIf (Verif.okMap g r) P := by
  constructor
  · intro hp; rw [h.1 hp]; rfl
  · intro hp
    obtain ⟨x, hx⟩ := h.2 hp
    exact ⟨g x, by rw [hx]; rfl⟩

end PanicsIf

theorem fromValue_outcome (v : Value) : PanicsIf (fromValue v) (NonFinite v) := by
  refine ⟨fromValue_panics v, fun h => ?_⟩
  cases hv : fromValue v with
  | ok j => exact ⟨j, rfl⟩
  | error e => exact absurd (fromValue_error v e hv).2 h

theorem fromTraitValue_outcome (t : TraitValue) : PanicsIf (fromTraitValue t) (∃ v, t = some v ∧ NonFinite v) := by
  cases t with
  | none => exact (PanicsIf.ok _).congr (by simp)
  | some v => exact (fromValue_outcome v).congr (by simp)

theorem optTraits_outcome {ts : Traits} (hw : AMap.Wf ts) : PanicsIf (optTraits ts) (¬ TraitsAll (fun v => ¬ NonFinite v) ts) := by
  have h1 : PanicsIf (fromTraits ts) (¬ TraitsAll (fun v => ¬ NonFinite v) ts) := by
    have hm := PanicsIf.mapE (f := fun e : ShapeID × TraitValue => okMap (fun j => (e.1.display, j)) (fromTraitValue e.2)) (l := ts)
      fun e _ => (fromTraitValue_outcome e.2).okMap _
    refine (hm.thenOk (fun e => by simp [fromTraits, e]) fun x e => (by simp only [fromTraits, e]; exact ⟨_, rfl⟩)).congr ?_
    simp only [TraitsAll, Classical.not_forall, Classical.not_not]
    constructor
    · rintro ⟨⟨id, t⟩, he, v, rfl, hn⟩
      exact ⟨id, v, (AMap.mem_iff_get hw _ _).mp he, hn⟩
    · rintro ⟨id, v, hg, hn⟩
      exact ⟨(id, some v), AMap.mem_of_get hg, v, rfl, hn⟩
  unfold optTraits
  split
  · rename_i he
    refine (PanicsIf.ok none).congr ?_
    rw [List.isEmpty_iff] at he
    subst he
    simp [TraitsAll]
  · exact h1.thenOk (fun e => by simp [e]) fun x e => (by simp only [e]; exact ⟨_, rfl⟩)

theorem fromMember_outcome {m : MemberShape} (hw : AMap.Wf m.traits) : PanicsIf (fromMember m) (¬ TraitsAll (fun v => ¬ NonFinite v) m.traits) :=
  (optTraits_outcome hw).thenOk (fun e => by simp [fromMember, e]) fun x e => (by simp only [fromMember, e]; exact ⟨_, rfl⟩)

theorem optMembers_outcome {ms : AMap Str MemberShape} (hw : AMap.Wf ms) (hm : ∀ k m, ms.get k = some m → AMap.Wf m.traits) :
    PanicsIf (optMembers ms) (¬ ∀ k m, ms.get k = some m → TraitsAll (fun v => ¬ NonFinite v) m.traits) := by
  have h1 : PanicsIf (fromMembers (AMap.values ms)) (¬ ∀ k m, ms.get k = some m → TraitsAll (fun v => ¬ NonFinite v) m.traits) := by
    have h := PanicsIf.mapE (f := fun m : MemberShape => okMap (fun j => (m.id, j)) (fromMember m)) (l := AMap.values ms)
      (P := fun m => ¬ TraitsAll (fun v => ¬ NonFinite v) m.traits)
      fun m hmem => by
        obtain ⟨⟨k, m'⟩, he, rfl⟩ := List.mem_map.mp hmem
        exact (fromMember_outcome (hm k m' ((AMap.mem_iff_get hw _ _).mp he))).okMap _
    refine (h.thenOk (fun e => by simp [fromMembers, e]) fun x e => (by simp only [fromMembers, e]; exact ⟨_, rfl⟩)).congr ?_
    simp only [Classical.not_forall]
    constructor
    · rintro ⟨m, hmem, hn⟩
      obtain ⟨⟨k, m'⟩, he, rfl⟩ := List.mem_map.mp hmem
      exact ⟨k, m', (AMap.mem_iff_get hw _ _).mp he, hn⟩
    · rintro ⟨k, m, hg, hn⟩
      exact ⟨m, List.mem_map.mpr ⟨(k, m), AMap.mem_of_get hg, rfl⟩, hn⟩
  unfold optMembers
  split
  · rename_i he
    refine (PanicsIf.ok none).congr ?_
    rw [List.isEmpty_iff] at he
    subst he
    simp
  · exact h1.thenOk (fun e => by simp [e]) fun x e => (by simp only [e]; exact ⟨_, rfl⟩)

theorem fromKind_outcome {k : ShapeKind} (hw : WfKind k) : PanicsIf (fromKind k) (¬ KindAll (fun v => ¬ NonFinite v) k) := by
  cases k with
  | list m => exact (fromMember_outcome hw.nodup).thenOk (fun e => by simp [fromKind, e]) fun x e => (by simp only [fromKind, e]; exact ⟨_, rfl⟩)
  | set m => exact (fromMember_outcome hw.nodup).thenOk (fun e => by simp [fromKind, e]) fun x e => (by simp only [fromKind, e]; exact ⟨_, rfl⟩)
  | map k v =>
    refine ((fromMember_outcome hw.1.nodup).andThen (fun e => by simp [fromKind, e]) fun x e =>
      (fromMember_outcome hw.2.nodup).thenOk (fun e' => by simp [fromKind, e, e']) fun y e' => (by simp only [fromKind, e, e']; exact ⟨_, rfl⟩)).congr ?_
    simp only [KindAll]
    exact Classical.not_and_iff_not_or_not.symm
  | struct ms =>
    exact (optMembers_outcome hw.nodup fun k m h => (hw.traits k m h).nodup).thenOk (fun e => by simp [fromKind, e]) fun x e => (by simp only [fromKind, e]; exact ⟨_, rfl⟩)
  | union ms =>
    exact (optMembers_outcome hw.nodup fun k m h => (hw.traits k m h).nodup).thenOk (fun e => by simp [fromKind, e]) fun x e => (by simp only [fromKind, e]; exact ⟨_, rfl⟩)
  | _ => exact (PanicsIf.ok _).congr (by simp [KindAll])

theorem fromShape_outcome {s : TopLevelShape} (hw : WfShape s) :
    PanicsIf (fromShape s) (¬ (TraitsAll (fun v => ¬ NonFinite v) s.traits ∧ KindAll (fun v => ¬ NonFinite v) s.body)) := by
  refine ((optTraits_outcome hw.traits.nodup).andThen (fun e => by simp [fromShape, e]) fun t e =>
    (fromKind_outcome hw.body).thenOk (fun e' => by simp [fromShape, e, e']) fun l e' => (by simp only [fromShape, e, e']; exact ⟨_, rfl⟩)).congr ?_
  exact Classical.not_and_iff_not_or_not.symm

theorem modelToJson_outcome {m : Model} (hw : WfModel m) : PanicsIf (modelToJson m) (¬ FiniteModel m) := by
  have h1 : PanicsIf (optMetadata m) (¬ ∀ k v, m.metadata.get k = some v → ¬ NonFinite v) := by
    have h : PanicsIf (fromEntries m.metadata) (¬ ∀ k v, m.metadata.get k = some v → ¬ NonFinite v) := by
      rw [fromEntries_eq]
      refine (PanicsIf.mapE (P := fun e : Str × Value => NonFinite e.2) fun e _ => ?_).congr ?_
      · obtain ⟨k, v⟩ := e
        exact (fromValue_outcome v).thenOk (fun e => by simp [fromEntry, e]) fun x e => (by simp only [fromEntry, e]; exact ⟨_, rfl⟩)
      · simp only [Classical.not_forall, Classical.not_not]
        constructor
        · rintro ⟨⟨k, v⟩, he, hn⟩
          exact ⟨k, v, (AMap.mem_iff_get hw.metaNodup _ _).mp he, hn⟩
        · rintro ⟨k, v, hg, hn⟩
          exact ⟨(k, v), AMap.mem_of_get hg, hn⟩
    unfold optMetadata
    split
    · exact h.thenOk (fun e => by simp [e]) fun x e => (by simp only [e]; exact ⟨_, rfl⟩)
    · rename_i he
      refine (PanicsIf.ok none).congr ?_
      have : m.metadata = [] := by simpa [Model.hasMetadata] using he
      simp [this]
  have h2 : PanicsIf (fromShapes m) (¬ ∀ id s, m.shape id = some s → TraitsAll (fun v => ¬ NonFinite v) s.traits ∧ KindAll (fun v => ¬ NonFinite v) s.body) := by
    have h := PanicsIf.mapE (f := fun s : TopLevelShape => okMap (fun j => (s.id.display, j)) (fromShape s)) (l := m.shapesList)
      (P := fun s => ¬ (TraitsAll (fun v => ¬ NonFinite v) s.traits ∧ KindAll (fun v => ¬ NonFinite v) s.body))
      fun s hs => (fromShape_outcome (hw.shapes _ _ ((mem_shapesList hw s).mp hs))).okMap _
    refine (h.thenOk (fun e => by simp [fromShapes, e]) fun x e => (by simp only [fromShapes, e]; exact ⟨_, rfl⟩)).congr ?_
    simp only [Classical.not_forall]
    constructor
    · rintro ⟨s, hs, hn⟩
      exact ⟨s.id, s, (mem_shapesList hw s).mp hs, hn⟩
    · rintro ⟨id, s, hg, hn⟩
      refine ⟨s, (mem_shapesList hw s).mpr ?_, hn⟩
      rw [hw.key _ _ hg]; exact hg
  refine (h1.andThen (fun e => by simp [modelToJson, e]) fun md e =>
    h2.thenOk (fun e' => by simp [modelToJson, e, e']) fun ss e' => (by simp only [modelToJson, e, e']; exact ⟨_, rfl⟩)).congr ?_
  simp only [FiniteModel, ModelAll]
  exact Classical.not_and_iff_not_or_not.symm

/-- C32: writing a whole model as JSON panics exactly if a NaN or an infinity is anywhere in its metadata, in the traits of a shape or in
those of a member; otherwise a document is written. -/
theorem C32_model_panics_iff (m : Model) (hw : WfModel m) :
    (modelToJson m = .error .panic ↔ ¬ FiniteModel m) ∧ (FiniteModel m → ∃ j, modelToJson m = .ok j) ∧
    ∀ e, modelToJson m = .error e → e = .panic := by
  have h := modelToJson_outcome hw
  refine ⟨⟨fun he hf => ?_, h.1⟩, fun hf => h.2 (fun hn => hn hf), fun e he => ?_⟩
  · obtain ⟨j, hj⟩ := h.2 (fun hn => hn hf)
    rw [he] at hj; cases hj
  · by_cases hf : FiniteModel m
    · obtain ⟨j, hj⟩ := h.2 (fun hn => hn hf)
      rw [he] at hj; cases hj
    · rw [h.1 hf] at he; cases he; rfl

/-- The hypothesis is met by models of both kinds: `exJsonModel`, and the same with an infinity in its metadata. -/
example : (∃ j, modelToJson exJsonModel = .ok j) ∧
    ∃ x, x.isFinite = false ∧ WfModel { exJsonModel with metadata := [(%s"k", .array [.number (.float x)])] } ∧
      modelToJson { exJsonModel with metadata := [(%s"k", .array [.number (.float x)])] } = .error .panic := by
  obtain ⟨hw, hv, hf, -⟩ := exJsonModel_ok
  refine ⟨(C32_model_panics_iff _ hw).2.1 hf, ⟨0x7FF0000000000000⟩, rfl, ?_⟩
  have hw' : WfModel { exJsonModel with metadata := [(%s"k", .array [.number (.float ⟨0x7FF0000000000000⟩)])] } := by
    refine ⟨by unfold AMap.Wf; decide, ?_, hw.nodup, hw.key, hw.member, hw.shapes⟩
    intro k v h
    obtain ⟨_, rfl⟩ := get_one h
    exact .array (by simpa using Value.Wf.number (n := .float _) trivial)
  refine ⟨hw', (C32_model_panics_iff _ hw').1.mpr fun hf => hf.1 %s"k" _ rfl (.array (List.mem_singleton.mpr rfl) (.here rfl))⟩

end Verif
