/-
Property theorems C97, C98: models merged one after the other (`Model::merge`, atelier-core/src/model/mod.rs:91-110, as done by
the assembler, atelier-assembler/src/lib.rs:304-327), in any order and in any grouping.
-/
import Verif.JoinLemmas
import Mathlib.Data.List.Perm.Basic

namespace Verif
open Spec

theorem Spec.MetaMerge.unique {x y z z' : Value} (h : MetaMerge x y z) (h' : MetaMerge x y z') : z = z' := by
  cases h with
  | concat => cases h' with
    | concat => rfl
    | equal hn => exact absurd ⟨rfl, rfl⟩ hn
  | equal hn => cases h' with
    | concat => exact absurd ⟨rfl, rfl⟩ hn
    | equal => rfl

theorem Spec.TraitMerge.unique {x y z z' : TraitValue} (h : TraitMerge x y z) (h' : TraitMerge x y z') : z = z' := by
  cases h with
  | concat => cases h' with
    | concat => rfl
    | equal hn => exact absurd ⟨rfl, rfl⟩ hn
  | valueless => cases h'; rfl
  | equal hn => cases h' with
    | concat => exact absurd ⟨rfl, rfl⟩ hn
    | equal => rfl

theorem Spec.BodyMerge.unique {x y z z' : ShapeKind} (h : BodyMerge x y z) (h' : BodyMerge x y z') : z = z' := by
  cases h with
  | same h1 h2 => cases h' with
    | same => rfl
    | resolve => exact absurd rfl h1
    | keep => rfl
  | resolve h1 => cases h' with
    | same h => exact absurd rfl h
    | resolve => rfl
    | keep => exact absurd rfl h1
  | keep => cases h' with
    | same _ h => exact absurd rfl h
    | resolve h => exact absurd rfl h
    | keep => rfl

theorem combine_step {V R : Type} {M : V → V → V → Prop} {J : List V → R → Prop}
    (hstep : ∀ x y vs o, J (x :: y :: vs) o ↔ ∃ z, M x y z ∧ J (z :: vs) o)
    (huniq : ∀ x y z z', M x y z → M x y z' → z = z') {A B C : Option V} (h : Combine M A B C) (vs : List V) (o : R) :
    J (A.toList ++ (B.toList ++ vs)) o ↔ J (C.toList ++ vs) o := by
  cases h with
  | neither => rfl
  | left => rfl
  | right => rfl
  | @both a b c hm =>
    simp only [Option.toList_some, List.singleton_append]
    rw [hstep]
    constructor
    · rintro ⟨z, hz, h⟩; rw [huniq _ _ _ _ hm hz]; exact h
    · intro h; exact ⟨c, hm, h⟩

theorem filterMap_cons' {α β : Type} (f : α → Option β) (x : α) (l : List α) :
    (x :: l).filterMap f = (f x).toList ++ l.filterMap f := by
  cases h : f x <;> simp [h]

theorem Spec.ShapeMerge.trait {x y z : TopLevelShape} (h : ShapeMerge x y z) (t : ShapeID) :
    Combine TraitMerge (x.traits.get t) (y.traits.get t) (z.traits.get t) := h.traits t

theorem combine_body {A B C : Option TopLevelShape} (h : Combine ShapeMerge A B C) :
    Combine BodyMerge (A.map (·.body)) (B.map (·.body)) (C.map (·.body)) := by
  cases h with
  | neither => exact .neither
  | left => exact .left
  | right => exact .right
  | both h => exact .both h.body

theorem combine_trait {A B C : Option TopLevelShape} (h : Combine ShapeMerge A B C) (t : ShapeID) :
    Combine TraitMerge (A.bind fun s => s.traits.get t) (B.bind fun s => s.traits.get t) (C.bind fun s => s.traits.get t) := by
  cases h with
  | neither => exact .neither
  | @left a => simp only [Option.bind_some, Option.bind_none]; cases AMap.get a.traits t <;> constructor
  | @right a => simp only [Option.bind_some, Option.bind_none]; cases AMap.get a.traits t <;> constructor
  | both h => exact h.trait t

theorem joinedShape_step {id : ShapeID} {A B C : Option TopLevelShape} (h : Combine ShapeMerge A B C) (ss : List TopLevelShape)
    (o : Option TopLevelShape) (hj : JoinedShape id (C.toList ++ ss) o) : JoinedShape id (A.toList ++ (B.toList ++ ss)) o := by
  cases h with
  | neither => exact hj
  | left => exact hj
  | right => exact hj
  | @both a b c hm =>
    simp only [Option.toList_some, List.singleton_append] at hj ⊢
    generalize hl : c :: ss = l at hj
    cases hj with
    | nothing => cases hl
    | shape hn hid hb ht =>
      subst hl
      refine .shape (by simp) hid ?_ ?_
      · simp only [List.map_cons] at hb ⊢
        exact (joinedBody_step _ _ _ _).mpr ⟨_, hm.body, hb⟩
      · intro t
        have := ht t
        rw [filterMap_cons'] at this
        rw [filterMap_cons', filterMap_cons']
        exact (combine_step joinedTrait_step (fun _ _ _ _ => TraitMerge.unique) (hm.trait t) _ _).mpr this

theorem joinedShape_single {id : ShapeID} {s : TopLevelShape} (hid : s.id = id) : JoinedShape id [s] (some s) := by
  refine .shape (by simp) hid (joinedBody_single _) fun t => ?_
  rw [filterMap_cons']
  cases AMap.get s.traits t with
  | none => exact .nothing
  | some v => exact joinedTrait_single v

/-- Merging into `a` one after the other. -/
theorem merges_joins (ms : List Model) : ∀ (a : Model), WfModel a → (∀ m ∈ ms, WfModel m) →
    ((∃ r, MergesTo a ms r) ↔ Compatible a.version (a :: ms)) ∧ ∀ r, MergesTo a ms r → Joins (a :: ms) r := by
  induction ms with
  | nil =>
    intro a ha _
    refine ⟨⟨fun _ => ⟨by simp, ?_, ?_, ?_, ?_⟩, fun _ => ⟨a, .done⟩⟩, ?_⟩
    · intro k
      rw [filterMap_cons']
      cases a.metadataValue k with
      | none => exact ⟨_, .nothing⟩
      | some v => exact ⟨_, joined_single v⟩
    · intro id
      rw [filterMap_cons']
      cases a.shape id with
      | none => exact ⟨_, .placeholders (by simp)⟩
      | some s => exact ⟨_, joinedBody_single _⟩
    · intro id t
      rw [filterMap_cons']
      cases (a.shape id).bind fun s => s.traits.get t with
      | none => exact ⟨_, .nothing⟩
      | some s => exact ⟨_, joinedTrait_single _⟩
    · intro id s hs
      rw [filterMap_cons'] at hs
      cases h : a.shape id <;> simp [h] at hs
    · intro r hr
      cases hr
      refine ⟨by simp, ?_, ?_⟩
      · intro k
        rw [filterMap_cons']
        cases a.metadataValue k with
        | none => exact .nothing
        | some v => exact joined_single v
      · intro id
        rw [filterMap_cons']
        cases h : a.shape id with
        | none => exact .nothing
        | some s => exact joinedShape_single (ha.key id s h)
  | cons m ms ih =>
    intro a ha hall
    have hm := hall m (by simp)
    -- the two lists have the same joins once the first two are merged
    have key : (a.merge m).2 = .ok () → (Compatible a.version (a :: m :: ms) ↔ Compatible (a.merge m).1.version ((a.merge m).1 :: ms)) ∧
        ∀ r, Joins ((a.merge m).1 :: ms) r → Joins (a :: m :: ms) r := by
      intro hok
      have hs := merge_spec ha hm hok
      have hM := (merge_ok_iff ha hm).mp hok
      generalize (a.merge m).1 = c at hs
      refine ⟨⟨fun h => ⟨?_, ?_, ?_, ?_, ?_⟩, fun h => ⟨?_, ?_, ?_, ?_, ?_⟩⟩, fun r h => ⟨?_, ?_, ?_⟩⟩
      · intro x hx
        rcases List.mem_cons.mp hx with rfl | hx
        · rfl
        · exact (h.version x (by simp [hx])).trans hs.versionl.symm
      · intro k
        obtain ⟨o, ho⟩ := h.metadata k
        rw [filterMap_cons', filterMap_cons'] at ho
        rw [filterMap_cons']
        exact ⟨o, (combine_step joined_step (fun _ _ _ _ => MetaMerge.unique) (hs.metadata k) _ _).mp ho⟩
      · intro id
        obtain ⟨o, ho⟩ := h.bodies id
        rw [filterMap_cons', filterMap_cons'] at ho
        rw [filterMap_cons']
        exact ⟨o, (combine_step joinedBody_step (fun _ _ _ _ => BodyMerge.unique) (combine_body (hs.shapes id)) _ _).mp ho⟩
      · intro id t
        obtain ⟨o, ho⟩ := h.traits id t
        rw [filterMap_cons', filterMap_cons'] at ho
        rw [filterMap_cons']
        exact ⟨o, (combine_step joinedTrait_step (fun _ _ _ _ => TraitMerge.unique) (combine_trait (hs.shapes id) t) _ _).mp ho⟩
      · intro id s hin
        have hl := h.legal id
        rw [filterMap_cons', filterMap_cons'] at hl
        rw [filterMap_cons'] at hin
        have hc := hs.shapes id
        simp only [Model.shape] at hl hin
        generalize AMap.get a.shapes id = A at *
        generalize AMap.get m.shapes id = B at *
        generalize AMap.get c.shapes id = C at *
        cases hc with
        | neither => exact hl s hin
        | left => exact hl s hin
        | right => exact hl s hin
        | both => exact hl s (by simp at hin ⊢; exact .inr hin)
      · intro x hx
        rcases List.mem_cons.mp hx with rfl | hx
        · rfl
        · rcases List.mem_cons.mp hx with rfl | hx
          · exact hM.version.symm
          · exact (h.version x (by simp [hx])).trans hs.versionl
      · intro k
        obtain ⟨o, ho⟩ := h.metadata k
        rw [filterMap_cons'] at ho
        rw [filterMap_cons', filterMap_cons']
        exact ⟨o, (combine_step joined_step (fun _ _ _ _ => MetaMerge.unique) (hs.metadata k) _ _).mpr ho⟩
      · intro id
        obtain ⟨o, ho⟩ := h.bodies id
        rw [filterMap_cons'] at ho
        rw [filterMap_cons', filterMap_cons']
        exact ⟨o, (combine_step joinedBody_step (fun _ _ _ _ => BodyMerge.unique) (combine_body (hs.shapes id)) _ _).mpr ho⟩
      · intro id t
        obtain ⟨o, ho⟩ := h.traits id t
        rw [filterMap_cons'] at ho
        rw [filterMap_cons', filterMap_cons']
        exact ⟨o, (combine_step joinedTrait_step (fun _ _ _ _ => TraitMerge.unique) (combine_trait (hs.shapes id) t) _ _).mpr ho⟩
      · intro id s hin
        have hl := h.legal id
        rw [filterMap_cons'] at hl
        rw [filterMap_cons', filterMap_cons'] at hin
        have hc := hs.shapes id
        have hleg := hM.shapes id
        simp only [Model.shape] at hl hin hleg
        generalize AMap.get a.shapes id = A at *
        generalize AMap.get m.shapes id = B at *
        generalize AMap.get c.shapes id = C at *
        cases hc with
        | neither => exact hl s hin
        | left => exact hl s hin
        | right => exact hl s hin
        | both =>
          simp at hin
          rcases hin with rfl | hin
          · exact (hleg _ _ rfl rfl).legal
          · exact hl s (by simpa using hin)
      · intro x hx
        have hv := h.version c (by simp)
        rcases List.mem_cons.mp hx with rfl | hx
        · rw [← hv, hs.versionl]
        · rcases List.mem_cons.mp hx with rfl | hx
          · rw [← hv, hs.versionr]
          · exact h.version x (by simp [hx])
      · intro k
        have ho := h.metadata k
        rw [filterMap_cons'] at ho
        rw [filterMap_cons', filterMap_cons']
        exact (combine_step joined_step (fun _ _ _ _ => MetaMerge.unique) (hs.metadata k) _ _).mpr ho
      · intro id
        have ho := h.shapes id
        rw [filterMap_cons'] at ho
        rw [filterMap_cons', filterMap_cons']
        exact joinedShape_step (hs.shapes id) _ _ ho
    have hrest := ih (a.merge m).1 (wf_merge ha hm) fun x h => hall x (by simp [h])
    refine ⟨⟨?_, ?_⟩, ?_⟩
    · rintro ⟨r, hr⟩
      cases hr with
      | step hst hr =>
        have hok : (a.merge m).2 = .ok () := by rw [hst]
        refine ((key hok).1).mpr (hrest.1.mp ⟨r, ?_⟩)
        rw [hst]; exact hr
    · intro h
      have hok : (a.merge m).2 = .ok () := by
        rw [merge_ok_iff ha hm]
        refine ⟨(h.version m (by simp)).symm, ?_, ?_⟩
        · intro k x y hx hy
          obtain ⟨o, ho⟩ := h.metadata k
          rw [filterMap_cons', filterMap_cons'] at ho
          simp only [Model.metadataValue, hx, hy, Option.toList_some, List.singleton_append] at ho
          obtain ⟨z, hz, _⟩ := (joined_step _ _ _ _).mp ho
          exact ⟨z, hz⟩
        · intro id x y hx hy
          refine ⟨?_, ?_, ?_⟩
          · obtain ⟨o, ho⟩ := h.bodies id
            rw [filterMap_cons', filterMap_cons'] at ho
            simp only [hx, hy, Option.map_some, Option.toList_some, List.singleton_append] at ho
            obtain ⟨z, hz, _⟩ := (joinedBody_step _ _ _ _).mp ho
            exact BodyMerge.exists_iff.mp ⟨z, hz⟩
          · intro t p q hp hq
            obtain ⟨o, ho⟩ := h.traits id t
            rw [filterMap_cons', filterMap_cons'] at ho
            simp only [hx, hy, hp, hq, Option.bind_some, Option.toList_some, List.singleton_append] at ho
            obtain ⟨z, hz, _⟩ := (joinedTrait_step _ _ _ _).mp ho
            exact ⟨z, hz⟩
          · have := h.legal id y
            rw [filterMap_cons', filterMap_cons', hx, hy] at this
            exact this (by simp)
      obtain ⟨r, hr⟩ := hrest.1.mpr ((key hok).1.mp h)
      exact ⟨r, .step (Prod.ext rfl hok) hr⟩
    · intro r hr
      cases hr with
      | step hst hr =>
        have hok : (a.merge m).2 = .ok () := by rw [hst]
        refine (key hok).2 r (hrest.2 r ?_)
        rw [hst]; exact hr

theorem filterMap_new {β : Type} (f : Model → Option β) (v : Version) (h : f (Model.new v) = none) (ms : List Model) :
    (Model.new v :: ms).filterMap f = ms.filterMap f := by
  rw [filterMap_cons', h]; rfl

theorem compatible_new (v : Version) (ms : List Model) : Compatible v (Model.new v :: ms) ↔ Compatible v ms := by
  constructor
  · rintro ⟨h1, h2, h3, h4, h5⟩
    refine ⟨fun x h => h1 x (by simp [h]), fun k => ?_, fun id => ?_, fun id t => ?_, fun id => ?_⟩
    · have := h2 k; rwa [filterMap_new _ v rfl] at this
    · have := h3 id; rwa [filterMap_new _ v rfl] at this
    · have := h4 id t; rwa [filterMap_new _ v rfl] at this
    · have := h5 id; rwa [filterMap_new _ v rfl] at this
  · rintro ⟨h1, h2, h3, h4, h5⟩
    refine ⟨fun x h => ?_, fun k => ?_, fun id => ?_, fun id t => ?_, fun id => ?_⟩
    · rcases List.mem_cons.mp h with rfl | h
      · rfl
      · exact h1 x h
    · rw [filterMap_new _ v rfl]; exact h2 k
    · rw [filterMap_new _ v rfl]; exact h3 id
    · rw [filterMap_new _ v rfl]; exact h4 id t
    · rw [filterMap_new _ v rfl]; exact h5 id

theorem wf_new (v : Version) : WfModel (Model.new v) := (Reachable.new v).wf

/-- C97: several models can be merged one after the other exactly if they are compatible. -/
theorem C97_merge_all_iff (v : Version) (ms : List Model) (hw : ∀ m ∈ ms, WfModel m) :
    (∃ r, MergesTo (Model.new v) ms r) ↔ Compatible v ms := by
  rw [(merges_joins ms (Model.new v) (wf_new v) hw).1]
  exact compatible_new v ms

/-- C97: and then the result is what they make together. -/
theorem C97_merge_all (v : Version) (ms : List Model) (hw : ∀ m ∈ ms, WfModel m) (r : Model) (h : MergesTo (Model.new v) ms r) :
    r.version = v ∧ Joins ms r := by
  have hj := (merges_joins ms (Model.new v) (wf_new v) hw).2 r h
  refine ⟨(hj.version (Model.new v) (by simp)).symm, fun x hx => hj.version x (by simp [hx]), fun k => ?_, fun id => ?_⟩
  · have := hj.metadata k; rwa [filterMap_new _ v rfl] at this
  · have := hj.shapes id; rwa [filterMap_new _ v rfl] at this

/-! ### Any order -/

theorem perm_map_inv {α β : Type} {f : α → β} {g : β → α} (hg : ∀ a, g (f a) = a) {l : List α} {l' : List β} (h : (l.map f).Perm l') :
    ∃ m, l' = m.map f ∧ l.Perm m := by
  refine ⟨l'.map g, ?_, ?_⟩
  · rw [List.map_map]
    have : ∀ b ∈ l', (f ∘ g) b = b := by
      intro b hb
      obtain ⟨a, -, rfl⟩ := List.mem_map.mp (h.mem_iff.mpr hb)
      simp [hg]
    rw [List.map_congr_left this]; simp
  · have := h.map g
    rwa [List.map_map, show g ∘ f = id from funext hg, List.map_id] at this

theorem joined_perm {vs vs' : List Value} {o : Option Value} (hp : vs.Perm vs') (h : Joined vs o) :
    ∃ o', Joined vs' o' ∧ OptRel Reordered o o' := by
  cases h with
  | nothing => rw [List.nil_perm.mp hp]; exact ⟨_, .nothing, .none⟩
  | @arrays as hn =>
    obtain ⟨bs, rfl, hb⟩ := perm_map_inv (g := fun v => match v with | .array a => a | _ => []) (fun _ => rfl) hp
    refine ⟨_, .arrays (fun h => ?_), .some (.arrays hb.flatten)⟩
    subst h; exact hn (List.perm_nil.mp hb)
  | @first v vs hv hw =>
    cases vs' with
    | nil => exact absurd (List.perm_nil.mp hp) (by simp)
    | cons w ws =>
      cases vs with
      | nil =>
        have := List.singleton_perm.mp hp
        cases this
        exact ⟨_, .first hv (by simp), .some .refl⟩
      | cons u us =>
        have hall : ∀ x ∈ v :: u :: us, VEq v x := by
          intro x hx
          rcases List.mem_cons.mp hx with rfl | hx
          · have := hw u (by simp); exact VEq.trans this (VEq.symm this)
          · exact hw x hx
        have h1 := hall w (hp.mem_iff.mpr (by simp))
        refine ⟨some w, .first (by rw [← VEq.isArray h1]; exact hv) fun x hx => ?_, .some (.equal h1)⟩
        exact VEq.trans (VEq.symm h1) (hall x (hp.mem_iff.mpr (by simp [hx])))

theorem joinedTrait_perm {ts ts' : List TraitValue} {o : Option TraitValue} (hp : ts.Perm ts') (h : JoinedTrait ts o) :
    ∃ o', JoinedTrait ts' o' ∧ OptRel (OptRel Reordered) o o' := by
  cases h with
  | nothing => rw [List.nil_perm.mp hp]; exact ⟨_, .nothing, .none⟩
  | valueless hn hall =>
    refine ⟨_, .valueless (fun h => hn ?_) fun t ht => hall t (hp.mem_iff.mpr ht), .some .none⟩
    subst h; exact List.perm_nil.mp hp
  | @values vs v hj =>
    obtain ⟨ws, rfl, hb⟩ := perm_map_inv (g := fun t : TraitValue => t.getD .none) (fun _ => rfl) hp
    obtain ⟨o', h1, h2⟩ := joined_perm hb hj
    cases h2 with
    | some h2 => exact ⟨_, .values h1, .some (.some h2)⟩

theorem joinedBody_iff (ks : List ShapeKind) : (∃ k, JoinedBody ks k) ↔
    ∀ x ∈ ks, ∀ y ∈ ks, x = .unresolved ∨ y = .unresolved ∨ SameDef x y := by
  induction ks with
  | nil => exact ⟨fun _ => by simp, fun _ => ⟨_, .placeholders (by simp)⟩⟩
  | cons a ks ih =>
    by_cases ha : a = .unresolved
    · subst ha
      simp only [joinedBody_cons_unresolved]
      rw [ih]
      constructor
      · intro h x hx y hy
        rcases List.mem_cons.mp hx with rfl | hx
        · exact .inl rfl
        · rcases List.mem_cons.mp hy with rfl | hy
          · exact .inr (.inl rfl)
          · exact h x hx y hy
      · intro h x hx y hy; exact h x (by simp [hx]) y (by simp [hy])
    · simp only [joinedBody_cons_definition ha]
      constructor
      · rintro ⟨k, rfl, h⟩ x hx y hy
        have h' : ∀ z ∈ k :: ks, z = .unresolved ∨ SameDef k z := by
          intro z hz
          rcases List.mem_cons.mp hz with rfl | hz
          · exact .inr (SameDef.refl _)
          · exact h z hz
        rcases h' x hx with h1 | h1
        · exact .inl h1
        · rcases h' y hy with h2 | h2
          · exact .inr (.inl h2)
          · exact .inr (.inr (h1.symm.trans h2))
      · intro h
        refine ⟨a, rfl, fun y hy => ?_⟩
        rcases h a (by simp) y (by simp [hy]) with h1 | h1 | h1
        · exact absurd h1 ha
        · exact .inl h1
        · exact .inr h1

theorem joinedBody_mem {ks : List ShapeKind} {k : ShapeKind} (h : JoinedBody ks k) :
    (k = .unresolved ∧ ∀ x ∈ ks, x = .unresolved) ∨ (k ≠ .unresolved ∧ k ∈ ks) := by
  cases h with
  | placeholders h => exact .inl ⟨rfl, h⟩
  | definition _ hk _ => exact .inr ⟨hk, by simp⟩

theorem joinedBody_perm {ks ks' : List ShapeKind} {k k' : ShapeKind} (hp : ks.Perm ks') (h : JoinedBody ks k) (h' : JoinedBody ks' k') :
    SameDef k k' := by
  have hall := (joinedBody_iff ks).mp ⟨k, h⟩
  rcases joinedBody_mem h with ⟨rfl, h1⟩ | ⟨h1, h2⟩
  · rcases joinedBody_mem h' with ⟨rfl, -⟩ | ⟨h3, h4⟩
    · exact SameDef.refl _
    · exact absurd (h1 k' (hp.mem_iff.mpr h4)) h3
  · rcases joinedBody_mem h' with ⟨rfl, h3⟩ | ⟨h3, h4⟩
    · exact absurd (h3 k (hp.mem_iff.mp h2)) h1
    · rcases hall k h2 k' (hp.mem_iff.mpr h4) with h | h | h
      · exact absurd h h1
      · exact absurd h h3
      · exact h

theorem compatible_perm {v : Version} {ms ms' : List Model} (hp : ms.Perm ms') (hl : ∀ m ∈ ms, LegalModel m) (h : Compatible v ms) :
    Compatible v ms' := by
  refine ⟨fun x hx => h.version x (hp.mem_iff.mpr hx), fun k => ?_, fun id => ?_, fun id t => ?_, fun id s hs => ?_⟩
  · obtain ⟨o, ho⟩ := h.metadata k
    obtain ⟨o', ho', -⟩ := joined_perm (hp.filterMap _) ho
    exact ⟨o', ho'⟩
  · rw [joinedBody_iff]
    have := (joinedBody_iff _).mp (h.bodies id)
    intro x hx y hy
    exact this x ((hp.filterMap _).mem_iff.mpr hx) y ((hp.filterMap _).mem_iff.mpr hy)
  · obtain ⟨o, ho⟩ := h.traits id t
    obtain ⟨o', ho', -⟩ := joinedTrait_perm (hp.filterMap _) ho
    exact ⟨o', ho'⟩
  · obtain ⟨m, hm, he⟩ := List.mem_filterMap.mp (List.mem_of_mem_tail hs)
    exact hl m (hp.mem_iff.mpr hm) id s he

theorem joins_perm {ms ms' : List Model} {r r' : Model} (hp : ms.Perm ms') (hv : r.version = r'.version) (h : Joins ms r)
    (h' : Joins ms' r') : SameButOrder r r' := by
  refine ⟨hv, fun k => ?_, fun id => ?_⟩
  · obtain ⟨o', h1, h2⟩ := joined_perm (hp.filterMap _) (h.metadata k)
    rw [(h'.metadata k).unique h1]; exact h2
  · have h1 := h.shapes id; have h2 := h'.shapes id
    have hp' := hp.filterMap fun x => x.shape id
    generalize List.filterMap (fun x : Model => x.shape id) ms = l at *
    generalize List.filterMap (fun x : Model => x.shape id) ms' = l' at *
    generalize r.shape id = x at *
    generalize r'.shape id = y at *
    cases h1 with
    | nothing =>
      cases h2 with
      | nothing => exact .none
      | shape hn => exact absurd (List.nil_perm.mp hp') hn
    | shape hn hid hb ht =>
      cases h2 with
      | nothing => exact absurd (List.perm_nil.mp hp') hn
      | shape _ hid' hb' ht' =>
        refine .some ⟨hid.trans hid'.symm, joinedBody_perm (hp'.map _) hb hb', fun t => ?_⟩
        obtain ⟨o', h1, h2⟩ := joinedTrait_perm (hp'.filterMap _) (ht t)
        rw [(ht' t).unique h1]; exact h2

/-- C98: the order in which models are merged matters neither for whether they can be merged, nor for the result, but for the
order of elements of arrays (and which of several equal values and definitions that agree is kept). -/
theorem C98_any_order (v : Version) (ms ms' : List Model) (hp : ms.Perm ms') (hw : ∀ m ∈ ms, WfModel m) (hl : ∀ m ∈ ms, LegalModel m) :
    ((∃ r, MergesTo (Model.new v) ms r) ↔ ∃ r, MergesTo (Model.new v) ms' r) ∧
    ∀ r r', MergesTo (Model.new v) ms r → MergesTo (Model.new v) ms' r' → SameButOrder r r' := by
  have hw' : ∀ m ∈ ms', WfModel m := fun m h => hw m (hp.mem_iff.mpr h)
  have hl' : ∀ m ∈ ms', LegalModel m := fun m h => hl m (hp.mem_iff.mpr h)
  refine ⟨?_, fun r r' h h' => ?_⟩
  · rw [C97_merge_all_iff v ms hw, C97_merge_all_iff v ms' hw']
    exact ⟨compatible_perm hp hl, compatible_perm hp.symm hl'⟩
  · have h1 := C97_merge_all v ms hw r h
    have h2 := C97_merge_all v ms' hw' r' h'
    exact joins_perm hp (h1.1.trans h2.1.symm) h1.2 h2.2

end Verif
