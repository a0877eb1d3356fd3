/-
From the shapes made by the builder to the built model.
-/
import Verif.BuilderLemmas
import Verif.MergeProps

namespace Verif
open Spec Mk

/-- Adding shapes one after the other, dropping errors. -/
def Model.addAllIgnoring (m : Model) : List TopLevelShape → Except Err Model
  | [] => .ok m
  | s :: rest => match m.addShapeIgnoring s with
    | .error e => .error e
    | .ok m => Model.addAllIgnoring m rest

theorem addAllIgnoring_append (m : Model) (a b : List TopLevelShape) :
    m.addAllIgnoring (a ++ b) = match m.addAllIgnoring a with | .error e => .error e | .ok m' => m'.addAllIgnoring b := by
  induction a generalizing m with
  | nil => rfl
  | cons s a ih =>
    simp only [List.cons_append, Model.addAllIgnoring]
    cases m.addShapeIgnoring s with
    | error e => rfl
    | ok m' => exact ih m'

theorem addUnresolved_eq (m : Model) (ids : List ShapeID) :
    ModelBuilder.addUnresolved m ids = m.addAllIgnoring (ids.map fun id => TopLevelShape.new id .unresolved) := by
  induction ids generalizing m with
  | nil => rfl
  | cons id ids ih =>
    simp only [ModelBuilder.addUnresolved, List.map_cons, Model.addAllIgnoring]
    cases m.addShapeIgnoring (TopLevelShape.new id .unresolved) with
    | error e => rfl
    | ok m' => exact ih m'

theorem lift_ok {α : Type} {x : Except Err α} {a : α} {r : List ShapeID} : Mk.lift x = Except.ok (a, r) ↔ x = .ok a ∧ r = [] := by
  cases x with
  | error e => exact ⟨fun h => (by cases h), fun h => (by cases h.1)⟩
  | ok b =>
    constructor
    · intro h; cases h; exact ⟨rfl, rfl⟩
    · rintro ⟨h, rfl⟩; cases h; rfl

theorem bind_error {α β : Type} {x : Mk α} {f : α → Mk β} {e : Err} :
    (x >>= f) = Except.error e ↔ x = .error e ∨ ∃ a r, x = .ok (a, r) ∧ f a = .error e := by
  show Mk.bind x f = _ ↔ _
  unfold Mk.bind
  match x with
  | .error e' =>
    constructor
    · intro h; cases h; exact .inl rfl
    · rintro (h | ⟨_, _, h, _⟩) <;> cases h; rfl
  | .ok (a, r1) =>
    constructor
    · intro h
      match hf : f a with
      | .error e' => simp only [hf] at h; cases h; exact .inr ⟨a, r1, rfl, hf⟩
      | .ok (b, r2) => simp only [hf] at h; cases h
    · rintro (h | ⟨a', r', h, h'⟩)
      · cases h
      · cases h; simp only [h']; rfl

theorem addBuilt_ok (mb : ModelBuilder) (m m' : Model) (bs : List Builder) (r : List ShapeID) :
    mb.addBuilt m bs = Except.ok (m', r) ↔
      ∃ ss, Mk.mapL mb.makeShape bs = Except.ok (ss, r) ∧ m.addAllIgnoring ss = .ok m' := by
  induction bs generalizing m r with
  | nil =>
    show (Except.ok (m, []) : Except Err (Model × List ShapeID)) = _ ↔
      ∃ ss, (Except.ok ([], []) : Except Err (List TopLevelShape × List ShapeID)) = _ ∧ _
    constructor
    · intro h; cases h; exact ⟨[], rfl, rfl⟩
    · rintro ⟨ss, h, h'⟩; cases h; cases h'; rfl
  | cons b bs ih =>
    have e1 : mb.addBuilt m (b :: bs) = (mb.makeShape b >>= fun s => Mk.lift (m.addShapeIgnoring s) >>= fun m => mb.addBuilt m bs) := rfl
    have e2 : Mk.mapL mb.makeShape (b :: bs) = (mb.makeShape b >>= fun s => Mk.mapL mb.makeShape bs >>= fun ss => pure (s :: ss)) := rfl
    rw [e1, bind_ok]
    constructor
    · rintro ⟨s, r1, r2, hs, h, rfl⟩
      obtain ⟨m1, r3, r4, hm1, h1, rfl⟩ := bind_ok.mp h
      obtain ⟨hm2, rfl⟩ := lift_ok.mp hm1
      obtain ⟨ss, hss, h3⟩ := (ih m1 r4).mp h1
      refine ⟨s :: ss, ?_, ?_⟩
      · rw [e2, bind_ok]
        exact ⟨s, r1, r4, hs, bind_ok.mpr ⟨ss, r4, [], hss, rfl, by simp⟩, by simp⟩
      · simp only [Model.addAllIgnoring, hm2]; exact h3
    · rintro ⟨ss, h, h'⟩
      rw [e2, bind_ok] at h
      obtain ⟨s, r1, r2, hs, h, rfl⟩ := h
      obtain ⟨ss', r3, r4, hss, hp, rfl⟩ := bind_ok.mp h
      obtain ⟨rfl, rfl⟩ := pure_ok.mp hp
      simp only [Model.addAllIgnoring] at h'
      cases hm : m.addShapeIgnoring s with
      | error e => rw [hm] at h'; cases h'
      | ok m1 =>
        rw [hm] at h'
        refine ⟨s, r1, r3, hs, bind_ok.mpr ⟨m1, [], r3, lift_ok.mpr ⟨hm, rfl⟩, (ih m1 r3).mpr ⟨ss', hss, h'⟩, by simp⟩, by simp⟩

theorem addMetadataIgnoring_fresh (v : Version) (acc md : AMap Str Value) (ss : AMap ShapeID TopLevelShape) (h : AMap.Wf (acc ++ md)) :
    Model.addMetadataIgnoring ⟨v, acc, ss⟩ md = ⟨v, acc ++ md, ss⟩ := by
  induction md generalizing acc with
  | nil => simp [Model.addMetadataIgnoring]
  | cons e md ih =>
    obtain ⟨k, x⟩ := e
    have hk : k ∉ AMap.keys acc := by
      have : (AMap.keys acc ++ AMap.keys ((k, x) :: md)).Nodup := by simpa [AMap.Wf, AMap.keys] using h
      rw [List.nodup_append] at this
      exact fun hk => this.2.2 k hk k (by simp [AMap.keys]) rfl
    simp only [Model.addMetadataIgnoring]
    have : (Model.addMetadata ⟨v, acc, ss⟩ k x).1 = ⟨v, acc ++ [(k, x)], ss⟩ := by
      simp only [Model.addMetadata, Model.metadataValue, (AMap.not_mem_keys_iff _ _).mp hk, AMap.insert_of_not_mem x hk]
    rw [this, ih _ (by simpa using h)]
    simp

/-- Building, in one formula: the metadata, then the made shapes, then the placeholders. -/
theorem build_ok {mb : ModelBuilder} (h : WfBuilder mb) (enum : List ShapeID → List ShapeID) (m : Model) :
    mb.build enum = .ok m ↔ ∃ ss r, Mk.mapL mb.makeShape (AMap.values mb.shapes) = Except.ok (ss, r) ∧
      Model.addAllIgnoring ⟨mb.version, mb.metadata, []⟩ (ss ++ (enum r).map fun id => TopLevelShape.new id .unresolved) = .ok m := by
  have hm : (Model.new mb.version).addMetadataIgnoring mb.metadata = ⟨mb.version, mb.metadata, []⟩ := by
    have := addMetadataIgnoring_fresh mb.version [] mb.metadata [] (by simpa using h.metaNodup)
    simpa [Model.new] using this
  unfold ModelBuilder.build
  rw [hm]
  constructor
  · intro hb
    split at hb
    · cases hb
    · next m' refs he =>
      obtain ⟨ss, hss, h'⟩ := (addBuilt_ok _ _ _ _ _).mp he
      refine ⟨ss, refs, hss, ?_⟩
      rw [addAllIgnoring_append, h']
      simp only [← addUnresolved_eq]; exact hb
  · rintro ⟨ss, r, hss, h'⟩
    rw [addAllIgnoring_append] at h'
    cases hs : Model.addAllIgnoring ⟨mb.version, mb.metadata, []⟩ ss with
    | error e => rw [hs] at h'; cases h'
    | ok m' =>
      rw [hs] at h'
      simp only [← addUnresolved_eq] at h'
      rw [(addBuilt_ok _ _ m' _ r).mpr ⟨ss, hss, hs⟩]
      exact h'

/-! ### What is stored under one id -/

/-- The effect of `add_shape`, success or not, on the slot of its id. -/
def slotStep (o : Option TopLevelShape) (s : TopLevelShape) : Option TopLevelShape :=
  if s.id.isMember && !s.body.isUnresolved then o
  else match o with
    | none => some s
    | some e => some (Model.reconcile e s).1

theorem addShape_slot (m : Model) (s : TopLevelShape) (id : ShapeID) :
    (m.addShape s).1.shape id = if s.id = id then slotStep (m.shape id) s else m.shape id := by
  rw [addShape_eq]
  simp only [Model.shape, AMap.get_insertOpt]
  by_cases h : s.id = id
  · subst h
    simp only [if_true, updShape, slotStep]
    by_cases hc : (s.id.isMember && !s.body.isUnresolved) = true
    · simp [hc]
    · simp only [hc]; cases AMap.get m.shapes s.id <;> simp
  · simp [h]

theorem addShapeIgnoring_ok {m m' : Model} {s : TopLevelShape} (h : m.addShapeIgnoring s = .ok m') : m' = (m.addShape s).1 := by
  unfold Model.addShapeIgnoring at h
  split at h
  · cases h
  · next m'' r _ he => cases h; rw [he]

theorem addShape_rest (m : Model) (s : TopLevelShape) :
    (m.addShape s).1.version = m.version ∧ (m.addShape s).1.metadata = m.metadata := by
  rw [addShape_eq]; exact ⟨rfl, rfl⟩

theorem addAllIgnoring_slot {m m' : Model} {L : List TopLevelShape} (h : m.addAllIgnoring L = .ok m') (id : ShapeID) :
    m'.shape id = (L.filter fun s => decide (s.id = id)).foldl slotStep (m.shape id) := by
  induction L generalizing m with
  | nil => cases h; rfl
  | cons s L ih =>
    simp only [Model.addAllIgnoring] at h
    cases hs : m.addShapeIgnoring s with
    | error e => rw [hs] at h; cases h
    | ok m1 =>
      rw [hs] at h
      rw [ih h, addShapeIgnoring_ok hs, addShape_slot]
      by_cases hid : s.id = id
      · simp [List.filter_cons, hid]
      · simp [List.filter_cons, hid]

theorem addAllIgnoring_rest {m m' : Model} {L : List TopLevelShape} (h : m.addAllIgnoring L = .ok m') :
    m'.version = m.version ∧ m'.metadata = m.metadata := by
  induction L generalizing m with
  | nil => cases h; exact ⟨rfl, rfl⟩
  | cons s L ih =>
    simp only [Model.addAllIgnoring] at h
    cases hs : m.addShapeIgnoring s with
    | error e => rw [hs] at h; cases h
    | ok m1 =>
      rw [hs] at h
      obtain ⟨h1, h2⟩ := ih h
      rw [h1, h2, addShapeIgnoring_ok hs]
      exact addShape_rest m s

theorem addAllIgnoring_wf {m m' : Model} {L : List TopLevelShape} (h : m.addAllIgnoring L = .ok m') (hm : WfModel m)
    (hL : ∀ s ∈ L, WfShape s) : WfModel m' := by
  induction L generalizing m with
  | nil => cases h; exact hm
  | cons s L ih =>
    simp only [Model.addAllIgnoring] at h
    cases hs : m.addShapeIgnoring s with
    | error e => rw [hs] at h; cases h
    | ok m1 =>
      rw [hs] at h
      have := wf_addShape hm (hL s (by simp))
      rw [← addShapeIgnoring_ok hs] at this
      exact ih h this fun s hs => hL s (by simp [hs])

theorem addAllIgnoring_error {m : Model} {L : List TopLevelShape} {e : Err} (h : m.addAllIgnoring L = .error e) : e = .panic := by
  induction L generalizing m with
  | nil => cases h
  | cons s L ih =>
    simp only [Model.addAllIgnoring] at h
    cases hs : m.addShapeIgnoring s with
    | error e' =>
      rw [hs] at h; cases h
      unfold Model.addShapeIgnoring at hs
      split at hs <;> cases hs
      rfl
    | ok m1 => rw [hs] at h; exact ih h

/-- The shape is accepted by `add_shape`: only placeholders may have a member id. -/
def Admissible (s : TopLevelShape) : Prop := s.id.isMember = true → s.body = .unresolved

theorem slotStep_admissible {o : Option TopLevelShape} {s : TopLevelShape} (h : Admissible s) :
    slotStep o s = match o with | none => some s | some e => some (Model.reconcile e s).1 := by
  unfold slotStep
  rw [if_neg]
  intro hc
  simp only [Bool.and_eq_true, Bool.not_eq_true', isUnresolved_false_iff] at hc
  exact hc.2 (h hc.1)

theorem slotStep_not_admissible {o : Option TopLevelShape} {s : TopLevelShape} (h : ¬ Admissible s) : slotStep o s = o := by
  unfold slotStep
  rw [if_pos]
  simp only [Bool.and_eq_true, Bool.not_eq_true', isUnresolved_false_iff]
  unfold Admissible at h
  exact Classical.not_imp.mp h

theorem slotStep_some (e s : TopLevelShape) : ∃ e', slotStep (some e) s = some e' ∧ e'.id = e.id ∧
    (e'.body = e.body ∨ (Admissible s ∧ e.body = .unresolved ∧ e'.body = s.body)) := by
  by_cases h : Admissible s
  · rw [slotStep_admissible h]
    obtain ⟨h1, h2, _⟩ := reconcile_frame e s
    refine ⟨_, rfl, h1, ?_⟩
    rcases h2 with h2 | ⟨h2, h3⟩
    · exact .inl h2
    · exact .inr ⟨h, h2, h3⟩
  · rw [slotStep_not_admissible h]; exact ⟨e, rfl, rfl, .inl rfl⟩

theorem slot_isSome (L : List TopLevelShape) (o : Option TopLevelShape) :
    (L.foldl slotStep o).isSome = true ↔ o.isSome = true ∨ ∃ s ∈ L, Admissible s := by
  induction L generalizing o with
  | nil => simp
  | cons s L ih =>
    rw [List.foldl_cons, ih]
    by_cases h : Admissible s
    · rw [slotStep_admissible h]
      cases o <;> simp [h]
    · rw [slotStep_not_admissible h]; simp [h]

/-- Once something is defined, it stays. -/
theorem slot_keeps (L : List TopLevelShape) (e : TopLevelShape) (he : e.body ≠ .unresolved) :
    ∃ e', L.foldl slotStep (some e) = some e' ∧ e'.body = e.body := by
  induction L generalizing e with
  | nil => exact ⟨e, rfl, rfl⟩
  | cons s L ih =>
    obtain ⟨e1, h1, _, h2⟩ := slotStep_some e s
    have hb : e1.body = e.body := by
      rcases h2 with h2 | ⟨_, h2, _⟩
      · exact h2
      · exact absurd h2 he
    obtain ⟨e2, h3, h4⟩ := ih e1 (by rw [hb]; exact he)
    exact ⟨e2, by rw [List.foldl_cons, h1, h3], by rw [h4, hb]⟩

theorem reconcile_resolve {e s : TopLevelShape} (he : e.body = .unresolved) (hs : s.body ≠ .unresolved) :
    (Model.reconcile e s).1.body = s.body := by
  have h1 : e.body.isUnresolved = true := by rw [he]; rfl
  have h2 : s.body.isUnresolved = false := isUnresolved_false_iff.mpr hs
  unfold Model.reconcile
  simp only [h1, h2, Model.copyTraits]

/-- The body stored is that of the first definition, or a placeholder when there is none. -/
theorem slot_defined (L : List TopLevelShape) (o : Option TopLevelShape) (ho : ∀ e, o = some e → e.body = .unresolved) :
    (∃ e, L.foldl slotStep o = some e ∧ e.body ≠ .unresolved) ↔ ∃ s ∈ L, Admissible s ∧ s.body ≠ .unresolved := by
  induction L generalizing o with
  | nil =>
    constructor
    · rintro ⟨e, h, hn⟩; exact absurd (ho e h) hn
    · rintro ⟨s, h, _⟩; cases h
  | cons s L ih =>
    rw [List.foldl_cons]
    by_cases hd : Admissible s ∧ s.body ≠ .unresolved
    · constructor
      · intro _; exact ⟨s, by simp, hd⟩
      · intro _
        have : ∃ e, slotStep o s = some e ∧ e.body ≠ .unresolved := by
          rw [slotStep_admissible hd.1]
          cases o with
          | none => exact ⟨s, rfl, hd.2⟩
          | some e => exact ⟨_, rfl, by rw [reconcile_resolve (ho e rfl) hd.2]; exact hd.2⟩
        obtain ⟨e, h1, h2⟩ := this
        rw [h1]
        obtain ⟨e', h3, h4⟩ := slot_keeps L e h2
        exact ⟨e', h3, by rw [h4]; exact h2⟩
    · rw [ih (slotStep o s)]
      · constructor
        · rintro ⟨t, ht, h⟩; exact ⟨t, by simp [ht], h⟩
        · rintro ⟨t, ht, h⟩
          rcases List.mem_cons.mp ht with rfl | ht
          · exact absurd h hd
          · exact ⟨t, ht, h⟩
      · intro e he
        by_cases ha : Admissible s
        · have hu : s.body = .unresolved := Classical.byContradiction fun hn => hd ⟨ha, hn⟩
          rw [slotStep_admissible ha] at he
          cases o with
          | none => cases he; exact hu
          | some e' =>
            cases he
            rcases (reconcile_frame e' s).2.1 with h | ⟨_, h⟩
            · rw [h]; exact ho e' rfl
            · rw [h]; exact hu
        · rw [slotStep_not_admissible ha] at he; exact ho e he

/-- Whatever is stored has the body of one of the added shapes. -/
theorem slot_body (L : List TopLevelShape) (o : Option TopLevelShape) (e : TopLevelShape) (h : L.foldl slotStep o = some e) :
    (∃ e', o = some e' ∧ e.body = e'.body) ∨ ∃ s ∈ L, Admissible s ∧ e.body = s.body := by
  induction L generalizing o with
  | nil => exact .inl ⟨e, h, rfl⟩
  | cons s L ih =>
    rw [List.foldl_cons] at h
    rcases ih _ h with ⟨e', h1, h2⟩ | ⟨t, ht, h2⟩
    · by_cases ha : Admissible s
      · rw [slotStep_admissible ha] at h1
        cases o with
        | none => cases h1; exact .inr ⟨s, by simp, ha, h2⟩
        | some e'' =>
          cases h1
          rcases (reconcile_frame e'' s).2.1 with h3 | ⟨_, h3⟩
          · exact .inl ⟨e'', rfl, by rw [h2, h3]⟩
          · exact .inr ⟨s, by simp, ha, by rw [h2, h3]⟩
      · rw [slotStep_not_admissible ha] at h1
        exact .inl ⟨e', h1, h2⟩
    · exact .inr ⟨t, by simp [ht], h2⟩

/-- Adding bare placeholders changes nothing. -/
theorem slot_bare (L : List TopLevelShape) (e : TopLevelShape)
    (hL : ∀ s ∈ L, s.body = .unresolved ∧ s.traits = []) : L.foldl slotStep (some e) = some e := by
  induction L with
  | nil => rfl
  | cons s L ih =>
    obtain ⟨h1, h2⟩ := hL s (by simp)
    have : slotStep (some e) s = some e := by
      rw [slotStep_admissible (fun _ => h1)]
      have hu : s.body.isUnresolved = true := by rw [h1]; rfl
      simp only [Option.some.injEq]
      unfold Model.reconcile
      cases e.body.isUnresolved <;> simp [hu, Model.copyTraits, h2, appendTraits]
    rw [List.foldl_cons, this]
    exact ih fun s hs => hL s (by simp [hs])

/-! ### Well-formedness of the made shapes -/

/-- Every value in the list of traits is well-formed. -/
def TraitsWf (ts : List TraitBuilder) : Prop := ∀ t v, t ∈ ts → t.value = some v → v.Wf

theorem Spec.BuildsTraits.wf {mb : ModelBuilder} {tbs : List TraitBuilder} {ts : Traits} (h : BuildsTraits mb tbs ts) (hw : TraitsWf tbs) :
    WfTraits ts := by
  refine ⟨h.nodup, fun id v hv => ?_⟩
  obtain ⟨pre, tb, post, rfl, _, hv, _⟩ := (h.last id (some v)).mp hv
  exact hw tb v (by simp) hv

theorem mem_of_lastNamed {bs : List MemberBuilder} {k : Str} {b : MemberBuilder} (h : lastNamed bs k = some b) : b ∈ bs ∧ b.name = k := by
  unfold lastNamed at h
  have h1 := List.mem_of_find?_eq_some h
  have h2 := List.find?_some h
  exact ⟨by simpa using h1, by simpa using h2⟩

theorem Spec.BuildsMembers.wf {mb : ModelBuilder} {bs : List MemberBuilder} {ms : AMap Str MemberShape} (h : BuildsMembers mb bs ms)
    (hw : ∀ b ∈ bs, TraitsWf b.traits) : WfMembers ms := by
  have key : ∀ k m, ms.get k = some m → ∃ b ∈ bs, b.name = k ∧ BuildsMember mb b m := by
    intro k m hm
    have := h.last k
    rw [hm] at this
    cases hl : lastNamed bs k with
    | none => rw [hl] at this; cases this
    | some b =>
      rw [hl] at this
      cases this with
      | some hb => exact ⟨b, (mem_of_lastNamed hl).1, (mem_of_lastNamed hl).2, hb⟩
  refine ⟨h.nodup, ?_, ?_⟩
  · intro k m hm
    obtain ⟨b, _, h1, h2⟩ := key k m hm
    rw [h2.name, h1]
  · intro k m hm
    obtain ⟨b, hb, _, h2⟩ := key k m hm
    exact h2.traits.wf (hw b hb)

theorem Spec.BuildsBody.wf {mb : ModelBuilder} {body : BuilderBody} {k : ShapeKind} (h : BuildsBody mb body k)
    (hw : ∀ b ∈ memberBuilders body, TraitsWf b.traits) : WfKind k := by
  cases h with
  | simple => trivial
  | list hm => exact hm.traits.wf (hw _ (by simp [memberBuilders]))
  | set hm => exact hm.traits.wf (hw _ (by simp [memberBuilders]))
  | map hk hv => exact ⟨hk.traits.wf (hw _ (by simp [memberBuilders])), hv.traits.wf (hw _ (by simp [memberBuilders]))⟩
  | struct hm => exact hm.wf hw
  | union hm => exact hm.wf hw
  | service _ _ h _ => exact h
  | operation => trivial
  | resource h => exact h
  | reference => trivial

theorem entry_memberTraits {mb : ModelBuilder} (h : WfBuilder mb) {n : ShapeName} {b : Builder} (hb : mb.shapes.get n = some b) :
    ∀ m ∈ memberBuilders b.body, TraitsWf m.traits := by
  intro m hm t v ht hv
  refine h.memberTraitValues n b m t v hb ?_ ht hv
  cases hbody : b.body <;> simp [hbody, memberBuilders] at hm ⊢
  · exact hm.symm
  · exact hm.symm
  · rcases hm with rfl | rfl
    · exact .inr rfl
    · exact .inl rfl
  · exact hm
  · exact hm

theorem entry_mapsWf {mb : ModelBuilder} (h : WfBuilder mb) {n : ShapeName} {b : Builder} (hb : mb.shapes.get n = some b) :
    BodyMapsWf b.body := by
  cases hbody : b.body <;> try trivial
  · exact h.renames _ _ _ _ _ _ hb hbody
  · exact h.identifiers _ _ _ _ _ _ _ _ _ _ _ _ hb hbody

theorem Spec.BuildsShape.wf {mb : ModelBuilder} (h : WfBuilder mb) {n : ShapeName} {b : Builder} (hb : mb.shapes.get n = some b)
    {s : TopLevelShape} (hs : BuildsShape mb b s) : WfShape s :=
  ⟨hs.traits.wf fun t v ht hv => h.traitValues n b t v hb ht hv, hs.body.wf (entry_memberTraits h hb)⟩

theorem mem_values {mb : ModelBuilder} (h : WfBuilder mb) {b : Builder} : b ∈ AMap.values mb.shapes ↔ mb.shapes.get b.name = some b := by
  simp only [AMap.values, List.mem_map]
  constructor
  · rintro ⟨⟨n, b'⟩, hm, rfl⟩
    have := AMap.get_of_mem h.nodup hm
    rw [h.key _ _ this]; exact this
  · intro hg; exact ⟨(b.name, b), AMap.mem_of_get hg, rfl⟩

/-- An id guessed for an unknown name mentioned somewhere in the builder. -/
def Guessed (mb : ModelBuilder) (id : ShapeID) : Prop :=
  ∃ n b tr x, mb.shapes.get n = some b ∧ Mentions b tr x ∧ Resolves mb tr x id true

/-- All the shapes made from the builder. -/
theorem makeAll_ok {mb : ModelBuilder} (h : WfBuilder mb) :
    Ok (Mk.mapL mb.makeShape (AMap.values mb.shapes)) (∀ n b, mb.shapes.get n = some b → Buildable mb b)
      (ListRel (BuildsShape mb) (AMap.values mb.shapes)) (Guessed mb) := by
  refine (Ok.mapL (AMap.values mb.shapes) fun b hb => makeShape_ok h b (entry_mapsWf h ((mem_values h).mp hb))).mono ?_
    (fun _ h => h) ?_
  · constructor
    · intro hall n b hb
      have hk := h.key n b hb
      subst hk
      exact hall b ((mem_values h).mpr hb)
    · intro hall b hb; exact hall _ b ((mem_values h).mp hb)
  · intro id
    constructor
    · rintro ⟨b, hb, tr, n, h1, h2⟩; exact ⟨b.name, b, tr, n, (mem_values h).mp hb, h1, h2⟩
    · rintro ⟨n, b, tr, x, hb, h1, h2⟩
      have hk := h.key n b hb
      subst hk
      exact ⟨b, (mem_values h).mpr hb, tr, x, h1, h2⟩

theorem addBuilt_error {mb : ModelBuilder} (h : WfBuilder mb) {m : Model} {bs : List Builder} {e : Err} {ss : List TopLevelShape} {r : List ShapeID}
    (hx : mb.addBuilt m bs = Except.error e) (hs : Mk.mapL mb.makeShape bs = Except.ok (ss, r)) : e = .panic := by
  induction bs generalizing m ss r with
  | nil => cases hx
  | cons b bs ih =>
    have e1 : mb.addBuilt m (b :: bs) = (mb.makeShape b >>= fun s => Mk.lift (m.addShapeIgnoring s) >>= fun m => mb.addBuilt m bs) := rfl
    have e2 : Mk.mapL mb.makeShape (b :: bs) = (mb.makeShape b >>= fun s => Mk.mapL mb.makeShape bs >>= fun ss => pure (s :: ss)) := rfl
    rw [e2, bind_ok] at hs
    obtain ⟨s, r1, r2, hs1, hs2, rfl⟩ := hs
    obtain ⟨ss', r3, r4, hs3, _, rfl⟩ := bind_ok.mp hs2
    rw [e1, bind_error] at hx
    rcases hx with hx | ⟨a, r5, ha, hx⟩
    · rw [hs1] at hx; cases hx
    · rw [hs1] at ha; cases ha
      rw [bind_error] at hx
      rcases hx with hx | ⟨m1, r6, hm1, hx⟩
      · unfold Model.addShapeIgnoring at hx
        split at hx <;> cases hx
        rfl
      · exact ih hx hs3

end Verif
