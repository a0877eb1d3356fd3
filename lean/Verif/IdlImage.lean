/-
What the models are that the IDL reader gives.
-/
import Verif.IdlWf

namespace Verif
open Peg Spec IdlParser

variable {s ns : Str} {mb : ModelBuilder}

theorem imports_id (h : FromFile s ns mb) {n : Str} {id : ShapeID} (hi : Imports mb n id) : SmithyId id ∧ id.display <:+: s := by
  obtain ⟨b, h1, h2, -⟩ := hi
  have hk := h.wf.key _ _ h1
  rcases h.entries _ _ h1 with hb | ⟨id', h3, h4, rfl⟩
  · exact absurd h2 hb.defines
  · cases hk
    exact ⟨h3, h4⟩

theorem smithyId_root {id : ShapeID} (h : SmithyId id) : RootId id :=
  ⟨⟨smithyNamespace_isNamespace h.ns, ident_isIdentifier h.name, by simp [h.member]⟩, h.member⟩

/-- A valid name stands for a valid id. -/
theorem resolves_root (h : FromFile s ns mb) (hn : SmithyNamespace ns) {tr n id new} (hg : GoodName n) (hr : Resolves mb tr n id new) : RootId id := by
  have hns : IsNamespace mb.defaultNs := by rw [h.defaultNs]; exact smithyNamespace_isNamespace hn
  cases hr with
  | absolute hm => exact ⟨hg, hm⟩
  | imported hi _ => exact smithyId_root (imports_id h hi).1
  | defined => exact ⟨⟨hns, hg, by simp⟩, rfl⟩
  | prelude => exact ⟨⟨(isNamespace_iff _).mp (show isNamespace %s"smithy.api" = true by decide), hg, by simp⟩, rfl⟩
  | unknown => exact ⟨⟨hns, hg, by simp⟩, rfl⟩

theorem target_root (h : FromFile s ns mb) (hn : SmithyNamespace ns) {n id} (hg : GoodName n) (hr : Target mb n id) : RootId id := by
  obtain ⟨new, hr⟩ := hr
  exact resolves_root h hn hg hr

theorem traits_read (h : FromFile s ns mb) (hn : SmithyNamespace ns) {tbs ts} (hg : ∀ t ∈ tbs, GoodTrait t) (hb : BuildsTraits mb tbs ts) : ReadTraits ts := by
  intro id v hv
  obtain ⟨pre, tb, post, rfl, ⟨new, h1⟩, h2, -⟩ := (hb.last id v).mp hv
  obtain ⟨h3, x, h4, -⟩ := hg tb (by simp)
  exact ⟨resolves_root h hn h3 h1, x, by rw [← h2, h4]⟩

theorem traits_none {ts} (hb : BuildsTraits mb [] ts) : ts = [] := by
  cases ts with
  | nil => rfl
  | cons e ts =>
    obtain ⟨id, v⟩ := e
    have := (hb.last id v).mp (by rw [AMap.get_cons]; simp)
    exact absurd this lastTrait_nil

theorem member_read (h : FromFile s ns mb) (hn : SmithyNamespace ns) {b x} (hg : GoodMember b) (hb : BuildsMember mb b x) : ReadMember x :=
  ⟨by rw [hb.name]; exact hg.name, target_root h hn hg.target hb.target, traits_read h hn hg.traits hb.traits⟩

theorem plain_member {k : Str} {t : ShapeName} {x} (hb : BuildsMember mb ⟨k, [], t⟩ x) : x = ⟨k, [], x.target⟩ := by
  obtain ⟨i, ts, tg⟩ := x
  have h1 := hb.name
  have h2 := traits_none hb.traits
  simp only at h1 h2
  rw [h1, h2]

theorem members_read (h : FromFile s ns mb) (hn : SmithyNamespace ns) {bs ms} (hg : ∀ b ∈ bs, GoodMember b) (hb : BuildsMembers mb bs ms) :
    ∀ k x, AMap.get ms k = some x → ReadMember x := by
  intro k x hx
  have := hb.last k
  rw [hx] at this
  generalize hl : lastNamed bs k = o at this
  cases this with
  | some hm => exact member_read h hn (hg _ (mem_of_lastNamed hl).1) hm

theorem list_root (h : FromFile s ns mb) (hn : SmithyNamespace ns) {l ids} (hg : ∀ n ∈ l, GoodName n) (hb : ListRel (Target mb) l ids) :
    ∀ id ∈ ids, RootId id := by
  intro id hid
  obtain ⟨n, h1, h2⟩ := (listRel_split hb).2 id hid
  exact target_root h hn (hg n h1) h2

theorem opt_root (h : FromFile s ns mb) (hn : SmithyNamespace ns) {o o'} (hg : ∀ n, o = some n → GoodName n) (hb : OptRel (Target mb) o o') :
    ∀ id, o' = some id → RootId id := by
  rintro id rfl
  cases hb with
  | some hr => exact target_root h hn (hg _ rfl) hr

theorem body_read (h : FromFile s ns mb) (hn : SmithyNamespace ns) {b k} (hg : GoodBody b)
    (hv : ∀ v o r ren, b = .service v o r ren → v ≠ []) (hb : BuildsBody mb b k) : ReadKind k := by
  cases hb with
  | simple => exact .simple
  | list hm =>
    cases hg with
    | list hg =>
    rw [plain_member hm]
    exact .list (target_root h hn hg hm.target)
  | set hm =>
    cases hg with
    | set hg =>
    rw [plain_member hm]
    exact .list (target_root h hn hg hm.target)
  | map hk hw =>
    cases hg with
    | map g1 g2 =>
    rw [plain_member hk, plain_member hw]
    exact .map (target_root h hn g1 hk.target) (target_root h hn g2 hw.target)
  | struct hm => cases hg with | struct hg => exact .struct (members_read h hn hg hm)
  | union hm => cases hg with | union hg => exact .union (members_read h hn hg hm)
  | service h1 h2 h3 h4 =>
    cases hg with
    | service g1 g2 =>
    rename_i ren'
    have : ren' = [] := by
      cases ren' with
      | nil => rfl
      | cons e l =>
        obtain ⟨k, v⟩ := e
        have := h4 k
        rw [AMap.get_cons] at this
        simp only [if_true] at this
        cases this
    rw [this]
    exact .service (hv _ _ _ _ rfl) (list_root h hn g1 h1) (list_root h hn g2 h2)
  | operation h1 h2 h3 => cases hg with | operation g1 g2 g3 => exact .operation (opt_root h hn g1 h1) (opt_root h hn g2 h2) (list_root h hn g3 h3)
  | resource h1 h2 h3 h4 h5 h6 h7 h8 h9 h10 h11 =>
    cases hg with
    | resource g1 g2 g3 g4 g5 g6 g7 g8 g9 g10 g11 =>
    refine .resource ?_ ?_ (list_root h hn g9 h9) (list_root h hn g10 h10) (list_root h hn g11 h11)
    · intro k id hid
      have := h2 k
      simp only at hid
      rw [hid] at this
      generalize hl : AMap.get _ k = o at this
      cases this with
      | some hr =>
        have := g2 _ (AMap.mem_of_get hl)
        exact ⟨this.1, target_root h hn this.2 hr⟩
    · intro l id hl
      cases l
      · exact opt_root h hn g3 h3 id hl
      · exact opt_root h hn g4 h4 id hl
      · exact opt_root h hn g5 h5 id hl
      · exact opt_root h hn g6 h6 id hl
      · exact opt_root h hn g7 h7 id hl
      · exact opt_root h hn g8 h8 id hl
  | reference => cases hg

theorem shape_read (h : FromFile s ns mb) (hn : SmithyNamespace ns) {n b x} (hb : mb.shapes.get n = some b) (hg : Buildable mb b)
    (hx : BuildsShape mb b x) : ReadShape x ∧ Origin s ns x.id := by
  rcases h.entries n b hb with hs | ⟨id, h1, h2, rfl⟩
  · obtain ⟨l, hl, hname⟩ := hs.name
    rcases hx.id with ⟨h3, -⟩ | ⟨-, hid⟩
    · exact absurd h3 hs.defines
    · rw [hname] at hid
      refine ⟨⟨target_root h hn (n := .local' l) (ident_isIdentifier hl) hid, traits_read h hn hs.traits hx.traits,
        .inr (body_read h hn hs.body hg.version hx.body)⟩, ?_⟩
      have hd : DefinedLocally mb l := ⟨b, by rw [← hname, h.wf.key n b hb]; exact hb⟩
      obtain ⟨new, hid⟩ := hid
      generalize x.id = i at hid
      cases hid with
      | imported hi _ => exact .inr (imports_id h hi).2
      | defined => exact .inl h.defaultNs
      | prelude _ hd' _ => exact absurd hd hd'
      | unknown _ hd' _ => exact absurd hd hd'
  · have ht := traits_none hx.traits
    have hbody : x.body = .unresolved := by
      have := hx.body
      generalize x.body = k at this
      cases this; rfl
    have hid : x.id = id := by
      rcases hx.id with ⟨-, h3⟩ | ⟨h3, -⟩
      · cases h3; rfl
      · exact absurd rfl h3
    refine ⟨⟨by rw [hid]; exact smithyId_root h1, (by rw [ht]; intro _ _ h; cases h), .inl ⟨hbody, ht⟩⟩, by rw [hid]; exact .inr h2⟩

/-! ### Adding shapes -/

theorem mergeTraits_some {id : ShapeID} {a b c : TraitValue} (h : mergeTraits id a b = .ok c) (ha : ∃ x, a = some x) : ∃ x, c = some x := by
  unfold mergeTraits at h
  split at h
  · split at h
    · cases h; exact ⟨_, rfl⟩
    · split at h
      · cases h; exact ⟨_, rfl⟩
      · cases h; exact ⟨_, rfl⟩
  · split at h
    · cases h; exact ha
    · cases h

theorem readTraits_insert {ts : Traits} (h : ReadTraits ts) {id : ShapeID} {v : TraitValue} (hid : RootId id) (hv : ∃ x, v = some x) :
    ReadTraits (AMap.insert ts id v) := by
  intro i w hw
  rw [AMap.get_insert] at hw
  split at hw
  · next he => cases hw; rw [← he]; exact ⟨hid, hv⟩
  · exact h i w hw

theorem readTraits_append {l : Traits} (hl : ∀ e ∈ l, RootId e.1 ∧ ∃ x, e.2 = some x) : ∀ ts, ReadTraits ts → ReadTraits (appendTraits ts l).1 := by
  induction l with
  | nil => intro ts h; exact h
  | cons e l ih =>
    obtain ⟨id, v⟩ := e
    intro ts h
    obtain ⟨h1, h2⟩ := hl (id, v) (by simp)
    have key : ReadTraits (applyWithValue ts id v).1 := by
      unfold applyWithValue
      split
      · exact h
      · split
        · next old ho =>
          split
          · next new hnew => exact readTraits_insert h h1 (mergeTraits_some hnew (h _ _ ho).2)
          · exact h
        · exact readTraits_insert h h1 h2
    unfold appendTraits
    split
    · next ts' he => rw [he] at key; exact ih (fun e he => hl e (by simp [he])) _ key
    · next ts' e he => rw [he] at key; exact key

theorem reconcile_read {a b : TopLevelShape} (ha : ReadShape a) (hb : ReadShape b) (hw : AMap.Wf b.traits) : ReadShape (Model.reconcile a b).1 := by
  obtain ⟨h1, h2, h3⟩ := reconcile_frame a b
  have ht : ReadTraits (Model.reconcile a b).1.traits := by
    rcases h3 with h3 | h3
    · rw [h3]; exact ha.traits
    · rw [h3]
      exact readTraits_append (fun e he => hb.traits e.1 e.2 (AMap.get_of_mem hw he)) _ ha.traits
  refine ⟨by rw [h1]; exact ha.id, ht, ?_⟩
  by_cases hu : b.body = .unresolved
  · have hbt : b.traits = [] := by
      rcases hb.body with hb | hb
      · exact hb.2
      · rw [hu] at hb; cases hb
    have he : (Model.reconcile a b).1 = a := by
      unfold Model.reconcile
      rw [hu]
      cases a.body.isUnresolved <;> simp [ShapeKind.isUnresolved, Model.copyTraits, hbt, appendTraits]
    rw [he]; exact ha.body
  · have hk : ReadKind b.body := hb.body.resolve_left fun h => hu h.1
    by_cases hua : a.body = .unresolved
    · rw [reconcile_resolve hua hu]; exact .inr hk
    · have hka : ReadKind a.body := ha.body.resolve_left fun h => hua h.1
      rcases h2 with h2 | ⟨h2, -⟩
      · rw [h2]; exact .inr hka
      · exact absurd h2 hua

theorem slot_read (L : List TopLevelShape) (hL : ∀ x ∈ L, ReadShape x ∧ AMap.Wf x.traits) : ∀ o, (∀ x, o = some x → ReadShape x) →
    ∀ x, L.foldl slotStep o = some x → ReadShape x := by
  induction L with
  | nil => intro o ho x hx; exact ho x hx
  | cons y L ih =>
    intro o ho x hx
    refine ih (fun z hz => hL z (by simp [hz])) (slotStep o y) ?_ x hx
    intro z hz
    obtain ⟨hy, hw⟩ := hL y (by simp)
    by_cases ha : Admissible y
    · rw [slotStep_admissible ha] at hz
      cases o with
      | none => cases hz; exact hy
      | some e => cases hz; exact reconcile_read (ho e rfl) hy hw
    · rw [slotStep_not_admissible ha] at hz; exact ho z hz

/-! ### The model -/

/-- Every name mentioned in the builders from a file is valid. -/
theorem mentions_good {b : Builder} (hb : Statement b ∨ Import s b) {tr : Bool} {n : ShapeName} (hm : Mentions b tr n) : GoodName n := by
  rcases hb with hb | ⟨id, -, -, rfl⟩
  · have hbody := hb.body
    have hms : ∀ m ∈ memberBuilders b.body, GoodName m.target ∧ ∀ t ∈ m.traits, GoodTrait t := by
      generalize b.body = k at hbody
      intro m hm
      cases hbody with
      | list h => rcases List.mem_singleton.mp hm with rfl; exact ⟨h, by simp⟩
      | set h => rcases List.mem_singleton.mp hm with rfl; exact ⟨h, by simp⟩
      | map h h' =>
        rcases List.mem_cons.mp hm with rfl | hm
        · exact ⟨h, by simp⟩
        · rcases List.mem_singleton.mp hm with rfl; exact ⟨h', by simp⟩
      | struct h => exact ⟨(h m hm).target, (h m hm).traits⟩
      | union h => exact ⟨(h m hm).target, (h m hm).traits⟩
      | _ => cases hm
    cases hm with
    | name =>
      obtain ⟨l, hl, hname⟩ := hb.name
      rw [hname]; exact ident_isIdentifier hl
    | trait ht => exact (hb.traits _ ht).name
    | memberTarget hm => exact (hms _ hm).1
    | memberTrait hm ht => exact ((hms _ hm).2 _ ht).name
    | target hn =>
      generalize b.body = k at hbody hn
      cases hbody with
      | service h1 h2 =>
        rcases List.mem_append.mp hn with hn | hn
        · exact h1 _ hn
        · exact h2 _ hn
      | operation h1 h2 h3 =>
        simp only [targetNames, List.mem_append, Option.mem_toList] at hn
        rcases hn with (hn | hn) | hn
        · exact h1 _ hn
        · exact h2 _ hn
        · exact h3 _ hn
      | resource h1 h2 h3 h4 h5 h6 h7 h8 h9 h10 h11 =>
        simp only [targetNames, List.mem_append, Option.mem_toList, List.mem_map] at hn
        rcases hn with ((((((((⟨e, he, rfl⟩ | hn) | hn) | hn) | hn) | hn) | hn) | hn) | hn) | hn
        · exact (h2 e he).2
        · exact h3 _ hn
        · exact h4 _ hn
        · exact h5 _ hn
        · exact h6 _ hn
        · exact h7 _ hn
        · exact h8 _ hn
        · exact h9 _ hn
        · exact h10 _ hn
        · exact h11 _ hn
      | _ => cases hn
  · cases hm with
    | name h => exact absurd rfl h
    | trait h => cases h
    | memberTarget h => cases h
    | memberTrait h => cases h
    | target h => cases h

/-- What is built for a builder from a file. -/
theorem build_read (h : FromFile s ns mb) (hn : SmithyNamespace ns) {enum : List ShapeID → List ShapeID} (he : Enumerates enum) {m : Model}
    (hb : mb.build enum = .ok m) : ∀ id x, m.shape id = some x → ReadShape x ∧ Origin s ns id := by
  obtain ⟨ss, gs, h1, h2, h3, h4⟩ := build_parts h.wf he hb
  have hguess : ∀ id, Guessed mb id → RootId id ∧ Origin s ns id := by
    rintro id ⟨n, b, tr, k, hb, hm, hr⟩
    have hg := mentions_good (h.entries n b hb) hm
    refine ⟨resolves_root h hn hg hr, .inl ?_⟩
    cases hr with
    | unknown => exact h.defaultNs
  have hall : ∀ x ∈ ss ++ gs.map fun id => TopLevelShape.new id .unresolved, ReadShape x ∧ AMap.Wf x.traits ∧ Origin s ns x.id := by
    intro x hx
    rcases List.mem_append.mp hx with hx | hx
    · obtain ⟨b, hb', hs'⟩ := (listRel_split h1).2 x hx
      have hb' := (mem_values h.wf).mp hb'
      obtain ⟨h5, h6⟩ := shape_read h hn hb' (h3 _ _ hb') hs'
      exact ⟨h5, hs'.traits.nodup, h6⟩
    · obtain ⟨id, hid, rfl⟩ := List.mem_map.mp hx
      obtain ⟨h5, h6⟩ := hguess id ((h2 id).mp hid)
      exact ⟨⟨h5, (by intro _ _ h; cases h), .inl ⟨rfl, rfl⟩⟩, AMap.wf_nil, h6⟩
  intro id x hx
  rw [addAllIgnoring_slot h4 id, start_shape] at hx
  have hL : ∀ y ∈ (ss ++ gs.map fun id => TopLevelShape.new id .unresolved).filter fun y => decide (y.id = id), ReadShape y ∧ AMap.Wf y.traits ∧ Origin s ns y.id ∧ y.id = id := by
    intro y hy
    obtain ⟨hy, hid⟩ := List.mem_filter.mp hy
    obtain ⟨h5, h6, h7⟩ := hall y hy
    exact ⟨h5, h6, h7, by simpa using hid⟩
  refine ⟨slot_read _ (fun y hy => ⟨(hL y hy).1, (hL y hy).2.1⟩) none (by simp) x hx, ?_⟩
  rcases slot_body _ _ _ hx with ⟨_, h, _⟩ | ⟨y, hy, -⟩
  · cases h
  · obtain ⟨-, -, h7, h8⟩ := hL y hy
    rw [← h8]; exact h7

/-- What is read from a text: nothing when there is no namespace, otherwise a well-formed model as such a text gives. -/
theorem parseModel_read {flt : Str → Option F64} {enum : List ShapeID → List ShapeID} (he : Enumerates enum) {s : Str} {m : Model}
    (h : parseModel flt enum s = .ok m) : (readBuilder flt s = .ok none ∧ m = Model.new .v10) ∨ (∃ ns, ReadModel s ns m ∧ WfModel m) := by
  unfold parseModel at h
  cases hr : readBuilder flt s with
  | error e => rw [hr] at h; cases h
  | ok r =>
    rw [hr] at h
    cases r with
    | none => cases h; exact .inl ⟨rfl, rfl⟩
    | some mb =>
      obtain ⟨ns, h1, h2, h3, h4⟩ := readBuilder_fromFile hr
      have hb : mb.build enum = .ok m := h
      obtain ⟨hw, -, hm, -⟩ := C25_built_model mb h4.wf enum he m hb
      refine .inr ⟨ns, ⟨h1, h2, h3, ?_, build_read h4 h1 he hb⟩, hw⟩
      rw [hm]; exact h4.metadata

end Verif
