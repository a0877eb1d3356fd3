/-
The loops of `append_traits` and `merge` against the key-wise specification.
-/
import Verif.ModelLemmas

namespace Verif
open Spec

/-! ### Traits -/

theorem optWf_veq {a b : TraitValue} (ha : ∀ v, a = some v → v.Wf) (hb : ∀ v, b = some v → v.Wf) :
    traitValueEq a b = true ↔ OptRel VEq a b := by
  rw [traitValueEq, optEq_iff]
  constructor
  · rintro (_ | h)
    · exact .none
    · exact .some ((Value.veq_iff _ _ (ha _ rfl) (hb _ rfl)).mp h)
  · rintro (_ | h)
    · exact .none
    · exact .some ((Value.veq_iff _ _ (ha _ rfl) (hb _ rfl)).mpr h)

theorem mergeTraits_ok_iff (id : ShapeID) {a b c : TraitValue} (ha : ∀ v, a = some v → v.Wf)
    (hb : ∀ v, b = some v → v.Wf) : mergeTraits id a b = .ok c ↔ TraitMerge a b c := by
  by_cases harr : ∃ l r, a = some (.array l) ∧ b = some (.array r)
  · obtain ⟨l, r, rfl, rfl⟩ := harr
    have : mergeTraits id (some (.array l)) (some (.array r)) = .ok (some (.array (l ++ r))) := by
      unfold mergeTraits
      simp only
      split
      · next h => simp at h; simp [h]
      · split
        · next h => simp at h; simp [h]
        · rfl
    rw [this]
    constructor
    · intro h; injection h with h; subst h; exact .concat
    · intro h
      cases h with
      | concat => rfl
      | equal h => exact absurd ⟨rfl, rfl⟩ h
  · have heq : mergeTraits id a b = if traitValueEq a b then .ok a else .error (.mergeTraitConflict id) := by
      unfold mergeTraits
      split
      · next l r => exact absurd ⟨l, r, rfl, rfl⟩ harr
      · rfl
    rw [heq]
    constructor
    · intro h
      split at h
      · next ht =>
        injection h with h; subst h
        rw [optWf_veq ha hb] at ht
        cases ht with
        | none => exact .valueless
        | some hv =>
          refine .equal ?_ hv
          rintro ⟨h1, h2⟩
          rename_i x y
          cases x <;> simp [Value.isArray] at h1
          cases y <;> simp [Value.isArray] at h2
          exact harr ⟨_, _, rfl, rfl⟩
      · cases h
    · intro h
      cases h with
      | concat => exact absurd ⟨_, _, rfl, rfl⟩ harr
      | valueless => simp [traitValueEq, optEq]
      | equal h1 h2 => rw [if_pos ((optWf_veq ha hb).mpr (.some h2))]

theorem mergeTraits_error (id : ShapeID) (a b : TraitValue) (e : Err) (h : mergeTraits id a b = .error e) :
    e = .mergeTraitConflict id := by
  unfold mergeTraits at h
  split at h
  · split at h
    · cases h
    · split at h <;> cases h
  · split at h
    · cases h
    · injection h with h; exact h.symm

/-- One step of `append_traits`, for `kfold`. -/
def updTrait (id : ShapeID) (old : Option TraitValue) (v : TraitValue) : Option TraitValue × Except Err Unit :=
  if id.isMember then (none, .error (.shapeIDExpected id))
  else match old with
    | some o =>
      match mergeTraits id o v with
      | .ok n => (some n, .ok ())
      | .error e => (none, .error e)
    | none => (some v, .ok ())

theorem applyWithValue_eq (ts : Traits) (id : ShapeID) (v : TraitValue) :
    applyWithValue ts id v = (AMap.insertOpt ts id (updTrait id (ts.get id) v).1, (updTrait id (ts.get id) v).2) := by
  unfold applyWithValue updTrait
  cases id.isMember with
  | true => simp [AMap.insertOpt]
  | false =>
    simp only [Bool.false_eq_true, if_false]
    cases AMap.get ts id with
    | none => simp [AMap.insertOpt]
    | some old =>
      simp only
      cases mergeTraits id old v <;> simp [AMap.insertOpt]

theorem appendTraits_eq (ts : Traits) (l : List (ShapeID × TraitValue)) :
    appendTraits ts l = AMap.kfold updTrait ts l := by
  induction l generalizing ts with
  | nil => rfl
  | cons e t ih =>
    obtain ⟨id, v⟩ := e
    unfold appendTraits AMap.kfold
    rw [applyWithValue_eq]
    cases h : updTrait id (AMap.get ts id) v with
    | mk o r =>
      cases r with
      | ok u => simp only; exact ih _
      | error e => simp only

theorem updTrait_ok_iff {id : ShapeID} {old : Option TraitValue} {v : TraitValue}
    (ho : ∀ x, old = some (some x) → x.Wf) (hv : ∀ x, v = some x → x.Wf) :
    (updTrait id old v).2 = .ok () ↔ id.isMember = false ∧ ∀ o, old = some o → ∃ n, TraitMerge o v n := by
  unfold updTrait
  cases id.isMember with
  | true => simp
  | false =>
    simp only [Bool.false_eq_true, if_false, true_and]
    cases old with
    | none => simp
    | some o =>
      simp only [Option.some.injEq, forall_eq']
      cases h : mergeTraits id o v with
      | ok n =>
        simp only [true_iff]
        exact ⟨n, (mergeTraits_ok_iff id (fun x hx => ho x (by rw [hx])) hv).mp h⟩
      | error e =>
        simp only [reduceCtorEq, false_iff]
        rintro ⟨n, hn⟩
        rw [(mergeTraits_ok_iff id (fun x hx => ho x (by rw [hx])) hv).mpr hn] at h
        cases h

theorem updTrait_value {id : ShapeID} {old : Option TraitValue} {v : TraitValue}
    (ho : ∀ x, old = some (some x) → x.Wf) (hv : ∀ x, v = some x → x.Wf)
    (hok : (updTrait id old v).2 = .ok ()) : Combine TraitMerge old (some v) (updTrait id old v).1 := by
  unfold updTrait at hok ⊢
  cases hm : id.isMember with
  | true => simp [hm] at hok
  | false =>
    simp only [hm, Bool.false_eq_true, if_false] at hok ⊢
    cases old with
    | none => exact .right
    | some o =>
      simp only at hok ⊢
      cases h : mergeTraits id o v with
      | ok n => exact .both ((mergeTraits_ok_iff id (fun x hx => ho x (by rw [hx])) hv).mp h)
      | error e => simp [h] at hok

theorem updTrait_some_of_ok {id : ShapeID} {old : Option TraitValue} {v : TraitValue}
    (hok : (updTrait id old v).2 = .ok ()) : ∃ n, (updTrait id old v).1 = some n := by
  unfold updTrait at hok ⊢
  cases hm : id.isMember with
  | true => simp [hm] at hok
  | false =>
    simp only [hm, Bool.false_eq_true, if_false] at hok ⊢
    cases old with
    | none => exact ⟨_, rfl⟩
    | some o =>
      simp only at hok ⊢
      cases h : mergeTraits id o v with
      | ok n => exact ⟨_, rfl⟩
      | error e => simp [h] at hok

/-- `append_traits` succeeds exactly when no appended id is a member id and every common trait can be combined. -/
theorem appendTraits_ok_iff {ts l : Traits} (hts : WfTraits ts) (hl : WfTraits l) :
    (appendTraits ts l).2 = .ok () ↔ (∀ id v, l.get id = some v → id.isMember = false) ∧
      ∀ id o v, ts.get id = some o → l.get id = some v → ∃ n, TraitMerge o v n := by
  rw [appendTraits_eq, AMap.kfold_ok_iff _ _ hl.nodup]
  constructor
  · intro h
    refine ⟨fun id v hv => ?_, fun id o v ho hv => ?_⟩
    · exact ((updTrait_ok_iff (fun x hx => hts.values id x hx) (fun x hx => hl.values id x (by rw [hv, hx]))).mp (h id v hv)).1
    · exact ((updTrait_ok_iff (fun x hx => hts.values id x hx) (fun x hx => hl.values id x (by rw [hv, hx]))).mp (h id v hv)).2
        o ho
  · rintro ⟨h1, h2⟩ id v hv
    exact (updTrait_ok_iff (fun x hx => hts.values id x hx) (fun x hx => hl.values id x (by rw [hv, hx]))).mpr
      ⟨h1 id v hv, fun o ho => h2 id o v ho hv⟩

theorem appendTraits_merge {ts l : Traits} (hts : WfTraits ts) (hl : WfTraits l)
    (hok : (appendTraits ts l).2 = .ok ()) : MapMerge TraitMerge ts l (appendTraits ts l).1 := by
  rw [appendTraits_eq] at hok ⊢
  intro id
  rw [AMap.kfold_get _ _ hl.nodup hok]
  have hall := (AMap.kfold_ok_iff _ _ hl.nodup).mp hok
  cases hv : AMap.get l id with
  | none =>
    simp only
    cases AMap.get ts id with
    | none => exact .neither
    | some a => exact .left
  | some v =>
    simp only
    obtain ⟨n, hn⟩ := updTrait_some_of_ok (hall id v hv)
    have := updTrait_value (fun x hx => hts.values id x hx) (fun x hx => hl.values id x (by rw [hv, hx])) (hall id v hv)
    rw [hn] at this ⊢
    simpa using this

theorem TraitMerge.wf {a b c : TraitValue} (h : TraitMerge a b c) (ha : ∀ v, a = some v → v.Wf)
    (hb : ∀ v, b = some v → v.Wf) : ∀ v, c = some v → v.Wf := by
  intro v hv
  cases h with
  | concat =>
    injection hv with hv; subst hv
    have h1 := ha _ rfl
    have h2 := hb _ rfl
    cases h1 with | array h1 =>
    cases h2 with | array h2 =>
    refine .array fun v hv => ?_
    rcases List.mem_append.mp hv with hv | hv
    · exact h1 v hv
    · exact h2 v hv
  | valueless => cases hv
  | equal => exact ha v hv

/-- Well-formedness is kept by `append_traits`, whether it succeeds or not. -/
theorem appendTraits_wf {ts l : Traits} (hts : WfTraits ts) (hl : WfTraits l) : WfTraits (appendTraits ts l).1 := by
  rw [appendTraits_eq]
  refine ⟨AMap.wf_kfold _ hts.nodup _, ?_⟩
  have := AMap.kfold_forall updTrait (fun _ (v : TraitValue) => ∀ x, v = some x → x.Wf) ts l
    (fun id v hv x hx => hts.values id x (by rw [hv, hx])) ?_
  · intro id v hv
    exact this id (some v) hv v rfl
  · rintro ⟨id, v⟩ he o w ho hw x rfl
    have hv : ∀ x, v = some x → x.Wf := fun x hx => hl.values id x (by rw [AMap.get_of_mem hl.nodup he, hx])
    simp only [updTrait] at hw
    cases hm : id.isMember with
    | true => simp [hm] at hw
    | false =>
      simp only [hm, Bool.false_eq_true, if_false] at hw
      cases o with
      | none => simp at hw; exact hv x hw
      | some o =>
        simp only at hw
        cases hmt : mergeTraits id o v with
        | error e => simp [hmt] at hw
        | ok n =>
          simp [hmt] at hw
          subst hw
          exact TraitMerge.wf ((mergeTraits_ok_iff id (fun x hx => ho o rfl x hx) hv).mp hmt) (fun x hx => ho o rfl x hx) hv x rfl

/-! ### Metadata -/

/-- One step of the metadata loop, for `kfold`. -/
def updMeta (k : Str) (old : Option Value) (v : Value) : Option Value × Except Err Unit :=
  match old with
  | some (.array a) =>
    match v with
    | .array b => (some (.array (a ++ b)), .ok ())
    | v => if (Value.array a).veq v then (none, .ok ()) else (none, .error (.mergeMetadataConflict k))
  | some old => if old.veq v then (none, .ok ()) else (none, .error (.mergeMetadataConflict k))
  | none => (some v, .ok ())

theorem addMetadata_eq (m : Model) (k : Str) (v : Value) :
    (m.addMetadata k v).1 = { m with metadata := AMap.insertOpt m.metadata k (updMeta k (m.metadata.get k) v).1 } ∧
    (∀ e, (m.addMetadata k v).2 = .error e ↔ (updMeta k (m.metadata.get k) v).2 = .error e) := by
  unfold Model.addMetadata updMeta Model.metadataValue
  cases AMap.get m.metadata k with
  | none => simp [AMap.insertOpt]
  | some old =>
    cases old <;> cases v <;> simp [AMap.insertOpt] <;> split <;> simp

theorem addAllMetadata_eq (m : Model) (l : List (Str × Value)) :
    m.addAllMetadata l = ({ m with metadata := (AMap.kfold updMeta m.metadata l).1 }, (AMap.kfold updMeta m.metadata l).2) := by
  induction l generalizing m with
  | nil => rfl
  | cons e t ih =>
    obtain ⟨k, v⟩ := e
    unfold Model.addAllMetadata AMap.kfold
    obtain ⟨h1, h2⟩ := addMetadata_eq m k v
    cases hm : m.addMetadata k v with
    | mk m' r =>
      rw [hm] at h1 h2
      simp only at h1 h2
      cases hu : updMeta k (AMap.get m.metadata k) v with
      | mk o r' =>
        rw [hu] at h1 h2
        simp only at h1 h2
        subst h1
        cases r with
        | ok x =>
          cases r' with
          | ok u => simp only; rw [ih]
          | error e => exact absurd ((h2 e).mpr rfl) (by simp)
        | error e =>
          have := (h2 e).mp rfl
          subst this
          simp

theorem updMeta_spec {k : Str} {old : Option Value} {v : Value} (ho : ∀ x, old = some x → x.Wf) (hv : v.Wf) :
    ((updMeta k old v).2 = .ok () ↔ ∀ o, old = some o → ∃ n, MetaMerge o v n) ∧
    ((updMeta k old v).2 = .ok () → Combine MetaMerge old (some v) ((updMeta k old v).1.or old)) := by
  cases old with
  | none => simp [updMeta]; exact .right
  | some o =>
    have how := ho o rfl
    simp only [Option.some.injEq, forall_eq']
    by_cases harr : ∃ a b, o = .array a ∧ v = .array b
    · obtain ⟨a, b, rfl, rfl⟩ := harr
      simp only [updMeta, true_iff]
      exact ⟨⟨_, .concat⟩, fun _ => .both .concat⟩
    · have heq : updMeta k (some o) v = if o.veq v then (none, .ok ()) else (none, .error (.mergeMetadataConflict k)) := by
        cases o <;> cases v <;> simp_all [updMeta]
      have hna : ¬ (o.isArray ∧ v.isArray) := by
        rintro ⟨h1, h2⟩
        cases o <;> simp [Value.isArray] at h1
        cases v <;> simp [Value.isArray] at h2
        exact harr ⟨_, _, rfl, rfl⟩
      rw [heq]
      by_cases he : o.veq v = true
      · have hq := (Value.veq_iff o v how hv).mp he
        simp only [he, if_true, true_iff]
        exact ⟨⟨o, .equal hna hq⟩, fun _ => by simpa using .both (.equal hna hq)⟩
      · simp only [he]
        refine ⟨⟨fun h => (by cases h), ?_⟩, fun h => (by cases h)⟩
        rintro ⟨n, hn⟩
        cases hn with
        | concat => exact absurd ⟨_, _, rfl, rfl⟩ harr
        | equal _ hq => exact absurd ((Value.veq_iff o v how hv).mpr hq) he

theorem MetaMerge.wf {a b c : Value} (h : MetaMerge a b c) (ha : a.Wf) (hb : b.Wf) : c.Wf := by
  cases h with
  | concat =>
    cases ha with | array h1 =>
    cases hb with | array h2 =>
    refine .array fun v hv => ?_
    rcases List.mem_append.mp hv with hv | hv
    · exact h1 v hv
    · exact h2 v hv
  | equal => exact ha

theorem addAllMetadata_ok_iff {m : Model} {l : AMap Str Value} (hm : ∀ k v, m.metadata.get k = some v → v.Wf)
    (hw : AMap.Wf l) (hl : ∀ k v, l.get k = some v → v.Wf) :
    (m.addAllMetadata l).2 = .ok () ↔
      ∀ k o v, m.metadata.get k = some o → l.get k = some v → ∃ n, MetaMerge o v n := by
  rw [addAllMetadata_eq]
  simp only
  rw [AMap.kfold_ok_iff _ _ hw]
  constructor
  · intro h k o v ho hv
    exact ((updMeta_spec (hm k) (hl k v hv)).1.mp (h k v hv)) o ho
  · intro h k v hv
    exact (updMeta_spec (hm k) (hl k v hv)).1.mpr fun o ho => h k o v ho hv

theorem addAllMetadata_merge {m : Model} {l : AMap Str Value} (hm : ∀ k v, m.metadata.get k = some v → v.Wf)
    (hw : AMap.Wf l) (hl : ∀ k v, l.get k = some v → v.Wf) (hok : (m.addAllMetadata l).2 = .ok ()) :
    MapMerge MetaMerge m.metadata l (m.addAllMetadata l).1.metadata := by
  rw [addAllMetadata_eq] at hok ⊢
  simp only at hok ⊢
  intro k
  rw [AMap.kfold_get _ _ hw hok]
  have hall := (AMap.kfold_ok_iff _ _ hw).mp hok
  cases hv : AMap.get l k with
  | none =>
    simp only
    cases AMap.get m.metadata k with
    | none => exact .neither
    | some a => exact .left
  | some v => exact (updMeta_spec (hm k) (hl k v hv)).2 (hall k v hv)

/-! ### Shapes -/

theorem copyTraits_snd (a b : TopLevelShape) : (Model.copyTraits a b).2 = (appendTraits a.traits b.traits).2 := rfl
theorem copyTraits_fst (a b : TopLevelShape) :
    (Model.copyTraits a b).1 = { a with traits := (appendTraits a.traits b.traits).1 } := rfl

theorem isUnresolved_iff {k : ShapeKind} : k.isUnresolved = true ↔ k = .unresolved := by
  cases k <;> simp [ShapeKind.isUnresolved]

theorem isUnresolved_false_iff {k : ShapeKind} : k.isUnresolved = false ↔ k ≠ .unresolved := by
  cases k <;> simp [ShapeKind.isUnresolved]

theorem reconcile_ok_iff {a b : TopLevelShape} (hid : a.id = b.id) (ha : WfShape a) (hb : WfShape b) :
    (Model.reconcile a b).2 = .ok () ↔
      (∃ k, BodyMerge a.body b.body k) ∧ (appendTraits a.traits b.traits).2 = .ok () := by
  unfold Model.reconcile
  cases hua : a.body.isUnresolved <;> cases hub : b.body.isUnresolved
  · simp only
    have h1 := isUnresolved_false_iff.mp hua
    have h2 := isUnresolved_false_iff.mp hub
    have hiff := equalWithoutTraits_iff hid ha.body hb.body
    cases he : a.equalWithoutTraits b with
    | error e =>
      simp only [reduceCtorEq, false_iff]
      rintro ⟨⟨k, hk⟩, _⟩
      generalize hA : a.body = A at hk h1
      generalize hB : b.body = B at hk h2
      cases hk with
      | same _ _ h => rw [← hA, ← hB] at h; rw [hiff.mpr h] at he; cases he
      | resolve => exact h1 rfl
      | keep => exact h2 rfl
    | ok r =>
      cases r with
      | true =>
        simp only [copyTraits_snd]
        have := hiff.mp he
        exact ⟨fun h => ⟨⟨_, .same h1 h2 this⟩, h⟩, fun h => h.2⟩
      | false =>
        simp only [reduceCtorEq, false_iff]
        rintro ⟨⟨k, hk⟩, _⟩
        generalize hA : a.body = A at hk h1
        generalize hB : b.body = B at hk h2
        cases hk with
        | same _ _ h => rw [← hA, ← hB] at h; rw [hiff.mpr h] at he; cases he
        | resolve => exact h1 rfl
        | keep => exact h2 rfl
  · simp only [copyTraits_snd]
    rw [isUnresolved_iff] at hub
    rw [hub]
    exact ⟨fun h => ⟨⟨_, .keep⟩, h⟩, fun h => h.2⟩
  · simp only [copyTraits_snd]
    rw [isUnresolved_iff] at hua
    rw [hua]
    exact ⟨fun h => ⟨⟨_, .resolve (isUnresolved_false_iff.mp hub)⟩, h⟩, fun h => h.2⟩
  · simp only [copyTraits_snd]
    rw [isUnresolved_iff] at hub
    rw [hub]
    exact ⟨fun h => ⟨⟨_, .keep⟩, h⟩, fun h => h.2⟩

theorem reconcile_merge {a b : TopLevelShape} (hid : a.id = b.id) (ha : WfShape a) (hb : WfShape b)
    (hok : (Model.reconcile a b).2 = .ok ()) : ShapeMerge a b (Model.reconcile a b).1 := by
  have hok' := (reconcile_ok_iff hid ha hb).mp hok
  have htm := appendTraits_merge ha.traits hb.traits hok'.2
  unfold Model.reconcile at hok ⊢
  cases hua : a.body.isUnresolved <;> cases hub : b.body.isUnresolved
  · simp only [hua, hub] at hok ⊢
    have h1 := isUnresolved_false_iff.mp hua
    have h2 := isUnresolved_false_iff.mp hub
    cases he : a.equalWithoutTraits b with
    | error e => simp [he] at hok
    | ok r =>
      cases r with
      | false => simp [he] at hok
      | true =>
        simp only [copyTraits_fst]
        exact ⟨rfl, hid, .same h1 h2 ((equalWithoutTraits_iff hid ha.body hb.body).mp he), htm⟩
  · simp only [copyTraits_fst]
    rw [isUnresolved_iff] at hub
    refine ⟨rfl, hid, ?_, htm⟩
    rw [hub]; exact .keep
  · simp only [copyTraits_fst]
    rw [isUnresolved_iff] at hua
    refine ⟨rfl, hid, ?_, htm⟩
    rw [hua]; exact .resolve (isUnresolved_false_iff.mp hub)
  · simp only [copyTraits_fst]
    rw [isUnresolved_iff] at hub
    refine ⟨rfl, hid, ?_, htm⟩
    rw [hub]; exact .keep

/-- Success or not, the reconciled shape keeps its id, and its body is one of the two. -/
theorem reconcile_frame (a b : TopLevelShape) : (Model.reconcile a b).1.id = a.id ∧
    ((Model.reconcile a b).1.body = a.body ∨ (a.body = .unresolved ∧ (Model.reconcile a b).1.body = b.body)) ∧
    ((Model.reconcile a b).1.traits = a.traits ∨ (Model.reconcile a b).1.traits = (appendTraits a.traits b.traits).1) := by
  unfold Model.reconcile
  cases hua : a.body.isUnresolved <;> cases hub : b.body.isUnresolved
  · simp only
    cases he : a.equalWithoutTraits b with
    | error e => exact ⟨rfl, .inl rfl, .inl rfl⟩
    | ok r => cases r <;> simp [copyTraits_fst]
  · simp [copyTraits_fst]
  · rw [isUnresolved_iff] at hua; simp [copyTraits_fst, hua]
  · simp [copyTraits_fst]

theorem reconcile_wf {a b : TopLevelShape} (ha : WfShape a) (hb : WfShape b) : WfShape (Model.reconcile a b).1 := by
  obtain ⟨_, h2, h3⟩ := reconcile_frame a b
  constructor
  · rcases h3 with h | h
    · rw [h]; exact ha.traits
    · rw [h]; exact appendTraits_wf ha.traits hb.traits
  · rcases h2 with h | ⟨_, h⟩
    · rw [h]; exact ha.body
    · rw [h]; exact hb.body

/-- One step of the shapes loop, for `kfold`. -/
def updShape (_id : ShapeID) (old : Option TopLevelShape) (s : TopLevelShape) : Option TopLevelShape × Except Err Unit :=
  if s.id.isMember && !s.body.isUnresolved then (none, .error (.shapeIDExpected s.id))
  else match old with
    | some e => (some (Model.reconcile e s).1, (Model.reconcile e s).2)
    | none => (some s, .ok ())

theorem addShape_eq (m : Model) (s : TopLevelShape) :
    m.addShape s = ({ m with shapes := AMap.insertOpt m.shapes s.id (updShape s.id (m.shapes.get s.id) s).1 },
      (updShape s.id (m.shapes.get s.id) s).2) := by
  unfold Model.addShape updShape Model.shape
  split
  · simp [AMap.insertOpt]
  · cases AMap.get m.shapes s.id <;> simp [AMap.insertOpt]

theorem addAllShapes_eq (m : Model) (l : List (ShapeID × TopLevelShape)) (hk : ∀ e ∈ l, e.2.id = e.1) :
    m.addAllShapes l =
      ({ m with shapes := (AMap.kfold updShape m.shapes l).1 }, (AMap.kfold updShape m.shapes l).2) := by
  induction l generalizing m with
  | nil => rfl
  | cons e t ih =>
    obtain ⟨id, s⟩ := e
    have hid : s.id = id := hk (id, s) (by simp)
    unfold Model.addAllShapes AMap.kfold
    rw [addShape_eq, hid]
    cases hu : updShape id (AMap.get m.shapes id) s with
    | mk o r =>
      cases r with
      | ok u => simp only; rw [ih _ fun e he => hk e (by simp [he])]
      | error e => simp

theorem updShape_spec {id : ShapeID} {old : Option TopLevelShape} {s : TopLevelShape} (hid : s.id = id)
    (hoid : ∀ x, old = some x → x.id = id) (ho : ∀ x, old = some x → WfShape x) (hs : WfShape s) :
    ((updShape id old s).2 = .ok () ↔ (id.isMember = true → s.body = .unresolved) ∧ ∀ o, old = some o →
      (∃ k, BodyMerge o.body s.body k) ∧ (appendTraits o.traits s.traits).2 = .ok ()) ∧
    ((updShape id old s).2 = .ok () → Combine ShapeMerge old (some s) (updShape id old s).1) := by
  unfold updShape
  rw [hid]
  by_cases hc : (id.isMember && !s.body.isUnresolved) = true
  · simp only [hc, if_true]
    simp only [Bool.and_eq_true, Bool.not_eq_true', isUnresolved_false_iff] at hc
    exact ⟨⟨fun h => (by cases h), fun h => absurd (h.1 hc.1) hc.2⟩, fun h => (by cases h)⟩
  · have hleg : id.isMember = true → s.body = .unresolved := by
      intro hm
      simp only [hm, Bool.true_and, Bool.not_eq_true, Bool.not_eq_false', isUnresolved_iff] at hc
      exact hc
    simp only [hc, if_false, Bool.false_eq_true]
    cases old with
    | none => simp; exact ⟨hleg, .right⟩
    | some o =>
      have e : o.id = s.id := (hoid o rfl).trans hid.symm
      simp only [Option.some.injEq, forall_eq', reconcile_ok_iff e (ho o rfl) hs]
      exact ⟨⟨fun h => ⟨hleg, h⟩, fun h => h.2⟩, fun h => .both (reconcile_merge e (ho o rfl) hs
        ((reconcile_ok_iff e (ho o rfl) hs).mpr h))⟩

end Verif
