/-
Which lines the line-oriented form contains, and that it does not depend on enumeration order.
-/
import Verif.LinesLemmas

namespace Verif
open Spec Lines

/-! ### Values -/

theorem ofArray_eq (f : Fmt) (pre : Str) (i : Nat) (vs : List Value) :
    ofArray f pre i vs = (vs.zipIdx i).flatMap fun e => ofValue f (pre ++ '[' :: showNat e.2 ++ %s"]=") e.1 := by
  induction vs generalizing i with
  | nil => simp [ofArray]
  | cons v vs ih => simp [ofArray, ih]

theorem ofObject_eq (f : Fmt) (pre : Str) (vs : List (Str × Value)) :
    ofObject f pre vs = vs.flatMap fun e => ofValue f (pre ++ '{' :: e.1 ++ %s"}=") e.2 := by
  induction vs with
  | nil => simp [ofObject]
  | cons v vs ih => obtain ⟨k, v⟩ := v; simp [ofObject, ofEntry, ih]

theorem mem_ofValue (f : Fmt) {v : Value} (hv : v.Wf) (pre l : Str) :
    l ∈ ofValue f pre v ↔ ∃ t, l = pre ++ t ∧ ValueText f v t := by
  induction v using Value.ind generalizing pre l with
  | array vs ih =>
    cases hv with | array hv =>
    rw [ofValue]
    cases hvs : vs with
    | nil =>
      simp only [List.isEmpty_nil, if_pos, List.mem_singleton]
      constructor
      · rintro rfl; exact ⟨_, rfl, .emptyArray⟩
      · rintro ⟨t, rfl, h⟩
        cases h with
        | emptyArray => rfl
        | element h => simp at h
    | cons w ws =>
      rw [← hvs]
      have hne : vs.isEmpty = false := by simp [hvs]
      rw [hne]
      simp only [Bool.false_eq_true, if_false]
      rw [ofArray_eq]
      simp only [List.mem_flatMap, Prod.exists, List.mem_zipIdx_iff_getElem?]
      constructor
      · rintro ⟨v, i, hi, hl⟩
        have hm := List.mem_of_getElem? hi
        obtain ⟨t, rfl, ht⟩ := (ih v hm (hv v hm) _ _).mp hl
        exact ⟨_, by simp [showNat], .element hi ht⟩
      · rintro ⟨t, rfl, h⟩
        cases h with
        | emptyArray => simp at hvs
        | element hi ht =>
          have hm := List.mem_of_getElem? hi
          exact ⟨_, _, hi, (ih _ hm (hv _ hm) _ _).mpr ⟨_, by simp [showNat], ht⟩⟩
  | object m ih =>
    cases hv with | object hw hv =>
    rw [ofValue]
    cases hvs : m with
    | nil =>
      simp only [List.isEmpty_nil, if_pos, List.mem_singleton]
      constructor
      · rintro rfl; exact ⟨_, rfl, .emptyObject⟩
      · rintro ⟨t, rfl, h⟩
        cases h with
        | emptyObject => rfl
        | field h => simp [AMap.get] at h
    | cons w ws =>
      rw [← hvs]
      have hne : m.isEmpty = false := by simp [hvs]
      rw [hne]
      simp only [Bool.false_eq_true, if_false]
      rw [ofObject_eq]
      simp only [List.mem_flatMap, Prod.exists]
      constructor
      · rintro ⟨k, v, hk, hl⟩
        obtain ⟨t, rfl, ht⟩ := (ih (k, v) hk (hv _ hk) _ _).mp hl
        exact ⟨_, by simp, .field (AMap.get_of_mem hw hk) ht⟩
      · rintro ⟨t, rfl, h⟩
        cases h with
        | emptyObject => simp at hvs
        | field hk ht =>
          have hm := AMap.mem_of_get hk
          exact ⟨_, _, hm, (ih _ hm (hv _ hm) _ _).mpr ⟨_, by simp, ht⟩⟩
  | number n =>
    simp only [ofValue, List.mem_singleton]
    cases n with
    | integer n =>
      constructor
      · rintro rfl; exact ⟨_, rfl, .integer⟩
      · rintro ⟨t, rfl, h⟩; cases h; rfl
    | float x =>
      constructor
      · rintro rfl; exact ⟨_, rfl, .float⟩
      · rintro ⟨t, rfl, h⟩; cases h; rfl
  | boolean b =>
    simp only [ofValue, List.mem_singleton]
    constructor
    · rintro rfl
      cases b
      · exact ⟨_, rfl, .no⟩
      · exact ⟨_, rfl, .yes⟩
    · rintro ⟨t, rfl, h⟩; cases h <;> rfl
  | string s =>
    simp only [ofValue, List.mem_singleton]
    constructor
    · rintro rfl; exact ⟨_, by simp, .string⟩
    · rintro ⟨t, rfl, h⟩; cases h; simp
  | none =>
    simp only [ofValue, List.mem_singleton]
    constructor
    · rintro rfl; exact ⟨_, rfl, .null⟩
    · rintro ⟨t, rfl, h⟩; cases h; rfl

theorem ofValue_same (f : Fmt) {v w : Value} (hv : v.Wf) (hw : w.Wf) (h : Same v w) (pre : Str) :
    (ofValue f pre v).Perm (ofValue f pre w) := by
  induction v using Value.ind generalizing w pre with
  | array vs ih =>
    cases hv with | array hv =>
    cases h with | array hl hr =>
    rename_i ws
    cases hw with | array hw =>
    have he : vs.isEmpty = ws.isEmpty := by
      rw [Bool.eq_iff_iff, List.isEmpty_iff_length_eq_zero, List.isEmpty_iff_length_eq_zero, hl]
    rw [ofValue, ofValue, he]
    split
    · exact List.Perm.refl _
    · have key : ∀ (i : Nat) (vs ws : List Value), vs.length = ws.length → (∀ (j : Nat) x y, vs[j]? = some x → ws[j]? = some y →
          ∀ p, (ofValue f p x).Perm (ofValue f p y)) → (ofArray f pre i vs).Perm (ofArray f pre i ws) := by
        intro i vs
        induction vs generalizing i with
        | nil => intro ws hl _; cases ws with
          | nil => exact List.Perm.refl _
          | cons => simp at hl
        | cons x xs ihx =>
          intro ws hl hr
          cases ws with
          | nil => simp at hl
          | cons y ys =>
            rw [ofArray, ofArray]
            refine List.Perm.append (hr 0 x y rfl rfl _) (ihx (i + 1) ys (by simpa using hl) fun j a b ha hb => ?_)
            exact hr (j + 1) a b (by simpa using ha) (by simpa using hb)
      exact key 0 vs ws hl fun j x y hx hy p =>
        ih x (List.mem_of_getElem? hx) (hv x (List.mem_of_getElem? hx)) (hw y (List.mem_of_getElem? hy)) (hr j x y hx hy) p
  | object m ih =>
    cases hv with | object hvw hv =>
    cases h with | object hk hr =>
    rename_i n
    cases hw with | object hww hw =>
    have hrel : MapRel Same m n := fun k => by
      have := hk k
      cases hm : AMap.get m k <;> cases hn : AMap.get n k <;> rw [hm, hn] at this
      · exact .none
      · simp at this
      · simp at this
      · exact .some (hr k _ _ hm hn)
    have he : m.isEmpty = n.isEmpty := by
      rw [Bool.eq_iff_iff, List.isEmpty_iff_length_eq_zero, List.isEmpty_iff_length_eq_zero, MapRel.length_eq hvw hww hrel]
    rw [ofValue, ofValue, he]
    split
    · exact List.Perm.refl _
    · rw [ofObject_eq, ofObject_eq]
      refine flatMap_perm_of_mapRel hvw hww hrel _ _ fun k x y hx hy hxy => ?_
      have h1 := AMap.mem_of_get hx
      have h2 := AMap.mem_of_get hy
      exact ih _ h1 (hv _ h1) (hw _ h2) hxy _
  | number n => cases h with | number h => subst h; exact List.Perm.refl _
  | boolean b => cases h; exact List.Perm.refl _
  | string s => cases h; exact List.Perm.refl _
  | none => cases h; exact List.Perm.refl _

/-! ### Traits and members -/

theorem mem_ofTraits (f : Fmt) {ts : Traits} (h : WfTraits ts) (pre l : Str) :
    l ∈ ofTraits f pre ts ↔ ∃ t, l = pre ++ t ∧ TraitText f ts t := by
  simp only [ofTraits, List.mem_flatMap, Prod.exists]
  constructor
  · rintro ⟨id, o, hm, hl⟩
    have hg := AMap.get_of_mem h.nodup hm
    cases o with
    | none => simp only [ofTrait, List.mem_singleton] at hl; exact ⟨_, hl, .bare hg⟩
    | some v =>
      simp only [ofTrait] at hl
      obtain ⟨t, rfl, ht⟩ := (mem_ofValue f (h.values _ _ hg) _ _).mp hl
      exact ⟨_, by simp, .valued hg ht⟩
  · rintro ⟨t, rfl, ht⟩
    cases ht with
    | bare hg => exact ⟨_, _, AMap.mem_of_get hg, by simp [ofTrait]⟩
    | valued hg ht =>
      refine ⟨_, _, AMap.mem_of_get hg, ?_⟩
      simp only [ofTrait]
      exact (mem_ofValue f (h.values _ _ hg) _ _).mpr ⟨_, by simp, ht⟩

theorem ofTraits_same (f : Fmt) {a b : Traits} (ha : WfTraits a) (hb : WfTraits b) (h : SameTraits a b) (pre : Str) :
    (ofTraits f pre a).Perm (ofTraits f pre b) := by
  refine flatMap_perm_of_mapRel ha.nodup hb.nodup h _ _ fun k x y hx hy hxy => ?_
  cases hxy with
  | none => exact List.Perm.refl _
  | some hxy => exact ofValue_same f (ha.values _ _ hx) (hb.values _ _ hy) hxy _

theorem mem_ofMember (f : Fmt) {m : MemberShape} (h : WfTraits m.traits) (pre l : Str) :
    l ∈ ofMember f pre m ↔ l = pre ++ (%s"::" ++ m.id ++ %s"=>" ++ m.target.display) ∨
      ∃ t, l = pre ++ (%s"::" ++ m.id ++ %s"::trait::" ++ t) ∧ TraitText f m.traits t := by
  simp only [ofMember, List.mem_cons, mem_ofTraits f h, List.append_assoc]

theorem ofMember_same (f : Fmt) {a b : MemberShape} (ha : WfTraits a.traits) (hb : WfTraits b.traits)
    (h : SameMemberShape a b) (pre : Str) : (ofMember f pre a).Perm (ofMember f pre b) := by
  obtain ⟨h1, h2, h3⟩ := h
  rw [ofMember, ofMember, h1, h2]
  exact List.Perm.cons _ (ofTraits_same f ha hb h3 _)

/-! ### Shapes -/

/-- The lines of the members and properties of a shape, as in `ShapeText`. -/
inductive KindText (f : Fmt) (k : ShapeKind) : Str → Prop
  | member {m} : HasMemberShape k m → KindText f k (%s"::" ++ m.id ++ %s"=>" ++ m.target.display)
  | memberTrait {m t} : HasMemberShape k m → TraitText f m.traits t → KindText f k (%s"::" ++ m.id ++ %s"::trait::" ++ t)
  | target {n id} : HasTarget k n id → KindText f k (%s"::" ++ n ++ %s"=>" ++ id.display)
  | version {v : Service} : k = .service v → KindText f k (%s"::version<=" ++ f.debug v.version)
  | rename {v : Service} {id n} : k = .service v → v.renames.get id = some n →
      KindText f k (%s"::rename::" ++ id.display ++ %s"<=" ++ n)
  | identifier {r : Resource} {n id} : k = .resource r → r.identifiers.get n = some id →
      KindText f k (%s"::identifier::" ++ n ++ %s"=>" ++ id.display)

theorem shapeText_iff (f : Fmt) (s : TopLevelShape) (t : Str) :
    ShapeText f s t ↔ t = [] ∨ KindText f s.body t ∨ ∃ u, t = %s"::trait::" ++ u ∧ TraitText f s.traits u := by
  constructor
  · intro h
    cases h with
    | self => exact .inl rfl
    | trait h => exact .inr (.inr ⟨_, rfl, h⟩)
    | member h => exact .inr (.inl (.member h))
    | memberTrait h h' => exact .inr (.inl (.memberTrait h h'))
    | target h => exact .inr (.inl (.target h))
    | version h => exact .inr (.inl (.version h))
    | rename h h' => exact .inr (.inl (.rename h h'))
    | identifier h h' => exact .inr (.inl (.identifier h h'))
  · rintro (rfl | h | ⟨u, rfl, h⟩)
    · exact .self
    · cases h with
      | member h => exact .member h
      | memberTrait h h' => exact .memberTrait h h'
      | target h => exact .target h
      | version h => exact .version h
      | rename h h' => exact .rename h h'
      | identifier h h' => exact .identifier h h'
    · exact .trait h

theorem mem_ofTargets (pre name : Str) (ids : List ShapeID) (l : Str) :
    l ∈ ofTargets pre name ids ↔ ∃ id ∈ ids, l = pre ++ (%s"::" ++ name ++ %s"=>" ++ id.display) := by
  simp [ofTargets, memberTarget, eq_comm]

theorem mem_ofTarget (pre name : Str) (o : Option ShapeID) (l : Str) :
    l ∈ ofTarget pre name o ↔ ∃ id, o = some id ∧ l = pre ++ (%s"::" ++ name ++ %s"=>" ++ id.display) := by
  simp [ofTarget, mem_ofTargets]

/-- Lines of a single member, as the texts of `KindText`. -/
theorem member_texts (f : Fmt) {k : ShapeKind} (ms : List MemberShape) (hms : ∀ m, HasMemberShape k m ↔ m ∈ ms)
    (hw : ∀ m ∈ ms, WfTraits m.traits) (ht : ∀ n id, ¬ HasTarget k n id) (hs : ∀ s, k ≠ .service s) (hr : ∀ r, k ≠ .resource r)
    (pre l : Str) : l ∈ ms.flatMap (ofMember f pre) ↔ ∃ t, l = pre ++ t ∧ KindText f k t := by
  rw [List.mem_flatMap]
  constructor
  · rintro ⟨m, hm, hl⟩
    rcases (mem_ofMember f (hw m hm) pre l).mp hl with rfl | ⟨t, rfl, h⟩
    · exact ⟨_, rfl, .member ((hms m).mpr hm)⟩
    · exact ⟨_, rfl, .memberTrait ((hms m).mpr hm) h⟩
  · rintro ⟨t, rfl, h⟩
    cases h with
    | member h =>
      have hm := (hms _).mp h
      exact ⟨_, hm, (mem_ofMember f (hw _ hm) _ _).mpr (.inl rfl)⟩
    | memberTrait h h' =>
      have hm := (hms _).mp h
      exact ⟨_, hm, (mem_ofMember f (hw _ hm) _ _).mpr (.inr ⟨_, rfl, h'⟩)⟩
    | target h => exact absurd h (ht _ _)
    | version h => exact absurd h (hs _)
    | rename h _ => exact absurd h (hs _)
    | identifier h _ => exact absurd h (hr _)

theorem mem_ofKind (f : Fmt) {k : ShapeKind} (hk : WfKind k) (pre l : Str) :
    l ∈ ofKind f pre k ↔ ∃ t, l = pre ++ t ∧ KindText f k t := by
  cases k with
  | simple s =>
    simp only [ofKind, List.not_mem_nil, false_iff]
    rintro ⟨t, -, h⟩
    cases h with
    | member h => cases h
    | memberTrait h => cases h
    | target h => cases h
    | version h => cases h
    | rename h => cases h
    | identifier h => cases h
  | unresolved =>
    simp only [ofKind, List.not_mem_nil, false_iff]
    rintro ⟨t, -, h⟩
    cases h with
    | member h => cases h
    | memberTrait h => cases h
    | target h => cases h
    | version h => cases h
    | rename h => cases h
    | identifier h => cases h
  | list m =>
    have := member_texts f (k := .list m) [m] (fun x => ⟨fun h => by cases h; simp, fun h => by simp at h; subst h; exact .list⟩)
      (by simpa [WfKind] using hk) (fun _ _ h => by cases h) (by simp) (by simp) pre l
    simpa [ofKind] using this
  | set m =>
    have := member_texts f (k := .set m) [m] (fun x => ⟨fun h => by cases h; simp, fun h => by simp at h; subst h; exact .set⟩)
      (by simpa [WfKind] using hk) (fun _ _ h => by cases h) (by simp) (by simp) pre l
    simpa [ofKind] using this
  | map x y =>
    have := member_texts f (k := .map x y) [x, y]
      (fun z => ⟨fun h => by cases h <;> simp, fun h => by
        simp at h; rcases h with rfl | rfl
        · exact .key
        · exact .value⟩)
      (by simpa [WfKind] using hk) (fun _ _ h => by cases h) (by simp) (by simp) pre l
    simpa [ofKind] using this
  | struct ms =>
    have hk : WfMembers ms := hk
    have hmem : ∀ m, m ∈ AMap.values ms ↔ ∃ n, AMap.get ms n = some m := fun m => by
      simp only [AMap.values, List.mem_map, Prod.exists]
      constructor
      · rintro ⟨n, m', h, rfl⟩; exact ⟨n, AMap.get_of_mem hk.nodup h⟩
      · rintro ⟨n, h⟩; exact ⟨n, m, AMap.mem_of_get h, rfl⟩
    exact member_texts f (k := .struct ms) (AMap.values ms)
      (fun m => ⟨fun h => by cases h with | struct h => exact (hmem m).mpr ⟨_, h⟩,
        fun h => by obtain ⟨n, h⟩ := (hmem m).mp h; exact .struct h⟩)
      (fun m h => by obtain ⟨n, h⟩ := (hmem m).mp h; exact hk.traits _ _ h) (fun _ _ h => by cases h) (by simp) (by simp) pre l
  | union ms =>
    have hk : WfMembers ms := hk
    have hmem : ∀ m, m ∈ AMap.values ms ↔ ∃ n, AMap.get ms n = some m := fun m => by
      simp only [AMap.values, List.mem_map, Prod.exists]
      constructor
      · rintro ⟨n, m', h, rfl⟩; exact ⟨n, AMap.get_of_mem hk.nodup h⟩
      · rintro ⟨n, h⟩; exact ⟨n, m, AMap.mem_of_get h, rfl⟩
    exact member_texts f (k := .union ms) (AMap.values ms)
      (fun m => ⟨fun h => by cases h with | union h => exact (hmem m).mpr ⟨_, h⟩,
        fun h => by obtain ⟨n, h⟩ := (hmem m).mp h; exact .union h⟩)
      (fun m h => by obtain ⟨n, h⟩ := (hmem m).mp h; exact hk.traits _ _ h) (fun _ _ h => by cases h) (by simp) (by simp) pre l
  | service s =>
    simp only [ofKind, List.mem_cons, List.mem_append, mem_ofTargets, List.mem_map, Prod.exists]
    constructor
    · rintro (rfl | ((⟨id, h, rfl⟩ | ⟨id, h, rfl⟩) | ⟨id, n, h, rfl⟩))
      · exact ⟨_, by simp, .version rfl⟩
      · exact ⟨_, rfl, .target (.serviceOperation h)⟩
      · exact ⟨_, rfl, .target (.serviceResource h)⟩
      · exact ⟨_, by simp, .rename rfl (AMap.get_of_mem hk h)⟩
    · rintro ⟨t, rfl, h⟩
      cases h with
      | member h => cases h
      | memberTrait h => cases h
      | identifier h => cases h
      | version h => cases h; exact .inl (by simp)
      | rename h h' => cases h; exact .inr (.inr ⟨_, _, AMap.mem_of_get h', by simp⟩)
      | target h =>
        cases h with
        | serviceOperation h => exact .inr (.inl (.inl ⟨_, h, rfl⟩))
        | serviceResource h => exact .inr (.inl (.inr ⟨_, h, rfl⟩))
  | operation o =>
    simp only [ofKind, List.mem_append, mem_ofTarget, mem_ofTargets]
    constructor
    · rintro ((⟨id, h, rfl⟩ | ⟨id, h, rfl⟩) | ⟨id, h, rfl⟩)
      · exact ⟨_, rfl, .target (.input h)⟩
      · exact ⟨_, rfl, .target (.output h)⟩
      · exact ⟨_, rfl, .target (.error h)⟩
    · rintro ⟨t, rfl, h⟩
      cases h with
      | member h => cases h
      | memberTrait h => cases h
      | identifier h => cases h
      | version h => cases h
      | rename h => cases h
      | target h =>
        cases h with
        | input h => exact .inl (.inl ⟨_, h, rfl⟩)
        | output h => exact .inl (.inr ⟨_, h, rfl⟩)
        | error h => exact .inr ⟨_, h, rfl⟩
  | resource r =>
    simp only [ofKind, List.mem_append, mem_ofTarget, mem_ofTargets, List.mem_map, Prod.exists]
    constructor
    · rintro (((((((((⟨n, id, h, rfl⟩ | ⟨id, h, rfl⟩) | ⟨id, h, rfl⟩) | ⟨id, h, rfl⟩) | ⟨id, h, rfl⟩) | ⟨id, h, rfl⟩) |
        ⟨id, h, rfl⟩) | ⟨id, h, rfl⟩) | ⟨id, h, rfl⟩) | ⟨id, h, rfl⟩)
      · exact ⟨_, by simp [memberTarget], .identifier rfl (AMap.get_of_mem hk h)⟩
      · exact ⟨_, rfl, .target (.create h)⟩
      · exact ⟨_, rfl, .target (.put h)⟩
      · exact ⟨_, rfl, .target (.read h)⟩
      · exact ⟨_, rfl, .target (.update h)⟩
      · exact ⟨_, rfl, .target (.delete h)⟩
      · exact ⟨_, rfl, .target (.list h)⟩
      · exact ⟨_, rfl, .target (.resourceOperation h)⟩
      · exact ⟨_, rfl, .target (.collectionOperation h)⟩
      · exact ⟨_, rfl, .target (.resourceResource h)⟩
    · rintro ⟨t, rfl, h⟩
      cases h with
      | member h => cases h
      | memberTrait h => cases h
      | version h => cases h
      | rename h => cases h
      | identifier h h' =>
        cases h
        exact .inl (.inl (.inl (.inl (.inl (.inl (.inl (.inl (.inl ⟨_, _, AMap.mem_of_get h', by simp [memberTarget]⟩))))))))
      | target h =>
        cases h with
        | create h => exact .inl (.inl (.inl (.inl (.inl (.inl (.inl (.inl (.inr ⟨_, h, rfl⟩))))))))
        | put h => exact .inl (.inl (.inl (.inl (.inl (.inl (.inl (.inr ⟨_, h, rfl⟩)))))))
        | read h => exact .inl (.inl (.inl (.inl (.inl (.inl (.inr ⟨_, h, rfl⟩))))))
        | update h => exact .inl (.inl (.inl (.inl (.inl (.inr ⟨_, h, rfl⟩)))))
        | delete h => exact .inl (.inl (.inl (.inl (.inr ⟨_, h, rfl⟩))))
        | list h => exact .inl (.inl (.inl (.inr ⟨_, h, rfl⟩)))
        | resourceOperation h => exact .inl (.inl (.inr ⟨_, h, rfl⟩))
        | collectionOperation h => exact .inl (.inr ⟨_, h, rfl⟩)
        | resourceResource h => exact .inr ⟨_, h, rfl⟩

theorem typeName_eq (k : ShapeKind) : typeName k = typeWord k := by cases k <;> rfl

theorem mem_ofShape (f : Fmt) {s : TopLevelShape} (hs : WfShape s) (l : Str) :
    l ∈ ofShape f s ↔ ∃ t, l = typeWord s.body ++ %s"::" ++ s.id.display ++ t ∧ ShapeText f s t := by
  simp only [ofShape, List.mem_cons, List.mem_append, mem_ofKind f hs.body, mem_ofTraits f hs.traits, shapeText_iff,
    linePrefix, typeName_eq]
  constructor
  · rintro (rfl | ⟨t, rfl, h⟩ | ⟨t, rfl, h⟩)
    · exact ⟨[], by simp, .inl rfl⟩
    · exact ⟨t, rfl, .inr (.inl h)⟩
    · exact ⟨_, by rw [List.append_assoc], .inr (.inr ⟨t, rfl, h⟩)⟩
  · rintro ⟨t, rfl, rfl | h | ⟨u, rfl, h⟩⟩
    · exact .inl (by simp)
    · exact .inr (.inl ⟨t, rfl, h⟩)
    · exact .inr (.inr ⟨u, by simp, h⟩)

theorem values_flatMap_perm {α : Type} {R : MemberShape → MemberShape → Prop} {a b : AMap Str MemberShape} (ha : AMap.Wf a)
    (hb : AMap.Wf b) (h : MapRel R a b) (g : MemberShape → List α)
    (hg : ∀ k x y, AMap.get a k = some x → AMap.get b k = some y → R x y → (g x).Perm (g y)) :
    ((AMap.values a).flatMap g).Perm ((AMap.values b).flatMap g) := by
  have := flatMap_perm_of_mapRel ha hb h (fun e => g e.2) (fun e => g e.2) hg
  simpa [AMap.values, List.flatMap_map] using this

theorem ofKind_same (f : Fmt) {a b : ShapeKind} (ha : WfKind a) (hb : WfKind b) (h : SameKind a b) (pre : Str) :
    (ofKind f pre a).Perm (ofKind f pre b) := by
  cases h with
  | simple => exact List.Perm.refl _
  | list h => exact ofMember_same f ha hb h _
  | set h => exact ofMember_same f ha hb h _
  | map h h' => exact List.Perm.append (ofMember_same f ha.1 hb.1 h _) (ofMember_same f ha.2 hb.2 h' _)
  | struct h =>
    exact values_flatMap_perm ha.nodup hb.nodup h _ fun k x y hx hy hxy =>
      ofMember_same f (ha.traits _ _ hx) (hb.traits _ _ hy) hxy _
  | union h =>
    exact values_flatMap_perm ha.nodup hb.nodup h _ fun k x y hx hy hxy =>
      ofMember_same f (ha.traits _ _ hx) (hb.traits _ _ hy) hxy _
  | service h =>
    rename_i m m'
    refine List.Perm.cons _ (List.Perm.append_left _ ?_)
    have hp : m.Perm m' := AMap.perm_of_get_eq ha hb fun k => OptRel.eq_iff.mp (h k)
    exact hp.map _
  | operation => exact List.Perm.refl _
  | resource h =>
    rename_i m m' _ _ _ _ _ _ _ _ _
    have hp : m.Perm m' := AMap.perm_of_get_eq ha hb fun k => OptRel.eq_iff.mp (h k)
    simp only [ofKind]
    iterate 9 refine List.Perm.append_right _ ?_
    exact hp.map _
  | unresolved => exact List.Perm.refl _

theorem SameKind.typeName_eq {a b : ShapeKind} (h : SameKind a b) : typeName a = typeName b := by cases h <;> rfl

theorem ofShape_same (f : Fmt) {a b : TopLevelShape} (ha : WfShape a) (hb : WfShape b) (h : SameShape a b) :
    (ofShape f a).Perm (ofShape f b) := by
  have hp : linePrefix a = linePrefix b := by rw [linePrefix, linePrefix, h.id, SameKind.typeName_eq h.body]
  rw [ofShape, ofShape, hp]
  exact List.Perm.cons _ (List.Perm.append (ofKind_same f ha.body hb.body h.body _) (ofTraits_same f ha.traits hb.traits h.traits _))

/-! ### Models -/

theorem mem_unsorted (f : Fmt) {m : Model} (hm : WfModel m) (l : Str) : l ∈ unsorted f m ↔ LineOf f m l := by
  simp only [unsorted, List.mem_append, List.mem_flatMap, Model.shapesList, AMap.values, List.mem_map, Prod.exists]
  constructor
  · rintro (⟨k, v, hk, hl⟩ | ⟨s, ⟨id, s', hs, rfl⟩, hl⟩)
    · have hg := AMap.get_of_mem hm.metaNodup hk
      simp only [ofMeta] at hl
      obtain ⟨t, rfl, ht⟩ := (mem_ofValue f (hm.metaValues _ _ hg) _ _).mp hl
      exact .metadata hg ht
    · have hg : m.shape id = some s' := AMap.get_of_mem hm.nodup hs
      obtain ⟨t, rfl, ht⟩ := (mem_ofShape f (hm.shapes _ _ hg) l).mp hl
      rw [hm.key _ _ hg]
      exact .shape hg ht
  · intro h
    cases h with
    | metadata hg ht =>
      exact .inl ⟨_, _, AMap.mem_of_get hg, (mem_ofValue f (hm.metaValues _ _ hg) _ _).mpr ⟨_, rfl, ht⟩⟩
    | shape hg ht =>
      refine .inr ⟨_, ⟨_, _, AMap.mem_of_get hg, rfl⟩, (mem_ofShape f (hm.shapes _ _ hg) _).mpr ⟨_, ?_, ht⟩⟩
      rw [hm.key _ _ hg]

theorem unsorted_same (f : Fmt) {a b : Model} (ha : WfModel a) (hb : WfModel b) (h : SameModel a b) :
    (unsorted f a).Perm (unsorted f b) := by
  refine List.Perm.append ?_ ?_
  · exact flatMap_perm_of_mapRel ha.metaNodup hb.metaNodup h.metadata _ _ fun k x y hx hy hxy =>
      ofValue_same f (ha.metaValues _ _ hx) (hb.metaValues _ _ hy) hxy _
  · have := flatMap_perm_of_mapRel ha.nodup hb.nodup h.shapes (fun e => ofShape f e.2) (fun e => ofShape f e.2)
      fun k x y hx hy hxy => ofShape_same f (ha.shapes _ _ hx) (hb.shapes _ _ hy) hxy
    simpa [Model.shapesList, AMap.values, List.flatMap_map] using this

end Verif
