/-
What the line-oriented form of a model tells, exactly (C34).
-/
import Verif.LinesProps
import Verif.Decimal

namespace Verif.Spec.Listed

/-! ### When two models have the same lines -/

/-- Numbers that are printed the same way (`1` and `1.0` are). -/
def AlikeNumber (f : Fmt) (m n : Number) : Prop := showNumber f m = showNumber f n

/-- Values that differ at most in the order of their entries and in numbers that are printed the same way. -/
abbrev Alike (f : Fmt) : Value → Value → Prop := VRel (AlikeNumber f)

/-- The same traits are applied, with alike values. -/
def AlikeTraits (f : Fmt) : Traits → Traits → Prop := MapRel (OptRel (Alike f))

/-- Members with the same name, target and traits. -/
def AlikeMember (f : Fmt) (a b : MemberShape) : Prop := a.id = b.id ∧ a.target = b.target ∧ AlikeTraits f a.traits b.traits

/-- The same definition, but for the order of the targets of services, operations and resources. -/
inductive AlikeKind (f : Fmt) : ShapeKind → ShapeKind → Prop
  | simple {s} : AlikeKind f (.simple s) (.simple s)
  | list {a b} : AlikeMember f a b → AlikeKind f (.list a) (.list b)
  | set {a b} : AlikeMember f a b → AlikeKind f (.set a) (.set b)
  | map {k v k' v'} : AlikeMember f k k' → AlikeMember f v v' → AlikeKind f (.map k v) (.map k' v')
  | struct {a b} : MapRel (AlikeMember f) a b → AlikeKind f (.struct a) (.struct b)
  | union {a b} : MapRel (AlikeMember f) a b → AlikeKind f (.union a) (.union b)
  | service {a b : Service} : a.version = b.version → a.operations.Perm b.operations → a.resources.Perm b.resources →
      MapRel Eq a.renames b.renames → AlikeKind f (.service a) (.service b)
  | operation {a b : Operation} : a.input = b.input → a.output = b.output → a.errors.Perm b.errors →
      AlikeKind f (.operation a) (.operation b)
  | resource {a b : Resource} : MapRel Eq a.identifiers b.identifiers → (∀ l, a.lifecycle l = b.lifecycle l) →
      a.operations.Perm b.operations → a.collectionOperations.Perm b.collectionOperations → a.resources.Perm b.resources →
      AlikeKind f (.resource a) (.resource b)
  | unresolved : AlikeKind f .unresolved .unresolved

structure AlikeShape (f : Fmt) (a b : TopLevelShape) : Prop where
  id : a.id = b.id
  traits : AlikeTraits f a.traits b.traits
  body : AlikeKind f a.body b.body

structure AlikeModel (f : Fmt) (a b : Model) : Prop where
  metadata : MapRel (Alike f) a.metadata b.metadata
  shapes : MapRel (AlikeShape f) a.shapes b.shapes

/-! ### The models whose lines can be told apart -/

/-- As in the standard library: numbers are digits, points and minus signs, `NaN` or `inf`, and different texts are quoted differently. -/
structure PlainNumbers (f : Fmt) : Prop where
  float : ∀ x, ∀ c ∈ f.float x, c ∈ %s"0123456789.-NaNinf"
  differ : ∀ s s', f.debug s = f.debug s' → s = s'

/-- No key of an object in the value has a closing brace. -/
inductive PlainKeys : Value → Prop
  | array {vs : List Value} : (∀ v ∈ vs, PlainKeys v) → PlainKeys (.array vs)
  | object {m : AMap Str Value} : (∀ k v, m.get k = some v → '}' ∉ k) → (∀ k v, m.get k = some v → PlainKeys v) → PlainKeys (.object m)
  | number {n} : PlainKeys (.number n)
  | boolean {b} : PlainKeys (.boolean b)
  | string {s} : PlainKeys (.string s)
  | none : PlainKeys .none

def PlainTraits (ts : Traits) : Prop := ∀ id v, ts.get id = some (some v) → PlainKeys v

/-- The members of lists and sets are called `member`, those of maps `key` and `value`. -/
def UsualNames : ShapeKind → Prop
  | .list m | .set m => m.id = %s"member"
  | .map k v => k.id = %s"key" ∧ v.id = %s"value"
  | _ => True

/-- Well-formed models with valid ids and the usual member names, without `<` in metadata keys or `}` in object keys. -/
structure Plain (m : Model) : Prop where
  wf : WfModel m
  valid : ValidModel m
  names : ∀ id s, m.shape id = some s → UsualNames s.body
  keys : ∀ k v, m.metadata.get k = some v → '<' ∉ k ∧ PlainKeys v
  traits : ∀ id s, m.shape id = some s → PlainTraits s.traits ∧ ∀ mem, HasMemberShape s.body mem → PlainTraits mem.traits

end Verif.Spec.Listed

namespace Verif.Listed
open Spec Lines Spec.Listed

/-! ### Alike models have the same lines -/

theorem ofValue_alike (f : Fmt) {v w : Value} (hv : v.Wf) (hw : w.Wf) (h : Alike f v w) (pre : Str) :
    (ofValue f pre v).Perm (ofValue f pre w) := by
  induction v using Value.ind generalizing w pre with
  | array vs ih =>
    cases hv with | array hv =>
    cases h with | array hl hr =>
    rename_i ws
    cases hw with | array hw =>
    have he : vs.isEmpty = ws.isEmpty := by
      rw [Bool.eq_iff_iff, List.isEmpty_iff_length_eq_zero, List.isEmpty_iff_length_eq_zero, hl]
    rw [ofValue, ofValue, he]
    split
    · exact List.Perm.refl _
    · have key : ∀ (i : Nat) (vs ws : List Value), vs.length = ws.length → (∀ (j : Nat) x y, vs[j]? = some x → ws[j]? = some y →
          ∀ p, (ofValue f p x).Perm (ofValue f p y)) → (ofArray f pre i vs).Perm (ofArray f pre i ws) := by
        intro i vs
        induction vs generalizing i with
        | nil => intro ws hl _; cases ws with
          | nil => exact List.Perm.refl _
          | cons => simp at hl
        | cons x xs ihx =>
          intro ws hl hr
          cases ws with
          | nil => simp at hl
          | cons y ys =>
            rw [ofArray, ofArray]
            refine List.Perm.append (hr 0 x y rfl rfl _) (ihx (i + 1) ys (by simpa using hl) fun j a b ha hb => ?_)
            exact hr (j + 1) a b (by simpa using ha) (by simpa using hb)
      exact key 0 vs ws hl fun j x y hx hy p =>
        ih x (List.mem_of_getElem? hx) (hv x (List.mem_of_getElem? hx)) (hw y (List.mem_of_getElem? hy)) (hr j x y hx hy) p
  | object m ih =>
    cases hv with | object hvw hv =>
    cases h with | object hk hr =>
    rename_i n
    cases hw with | object hww hw =>
    have hrel : MapRel (Alike f) m n := fun k => by
      have := hk k
      cases hm : AMap.get m k <;> cases hn : AMap.get n k <;> rw [hm, hn] at this
      · exact .none
      · simp at this
      · simp at this
      · exact .some (hr k _ _ hm hn)
    have he : m.isEmpty = n.isEmpty := by
      rw [Bool.eq_iff_iff, List.isEmpty_iff_length_eq_zero, List.isEmpty_iff_length_eq_zero, MapRel.length_eq hvw hww hrel]
    rw [ofValue, ofValue, he]
    split
    · exact List.Perm.refl _
    · rw [ofObject_eq, ofObject_eq]
      refine flatMap_perm_of_mapRel hvw hww hrel _ _ fun k x y hx hy hxy => ?_
      have h1 := AMap.mem_of_get hx
      have h2 := AMap.mem_of_get hy
      exact ih _ h1 (hv _ h1) (hw _ h2) hxy _
  | number n => cases h with | number h => rw [ofValue, ofValue, show showNumber f n = _ from h]
  | boolean b => cases h; exact List.Perm.refl _
  | string s => cases h; exact List.Perm.refl _
  | none => cases h; exact List.Perm.refl _

theorem ofTraits_alike (f : Fmt) {a b : Traits} (ha : WfTraits a) (hb : WfTraits b) (h : AlikeTraits f a b) (pre : Str) :
    (ofTraits f pre a).Perm (ofTraits f pre b) := by
  refine flatMap_perm_of_mapRel ha.nodup hb.nodup h _ _ fun k x y hx hy hxy => ?_
  cases hxy with
  | none => exact List.Perm.refl _
  | some hxy => exact ofValue_alike f (ha.values _ _ hx) (hb.values _ _ hy) hxy _

theorem ofMember_alike (f : Fmt) {a b : MemberShape} (ha : WfTraits a.traits) (hb : WfTraits b.traits)
    (h : AlikeMember f a b) (pre : Str) : (ofMember f pre a).Perm (ofMember f pre b) := by
  obtain ⟨h1, h2, h3⟩ := h
  rw [ofMember, ofMember, h1, h2]
  exact List.Perm.cons _ (ofTraits_alike f ha hb h3 _)

theorem ofKind_alike (f : Fmt) {a b : ShapeKind} (ha : WfKind a) (hb : WfKind b) (h : AlikeKind f a b) (pre : Str) :
    (ofKind f pre a).Perm (ofKind f pre b) := by
  cases h with
  | simple => exact List.Perm.refl _
  | list h => exact ofMember_alike f ha hb h _
  | set h => exact ofMember_alike f ha hb h _
  | map h h' => exact List.Perm.append (ofMember_alike f ha.1 hb.1 h _) (ofMember_alike f ha.2 hb.2 h' _)
  | struct h =>
    exact values_flatMap_perm ha.nodup hb.nodup h _ fun k x y hx hy hxy =>
      ofMember_alike f (ha.traits _ _ hx) (hb.traits _ _ hy) hxy _
  | union h =>
    exact values_flatMap_perm ha.nodup hb.nodup h _ fun k x y hx hy hxy =>
      ofMember_alike f (ha.traits _ _ hx) (hb.traits _ _ hy) hxy _
  | service h1 h2 h3 h4 =>
    simp only [ofKind, h1]
    refine List.Perm.cons _ (((h2.map _).append (h3.map _)).append ?_)
    exact (AMap.perm_of_get_eq ha hb fun k => OptRel.eq_iff.mp (h4 k)).map _
  | operation h1 h2 h3 =>
    simp only [ofKind, h1, h2]
    exact List.Perm.append_left _ (h3.map _)
  | resource h1 h2 h3 h4 h5 =>
    have e1 := h2 .create
    have e2 := h2 .put
    have e3 := h2 .read
    have e4 := h2 .update
    have e5 := h2 .delete
    have e6 := h2 .list
    simp only [Resource.lifecycle] at e1 e2 e3 e4 e5 e6
    simp only [ofKind, e1, e2, e3, e4, e5, e6]
    refine ((List.Perm.append ?_ (h3.map _)).append (h4.map _)).append (h5.map _)
    iterate 6 refine List.Perm.append_right _ ?_
    exact (AMap.perm_of_get_eq ha hb fun k => OptRel.eq_iff.mp (h1 k)).map _
  | unresolved => exact List.Perm.refl _

theorem AlikeKind.typeName {f : Fmt} {a b : ShapeKind} (h : AlikeKind f a b) : typeName a = typeName b := by cases h <;> rfl

theorem ofShape_alike (f : Fmt) {a b : TopLevelShape} (ha : WfShape a) (hb : WfShape b) (h : AlikeShape f a b) :
    (ofShape f a).Perm (ofShape f b) := by
  have hp : linePrefix a = linePrefix b := by rw [linePrefix, linePrefix, h.id, AlikeKind.typeName h.body]
  rw [ofShape, ofShape, hp]
  exact List.Perm.cons _ (List.Perm.append (ofKind_alike f ha.body hb.body h.body _) (ofTraits_alike f ha.traits hb.traits h.traits _))

theorem unsorted_alike (f : Fmt) {a b : Model} (ha : WfModel a) (hb : WfModel b) (h : AlikeModel f a b) :
    (unsorted f a).Perm (unsorted f b) := by
  refine List.Perm.append ?_ ?_
  · exact flatMap_perm_of_mapRel ha.metaNodup hb.metaNodup h.metadata _ _ fun k x y hx hy hxy =>
      ofValue_alike f (ha.metaValues _ _ hx) (hb.metaValues _ _ hy) hxy _
  · have := flatMap_perm_of_mapRel ha.nodup hb.nodup h.shapes (fun e => ofShape f e.2) (fun e => ofShape f e.2)
      fun k x y hx hy hxy => ofShape_alike f (ha.shapes _ _ hx) (hb.shapes _ _ hy) hxy
    simpa [Model.shapesList, AMap.values, List.flatMap_map] using this

/-! ### The texts of a value tell the value -/

/-- What kind of value a text is of. -/
def textMark (t : Str) : Char :=
  match t with
  | '(' :: _ => '(' | 't' :: _ => 't' | '"' :: _ => '"' | '[' :: _ => '[' | '{' :: _ => '{'
  | _ => if t = %s"false" then 'f' else '0'

def valueMark : Value → Char
  | .none => '(' | .boolean true => 't' | .boolean false => 'f' | .number _ => '0' | .string _ => '"' | .array _ => '[' | .object _ => '{'

theorem number_mark {t : Str} (h : ∀ c ∈ t, c ∈ %s"0123456789.-NaNinf") : textMark t = '0' := by
  have hd : ∀ c, c ∉ (%s"0123456789.-NaNinf" : Str) → ∀ t', t ≠ c :: t' := by rintro c hc t' rfl; exact hc (h c (by simp))
  have hf : t ≠ %s"false" := by rintro rfl; exact absurd (h 'l' (by decide)) (by decide)
  unfold textMark
  split
  · exact absurd rfl (hd _ (by decide) _)
  · exact absurd rfl (hd _ (by decide) _)
  · exact absurd rfl (hd _ (by decide) _)
  · exact absurd rfl (hd _ (by decide) _)
  · exact absurd rfl (hd _ (by decide) _)
  · rw [if_neg hf]

theorem integer_chars (n : Int) : ∀ c ∈ showInt n, c ∈ %s"0123456789.-NaNinf" := by
  have hn : ∀ k : Nat, ∀ c ∈ showNat k, c ∈ %s"0123456789.-NaNinf" := by
    intro k c hc
    have h := showNat_digits k c hc
    simp only [Char.isDigit, ge_iff_le, Bool.and_eq_true, decide_eq_true_eq] at h
    obtain ⟨h1, h2⟩ := h
    have h1' : 48 ≤ c.toNat := h1
    have h2' : c.toNat ≤ 57 := h2
    have hc : c = Char.ofNat c.toNat := (Char.ofNat_toNat c).symm
    generalize c.toNat = x at h1' h2' hc
    subst hc
    have : x = 48 ∨ x = 49 ∨ x = 50 ∨ x = 51 ∨ x = 52 ∨ x = 53 ∨ x = 54 ∨ x = 55 ∨ x = 56 ∨ x = 57 := by omega
    rcases this with rfl | rfl | rfl | rfl | rfl | rfl | rfl | rfl | rfl | rfl <;> decide
  intro c hc
  cases n with
  | ofNat k => exact hn k c hc
  | negSucc k =>
    rw [showInt_neg] at hc
    rcases List.mem_cons.mp hc with rfl | hc
    · decide
    · exact hn _ c hc

theorem text_mark {f : Fmt} (hf : PlainNumbers f) {v : Value} {t : Str} (h : ValueText f v t) : textMark t = valueMark v := by
  cases h with
  | null => rfl
  | yes => rfl
  | no => rfl
  | integer => exact number_mark (integer_chars _)
  | float => exact number_mark (hf.float _)
  | string => rfl
  | emptyArray => rfl
  | emptyObject => rfl
  | element => rfl
  | field => rfl

theorem text_exists (f : Fmt) (v : Value) : ∃ t, ValueText f v t := by
  induction v using Value.ind with
  | array vs ih =>
    cases vs with
    | nil => exact ⟨_, .emptyArray⟩
    | cons v vs => obtain ⟨t, ht⟩ := ih v (by simp); exact ⟨_, .element (i := 0) rfl ht⟩
  | object m ih =>
    cases m with
    | nil => exact ⟨_, .emptyObject⟩
    | cons e m => obtain ⟨k, v⟩ := e; obtain ⟨t, ht⟩ := ih (k, v) (by simp); exact ⟨_, .field (k := k) (by simp [AMap.get_cons]) ht⟩
  | number n => cases n with
    | integer => exact ⟨_, .integer⟩
    | float => exact ⟨_, .float⟩
  | boolean b => cases b with
    | true => exact ⟨_, .yes⟩
    | false => exact ⟨_, .no⟩
  | string s => exact ⟨_, .string⟩
  | none => exact ⟨_, .null⟩

/-- The only text of a value that is not an array or an object. -/
theorem number_text {f : Fmt} {n : Number} {t : Str} : ValueText f (.number n) t ↔ t = showNumber f n := by
  cases n with
  | integer n => exact ⟨fun h => by cases h; rfl, by rintro rfl; exact .integer⟩
  | float x => exact ⟨fun h => by cases h; rfl, by rintro rfl; exact .float⟩

theorem showNat_same {i j : Nat} (h : showNat i = showNat j) : i = j := by
  rw [← digitsValue_showNat i, h, digitsValue_showNat]

theorem element_text {f : Fmt} {vs : List Value} {i : Nat} {t : Str} (h : ValueText f (.array vs) (%s"[" ++ (toString i).toList ++ %s"]=" ++ t)) :
    ∃ v, vs[i]? = some v ∧ ValueText f v t := by
  generalize hl : %s"[" ++ (toString i).toList ++ %s"]=" ++ t = l at h
  cases h with
  | emptyArray =>
    exfalso
    have h2 := congrArg List.length hl
    simp at h2
    omega
  | element hi ht =>
    rename_i j v u
    have hd : ∀ k : Nat, ∀ c ∈ showNat k, c.isDigit = true := fun k c hc => showNat_digits k c hc
    obtain ⟨h1, h2⟩ := span_unique (P := fun c => c.isDigit) (a := showNat i) (b := showNat j) (x := %s"]=" ++ t) (y := %s"]=" ++ u)
      (hd i) (hd j) (by intro c hc; simp at hc; subst hc; rfl) (by intro c hc; simp at hc; subst hc; rfl) (by simpa [showNat] using hl)
    have := showNat_same h1
    subst this
    have : t = u := by simpa using h2
    exact ⟨v, hi, this ▸ ht⟩

theorem field_text {f : Fmt} {m : AMap Str Value} (hm : ∀ k v, m.get k = some v → '}' ∉ k) {k t : Str} (hk : '}' ∉ k)
    (h : ValueText f (.object m) (%s"{" ++ k ++ %s"}=" ++ t)) : ∃ v, m.get k = some v ∧ ValueText f v t := by
  generalize hl : %s"{" ++ k ++ %s"}=" ++ t = l at h
  cases h with
  | emptyObject =>
    exfalso
    have h2 := congrArg List.length hl
    simp at h2
    omega
  | field hi ht =>
    rename_i k' v u
    have hk' := hm _ _ hi
    obtain ⟨h1, h2⟩ := span_unique (P := fun c => c != '}') (a := k) (b := k') (x := %s"}=" ++ t) (y := %s"}=" ++ u)
      (by intro c hc; simp; rintro rfl; exact hk hc) (by intro c hc; simp; rintro rfl; exact hk' hc)
      (by intro c hc; simp at hc; subst hc; rfl) (by intro c hc; simp at hc; subst hc; rfl) (by simpa using hl)
    subst h1
    have : t = u := by simpa using h2
    exact ⟨v, hi, this ▸ ht⟩

/-- Values with the same texts are alike. -/
theorem alike_of_texts {f : Fmt} (hf : PlainNumbers f) {v w : Value} (hv : PlainKeys v) (hw : PlainKeys w)
    (h : ∀ t, ValueText f v t ↔ ValueText f w t) : Alike f v w := by
  induction v using Value.ind generalizing w with
  | array vs ih =>
    cases hv with | array hv =>
    obtain ⟨t, ht⟩ := text_exists f w
    have hm := (text_mark hf ht).symm.trans (text_mark hf ((h t).mpr ht))
    cases w with
    | array ws =>
      cases hw with | array hw =>
      have go : ∀ (i : Nat) x, vs[i]? = some x → ∃ y, ws[i]? = some y := fun i x hx => by
        obtain ⟨t, ht⟩ := text_exists f x
        obtain ⟨y, hy, -⟩ := element_text ((h _).mp (.element hx ht))
        exact ⟨y, hy⟩
      have back : ∀ (i : Nat) x, ws[i]? = some x → ∃ y, vs[i]? = some y := fun i x hx => by
        obtain ⟨t, ht⟩ := text_exists f x
        obtain ⟨y, hy, -⟩ := element_text ((h _).mpr (.element hx ht))
        exact ⟨y, hy⟩
      have hlen : vs.length = ws.length := by
        rcases Nat.lt_trichotomy vs.length ws.length with hlt | heq | hlt
        · obtain ⟨y, hy⟩ := back vs.length _ (List.getElem?_eq_getElem hlt)
          simp at hy
        · exact heq
        · obtain ⟨y, hy⟩ := go ws.length _ (List.getElem?_eq_getElem hlt)
          simp at hy
      refine .array hlen fun i x y hx hy => ?_
      have h1 := List.mem_of_getElem? hx
      refine ih x h1 (hv x h1) (hw y (List.mem_of_getElem? hy)) fun t => ⟨fun ht => ?_, fun ht => ?_⟩
      · obtain ⟨z, hz, hzt⟩ := element_text ((h _).mp (.element hx ht))
        rw [hy] at hz; injection hz with hz; exact hz ▸ hzt
      · obtain ⟨z, hz, hzt⟩ := element_text ((h _).mpr (.element hy ht))
        rw [hx] at hz; injection hz with hz; exact hz ▸ hzt
    | boolean b => cases b <;> exact absurd hm (by simp [valueMark])
    | _ => exact absurd hm (by simp [valueMark])
  | object m ih =>
    cases hv with | object hvk hv =>
    obtain ⟨t, ht⟩ := text_exists f w
    have hm := (text_mark hf ht).symm.trans (text_mark hf ((h t).mpr ht))
    cases w with
    | object n =>
      cases hw with | object hwk hw =>
      have go : ∀ k x t, AMap.get m k = some x → ValueText f x t → ∃ y, AMap.get n k = some y ∧ ValueText f y t := fun k x t hx ht =>
        field_text hwk (hvk _ _ hx) ((h _).mp (.field hx ht))
      have back : ∀ k x t, AMap.get n k = some x → ValueText f x t → ∃ y, AMap.get m k = some y ∧ ValueText f y t := fun k x t hx ht =>
        field_text hvk (hwk _ _ hx) ((h _).mpr (.field hx ht))
      refine .object (fun k => ?_) fun k x y hx hy => ?_
      · cases h1 : AMap.get m k with
        | none =>
          cases h2 : AMap.get n k with
          | none => rfl
          | some y => obtain ⟨t, ht⟩ := text_exists f y; obtain ⟨z, hz, -⟩ := back k y t h2 ht; rw [h1] at hz; cases hz
        | some x => obtain ⟨t, ht⟩ := text_exists f x; obtain ⟨z, hz, -⟩ := go k x t h1 ht; rw [hz]; rfl
      · refine ih _ (AMap.mem_of_get hx) (hv _ _ hx) (hw _ _ hy) fun t => ⟨fun ht => ?_, fun ht => ?_⟩
        · obtain ⟨z, hz, hzt⟩ := go k x t hx ht; rw [hy] at hz; injection hz with hz; exact hz ▸ hzt
        · obtain ⟨z, hz, hzt⟩ := back k y t hy ht; rw [hx] at hz; injection hz with hz; exact hz ▸ hzt
    | boolean b => cases b <;> exact absurd hm (by simp [valueMark])
    | _ => exact absurd hm (by simp [valueMark])
  | number n =>
    have ht := (h _).mp (number_text.mpr rfl)
    have hm := (text_mark hf ht).symm.trans (text_mark hf ((h _).mpr ht))
    cases w with
    | number m => exact .number (number_text.mp ht)
    | boolean b => cases b <;> exact absurd hm (by simp [valueMark])
    | _ => exact absurd hm (by simp [valueMark])
  | boolean b =>
    obtain ⟨t, ht⟩ := text_exists f w
    have hm := (text_mark hf ht).symm.trans (text_mark hf ((h t).mpr ht))
    cases w with
    | boolean c => cases b <;> cases c <;> first | exact .boolean | exact absurd hm (by decide)
    | _ => cases b <;> exact absurd hm (by simp [valueMark])
  | string s =>
    have ht := (h _).mp .string
    have hm := (text_mark hf ht).symm.trans (text_mark hf ((h _).mpr ht))
    cases w with
    | string u =>
      generalize hl : %s"\"" ++ s ++ %s"\"" = l at ht
      cases ht
      have : s = u := by simpa using hl
      exact this ▸ .string
    | boolean b => cases b <;> exact absurd hm (by simp [valueMark])
    | _ => exact absurd hm (by simp [valueMark])
  | none =>
    obtain ⟨t, ht⟩ := text_exists f w
    have hm := (text_mark hf ht).symm.trans (text_mark hf ((h t).mpr ht))
    cases w with
    | none => exact .none
    | boolean b => cases b <;> exact absurd hm (by simp [valueMark])
    | _ => exact absurd hm (by simp [valueMark])

/-! ### The texts of traits tell the traits -/

theorem lt_head {t : Str} : ∀ c, (%s"<=" ++ t).head? = some c → idTextChar c = false := by intro c hc; simp at hc; subst hc; rfl

theorem bare_text {f : Fmt} {ts : Traits} (hts : ValidTraits ts) {id : ShapeID} (hid : id.Valid) (h : TraitText f ts id.display) :
    ts.get id = some none := by
  generalize hl : id.display = l at h
  cases h with
  | bare hg => rw [C03_display_injective _ _ hid (hts _ _ hg).1 hl]; exact hg
  | valued hg ht =>
    have := span_unique (P := idTextChar) (idText_chars hid) (idText_chars (hts _ _ hg).1) (x := []) (by simp) lt_head
      (by simpa using hl)
    simp at this

theorem valued_text {f : Fmt} {ts : Traits} (hts : ValidTraits ts) {id : ShapeID} (hid : id.Valid) {t : Str}
    (h : TraitText f ts (id.display ++ %s"<=" ++ t)) : ∃ v, ts.get id = some (some v) ∧ ValueText f v t := by
  generalize hl : id.display ++ %s"<=" ++ t = l at h
  rw [List.append_assoc] at hl
  cases h with
  | bare hg =>
    have := span_unique (P := idTextChar) (idText_chars hid) (idText_chars (hts _ _ hg).1) (y := []) lt_head (by simp)
      (by simpa using hl)
    simp at this
  | valued hg ht =>
    rename_i id' v u
    rw [List.append_assoc] at hl
    obtain ⟨h1, h2⟩ := span_unique (P := idTextChar) (idText_chars hid) (idText_chars (hts _ _ hg).1) lt_head lt_head hl
    have : t = u := by simpa using h2
    rw [C03_display_injective _ _ hid (hts _ _ hg).1 h1]
    exact ⟨v, hg, this ▸ ht⟩

theorem alike_traits {f : Fmt} (hf : PlainNumbers f) {a b : Traits} (ha : ValidTraits a) (hb : ValidTraits b) (pa : PlainTraits a)
    (pb : PlainTraits b) (h : ∀ t, TraitText f a t ↔ TraitText f b t) : AlikeTraits f a b := by
  intro id
  have go : ∀ {a b : Traits}, ValidTraits a → ValidTraits b → (∀ t, TraitText f a t ↔ TraitText f b t) → ∀ id,
      (a.get id = some none → b.get id = some none) ∧
      ∀ x t, a.get id = some (some x) → ValueText f x t → ∃ y, b.get id = some (some y) ∧ ValueText f y t := by
    intro a b ha hb h id
    exact ⟨fun hg => bare_text hb (ha _ _ hg).1 ((h _).mp (.bare hg)),
      fun x t hg ht => valued_text hb (ha _ _ hg).1 ((h _).mp (.valued hg ht))⟩
  obtain ⟨g1, g2⟩ := go ha hb h id
  obtain ⟨k1, k2⟩ := go hb ha (fun t => (h t).symm) id
  cases ea : a.get id with
  | none =>
    cases eb : b.get id with
    | none => exact .none
    | some o =>
      cases o with
      | none => rw [k1 eb] at ea; cases ea
      | some y => obtain ⟨t, ht⟩ := text_exists f y; obtain ⟨z, hz, -⟩ := k2 y t eb ht; rw [hz] at ea; cases ea
  | some o =>
    cases o with
    | none => rw [g1 ea]; exact .some .none
    | some x =>
      obtain ⟨t, ht⟩ := text_exists f x
      obtain ⟨y, hy, -⟩ := g2 x t ea ht
      rw [hy]
      refine .some (.some (alike_of_texts hf (pa _ _ ea) (pb _ _ hy) fun t => ⟨fun ht => ?_, fun ht => ?_⟩))
      · obtain ⟨z, hz, hzt⟩ := g2 x t ea ht; rw [hy] at hz; cases hz; exact hzt
      · obtain ⟨z, hz, hzt⟩ := k2 y t hy ht; rw [ea] at hz; cases hz; exact hzt

/-! ### The texts of a shape tell the shape -/

/-- What a line about a shape says, from the first word after the id. -/
inductive Means (f : Fmt) (s : TopLevelShape) (w : Str) : Str → Prop
  | trait {u} : w = %s"trait" → TraitText f s.traits u → Means f s w (%s"::" ++ u)
  | member {m} : HasMemberShape s.body m → w = m.id → Means f s w (%s"=>" ++ m.target.display)
  | memberTrait {m u} : HasMemberShape s.body m → w = m.id → TraitText f m.traits u → Means f s w (%s"::trait::" ++ u)
  | target {id} : HasTarget s.body w id → Means f s w (%s"=>" ++ id.display)
  | version {v : Service} : s.body = .service v → w = %s"version" → Means f s w (%s"<=" ++ f.debug v.version)
  | rename {v : Service} {id n} : s.body = .service v → w = %s"rename" → v.renames.get id = some n →
      Means f s w (%s"::" ++ id.display ++ %s"<=" ++ n)
  | identifier {r : Resource} {n id} : s.body = .resource r → w = %s"identifier" → r.identifiers.get n = some id →
      Means f s w (%s"::" ++ n ++ %s"=>" ++ id.display)

theorem means_of_text {f : Fmt} {s : TopLevelShape} (hn : ∀ m, HasMemberShape s.body m → IsIdentifier m.id) {w x : Str}
    (hw : ∀ c ∈ w, identChar c = true) (hx : ∀ c, x.head? = some c → identChar c = false) (h : ShapeText f s (%s"::" ++ w ++ x)) :
    Means f s w x := by
  generalize hl : %s"::" ++ w ++ x = l at h
  have cut : ∀ {w' x' : Str}, (∀ c ∈ w', identChar c = true) → (∀ c, x'.head? = some c → identChar c = false) →
      %s"::" ++ w ++ x = %s"::" ++ w' ++ x' → w = w' ∧ x = x' := fun hw' hx' e =>
    span_unique (P := identChar) hw hw' hx hx' (cons_colons (by simpa using e))
  have col : ∀ u : Str, ∀ c, (%s"::" ++ u).head? = some c → identChar c = false := by intro u c hc; simp at hc; subst hc; rfl
  have arr : ∀ u : Str, ∀ c, (%s"=>" ++ u).head? = some c → identChar c = false := by intro u c hc; simp at hc; subst hc; rfl
  have val : ∀ u : Str, ∀ c, (%s"<=" ++ u).head? = some c → identChar c = false := by intro u c hc; simp at hc; subst hc; rfl
  cases h with
  | self => simp at hl
  | trait h =>
    rename_i u
    obtain ⟨h1, h2⟩ := cut (w' := %s"trait") (x' := %s"::" ++ u) (by decide) (col _) hl
    exact h2 ▸ .trait h1 h
  | member h =>
    obtain ⟨h1, h2⟩ := cut (ident_chars (hn _ h)) (arr _) (by simpa using hl)
    exact h2 ▸ .member h h1
  | memberTrait h h' =>
    rename_i m u
    obtain ⟨h1, h2⟩ := cut (x' := %s"::trait::" ++ u) (ident_chars (hn _ h)) (col (%s"trait::" ++ u)) (by simpa using hl)
    exact h2 ▸ .memberTrait h h1 h'
  | target h =>
    obtain ⟨h1, h2⟩ := cut (hasTarget_alpha h) (arr _) (by simpa using hl)
    subst h1
    exact h2 ▸ .target h
  | version h =>
    rename_i v
    obtain ⟨h1, h2⟩ := cut (w' := %s"version") (x' := %s"<=" ++ f.debug v.version) (by decide) (val _) hl
    exact h2 ▸ .version h h1
  | rename h h' =>
    rename_i v id n
    obtain ⟨h1, h2⟩ := cut (w' := %s"rename") (x' := %s"::" ++ id.display ++ %s"<=" ++ n) (by decide)
      (by rw [List.append_assoc]; exact col _) (by simpa using hl)
    exact h2 ▸ .rename h h1 h'
  | identifier h h' =>
    rename_i r n id
    obtain ⟨h1, h2⟩ := cut (w' := %s"identifier") (x' := %s"::" ++ n ++ %s"=>" ++ id.display) (by decide)
      (by rw [List.append_assoc]; exact col _) (by simpa using hl)
    exact h2 ▸ .identifier h h1 h'

/-- Names of members are identifiers, and different within a shape. -/
theorem member_names {k : ShapeKind} (hw : WfKind k) (hv : ValidKind k) (hu : UsualNames k) :
    (∀ m, HasMemberShape k m → IsIdentifier m.id) ∧
      ∀ m m', HasMemberShape k m → HasMemberShape k m' → m.id = m'.id → m = m' := by
  constructor
  · intro m hm
    cases hm with
    | list => rw [show m.id = _ from hu]; exact (isIdent_iff _).mp rfl
    | set => rw [show m.id = _ from hu]; exact (isIdent_iff _).mp rfl
    | key => rw [hu.1]; exact (isIdent_iff _).mp rfl
    | value => rw [hu.2]; exact (isIdent_iff _).mp rfl
    | struct hg => rw [hw.key _ _ hg]; exact (hv _ _ hg).1
    | union hg => rw [hw.key _ _ hg]; exact (hv _ _ hg).1
  · intro m m' hm hm' e
    cases hm with
    | list => cases hm'; rfl
    | set => cases hm'; rfl
    | key => cases hm' with
      | key => rfl
      | value => rw [hu.1, hu.2] at e; exact absurd e (by decide)
    | value => cases hm' with
      | value => rfl
      | key => rw [hu.1, hu.2] at e; exact absurd e (by decide)
    | struct hg => cases hm' with
      | struct hg' => rw [← hw.key _ _ hg, e, hw.key _ _ hg', hg'] at hg; injection hg with hg; exact hg.symm
    | union hg => cases hm' with
      | union hg' => rw [← hw.key _ _ hg, e, hw.key _ _ hg', hg'] at hg; injection hg with hg; exact hg.symm

/-- What is known of the shapes of a plain model. -/
structure PlainShape (s : TopLevelShape) : Prop where
  wf : WfShape s
  id : s.id.Valid
  traits : ValidTraits s.traits
  body : ValidKind s.body
  names : UsualNames s.body
  plain : PlainTraits s.traits
  members : ∀ m, HasMemberShape s.body m → PlainTraits m.traits

theorem _root_.Verif.Spec.Listed.Plain.shape {m : Model} (h : Plain m) {id : ShapeID} {s : TopLevelShape} (hs : m.shape id = some s) : PlainShape s :=
  have hv := h.valid _ _ hs
  have ht := h.traits _ _ hs
  ⟨h.wf.shapes _ _ hs, (h.wf.key _ _ hs).symm ▸ hv.1, hv.2.1, hv.2.2, h.names _ _ hs, ht.1, ht.2⟩

theorem members_alike {f : Fmt} (hf : PlainNumbers f) {s s' : TopLevelShape} (hs : PlainShape s) (hs' : PlainShape s')
    (no : ∀ n id, ¬ HasTarget s'.body n id) (h : ∀ t, ShapeText f s t ↔ ShapeText f s' t) {m : MemberShape}
    (hm : HasMemberShape s.body m) : ∃ m', HasMemberShape s'.body m' ∧ AlikeMember f m m' := by
  obtain ⟨n1, u1⟩ := member_names hs.wf.body hs.body hs.names
  obtain ⟨n2, u2⟩ := member_names hs'.wf.body hs'.body hs'.names
  have v1 := validKind_members hs.body
  have v2 := validKind_members hs'.body
  rcases shapeText_target hs'.body (fun m hm => ⟨n2 m hm, (v2 m hm).1⟩) (validKind_targets hs'.body) (ident_chars (n1 m hm)) (v1 m hm).1
    ((h _).mp (.member hm)) with ⟨m', hm', e1, e2⟩ | ht
  · refine ⟨m', hm', e1.symm, e2.symm, alike_traits hf (v1 m hm).2 (v2 m' hm').2 (hs.members m hm) (hs'.members m' hm') fun t => ⟨fun ht => ?_, fun ht => ?_⟩⟩
    · obtain ⟨m2, hm2, e3, ht2⟩ := shapeText_memberTrait hs'.body hs'.traits n2 (n1 m hm) ((h _).mp (.memberTrait hm ht))
      rw [u2 m' m2 hm' hm2 (by rw [e1, e3])]; exact ht2
    · obtain ⟨m2, hm2, e3, ht2⟩ := shapeText_memberTrait hs.body hs.traits n1 (n2 m' hm') ((h _).mpr (.memberTrait hm' ht))
      rw [u1 m m2 hm hm2 (by rw [e3, e1])]; exact ht2
  · exact absurd ht (no _ _)

theorem mapRel_eq {K V : Type} [DecidableEq K] {a b : AMap K V} (h : ∀ k v, a.get k = some v ↔ b.get k = some v) : MapRel Eq a b := by
  intro k
  cases ea : a.get k with
  | none => cases eb : b.get k with
    | none => exact .none
    | some v => rw [(h k v).mpr eb] at ea; cases ea
  | some v => rw [(h k v).mp ea]; exact .some rfl

theorem service_version {f : Fmt} (hf : PlainNumbers f) {s s' : TopLevelShape} {v v' : Service} (hs' : s'.body = .service v')
    (hs : s.body = .service v) (h : ∀ t, ShapeText f s t → ShapeText f s' t) : v.version = v'.version := by
  have := means_of_text (w := %s"version") (x := %s"<=" ++ f.debug v.version) (fun m hm => by rw [hs'] at hm; cases hm) (by decide)
    (by intro c hc; simp at hc; subst hc; rfl) (h _ (.version hs))
  generalize hx : %s"<=" ++ f.debug v.version = x at this
  cases this with
  | trait hw => simp at hx
  | member hm => simp at hx
  | memberTrait hm => simp at hx
  | target hm => simp at hx
  | version hb =>
    rw [hs'] at hb; cases hb
    exact hf.differ _ _ (by simpa using hx)
  | rename => simp at hx
  | identifier => simp at hx

theorem service_rename {f : Fmt} {s s' : TopLevelShape} {v v' : Service} (hs' : s'.body = .service v') (ho' : ValidKind s'.body)
    (hs : s.body = .service v) (ho : ValidKind s.body) (h : ∀ t, ShapeText f s t → ShapeText f s' t) {id : ShapeID} {n : Str}
    (hg : v.renames.get id = some n) : v'.renames.get id = some n := by
  have := means_of_text (w := %s"rename") (x := %s"::" ++ id.display ++ %s"<=" ++ n) (fun m hm => by rw [hs'] at hm; cases hm) (by decide)
    (by intro c hc; simp at hc; subst hc; rfl) (by simpa using h _ (.rename hs hg))
  rw [hs] at ho
  have hid := (ho.2.2.2 _ _ hg).1
  generalize hx : %s"::" ++ id.display ++ %s"<=" ++ n = x at this
  cases this with
  | trait hw => exact absurd hw (by decide)
  | member hm => rw [hs'] at hm; cases hm
  | memberTrait hm => rw [hs'] at hm; cases hm
  | target hm => simp at hx
  | version hb => simp at hx
  | rename hb _ hg' =>
    rename_i v2 id2 n2 _
    rw [hs'] at hb; cases hb
    rw [hs'] at ho'
    obtain ⟨h1, h2⟩ := span_unique (P := idTextChar) (idText_chars hid) (idText_chars (ho'.2.2.2 _ _ hg').1) (x := %s"<=" ++ n) (y := %s"<=" ++ n2)
      lt_head lt_head (by simpa using hx)
    have : n = n2 := by simpa using h2
    rw [C03_display_injective _ _ hid (ho'.2.2.2 _ _ hg').1 h1, this]
    exact hg'
  | identifier hb => rw [hs'] at hb; cases hb

theorem resource_identifier {f : Fmt} {s s' : TopLevelShape} {v v' : Resource} (hs' : s'.body = .resource v') (ho' : ValidKind s'.body)
    (hs : s.body = .resource v) (ho : ValidKind s.body) (h : ∀ t, ShapeText f s t → ShapeText f s' t) {n : Str} {id : ShapeID}
    (hg : v.identifiers.get n = some id) : v'.identifiers.get n = some id := by
  have := means_of_text (w := %s"identifier") (x := %s"::" ++ n ++ %s"=>" ++ id.display) (fun m hm => by rw [hs'] at hm; cases hm) (by decide)
    (by intro c hc; simp at hc; subst hc; rfl) (by simpa using h _ (.identifier hs hg))
  rw [hs] at ho
  obtain ⟨hn, hid⟩ := ho.1 _ _ hg
  generalize hx : %s"::" ++ n ++ %s"=>" ++ id.display = x at this
  cases this with
  | trait hw => exact absurd hw (by decide)
  | member hm => rw [hs'] at hm; cases hm
  | memberTrait hm => rw [hs'] at hm; cases hm
  | target hm => simp at hx
  | version hb => simp at hx
  | rename hb => rw [hs'] at hb; cases hb
  | identifier hb _ hg' =>
    rename_i v2 n2 id2 _
    rw [hs'] at hb; cases hb
    rw [hs'] at ho'
    obtain ⟨h1, h2⟩ := span_unique (P := identChar) (ident_chars hn) (ident_chars (ho'.1 _ _ hg').1) (x := %s"=>" ++ id.display) (y := %s"=>" ++ id2.display)
      (by intro c hc; simp at hc; subst hc; rfl) (by intro c hc; simp at hc; subst hc; rfl) (by simpa using hx)
    rw [h1, C03_display_injective _ _ hid (ho'.1 _ _ hg').2 (by simpa using h2)]
    exact hg'

/-! ### The targets, in number -/

/-- The targets of a property of a service, an operation or a resource. -/
def targetsOf (n : Str) : ShapeKind → List ShapeID
  | .service v => (if n = %s"operation" then v.operations else []) ++ if n = %s"resource" then v.resources else []
  | .operation o => (if n = %s"input" then o.input.toList else []) ++ (if n = %s"output" then o.output.toList else []) ++
      if n = %s"error" then o.errors else []
  | .resource r => (if n = %s"create" then r.create.toList else []) ++ (if n = %s"put" then r.put.toList else []) ++
      (if n = %s"read" then r.read.toList else []) ++ (if n = %s"update" then r.update.toList else []) ++
      (if n = %s"delete" then r.delete.toList else []) ++ (if n = %s"list" then r.list.toList else []) ++
      (if n = %s"operation" then r.operations else []) ++ (if n = %s"collection_operation" then r.collectionOperations else []) ++
      if n = %s"resource" then r.resources else []
  | _ => []

open Classical in
/-- The valid id that follows `P` on a line, if there is one. -/
noncomputable def pick (P l : Str) : Option ShapeID :=
  if h : ∃ id : ShapeID, id.Valid ∧ l = P ++ id.display then some h.choose else none

theorem pick_some {P : Str} {id : ShapeID} (h : id.Valid) : pick P (P ++ id.display) = some id := by
  have hx : ∃ i : ShapeID, i.Valid ∧ P ++ id.display = P ++ i.display := ⟨id, h, rfl⟩
  unfold pick
  rw [dif_pos hx]
  obtain ⟨h1, h2⟩ := hx.choose_spec
  rw [C03_display_injective _ _ h1 h (List.append_cancel_left h2).symm]

theorem pick_none {P l : Str} (h : ∀ id : ShapeID, id.Valid → l ≠ P ++ id.display) : pick P l = none := by
  unfold pick
  exact dif_neg fun ⟨id, h1, h2⟩ => h id h1 h2

theorem pick_nothing {P : Str} {ls : List Str} (h : ∀ l ∈ ls, ∀ id : ShapeID, id.Valid → l ≠ P ++ id.display) : ls.filterMap (pick P) = [] :=
  List.filterMap_eq_nil_iff.mpr fun l hl => pick_none (h l hl)

theorem pick_word {pre n w x : Str} (hn : ∀ c ∈ n, identChar c = true) (hw : ∀ c ∈ w, identChar c = true)
    (hx : ∀ c, x.head? = some c → identChar c = false) {id : ShapeID} (e : pre ++ %s"::" ++ w ++ x = (pre ++ %s"::" ++ n ++ %s"=>") ++ id.display) :
    w = n ∧ x = %s"=>" ++ id.display := by
  simp only [List.append_assoc] at e
  have e := List.append_cancel_left e
  exact span_unique (P := identChar) hw hn hx (by intro c hc; simp at hc; subst hc; rfl) (cons_colons e)

theorem pick_targets {pre n w : Str} (hn : ∀ c ∈ n, identChar c = true) (hw : ∀ c ∈ w, identChar c = true) {ids : List ShapeID}
    (hv : ∀ id ∈ ids, id.Valid) : (ofTargets pre w ids).filterMap (pick (pre ++ %s"::" ++ n ++ %s"=>")) = if n = w then ids else [] := by
  split
  · next e =>
    subst e
    induction ids with
    | nil => rfl
    | cons id ids ih =>
      have : pre ++ memberTarget n id = (pre ++ %s"::" ++ n ++ %s"=>") ++ id.display := by simp [memberTarget]
      simp only [ofTargets, List.map_cons, this] at ih ⊢
      rw [List.filterMap_cons_some (pick_some (hv id (by simp))), ih fun i hi => hv i (by simp [hi])]
  · next e =>
    refine pick_nothing fun l hl id hid he => e ?_
    obtain ⟨id', -, rfl⟩ := (mem_ofTargets _ _ _ _).mp hl
    exact (pick_word (pre := pre) (x := %s"=>" ++ id'.display) hn hw (by intro c hc; simp at hc; subst hc; rfl) (by simpa using he)).1.symm

theorem pick_opt {pre n w : Str} (hn : ∀ c ∈ n, identChar c = true) (hw : ∀ c ∈ w, identChar c = true) {o : Option ShapeID}
    (hv : ∀ id, o = some id → id.Valid) :
    (ofTarget pre w o).filterMap (pick (pre ++ %s"::" ++ n ++ %s"=>")) = if n = w then o.toList else [] :=
  pick_targets hn hw fun id hid => hv id (by simpa using hid)

theorem pick_kind {f : Fmt} {pre n : Str} (hn : ∀ c ∈ n, identChar c = true) {k : ShapeKind} (hk : ValidKind k)
    (no : ∀ m, ¬ HasMemberShape k m) : (ofKind f pre k).filterMap (pick (pre ++ %s"::" ++ n ++ %s"=>")) = targetsOf n k := by
  cases k with
  | simple => rfl
  | unresolved => rfl
  | list m => exact absurd .list (no m)
  | set m => exact absurd .set (no m)
  | map k v => exact absurd .key (no k)
  | struct ms =>
    cases ms with
    | nil => rfl
    | cons e ms => obtain ⟨k, m⟩ := e; exact absurd (.struct (n := k) (by simp [AMap.get_cons])) (no m)
  | union ms =>
    cases ms with
    | nil => rfl
    | cons e ms => obtain ⟨k, m⟩ := e; exact absurd (.union (n := k) (by simp [AMap.get_cons])) (no m)
  | service v =>
    obtain ⟨-, h1, h2, h3⟩ := hk
    have e1 : pick (pre ++ %s"::" ++ n ++ %s"=>") (pre ++ %s"::version<=" ++ f.debug v.version) = none := pick_none fun id hid e => by
      have := (pick_word (pre := pre) (w := %s"version") (x := %s"<=" ++ f.debug v.version) hn (by decide)
        (by intro c hc; simp at hc; subst hc; rfl) (by simpa using e)).2
      simp at this
    have e2 : (v.renames.map fun e => pre ++ %s"::rename::" ++ e.1.display ++ %s"<=" ++ e.2).filterMap (pick (pre ++ %s"::" ++ n ++ %s"=>")) = [] := by
      refine pick_nothing fun l hl id hid e => ?_
      obtain ⟨⟨i, r⟩, -, rfl⟩ := List.mem_map.mp hl
      have := (pick_word (pre := pre) (w := %s"rename") (x := %s"::" ++ i.display ++ %s"<=" ++ r) hn (by decide)
        (by intro c hc; simp at hc; subst hc; rfl) (by simpa using e)).2
      simp at this
    simp only [ofKind, List.filterMap_cons_none e1, List.filterMap_append, e2, pick_targets hn (w := %s"operation") (by decide) h1,
      pick_targets hn (w := %s"resource") (by decide) h2, targetsOf, List.append_nil]
  | operation o =>
    obtain ⟨h1, h2, h3⟩ := hk
    simp only [ofKind, List.filterMap_append, pick_opt hn (w := %s"input") (by decide) h1, pick_opt hn (w := %s"output") (by decide) h2,
      pick_targets hn (w := %s"error") (by decide) h3, targetsOf]
  | resource r =>
    obtain ⟨h1, h2, h3, h4, h5⟩ := hk
    have e2 : (r.identifiers.map fun e => pre ++ %s"::identifier" ++ memberTarget e.1 e.2).filterMap (pick (pre ++ %s"::" ++ n ++ %s"=>")) = [] := by
      refine pick_nothing fun l hl id hid e => ?_
      obtain ⟨⟨i, r⟩, -, rfl⟩ := List.mem_map.mp hl
      have := (pick_word (pre := pre) (w := %s"identifier") (x := %s"::" ++ i ++ %s"=>" ++ r.display) hn (by decide)
        (by intro c hc; simp at hc; subst hc; rfl) (by simpa [memberTarget] using e)).2
      simp at this
    simp only [ofKind, List.filterMap_append, e2, pick_opt hn (w := %s"create") (o := r.create) (by decide) (h2 .create), pick_opt hn (w := %s"put") (o := r.put) (by decide) (h2 .put),
      pick_opt hn (w := %s"read") (o := r.read) (by decide) (h2 .read), pick_opt hn (w := %s"update") (o := r.update) (by decide) (h2 .update),
      pick_opt hn (w := %s"delete") (o := r.delete) (by decide) (h2 .delete), pick_opt hn (w := %s"list") (o := r.list) (by decide) (h2 .list),
      pick_targets hn (w := %s"operation") (by decide) h3, pick_targets hn (w := %s"collection_operation") (by decide) h4,
      pick_targets hn (w := %s"resource") (by decide) h5, targetsOf, List.nil_append]

theorem pick_shape {f : Fmt} {s : TopLevelShape} (hs : PlainShape s) {n : Str} (hn : ∀ c ∈ n, identChar c = true)
    (no : ∀ m, ¬ HasMemberShape s.body m) :
    (ofShape f s).filterMap (pick (linePrefix s ++ %s"::" ++ n ++ %s"=>")) = targetsOf n s.body := by
  have e1 : pick (linePrefix s ++ %s"::" ++ n ++ %s"=>") (linePrefix s) = none := pick_none fun id hid e => by
    have := congrArg List.length e
    simp at this
  have e2 : (ofTraits f (linePrefix s ++ %s"::trait::") s.traits).filterMap (pick (linePrefix s ++ %s"::" ++ n ++ %s"=>")) = [] := by
    refine pick_nothing fun l hl id hid e => ?_
    obtain ⟨t, rfl, -⟩ := (mem_ofTraits f hs.wf.traits _ _).mp hl
    have := (pick_word (pre := linePrefix s) (w := %s"trait") (x := %s"::" ++ t) hn (by decide)
      (by intro c hc; simp at hc; subst hc; rfl) (by simpa using e)).2
    simp at this
  rw [ofShape, List.filterMap_cons_none e1, List.filterMap_append, pick_kind hn hs.body no, e2, List.append_nil]

theorem flatMap_only {K V α : Type} [DecidableEq K] {m : AMap K V} (hm : AMap.Wf m) {k : K} {v : V} (h : m.get k = some v) (g : V → List α)
    (hg : ∀ k' v', m.get k' = some v' → k' ≠ k → g v' = []) : (AMap.values m).flatMap g = g v := by
  induction m with
  | nil => simp at h
  | cons e m ih =>
    obtain ⟨k0, v0⟩ := e
    have hw : AMap.Wf m ∧ k0 ∉ AMap.keys m := by
      simp only [AMap.Wf, AMap.keys, List.map_cons, List.nodup_cons] at hm ⊢
      exact ⟨hm.2, hm.1⟩
    simp only [AMap.values, List.map_cons, List.flatMap_cons]
    rw [AMap.get_cons] at h
    by_cases e : k0 = k
    · subst e
      simp at h
      subst h
      have : ∀ x ∈ m, g x.2 = [] := by
        rintro ⟨k', v'⟩ hx
        have hne : k' ≠ k0 := by rintro rfl; exact hw.2 (List.mem_map_of_mem (f := Prod.fst) hx)
        refine hg k' v' ?_ hne
        rw [AMap.get_cons, if_neg (Ne.symm hne)]
        exact AMap.get_of_mem hw.1 hx
      have h0 : (m.map Prod.snd).flatMap g = [] := by
        rw [List.flatMap_eq_nil_iff]
        intro x hx
        obtain ⟨y, hy, rfl⟩ := List.mem_map.mp hx
        exact this y hy
      rw [h0, List.append_nil]
    · rw [if_neg e] at h
      have h0 : g v0 = [] := hg k0 v0 (by rw [AMap.get_cons, if_pos rfl]) e
      rw [h0, List.nil_append]
      refine ih hw.1 h fun k' v' hk' hne => hg k' v' ?_ hne
      rw [AMap.get_cons, if_neg]
      · exact hk'
      · rintro rfl
        exact hw.2 ((AMap.mem_keys_iff _ _).mpr (by rw [hk']; rfl))

theorem pick_model {f : Fmt} {a : Model} (ha : Plain a) {id : ShapeID} {s : TopLevelShape} (hs : a.shape id = some s) {n : Str}
    (hn : ∀ c ∈ n, identChar c = true) (no : ∀ m, ¬ HasMemberShape s.body m) :
    (unsorted f a).filterMap (pick (linePrefix s ++ %s"::" ++ n ++ %s"=>")) = targetsOf n s.body := by
  have hp := ha.shape hs
  have e1 : (a.metadata.flatMap (ofMeta f)).filterMap (pick (linePrefix s ++ %s"::" ++ n ++ %s"=>")) = [] := by
    refine pick_nothing fun l hl i hi e => ?_
    obtain ⟨⟨k, v⟩, hk, hl⟩ := List.mem_flatMap.mp hl
    have hg := AMap.get_of_mem ha.wf.metaNodup hk
    obtain ⟨t, rfl, -⟩ := (mem_ofValue f (ha.wf.metaValues _ _ hg) _ _).mp hl
    rw [linePrefix, typeName_eq] at e
    simp only [List.append_assoc] at e
    have := span_unique (P := fun c => c.isAlpha) (a := %s"meta") (x := %s"::" ++ (k ++ (%s"<=" ++ t))) (by decide) (typeWord_chars s.body)
      (by simp) (y := %s"::" ++ (s.id.display ++ (%s"::" ++ (n ++ (%s"=>" ++ i.display))))) (by simp) (by simpa using e)
    exact typeWord_ne_meta _ this.1.symm
  rw [unsorted, List.filterMap_append, e1, List.nil_append, List.filterMap_flatMap, Model.shapesList]
  rw [flatMap_only ha.wf.nodup hs (fun s' => (ofShape f s').filterMap (pick (linePrefix s ++ %s"::" ++ n ++ %s"=>"))) ?_, pick_shape hp hn no]
  intro id' s' hs' hne
  have hp' := ha.shape hs'
  refine pick_nothing fun l hl i hi e => hne ?_
  obtain ⟨t, rfl, ht⟩ := (mem_ofShape f hp'.wf _).mp hl
  rw [linePrefix, typeName_eq] at e
  simp only [List.append_assoc] at e
  obtain ⟨-, e2⟩ := span_unique (P := fun c => c.isAlpha) (typeWord_chars s'.body) (typeWord_chars s.body) (by simp) (by simp) e
  have e2 := cons_colons e2
  have hd : ∀ u : Str, (∀ c, u.head? = some c → c = ':') → ∀ c, u.head? = some c → idTextChar c = false := by
    intro u hu c hc; rw [hu c hc]; rfl
  obtain ⟨e3, -⟩ := span_unique (P := idTextChar) (idText_chars hp'.id) (idText_chars hp.id) (hd _ (shapeText_head f s' ht))
    (hd _ (by intro c hc; simp at hc; exact hc.symm)) e2
  rw [← ha.wf.key _ _ hs', ← ha.wf.key _ _ hs]
  exact C03_display_injective _ _ hp'.id hp.id e3

/-! ### The lines of a model tell the model -/

theorem typeWord_simple {b : Simple} {k : ShapeKind} (h : typeWord (.simple b) = typeWord k) : k = .simple b := by
  cases k with
  | simple c => cases b <;> cases c <;> first | rfl | exact absurd h (by decide)
  | _ => cases b <;> exact absurd h (by simp [typeWord, Simple.display])

theorem typeWord_list {m : MemberShape} {k : ShapeKind} (h : typeWord (.list m) = typeWord k) : ∃ m', k = .list m' := by
  cases k with
  | list m' => exact ⟨m', rfl⟩
  | simple c => cases c <;> exact absurd h (by simp [typeWord, Simple.display])
  | _ => exact absurd h (by simp [typeWord])

theorem typeWord_set {m : MemberShape} {k : ShapeKind} (h : typeWord (.set m) = typeWord k) : ∃ m', k = .set m' := by
  cases k with
  | set m' => exact ⟨m', rfl⟩
  | simple c => cases c <;> exact absurd h (by simp [typeWord, Simple.display])
  | _ => exact absurd h (by simp [typeWord])

theorem typeWord_map {m n : MemberShape} {k : ShapeKind} (h : typeWord (.map m n) = typeWord k) : ∃ m' n', k = .map m' n' := by
  cases k with
  | map m' n' => exact ⟨m', n', rfl⟩
  | simple c => cases c <;> exact absurd h (by simp [typeWord, Simple.display])
  | _ => exact absurd h (by simp [typeWord])

theorem typeWord_struct {m : AMap Str MemberShape} {k : ShapeKind} (h : typeWord (.struct m) = typeWord k) : ∃ m', k = .struct m' := by
  cases k with
  | struct m' => exact ⟨m', rfl⟩
  | simple c => cases c <;> exact absurd h (by simp [typeWord, Simple.display])
  | _ => exact absurd h (by simp [typeWord])

theorem typeWord_union {m : AMap Str MemberShape} {k : ShapeKind} (h : typeWord (.union m) = typeWord k) : ∃ m', k = .union m' := by
  cases k with
  | union m' => exact ⟨m', rfl⟩
  | simple c => cases c <;> exact absurd h (by simp [typeWord, Simple.display])
  | _ => exact absurd h (by simp [typeWord])

theorem typeWord_service {m : Service} {k : ShapeKind} (h : typeWord (.service m) = typeWord k) : ∃ m', k = .service m' := by
  cases k with
  | service m' => exact ⟨m', rfl⟩
  | simple c => cases c <;> exact absurd h (by simp [typeWord, Simple.display])
  | _ => exact absurd h (by simp [typeWord])

theorem typeWord_operation {m : Operation} {k : ShapeKind} (h : typeWord (.operation m) = typeWord k) : ∃ m', k = .operation m' := by
  cases k with
  | operation m' => exact ⟨m', rfl⟩
  | simple c => cases c <;> exact absurd h (by simp [typeWord, Simple.display])
  | _ => exact absurd h (by simp [typeWord])

theorem typeWord_resource {m : Resource} {k : ShapeKind} (h : typeWord (.resource m) = typeWord k) : ∃ m', k = .resource m' := by
  cases k with
  | resource m' => exact ⟨m', rfl⟩
  | simple c => cases c <;> exact absurd h (by simp [typeWord, Simple.display])
  | _ => exact absurd h (by simp [typeWord])

theorem typeWord_unresolved {k : ShapeKind} (h : typeWord .unresolved = typeWord k) : k = .unresolved := by
  cases k with
  | unresolved => rfl
  | simple c => cases c <;> exact absurd h (by simp [typeWord, Simple.display])
  | _ => exact absurd h (by simp [typeWord])

theorem toList_perm {α : Type} {a b : Option α} (h : a.toList.Perm b.toList) : a = b := by
  cases a with
  | none => cases b with
    | none => rfl
    | some y => exact absurd h.length_eq (by simp)
  | some x => cases b with
    | none => exact absurd h.length_eq (by simp)
    | some y => simpa using h

/-- The members of structures and unions. -/
theorem alike_members {f : Fmt} {a b : AMap Str MemberShape} (ha : WfMembers a) (hb : WfMembers b)
    (h : ∀ n m, a.get n = some m → ∃ n' m', b.get n' = some m' ∧ AlikeMember f m m')
    (h' : ∀ n m, b.get n = some m → ∃ n' m', a.get n' = some m' ∧ AlikeMember f m m') : MapRel (AlikeMember f) a b := by
  intro n
  cases ea : a.get n with
  | some m =>
    obtain ⟨n', m', hg, hm⟩ := h n m ea
    have : n' = n := by rw [← hb.key _ _ hg, ← hm.1, ha.key _ _ ea]
    subst this
    rw [hg]; exact .some hm
  | none =>
    cases eb : b.get n with
    | none => exact .none
    | some m =>
      obtain ⟨n', m', hg, hm⟩ := h' n m eb
      have : n' = n := by rw [← ha.key _ _ hg, ← hm.1, hb.key _ _ eb]
      subst this
      rw [hg] at ea; cases ea

theorem kinds_alike {f : Fmt} {k k' : ShapeKind} (w : WfKind k) (w' : WfKind k') (u : UsualNames k) (u' : UsualNames k')
    (hw : typeWord k = typeWord k')
    (mem : (∀ n id, ¬ HasTarget k' n id) → ∀ m, HasMemberShape k m → ∃ m', HasMemberShape k' m' ∧ AlikeMember f m m')
    (mem' : (∀ n id, ¬ HasTarget k n id) → ∀ m, HasMemberShape k' m → ∃ m', HasMemberShape k m' ∧ AlikeMember f m m')
    (sv : ∀ x x', k = .service x → k' = .service x' → x.version = x'.version ∧ MapRel Eq x.renames x'.renames)
    (rs : ∀ x x', k = .resource x → k' = .resource x' → MapRel Eq x.identifiers x'.identifiers)
    (ht : (∀ m, ¬ HasMemberShape k m) → (∀ m, ¬ HasMemberShape k' m) →
      ∀ n : Str, (∀ c ∈ n, identChar c = true) → (targetsOf n k).Perm (targetsOf n k')) : AlikeKind f k k' := by
  cases k with
  | simple b => rw [typeWord_simple hw]; exact .simple
  | unresolved => rw [typeWord_unresolved hw]; exact .unresolved
  | list m =>
    obtain ⟨m', rfl⟩ := typeWord_list hw
    obtain ⟨x, hx, hm⟩ := mem (fun n id h => by cases h) m .list
    cases hx
    exact .list hm
  | set m =>
    obtain ⟨m', rfl⟩ := typeWord_set hw
    obtain ⟨x, hx, hm⟩ := mem (fun n id h => by cases h) m .set
    cases hx
    exact .set hm
  | map k x =>
    obtain ⟨k', x', rfl⟩ := typeWord_map hw
    refine .map ?_ ?_
    · obtain ⟨y, hy, hm⟩ := mem (fun n id h => by cases h) k .key
      cases hy with
      | key => exact hm
      | value => exact absurd (u.1.symm.trans (hm.1.trans u'.2)) (by decide)
    · obtain ⟨y, hy, hm⟩ := mem (fun n id h => by cases h) x .value
      cases hy with
      | value => exact hm
      | key => exact absurd (u.2.symm.trans (hm.1.trans u'.1)) (by decide)
  | struct ms =>
    obtain ⟨ms', rfl⟩ := typeWord_struct hw
    refine .struct (alike_members w w' (fun n m hg => ?_) (fun n m hg => ?_))
    · obtain ⟨y, hy, hm⟩ := mem (fun n id h => by cases h) m (.struct hg)
      cases hy with | struct hg' => exact ⟨_, _, hg', hm⟩
    · obtain ⟨y, hy, hm⟩ := mem' (fun n id h => by cases h) m (.struct hg)
      cases hy with | struct hg' => exact ⟨_, _, hg', hm⟩
  | union ms =>
    obtain ⟨ms', rfl⟩ := typeWord_union hw
    refine .union (alike_members w w' (fun n m hg => ?_) (fun n m hg => ?_))
    · obtain ⟨y, hy, hm⟩ := mem (fun n id h => by cases h) m (.union hg)
      cases hy with | union hg' => exact ⟨_, _, hg', hm⟩
    · obtain ⟨y, hy, hm⟩ := mem' (fun n id h => by cases h) m (.union hg)
      cases hy with | union hg' => exact ⟨_, _, hg', hm⟩
  | service x =>
    obtain ⟨x', rfl⟩ := typeWord_service hw
    obtain ⟨hv, hr⟩ := sv x x' rfl rfl
    have ht := ht (fun m h => by cases h) (fun m h => by cases h)
    exact .service hv (by simpa [targetsOf] using ht %s"operation" (by decide)) (by simpa [targetsOf] using ht %s"resource" (by decide)) hr
  | operation x =>
    obtain ⟨x', rfl⟩ := typeWord_operation hw
    have ht := ht (fun m h => by cases h) (fun m h => by cases h)
    exact .operation (toList_perm (by simpa [targetsOf] using ht %s"input" (by decide))) (toList_perm (by simpa [targetsOf] using ht %s"output" (by decide)))
      (by simpa [targetsOf] using ht %s"error" (by decide))
  | resource x =>
    obtain ⟨x', rfl⟩ := typeWord_resource hw
    have hr := rs x x' rfl rfl
    have ht := ht (fun m h => by cases h) (fun m h => by cases h)
    refine .resource hr (fun l => ?_) (by simpa [targetsOf] using ht %s"operation" (by decide))
      (by simpa [targetsOf] using ht %s"collection_operation" (by decide)) (by simpa [targetsOf] using ht %s"resource" (by decide))
    cases l
    · exact toList_perm (a := x.create) (b := x'.create) (by simpa [targetsOf] using ht %s"create" (by decide))
    · exact toList_perm (a := x.put) (b := x'.put) (by simpa [targetsOf] using ht %s"put" (by decide))
    · exact toList_perm (a := x.read) (b := x'.read) (by simpa [targetsOf] using ht %s"read" (by decide))
    · exact toList_perm (a := x.update) (b := x'.update) (by simpa [targetsOf] using ht %s"update" (by decide))
    · exact toList_perm (a := x.delete) (b := x'.delete) (by simpa [targetsOf] using ht %s"delete" (by decide))
    · exact toList_perm (a := x.list) (b := x'.list) (by simpa [targetsOf] using ht %s"list" (by decide))

theorem alike_kind {f : Fmt} (hf : PlainNumbers f) {s s' : TopLevelShape} (hs : PlainShape s) (hs' : PlainShape s')
    (hw : typeWord s.body = typeWord s'.body) (h : ∀ t, ShapeText f s t ↔ ShapeText f s' t)
    (ht : (∀ m, ¬ HasMemberShape s.body m) → (∀ m, ¬ HasMemberShape s'.body m) →
      ∀ n : Str, (∀ c ∈ n, identChar c = true) → (targetsOf n s.body).Perm (targetsOf n s'.body)) : AlikeKind f s.body s'.body := by
  refine kinds_alike hs.wf.body hs'.wf.body hs.names hs'.names hw (fun no m hm => members_alike hf hs hs' no h hm)
    (fun no m hm => members_alike hf hs' hs no (fun t => (h t).symm) hm) (fun x x' e e' => ⟨?_, ?_⟩) (fun x x' e e' => ?_) ht
  · exact service_version hf e' e fun t => (h t).mp
  · exact mapRel_eq fun id n => ⟨fun hg => service_rename e' hs'.body e hs.body (fun t => (h t).mp) hg,
      fun hg => service_rename e hs.body e' hs'.body (fun t => (h t).mpr) hg⟩
  · exact mapRel_eq fun n id => ⟨fun hg => resource_identifier e' hs'.body e hs.body (fun t => (h t).mp) hg,
      fun hg => resource_identifier e hs.body e' hs'.body (fun t => (h t).mpr) hg⟩

theorem named_members {m : Model} (h : Plain m) : NamedMembers m := fun _ _ hs mem hm =>
  (member_names (h.wf.shapes _ _ hs).body (h.valid _ _ hs).2.2 (h.names _ _ hs)).1 mem hm

theorem shapes_alike {f : Fmt} (hf : PlainNumbers f) {a b : Model} (ha : Plain a) (hb : Plain b) (h : lineForm f a = lineForm f b)
    {id : ShapeID} {s s' : TopLevelShape} (hs : a.shape id = some s) (hs' : b.shape id = some s') : AlikeShape f s s' := by
  have p := ha.shape hs
  have p' := hb.shape hs'
  obtain ⟨x, hx, hw, ht⟩ := shape_determined f ha.wf hb.wf ha.valid hb.valid h hs
  rw [hs'] at hx; cases hx
  obtain ⟨x, hx, -, ht'⟩ := shape_determined f hb.wf ha.wf hb.valid ha.valid h.symm hs'
  rw [hs] at hx; cases hx
  have hi : ∀ t, ShapeText f s t ↔ ShapeText f s' t := fun t => ⟨ht t, ht' t⟩
  have hid : s.id = s'.id := (ha.wf.key _ _ hs).trans (hb.wf.key _ _ hs').symm
  refine ⟨hid, alike_traits hf p.traits p'.traits p.plain p'.plain fun t => ⟨fun h1 => ?_, fun h1 => ?_⟩, alike_kind hf p p' hw hi fun no no' n hn => ?_⟩
  · exact shapeText_trait p'.body p.traits (named_members hb _ _ hs') h1 (ht _ (.trait h1))
  · exact shapeText_trait p.body p'.traits (named_members ha _ _ hs) h1 (ht' _ (.trait h1))
  · have hp : (unsorted f a).Perm (unsorted f b) :=
      ((List.mergeSort_perm _ strLe).symm.trans (List.Perm.of_eq h)).trans (List.mergeSort_perm _ strLe)
    have h1 := hp.filterMap (pick (linePrefix s ++ %s"::" ++ n ++ %s"=>"))
    have e : linePrefix s = linePrefix s' := by rw [linePrefix, linePrefix, typeName_eq, typeName_eq, hw, hid]
    rw [pick_model ha hs hn no, e, pick_model hb hs' hn no'] at h1
    exact h1

theorem metadata_text {f : Fmt} {a b : Model} (ha : Plain a) (hb : Plain b) (h : lineForm f a = lineForm f b) {k : Str} {v : Value} {t : Str}
    (hg : a.metadata.get k = some v) (ht : ValueText f v t) : ∃ v', b.metadata.get k = some v' ∧ ValueText f v' t := by
  have key : ∀ {m : Model}, Plain m → ∀ k ∈ AMap.keys m.metadata, '<' ∉ k := by
    intro m hm k hk
    have := (AMap.mem_keys_iff _ _).mp hk
    cases hg : m.metadata.get k with
    | none => rw [hg] at this; cases this
    | some v => exact (hm.keys _ _ hg).1
  exact C34_metadata_determined f a b ha.wf hb.wf (key ha) (key hb) h k v t hg ht

/-- C34: what the lines tell, exactly: two plain models have the same lines if and only if they have the same metadata and the same shapes, up to
numbers that are printed alike and the order of the targets of services, operations and resources. -/
theorem C34_tells (f : Fmt) (hf : PlainNumbers f) (a b : Model) (ha : Plain a) (hb : Plain b) :
    lineForm f a = lineForm f b ↔ AlikeModel f a b := by
  constructor
  · intro h
    refine ⟨fun k => ?_, fun id => ?_⟩
    · cases ea : a.metadata.get k with
      | none =>
        cases eb : b.metadata.get k with
        | none => exact .none
        | some v =>
          obtain ⟨t, ht⟩ := text_exists f v
          obtain ⟨v', hv', -⟩ := metadata_text hb ha h.symm eb ht
          rw [hv'] at ea; cases ea
      | some v =>
        obtain ⟨t, ht⟩ := text_exists f v
        obtain ⟨v', hv', -⟩ := metadata_text ha hb h ea ht
        rw [hv']
        refine .some (alike_of_texts hf (ha.keys _ _ ea).2 (hb.keys _ _ hv').2 fun t => ⟨fun ht => ?_, fun ht => ?_⟩)
        · obtain ⟨w, hw, hwt⟩ := metadata_text ha hb h ea ht
          rw [hv'] at hw; cases hw; exact hwt
        · obtain ⟨w, hw, hwt⟩ := metadata_text hb ha h.symm hv' ht
          rw [ea] at hw; cases hw; exact hwt
    · cases ea : a.shapes.get id with
      | none =>
        cases eb : b.shapes.get id with
        | none => exact .none
        | some s =>
          obtain ⟨s', hs', -⟩ := shape_determined f hb.wf ha.wf hb.valid ha.valid h.symm eb
          rw [Model.shape, ea] at hs'; cases hs'
      | some s =>
        obtain ⟨s', hs', -⟩ := shape_determined f ha.wf hb.wf ha.valid hb.valid h ea
        rw [show b.shapes.get id = some s' from hs']
        exact .some (shapes_alike hf ha hb h ea hs')
  · intro h
    exact mergeSort_eq_of_perm (unsorted_alike f ha.wf hb.wf h)

/-- C34: what the texts of a value tell: the value, up to the order of its entries and numbers that are printed alike. -/
theorem C34_values_tell (f : Fmt) (hf : PlainNumbers f) (v w : Value) (hv : v.Wf) (hw : w.Wf) (pv : PlainKeys v) (pw : PlainKeys w) :
    (∀ t, ValueText f v t ↔ ValueText f w t) ↔ Alike f v w := by
  refine ⟨alike_of_texts hf pv pw, fun h t => ?_⟩
  have hp := ofValue_alike f hv hw h []
  have go : ∀ {x : Value}, x.Wf → (ValueText f x t ↔ t ∈ ofValue f [] x) := fun hx => by
    rw [mem_ofValue f hx]
    exact ⟨fun h => ⟨t, rfl, h⟩, fun ⟨u, e, h⟩ => by simp at e; exact e ▸ h⟩
  rw [go hv, go hw]
  exact hp.mem_iff

/-! ### Examples -/

/-- A service, with a metadata entry. -/
def exListed (ops : List ShapeID) (v : Value) : Model :=
  ⟨.v10, [(%s"k", v)], [(sid %s"S", ⟨sid %s"S", [], .service ⟨%s"1", ops, [], []⟩⟩)]⟩

theorem exListed_plain {ops : List ShapeID} {v : Value} (ho : ∀ id ∈ ops, id.Valid) (hv : v.Wf) (pv : PlainKeys v) : Plain (exListed ops v) := by
  have one : ∀ id s, (exListed ops v).shape id = some s → id = sid %s"S" ∧ s = ⟨sid %s"S", [], .service ⟨%s"1", ops, [], []⟩⟩ := by
    intro id s h
    obtain ⟨rfl, rfl⟩ := get_one h
    exact ⟨rfl, rfl⟩
  refine ⟨wf_singleShape ⟨sid %s"S", [], .service ⟨%s"1", ops, [], []⟩⟩ rfl ⟨⟨AMap.wf_nil, (by simp)⟩, (AMap.wf_nil : AMap.Wf ([] : AMap ShapeID Str))⟩
    [(%s"k", v)] (by simp [AMap.Wf, AMap.keys]) fun k w h => (by obtain ⟨-, rfl⟩ := get_one h; exact hv), ?_, ?_, ?_, ?_⟩
  · intro id s h
    obtain ⟨rfl, rfl⟩ := one id s h
    exact ⟨valid_sid (by decide), (fun id v h => by simp at h), (by simp), ho, (by simp), (fun id n h => by simp at h)⟩
  · intro id s h
    obtain ⟨rfl, rfl⟩ := one id s h
    trivial
  · intro k w h
    obtain ⟨rfl, rfl⟩ := get_one h
    exact ⟨by decide, pv⟩
  · intro id s h
    obtain ⟨rfl, rfl⟩ := one id s h
    exact ⟨fun id v h => by simp at h, fun m h => by cases h⟩

/-- C34: the lines tell how often an operation is listed and the items of a list, but not the order of the operations. -/
theorem C34_tells_example (f : Fmt) (hf : PlainNumbers f) :
    lineForm f (exListed [sid %s"A", sid %s"B"] .none) = lineForm f (exListed [sid %s"B", sid %s"A"] .none) ∧
    lineForm f (exListed [sid %s"A", sid %s"A", sid %s"B"] .none) ≠ lineForm f (exListed [sid %s"A", sid %s"B", sid %s"B"] .none) ∧
    lineForm f (exListed [] (.array [.boolean true])) ≠ lineForm f (exListed [] (.array [.boolean true, .string %s"x"])) := by
  have va := valid_sid (n := %s"A") (by decide)
  have vb := valid_sid (n := %s"B") (by decide)
  have ok : ∀ l : List ShapeID, (∀ id ∈ l, id = sid %s"A" ∨ id = sid %s"B") → Plain (exListed l .none) := fun l hl =>
    exListed_plain (fun id hid => by rcases hl id hid with rfl | rfl; exact va; exact vb) .none .none
  refine ⟨?_, fun h => ?_, fun h => ?_⟩
  · refine (C34_tells f hf _ _ (ok _ (by simp)) (ok _ (by simp))).mpr ⟨fun k => ?_, fun id => ?_⟩
    · simp only [exListed, AMap.get_cons, AMap.get_nil]
      split
      · exact .some .none
      · exact .none
    · simp only [exListed, AMap.get_cons, AMap.get_nil]
      split
      · exact .some ⟨rfl, (fun _ => .none), .service rfl (List.Perm.swap _ _ _) (List.Perm.refl _) fun _ => .none⟩
      · exact .none
  · have := ((C34_tells f hf _ _ (ok _ (by simp)) (ok _ (by simp))).mp h).shapes (sid %s"S")
    simp only [exListed, AMap.get_cons, AMap.get_nil, if_true] at this
    cases this with | some hs =>
    cases hs.body with
    | service _ hp _ _ =>
      have := hp.count_eq (sid %s"A")
      revert this; decide
  · have hb : ∀ l : List Value, (∀ v ∈ l, v = .boolean true ∨ v = .string %s"x") → Plain (exListed [] (.array l)) := fun l hl =>
      exListed_plain (by simp) (.array fun v hv => by rcases hl v hv with rfl | rfl; exact .boolean; exact .string)
        (.array fun v hv => by rcases hl v hv with rfl | rfl; exact .boolean; exact .string)
    have := ((C34_tells f hf _ _ (hb _ (by simp)) (hb _ (by simp))).mp h).metadata %s"k"
    simp only [exListed, AMap.get_cons, AMap.get_nil, if_true] at this
    cases this with | some hs =>
    cases hs with
    | array hl => simp at hl

/-- Formats as in the standard library exist, and a model with traits, a list, a structure and a service is plain. -/
example : (∃ f, PlainNumbers f) ∧ Plain exJsonModel := by
  refine ⟨⟨⟨fun _ => %s"0.5", fun s => '"' :: s ++ ['"']⟩, fun _ => by show ∀ c ∈ (%s"0.5" : Str), _; decide, fun s s' h => by simpa using h⟩, exJsonModel_ok.1, exJsonModel_ok.2.1, ?_, ?_, ?_⟩
  · intro id s h
    have := AMap.mem_of_get h
    simp only [exJsonModel, List.mem_cons, Prod.mk.injEq, List.not_mem_nil, or_false] at this
    rcases this with ⟨rfl, rfl⟩ | ⟨rfl, rfl⟩ | ⟨rfl, rfl⟩
    · trivial
    · rfl
    · trivial
  · intro k v h
    obtain ⟨rfl, rfl⟩ := get_one h
    refine ⟨by decide, .array fun v hv => ?_⟩
    simp at hv
    rcases hv with rfl | rfl
    · exact .number
    · exact .string
  · intro id s h
    have := AMap.mem_of_get h
    simp only [exJsonModel, List.mem_cons, Prod.mk.injEq, List.not_mem_nil, or_false] at this
    rcases this with ⟨rfl, rfl⟩ | ⟨rfl, rfl⟩ | ⟨rfl, rfl⟩
    · refine ⟨fun id v h => by obtain ⟨_, h⟩ := get_one h; cases h; exact .string, fun m hm => ?_⟩
      cases hm with
      | struct hg => obtain ⟨rfl, rfl⟩ := get_one hg; exact fun id v h => by obtain ⟨_, h⟩ := get_one h; cases h; exact .array (by simp)
    · exact ⟨fun id v h => by simp at h, fun m hm => by cases hm; exact fun id v h => by simp at h⟩
    · exact ⟨fun id v h => by simp at h, fun m hm => by cases hm⟩

end Verif.Listed
