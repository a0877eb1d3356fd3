/-
C62, C63: the builders of traits and values.
-/
import Verif.TraitBuilders
import Verif.BuilderSpec
import Verif.ModelSpec
import Mathlib.Data.List.Induction

namespace Verif
open Spec

namespace Spec

/-- The object has exactly the listed fields, those with a value. -/
def Fields (o : AMap Str Value) (fields : List (Str × Option Value)) : Prop :=
  ∀ k v, AMap.get o k = some v ↔ (k, some v) ∈ fields

/-- A u64 cast to an i64: numbers above `i64::MAX` become negative. -/
def castI64 (n : Nat) : Int := if n < 2 ^ 63 then n else (n : Int) - 2 ^ 64

/-- The number, as a value. -/
def count (n : Nat) : Value := .number (.integer (castI64 n))

/-- What each function says it makes: the name of a prelude trait, and its value (bounds being cast to an i64). -/
inductive Makes : TraitFn → Str → Value → Prop
  | boxed : Makes .boxed (%s"box") (.object [])
  | deprecated {m s o} : Fields o [(%s"message", m.map .string), (%s"since", s.map .string)] →
      Makes (.deprecated m s) (%s"deprecated") (.object o)
  | documentation {s} : Makes (.documentation s) (%s"documentation") (.string s)
  | client : Makes (.errorSource .client) (%s"error") (.string (%s"client"))
  | server : Makes (.errorSource .server) (%s"error") (.string (%s"server"))
  | externalDocumentation {m o} :
      (∀ k v, AMap.get o k = some v ↔ ∃ pre s post, m = pre ++ (k, s) :: post ∧ v = .string s ∧ ∀ e ∈ post, e.1 ≠ k) →
      Makes (.externalDocumentation m) (%s"externalDocumentation") (.object o)
  | idempotent : Makes .idempotent (%s"idempotent") (.object [])
  | length {a b o} : Fields o [(%s"min", a.map count), (%s"max", b.map count)] → Makes (.length a b) (%s"length") (.object o)
  | lengthMax {n o} : Fields o [(%s"max", some (count n))] → Makes (.lengthMax n) (%s"length") (.object o)
  | lengthMin {n o} : Fields o [(%s"min", some (count n))] → Makes (.lengthMin n) (%s"length") (.object o)
  | noReplace : Makes .noReplace (%s"noReplace") (.object [])
  | paginated {i o t p ob} : Fields ob [(%s"inputToken", i.map .string), (%s"outputToken", o.map .string),
      (%s"items", t.map .string), (%s"pageSize", p.map .string)] → Makes (.paginated i o t p) (%s"paginated") (.object ob)
  | pattern {s} : Makes (.pattern s) (%s"pattern") (.string s)
  | private' : Makes .private' (%s"private") (.object [])
  | range {a b o} : Fields o [(%s"min", a.map count), (%s"max", b.map count)] → Makes (.range a b) (%s"range") (.object o)
  | rangeMax {n o} : Fields o [(%s"max", some (count n))] → Makes (.rangeMax n) (%s"range") (.object o)
  | rangeMin {n o} : Fields o [(%s"min", some (count n))] → Makes (.rangeMin n) (%s"range") (.object o)
  | readonly : Makes .readonly (%s"readonly") (.object [])
  | references {vs} : Makes (.references (.array vs)) (%s"references") (.array vs)
  | required : Makes .required (%s"required") (.object [])
  | requiresLength : Makes .requiresLength (%s"requiresLength") (.object [])
  | sensitive : Makes .sensitive (%s"sensitive") (.object [])
  | streaming : Makes .streaming (%s"streaming") (.object [])
  | since {s} : Makes (.since s) (%s"since") (.string s)
  | tagged {ts} : Makes (.tagged ts) (%s"tags") (.array (ts.map .string))
  | title {s} : Makes (.title s) (%s"title") (.string s)
  | aTrait : Makes .aTrait (%s"trait") (.object [])
  | uniqueItems : Makes .uniqueItems (%s"uniqueItems") (.object [])
  | unstable : Makes .unstable (%s"unstable") (.object [])

/-- Calls that break what the function asks of its arguments: no bound, an empty text, references that are not an array. -/
inductive Misused : TraitFn → Prop
  | length : Misused (.length none none)
  | range : Misused (.range none none)
  | pattern : Misused (.pattern [])
  | since : Misused (.since [])
  | references {v} : (∀ vs, v ≠ .array vs) → Misused (.references v)

/-- The bounds given to the function. -/
def boundsOf : TraitFn → List Nat
  | .length a b | .range a b => a.toList ++ b.toList
  | .lengthMax n | .lengthMin n | .rangeMax n | .rangeMin n => [n]
  | _ => []

/-- The functions whose trait is made without a value. -/
def Valueless (f : TraitFn) : Prop := f = .aTrait ∨ f = .unstable

end Spec

/-! ### Numbers -/

theorem asI64_small {n : Nat} (h : n < 2 ^ 63) : asI64 n = n := by
  unfold asI64; rw [BitVec.toInt_eq_toNat_cond]; simp only [BitVec.toNat_ofNat]; omega

theorem asI64_large {n : Nat} (h : 2 ^ 63 ≤ n) (h' : n < 2 ^ 64) : asI64 n = (n : Int) - 2 ^ 64 := by
  unfold asI64; rw [BitVec.toInt_eq_toNat_cond]; simp only [BitVec.toNat_ofNat]; omega

theorem asI64_cast {n : Nat} (h : n < 2 ^ 64) : asI64 n = castI64 n := by
  unfold castI64
  split
  · exact asI64_small (by assumption)
  · exact asI64_large (by omega) h

theorem asI64_i64 (n : Nat) : i64 (asI64 n) := by
  unfold asI64 i64
  have h1 := BitVec.le_toInt (BitVec.ofNat 64 n)
  have h2 := BitVec.toInt_lt (x := BitVec.ofNat 64 n)
  constructor
  · simpa using h1
  · simpa using h2

/-! ### Objects -/

theorem fields_nil : Fields [] [] := by intro k v; simp [AMap.get]

theorem fields_opt {o : AMap Str Value} {fs : List (Str × Option Value)} (h : Fields o fs) (k : Str) (hk : k ∉ fs.map (·.1)) (v : Option Value) :
    Fields (match v with | some v => AMap.insert o k v | none => o) (fs ++ [(k, v)]) := by
  intro k' v'
  cases v with
  | none => simp only [h k' v', List.mem_append, List.mem_singleton, Prod.mk.injEq, reduceCtorEq, and_false, or_false]
  | some v =>
    simp only [AMap.get_insert, List.mem_append, List.mem_singleton, Prod.mk.injEq, Option.some.injEq]
    by_cases hkk : k' = k
    · subst hkk
      simp only [↓reduceIte, Option.some.injEq]
      constructor
      · intro h; exact .inr ⟨trivial, h.symm⟩
      · rintro (h1 | h1)
        · exact absurd (List.mem_map.mpr ⟨_, h1, rfl⟩) hk
        · exact h1.2.symm
    · have : ¬ k = k' := fun h => hkk h.symm
      simp only [hkk, this, ↓reduceIte, h k' v', false_and, or_false]

theorem optString_eq (o : AMap Str Value) (k : Str) (s : Option Str) :
    TraitFn.optString o k s = match s.map Value.string with | some v => AMap.insert o k v | none => o := by cases s <;> rfl

theorem optInteger_eq (o : AMap Str Value) (k : Str) (s : Option Nat) (h : ∀ n ∈ s.toList, n < 2 ^ 64) :
    TraitFn.optInteger o k s = match s.map count with | some v => AMap.insert o k v | none => o := by
  cases s with
  | none => rfl
  | some n => simp only [TraitFn.optInteger, ObjectBuilder.integer, ObjectBuilder.insert, asI64_cast (h n (by simp)), Option.map_some, count]

/-- Every entry of the map is well-formed and each key is there once. -/
def WfObj (o : AMap Str Value) : Prop := (Value.object o).Wf

theorem wfObj_nil : WfObj [] := .object AMap.wf_nil (by simp)

theorem wfObj_insert {o : AMap Str Value} (h : WfObj o) (k : Str) {v : Value} (hv : v.Wf) : WfObj (AMap.insert o k v) := by
  cases h with
  | object h1 h2 =>
    refine .object (AMap.wf_insert h1 _ _) fun e he => ?_
    have hg := AMap.get_of_mem (AMap.wf_insert h1 k v) (k := e.1) (v := e.2) he
    rw [AMap.get_insert] at hg
    split at hg
    · cases hg; exact hv
    · exact h2 _ (AMap.mem_of_get hg)

theorem wfObj_optString {o : AMap Str Value} (h : WfObj o) (k : Str) (s : Option Str) : WfObj (TraitFn.optString o k s) := by
  cases s with
  | none => exact h
  | some s => exact wfObj_insert h k .string

theorem wfObj_optInteger {o : AMap Str Value} (h : WfObj o) (k : Str) (s : Option Nat) : WfObj (TraitFn.optInteger o k s) := by
  cases s with
  | none => exact h
  | some n => exact wfObj_insert h k (.number (asI64_i64 n))

theorem bounds_fields (a b : Option Nat) (ha : ∀ n ∈ a.toList, n < 2 ^ 64) (hb : ∀ n ∈ b.toList, n < 2 ^ 64) :
    Fields (TraitFn.optInteger (TraitFn.optInteger [] (%s"min") a) (%s"max") b) [(%s"min", a.map count), (%s"max", b.map count)] := by
  rw [optInteger_eq _ _ _ hb, optInteger_eq _ _ _ ha]
  exact fields_opt (fields_opt fields_nil _ (by simp) _) _ (by simp) _

theorem bounds_wf (a b : Option Nat) : WfObj (TraitFn.optInteger (TraitFn.optInteger [] (%s"min") a) (%s"max") b) :=
  wfObj_optInteger (wfObj_optInteger wfObj_nil _ _) _ _

/-- The fields without a value do not matter. -/
theorem Spec.Fields.drop {o : AMap Str Value} {fs gs : List (Str × Option Value)} (h : Fields o fs) (hs : ∀ k v, (k, some v) ∈ fs ↔ (k, some v) ∈ gs) :
    Fields o gs := fun k v => (h k v).trans (hs k v)

/-! ### The functions -/

theorem bounds_ok (n : Str) (a b : Option Nat) (h : ¬ (a = none ∧ b = none)) :
    TraitFn.bounds n a b = TraitBuilder.withValue (TraitFn.preludeName n) (.object (TraitFn.optInteger (TraitFn.optInteger [] (%s"min") a) (%s"max") b)) := by
  unfold TraitFn.bounds
  rw [if_pos]
  cases a with
  | some a => rfl
  | none =>
    cases b with
    | some b => rfl
    | none => exact absurd ⟨rfl, rfl⟩ h

theorem nonEmpty_ok (n s : Str) (h : s ≠ []) : TraitFn.nonEmpty n s = TraitBuilder.withValue (TraitFn.preludeName n) (.string s) := by
  unfold TraitFn.nonEmpty
  rw [if_neg]
  cases s with
  | nil => exact absurd rfl h
  | cons c s => simp

theorem wfObj_strings {l : List (Str × Str)} : WfObj (AMap.ofList (l.map fun e => (e.1, Value.string e.2))) := by
  refine .object (AMap.wf_ofList _) fun e he => ?_
  have hg := AMap.get_of_mem (AMap.wf_ofList _) (k := e.1) (v := e.2) he
  rw [AMap.get_ofList] at hg
  have := AMap.mem_of_get hg
  simp only [List.mem_reverse, List.mem_map] at this
  obtain ⟨x, -, hx⟩ := this
  rw [← (Prod.mk.inj hx).2]; exact .string

/-- Well-formed arguments: only `references` takes a whole value. -/
def Spec.ArgsWf : TraitFn → Prop
  | .references v => v.Wf
  | _ => True

/-- C62: with arguments it allows (bounds being any u64), each of the functions for prelude traits returns the absolute id of its
trait in the prelude, with the value described by its arguments, bounds being cast to an i64; every value is well-formed. Only two
functions make a trait without a value: see `C62_valueless`. -/
theorem C62_trait_functions (f : TraitFn) (hm : ¬ Misused f) (hv : ¬ Valueless f) (hb : ∀ n ∈ boundsOf f, n < 2 ^ 64) :
    ∃ n v, f.run = .ok ⟨.qualified ⟨%s"smithy.api", n, none⟩, some v⟩ ∧ Makes f n v ∧ (ArgsWf f → v.Wf) := by
  have hstr : ∀ {l : List (Str × Str)}, WfObj (AMap.ofList (l.map fun e => (e.1, Value.string e.2))) := wfObj_strings
  cases f with
  | boxed => exact ⟨_, _, rfl, .boxed, fun _ => wfObj_nil⟩
  | deprecated m s =>
    refine ⟨_, _, rfl, .deprecated ?_, fun _ => wfObj_optString (wfObj_optString wfObj_nil _ _) _ _⟩
    rw [optString_eq, optString_eq]
    exact fields_opt (fields_opt fields_nil _ (by simp) _) _ (by simp) _
  | documentation s => exact ⟨_, _, rfl, .documentation, fun _ => .string⟩
  | errorSource e =>
    cases e with
    | client => exact ⟨_, _, rfl, .client, fun _ => .string⟩
    | server => exact ⟨_, _, rfl, .server, fun _ => .string⟩
  | externalDocumentation m =>
    refine ⟨_, _, rfl, .externalDocumentation fun k v => ?_, fun _ => hstr⟩
    rw [AMap.get_ofList]
    have key : ∀ l : List (Str × Str), AMap.get (l.map fun e => (e.1, Value.string e.2)) k = some v ↔
        ∃ pre s post, l = pre ++ (k, s) :: post ∧ v = .string s ∧ ∀ e ∈ pre, e.1 ≠ k := by
      intro l
      induction l with
      | nil => simp [AMap.get]
      | cons e l ih =>
        obtain ⟨k', s'⟩ := e
        simp only [List.map_cons, AMap.get_cons]
        by_cases hk : k' = k
        · subst hk
          simp only [↓reduceIte, Option.some.injEq]
          constructor
          · intro h; exact ⟨[], s', l, rfl, h.symm, by simp⟩
          · rintro ⟨pre, s, post, he, hv, hp⟩
            cases pre with
            | nil => simp only [List.nil_append, List.cons.injEq, Prod.mk.injEq, true_and] at he; rw [hv, ← he.1]
            | cons x pre =>
              simp only [List.cons_append, List.cons.injEq] at he
              exact absurd (by rw [← he.1]) (hp x (by simp))
        · simp only [hk, ↓reduceIte, ih]
          constructor
          · rintro ⟨pre, s, post, rfl, hv, hp⟩
            refine ⟨(k', s') :: pre, s, post, rfl, hv, ?_⟩
            intro e he
            rcases List.mem_cons.mp he with rfl | he
            · exact hk
            · exact hp e he
          · rintro ⟨pre, s, post, he, hv, hp⟩
            cases pre with
            | nil => simp only [List.nil_append, List.cons.injEq, Prod.mk.injEq] at he; exact absurd he.1.1 hk
            | cons x pre =>
              simp only [List.cons_append, List.cons.injEq] at he
              exact ⟨pre, s, post, he.2, hv, fun e hx => hp e (by simp [hx])⟩
    rw [← List.map_reverse, key]
    constructor
    · rintro ⟨pre, s, post, he, hv, hp⟩
      refine ⟨post.reverse, s, pre.reverse, ?_, hv, fun e he => hp e (by simpa using he)⟩
      rw [← List.reverse_reverse m, he]; simp
    · rintro ⟨pre, s, post, he, hv, hp⟩
      refine ⟨post.reverse, s, pre.reverse, ?_, hv, fun e he => hp e (by simpa using he)⟩
      rw [he]; simp
  | idempotent => exact ⟨_, _, rfl, .idempotent, fun _ => wfObj_nil⟩
  | length a b =>
    refine ⟨_, _, (bounds_ok _ a b ?_).trans rfl, .length (bounds_fields a b ?_ ?_), fun _ => bounds_wf a b⟩
    · rintro ⟨rfl, rfl⟩; exact hm .length
    · exact fun n hn => hb n (by simp only [boundsOf, List.mem_append]; exact .inl hn)
    · exact fun n hn => hb n (by simp only [boundsOf, List.mem_append]; exact .inr hn)
  | lengthMax n =>
    refine ⟨_, _, (bounds_ok _ _ _ (by simp)).trans rfl, .lengthMax ((bounds_fields none (some n) (by simp) ?_).drop ?_), fun _ => bounds_wf _ _⟩
    · simpa [boundsOf] using hb
    · intro k v; simp
  | lengthMin n =>
    refine ⟨_, _, (bounds_ok _ _ _ (by simp)).trans rfl, .lengthMin ((bounds_fields (some n) none ?_ (by simp)).drop ?_), fun _ => bounds_wf _ _⟩
    · simpa [boundsOf] using hb
    · intro k v; simp
  | noReplace => exact ⟨_, _, rfl, .noReplace, fun _ => wfObj_nil⟩
  | paginated i o t p =>
    refine ⟨_, _, rfl, .paginated ?_, fun _ =>
      wfObj_optString (wfObj_optString (wfObj_optString (wfObj_optString wfObj_nil _ _) _ _) _ _) _ _⟩
    rw [optString_eq, optString_eq, optString_eq, optString_eq]
    exact fields_opt (fields_opt (fields_opt (fields_opt fields_nil _ (by simp) _) _ (by simp) _) _ (by simp) _) _ (by simp) _
  | pattern s => exact ⟨_, _, (nonEmpty_ok _ s (by rintro rfl; exact hm .pattern)).trans rfl, .pattern, fun _ => .string⟩
  | private' => exact ⟨_, _, rfl, .private', fun _ => wfObj_nil⟩
  | range a b =>
    refine ⟨_, _, (bounds_ok _ a b ?_).trans rfl, .range (bounds_fields a b ?_ ?_), fun _ => bounds_wf a b⟩
    · rintro ⟨rfl, rfl⟩; exact hm .range
    · exact fun n hn => hb n (by simp only [boundsOf, List.mem_append]; exact .inl hn)
    · exact fun n hn => hb n (by simp only [boundsOf, List.mem_append]; exact .inr hn)
  | rangeMax n =>
    refine ⟨_, _, (bounds_ok _ _ _ (by simp)).trans rfl, .rangeMax ((bounds_fields none (some n) (by simp) ?_).drop ?_), fun _ => bounds_wf _ _⟩
    · simpa [boundsOf] using hb
    · intro k v; simp
  | rangeMin n =>
    refine ⟨_, _, (bounds_ok _ _ _ (by simp)).trans rfl, .rangeMin ((bounds_fields (some n) none ?_ (by simp)).drop ?_), fun _ => bounds_wf _ _⟩
    · simpa [boundsOf] using hb
    · intro k v; simp
  | readonly => exact ⟨_, _, rfl, .readonly, fun _ => wfObj_nil⟩
  | references v =>
    cases v with
    | array vs => exact ⟨_, _, rfl, .references, id⟩
    | object o => exact absurd (.references (by simp)) hm
    | number o => exact absurd (.references (by simp)) hm
    | boolean o => exact absurd (.references (by simp)) hm
    | string o => exact absurd (.references (by simp)) hm
    | none => exact absurd (.references (by simp)) hm
  | required => exact ⟨_, _, rfl, .required, fun _ => wfObj_nil⟩
  | requiresLength => exact ⟨_, _, rfl, .requiresLength, fun _ => wfObj_nil⟩
  | sensitive => exact ⟨_, _, rfl, .sensitive, fun _ => wfObj_nil⟩
  | streaming => exact ⟨_, _, rfl, .streaming, fun _ => wfObj_nil⟩
  | since s => exact ⟨_, _, (nonEmpty_ok _ s (by rintro rfl; exact hm .since)).trans rfl, .since, fun _ => .string⟩
  | tagged ts => exact ⟨_, _, rfl, .tagged, fun _ => .array (by simp only [List.mem_map]; rintro v ⟨s, -, rfl⟩; exact .string)⟩
  | title s => exact ⟨_, _, rfl, .title, fun _ => .string⟩
  | aTrait => exact absurd (.inl rfl) hv
  | uniqueItems => exact ⟨_, _, rfl, .uniqueItems, fun _ => wfObj_nil⟩
  | unstable => exact absurd (.inr rfl) hv

/-- C62: the functions panic exactly when their arguments break what they ask for. -/
theorem C62_panics (f : TraitFn) : f.run = .error .panic ↔ Misused f := by
  constructor
  · intro h
    apply Classical.byContradiction; intro hm
    by_cases hv : Valueless f
    · rcases hv with rfl | rfl <;> cases h
    · cases f with
      | length a b =>
        have : ¬ (a = none ∧ b = none) := by rintro ⟨rfl, rfl⟩; exact hm .length
        rw [TraitFn.run, bounds_ok _ _ _ this] at h; cases h
      | range a b =>
        have : ¬ (a = none ∧ b = none) := by rintro ⟨rfl, rfl⟩; exact hm .range
        rw [TraitFn.run, bounds_ok _ _ _ this] at h; cases h
      | lengthMax n => rw [TraitFn.run, bounds_ok _ _ _ (by simp)] at h; cases h
      | lengthMin n => rw [TraitFn.run, bounds_ok _ _ _ (by simp)] at h; cases h
      | rangeMax n => rw [TraitFn.run, bounds_ok _ _ _ (by simp)] at h; cases h
      | rangeMin n => rw [TraitFn.run, bounds_ok _ _ _ (by simp)] at h; cases h
      | _ =>
        obtain ⟨n, v, h', -⟩ := C62_trait_functions _ hm hv (by simp [boundsOf])
        rw [h] at h'; cases h'
  · intro h
    cases h with
    | length => rfl
    | range => rfl
    | pattern => rfl
    | since => rfl
    | @references v h =>
      cases v with
      | array vs => exact absurd rfl (h vs)
      | _ => rfl

/-- C62: the prelude has every trait named by a function. -/
theorem C62_in_prelude (f : TraitFn) (n : Str) (v : Value) (h : Makes f n v) : n ∈ preludeTraits := by
  cases h <;> decide

/-- C62 is violated by large bounds: a bound above `i64::MAX` becomes a negative one. -/
theorem C62_large_bound (n : Nat) (h : 2 ^ 63 ≤ n) (h' : n < 2 ^ 64) :
    ∃ i : Int, i < 0 ∧ i = (n : Int) - 2 ^ 64 ∧
      TraitFn.run (.lengthMin n) = .ok ⟨.qualified ⟨%s"smithy.api", %s"length", none⟩, some (.object [(%s"min", .number (.integer i))])⟩ ∧
      TraitFn.run (.rangeMax n) = .ok ⟨.qualified ⟨%s"smithy.api", %s"range", none⟩, some (.object [(%s"max", .number (.integer i))])⟩ := by
  refine ⟨(n : Int) - 2 ^ 64, by omega, rfl, ?_, ?_⟩
  · rw [← asI64_large h h']; rfl
  · rw [← asI64_large h h']; rfl

/-- C62 is violated by `a_trait` and `unstable`: the trait they make has no value at all, unlike those of the other
annotations, and unlike the same annotation read from a file. Merging the two is a conflict. -/
theorem C62_valueless (f : TraitFn) (n : Str) (v : Value) (hm : Makes f n v) (hv : Valueless f) :
    f.run = .ok ⟨.qualified ⟨%s"smithy.api", n, none⟩, none⟩ ∧
    ∀ ts : Traits, AMap.get ts ⟨%s"smithy.api", n, none⟩ = some (some v) →
      applyWithValue ts ⟨%s"smithy.api", n, none⟩ none = (ts, .error (.mergeTraitConflict ⟨%s"smithy.api", n, none⟩)) := by
  rcases hv with rfl | rfl
  · cases hm
    refine ⟨rfl, fun ts h => ?_⟩
    rw [applyWithValue, if_neg (by decide), h]; rfl
  · cases hm
    refine ⟨rfl, fun ts h => ?_⟩
    rw [applyWithValue, if_neg (by decide), h]; rfl

/-! ### Setters and value builders -/

namespace Spec

/-- The value a setter is called with; a reference is the text of its id. -/
inductive SetTo : TraitBuilder.Setter → Value → Prop
  | array {vs} : SetTo (.array vs) (.array vs)
  | object {m} : SetTo (.object m) (.object m)
  | number {n} : SetTo (.number n) (.number n)
  | integer {n} : SetTo (.integer n) (.number (.integer n))
  | float {x} : SetTo (.float x) (.number (.float x))
  | boolean {b} : SetTo (.boolean b) (.boolean b)
  | shape {ns n} : SetTo (.reference ⟨ns, n, none⟩) (.string (ns ++ '#' :: n))
  | member {ns n m} : SetTo (.reference ⟨ns, n, some m⟩) (.string (ns ++ '#' :: n ++ '$' :: m))
  | string {s} : SetTo (.string s) (.string s)
  | value {v} : SetTo (.value v) v

end Spec

example (c : TraitBuilder.Setter) : ∃ v, SetTo c v := by
  cases c with
  | reference id =>
    obtain ⟨ns, n, m⟩ := id
    cases m with
    | none => exact ⟨_, .shape⟩
    | some m => exact ⟨_, .member⟩
  | array => exact ⟨_, .array⟩
  | object => exact ⟨_, .object⟩
  | number => exact ⟨_, .number⟩
  | integer => exact ⟨_, .integer⟩
  | float => exact ⟨_, .float⟩
  | boolean => exact ⟨_, .boolean⟩
  | string => exact ⟨_, .string⟩
  | value => exact ⟨_, .value⟩

/-- C63: after any number of calls of setters, a trait builder has its name and the value of the last call. -/
theorem C63_setters (t : TraitBuilder) (cs : List TraitBuilder.Setter) (c : TraitBuilder.Setter) (v : Value) (hv : SetTo c v) :
    (cs ++ [c]).foldl TraitBuilder.set t = ⟨t.name, some v⟩ := by
  have e : v = c.toValue := by cases hv <;> simp [TraitBuilder.Setter.toValue, ShapeID.display]
  rw [e, List.foldl_append]
  have : ∀ cs : List TraitBuilder.Setter, ∀ t : TraitBuilder, (cs.foldl TraitBuilder.set t).name = t.name := by
    intro cs
    induction cs with
    | nil => intro t; rfl
    | cons c cs ih => intro t; rw [List.foldl_cons, ih]; rfl
  change (⟨(cs.foldl TraitBuilder.set t).name, _⟩ : TraitBuilder) = _
  rw [this]

namespace Spec

/-- The value a call on an array builder adds. -/
def pushed : ArrayCall → Value
  | .push v => v
  | .number n => .number n
  | .integer n => .number (.integer n)
  | .float x => .number (.float x)
  | .boolean b => .boolean b
  | .string s => .string s

/-- The key and the value a call on an object builder stores. -/
def stored : ObjectCall → Str × Value
  | .insert k v => (k, v)
  | .number k n => (k, .number n)
  | .integer k n => (k, .number (.integer n))
  | .float k x => (k, .number (.float x))
  | .boolean k b => (k, .boolean b)
  | .string k s => (k, .string s)
  | .reference k s => (k, .string s)

end Spec

/-- C63: an array builder gives the values in the order of the calls. -/
theorem C63_array (cs : List ArrayCall) : ArrayBuilder.value cs = .array (cs.map pushed) := by
  unfold ArrayBuilder.value
  have : ∀ cs : List ArrayCall, ∀ l, cs.foldl ArrayBuilder.call l = l ++ cs.map pushed := by
    intro cs
    induction cs with
    | nil => intro l; simp
    | cons c cs ih => intro l; rw [List.foldl_cons, ih]; cases c <;> simp [ArrayBuilder.call, ArrayBuilder.push, pushed]
  rw [this]; rfl

/-- C63: an object builder gives, for each key, the value of the last call with that key, and no other key. -/
theorem C63_object (cs : List ObjectCall) : ∃ o, ObjectBuilder.value cs = .object o ∧ AMap.Wf o ∧
    ∀ k v, AMap.get o k = some v ↔ ∃ pre c post, cs = pre ++ c :: post ∧ stored c = (k, v) ∧ ∀ d ∈ post, (stored d).1 ≠ k := by
  refine ⟨_, rfl, ?_⟩
  have hcall : ∀ o c, ObjectBuilder.call o c = AMap.insert o (stored c).1 (stored c).2 := by intro o c; cases c <;> rfl
  induction cs using List.reverseRecOn with
  | nil => exact ⟨AMap.wf_nil, fun k v => by simp⟩
  | append_singleton cs c ih =>
    rw [List.foldl_append]
    simp only [List.foldl_cons, List.foldl_nil, hcall]
    refine ⟨AMap.wf_insert ih.1 _ _, fun k v => ?_⟩
    rw [AMap.get_insert]
    by_cases hk : k = (stored c).1
    · subst hk
      simp only [↓reduceIte, Option.some.injEq]
      constructor
      · rintro rfl; exact ⟨cs, c, [], rfl, rfl, by simp⟩
      · rintro ⟨pre, d, post, he, hd, hp⟩
        rcases List.eq_nil_or_concat post with rfl | ⟨post', x, rfl⟩
        · have := List.append_inj' he rfl
          rw [List.cons.injEq] at this
          rw [this.2.1, hd]
        · have : cs ++ [c] = (pre ++ d :: post') ++ [x] := by rw [he]; simp
          have := List.append_inj' this rfl
          rw [List.cons.injEq] at this
          exact absurd (by rw [this.2.1]) (hp x (by simp))
    · rw [if_neg (fun h => hk (by first | exact h | exact h.symm)), ih.2]
      constructor
      · rintro ⟨pre, d, post, rfl, hd, hp⟩
        refine ⟨pre, d, post ++ [c], by simp, hd, fun x hx => ?_⟩
        rcases List.mem_append.mp hx with hx | hx
        · exact hp x hx
        · rw [List.mem_singleton.mp hx]; exact fun h => hk h.symm
      · rintro ⟨pre, d, post, he, hd, hp⟩
        rcases List.eq_nil_or_concat post with rfl | ⟨post', x, rfl⟩
        · have := List.append_inj' he rfl
          rw [List.cons.injEq] at this
          rw [this.2.1, hd] at hk; exact absurd rfl hk
        · have : cs ++ [c] = (pre ++ d :: post') ++ [x] := by rw [he]; simp
          have := List.append_inj' this rfl
          exact ⟨pre, d, post', this.1, hd, fun y hy => hp y (by simp [hy])⟩

/-! ### Concrete cases -/

example : TraitFn.run (.length (some 1) (some 9)) = .ok ⟨.qualified ⟨%s"smithy.api", %s"length", none⟩,
    some (.object [(%s"min", .number (.integer 1)), (%s"max", .number (.integer 9))])⟩ := rfl

example : ¬ Misused (.length (some 1) (some 9)) ∧ ¬ Valueless (.length (some 1) (some 9)) ∧
    ∀ n ∈ boundsOf (.length (some 1) (some 9)), n < 2 ^ 63 := by
  refine ⟨fun h => (by cases h), fun h => (by rcases h with h | h <;> cases h), by simp [boundsOf]⟩

example : TraitFn.run (.lengthMin (2 ^ 64 - 1)) = .ok ⟨.qualified ⟨%s"smithy.api", %s"length", none⟩,
    some (.object [(%s"min", .number (.integer (-1)))])⟩ := rfl

example : TraitFn.run (.externalDocumentation [(%s"a", %s"1"), (%s"b", %s"2"), (%s"a", %s"3")]) =
    .ok ⟨.qualified ⟨%s"smithy.api", %s"externalDocumentation", none⟩, some (.object [(%s"a", .string (%s"3")), (%s"b", .string (%s"2"))])⟩ := rfl

example : ObjectBuilder.value [.integer (%s"a") 1, .boolean (%s"b") true, .string (%s"a") (%s"x")] =
    .object [(%s"a", .string (%s"x")), (%s"b", .boolean true)] := rfl

end Verif
