/-
Lemmas about node values.
-/
import Verif.ValuesSpec

namespace Verif
open Spec

namespace Value

/-- Induction over nested values. -/
theorem ind {P : Value → Prop} (array : ∀ vs, (∀ v ∈ vs, P v) → P (.array vs))
    (object : ∀ m : List (Str × Value), (∀ e ∈ m, P e.2) → P (.object m))
    (number : ∀ n, P (.number n)) (boolean : ∀ b, P (.boolean b)) (string : ∀ s, P (.string s))
    (none : P .none) : ∀ v, P v := by
  intro v
  refine Value.rec (motive_1 := P) (motive_2 := fun vs => ∀ v ∈ vs, P v)
    (motive_3 := fun m => ∀ e ∈ m, P e.2) (motive_4 := fun e => P e.2)
    array object number boolean string none ?_ ?_ ?_ ?_ ?_ v
  · simp
  · intro h t hh ht v hv
    rcases List.mem_cons.mp hv with rfl | hv
    · exact hh
    · exact ht v hv
  · simp
  · intro h t hh ht v hv
    rcases List.mem_cons.mp hv with rfl | hv
    · exact hh
    · exact ht v hv
  · intro _ _ h; exact h

theorem arrayEq_iff {a b : List Value} : arrayEq a b = true ↔
    a.length = b.length ∧ ∀ (i : Nat) (x y : Value), a[i]? = some x → b[i]? = some y → veq x y = true := by
  induction a generalizing b with
  | nil => cases b <;> simp [arrayEq]
  | cons x xs ih =>
    cases b with
    | nil => simp [arrayEq]
    | cons y ys =>
      simp only [arrayEq, Bool.and_eq_true, ih, List.length_cons, Nat.add_right_cancel_iff]
      constructor
      · rintro ⟨h1, h2, h3⟩
        refine ⟨h2, fun i u v hu hv => ?_⟩
        cases i with
        | zero => simp at hu hv; subst hu; subst hv; exact h1
        | succ i => simp at hu hv; exact h3 i u v hu hv
      · rintro ⟨h1, h2⟩
        exact ⟨h2 0 x y (by simp) (by simp), h1, fun i u v hu hv => h2 (i + 1) u v (by simpa using hu) (by simpa using hv)⟩

theorem objAll_iff {a : List (Str × Value)} {b : AMap Str Value} : objAll a b = true ↔
    ∀ e ∈ a, ∃ w, AMap.get b e.1 = some w ∧ veq e.2 w = true := by
  induction a with
  | nil => simp [objAll]
  | cons e es ih =>
    obtain ⟨k, v⟩ := e
    simp only [objAll, Bool.and_eq_true, ih, List.mem_cons, forall_eq_or_imp, entryEq]
    cases AMap.get b k <;> simp

end Value

theorem mem_of_subset_length {K : Type} [DecidableEq K] {a b : List K} (ha : a.Nodup) (hs : ∀ x ∈ a, x ∈ b)
    (hl : b.length ≤ a.length) : ∀ x ∈ b, x ∈ a := by
  induction a generalizing b with
  | nil => intro x hx; simp at hl; simp [hl] at hx
  | cons y ys ih =>
    intro x hx
    by_cases e : x = y
    · simp [e]
    · rw [List.nodup_cons] at ha
      have hy : y ∈ b := hs y (by simp)
      have := List.length_erase_of_mem hy
      simp only [List.length_cons] at hl
      refine List.mem_cons_of_mem _ (ih (b := b.erase y) ha.2 ?_ (by omega) x ((List.mem_erase_of_ne e).mpr hx))
      intro z hz
      have : z ≠ y := by rintro rfl; exact ha.1 hz
      exact (List.mem_erase_of_ne this).mpr (hs z (by simp [hz]))

theorem AMap.length_keys {K V : Type} (m : AMap K V) : (AMap.keys m).length = m.length := by
  simp [AMap.keys]

/-- Two maps of the same size, one's keys included in the other's, have the same keys. -/
theorem AMap.keys_eq_of_subset {V W : Type} {K : Type} [DecidableEq K] {a : AMap K V} {b : AMap K W}
    (ha : AMap.Wf a)
    (hl : a.length = b.length) (hs : ∀ k ∈ AMap.keys a, k ∈ AMap.keys b) (k : K) : k ∈ AMap.keys a ↔ k ∈ AMap.keys b := by
  refine ⟨hs k, fun hk => ?_⟩
  exact mem_of_subset_length ha hs (by simp [AMap.length_keys, hl]) k hk

theorem AMap.length_eq_of_keys {V W : Type} {K : Type} [DecidableEq K] {a : AMap K V} {b : AMap K W}
    (ha : AMap.Wf a) (hb : AMap.Wf b)
    (h : ∀ k, k ∈ AMap.keys a ↔ k ∈ AMap.keys b) : a.length = b.length := by
  have hp : (AMap.keys a).Perm (AMap.keys b) := (List.perm_ext_iff_of_nodup ha hb).mpr h
  have := hp.length_eq
  simpa [AMap.length_keys] using this

theorem Number.neq_iff (a b : Number) : a.neq b = true ↔ NumEq a b := by
  cases a with
  | integer m =>
    cases b with
    | integer n =>
      simp only [Number.neq, beq_iff_eq]
      constructor
      · rintro rfl; exact .integer
      · rintro ⟨⟩; rfl
    | float y => simp [Number.neq]; rintro ⟨⟩
  | float x =>
    cases b with
    | integer n => simp [Number.neq]; rintro ⟨⟩
    | float y =>
      simp only [Number.neq, F64.feq, Bool.and_eq_true, Bool.not_eq_true', Bool.or_eq_true, beq_iff_eq]
      constructor
      · rintro ⟨⟨h1, h2⟩, h3 | ⟨h3, h4⟩⟩
        · have : x = y := by cases x; cases y; simp_all
          subst this; exact .float h1
        · exact .zero h3 h4
      · rintro ⟨⟩
        · next h => simp [h]
        · next hx hy => simp [F64.isNaN, hx, hy]

theorem Value.veq_iff (a b : Value) (ha : a.Wf) (hb : b.Wf) : a.veq b = true ↔ VEq a b := by
  induction a using Value.ind generalizing b with
  | array vs ih =>
    cases ha with | array ha =>
    cases b with
    | array ws =>
      cases hb with | array hb =>
      simp only [veq, arrayEq_iff]
      constructor
      · rintro ⟨hl, h⟩
        refine .array hl fun i x y hx hy => ?_
        have mx := List.mem_of_getElem? hx
        have my := List.mem_of_getElem? hy
        exact (ih x mx y (ha x mx) (hb y my)).mp (h i x y hx hy)
      · rintro ⟨⟩
        next hl h =>
        refine ⟨hl, fun i x y hx hy => ?_⟩
        have mx := List.mem_of_getElem? hx
        have my := List.mem_of_getElem? hy
        exact (ih x mx y (ha x mx) (hb y my)).mpr (h i x y hx hy)
    | _ => simp [veq]; rintro ⟨⟩
  | object m ih =>
    cases ha with | object hwa ha =>
    cases b with
    | object m' =>
      cases hb with | object hwb hb =>
      simp only [veq, Bool.and_eq_true, beq_iff_eq, objAll_iff]
      constructor
      · rintro ⟨hl, h⟩
        have hk := AMap.keys_eq_of_subset hwa hl (by
          intro k hk
          rw [AMap.mem_keys_iff, Option.isSome_iff_exists] at hk
          obtain ⟨v, hv⟩ := hk
          obtain ⟨w, hw, _⟩ := h _ (AMap.mem_of_get hv)
          rw [AMap.mem_keys_iff, hw]; rfl)
        refine .object (fun k => ?_) fun k x y hx hy => ?_
        · have := hk k
          rw [AMap.mem_keys_iff, AMap.mem_keys_iff] at this
          exact Bool.eq_iff_iff.mpr this
        · obtain ⟨w, hw, he⟩ := h _ (AMap.mem_of_get hx)
          simp only at hw he
          rw [hy] at hw; injection hw with hw; subst hw
          exact (ih _ (AMap.mem_of_get hx) y (ha _ (AMap.mem_of_get hx)) (hb _ (AMap.mem_of_get hy))).mp he
      · rintro ⟨⟩
        next hk h =>
        refine ⟨AMap.length_eq_of_keys hwa hwb fun k => by rw [AMap.mem_keys_iff, AMap.mem_keys_iff, hk k], ?_⟩
        rintro ⟨k, v⟩ he
        have hg := AMap.get_of_mem hwa he
        have : (AMap.get m' k).isSome = true := by rw [← hk k, hg]; rfl
        obtain ⟨w, hw⟩ := Option.isSome_iff_exists.mp this
        exact ⟨w, hw, (ih _ he w (ha _ he) (hb _ (AMap.mem_of_get hw))).mpr (h k v w hg hw)⟩
    | _ => simp [veq]; rintro ⟨⟩
  | number n =>
    cases b with
    | number n' =>
      simp only [veq, Number.neq_iff]
      exact ⟨.number, by rintro ⟨⟩; assumption⟩
    | _ => simp [veq]; rintro ⟨⟩
  | boolean x =>
    cases b with
    | boolean y => simp only [veq, beq_iff_eq]; exact ⟨by rintro rfl; exact .boolean, by rintro ⟨⟩; rfl⟩
    | _ => simp [veq]; rintro ⟨⟩
  | string x =>
    cases b with
    | string y => simp only [veq, beq_iff_eq]; exact ⟨by rintro rfl; exact .string, by rintro ⟨⟩; rfl⟩
    | _ => simp [veq]; rintro ⟨⟩
  | none =>
    cases b with
    | none => simp only [veq, true_iff]; exact .none
    | _ => simp [veq]; rintro ⟨⟩

theorem VRel.symm {R S : Number → Number → Prop} (hR : ∀ m n, R m n → S n m) {a b : Value} (h : VRel R a b) :
    VRel S b a := by
  induction h with
  | array hl _ ih => exact .array hl.symm fun i x y hx hy => ih i y x hy hx
  | object hk _ ih => exact .object (fun k => (hk k).symm) fun k x y hx hy => ih k y x hy hx
  | number h => exact .number (hR _ _ h)
  | boolean => exact .boolean
  | string => exact .string
  | none => exact .none

theorem VRel.trans {R S T : Number → Number → Prop} (hR : ∀ l m n, R l m → S m n → T l n) {a b c : Value}
    (h : VRel R a b) (h' : VRel S b c) : VRel T a c := by
  induction h generalizing c with
  | @array a b hl _ ih =>
    cases h' with
    | @array _ c hl' h' =>
      refine .array (hl.trans hl') fun i x z hx hz => ?_
      have hi : i < b.length := by
        obtain ⟨h, _⟩ := List.getElem?_eq_some_iff.mp hx
        omega
      exact ih i x b[i] hx (by simp [hi]) (h' i b[i] z (by simp [hi]) hz)
  | @object a b hk _ ih =>
    cases h' with
    | @object _ c hk' h' =>
      refine .object (fun k => (hk k).trans (hk' k)) fun k x z hx hz => ?_
      have : (AMap.get b k).isSome = true := by rw [← hk k, hx]; rfl
      obtain ⟨y, hy⟩ := Option.isSome_iff_exists.mp this
      exact ih k x y hx hy (h' k y z hy hz)
  | number h => cases h' with | number h' => exact .number (hR _ _ _ h h')
  | boolean => cases h'; exact .boolean
  | string => cases h'; exact .string
  | none => cases h'; exact .none

theorem VRel.mono {R S : Number → Number → Prop} (hR : ∀ m n, R m n → S m n) {a b : Value} (h : VRel R a b) :
    VRel S a b := by
  induction h with
  | array hl _ ih => exact .array hl fun i x y hx hy => ih i x y hx hy
  | object hk _ ih => exact .object hk fun k x y hx hy => ih k x y hx hy
  | number h => exact .number (hR _ _ h)
  | boolean => exact .boolean
  | string => exact .string
  | none => exact .none

theorem VRel.refl {R : Number → Number → Prop} (hR : ∀ n, R n n) (a : Value) : VRel R a a := by
  induction a using Value.ind with
  | array vs ih =>
    refine .array rfl fun i x y hx hy => ?_
    rw [hx] at hy; injection hy with hy; subst hy
    exact ih x (List.mem_of_getElem? hx)
  | object m ih =>
    refine .object (fun _ => rfl) fun k x y hx hy => ?_
    rw [hx] at hy; injection hy with hy; subst hy
    exact ih _ (AMap.mem_of_get hx)
  | number n => exact .number (hR n)
  | boolean => exact .boolean
  | string => exact .string
  | none => exact .none

theorem NumEq.symm {m n : Number} (h : NumEq m n) : NumEq n m := by
  cases h with
  | integer => exact .integer
  | float h => exact .float h
  | zero h h' => exact .zero h' h

theorem NumEq.trans {l m n : Number} (h : NumEq l m) (h' : NumEq m n) : NumEq l n := by
  cases h with
  | integer => exact h'
  | float h => exact h'
  | zero h1 h2 =>
    cases h' with
    | float h' => exact .zero h1 h2
    | zero h3 h4 => exact .zero h1 h4

theorem Same.refl (a : Value) : Same a a := VRel.refl (fun _ => rfl) a
theorem Same.symm {a b : Value} (h : Same a b) : Same b a := VRel.symm (fun _ _ h => h.symm) h
theorem Same.trans {a b c : Value} (h : Same a b) (h' : Same b c) : Same a c :=
  VRel.trans (fun _ _ _ h h' => h.trans h') h h'
theorem VEq.symm {a b : Value} (h : VEq a b) : VEq b a := VRel.symm (fun _ _ h => NumEq.symm h) h
theorem VEq.trans {a b c : Value} (h : VEq a b) (h' : VEq b c) : VEq a c :=
  VRel.trans (R := NumEq) (S := NumEq) (T := NumEq) (fun _ _ _ h h' => NumEq.trans h h') h h'

theorem VEq.of_same_left {a b c : Value} (h : Same a b) (h' : VEq b c) : VEq a c :=
  VRel.trans (fun _ _ _ h h' => h ▸ h') h h'
theorem VEq.of_same_right {a b c : Value} (h : VEq a b) (h' : Same b c) : VEq a c :=
  VRel.trans (fun _ _ _ h h' => h' ▸ h) h h'

theorem NumEq.refl_iff (n : Number) : NumEq n n ↔ ¬ HasNaN (.number n) := by
  cases n with
  | integer n => exact ⟨by rintro _ ⟨⟩, fun _ => .integer⟩
  | float x =>
    constructor
    · rintro h ⟨⟩
      next hx =>
      cases h with
      | float h => simp [h] at hx
      | zero h => simp [F64.isNaN, h] at hx
    · intro h
      exact .float (by cases hx : x.isNaN with | false => rfl | true => exact absurd (.here hx) h)

theorem VEq.refl_iff (a : Value) (ha : a.Wf) : VEq a a ↔ ¬ HasNaN a := by
  induction a using Value.ind with
  | array vs ih =>
    cases ha with | array ha =>
    constructor
    · rintro ⟨⟩ ⟨⟩
      next hl h v hn hv =>
      obtain ⟨i, hi, rfl⟩ := List.mem_iff_getElem.mp hv
      exact (ih _ hv (ha _ hv)).mp (h i _ _ (by simp [hi]) (by simp [hi])) hn
    · intro h
      refine .array rfl fun i x y hx hy => ?_
      rw [hx] at hy; injection hy with hy; subst hy
      have hm := List.mem_of_getElem? hx
      exact (ih x hm (ha x hm)).mpr fun hn => h (.array hm hn)
  | object m ih =>
    cases ha with | object hw ha =>
    constructor
    · rintro ⟨⟩ ⟨⟩
      next hk h k v hn hv =>
      have hg := AMap.get_of_mem hw hv
      exact (ih _ hv (ha _ hv)).mp (h k v v hg hg) hn
    · intro h
      refine .object (fun _ => rfl) fun k x y hx hy => ?_
      rw [hx] at hy; injection hy with hy; subst hy
      have hm := AMap.mem_of_get hx
      exact (ih _ hm (ha _ hm)).mpr fun hn => h (.object hm hn)
  | number n =>
    rw [← NumEq.refl_iff]
    exact ⟨by rintro ⟨⟩; assumption, .number⟩
  | boolean => exact ⟨by rintro _ ⟨⟩, fun _ => .boolean⟩
  | string => exact ⟨by rintro _ ⟨⟩, fun _ => .string⟩
  | none => exact ⟨by rintro _ ⟨⟩, fun _ => .none⟩

end Verif
