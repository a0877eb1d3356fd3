/-
Property theorems C09 (atelier-core/src/model/values.rs).
-/
import Verif.ValuesLemmas

namespace Verif
open Spec

/-- C09: `==` on values is exactly the order-free description of equality `VEq`. -/
theorem C09_eq_iff_spec (a b : Value) (ha : a.Wf) (hb : b.Wf) : a.veq b = true ↔ VEq a b :=
  Value.veq_iff a b ha hb

/-- C09: `==` is symmetric and transitive. -/
theorem C09_eq_symm_trans (a b c : Value) (ha : a.Wf) (hb : b.Wf) (hc : c.Wf) :
    a.veq b = b.veq a ∧ (a.veq b = true → b.veq c = true → a.veq c = true) := by
  refine ⟨?_, ?_⟩
  · rw [Bool.eq_iff_iff, Value.veq_iff a b ha hb, Value.veq_iff b a hb ha]
    exact ⟨VEq.symm, VEq.symm⟩
  · rw [Value.veq_iff a b ha hb, Value.veq_iff b c hb hc, Value.veq_iff a c ha hc]
    exact VEq.trans

/-- C09: a value equals itself exactly when no NaN occurs in it, at any depth. -/
theorem C09_eq_refl_iff (a : Value) (ha : a.Wf) : a.veq a = true ↔ ¬ HasNaN a := by
  rw [Value.veq_iff a a ha ha, VEq.refl_iff a ha]

/-- C09: the order in which the keys of an object were inserted does not matter, on either side and at any depth
(`Same` is identity up to the enumeration order of maps). -/
theorem C09_eq_order_independent (a a' b b' : Value) (ha : a.Wf) (ha' : a'.Wf) (hb : b.Wf) (hb' : b'.Wf)
    (h : Same a a') (h' : Same b b') : a.veq b = a'.veq b' := by
  rw [Bool.eq_iff_iff, Value.veq_iff a b ha hb, Value.veq_iff a' b' ha' hb']
  exact ⟨fun e => VEq.of_same_left (Same.symm h) (VEq.of_same_right e h'),
    fun e => VEq.of_same_left h (VEq.of_same_right e (Same.symm h'))⟩

/-- C09: permuting the entries of an object gives the `Same` value. -/
theorem C09_permuted_object_same (m m' : AMap Str Value) (hm : AMap.Wf m) (hp : m.Perm m') :
    Same (.object m) (.object m') := by
  have hg := AMap.get_perm hp hm
  refine .object (fun k => by rw [hg k]) fun k x y hx hy => ?_
  rw [hg k, hy] at hx; injection hx with hx; subst hx
  exact Same.refl y

/-- C09: values of different types are never equal. -/
theorem C09_eq_same_type (a b : Value) (h : a.veq b = true) :
    match a, b with
    | .array _, .array _ | .object _, .object _ | .number _, .number _ | .boolean _, .boolean _
    | .string _, .string _ | .none, .none => True
    | _, _ => False := by
  cases a <;> cases b <;> simp [Value.veq] at h <;> trivial

/-- Positive zero, negative zero, and a NaN. -/
def posZero : F64 := ⟨0⟩
def negZero : F64 := ⟨0x8000000000000000⟩
def aNaN : F64 := ⟨0x7ff8000000000000⟩

example :
    let v : Value := .array [.object [(%s"a", .number (.float posZero)), (%s"b", .string (%s"x"))], .boolean true]
    let w : Value := .array [.object [(%s"b", .string (%s"x")), (%s"a", .number (.float negZero))], .boolean true]
    let n : Value := .array [.number (.float aNaN)]
    v.veq w = true ∧ n.veq n = false := by decide +kernel

example : Value.Wf (.array [.object [(%s"a", .number (.integer 1)), (%s"b", .none)]]) := by
  refine .array fun v hv => ?_
  simp at hv; subst hv
  refine .object (by unfold AMap.Wf; decide) fun e he => ?_
  simp at he
  rcases he with rfl | rfl
  · exact .number (by simp only [Number.InRange, i64]; omega)
  · exact .none

end Verif
