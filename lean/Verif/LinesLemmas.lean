/-
Lemmas about the line-oriented form.
-/
import Verif.LinesSpec
import Verif.MergeOrder
import Mathlib.Data.List.Sort

namespace Verif
open Spec

/-! ### Order -/

theorem strLe_iff (a b : Str) : strLe a b = true ↔ DictLe a b := by
  induction a generalizing b with
  | nil => simp [strLe, DictLe]
  | cons x xs ih =>
    cases b with
    | nil =>
      simp only [strLe]
      constructor
      · simp
      · rintro (⟨t, h⟩ | ⟨p, c, d, s, t, -, h2, -⟩)
        · simp at h
        · simp at h2
    | cons y ys =>
      simp only [strLe, Bool.or_eq_true, decide_eq_true_eq, Bool.and_eq_true, beq_iff_eq, ih]
      constructor
      · rintro (h | ⟨rfl, ⟨t, rfl⟩ | ⟨p, c, d, s, t, rfl, rfl, h⟩⟩)
        · exact .inr ⟨[], x, y, xs, ys, rfl, rfl, h⟩
        · exact .inl ⟨t, rfl⟩
        · exact .inr ⟨x :: p, c, d, s, t, rfl, rfl, h⟩
      · rintro (⟨t, h⟩ | ⟨p, c, d, s, t, h1, h2, h⟩)
        · simp at h
          exact .inr ⟨h.1.symm, .inl ⟨t, h.2⟩⟩
        · cases p with
          | nil => simp at h1 h2; obtain ⟨rfl, rfl⟩ := h1; obtain ⟨rfl, rfl⟩ := h2; exact .inl h
          | cons z zs =>
            simp at h1 h2
            exact .inr ⟨h1.1.trans h2.1.symm, .inr ⟨zs, c, d, s, t, h1.2, h2.2, h⟩⟩

theorem strLe_total (a b : Str) : (strLe a b || strLe b a) = true := by
  induction a generalizing b with
  | nil => simp [strLe]
  | cons x xs ih =>
    cases b with
    | nil => simp [strLe]
    | cons y ys =>
      have := ih ys
      simp only [strLe, Bool.or_eq_true, Bool.and_eq_true, decide_eq_true_eq, beq_iff_eq] at this ⊢
      rcases Nat.lt_trichotomy x.toNat y.toNat with h | h | h
      · exact .inl (.inl h)
      · have hxy : x = y := Char.toNat_inj.mp h
        rcases this with h' | h'
        · exact .inl (.inr ⟨hxy, h'⟩)
        · exact .inr (.inr ⟨hxy.symm, h'⟩)
      · exact .inr (.inl h)

theorem strLe_trans (a b c : Str) (h : strLe a b = true) (h' : strLe b c = true) : strLe a c = true := by
  induction a generalizing b c with
  | nil => simp [strLe]
  | cons x xs ih =>
    cases b with
    | nil => simp [strLe] at h
    | cons y ys =>
      cases c with
      | nil => simp [strLe] at h'
      | cons z zs =>
        simp only [strLe, Bool.or_eq_true, Bool.and_eq_true, decide_eq_true_eq, beq_iff_eq] at h h' ⊢
        rcases h with h | ⟨rfl, h⟩ <;> rcases h' with h' | ⟨rfl, h'⟩
        · exact .inl (by omega)
        · exact .inl h
        · exact .inl h'
        · exact .inr ⟨rfl, ih _ _ h h'⟩

theorem strLe_antisymm {a b : Str} (h : strLe a b = true) (h' : strLe b a = true) : a = b := by
  induction a generalizing b with
  | nil => cases b with
    | nil => rfl
    | cons => simp [strLe] at h'
  | cons x xs ih =>
    cases b with
    | nil => simp [strLe] at h
    | cons y ys =>
      simp only [strLe, Bool.or_eq_true, Bool.and_eq_true, decide_eq_true_eq, beq_iff_eq] at h h'
      rcases h with h | ⟨rfl, h⟩ <;> rcases h' with h' | ⟨h1, h'⟩
      · omega
      · subst h1; omega
      · omega
      · rw [ih h h']

theorem mergeSort_eq_of_perm {a b : List Str} (h : a.Perm b) : a.mergeSort strLe = b.mergeSort strLe := by
  have ha := List.pairwise_mergeSort (le := strLe) (fun a b c => strLe_trans a b c) strLe_total a
  have hb := List.pairwise_mergeSort (le := strLe) (fun a b c => strLe_trans a b c) strLe_total b
  exact List.Perm.eq_of_pairwise (fun x y _ _ h1 h2 => strLe_antisymm h1 h2) ha hb
    (((List.mergeSort_perm a _).trans h).trans (List.mergeSort_perm b _).symm)

/-! ### Enumerating related maps -/

section
variable {K V W : Type} [DecidableEq K]

theorem AMap.perm_cons_erase {b : AMap K W} (hb : AMap.Wf b) {k : K} {y : W} (h : AMap.get b k = some y) :
    b.Perm ((k, y) :: AMap.erase b k) := by
  have hw : AMap.Wf ((k, y) :: AMap.erase b k) := by
    rw [AMap.wf_cons]
    refine ⟨?_, AMap.wf_erase hb k⟩
    rw [AMap.not_mem_keys_iff, AMap.get_erase]
    simp
  refine AMap.perm_of_get_eq hb hw fun j => ?_
  rw [AMap.get_cons, AMap.get_erase]
  by_cases hj : k = j
  · subst hj; simp [h]
  · simp [hj]

/-- Enumerating two related maps and emitting related outputs for related entries gives the same outputs up to order. -/
theorem flatMap_perm_of_mapRel {α : Type} {R : V → W → Prop} {a : AMap K V} {b : AMap K W} (ha : AMap.Wf a) (hb : AMap.Wf b)
    (h : MapRel R a b) (f : K × V → List α) (g : K × W → List α)
    (hfg : ∀ k x y, AMap.get a k = some x → AMap.get b k = some y → R x y → (f (k, x)).Perm (g (k, y))) :
    (a.flatMap f).Perm (b.flatMap g) := by
  induction a generalizing b with
  | nil =>
    have : b = [] := by
      cases b with
      | nil => rfl
      | cons e b => have := h e.1; simp [AMap.get] at this; cases this
    subst this; exact List.Perm.refl _
  | cons e a ih =>
    obtain ⟨k, x⟩ := e
    have hk := h k
    rw [AMap.get_cons, if_pos rfl] at hk
    obtain ⟨y, hy, hxy⟩ := hk.some_left
    rw [AMap.wf_cons] at ha
    have hp := AMap.perm_cons_erase hb hy
    refine List.Perm.trans ?_ (List.Perm.flatMap_right g hp).symm
    rw [List.flatMap_cons, List.flatMap_cons]
    refine List.Perm.append (hfg k x y (by simp [AMap.get_cons]) hy hxy) ?_
    have hne : ∀ j, (AMap.get a j).isSome → k ≠ j := fun j hj e => by
      subst e; exact ha.1 ((AMap.mem_keys_iff _ _).mpr hj)
    refine ih ha.2 (AMap.wf_erase hb k) (fun j => ?_) (fun j x' y' hx' hy' hr => ?_)
    · rw [AMap.get_erase]
      have := h j
      rw [AMap.get_cons] at this
      by_cases hj : k = j
      · subst hj
        rw [(AMap.not_mem_keys_iff _ _).mp ha.1]; simp; exact .none
      · rw [if_neg hj] at this; simpa [hj] using this
    · have hj : k ≠ j := hne j (by simp [hx'])
      rw [AMap.get_erase] at hy'
      simp [hj] at hy'
      exact hfg j x' y' (by simp [AMap.get_cons, hj, hx']) hy' hr

end

end Verif
