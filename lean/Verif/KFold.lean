/-
A generic loop "for each (key, new) entry, update the state's entry for that key, stop at the first error", and its
order-free characterisation. Used to reason about `append_traits`, `merge` of metadata and of shapes.
-/
import Verif.Identity

namespace Verif
namespace AMap

variable {K V N : Type} [DecidableEq K]

theorem insert_same {m : AMap K V} {k : K} {v : V} (h : get m k = some v) : insert m k v = m := by
  induction m with
  | nil => simp at h
  | cons e t ih =>
    obtain ⟨k', v'⟩ := e
    rw [get_cons] at h
    unfold insert
    by_cases e : k' = k
    · simp [e] at h ⊢; exact h.symm
    · simp [e] at h ⊢; exact ih h

/-- Write the entry when there is one to write. -/
def insertOpt (s : AMap K V) (k : K) : Option V → AMap K V
  | some v => insert s k v
  | none => s

/-- The loop: `upd k old new` gives the value to write for key `k` (if any) and the result. -/
def kfold (upd : K → Option V → N → Option V × Except Err Unit) : AMap K V → List (K × N) → AMap K V × Except Err Unit
  | s, [] => (s, .ok ())
  | s, (k, n) :: t =>
    match upd k (get s k) n with
    | (o, .ok ()) => kfold upd (insertOpt s k o) t
    | (o, .error e) => (insertOpt s k o, .error e)

theorem get_insertOpt (s : AMap K V) (k : K) (o : Option V) (j : K) :
    get (insertOpt s k o) j = if k = j then (o.or (get s j)) else get s j := by
  cases o with
  | none => simp [insertOpt]
  | some v => simp only [insertOpt, get_insert]; split <;> simp

theorem wf_insertOpt {s : AMap K V} (h : Wf s) (k : K) (o : Option V) : Wf (insertOpt s k o) := by
  cases o with
  | none => exact h
  | some v => exact wf_insert h k v

theorem get_insertOpt_ne (s : AMap K V) {k j : K} (o : Option V) (h : k ≠ j) : get (insertOpt s k o) j = get s j := by
  simp [get_insertOpt, h]

theorem wf_kfold (upd : K → Option V → N → Option V × Except Err Unit) {s : AMap K V} (h : Wf s) (l : List (K × N)) :
    Wf (kfold upd s l).1 := by
  induction l generalizing s with
  | nil => exact h
  | cons e t ih =>
    obtain ⟨k, n⟩ := e
    unfold kfold
    split
    · exact ih (wf_insertOpt h k _)
    · exact wf_insertOpt h k _

theorem kfold_ok_iff (upd : K → Option V → N → Option V × Except Err Unit) (s : AMap K V) {l : AMap K N} (hl : Wf l) :
    (kfold upd s l).2 = .ok () ↔ ∀ k n, get l k = some n → (upd k (get s k) n).2 = .ok () := by
  induction l generalizing s with
  | nil => simp [kfold]
  | cons e t ih =>
    obtain ⟨k, n⟩ := e
    rw [wf_cons] at hl
    obtain ⟨hk, ht⟩ := hl
    simp only at hk
    rw [not_mem_keys_iff] at hk
    unfold kfold
    split
    · next o hu =>
      rw [ih _ ht]
      constructor
      · intro h j n' hj
        rw [get_cons] at hj
        by_cases e : k = j
        · subst e; simp at hj; subst hj; rw [hu]
        · simp [e] at hj
          have := h j n' hj
          rwa [get_insertOpt_ne _ _ e] at this
      · intro h j n' hj
        have e : k ≠ j := by rintro rfl; rw [hk] at hj; simp at hj
        rw [get_insertOpt_ne _ _ e]
        exact h j n' (by rw [get_cons]; simp [e, hj])
    · next o er hu =>
      constructor
      · intro h; cases h
      · intro h
        have := h k n (by rw [get_cons]; simp)
        rw [hu] at this; cases this

theorem kfold_get (upd : K → Option V → N → Option V × Except Err Unit) (s : AMap K V) {l : AMap K N} (hl : Wf l)
    (hok : (kfold upd s l).2 = .ok ()) (j : K) :
    get (kfold upd s l).1 j =
      match get l j with
      | none => get s j
      | some n => (upd j (get s j) n).1.or (get s j) := by
  induction l generalizing s with
  | nil => simp [kfold]
  | cons e t ih =>
    obtain ⟨k, n⟩ := e
    rw [wf_cons] at hl
    obtain ⟨hk, ht⟩ := hl
    simp only at hk
    rw [not_mem_keys_iff] at hk
    unfold kfold at hok ⊢
    split
    · next o hu =>
      simp only [hu] at hok
      rw [ih _ ht hok, get_cons]
      by_cases e : k = j
      · subst e
        simp only [if_true, hk, get_insertOpt, hu]
      · simp only [e, if_false]
        rw [get_insertOpt_ne _ _ e]
    · next o er hu => simp [hu] at hok

/-- Whatever happens, only keys that occur in the processed list can change. -/
theorem kfold_get_of_not_mem (upd : K → Option V → N → Option V × Except Err Unit) (s : AMap K V) {l : AMap K N} {j : K}
    (hj : get l j = none) : get (kfold upd s l).1 j = get s j := by
  induction l generalizing s with
  | nil => simp [kfold]
  | cons e t ih =>
    obtain ⟨k, n⟩ := e
    rw [get_cons] at hj
    have hne : k ≠ j := by rintro rfl; simp at hj
    simp [hne] at hj
    unfold kfold
    split
    · rw [ih _ hj, get_insertOpt_ne _ _ hne]
    · rw [get_insertOpt_ne _ _ hne]

/-- An invariant of the entries is kept, success or not, if each update keeps it. -/
theorem kfold_forall (upd : K → Option V → N → Option V × Except Err Unit) (P : K → V → Prop) (s : AMap K V)
    (l : List (K × N)) (hs : ∀ k v, get s k = some v → P k v)
    (hu : ∀ e ∈ l, ∀ o v, (∀ w, o = some w → P e.1 w) → (upd e.1 o e.2).1 = some v → P e.1 v) :
    ∀ k v, get (kfold upd s l).1 k = some v → P k v := by
  induction l generalizing s with
  | nil => exact hs
  | cons e t ih =>
    obtain ⟨k, n⟩ := e
    have hs' : ∀ j v, get (insertOpt s k (upd k (get s k) n).1) j = some v → P j v := by
      intro j v hj
      rw [get_insertOpt] at hj
      by_cases e : k = j
      · subst e
        simp only [if_true] at hj
        cases ho : (upd k (get s k) n).1 with
        | none => rw [ho] at hj; simp at hj; exact hs k v hj
        | some w =>
          rw [ho] at hj; simp at hj; subst hj
          exact hu (k, n) (by simp) (get s k) w (fun w hw => hs k w hw) ho
      · simp [e] at hj; exact hs j v hj
    unfold kfold
    split
    · next o hr =>
      rw [hr] at hs'
      exact ih _ hs' fun e he => hu e (by simp [he])
    · next o er hr =>
      rw [hr] at hs'
      exact hs'

end AMap
end Verif
