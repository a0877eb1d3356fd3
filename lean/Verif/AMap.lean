/-
`HashMap` as an association list.
-/
namespace Verif

/-- Rust `HashMap<K, V>`: its entries in iteration order. -/
abbrev AMap (K V : Type) := List (K × V)

namespace AMap
set_option linter.unusedSectionVars false
variable {K V : Type} [DecidableEq K]

/-- `HashMap::get`. -/
def get : AMap K V → K → Option V
  | [], _ => none
  | (k', v) :: m, k => if k' = k then some v else get m k

/-- `HashMap::insert` (an existing entry keeps its place, a new one goes to the end). -/
def insert : AMap K V → K → V → AMap K V
  | [], k, v => [(k, v)]
  | (k', v') :: m, k, v => if k' = k then (k', v) :: m else (k', v') :: insert m k v

/-- `HashMap::remove`, the remaining map. -/
def erase (m : AMap K V) (k : K) : AMap K V := m.filter fun e => !decide (e.1 = k)

/-- `HashMap::contains_key`. -/
def contains (m : AMap K V) (k : K) : Bool := (get m k).isSome

/-- `HashMap::keys`. -/
def keys (m : AMap K V) : List K := m.map (·.1)

/-- `HashMap::values`. -/
def values (m : AMap K V) : List V := m.map (·.2)

/-- The invariant of a map: every key has one entry. -/
def Wf (m : AMap K V) : Prop := (keys m).Nodup

/-- `iter.collect::<HashMap>()`: later entries overwrite earlier ones. -/
def ofList (l : List (K × V)) : AMap K V := l.foldl (fun m e => insert m e.1 e.2) []

theorem keys_cons (e : K × V) (m : AMap K V) : keys (e :: m) = e.1 :: keys m := rfl

@[simp] theorem get_nil (k : K) : get ([] : AMap K V) k = none := rfl

theorem get_cons (k' : K) (v : V) (m : AMap K V) (k : K) :
    get ((k', v) :: m) k = if k' = k then some v else get m k := rfl

theorem get_insert (m : AMap K V) (k : K) (v : V) (j : K) :
    get (insert m k v) j = if k = j then some v else get m j := by
  induction m with
  | nil => simp [insert, get]
  | cons e m ih =>
    obtain ⟨k', v'⟩ := e
    simp only [insert]
    by_cases h : k' = k
    · subst h
      simp only [if_true, get]
      by_cases hj : k' = j <;> simp [hj]
    · simp only [h, if_false, get]
      by_cases hj : k' = j
      · subst hj; have h' : ¬ k = k' := fun e => h e.symm
        simp [h']
      · simp [hj, ih]

@[simp] theorem get_insert_self (m : AMap K V) (k : K) (v : V) : get (insert m k v) k = some v := by
  simp [get_insert]

theorem get_insert_ne (m : AMap K V) {k j : K} (v : V) (h : k ≠ j) : get (insert m k v) j = get m j := by
  simp [get_insert, h]

theorem get_erase (m : AMap K V) (k j : K) :
    get (erase m k) j = if k = j then none else get m j := by
  induction m with
  | nil => simp [erase]
  | cons e m ih =>
    obtain ⟨k', v'⟩ := e
    by_cases h : k' = k
    · subst h
      by_cases hj : k' = j
      · subst hj; simpa [erase] using ih
      · simpa [erase, get, hj] using ih
    · by_cases hj : k' = j
      · subst hj; have h' : ¬ k = k' := fun e => h e.symm
        simp [erase, get, h, h']
      · simp only [erase, List.filter_cons, h, decide_false, Bool.not_false, if_true, get, hj, if_false]
        exact ih

theorem mem_keys_iff (m : AMap K V) (k : K) : k ∈ keys m ↔ (get m k).isSome := by
  induction m with
  | nil => simp [keys]
  | cons e m ih =>
    obtain ⟨k', v⟩ := e
    simp only [keys, List.map_cons, List.mem_cons, get] at ih ⊢
    by_cases h : k' = k
    · simp [h]
    · have h' : ¬ k = k' := fun e => h e.symm
      simp [h, ih, h']

theorem not_mem_keys_iff (m : AMap K V) (k : K) : k ∉ keys m ↔ get m k = none := by
  rw [mem_keys_iff]; simp

theorem contains_iff (m : AMap K V) (k : K) : contains m k = true ↔ k ∈ keys m := by
  rw [mem_keys_iff]; simp [contains]

theorem keys_insert (m : AMap K V) (k : K) (v : V) :
    keys (insert m k v) = if k ∈ keys m then keys m else keys m ++ [k] := by
  induction m with
  | nil => simp [insert, keys]
  | cons e m ih =>
    obtain ⟨k', v'⟩ := e
    simp only [insert]
    by_cases h : k' = k
    · subst h; simp [keys]
    · simp only [h, if_false]
      have h' : ¬ k = k' := fun e => h e.symm
      simp only [keys_cons, List.mem_cons, h', false_or, ih]
      by_cases hm : k ∈ keys m
      · simp [hm]
      · simp [hm]

theorem mem_keys_insert (m : AMap K V) (k j : K) (v : V) : j ∈ keys (insert m k v) ↔ j = k ∨ j ∈ keys m := by
  rw [mem_keys_iff, mem_keys_iff, get_insert]
  by_cases h : k = j
  · simp [h]
  · have h' : ¬ j = k := fun e => h e.symm
    simp [h, h']

theorem wf_nil : Wf ([] : AMap K V) := by simp [Wf, keys]

theorem wf_insert {m : AMap K V} (h : Wf m) (k : K) (v : V) : Wf (insert m k v) := by
  unfold Wf at *
  rw [keys_insert]
  by_cases hn : k ∈ keys m
  · simpa [hn] using h
  · simp only [hn, if_false]
    rw [List.nodup_append]
    refine ⟨h, by simp, ?_⟩
    intro a ha b hb
    simp at hb; subst hb
    intro e; subst e; exact hn ha

theorem wf_erase {m : AMap K V} (h : Wf m) (k : K) : Wf (erase m k) := by
  simp only [Wf, erase, keys] at *
  exact List.Nodup.sublist (List.Sublist.map _ List.filter_sublist) h

theorem wf_cons {e : K × V} {m : AMap K V} : Wf (e :: m) ↔ e.1 ∉ keys m ∧ Wf m := by
  simp [Wf, keys]

theorem mem_of_get {m : AMap K V} {k : K} {v : V} (h : get m k = some v) : (k, v) ∈ m := by
  induction m with
  | nil => simp at h
  | cons e m ih =>
    obtain ⟨k', v'⟩ := e
    rw [get_cons] at h
    split at h
    · rename_i hk; simp at h; simp [← h, hk]
    · simp [ih h]

theorem get_of_mem {m : AMap K V} (hw : Wf m) {k : K} {v : V} (h : (k, v) ∈ m) : get m k = some v := by
  induction m with
  | nil => simp at h
  | cons e m ih =>
    obtain ⟨k', v'⟩ := e
    rw [wf_cons] at hw
    rw [get_cons]
    cases h with
    | head => simp
    | tail _ h =>
      have : k' ≠ k := by
        intro e; subst e
        exact hw.1 (List.mem_map.mpr ⟨_, h, rfl⟩)
      simp [this, ih hw.2 h]

theorem mem_iff_get {m : AMap K V} (hw : Wf m) (k : K) (v : V) : (k, v) ∈ m ↔ get m k = some v :=
  ⟨get_of_mem hw, mem_of_get⟩

theorem wf_perm {m n : AMap K V} (hp : m.Perm n) (h : Wf m) : Wf n := by
  simp only [Wf, keys] at *
  exact (hp.map _).nodup_iff.mp h

theorem get_perm {m n : AMap K V} (hp : m.Perm n) (h : Wf m) (k : K) : get m k = get n k := by
  have hn := wf_perm hp h
  cases hm : get m k with
  | none =>
    cases hk : get n k with
    | none => rfl
    | some v =>
      have := hp.mem_iff.mpr (mem_of_get hk)
      rw [get_of_mem h this] at hm; cases hm
  | some v => exact (get_of_mem hn (hp.mem_iff.mp (mem_of_get hm))).symm

theorem nodup_of_wf {m : AMap K V} (h : Wf m) : m.Nodup := by
  induction m with
  | nil => simp
  | cons e m ih =>
    rw [wf_cons] at h
    rw [List.nodup_cons]
    exact ⟨fun hm => h.1 (List.mem_map.mpr ⟨e, hm, rfl⟩), ih h.2⟩

/-- Two maps with the same lookups are the same up to iteration order. -/
theorem perm_of_get_eq {m n : AMap K V} (hm : Wf m) (hn : Wf n) (h : ∀ k, get m k = get n k) : m.Perm n := by
  rw [List.perm_ext_iff_of_nodup (nodup_of_wf hm) (nodup_of_wf hn)]
  intro ⟨k, v⟩
  rw [mem_iff_get hm, mem_iff_get hn, h]

theorem perm_iff_get_eq {m n : AMap K V} (hm : Wf m) (hn : Wf n) : m.Perm n ↔ ∀ k, get m k = get n k :=
  ⟨fun h k => get_perm h hm k, perm_of_get_eq hm hn⟩

theorem wf_foldl_insert (l : List (K × V)) (m : AMap K V) (h : Wf m) :
    Wf (l.foldl (fun m e => insert m e.1 e.2) m) := by
  induction l generalizing m with
  | nil => exact h
  | cons e l ih => exact ih _ (wf_insert h _ _)

theorem wf_ofList (l : List (K × V)) : Wf (ofList l) := wf_foldl_insert l [] wf_nil

theorem get_foldl_insert (l : List (K × V)) (m : AMap K V) (k : K) :
    get (l.foldl (fun m e => insert m e.1 e.2) m) k = (get l.reverse k).or (get m k) := by
  induction l generalizing m with
  | nil => simp
  | cons e l ih =>
    obtain ⟨ek, ev⟩ := e
    have happ : ∀ (a b : AMap K V), get (a ++ b) k = (get a k).or (get b k) := by
      intro a b
      induction a with
      | nil => simp
      | cons x a ih =>
        obtain ⟨k', v'⟩ := x
        simp only [List.cons_append, get_cons]
        split <;> simp [ih]
    simp only [List.foldl_cons, ih, List.reverse_cons, happ, get_insert, get_cons, get_nil]
    cases get l.reverse k with
    | some v => simp
    | none => by_cases h : ek = k <;> simp [h]

/-- Collecting a list: the last entry for a key wins. -/
theorem get_ofList (l : List (K × V)) (k : K) : get (ofList l) k = get l.reverse k := by
  simp [ofList, get_foldl_insert]

theorem insert_of_not_mem {m : AMap K V} {k : K} (v : V) (h : k ∉ keys m) : insert m k v = m ++ [(k, v)] := by
  induction m with
  | nil => simp [insert]
  | cons e m ih =>
    obtain ⟨k', v'⟩ := e
    simp [keys] at h
    have : k' ≠ k := fun e => h.1 e.symm
    simp only [insert, this, if_false, List.cons_append]
    rw [ih]; simp [keys]; exact h.2

theorem foldl_insert_of_wf (l : List (K × V)) (m : AMap K V) (h : Wf (m ++ l)) :
    l.foldl (fun m e => insert m e.1 e.2) m = m ++ l := by
  induction l generalizing m with
  | nil => simp
  | cons e l ih =>
    obtain ⟨k, v⟩ := e
    have hk : k ∉ keys m := by
      simp only [Wf, keys, List.map_append, List.map_cons, List.nodup_append] at h
      intro hk
      exact h.2.2 k hk k (by simp) rfl
    simp only [List.foldl_cons]
    rw [insert_of_not_mem _ hk, ih]
    · simp
    · simpa using h

theorem ofList_of_wf {l : AMap K V} (h : Wf l) : ofList l = l := by
  simp [ofList, foldl_insert_of_wf l [] (by simpa using h)]

theorem get_map_val {W : Type} (f : K → V → W) (m : AMap K V) (k : K) :
    get (m.map fun e => (e.1, f e.1 e.2)) k = (get m k).map (f k) := by
  induction m with
  | nil => simp
  | cons e m ih =>
    obtain ⟨k', v'⟩ := e
    simp only [List.map_cons, get_cons, ih]
    by_cases h : k' = k
    · subst h; simp
    · simp [h]

theorem keys_map_val {W : Type} (f : K → V → W) (m : AMap K V) :
    keys (m.map fun e => (e.1, f e.1 e.2)) = keys m := by
  simp [keys, List.map_map]

end AMap
end Verif
