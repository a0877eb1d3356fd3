/-
Merging one after the other, against `JoinSpec`.
-/
import Verif.JoinSpec
import Verif.MergeProps
import Verif.AssemblerSpec

namespace Verif
open Spec

/-! ### Joining is functional, and is merging step by step -/

theorem VEq.isArray {v w : Value} (h : VEq v w) : v.isArray = w.isArray := by
  cases h <;> rfl

theorem Spec.Joined.unique {vs : List Value} {o o' : Option Value} (h : Joined vs o) (h' : Joined vs o') : o = o' := by
  cases h with
  | nothing => generalize hl : ([] : List Value) = l at h'; cases h' with
    | nothing => rfl
    | arrays hn => simp at hl; exact absurd hl.symm (by simpa using hn)
    | first => cases hl
  | @arrays as hn =>
    generalize hl : as.map Value.array = l at h'
    cases h' with
    | nothing => exact absurd (by simpa using hl) hn
    | @arrays bs _ =>
      have : as = bs := by
        have := congrArg (List.map fun v : Value => match v with | .array a => a | _ => []) hl
        simpa [Function.comp_def] using this
      rw [this]
    | first hv _ => cases as with
      | nil => exact absurd rfl hn
      | cons a as => simp only [List.map_cons, List.cons.injEq] at hl; rw [← hl.1] at hv; cases hv
  | @first v ws hv _ =>
    generalize hl : v :: ws = l at h'
    cases h' with
    | nothing => cases hl
    | @arrays as hn => cases as with
      | nil => exact absurd rfl hn
      | cons a as => simp only [List.map_cons, List.cons.injEq] at hl; rw [hl.1] at hv; cases hv
    | first => cases hl; rfl

theorem joined_single (v : Value) : Joined [v] (some v) := by
  cases hv : v.isArray with
  | false => exact .first hv (fun _ h => absurd h (by simp))
  | true =>
    cases v with
    | array a => simpa using Joined.arrays (as := [a]) (by simp)
    | _ => cases hv

theorem joined_step (x y : Value) (vs : List Value) (o : Option Value) :
    Joined (x :: y :: vs) o ↔ ∃ z, MetaMerge x y z ∧ Joined (z :: vs) o := by
  constructor
  · intro h
    generalize hl : x :: y :: vs = l at h
    cases h with
    | nothing => cases hl
    | @arrays as hn =>
      match as, hn with
      | [], hn => exact absurd rfl hn
      | [a], _ => simp at hl
      | a :: b :: as, _ =>
        simp only [List.map_cons, List.cons.injEq] at hl
        obtain ⟨rfl, rfl, rfl⟩ := hl
        refine ⟨_, .concat, ?_⟩
        have := Joined.arrays (as := (a ++ b) :: as) (by simp)
        simpa using this
    | first hv hw =>
      cases hl
      exact ⟨x, .equal (fun h => by rw [hv] at h; exact absurd h.1 (by simp)) (hw y (by simp)),
        .first hv fun w h => hw w (by simp [h])⟩
  · rintro ⟨z, hm, hj⟩
    generalize hl : z :: vs = l at hj
    cases hm with
    | @concat a b =>
      cases hj with
      | nothing => cases hl
      | @arrays as hn =>
        cases as with
        | nil => exact absurd rfl hn
        | cons c as =>
          simp only [List.map_cons, List.cons.injEq, Value.array.injEq] at hl
          obtain ⟨rfl, rfl⟩ := hl
          have := Joined.arrays (as := a :: b :: as) (by simp)
          simpa using this
      | first hv => cases hl; cases hv
    | equal hn he =>
      cases hj with
      | nothing => cases hl
      | @arrays as hn' =>
        cases as with
        | nil => exact absurd rfl hn'
        | cons c as =>
          simp only [List.map_cons, List.cons.injEq] at hl
          have hx : x.isArray = true := by rw [hl.1]; rfl
          exact absurd ⟨hx, by rw [← VEq.isArray he]; exact hx⟩ hn
      | first hv hw =>
        cases hl
        refine .first hv fun w h => ?_
        rcases List.mem_cons.mp h with rfl | h
        · exact he
        · exact hw w h

theorem Spec.JoinedTrait.unique {ts : List TraitValue} {o o' : Option TraitValue} (h : JoinedTrait ts o) (h' : JoinedTrait ts o') :
    o = o' := by
  have hsome : ∀ {vs : List Value} {v : Value} {ts : List TraitValue}, Joined vs (some v) → vs.map some = ts →
      (∀ t ∈ ts, t = none) → ts = [] := by
    intro vs v ts hj he hall
    cases vs with
    | nil => simpa using he.symm
    | cons w ws => subst he; exact absurd (hall (some w) (by simp)) (by simp)
  have hne : ∀ {v : Value}, ¬ Joined [] (some v) := by
    intro v h
    generalize hl : ([] : List Value) = l at h
    cases h with
    | arrays hn => simp at hl; exact hn hl
    | first => cases hl
  cases h with
  | nothing =>
    generalize hl : ([] : List TraitValue) = l at h'
    cases h' with
    | nothing => rfl
    | valueless hn => exact absurd hl.symm hn
    | values hj => simp at hl; subst hl; exact absurd hj hne
  | valueless hn hall =>
    generalize hl : ts = l at h'
    cases h' with
    | nothing => exact absurd hl hn
    | valueless => rfl
    | values hj => exact absurd (hsome hj hl.symm hall) hn
  | @values vs v hj =>
    generalize hl : vs.map some = l at h'
    cases h' with
    | nothing => simp at hl; subst hl; exact absurd hj hne
    | valueless hn hall => exact absurd (hsome hj hl hall) hn
    | @values ws w hj' =>
      have : vs = ws := by
        have := congrArg (List.filterMap id) hl
        simpa using this
      subst this
      have := hj.unique hj'
      cases this; rfl

theorem joinedTrait_single (t : TraitValue) : JoinedTrait [t] (some t) := by
  cases t with
  | none => exact .valueless (by simp) (by simp)
  | some v => exact .values (vs := [v]) (joined_single v)

theorem joined_cons_some {z : Value} {vs : List Value} {o : Option Value} (h : Joined (z :: vs) o) : ∃ v, o = some v := by
  generalize hl : z :: vs = l at h
  cases h with
  | nothing => cases hl
  | arrays => exact ⟨_, rfl⟩
  | first => exact ⟨_, rfl⟩

theorem joinedTrait_step (x y : TraitValue) (ts : List TraitValue) (o : Option TraitValue) :
    JoinedTrait (x :: y :: ts) o ↔ ∃ z, TraitMerge x y z ∧ JoinedTrait (z :: ts) o := by
  constructor
  · intro h
    generalize hl : x :: y :: ts = l at h
    cases h with
    | nothing => cases hl
    | valueless hn hall =>
      subst hl
      have hx := hall x (by simp); have hy := hall y (by simp)
      subst hx hy
      exact ⟨none, .valueless, .valueless (by simp) fun t h => hall t (by
        rcases List.mem_cons.mp h with rfl | h
        · simp
        · simp [h])⟩
    | @values vs v hj =>
      match vs, hj with
      | [], hj => cases hl
      | [a], _ => simp at hl
      | a :: b :: vs, hj =>
        simp only [List.map_cons, List.cons.injEq] at hl
        obtain ⟨rfl, rfl, rfl⟩ := hl
        obtain ⟨z, hm, hz⟩ := (joined_step a b vs _).mp hj
        refine ⟨some z, ?_, .values (vs := z :: vs) hz⟩
        cases hm with
        | concat => exact .concat
        | equal h1 h2 => exact .equal h1 h2
  · rintro ⟨z, hm, hj⟩
    generalize hl : z :: ts = l at hj
    cases hj with
    | nothing => cases hl
    | valueless hn hall =>
      subst hl
      have hz := hall z (by simp)
      subst hz
      cases hm
      exact .valueless (by simp) fun t h => by
        rcases List.mem_cons.mp h with rfl | h
        · rfl
        · exact hall t h
    | @values vs v hj =>
      cases vs with
      | nil => cases hl
      | cons w vs =>
        simp only [List.map_cons, List.cons.injEq] at hl
        obtain ⟨rfl, rfl⟩ := hl
        cases hm with
        | @concat a b => exact .values (vs := .array a :: .array b :: vs) ((joined_step _ _ _ _).mpr ⟨_, .concat, hj⟩)
        | @equal _ b h1 h2 => exact .values (vs := w :: b :: vs) ((joined_step _ _ _ _).mpr ⟨_, .equal h1 h2, hj⟩)

/-! #### Bodies -/

theorem joinedBody_cons_unresolved (ks : List ShapeKind) (k : ShapeKind) : JoinedBody (.unresolved :: ks) k ↔ JoinedBody ks k := by
  constructor
  · intro h
    generalize hl : ShapeKind.unresolved :: ks = l at h
    cases h with
    | placeholders hall => subst hl; exact .placeholders fun k h => hall k (by simp [h])
    | @definition before after _ hb hk ha =>
      cases before with
      | nil => simp only [List.nil_append, List.cons.injEq] at hl; exact absurd hl.1.symm hk
      | cons b before =>
        simp only [List.cons_append, List.cons.injEq] at hl
        rw [hl.2]
        exact .definition (fun x h => hb x (by simp [h])) hk ha
  · intro h
    cases h with
    | placeholders hall =>
      refine .placeholders fun k h => ?_
      rcases List.mem_cons.mp h with rfl | h
      · rfl
      · exact hall k h
    | @definition before after _ hb hk ha =>
      rw [← List.cons_append]
      refine .definition (fun x h => ?_) hk ha
      rcases List.mem_cons.mp h with rfl | h
      · rfl
      · exact hb x h

theorem joinedBody_cons_definition {x : ShapeKind} (hx : x ≠ .unresolved) (ks : List ShapeKind) (k : ShapeKind) :
    JoinedBody (x :: ks) k ↔ k = x ∧ ∀ y ∈ ks, y = .unresolved ∨ SameDef x y := by
  constructor
  · intro h
    generalize hl : x :: ks = l at h
    cases h with
    | placeholders hall => subst hl; exact absurd (hall x (by simp)) hx
    | @definition before after _ hb hk ha =>
      cases before with
      | nil =>
        simp only [List.nil_append, List.cons.injEq] at hl
        obtain ⟨rfl, rfl⟩ := hl
        exact ⟨rfl, ha⟩
      | cons b before =>
        simp only [List.cons_append, List.cons.injEq] at hl
        exact absurd (hl.1.trans (hb b (by simp))) hx
  · rintro ⟨rfl, h⟩
    exact .definition (before := []) (by simp) hx h

theorem Spec.JoinedBody.unique {ks : List ShapeKind} {k k' : ShapeKind} (h : JoinedBody ks k) (h' : JoinedBody ks k') : k = k' := by
  induction ks with
  | nil =>
    have : ∀ {k}, JoinedBody [] k → k = .unresolved := by
      intro k h
      generalize hl : ([] : List ShapeKind) = l at h
      cases h with
      | placeholders => rfl
      | definition => simp at hl
    rw [this h, this h']
  | cons x ks ih =>
    by_cases hx : x = .unresolved
    · subst hx
      rw [joinedBody_cons_unresolved] at h h'
      exact ih h h'
    · rw [joinedBody_cons_definition hx] at h h'
      rw [h.1, h'.1]

theorem joinedBody_step (x y : ShapeKind) (ks : List ShapeKind) (k : ShapeKind) :
    JoinedBody (x :: y :: ks) k ↔ ∃ z, BodyMerge x y z ∧ JoinedBody (z :: ks) k := by
  by_cases hx : x = .unresolved
  · subst hx
    rw [joinedBody_cons_unresolved]
    constructor
    · intro h
      by_cases hy : y = .unresolved
      · subst hy; exact ⟨_, .keep, h⟩
      · exact ⟨y, .resolve hy, h⟩
    · rintro ⟨z, hm, h⟩
      cases hm with
      | same h1 => exact absurd rfl h1
      | resolve => exact h
      | keep => exact h
  · rw [joinedBody_cons_definition hx]
    constructor
    · rintro ⟨rfl, h⟩
      have hrest : JoinedBody (k :: ks) k := (joinedBody_cons_definition hx _ _).mpr ⟨rfl, fun y h' => h y (by simp [h'])⟩
      by_cases hy : y = .unresolved
      · subst hy; exact ⟨_, .keep, hrest⟩
      · rcases h y (by simp) with h1 | h1
        · exact absurd h1 hy
        · exact ⟨_, .same hx hy h1, hrest⟩
    · rintro ⟨z, hm, h⟩
      cases hm with
      | same h1 h2 h3 =>
        rw [joinedBody_cons_definition hx] at h
        refine ⟨h.1, fun w hw => ?_⟩
        rcases List.mem_cons.mp hw with rfl | hw
        · exact .inr h3
        · exact h.2 w hw
      | resolve => exact absurd rfl hx
      | keep =>
        rw [joinedBody_cons_definition hx] at h
        refine ⟨h.1, fun w hw => ?_⟩
        rcases List.mem_cons.mp hw with rfl | hw
        · exact .inl rfl
        · exact h.2 w hw

theorem joinedBody_single (k : ShapeKind) : JoinedBody [k] k := by
  by_cases hk : k = .unresolved
  · subst hk; exact .placeholders (by simp)
  · exact .definition (before := []) (after := []) (by simp) hk (by simp)

end Verif
