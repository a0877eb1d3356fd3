/-
How many pairs of a kind an expression gives, and in which order.
-/
import Verif.PegSound

namespace Verif.Peg
variable {R : Type} {g : Grammar R}

/-- How many pairs of these rules an expression gives, if that is always the same. -/
def counts (g : Grammar R) (S : R → Bool) : Nat → Expr R → Option Nat
  | 0, _ => none
  | n + 1, e =>
    match e with
    | .str _ | .chr _ | .not _ | .soi => some 0
    | .eoi => some (if S g.eoi then 1 else 0)
    | .seq a b =>
      match counts g S n a, counts g S n b with
      | some x, some y => some (x + y)
      | _, _ => none
    | .choice a b =>
      match counts g S n a, counts g S n b with
      | some x, some y => if x = y then some x else none
      | _, _ => none
    | .opt a | .rep a | .more a =>
      match counts g S n a with
      | some 0 => some 0
      | _ => none
    | .rule r =>
      match g.kind r with
      | .silent => counts g S n (g.body r)
      | _ => some (if S r then 1 else 0)

theorem counts_zero {S : R → Bool} {n : Nat} {a : Expr R} {k : Nat} (h : (match counts g S n a with
      | some 0 => some 0
      | _ => none) = some k) : counts g S n a = some 0 ∧ k = 0 := by
  split at h
  · next hx => cases h; exact ⟨hx, rfl⟩
  · cases h

/-- There are as many. -/
theorem Tree.counts {S : R → Bool} {m e t ps} (h : Tree g m e t ps) : m = false → ∀ n k, Peg.counts g S n e = some k →
    (ps.filter fun p => S p.asRule).length = k := by
  induction h with
  | str | chr | not | soi =>
    intro _ n k hk
    cases n with
    | zero => cases hk
    | succ n => cases hk; rfl
  | optNone | repNone | moreNone =>
    intro _ n k hk
    cases n with
    | zero => cases hk
    | succ n => obtain ⟨-, rfl⟩ := counts_zero hk; rfl
  | seq _ _ _ _ ia ib =>
    intro hm n k hk
    cases n with
    | zero => cases hk
    | succ n =>
      simp only [Peg.counts] at hk
      split at hk
      · next x y hx hy =>
        cases hk
        rw [List.filter_append, List.length_append, ia hm n x hx, ib hm n y hy]
      · cases hk
  | choiceL _ ia =>
    intro hm n k hk
    cases n with
    | zero => cases hk
    | succ n =>
      simp only [Peg.counts] at hk
      split at hk
      · next x y hx hy =>
        split at hk
        · next he => cases hk; exact ia hm n _ hx
        · cases hk
      · cases hk
  | choiceR _ _ ib =>
    intro hm n k hk
    cases n with
    | zero => cases hk
    | succ n =>
      simp only [Peg.counts] at hk
      split at hk
      · next x y hx hy =>
        split at hk
        · next he => cases hk; exact ib hm n _ (he ▸ hy)
        · cases hk
      · cases hk
  | optSome _ ia =>
    intro hm n k hk
    cases n with
    | zero => cases hk
    | succ n =>
      obtain ⟨h0, rfl⟩ := counts_zero hk
      exact ia hm n 0 h0
  | repSome _ _ ia ib =>
    intro hm n k hk
    cases n with
    | zero => cases hk
    | succ n =>
      have hk' := hk
      obtain ⟨h0, rfl⟩ := counts_zero hk
      rw [List.filter_append, List.length_append, ia hm n 0 h0, ib hm (n + 1) 0 hk']
  | moreSome _ _ _ _ ia ib =>
    intro hm n k hk
    cases n with
    | zero => cases hk
    | succ n =>
      have hk' := hk
      obtain ⟨h0, rfl⟩ := counts_zero hk
      rw [List.filter_append, List.length_append, ia hm n 0 h0, ib hm (n + 1) 0 hk']
  | @rule m r t ps h ih =>
    rintro rfl n k hk
    cases n with
    | zero => cases hk
    | succ n =>
      unfold Grammar.pairs
      rw [if_neg (by simp)]
      simp only [Peg.counts] at hk
      cases hr : g.kind r with
      | silent =>
        have hm : g.mode false r = false := by simp [Grammar.mode, hr]
        simp only [hr] at hk ⊢
        exact ih hm n k hk
      | normal =>
        simp only [hr] at hk ⊢
        cases hk
        by_cases hS : S r = true <;> simp [Pair.asRule, hS]
      | atomic =>
        simp only [hr] at hk ⊢
        cases hk
        by_cases hS : S r = true <;> simp [Pair.asRule, hS]
  | @eoi m =>
    rintro rfl n k hk
    cases n with
    | zero => cases hk
    | succ n =>
      cases hk
      by_cases hS : S g.eoi = true <;> simp [Pair.asRule, hS]

/-- For each of the pairs an expression gives, in order, the rules it may have, if there are always as many pairs. -/
def exactly (g : Grammar R) : Nat → Expr R → Option (List (List R))
  | 0, _ => none
  | n + 1, e =>
    match e with
    | .str _ | .chr _ | .not _ | .soi => some []
    | .eoi => some [[g.eoi]]
    | .seq a b =>
      match exactly g n a, exactly g n b with
      | some x, some y => some (x ++ y)
      | _, _ => none
    | .choice a b =>
      match exactly g n a, exactly g n b with
      | some [], some [] => some []
      | some [x], some [y] => some [x ++ y]
      | _, _ => none
    | .opt a | .rep a | .more a =>
      match exactly g n a with
      | some [] => some []
      | _ => none
    | .rule r =>
      match g.kind r with
      | .silent => exactly g n (g.body r)
      | _ => some [[r]]

/-- The pairs are of these rules, one after the other. -/
def Match : List (Pair R) → List (List R) → Prop
  | [], [] => True
  | p :: ps, l :: ls => p.asRule ∈ l ∧ Match ps ls
  | _, _ => False

theorem Match.append {ps qs : List (Pair R)} {k l : List (List R)} (h : Match ps k) (h' : Match qs l) : Match (ps ++ qs) (k ++ l) := by
  induction ps generalizing k with
  | nil =>
    cases k with
    | nil => exact h'
    | cons x k => exact absurd h (by simp [Match])
  | cons p ps ih =>
    cases k with
    | nil => exact absurd h (by simp [Match])
    | cons x k => exact ⟨h.1, ih h.2⟩

theorem Match.one {ps : List (Pair R)} {x : List R} (h : Match ps [x]) : ∃ p, ps = [p] ∧ p.asRule ∈ x := by
  match ps, h with
  | [p], h => exact ⟨p, rfl, h.1⟩

theorem Match.two {ps : List (Pair R)} {x y : List R} (h : Match ps [x, y]) : ∃ p q, ps = [p, q] ∧ p.asRule ∈ x ∧ q.asRule ∈ y := by
  match ps, h with
  | [p, q], h => exact ⟨p, q, rfl, h.1, h.2.1⟩

theorem Match.nil {ps : List (Pair R)} (h : Match ps []) : ps = [] := by
  match ps, h with
  | [], _ => rfl

theorem exactly_nil {n : Nat} {a : Expr R} {k : List (List R)} (h : (match exactly g n a with
      | some [] => some []
      | _ => (none : Option (List (List R)))) = some k) : exactly g n a = some [] ∧ k = [] := by
  split at h
  · next hx => cases h; exact ⟨hx, rfl⟩
  · cases h

/-- They are these. -/
theorem Tree.exactly {m e t ps} (h : Tree g m e t ps) : m = false → ∀ n k, Peg.exactly g n e = some k → Match ps k := by
  induction h with
  | str | chr | not | soi =>
    intro _ n k hk
    cases n with
    | zero => cases hk
    | succ n => cases hk; trivial
  | optNone | repNone | moreNone =>
    intro _ n k hk
    cases n with
    | zero => cases hk
    | succ n => obtain ⟨-, rfl⟩ := exactly_nil hk; trivial
  | seq _ _ _ _ ia ib =>
    intro hm n k hk
    cases n with
    | zero => cases hk
    | succ n =>
      simp only [Peg.exactly] at hk
      split at hk
      · next x y hx hy =>
        cases hk
        exact (ia hm n x hx).append (ib hm n y hy)
      · cases hk
  | choiceL _ ia =>
    intro hm n k hk
    cases n with
    | zero => cases hk
    | succ n =>
      simp only [Peg.exactly] at hk
      split at hk
      · next hx hy => cases hk; exact ia hm n _ hx
      · next x y hx hy =>
        cases hk
        obtain ⟨p, rfl, hp⟩ := (ia hm n _ hx).one
        exact ⟨List.mem_append_left _ hp, trivial⟩
      · cases hk
  | choiceR _ _ ib =>
    intro hm n k hk
    cases n with
    | zero => cases hk
    | succ n =>
      simp only [Peg.exactly] at hk
      split at hk
      · next hx hy => cases hk; exact ib hm n _ hy
      · next x y hx hy =>
        cases hk
        obtain ⟨p, rfl, hp⟩ := (ib hm n _ hy).one
        exact ⟨List.mem_append_right _ hp, trivial⟩
      · cases hk
  | optSome _ ia =>
    intro hm n k hk
    cases n with
    | zero => cases hk
    | succ n =>
      obtain ⟨h0, rfl⟩ := exactly_nil hk
      exact ia hm n [] h0
  | repSome _ _ ia ib =>
    intro hm n k hk
    cases n with
    | zero => cases hk
    | succ n =>
      have hk' := hk
      obtain ⟨h0, rfl⟩ := exactly_nil hk
      rw [(ia hm n [] h0).nil, (ib hm (n + 1) [] hk').nil]; trivial
  | moreSome _ _ _ _ ia ib =>
    intro hm n k hk
    cases n with
    | zero => cases hk
    | succ n =>
      have hk' := hk
      obtain ⟨h0, rfl⟩ := exactly_nil hk
      rw [(ia hm n [] h0).nil, (ib hm (n + 1) [] hk').nil]; trivial
  | @rule m r t ps h ih =>
    rintro rfl n k hk
    cases n with
    | zero => cases hk
    | succ n =>
      unfold Grammar.pairs
      rw [if_neg (by simp)]
      simp only [Peg.exactly] at hk
      cases hr : g.kind r with
      | silent =>
        have hm : g.mode false r = false := by simp [Grammar.mode, hr]
        simp only [hr] at hk ⊢
        exact ih hm n k hk
      | normal =>
        simp only [hr] at hk ⊢
        cases hk
        exact ⟨List.mem_singleton.mpr rfl, trivial⟩
      | atomic =>
        simp only [hr] at hk ⊢
        cases hk
        exact ⟨List.mem_singleton.mpr rfl, trivial⟩
  | @eoi m =>
    rintro rfl n k hk
    cases n with
    | zero => cases hk
    | succ n => cases hk; exact ⟨List.mem_singleton.mpr rfl, trivial⟩

/-- A pair that comes from matching its rule somewhere. -/
inductive Made (g : Grammar R) : Pair R → Prop
  | mk {r s t s' ps} : Parses g (decide (g.kind r = .atomic)) (g.body r) s (some (t, s', ps)) → Made g (.mk r t ps)
  | eoi : Made g (.mk g.eoi [] [])

/-- All pairs of a match are. -/
theorem Parses.made {m e s r} (h : Parses g m e s r) : ∀ t s' ps, r = some (t, s', ps) → ∀ p ∈ ps, Made g p := by
  induction h with
  | str | chr | optNone | repNone | moreNone | notOk | soi => rintro _ _ _ ⟨⟩ p hp; cases hp
  | seq _ _ ia ib =>
    rintro _ _ _ ⟨⟩ p hp
    rcases List.mem_append.mp hp with hp | hp
    · exact ia _ _ _ rfl p hp
    · exact ib _ _ _ rfl p hp
  | choiceL _ ia => exact ia
  | choiceR _ _ _ ib => exact ib
  | optSome _ ia => exact ia
  | repSome _ _ ia ib =>
    rintro _ _ _ ⟨⟩ p hp
    rcases List.mem_append.mp hp with hp | hp
    · exact ia _ _ _ rfl p hp
    · exact ib _ _ _ rfl p hp
  | moreSome _ _ ia ib =>
    rintro _ _ _ ⟨⟩ p hp
    rcases List.mem_append.mp hp with hp | hp
    · exact ia _ _ _ rfl p hp
    · exact ib _ _ _ rfl p hp
  | @rule m r s t s' ps h ih =>
    rintro _ _ _ ⟨⟩ p hp
    unfold Grammar.pairs at hp
    cases m with
    | true => cases hp
    | false =>
      have hm : g.mode false r = decide (g.kind r = .atomic) := by simp [Grammar.mode]
      rw [hm] at h
      rw [if_neg (by simp)] at hp
      split at hp
      · rcases List.mem_singleton.mp hp with rfl
        exact .mk h
      · exact ih _ _ _ rfl p hp
      · rcases List.mem_singleton.mp hp with rfl
        exact .mk h
  | @eoi m =>
    rintro _ _ _ ⟨⟩ p hp
    cases m with
    | true => cases hp
    | false =>
      rcases List.mem_singleton.mp hp with rfl
      exact .eoi
  | _ => rintro _ _ _ ⟨⟩

theorem Made.inner {p : Pair R} (h : Made g p) : ∀ q ∈ p.intoInner, Made g q := by
  cases h with
  | mk h => exact h.made _ _ _ rfl
  | eoi => intro q hq; cases hq

theorem Made.sound {p : Pair R} (h : Made g p) : Sound g p := by
  cases h with
  | mk h =>
    have ht := h.tree _ _ _ rfl
    exact .mk ht (fun p hp => (ht.sound p hp).1) (fun p hp => (ht.sound p hp).2)
  | eoi => exact .eoi

theorem Made.counts {p : Pair R} (h : Made g p) (hr : p.asRule ≠ g.eoi) (hk : g.kind p.asRule ≠ .atomic) {S : R → Bool} {n k : Nat}
    (hc : Peg.counts g S n (g.body p.asRule) = some k) : (p.intoInner.filter fun q => S q.asRule).length = k := by
  obtain ⟨r, t, ps⟩ := p
  exact (h.sound.tree hr).counts (decide_eq_false hk) n k hc

theorem Made.exactly {p : Pair R} (h : Made g p) (hr : p.asRule ≠ g.eoi) (hk : g.kind p.asRule ≠ .atomic) {n : Nat} {l : List (List R)}
    (hc : Peg.exactly g n (g.body p.asRule) = some l) : Match p.intoInner l := by
  obtain ⟨r, t, ps⟩ := p
  exact (h.sound.tree hr).exactly (decide_eq_false hk) n l hc

end Verif.Peg
