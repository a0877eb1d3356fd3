/-
What a match tells about its text and its pairs: the reading of a grammar as rules for trees, with the order of
alternatives only between literals.
-/
import Verif.PegLemmas

namespace Verif.Peg
variable {R : Type} {g : Grammar R}

/-- The texts of an expression that is a choice of literals, through rules; `none` if it is something else. A literal is
left out if an earlier one is a prefix of it. -/
def literals (g : Grammar R) : Nat → Expr R → Option (List Str)
  | 0, _ => none
  | n + 1, e =>
    match e with
    | .str t => some [t]
    | .choice a b =>
      match literals g n a, literals g n b with
      | some x, some y => some (x ++ y.filter (fun t => !x.any (fun u => u.isPrefixOf t)))
      | _, _ => none
    | .rule r => literals g n (g.body r)
    | _ => none

theorem stripPrefix_iff (u s : Str) : (∃ s', stripPrefix u s = some s') ↔ u <+: s := by
  induction u generalizing s with
  | nil => simp [stripPrefix]
  | cons a u ih =>
    cases s with
    | nil => simp [stripPrefix]
    | cons b s =>
      unfold stripPrefix
      by_cases h : a = b
      · rw [if_pos h, ih, h]; simp
      · rw [if_neg h]; simp [h]

/-- If a choice of literals does not match, none of them is a prefix. -/
theorem literals_fail {n} : ∀ {m e s l}, Parses g m e s none → literals g n e = some l → ∀ u ∈ l, ¬ u <+: s := by
  induction n with
  | zero => intro m e s l _ h; cases h
  | succ n ih =>
    intro m e s l hp h u hu
    cases e with
    | str t =>
      simp only [literals] at h; injection h with h; subst h
      rw [List.mem_singleton] at hu; subst hu
      cases hp with
      | strFail hs => rw [← stripPrefix_iff, hs]; simp
    | choice a b =>
      simp only [literals] at h
      split at h
      · rename_i x y hx hy
        injection h with h; subst h
        cases hp with
        | choiceR ha hb =>
          rcases List.mem_append.mp hu with hu | hu
          · exact ih ha hx u hu
          · exact ih hb hy u (List.mem_filter.mp hu).1
      · cases h
    | rule r =>
      simp only [literals] at h
      cases hp with
      | ruleFail hp => exact ih hp h u hu
    | _ => cases h

/-- `Tree g atomic e t ps`: the text `t` can be divided as `e` says, with pairs `ps`. -/
inductive Tree (g : Grammar R) : Bool → Expr R → Str → List (Pair R) → Prop
  | str {m t} : Tree g m (.str t) t []
  | chr {m p c} : p c = true → Tree g m (.chr p) [c] []
  | seq {m a b t1 p1 w t2 p2} : Tree g m a t1 p1 → (m = true → w = []) → (∀ c ∈ w, g.ws c = true) → Tree g m b t2 p2 →
      Tree g m (.seq a b) (t1 ++ (w ++ t2)) (p1 ++ p2)
  | choiceL {m a b t p} : Tree g m a t p → Tree g m (.choice a b) t p
  | choiceR {m a b t p} : (∀ n l, literals g n a = some l → ∀ u ∈ l, ¬ u <+: t) → Tree g m b t p → Tree g m (.choice a b) t p
  | optSome {m a t p} : Tree g m a t p → Tree g m (.opt a) t p
  | optNone {m a} : Tree g m (.opt a) [] []
  | repNone {m a} : Tree g m (.rep a) [] []
  | repSome {m a t1 p1 t2 p2} : Tree g m a t1 p1 → Tree g m (.more a) t2 p2 → Tree g m (.rep a) (t1 ++ t2) (p1 ++ p2)
  | moreNone {m a} : Tree g m (.more a) [] []
  | moreSome {m a w t1 p1 t2 p2} : (m = true → w = []) → (∀ c ∈ w, g.ws c = true) → Tree g m a t1 p1 → Tree g m (.more a) t2 p2 →
      Tree g m (.more a) (w ++ (t1 ++ t2)) (p1 ++ p2)
  | not {m a} : Tree g m (.not a) [] []
  | rule {m r t ps} : Tree g (g.mode m r) (g.body r) t ps → Tree g m (.rule r) t (g.pairs m r t ps)
  | soi {m} : Tree g m .soi [] []
  | eoi {m} : Tree g m .eoi [] (if m then [] else [.mk g.eoi [] []])

theorem skip_ws (m : Bool) (s : Str) : (m = true → (g.skip m s).1 = []) ∧ ∀ c ∈ (g.skip m s).1, g.ws c = true := by
  cases m with
  | true => exact ⟨fun _ => rfl, fun c hc => by cases hc⟩
  | false =>
    refine ⟨fun h => (by cases h), fun c hc => ?_⟩
    change c ∈ s.takeWhile g.ws at hc
    induction s with
    | nil => cases hc
    | cons d s ih =>
      by_cases hd : g.ws d = true
      · rw [List.takeWhile_cons_of_pos hd] at hc
        rcases List.mem_cons.mp hc with rfl | hc
        · exact hd
        · exact ih hc
      · rw [List.takeWhile_cons_of_neg hd] at hc; cases hc

/-- Every match is a tree. -/
theorem Parses.tree {m e s r} (h : Parses g m e s r) : ∀ t s' ps, r = some (t, s', ps) → Tree g m e t ps := by
  induction h with
  | str _ => rintro _ _ _ ⟨⟩; exact .str
  | chr hp => rintro _ _ _ ⟨⟩; exact .chr hp
  | seq _ _ ia ib => rintro _ _ _ ⟨⟩; exact .seq (ia _ _ _ rfl) (skip_ws _ _).1 (skip_ws _ _).2 (ib _ _ _ rfl)
  | choiceL _ ia => rintro t s' ps h; exact .choiceL (ia _ _ _ h)
  | choiceR hf hb _ ib =>
    rintro t s' ps h
    refine .choiceR (fun n l hl u hu hpre => ?_) (ib _ _ _ h)
    subst h
    have := hb.split _ _ _ rfl
    exact literals_fail hf hl u hu (this ▸ hpre.trans (List.prefix_append _ _))
  | optSome _ ia => rintro t s' ps h; exact .optSome (ia _ _ _ h)
  | optNone => rintro _ _ _ ⟨⟩; exact .optNone
  | repNone => rintro _ _ _ ⟨⟩; exact .repNone
  | repSome _ _ ia ib => rintro _ _ _ ⟨⟩; exact .repSome (ia _ _ _ rfl) (ib _ _ _ rfl)
  | moreNone => rintro _ _ _ ⟨⟩; exact .moreNone
  | moreSome _ _ ia ib => rintro _ _ _ ⟨⟩; exact .moreSome (skip_ws _ _).1 (skip_ws _ _).2 (ia _ _ _ rfl) (ib _ _ _ rfl)
  | notOk => rintro _ _ _ ⟨⟩; exact .not
  | rule _ ia => rintro _ _ _ ⟨⟩; exact .rule (ia _ _ _ rfl)
  | soi => rintro _ _ _ ⟨⟩; exact .soi
  | eoi => rintro _ _ _ ⟨⟩; exact .eoi
  | strFail | chrNil | chrFail | seqFail1 | seqFail2 | notFail | ruleFail | eoiFail => rintro _ _ _ ⟨⟩

/-- The rule of a normal rule outside of atomic rules. -/
theorem Tree.normal {r t ps} (hk : g.kind r = .normal) (h : Tree g false (.rule r) t ps) :
    ∃ ps', ps = [.mk r t ps'] ∧ Tree g false (g.body r) t ps' := by
  cases h with
  | @rule _ _ _ ps' h =>
    have hm : g.mode false r = false := by unfold Grammar.mode; rw [hk]; rfl
    rw [hm] at h
    exact ⟨ps', by unfold Grammar.pairs; rw [hk]; rfl, h⟩

theorem Tree.silent {r t ps} (hk : g.kind r = .silent) (h : Tree g false (.rule r) t ps) : Tree g false (g.body r) t ps := by
  cases h with
  | @rule _ _ _ ps' h =>
    have hm : g.mode false r = false := by unfold Grammar.mode; rw [hk]; rfl
    rw [hm] at h
    have : g.pairs false r t ps' = ps' := by unfold Grammar.pairs; rw [hk]; rfl
    rw [this]; exact h

theorem Tree.atomic {r t ps} (hk : g.kind r = .atomic) (h : Tree g false (.rule r) t ps) :
    ∃ ps', ps = [.mk r t ps'] ∧ Tree g true (g.body r) t ps' := by
  cases h with
  | @rule _ _ _ ps' h =>
    have hm : g.mode false r = true := by unfold Grammar.mode; rw [hk]; rfl
    rw [hm] at h
    exact ⟨ps', by unfold Grammar.pairs; rw [hk]; rfl, h⟩

/-- In atomic mode there are no pairs. -/
theorem Tree.noPairs {e t ps} (h : Tree g true e t ps) : ps = [] := by
  generalize hm : true = m at h
  induction h with
  | seq _ _ _ _ ia ib => rw [ia hm, ib hm]; rfl
  | repSome _ _ ia ib => rw [ia hm, ib hm]; rfl
  | moreSome _ _ _ _ ia ib => rw [ia hm, ib hm]; rfl
  | choiceL _ ih | choiceR _ _ ih | optSome _ ih => exact ih hm
  | rule => subst hm; rfl
  | eoi => subst hm; rfl
  | _ => rfl

/-- In atomic mode a rule is its body. -/
theorem Tree.body {r t ps} (h : Tree g true (.rule r) t ps) : Tree g true (g.body r) t [] := by
  cases h with
  | rule h =>
    have hm : g.mode true r = true := rfl
    rw [hm] at h
    have := h.noPairs
    subst this; exact h

/-- In atomic mode there is nothing between the parts. -/
theorem Tree.parts {a b t ps} (h : Tree g true (.seq a b) t ps) : ∃ t1 t2, t = t1 ++ t2 ∧ Tree g true a t1 [] ∧ Tree g true b t2 [] := by
  cases h with
  | seq ha hw _ hb =>
    have := ha.noPairs; subst this
    have := hb.noPairs; subst this
    exact ⟨_, _, by rw [hw rfl]; rfl, ha, hb⟩

theorem Tree.rep_cases {a t ps} (h : Tree g true (.rep a) t ps) :
    t = [] ∨ ∃ t1 t2, t = t1 ++ t2 ∧ Tree g true a t1 [] ∧ Tree g true (.more a) t2 [] := by
  cases h with
  | repNone => exact .inl rfl
  | repSome ha hb =>
    have := ha.noPairs; subst this
    have := hb.noPairs; subst this
    exact .inr ⟨_, _, rfl, ha, hb⟩

theorem Tree.infix_seq {m a b t ps} (h : Tree g m (.seq a b) t ps) :
    ∃ t1 p1 t2 p2, ps = p1 ++ p2 ∧ Tree g m a t1 p1 ∧ Tree g m b t2 p2 ∧ t1 <:+: t ∧ t2 <:+: t := by
  cases h with
  | @seq _ _ _ t1 p1 w t2 p2 ha _ _ hb =>
    exact ⟨t1, p1, t2, p2, rfl, ha, hb, ⟨[], w ++ t2, by simp⟩, ⟨t1 ++ w, [], by simp⟩⟩

/-- Repetitions: each part is a tree. -/
theorem Tree.more_parts {m a t ps} (h : Tree g m (.more a) t ps) : ∃ xs : List (Str × List (Pair R)), ps = xs.flatMap (·.2) ∧
    ∀ x ∈ xs, Tree g m a x.1 x.2 ∧ x.1 <:+: t := by
  generalize he : Expr.more a = e at h
  induction h with
  | moreNone => exact ⟨[], rfl, by simp⟩
  | @moreSome _ b w t1 p1 t2 p2 hw hws ha hb _ ih =>
    injection he with he; subst he
    obtain ⟨xs, h1, h2⟩ := ih rfl
    refine ⟨(t1, p1) :: xs, by simp [h1], ?_⟩
    intro x hx
    rcases List.mem_cons.mp hx with rfl | hx
    · exact ⟨ha, w, t2, by simp⟩
    · exact ⟨(h2 x hx).1, List.IsInfix.trans (h2 x hx).2 ⟨w ++ t1, [], by simp⟩⟩
  | _ => cases he

theorem Tree.rep_parts {m a t ps} (h : Tree g m (.rep a) t ps) : ∃ xs : List (Str × List (Pair R)), ps = xs.flatMap (·.2) ∧
    ∀ x ∈ xs, Tree g m a x.1 x.2 ∧ x.1 <:+: t := by
  cases h with
  | repNone => exact ⟨[], rfl, by simp⟩
  | @repSome _ _ t1 p1 t2 p2 ha hb =>
    obtain ⟨xs, h1, h2⟩ := hb.more_parts
    refine ⟨(t1, p1) :: xs, by simp [h1], ?_⟩
    intro x hx
    rcases List.mem_cons.mp hx with rfl | hx
    · exact ⟨ha, [], t2, by simp⟩
    · exact ⟨(h2 x hx).1, List.IsInfix.trans (h2 x hx).2 ⟨t1, [], by simp⟩⟩

/-- In atomic mode a repetition of single characters. -/
theorem Tree.more_all {e : Expr R} {P : Char → Prop} {t ps} (h : Tree g true (.more e) t ps) (hp : ∀ t, Tree g true e t [] → ∃ c, t = [c] ∧ P c) : ∀ c ∈ t, P c := by
  generalize he : Expr.more e = e' at h
  generalize hm : true = m at h
  induction h with
  | moreNone => intro c hc; cases hc
  | @moreSome _ b w t1 p1 t2 p2 hw _ ha hb _ ih =>
    injection he with he; subst he
    subst hm
    rw [hw rfl]
    have := ha.noPairs; subst this
    obtain ⟨d, rfl, hd⟩ := hp _ ha
    intro c hc
    rcases List.mem_cons.mp hc with rfl | hc
    · exact hd
    · exact ih rfl rfl c hc
  | _ => cases he

theorem Tree.rep_all {e : Expr R} {P : Char → Prop} {t ps} (h : Tree g true (.rep e) t ps) (hp : ∀ t, Tree g true e t [] → ∃ c, t = [c] ∧ P c) : ∀ c ∈ t, P c := by
  cases h with
  | repNone => intro c hc; cases hc
  | repSome ha hb =>
    have := ha.noPairs; subst this
    obtain ⟨d, rfl, hd⟩ := hp _ ha
    intro c hc
    rcases List.mem_cons.mp hc with rfl | hc
    · exact hd
    · exact hb.more_all hp c hc

theorem Tree.plus_all {e : Expr R} {P : Char → Prop} {t ps} (h : Tree g true (.plus e) t ps) (hp : ∀ t, Tree g true e t [] → ∃ c, t = [c] ∧ P c) :
    t ≠ [] ∧ ∀ c ∈ t, P c := by
  obtain ⟨t1, t2, rfl, h1, h2⟩ := Tree.parts (a := e) (b := .rep e) h
  obtain ⟨d, rfl, hd⟩ := hp _ h1
  refine ⟨by simp, ?_⟩
  intro c hc
  rcases List.mem_cons.mp hc with rfl | hc
  · exact hd
  · exact h2.rep_all hp c hc

theorem Tree.chr_one {m p t ps} (h : Tree g m (.chr p) t ps) : ∃ c, t = [c] ∧ p c = true := by
  cases h with
  | chr hp => exact ⟨_, rfl, hp⟩

theorem Tree.str_eq {m u t ps} (h : Tree g m (.str u) t ps) : t = u ∧ ps = [] := by cases h; exact ⟨rfl, rfl⟩

theorem Tree.literal {n} : ∀ {m e t ps l}, Tree g m e t ps → literals g n e = some l → t ∈ l := by
  induction n with
  | zero => intro m e t ps l _ h; cases h
  | succ n ih =>
    intro m e t ps l ht h
    cases e with
    | str u =>
      rw [ht.str_eq.1]
      simp only [literals] at h; injection h with h; subst h; simp
    | choice a b =>
      simp only [literals] at h
      split at h
      · rename_i x y hx hy
        injection h with h; subst h
        cases ht with
        | choiceL ht => exact List.mem_append_left _ (ih ht hx)
        | choiceR hn ht =>
          refine List.mem_append_right _ (List.mem_filter.mpr ⟨ih ht hy, ?_⟩)
          simp only [Bool.not_eq_true', List.any_eq_false]
          intro u hu hpre
          exact hn _ _ hx u hu (List.isPrefixOf_iff_prefix.mp hpre)
      · cases h
    | rule r =>
      simp only [literals] at h
      cases ht with
      | rule ht => exact ih ht h
    | _ => cases h

end Verif.Peg
