/-
What a match of atelier-smithy/src/smithy.pest tells about its text and its pairs.
-/
import Verif.IdlLooseSpec
import Verif.IdlPanic
import Verif.IdlBlank

namespace Verif
open Peg Spec Spec.Idl
open IdlGrammar (r)

/-- `Got m e s t s' ps`: the expression matches the start `t` of `s`, with these pairs; `s'` is left. -/
abbrev Got (m : Bool) (e : Expr IdlRule) (s t s' : Str) (ps : List (Pair IdlRule)) : Prop := Parses idlGrammar m e s (some (t, s', ps))

namespace Got
variable {m : Bool} {a b e : Expr IdlRule} {s t s' : Str} {ps : List (Pair IdlRule)}

theorem eq (h : Got m e s t s' ps) : s = t ++ s' := h.split _ _ _ rfl

theorem toTree (h : Got m e s t s' ps) : Tree idlGrammar m e t ps := h.tree _ _ _ rfl

theorem inv_seq (h : Got m (.seq a b) s t s' ps) :
    ∃ t1 s1 p1 t2 p2, Got m a s t1 s1 p1 ∧ Got m b s1 t2 s' p2 ∧ t = t1 ++ t2 ∧ ps = p1 ++ p2 := by
  cases h with
  | @seq _ _ _ _ t1 s1 p1 t2 s2 p2 h1 h2 =>
    rw [idl_skip] at h2
    exact ⟨t1, s1, p1, t2, p2, h1, h2, by rw [idl_skip]; rfl, rfl⟩

theorem inv_str {x : Str} (h : Got m (.str x) s t s' ps) : t = x ∧ ps = [] := by
  cases h; exact ⟨rfl, rfl⟩

theorem inv_chr {p : Char → Bool} (h : Got m (.chr p) s t s' ps) : (∃ c, t = [c] ∧ p c = true) ∧ ps = [] := by
  cases h with
  | chr h => exact ⟨⟨_, rfl, h⟩, rfl⟩

theorem inv_choice (h : Got m (.choice a b) s t s' ps) : Got m a s t s' ps ∨ (Parses idlGrammar m a s none ∧ Got m b s t s' ps) := by
  cases h with
  | choiceL h => exact .inl h
  | choiceR h1 h2 => exact .inr ⟨h1, h2⟩

theorem inv_opt (h : Got m (.opt a) s t s' ps) : Got m a s t s' ps ∨ (t = [] ∧ ps = [] ∧ s' = s) := by
  cases h with
  | optSome h => exact .inl h
  | optNone h => exact .inr ⟨rfl, rfl, rfl⟩

theorem inv_soi (h : Got m .soi s t s' ps) : t = [] ∧ ps = [] ∧ s' = s := by
  cases h; exact ⟨rfl, rfl, rfl⟩

theorem inv_eoi (h : Got false .eoi s t s' ps) : s = [] ∧ t = [] ∧ ps = [.mk .EOI [] []] := by
  cases h; exact ⟨rfl, rfl, rfl⟩

theorem inv_not (h : Got m (.not a) s t s' ps) : t = [] ∧ ps = [] ∧ s' = s ∧ Parses idlGrammar m a s none := by
  cases h with
  | notOk h => exact ⟨rfl, rfl, rfl, h⟩

/-- A part of a repetition: its text and its pairs. -/
def Part (m : Bool) (a : Expr IdlRule) (x : Str × List (Pair IdlRule)) : Prop := ∃ s s', Got m a s x.1 s' x.2

theorem inv_more (h : Got m (.more a) s t s' ps) :
    (∃ xs : List (Str × List (Pair IdlRule)), (∀ x ∈ xs, Part m a x) ∧ t = xs.flatMap (·.1) ∧ ps = xs.flatMap (·.2)) ∧ Parses idlGrammar m a s' none := by
  unfold Got at h
  generalize he : Expr.more a = e at h
  generalize hr : (some (t, s', ps)) = x at h
  induction h generalizing t s' ps with
  | moreNone h =>
    injection he with he; subst he
    injection hr with hr
    injection hr with h1 hr
    injection hr with h2 h3
    subst h1 h2 h3
    rw [idl_skip] at h
    exact ⟨⟨[], by simp, rfl, rfl⟩, h⟩
  | @moreSome m b s t1 s1 p1 t2 s2 p2 h1 h2 _ ih =>
    injection he with he; subst he
    injection hr with hr
    injection hr with e1 hr
    injection hr with e2 e3
    subst e1 e2 e3
    obtain ⟨⟨xs, hx, e1, e2⟩, hn⟩ := ih rfl rfl
    refine ⟨⟨(t1, p1) :: xs, ?_, ?_, ?_⟩, hn⟩
    · intro x hx'
      rcases List.mem_cons.mp hx' with rfl | hx'
      · exact ⟨_, _, h1⟩
      · exact hx x hx'
    · rw [idl_skip]; simp [e1]
    · simp [e2]
  | _ => cases he

theorem inv_rep (h : Got m (.rep a) s t s' ps) :
    (∃ xs : List (Str × List (Pair IdlRule)), (∀ x ∈ xs, Part m a x) ∧ t = xs.flatMap (·.1) ∧ ps = xs.flatMap (·.2)) ∧ Parses idlGrammar m a s' none := by
  cases h with
  | repNone h => exact ⟨⟨[], by simp, rfl, rfl⟩, h⟩
  | @repSome _ _ _ t1 s1 p1 t2 s2 p2 h1 h2 =>
    obtain ⟨⟨xs, hx, e1, e2⟩, hn⟩ := inv_more h2
    refine ⟨⟨(t1, p1) :: xs, ?_, by simp [e1], by simp [e2]⟩, hn⟩
    intro x hx'
    rcases List.mem_cons.mp hx' with rfl | hx'
    · exact ⟨_, _, h1⟩
    · exact hx x hx'

theorem inv_normal {x : IdlRule} (hk : IdlGrammar.kind x = .normal) (h : Got false (.rule x) s t s' ps) :
    ∃ ps', ps = [.mk x t ps'] ∧ Got false (IdlGrammar.body x) s t s' ps' := by
  cases h with
  | @rule _ _ _ _ _ ps' h =>
    have hm : idlGrammar.mode false x = false := by unfold Grammar.mode; rw [show idlGrammar.kind x = .normal from hk]; rfl
    rw [hm] at h
    exact ⟨ps', by unfold Grammar.pairs; rw [show idlGrammar.kind x = .normal from hk]; rfl, h⟩

theorem inv_silent {x : IdlRule} (hk : IdlGrammar.kind x = .silent) (h : Got false (.rule x) s t s' ps) : Got false (IdlGrammar.body x) s t s' ps := by
  cases h with
  | @rule _ _ _ _ _ ps' h =>
    have hm : idlGrammar.mode false x = false := by unfold Grammar.mode; rw [show idlGrammar.kind x = .silent from hk]; rfl
    rw [hm] at h
    have : idlGrammar.pairs false x t ps' = ps' := by unfold Grammar.pairs; rw [show idlGrammar.kind x = .silent from hk]; rfl
    rw [this]; exact h

theorem inv_atomic {x : IdlRule} (hk : IdlGrammar.kind x = .atomic) (h : Got false (.rule x) s t s' ps) :
    ps = [.mk x t []] ∧ Got true (IdlGrammar.body x) s t s' [] := by
  cases h with
  | @rule _ _ _ _ _ ps' h =>
    have hm : idlGrammar.mode false x = true := by unfold Grammar.mode; rw [show idlGrammar.kind x = .atomic from hk]; rfl
    rw [hm] at h
    have := (h.tree _ _ _ rfl).noPairs
    subst this
    exact ⟨by unfold Grammar.pairs; rw [show idlGrammar.kind x = .atomic from hk]; rfl, h⟩

theorem inv_inner {x : IdlRule} (h : Got true (.rule x) s t s' ps) : ps = [] ∧ Got true (IdlGrammar.body x) s t s' [] := by
  cases h with
  | @rule _ _ _ _ _ ps' h =>
    have hm : idlGrammar.mode true x = true := rfl
    rw [hm] at h
    have := (h.tree _ _ _ rfl).noPairs
    subst this
    exact ⟨rfl, h⟩

end Got

/-! ### Blank text -/

theorem blank_append {w w' : Str} (h : Blank w) (h' : Blank w') : Blank (w ++ w') := by
  induction h with
  | nil => exact h'
  | char hc _ ih => exact .char hc ih
  | @comment u e w hu hn he _ ih =>
    have : '/' :: '/' :: (u ++ e :: w) ++ w' = '/' :: '/' :: (u ++ e :: (w ++ w')) := by simp
    rw [this]
    exact .comment hu hn he ih

theorem blank_flat {ws : List Str} (h : ∀ w ∈ ws, Blank w) : Blank (ws.flatMap id) := by
  induction ws with
  | nil => exact .nil
  | cons w ws ih => exact blank_append (h w (by simp)) (ih fun x hx => h x (by simp [hx]))

theorem got_newline {s t s' ps} (h : Got false (r .NEWLINE) s t s' ps) : LineEnd t ∧ ps = [] := by
  have h := h.inv_silent rfl
  rcases h.inv_choice with h | ⟨-, h⟩
  · obtain ⟨rfl, rfl⟩ := h.inv_str; exact ⟨.inl rfl, rfl⟩
  · rcases h.inv_choice with h | ⟨-, h⟩
    · obtain ⟨rfl, rfl⟩ := h.inv_str; exact ⟨.inr (.inl rfl), rfl⟩
    · obtain ⟨rfl, rfl⟩ := h.inv_str; exact ⟨.inr (.inr rfl), rfl⟩

theorem lineEnd_blank {e : Str} (h : LineEnd e) : Blank e := by
  rcases h with rfl | rfl | rfl
  · exact .char (by simp) .nil
  · exact .char (by simp) (.char (by simp) .nil)
  · exact .char (by simp) .nil

theorem commentChar_iff {c : Char} (h : commentChar c = true) : CommentChar c := by
  simp only [commentChar, charRange, Bool.or_eq_true, Bool.and_eq_true, decide_eq_true_eq, beq_iff_eq] at h
  rcases h with h | h
  · exact .inl h
  · exact .inr h

theorem got_chars {m : Bool} {p : Char → Bool} {s t s' ps} (h : Got m (.rep (.chr p)) s t s' ps) : (∀ c ∈ t, p c = true) ∧ ps = [] := by
  obtain ⟨⟨xs, hx, rfl, rfl⟩, -⟩ := h.inv_rep
  constructor
  · intro c hc
    obtain ⟨x, hm, hc⟩ := List.mem_flatMap.mp hc
    obtain ⟨_, _, hg⟩ := hx x hm
    obtain ⟨⟨d, hd, hp⟩, -⟩ := hg.inv_chr
    rw [hd] at hc
    rcases List.mem_singleton.mp hc with rfl
    exact hp
  · rw [List.flatMap_eq_nil_iff]
    intro x hm
    obtain ⟨_, _, hg⟩ := hx x hm
    exact hg.inv_chr.2

theorem got_wsOne {s t s' ps} (h : Got false wsOne s t s' ps) : Blank t ∧ ps = [] := by
  rcases h.inv_choice with h | ⟨-, h⟩
  · have h := h.inv_silent rfl
    rcases h.inv_choice with h | ⟨-, h⟩
    · obtain ⟨rfl, rfl⟩ := h.inv_str; exact ⟨.char (by simp) .nil, rfl⟩
    · obtain ⟨rfl, rfl⟩ := h.inv_str; exact ⟨.char (by simp) .nil, rfl⟩
  · rcases h.inv_choice with h | ⟨-, h⟩
    · obtain ⟨hl, rfl⟩ := got_newline h
      exact ⟨lineEnd_blank hl, rfl⟩
    · rcases h.inv_choice with h | ⟨-, h⟩
      · obtain ⟨t1, s1, p1, t2, p2, h1, h2, rfl, rfl⟩ := h.inv_seq
        obtain ⟨rfl, rfl, rfl, hn⟩ := h1.inv_not
        have h2 := h2.inv_silent rfl
        have hs := h2.eq
        obtain ⟨t3, s3, p3, t4, p4, h3, h4, rfl, rfl⟩ := h2.inv_seq
        obtain ⟨t5, s5, p5, t6, p6, h5, h6, rfl, rfl⟩ := h4.inv_seq
        obtain ⟨rfl, rfl⟩ := h3.inv_str
        obtain ⟨h7, rfl⟩ := got_chars h5
        obtain ⟨h8, rfl⟩ := got_newline h6
        refine ⟨?_, rfl⟩
        have hu : ∀ v, t5 ≠ '/' :: v := by
          rintro v rfl
          cases hn with
          | strFail hn =>
            rw [hs] at hn
            simp [stripPrefix] at hn
        rcases h8 with rfl | rfl | rfl
        · exact .comment (fun c hc => commentChar_iff (h7 c hc)) hu (.inl rfl) .nil
        · exact .comment (fun c hc => commentChar_iff (h7 c hc)) hu (.inr rfl) (.char (by simp) .nil)
        · exact .comment (fun c hc => commentChar_iff (h7 c hc)) hu (.inr rfl) .nil
      · obtain ⟨rfl, rfl⟩ := h.inv_str; exact ⟨.char (by simp) .nil, rfl⟩

/-- Matched whitespace is blank text, and what is left does not start with blank text. -/
theorem got_ws {s t s' ps} (h : Got false (r .ws) s t s' ps) : Blank t ∧ ps = [] ∧ ∀ w v, s' = w ++ v → Blank w → w = [] := by
  have h0 : Got false (.rep wsOne) s t s' ps := h.inv_silent rfl
  obtain ⟨⟨xs, hx, rfl, rfl⟩, hn⟩ := h0.inv_rep
  refine ⟨?_, ?_, ?_⟩
  · have := blank_flat (ws := xs.map (·.1)) (by
      intro w hw
      obtain ⟨x, hm, rfl⟩ := List.mem_map.mp hw
      obtain ⟨_, _, hg⟩ := hx x hm
      exact (got_wsOne hg).1)
    simpa [List.flatMap_map] using this
  · rw [List.flatMap_eq_nil_iff]
    intro x hm
    obtain ⟨_, _, hg⟩ := hx x hm
    exact (got_wsOne hg).2
  · rintro w v rfl hw
    obtain ⟨rest, hr⟩ := ws_total v
    have h1 := blank_eats hw hr
    have h2 : Eats (r .ws) (w ++ v) (w ++ v) (· = []) := ws_rep.mpr (.repNil hn)
    have h3 := h1.rest_eq h2
    obtain ⟨t, _, hr, -⟩ := hr
    have h4 := hr.split _ _ _ rfl
    rw [h3] at h4
    have := congrArg List.length h4
    simp only [List.length_append] at this
    exact List.length_eq_zero_iff.mp (by omega)

end Verif
