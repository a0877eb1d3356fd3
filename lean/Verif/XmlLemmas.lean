/-
An XML text has one meaning: `Content` and `Document` are functional.
-/
import Verif.GraphMLSpec

namespace Verif
open Spec
namespace XmlLemmas
open Spec.Xml

/-- Two lists that continue equal lists of characters with a property up to a character without it. -/
theorem span_eq {P : Char → Prop} : ∀ {a b x y : Str}, (∀ c ∈ a, P c) → (∀ c ∈ b, P c) → (∀ c t, x = c :: t → ¬ P c) →
    (∀ c t, y = c :: t → ¬ P c) → a ++ x = b ++ y → a = b ∧ x = y
  | [], [], _, _, _, _, _, _, h => ⟨rfl, h⟩
  | [], d :: b, x, y, _, hb, hx, _, h => absurd (hb d (by simp)) (hx d (b ++ y) h)
  | c :: a, [], x, y, ha, _, _, hy, h => absurd (ha c (by simp)) (hy c (a ++ x) h.symm)
  | c :: a, d :: b, x, y, ha, hb, hx, hy, h => by
    injection h with h1 h2
    obtain ⟨h3, h4⟩ := span_eq (fun e he => ha e (by simp [he])) (fun e he => hb e (by simp [he])) hx hy h2
    exact ⟨by rw [h1, h3], h4⟩

theorem not_nameChar {c : Char} (h : Space c ∨ c = '>' ∨ c = '/' ∨ c = '=' ∨ c = '<') : ¬ NameChar c := by
  unfold Space at h
  rcases h with (rfl | rfl | rfl | rfl) | rfl | rfl | rfl | rfl <;> decide

theorem attrs_head {a : Str} {as : List (Str × Str)} (h : Attrs a as) : (a = [] ∧ as = []) ∨ ∃ c t, a = c :: t ∧ Space c := by
  cases h with
  | nil => exact .inl ⟨rfl, rfl⟩
  | @cons ws name v t as h1 h2 h3 h4 h5 =>
    cases ws with
    | nil => exact absurd rfl h1
    | cons c ws => exact .inr ⟨c, _, rfl, h2 c (by simp)⟩

theorem name_ne {name : Str} (h : IsName name) : ∃ c t, name = c :: t ∧ NameChar c := by
  obtain ⟨⟨c, t, rfl, _⟩, h2⟩ := h
  exact ⟨c, t, rfl, h2 c (by simp)⟩

theorem nameChar_not_space {c : Char} (h : NameChar c) : ¬ Space c := fun h1 => not_nameChar (.inl h1) h

theorem attrs_unique {a : Str} {as : List (Str × Str)} (h : Attrs a as) : ∀ {b : Str} {bs : List (Str × Str)} {x y : Str}, Attrs b bs →
    (∀ c t, x = c :: t → ¬ Space c) → (∀ c t, y = c :: t → ¬ Space c) → a ++ x = b ++ y → a = b ∧ as = bs ∧ x = y := by
  induction h with
  | nil =>
    intro b bs x y hb hx hy he
    cases hb with
    | nil => exact ⟨rfl, rfl, he⟩
    | @cons ws name v t as h1 h2 h3 h4 h5 =>
      cases ws with
      | nil => exact absurd rfl h1
      | cons c ws => exact absurd (h2 c (by simp)) (hx c _ he)
  | @cons ws name v t as h1 h2 h3 h4 h5 ih =>
    intro b bs x y hb hx hy he
    cases hb with
    | nil =>
      cases ws with
      | nil => exact absurd rfl h1
      | cons c ws => exact absurd (h2 c (by simp)) (hy c _ he.symm)
    | @cons ws' name' v' t' as' k1 k2 k3 k4 k5 =>
      simp only [List.append_assoc, List.cons_append] at he
      obtain ⟨c, n, rfl, hc⟩ := name_ne h3
      obtain ⟨c', n', rfl, hc'⟩ := name_ne k3
      obtain ⟨rfl, he1⟩ := span_eq h2 k2 (by intro _ _ h; injection h with h; exact h ▸ nameChar_not_space hc)
        (by intro _ _ h; injection h with h; exact h ▸ nameChar_not_space hc') he
      obtain ⟨hn, he2⟩ := span_eq (P := NameChar) (x := '=' :: '"' :: (v ++ '"' :: (t ++ x))) (y := '=' :: '"' :: (v' ++ '"' :: (t' ++ y)))
        h3.2 k3.2 (by rintro _ _ h; cases h; exact not_nameChar (by simp)) (by rintro _ _ h; cases h; exact not_nameChar (by simp)) he1
      rw [← hn]
      simp only [List.cons.injEq, true_and] at he2
      obtain ⟨rfl, he3⟩ := span_eq (P := fun c => c ≠ '"') (fun c hc => (h4 c hc).2.2.2.1) (fun c hc => (k4 c hc).2.2.2.1)
        (by rintro _ _ h; cases h; simp) (by rintro _ _ h; cases h; simp) he2
      simp only [List.cons.injEq, true_and] at he3
      obtain ⟨rfl, rfl, rfl⟩ := ih k5 hx hy he3
      exact ⟨rfl, rfl, rfl⟩

/-- The content starts with a text, is empty, or starts with a tag. -/
theorem content_head {s : Str} {ns : List Node} (h : Content s ns) (hn : ∀ s', ns.head? ≠ some (.text s')) :
    (s = [] ∧ ns = []) ∨ ∃ c t, s = '<' :: c :: t ∧ c ≠ '/' := by
  have hname : ∀ {name x : Str}, IsName name → ∃ c t, '<' :: (name ++ x) = '<' :: c :: t ∧ c ≠ '/' := by
    intro name x h
    obtain ⟨c, t, rfl, hc⟩ := name_ne h
    exact ⟨c, t ++ x, rfl, fun he => not_nameChar (by simp [he]) hc⟩
  cases h with
  | nil => exact .inl ⟨rfl, rfl⟩
  | text => exact absurd rfl (hn _)
  | element h1 => exact .inr (hname h1)
  | empty h1 => exact .inr (hname h1)

/-- What may follow the content: nothing, or an end tag. -/
def End (x : Str) : Prop := x = [] ∨ ∃ t, x = '<' :: '/' :: t

theorem end_head {s x : Str} {ns : List Node} (h : Content s ns) (hn : ∀ s', ns.head? ≠ some (.text s')) (hx : End x) :
    ∀ c t, s ++ x = c :: t → c = '<' := by
  intro c t he
  rcases content_head h hn with ⟨rfl, -⟩ | ⟨c', t', rfl, -⟩
  · rcases hx with rfl | ⟨t', rfl⟩
    · cases he
    · cases he; rfl
  · cases he; rfl

theorem text_head {s : Str} (h : CharData s) (h0 : s ≠ []) : ∃ c t, s = c :: t ∧ c ≠ '<' := by
  cases s with
  | nil => exact absurd rfl h0
  | cons c t => exact ⟨c, t, rfl, (h.1 c (by simp)).2.1⟩

/-- A tag up to its attributes. -/
theorem tag_eq {name name' a a' x y : Str} {as as' : List (Str × Str)} (h1 : IsName name) (h2 : Attrs a as) (k1 : IsName name')
    (k2 : Attrs a' as') (hx : ∃ c t, x = c :: t ∧ (c = '>' ∨ c = '/')) (hy : ∃ c t, y = c :: t ∧ (c = '>' ∨ c = '/'))
    (he : name ++ (a ++ x) = name' ++ (a' ++ y)) : name = name' ∧ as = as' ∧ x = y := by
  have key : ∀ {a x : Str} {as : List (Str × Str)}, Attrs a as → (∃ c t, x = c :: t ∧ (c = '>' ∨ c = '/')) →
      ∀ c t, a ++ x = c :: t → ¬ NameChar c := by
    intro a x as h hx c t he
    rcases attrs_head h with ⟨rfl, -⟩ | ⟨d, u, rfl, hd⟩
    · obtain ⟨d, u, rfl, hd⟩ := hx
      cases he
      rcases hd with rfl | rfl <;> exact not_nameChar (by simp)
    · cases he; exact not_nameChar (.inl hd)
  have key2 : ∀ {x : Str}, (∃ c t, x = c :: t ∧ (c = '>' ∨ c = '/')) → ∀ c t, x = c :: t → ¬ Space c := by
    rintro x ⟨d, u, rfl, hd⟩ c t he
    cases he
    rcases hd with rfl | rfl <;> decide
  obtain ⟨rfl, he2⟩ := span_eq h1.2 k1.2 (key h2 hx) (key k2 hy) he
  obtain ⟨-, rfl, rfl⟩ := attrs_unique h2 k2 (key2 hx) (key2 hy) he2
  exact ⟨rfl, rfl, rfl⟩

theorem content_unique {s : Str} {ns : List Node} (h : Content s ns) : ∀ {s' : Str} {ns' : List Node} {x y : Str}, Content s' ns' →
    End x → End y → s ++ x = s' ++ y → s = s' ∧ ns = ns' ∧ x = y := by
  induction h with
  | nil =>
    intro s' ns' x y h' hx hy he
    have : s' = [] ∨ ∃ c t, s' ++ y = c :: t ∧ (c ≠ '<' ∨ ∃ d u, t = d :: u ∧ d ≠ '/') := by
      by_cases hn : ∀ s'', ns'.head? ≠ some (.text s'')
      · rcases content_head h' hn with ⟨rfl, -⟩ | ⟨c, t, rfl, hc⟩
        · exact .inl rfl
        · exact .inr ⟨'<', c :: t ++ y, rfl, .inr ⟨c, t ++ y, rfl, hc⟩⟩
      · cases h' with
        | nil => exact .inl rfl
        | text h0 hc _ _ =>
          obtain ⟨c, t, rfl, hc2⟩ := text_head hc h0
          exact .inr ⟨c, _, rfl, .inl hc2⟩
        | element => exact absurd (fun _ h => nomatch h) hn
        | empty => exact absurd (fun _ h => nomatch h) hn
    rcases this with rfl | ⟨c, t, h1, h2⟩
    · refine ⟨rfl, ?_, he⟩
      generalize hz : ([] : Str) = z at h'
      cases h' with
      | nil => rfl
      | text h0 => exact absurd (List.append_eq_nil_iff.mp hz.symm).1 h0
      | element => cases hz
      | empty => cases hz
    · rw [← he] at h1
      rcases hx with rfl | ⟨u, rfl⟩
      · cases h1
      · cases h1
        rcases h2 with h2 | ⟨d, w, h3, h4⟩
        · exact absurd rfl h2
        · cases h3; exact absurd rfl h4
  | @text s t ns h0 hc hn h ih =>
    intro s' ns' x y h' hx hy he
    obtain ⟨c, u, rfl, hcu⟩ := text_head hc h0
    cases h' with
    | nil =>
      rcases hy with rfl | ⟨v, rfl⟩
      · cases he
      · injection he with he; exact absurd he hcu
    | @text s2 t2 ns2 h02 hc2 hn2 h2 =>
      simp only [List.append_assoc] at he
      obtain ⟨rfl, he2⟩ := span_eq (P := fun c => c ≠ '<') (fun c hm => (hc.1 c hm).2.1) (fun c hm => (hc2.1 c hm).2.1)
        (fun c t h3 => by simp [end_head h hn hx c t h3]) (fun c t h3 => by simp [end_head h2 hn2 hy c t h3]) he
      obtain ⟨rfl, rfl, rfl⟩ := ih h2 hx hy he2
      exact ⟨rfl, rfl, rfl⟩
    | element => injection he with he; exact absurd he hcu
    | empty => injection he with he; exact absurd he hcu
  | @element name a c t as ns ns' h1 h2 h3 h4 h5 ih4 ih5 =>
    intro s' ns2 x y h' hx hy he
    cases h' with
    | nil =>
      obtain ⟨d, n, rfl, hd⟩ := name_ne h1
      rcases hy with rfl | ⟨v, rfl⟩
      · cases he
      · injection he with _ he; injection he with he; rw [he] at hd; exact absurd hd (not_nameChar (by simp))
    | text h02 hc2 =>
      obtain ⟨d, u, rfl, hd⟩ := text_head hc2 h02
      injection he with he; exact absurd he.symm hd
    | @element name' a' c' t' as' m m' k1 k2 k3 k4 k5 =>
      simp only [List.append_assoc, List.cons_append, List.cons.injEq, true_and] at he
      obtain ⟨rfl, rfl, he⟩ := tag_eq h1 h2 k1 k2 ⟨_, _, rfl, .inl rfl⟩ ⟨_, _, rfl, .inl rfl⟩ he
      injection he with _ he
      obtain ⟨rfl, rfl, he⟩ := ih4 k4 (.inr ⟨_, rfl⟩) (.inr ⟨_, rfl⟩) he
      simp only [List.cons.injEq, true_and, List.append_cancel_left_eq] at he
      obtain ⟨rfl, rfl, rfl⟩ := ih5 k5 hx hy he
      have : a ++ ('>' :: (c ++ '<' :: '/' :: (name ++ '>' :: (t ++ x)))) = a' ++ ('>' :: (c ++ '<' :: '/' :: (name ++ '>' :: (t ++ x)))) := by
        simp_all
      obtain rfl := List.append_cancel_right this
      exact ⟨rfl, rfl, rfl⟩
    | @empty name' a' t' as' m' k1 k2 k3 k5 =>
      simp only [List.append_assoc, List.cons_append, List.cons.injEq, true_and] at he
      obtain ⟨rfl, rfl, he⟩ := tag_eq h1 h2 k1 k2 ⟨_, _, rfl, .inl rfl⟩ ⟨_, _, rfl, .inr rfl⟩ he
      cases he
  | @empty name a t as ns' h1 h2 h3 h5 ih5 =>
    intro s' ns2 x y h' hx hy he
    cases h' with
    | nil =>
      obtain ⟨d, n, rfl, hd⟩ := name_ne h1
      rcases hy with rfl | ⟨v, rfl⟩
      · cases he
      · injection he with _ he; injection he with he; rw [he] at hd; exact absurd hd (not_nameChar (by simp))
    | text h02 hc2 =>
      obtain ⟨d, u, rfl, hd⟩ := text_head hc2 h02
      injection he with he; exact absurd he.symm hd
    | @element name' a' c' t' as' m m' k1 k2 k3 k4 k5 =>
      simp only [List.append_assoc, List.cons_append, List.cons.injEq, true_and] at he
      obtain ⟨rfl, rfl, he⟩ := tag_eq h1 h2 k1 k2 ⟨_, _, rfl, .inr rfl⟩ ⟨_, _, rfl, .inl rfl⟩ he
      cases he
    | @empty name' a' t' as' m' k1 k2 k3 k5 =>
      simp only [List.append_assoc, List.cons_append, List.cons.injEq, true_and] at he
      obtain ⟨rfl, rfl, he2⟩ := tag_eq h1 h2 k1 k2 ⟨_, _, rfl, .inr rfl⟩ ⟨_, _, rfl, .inr rfl⟩ he
      simp only [List.cons.injEq, true_and] at he2
      obtain ⟨rfl, rfl, rfl⟩ := ih5 k5 hx hy he2
      obtain rfl := List.append_cancel_right (List.append_cancel_left he)
      exact ⟨rfl, rfl, rfl⟩

theorem content_nil {ns : List Node} (h : Content [] ns) : ns = [] :=
  (content_unique h .nil (.inl rfl) (.inl rfl) rfl).2.1

theorem element_end {e name : Str} {as : List (Str × Str)} {ns : List Node} (h : Content e [.element name as ns]) :
    ∃ i, e = i ++ ['>'] := by
  have hnil : ∀ {t : Str}, Content t [] → t = [] := by
    intro t h; cases h; rfl
  cases h with
  | @element _ a c t _ _ _ h1 h2 h3 h4 h5 =>
    rw [hnil h5]; exact ⟨'<' :: (name ++ (a ++ '>' :: (c ++ '<' :: '/' :: name))), by simp⟩
  | @empty _ a t _ _ h1 h2 h3 h5 =>
    rw [hnil h5]; exact ⟨'<' :: (name ++ (a ++ ['/'])), by simp⟩

/-- A text is the form of at most one XML document. -/
theorem document_unique {s : Str} {r r' : Node} (h : Document s r) (h' : Document s r') : r = r' := by
  obtain ⟨e, ws, rfl, h1, ⟨t, a, c, rfl⟩, h2⟩ := h
  obtain ⟨e', ws', he, k1, ⟨t', a', c', rfl⟩, k2⟩ := h'
  have he := List.append_cancel_left he
  obtain ⟨i, rfl⟩ := element_end h1
  obtain ⟨i', rfl⟩ := element_end k1
  have hrev := congrArg List.reverse he
  simp only [List.reverse_append, List.reverse_cons, List.reverse_nil, List.nil_append, List.append_assoc] at hrev
  obtain ⟨-, h3⟩ := span_eq (P := Space) (by simpa using h2) (by simpa using k2)
    (by intro _ _ h; injection h with h; exact h ▸ by decide) (by intro _ _ h; injection h with h; exact h ▸ by decide) hrev
  have h4 : i = i' := by
    have := congrArg List.reverse h3
    simpa using this
  subst h4
  have := (content_unique h1 k1 (.inl rfl) (.inl rfl) rfl).2.1
  injection this

end XmlLemmas
end Verif
