/-
C108 for RDF: the graph of a model does not depend on the order in which the maps of the model are enumerated, except for the
identifiers of resources, which are numbered in that order.
-/
import Verif.RdfReader
import Verif.GraphMLProps
import Verif.LinesLemmas
import Mathlib.Data.List.Perm.Basic

namespace Verif
open Spec
namespace Rdf
open Emit

/-! ### Statements that correspond -/

/-- The nodes correspond: the same IRI, or blank nodes related by `G`. -/
def NodeRel (G : Nat → Nat → Prop) : Node → Node → Prop
  | .iri i, .iri j => i = j
  | .blank a, .blank b => G a b
  | _, _ => False

@[inherit_doc NodeRel] def ObjRel (G : Nat → Nat → Prop) : Obj → Obj → Prop
  | .node n, .node n' => NodeRel G n n'
  | .lit l, .lit l' => l = l'
  | _, _ => False

/-- The statements correspond. -/
def StRel (G : Nat → Nat → Prop) (a b : Statement) : Prop := NodeRel G a.subj b.subj ∧ a.pred = b.pred ∧ ObjRel G a.obj b.obj

/-- The two lists have corresponding statements. -/
def StSame (G : Nat → Nat → Prop) (l l' : List Statement) : Prop :=
  (∀ st ∈ l, ∃ st' ∈ l', StRel G st st') ∧ ∀ st' ∈ l', ∃ st ∈ l, StRel G st st'

/-- A one-to-one correspondence between `n, …, n + k - 1` and `n', …, n' + k - 1`. -/
structure OneOne (T : Nat → Nat → Prop) (n n' k : Nat) : Prop where
  within : ∀ a b, T a b → n ≤ a ∧ a < n + k ∧ n' ≤ b ∧ b < n' + k
  left : ∀ a, n ≤ a → a < n + k → ∃ b, T a b
  right : ∀ b, n' ≤ b → b < n' + k → ∃ a, T a b
  fn : ∀ a b b', T a b → T a b' → b = b'
  inj : ∀ a a' b, T a b → T a' b → a = a'

/-- All related labels are below these bounds. -/
def Below (G : Nat → Nat → Prop) (n n' : Nat) : Prop := ∀ a b, G a b → a < n ∧ b < n'

/-- The union of two relations. -/
def Either (G T : Nat → Nat → Prop) : Nat → Nat → Prop := fun a b => G a b ∨ T a b

/-- The same insertions, up to order and to the labels of the blank nodes they create, given how older labels correspond. -/
def Sim (G : Nat → Nat → Prop) (e e' : Emit) : Prop :=
  ∀ n n', Below G n n' → ∃ k T, (e n).2 = n + k ∧ (e' n').2 = n' + k ∧ OneOne T n n' k ∧ StSame (Either G T) (e n).1 (e' n').1

theorem NodeRel.mono {G H : Nat → Nat → Prop} (h : ∀ a b, G a b → H a b) {n n' : Node} (hn : NodeRel G n n') : NodeRel H n n' := by
  cases n <;> cases n' <;> first | exact hn | exact h _ _ hn

theorem ObjRel.mono {G H : Nat → Nat → Prop} (h : ∀ a b, G a b → H a b) {n n' : Obj} (hn : ObjRel G n n') : ObjRel H n n' := by
  cases n <;> cases n' <;> first | exact hn | exact NodeRel.mono h hn

theorem StRel.mono {G H : Nat → Nat → Prop} (h : ∀ a b, G a b → H a b) {n n' : Statement} (hn : StRel G n n') : StRel H n n' :=
  ⟨hn.1.mono h, hn.2.1, hn.2.2.mono h⟩

theorem StSame.mono {G H : Nat → Nat → Prop} (h : ∀ a b, G a b → H a b) {l l' : List Statement} (hl : StSame G l l') : StSame H l l' :=
  ⟨fun st hst => (hl.1 st hst).imp fun _ hx => ⟨hx.1, hx.2.mono h⟩, fun st hst => (hl.2 st hst).imp fun _ hx => ⟨hx.1, hx.2.mono h⟩⟩

theorem StSame.append {G : Nat → Nat → Prop} {a a' b b' : List Statement} (h : StSame G a a') (h' : StSame G b b') :
    StSame G (a ++ b) (a' ++ b') := by
  constructor
  · intro st hst
    rcases List.mem_append.mp hst with hst | hst
    · obtain ⟨x, h1, h2⟩ := h.1 st hst; exact ⟨x, List.mem_append_left _ h1, h2⟩
    · obtain ⟨x, h1, h2⟩ := h'.1 st hst; exact ⟨x, List.mem_append_right _ h1, h2⟩
  · intro st hst
    rcases List.mem_append.mp hst with hst | hst
    · obtain ⟨x, h1, h2⟩ := h.2 st hst; exact ⟨x, List.mem_append_left _ h1, h2⟩
    · obtain ⟨x, h1, h2⟩ := h'.2 st hst; exact ⟨x, List.mem_append_right _ h1, h2⟩

theorem StSame.comm {G : Nat → Nat → Prop} {a b c d : List Statement} (h : StSame G a (b ++ (c ++ d))) : StSame G a (c ++ (b ++ d)) := by
  have : ∀ st, st ∈ c ++ (b ++ d) ↔ st ∈ b ++ (c ++ d) := fun st => by simp only [List.mem_append]; tauto
  exact ⟨fun st hst => (h.1 st hst).imp fun x hx => ⟨(this x).mpr hx.1, hx.2⟩, fun st hst => h.2 st ((this st).mp hst)⟩

theorem OneOne.nil (n n' : Nat) : OneOne (fun _ _ => False) n n' 0 :=
  ⟨fun _ _ h => h.elim, fun a h h' => absurd h (by omega), fun a h h' => absurd h (by omega), fun _ _ _ h => h.elim, fun _ _ _ h => h.elim⟩

/-- The correspondences of two parts, which may be in another order on the other side. -/
theorem OneOne.join {T U : Nat → Nat → Prop} {n m n' m' k l : Nat} (h : OneOne T n n' k) (h' : OneOne U m m' l)
    (hm : m = n + k ∧ (m' = n' + k ∨ n' = m' + l)) : OneOne (Either T U) n (min n' m') (k + l) := by
  obtain ⟨rfl, hm⟩ := hm
  refine ⟨?_, ?_, ?_, ?_, ?_⟩
  · rintro a b (hab | hab)
    · have := h.within a b hab; omega
    · have := h'.within a b hab; omega
  · intro a h1 h2
    by_cases hc : a < n + k
    · exact (h.left a h1 hc).imp fun _ => .inl
    · exact (h'.left a (by omega) (by omega)).imp fun _ => .inr
  · intro b h1 h2
    by_cases hc : n' ≤ b ∧ b < n' + k
    · exact (h.right b hc.1 hc.2).imp fun _ => .inl
    · exact (h'.right b (by omega) (by omega)).imp fun _ => .inr
  · rintro a b b' (h1 | h1) (h2 | h2)
    · exact h.fn _ _ _ h1 h2
    · have := h.within _ _ h1; have := h'.within _ _ h2; omega
    · have := h'.within _ _ h1; have := h.within _ _ h2; omega
    · exact h'.fn _ _ _ h1 h2
  · rintro a a' b (h1 | h1) (h2 | h2)
    · exact h.inj _ _ _ h1 h2
    · have := h.within _ _ h1; have := h'.within _ _ h2; omega
    · have := h'.within _ _ h1; have := h.within _ _ h2; omega
    · exact h'.inj _ _ _ h1 h2

theorem Below.mono {G : Nat → Nat → Prop} {n n' m m' : Nat} (h : Below G n n') (hn : n ≤ m) (hn' : n' ≤ m') : Below G m m' :=
  fun a b hab => ⟨by have := h a b hab; omega, by have := h a b hab; omega⟩

/-! ### Insertions that correspond -/

theorem sim_skip (G : Nat → Nat → Prop) : Sim G skip skip := fun n n' _ =>
  ⟨0, _, rfl, rfl, OneOne.nil n n', by constructor <;> intro st hst <;> cases hst⟩

theorem sim_insert {G : Nat → Nat → Prop} {s s' : Node} {p : Iri} {o o' : Obj} (hs : NodeRel G s s') (ho : ObjRel G o o') :
    Sim G (insert s p o) (insert s' p o') := fun n n' _ => by
  refine ⟨0, _, rfl, rfl, OneOne.nil n n', ?_⟩
  have h : StRel (Either G fun _ _ => False) ⟨s, p, o⟩ ⟨s', p, o'⟩ := ⟨hs.mono fun _ _ => .inl, rfl, ho.mono fun _ _ => .inl⟩
  constructor <;> intro st hst <;> rw [List.mem_singleton.mp hst]
  · exact ⟨_, List.mem_singleton.mpr rfl, h⟩
  · exact ⟨_, List.mem_singleton.mpr rfl, h⟩

theorem sim_seq {G : Nat → Nat → Prop} {a a' b b' : Emit} (ha : Sim G a a') (hb : Sim G b b') : Sim G (a ;; b) (a' ;; b') := fun n n' hn => by
  obtain ⟨k, T, h1, h2, h3, h4⟩ := ha n n' hn
  obtain ⟨l, U, g1, g2, g3, g4⟩ := hb (n + k) (n' + k) (hn.mono (by omega) (by omega))
  refine ⟨k + l, Either T U, ?_, ?_, ?_, ?_⟩
  · simp only [Emit.seq]; rw [h1, g1]; omega
  · simp only [Emit.seq]; rw [h2, g2]; omega
  · have := h3.join g3 ⟨rfl, .inl rfl⟩
    rwa [Nat.min_eq_left (by omega)] at this
  · simp only [Emit.seq]; rw [h1, h2]
    refine StSame.append (h4.mono ?_) (g4.mono ?_)
    · rintro x y (h | h)
      · exact .inl h
      · exact .inr (.inl h)
    · rintro x y (h | h)
      · exact .inl h
      · exact .inr (.inr h)

/-- Two insertions may be made in the other order. -/
theorem sim_swap {G : Nat → Nat → Prop} {a b : Emit} (ha : Sim G a a) (hb : Sim G b b) : Sim G (a ;; b) (b ;; a) := fun n n' hn => by
  have hk : ∃ k, (a n).2 = n + k := by
    obtain ⟨k, T, h1, -⟩ := ha n n' hn; exact ⟨k, h1⟩
  have hl : ∃ l, (b n').2 = n' + l := by
    obtain ⟨k, T, -, h1, -⟩ := hb n n' hn; exact ⟨k, h1⟩
  obtain ⟨k, hk⟩ := hk
  obtain ⟨l, hl⟩ := hl
  obtain ⟨k', T, h1, h2, h3, h4⟩ := ha n (n' + l) (hn.mono (by omega) (by omega))
  obtain ⟨l', U, g1, g2, g3, g4⟩ := hb (n + k) n' (hn.mono (by omega) (by omega))
  obtain rfl : k = k' := by omega
  obtain rfl : l = l' := by omega
  refine ⟨k + l, Either T U, ?_, ?_, ?_, ?_⟩
  · simp only [Emit.seq]; rw [hk, g1]; omega
  · simp only [Emit.seq]; rw [hl, h2]; omega
  · have := h3.join g3 ⟨rfl, .inr rfl⟩
    rwa [Nat.min_eq_right (by omega)] at this
  · simp only [Emit.seq]; rw [hk, hl]
    have h5 : StSame (Either G (Either T U)) ((a n).1 ++ (b (n + k)).1) ((a (n' + l)).1 ++ (b n').1) := by
      refine StSame.append (h4.mono ?_) (g4.mono ?_)
      · rintro x y (h | h)
        · exact .inl h
        · exact .inr (.inl h)
      · rintro x y (h | h)
        · exact .inl h
        · exact .inr (.inr h)
    have : ∀ st, st ∈ (a (n' + l)).1 ++ (b n').1 ↔ st ∈ (b n').1 ++ (a (n' + l)).1 := fun st => by simp only [List.mem_append]; tauto
    exact ⟨fun st hst => (h5.1 st hst).imp fun x hx => ⟨(this x).mp hx.1, hx.2⟩, fun st hst => h5.2 st ((this st).mpr hst)⟩

/-- The labels on the left, each related to itself. -/
def Itself (G : Nat → Nat → Prop) : Nat → Nat → Prop := fun a a' => a = a' ∧ ∃ b, G a b

theorem Below.itself {G : Nat → Nat → Prop} {n n' : Nat} (h : Below G n n') : Below (Itself G) n n := by
  rintro a b ⟨rfl, c, hc⟩
  exact ⟨(h a c hc).1, (h a c hc).1⟩

theorem NodeRel.itself {G : Nat → Nat → Prop} {s s' : Node} (h : NodeRel G s s') : NodeRel (Itself G) s s := by
  cases s <;> cases s' <;> first | rfl | exact h.elim | exact ⟨rfl, _, h⟩

theorem NodeRel.trans {G H I : Nat → Nat → Prop} (hc : ∀ a b c, G a b → H b c → I a c) {x y z : Node} (h : NodeRel G x y) (h' : NodeRel H y z) :
    NodeRel I x z := by
  cases x <;> cases y <;> first | exact h.elim | skip
  · cases z <;> first | exact h'.elim | exact Eq.trans h h'
  · cases z <;> first | exact h'.elim | exact hc _ _ _ h h'

theorem StRel.trans {G H I : Nat → Nat → Prop} (hc : ∀ a b c, G a b → H b c → I a c) {x y z : Statement} (h : StRel G x y) (h' : StRel H y z) :
    StRel I x z := by
  obtain ⟨s, p, o⟩ := x
  obtain ⟨s', p', o'⟩ := y
  obtain ⟨s'', p'', o''⟩ := z
  refine ⟨h.1.trans hc h'.1, h.2.1.trans h'.2.1, ?_⟩
  have h1 := h.2.2
  have h2 := h'.2.2
  cases o <;> cases o' <;> first | exact h1.elim | skip
  · cases o'' <;> first | exact h2.elim | exact NodeRel.trans hc h1 h2
  · cases o'' <;> first | exact h2.elim | exact Eq.trans h1 h2

theorem sim_trans {G : Nat → Nat → Prop} {a b c : Emit} (h : Sim (Itself G) a b) (h' : Sim G b c) : Sim G a c := fun n n' hn => by
  obtain ⟨k, T, h1, h2, h3, h4⟩ := h n n hn.itself
  obtain ⟨k', U, g1, g2, g3, g4⟩ := h' n n' hn
  obtain rfl : k = k' := by omega
  refine ⟨k, fun x z => ∃ y, T x y ∧ U y z, h1, g2, ⟨?_, ?_, ?_, ?_, ?_⟩, ?_⟩
  · rintro x z ⟨y, hxy, hyz⟩
    have := h3.within _ _ hxy; have := g3.within _ _ hyz; omega
  · intro x hx hx'
    obtain ⟨y, hy⟩ := h3.left x hx hx'
    obtain ⟨z, hz⟩ := g3.left y (by have := h3.within _ _ hy; omega) (by have := h3.within _ _ hy; omega)
    exact ⟨z, y, hy, hz⟩
  · intro z hz hz'
    obtain ⟨y, hy⟩ := g3.right z hz hz'
    obtain ⟨x, hx⟩ := h3.right y (by have := g3.within _ _ hy; omega) (by have := g3.within _ _ hy; omega)
    exact ⟨x, y, hx, hy⟩
  · rintro x z z' ⟨y, h5, h6⟩ ⟨y', h7, h8⟩
    rw [h3.fn _ _ _ h5 h7] at h6
    exact g3.fn _ _ _ h6 h8
  · rintro x x' z ⟨y, h5, h6⟩ ⟨y', h7, h8⟩
    rw [g3.inj _ _ _ h6 h8] at h5
    exact h3.inj _ _ _ h5 h7
  · have hc : ∀ x y z, Either (Itself G) T x y → Either G U y z → Either G (fun x z => ∃ y, T x y ∧ U y z) x z := by
      rintro x y z (⟨rfl, w, hw⟩ | h5) (h6 | h6)
      · exact .inl h6
      · have := (hn _ _ hw).1; have := g3.within _ _ h6; omega
      · have := (hn _ _ h6).1; have := h3.within _ _ h5; omega
      · exact .inr ⟨y, h5, h6⟩
    constructor
    · intro st hst
      obtain ⟨x, hx, h5⟩ := h4.1 st hst
      obtain ⟨y, hy, h6⟩ := g4.1 x hx
      exact ⟨y, hy, h5.trans hc h6⟩
    · intro st hst
      obtain ⟨x, hx, h5⟩ := g4.2 st hst
      obtain ⟨y, hy, h6⟩ := h4.2 x hx
      exact ⟨y, hy, h6.trans hc h5⟩

/-- The labels of two blank nodes are added to the correspondence. -/
def Along (G : Nat → Nat → Prop) (n n' : Nat) : Nat → Nat → Prop := Either G fun a b => a = n ∧ b = n'

theorem sim_fresh {G : Nat → Nat → Prop} {f f' : Node → Emit}
    (h : ∀ n n', Below G n n' → Sim (Along G n n') (f (.blank n)) (f' (.blank n'))) : Sim G (fresh f) (fresh f') := fun n n' hn => by
  have hb : Below (Along G n n') (n + 1) (n' + 1) := by
    rintro a b (hab | ⟨rfl, rfl⟩)
    · have := hn a b hab; omega
    · omega
  obtain ⟨k, T, h1, h2, h3, h4⟩ := h n n' hn (n + 1) (n' + 1) hb
  refine ⟨1 + k, Either (fun a b => a = n ∧ b = n') T, ?_, ?_, ?_, ?_⟩
  · simp only [Emit.fresh]; omega
  · simp only [Emit.fresh]; omega
  · have h5 : OneOne (fun a b => a = n ∧ b = n') n n' 1 := by
      refine ⟨?_, ?_, ?_, ?_, ?_⟩
      · rintro a b ⟨rfl, rfl⟩; omega
      · intro a h5 h6; exact ⟨n', by omega, rfl⟩
      · intro a h5 h6; exact ⟨n, rfl, by omega⟩
      · rintro a b b' ⟨-, rfl⟩ ⟨-, rfl⟩; rfl
      · rintro a b b' ⟨rfl, -⟩ ⟨rfl, -⟩; rfl
    have := h5.join h3 ⟨rfl, .inl rfl⟩
    rwa [Nat.min_eq_left (by omega)] at this
  · refine h4.mono ?_
    rintro a b ((h5 | h5) | h5)
    · exact .inl h5
    · exact .inr (.inl h5)
    · exact .inr (.inr h5)

theorem nodeRel_new {G : Nat → Nat → Prop} (n n' : Nat) : NodeRel (Along G n n') (.blank n) (.blank n') := .inr ⟨rfl, rfl⟩

theorem NodeRel.along {G : Nat → Nat → Prop} {s s' : Node} (h : NodeRel G s s') (n n' : Nat) : NodeRel (Along G n n') s s' := h.mono fun _ _ => .inl

theorem sim_each {α β : Type} {G : Nat → Nat → Prop} {f : α → Emit} {f' : β → Emit} {l : List α} {l' : List β}
    (h : List.Forall₂ (fun x y => Sim G (f x) (f' y)) l l') : Sim G (each f l) (each f' l') := by
  induction h with
  | nil => exact sim_skip G
  | cons h1 _ ih => exact sim_seq h1 ih

theorem seq_assoc (a b c : Emit) : ((a ;; b) ;; c) = (a ;; b ;; c) := by
  funext n; simp [Emit.seq]

theorem itself_itself (G : Nat → Nat → Prop) : Itself (Itself G) = Itself G := by
  funext a b
  refine propext ⟨?_, ?_⟩
  · rintro ⟨rfl, c, rfl, h⟩; exact ⟨rfl, h⟩
  · rintro ⟨rfl, h⟩; exact ⟨rfl, a, rfl, h⟩

theorem sim_perm {α : Type} {G : Nat → Nat → Prop} {f : α → Emit} {l l' : List α} (hp : l.Perm l') :
    (∀ x ∈ l, Sim (Itself G) (f x) (f x)) → Sim (Itself G) (each f l) (each f l') := by
  induction hp with
  | nil => exact fun _ => sim_skip _
  | cons x _ ih => exact fun h => sim_seq (h x (by simp)) (ih fun y hy => h y (by simp [hy]))
  | swap x y l =>
    intro h
    have h1 := sim_seq (sim_swap (h y (by simp)) (h x (by simp))) (sim_each (G := Itself G) (f := f) (f' := f) (l := l) (l' := l)
      (List.forall₂_same.mpr fun z hz => h z (by simp [hz])))
    rw [seq_assoc, seq_assoc] at h1
    exact h1
  | trans p1 _ ih1 ih2 =>
    intro h
    refine sim_trans ?_ (ih2 fun x hx => h x (p1.mem_iff.mpr hx))
    rw [itself_itself]; exact ih1 h

/-- The elements may be in another order, and replaced by others with the same insertions. -/
theorem sim_each_perm {α β : Type} {G : Nat → Nat → Prop} {f : α → Emit} {f' : β → Emit} {l c : List α} {l' : List β} (hp : l.Perm c)
    (hs : ∀ x ∈ l, Sim (Itself G) (f x) (f x)) (h : List.Forall₂ (fun x y => Sim G (f x) (f' y)) c l') : Sim G (each f l) (each f' l') :=
  sim_trans (sim_perm hp hs) (sim_each h)

/-! ### Maps with the same entries -/

theorem mapRel_forall₂ {K V W : Type} [DecidableEq K] {R : V → W → Prop} {a : AMap K V} {b : AMap K W} (ha : AMap.Wf a) (hb : AMap.Wf b)
    (h : MapRel R a b) : ∃ c : AMap K V, a.Perm c ∧ List.Forall₂ (fun e e' => e.1 = e'.1 ∧ R e.2 e'.2) c b := by
  induction b generalizing a with
  | nil =>
    have : a = [] := by
      cases a with
      | nil => rfl
      | cons e a => have := h e.1; simp [AMap.get] at this; cases this
    subst this; exact ⟨[], .nil, .nil⟩
  | cons e b ih =>
    obtain ⟨k, y⟩ := e
    have hk := h k
    rw [AMap.get_cons, if_pos rfl] at hk
    generalize hx : AMap.get a k = o at hk
    cases hk with
    | @some x _ hxy =>
      rw [AMap.wf_cons] at hb
      have h1 : MapRel R (AMap.erase a k) b := by
        intro j
        rw [AMap.get_erase]
        have := h j
        rw [AMap.get_cons] at this
        by_cases hj : k = j
        · subst hj
          rw [(AMap.not_mem_keys_iff _ _).mp hb.1]; simp; exact .none
        · rw [if_neg hj] at this; simpa [hj] using this
      obtain ⟨c, h2, h3⟩ := ih (AMap.wf_erase ha k) hb.2 h1
      exact ⟨(k, x) :: c, (AMap.perm_cons_erase ha hx).trans (.cons _ h2), .cons ⟨rfl, hxy⟩ h3⟩

theorem forall₂_and_mem {α β : Type} {R : α → β → Prop} {l : List α} {l' : List β} (h : List.Forall₂ R l l') :
    List.Forall₂ (fun x y => x ∈ l ∧ y ∈ l' ∧ R x y) l l' := by
  induction h with
  | nil => exact .nil
  | cons h1 _ ih =>
    refine .cons ⟨by simp, by simp, h1⟩ (ih.imp fun x y hxy => ⟨by simp [hxy.1], by simp [hxy.2.1], hxy.2.2⟩)

/-! ### The insertions for a model -/

/-- The insertions for an entry of an object. -/
def entryEmit (b : Node) (e : Str × Value) : Emit :=
  fresh fun kv => insert b (rdf %s"li") (.node kv) ;; insert kv (smithy %s"key") (text e.1) ;; fromValue kv (smithy %s"value") e.2

theorem fromEntries_each (b : Node) (es : List (Str × Value)) : fromEntries b es = each (entryEmit b) es := by
  induction es with
  | nil => rw [fromEntries]; rfl
  | cons e es ih => obtain ⟨k, v⟩ := e; rw [fromEntries, ih]; rfl

theorem fromItems_each (b : Node) (vs : List Value) : fromItems b vs = each (fromValue b (rdf %s"li")) vs := by
  induction vs with
  | nil => rw [fromItems]; rfl
  | cons v vs ih => rw [fromItems, ih]; rfl

theorem sim_entry {G : Nat → Nat → Prop} {b b' : Node} {e e' : Str × Value} (hb : NodeRel G b b') (hk : e.1 = e'.1)
    (h : ∀ {G : Nat → Nat → Prop} {s s' : Node} {p : Iri}, NodeRel G s s' → Sim G (fromValue s p e.2) (fromValue s' p e'.2)) :
    Sim G (entryEmit b e) (entryEmit b' e') := by
  refine sim_fresh fun n n' _ => sim_seq (sim_insert (hb.along n n') (nodeRel_new n n')) (sim_seq (sim_insert (nodeRel_new n n') ?_) (h (nodeRel_new n n')))
  rw [hk]; rfl

theorem sim_array {G : Nat → Nat → Prop} {s s' : Node} {p : Iri} {a b : List Value} (hs : NodeRel G s s')
    (h : ∀ {G : Nat → Nat → Prop} {s s' : Node} {p : Iri}, NodeRel G s s' → List.Forall₂ (fun x y => Sim G (fromValue s p x) (fromValue s' p y)) a b) :
    Sim G (fromValue s p (.array a)) (fromValue s' p (.array b)) := by
  rw [fromValue, fromValue]
  refine sim_fresh fun n n' _ => sim_seq (sim_insert (hs.along n n') (nodeRel_new n n')) (sim_seq (sim_insert (nodeRel_new n n') rfl) ?_)
  rw [fromItems_each, fromItems_each]
  exact sim_each (h (nodeRel_new n n'))

theorem sim_object {G : Nat → Nat → Prop} {s s' : Node} {p : Iri} {a b : List (Str × Value)} (hs : NodeRel G s s')
    (h : ∀ {G : Nat → Nat → Prop} {s s' : Node}, NodeRel G s s' → Sim G (each (entryEmit s) a) (each (entryEmit s') b)) :
    Sim G (fromValue s p (.object a)) (fromValue s' p (.object b)) := by
  rw [fromValue, fromValue]
  refine sim_fresh fun n n' _ => sim_seq (sim_insert (hs.along n n') (nodeRel_new n n')) (sim_seq (sim_insert (nodeRel_new n n') rfl) ?_)
  rw [fromEntries_each, fromEntries_each]
  exact h (nodeRel_new n n')

mutual
  /-- A value is written like itself. -/
  theorem sim_self (v : Value) : ∀ {G : Nat → Nat → Prop} {s s' : Node} {p : Iri}, NodeRel G s s' → Sim G (fromValue s p v) (fromValue s' p v) := by
    intro G s s' p hs
    cases v with
    | none => rw [fromValue, fromValue]; exact sim_insert hs rfl
    | boolean b => rw [fromValue, fromValue]; exact sim_insert hs rfl
    | string b => rw [fromValue, fromValue]; exact sim_insert hs rfl
    | number b => cases b <;> rw [fromValue, fromValue] <;> exact sim_insert hs rfl
    | array vs => exact sim_array hs (sim_selfs vs)
    | object es => exact sim_object hs fun h => sim_each (sim_selfe es h)
  theorem sim_selfs (vs : List Value) : ∀ {G : Nat → Nat → Prop} {s s' : Node} {p : Iri}, NodeRel G s s' →
      List.Forall₂ (fun x y => Sim G (fromValue s p x) (fromValue s' p y)) vs vs := by
    intro G s s' p hs
    cases vs with
    | nil => exact .nil
    | cons v vs => exact .cons (sim_self v hs) (sim_selfs vs hs)
  theorem sim_selfe (es : List (Str × Value)) : ∀ {G : Nat → Nat → Prop} {s s' : Node}, NodeRel G s s' →
      List.Forall₂ (fun x y => Sim G (entryEmit s x) (entryEmit s' y)) es es := by
    intro G s s' hs
    cases es with
    | nil => exact .nil
    | cons e es => exact .cons (sim_entry hs rfl (sim_self e.2)) (sim_selfe es hs)
end


theorem vrel_forall₂ {R : Value → Value → Prop} {a b : List Value} (hl : a.length = b.length)
    (h : ∀ (i : Nat) (x y : Value), a[i]? = some x → b[i]? = some y → R x y) : List.Forall₂ R a b := by
  induction a generalizing b with
  | nil => cases b with
    | nil => exact .nil
    | cons y b => simp at hl
  | cons x a ih => cases b with
    | nil => simp at hl
    | cons y b => exact .cons (h 0 x y rfl rfl) (ih (by simpa using hl) fun i x y hx hy => h (i + 1) x y (by simpa using hx) (by simpa using hy))

/-- The same values are written alike. -/
theorem sim_value {v w : Value} (h : Same v w) : v.Wf → w.Wf → ∀ {G : Nat → Nat → Prop} {s s' : Node} {p : Iri}, NodeRel G s s' →
    Sim G (fromValue s p v) (fromValue s' p w) := by
  induction h with
  | none => exact fun _ _ => sim_self _
  | boolean => exact fun _ _ => sim_self _
  | string => exact fun _ _ => sim_self _
  | number h => subst h; exact fun _ _ => sim_self _
  | @array a b hl _ ih =>
    intro hv hw
    cases hv with | array hv =>
    cases hw with | array hw =>
    intro G s s' p hs
    refine sim_array hs fun {G s s' p} h => vrel_forall₂ hl fun i x y hx hy => ?_
    exact ih i x y hx hy (hv x (List.mem_of_getElem? hx)) (hw y (List.mem_of_getElem? hy)) h
  | @object a b hk hr ih =>
    intro hv hw
    cases hv with | object ha hv =>
    cases hw with | object hb hw =>
    intro G s s' p hs
    have hm : MapRel (fun x y => ∀ {G : Nat → Nat → Prop} {s s' : Node} {p : Iri}, NodeRel G s s' → Sim G (fromValue s p x) (fromValue s' p y)) a b := by
      intro k
      have h1 := hk k
      cases hx : AMap.get a k with
      | none =>
        rw [hx] at h1
        cases hy : AMap.get b k with
        | none => exact .none
        | some y => rw [hy] at h1; cases h1
      | some x =>
        rw [hx] at h1
        cases hy : AMap.get b k with
        | none => rw [hy] at h1; cases h1
        | some y => exact .some (ih k x y hx hy (hv _ (AMap.mem_of_get hx)) (hw _ (AMap.mem_of_get hy)))
    obtain ⟨c, h1, h2⟩ := mapRel_forall₂ ha hb hm
    refine sim_object hs fun {G s s'} h => sim_each_perm h1 (fun x _ => sim_entry h.itself rfl (sim_self x.2)) ?_
    exact h2.imp fun x y hxy => sim_entry h hxy.1 hxy.2

theorem sim_trait {G : Nat → Nat → Prop} {s s' : Node} {e e' : ShapeID × TraitValue} (hs : NodeRel G s s') (hk : e.1 = e'.1)
    (h : OptRel (fun x y => ∀ {G : Nat → Nat → Prop} {s s' : Node} {p : Iri}, NodeRel G s s' → Sim G (fromValue s p x) (fromValue s' p y)) e.2 e'.2) :
    Sim G (fromTrait s e) (fromTrait s' e') := by
  obtain ⟨k, v⟩ := e
  obtain ⟨k', v'⟩ := e'
  cases hk
  refine sim_fresh fun n n' _ => sim_seq (sim_insert (hs.along n n') (nodeRel_new n n')) (sim_seq (sim_insert (nodeRel_new n n') rfl) ?_)
  cases h with
  | none => exact sim_skip _
  | some h => exact h (nodeRel_new n n')

theorem optRel_self {α : Type} {R : α → α → Prop} (h : ∀ a, R a a) (o : Option α) : OptRel R o o := by
  cases o
  · exact .none
  · exact .some (h _)

/-- The same traits are written alike. -/
theorem sim_traits {a b : Traits} (ha : WfTraits a) (hb : WfTraits b) (h : SameTraits a b) {G : Nat → Nat → Prop} {s s' : Node} (hs : NodeRel G s s') :
    Sim G (fromTraits s a) (fromTraits s' b) := by
  have hm : MapRel (OptRel (fun x y => ∀ {G : Nat → Nat → Prop} {s s' : Node} {p : Iri}, NodeRel G s s' →
      Sim G (fromValue s p x) (fromValue s' p y))) a b := by
    intro k
    have h1 := h k
    generalize hx : AMap.get a k = x at h1
    generalize hy : AMap.get b k = y at h1
    cases h1 with
    | none => exact .none
    | some h2 =>
      cases h2 with
      | none => exact .some .none
      | some h3 => exact .some (.some (sim_value h3 (ha.values _ _ hx) (hb.values _ _ hy)))
  obtain ⟨c, h1, h2⟩ := mapRel_forall₂ ha.nodup hb.nodup hm
  exact sim_each_perm h1 (fun x _ => sim_trait hs.itself rfl (optRel_self (fun v {_ _ _ _} h => sim_self v h) x.2)) (h2.imp fun x y hxy => sim_trait hs hxy.1 hxy.2)

/-- The same members are written alike. -/
theorem sim_member {a b : MemberShape} (ha : WfTraits a.traits) (hb : WfTraits b.traits) (h : SameMemberShape a b) {G : Nat → Nat → Prop} {s s' : Node}
    (hs : NodeRel G s s') : Sim G (fromMember s a) (fromMember s' b) := by
  refine sim_fresh fun n n' _ => sim_seq (sim_insert (hs.along n n') (nodeRel_new n n')) (sim_seq (sim_insert (nodeRel_new n n') ?_)
    (sim_seq (sim_insert (nodeRel_new n n') ?_) (sim_traits ha hb h.2.2 (nodeRel_new n n'))))
  · rw [h.1]; rfl
  · rw [h.2.1]; rfl

theorem sameTraits_self (a : Traits) : SameTraits a a := fun _ => optRel_self (fun o => optRel_self Same.refl o) _

theorem each_map {α β : Type} (f : β → Emit) (g : α → β) (l : List α) : each f (l.map g) = each (fun x => f (g x)) l := by
  induction l with
  | nil => rfl
  | cons x l ih => simp only [List.map_cons, each, ih]

/-- The same members of a structure are written alike. -/
theorem sim_members {a b : AMap Str MemberShape} (ha : WfMembers a) (hb : WfMembers b) (h : MapRel SameMemberShape a b) {G : Nat → Nat → Prop}
    {s s' : Node} (hs : NodeRel G s s') : Sim G (each (fromMember s) (AMap.values a)) (each (fromMember s') (AMap.values b)) := by
  obtain ⟨c, h1, h2⟩ := mapRel_forall₂ ha.nodup hb.nodup h
  unfold AMap.values
  rw [each_map, each_map]
  have wa : ∀ e ∈ a, WfTraits e.2.traits := fun e he => ha.traits e.1 e.2 (AMap.get_of_mem ha.nodup he)
  have wb : ∀ e ∈ b, WfTraits e.2.traits := fun e he => hb.traits e.1 e.2 (AMap.get_of_mem hb.nodup he)
  refine sim_each_perm h1 (fun x hx => sim_member (wa x hx) (wa x hx) ⟨rfl, rfl, sameTraits_self _⟩ hs.itself) ?_
  refine (forall₂_and_mem h2).imp fun x y hxy => sim_member (wa x (h1.mem_iff.mpr hxy.1)) (wb y hxy.2.1) hxy.2.2.2 hs

theorem sim_targets {G : Nat → Nat → Prop} {s s' : Node} (hs : NodeRel G s s') (p : Iri) (xs : List ShapeID) : Sim G (targets s p xs) (targets s' p xs) :=
  sim_each (List.forall₂_same.mpr fun _ _ => sim_insert hs rfl)

theorem sim_declare {G : Nat → Nat → Prop} {s s' : Node} (hs : NodeRel G s s') (id : ShapeID) (c : Str) : Sim G (declare s id c) (declare s' id c) :=
  sim_seq (sim_insert hs rfl) (sim_insert rfl rfl)

theorem sim_identifiers {G : Nat → Nat → Prop} {s s' : Node} (hs : NodeRel G s s') (ids : AMap Str ShapeID) :
    Sim G (fromIdentifiers s ids) (fromIdentifiers s' ids) := by
  unfold fromIdentifiers
  split
  · exact sim_skip _
  · refine sim_fresh fun n n' _ => sim_seq (sim_insert (hs.along n n') (nodeRel_new n n')) (sim_seq (sim_insert (nodeRel_new n n') rfl)
      (sim_each (List.forall₂_same.mpr fun _ _ => ?_)))
    exact sim_fresh fun m m' _ => sim_seq (sim_insert ((nodeRel_new n n').along m m') (nodeRel_new m m'))
      (sim_seq (sim_insert (nodeRel_new m m') rfl) (sim_insert (nodeRel_new m m') rfl))

/-- The same shapes are written alike, if the identifiers of resources are enumerated in the same order. -/
theorem sim_shape {a b : TopLevelShape} (ha : WfShape a) (hb : WfShape b) (h : SameShape a b) (hi : identifiersOf a.body = identifiersOf b.body)
    {G : Nat → Nat → Prop} {r r' : Node} (hr : NodeRel G r r') : Sim G (shapeEmit r a) (shapeEmit r' b) := by
  obtain ⟨id, ts, body⟩ := a
  obtain ⟨id', ts', body'⟩ := b
  obtain ⟨rfl, ht, hb'⟩ := h
  have ht := sim_traits ha.traits hb.traits ht (G := G) (s := .iri (shapeToIri id)) (s' := .iri (shapeToIri id)) rfl
  have ho : NodeRel G (.iri (shapeToIri id)) (.iri (shapeToIri id)) := rfl
  have wa := ha.body
  have wb := hb.body
  cases hb' with
  | simple => exact sim_seq (sim_declare hr id _) ht
  | list hm => exact sim_seq (sim_declare hr id _) (sim_seq (sim_member wa wb hm ho) ht)
  | set hm => exact sim_seq (sim_declare hr id _) (sim_seq (sim_member wa wb hm ho) ht)
  | map hk hv => exact sim_seq (sim_declare hr id _) (sim_seq (sim_member wa.1 wb.1 hk ho) (sim_seq (sim_member wa.2 wb.2 hv ho) ht))
  | struct hm => exact sim_seq (sim_declare hr id _) (sim_seq (sim_members wa wb hm ho) ht)
  | union hm => exact sim_seq (sim_declare hr id _) (sim_seq (sim_members wa wb hm ho) ht)
  | service => exact sim_seq (sim_declare hr id _) (sim_seq (sim_insert ho rfl) (sim_seq (sim_targets ho _ _) (sim_seq (sim_targets ho _ _) ht)))
  | operation => exact sim_seq (sim_declare hr id _) (sim_seq (sim_targets ho _ _) (sim_seq (sim_targets ho _ _) (sim_seq (sim_targets ho _ _) ht)))
  | resource hm =>
    simp only [identifiersOf] at hi
    subst hi
    exact sim_seq (sim_declare hr id _) (sim_seq (sim_identifiers ho _) (sim_seq (sim_targets ho _ _) (sim_seq (sim_targets ho _ _)
      (sim_seq (sim_targets ho _ _) (sim_seq (sim_targets ho _ _) (sim_seq (sim_targets ho _ _) (sim_seq (sim_targets ho _ _)
      (sim_seq (sim_targets ho _ _) (sim_seq (sim_targets ho _ _) (sim_seq (sim_targets ho _ _) ht))))))))))
  | unresolved => exact sim_skip _

theorem sameKind_self (k : ShapeKind) : SameKind k k := by
  cases k with
  | simple => exact .simple
  | list m => exact .list ⟨rfl, rfl, sameTraits_self _⟩
  | set m => exact .set ⟨rfl, rfl, sameTraits_self _⟩
  | map k v => exact .map ⟨rfl, rfl, sameTraits_self _⟩ ⟨rfl, rfl, sameTraits_self _⟩
  | struct ms => exact .struct fun _ => optRel_self (fun m => ⟨rfl, rfl, sameTraits_self _⟩) _
  | union ms => exact .union fun _ => optRel_self (fun m => ⟨rfl, rfl, sameTraits_self _⟩) _
  | service s => exact .service fun _ => optRel_self (fun _ => rfl) _
  | operation => exact .operation
  | resource r => exact .resource fun _ => optRel_self (fun _ => rfl) _
  | unresolved => exact .unresolved

theorem sameShape_self (s : TopLevelShape) : SameShape s s := ⟨rfl, sameTraits_self _, sameKind_self _⟩

/-- The resources of the two models enumerate their identifiers in the same order. -/
def SameIdentifierOrder (a b : Model) : Prop :=
  ∀ id s t, a.shape id = some s → b.shape id = some t → identifiersOf s.body = identifiersOf t.body

theorem sim_model {a b : Model} (ha : WfModel a) (hb : WfModel b) (h : SameModel a b) (hi : SameIdentifierOrder a b) {G : Nat → Nat → Prop} {r r' : Node}
    (hr : NodeRel G r r') : Sim G (each (shapeEmit r) a.shapesList) (each (shapeEmit r') b.shapesList) := by
  obtain ⟨c, h1, h2⟩ := mapRel_forall₂ ha.nodup hb.nodup h.shapes
  unfold Model.shapesList AMap.values
  rw [each_map, each_map]
  have ga : ∀ e ∈ a.shapes, a.shape e.1 = some e.2 := fun e he => AMap.get_of_mem ha.nodup he
  have gb : ∀ e ∈ b.shapes, b.shape e.1 = some e.2 := fun e he => AMap.get_of_mem hb.nodup he
  refine sim_each_perm h1 (fun x hx => sim_shape (ha.shapes _ _ (ga x hx)) (ha.shapes _ _ (ga x hx)) (sameShape_self _) rfl hr.itself) ?_
  refine (forall₂_and_mem h2).imp fun x y hxy => ?_
  have hx := ga x (h1.mem_iff.mpr hxy.1)
  have hy := gb y hxy.2.1
  refine sim_shape (ha.shapes _ _ hx) (hb.shapes _ _ hy) hxy.2.2.2 (hi x.1 _ _ hx ?_) hr
  rw [hxy.2.2.1]; exact hy

/-! ### Graphs -/

theorem relabel_of_rel {f : Nat → Nat} {G : Nat → Nat → Prop} (hf : ∀ a b, G a b → f a = b) {st st' : Statement} (h : StRel G st st') :
    (⟨relabelNode f st.subj, st.pred, relabelObj f st.obj⟩ : Statement) = st' := by
  obtain ⟨s, p, o⟩ := st
  obtain ⟨s', p', o'⟩ := st'
  obtain ⟨h1, h2, h3⟩ := h
  have key : ∀ n n', NodeRel G n n' → relabelNode f n = n' := by
    intro n n' h
    cases n <;> cases n' <;> first | exact h.elim | skip
    · exact congrArg _ h
    · exact congrArg _ (hf _ _ h)
  have h4 : relabelObj f o = o' := by
    cases o <;> cases o' <;> first | exact h3.elim | skip
    · exact congrArg _ (key _ _ h3)
    · exact congrArg _ h3
  exact congr (congr (congrArg _ (key _ _ h1)) h2) h4

open Classical in
theorem sameGraph_of {G : Nat → Nat → Prop} {k : Nat} (hG : OneOne G 0 0 k) {g g' : Graph} (h : StSame G g g') : SameGraph g g' := by
  have hex : ∀ a, ∃ b, (a < k → G a b) ∧ (¬ a < k → b = a) := by
    intro a
    by_cases ha : a < k
    · obtain ⟨b, hb⟩ := hG.left a (by omega) (by omega)
      exact ⟨b, fun _ => hb, fun h => absurd ha h⟩
    · exact ⟨a, fun h => absurd h ha, fun _ => rfl⟩
  choose f h1 h2 using hex
  have hf : ∀ a b, G a b → f a = b := fun a b hab =>
    hG.fn _ _ _ (h1 a (by have := hG.within _ _ hab; omega)) hab
  refine ⟨f, ?_, fun st => ?_⟩
  · intro a a' he
    by_cases ha : a < k <;> by_cases ha' : a' < k
    · exact hG.inj _ _ _ (h1 a ha) (he ▸ h1 a' ha')
    · have := hG.within _ _ (h1 a ha); have := h2 a' ha'; omega
    · have := hG.within _ _ (h1 a' ha'); have := h2 a ha; omega
    · rw [h2 a ha, h2 a' ha'] at he; exact he
  · unfold relabel
    rw [List.mem_map]
    constructor
    · rintro ⟨x, hx, rfl⟩
      obtain ⟨y, hy, hxy⟩ := h.1 x hx
      rw [relabel_of_rel hf hxy]; exact hy
    · intro hst
      obtain ⟨x, hx, hxy⟩ := h.2 st hst
      exact ⟨x, hx, relabel_of_rel hf hxy⟩

/-- The graphs of two models whose shapes are written alike are the same. -/
theorem graph_of_sim {a b : Model} (hver : a.version = b.version)
    (hsim : ∀ {G : Nat → Nat → Prop} {r r' : Node}, NodeRel G r r' → Sim G (each (shapeEmit r) a.shapesList) (each (shapeEmit r') b.shapesList))
    (modelIri : Option Iri) : ∃ g g', modelToRdf a modelIri = .ok g ∧ modelToRdf b modelIri = .ok g' ∧ SameGraph g g' := by
  refine ⟨_, _, modelToRdf_eq a modelIri, modelToRdf_eq b modelIri, ?_⟩
  rw [hver]
  cases modelIri with
  | none =>
    have hb' : Below (fun x y => x = 0 ∧ y = 0) 1 1 := by rintro x y ⟨rfl, rfl⟩; omega
    obtain ⟨k, T, -, -, h3, h4⟩ := hsim (G := fun x y => x = 0 ∧ y = 0) (r := .blank 0) (r' := .blank 0) ⟨rfl, rfl⟩ 1 1 hb'
    have h5 : OneOne (fun x y => x = 0 ∧ y = 0) 0 0 1 := by
      refine ⟨?_, ?_, ?_, ?_, ?_⟩
      · rintro a b ⟨rfl, rfl⟩; omega
      · intro a h5 h6; exact ⟨0, by omega, rfl⟩
      · intro a h5 h6; exact ⟨0, rfl, by omega⟩
      · rintro a b b' ⟨-, rfl⟩ ⟨-, rfl⟩; rfl
      · rintro a b b' ⟨rfl, -⟩ ⟨rfl, -⟩; rfl
    refine sameGraph_of (h5.join h3 ⟨rfl, .inl rfl⟩) (StSame.append ?_ h4)
    have : ∀ st ∈ ([⟨.blank 0, smithyTerm %s"smithy_version", str b.version.display⟩,
      ⟨.blank 0, rdfTerm %s"type", res (smithyTerm %s"Model")⟩] : List Statement), StRel (Either (fun x y => x = 0 ∧ y = 0) T) st st := by
      intro st hst
      simp only [List.mem_cons, List.not_mem_nil, or_false] at hst
      rcases hst with rfl | rfl
      · exact ⟨.inl ⟨rfl, rfl⟩, rfl, rfl⟩
      · exact ⟨.inl ⟨rfl, rfl⟩, rfl, rfl⟩
    exact ⟨fun st hst => ⟨st, hst, this st hst⟩, fun st hst => ⟨st, hst, this st hst⟩⟩
  | some i =>
    have hb' : Below (fun x y => False) 0 0 := by rintro x y h; exact h.elim
    obtain ⟨k, T, -, -, h3, h4⟩ := hsim (G := fun _ _ => False) (r := .iri i) (r' := .iri i) rfl 0 0 hb'
    have h5 : OneOne (Either (fun _ _ => False) T) 0 0 k := by
      have : Either (fun _ _ => False) T = T := by funext x y; simp [Either]
      rw [this]; exact h3
    refine sameGraph_of h5 (StSame.append ?_ h4)
    have : ∀ st ∈ ([⟨.iri i, smithyTerm %s"smithy_version", str b.version.display⟩,
      ⟨.iri i, rdfTerm %s"type", res (smithyTerm %s"Model")⟩] : List Statement), StRel (Either (fun _ _ => False) T) st st := by
      intro st hst
      simp only [List.mem_cons, List.not_mem_nil, or_false] at hst
      rcases hst with rfl | rfl
      · exact ⟨rfl, rfl, rfl⟩
      · exact ⟨rfl, rfl, rfl⟩
    exact ⟨fun st hst => ⟨st, hst, this st hst⟩, fun st hst => ⟨st, hst, this st hst⟩⟩

/-- The graphs of two models that are the same, with the identifiers of resources in the same order, are the same. -/
theorem same_graph {a b : Model} (ha : WfModel a) (hb : WfModel b) (h : SameModel a b) (hi : SameIdentifierOrder a b) (modelIri : Option Iri) :
    ∃ g g', modelToRdf a modelIri = .ok g ∧ modelToRdf b modelIri = .ok g' ∧ SameGraph g g' :=
  graph_of_sim h.version (fun hr => sim_model ha hb h hi hr) modelIri

/-! ### The order of identifiers -/

theorem rdf_inj {a b : Str} (h : rdfTerm a = rdfTerm b) : a = b := by
  unfold rdfTerm at h; injection h with _ _ _ _ h; injection h

theorem mem_bag (l : List Obj) (i : Nat) (o : Obj) : l[i]? = some o ↔ (rdfTerm ('_' :: showNat (i + 1)), o) ∈
    ((rdfTerm %s"type", res (rdfTerm %s"Bag")) :: (l.zipIdx 1).map fun (p, i) => (rdfTerm ('_' :: (toString i).toList), p)) := by
  constructor
  · intro h
    refine List.mem_cons_of_mem _ (List.mem_map.mpr ⟨(o, i + 1), ?_, rfl⟩)
    rw [List.mem_zipIdx_iff_le_and_getElem?_sub]
    exact ⟨by simp, by simpa using h⟩
  · intro h
    rcases List.mem_cons.mp h with h | h
    · injection h with h _
      exact absurd (rdf_inj h) (by simp)
    · obtain ⟨⟨x, j⟩, hx, he⟩ := List.mem_map.mp h
      injection he with he1 he2
      subst he2
      have h1 := rdf_inj he1
      injection h1 with _ h1
      have h2 : j = i + 1 := GraphML.showNat_inj h1
      subst h2
      rw [List.mem_zipIdx_iff_le_and_getElem?_sub] at hx
      simpa using hx.2

theorem identifiers_order {g : Graph} {os os' : List Obj} {a b : List (Str × ShapeID)} (h : IdentifiersAt g os a) (h' : IdentifiersAt g os' b)
    (hs : ∀ o, o ∈ os ↔ o ∈ os') (hva : ∀ e ∈ a, e.2.Valid) (hvb : ∀ e ∈ b, e.2.Valid) : a = b := by
  rcases h with ⟨rfl, rfl⟩ | ⟨-, n, ps, rfl, h1, h2⟩
  · rcases h' with ⟨rfl, rfl⟩ | ⟨-, n', ps', rfl, -, -⟩
    · rfl
    · have := (hs _).mpr List.mem_cons_self; cases this
  · rcases h' with ⟨rfl, rfl⟩ | ⟨-, n', ps', rfl, h3, h4⟩
    · have := (hs _).mp List.mem_cons_self; cases this
    · have hn := (hs _).mp List.mem_cons_self
      rw [List.mem_singleton] at hn
      cases hn
      have hps : ps = ps' := by
        refine List.ext_getElem? fun i => Option.ext fun o => ?_
        rw [mem_bag, mem_bag]
        exact about_same h2 h4 _
      subst hps
      clear h2 h4 hs
      induction h1 generalizing b with
      | nil => cases h3; rfl
      | cons x1 _ ih =>
        cases h3 with
        | cons y1 y2 =>
          rw [identifier_same x1 y1 (hva _ (by simp)) (hvb _ (by simp)), ih (fun e he => hva e (by simp [he])) (fun e he => hvb e (by simp [he])) y2]

/-- The same model with its shapes and metadata enumerated in the opposite order. -/
def _root_.Verif.Spec.turned (m : Model) : Model := { m with metadata := m.metadata.reverse, shapes := m.shapes.reverse }

theorem turned_same {m : Model} (hw : WfModel m) : SameModel m (turned m) ∧ WfModel (turned m) ∧ ∀ id, (turned m).shape id = m.shape id := by
  have e1 : ∀ k, AMap.get (turned m).metadata k = AMap.get m.metadata k := fun k => (AMap.get_perm (List.reverse_perm _).symm hw.metaNodup k).symm
  have e2 : ∀ k, AMap.get (turned m).shapes k = AMap.get m.shapes k := fun k => (AMap.get_perm (List.reverse_perm _).symm hw.nodup k).symm
  refine ⟨⟨rfl, fun k => ?_, fun k => ?_⟩, ⟨AMap.wf_perm (List.reverse_perm _).symm hw.metaNodup, fun k v h => ?_, AMap.wf_perm (List.reverse_perm _).symm hw.nodup,
    fun id s h => ?_, fun id s h => ?_, fun id s h => ?_⟩, e2⟩
  · rw [e1]; exact MapRel.refl Same.refl _ k
  · rw [e2]; exact MapRel.refl SameShape.refl _ k
  · rw [e1] at h; exact hw.metaValues k v h
  all_goals unfold Model.shape at h; rw [e2] at h
  · exact hw.key id s h
  · exact hw.member id s h
  · exact hw.shapes id s h

theorem turned_ok {m : Model} (hw : WfModel m) (hv : ValidModel m) : SameModel m (turned m) ∧ WfModel (turned m) ∧ ValidModel (turned m) := by
  obtain ⟨h1, h2, h3⟩ := turned_same hw
  exact ⟨h1, h2, fun id s h => hv id s (by rw [← h3]; exact h)⟩

/-- **C108** The RDF graph of a model does not depend on the order in which its maps (shapes, members, traits, objects) are enumerated,
up to the labels of blank nodes, but for one thing: the identifiers of resources are numbered in the order in which they are
enumerated, so that the graphs are the same if and only if that order is. -/
theorem C108_rdf (a b : Model) (modelIri : Option Iri) (ha : WfModel a) (hb : WfModel b) (hva : ValidModel a) (hvb : ValidModel b)
    (hr : ∀ id s, DefinesShape a id s → modelIri ≠ some (shapeToIri id)) (h : SameModel a b) :
    ∃ g g', modelToRdf a modelIri = .ok g ∧ modelToRdf b modelIri = .ok g' ∧
      (SameGraph g g' ↔ ∀ id s t, a.shape id = some s → b.shape id = some t → identifiersOf s.body = identifiersOf t.body) := by
  have hrb : ∀ id s, DefinesShape b id s → modelIri ≠ some (shapeToIri id) := by
    intro id t ht
    have h1 := h.shapes id
    have h2 : AMap.get b.shapes id = some t := ht.1
    rw [h2] at h1
    generalize hx : AMap.get a.shapes id = x at h1
    cases h1 with
    | some h3 =>
      refine hr id _ ⟨hx, fun hu => ht.2 ?_⟩
      have := h3.body
      rw [hu] at this
      generalize t.body = k at this
      cases this; rfl
  obtain ⟨g, root, h1, h2, -⟩ := C68_describes a modelIri ha hva hr
  obtain ⟨g', root', h3, h4, -⟩ := C68_describes b modelIri hb hvb hrb
  refine ⟨g, g', h1, h3, ?_, fun hi => ?_⟩
  · rintro ⟨f, hf⟩ id s t hs ht
    have h5 := model_relabel (f := f) hf h2
    have hbody : SameKind s.body t.body := by
      have h6 := h.shapes id
      have e1 : AMap.get a.shapes id = some s := hs
      have e2 : AMap.get b.shapes id = some t := ht
      rw [e1, e2] at h6
      cases h6 with | some h7 => exact h7.body
    by_cases hu : s.body = .unresolved
    · rw [hu] at hbody
      rw [hu]
      generalize t.body = k at hbody
      cases hbody; rfl
    have hu' : t.body ≠ .unresolved := by
      intro hu'
      rw [hu'] at hbody
      generalize s.body = k at hbody hu
      cases hbody; exact hu rfl
    obtain ⟨-, -, v2⟩ := hva id s hs
    obtain ⟨-, -, v4⟩ := hvb id t ht
    obtain ⟨-, -, -, -, ⟨ids, ids', hi, hi', his⟩, -⟩ := shape_parts ((ha.key id s hs).trans (hb.key id t ht).symm)
      (h5.shapes id s ⟨hs, hu⟩) (h4.shapes id t ⟨ht, hu'⟩) v2 v4
    have hid : ∀ {k : ShapeKind}, ValidKind k → WfKind k → ∀ e ∈ identifiersOf k, e.2.Valid := by
      intro k hk hw e he
      cases k <;> simp only [identifiersOf, List.not_mem_nil] at he
      exact (hk.1 e.1 e.2 (AMap.get_of_mem hw he)).2
    exact identifiers_order hi hi' his (hid v2 (ha.shapes id s hs).body) (hid v4 (hb.shapes id t ht).body)
  · obtain ⟨x, y, e1, e2, e3⟩ := same_graph ha hb h hi modelIri
    rw [h1] at e1; cases e1
    rw [h3] at e2; cases e2
    exact e3

/-- The example model has no resources, so its graph is the same when its maps are enumerated in the opposite order. -/
example : ∃ g g', modelToRdf exJsonModel (some exIri) = .ok g ∧ modelToRdf (turned exJsonModel) (some exIri) = .ok g' ∧ SameGraph g g' := by
  obtain ⟨h1, h2, h3⟩ := turned_ok exJsonModel_ok.1 exJsonModel_ok.2.1
  obtain ⟨g, g', hg, hg', h⟩ := C108_rdf exJsonModel (turned exJsonModel) (some exIri) exJsonModel_ok.1 h2 exJsonModel_ok.2.1 h3 (exIri_free _) h1
  refine ⟨g, g', hg, hg', h.mpr fun id s t hs ht => ?_⟩
  have e : (turned exJsonModel).shape id = exJsonModel.shape id :=
    (AMap.get_perm (List.reverse_perm _).symm exJsonModel_ok.1.nodup id).symm
  rw [e, hs] at ht
  rw [Option.some.inj ht]

/-- A model with one resource with these identifiers. -/
def exNumbered (ids : AMap Str ShapeID) : Model := ⟨.v10, [], [(sid %s"R", ⟨sid %s"R", [], .resource { Resource.default with identifiers := ids }⟩)]⟩

/-- **C108** The graph of the same model may differ between two runs: a resource with two identifiers has two graphs. -/
theorem C108_rdf_violated : ∃ a b : Model, WfModel a ∧ WfModel b ∧ ValidModel a ∧ ValidModel b ∧ SameModel a b ∧
    ∃ g g', modelToRdf a (some exIri) = .ok g ∧ modelToRdf b (some exIri) = .ok g' ∧ ¬ SameGraph g g' := by
  have ok : ∀ ids : AMap Str ShapeID, ids.Perm [(%s"a", sid %s"A"), (%s"b", sid %s"A")] → WfModel (exNumbered ids) ∧ ValidModel (exNumbered ids) := by
    intro ids hp
    have hw : AMap.Wf ids := AMap.wf_perm hp.symm (by unfold AMap.Wf; decide)
    have hs : ∀ id s, (exNumbered ids).shape id = some s → id = sid %s"R" ∧ s = ⟨sid %s"R", [], .resource { Resource.default with identifiers := ids }⟩ := by
      intro id s h
      have := AMap.mem_of_get h
      simpa [exNumbered] using this
    refine ⟨⟨AMap.wf_nil, (by intro k v h; cases h), (by simp [AMap.Wf, exNumbered, AMap.keys]), fun id s h => ?_, fun id s h hm => ?_, fun id s h => ?_⟩, fun id s h => ?_⟩
    all_goals obtain ⟨rfl, rfl⟩ := hs id s h
    · rfl
    · exact absurd hm (by decide)
    · exact ⟨⟨AMap.wf_nil, (by intro k v h; cases h)⟩, hw⟩
    · refine ⟨valid_sid rfl, (by intro k v h; cases h), ⟨fun k t h => ?_, (by intro l id h; cases l <;> cases h), (by intro id h; cases h), (by intro id h; cases h),
        (by intro id h; cases h)⟩⟩
      have hm := hp.mem_iff.mp (AMap.mem_of_get h)
      simp at hm
      rcases hm with ⟨rfl, rfl⟩ | ⟨rfl, rfl⟩
      · exact ⟨(isIdent_iff _).mp rfl, valid_sid rfl⟩
      · exact ⟨(isIdent_iff _).mp rfl, valid_sid rfl⟩
  have ha := ok _ (.refl _)
  have hb := ok [(%s"b", sid %s"A"), (%s"a", sid %s"A")] (.swap _ _ _)
  have hsame : SameModel (exNumbered [(%s"a", sid %s"A"), (%s"b", sid %s"A")]) (exNumbered [(%s"b", sid %s"A"), (%s"a", sid %s"A")]) := by
    refine ⟨rfl, fun k => .none, fun k => ?_⟩
    simp only [exNumbered, AMap.get_cons, AMap.get_nil]
    split
    · refine .some ⟨rfl, fun k => .none, .resource fun k => ?_⟩
      rw [AMap.get_perm (.swap _ _ _) (by unfold AMap.Wf; decide)]
      generalize AMap.get _ k = o
      cases o
      · exact .none
      · exact .some rfl
    · exact .none
  obtain ⟨g, g', hg, hg', h⟩ := C108_rdf _ _ (some exIri) ha.1 hb.1 ha.2 hb.2 (exIri_free _) hsame
  refine ⟨_, _, ha.1, hb.1, ha.2, hb.2, hsame, g, g', hg, hg', fun hsg => ?_⟩
  have := h.mp hsg (sid %s"R") _ _ rfl rfl
  revert this
  decide

end Rdf
end Verif
