/-
Lemmas about the model builder.
-/
import Verif.BuilderSpec
import Verif.MergeSame
import Verif.ServiceProps

namespace Verif
open Spec

/-! ### Resolution -/

theorem mem_referenceNames {mb : ModelBuilder} (h : WfBuilder mb) (n : ShapeName) :
    n ∈ mb.referenceNames ↔ ∃ b, mb.shapes.get n = some b ∧ b.body = .reference := by
  simp only [ModelBuilder.referenceNames, List.mem_map, List.mem_filter]
  constructor
  · rintro ⟨⟨k, b⟩, ⟨hm, hr⟩, rfl⟩
    refine ⟨b, AMap.get_of_mem h.nodup hm, ?_⟩
    cases hb : b.body <;> simp [hb, BuilderBody.isReference] at hr ⊢
  · rintro ⟨b, hb, hr⟩
    exact ⟨(n, b), ⟨AMap.mem_of_get hb, by simp [hr, BuilderBody.isReference]⟩, rfl⟩

theorem referenceNames_nodup {mb : ModelBuilder} (h : WfBuilder mb) : mb.referenceNames.Nodup := by
  have : (AMap.keys mb.shapes).Nodup := h.nodup
  unfold ModelBuilder.referenceNames
  exact List.Sublist.nodup (List.Sublist.map _ List.filter_sublist) this

theorem mem_matching {mb : ModelBuilder} (h : WfBuilder mb) (l : Str) (n : ShapeName) :
    n ∈ mb.referenceNames.filter (fun n => identEq n.shapeName l) ↔ ∃ id, n = .qualified id ∧ Imports mb l id := by
  rw [List.mem_filter, mem_referenceNames h]
  constructor
  · rintro ⟨⟨b, hb, hr⟩, he⟩
    obtain ⟨id, rfl⟩ := h.reference _ _ hb hr
    exact ⟨id, rfl, b, hb, hr, by simpa [identEq, ShapeName.shapeName, SameName] using he⟩
  · rintro ⟨id, rfl, b, hb, hr, he⟩
    exact ⟨⟨b, hb, hr⟩, by simpa [identEq, ShapeName.shapeName, SameName] using he⟩

theorem definedLocally_iff (mb : ModelBuilder) (l : Str) :
    AMap.contains mb.shapes (.local' l) = true ↔ DefinedLocally mb l := by
  simp [AMap.contains, DefinedLocally, Option.isSome_iff_exists]

theorem inPrelude_iff (tr : Bool) (l : Str) :
    ((!tr && preludeShapes.contains l) || (tr && preludeTraits.contains l)) = true ↔ InPrelude tr l := by
  cases tr <;> simp [InPrelude]

theorem resolve_local_none {mb : ModelBuilder} (tr : Bool) (l : Str)
    (hn : mb.referenceNames.filter (fun n => identEq n.shapeName l) = []) :
    mb.resolveShapeName (.local' l) tr =
      if AMap.contains mb.shapes (.local' l) then .ok (NamespaceID.makeShape mb.defaultNs l, false)
      else if (!tr && preludeShapes.contains l) || (tr && preludeTraits.contains l) then
        .ok (NamespaceID.makeShape preludeNs l, false)
      else .ok (NamespaceID.makeShape mb.defaultNs l, true) := by
  simp only [ModelBuilder.resolveShapeName, hn]

theorem resolveShapeName_iff {mb : ModelBuilder} (h : WfBuilder mb) (tr : Bool) (n : ShapeName) (id : ShapeID) (new : Bool) :
    mb.resolveShapeName n tr = .ok (id, new) ↔ Resolves mb tr n id new := by
  cases n with
  | qualified q =>
    simp only [ModelBuilder.resolveShapeName, ShapeID.isMember]
    constructor
    · intro hr
      cases hq : q.member with
      | none => simp [hq] at hr; obtain ⟨rfl, rfl⟩ := hr; exact .absolute hq
      | some m => simp [hq] at hr
    · rintro ⟨hq⟩
      simp [hq]
  | local' l =>
    have hm := mem_matching h l
    have hnd : (mb.referenceNames.filter (fun n => identEq n.shapeName l)).Nodup :=
      List.Sublist.nodup List.filter_sublist (referenceNames_nodup h)
    match hL : mb.referenceNames.filter (fun n => identEq n.shapeName l) with
    | [] =>
      have hno : ∀ id, ¬ Imports mb l id := fun id hi => by
        have := (hm (.qualified id)).mpr ⟨id, rfl, hi⟩
        simp [hL] at this
      rw [resolve_local_none tr l hL]
      constructor
      · intro hr
        split at hr
        · next hd =>
          simp at hr; obtain ⟨rfl, rfl⟩ := hr
          exact .defined hno ((definedLocally_iff mb l).mp hd)
        · next hd =>
          rw [definedLocally_iff] at hd
          split at hr
          · next hp =>
            simp at hr; obtain ⟨rfl, rfl⟩ := hr
            exact .prelude hno hd ((inPrelude_iff tr l).mp hp)
          · next hp =>
            simp at hr; obtain ⟨rfl, rfl⟩ := hr
            exact .unknown hno hd (fun hi => hp ((inPrelude_iff tr l).mpr hi))
      · intro hr
        cases hr with
        | imported hi => exact absurd hi (hno _)
        | defined _ hd => rw [if_pos ((definedLocally_iff mb l).mpr hd)]; rfl
        | prelude _ hd hp =>
          rw [if_neg (fun hc => hd ((definedLocally_iff mb l).mp hc)), if_pos ((inPrelude_iff tr l).mpr hp)]; rfl
        | unknown _ hd hp =>
          rw [if_neg (fun hc => hd ((definedLocally_iff mb l).mp hc)), if_neg (fun hc => hp ((inPrelude_iff tr l).mp hc))]; rfl
    | [.qualified q] =>
      rw [hL] at hm
      have hone : ∀ id, Imports mb l id ↔ id = q := by
        intro id
        have := hm (.qualified id)
        simp at this
        exact this.symm
      simp only [ModelBuilder.resolveShapeName, hL]
      constructor
      · intro hr
        simp at hr; obtain ⟨rfl, rfl⟩ := hr
        exact .imported ((hone _).mpr rfl) fun id' hi => (hone _).mp hi
      · intro hr
        cases hr with
        | imported hi => rw [(hone _).mp hi]
        | defined hno => exact absurd ((hone _).mpr rfl) (hno _)
        | prelude hno => exact absurd ((hone _).mpr rfl) (hno _)
        | unknown hno => exact absurd ((hone _).mpr rfl) (hno _)
    | [.local' q] =>
      have := (hm (.local' q)).mp (by rw [hL]; simp)
      obtain ⟨_, h1, _⟩ := this
      cases h1
    | a :: b :: t =>
      have ha := (hm a).mp (by rw [hL]; simp)
      have hb := (hm b).mp (by rw [hL]; simp)
      rw [hL] at hnd
      have hne : a ≠ b := fun e => by subst e; simp at hnd
      obtain ⟨ia, rfl, hia⟩ := ha
      obtain ⟨ib, rfl, hib⟩ := hb
      have hne' : ia ≠ ib := fun e => hne (by rw [e])
      simp only [ModelBuilder.resolveShapeName, hL]
      constructor
      · intro hr
        cases hr
      · intro hr
        cases hr with
        | imported hi hu => exact absurd ((hu _ hia).trans (hu _ hib).symm) hne'
        | defined hno => exact absurd hia (hno _)
        | prelude hno => exact absurd hia (hno _)
        | unknown hno => exact absurd hia (hno _)

theorem Spec.Resolves.unique {mb : ModelBuilder} (h : WfBuilder mb) {tr : Bool} {n : ShapeName} {i j : ShapeID} {a b : Bool}
    (h1 : Resolves mb tr n i a) (h2 : Resolves mb tr n j b) : i = j ∧ a = b := by
  have e1 := (resolveShapeName_iff h tr n i a).mpr h1
  have e2 := (resolveShapeName_iff h tr n j b).mpr h2
  rw [e1] at e2
  simpa using e2

/-! ### The `Mk` monad -/

namespace Mk

/-- When the computation succeeds, what holds of its result, and what it inserts. -/
structure Ok {α : Type} (x : Mk α) (good : Prop) (post : α → Prop) (refs : ShapeID → Prop) : Prop where
  good : (∃ a r, x = .ok (a, r)) ↔ good
  post : ∀ a r, x = .ok (a, r) → post a ∧ ∀ id, id ∈ r ↔ refs id

theorem bind_ok {α β : Type} {x : Mk α} {f : α → Mk β} {b : β} {r : List ShapeID} :
    (x >>= f) = Except.ok (b, r) ↔ ∃ a r1 r2, x = .ok (a, r1) ∧ f a = .ok (b, r2) ∧ r = r1 ++ r2 := by
  show Mk.bind x f = _ ↔ _
  unfold Mk.bind
  match x with
  | .error e => exact ⟨fun h => (by cases h), fun ⟨_, _, _, h, _⟩ => (by cases h)⟩
  | .ok (a, r1) =>
    match hf : f a with
    | .error e =>
      constructor
      · intro h; simp only [hf] at h; cases h
      · rintro ⟨_, _, _, h, h', _⟩; cases h; rw [hf] at h'; cases h'
    | .ok (b', r2) =>
      constructor
      · intro h; simp only [hf] at h; cases h; exact ⟨a, r1, r2, rfl, hf, rfl⟩
      · rintro ⟨_, _, _, h, h', rfl⟩; cases h; rw [hf] at h'; cases h'; simp only [hf]; rfl

theorem pure_ok {α : Type} {a b : α} {r : List ShapeID} : (pure a : Mk α) = Except.ok (b, r) ↔ a = b ∧ r = [] := by
  show (Except.ok (a, []) : Except Err (α × List ShapeID)) = _ ↔ _
  simp [eq_comm]

theorem Ok.pure {α : Type} {a : α} {post : α → Prop} (h : post a) : Ok (pure a) True post (fun _ => False) := by
  refine ⟨⟨fun _ => trivial, fun _ => ⟨a, [], rfl⟩⟩, ?_⟩
  intro b r hb
  obtain ⟨rfl, rfl⟩ := pure_ok.mp hb
  exact ⟨h, fun _ => by simp⟩

theorem Ok.bind {α β : Type} {x : Mk α} {f : α → Mk β} {g1 g2 : Prop} {p1 : α → Prop} {p2 : β → Prop} {r1 r2 : ShapeID → Prop}
    (hx : Ok x g1 p1 r1) (hf : ∀ a, p1 a → Ok (f a) g2 p2 r2) : Ok (x >>= f) (g1 ∧ g2) p2 (fun id => r1 id ∨ r2 id) := by
  constructor
  · constructor
    · rintro ⟨b, r, hb⟩
      obtain ⟨a, q1, q2, ha, hb', rfl⟩ := bind_ok.mp hb
      exact ⟨hx.good.mp ⟨_, _, ha⟩, (hf a (hx.post _ _ ha).1).good.mp ⟨_, _, hb'⟩⟩
    · rintro ⟨h1, h2⟩
      obtain ⟨a, q1, ha⟩ := hx.good.mpr h1
      obtain ⟨b, q2, hb⟩ := (hf a (hx.post _ _ ha).1).good.mpr h2
      exact ⟨b, q1 ++ q2, bind_ok.mpr ⟨a, q1, q2, ha, hb, rfl⟩⟩
  · intro b r hb
    obtain ⟨a, q1, q2, ha, hb', rfl⟩ := bind_ok.mp hb
    have h1 := hx.post _ _ ha
    have h2 := (hf a h1.1).post _ _ hb'
    refine ⟨h2.1, fun id => ?_⟩
    rw [List.mem_append, h1.2, h2.2]

theorem Ok.mono {α : Type} {x : Mk α} {g g' : Prop} {p p' : α → Prop} {r r' : ShapeID → Prop} (h : Ok x g p r)
    (hg : g ↔ g') (hp : ∀ a, p a → p' a) (hr : ∀ id, r id ↔ r' id) : Ok x g' p' r' :=
  ⟨h.good.trans hg, fun a q ha => ⟨hp a (h.post a q ha).1, fun id => ((h.post a q ha).2 id).trans (hr id)⟩⟩

theorem Ok.mapL {α β : Type} {f : α → Mk β} {g : α → Prop} {p : α → β → Prop} {r : α → ShapeID → Prop} (l : List α)
    (hf : ∀ a ∈ l, Ok (f a) (g a) (p a) (r a)) :
    Ok (Mk.mapL f l) (∀ a ∈ l, g a) (ListRel p l) (fun id => ∃ a ∈ l, r a id) := by
  induction l with
  | nil =>
    refine (Ok.pure (post := ListRel p []) ?_).mono (by simp) (fun _ h => h) (by simp)
    exact ⟨rfl, by simp⟩
  | cons a l ih =>
    have ih := ih fun b hb => hf b (List.mem_cons_of_mem _ hb)
    refine ((hf a List.mem_cons_self).bind fun b hb => ih.bind fun bs hbs =>
      Ok.pure (post := ListRel p (a :: l)) ?_).mono ?_ (fun _ h => h) ?_
    · refine ⟨by simp [hbs.1], ?_⟩
      intro i x y hx hy
      cases i with
      | zero => simp at hx hy; subst hx hy; exact hb
      | succ i => simp at hx hy; exact hbs.2 i x y hx hy
    · simp
    · intro id; simp

theorem Ok.mapO {α β : Type} {f : α → Mk β} {g : α → Prop} {p : α → β → Prop} {r : α → ShapeID → Prop} (o : Option α)
    (hf : ∀ a ∈ o.toList, Ok (f a) (g a) (p a) (r a)) :
    Ok (Mk.mapO f o) (∀ a ∈ o.toList, g a) (OptRel p o) (fun id => ∃ a ∈ o.toList, r a id) := by
  cases o with
  | none => exact (Ok.pure (post := OptRel p none) OptRel.none).mono (by simp) (fun _ h => h) (by simp)
  | some a =>
    refine ((hf a (by simp)).bind fun b hb => Ok.pure (post := OptRel p (some a)) (OptRel.some hb)).mono ?_ (fun _ h => h) ?_
    · simp
    · intro id; simp

theorem Ok.lift {α : Type} {x : Except Err α} {g : Prop} {p : α → Prop} (hg : (∃ a, x = .ok a) ↔ g) (hp : ∀ a, x = .ok a → p a) :
    Ok (Mk.lift x) g p (fun _ => False) := by
  cases x with
  | error e => exact ⟨by simpa [Mk.lift] using hg, fun a r h => by cases h⟩
  | ok a =>
    refine ⟨?_, ?_⟩
    · rw [← hg]; exact ⟨fun _ => ⟨a, rfl⟩, fun _ => ⟨a, [], rfl⟩⟩
    · intro b r h
      cases h
      exact ⟨hp a rfl, by simp⟩

end Mk

/-! ### Making shapes -/

open Mk

/-- A name that stands for some id. -/
def Known (mb : ModelBuilder) (tr : Bool) (n : ShapeName) : Prop := ∃ id new, Resolves mb tr n id new

theorem resolve_ok {mb : ModelBuilder} (h : WfBuilder mb) (tr : Bool) (n : ShapeName) :
    Ok (mb.resolve tr n) (Known mb tr n) (fun id => ∃ new, Resolves mb tr n id new) (fun id => Resolves mb tr n id true) := by
  constructor
  · unfold ModelBuilder.resolve Known
    constructor
    · rintro ⟨a, r, hr⟩
      split at hr
      · next id new he => exact ⟨id, new, (resolveShapeName_iff h tr n id new).mp he⟩
      · cases hr
    · rintro ⟨id, new, hr⟩
      rw [(resolveShapeName_iff h tr n id new).mpr hr]
      exact ⟨_, _, rfl⟩
  · intro a r hr
    unfold ModelBuilder.resolve at hr
    split at hr
    · next id new he =>
      rw [resolveShapeName_iff h] at he
      cases hr
      refine ⟨⟨new, he⟩, fun j => ?_⟩
      constructor
      · intro hj
        cases new with
        | true => simp at hj; subst hj; exact he
        | false => simp at hj
      · intro hj
        obtain ⟨rfl, rfl⟩ := he.unique h hj
        simp
    · cases hr

theorem listRel_split {α β : Type} {R : α → β → Prop} {l : List α} {m : List β} (h : ListRel R l m) :
    (∀ a ∈ l, ∃ b ∈ m, R a b) ∧ (∀ b ∈ m, ∃ a ∈ l, R a b) := by
  constructor
  · intro a ha
    obtain ⟨i, hi, rfl⟩ := List.mem_iff_getElem.mp ha
    have hi' : i < m.length := h.1 ▸ hi
    exact ⟨m[i], List.getElem_mem _, h.2 i _ _ (List.getElem?_eq_getElem hi) (List.getElem?_eq_getElem hi')⟩
  · intro b hb
    obtain ⟨i, hi, rfl⟩ := List.mem_iff_getElem.mp hb
    have hi' : i < l.length := h.1.symm ▸ hi
    exact ⟨l[i], List.getElem_mem _, h.2 i _ _ (List.getElem?_eq_getElem hi') (List.getElem?_eq_getElem hi)⟩

theorem listRel_nil {α β : Type} {R : α → β → Prop} : ListRel R ([] : List α) ([] : List β) := ⟨rfl, by simp⟩

theorem listRel_cons {α β : Type} {R : α → β → Prop} {a : α} {b : β} {l : List α} {m : List β} :
    ListRel R (a :: l) (b :: m) ↔ R a b ∧ ListRel R l m := by
  constructor
  · rintro ⟨h1, h2⟩
    exact ⟨h2 0 a b rfl rfl, by simpa using h1, fun i x y hx hy => h2 (i + 1) x y (by simpa using hx) (by simpa using hy)⟩
  · rintro ⟨h0, h1, h2⟩
    refine ⟨by simp [h1], ?_⟩
    intro i x y hx hy
    cases i with
    | zero => simp at hx hy; subst hx hy; exact h0
    | succ i => exact h2 i x y (by simpa using hx) (by simpa using hy)

theorem listRel_cons_left {α β : Type} {R : α → β → Prop} {a : α} {l : List α} {m : List β} (h : ListRel R (a :: l) m) :
    ∃ b m', m = b :: m' ∧ R a b ∧ ListRel R l m' := by
  cases m with
  | nil => cases h.1
  | cons b m' => exact ⟨b, m', rfl, listRel_cons.mp h⟩

theorem listRel_nil_left {α β : Type} {R : α → β → Prop} {m : List β} (h : ListRel R ([] : List α) m) : m = [] := by
  cases m with
  | nil => rfl
  | cons => cases h.1

theorem listRel_mono {α β : Type} {R S : α → β → Prop} {l : List α} {m : List β} (hRS : ∀ a b, R a b → S a b)
    (h : ListRel R l m) : ListRel S l m := ⟨h.1, fun i x y hx hy => hRS _ _ (h.2 i x y hx hy)⟩

/-- The pairs collected by `make_traits`. -/
def PairOf (mb : ModelBuilder) (t : TraitBuilder) (e : ShapeID × TraitValue) : Prop :=
  TraitTarget mb t.name e.1 ∧ e.2 = t.value

theorem makeTrait_ok {mb : ModelBuilder} (h : WfBuilder mb) (t : TraitBuilder) :
    Ok (mb.makeTrait t) (Known mb true t.name) (PairOf mb t) (fun id => Resolves mb true t.name id true) := by
  refine ((resolve_ok h true t.name).bind fun id hid => Ok.pure (show PairOf mb t (id, t.value) from ⟨hid, rfl⟩)).mono ?_ (fun _ h => h) ?_
  · simp
  · simp

theorem listRel_concat_left {α β : Type} {R : α → β → Prop} {l : List α} {a : α} {m : List β} (h : ListRel R (l ++ [a]) m) :
    ∃ m' b, m = m' ++ [b] ∧ ListRel R l m' ∧ R a b := by
  induction l generalizing m with
  | nil =>
    obtain ⟨b, m', rfl, hb, hm⟩ := listRel_cons_left h
    rw [listRel_nil_left hm]
    exact ⟨[], b, rfl, listRel_nil, hb⟩
  | cons x l ih =>
    obtain ⟨b, m', rfl, hb, hm⟩ := listRel_cons_left h
    obtain ⟨m'', c, rfl, h1, h2⟩ := ih hm
    exact ⟨b :: m'', c, rfl, listRel_cons.mpr ⟨hb, h1⟩, h2⟩

theorem lastTrait_nil {mb : ModelBuilder} {id : ShapeID} {v : TraitValue} : ¬ LastTrait mb [] id v := by
  rintro ⟨pre, tb, post, he, _⟩; simp at he

theorem lastTrait_concat {mb : ModelBuilder} {l : List TraitBuilder} {tb : TraitBuilder} {id : ShapeID} {v : TraitValue} :
    LastTrait mb (l ++ [tb]) id v ↔
      (TraitTarget mb tb.name id ∧ tb.value = v) ∨ (¬ TraitTarget mb tb.name id ∧ LastTrait mb l id v) := by
  constructor
  · rintro ⟨pre, t, post, he, ht, hv, hp⟩
    rcases List.eq_nil_or_concat post with rfl | ⟨post', t', rfl⟩
    · obtain ⟨rfl, he⟩ := List.append_inj' he rfl
      simp at he; subst he
      exact .inl ⟨ht, hv⟩
    · have he' : l ++ [tb] = (pre ++ t :: post') ++ [t'] := by simpa using he
      obtain ⟨rfl, he'⟩ := List.append_inj' he' rfl
      simp at he'; subst he'
      exact .inr ⟨hp tb (by simp), pre, t, post', rfl, ht, hv, fun x hx => hp x (by simp [hx])⟩
  · rintro (⟨ht, hv⟩ | ⟨hn, pre, t, post, rfl, ht, hv, hp⟩)
    · exact ⟨l, tb, [], rfl, ht, hv, by simp⟩
    · refine ⟨pre, t, post ++ [tb], by simp, ht, hv, ?_⟩
      intro x hx
      rcases List.mem_append.mp hx with hx | hx
      · exact hp x hx
      · simp at hx; subst hx; exact hn

theorem pairs_last {mb : ModelBuilder} (h : WfBuilder mb) (n : Nat) {tbs : List TraitBuilder} (hn : tbs.length = n)
    {ps : List (ShapeID × TraitValue)} (hp : ListRel (PairOf mb) tbs ps) (id : ShapeID) (v : TraitValue) :
    AMap.get ps.reverse id = some v ↔ LastTrait mb tbs id v := by
  induction n generalizing tbs ps with
  | zero =>
    have : tbs = [] := List.eq_nil_of_length_eq_zero hn
    subst this
    rw [listRel_nil_left hp]
    exact ⟨fun h => (by cases h), fun h => absurd h lastTrait_nil⟩
  | succ n ih =>
    rcases List.eq_nil_or_concat tbs with rfl | ⟨l, tb, rfl⟩
    · simp at hn
    · rw [List.concat_eq_append] at hn hp ⊢
      obtain ⟨ps', e, rfl, h1, ⟨new, h2⟩, h3⟩ := listRel_concat_left hp
      rw [lastTrait_concat, ← ih (by simpa using hn) h1]
      obtain ⟨i, w⟩ := e
      simp only at h2 h3
      simp only [List.reverse_append, List.reverse_cons, List.reverse_nil, List.nil_append, List.cons_append, AMap.get_cons]
      by_cases hi : i = id
      · subst hi
        have ht : TraitTarget mb tb.name i := ⟨new, h2⟩
        simp [ht, h3]
      · have ht : ¬ TraitTarget mb tb.name id := fun ⟨new', h'⟩ => hi (h2.unique h h').1
        simp [ht, hi]

theorem makeTraits_ok {mb : ModelBuilder} (h : WfBuilder mb) (ts : List TraitBuilder) :
    Ok (mb.makeTraits ts) (∀ t ∈ ts, Known mb true t.name) (BuildsTraits mb ts)
      (fun id => ∃ t ∈ ts, Resolves mb true t.name id true) := by
  refine ((Ok.mapL ts fun t _ => makeTrait_ok h t).bind fun ps hps => Ok.pure (post := BuildsTraits mb ts)
    ⟨AMap.wf_ofList ps, fun id v => ?_⟩).mono (by simp) (fun _ h => h) (by simp)
  rw [AMap.get_ofList]
  exact pairs_last h _ rfl hps id v

theorem makeMember_ok {mb : ModelBuilder} (h : WfBuilder mb) (m : MemberBuilder) :
    Ok (mb.makeMember m) (Known mb false m.target ∧ ∀ t ∈ m.traits, Known mb true t.name) (BuildsMember mb m)
      (fun id => Resolves mb false m.target id true ∨ ∃ t ∈ m.traits, Resolves mb true t.name id true) := by
  refine ((resolve_ok h false m.target).bind fun id hid => (makeTraits_ok h m.traits).bind fun ts hts =>
    Ok.pure (show BuildsMember mb m ⟨m.name, ts, id⟩ from ⟨rfl, hid, hts⟩)).mono (by simp) (fun _ h => h) (by simp)

theorem withMembers_eq (ms : List MemberShape) : withMembers ms = AMap.ofList (ms.map fun m => (m.id, m)) := by
  have : ∀ (acc : AMap Str MemberShape), ms.foldl addAMember acc =
      (ms.map fun m => (m.id, m)).foldl (fun m e => AMap.insert m e.1 e.2) acc := by
    induction ms with
    | nil => intro acc; rfl
    | cons m ms ih => intro acc; simp only [List.foldl_cons, List.map_cons]; exact ih _
  exact this []

theorem members_last {mb : ModelBuilder} (n : Nat) {bs : List MemberBuilder} (hn : bs.length = n)
    {ms : List MemberShape} (hp : ListRel (BuildsMember mb) bs ms) (k : Str) :
    OptRel (BuildsMember mb) (lastNamed bs k) (AMap.get (ms.map fun m => (m.id, m)).reverse k) := by
  induction n generalizing bs ms with
  | zero =>
    have : bs = [] := List.eq_nil_of_length_eq_zero hn
    subst this
    rw [listRel_nil_left hp]
    exact OptRel.none
  | succ n ih =>
    rcases List.eq_nil_or_concat bs with rfl | ⟨l, b, rfl⟩
    · simp at hn
    · rw [List.concat_eq_append] at hn hp ⊢
      obtain ⟨ms', m, rfl, h1, h2⟩ := listRel_concat_left hp
      have ih := ih (by simpa using hn) h1
      simp only [List.map_append, List.map_cons, List.map_nil, List.reverse_append, List.reverse_cons, List.reverse_nil,
        List.nil_append, List.cons_append, AMap.get_cons, lastNamed, List.find?_cons]
      rw [h2.name]
      by_cases hi : b.name = k
      · simp only [hi, decide_true, if_true]
        exact OptRel.some h2
      · simp only [hi, decide_false, if_false]
        exact ih

theorem makeKeyValue_ok {mb : ModelBuilder} (h : WfBuilder mb) (k v : MemberBuilder) :
    Ok (mb.makeKeyValue k v) (∀ m ∈ [k, v], Known mb false m.target ∧ ∀ t ∈ m.traits, Known mb true t.name)
      (fun p => BuildsMember mb k p.1 ∧ BuildsMember mb v p.2)
      (fun id => ∃ m ∈ [k, v], Resolves mb false m.target id true ∨ ∃ t ∈ m.traits, Resolves mb true t.name id true) := by
  refine ((resolve_ok h false k.target).bind fun kt hkt => (resolve_ok h false v.target).bind fun vt hvt =>
    (makeTraits_ok h k.traits).bind fun ktr hktr => (makeTraits_ok h v.traits).bind fun vtr hvtr =>
    Ok.pure (show BuildsMember mb k ⟨k.name, ktr, kt⟩ ∧ BuildsMember mb v ⟨v.name, vtr, vt⟩ from
      ⟨⟨rfl, hkt, hktr⟩, ⟨rfl, hvt, hvtr⟩⟩)).mono ?_ (fun _ h => h) ?_
  · simp only [List.mem_cons, List.not_mem_nil, or_false, and_true, forall_eq_or_imp, forall_eq]
    constructor
    · rintro ⟨a, b, c, d⟩; exact ⟨⟨a, c⟩, ⟨b, d⟩⟩
    · rintro ⟨⟨a, c⟩, ⟨b, d⟩⟩; exact ⟨a, b, c, d⟩
  · intro id
    simp only [List.mem_cons, List.not_mem_nil, or_false, exists_eq_or_imp, exists_eq_left]
    constructor
    · rintro (a | b | c | d)
      · exact .inl (.inl a)
      · exact .inr (.inl b)
      · exact .inl (.inr c)
      · exact .inr (.inr d)
    · rintro ((a | c) | (b | d))
      · exact .inl a
      · exact .inr (.inr (.inl c))
      · exact .inr (.inl b)
      · exact .inr (.inr (.inr d))

theorem makeIdentifier_ok {mb : ModelBuilder} (h : WfBuilder mb) (e : Str × ShapeName) :
    Ok (mb.makeIdentifier e) (Known mb false e.2) (fun e' => e'.1 = e.1 ∧ Target mb e.2 e'.2)
      (fun id => Resolves mb false e.2 id true) := by
  refine ((resolve_ok h false e.2).bind fun id hid => Ok.pure
    (show (fun e' : Str × ShapeID => e'.1 = e.1 ∧ Target mb e.2 e'.2) (e.1, id) from ⟨rfl, hid⟩)).mono (by simp) (fun _ h => h) (by simp)

theorem listRel_keys {K V W : Type} {R : V → W → Prop} {a : AMap K V} {b : AMap K W}
    (h : ListRel (fun e e' => e'.1 = e.1 ∧ R e.2 e'.2) a b) : AMap.keys b = AMap.keys a := by
  induction a generalizing b with
  | nil => rw [listRel_nil_left h]; rfl
  | cons x a ih =>
    obtain ⟨y, b', rfl, hxy, hab⟩ := listRel_cons_left h
    simp only [AMap.keys_cons, ih hab, hxy.1]

theorem listRel_mapRel {K V W : Type} [DecidableEq K] {R : V → W → Prop} {a : AMap K V} {b : AMap K W}
    (h : ListRel (fun e e' => e'.1 = e.1 ∧ R e.2 e'.2) a b) : MapRel R a b := by
  induction a generalizing b with
  | nil => rw [listRel_nil_left h]; intro k; exact OptRel.none
  | cons x a ih =>
    obtain ⟨⟨k', w⟩, b', rfl, hxy, hab⟩ := listRel_cons_left h
    obtain ⟨k, v⟩ := x
    obtain ⟨rfl, hvw⟩ := hxy
    intro j
    simp only [AMap.get_cons]
    by_cases hj : k' = j
    · simp [hj]; exact OptRel.some hvw
    · simp [hj]; exact ih hab j

/-- The maps inside the body have no duplicate keys. -/
def BodyMapsWf : BuilderBody → Prop
  | .service _ _ _ ren => AMap.Wf ren
  | .resource ids _ _ _ _ _ _ _ _ _ => AMap.Wf ids
  | _ => True

/-- Making the body succeeds. -/
structure BodyGood (mb : ModelBuilder) (body : BuilderBody) : Prop where
  members : ∀ m ∈ memberBuilders body, Known mb false m.target ∧ ∀ t ∈ m.traits, Known mb true t.name
  targets : ∀ n ∈ targetNames body, Known mb false n
  version : ∀ v o r ren, body = .service v o r ren → v ≠ []
  member : ∀ m, body = .list m ∨ body = .set m → m.name = %s"member"

/-- What making the body inserts. -/
def BodyRefs (mb : ModelBuilder) (body : BuilderBody) (id : ShapeID) : Prop :=
  (∃ m ∈ memberBuilders body, Resolves mb false m.target id true ∨ ∃ t ∈ m.traits, Resolves mb true t.name id true) ∨
  ∃ n ∈ targetNames body, Resolves mb false n id true

theorem target_ok {mb : ModelBuilder} (h : WfBuilder mb) (n : ShapeName) :
    Ok (mb.resolve false n) (Known mb false n) (Target mb n) (fun id => Resolves mb false n id true) := resolve_ok h false n

theorem listFrom_ok (m : MemberShape) {P : MemberShape → Prop} (hP : P m) :
    Ok (Mk.lift (listFrom m)) (m.id = memberMember) P (fun _ => False) := by
  refine Ok.lift ?_ ?_
  · unfold listFrom; split <;> simp [*]
  · intro a ha; unfold listFrom at ha; split at ha
    · cases ha; exact hP
    · cases ha

theorem serviceNew_ok (v : Str) : Ok (Mk.lift (Service.new v)) (v ≠ []) (fun s => s = ⟨v, [], [], []⟩) (fun _ => False) := by
  refine Ok.lift ?_ ?_
  · unfold Service.new; cases v <;> simp
  · intro a ha; unfold Service.new at ha; split at ha
    · cases ha
    · cases ha; rfl

theorem makeBody_ok {mb : ModelBuilder} (h : WfBuilder mb) (body : BuilderBody) (hw : BodyMapsWf body) :
    Ok (mb.makeBody body) (BodyGood mb body) (BuildsBody mb body) (BodyRefs mb body) := by
  cases body with
  | simple s =>
    refine (Ok.pure (BuildsBody.simple (mb := mb) (s := s))).mono ?_ (fun _ h => h) ?_
    · exact ⟨fun _ => ⟨by simp [memberBuilders], by simp [targetNames], by simp, by simp⟩, fun _ => trivial⟩
    · simp [BodyRefs, memberBuilders, targetNames]
  | list m =>
    refine ((makeMember_ok h m).bind fun m' hm' => ((listFrom_ok m' hm').mono (by rw [hm'.name]) (fun _ h => h) fun _ => Iff.rfl).bind
      fun m'' hm'' => Ok.pure (show BuildsBody mb (.list m) (.list m'') from .list hm'')).mono ?_ (fun _ h => h) ?_
    · constructor
      · rintro ⟨h1, h2, _⟩
        exact ⟨by simpa [memberBuilders] using h1, by simp [targetNames], by simp, by simpa [memberMember] using h2⟩
      · intro hg
        exact ⟨by simpa [memberBuilders] using hg.members, by simpa [memberMember] using hg.member m (.inl rfl), trivial⟩
    · simp [BodyRefs, memberBuilders, targetNames]
  | set m =>
    refine ((makeMember_ok h m).bind fun m' hm' => ((listFrom_ok m' hm').mono (by rw [hm'.name]) (fun _ h => h) fun _ => Iff.rfl).bind
      fun m'' hm'' => Ok.pure (show BuildsBody mb (.set m) (.list m'') from .set hm'')).mono ?_ (fun _ h => h) ?_
    · constructor
      · rintro ⟨h1, h2, _⟩
        exact ⟨by simpa [memberBuilders] using h1, by simp [targetNames], by simp, by simpa [memberMember] using h2⟩
      · intro hg
        exact ⟨by simpa [memberBuilders] using hg.members, by simpa [memberMember] using hg.member m (.inr rfl), trivial⟩
    · simp [BodyRefs, memberBuilders, targetNames]
  | map k v =>
    refine ((makeKeyValue_ok h k v).bind fun p hp => Ok.pure
      (show BuildsBody mb (.map k v) (.map p.1 p.2) from .map hp.1 hp.2)).mono ?_ (fun _ h => h) ?_
    · constructor
      · rintro ⟨h1, _⟩
        exact ⟨by simpa [memberBuilders] using h1, by simp [targetNames], by simp, by simp⟩
      · intro hg
        exact ⟨by simpa [memberBuilders] using hg.members, trivial⟩
    · simp [BodyRefs, memberBuilders, targetNames]
  | struct ms =>
    refine ((Ok.mapL ms fun m _ => makeMember_ok h m).bind fun ms' hms' => Ok.pure
      (show BuildsBody mb (.struct ms) (.struct (withMembers ms')) from .struct ⟨?_, ?_⟩)).mono ?_ (fun _ h => h) ?_
    · rw [withMembers_eq]; exact AMap.wf_ofList _
    · intro k; rw [withMembers_eq, AMap.get_ofList]; exact members_last _ rfl hms' k
    · constructor
      · rintro ⟨h1, _⟩
        exact ⟨by simpa [memberBuilders] using h1, by simp [targetNames], by simp, by simp⟩
      · intro hg
        exact ⟨by simpa [memberBuilders] using hg.members, trivial⟩
    · simp [BodyRefs, memberBuilders, targetNames]
  | union ms =>
    refine ((Ok.mapL ms fun m _ => makeMember_ok h m).bind fun ms' hms' => Ok.pure
      (show BuildsBody mb (.union ms) (.union (withMembers ms')) from .union ⟨?_, ?_⟩)).mono ?_ (fun _ h => h) ?_
    · rw [withMembers_eq]; exact AMap.wf_ofList _
    · intro k; rw [withMembers_eq, AMap.get_ofList]; exact members_last _ rfl hms' k
    · constructor
      · rintro ⟨h1, _⟩
        exact ⟨by simpa [memberBuilders] using h1, by simp [targetNames], by simp, by simp⟩
      · intro hg
        exact ⟨by simpa [memberBuilders] using hg.members, trivial⟩
    · simp [BodyRefs, memberBuilders, targetNames]
  | service v ops res ren =>
    have hren : AMap.ofList ren = ren := AMap.ofList_of_wf hw
    refine ((serviceNew_ok v).bind fun s hs => (Ok.mapL ops fun n _ => target_ok h n).bind fun ops' hops =>
      (Ok.mapL res fun n _ => target_ok h n).bind fun res' hres => Ok.pure
      (show BuildsBody mb (.service v ops res ren) (.service ⟨s.version, arrayAppend s.operations ops',
        arrayAppend s.resources res', AMap.ofList ren⟩) from ?_)).mono ?_ (fun _ h => h) ?_
    · subst hs
      simp only [arrayAppend_eq, List.nil_append, hren]
      exact .service hops hres hw (fun k => by cases AMap.get ren k with
        | none => exact OptRel.none
        | some x => exact OptRel.some rfl)
    · constructor
      · rintro ⟨h1, h2, h3, _⟩
        refine ⟨by simp [memberBuilders], ?_, ?_, by simp⟩
        · intro n hn
          rcases List.mem_append.mp hn with hn | hn
          · exact h2 n hn
          · exact h3 n hn
        · intro v' o r ren' he; cases he; exact h1
      · intro hg
        refine ⟨hg.version _ _ _ _ rfl, fun n hn => hg.targets n (by simp [targetNames, hn]),
          fun n hn => hg.targets n (by simp [targetNames, hn]), trivial⟩
    · intro id; simp [BodyRefs, memberBuilders, targetNames, or_and_right, exists_or]
  | operation i o e =>
    refine ((Ok.mapO i fun n _ => target_ok h n).bind fun i' hi => (Ok.mapO o fun n _ => target_ok h n).bind fun o' ho =>
      (Ok.mapL e fun n _ => target_ok h n).bind fun e' he => Ok.pure
      (show BuildsBody mb (.operation i o e) (.operation ⟨i', o', arrayAppend [] e'⟩) from ?_)).mono ?_ (fun _ h => h) ?_
    · simp only [arrayAppend_eq, List.nil_append]
      exact .operation hi ho he
    · constructor
      · rintro ⟨h1, h2, h3, _⟩
        refine ⟨by simp [memberBuilders], ?_, by simp, by simp⟩
        intro n hn
        simp only [targetNames, List.mem_append] at hn
        rcases hn with (hn | hn) | hn
        · exact h1 n hn
        · exact h2 n hn
        · exact h3 n hn
      · intro hg
        refine ⟨fun n hn => hg.targets n ?_, fun n hn => hg.targets n ?_, fun n hn => hg.targets n ?_, trivial⟩ <;>
        simp only [targetNames, List.mem_append] <;> simp [hn]
    · intro id; simp only [BodyRefs, memberBuilders, targetNames, List.mem_append, or_and_right, exists_or, List.not_mem_nil,
        false_and, exists_false, false_or, or_false, or_assoc]
  | resource ids c p r u d l o co rs =>
    refine ((Ok.mapL ids fun n _ => makeIdentifier_ok h n).bind fun ids' hids =>
      (Ok.mapO c fun n _ => target_ok h n).bind fun c' hc => (Ok.mapO p fun n _ => target_ok h n).bind fun p' hp =>
      (Ok.mapO r fun n _ => target_ok h n).bind fun r' hr => (Ok.mapO u fun n _ => target_ok h n).bind fun u' hu =>
      (Ok.mapO d fun n _ => target_ok h n).bind fun d' hd => (Ok.mapO l fun n _ => target_ok h n).bind fun l' hl =>
      (Ok.mapL o fun n _ => target_ok h n).bind fun o' ho => (Ok.mapL co fun n _ => target_ok h n).bind fun co' hco =>
      (Ok.mapL rs fun n _ => target_ok h n).bind fun rs' hrs => Ok.pure
      (show BuildsBody mb (.resource ids c p r u d l o co rs) (.resource ⟨AMap.ofList ids', c', p', r', u', d', l',
        arrayAppend [] o', arrayAppend [] co', arrayAppend [] rs'⟩) from ?_)).mono ?_ (fun _ h => h) ?_
    · have hwf : AMap.Wf ids' := by
        unfold AMap.Wf; rw [listRel_keys hids]; exact hw
      rw [AMap.ofList_of_wf hwf]
      simp only [arrayAppend_eq, List.nil_append]
      exact .resource hwf (listRel_mapRel hids) hc hp hr hu hd hl ho hco hrs
    · constructor
      · rintro ⟨h0, h1, h2, h3, h4, h5, h6, h7, h8, h9, _⟩
        refine ⟨by simp [memberBuilders], ?_, by simp, by simp⟩
        intro n hn
        simp only [targetNames, List.mem_append, List.mem_map] at hn
        rcases hn with ((((((((hn | hn) | hn) | hn) | hn) | hn) | hn) | hn) | hn) | hn
        · obtain ⟨e, he, rfl⟩ := hn; exact h0 e he
        · exact h1 n hn
        · exact h2 n hn
        · exact h3 n hn
        · exact h4 n hn
        · exact h5 n hn
        · exact h6 n hn
        · exact h7 n hn
        · exact h8 n hn
        · exact h9 n hn
      · intro hg
        refine ⟨fun e he => hg.targets e.2 ?_, fun n hn => hg.targets n ?_, fun n hn => hg.targets n ?_, fun n hn => hg.targets n ?_,
          fun n hn => hg.targets n ?_, fun n hn => hg.targets n ?_, fun n hn => hg.targets n ?_, fun n hn => hg.targets n ?_,
          fun n hn => hg.targets n ?_, fun n hn => hg.targets n ?_, trivial⟩
        · simp only [targetNames, List.mem_append, List.mem_map]
          exact .inl <| .inl <| .inl <| .inl <| .inl <| .inl <| .inl <| .inl <| .inl ⟨e, he, rfl⟩
        all_goals simp only [targetNames, List.mem_append, List.mem_map]
        all_goals simp [hn]
    · intro id
      simp only [BodyRefs, memberBuilders, targetNames, List.mem_append, List.mem_map, or_and_right, exists_or, List.not_mem_nil,
        false_and, exists_false, false_or, or_false, or_assoc]
      have : (∃ a ∈ ids, Resolves mb false a.2 id true) ↔ ∃ x, (∃ a, a ∈ ids ∧ a.2 = x) ∧ Resolves mb false x id true :=
        ⟨fun ⟨a, h1, h2⟩ => ⟨a.2, ⟨a, h1, rfl⟩, h2⟩, fun ⟨_, ⟨a, h1, rfl⟩, h2⟩ => ⟨a, h1, h2⟩⟩
      rw [this]
  | reference =>
    refine (Ok.pure (BuildsBody.reference (mb := mb))).mono ?_ (fun _ h => h) ?_
    · exact ⟨fun _ => ⟨by simp [memberBuilders], by simp [targetNames], by simp, by simp⟩, fun _ => trivial⟩
    · simp [BodyRefs, memberBuilders, targetNames]

theorem makeId_ok {mb : ModelBuilder} (h : WfBuilder mb) (b : Builder) :
    Ok (mb.makeId b) ((b.body = .reference → ∃ id, b.name = .qualified id) ∧ (b.body ≠ .reference → Known mb false b.name))
      (BuildsId mb b) (fun id => b.body ≠ .reference ∧ Resolves mb false b.name id true) := by
  by_cases hr : b.body = .reference
  · cases hn : b.name with
    | qualified id =>
      have : mb.makeId b = pure id := by simp only [ModelBuilder.makeId, hr, hn]; rfl
      rw [this]
      refine (Ok.pure (show BuildsId mb b id from .inl ⟨hr, hn⟩)).mono ?_ (fun _ h => h) ?_
      · simp [hr]
      · simp [hr]
    | local' l =>
      have : mb.makeId b = Except.error .panic := by simp only [ModelBuilder.makeId, hr, hn]; rfl
      rw [this]
      refine ⟨?_, fun a r h => by cases h⟩
      constructor
      · rintro ⟨a, r, h⟩; cases h
      · rintro ⟨h1, _⟩; obtain ⟨id, hid⟩ := h1 hr; cases hid
  · have : mb.makeId b = mb.resolve false b.name := by
      unfold ModelBuilder.makeId
      cases hb : b.body <;> first | exact absurd hb hr | rfl
    rw [this]
    refine (target_ok h b.name).mono ?_ (fun id hid => .inr ⟨hr, hid⟩) ?_
    · simp [hr]
    · simp [hr]

theorem makeShape_ok {mb : ModelBuilder} (h : WfBuilder mb) (b : Builder) (hw : BodyMapsWf b.body) :
    Ok (mb.makeShape b) (Buildable mb b) (BuildsShape mb b)
      (fun id => ∃ tr n, Mentions b tr n ∧ Resolves mb tr n id true) := by
  refine ((makeId_ok h b).bind fun id hid => (makeBody_ok h b.body hw).bind fun body hbody =>
    (makeTraits_ok h b.traits).bind fun ts hts =>
    Ok.pure (show BuildsShape mb b ⟨id, ts, body⟩ from ⟨hid, hbody, hts⟩)).mono ?_ (fun _ h => h) ?_
  · constructor
    · rintro ⟨⟨h1, h2⟩, h3, h4, _⟩
      refine ⟨?_, h1, h3.version, h3.member⟩
      intro tr n hm
      cases hm with
      | name hne => exact h2 hne
      | trait ht => exact h4 _ ht
      | memberTarget hm => exact (h3.members _ hm).1
      | memberTrait hm ht => exact (h3.members _ hm).2 _ ht
      | target hn => exact h3.targets _ hn
    · intro hg
      refine ⟨⟨hg.reference, fun hne => hg.names _ _ (.name hne)⟩, ⟨fun m hm => ⟨hg.names _ _ (.memberTarget hm),
        fun t ht => hg.names _ _ (.memberTrait hm ht)⟩, fun n hn => hg.names _ _ (.target hn), hg.version, hg.member⟩,
        fun t ht => hg.names _ _ (.trait ht), trivial⟩
  · intro id
    constructor
    · rintro (⟨h1, h2⟩ | (⟨m, hm, h1 | ⟨t, ht, h1⟩⟩ | ⟨n, hn, h1⟩) | ⟨t, ht, h1⟩ | h1)
      · exact ⟨_, _, .name h1, h2⟩
      · exact ⟨_, _, .memberTarget hm, h1⟩
      · exact ⟨_, _, .memberTrait hm ht, h1⟩
      · exact ⟨_, _, .target hn, h1⟩
      · exact ⟨_, _, .trait ht, h1⟩
      · exact h1.elim
    · rintro ⟨tr, n, hm, hr⟩
      cases hm with
      | name hne => exact .inl ⟨hne, hr⟩
      | trait ht => exact .inr (.inr (.inl ⟨_, ht, hr⟩))
      | memberTarget hm => exact .inr (.inl (.inl ⟨_, hm, .inl hr⟩))
      | memberTrait hm ht => exact .inr (.inl (.inl ⟨_, hm, .inr ⟨_, ht, hr⟩⟩))
      | target hn => exact .inr (.inl (.inr ⟨_, hn, hr⟩))

end Verif
