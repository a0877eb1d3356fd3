/-
Members and statements of the Smithy IDL: what is read is what the text says.
-/
import Verif.IdlLooseFields

namespace Verif
open Peg Spec Spec.Idl
open IdlGrammar (r named)

/-! ### Members -/

theorem memberNew_of {n t : Str} {m : MemberBuilder} (h : MemberBuilder.new n t = .ok m) : m.name = n ∧ m.traits = [] ∧ ShapeName.fromStr t = .ok m.target := by
  unfold MemberBuilder.new at h
  obtain ⟨k, h1, h⟩ := ok_of_bind h
  obtain ⟨x, h2, h⟩ := ok_of_bind h
  cases h
  have h1 := ok_of_unwrap h1
  unfold Identifier.fromStr at h1
  split at h1
  · cases h1
    exact ⟨rfl, rfl, ok_of_unwrap h2⟩
  · cases h1

theorem member_says {flt : Str → Option F64} {s t s' ps} (h : Got false (r .shapeMemberKvp) s t s' ps) :
    ∃ p, ps = [p] ∧ p.asRule = .shapeMemberKvp ∧ Yields (fun m => Loose.MemberText flt m t) (IdlParser.memberLoop flt [] [] none none p.intoInner) := by
  obtain ⟨qs, rfl, k⟩ := h.inv_normal rfl
  refine ⟨_, rfl, rfl, ?_⟩
  obtain ⟨d, _, _, _, _, h1, k1, rfl, rfl⟩ := k.inv_seq
  obtain ⟨w, _, _, _, _, h2, k2, rfl, rfl⟩ := k1.inv_seq
  obtain ⟨x, _, _, _, _, h3, k3, rfl, rfl⟩ := k2.inv_seq
  obtain ⟨n, _, _, _, _, h4, k4, rfl, rfl⟩ := k3.inv_seq
  obtain ⟨w1, _, _, _, _, h5, k5, rfl, rfl⟩ := k4.inv_seq
  obtain ⟨c, _, _, _, _, h6, k6, rfl, rfl⟩ := k5.inv_seq
  obtain ⟨w2, _, _, y, _, h7, h8, rfl, rfl⟩ := k6.inv_seq
  obtain ⟨docs, rfl, hd⟩ := docs_says h1
  obtain ⟨hw, rfl, -⟩ := got_ws h2
  obtain ⟨q, rfl, hq, ht⟩ := traits_says (flt := flt) h3
  obtain ⟨hn, rfl⟩ := got_ident h4
  obtain ⟨hw1, rfl, -⟩ := got_ws h5
  obtain ⟨rfl, rfl⟩ := h6.inv_str
  obtain ⟨hw2, rfl, -⟩ := got_ws h7
  obtain ⟨hy, rfl⟩ := got_shapeId h8
  intro m hm
  change IdlParser.memberLoop flt [] [] none none (docs.map (fun l => .mk .documentationText l []) ++ _) = _ at hm
  rw [memberLoop_docs] at hm
  obtain ⟨rl, qt, qp⟩ := q
  cases hq
  obtain ⟨tb, e1, e2⟩ := ok_of_bind (x := IdlParser.traitsOf flt (.mk .traitStatements qt qp))
    (f := fun tb => IdlParser.memberLoop flt ([] ++ docs.map trimStart) tb none none [.mk .identifier n [], .mk .shapeId y []]) hm
  obtain ⟨m0, e3, e4⟩ := ok_of_bind (b := m) (x := MemberBuilder.new n y)
    (f := fun m => (.ok { m with traits := m.traits ++ IdlParser.appliedTraits ([] ++ docs.map trimStart) tb } : Except Err MemberBuilder)) e2
  obtain ⟨i1, i2, i3⟩ := memberNew_of e3
  obtain ⟨dt, j1, j2⟩ := docTrait_says docs tb
  cases e4
  obtain ⟨m1, m2, m3⟩ := m0
  simp only at i1 i2 i3
  subst i1 i2
  rw [List.nil_append, List.nil_append, j2]
  have pre : Loose.Preface flt (dt ++ tb) (d ++ w ++ x) := ⟨docs, d ++ w, dt, tb, x, spaced_after hd hw, j1, ht _ e1, rfl, rfl⟩
  have := Loose.MemberText.mk pre hn hw1 hw2 (name_says hy i3)
  simpa using this

theorem members_says {flt : Str → Option F64} {s t s' ps} (h : Got false (r .shapeMembers) s t s' ps) :
    ∃ p, ps = [p] ∧ p.asRule = .shapeMembers ∧ Yields (fun ms => Loose.MembersText flt ms t) (IdlParser.membersOf flt p) := by
  obtain ⟨qs, rfl, k⟩ := h.inv_normal rfl
  refine ⟨_, rfl, rfl, ?_⟩
  obtain ⟨t1, _, _, _, _, h1, k1, rfl, rfl⟩ := k.inv_seq
  obtain ⟨w, _, _, _, _, h2, k2, rfl, rfl⟩ := k1.inv_seq
  obtain ⟨t3, _, _, t4, _, h3, h4, rfl, rfl⟩ := k2.inv_seq
  obtain ⟨rfl, rfl⟩ := h1.inv_str
  obtain ⟨hw, rfl, -⟩ := got_ws h2
  obtain ⟨rfl, rfl⟩ := h4.inv_str
  obtain ⟨⟨xs, hx, rfl, rfl⟩, -⟩ := h3.inv_rep
  simp only [List.nil_append, List.append_nil]
  change Yields _ (SelParser.each .shapeMemberKvp (fun q => IdlParser.memberLoop flt [] [] none none q.intoInner) (xs.flatMap (·.2)))
  intro ms hms
  refine ⟨w ++ xs.flatMap (·.1), ?_, by simp⟩
  refine spaced_each (spaced_before hw (spaced_parts fun x hm => ?_)) ms hms
  obtain ⟨_, _, hg⟩ := hx x hm
  obtain ⟨y, _, _, w', _, g1, g2, e1, e2⟩ := hg.inv_seq
  obtain ⟨hw', rfl, -⟩ := got_ws g2
  obtain ⟨p, rfl, -, hp⟩ := member_says (flt := flt) g1
  rw [e1, e2]
  exact spaced_after (spaced_one hp) hw'

theorem named_got {kw : Str} {x : IdlRule} {s t s' ps} (h : Got false (named kw x) s t s' ps) :
    ∃ w n w' u s1 ps', Blank w ∧ SmithyIdent n ∧ Blank w' ∧ Got false (r x) s1 u s' ps' ∧ t = kw ++ w ++ n ++ w' ++ u ∧ ps = .mk .identifier n [] :: ps' := by
  obtain ⟨t1, _, _, _, _, h1, k1, rfl, rfl⟩ := h.inv_seq
  obtain ⟨w, _, _, _, _, h2, k2, rfl, rfl⟩ := k1.inv_seq
  obtain ⟨n, _, _, _, _, h3, k3, rfl, rfl⟩ := k2.inv_seq
  obtain ⟨w', _, _, u, _, h4, h5, rfl, rfl⟩ := k3.inv_seq
  obtain ⟨rfl, rfl⟩ := h1.inv_str
  obtain ⟨hw, rfl, -⟩ := got_ws h2
  obtain ⟨hn, rfl⟩ := got_ident h3
  obtain ⟨hw', rfl, -⟩ := got_ws h4
  exact ⟨w, n, w', u, _, _, hw, hn, hw', h5, by simp, rfl⟩

theorem membered_says {flt : Str → Option F64} {n u t : Str} {rl : IdlRule} {s1 s' ps'} (h : Got false (r .shapeMembers) s1 u s' ps') :
    Yields (fun x => x.1 = n ∧ Loose.MembersText flt x.2 u) (IdlParser.memberedOf flt (.mk rl t (.mk .identifier n [] :: ps'))) := by
  obtain ⟨p, rfl, hp, hm⟩ := members_says (flt := flt) h
  rintro ⟨id, ms⟩ hx
  obtain ⟨rp, tp, pp⟩ := p
  cases hp
  obtain ⟨q, e1, e2⟩ := ok_of_bind (b := (id, ms)) (x := IdlParser.membersOf flt (.mk .shapeMembers tp pp))
    (f := fun ms => (.ok (n, ms) : Except Err (Str × List MemberBuilder))) hx
  cases e2
  exact ⟨rfl, hm _ e1⟩

/-! ### Bodies -/

theorem builderNamed_of {n : Str} (hn : SmithyIdent n) {b : BuilderBody} {x : Builder} (h : Builder.named n b = .ok x) : x = ⟨.local' n, [], b⟩ := by
  rw [builder_named hn] at h
  cases h
  rfl

/-- What the statement is read as. -/
def BodySays (flt : Str → Option F64) (t : Str) (b : Builder) : Prop := ∃ n k, SmithyIdent n ∧ b = ⟨.local' n, [], k⟩ ∧ Loose.BodyText flt n k t

theorem keyAndValue_says {ms : List MemberBuilder} : ∀ {k v k' v' : Option Str}, IdlParser.keyAndValue k v ms = .ok (k', v') →
    (∀ m ∈ ms, SameName m.name %s"key" ∨ SameName m.name %s"value") ∧
    ((k' = k ∧ ∀ m ∈ ms, ¬ SameName m.name %s"key") ∨ ∃ m, Loose.LastNamed %s"key" ms m ∧ k' = some m.target.display) ∧
    ((v' = v ∧ ∀ m ∈ ms, ¬ SameName m.name %s"value") ∨ ∃ m, Loose.LastNamed %s"value" ms m ∧ v' = some m.target.display) := by
  have differ : ∀ {n : Str}, SameName n %s"key" → ¬ SameName n %s"value" := by
    intro n h1 h2
    have : lower %s"key" = lower %s"value" := h1.symm.trans h2
    exact absurd this (by decide)
  have later : ∀ {n : Str} {m x : MemberBuilder} {ms : List MemberBuilder}, Loose.LastNamed n ms m → Loose.LastNamed n (x :: ms) m := by
    rintro n m x _ ⟨a, b, rfl, h⟩
    exact ⟨x :: a, b, rfl, h⟩
  induction ms with
  | nil =>
    intro k v k' v' h
    cases h
    exact ⟨by simp, .inl ⟨rfl, by simp⟩, .inl ⟨rfl, by simp⟩⟩
  | cons m ms ih =>
    intro k v k' v' h
    unfold IdlParser.keyAndValue at h
    split at h
    · next e =>
      have e : SameName m.name %s"key" := identEq_sameName.mp e
      obtain ⟨h1, h2, h3⟩ := ih h
      refine ⟨?_, .inr ?_, ?_⟩
      · intro x hx
        rcases List.mem_cons.mp hx with rfl | hx
        · exact .inl e
        · exact h1 x hx
      · rcases h2 with ⟨rfl, h2⟩ | ⟨x, h2, rfl⟩
        · exact ⟨m, ⟨[], ms, rfl, e, h2⟩, rfl⟩
        · exact ⟨x, later h2, rfl⟩
      · rcases h3 with ⟨rfl, h3⟩ | ⟨x, h3, rfl⟩
        · refine .inl ⟨rfl, ?_⟩
          intro x hx
          rcases List.mem_cons.mp hx with rfl | hx
          · exact differ e
          · exact h3 x hx
        · exact .inr ⟨x, later h3, rfl⟩
    · next e' =>
      split at h
      · next e =>
        have e : SameName m.name %s"value" := identEq_sameName.mp e
        obtain ⟨h1, h2, h3⟩ := ih h
        refine ⟨?_, ?_, .inr ?_⟩
        · intro x hx
          rcases List.mem_cons.mp hx with rfl | hx
          · exact .inr e
          · exact h1 x hx
        · rcases h2 with ⟨rfl, h2⟩ | ⟨x, h2, rfl⟩
          · refine .inl ⟨rfl, ?_⟩
            intro x hx
            rcases List.mem_cons.mp hx with rfl | hx
            · exact fun h => differ h e
            · exact h2 x hx
          · exact .inr ⟨x, later h2, rfl⟩
        · rcases h3 with ⟨rfl, h3⟩ | ⟨x, h3, rfl⟩
          · exact ⟨m, ⟨[], ms, rfl, e, h3⟩, rfl⟩
          · exact ⟨x, later h3, rfl⟩
      · cases h

theorem spaced_mem {α : Type} {P : α → Str → Prop} {as : List α} {u : Str} (h : Loose.Spaced P as u) : ∀ a ∈ as, ∃ t, P a t := by
  induction h with
  | nil => simp
  | cons _ ha _ ih =>
    intro b hb
    rcases List.mem_cons.mp hb with rfl | hb
    · exact ⟨_, ha⟩
    · exact ih b hb

theorem looseMembers_target {flt : Str → Option F64} {ms : List MemberBuilder} {s : Str} (h : Loose.MembersText flt ms s) {m : MemberBuilder} (hm : m ∈ ms) :
    ∃ t, NameText m.target t := by
  obtain ⟨t, h, -⟩ := h
  obtain ⟨_, h⟩ := spaced_mem h m hm
  cases h with
  | mk _ _ _ _ h => exact ⟨_, h⟩

theorem list_says {flt : Str → Option F64} {n u t w w' : Str} {rl : IdlRule} {s1 s' ps'} {kind : MemberBuilder → BuilderBody} (hn : SmithyIdent n)
    (h : Got false (r .shapeMembers) s1 u s' ps') {kw : Str}
    (hk : ∀ m, Loose.MembersText flt [m] u → SameName m.name %s"member" → Loose.BodyText flt n (kind ⟨%s"member", [], m.target⟩) (kw ++ w ++ n ++ w' ++ u)) :
    Yields (BodySays flt (kw ++ w ++ n ++ w' ++ u)) (IdlParser.listOf flt kind (.mk rl t (.mk .identifier n [] :: ps'))) := by
  intro b hb
  unfold IdlParser.listOf at hb
  obtain ⟨⟨id, ms⟩, e1, e2⟩ := ok_of_bind hb
  obtain ⟨rfl, hm⟩ := membered_says (flt := flt) h _ e1
  simp only at hm
  cases ms with
  | nil => cases e2
  | cons m ms =>
    cases ms with
    | cons _ _ => cases e2
    | nil =>
      simp only at e2
      split at e2
      · next e => exact ⟨_, _, hn, builderNamed_of hn e2, hk m hm (identEq_sameName.mp e)⟩
      · cases e2

theorem map_says {flt : Str → Option F64} {n u t w w' : Str} {rl : IdlRule} {s1 s' ps'} (hn : SmithyIdent n) (hw : Blank w) (hw' : Blank w')
    (h : Got false (r .shapeMembers) s1 u s' ps') :
    Yields (BodySays flt (%s"map" ++ w ++ n ++ w' ++ u)) (IdlParser.mapOf flt (.mk rl t (.mk .identifier n [] :: ps'))) := by
  intro b hb
  unfold IdlParser.mapOf at hb
  obtain ⟨⟨id, ms⟩, e1, e2⟩ := ok_of_bind hb
  obtain ⟨rfl, hm⟩ := membered_says (flt := flt) h _ e1
  simp only at hm e2
  obtain ⟨⟨k, v⟩, e3, e4⟩ := ok_of_bind e2
  obtain ⟨h1, h2, h3⟩ := keyAndValue_says e3
  simp only at e4
  rcases h2 with ⟨rfl, -⟩ | ⟨mk, h2, rfl⟩
  · cases e4
  rcases h3 with ⟨rfl, -⟩ | ⟨mv, h3, rfl⟩
  · cases e4
  have hk : mk ∈ ms := by obtain ⟨_, _, rfl, -⟩ := h2; simp
  have hv : mv ∈ ms := by obtain ⟨_, _, rfl, -⟩ := h3; simp
  obtain ⟨tk, hk⟩ := looseMembers_target hm hk
  obtain ⟨tv, hv⟩ := looseMembers_target hm hv
  simp only [newMember (name := memberKey) (.plain (by decide) (by decide)) hk, newMember (name := memberValue) (.plain (by decide) (by decide)) hv, shapeName_ident hn] at e4
  cases e4
  exact ⟨id, _, hn, rfl, .map hw hw' hm h1 h2 h3⟩

theorem structure_says {flt : Str → Option F64} {n u t w w' : Str} {rl : IdlRule} {s1 s' ps'} {kind : List MemberBuilder → BuilderBody} (hn : SmithyIdent n)
    (h : Got false (r .shapeMembers) s1 u s' ps') {kw : Str}
    (hk : ∀ ms, Loose.MembersText flt ms u → Loose.BodyText flt n (kind ms) (kw ++ w ++ n ++ w' ++ u)) :
    Yields (BodySays flt (kw ++ w ++ n ++ w' ++ u)) (IdlParser.structureOf flt kind (.mk rl t (.mk .identifier n [] :: ps'))) := by
  intro b hb
  unfold IdlParser.structureOf at hb
  obtain ⟨⟨id, ms⟩, e1, e2⟩ := ok_of_bind hb
  obtain ⟨rfl, hm⟩ := membered_says (flt := flt) h _ e1
  exact ⟨_, _, hn, builderNamed_of hn e2, hk _ hm⟩

theorem looseObject_wf {flt : Str → Option F64} {o : AMap Str Value} {t : Str} (h : Loose.ValueText flt (.object o) t) : AMap.Wf o := by
  generalize e : Value.object o = v at h
  cases h with
  | object => cases e; exact AMap.wf_ofList _
  | keyword h => subst e; cases h
  | _ => cases e

theorem object_got {flt : Str → Option F64} {s t s' ps} (h : Got false (r .nodeObject) s t s' ps) :
    ∃ ps', ps = [.mk .nodeObject t ps'] ∧ Yields (fun o => Loose.ValueText flt (.object o) t) (IdlParser.objectOf flt [] ps') :=
  got_object (n := t.length) (fun _ _ _ _ _ h => node_says h) h (Nat.le_refl _)

theorem objected_says {flt : Str → Option F64} {n u : Str} {s1 s' ps'} (h : Got false (r .nodeObject) s1 u s' ps') :
    Yields (fun x => x.1 = n ∧ Loose.ValueText flt (.object x.2) u) (IdlParser.idAndObject flt none none (.mk .identifier n [] :: ps')) := by
  obtain ⟨ps', rfl, ho⟩ := object_got (flt := flt) h
  rintro ⟨id, o⟩ hx
  obtain ⟨o', e1, e2⟩ := ok_of_bind (b := (id, o)) (x := IdlParser.objectOf flt [] ps') (f := fun o => (.ok (n, o) : Except Err (Str × AMap Str Value))) hx
  cases e2
  exact ⟨rfl, ho _ e1⟩

theorem service_says {flt : Str → Option F64} {n u t w w' : Str} {rl : IdlRule} {s1 s' ps'} (hn : SmithyIdent n) (hw : Blank w) (hw' : Blank w')
    (h : Got false (r .nodeObject) s1 u s' ps') :
    Yields (BodySays flt (%s"service" ++ w ++ n ++ w' ++ u)) (IdlParser.serviceOf flt (.mk rl t (.mk .identifier n [] :: ps'))) := by
  intro b hb
  unfold IdlParser.serviceOf at hb
  obtain ⟨⟨id, o⟩, e1, e2⟩ := ok_of_bind hb
  obtain ⟨rfl, ho⟩ := objected_says (flt := flt) h _ e1
  simp only at ho e2
  split at e2
  · next v hv =>
    rw [shapeName_ident hn] at e2
    obtain ⟨⟨ops, res⟩, e3, e4⟩ := ok_of_bind (b := b) (x := IdlParser.serviceLoop [] [] o) (f := fun x => (.ok ⟨.local' id, [], .service v x.1 x.2 []⟩ : Except Err Builder)) e2
    obtain ⟨i0, i1, i2⟩ := serviceLoop_says (looseObject_wf ho) e3
    cases e4
    exact ⟨id, _, hn, rfl, .object hw hw' ho (.service i0 hv i1.says i2.says)⟩
  · cases e2

theorem operation_says {flt : Str → Option F64} {n u t w w' : Str} {rl : IdlRule} {s1 s' ps'} (hn : SmithyIdent n) (hw : Blank w) (hw' : Blank w')
    (h : Got false (r .nodeObject) s1 u s' ps') :
    Yields (BodySays flt (%s"operation" ++ w ++ n ++ w' ++ u)) (IdlParser.operationOf flt (.mk rl t (.mk .identifier n [] :: ps'))) := by
  intro b hb
  unfold IdlParser.operationOf at hb
  obtain ⟨⟨id, o⟩, e1, e2⟩ := ok_of_bind hb
  obtain ⟨rfl, ho⟩ := objected_says (flt := flt) h _ e1
  simp only at ho e2
  rw [shapeName_ident hn] at e2
  obtain ⟨k, e3, e4⟩ := ok_of_bind (b := b) (x := IdlParser.operationLoop none none [] o) (f := fun k => (.ok ⟨.local' id, [], k⟩ : Except Err Builder)) e2
  obtain ⟨b1, b2, b3, rfl, i0, i1, i2, i3⟩ := operationLoop_says (looseObject_wf ho) e3
  cases e4
  exact ⟨id, _, hn, rfl, .object hw hw' ho (.operation i0 i1.says i2.says i3.says)⟩

theorem resource_says {flt : Str → Option F64} {n u t w w' : Str} {rl : IdlRule} {s1 s' ps'} (hn : SmithyIdent n) (hw : Blank w) (hw' : Blank w')
    (h : Got false (r .nodeObject) s1 u s' ps') :
    Yields (BodySays flt (%s"resource" ++ w ++ n ++ w' ++ u)) (IdlParser.resourceOf flt (.mk rl t (.mk .identifier n [] :: ps'))) := by
  intro b hb
  unfold IdlParser.resourceOf at hb
  obtain ⟨⟨id, o⟩, e1, e2⟩ := ok_of_bind hb
  obtain ⟨rfl, ho⟩ := objected_says (flt := flt) h _ e1
  simp only at ho e2
  rw [shapeName_ident hn] at e2
  obtain ⟨k, e3, e4⟩ := ok_of_bind (b := b) (x := IdlParser.resourceLoop ⟨[], none, none, none, none, none, none, [], [], []⟩ o) (f := fun k => (.ok ⟨.local' id, [], k.body⟩ : Except Err Builder)) e2
  have hs := resourceLoop_says (looseObject_wf ho) (fun _ => rfl) e3
  cases e4
  exact ⟨id, _, hn, rfl, .object hw hw' ho (.resource hs.only hs.ids.says hs.create.says hs.put.says hs.read.says hs.update.says hs.delete.says hs.list.says
    hs.ops.says hs.cops.says hs.res.says)⟩

theorem typeName_says {s t s' ps} (h : Got false (r .simpleTypeName) s t s' ps) :
    ∃ rl k, ps = [.mk rl t []] ∧ t = Simple.display k ∧ IdlParser.simpleOf rl = some k ∧ rl ≠ .identifier := by
  have one : ∀ (rl : IdlRule) (k : Simple), IdlGrammar.kind rl = .normal → IdlGrammar.body rl = .str k.display → IdlParser.simpleOf rl = some k → rl ≠ .identifier →
      Got false (r rl) s t s' ps → ∃ rl k, ps = [.mk rl t []] ∧ t = Simple.display k ∧ IdlParser.simpleOf rl = some k ∧ rl ≠ .identifier := by
    intro rl k h1 h2 h3 h4 h
    obtain ⟨qs, rfl, h'⟩ := h.inv_normal h1
    rw [h2] at h'
    obtain ⟨rfl, rfl⟩ := h'.inv_str
    exact ⟨rl, k, rfl, rfl, h3, h4⟩
  rcases (h.inv_silent rfl).inv_choice with h | ⟨-, h⟩
  · exact one _ .blob rfl rfl rfl (by decide) h
  rcases h.inv_choice with h | ⟨-, h⟩
  · exact one _ .boolean rfl rfl rfl (by decide) h
  rcases h.inv_choice with h | ⟨-, h⟩
  · exact one _ .document rfl rfl rfl (by decide) h
  rcases h.inv_choice with h | ⟨-, h⟩
  · exact one _ .string rfl rfl rfl (by decide) h
  rcases h.inv_choice with h | ⟨-, h⟩
  · exact one _ .byte rfl rfl rfl (by decide) h
  rcases h.inv_choice with h | ⟨-, h⟩
  · exact one _ .short rfl rfl rfl (by decide) h
  rcases h.inv_choice with h | ⟨-, h⟩
  · exact one _ .integer rfl rfl rfl (by decide) h
  rcases h.inv_choice with h | ⟨-, h⟩
  · exact one _ .long rfl rfl rfl (by decide) h
  rcases h.inv_choice with h | ⟨-, h⟩
  · exact one _ .float rfl rfl rfl (by decide) h
  rcases h.inv_choice with h | ⟨-, h⟩
  · exact one _ .double rfl rfl rfl (by decide) h
  rcases h.inv_choice with h | ⟨-, h⟩
  · exact one _ .bigInteger rfl rfl rfl (by decide) h
  rcases h.inv_choice with h | ⟨-, h⟩
  · exact one _ .bigDecimal rfl rfl rfl (by decide) h
  · exact one _ .timestamp rfl rfl rfl (by decide) h

/-- The pair of a statement: what is read is what the text says. -/
theorem body_says {flt : Str → Option F64} {s t s' ps} (h : Got false (r .shapeBody) s t s' ps) :
    ∃ p, ps = [p] ∧ p.asRule ∈ statementRules ∧ Yields (BodySays flt t) (IdlParser.builderOf flt p) := by
  rcases (h.inv_silent rfl).inv_choice with h | ⟨-, h⟩
  · obtain ⟨qs, rfl, g⟩ := h.inv_normal rfl
    refine ⟨_, rfl, by simp [statementRules, Pair.asRule], ?_⟩
    obtain ⟨t1, _, _, _, _, h1, k1, rfl, rfl⟩ := g.inv_seq
    obtain ⟨w, _, _, n, _, h2, h3, rfl, rfl⟩ := k1.inv_seq
    obtain ⟨rl, k, rfl, rfl, e1, e2⟩ := typeName_says h1
    obtain ⟨hw, rfl, -⟩ := got_ws h2
    obtain ⟨hn, rfl⟩ := got_ident h3
    intro b hb
    simp only [IdlParser.builderOf, Pair.asRule, Pair.intoInner, IdlParser.simpleLoop, List.cons_append, List.nil_append, if_neg e2, e1, if_true,
      Pair.asStr] at hb
    have := Loose.BodyText.simple (flt := flt) (n := n) (k := k) hw
    exact ⟨n, _, hn, builderNamed_of hn hb, by simpa using this⟩
  rcases h.inv_choice with h | ⟨-, h⟩
  · obtain ⟨qs, rfl, g⟩ := h.inv_normal rfl
    obtain ⟨w, n, w', u, _, _, hw, hn, hw', hu, rfl, rfl⟩ := named_got g
    exact ⟨_, rfl, by simp [statementRules, Pair.asRule], list_says (kind := .list) hn hu fun m h1 h2 => .list hw hw' h1 h2⟩
  rcases h.inv_choice with h | ⟨-, h⟩
  · obtain ⟨qs, rfl, g⟩ := h.inv_normal rfl
    obtain ⟨w, n, w', u, _, _, hw, hn, hw', hu, rfl, rfl⟩ := named_got g
    exact ⟨_, rfl, by simp [statementRules, Pair.asRule], list_says (kind := .set) hn hu fun m h1 h2 => .set hw hw' h1 h2⟩
  rcases h.inv_choice with h | ⟨-, h⟩
  · obtain ⟨qs, rfl, g⟩ := h.inv_normal rfl
    obtain ⟨w, n, w', u, _, _, hw, hn, hw', hu, rfl, rfl⟩ := named_got g
    exact ⟨_, rfl, by simp [statementRules, Pair.asRule], map_says hn hw hw' hu⟩
  rcases h.inv_choice with h | ⟨-, h⟩
  · obtain ⟨qs, rfl, g⟩ := h.inv_normal rfl
    obtain ⟨w, n, w', u, _, _, hw, hn, hw', hu, rfl, rfl⟩ := named_got g
    exact ⟨_, rfl, by simp [statementRules, Pair.asRule], structure_says (kind := .struct) hn hu fun ms h => .struct hw hw' h⟩
  rcases h.inv_choice with h | ⟨-, h⟩
  · obtain ⟨qs, rfl, g⟩ := h.inv_normal rfl
    obtain ⟨w, n, w', u, _, _, hw, hn, hw', hu, rfl, rfl⟩ := named_got g
    exact ⟨_, rfl, by simp [statementRules, Pair.asRule], structure_says (kind := .union) hn hu fun ms h => .union hw hw' h⟩
  rcases h.inv_choice with h | ⟨-, h⟩
  · obtain ⟨qs, rfl, g⟩ := h.inv_normal rfl
    obtain ⟨w, n, w', u, _, _, hw, hn, hw', hu, rfl, rfl⟩ := named_got g
    exact ⟨_, rfl, by simp [statementRules, Pair.asRule], service_says hn hw hw' hu⟩
  rcases h.inv_choice with h | ⟨-, h⟩
  · obtain ⟨qs, rfl, g⟩ := h.inv_normal rfl
    obtain ⟨w, n, w', u, _, _, hw, hn, hw', hu, rfl, rfl⟩ := named_got g
    exact ⟨_, rfl, by simp [statementRules, Pair.asRule], operation_says hn hw hw' hu⟩
  · obtain ⟨qs, rfl, g⟩ := h.inv_normal rfl
    obtain ⟨w, n, w', u, _, _, hw, hn, hw', hu, rfl, rfl⟩ := named_got g
    exact ⟨_, rfl, by simp [statementRules, Pair.asRule], resource_says hn hw hw' hu⟩

/-! ### Statements -/

theorem statementLoop_body {flt : Str → Option F64} {mb : ModelBuilder} {docs : List Str} {ts : List TraitBuilder} {p : Pair IdlRule} (hr : p.asRule ∈ statementRules) :
    IdlParser.statementLoop flt mb docs ts [p] = (IdlParser.builderOf flt p >>= fun b => .ok (mb.insert { b with traits := b.traits ++ IdlParser.appliedTraits docs ts })) := by
  obtain ⟨rl, t, ps⟩ := p
  simp only [Pair.asRule, statementRules, List.mem_cons, List.not_mem_nil, or_false] at hr
  rcases hr with rfl | rfl | rfl | rfl | rfl | rfl | rfl | rfl | rfl <;> rfl

/-- The pair of a statement with documentation and traits. -/
theorem statement_says {flt : Str → Option F64} {s t s' ps} (h : Got false (r .shapeStatement) s t s' ps) :
    ∃ p t' w, ps = [p] ∧ p.asRule = .shapeStatement ∧ t = t' ++ w ∧ Blank w ∧ ∀ mb,
      Yields (fun x => ∃ b, Loose.StatementText flt b t' ∧ x = mb.insert b) (IdlParser.statementLoop flt mb [] [] p.intoInner) := by
  obtain ⟨qs, rfl, k⟩ := h.inv_normal rfl
  obtain ⟨d, _, _, _, _, h1, k1, rfl, rfl⟩ := k.inv_seq
  obtain ⟨w, _, _, _, _, h2, k2, rfl, rfl⟩ := k1.inv_seq
  obtain ⟨x, _, _, _, _, h3, k3, rfl, rfl⟩ := k2.inv_seq
  obtain ⟨y, _, _, w2, _, h4, h5, rfl, rfl⟩ := k3.inv_seq
  obtain ⟨docs, rfl, hd⟩ := docs_says h1
  obtain ⟨hw, rfl, -⟩ := got_ws h2
  obtain ⟨q, rfl, hq, ht⟩ := traits_says (flt := flt) h3
  obtain ⟨p, rfl, hp, hb⟩ := body_says (flt := flt) h4
  obtain ⟨hw2, rfl, -⟩ := got_ws h5
  refine ⟨_, d ++ w ++ x ++ y, w2, rfl, rfl, by simp, hw2, ?_⟩
  intro mb mb' hmb
  change IdlParser.statementLoop flt mb [] [] (docs.map (fun l => .mk .documentationText l []) ++ _) = _ at hmb
  rw [statementLoop_docs] at hmb
  obtain ⟨rl, qt, qp⟩ := q
  cases hq
  obtain ⟨tb, e1, e2⟩ := ok_of_bind (x := IdlParser.traitsOf flt (.mk .traitStatements qt qp))
    (f := fun tb => IdlParser.statementLoop flt mb ([] ++ docs.map trimStart) tb [p]) hmb
  rw [statementLoop_body hp] at e2
  obtain ⟨b, e3, e4⟩ := ok_of_bind e2
  obtain ⟨n, k, hn, rfl, hk⟩ := hb _ e3
  obtain ⟨dt, j1, j2⟩ := docTrait_says docs tb
  cases e4
  rw [List.nil_append, List.nil_append, j2]
  have pre : Loose.Preface flt (dt ++ tb) (d ++ w ++ x) := ⟨docs, d ++ w, dt, tb, x, spaced_after hd hw, j1, ht _ e1, rfl, rfl⟩
  exact ⟨_, .mk pre hn hk, rfl⟩

end Verif
