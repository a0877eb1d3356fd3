/-
C18 in full: what a failed merge leaves. C20 in full: when merging a model into itself changes nothing.
-/
import Verif.ModelExact

namespace Verif
open Spec

/-- Where merging `b` into `a` stops with the error `e`: `d` is the part of `b` before the conflict, in the order of the
tables of `b`. -/
inductive StopsAt (a b : Model) : Model → Err → Prop
  /-- at a metadata value that cannot be combined with that of `a`: some metadata is merged, and no shapes -/
  | metadata {pre post : AMap Str Value} {k v w} : b.metadata = pre ++ (k, v) :: post → a.metadataValue k = some w →
      (¬ ∃ z, MetaMerge w v z) → StopsAt a b ⟨b.version, pre, []⟩ (.mergeMetadataConflict k)
  /-- at a shape that cannot be combined with the definition in `a`: all metadata and some shapes are merged -/
  | shape {pre post : AMap ShapeID TopLevelShape} {id s x e} : b.shapes = pre ++ (id, s) :: post → a.shape id = some x →
      (¬ ∃ c, BodyMerge x.body s.body c) →
      (e = .mergeShapeConflict id ∨ (e = .panic ∧ ∃ p q, BothMembers x.body s.body p q ∧ MissingFirst p q)) →
      StopsAt a b ⟨b.version, b.metadata, pre⟩ e
  /-- at a trait of a shape that cannot be combined with the trait in `a`: the shape is merged, with some of its traits -/
  | trait {pre post : AMap ShapeID TopLevelShape} {id s x} {tpre tpost : Traits} {t v w} :
      b.shapes = pre ++ (id, s) :: post → s.traits = tpre ++ (t, v) :: tpost →
      a.shape id = some x → x.traits.get t = some w → (¬ ∃ z, TraitMerge w v z) →
      StopsAt a b ⟨b.version, b.metadata, pre ++ [(id, { s with traits := tpre })]⟩ (.mergeTraitConflict t)
  /-- at a trait whose id is that of a member -/
  | memberTrait {pre post : AMap ShapeID TopLevelShape} {id s x} {tpre tpost : Traits} {t v} :
      b.shapes = pre ++ (id, s) :: post → s.traits = tpre ++ (t, v) :: tpost → a.shape id = some x → t.isMember = true →
      StopsAt a b ⟨b.version, b.metadata, pre ++ [(id, { s with traits := tpre })]⟩ (.shapeIDExpected t)

theorem metadata_split {m : Model} {l : List (Str × Value)} {e : Err} (h : (m.addAllMetadata l).2 = .error e) :
    ∃ pre k v post, l = pre ++ (k, v) :: post ∧ (m.addAllMetadata pre).2 = .ok () ∧
      ((m.addAllMetadata pre).1.addMetadata k v).2 = .error e ∧
      (m.addAllMetadata l).1 = ((m.addAllMetadata pre).1.addMetadata k v).1 := by
  induction l generalizing m with
  | nil => cases h
  | cons x t ih =>
    obtain ⟨k, v⟩ := x
    unfold Model.addAllMetadata at h ⊢
    cases hx : m.addMetadata k v with
    | mk m' r =>
      rw [hx] at h
      cases r with
      | error e' =>
        simp only [Except.error.injEq] at h
        subst h
        exact ⟨[], k, v, t, rfl, rfl, by simp [hx], by simp [hx]⟩
      | ok o =>
        simp only at h ⊢
        obtain ⟨pre, j, w, post, rfl, h1, h2, h3⟩ := ih h
        refine ⟨(k, v) :: pre, j, w, post, rfl, ?_, ?_, ?_⟩
        · simpa only [Model.addAllMetadata, hx] using h1
        · simpa only [Model.addAllMetadata, hx] using h2
        · simpa only [Model.addAllMetadata, hx] using h3

theorem shapes_split {m : Model} {l : List (ShapeID × TopLevelShape)} {e : Err} (h : (m.addAllShapes l).2 = .error e) :
    ∃ pre k v post, l = pre ++ (k, v) :: post ∧ (m.addAllShapes pre).2 = .ok () ∧
      ((m.addAllShapes pre).1.addShape v).2 = .error e ∧
      (m.addAllShapes l).1 = ((m.addAllShapes pre).1.addShape v).1 := by
  induction l generalizing m with
  | nil => cases h
  | cons x t ih =>
    obtain ⟨k, v⟩ := x
    unfold Model.addAllShapes at h ⊢
    cases hx : m.addShape v with
    | mk m' r =>
      rw [hx] at h
      cases r with
      | error e' =>
        simp only [Except.error.injEq] at h
        subst h
        exact ⟨[], k, v, t, rfl, rfl, by simp [hx], by simp [hx]⟩
      | ok o =>
        simp only at h ⊢
        obtain ⟨pre, j, w, post, rfl, h1, h2, h3⟩ := ih h
        refine ⟨(k, v) :: pre, j, w, post, rfl, ?_, ?_, ?_⟩
        · simpa only [Model.addAllShapes, hx] using h1
        · simpa only [Model.addAllShapes, hx] using h2
        · simpa only [Model.addAllShapes, hx] using h3

theorem traits_split {ts : Traits} {l : List (ShapeID × TraitValue)} {e : Err} (h : (appendTraits ts l).2 = .error e) :
    ∃ pre k v post, l = pre ++ (k, v) :: post ∧ (appendTraits ts pre).2 = .ok () ∧
      (applyWithValue (appendTraits ts pre).1 k v).2 = .error e ∧
      (appendTraits ts l).1 = (applyWithValue (appendTraits ts pre).1 k v).1 := by
  induction l generalizing ts with
  | nil => cases h
  | cons x t ih =>
    obtain ⟨k, v⟩ := x
    unfold appendTraits at h ⊢
    cases hx : applyWithValue ts k v with
    | mk m' r =>
      rw [hx] at h
      cases r with
      | error e' =>
        simp only [Except.error.injEq] at h
        subst h
        exact ⟨[], k, v, t, rfl, rfl, by simp [hx], by simp [hx]⟩
      | ok o =>
        simp only at h ⊢
        obtain ⟨pre, j, w, post, rfl, h1, h2, h3⟩ := ih h
        refine ⟨(k, v) :: pre, j, w, post, rfl, ?_, ?_, ?_⟩
        · simpa only [appendTraits, hx] using h1
        · simpa only [appendTraits, hx] using h2
        · simpa only [appendTraits, hx] using h3

theorem addAllShapes_snoc {m : Model} {l : List (ShapeID × TopLevelShape)} (h : (m.addAllShapes l).2 = .ok ())
    (x : ShapeID × TopLevelShape) :
    m.addAllShapes (l ++ [x]) = (m.addAllShapes l).1.addShape x.2 := by
  induction l generalizing m with
  | nil =>
    obtain ⟨k, v⟩ := x
    simp only [List.nil_append, Model.addAllShapes]
    cases hx : m.addShape v with
    | mk m' r => cases r <;> rfl
  | cons y t ih =>
    obtain ⟨k, v⟩ := y
    simp only [List.cons_append, Model.addAllShapes] at h ⊢
    cases hx : m.addShape v with
    | mk m' r =>
      rw [hx] at h
      cases r with
      | error e => cases h
      | ok o => exact ih h

theorem merge_loops (a b : Model) : a.merge b = match a.addAllMetadata b.metadata with
    | (m', .error e) => (m', .error e)
    | (m', .ok ()) => m'.addAllShapes b.shapes := by
  unfold Model.merge
  have : b.version = a.version := by cases b.version; cases a.version; rfl
  rw [if_neg (by simp [this])]
  rfl

/-- The part of a well-formed map before an entry is well-formed, does not have the entry's key, and agrees with the map. -/
theorem prefix_facts {K V : Type} [DecidableEq K] {l pre post : AMap K V} {k : K} {v : V} (hl : AMap.Wf l)
    (h : l = pre ++ (k, v) :: post) :
    AMap.Wf pre ∧ AMap.get pre k = none ∧ AMap.get l k = some v ∧ ∀ j x, AMap.get pre j = some x → AMap.get l j = some x := by
  subst h
  have hw := hl
  unfold AMap.Wf AMap.keys at hl
  rw [List.map_append, List.nodup_append] at hl
  obtain ⟨h1, h2, h3⟩ := hl
  refine ⟨h1, ?_, AMap.get_of_mem hw (by simp), fun j x hx => AMap.get_of_mem hw (by simp [AMap.mem_of_get hx])⟩
  cases hg : AMap.get pre k with
  | none => rfl
  | some w =>
    exact absurd rfl (h3 k (List.mem_map_of_mem (f := Prod.fst) (AMap.mem_of_get hg)) k (by simp))

theorem wf_part {b : Model} (hb : WfModel b) {md : AMap Str Value} {ss : AMap ShapeID TopLevelShape} (h1 : AMap.Wf md)
    (h2 : ∀ k v, AMap.get md k = some v → AMap.get b.metadata k = some v) (h3 : AMap.Wf ss)
    (h4 : ∀ k s, AMap.get ss k = some s → AMap.get b.shapes k = some s) : WfModel ⟨b.version, md, ss⟩ :=
  ⟨h1, fun k v h => hb.metaValues k v (h2 k v h), h3, fun k s h => hb.key k s (h4 k s h),
    fun k s h => hb.member k s (h4 k s h), fun k s h => hb.shapes k s (h4 k s h)⟩

/-- C18 in full: a merge that fails leaves exactly what merging the part of the other model before the conflict gives. -/
theorem C18_failed_merge (a b : Model) (ha : WfModel a) (hb : WfModel b) (e : Err) (h : (a.merge b).2 = .error e) :
    ∃ d, StopsAt a b d e ∧ (a.merge d).2 = .ok () ∧ (a.merge b).1 = (a.merge d).1 := by
  rw [merge_loops a b] at h
  cases hmd : a.addAllMetadata b.metadata with
  | mk m1 r =>
  rw [hmd] at h
  cases r with
  | error e' =>
    simp only [Except.error.injEq] at h
    subst h
    obtain ⟨pre, k, v, post, hs, h1, h2, h3⟩ := metadata_split (m := a) (l := b.metadata) (e := e') (by rw [hmd])
    obtain ⟨f1, f2, f3, f4⟩ := prefix_facts hb.metaNodup hs
    have hd : WfModel ⟨b.version, pre, []⟩ := wf_part hb f1 f4 AMap.wf_nil (by simp)
    have hmerge : a.merge ⟨b.version, pre, []⟩ = a.addAllMetadata pre := by
      rw [merge_loops]
      cases hx : a.addAllMetadata pre with
      | mk x y => rw [hx] at h1; cases h1; rfl
    have hframe : (a.addAllMetadata pre).1.metadataValue k = a.metadataValue k := by
      have := (C18_merge_frame a ⟨b.version, pre, []⟩ ha hd).2.1 k f2
      rw [hmerge] at this; exact this
    have hwf : WfModel (a.addAllMetadata pre).1 := by have := wf_merge ha hd; rw [hmerge] at this; exact this
    have hvw := hb.metaValues k v f3
    obtain ⟨c1, c2, c3, c4, _⟩ := C10_addMetadata (a.addAllMetadata pre).1 k v hwf hvw
    have : (∃ w, a.metadataValue k = some w ∧ ¬ ∃ z, MetaMerge w v z) ∧ e' = .mergeMetadataConflict k := by
      cases hw : a.metadataValue k with
      | none => rw [hw] at hframe; rw [(c1 hframe).1] at h2; cases h2
      | some w =>
        rw [hw] at hframe
        by_cases harr : w.isArray = true ∧ v.isArray = true
        · cases w <;> cases v <;> simp [Value.isArray] at harr
          rw [(c2 _ _ hframe rfl).1] at h2; cases h2
        · by_cases hv : VEq w v
          · rw [c3 w hframe harr hv] at h2; cases h2
          · rw [c4 w hframe harr hv] at h2
            simp only [Except.error.injEq] at h2
            refine ⟨⟨w, rfl, ?_⟩, h2.symm⟩
            rintro ⟨z, hz⟩
            cases hz with
            | concat => exact harr ⟨rfl, rfl⟩
            | equal _ hq => exact hv hq
    obtain ⟨⟨w, hw, hnz⟩, rfl⟩ := this
    refine ⟨_, .metadata hs hw hnz, by rw [hmerge]; exact h1, ?_⟩
    rw [hmerge, merge_loops, hmd]
    have := C18_addMetadata_atomic _ _ _ _ h2
    rw [this, hmd] at h3
    exact h3
  | ok u =>
    cases u
    simp only at h
    obtain ⟨pre, k, s, post, hs, h1, h2, h3⟩ := shapes_split h
    obtain ⟨f1, f2, f3, f4⟩ := prefix_facts hb.nodup hs
    have hd : WfModel ⟨b.version, b.metadata, pre⟩ := wf_part hb hb.metaNodup (fun _ _ h => h) f1 f4
    have hmerge : a.merge ⟨b.version, b.metadata, pre⟩ = m1.addAllShapes pre := by rw [merge_loops]; simp only [hmd]
    have hwhole : a.merge b = m1.addAllShapes b.shapes := by rw [merge_loops]; simp only [hmd]
    have hframe : (m1.addAllShapes pre).1.shape k = a.shape k := by
      have := (C18_merge_frame a ⟨b.version, b.metadata, pre⟩ ha hd).2.2.1 k f2
      rw [hmerge] at this; exact this
    have hwf : WfModel (m1.addAllShapes pre).1 := by have := wf_merge ha hd; rw [hmerge] at this; exact this
    have hsid : s.id = k := hb.key k s f3
    have hsw : WfShape s := hb.shapes k s f3
    have hmem : s.id.isMember = true → s.body = .unresolved := fun hx => hb.member k s f3 (hsid ▸ hx)
    have hc : (s.id.isMember && !s.body.isUnresolved) = false := by
      cases hx : s.id.isMember with
      | false => rfl
      | true => simp [isUnresolved_iff.mpr (hmem hx)]
    cases hx : a.shape k with
    | none =>
      rw [hx, ← hsid] at hframe
      rw [((C13_addShape_new _ s).2 hmem hframe).1] at h2; cases h2
    | some x =>
      rw [hx, ← hsid] at hframe
      have hxw : WfShape x := ha.shapes k x hx
      have hxid : x.id = s.id := (ha.key k x hx).trans hsid.symm
      by_cases hbm : ∃ c, BodyMerge x.body s.body c
      · -- the bodies can be combined, so it is a trait
        have hnt : (appendTraits x.traits s.traits).2 = .error e := by
          obtain ⟨c, hbm⟩ := hbm
          unfold Model.addShape at h2
          simp only [hc, hframe, Bool.false_eq_true, if_false] at h2
          unfold Model.reconcile at h2
          cases hu : x.body.isUnresolved <;> cases hv : s.body.isUnresolved <;> simp only [hu, hv] at h2
          · have hsd : SameDef x.body s.body := by
              have e1 := isUnresolved_false_iff.mp hu
              have e2 := isUnresolved_false_iff.mp hv
              generalize x.body = X at *
              generalize s.body = Y at *
              cases hbm with
              | same _ _ h => exact h
              | resolve => exact absurd rfl e1
              | keep => exact absurd rfl e2
            rw [(equalWithoutTraits_iff hxid hxw.body hsw.body).mpr hsd] at h2
            exact h2
          · exact h2
          · exact h2
          · exact h2
        obtain ⟨tpre, t, v, tpost, hts, t1, t2, t3⟩ := traits_split hnt
        obtain ⟨g1, g2, g3, g4⟩ := prefix_facts hsw.traits.nodup hts
        have hs'w : WfShape { s with traits := tpre } :=
          ⟨⟨g1, fun i w hw => hsw.traits.values i w (g4 i _ hw)⟩, hsw.body⟩
        -- adding the shape with these traits only
        have hadd : ((m1.addAllShapes pre).1.addShape { s with traits := tpre }).2 = .ok () ∧
            ((m1.addAllShapes pre).1.addShape s).1 = ((m1.addAllShapes pre).1.addShape { s with traits := tpre }).1 := by
          have hkeep : (appendTraits x.traits s.traits).1 = (appendTraits x.traits tpre).1 := by
            rw [t3]
            have hw2 : WfTraits (appendTraits x.traits tpre).1 := appendTraits_wf hxw.traits hs'w.traits
            unfold applyWithValue at t2 ⊢
            split
            · rfl
            · next hne =>
              rw [if_neg hne] at t2
              split
              · next o ho =>
                simp only [ho] at t2
                cases hq : mergeTraits t o v with
                | ok n => rw [hq] at t2; cases t2
                | error er => rfl
              · next ho => simp only [ho] at t2; cases t2
          unfold Model.addShape
          simp only [hc, hframe, Bool.false_eq_true, if_false]
          unfold Model.reconcile Model.copyTraits TopLevelShape.equalWithoutTraits
          cases hu : x.body.isUnresolved <;> cases hv : s.body.isUnresolved <;> simp only
          · have hsd : SameDef x.body s.body := by
              obtain ⟨c, hbm⟩ := hbm
              have e1 := isUnresolved_false_iff.mp hu
              have e2 := isUnresolved_false_iff.mp hv
              generalize x.body = X at *
              generalize s.body = Y at *
              cases hbm with
              | same _ _ h => exact h
              | resolve => exact absurd rfl e1
              | keep => exact absurd rfl e2
            rw [(kind_equalWithoutTraits_iff hxw.body hsw.body).mpr hsd]
            simp only [hxid, ceq_refl, if_true]
            exact ⟨t1, by rw [hkeep]⟩
          · exact ⟨t1, by rw [hkeep]⟩
          · exact ⟨t1, by rw [hkeep]⟩
          · exact ⟨t1, by rw [hkeep]⟩
        have hmerge' : a.merge ⟨b.version, b.metadata, pre ++ [(k, { s with traits := tpre })]⟩ =
            (m1.addAllShapes pre).1.addShape { s with traits := tpre } := by
          rw [merge_loops]
          simp only [hmd]
          exact addAllShapes_snoc h1 _
        have hres : (a.merge b).1 = (a.merge ⟨b.version, b.metadata, pre ++ [(k, { s with traits := tpre })]⟩).1 := by
          rw [hwhole, hmerge', h3, hadd.2]
        have hframe' : AMap.get (appendTraits x.traits tpre).1 t = AMap.get x.traits t :=
          (C12_appendTraits x.traits tpre hxw.traits hs'w.traits).2.2.1 t g2
        obtain ⟨d1, d2, d3, d4, _⟩ := C12_applyWithValue (appendTraits x.traits tpre).1 t v
          (appendTraits_wf hxw.traits hs'w.traits) (fun w hw => hsw.traits.values t w (hw ▸ g3))
        cases htm : t.isMember with
        | true =>
          rw [d1 htm] at t2
          simp only [Except.error.injEq] at t2
          subst t2
          exact ⟨_, .memberTrait hs hts hx htm, by rw [hmerge']; exact hadd.1, hres⟩
        | false =>
          cases hw : AMap.get x.traits t with
          | none => rw [hw] at hframe'; rw [(d2 htm hframe').1] at t2; cases t2
          | some w =>
            rw [hw] at hframe'
            by_cases hz : ∃ z, TraitMerge w v z
            · obtain ⟨z, hz⟩ := hz
              rw [(d3 htm w z hframe' hz).1] at t2; cases t2
            · rw [d4 htm w hframe' hz] at t2
              simp only [Except.error.injEq] at t2
              subst t2
              exact ⟨_, .trait hs hts hx hw hz, by rw [hmerge']; exact hadd.1, hres⟩
      · have e1 : x.body ≠ .unresolved := by
          intro h0
          rw [h0] at hbm
          by_cases hsu : s.body = .unresolved
          · rw [hsu] at hbm; exact hbm ⟨_, .keep⟩
          · exact hbm ⟨_, .resolve hsu⟩
        have e2 : s.body ≠ .unresolved := fun h0 => hbm ⟨_, by rw [h0]; exact .keep⟩
        have hnd : ¬ SameDef x.body s.body := fun h0 => hbm ⟨_, .same e1 e2 h0⟩
        have hnm : s.id.isMember = false := by
          cases hq : s.id.isMember with
          | false => rfl
          | true => exact absurd (hmem hq) e2
        obtain ⟨j1, j2⟩ := C13_addShape_conflict _ s x hwf hsw hframe e1 e2 hnd hnm
        refine ⟨_, .shape hs hx hbm ?_, by rw [hmerge]; exact h1, by rw [hwhole, hmerge, h3, j1]⟩
        rcases j2 with j2 | j2
        · rw [j2] at h2
          simp only [Except.error.injEq] at h2
          exact .inl (by rw [← h2, hsid])
        · have hp := (C14_panic_iff _ s hwf hsw).mp j2
          obtain ⟨y, p, q, hy, hmf, hpq⟩ := hp
          rw [hframe] at hy
          cases hy
          rw [j2] at h2
          simp only [Except.error.injEq] at h2
          exact .inr ⟨h2.symm, p, q, hpq, hmf⟩

/-- The failed merge of `C18_failed_merge_changes_model` stops at the shape, after the metadata. -/
example : StopsAt exLeft exRight ⟨.v10, exRight.metadata, []⟩ (.mergeShapeConflict (sid (%s"S"))) :=
  .shape (pre := []) (post := []) rfl rfl (by
    rintro ⟨c, h⟩
    cases h with | same _ _ h => cases h) (.inl rfl)

/-! ### C20 Merging a model into itself -/

theorem same_array_doubled {a : List Value} (h : Same (.array (a ++ a)) (.array a)) : a = [] := by
  generalize hx : Value.array (a ++ a) = x at h
  generalize hy : Value.array a = y at h
  cases h <;> cases hx <;> cases hy
  next hl _ => simpa using hl

/-- C20 in full: merging a model into itself succeeds and changes nothing exactly if no value in its metadata or traits (other
than in arrays) has a NaN, there are no arrays but empty ones, and no trait has the id of a member. -/
theorem C20_self_merge_unchanged_iff (m : Model) (hm : WfModel m) :
    ((m.merge m).2 = .ok () ∧ SameModel (m.merge m).1 m) ↔
      LegalModel m ∧ (∀ k v, m.metadataValue k = some v → ¬ SelfConflict v ∧ ∀ a, v = .array a → a = []) ∧
      (∀ id s t v, m.shape id = some s → s.traits.get t = some (some v) → ¬ SelfConflict v ∧ ∀ a, v = .array a → a = []) := by
  constructor
  · rintro ⟨hok, hsame⟩
    obtain ⟨h1, h2, h3⟩ := (C20_self_merge_ok_iff m hm).mp hok
    obtain ⟨d1, d2⟩ := C20_self_merge_doubles m hm hok
    refine ⟨h3, fun k v hv => ⟨h1 k v hv, ?_⟩, fun id s t v hs hv => ⟨h2 id s t v hs hv, ?_⟩⟩
    · rintro a rfl
      have hd := d1 k a hv
      have hr := hsame.metadata k
      simp only [Model.metadataValue] at hd hv
      rw [hd, hv] at hr
      cases hr with | some hr =>
      exact same_array_doubled hr
    · rintro a rfl
      obtain ⟨s', hs', hd⟩ := d2 id s t a hs hv
      have hr := hsame.shapes id
      simp only [Model.shape] at hs' hs
      rw [hs', hs] at hr
      cases hr with | some hr =>
      have ht := hr.traits t
      rw [hd, hv] at ht
      cases ht with | some ht =>
      cases ht with | some ht =>
      exact same_array_doubled ht
  · rintro ⟨h1, h2, h3⟩
    exact C20_self_merge_unchanged m hm h1 h2 h3

end Verif
