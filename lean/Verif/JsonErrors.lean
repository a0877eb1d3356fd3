/-
C102: the errors of the JSON reader say what is wrong with the document.
-/
import Verif.JsonErrorsSpec
import Verif.JsonExact

namespace Verif
open Spec Spec.JsonFaults

/-- The result is an error only for a fault, with the error that tells of one of the faults, and an error whenever there is a fault. -/
structure Tells {α : Type} (r : Except Err α) (P : Err → Prop) : Prop where
  sound : ∀ e, r = .error e → P e
  complete : ∀ e, P e → ∃ e', r = .error e'

theorem tells_ok {α : Type} (a : α) : Tells (.ok a : Except Err α) (fun _ => False) := ⟨fun _ h => (by cases h), fun _ h => h.elim⟩

theorem Tells.congr {α : Type} {r : Except Err α} {P Q : Err → Prop} (h : Tells r P) (hpq : ∀ e, P e ↔ Q e) : Tells r Q :=
  ⟨fun e he => (hpq e).mp (h.sound e he), fun e he => h.complete e ((hpq e).mpr he)⟩

theorem tells_of_eq {α : Type} {r r' : Except Err α} {P : Err → Prop} (h : r = r') (t : Tells r' P) : Tells r P := h ▸ t

theorem tells_bind {α β : Type} {x : Except Err α} {f : α → Except Err β} {P Q : Err → Prop} (hx : Tells x P)
    (hf : ∀ a, x = .ok a → Tells (f a) Q) : Tells (x >>= f) (fun e => P e ∨ Q e) := by
  cases hxx : x with
  | error e' =>
    subst hxx
    exact ⟨fun e h => by cases h; exact .inl (hx.sound _ rfl), fun e _ => ⟨e', rfl⟩⟩
  | ok a =>
    refine ⟨fun e h => .inr ((hf a hxx).sound e h), fun e h => ?_⟩
    rcases h with h | h
    · obtain ⟨e', h'⟩ := hx.complete e h; rw [hxx] at h'; cases h'
    · exact (hf a hxx).complete e h

theorem tells_mapE {α β : Type} {f : α → Except Err β} {P : α → Err → Prop} {l : List α} (h : ∀ x ∈ l, Tells (f x) (P x)) :
    Tells (mapE f l) (fun e => ∃ x ∈ l, P x e) := by
  induction l with
  | nil => exact (tells_ok _).congr fun e => by simp
  | cons a l ih =>
    have hm : mapE f (a :: l) = (f a >>= fun y => mapE f l >>= fun ys => .ok (y :: ys)) := by
      cases ha : f a with
      | error e => simp only [mapE, ha]; rfl
      | ok b =>
        simp only [mapE, ha]
        cases hl : mapE f l <;> rfl
    rw [hm]
    refine (tells_bind (h a (by simp)) fun y _ => tells_bind (ih fun x hx => h x (by simp [hx])) fun ys _ => tells_ok _).congr fun e => ?_
    simp

/-- The shape of most functions of the reader. -/
theorem tells_match {α β : Type} {x : Except Err α} {r : Except Err β} {P : Err → Prop} (h : Tells x P)
    (he : ∀ e, x = .error e → r = .error e) (ho : ∀ a, x = .ok a → ∃ b, r = .ok b) : Tells r P := by
  cases hx : x with
  | error e =>
    rw [he e hx]
    exact ⟨fun e' h' => by cases h'; exact h.sound _ hx, fun e' _ => ⟨e, rfl⟩⟩
  | ok a =>
    obtain ⟨b, hb⟩ := ho a hx
    rw [hb]
    refine ⟨fun e' h' => (by cases h'), fun e' he => ?_⟩
    obtain ⟨e2, h2⟩ := h.complete e' he; rw [hx] at h2; cases h2

theorem tells_error {α : Type} (e : Err) : Tells (.error e : Except Err α) (fun x => x = e) :=
  ⟨fun _ h => by cases h; rfl, fun _ h => ⟨e, rfl⟩⟩

theorem fromStr_error {s : Str} {e : Err} (h : ShapeID.fromStr s = .error e) : e = .invalidShapeID s := by
  unfold ShapeID.fromStr at h
  repeat' split at h
  all_goals first | (cases h; rfl) | cases h

theorem tells_id (s : Str) : Tells (ShapeID.fromStr s) (IdFault s) := by
  cases h : ShapeID.fromStr s with
  | ok id =>
    refine ⟨fun e h => (by cases h), fun e he => ?_⟩
    cases he with
    | mk hn => exact absurd (readableId_iff.mpr ⟨id, h⟩) hn
  | error e' =>
    refine ⟨fun e h' => ?_, fun e _ => ⟨e', rfl⟩⟩
    cases h'
    rw [fromStr_error h]
    refine .mk fun hr => ?_
    obtain ⟨id, hid⟩ := readableId_iff.mp hr
    rw [h] at hid; cases hid

theorem tells_name (s : Str) : Tells (Identifier.fromStr s) (NameFault s) := by
  unfold Identifier.fromStr
  by_cases hi : isIdent s = true
  · rw [if_pos hi]
    exact (tells_ok _).congr fun e => ⟨fun h => h.elim, fun h => by cases h with | mk hn => exact hn ((isIdent_iff s).mp hi)⟩
  · rw [if_neg hi]
    refine (tells_error _).congr fun e => ⟨fun h => ?_, fun h => ?_⟩
    · subst h; exact .mk fun hn => hi ((isIdent_iff s).mpr hn)
    · cases h; rfl

theorem tells_target (j : Option Json) : Tells (JsonReader.target j) (RefFault j) := by
  have bad : ∀ (j : Option Json), NoTarget j → Tells (.error (JsonReader.derr %s"JsonReader::target") : Except Err ShapeID) (RefFault j) := by
    intro j hn
    refine (tells_error _).congr fun e => ⟨fun h => ?_, fun h => ?_⟩
    · subst h; exact .missing hn
    · cases h with
      | missing => rfl
      | id hj ht => exact absurd ht (hn _ _ hj)
  unfold JsonReader.target
  split
  · rename_i ms
    split
    · rename_i t ht
      refine (tells_id t).congr fun e => ⟨fun h => .id rfl ht h, fun h => ?_⟩
      cases h with
      | missing hn => exact absurd ht (hn _ _ rfl)
      | id hj ht' he =>
        cases hj
        rw [show Json.get (.object ms) %s"target" = AMap.get ms %s"target" from rfl, ht] at ht'
        cases ht'; exact he
    · rename_i hne
      refine bad _ fun x t hx ht => ?_
      cases hx
      exact hne t ht
  · rename_i hne
    refine bad _ fun x t hx ht => ?_
    subst hx
    cases x with
    | object o => exact hne o rfl
    | _ => cases ht

theorem tells_optTarget (j : Option Json) : Tells (JsonReader.optionalTarget j) (OptRefFault j) := by
  unfold JsonReader.optionalTarget
  cases j with
  | none => exact (tells_ok _).congr fun e => ⟨fun h => h.elim, fun h => h.1 rfl⟩
  | some x =>
    refine (tells_match (r := match JsonReader.target (some x) with | .error e => .error e | .ok id => .ok (some id)) (tells_target (some x)) (fun e h => by rw [h]) fun a h => ⟨_, by rw [h]⟩).congr fun e => ?_
    exact ⟨fun h => ⟨nofun, h⟩, fun h => h.2⟩

theorem tells_targets (j : Option Json) : Tells (JsonReader.targetList j) (RefsFault j) := by
  unfold JsonReader.targetList
  split
  · rename_i ms
    refine (tells_mapE fun x _ => tells_target (some x)).congr fun e => ⟨fun ⟨x, hx, h⟩ => .element rfl hx h, fun h => ?_⟩
    cases h with
    | type hj hn => cases hj; exact absurd rfl (hn ms)
    | element hj hx h => cases hj; exact ⟨_, hx, h⟩
  · rename_i x hx
    refine (tells_error _).congr fun e => ⟨fun h => ?_, fun h => ?_⟩
    · subst h; exact .type rfl fun l hl => hx l (by rw [hl])
    · cases h with
      | type => rfl
      | element hj => cases hj; exact absurd rfl (hx _)
  · exact (tells_ok _).congr fun e => ⟨fun h => h.elim, fun h => by cases h <;> contradiction⟩

theorem tells_traitEntry (e : Str × Json) : Tells (JsonReader.traitEntry e) (IdFault e.1) := by
  unfold JsonReader.traitEntry
  obtain ⟨v, hv⟩ := value_total e.2
  rw [hv]
  exact tells_match (tells_id e.1) (fun e h => by rw [h]) fun a h => ⟨_, by rw [h]⟩

theorem appendTraits_error (acc l : Traits) (hw : AMap.Wf (acc ++ l)) {ts : Traits} {e : Err} (h : appendTraits acc l = (ts, .error e)) :
    ∃ x ∈ l, x.1.member ≠ none ∧ e = .shapeIDExpected x.1 := by
  induction l generalizing acc with
  | nil => cases h
  | cons x l ih =>
    obtain ⟨id, v⟩ := x
    have hk : id ∉ AMap.keys acc := by
      simp only [AMap.Wf, AMap.keys, List.map_append, List.map_cons, List.nodup_append] at hw
      intro hk; exact hw.2.2 id hk id (by simp) rfl
    simp only [appendTraits] at h
    cases hm : id.isMember with
    | true =>
      rw [show applyWithValue acc id v = (acc, .error (.shapeIDExpected id)) from by unfold applyWithValue; rw [if_pos hm]] at h
      cases h
      refine ⟨(id, v), by simp, fun hn => ?_, rfl⟩
      rw [isMember_false.mpr hn] at hm; cases hm
    | false =>
      rw [show applyWithValue acc id v = (acc ++ [(id, v)], .ok ()) from by
        unfold applyWithValue
        rw [if_neg (by simp [hm]), (AMap.not_mem_keys_iff acc id).mp hk]
        simp only
        rw [AMap.insert_of_not_mem v hk]] at h
      obtain ⟨x, hx, h'⟩ := ih _ (by simpa using hw) h
      exact ⟨x, by simp [hx], h'⟩

theorem traitEntry_fst {e : Str × Json} {y : ShapeID × TraitValue} (h : JsonReader.traitEntry e = .ok y) : ShapeID.fromStr e.1 = .ok y.1 := by
  unfold JsonReader.traitEntry at h
  cases hi : ShapeID.fromStr e.1 with
  | error er => simp only [hi] at h; cases h
  | ok id =>
    obtain ⟨v, hv⟩ := value_total e.2
    simp only [hi, hv] at h; cases h; rfl

theorem mapE_mem {α β : Type} {f : α → Except Err β} {l : List α} {ys : List β} (h : mapE f l = .ok ys) :
    (∀ y ∈ ys, ∃ x ∈ l, f x = .ok y) ∧ ∀ x ∈ l, ∃ y ∈ ys, f x = .ok y := by
  induction l generalizing ys with
  | nil => simp only [mapE] at h; cases h; simp
  | cons a l ih =>
    cases ha : f a with
    | error e => simp only [mapE, ha] at h; cases h
    | ok b =>
      cases hl : mapE f l with
      | error e => simp only [mapE, ha, hl] at h; cases h
      | ok bs =>
        simp only [mapE, ha, hl] at h; cases h
        obtain ⟨h1, h2⟩ := ih hl
        constructor
        · intro y hy
          rcases List.mem_cons.mp hy with rfl | hy
          · exact ⟨a, by simp, ha⟩
          · obtain ⟨x, hx, h'⟩ := h1 y hy; exact ⟨x, by simp [hx], h'⟩
        · intro x hx
          rcases List.mem_cons.mp hx with rfl | hx
          · exact ⟨b, by simp, ha⟩
          · obtain ⟨y, hy, h'⟩ := h2 x hx; exact ⟨y, by simp [hy], h'⟩

theorem tells_traits (j : Option Json) : Tells (JsonReader.readTraits j) (TraitsFault j) := by
  unfold JsonReader.readTraits
  split
  rotate_left
  · rename_i hne
    exact (tells_ok _).congr fun e => ⟨fun h => h.elim, fun h => by cases h <;> exact hne _ ‹_›⟩
  rename_i o
  unfold JsonReader.traits
  have hent := tells_mapE (l := o) fun e _ => tells_traitEntry e
  cases hm : mapE JsonReader.traitEntry o with
  | error er =>
    refine ⟨fun e h => ?_, fun e _ => ⟨er, rfl⟩⟩
    cases h
    obtain ⟨x, hx, h⟩ := hent.sound _ hm
    exact .id rfl hx h
  | ok l =>
    obtain ⟨h1, h2⟩ := mapE_mem hm
    have mem1 : ∀ x ∈ AMap.ofList l, x ∈ l := by
      rintro ⟨k, v⟩ hx
      have := AMap.get_of_mem (AMap.wf_ofList l) hx
      rw [AMap.get_ofList] at this
      exact List.mem_reverse.mp (AMap.mem_of_get this)
    have mem2 : ∀ x ∈ l, ∃ v, (x.1, v) ∈ AMap.ofList l := by
      rintro ⟨k, v⟩ hx
      have hg : ∃ v', AMap.get l.reverse k = some v' := by
        have hk : k ∈ AMap.keys l.reverse := List.mem_map.mpr ⟨(k, v), List.mem_reverse.mpr hx, rfl⟩
        exact Option.isSome_iff_exists.mp ((AMap.mem_keys_iff _ _).mp hk)
      obtain ⟨v', hv'⟩ := hg
      rw [← AMap.get_ofList] at hv'
      exact ⟨v', AMap.mem_of_get hv'⟩
    simp only
    cases ha : appendTraits [] (AMap.ofList l) with
    | mk ts r =>
      cases r with
      | error er =>
        refine ⟨fun e h => ?_, fun e _ => ⟨er, rfl⟩⟩
        simp only at h; cases h
        obtain ⟨x, hx, hn, rfl⟩ := appendTraits_error [] _ (by simpa using AMap.wf_ofList l) ha
        obtain ⟨⟨k, y⟩, hy, hy'⟩ := h1 x (mem1 x hx)
        have := ShapeID.of_fromStr (traitEntry_fst hy')
        refine .member (o := o) (x := y) rfl ?_ this.1 hn
        rw [this.2]; exact hy
      | ok u =>
        refine ⟨fun e h => (by cases h), fun e h => ?_⟩
        cases h with
        | id hj hx he =>
          cases hj
          obtain ⟨e', h'⟩ := hent.complete _ ⟨_, hx, he⟩
          rw [hm] at h'; cases h'
        | member hj hx hv hn =>
          cases hj
          obtain ⟨y, hy, hy'⟩ := h2 _ hx
          have hid := traitEntry_fst hy'
          rw [ShapeID.fromStr_display hv] at hid
          injection hid with hid
          obtain ⟨v, hv'⟩ := mem2 y hy
          exact absurd (appendTraits_no_member [] _ ts ha _ hv') (by rw [← hid]; exact hn)

theorem tells_derr {α : Type} {P : Err → Prop} (place : Str) (h : P (Misplaced place)) (hu : ∀ e, P e → e = Misplaced place) :
    Tells (.error (JsonReader.derr place) : Except Err α) P :=
  (tells_error _).congr fun e => ⟨fun he => by subst he; exact h, fun he => hu e he⟩

theorem tells_member (j : Option Json) : Tells (JsonReader.member j) (MemberFault j) := by
  have hr : JsonReader.member j = (JsonReader.target j >>= fun t => JsonReader.readTraits (j.bind (·.get %s"traits")) >>= fun ts =>
      .ok ⟨memberMember, ts, t⟩) := by
    unfold JsonReader.member JsonReader.target
    split
    · rename_i ms
      split
      · rename_i t ht
        cases ShapeID.fromStr t with
        | error e => rfl
        | ok id =>
          change _ = ((JsonReader.readTraits (AMap.get ms %s"traits")) >>= _)
          cases JsonReader.readTraits (AMap.get ms %s"traits") <;> rfl
      · rfl
    · rfl
  rw [hr]
  refine (tells_bind (tells_target j) fun t _ => tells_bind (tells_traits _) fun ts _ => tells_ok _).congr fun e => ?_
  constructor
  · rintro (h | h | h)
    · exact .target h
    · cases j with
      | none => cases h <;> contradiction
      | some x => exact .traits rfl h
    · exact h.elim
  · intro h
    cases h with
    | target h => exact .inl h
    | traits hj h => subst hj; exact .inr (.inl h)

/-- What is wrong with one entry of `members`. -/
theorem tells_memberEntry (k : Str) (x : Json) :
    Tells (JsonReader.memberEntry (k, x)) (fun e => MembersFault (some (.object [(k, x)])) e) := by
  unfold JsonReader.memberEntry
  simp only
  split
  · rename_i obj
    split
    · rename_i t ht
      have hm : ∀ r : Except Err MemberShape, (∀ e, ShapeID.fromStr t = .error e → r = .error e) →
          (∀ a e, ShapeID.fromStr t = .ok a → Identifier.fromStr k = .error e → r = .error e) →
          (∀ a b e, ShapeID.fromStr t = .ok a → Identifier.fromStr k = .ok b → JsonReader.readTraits (AMap.get obj %s"traits") = .error e → r = .error e) →
          (∀ a b c, ShapeID.fromStr t = .ok a → Identifier.fromStr k = .ok b → JsonReader.readTraits (AMap.get obj %s"traits") = .ok c →
            r = .ok ⟨b, c, a⟩) →
          r = (ShapeID.fromStr t >>= fun a => Identifier.fromStr k >>= fun b => JsonReader.readTraits (AMap.get obj %s"traits") >>= fun c =>
            .ok ⟨b, c, a⟩) := by
        intro r h1 h2 h3 h4
        cases h5 : ShapeID.fromStr t with
        | error e => exact h1 e h5
        | ok a =>
          cases h6 : Identifier.fromStr k with
          | error e => exact h2 a e h5 h6
          | ok b =>
            cases h7 : JsonReader.readTraits (AMap.get obj %s"traits") with
            | error e => exact h3 a b e h5 h6 h7
            | ok c => exact h4 a b c h5 h6 h7
      refine tells_of_eq (hm _ (fun e h => by rw [h]) (fun a e h h' => by rw [h, h']) (fun a b e h h' h'' => by rw [h, h', h''])
        (fun a b e h h' h'' => by rw [h, h', h''])) ?_
      refine (tells_bind (tells_id t) fun a _ => tells_bind (tells_name k) fun b _ => tells_bind (tells_traits _) fun c _ => tells_ok _).congr fun e => ?_
      constructor
      · rintro (h | h | h | h)
        · exact .target rfl (List.mem_singleton.mpr rfl) ht h
        · exact .name (k := k) rfl (List.mem_singleton.mpr rfl) h
        · exact .traits rfl (List.mem_singleton.mpr rfl) h
        · exact h.elim
      · intro h
        cases h with
        | type hj hx hn =>
          cases hj; rcases List.mem_singleton.mp hx with hx; cases hx; exact absurd rfl (hn obj)
        | missing hj hx hn =>
          cases hj; rcases List.mem_singleton.mp hx with hx; cases hx; exact absurd ht (hn _ t rfl)
        | target hj hx ht' h =>
          cases hj; rcases List.mem_singleton.mp hx with hx; cases hx; rw [ht] at ht'; cases ht'; exact .inl h
        | name hj hx h =>
          cases hj; rcases List.mem_singleton.mp hx with hx; cases hx; exact .inr (.inl h)
        | traits hj hx h =>
          cases hj; rcases List.mem_singleton.mp hx with hx; cases hx; exact .inr (.inr (.inl h))
    · rename_i hne
      refine ⟨fun e h => ?_, fun e _ => ⟨_, rfl⟩⟩
      cases h
      refine .missing rfl (List.mem_singleton.mpr rfl) fun x t hx ht => ?_
      cases hx; exact hne t ht
  · rename_i hne
    refine ⟨fun e h => ?_, fun e _ => ⟨_, rfl⟩⟩
    cases h
    exact .type rfl (List.mem_singleton.mpr rfl) fun p hp => hne p hp

theorem membersFault_entry {o : AMap Str Json} {e : Err} :
    MembersFault (some (.object o)) e ↔ ∃ x ∈ o, MembersFault (some (.object [(x.1, x.2)])) e := by
  constructor
  · intro h
    cases h with
    | type hj hx hn => cases hj; exact ⟨_, hx, .type rfl (List.mem_singleton.mpr rfl) hn⟩
    | missing hj hx hn => cases hj; exact ⟨_, hx, .missing rfl (List.mem_singleton.mpr rfl) hn⟩
    | target hj hx ht h => cases hj; exact ⟨_, hx, .target rfl (List.mem_singleton.mpr rfl) ht h⟩
    | name hj hx h => cases hj; exact ⟨_, hx, .name rfl (List.mem_singleton.mpr rfl) h⟩
    | traits hj hx h => cases hj; exact ⟨_, hx, .traits rfl (List.mem_singleton.mpr rfl) h⟩
  · rintro ⟨⟨k, x⟩, hx, h⟩
    cases h with
    | type hj hx' hn => cases hj; rcases List.mem_singleton.mp hx' with hx'; cases hx'; exact .type rfl hx hn
    | missing hj hx' hn => cases hj; rcases List.mem_singleton.mp hx' with hx'; cases hx'; exact .missing rfl hx hn
    | target hj hx' ht h => cases hj; rcases List.mem_singleton.mp hx' with hx'; cases hx'; exact .target rfl hx ht h
    | name hj hx' h => cases hj; rcases List.mem_singleton.mp hx' with hx'; cases hx'; exact .name rfl hx h
    | traits hj hx' h => cases hj; rcases List.mem_singleton.mp hx' with hx'; cases hx'; exact .traits rfl hx h

theorem tells_members (j : Option Json) : Tells (JsonReader.members j) (MembersFault j) := by
  unfold JsonReader.members
  split
  · rename_i vs
    refine (tells_match (tells_mapE fun x _ => tells_memberEntry x.1 x.2) (fun e h => by rw [h]) fun a h => ⟨_, by rw [h]⟩).congr fun e => membersFault_entry.symm
  · rename_i hne
    exact (tells_ok _).congr fun e => ⟨fun h => h.elim, fun h => by cases h <;> exact hne _ ‹_›⟩

theorem tells_string (x : Json) : Tells (JsonReader.stringValue x)
    (fun e => (∀ s, x ≠ .string s) ∧ e = Misplaced %s"JsonReader::string_value") := by
  cases x with
  | string s => exact (tells_ok _).congr fun e => ⟨fun h => h.elim, fun h => h.1 s rfl⟩
  | _ => exact (tells_error _).congr fun e => ⟨fun h => ⟨nofun, h⟩, fun h => h.2⟩

theorem tells_renames (j : Option Json) : Tells (JsonReader.renamesHash j) (RenamesFault j) := by
  unfold JsonReader.renamesHash
  split
  · rename_i ms
    have he : ∀ x : Str × Json, Tells (JsonReader.renameEntry x) (fun e => IdFault x.1 e ∨
        ((∀ s, x.2 ≠ .string s) ∧ e = Misplaced %s"JsonReader::string_value") ∨ ∃ s, x.2 = .string s ∧ NameFault s e) := by
      rintro ⟨k, x⟩
      have hm : JsonReader.renameEntry (k, x) = (ShapeID.fromStr k >>= fun a => JsonReader.stringValue x >>= fun s =>
          Identifier.fromStr s >>= fun n => .ok (a, n)) := by
        unfold JsonReader.renameEntry
        simp only
        cases ShapeID.fromStr k with
        | error e => rfl
        | ok a =>
          cases hs : JsonReader.stringValue x with
          | error e => rfl
          | ok s =>
            change _ = (Identifier.fromStr s >>= _)
            simp only
            cases Identifier.fromStr s <;> rfl
      rw [hm]
      refine (tells_bind (tells_id k) fun a _ => (tells_bind (Q := fun e => ∃ s, x = .string s ∧ NameFault s e) (tells_string x) fun s hs => ?_)).congr
        fun e => Iff.rfl
      have hx : x = .string s := by cases x <;> cases hs; rfl
      subst hx
      refine (tells_bind (tells_name s) fun n _ => tells_ok _).congr fun e => ⟨fun h => ⟨s, rfl, ?_⟩, fun ⟨s', h', h⟩ => ?_⟩
      · exact h.elim id False.elim
      · cases h'; exact .inl h
    refine (tells_match (tells_mapE fun x _ => he x) (fun e h => by rw [h]) fun a h => ⟨_, by rw [h]⟩).congr fun e => ⟨?_, fun h => ?_⟩
    · rintro ⟨⟨k, x⟩, hx, h | ⟨h, rfl⟩ | ⟨s, h, h'⟩⟩
      · exact .id rfl hx h
      · exact .value rfl hx h
      · simp only at h; subst h; exact .name rfl hx h'
    · cases h with
      | type hj hn => cases hj; exact absurd rfl (hn ms)
      | id hj hx h => cases hj; exact ⟨_, hx, .inl h⟩
      | value hj hx h => cases hj; exact ⟨_, hx, .inr (.inl ⟨h, rfl⟩)⟩
      | name hj hx h => cases hj; exact ⟨_, hx, .inr (.inr ⟨_, rfl, h⟩)⟩
  · rename_i x hx
    refine tells_derr _ (.type rfl fun o ho => hx o (by rw [ho])) fun e h => ?_
    cases h with
    | type => rfl
    | _ => rename_i hj _ _; cases hj; exact absurd rfl (hx _)
  · exact (tells_ok _).congr fun e => ⟨fun h => h.elim, fun h => by cases h <;> contradiction⟩

theorem tells_identifiers (j : Option Json) : Tells (JsonReader.identifiersHash j) (IdentifiersFault %s"JsonReader::renames_hash" j) := by
  unfold JsonReader.identifiersHash
  split
  · rename_i ms
    have he : ∀ x : Str × Json, Tells (JsonReader.identifierEntry x) (fun e => NameFault x.1 e ∨ RefFault (some x.2) e) := by
      rintro ⟨k, x⟩
      have hm : JsonReader.identifierEntry (k, x) = (Identifier.fromStr k >>= fun a => JsonReader.target (some x) >>= fun t => .ok (a, t)) := by
        unfold JsonReader.identifierEntry
        simp only
        cases Identifier.fromStr k with
        | error e => rfl
        | ok a =>
          change _ = (JsonReader.target (some x) >>= _)
          simp only
          cases JsonReader.target (some x) <;> rfl
      rw [hm]
      exact (tells_bind (tells_name k) fun a _ => tells_bind (tells_target _) fun t _ => tells_ok _).congr fun e => by simp
    refine (tells_match (tells_mapE fun x _ => he x) (fun e h => by rw [h]) fun a h => ⟨_, by rw [h]⟩).congr fun e => ⟨?_, fun h => ?_⟩
    · rintro ⟨⟨k, x⟩, hx, h | h⟩
      · exact .name rfl hx h
      · exact .target rfl hx h
    · cases h with
      | type hj hn => cases hj; exact absurd rfl (hn ms)
      | name hj hx h => cases hj; exact ⟨_, hx, .inl h⟩
      | target hj hx h => cases hj; exact ⟨_, hx, .inr h⟩
  · rename_i x hx
    refine tells_derr _ (.type rfl fun o ho => hx o (by rw [ho])) fun e h => ?_
    cases h with
    | type => rfl
    | _ => rename_i hj _ _; cases hj; exact absurd rfl (hx _)
  · exact (tells_ok _).congr fun e => ⟨fun h => h.elim, fun h => by cases h <;> contradiction⟩

/-- What the faults of a definition of known type are. -/
theorem kind_inv {place : Str} {j : Json} {s : Str} {e : Err} (ht : Typed j s) (h : KindFault place j e) :
    (s ∉ types ∧ e = Misplaced %s"JsonReader::shape/type") ∨
    (s ∈ [%s"list", %s"set"] ∧ MemberFault (j.get %s"member") e) ∨
    (s = %s"map" ∧ (MemberFault (j.get %s"key") e ∨ MemberFault (j.get %s"value") e)) ∨
    (s ∈ [%s"structure", %s"union"] ∧ MembersFault (j.get %s"members") e) ∨
    (s = %s"service" ∧ (((∀ s, j.get %s"version" ≠ some (.string s)) ∧ e = .invalidVersionNumber none) ∨
      (j.get %s"version" = some (.string []) ∧ e = .panic) ∨
      RefsFault (j.get %s"operations") e ∨ RefsFault (j.get %s"resources") e ∨ RenamesFault (j.get %s"rename") e)) ∨
    (s = %s"operation" ∧ (OptRefFault (j.get %s"input") e ∨ OptRefFault (j.get %s"output") e ∨ RefsFault (j.get %s"errors") e)) ∨
    (s = %s"resource" ∧ (IdentifiersFault place (j.get %s"identifiers") e ∨
      OptRefFault (j.get %s"create") e ∨ OptRefFault (j.get %s"put") e ∨ OptRefFault (j.get %s"read") e ∨ OptRefFault (j.get %s"update") e ∨
      OptRefFault (j.get %s"delete") e ∨ OptRefFault (j.get %s"list") e ∨
      RefsFault (j.get %s"operations") e ∨ RefsFault (j.get %s"collectionOperations") e ∨ RefsFault (j.get %s"resources") e)) := by
  have same : ∀ {t}, Typed j t → t = s := by
    intro t h; unfold Typed at h ht; rw [ht] at h; cases h; rfl
  cases h with
  | type hn => exact absurd ht (hn s)
  | unknown h hn => cases same h; exact .inl ⟨hn, rfl⟩
  | element h hm hf => cases same h; exact .inr (.inl ⟨hm, hf⟩)
  | entry h hp hf =>
    cases same h
    refine .inr (.inr (.inl ⟨rfl, ?_⟩))
    simp only [List.mem_cons, List.not_mem_nil, or_false] at hp
    rcases hp with rfl | rfl
    · exact .inl hf
    · exact .inr hf
  | members h hm hf => cases same h; exact .inr (.inr (.inr (.inl ⟨hm, hf⟩)))
  | version h hn => cases same h; exact .inr (.inr (.inr (.inr (.inl ⟨rfl, .inl ⟨hn, rfl⟩⟩))))
  | panic h hn => cases same h; exact .inr (.inr (.inr (.inr (.inl ⟨rfl, .inr (.inl ⟨hn, rfl⟩)⟩))))
  | closure h hp hf =>
    cases same h
    refine .inr (.inr (.inr (.inr (.inl ⟨rfl, ?_⟩))))
    simp only [List.mem_cons, List.not_mem_nil, or_false] at hp
    rcases hp with rfl | rfl
    · exact .inr (.inr (.inl hf))
    · exact .inr (.inr (.inr (.inl hf)))
  | rename h hf => cases same h; exact .inr (.inr (.inr (.inr (.inl ⟨rfl, .inr (.inr (.inr (.inr hf)))⟩))))
  | inOut h hp hf =>
    cases same h
    refine .inr (.inr (.inr (.inr (.inr (.inl ⟨rfl, ?_⟩)))))
    simp only [List.mem_cons, List.not_mem_nil, or_false] at hp
    rcases hp with rfl | rfl
    · exact .inl hf
    · exact .inr (.inl hf)
  | errors h hf => cases same h; exact .inr (.inr (.inr (.inr (.inr (.inl ⟨rfl, .inr (.inr hf)⟩)))))
  | identifiers h hf => cases same h; exact .inr (.inr (.inr (.inr (.inr (.inr ⟨rfl, .inl hf⟩)))))
  | lifecycle h hp hf =>
    cases same h
    refine .inr (.inr (.inr (.inr (.inr (.inr ⟨rfl, ?_⟩)))))
    simp only [List.mem_cons, List.not_mem_nil, or_false] at hp
    rcases hp with rfl | rfl | rfl | rfl | rfl | rfl <;> simp [hf]
  | bound h hp hf =>
    cases same h
    refine .inr (.inr (.inr (.inr (.inr (.inr ⟨rfl, ?_⟩)))))
    simp only [List.mem_cons, List.not_mem_nil, or_false] at hp
    rcases hp with rfl | rfl | rfl <;> simp [hf]

theorem simple_types {s : Str} {st : Simple} (h : Simple.fromStr s = .ok st) :
    s ∈ types ∧ s ∉ [%s"apply", %s"list", %s"set", %s"map", %s"structure", %s"union", %s"service", %s"operation", %s"resource"] := by
  unfold Simple.fromStr at h
  cases hm : matchArms Simple.arms s with
  | none => rw [hm] at h; cases h
  | some v =>
    obtain ⟨p, hp, rfl⟩ : ∃ p ∈ Simple.arms, p.1 = s := ⟨(s, v), AMap.mem_of_get hm, rfl⟩
    exact (by decide : ∀ p ∈ Simple.arms, p.1 ∈ types ∧
      p.1 ∉ [%s"apply", %s"list", %s"set", %s"map", %s"structure", %s"union", %s"service", %s"operation", %s"resource"]) p hp

/-- The other types of shapes. -/
theorem not_simple {s : Str} {er : Err} (h : Simple.fromStr s = .error er) (hs : s ∈ types) :
    s ∈ [%s"apply", %s"list", %s"set", %s"map", %s"structure", %s"union", %s"service", %s"operation", %s"resource"] := by
  have key : ∀ t ∈ types, (match Simple.fromStr t with | .ok _ => true | .error _ => false) = true ∨
      t ∈ [%s"apply", %s"list", %s"set", %s"map", %s"structure", %s"union", %s"service", %s"operation", %s"resource"] := by decide
  rcases key s hs with hk | hk
  · rw [h] at hk; cases hk
  · exact hk

theorem member_from {j : Option Json} {m : MemberShape} (h : JsonReader.member j = .ok m) : listFrom m = .ok m := by
  have : m.id = memberMember := by
    unfold JsonReader.member at h
    repeat' split at h
    all_goals first | (cases h; rfl) | cases h
  unfold listFrom; rw [if_pos this]

theorem tells_element (j : Option Json) (f : MemberShape → ShapeKind) :
    Tells (do let m ← JsonReader.member j; let m ← listFrom m; .ok (f m)) (MemberFault j) := by
  refine (tells_bind (Q := fun _ => False) (tells_member j) fun m hm => ?_).congr fun e => by simp
  rw [member_from hm]
  exact tells_ok _

theorem tells_service (j : Json) (ht : Typed j %s"service") (place : Str) : Tells (JsonReader.service j) (KindFault place j) := by
  unfold JsonReader.service
  split
  · rename_i v hv
    unfold Service.new
    by_cases he : v.isEmpty = true
    · rw [if_pos he]
      have : v = [] := List.isEmpty_iff.mp he
      subst this
      exact ⟨fun e h => by cases h; exact .panic ht hv, fun e _ => ⟨.panic, rfl⟩⟩
    · rw [if_neg he]
      refine (tells_bind (tells_ok _) fun s _ => tells_bind (tells_targets _) fun a _ => tells_bind (tells_targets _) fun b _ =>
        tells_bind (tells_renames _) fun c _ => tells_ok _).congr fun e => ⟨?_, fun h => ?_⟩
      · rintro (h | h | h | h | h)
        · exact h.elim
        · exact .closure (p := %s"operations") ht (by simp) h
        · exact .closure (p := %s"resources") ht (by simp) h
        · exact .rename ht h
        · exact h.elim
      · rcases kind_inv ht h with h | h | h | h | h | h | h
        · exact absurd (by decide) h.1
        · exact absurd h.1 (by decide)
        · exact absurd h.1 (by decide)
        · exact absurd h.1 (by decide)
        · rcases h.2 with h | h | h | h | h
          · exact absurd hv (h.1 v)
          · rw [hv] at h; have := h.1; cases this; exact absurd rfl he
          · exact .inr (.inl h)
          · exact .inr (.inr (.inl h))
          · exact .inr (.inr (.inr (.inl h)))
        · exact absurd h.1 (by decide)
        · exact absurd h.1 (by decide)
  · rename_i hne
    exact ⟨fun e h => by cases h; exact .version ht hne, fun e _ => ⟨_, rfl⟩⟩

theorem tells_operation (j : Json) (ht : Typed j %s"operation") (place : Str) : Tells (JsonReader.operation j) (KindFault place j) := by
  unfold JsonReader.operation
  refine (tells_bind (tells_optTarget _) fun a _ => tells_bind (tells_optTarget _) fun b _ => tells_bind (tells_targets _) fun c _ =>
    tells_ok _).congr fun e => ⟨?_, fun h => ?_⟩
  · rintro (h | h | h | h)
    · exact .inOut (p := %s"input") ht (by simp) h
    · exact .inOut (p := %s"output") ht (by simp) h
    · exact .errors ht h
    · exact h.elim
  · rcases kind_inv ht h with h | h | h | h | h | h | h
    · exact absurd (by decide) h.1
    · exact absurd h.1 (by decide)
    · exact absurd h.1 (by decide)
    · exact absurd h.1 (by decide)
    · exact absurd h.1 (by decide)
    · rcases h.2 with h | h | h
      · exact .inl h
      · exact .inr (.inl h)
      · exact .inr (.inr (.inl h))
    · exact absurd h.1 (by decide)

theorem tells_resource (j : Json) (ht : Typed j %s"resource") : Tells (JsonReader.resource j) (KindFault %s"JsonReader::renames_hash" j) := by
  unfold JsonReader.resource
  refine (tells_bind (tells_identifiers _) fun a _ => tells_bind (tells_optTarget _) fun _ _ => tells_bind (tells_optTarget _) fun _ _ =>
    tells_bind (tells_optTarget _) fun _ _ => tells_bind (tells_optTarget _) fun _ _ => tells_bind (tells_optTarget _) fun _ _ =>
    tells_bind (tells_optTarget _) fun _ _ => tells_bind (tells_targets _) fun _ _ => tells_bind (tells_targets _) fun _ _ =>
    tells_bind (tells_targets _) fun _ _ => tells_ok _).congr fun e => ⟨?_, fun h => ?_⟩
  · rintro (h | h | h | h | h | h | h | h | h | h | h)
    · exact .identifiers ht h
    · exact .lifecycle (p := %s"create") ht (by simp) h
    · exact .lifecycle (p := %s"put") ht (by simp) h
    · exact .lifecycle (p := %s"read") ht (by simp) h
    · exact .lifecycle (p := %s"update") ht (by simp) h
    · exact .lifecycle (p := %s"delete") ht (by simp) h
    · exact .lifecycle (p := %s"list") ht (by simp) h
    · exact .bound (p := %s"operations") ht (by simp) h
    · exact .bound (p := %s"collectionOperations") ht (by simp) h
    · exact .bound (p := %s"resources") ht (by simp) h
    · exact h.elim
  · rcases kind_inv ht h with h | h | h | h | h | h | h
    · exact absurd (by decide) h.1
    · exact absurd h.1 (by decide)
    · exact absurd h.1 (by decide)
    · exact absurd h.1 (by decide)
    · exact absurd h.1 (by decide)
    · exact absurd h.1 (by decide)
    · rcases h.2 with h | h | h | h | h | h | h | h | h | h <;> simp [h]

theorem tells_shape (j : Json) : Tells (JsonReader.shape j) (KindFault %s"JsonReader::renames_hash" j) := by
  unfold JsonReader.shape
  split
  rotate_left
  · rename_i hne
    refine tells_derr _ (.type fun t ht => hne t ht) fun e h => ?_
    cases h with
    | type => rfl
    | _ => exact (hne _ (by assumption)).elim
  rename_i s ht
  replace ht : Typed j s := ht
  cases hs : Simple.fromStr s with
  | ok st =>
    obtain ⟨h1, h2⟩ := simple_types hs
    simp only [List.mem_cons, List.not_mem_nil, or_false, not_or] at h2
    refine (tells_ok _).congr fun e => ⟨fun h => h.elim, fun h => ?_⟩
    rcases kind_inv ht h with h | h | h | h | h | h | h
    · exact h.1 h1
    · have := h.1; simp only [List.mem_cons, List.not_mem_nil, or_false] at this; rcases this with h | h <;> simp [h] at h2
    · simp [h.1] at h2
    · have := h.1; simp only [List.mem_cons, List.not_mem_nil, or_false] at this; rcases this with h | h <;> simp [h] at h2
    · simp [h.1] at h2
    · simp [h.1] at h2
    · simp [h.1] at h2
  | error er =>
    simp only
    have none_of : s = %s"apply" → ∀ e, ¬ KindFault %s"JsonReader::renames_hash" j e := by
      rintro rfl e h
      rcases kind_inv ht h with h | h | h | h | h | h | h
      · exact absurd (by decide) h.1
      all_goals exact absurd h.1 (by decide)
    have member_of : s ∈ [%s"list", %s"set"] → ∀ e, MemberFault (j.get %s"member") e ↔ KindFault %s"JsonReader::renames_hash" j e := by
      refine fun hm e => ⟨fun h => .element ht hm h, fun h => ?_⟩
      have hd : s = %s"list" ∨ s = %s"set" := by simpa using hm
      rcases kind_inv ht h with h | h | h | h | h | h | h
      · exact absurd (by rcases hd with rfl | rfl <;> decide) h.1
      · exact h.2
      all_goals exact absurd h.1 (by rcases hd with rfl | rfl <;> decide)
    have members_of : s ∈ [%s"structure", %s"union"] → ∀ e, MembersFault (j.get %s"members") e ↔ KindFault %s"JsonReader::renames_hash" j e := by
      refine fun hm e => ⟨fun h => .members ht hm h, fun h => ?_⟩
      have hd : s = %s"structure" ∨ s = %s"union" := by simpa using hm
      rcases kind_inv ht h with h | h | h | h | h | h | h
      · exact absurd (by rcases hd with rfl | rfl <;> decide) h.1
      · exact absurd h.1 (by rcases hd with rfl | rfl <;> decide)
      · exact absurd h.1 (by rcases hd with rfl | rfl <;> decide)
      · exact h.2
      all_goals exact absurd h.1 (by rcases hd with rfl | rfl <;> decide)
    by_cases h1 : s = %s"apply"
    · rw [if_pos h1]
      exact (tells_ok _).congr fun e => ⟨fun h => h.elim, fun h => none_of h1 e h⟩
    rw [if_neg h1]
    by_cases h2 : s = %s"list"
    · rw [if_pos h2]
      exact (tells_element _ .list).congr (member_of (by simp [h2]))
    rw [if_neg h2]
    by_cases h3 : s = %s"set"
    · rw [if_pos h3]
      exact (tells_element _ .set).congr (member_of (by simp [h3]))
    rw [if_neg h3]
    by_cases h4 : s = %s"map"
    · rw [if_pos h4]
      subst h4
      refine (tells_bind (tells_member _) fun a _ => tells_bind (tells_member _) fun b _ => tells_ok _).congr fun e => ⟨?_, fun h => ?_⟩
      · rintro (h | h | h)
        · exact .entry (p := %s"key") ht (by simp) h
        · exact .entry (p := %s"value") ht (by simp) h
        · exact h.elim
      · rcases kind_inv ht h with h | h | h | h | h | h | h
        · exact absurd (by decide) h.1
        · exact absurd h.1 (by decide)
        · rcases h.2 with h | h
          · exact .inl h
          · exact .inr (.inl h)
        all_goals exact absurd h.1 (by decide)
    rw [if_neg h4]
    by_cases h5 : s = %s"structure"
    · rw [if_pos h5]
      exact (tells_bind (tells_members _) fun a _ => tells_ok _).congr fun e => by rw [or_false]; exact members_of (by simp [h5]) e
    rw [if_neg h5]
    by_cases h6 : s = %s"union"
    · rw [if_pos h6]
      exact (tells_bind (tells_members _) fun a _ => tells_ok _).congr fun e => by rw [or_false]; exact members_of (by simp [h6]) e
    rw [if_neg h6]
    by_cases h7 : s = %s"service"
    · rw [if_pos h7]; exact tells_service j (h7 ▸ ht) _
    rw [if_neg h7]
    by_cases h8 : s = %s"operation"
    · rw [if_pos h8]; exact tells_operation j (h8 ▸ ht) _
    rw [if_neg h8]
    by_cases h9 : s = %s"resource"
    · rw [if_pos h9]; exact tells_resource j (h9 ▸ ht)
    rw [if_neg h9]
    have hno : s ∉ types := fun h => by have := not_simple hs h; simp [h1, h2, h3, h4, h5, h6, h7, h8, h9] at this
    refine tells_derr _ (.unknown ht hno) fun e h => ?_
    rcases kind_inv ht h with h | h | h | h | h | h | h
    · exact h.2
    · simp [h2, h3] at h
    · exact absurd h.1 h4
    · simp [h5, h6] at h
    · exact absurd h.1 h7
    · exact absurd h.1 h8
    · exact absurd h.1 h9

theorem tells_shapeEntry (k : Str) (x : Json) : Tells (JsonReader.shapeEntry (k, x))
    (fun e => IdFault k e ∨ KindFault %s"JsonReader::renames_hash" x e ∨ TraitsFault (x.get %s"traits") e) := by
  have hm : JsonReader.shapeEntry (k, x) = (ShapeID.fromStr k >>= fun id => JsonReader.shape x >>= fun b =>
      JsonReader.readTraits (x.get %s"traits") >>= fun ts => .ok (id, ⟨id, ts, b⟩)) := by
    unfold JsonReader.shapeEntry
    simp only
    cases ShapeID.fromStr k with
    | error e => rfl
    | ok a =>
      cases hs : JsonReader.shape x with
      | error e => rfl
      | ok b =>
        change _ = (JsonReader.readTraits (x.get %s"traits") >>= _)
        simp only
        cases JsonReader.readTraits (x.get %s"traits") <;> rfl
  rw [hm]
  exact (tells_bind (tells_id k) fun a _ => tells_bind (tells_shape x) fun b _ => tells_bind (tells_traits _) fun c _ => tells_ok _).congr fun e => by simp

theorem shapeEntry_parts {k : Str} {x : Json} {y : ShapeID × TopLevelShape} (h : JsonReader.shapeEntry (k, x) = .ok y) :
    ShapeID.fromStr k = .ok y.1 ∧ y.2.id = y.1 ∧ JsonReader.shape x = .ok y.2.body := by
  unfold JsonReader.shapeEntry at h
  simp only at h
  cases h1 : ShapeID.fromStr k with
  | error e => rw [h1] at h; cases h
  | ok a =>
    rw [h1] at h
    cases h2 : JsonReader.shape x with
    | error e => simp only [h2] at h; cases h
    | ok b =>
      simp only [h2] at h
      cases h3 : JsonReader.readTraits (x.get %s"traits") with
      | error e => simp only [h3] at h; cases h
      | ok c => simp only [h3] at h; cases h; exact ⟨rfl, rfl, rfl⟩

/-- A shape is read as a placeholder exactly if its type says so. -/
theorem shape_unresolved {j : Json} {b : ShapeKind} (h : JsonReader.shape j = .ok b) : b.isUnresolved = true ↔ Typed j %s"apply" := by
  have key : ∀ (r : Except Err ShapeKind), r = .ok b → (∀ k, r = .ok k → k.isUnresolved = false) → ¬ b.isUnresolved = true := by
    intro r hr hk; rw [hk b hr]; simp
  unfold JsonReader.shape at h
  split at h
  rotate_left
  · cases h
  rename_i s ht
  have typed : Typed j %s"apply" ↔ s = %s"apply" := by
    unfold Typed; rw [ht]
    constructor
    · intro h; injection h with h; injection h
    · rintro rfl; rfl
  rw [typed]
  cases hs : Simple.fromStr s with
  | ok st =>
    rw [hs] at h; cases h
    have := (simple_types hs).2
    simp only [List.mem_cons, List.not_mem_nil, or_false, not_or] at this
    exact ⟨fun h => (by cases h), fun h => absurd h this.1⟩
  | error er =>
    rw [hs] at h
    simp only at h
    by_cases h1 : s = %s"apply"
    · rw [if_pos h1] at h; cases h; exact ⟨fun _ => h1, fun _ => rfl⟩
    rw [if_neg h1] at h
    refine ⟨fun hu => ?_, fun h => absurd h h1⟩
    exfalso
    have bind2 : ∀ {α : Type} {x : Except Err α} {f : α → Except Err ShapeKind}, (x >>= f) = .ok b → (∀ a, f a = .ok b → False) → False := by
      intro α x f h hf
      cases x with
      | error e => cases h
      | ok a => exact hf a h
    have fin : ∀ k : ShapeKind, (.ok k : Except Err ShapeKind) = .ok b → k.isUnresolved = false → False := by
      intro k hk hf; cases hk; rw [hu] at hf; cases hf
    split at h
    · exact bind2 h fun a h => bind2 h fun c h => fin _ h rfl
    split at h
    · exact bind2 h fun a h => bind2 h fun c h => fin _ h rfl
    split at h
    · exact bind2 h fun a h => bind2 h fun c h => fin _ h rfl
    split at h
    · exact bind2 h fun a h => fin _ h rfl
    split at h
    · exact bind2 h fun a h => fin _ h rfl
    split at h
    · unfold JsonReader.service at h
      split at h
      · exact bind2 h fun a h => bind2 h fun a h => bind2 h fun a h => bind2 h fun a h => fin _ h rfl
      · cases h
    split at h
    · exact bind2 h fun a h => bind2 h fun a h => bind2 h fun a h => fin _ h rfl
    split at h
    · exact bind2 h fun a h => bind2 h fun a h => bind2 h fun a h => bind2 h fun a h => bind2 h fun a h => bind2 h fun a h => bind2 h fun a h =>
        bind2 h fun a h => bind2 h fun a h => bind2 h fun a h => fin _ h rfl
    · cases h

theorem addAllShapes_error (v : Version) (md : AMap Str Value) (acc l : AMap ShapeID TopLevelShape) (h : AMap.Wf (acc ++ l))
    (hk : ∀ e ∈ l, e.2.id = e.1) {m : Model} {er : Err} (he : (Model.mk v md acc).addAllShapes l = (m, .error er)) :
    ∃ x ∈ l, x.1.isMember = true ∧ x.2.body.isUnresolved = false ∧ er = .shapeIDExpected x.1 := by
  induction l generalizing acc with
  | nil => cases he
  | cons e l ih =>
    obtain ⟨k, x⟩ := e
    have hkn : k ∉ AMap.keys acc := by
      simp only [AMap.Wf, AMap.keys, List.map_append, List.map_cons, List.nodup_append] at h
      intro hk; exact h.2.2 k hk k (by simp) rfl
    have hid : x.id = k := hk (k, x) (by simp)
    simp only [Model.addAllShapes] at he
    unfold Model.addShape at he
    by_cases hc : (x.id.isMember && !x.body.isUnresolved) = true
    · rw [if_pos hc] at he; cases he
      rw [Bool.and_eq_true, Bool.not_eq_true'] at hc
      exact ⟨(k, x), by simp, by rw [← hid]; exact hc.1, hc.2, by rw [hid]⟩
    · rw [if_neg hc] at he
      simp only [Model.shape, hid, (AMap.not_mem_keys_iff acc k).mp hkn, AMap.insert_of_not_mem x hkn] at he
      obtain ⟨y, hy, h'⟩ := ih _ (by simpa using h) (fun e he => hk e (by simp [he])) he
      exact ⟨y, by simp [hy], h'⟩

/-- The ids of the shapes of an object with distinct keys are distinct. -/
theorem mapE_shapes_wf {o : AMap Str Json} (ho : AMap.Wf o) {ss : List (ShapeID × TopLevelShape)}
    (h : mapE JsonReader.shapeEntry o = .ok ss) : AMap.Wf ss := by
  induction o generalizing ss with
  | nil => simp only [mapE] at h; cases h; exact AMap.wf_nil
  | cons e o ih =>
    obtain ⟨k, x⟩ := e
    cases h1 : JsonReader.shapeEntry (k, x) with
    | error er => simp only [mapE, h1] at h; cases h
    | ok y =>
      cases h2 : mapE JsonReader.shapeEntry o with
      | error er => simp only [mapE, h1, h2] at h; cases h
      | ok ys =>
        simp only [mapE, h1, h2] at h; cases h
        have hw : k ∉ AMap.keys o ∧ AMap.Wf o := by
          simpa [AMap.Wf, AMap.keys] using ho
        have := ih hw.2 h2
        have hn : y.1 ∉ AMap.keys ys := by
          intro hy
          obtain ⟨⟨i, z⟩, hz, hzi⟩ := List.mem_map.mp hy
          simp only at hzi; subst hzi
          obtain ⟨⟨k', x'⟩, hx', hx''⟩ := (mapE_mem h2).1 _ hz
          have e1 := ShapeID.of_fromStr (shapeEntry_parts h1).1
          have e2 := ShapeID.of_fromStr (shapeEntry_parts hx'').1
          simp only at e1 e2
          have : k = k' := by rw [← e1.2, ← e2.2]
          subst this
          exact hw.1 (List.mem_map.mpr ⟨_, hx', rfl⟩)
        obtain ⟨i, z⟩ := y
        simp only [AMap.Wf, AMap.keys, List.map_cons, List.nodup_cons]
        exact ⟨hn, this⟩

/-- C102: reading a document gives an error exactly if something is wrong with the document, and the error says what: it is the error
for one of the things that are wrong. (`JsonReader::renames_hash` is where the identifiers of a resource are said to be.) -/
theorem C102_json (j : Json) (hj : WfJson j) :
    (∀ e, JsonReader.model j = .error e → DocFault %s"JsonReader::renames_hash" j e) ∧
    ((∃ e, DocFault %s"JsonReader::renames_hash" j e) → ∃ e, JsonReader.model j = .error e) := by
  suffices h : Tells (JsonReader.model j) (DocFault %s"JsonReader::renames_hash" j) from ⟨h.sound, fun ⟨e, he⟩ => h.complete e he⟩
  cases j with
  | object o =>
    have hv : Tells (JsonReader.version (AMap.get o %s"smithy")) (fun e =>
        ((∀ s, AMap.get o %s"smithy" ≠ some (.string s)) ∧ e = Misplaced %s"JsonReader::version") ∨
        ∃ s, AMap.get o %s"smithy" = some (.string s) ∧ s ∉ [%s"1", %s"1.0"] ∧ e = .invalidVersionNumber (some s)) := by
      unfold JsonReader.version
      split
      · rename_i s hs
        unfold Version.fromStr
        by_cases h1 : s = %s"1" ∨ s = %s"1.0"
        · rw [if_pos h1]
          refine (tells_ok _).congr fun e => ⟨fun h => h.elim, ?_⟩
          rintro (⟨h, -⟩ | ⟨t, ht, hn, -⟩)
          · exact h s hs
          · rw [hs] at ht; cases ht; exact hn (by simpa using h1)
        · rw [if_neg h1]
          exact ⟨fun e h => by cases h; exact .inr ⟨s, hs, by simpa using h1, rfl⟩, fun e _ => ⟨_, rfl⟩⟩
      · rename_i hne
        exact ⟨fun e h => by cases h; exact .inl ⟨hne, rfl⟩, fun e _ => ⟨_, rfl⟩⟩
    cases hver : JsonReader.version (AMap.get o %s"smithy") with
    | error e =>
      have : JsonReader.model (.object o) = .error e := by unfold JsonReader.model; simp only [hver]
      rw [this]
      refine ⟨fun e' h' => ?_, fun _ _ => ⟨e, rfl⟩⟩
      cases h'
      rcases hv.sound _ hver with ⟨h, rfl⟩ | ⟨s, h, hn, rfl⟩
      · exact .noVersion rfl h
      · exact .version rfl h hn
    | ok v =>
      have nov : ∀ {e}, DocFault %s"JsonReader::renames_hash" (.object o) e → ∃ p k x, AMap.get o %s"shapes" = some (.object p) ∧ (k, x) ∈ p ∧
          ShapeFault %s"JsonReader::renames_hash" k x e := by
        intro e h
        cases h with
        | type h => exact absurd rfl (h o)
        | noVersion h hn =>
          cases h; obtain ⟨e', h'⟩ := hv.complete _ (.inl ⟨hn, rfl⟩); rw [hver] at h'; cases h'
        | version h hs hn =>
          cases h; obtain ⟨e', h'⟩ := hv.complete _ (.inr ⟨_, hs, hn, rfl⟩); rw [hver] at h'; cases h'
        | shape h hp hk hf => cases h; exact ⟨_, _, _, hp, hk, hf⟩
      obtain ⟨md, hmd⟩ := model_shapes (o := o) hver
      rw [hmd]
      by_cases hex : ∃ p, AMap.get o %s"shapes" = some (.object p)
      rotate_left
      · rw [show JsonReader.shapes (AMap.get o %s"shapes") = .ok [] from by
          unfold JsonReader.shapes
          split
          · rename_i p hp; exact absurd ⟨p, hp⟩ hex
          · rfl]
        refine (tells_ok _).congr fun e => ⟨fun h => h.elim, fun h => ?_⟩
        obtain ⟨p, k, x, hp, -⟩ := nov h
        exact hex ⟨p, hp⟩
      obtain ⟨p, hp⟩ := hex
      rw [show JsonReader.shapes (AMap.get o %s"shapes") = mapE JsonReader.shapeEntry p from by rw [hp]; rfl]
      have hwp : AMap.Wf p := by
        cases hj with
        | object _ h => cases h (%s"shapes", .object p) (AMap.mem_of_get hp) with | object h _ => exact h
      have hent := tells_mapE (l := p) fun e _ => tells_shapeEntry e.1 e.2
      cases hm : mapE JsonReader.shapeEntry p with
      | error er =>
        refine ⟨fun e h => ?_, fun e _ => ⟨er, rfl⟩⟩
        cases h
        obtain ⟨⟨k, x⟩, hx, h⟩ := hent.sound _ hm
        refine .shape rfl hp hx ?_
        rcases h with h | h | h
        · exact .id h
        · exact .kind h
        · exact .traits h
      | ok ss =>
        obtain ⟨m1, m2⟩ := mapE_mem hm
        have hid : ∀ e ∈ ss, e.2.id = e.1 := by
          intro y hy
          obtain ⟨⟨k, x⟩, -, h⟩ := m1 y hy
          exact (shapeEntry_parts h).2.1
        simp only
        cases ha : (Model.mk v md []).addAllShapes ss with
        | mk m r =>
          cases r with
          | error er =>
            refine ⟨fun e h => ?_, fun e _ => ⟨er, rfl⟩⟩
            simp only at h; cases h
            obtain ⟨y, hy, hmem, hu, rfl⟩ := addAllShapes_error v md [] ss (by simpa using mapE_shapes_wf hwp hm) hid ha
            obtain ⟨⟨k, x⟩, hx, h⟩ := m1 y hy
            obtain ⟨h1, -, h3⟩ := shapeEntry_parts h
            have := ShapeID.of_fromStr h1
            refine .shape rfl hp hx (.member this.1 (fun hn => ?_) this.2.symm fun ht => ?_)
            · rw [isMember_false.mpr hn] at hmem; cases hmem
            · rw [(shape_unresolved h3).mpr ht] at hu; cases hu
          | ok u =>
            refine ⟨fun e h => (by cases h), fun e h => ?_⟩
            exfalso
            obtain ⟨p', k, x, hp', hx, h⟩ := nov h
            rw [hp] at hp'; cases hp'
            have none : ∀ {e}, IdFault k e ∨ KindFault %s"JsonReader::renames_hash" x e ∨ TraitsFault (x.get %s"traits") e → False := by
              intro e h
              obtain ⟨e', h'⟩ := hent.complete _ ⟨_, hx, h⟩
              rw [hm] at h'; cases h'
            cases h with
            | id h => exact none (.inl h)
            | kind h => exact none (.inr (.inl h))
            | traits h => exact none (.inr (.inr h))
            | member hv hn hk hna =>
              subst hk
              obtain ⟨y, hy, h⟩ := m2 _ hx
              obtain ⟨h1, h2, h3⟩ := shapeEntry_parts h
              rw [ShapeID.fromStr_display hv] at h1
              injection h1 with h1
              refine hna ((shape_unresolved h3).mp (addAllShapes_member ha y hy ?_))
              rw [h2, ← h1]
              exact Bool.of_not_eq_false fun hf => hn (isMember_false.mp hf)
  | _ =>
    refine ⟨fun e h => ?_, fun e _ => ⟨_, rfl⟩⟩
    cases h
    exact .type nofun

/-- A resource whose identifiers are a list. -/
def exResource : Json :=
  .object [(%s"smithy", .string %s"1.0"), (%s"shapes", .object [(%s"a#R", .object [(%s"type", .string %s"resource"), (%s"identifiers", .array [])])])]

/-- C102 is violated in one place: the error for identifiers of a resource that are not an object is about the renames of a service, of
which there are none; with the right name of the place that error would be wrong, and there would be one that says what is wrong. -/
theorem C102_json_violated :
    JsonReader.model exResource = .error (Misplaced %s"JsonReader::renames_hash") ∧
    DocFault %s"JsonReader::identifiers_hash" exResource (Misplaced %s"JsonReader::identifiers_hash") ∧
    ¬ DocFault %s"JsonReader::identifiers_hash" exResource (Misplaced %s"JsonReader::renames_hash") := by
  refine ⟨by rfl, .shape rfl rfl (List.mem_singleton.mpr rfl) (.kind (.identifiers rfl (.type rfl nofun))), fun h => ?_⟩
  generalize he : Misplaced %s"JsonReader::renames_hash" = e at h
  cases h with
  | type => cases he
  | noVersion => cases he
  | version => cases he
  | shape ho hp hk hf =>
    cases ho
    cases hp
    cases List.mem_singleton.mp hk
    have ids : ∀ {s e'}, IdFault s e' → e' ≠ Misplaced %s"JsonReader::renames_hash" := by rintro _ _ ⟨_⟩ h; cases h
    have typed : ∀ {t}, Typed (.object [(%s"type", .string %s"resource"), (%s"identifiers", .array [])]) t → t = %s"resource" := by
      intro t h; cases h; rfl
    cases hf with
    | id h => exact ids h he.symm
    | traits h => cases h with | id h => cases h | member h => cases h
    | member => cases he
    | kind h =>
      cases h with
      | type => cases he
      | unknown => cases he
      | version => cases he
      | panic => cases he
      | element h ht => cases typed h; exact absurd ht (by decide)
      | entry h => cases typed h
      | members h ht => cases typed h; exact absurd ht (by decide)
      | closure h => cases typed h
      | rename h => cases typed h
      | inOut h => cases typed h
      | errors h => cases typed h
      | identifiers _ h =>
        cases h with
        | type => cases he
        | name h => cases h
        | target h => cases h
      | lifecycle _ hp h =>
        simp only [List.mem_cons, List.not_mem_nil, or_false] at hp
        rcases hp with rfl | rfl | rfl | rfl | rfl | rfl <;> exact h.1 rfl
      | bound _ hp h =>
        simp only [List.mem_cons, List.not_mem_nil, or_false] at hp
        rcases hp with rfl | rfl | rfl <;> (cases h with | type h => cases h | element h => cases h)

/-- C102: one document for each kind of error. -/
theorem C102_json_examples :
    JsonReader.model (.array []) = .error (Misplaced %s"JsonReader::model") ∧
    JsonReader.model (.object [(%s"smithy", .bool true)]) = .error (Misplaced %s"JsonReader::version") ∧
    JsonReader.model (.object [(%s"smithy", .string %s"2")]) = .error (.invalidVersionNumber (some %s"2")) ∧
    JsonReader.model (.object [(%s"smithy", .string %s"1"), (%s"shapes", .object [(%s"a", .object [(%s"type", .string %s"string")])])]) =
      .error (.invalidShapeID %s"a") ∧
    JsonReader.model (.object [(%s"smithy", .string %s"1"), (%s"shapes", .object [(%s"a#B", .object [(%s"type", .string %s"enum")])])]) =
      .error (Misplaced %s"JsonReader::shape/type") ∧
    JsonReader.model (.object [(%s"smithy", .string %s"1"), (%s"shapes", .object [(%s"a#B$c", .object [(%s"type", .string %s"string")])])]) =
      .error (.shapeIDExpected ⟨%s"a", %s"B", some %s"c"⟩) ∧
    JsonReader.model (.object [(%s"smithy", .string %s"1"), (%s"shapes", .object [(%s"a#B", .object [(%s"type", .string %s"structure"),
      (%s"members", .object [(%s"m", .object [(%s"target", .string %s"C")])])])])]) = .error (.invalidShapeID %s"C") :=
  ⟨by rfl, by rfl, by rfl, by rfl, by rfl, by rfl, by rfl⟩

end Verif
