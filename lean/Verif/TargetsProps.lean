/-
C111: writers and targets that can fail.
-/
import Verif.Targets
import Verif.IdlExamples

namespace Verif
open Targets

/-! ### Specification -/

namespace Spec.Sent
variable {σ ε : Type}

/-- The target, in state `s`, is given the texts of a list in order. It is then in state `s'`, `a` arrived, and it failed or not:
after a failure it is not given anything more. -/
inductive Takes (k : Sink σ ε) : σ → List Str → σ → Str → Option ε → Prop
  | done {s} : Takes k s [] s [] none
  | took {s s₁ s₂ c l a x} : k.write s c = (s₁, none) → Takes k s₁ l s₂ a x → Takes k s (c :: l) s₂ (c ++ a) x
  | failed {s s₁ c l n e} : k.write s c = (s₁, some (n, e)) → Takes k s (c :: l) s₁ (c.take n) (some e)

/-- What is reported: the failure of the target if there was one, else the writer's own result. -/
def report : Option ε → Except Err Unit → Except (Fault ε) Unit
  | some e, _ => .error (.target e)
  | none, .ok () => .ok ()
  | none, .error e => .error (.own e)

/-- The writer has a text to write, in pieces that do not depend on the target. Any target is given these pieces, in order and
each once, until it fails; what it reports is reported. If it does not fail the writer ends with the result `r`. -/
def Sends {γ : Type} (w : Writer γ) (start : γ) (text : Str) (r : Except Err Unit) : Prop :=
  ∃ pieces : List Str, pieces.flatten = text ∧
    ∀ (σ ε : Type) (k : Sink σ ε) (s : σ), ∃ (g : γ) (s' : σ) (a : Str) (x : Option ε),
      Takes k s pieces s' a x ∧ w.run k ⟨start, s, []⟩ = (⟨g, s', a⟩, report x r)

/-- A target that never fails: `Cursor<Vec<u8>>`, as in `write_model_to_string`. -/
def endless : Sink Unit Empty := ⟨fun _ _ => ((), none)⟩

/-- A target with room for some number of characters: it takes what it has room for. -/
def limited : Sink Nat Unit := ⟨fun room s => if s.length ≤ room then (room - s.length, none) else (0, some (room, ()))⟩

end Spec.Sent

open Spec.Sent
namespace Targets
variable {γ : Type}

theorem takes_append {σ ε : Type} {k : Sink σ ε} {s s₁ s₂ : σ} {ps qs : List Str} {b c : Str} {x : Option ε}
    (h : Takes k s ps s₁ b none) (h' : Takes k s₁ qs s₂ c x) : Takes k s (ps ++ qs) s₂ (b ++ c) x := by
  generalize hx : (none : Option ε) = y at h
  induction h with
  | done => exact h'
  | took hw _ ih => rw [List.append_assoc]; exact .took hw (ih h' hx)
  | failed _ => simp at hx

theorem takes_stop {σ ε : Type} {k : Sink σ ε} {s s₁ : σ} {ps : List Str} (qs : List Str) {b : Str} {e : ε}
    (h : Takes k s ps s₁ b (some e)) : Takes k s (ps ++ qs) s₁ b (some e) := by
  generalize hx : some e = y at h
  induction h with
  | done => simp at hx
  | took hw _ ih => exact .took hw (ih hx)
  | failed hw => cases hx; exact .failed hw

/-- From any state of a run: the pieces go to the target. -/
def Acts (w : Writer γ) (g : γ) (ps : List Str) (g' : γ) (r : Except Err Unit) : Prop :=
  ∀ (σ ε : Type) (k : Sink σ ε) (s : σ) (a : Str), ∃ (gx : γ) (s' : σ) (b : Str) (x : Option ε),
    Takes k s ps s' b x ∧ w.run k ⟨g, s, a⟩ = (⟨gx, s', a ++ b⟩, report x r) ∧ (x = none → gx = g')

/-- The writer writes the text `t`. -/
def Says (w : Writer γ) (g : γ) (t : Str) (g' : γ) (r : Except Err Unit) : Prop := ∃ ps : List Str, ps.flatten = t ∧ Acts w g ps g' r

theorem Says.sends {w : Writer γ} {g g' : γ} {t : Str} {r} (h : Says w g t g' r) : Sends w g t r := by
  obtain ⟨ps, hp, h⟩ := h
  refine ⟨ps, hp, fun σ ε k s => ?_⟩
  obtain ⟨gx, s', b, x, h1, h2, _⟩ := h σ ε k s []
  exact ⟨gx, s', b, x, h1, h2⟩

theorem Says.cast {w : Writer γ} {g g' : γ} {t u : Str} {r} (h : Says w g t g' r) (e : t = u) : Says w g u g' r := e ▸ h

theorem says_put (s : Str) (g : γ) : Says (Writer.put s) g s g (.ok ()) := by
  refine ⟨[s], by simp, fun σ ε k t a => ?_⟩
  rcases hw : k.write t s with ⟨t', _ | ⟨n, e⟩⟩
  · exact ⟨g, t', s ++ [], none, .took hw .done, by simp [Writer.put, hw, report], fun _ => rfl⟩
  · exact ⟨g, t', s.take n, some e, .failed hw, by simp [Writer.put, hw, report], fun h => by simp at h⟩

theorem says_pass (g : γ) : Says Writer.pass g [] g (.ok ()) :=
  ⟨[], rfl, fun _ _ _ s a => ⟨g, s, [], none, .done, by simp [Writer.pass, report], fun _ => rfl⟩⟩

theorem says_fail (e : Err) (g : γ) : Says (Writer.fail e) g [] g (.error e) :=
  ⟨[], rfl, fun _ _ _ s a => ⟨g, s, [], none, .done, by simp [Writer.fail, report], fun _ => rfl⟩⟩

theorem says_then {w v : Writer γ} {g g₁ g₂ : γ} {t u : Str} {r} (h : Says w g t g₁ (.ok ())) (h' : Says v g₁ u g₂ r) :
    Says (w.andThen v) g (t ++ u) g₂ r := by
  obtain ⟨ps, rfl, h⟩ := h
  obtain ⟨qs, rfl, h'⟩ := h'
  refine ⟨ps ++ qs, by simp, fun σ ε k s a => ?_⟩
  obtain ⟨gx, s', b, x, h1, h2, h3⟩ := h σ ε k s a
  rcases x with _ | e
  · obtain rfl := h3 rfl
    obtain ⟨gy, s'', c, y, h4, h5, h6⟩ := h' σ ε k s' (a ++ b)
    refine ⟨gy, s'', b ++ c, y, takes_append h1 h4, ?_, h6⟩
    simp only [Writer.andThen, Step.andThen, h2, report]
    rw [h5, List.append_assoc]
    rfl
  · refine ⟨gx, s', b, some e, takes_stop qs h1, ?_, fun h => by simp at h⟩
    simp only [Writer.andThen, Step.andThen, h2, report]

theorem says_stop {w : Writer γ} (v : Writer γ) {g g₁ : γ} {t : Str} {e : Err} (h : Says w g t g₁ (.error e)) :
    Says (w.andThen v) g t g₁ (.error e) := by
  obtain ⟨ps, rfl, h⟩ := h
  refine ⟨ps, rfl, fun σ ε k s a => ?_⟩
  obtain ⟨gx, s', b, x, h1, h2, h3⟩ := h σ ε k s a
  refine ⟨gx, s', b, x, h1, ?_, h3⟩
  rcases x with _ | e' <;> simp only [Writer.andThen, Step.andThen, h2, report]

/-! ### Writers without errors of their own -/

/-- The writer writes the text, and does not fail by itself. -/
def Writes (w : Writer Unit) (t : Str) : Prop := Says w () t () (.ok ())

theorem Writes.cast {w : Writer Unit} {t u : Str} (h : Writes w t) (e : t = u) : Writes w u := e ▸ h

theorem writes_put (s : Str) : Writes (.put s) s := says_put s ()
theorem writes_line (s : Str) : Writes (.line s) (s ++ ['\n']) := says_put _ ()
theorem writes_pass : Writes .pass [] := says_pass ()
theorem writes_then {w v : Writer Unit} {t u : Str} (h : Writes w t) (h' : Writes v u) : Writes (w.andThen v) (t ++ u) := says_then h h'
theorem writes_nil : Writes (.seq []) [] := says_pass ()
theorem writes_cons {w : Writer Unit} {l : List (Writer Unit)} {t u : Str} (h : Writes w t) (h' : Writes (.seq l) u) :
    Writes (.seq (w :: l)) (t ++ u) := says_then h h'

theorem writes_when (c : Bool) {w : Writer Unit} {t : Str} (h : Writes w t) : Writes (.when c w) (if c then t else []) := by
  cases c
  · exact writes_pass
  · exact h

theorem writes_forEach {α : Type} {f : α → Writer Unit} {t : α → Str} {l : List α} (h : ∀ x, Writes (f x) (t x)) :
    Writes (.forEach f l) (l.flatMap t) := by
  induction l with
  | nil => exact writes_nil
  | cons x l ih => exact writes_cons (h x) ih

theorem writes_ifSome {α : Type} {f : α → Writer Unit} {t : α → Str} {o : Option α} (h : ∀ x, Writes (f x) (t x)) :
    Writes (.ifSome f o) (match o with | none => [] | some x => t x) := by
  cases o
  · exact writes_pass
  · exact h _

theorem lines_writes (f : Fmt) (m : Model) : Writes (lines f m) (writeLines f m) :=
  writes_forEach fun l => writes_line l


/-! ### The IDL -/

namespace Idl

/-- The text of a loop that writes a separator after all elements but the last. -/
def separated : List Str → Str
  | [] => []
  | s :: l => s ++ ((if l.isEmpty then [] else %s", ") ++ separated l)

theorem separated_eq (l : List Str) : separated l = joinWith %s", " l := by
  induction l with
  | nil => rfl
  | cons s l ih =>
    cases l with
    | nil => simp [separated, joinWith]
    | cons q l => rw [separated, ih]; simp [joinWith]

/-- At index `i` of a list of which `l` is the rest: `i < last` says whether anything follows. -/
theorem index_last {α : Type} {i last : Nat} {x : α} {l : List α} (h : i + (x :: l).length = last + 1) :
    decide (i < last) = !l.isEmpty := by
  cases l with
  | nil => simp at h ⊢; omega
  | cons y l => simp at h ⊢; omega

theorem last_eq {α : Type} (l : List α) (h : l ≠ []) : 0 + l.length = (if l.isEmpty then 0 else l.length - 1) + 1 := by
  cases l
  · exact absurd rfl h
  · simp

mutual
  theorem value_writes (f : Fmt) (top : Bool) : ∀ v : Value, Writes (value f top v) (IdlWriter.value f top v)
    | .array vs => by
      rw [value, IdlWriter.value, ← separated_eq]
      refine (writes_cons (writes_put _) (writes_cons ?_ (writes_cons (writes_put _) writes_nil))).cast
        (show %s"[" ++ (separated (IdlWriter.items f vs) ++ (%s"]" ++ [])) = _ by simp)
      by_cases h : vs = []
      · subst h; rw [items, IdlWriter.items]; exact writes_pass
      · exact items_writes f vs 0 _ (last_eq vs h)
    | .object es => by
      rw [value, IdlWriter.value, ← separated_eq]
      refine (writes_cons (writes_when _ (writes_put _)) (writes_cons ?_ (writes_cons (writes_when _ (writes_put _)) writes_nil))).cast
        (show _ ++ (separated (IdlWriter.entries f es) ++ (_ ++ [])) = _ by cases top <;> simp)
      by_cases h : es = []
      · subst h; rw [entries, IdlWriter.entries]; exact writes_pass
      · exact entries_writes f es 0 _ (last_eq es h)
    | .number n => by rw [value, IdlWriter.value]; exact writes_put _
    | .boolean b => by rw [value, IdlWriter.value]; exact writes_put _
    | .string s => by rw [value, IdlWriter.value]; exact writes_put _
    | .none => by rw [value, IdlWriter.value]; exact writes_pass
  theorem items_writes (f : Fmt) : ∀ (vs : List Value) (i last : Nat), i + vs.length = last + 1 →
      Writes (items f i last vs) (separated (IdlWriter.items f vs))
    | [], _, _, _ => by rw [items, IdlWriter.items]; exact writes_pass
    | v :: vs, i, last, h => by
      rw [items, IdlWriter.items, separated]
      refine (writes_cons (value_writes f false v) (writes_cons (writes_when _ (writes_put _))
        (writes_cons (t := separated (IdlWriter.items f vs)) ?_ writes_nil))).cast ?_
      · by_cases hv : vs = []
        · subst hv; rw [items, IdlWriter.items]; exact writes_pass
        · exact items_writes f vs (i + 1) last (by simp at h; omega)
      · rw [index_last h]; cases vs <;> simp [IdlWriter.items]
  theorem entries_writes (f : Fmt) : ∀ (es : List (Str × Value)) (i last : Nat), i + es.length = last + 1 →
      Writes (entries f i last es) (separated (IdlWriter.entries f es))
    | [], _, _, _ => by rw [entries, IdlWriter.entries]; exact writes_pass
    | e :: es, i, last, h => by
      rw [entries, IdlWriter.entries, separated]
      refine (writes_cons (entry_writes f e) (writes_cons (writes_when _ (writes_put _))
        (writes_cons (t := separated (IdlWriter.entries f es)) ?_ writes_nil))).cast ?_
      · by_cases hv : es = []
        · subst hv; rw [entries, IdlWriter.entries]; exact writes_pass
        · exact entries_writes f es (i + 1) last (by simp at h; omega)
      · rw [index_last h]; cases es <;> simp [IdlWriter.entries]
  theorem entry_writes (f : Fmt) : ∀ e : Str × Value, Writes (entry f e) (IdlWriter.entry f e)
    | (k, v) => by
      rw [entry, IdlWriter.entry]
      exact (writes_cons (writes_put _) (writes_cons (value_writes f false v) writes_nil)).cast (by simp)
end

theorem trait_writes (f : Fmt) (ns pre : Str) (t : ShapeID × TraitValue) : Writes (trait f ns pre t) (IdlWriter.trait f ns pre t) := by
  rcases t with ⟨id, _ | v⟩
  · exact (writes_cons (writes_put _) (writes_cons (writes_line _) writes_nil)).cast
      (by simp [IdlWriter.trait, IdlWriter.traitName, IdlWriter.nl])
  · exact (writes_cons (writes_put _) (writes_cons (writes_cons (writes_put _) (writes_cons (value_writes f true v)
      (writes_cons (writes_line _) writes_nil))) writes_nil)).cast
      (by simp [IdlWriter.trait, IdlWriter.traitName, IdlWriter.nl])

theorem traits_writes (f : Fmt) (ns pre : Str) (ts : Traits) : Writes (.forEach (trait f ns pre) ts) (IdlWriter.traits f ns pre ts) :=
  writes_forEach (trait_writes f ns pre)

theorem member_writes (f : Fmt) (ns pre : Str) (m : MemberShape) : Writes (member f ns pre m) (IdlWriter.member f ns pre m) :=
  (writes_cons (traits_writes f ns pre m.traits) (writes_cons (writes_line _) writes_nil)).cast
    (by simp [IdlWriter.member, IdlWriter.nl])

theorem members_writes (f : Fmt) (ns pre : Str) (ms : AMap Str MemberShape) :
    Writes (.forEach (member f ns pre) (AMap.values ms)) (IdlWriter.members f ns pre ms) := writes_forEach (member_writes f ns pre)

theorem names_writes (key : Str) (ids : List ShapeID) : Writes (names key ids) (IdlWriter.namesLine key ids) :=
  (writes_when _ (writes_line _)).cast (by unfold IdlWriter.namesLine; cases ids <;> simp [IdlWriter.line, IdlWriter.nl])

theorem target_writes (key : Str) (id : Option ShapeID) : Writes (target key id) (IdlWriter.optLine key id) :=
  (writes_ifSome (t := fun i => IdlWriter.line key i.name) fun i => (writes_line _).cast (by simp [IdlWriter.line, IdlWriter.nl])).cast
    (by cases id <;> rfl)

theorem line_writes (key text : Str) : Writes (.line (%s"    " ++ key ++ %s": " ++ text)) (IdlWriter.line key text) :=
  (writes_line _).cast (by simp [IdlWriter.line, IdlWriter.nl])

theorem opening_writes (keyword name : Str) : Writes (.line (keyword ++ %s" " ++ name ++ %s" {")) (IdlWriter.opening keyword name) :=
  (writes_line _).cast (by simp [IdlWriter.opening, IdlWriter.nl])

theorem closing_writes : Writes (.line %s"}") IdlWriter.closing := writes_line _

theorem identifiers_writes (ids : AMap Str ShapeID) :
    Writes (.when (!ids.isEmpty) (.seq [.line %s"    identifiers: {",
      .forEach (fun (e : Str × ShapeID) => .line (%s"        " ++ e.1 ++ %s": " ++ e.2.name)) ids, .line %s"    }"]))
      (IdlWriter.identifiers ids) :=
  (writes_when _ (writes_cons (writes_line _) (writes_cons (writes_forEach
    (t := fun (e : Str × ShapeID) => %s"        " ++ e.1 ++ %s": " ++ e.2.name ++ IdlWriter.nl)
    fun e => (writes_line _).cast (by simp [IdlWriter.nl])) (writes_cons (writes_line _) writes_nil)))).cast
    (by unfold IdlWriter.identifiers; cases ids <;> simp [IdlWriter.nl])

theorem statement_writes (f : Fmt) (ns : Str) (s : TopLevelShape) : Writes (statement f ns s) (IdlWriter.statement f ns s) := by
  rcases s with ⟨id, ts, body⟩
  cases body with
  | simple st => exact (writes_line _).cast (by simp [IdlWriter.statement, IdlWriter.nl])
  | list m =>
    exact (writes_cons (opening_writes %s"list" _) (writes_cons (line_writes %s"member" _) (writes_cons closing_writes writes_nil))).cast
      (by simp [IdlWriter.statement])
  | set m =>
    exact (writes_cons (opening_writes %s"set" _) (writes_cons (line_writes %s"member" _) (writes_cons closing_writes writes_nil))).cast
      (by simp [IdlWriter.statement])
  | map k v =>
    exact (writes_cons (opening_writes %s"map" _) (writes_cons (line_writes %s"key" _) (writes_cons (line_writes %s"value" _)
      (writes_cons closing_writes writes_nil)))).cast (by simp [IdlWriter.statement])
  | struct ms =>
    exact (writes_cons (opening_writes %s"structure" _) (writes_cons (members_writes f ns _ ms) (writes_cons closing_writes writes_nil))).cast
      (by simp [IdlWriter.statement])
  | union ms =>
    exact (writes_cons (opening_writes %s"union" _) (writes_cons (members_writes f ns _ ms) (writes_cons closing_writes writes_nil))).cast
      (by simp [IdlWriter.statement])
  | service x =>
    exact (writes_cons (opening_writes %s"service" _) (writes_cons (line_writes %s"version" _) (writes_cons (names_writes _ _)
      (writes_cons (names_writes _ _) (writes_cons closing_writes writes_nil))))).cast (by simp [IdlWriter.statement])
  | operation x =>
    exact (writes_cons (opening_writes %s"operation" _) (writes_cons (target_writes _ _) (writes_cons (target_writes _ _)
      (writes_cons (names_writes _ _) (writes_cons closing_writes writes_nil))))).cast (by simp [IdlWriter.statement])
  | resource x =>
    exact (writes_cons (opening_writes %s"resource" _) (writes_cons (identifiers_writes _) (writes_cons (target_writes _ _)
      (writes_cons (target_writes _ _) (writes_cons (target_writes _ _) (writes_cons (target_writes _ _) (writes_cons (target_writes _ _)
      (writes_cons (target_writes _ _) (writes_cons (names_writes _ _) (writes_cons (names_writes _ _) (writes_cons (names_writes _ _)
      (writes_cons closing_writes writes_nil)))))))))))).cast (by simp [IdlWriter.statement])
  | unresolved =>
    exact (writes_when _ (writes_forEach (t := fun t => %s"apply " ++ id.display ++ ' ' :: IdlWriter.trait f ns [] t)
      fun t => (writes_cons (writes_put _) (writes_cons (trait_writes f ns [] t) writes_nil)).cast (by simp))).cast
      (by cases ts <;> simp [IdlWriter.statement])

theorem shape_writes (f : Fmt) (ns : Str) (s : TopLevelShape) : Writes (shape f ns s) (IdlWriter.shape f ns s) :=
  (writes_cons (writes_when _ (traits_writes f ns [] s.traits)) (writes_cons (statement_writes f ns s)
    (writes_cons (writes_line _) writes_nil))).cast (by unfold IdlWriter.shape; cases s.body.isUnresolved <;> simp [IdlWriter.nl])

theorem write_writes (f : Fmt) (ns : Str) (m : Model) : Writes (write f ns m) (writeIdl f ns m) := by
  refine (writes_cons (writes_line _) (writes_cons (writes_line _) (writes_cons (writes_when _ (writes_cons (writes_forEach
    (t := fun (e : Str × Value) => %s"metadata " ++ '"' :: e.1 ++ %s"\" = " ++ IdlWriter.value f true e.2 ++ IdlWriter.nl)
    fun e => (writes_cons (writes_put _) (writes_cons (value_writes f true e.2) (writes_cons (writes_line _) writes_nil))).cast
      (by simp [IdlWriter.nl])) (writes_cons (writes_line _) writes_nil)))
    (writes_cons (writes_line _) (writes_cons (writes_line _) (writes_cons (writes_forEach
      (t := fun (s : TopLevelShape) => %s"use " ++ s.id.display ++ IdlWriter.nl) fun s => (writes_line _).cast (by simp [IdlWriter.nl]))
    (writes_cons (writes_line _) (writes_cons (writes_forEach (shape_writes f ns)) writes_nil)))))))).cast ?_
  unfold writeIdl IdlWriter.control IdlWriter.metadata IdlWriter.namespaceStatement IdlWriter.uses IdlWriter.shapes
  cases m.hasMetadata <;> simp [IdlWriter.nl]

end Idl

/-! ### PlantUML -/

namespace Uml

/-- The writer writes what the text says; if there is no text it writes something and fails in the same way. -/
def Follows (x : Except Err Str) (w : Writer Unit) : Prop :=
  match x with
  | .ok t => Writes w t
  | .error e => ∃ t, Says w () t () (.error e)

theorem Follows.cast {x y : Except Err Str} {w : Writer Unit} (h : Follows x w) (e : x = y) : Follows y w := e ▸ h

theorem follows_ok {w : Writer Unit} {t : Str} (h : Writes w t) : Follows (.ok t) w := h

theorem follows_then {x y : Except Err Str} {w v : Writer Unit} (h : Follows x w) (h' : Follows y v) :
    Follows (PlantUml.thenWrite x y) (w.andThen v) := by
  cases x with
  | error e => obtain ⟨t, h⟩ := h; exact ⟨t, says_stop v h⟩
  | ok s =>
    cases y with
    | ok t => exact writes_then h h'
    | error e => obtain ⟨t, h'⟩ := h'; exact ⟨s ++ t, says_then h h'⟩

theorem follows_nil : Follows (.ok []) (.seq []) := writes_nil

theorem follows_cons {x y : Except Err Str} {w : Writer Unit} {l : List (Writer Unit)} (h : Follows x w) (h' : Follows y (.seq l)) :
    Follows (PlantUml.thenWrite x y) (.seq (w :: l)) := follows_then h h'

theorem follows_forEach {α : Type} {x : α → Except Err Str} {f : α → Writer Unit} (h : ∀ a, Follows (x a) (f a)) (l : List α) :
    Follows (PlantUml.writeAll x l) (.forEach f l) := by
  induction l with
  | nil => exact follows_nil
  | cons a l ih =>
    refine (follows_cons (h a) ih).cast ?_
    unfold PlantUml.thenWrite
    conv_rhs => unfold PlantUml.writeAll

theorem follows_ifSome {α : Type} {x : α → Except Err Str} {f : α → Writer Unit} (h : ∀ a, Follows (x a) (f a)) (o : Option α) :
    Follows (PlantUml.writeOption x o) (.ifSome f o) := by
  cases o
  · exact writes_pass
  · exact h _

theorem follows_when (c : Bool) {x : Except Err Str} {w : Writer Unit} (h : Follows x w) :
    Follows (if c then x else .ok []) (.when c w) := by
  cases c
  · exact writes_pass
  · exact h

theorem thenWrite_ok (s t : Str) : PlantUml.thenWrite (.ok s) (.ok t) = .ok (s ++ t) := rfl

theorem thenWrite_ok_ok (s t : Str) (y : Except Err Str) :
    PlantUml.thenWrite (.ok s) (PlantUml.thenWrite (.ok t) y) = PlantUml.thenWrite (.ok (s ++ t)) y := by
  cases y <;> simp [PlantUml.thenWrite]

theorem thenWrite_nil (y : Except Err Str) : PlantUml.thenWrite (.ok []) y = y := by cases y <;> rfl

theorem operation_follows (id : ShapeID) (m : Model) (name : Option Str) :
    Follows (PlantUml.writeOperation id m name) (operation id m name) := by
  unfold PlantUml.writeOperation operation
  cases m.shape id with
  | none => exact ⟨[], says_fail _ ()⟩
  | some o =>
    rcases o with ⟨i, ts, body⟩
    cases body <;> first | exact ⟨[], says_fail _ ()⟩ | exact writes_line _

theorem classTraits_writes (f : Fmt) (s : TopLevelShape) : Writes (classTraits f s) (PlantUml.writeClassTraits f s).1 := by
  unfold classTraits PlantUml.writeClassTraits
  refine (writes_when _ (writes_cons (writes_line _) (writes_cons (writes_line _) writes_nil))).cast ?_
  rcases PlantUml.classTraits f s.traits with ⟨ts, ns⟩
  cases ts <;> simp [PlantUml.line]

theorem classNotes_writes (f : Fmt) (id : ShapeID) : ∀ (notes : List Str) (idx : Nat),
    Writes (classNotes f id idx notes) (PlantUml.writeClassNotes f id idx notes)
  | [], _ => writes_pass
  | note :: l, idx => by
    rw [classNotes, PlantUml.writeClassNotes]
    by_cases h : note.contains '\n'
    · rw [if_pos h, if_pos h]
      exact (writes_cons (writes_cons (writes_line _) (writes_cons (writes_line _) (writes_cons (writes_line _) writes_nil)))
        (writes_cons (writes_line _) (writes_cons (classNotes_writes f id l (idx + 1)) writes_nil))).cast (by simp [PlantUml.line])
    · rw [if_neg h, if_neg h]
      exact (writes_cons (writes_line _) (writes_cons (writes_line _) (writes_cons (classNotes_writes f id l (idx + 1)) writes_nil))).cast
        (by simp [PlantUml.line])

theorem service_follows (f : Fmt) (s : TopLevelShape) (body : Service) (m : Model) :
    Follows (PlantUml.writeService f s body m) (service f s body m) := by
  refine (follows_cons (follows_ok (writes_line _)) (follows_cons (follows_ok (classTraits_writes f s))
    (follows_cons (follows_ok (writes_line _)) (follows_cons (follows_forEach (fun o => operation_follows o m none) body.operations)
    (follows_ok (writes_cons (writes_line _) (writes_cons (classNotes_writes f s.id _ 0) (writes_cons (writes_forEach
      (t := fun (r : ShapeID) => PlantUml.line (%s"    " ++ s.id.display ++ %s" *-- " ++ r.display)) fun r => writes_line _)
      (writes_cons (writes_line _) writes_nil))))))))).cast ?_
  unfold PlantUml.writeService
  simp only [thenWrite_ok_ok, PlantUml.writeClassTraits, PlantUml.line, List.append_assoc, List.append_nil]

theorem resource_follows (f : Fmt) (s : TopLevelShape) (body : Resource) (m : Model) :
    Follows (PlantUml.writeResource f s body m) (resource f s body m) := by
  have op := fun o => operation_follows o m (some %s"create")
  refine (follows_cons (follows_ok (writes_line _)) (follows_cons (follows_ok (classTraits_writes f s))
    (follows_cons (follows_ok (writes_forEach
      (t := fun (e : Str × ShapeID) => PlantUml.line (%s"        " ++ e.1 ++ %s": " ++ e.2.display)) fun e => writes_line _))
    (follows_cons (follows_ifSome op body.create) (follows_cons (follows_ifSome op body.put) (follows_cons (follows_ifSome op body.read)
    (follows_cons (follows_ifSome op body.update) (follows_cons (follows_ifSome op body.delete) (follows_cons (follows_ifSome op body.list)
    (follows_cons (follows_when _ (follows_cons (follows_ok (writes_line _)) (follows_cons
      (follows_forEach (fun o => operation_follows o m none) body.operations) follows_nil)))
    (follows_cons (follows_when _ (follows_cons (follows_ok (writes_line _)) (follows_cons
      (follows_forEach (fun o => operation_follows o m none) body.collectionOperations) follows_nil)))
    (follows_ok (writes_cons (writes_line _) (writes_cons (classNotes_writes f s.id _ 0) (writes_cons (writes_forEach
      (t := fun (r : ShapeID) => PlantUml.line (%s"    " ++ s.id.display ++ %s" *-- " ++ r.display)) fun r => writes_line _)
      (writes_cons (writes_line _) writes_nil)))))))))))))))).cast ?_
  have hn : ∀ x : Except Err Str, PlantUml.thenWrite x (.ok []) = x := by intro x; cases x <;> simp [PlantUml.thenWrite]
  unfold PlantUml.writeResource
  simp only [hn, thenWrite_ok_ok, PlantUml.writeClassTraits, PlantUml.line, List.append_assoc, List.append_nil]
  cases body.operations <;> cases body.collectionOperations <;> rfl

theorem class_writes (f : Fmt) (s : TopLevelShape) (u : Bool) (ms : AMap Str MemberShape) :
    Writes (class_ f s u ms) (PlantUml.writeClass f s u ms) := by
  refine (writes_cons (t := if AMap.contains s.traits PlantUml.traitTrait then PlantUml.line (%s"    annotation " ++ s.id.display ++ %s" {")
      else if AMap.contains s.traits PlantUml.errorTrait then PlantUml.line (%s"    class " ++ s.id.display ++ %s" <<error>> {")
      else if u then PlantUml.line (%s"    class " ++ s.id.display ++ %s" <<union>> {")
      else PlantUml.line (%s"    class " ++ s.id.display ++ %s" {")) ?_
    (writes_cons (classTraits_writes f s) (writes_cons (writes_forEach
      (t := fun (x : MemberShape) => PlantUml.line (%s"        " ++ x.id ++ %s": " ++ x.target.display)) fun x => writes_line _)
    (writes_cons (writes_line _) (writes_cons (classNotes_writes f s.id _ 0) (writes_cons (writes_line _) writes_nil)))))).cast ?_
  · split
    · exact writes_line _
    · split
      · exact writes_line _
      · split <;> exact writes_line _
  · unfold PlantUml.writeClass
    simp only [PlantUml.writeClassTraits, PlantUml.line, List.append_assoc, List.append_nil]

theorem dataType_writes (expand : Bool) (f : Fmt) (s : TopLevelShape) (x : Simple) :
    Writes (dataType expand f s x) (PlantUml.writeDataType expand f s x) := by
  refine (writes_cons (writes_line _) (writes_cons (classTraits_writes f s) (writes_cons (writes_line _) (writes_cons (writes_line _)
    (writes_cons (writes_when _ (writes_line _)) (writes_cons (writes_line _) writes_nil)))))).cast ?_
  unfold PlantUml.writeDataType
  cases expand <;> simp [PlantUml.writeClassTraits, PlantUml.line]

theorem smithyModel_writes : Writes smithyModel PlantUml.writeSmithyModel :=
  (writes_cons (writes_line _) (writes_cons (writes_forEach
    (t := fun (s : Simple) => PlantUml.line (%s"    class " ++ s.display ++ %s" <<primitive>> { }")) fun s => writes_line _)
    (writes_cons (writes_line _) (writes_cons (writes_line _) writes_nil)))).cast
    (by simp only [PlantUml.writeSmithyModel, PlantUml.line, List.append_assoc, List.append_nil])

theorem element_follows (expand : Bool) (f : Fmt) (m : Model) (s : TopLevelShape) :
    Follows (PlantUml.writeElement expand f m s) (element expand f m s) := by
  unfold PlantUml.writeElement element
  cases s.body with
  | simple x => exact dataType_writes expand f s x
  | service x => exact service_follows f s x m
  | resource x => exact resource_follows f s x m
  | struct ms => exact class_writes f s false ms
  | union ms => exact class_writes f s true ms
  | _ => exact writes_pass

theorem write_follows (expand : Bool) (f : Fmt) (m : Model) : Follows (PlantUml.write expand f m) (write expand f m) := by
  refine (follows_cons (follows_ok (writes_line _)) (follows_cons (follows_ok (writes_line _)) (follows_cons (follows_ok (writes_line _))
    (follows_cons (follows_ok (writes_line _)) (follows_cons (follows_ok (writes_when expand smithyModel_writes))
    (follows_cons (follows_forEach (x := PlantUml.writePackage expand f m) (fun ns => ?_) m.namespaces)
    (follows_ok (writes_cons (writes_line _) (writes_cons (writes_line _) writes_nil))))))))).cast ?_
  · refine (follows_cons (follows_ok (writes_line _)) (follows_cons (follows_ok (writes_line _))
      (follows_cons (follows_forEach (element_follows expand f m) m.shapesList)
      (follows_ok (writes_cons (writes_line _) (writes_cons (writes_when expand (writes_line _)) writes_nil)))))).cast ?_
    unfold PlantUml.writePackage
    simp only [thenWrite_ok_ok, PlantUml.line, List.append_assoc, List.append_nil]
  · unfold PlantUml.write
    simp only [thenWrite_ok_ok, PlantUml.line, List.append_assoc, List.append_nil]

end Uml

/-! ### GraphML -/

namespace Graph

/-- The writer gives to the target what the step adds to the text, and ends as the step does. -/
def Mirrors (a : Step GraphML.State Err) (w : Writer UInt16) : Prop :=
  ∀ g out, ∃ t g' r, a ⟨g, out⟩ = (⟨g', out ++ t⟩, r) ∧ Says w g t g' r

theorem mirrors_line (s : Str) : Mirrors (GraphML.line s) (.line s) := fun g out =>
  ⟨s ++ ['\n'], g, .ok (), by simp [GraphML.line], says_put _ g⟩

theorem mirrors_pass : Mirrors (fun s => (s, .ok ())) .pass := fun g out => ⟨[], g, .ok (), by simp, says_pass g⟩

theorem mirrors_then {a b : Step GraphML.State Err} {w v : Writer UInt16} (h : Mirrors a w) (h' : Mirrors b v) :
    Mirrors (a.andThen b) (w.andThen v) := fun g out => by
  obtain ⟨t, g', r, h1, h2⟩ := h g out
  rcases r with e | _
  · exact ⟨t, g', .error e, by simp [Step.andThen, h1], says_stop v h2⟩
  · obtain ⟨u, g'', r', h3, h4⟩ := h' g' (out ++ t)
    exact ⟨t ++ u, g'', r', by simp [Step.andThen, h1, h3], says_then h2 h4⟩

theorem andThen_pass (a : Step GraphML.State Err) : a.andThen (fun s => (s, .ok ())) = a := by
  funext s
  unfold Step.andThen
  rcases a s with ⟨s', e | _⟩ <;> rfl

theorem mirrors_one {a : Step GraphML.State Err} {w : Writer UInt16} (h : Mirrors a w) : Mirrors a (.seq [w]) := by
  have := mirrors_then h mirrors_pass
  rwa [andThen_pass] at this

theorem mirrors_cons {a b : Step GraphML.State Err} {w : Writer UInt16} {l : List (Writer UInt16)} (h : Mirrors a w)
    (h' : Mirrors b (.seq l)) : Mirrors (a.andThen b) (.seq (w :: l)) := mirrors_then h h'

theorem mirrors_forEach {α : Type} {f : α → Step GraphML.State Err} {w : α → Writer UInt16} (h : ∀ x, Mirrors (f x) (w x)) (l : List α) :
    Mirrors (Step.forEach f l) (.forEach w l) := by
  induction l with
  | nil => exact mirrors_pass
  | cons x l ih => exact mirrors_cons (h x) ih

theorem mirrors_ifSome {α : Type} {f : α → Step GraphML.State Err} {w : α → Writer UInt16} (h : ∀ x, Mirrors (f x) (w x)) (o : Option α) :
    Mirrors (Step.ifSome f o) (.ifSome w o) := by
  cases o
  · exact mirrors_pass
  · exact h _

theorem mirrors_edgeId (checked : Bool) {f : Str → Step GraphML.State Err} {w : Str → Writer UInt16} (h : ∀ s, Mirrors (f s) (w s)) :
    Mirrors (GraphML.edgeId checked f) (edgeId checked w) := fun g out => by
  by_cases hc : (checked && g == 65535) = true
  · refine ⟨[], g, .error .panic, by simp only [GraphML.edgeId, hc, List.append_nil]; rfl, [], rfl, fun σ ε k s a => ?_⟩
    exact ⟨g, s, [], none, .done, by simp only [edgeId, hc, List.append_nil]; rfl, fun _ => rfl⟩
  · obtain ⟨t, g', r, h1, ps, hp, h2⟩ := h (%s"e" ++ showNat g.toNat) (g + 1) out
    refine ⟨t, g', r, ?_, ps, hp, fun σ ε k s a => ?_⟩
    · rw [← h1]; simp only [GraphML.edgeId]; rw [if_neg hc]
    · obtain ⟨gx, s', b, x, h3, h4, h5⟩ := h2 σ ε k s a
      refine ⟨gx, s', b, x, h3, ?_, h5⟩
      rw [← h4]; simp only [edgeId]; rw [if_neg hc]

theorem node_mirrors (id : ShapeID) (type : Str) : Mirrors (GraphML.node id type) (node id type) :=
  mirrors_cons (mirrors_line _) (mirrors_cons (mirrors_line _) (mirrors_one (mirrors_line _)))

theorem member_mirrors (c : Bool) (a b : ShapeID) (name : Str) : Mirrors (GraphML.member c a b name) (member c a b name) :=
  mirrors_edgeId c fun _ => mirrors_cons (mirrors_line _) (mirrors_cons (mirrors_line _) (mirrors_one (mirrors_line _)))

theorem traits_mirrors (c : Bool) (id : ShapeID) (ts : Traits) : Mirrors (GraphML.traits c id ts) (traits c id ts) :=
  mirrors_forEach (fun _ => mirrors_edgeId c fun _ => mirrors_cons (mirrors_line _) (mirrors_cons (mirrors_line _)
    (mirrors_one (mirrors_line _)))) _

/-- The walk over one shape, as a writer. -/
def shape (c : Bool) (s : TopLevelShape) : Writer UInt16 := ⟨fun k => Visitor.walkShape (visitor c k) s⟩

theorem mirrors_shape {a : Step GraphML.State Err} {w : Writer UInt16} (h : Mirrors a w) :
    Mirrors (a.andThen fun s => (s, .ok ())) (w.andThen .pass) := mirrors_then h mirrors_pass

theorem shape_mirrors (c : Bool) (s : TopLevelShape) : Mirrors (Visitor.walkShape (GraphML.visitor c) s) (shape c s) := by
  rcases s with ⟨id, ts, body⟩
  have nd := fun x => node_mirrors id x
  have tr := traits_mirrors c id ts
  have mb := fun a b => member_mirrors c id a b
  cases body with
  | simple st => exact mirrors_cons (nd _) (mirrors_one tr)
  | list m => exact mirrors_shape (mirrors_cons (nd _) (mirrors_cons tr (mirrors_one (mb _ _))))
  | set m => exact mirrors_shape (mirrors_cons (nd _) (mirrors_cons tr (mirrors_one (mb _ _))))
  | map k v => exact mirrors_shape (mirrors_cons (nd _) (mirrors_cons tr (mirrors_cons (mb _ _) (mirrors_one (mb _ _)))))
  | struct ms => exact mirrors_shape (mirrors_cons (nd _) (mirrors_cons tr (mirrors_one (mirrors_forEach (fun m => mb _ _) _))))
  | union ms => exact mirrors_shape (mirrors_cons (nd _) (mirrors_cons tr (mirrors_one (mirrors_forEach (fun m => mb _ _) _))))
  | service x => exact mirrors_shape (mirrors_cons (mirrors_line _) (mirrors_cons (mirrors_line _) (mirrors_cons (mirrors_line _)
      (mirrors_cons (mirrors_line _) (mirrors_cons tr (mirrors_cons (mirrors_forEach (fun t => mb _ _) _)
      (mirrors_one (mirrors_forEach (fun t => mb _ _) _))))))))
  | operation x => exact mirrors_shape (mirrors_cons (nd _) (mirrors_cons tr (mirrors_cons (mirrors_ifSome (fun t => mb _ _) _)
      (mirrors_cons (mirrors_ifSome (fun t => mb _ _) _) (mirrors_one (mirrors_forEach (fun t => mb _ _) _))))))
  | resource x => exact mirrors_shape (mirrors_cons (nd _) (mirrors_cons tr (mirrors_cons (mirrors_ifSome (fun t => mb _ _) _)
      (mirrors_cons (mirrors_ifSome (fun t => mb _ _) _) (mirrors_cons (mirrors_ifSome (fun t => mb _ _) _)
      (mirrors_cons (mirrors_ifSome (fun t => mb _ _) _) (mirrors_cons (mirrors_ifSome (fun t => mb _ _) _)
      (mirrors_cons (mirrors_ifSome (fun t => mb _ _) _) (mirrors_cons (mirrors_forEach (fun t => mb _ _) _)
      (mirrors_cons (mirrors_forEach (fun t => mb _ _) _) (mirrors_one (mirrors_forEach (fun t => mb _ _) _))))))))))))
  | unresolved => exact mirrors_pass

theorem run_forEach {α σ ε : Type} (w : α → Writer UInt16) (k : Sink σ ε) (l : List α) :
    Step.forEach (fun x => (w x).run k) l = (Writer.forEach w l).run k := by
  induction l with
  | nil => rfl
  | cons x l ih =>
    show ((w x).run k).andThen (Step.forEach (fun x => (w x).run k) l) = ((w x).run k).andThen ((Writer.forEach w l).run k)
    rw [ih]

/-- The walk over the model, as a writer. -/
def walk (c : Bool) (m : Model) : Writer UInt16 := ⟨fun k => Visitor.walkModel m (visitor c k)⟩

theorem walk_eq (c : Bool) (m : Model) :
    walk c m = (Writer.forEach (fun (_ : Str × Value) => .pass) m.metadata).andThen (Writer.forEach (shape c) m.shapesList) := by
  unfold walk Writer.andThen
  congr
  funext σ ε k
  rw [← run_forEach, ← run_forEach]
  rfl

theorem walk_mirrors (c : Bool) (m : Model) : Mirrors (Visitor.walkModel m (GraphML.visitor c)) (walk c m) := by
  rw [walk_eq]
  exact mirrors_then (mirrors_forEach (fun _ => mirrors_pass) _) (mirrors_forEach (shape_mirrors c) _)

theorem says_line (s : Str) (g : UInt16) : Says (.line s) g (s ++ ['\n']) g (.ok ()) := says_put _ g

theorem says_cons {w : Writer UInt16} {l : List (Writer UInt16)} {g g₁ g₂ : UInt16} {t u : Str} {r} (h : Says w g t g₁ (.ok ()))
    (h' : Says (.seq l) g₁ u g₂ r) : Says (.seq (w :: l)) g (t ++ u) g₂ r := says_then h h'

theorem says_nil (g : UInt16) : Says (.seq []) g [] g (.ok ()) := says_pass g

set_option maxRecDepth 100000 in
theorem keys_says : Says keys 0 GraphML.keys 0 (.ok ()) := by
  have h := says_cons (says_line %s"    <key id=\"smithy-version\" for=\"graph\" attr.name=\"smithy.version\" attr.type=\"string\"/>" 0) <|
    says_cons (says_line %s"    <key id=\"type\" for=\"node\" attr.name=\"type\" attr.type=\"string\"/>" 0) <|
    says_cons (says_line %s"    <key id=\"version\" for=\"node\" attr.name=\"version\" attr.type=\"string\"/>" 0) <|
    says_cons (says_line %s"    <key id=\"trait\" for=\"edge\" attr.name=\"trait\" attr.type=\"boolean\"/>" 0) <|
    says_cons (says_line %s"    <key id=\"member\" for=\"edge\" attr.name=\"member\" attr.type=\"string\">" 0) <|
    says_cons (says_line %s"        <default>member</default>" 0) <|
    says_cons (says_line %s"    </key>" 0) (says_nil 0)
  exact h

set_option maxRecDepth 100000 in
theorem write_says (c : Bool) (m : Model) : ∃ g t r, Says (write c m) 0 t g r ∧
    match GraphML.write c m with
    | .ok u => r = .ok () ∧ t = u
    | .error e => r = .error e := by
  obtain ⟨u, g, r, h1, h2⟩ := walk_mirrors c m 0 (GraphML.header m)
  have hd : ∀ (l : List (Writer UInt16)) (t : Str) (r : Except Err Unit), Says (.seq l) 0 t g r →
      Says (.seq (.line %s"<?xml version=\"1.0\" encoding=\"UTF-8\"?>" ::
        .line %s"<graphml xmlns=\"http://graphml.graphdrawing.org/xmlns\"" ::
        .line %s"    xmlns:xsi=\"http://www.w3.org/2001/XMLSchema-instance\"" ::
        .line %s"    xsi:schemaLocation=\"http://graphml.graphdrawing.org/xmlns" ::
        .line %s"        http://graphml.graphdrawing.org/xmlns/1.0/graphml.xsd\">" :: keys ::
        .line %s"    <graph id=\"model\" edgedefault=\"directed\">" ::
        .line (%s"        <data key=\"smithy.version\">" ++ m.version.display ++ %s"</data>") :: l)) 0 (GraphML.header m ++ t) g r := by
    intro l t r h
    refine (says_cons (says_line _ 0) (says_cons (says_line _ 0) (says_cons (says_line _ 0) (says_cons (says_line _ 0)
      (says_cons (says_line _ 0) (says_cons keys_says (says_cons (says_line _ 0) (says_cons (says_line _ 0) h)))))))).cast ?_
    unfold GraphML.header
    simp only [List.append_assoc]
    rfl
  rcases r with e | _
  · refine ⟨g, _, .error e, hd _ u (.error e) (says_stop _ h2), ?_⟩
    rw [GraphML.write, h1]
  · refine ⟨g, _, .ok (), hd _ _ (.ok ()) (says_cons h2 (says_cons (says_line _ g) (says_cons (says_line _ g) (says_nil g)))), ?_⟩
    rw [GraphML.write, h1]
    refine ⟨rfl, ?_⟩
    show _ ++ (u ++ (_ ++ (_ ++ _))) = (_ ++ u) ++ _ ++ _
    simp only [List.append_assoc]
    rfl

end Graph

/-! ### What any run of a writer looks like -/

theorem takes_prefix {σ ε : Type} {k : Sink σ ε} {s s' : σ} {ps : List Str} {a : Str} {x : Option ε} (h : Takes k s ps s' a x) :
    a <+: ps.flatten ∧ (x = none → a = ps.flatten) := by
  induction h with
  | done => exact ⟨List.nil_prefix, fun _ => rfl⟩
  | took _ _ ih => exact ⟨by simpa using ih.1, fun hx => by simp [ih.2 hx]⟩
  | failed _ => exact ⟨by simpa using (List.take_prefix _ _).trans (List.prefix_append _ _), fun hx => by simp at hx⟩

theorem takes_endless {s s' : Unit} {ps : List Str} {a : Str} {x : Option Empty} (_ : Takes endless s ps s' a x) : x = none := by
  cases x with
  | none => rfl
  | some e => exact nomatch e

theorem takes_limited {n s' : Nat} {ps : List Str} {a : Str} {x : Option Unit} (h : Takes limited n ps s' a x) :
    a = ps.flatten.take n ∧ (x = none ↔ ps.flatten.length ≤ n) := by
  induction h with
  | done => simp
  | @took s s₁ s₂ c l a x hw _ ih =>
    simp only [limited] at hw
    by_cases hc : c.length ≤ s
    · rw [if_pos hc] at hw
      simp only [Prod.mk.injEq, and_true] at hw
      subst hw
      obtain ⟨h1, h2⟩ := ih
      refine ⟨by rw [List.flatten_cons, List.take_append, List.take_of_length_le hc, h1], h2.trans ?_⟩
      simp only [List.flatten_cons, List.length_append]
      omega
    · rw [if_neg hc] at hw
      simp at hw
  | @failed s s₁ c l m e hw =>
    simp only [limited] at hw
    by_cases hc : c.length ≤ s
    · rw [if_pos hc] at hw; simp at hw
    · rw [if_neg hc] at hw
      simp only [Prod.mk.injEq, Option.some.injEq] at hw
      obtain ⟨-, rfl, -⟩ := hw
      refine ⟨?_, by simp only [List.flatten_cons, List.length_append, reduceCtorEq, false_iff]; omega⟩
      rw [List.flatten_cons, List.take_append_of_le_length (by omega)]

end Targets

/-! ### Theorems -/

/-- C111, line-oriented form: every target is given the text of the model, from its beginning and in order, until it fails; the
writer does not fail by itself. -/
theorem C111_lines (f : Fmt) (m : Model) : Sends (Targets.lines f m) () (writeLines f m) (.ok ()) := (Targets.lines_writes f m).sends

/-- C111, Smithy IDL. -/
theorem C111_idl (f : Fmt) (ns : Str) (m : Model) : Sends (Targets.Idl.write f ns m) () (writeIdl f ns m) (.ok ()) :=
  (Targets.Idl.write_writes f ns m).sends

/-- C111, GraphML: if the text of the model can be written to a target that does not fail, any target is given this text. If the
writer itself fails (the edges cannot be numbered), any target is given some text, and then that failure is reported. -/
theorem C111_graphml (checked : Bool) (m : Model) :
    match GraphML.write checked m with
    | .ok text => Sends (Targets.Graph.write checked m) 0 text (.ok ())
    | .error e => ∃ text, Sends (Targets.Graph.write checked m) 0 text (.error e) := by
  obtain ⟨g, t, r, h, hr⟩ := Targets.Graph.write_says checked m
  revert hr
  cases GraphML.write checked m with
  | ok u => rintro ⟨rfl, rfl⟩; exact h.sends
  | error e => rintro rfl; exact ⟨t, h.sends⟩

/-- C111, PlantUML: the same; the writer itself fails if an operation named by a service or a resource is not there. -/
theorem C111_plantuml (expand : Bool) (f : Fmt) (m : Model) :
    match PlantUml.write expand f m with
    | .ok text => Sends (Targets.Uml.write expand f m) () text (.ok ())
    | .error e => ∃ text, Sends (Targets.Uml.write expand f m) () text (.error e) := by
  have h := Targets.Uml.write_follows expand f m
  revert h
  cases PlantUml.write expand f m with
  | ok u => exact fun h => Targets.Says.sends h
  | error e => rintro ⟨t, h⟩; exact ⟨t, h.sends⟩

/-- C111: what arrives at a target is always a beginning of the text; if success is reported all of it arrived; if the target's
failure is reported it is one the target reported, and the writer's own failure is reported only if all it had to write arrived. -/
theorem C111_prefix {γ : Type} {w : Writer γ} {start : γ} {text : Str} {r : Except Err Unit} (h : Sends w start text r)
    {σ ε : Type} (k : Sink σ ε) (s : σ) :
    (w.run k ⟨start, s, []⟩).1.arrived <+: text ∧
    match (w.run k ⟨start, s, []⟩).2 with
    | .ok () => (w.run k ⟨start, s, []⟩).1.arrived = text ∧ r = .ok ()
    | .error (.own e) => (w.run k ⟨start, s, []⟩).1.arrived = text ∧ r = .error e
    | .error (.target e) => ∃ s₀ piece n, (k.write s₀ piece).2 = some (n, e) := by
  obtain ⟨ps, rfl, h⟩ := h
  obtain ⟨g, s', a, x, h1, h2⟩ := h σ ε k s
  rw [h2]
  obtain ⟨hp, he⟩ := Targets.takes_prefix h1
  refine ⟨hp, ?_⟩
  rcases x with _ | e
  · rcases r with e | ⟨⟨⟩⟩ <;> exact ⟨he rfl, rfl⟩
  · show ∃ s₀ piece n, (k.write s₀ piece).2 = some (n, e)
    clear h2 hp he h
    generalize hy : some e = y at h1
    induction h1 with
    | done => simp at hy
    | took _ _ ih => exact ih hy
    | @failed s s₁ c l n e' hw => cases hy; exact ⟨s, c, n, by rw [hw]⟩

/-- C111: a target that has no more room after `n` characters gets exactly the first `n` of the text, and failure is reported iff
that is not all of it. -/
theorem C111_limited {γ : Type} {w : Writer γ} {start : γ} {text : Str} (h : Sends w start text (.ok ())) (n : Nat) :
    (w.run limited ⟨start, n, []⟩).1.arrived = text.take n ∧
    (w.run limited ⟨start, n, []⟩).2 = if text.length ≤ n then .ok () else .error (.target ()) := by
  obtain ⟨ps, rfl, h⟩ := h
  obtain ⟨g, s', a, x, h1, h2⟩ := h _ _ limited n
  rw [h2]
  obtain ⟨rfl, hx⟩ := Targets.takes_limited h1
  refine ⟨rfl, ?_⟩
  rcases x with _ | e
  · rw [if_pos (hx.mp rfl)]; rfl
  · rw [if_neg fun hl => by simpa using hx.mpr hl]; rfl

/-- C111: `write_model_to_string` (a target that does not fail) gives the whole text. -/
theorem C111_string {γ : Type} {w : Writer γ} {start : γ} {text : Str} {r : Except Err Unit} (h : Sends w start text r) :
    (w.run endless ⟨start, (), []⟩).1.arrived = text ∧
    (w.run endless ⟨start, (), []⟩).2 = match r with | .ok () => .ok () | .error e => .error (.own e) := by
  obtain ⟨ps, rfl, h⟩ := h
  obtain ⟨g, s', a, x, h1, h2⟩ := h _ _ endless ()
  rw [h2]
  obtain rfl := Targets.takes_endless h1
  refine ⟨(Targets.takes_prefix h1).2 rfl, ?_⟩
  rcases r with e | ⟨⟨⟩⟩ <;> rfl

/-- A service with an operation that is not there. -/
def exNoOperation : Model := ⟨.v10, [],
  [(⟨%s"a", %s"V", none⟩, ⟨⟨%s"a", %s"V", none⟩, [], .service ⟨%s"1", [⟨%s"a", %s"O", none⟩], [], []⟩⟩)]⟩

set_option maxRecDepth 100000 in
/-- C111: a target with room for 57 characters gets the first 57 of an IDL text, which end within the documentation of a
structure, and the failure is reported; and the PlantUML writer stops, by itself, after the version of a service whose operation is
not there. -/
theorem C111_examples :
    ((Targets.Idl.write exFmt %s"a" exIdl).run limited ⟨(), 57, []⟩).1.arrived =
      %s"$version: \"1.0\"\n\nnamespace a\n\nuse b#T\n\n@documentation(\"te" ∧
    ((Targets.Idl.write exFmt %s"a" exIdl).run limited ⟨(), 57, []⟩).2 = .error (.target ()) ∧
    ((Targets.Uml.write false exFmt exNoOperation).run endless ⟨(), (), []⟩).1.arrived =
      %s"@startuml\n\nhide empty members\n\npackage a {\n\n    class a#V <<service>> {\n        version: string = \"1\"\n" ∧
    ((Targets.Uml.write false exFmt exNoOperation).run endless ⟨(), (), []⟩).2 = .error (.own .panic) := by
  refine ⟨?_, ?_, ?_, ?_⟩ <;> rfl

end Verif
