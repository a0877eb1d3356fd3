/-
C64, C65, C66: the shape builders and programs that use the builder API.
-/
import Verif.ShapeBuilders
import Verif.TraitBuildersProps
import Verif.BuilderApply

namespace Verif
open Spec

namespace Spec

/-- The text is that of the name: an absolute id, or an identifier. -/
inductive Names : Str → ShapeName → Prop
  | absolute {s id} : ShapeID.fromStr s = .ok id → Names s (.qualified id)
  | relative {s} : IsIdentifier s → Names s (.local' s)

/-- The text is the name of a shape. -/
def Nameable (s : Str) : Prop := ∃ n, Names s n

/-- The argument of the last of the calls that have one. -/
def lastOf {C A : Type} (arg : C → Option A) : List C → Option A
  | [] => none
  | c :: cs => (lastOf arg cs).or (arg c)

/-! #### Structures and unions -/

/-- The member that a call adds. -/
inductive Adds : StructCall → MemberBuilder → Prop
  | member {n t tn} : IsIdentifier n → Names t tn → Adds (.member n t) ⟨n, [], tn⟩
  | addMember {m} : Adds (.addMember m) m
  | simple {k n} : IsIdentifier n → Adds (.simple k n) ⟨n, [], .local' k.preludeName⟩

/-! #### Services -/

/-- The texts of the operations added by a call. -/
def ServiceCall.ops : ServiceCall → List Str
  | .operation s => [s]
  | .operations ss => ss
  | _ => []

/-- The texts of the resources added by a call. -/
def ServiceCall.res : ServiceCall → List Str
  | .resource s => [s]
  | .resources ss => ss
  | _ => []

/-- The call is one the method allows. -/
def ServiceCall.Ok : ServiceCall → Prop
  | .version _ => True
  | .operation s | .resource s => Nameable s
  | .operations ss | .resources ss => ∀ s ∈ ss, Nameable s
  | .rename i n => (∃ id, ShapeID.fromStr i = .ok id) ∧ IsIdentifier n

/-- What the builder of a service has after the calls. -/
structure ServiceSays (version : Str) (cs : List Verif.ServiceCall) (f : ServiceFields) : Prop where
  version : f.version = (lastOf (fun | .version v => some v | _ => none) cs).getD version
  operations : ListRel Names (cs.flatMap ServiceCall.ops) f.operations
  resources : ListRel Names (cs.flatMap ServiceCall.res) f.resources
  nodup : AMap.Wf f.renames
  renames : ∀ id, AMap.get f.renames id = lastOf (fun | .rename i n => if ShapeID.fromStr i = .ok id then some n else none | _ => none) cs

/-! #### Operations -/

/-- The texts of the errors added by a call. -/
def OperationCall.errs : OperationCall → List Str
  | .error s => [s]
  | .errors ss => ss
  | _ => []

/-- The call is one the method allows. -/
def OperationCall.Ok : OperationCall → Prop
  | .input s | .output s | .error s => Nameable s
  | .errors ss => ∀ s ∈ ss, Nameable s

/-- What the builder of an operation has after the calls. -/
structure OperationSays (cs : List Verif.OperationCall) (f : OperationFields) : Prop where
  input : OptRel Names (lastOf (fun | .input s => some s | _ => none) cs) f.input
  output : OptRel Names (lastOf (fun | .output s => some s | _ => none) cs) f.output
  errors : ListRel Names (cs.flatMap OperationCall.errs) f.errors

/-! #### Resources -/

/-- The texts of the operations added by a call. -/
def ResourceCall.ops : ResourceCall → List Str
  | .operation s => [s]
  | .operations ss => ss
  | _ => []

/-- The texts of the collection operations added by a call. -/
def ResourceCall.cops : ResourceCall → List Str
  | .collectionOperation s => [s]
  | .collectionOperations ss => ss
  | _ => []

/-- The texts of the resources added by a call. -/
def ResourceCall.res : ResourceCall → List Str
  | .resource s => [s]
  | .resources ss => ss
  | _ => []

/-- The call is one the method allows. -/
def ResourceCall.Ok : ResourceCall → Prop
  | .identifier n s => IsIdentifier n ∧ Nameable s
  | .create s | .put s | .read s | .update s | .delete s | .list s => Nameable s
  | .operation s | .collectionOperation s | .resource s => Nameable s
  | .operations ss | .collectionOperations ss | .resources ss => ∀ s ∈ ss, Nameable s

/-- What the builder of a resource has after the calls. -/
structure ResourceSays (cs : List Verif.ResourceCall) (f : ResourceFields) : Prop where
  nodup : AMap.Wf f.identifiers
  identifiers : ∀ k, OptRel Names (lastOf (fun | .identifier n s => if n = k then some s else none | _ => none) cs) (AMap.get f.identifiers k)
  create : OptRel Names (lastOf (fun | .create s => some s | _ => none) cs) f.create
  put : OptRel Names (lastOf (fun | .put s => some s | _ => none) cs) f.put
  read : OptRel Names (lastOf (fun | .read s => some s | _ => none) cs) f.read
  update : OptRel Names (lastOf (fun | .update s => some s | _ => none) cs) f.update
  delete : OptRel Names (lastOf (fun | .delete s => some s | _ => none) cs) f.delete
  list : OptRel Names (lastOf (fun | .list s => some s | _ => none) cs) f.list
  operations : ListRel Names (cs.flatMap ResourceCall.ops) f.operations
  collectionOperations : ListRel Names (cs.flatMap ResourceCall.cops) f.collectionOperations
  resources : ListRel Names (cs.flatMap ResourceCall.res) f.resources

end Spec

/-! ### Arguments -/

theorem names_iff (s : Str) (n : ShapeName) : ShapeName.fromStr s = .ok n ↔ Names s n := by
  obtain ⟨-, h2, h3, -⟩ := C24_name_syntax s
  cases n with
  | qualified id =>
    rw [h2]
    exact ⟨.absolute, fun h => by cases h; assumption⟩
  | local' l =>
    rw [h3]
    exact ⟨fun ⟨h, h'⟩ => (by rw [h]; exact .relative h'), fun h => by cases h; exact ⟨rfl, by assumption⟩⟩

/-- The two outcomes of a step that can only panic. -/
inductive Outcome {α : Type} (Good : α → Prop) (Bad : Prop) : Except Err α → Prop
  | ok {a} : Good a → Outcome Good Bad (.ok a)
  | panic : Bad → Outcome Good Bad (.error .panic)

theorem Outcome.mono {α : Type} {G G' : α → Prop} {B B' : Prop} {x : Except Err α} (h : Outcome G B x) (hg : ∀ a, G a → G' a) (hb : B → B') :
    Outcome G' B' x := by
  cases h with
  | ok h => exact .ok (hg _ h)
  | panic h => exact .panic (hb h)

theorem Outcome.bind {α β : Type} {G : α → Prop} {G' : β → Prop} {B B' : Prop} {x : Except Err α} {f : α → Except Err β} (h : Outcome G B x)
    (hf : ∀ a, G a → Outcome G' B' (f a)) (hb : B → B') : Outcome G' B' (x >>= f) := by
  cases h with
  | ok h => exact hf _ h
  | panic h => exact .panic (hb h)

theorem Outcome.three {α : Type} {P : α → Prop} {A : Prop} {x : Except Err α} (h : Outcome (fun a => A ∧ P a) (¬ A) x) :
    (∀ a, x = .ok a → P a) ∧ ((∃ a, x = .ok a) ↔ A) ∧ (∀ e, x = .error e → e = .panic) := by
  cases h with
  | ok h => exact ⟨fun f hf => (by cases hf; exact h.2), ⟨fun _ => h.1, fun _ => ⟨_, rfl⟩⟩, fun e he => (by cases he)⟩
  | panic h => exact ⟨fun f hf => (by cases hf), ⟨fun ⟨f, hf⟩ => (by cases hf), fun ha => absurd ha h⟩, fun e he => (by cases he; rfl)⟩

theorem nameArg_outcome (s : Str) : Outcome (Names s) (¬ Nameable s) (nameArg s) := by
  unfold nameArg
  cases h : ShapeName.fromStr s with
  | ok n => exact .ok ((names_iff s n).mp h)
  | error e => exact .panic fun ⟨n, hn⟩ => by rw [(names_iff s n).mpr hn] at h; cases h

theorem identArg_outcome (s : Str) : Outcome (fun n => n = s ∧ IsIdentifier s) (¬ IsIdentifier s) (unwrap (Identifier.fromStr s)) := by
  unfold Identifier.fromStr
  by_cases h : isIdent s = true
  · rw [if_pos h]; exact .ok ⟨rfl, (isIdent_iff s).mp h⟩
  · rw [if_neg h]; exact .panic fun hi => h ((isIdent_iff s).mpr hi)

theorem idArg_outcome (s : Str) : Outcome (fun id => ShapeID.fromStr s = .ok id) (¬ ∃ id, ShapeID.fromStr s = .ok id) (unwrap (ShapeID.fromStr s)) := by
  cases h : ShapeID.fromStr s with
  | ok id => exact .ok rfl
  | error e => exact .panic fun ⟨id, hi⟩ => by cases hi

theorem eachArg_concat {S A : Type} (f : S → A → Except Err S) (s : S) (as : List A) (a : A) :
    eachArg f s (as ++ [a]) = (eachArg f s as >>= fun s' => f s' a) := by
  induction as generalizing s with
  | nil =>
    simp only [List.nil_append, eachArg]
    change _ = f s a
    cases f s a <;> rfl
  | cons b as ih =>
    simp only [List.cons_append, eachArg]
    cases f s b with
    | error e => rfl
    | ok s' => exact ih s'

theorem listRel_concat {α β : Type} {R : α → β → Prop} {l : List α} {m : List β} {a : α} {b : β} (h : ListRel R l m) (hab : R a b) :
    ListRel R (l ++ [a]) (m ++ [b]) := by
  induction l generalizing m with
  | nil => rw [listRel_nil_left h]; exact listRel_cons.mpr ⟨hab, listRel_nil⟩
  | cons x l ih =>
    obtain ⟨y, m', rfl, hxy, h'⟩ := listRel_cons_left h
    exact listRel_cons.mpr ⟨hxy, ih h'⟩

theorem listRel_append {α β : Type} {R : α → β → Prop} {l l' : List α} {m m' : List β} (h : ListRel R l m) (h' : ListRel R l' m') :
    ListRel R (l ++ l') (m ++ m') := by
  induction l generalizing m with
  | nil => rw [listRel_nil_left h]; exact h'
  | cons x l ih =>
    obtain ⟨y, m'', rfl, hxy, h''⟩ := listRel_cons_left h
    exact listRel_cons.mpr ⟨hxy, ih h''⟩

/-- A loop that pushes a name for each text. -/
theorem eachArg_names {S : Type} (f : S → Str → Except Err S) (upd : S → List ShapeName → S) (hf : ∀ s t, f s t = (nameArg t >>= fun n => .ok (upd s [n])))
    (h0 : ∀ s, upd s [] = s) (ha : ∀ s a b, upd (upd s a) b = upd s (a ++ b)) (ts : List Str) (s : S) :
    Outcome (fun s' => (∀ t ∈ ts, Nameable t) ∧ ∃ ns, ListRel Names ts ns ∧ s' = upd s ns) (¬ ∀ t ∈ ts, Nameable t) (eachArg f s ts) := by
  induction ts using List.reverseRecOn with
  | nil => exact .ok ⟨by simp, [], listRel_nil, (h0 s).symm⟩
  | append_singleton ts t ih =>
    rw [eachArg_concat]
    refine ih.bind ?_ fun hb h => hb fun t ht => h t (by simp [ht])
    rintro s' ⟨hall, ns, hns, rfl⟩
    rw [hf]
    refine (nameArg_outcome t).bind (fun n hn => .ok ⟨?_, ns ++ [n], listRel_concat hns hn, ha _ _ _⟩) fun hb h => hb (h t (by simp))
    intro x hx
    rcases List.mem_append.mp hx with hx | hx
    · exact hall x hx
    · rw [List.mem_singleton.mp hx]; exact ⟨n, hn⟩

theorem lastOf_concat {C A : Type} (arg : C → Option A) (cs : List C) (c : C) : lastOf arg (cs ++ [c]) = (arg c).or (lastOf arg cs) := by
  induction cs with
  | nil => simp [lastOf]
  | cons d cs ih => simp only [List.cons_append, lastOf, ih, Option.or_assoc]

/-- Programs of calls, one call at a time. -/
theorem eachArg_calls {S C : Type} {call : S → C → Except Err S} {Says : List C → S → Prop} {Ok : C → Prop} {init : S} (h0 : Says [] init)
    (hs : ∀ cs s c, Says cs s → Outcome (fun s' => Ok c ∧ Says (cs ++ [c]) s') (¬ Ok c) (call s c)) (cs : List C) :
    Outcome (fun s => (∀ c ∈ cs, Ok c) ∧ Says cs s) (¬ ∀ c ∈ cs, Ok c) (eachArg call init cs) := by
  induction cs using List.reverseRecOn with
  | nil => exact .ok ⟨by simp, h0⟩
  | append_singleton cs c ih =>
    rw [eachArg_concat]
    refine ih.bind ?_ fun hb h => hb fun c hc => h c (by simp [hc])
    rintro s ⟨hall, hsay⟩
    refine (hs cs s c hsay).mono ?_ fun hb h => hb (h c (by simp))
    rintro s' ⟨h1, h2⟩
    refine ⟨fun x hx => ?_, h2⟩
    rcases List.mem_append.mp hx with hx | hx
    · exact hall x hx
    · rw [List.mem_singleton.mp hx]; exact h1

/-! ### C65: what builders record -/

theorem service_step (version : Str) (cs : List ServiceCall) (f : ServiceFields) (c : ServiceCall) (h : ServiceSays version cs f) :
    Outcome (fun f' => ServiceCall.Ok c ∧ ServiceSays version (cs ++ [c]) f') (¬ ServiceCall.Ok c) (f.call c) := by
  have key : ∀ (c : ServiceCall) (f' : ServiceFields),
      f'.version = ((match c with | .version v => some v | _ => none : Option Str).or (some f.version)).getD [] →
      (∃ ns, ListRel Names (ServiceCall.ops c) ns ∧ f'.operations = f.operations ++ ns) →
      (∃ ns, ListRel Names (ServiceCall.res c) ns ∧ f'.resources = f.resources ++ ns) →
      AMap.Wf f'.renames →
      (∀ id, AMap.get f'.renames id = ((match c with | .rename i n => if ShapeID.fromStr i = .ok id then some n else none | _ => none : Option Str).or (AMap.get f.renames id))) →
      ServiceSays version (cs ++ [c]) f' := by
    intro c f' h1 ⟨n1, h2, h2'⟩ ⟨n2, h3, h3'⟩ h4 h5
    refine ⟨?_, ?_, ?_, h4, ?_⟩
    · rw [h1, lastOf_concat, h.version]
      cases (match c with | .version v => some v | _ => none : Option Str) with
      | none => simp
      | some v => simp
    · rw [List.flatMap_append, h2', List.flatMap_singleton]; exact listRel_append h.operations h2
    · rw [List.flatMap_append, h3', List.flatMap_singleton]; exact listRel_append h.resources h3
    · intro id; rw [h5, lastOf_concat, h.renames]
  have nil : ∀ l : List ShapeName, ∃ ns, ListRel Names [] ns ∧ l = l ++ ns := fun l => ⟨[], listRel_nil, by simp⟩
  have one : ∀ {s n} (l : List ShapeName), Names s n → ∃ ns, ListRel Names [s] ns ∧ l ++ [n] = l ++ ns :=
    fun l hn => ⟨_, listRel_cons.mpr ⟨hn, listRel_nil⟩, rfl⟩
  cases c with
  | version v => exact .ok ⟨trivial, key _ _ rfl (nil _) (nil _) h.nodup fun id => rfl⟩
  | operation s =>
    exact (nameArg_outcome s).bind (fun n hn => .ok ⟨⟨n, hn⟩, key _ _ rfl (one _ hn) (nil _) h.nodup fun id => rfl⟩) id
  | operations ss =>
    refine (eachArg_names ServiceFields.operation (fun f ns => ⟨f.version, f.operations ++ ns, f.resources, f.renames⟩) (fun _ _ => rfl)
      (fun s => by simp) (fun s a b => by simp) ss f).mono ?_ id
    rintro f' ⟨hall, ns, hns, rfl⟩
    exact ⟨hall, key _ _ rfl ⟨ns, hns, rfl⟩ (nil _) h.nodup fun id => rfl⟩
  | resource s =>
    exact (nameArg_outcome s).bind (fun n hn => .ok ⟨⟨n, hn⟩, key _ _ rfl (nil _) (one _ hn) h.nodup fun id => rfl⟩) id
  | resources ss =>
    refine (eachArg_names ServiceFields.resource (fun f ns => ⟨f.version, f.operations, f.resources ++ ns, f.renames⟩) (fun _ _ => rfl)
      (fun s => by simp) (fun s a b => by simp) ss f).mono ?_ id
    rintro f' ⟨hall, ns, hns, rfl⟩
    exact ⟨hall, key _ _ rfl (nil _) ⟨ns, hns, rfl⟩ h.nodup fun id => rfl⟩
  | rename i n =>
    refine (idArg_outcome i).bind (fun id hid => (identArg_outcome n).bind ?_ fun hb h => hb h.2) fun hb h => hb h.1
    rintro n' ⟨rfl, hn⟩
    refine .ok ⟨⟨⟨id, hid⟩, hn⟩, key _ _ rfl (nil _) (nil _) (AMap.wf_insert h.nodup _ _) fun id' => ?_⟩
    rw [AMap.get_insert]
    by_cases hi : id = id'
    · subst hi; simp [hid]
    · have : ¬ ShapeID.fromStr i = .ok id' := fun he => hi (by rw [hid] at he; cases he; rfl)
      simp [hi, this]

/-- C65: whatever the calls, the builder of a service has the last version given, the operations and the resources of all
calls in their order, and for each id the last local name; making it panics exactly when some argument is not a name. -/
theorem C65_service (version : Str) (cs : List ServiceCall) :
    (∀ f, ServiceFields.run version cs = .ok f → ServiceSays version cs f) ∧
    ((∃ f, ServiceFields.run version cs = .ok f) ↔ ∀ c ∈ cs, ServiceCall.Ok c) ∧
    (∀ e, ServiceFields.run version cs = .error e → e = .panic) := by
  have := eachArg_calls (Says := ServiceSays version) (Ok := ServiceCall.Ok) (call := ServiceFields.call) (init := ⟨version, [], [], []⟩)
    ⟨rfl, listRel_nil, listRel_nil, AMap.wf_nil, fun _ => rfl⟩ (fun cs s c h => service_step version cs s c h) cs
  exact this.three

theorem operation_step (cs : List OperationCall) (f : OperationFields) (c : OperationCall) (h : OperationSays cs f) :
    Outcome (fun f' => OperationCall.Ok c ∧ OperationSays (cs ++ [c]) f') (¬ OperationCall.Ok c) (f.call c) := by
  cases c with
  | input s =>
    refine (nameArg_outcome s).bind (fun n hn => .ok ⟨⟨n, hn⟩, ?_⟩) id
    constructor <;> simp only [lastOf_concat, List.flatMap_append, List.flatMap_singleton, OperationCall.errs, List.append_nil, Option.some_or, Option.none_or]
    exacts [.some hn, h.output, h.errors]
  | output s =>
    refine (nameArg_outcome s).bind (fun n hn => .ok ⟨⟨n, hn⟩, ?_⟩) id
    constructor <;> simp only [lastOf_concat, List.flatMap_append, List.flatMap_singleton, OperationCall.errs, List.append_nil, Option.some_or, Option.none_or]
    exacts [h.input, .some hn, h.errors]
  | error s =>
    refine (nameArg_outcome s).bind (fun n hn => .ok ⟨⟨n, hn⟩, ?_⟩) id
    constructor <;> simp only [lastOf_concat, List.flatMap_append, List.flatMap_singleton, OperationCall.errs, List.append_nil, Option.some_or, Option.none_or]
    exacts [h.input, h.output, listRel_concat h.errors hn]
  | errors ss =>
    refine (eachArg_names OperationFields.error (fun f ns => ⟨f.input, f.output, f.errors ++ ns⟩) (fun _ _ => rfl)
      (fun s => by simp) (fun s a b => by simp) ss f).mono ?_ id
    rintro f' ⟨hall, ns, hns, rfl⟩
    refine ⟨hall, ?_⟩
    constructor <;> simp only [lastOf_concat, List.flatMap_append, List.flatMap_singleton, OperationCall.errs, List.append_nil, Option.some_or, Option.none_or]
    exacts [h.input, h.output, listRel_append h.errors hns]

/-- C65: whatever the calls, the builder of an operation has the last input and the last output given, and the errors of all
calls in their order; making it panics exactly when some argument is not a name. -/
theorem C65_operation (cs : List OperationCall) :
    (∀ f, OperationFields.run cs = .ok f → OperationSays cs f) ∧
    ((∃ f, OperationFields.run cs = .ok f) ↔ ∀ c ∈ cs, OperationCall.Ok c) ∧
    (∀ e, OperationFields.run cs = .error e → e = .panic) := by
  have := eachArg_calls (Says := OperationSays) (Ok := OperationCall.Ok) (call := OperationFields.call) (init := ⟨none, none, []⟩)
    ⟨.none, .none, listRel_nil⟩ (fun cs s c h => operation_step cs s c h) cs
  exact this.three

theorem resource_step (cs : List ResourceCall) (f : ResourceFields) (c : ResourceCall) (h : ResourceSays cs f) :
    Outcome (fun f' => ResourceCall.Ok c ∧ ResourceSays (cs ++ [c]) f') (¬ ResourceCall.Ok c) (f.call c) := by
  obtain ⟨h0, h1, h2, h3, h4, h5, h6, h7, h8, h9, h10⟩ := h
  have simple : ∀ (c : ResourceCall) (f' : ResourceFields), f'.identifiers = f.identifiers →
      (match c with | .identifier _ _ => false | _ => true) = true →
      OptRel Names ((match c with | .create s => some s | _ => none : Option Str).or (lastOf (fun | .create s => some s | _ => none) cs)) f'.create →
      OptRel Names ((match c with | .put s => some s | _ => none : Option Str).or (lastOf (fun | .put s => some s | _ => none) cs)) f'.put →
      OptRel Names ((match c with | .read s => some s | _ => none : Option Str).or (lastOf (fun | .read s => some s | _ => none) cs)) f'.read →
      OptRel Names ((match c with | .update s => some s | _ => none : Option Str).or (lastOf (fun | .update s => some s | _ => none) cs)) f'.update →
      OptRel Names ((match c with | .delete s => some s | _ => none : Option Str).or (lastOf (fun | .delete s => some s | _ => none) cs)) f'.delete →
      OptRel Names ((match c with | .list s => some s | _ => none : Option Str).or (lastOf (fun | .list s => some s | _ => none) cs)) f'.list →
      (∃ ns, ListRel Names (ResourceCall.ops c) ns ∧ f'.operations = f.operations ++ ns) →
      (∃ ns, ListRel Names (ResourceCall.cops c) ns ∧ f'.collectionOperations = f.collectionOperations ++ ns) →
      (∃ ns, ListRel Names (ResourceCall.res c) ns ∧ f'.resources = f.resources ++ ns) → ResourceSays (cs ++ [c]) f' := by
    rintro c f' hi hc g2 g3 g4 g5 g6 g7 ⟨n8, g8, e8⟩ ⟨n9, g9, e9⟩ ⟨n10, g10, e10⟩
    constructor
    · rw [hi]; exact h0
    · intro k; rw [hi, lastOf_concat]; cases c <;> first | exact h1 k | cases hc
    · rw [lastOf_concat]; exact g2
    · rw [lastOf_concat]; exact g3
    · rw [lastOf_concat]; exact g4
    · rw [lastOf_concat]; exact g5
    · rw [lastOf_concat]; exact g6
    · rw [lastOf_concat]; exact g7
    · rw [List.flatMap_append, e8, List.flatMap_singleton]; exact listRel_append h8 g8
    · rw [List.flatMap_append, e9, List.flatMap_singleton]; exact listRel_append h9 g9
    · rw [List.flatMap_append, e10, List.flatMap_singleton]; exact listRel_append h10 g10
  have nil : ∀ l : List ShapeName, ∃ ns, ListRel Names [] ns ∧ l = l ++ ns := fun l => ⟨[], listRel_nil, by simp⟩
  have one : ∀ {s n} (l : List ShapeName), Names s n → ∃ ns, ListRel Names [s] ns ∧ l ++ [n] = l ++ ns :=
    fun l hn => ⟨_, listRel_cons.mpr ⟨hn, listRel_nil⟩, rfl⟩
  cases c with
  | identifier n s =>
    refine (identArg_outcome n).bind ?_ fun hb h => hb h.1
    rintro n' ⟨rfl, hn⟩
    refine (nameArg_outcome s).bind (fun t ht => .ok ⟨⟨hn, t, ht⟩, ?_⟩) fun hb h => hb h.2
    refine ⟨AMap.wf_insert h0 _ _, fun k => ?_, ?_, ?_, ?_, ?_, ?_, ?_, ?_, ?_, ?_⟩
    · rw [lastOf_concat, AMap.get_insert]
      by_cases hk : k = n'
      · subst hk; simp only [↓reduceIte, Option.some_or]; exact .some ht
      · have : ¬ n' = k := fun h => hk h.symm
        simp only [hk, this, ↓reduceIte, Option.none_or]; exact h1 k
    all_goals simp only [lastOf_concat, List.flatMap_append, List.flatMap_singleton, ResourceCall.ops, ResourceCall.cops, ResourceCall.res, List.append_nil, Option.none_or]
    all_goals assumption
  | create s => exact (nameArg_outcome s).bind (fun n hn => .ok ⟨⟨n, hn⟩, simple _ _ rfl rfl (.some hn) h3 h4 h5 h6 h7 (nil _) (nil _) (nil _)⟩) id
  | put s => exact (nameArg_outcome s).bind (fun n hn => .ok ⟨⟨n, hn⟩, simple _ _ rfl rfl h2 (.some hn) h4 h5 h6 h7 (nil _) (nil _) (nil _)⟩) id
  | read s => exact (nameArg_outcome s).bind (fun n hn => .ok ⟨⟨n, hn⟩, simple _ _ rfl rfl h2 h3 (.some hn) h5 h6 h7 (nil _) (nil _) (nil _)⟩) id
  | update s => exact (nameArg_outcome s).bind (fun n hn => .ok ⟨⟨n, hn⟩, simple _ _ rfl rfl h2 h3 h4 (.some hn) h6 h7 (nil _) (nil _) (nil _)⟩) id
  | delete s => exact (nameArg_outcome s).bind (fun n hn => .ok ⟨⟨n, hn⟩, simple _ _ rfl rfl h2 h3 h4 h5 (.some hn) h7 (nil _) (nil _) (nil _)⟩) id
  | list s => exact (nameArg_outcome s).bind (fun n hn => .ok ⟨⟨n, hn⟩, simple _ _ rfl rfl h2 h3 h4 h5 h6 (.some hn) (nil _) (nil _) (nil _)⟩) id
  | operation s => exact (nameArg_outcome s).bind (fun n hn => .ok ⟨⟨n, hn⟩, simple _ _ rfl rfl h2 h3 h4 h5 h6 h7 (one _ hn) (nil _) (nil _)⟩) id
  | collectionOperation s => exact (nameArg_outcome s).bind (fun n hn => .ok ⟨⟨n, hn⟩, simple _ _ rfl rfl h2 h3 h4 h5 h6 h7 (nil _) (one _ hn) (nil _)⟩) id
  | resource s => exact (nameArg_outcome s).bind (fun n hn => .ok ⟨⟨n, hn⟩, simple _ _ rfl rfl h2 h3 h4 h5 h6 h7 (nil _) (nil _) (one _ hn)⟩) id
  | operations ss =>
    refine (eachArg_names ResourceFields.operation (fun f ns => { f with operations := f.operations ++ ns }) (fun _ _ => rfl)
      (fun s => by simp) (fun s a b => by simp) ss f).mono ?_ id
    rintro f' ⟨hall, ns, hns, rfl⟩
    exact ⟨hall, simple _ _ rfl rfl h2 h3 h4 h5 h6 h7 ⟨ns, hns, rfl⟩ (nil _) (nil _)⟩
  | collectionOperations ss =>
    refine (eachArg_names ResourceFields.collectionOperation (fun f ns => { f with collectionOperations := f.collectionOperations ++ ns }) (fun _ _ => rfl)
      (fun s => by simp) (fun s a b => by simp) ss f).mono ?_ id
    rintro f' ⟨hall, ns, hns, rfl⟩
    exact ⟨hall, simple _ _ rfl rfl h2 h3 h4 h5 h6 h7 (nil _) ⟨ns, hns, rfl⟩ (nil _)⟩
  | resources ss =>
    refine (eachArg_names ResourceFields.resource (fun f ns => { f with resources := f.resources ++ ns }) (fun _ _ => rfl)
      (fun s => by simp) (fun s a b => by simp) ss f).mono ?_ id
    rintro f' ⟨hall, ns, hns, rfl⟩
    exact ⟨hall, simple _ _ rfl rfl h2 h3 h4 h5 h6 h7 (nil _) (nil _) ⟨ns, hns, rfl⟩⟩

/-- C65: whatever the calls, the builder of a resource has the last operation given for each lifecycle, for each identifier
the last target, and the operations, collection operations and resources of all calls in their order; making it panics
exactly when some argument is not a name. -/
theorem C65_resource (cs : List ResourceCall) :
    (∀ f, ResourceFields.run cs = .ok f → ResourceSays cs f) ∧
    ((∃ f, ResourceFields.run cs = .ok f) ↔ ∀ c ∈ cs, ResourceCall.Ok c) ∧
    (∀ e, ResourceFields.run cs = .error e → e = .panic) := by
  have := eachArg_calls (Says := ResourceSays) (Ok := ResourceCall.Ok) (call := ResourceFields.call)
    (init := ⟨[], none, none, none, none, none, none, [], [], []⟩)
    ⟨AMap.wf_nil, fun _ => .none, .none, .none, .none, .none, .none, .none, listRel_nil, listRel_nil, listRel_nil⟩ (fun cs s c h => resource_step cs s c h) cs
  exact this.three

theorem preludeName_ident (k : Simple) : IsIdentifier k.preludeName := by
  rw [← isIdent_iff]; cases k <;> rfl

theorem preludeName_name (k : Simple) (n : ShapeName) : Names k.preludeName n ↔ n = .local' k.preludeName := by
  rw [← names_iff]
  have : ShapeName.fromStr k.preludeName = .ok (.local' k.preludeName) := by cases k <;> rfl
  rw [this]
  exact ⟨fun h => by cases h; rfl, fun h => by rw [h]⟩

theorem memberNew_outcome (n t : Str) :
    Outcome (fun m => IsIdentifier n ∧ ∃ tn, Names t tn ∧ m = ⟨n, [], tn⟩) (¬ (IsIdentifier n ∧ Nameable t)) (MemberBuilder.new n t) := by
  unfold MemberBuilder.new
  refine (identArg_outcome n).bind ?_ fun hb h => hb h.1
  rintro n' ⟨rfl, hn⟩
  exact (nameArg_outcome t).bind (fun tn ht => .ok ⟨hn, tn, ht, rfl⟩) fun hb h => hb h.2

/-- C65: whatever the calls, the builder of a structure or a union has the members of all calls in their order; making it
panics exactly when some argument is not a name. -/
theorem C65_structure (cs : List StructCall) :
    (∀ ms, StructureBuilder.members cs = .ok ms → ListRel Adds cs ms) ∧
    ((∃ ms, StructureBuilder.members cs = .ok ms) ↔ ∀ c ∈ cs, ∃ m, Adds c m) ∧
    (∀ e, StructureBuilder.members cs = .error e → e = .panic) := by
  have := eachArg_calls (Says := ListRel Adds) (Ok := fun c => ∃ m, Adds c m) (call := StructureBuilder.call) (init := []) listRel_nil (by
    intro cs ms c h
    cases c with
    | addMember m => exact .ok ⟨⟨m, .addMember⟩, listRel_concat h .addMember⟩
    | member n t =>
      refine (memberNew_outcome n t).bind ?_ fun hb h => hb ?_
      · rintro m ⟨hn, tn, ht, rfl⟩
        exact .ok ⟨⟨_, .member hn ht⟩, listRel_concat h (.member hn ht)⟩
      · obtain ⟨m, hm⟩ := h; cases hm with | member hn ht => exact ⟨hn, _, ht⟩
    | simple k n =>
      refine (memberNew_outcome n k.preludeName).bind ?_ fun hb h => hb ?_
      · rintro m ⟨hn, tn, ht, rfl⟩
        rw [(preludeName_name k tn).mp ht]
        exact .ok ⟨⟨_, .simple hn⟩, listRel_concat h (.simple hn)⟩
      · obtain ⟨m, hm⟩ := h; cases hm with | simple hn => exact ⟨hn, _, (preludeName_name k _).mpr rfl⟩) cs
  exact this.three

/-! ### Examples -/

/-- The hypotheses of `C65_service` are met: the last version counts. -/
example : ∃ f, ServiceFields.run (%s"1") [.operation (%s"Get"), .version (%s"2"), .resources [%s"a.b#R", %s"S"], .rename (%s"a.b#R") (%s"X"),
    .rename (%s"a.b#R") (%s"Y")] = .ok f ∧ f.version = %s"2" ∧ f.operations = [.local' (%s"Get")] ∧
    f.resources = [.qualified ⟨%s"a.b", %s"R", none⟩, .local' (%s"S")] ∧ f.renames = [(⟨%s"a.b", %s"R", none⟩, %s"Y")] := ⟨_, rfl, rfl, rfl, rfl, rfl⟩

/-- `C65_operation`: the last input counts, all errors are kept. -/
example : ∃ f, OperationFields.run [.input (%s"A"), .error (%s"E"), .input (%s"B"), .errors [%s"F", %s"G"]] = .ok f ∧
    f.input = some (.local' (%s"B")) ∧ f.output = none ∧ f.errors = [.local' (%s"E"), .local' (%s"F"), .local' (%s"G")] := ⟨_, rfl, rfl, rfl, rfl⟩

/-- `C65_operation`: a text that is not a name panics. -/
example : OperationFields.run [.input (%s"not a name")] = .error .panic := rfl

/-- `C65_resource`. -/
example : ∃ f, ResourceFields.run [.identifier (%s"id") (%s"String"), .create (%s"C"), .identifier (%s"id") (%s"Integer"), .collectionOperation (%s"O")] = .ok f ∧
    f.identifiers = [(%s"id", .local' (%s"Integer"))] ∧ f.create = some (.local' (%s"C")) ∧ f.collectionOperations = [.local' (%s"O")] ∧
    f.operations = [] := ⟨_, rfl, rfl, rfl, rfl, rfl⟩

/-- `C65_structure`. -/
example : ∃ a b, StructureBuilder.members [.simple .string (%s"a"), .member (%s"b") (%s"x.y#Z")] = .ok [a, b] ∧
    a.target = .local' (%s"String") ∧ b.target = .qualified ⟨%s"x.y", %s"Z", none⟩ := ⟨_, _, rfl, rfl, rfl⟩

end Verif
