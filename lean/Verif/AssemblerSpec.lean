/-
What the file type registry and the assembler must do.
-/
import Verif.Assembler
import Verif.ModelSpec
import Mathlib.Data.List.Forall2

namespace Verif.Spec
variable {C : Type}

/-! ### Registry histories -/

/-- The operations that change a registry. -/
inductive RegOp (C : Type) where
  | register (ft : FileType C) (ext : Str)
  | registerAll (ft : FileType C) (exts : List Str)
  | remove (ext : Str)

/-- Carrying out an operation. -/
def RegOp.run (r : Registry C) : RegOp C → Registry C
  | .register ft e => r.register ft e
  | .registerAll ft es => r.registerAll ft es
  | .remove e => r.remove e

/-- The operation is about the extension, ignoring case. -/
def RegOp.About (ext : Str) : RegOp C → Prop
  | .register _ e => lower e = lower ext
  | .registerAll _ es => ∃ e ∈ es, lower e = lower ext
  | .remove e => lower e = lower ext

/-- The operation registers a file type. -/
def RegOp.Registers (ft : FileType C) : RegOp C → Prop
  | .register ft' _ => ft' = ft
  | .registerAll ft' _ => ft' = ft
  | .remove _ => False

/-- The operation registers the MIME type, ignoring case (`register_all` does not, and `remove` does not undo it). -/
def RegOp.Mime (mt : Str) (ft : FileType C) : RegOp C → Prop
  | .register ft' _ => ft' = ft ∧ ∃ t, ft.mimeType = some t ∧ lower t = lower mt
  | _ => False

/-! ### Assembly -/

/-- `c` is what is in the file found at path `q` at or below the node at path `p`. -/
inductive Under : Node C → Path → Path → Option C → Prop
  | here {p c} : Under (.file c) p p c
  | inside {p q c es n x} : (n, x) ∈ es → Under x (p ++ [n]) q c → Under (.dir (some es)) p q c

/-- There is a directory at or below the node that cannot be listed. -/
inductive Unlistable : Node C → Prop
  | here : Unlistable (.dir none)
  | inside {es n x} : (n, x) ∈ es → Unlistable x → Unlistable (.dir (some es))

/-- No directory has two entries of the same name. -/
inductive Proper : Node C → Prop
  | file {c} : Proper (.file c)
  | other : Proper .other
  | unlistable : Proper (.dir none)
  | dir {es : List (Str × Node C)} : (es.map (·.1)).Nodup → (∀ e ∈ es, Proper e.2) → Proper (.dir (some es))

/-- The extension of a file name: what follows its last dot, if something precedes that dot. -/
def HasExtension (name ext : Str) : Prop := ∃ stem, stem ≠ [] ∧ name = stem ++ '.' :: ext ∧ '.' ∉ ext

/-- The file type for a path: that of the extension of its last component. -/
def TypeOf (r : Registry C) (q : Path) (ft : FileType C) : Prop :=
  ∃ init name ext, q = init ++ [name] ∧ HasExtension name ext ∧ r.get ext = some ft

/-- Reading a file: its type's reader gives the result; a file that cannot be opened is a panic. -/
def ReadsAs (r : Registry C) (f : Path × Option C) (res : Except Err Model) : Prop :=
  ∃ ft, TypeOf r f.1 ft ∧ ((∃ c, f.2 = some c ∧ res = ft.reader c) ∨ (f.2 = none ∧ res = .error .panic))

/-- Merging models one after the other into the first argument. -/
inductive MergesTo : Model → List Model → Model → Prop
  | done {m} : MergesTo m [] m
  | step {m x m' xs r} : m.merge x = (m', .ok ()) → MergesTo m' xs r → MergesTo m (x :: xs) r

/-- The merge of one of the models is the first to fail, with this error. -/
inductive MergeFails : Model → List Model → Err → Prop
  | here {m x m' xs e} : m.merge x = (m', .error e) → MergeFails m (x :: xs) e
  | later {m x m' xs e} : m.merge x = (m', .ok ()) → MergeFails m' xs e → MergeFails m (x :: xs) e

/-- Every file is read successfully. -/
def AllRead (r : Registry C) (files : List (Path × Option C)) (models : List Model) : Prop :=
  List.Forall₂ (fun f m => ReadsAs r f (.ok m)) files models

/-- The first file that cannot be read. -/
def FirstUnread (r : Registry C) (files : List (Path × Option C)) (e : Err) : Prop :=
  ∃ before f after, files = before ++ f :: after ∧ (∃ ms, AllRead r before ms) ∧ ReadsAs r f (.error e)

end Verif.Spec
