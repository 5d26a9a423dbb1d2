import Verif.Loader

/-!
# Specification of loading grammar files, without a cache
-/

namespace Pest3.Load
open Pest3 Pest3.Gen

/-- The file `root` with the given text imports the file `p`. -/
def ImportsFile (w : World) (root : FPath) (text : Text) (p : FPath) : Prop :=
  ∃ items i, w.parse text = some items ∧ .imp i ∈ items ∧ i.isBuiltin = false ∧ i.target root = some p

/-- … directly or through other files. -/
inductive Reaches (w : World) : FPath → Text → FPath → Prop
  | direct {root text p} : ImportsFile w root text p → Reaches w root text p
  | step {root text q t p} : ImportsFile w root text q → w.read q = some t → Reaches w q t p → Reaches w root text p

/-- `q` imports `p`. -/
def Above (w : World) (p q : FPath) : Prop := ∃ t, w.read q = some t ∧ ImportsFile w q t p

/-- The text is a grammar whose items can be understood, and whose imports name a file. -/
def TextOk (w : World) (root : FPath) (text : Text) : Prop :=
  ∃ items, w.parse text = some items ∧ .invalid ∉ items ∧ .panics ∉ items ∧
    ∀ i, .imp i ∈ items → i.name ≠ none ∧ (i.isBuiltin = false → i.target root ≠ none)

/-- All the files needed can be read and are grammars. -/
def AllOk (w : World) (root : FPath) (text : Text) : Prop :=
  TextOk w root text ∧ ∀ p, Reaches w root text p → ∃ t, w.read p = some t ∧ TextOk w p t

/-- The grammar of a file, or the rules and imports of items of the file. -/
inductive LdItem where
  | file (root : FPath) (text : Text) (m : Module)
  | items (root : FPath) (l : List FileItem) (rules : List Rule) (imports : List Import)

/-- The module a file stands for: its rules in order and its imports in order, each standing for its module. -/
inductive Loads (w : World) : LdItem → Prop
  | file {root text l rules imports} : w.parse text = some l → Loads w (.items root l rules imports) →
      Loads w (.file root text (.mk rules imports))
  | nil {root} : Loads w (.items root [] [] [])
  | doc {root l rules imports} : Loads w (.items root l rules imports) → Loads w (.items root (.doc :: l) rules imports)
  | rule {root r l rules imports} : Loads w (.items root l rules imports) →
      Loads w (.items root (.rule r :: l) (r :: rules) imports)
  | builtin {root i x l rules imports} : i.name = some x → i.isBuiltin = true →
      Loads w (.items root l rules imports) →
      Loads w (.items root (.imp i :: l) rules (.builtin x i.modPath :: imports))
  | file_ {root i x p t m l rules imports} : i.name = some x → i.isBuiltin = false →
      i.target root = some p → w.read p = some t → Loads w (.file p t m) → Loads w (.items root l rules imports) →
      Loads w (.items root (.imp i :: l) rules (.file x m :: imports))

end Pest3.Load
