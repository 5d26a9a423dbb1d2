import Verif.Derive
import Verif.LoaderSpec

/-!
# Specification of the derive macro
-/

namespace Pest3.Load
open Pest3 Pest3.Gen

/-- A flag that is set or not set. -/
inductive IsFlag : AttrMeta → Bool → Prop where
  | plain : IsFlag .path true
  | value (b : Bool) : IsFlag (.bool b) b

/-- The attribute is written as it has to be. -/
structure Understood (ident : Text → Bool) (a : Attr) : Prop where
  text : ∀ x ∈ ["grammar".toList, "grammar_inline".toList], a.name = some x → ∃ s, a.arg = .str s
  flag : ∀ x ∈ ["no_pair".toList, "no_span".toList, "no_warnings".toList, "box_all_rules".toList], a.name = some x →
    ∃ b, IsFlag a.arg b
  rulesMod : a.name = some "rules_mod".toList → ∃ s, a.arg = .str s ∧ s ≠ [] ∧ ident s = true

/-- The grammar in an attribute. -/
def sourceOf (a : Attr) : Option Source :=
  match a.arg with
  | .str s =>
    if a.name = some "grammar".toList then some (.file s)
    else if a.name = some "grammar_inline".toList then some (.inline s) else none
  | _ => none

/-- The argument of the last attribute of that name. -/
def lastArg (x : Name) (l : List Attr) : Option AttrMeta := (l.reverse.find? fun a => a.name = some x).map Attr.arg

/-- The flag is set: the last attribute of that name says so. -/
def IsSet (x : Name) (l : List Attr) : Prop := ∃ m, lastArg x l = some m ∧ IsFlag m true

/-- The text of a source, and the path from which imports are looked up. -/
inductive Given (env : Setting) : Source → FPath → Text → Prop where
  | file {p t} : (env.locate p).fileName ≠ none → env.world.read (env.locate p) = some t →
      Given env (.file p) ((env.locate p).push "_.rs".toList) t
  | inline {t} : Given env (.inline t) (env.root.push "_.rs".toList) t

/-- The modules of the sources, one by one. -/
inductive Modules (env : Setting) : List Source → List Module → Prop where
  | nil : Modules env [] []
  | cons {s root t m l ms} : Given env s root t → Loads env.world (.file root t m) → Modules env l ms → Modules env (s :: l) (m :: ms)

/-- The rules and imports of all. -/
def united (ms : List Module) : Module := .mk (ms.flatMap Module.rules) (ms.flatMap Module.imports)

/-- The grammar of the source and all that it imports are in order, and no file imports itself. -/
def Available (env : Setting) (s : Source) : Prop :=
  ∃ root t, Given env s root t ∧ AllOk env.world root t ∧ ∀ p, ImportsFile env.world root t p → Acc (Above env.world) p

/-- The files that the grammar is read from. -/
def Needed (env : Setting) (l : List Source) (p : FPath) : Prop :=
  (∃ q, .file q ∈ l ∧ p = env.locate q) ∨ ∃ s ∈ l, ∃ root t, Given env s root t ∧ Reaches env.world root t p

end Pest3.Load
