import Verif.Stack
import Verif.Tracker

/-!
# Node types

In the library every grammar expression is a Rust *type* implementing `TypedNode`; here every such type
is a value of `Node`.  A generated rule struct is referred to by an identifier (`Node.rule`) and
described by a `RuleDef`; each monomorphic instance of a generic rule is its own identifier.
-/

namespace Pest3

/-- Node types without component types. -/
inductive Leaf where
  /-- `Str<T>`: `template/mod.rs:30-71` -/
  | str (content : Text)
  /-- `Insens<T>`: `template/mod.rs:81-134` -/
  | insens (content : Text)
  /-- `SkipChar<N>`: `template/mod.rs:137-178` -/
  | skipChar (n : Nat)
  /-- `CharRange<MIN, MAX>`: `template/mod.rs:182-225` -/
  | range (lo hi : Char)
  /-- `Char<CHAR>`: `template/mod.rs:228-261` -/
  | chr (c : Char)
  /-- Unicode property types: macro `unicode!`, `core/src/lib.rs:32-69`.  The property table
  (`pest2::unicode`) is an arbitrary predicate. -/
  | prop (p : Char → Bool)
  /-- `any`: `template/mod.rs:463-498` -/
  | any
  /-- `NONE`: `template/mod.rs:502-521` -/
  | none
  /-- `Empty`: `template/mod.rs:525-552` -/
  | empty
  /-- `soi`: `template/mod.rs:557-584` -/
  | soi
  /-- `eoi`: `template/mod.rs:591-618` -/
  | eoi
  /-- `newline`: `template/mod.rs:633-675` -/
  | newline
  /-- `peek_all`: `template/mod.rs:680-712` -/
  | peekAll
  /-- `peek`: `template/mod.rs:718-769` -/
  | peek
  /-- `drop`: `template/mod.rs:776-807` -/
  | drop
  /-- `pop`: `template/mod.rs:812-863` -/
  | pop
  /-- `pop_all`: `template/mod.rs:868-904` -/
  | popAll
  /-- `PeekSlice2<START, END>`: `template/mod.rs:969-994` -/
  | slice2 (start stop : Int)
  /-- `PeekSlice1<START>`: `template/mod.rs:998-1021` -/
  | slice1 (start : Int)

/-- Identifier of a (monomorphic) rule struct. -/
abbrev RuleId := Nat

/-- Node types. -/
inductive Node where
  | leaf (l : Leaf)
  /-- `Positive<T>`: `template/mod.rs:334-396` -/
  | positive (n : Node)
  /-- `Negative<T>`: `template/mod.rs:402-459` -/
  | negative (n : Node)
  /-- `push<T>`: `template/mod.rs:909-965` -/
  | push (n : Node)
  /-- `Option<T>`: `traits.rs:222-259` -/
  | opt (n : Node)
  /-- `RepMinMax<T, TRIVIA, MIN, MAX>`: `template/repetition.rs:41-212` -/
  | rep (n trivia : Node) (min max : Nat)
  /-- `SequenceN<T0, TR0, T1, TR1, ...>`: `sequence.rs:14-100`; pairs (trivia, field) -/
  | seq (fields : List (Node × Node))
  /-- `ChoiceN<T0, T1, ...>`: `choice.rs:14-101` -/
  | choice (alts : List Node)
  /-- a generated rule struct: `traits.rs:132-168`, `generator/src/typed/generator.rs:150-281` -/
  | rule (id : RuleId)

/-- What the generator emits for a rule (`generator/src/typed/generator.rs:150-281`): the variant of
`Rule`, whether the rule is silent, and the inner type.  Boxing of the content (`content.into()`,
`traits.rs:145`) does not change behaviour and is not modelled here. -/
structure RuleDef where
  label : Label
  silent : Bool
  body : Node

/-- The rule structs of a generated parser. -/
abbrev Env := RuleId → RuleDef

/-- `usize::MAX` on a 64-bit target, the `MAX` of `RepMin` (`template/repetition.rs:215`). -/
def usizeMax : Nat := 18446744073709551615

/-- `NewLineType` (`template/mod.rs:622-629`). -/
inductive NewLineType where
  | crlf | lf | cr
deriving DecidableEq, Repr

/-- The fields of leaf structs. -/
inductive LeafVal where
  | unit
  | content (s : Text)
  | chr (c : Char)
  | span (s : Span)
  | nl (t : NewLineType)
deriving DecidableEq, Repr

/-- Values of node types: the typed syntax tree. -/
inductive Tree where
  | leaf (v : LeafVal)
  | positive (content : Tree)
  | negative
  | push (content : Tree)
  | optNone
  | optSome (t : Tree)
  | rep (content : List Tree)
  | seq (fields : List Tree)
  | choice (i : Nat) (t : Tree)
  | rule (id : RuleId) (content : Tree) (span : Span)

/-- Every leaf of the node satisfies `L`. -/
inductive Node.All (L : Leaf → Prop) : Node → Prop
  | leaf {l} : L l → Node.All L (.leaf l)
  | positive {n} : Node.All L n → Node.All L (.positive n)
  | negative {n} : Node.All L n → Node.All L (.negative n)
  | push {n} : Node.All L n → Node.All L (.push n)
  | opt {n} : Node.All L n → Node.All L (.opt n)
  | rep {n tr min max} : Node.All L n → Node.All L tr → Node.All L (.rep n tr min max)
  | seq {fs} : (∀ f ∈ fs, Node.All L f.1) → (∀ f ∈ fs, Node.All L f.2) → Node.All L (.seq fs)
  | choice {alts} : (∀ a ∈ alts, Node.All L a) → Node.All L (.choice alts)
  | rule {id} : Node.All L (.rule id)

end Pest3
