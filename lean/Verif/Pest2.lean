import Verif.MetaExpr
import Verif.Peg

/-!
# Model of pest 2, the recogniser of the meta-grammar

External code (crate `pest` 2.8 with `pest_derive`), modelled after its documentation: parsing expressions over the rules of the
meta-grammar, implicit whitespace and comments, the four kinds of rules, and the pairs that come out.  A `Cfg` is what was
consumed, what is ahead, and the stack.  After a failure everything, including the stack, is as before.  The optimiser of pest 2 is taken to
preserve the meaning.
-/

namespace Pest3.Gen
open Pest3
open Pest3.Meta (MetaRule)

/-- Parsing expressions. -/
inductive PE where
  | str (s : Text)
  | range (a b : Char)
  | any
  | soi
  | eoi
  | ref (r : MetaRule)
  | seq (e f : PE)
  | choice (e f : PE)
  | opt (e : PE)
  | rep (e : PE)
  | pos (e : PE)
  | neg (e : PE)
  | push (e : PE)
  | peek
  | pop
  /-- the implicit rule between the parts of a sequence -/
  | skip
  /-- the rest of a repetition: `(skip ~ e)*` -/
  | more (e : PE)
deriving DecidableEq, Repr

/-- Kinds of rules: `{ }`, `_{ }`, `@{ }`, `${ }`. -/
inductive RKind where
  | normal | silent | atomic | compound
deriving DecidableEq, Repr

/-- Whether whitespace is skipped, and whether pairs are made, below. -/
inductive Mode where
  | nonAtomic | compoundAtomic | atomic
deriving DecidableEq, Repr

/-- The mode inside a rule. -/
def RKind.inside : RKind → Mode → Mode
  | .normal, m => m
  | .silent, m => m
  | .atomic, _ => .atomic
  | .compound, _ => .compoundAtomic

/-- Whether a rule called in mode `m` makes a pair.  `@{ }` rules make their own pair in the mode of the caller. -/
def RKind.token : RKind → Mode → Bool
  | .normal, m => m != .atomic
  | .silent, _ => false
  | .atomic, m => m != .atomic
  | .compound, _ => true

/-- A grammar of pest 2.  `WHITESPACE` and `COMMENT` are atomic whatever their kind; that is said by running `skip` in atomic mode. -/
abbrev Gram := MetaRule → RKind × PE

/-- What is done between the parts of a sequence in non-atomic mode. -/
def skipBody : PE :=
  .seq (.rep (.ref .whitespace)) (.rep (.seq (.ref .comment) (.rep (.ref .whitespace))))

/-- Consume the text `s`. -/
def eat (s : Text) (c : Cfg) : Option Cfg :=
  if s.isPrefixOf c.suf then some ⟨c.pre ++ s, c.suf.drop s.length, c.stk⟩ else none

/-- Consume a character. -/
def eatIf (p : Char → Bool) (c : Cfg) : Option Cfg :=
  match c.suf with
  | x :: rest => if p x then some ⟨c.pre ++ [x], rest, c.stk⟩ else none
  | [] => none

/-- The text consumed between two configurations. -/
def between (c c' : Cfg) : Text := c'.pre.drop c.pre.length

/-- The pairs of a rule. -/
def wrap (k : RKind) (m : Mode) (r : MetaRule) (c c' : Cfg) (ts : List PTree) : List PTree :=
  if k.token m then [.node r (between c c') ts] else ts

/-- The recogniser; `.ok none` is that the expression does not match.  `PEEK` and `POP` on an empty stack, on which pest 2 panics, do not
match; the meta-grammar has pushed before (`grammar.pest:87-88`). -/
def recog (g : Gram) : Nat → Mode → PE → Cfg → Res (Option (Cfg × List PTree))
  | 0, _, _, _ => .oof
  | fuel + 1, m, e, c => match e with
    | .str s => .ok ((eat s c).map (·, []))
    | .range a b => .ok ((eatIf (fun x => a ≤ x && x ≤ b) c).map (·, []))
    | .any => .ok ((eatIf (fun _ => true) c).map (·, []))
    | .soi => .ok (if c.pre = [] then some (c, []) else none)
    | .eoi => .ok (if c.suf = [] then some (c, []) else none)
    | .ref r =>
      tryThen (recog g fuel ((g r).1.inside m) (g r).2 c) fun x => .ok (some (x.1, wrap (g r).1 m r c x.1 x.2))
    | .seq e f =>
      tryThen (recog g fuel m e c) fun x => tryThen (recog g fuel m .skip x.1) fun y =>
        tryThen (recog g fuel m f y.1) fun z => .ok (some (z.1, x.2 ++ z.2))
    | .choice e f =>
      andThen (recog g fuel m e c) fun
        | some x => .ok (some x)
        | none => recog g fuel m f c
    | .opt e =>
      andThen (recog g fuel m e c) fun
        | some x => .ok (some x)
        | none => .ok (some (c, []))
    | .rep e =>
      andThen (recog g fuel m e c) fun
        | some x => tryThen (recog g fuel m (.more e) x.1) fun y => .ok (some (y.1, x.2 ++ y.2))
        | none => .ok (some (c, []))
    | .more e =>
      tryThen (recog g fuel m .skip c) fun s =>
        andThen (recog g fuel m e s.1) fun
          | some x => tryThen (recog g fuel m (.more e) x.1) fun y => .ok (some (y.1, x.2 ++ y.2))
          | none => .ok (some (c, []))
    | .pos e => tryThen (recog g fuel m e c) fun _ => .ok (some (c, []))
    | .neg e =>
      andThen (recog g fuel m e c) fun
        | some _ => .ok none
        | none => .ok (some (c, []))
    | .push e =>
      tryThen (recog g fuel m e c) fun x => .ok (some ({ x.1 with stk := x.1.stk ++ [between c x.1] }, x.2))
    | .peek => match c.stk.getLast? with
      | some s => .ok ((eat s c).map (·, []))
      | none => .ok none
    | .pop => match c.stk.getLast? with
      | some s => .ok ((eat s c).map fun c' => ({ c' with stk := c'.stk.dropLast }, []))
      | none => .ok none
    | .skip => match m with
      | .nonAtomic => tryThen (recog g fuel .atomic skipBody c) fun x => .ok (some (x.1, []))
      | _ => .ok (some (c, []))

end Pest3.Gen
