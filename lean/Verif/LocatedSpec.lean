import Verif.Located
import Verif.DocSpec

/-!
# Specification: where expressions stand, and which errors there are

In terms of the characters of a text: neither the meta-grammar nor pairs of tokens occur here.  Positions are in bytes.  `Reading inp i j r`: what stands
from `i` to `j` in the text `inp` is notation for `r`, an expression with the spans of its parts, or the error for the first literal that
stands for nothing.
-/

namespace Pest3.Load
open Pest3 Pest3.Gen
open Pest3.Meta (Denotes charText decimal MetaRange)

/-- The text `t` stands from `i` to `j`. -/
def Stands (inp : Text) (i : Nat) (t : Text) (j : Nat) : Prop := ∃ a b, inp = a ++ (t ++ b) ∧ i = utf8Len a ∧ j = utf8Len a + utf8Len t

/-- Between `i` and `j` there are only blanks and comments. -/
def Blanks (inp : Text) (i j : Nat) : Prop := ∃ g, Stands inp i g j ∧ Space g

/-- As `Blanks`; the last line of the text may be a comment. -/
def LastBlanks (inp : Text) (i j : Nat) : Prop := Blanks inp i j ∨ ∃ g, Stands inp i g j ∧ LastSpace g ∧ j = utf8Len inp

/-- Between `i` and `j` there are all the blanks and comments after `i`. -/
structure Trails (inp : Text) (i j : Nat) : Prop where
  blanks : LastBlanks inp i j
  all : ∀ g k, Gap g → Stands inp j g k → k = j

/-! ## Tokens -/

/-- Identifiers joined by `::`. -/
inductive PathAt (inp : Text) : List Name → Nat → Nat → Prop where
  | one {x i j} : IsIdent x → Stands inp i x j → PathAt inp [x] i j
  | cons {x q i j k l m n} : IsIdent x → Stands inp i x j → Blanks inp j k → Stands inp k [':', ':'] l → Blanks inp l m → PathAt inp q m n →
      PathAt inp (x :: q) i n

/-- A number that may be missing, with what is around it. -/
inductive MaybeAt {α : Type} (inp : Text) (text : α → Text) : Option (α × Loc) → Nat → Nat → Prop where
  | none {i j} : Blanks inp i j → MaybeAt inp text none i j
  | some {x i j k l} : Blanks inp i j → Stands inp j (text x) k → Blanks inp k l → MaybeAt inp text (some (x, ⟨j, k⟩)) i l

/-- The bar of choices; what stands before it means nothing. -/
inductive BarAt (inp : Text) : Nat → Nat → Prop where
  | bar {i j} : Stands inp i ['|'] j → BarAt inp i j
  | trivia {x i j k l} : x = '~' ∨ x = '^' → Stands inp i [x] j → Blanks inp j k → Stands inp k ['|'] l → BarAt inp i l

/-! ## Errors -/

def badString : Text := "incorrect string literal".toList
def badChar : Text := "incorrect char literal".toList
def badNumber : Text := "number cannot overflow 8 bytes".toList
def badImport : Text := "invalid string literal".toList
def zeroTimes : Text := "cannot repeat 0 times".toList
def void (a b : Nat) : Text := "repetition range void (".toList ++ (decimal a ++ (" > ".toList ++ (decimal b ++ ")".toList)))

/-- A value, or the error if there is none. -/
def orElse {α : Type} (o : Option α) (message : Text) (l : Loc) : Except LErr α :=
  match o with
  | some a => .ok a
  | none => .error ⟨message, l⟩

/-- A bound of a repetition. -/
def natAt (x : Nat × Loc) : Except LErr Nat := if x.1 < 2 ^ 64 then .ok x.1 else .error ⟨badNumber, x.2⟩

/-- A bound of a slice. -/
def intAt (x : IntLit × Loc) : Except LErr Int := if -2 ^ 63 ≤ x.1.value ∧ x.1.value < 2 ^ 63 then .ok x.1.value else .error ⟨badNumber, x.2⟩

/-- If there is a number. -/
def maybe {α β : Type} (f : α → Except LErr β) : Option α → Except LErr (Option β)
  | none => .ok none
  | some a => match f a with
    | .ok b => .ok (some b)
    | .error e => .error e

/-- Both, or the first error. -/
def both {α β γ : Type} (f : α → β → γ) : Except LErr α → Except LErr β → Except LErr γ
  | .error e, _ => .error e
  | .ok _, .error e => .error e
  | .ok a, .ok b => .ok (f a b)

/-- The bounds of a repetition; `l` is what stands between the braces. -/
def checkBounds (l : Loc) (r : MetaRange Nat) : Except LErr (MetaRange Nat) :=
  match r.start, r.stop with
  | some a, some b => if b < a then .error ⟨void a b, l⟩ else if b = 0 then .error ⟨zeroTimes, l⟩ else .ok r
  | none, some b => if b = 0 then .error ⟨zeroTimes, l⟩ else .ok r
  | _, none => .ok r

/-- The bounds of a repetition with their places. -/
def boundsAt (a b : Option (Nat × Loc)) (l : Loc) : Except LErr (MetaRange Nat) :=
  match both MetaRange.mk (maybe natAt a) (maybe natAt b) with
  | .ok r => checkBounds l r
  | .error e => .error e

/-! ## Expressions -/

/-- Ways to repeat. -/
inductive Repeat where
  | opt | star | plus
  | range (r : MetaRange Nat)

/-- The expression with its span. -/
def Repeat.apply : Repeat → SExpr → Loc → SExpr
  | .opt, e, l => .opt e l
  | .star, e, l => .rep e l
  | .plus, e, l => .repOnce e l
  | .range r, e, l => .repRange e r l

/-- The operators of repetitions. -/
inductive RepeatAt (inp : Text) : Nat → Nat → Except LErr Repeat → Prop where
  | opt {i j} : Stands inp i ['?'] j → RepeatAt inp i j (.ok .opt)
  | star {i j} : Stands inp i ['*'] j → RepeatAt inp i j (.ok .star)
  | plus {i j} : Stands inp i ['+'] j → RepeatAt inp i j (.ok .plus)
  | exact {x i j k l m n} : Stands inp i ['{'] j → Blanks inp j k → Stands inp k (decimal x) l → Blanks inp l m → Stands inp m ['}'] n →
      RepeatAt inp i n ((boundsAt (some (x, ⟨k, l⟩)) (some (x, ⟨k, l⟩)) ⟨k, l⟩).map .range)
  | bounds {a b i j k l m n} : Stands inp i ['{'] j → MaybeAt inp decimal a j k → Stands inp k ['.', '.'] l → MaybeAt inp decimal b l m →
      Stands inp m ['}'] n →
      RepeatAt inp i n ((boundsAt a b ⟨(a.map fun x => x.2.start).getD k, (b.map fun x => x.2.stop).getD l⟩).map .range)

/-- A repetition from the beginning of the child to `stop`. -/
def repeated (stop : Nat) (e : SExpr) (o : Repeat) : SExpr := o.apply e ⟨e.span.start, stop⟩

/-- An expression at a level, or the arguments of a call, or the first error in them. -/
inductive Outcome where
  | expr (l : Level) (e : Except LErr SExpr)
  | args (es : Except LErr (List SExpr))

/-- The notation of expressions with their spans: the span of a literal is the literal; that of a path reaches to what follows the blanks and comments
after it; that of an operator with its operands reaches from the first to the last of them, where parentheses around operands
are left out. -/
inductive Reading (inp : Text) : Nat → Nat → Outcome → Prop where
  | whole {i j r} : Reading inp i j (.expr .choice r) → Reading inp i j (.expr .whole r)
  | leading {i j k l r} : BarAt inp i j → Blanks inp j k → Reading inp k l (.expr .choice r) → Reading inp i l (.expr .whole r)
  | alternative {i j r} : Reading inp i j (.expr .sequence r) → Reading inp i j (.expr .choice r)
  | choice {i j k l m n x y} : Reading inp i j (.expr .sequence x) → Blanks inp j k → BarAt inp k l → Blanks inp l m → Reading inp m n (.expr .choice y) →
      Reading inp i n (.expr .choice (both (fun x y => .choice x y ⟨x.span.start, y.span.stop⟩) x y))
  | single {i j r} : Reading inp i j (.expr .prefixed r) → Reading inp i j (.expr .sequence r)
  | seq {i j k l m n x y t o} : Reading inp i j (.expr .prefixed x) → Blanks inp j k → JoinText t o → Stands inp k [o] l → Blanks inp l m →
      Reading inp m n (.expr .sequence y) → Reading inp i n (.expr .sequence (both (fun x y => .seq x y t ⟨x.span.start, y.span.stop⟩) x y))
  | unprefixed {i j r} : Reading inp i j (.expr .postfixed r) → Reading inp i j (.expr .prefixed r)
  | pos {i j k l r} : Stands inp i ['&'] j → Blanks inp j k → Reading inp k l (.expr .prefixed r) →
      Reading inp i l (.expr .prefixed (r.map fun e => .pos e ⟨i, e.span.stop⟩))
  | neg {i j k l r} : Stands inp i ['!'] j → Blanks inp j k → Reading inp k l (.expr .prefixed r) →
      Reading inp i l (.expr .prefixed (r.map fun e => .neg e ⟨i, e.span.stop⟩))
  | unpostfixed {i j r} : Reading inp i j (.expr .primary r) → Reading inp i j (.expr .postfixed r)
  | post {i j k l r o} : Reading inp i j (.expr .postfixed r) → Blanks inp j k → RepeatAt inp k l o →
      Reading inp i l (.expr .postfixed (both (repeated l) r o))
  | sepPost {i j k l m n r o t x} : Reading inp i j (.expr .postfixed r) → Blanks inp j k → JoinText t x → t ≠ .none → Stands inp k [x] l → Blanks inp l m →
      RepeatAt inp m n o → Reading inp i n (.expr .postfixed (both (repeated n) (r.map fun e => .separated e t ⟨e.span.start, l⟩) o))
  | paren {i j k l m n r} : Stands inp i ['('] j → Blanks inp j k → Reading inp k l (.expr .whole r) → Blanks inp l m → Stands inp m [')'] n →
      Reading inp i n (.expr .primary r)
  | str {i j s v} : Stands inp i ('"' :: (s ++ ['"'])) j → Denotes s v →
      Reading inp i j (.expr .primary ((orElse v badString ⟨i, j⟩).map fun v => .str v ⟨i, j⟩))
  | insens {i j s v} : Stands inp i ('i' :: '"' :: (s ++ ['"'])) j → Denotes s v →
      Reading inp i j (.expr .primary ((orElse v badString ⟨i, j⟩).map fun v => .insens v ⟨i, j⟩))
  /-- raw strings with `#` are misread (C42) -/
  | raw {i j n s v} : Stands inp i ('r' :: (List.replicate n '#' ++ '"' :: (s ++ '"' :: List.replicate n '#'))) j → RawRead n s v →
      Reading inp i j (.expr .primary (.ok (.str v ⟨i, j⟩)))
  | range {i j k l m n a b x y} : Stands inp i (charText a) j → CharLit a (some x) → Blanks inp j k → Stands inp k ['.', '.'] l → Blanks inp l m →
      Stands inp m (charText b) n → CharLit b (some y) → Reading inp i n (.expr .primary (.ok (.range x y ⟨i, n⟩)))
  | badFirst {i j k l m n a b} : Stands inp i (charText a) j → CharLit a none → Blanks inp j k → Stands inp k ['.', '.'] l → Blanks inp l m →
      Stands inp m (charText b) n → Reading inp i n (.expr .primary (.error ⟨badChar, ⟨i, j⟩⟩))
  | badSecond {i j k l m n a b} : Stands inp i (charText a) j → ¬ CharLit a none → Blanks inp j k → Stands inp k ['.', '.'] l → Blanks inp l m →
      Stands inp m (charText b) n → CharLit b none → Reading inp i n (.expr .primary (.error ⟨badChar, ⟨m, n⟩⟩))
  | path {i j k q} : PathAt inp q i j → Trails inp j k → Reading inp i k (.expr .primary (.ok (.path q ⟨i, k⟩)))
  | call {i j k l m n q r} : PathAt inp q i j → Blanks inp j k → Stands inp k ['('] l → Reading inp l m (.args r) → Stands inp m [')'] n →
      Reading inp i n (.expr .primary (r.map fun es => .call q es ⟨i, n⟩))
  | slice {i j k l m n o p q a b} : PathAt inp q i j → Blanks inp j k → Stands inp k ['['] l → MaybeAt inp IntLit.text a l m → Stands inp m ['.', '.'] n →
      MaybeAt inp IntLit.text b n o → Stands inp o [']'] p →
      Reading inp i p (.expr .primary ((both MetaRange.mk (maybe intAt a) (maybe intAt b)).map fun r => .slice q r ⟨i, p⟩))
  | noArgs {i j} : Blanks inp i j → Reading inp i j (.args (.ok []))
  | lastArg {i j k l r} : Blanks inp i j → Reading inp j k (.expr .whole r) → Blanks inp k l → Reading inp i l (.args (r.map fun e => [e]))
  | trailing {i j k l m n r} : Blanks inp i j → Reading inp j k (.expr .whole r) → Blanks inp k l → Stands inp l [','] m → Blanks inp m n →
      Reading inp i n (.args (r.map fun e => [e]))
  | moreArgs {i j k l m n x r} : Blanks inp i j → Reading inp j k (.expr .whole (.ok x)) → Blanks inp k l → Stands inp l [','] m →
      Reading inp m n (.args r) → Reading inp i n (.args (r.map fun es => x :: es))
  /-- what follows an error is not looked at -/
  | badArg {i j k l m n e t} : Blanks inp i j → Reading inp j k (.expr .whole (.error e)) → Blanks inp k l → Stands inp l [','] m →
      Stands inp m t n → Reading inp i n (.args (.error e))

/-! ## Rules -/

/-- What stands after `=`, with the `_` of silent rules. -/
inductive BodyAt (inp : Text) (r : Except LErr SExpr) : Nat → Nat → Prop where
  | braced {i j k l m n} : Stands inp i ['{'] j → Blanks inp j k → Reading inp k l (.expr .whole r) → Blanks inp l m → Stands inp m ['}'] n → BodyAt inp r i n
  | plain {i j k} : Reading inp i j (.expr .whole r) → LastBlanks inp j k → BodyAt inp r i k

inductive SilentAt (inp : Text) : Bool → Nat → Nat → Prop where
  | loud {i} : SilentAt inp false i i
  | silent {i j k} : Stands inp i ['_'] j → Blanks inp j k → SilentAt inp true i k

/-- Identifiers separated by commas. -/
inductive NamesAt (inp : Text) : List Name → Nat → Nat → Prop where
  | nil {i j} : Blanks inp i j → NamesAt inp [] i j
  | last {x i j k l} : Blanks inp i j → IsIdent x → Stands inp j x k → Blanks inp k l → NamesAt inp [x] i l
  | trailing {x i j k l m n} : Blanks inp i j → IsIdent x → Stands inp j x k → Blanks inp k l → Stands inp l [','] m → Blanks inp m n → NamesAt inp [x] i n
  | more {x xs i j k l m n} : Blanks inp i j → IsIdent x → Stands inp j x k → Blanks inp k l → Stands inp l [','] m → NamesAt inp xs m n →
      NamesAt inp (x :: xs) i n

/-- The parameters of a rule, between its name and `=`. -/
inductive ParamsAt (inp : Text) : List Name → Nat → Nat → Prop where
  | none {i j} : Blanks inp i j → ParamsAt inp [] i j
  | some {xs i j k l m n} : Blanks inp i j → Stands inp j ['('] k → NamesAt inp xs k l → Stands inp l [')'] m → Blanks inp m n → ParamsAt inp xs i n

/-- A rule from its documentation to its end. -/
inductive RuleAt (inp : Text) : Nat → Nat → Except LErr SRule → Prop where
  | mk {name args silent d ls i j k l m n o p r} : Stands inp i d j → DocLines ['/', '/', '/'] d ls → IsRuleName name → Stands inp j name k →
      ParamsAt inp args k l → Stands inp l ['='] m → Blanks inp m n → SilentAt inp silent n o → BodyAt inp r o p →
      RuleAt inp i p (r.map fun e => ⟨name, args, ⟨i, p⟩, e, silent⟩)

/-! ## Errors -/

/-- What stands at the place of an error. -/
inductive Fault (inp : Text) : LErr → Prop where
  | string {i j s} : Stands inp i ('"' :: (s ++ ['"'])) j → Denotes s none → Fault inp ⟨badString, ⟨i, j⟩⟩
  | insensitive {i j s} : Stands inp i ('i' :: '"' :: (s ++ ['"'])) j → Denotes s none → Fault inp ⟨badString, ⟨i, j⟩⟩
  | char {i j s} : Stands inp i (charText s) j → CharLit s none → Fault inp ⟨badChar, ⟨i, j⟩⟩
  | nat {i j x} : Stands inp i (decimal x) j → 2 ^ 64 ≤ x → Fault inp ⟨badNumber, ⟨i, j⟩⟩
  | int {i j} {x : IntLit} : Stands inp i x.text j → ¬ (-2 ^ 63 ≤ x.value ∧ x.value < 2 ^ 63) → Fault inp ⟨badNumber, ⟨i, j⟩⟩
  | zero {i j s} : Stands inp i (s ++ ['0']) j → Fault inp ⟨zeroTimes, ⟨i, j⟩⟩
  | void {i j a b s} : Stands inp i (decimal a ++ (s ++ decimal b)) j → b < a → Fault inp ⟨void a b, ⟨i, j⟩⟩
  | «import» {i j s} : Stands inp i ('"' :: (s ++ ['"'])) j → Denotes s none → Fault inp ⟨badImport, ⟨i, j⟩⟩

/-! ## Files -/

/-- An item of a file. -/
inductive ItemAt (inp : Text) : Nat → Nat → LItem → Prop where
  | rule {i j r} : RuleAt inp i j (.ok r) → ItemAt inp i j (.rule r)
  | badRule {i j e} : RuleAt inp i j (.error e) → ItemAt inp i j (.invalid e)
  | imp {i j s x} : Stands inp i ('u' :: 's' :: 'e' :: ' ' :: s) j → ItemAt inp i j (.imp x)
  | badImp {i j s e} : Stands inp i ('u' :: 's' :: 'e' :: ' ' :: s) j → Fault inp e → i ≤ e.loc.start → e.loc.stop ≤ j → ItemAt inp i j (.invalid e)
  | doc {i j s} : Stands inp i ('/' :: '/' :: '!' :: s) j → ItemAt inp i j .doc
  | panics {i j s} : Stands inp i s j → ItemAt inp i j .panics

/-- The items from `i` to the end of the file, with only blanks and comments between them. -/
inductive FileAt (inp : Text) : Nat → List LItem → Prop where
  | done {i} : LastBlanks inp i (utf8Len inp) → FileAt inp i []
  | item {i j k x rest} : Blanks inp i j → ItemAt inp j k x → FileAt inp k rest → FileAt inp i (x :: rest)

/-! ## What follows -/

/-- `a` lies within `b`. -/
def Within (a b : Loc) : Prop := b.start ≤ a.start ∧ a.stop ≤ b.stop

mutual
/-- All parts of an expression, with itself. -/
def parts : SExpr → List SExpr
  | .str s l => [.str s l]
  | .insens s l => [.insens s l]
  | .range x y l => [.range x y l]
  | .path q l => [.path q l]
  | .slice q r l => [.slice q r l]
  | .call q es l => .call q es l :: partsAll es
  | .pos e l => .pos e l :: parts e
  | .neg e l => .neg e l :: parts e
  | .opt e l => .opt e l :: parts e
  | .rep e l => .rep e l :: parts e
  | .repOnce e l => .repOnce e l :: parts e
  | .repRange e r l => .repRange e r l :: parts e
  | .separated e t l => .separated e t l :: parts e
  | .seq x y t l => .seq x y t l :: (parts x ++ parts y)
  | .choice x y l => .choice x y l :: (parts x ++ parts y)
/-- The parts of the arguments. -/
def partsAll : List SExpr → List SExpr
  | [] => []
  | e :: es => parts e ++ partsAll es
end

/-- The spans of the arguments lie one after the other between `i` and `j`. -/
def InOrder (i j : Nat) : List SExpr → Prop
  | [] => True
  | e :: es => i ≤ e.span.start ∧ e.span.stop ≤ j ∧ InOrder e.span.stop j es

/-- The text `t` stands from `i` to `j` and ends with `x`. -/
def EndsWith (inp : Text) (i : Nat) (x : Text) (j : Nat) : Prop := ∃ s, Stands inp i (s ++ x) j

/-- A text stands from `i` to `j` with `x` in it. -/
def Holds (inp : Text) (i : Nat) (x : Char) (j : Nat) : Prop := ∃ a b, Stands inp i (a ++ x :: b) j

/-- What the span of an expression has to do with what stands there. -/
def SpanOk (inp : Text) : SExpr → Prop
  | .str v l => (∃ s, Stands inp l.start ('"' :: (s ++ ['"'])) l.stop ∧ Denotes s (some v)) ∨
      ∃ n s, Stands inp l.start ('r' :: (List.replicate n '#' ++ '"' :: (s ++ '"' :: List.replicate n '#'))) l.stop ∧ RawRead n s v
  | .insens v l => ∃ s, Stands inp l.start ('i' :: '"' :: (s ++ ['"'])) l.stop ∧ Denotes s (some v)
  | .range x y l => ∃ a g b, Stands inp l.start (charText a ++ (g ++ charText b)) l.stop ∧ CharLit a (some x) ∧ CharLit b (some y)
  | .path q l => ∃ j, PathAt inp q l.start j ∧ Trails inp j l.stop
  | .slice q _ l => ∃ j, PathAt inp q l.start j ∧ EndsWith inp j [']'] l.stop
  | .call q es l => ∃ j, PathAt inp q l.start j ∧ EndsWith inp j [')'] l.stop ∧ InOrder j l.stop es
  | .pos e l => (∃ s, Stands inp l.start ('&' :: s) e.span.start) ∧ l.stop = e.span.stop
  | .neg e l => (∃ s, Stands inp l.start ('!' :: s) e.span.start) ∧ l.stop = e.span.stop
  | .opt e l => l.start = e.span.start ∧ EndsWith inp e.span.stop ['?'] l.stop
  | .rep e l => l.start = e.span.start ∧ EndsWith inp e.span.stop ['*'] l.stop
  | .repOnce e l => l.start = e.span.start ∧ EndsWith inp e.span.stop ['+'] l.stop
  | .repRange e _ l => l.start = e.span.start ∧ EndsWith inp e.span.stop ['}'] l.stop
  | .separated e t l => l.start = e.span.start ∧ ∃ x, JoinText t x ∧ EndsWith inp e.span.stop [x] l.stop
  | .seq x y t l => l.start = x.span.start ∧ l.stop = y.span.stop ∧ ∃ o, JoinText t o ∧ Holds inp x.span.stop o y.span.start
  | .choice x y l => l.start = x.span.start ∧ l.stop = y.span.stop ∧ Holds inp x.span.stop '|' y.span.start

end Pest3.Load
