import Verif.Node

/-!
# Specification: declarative PEG semantics

Written without reference to the parsing functions: a configuration is the text already consumed, the
text ahead, and the stack of remembered texts (bottom first).  A result is `none` (failure) or
the configuration after the match.  No snapshots, trackers, byte offsets, or buffers occur.
-/

namespace Pest3

/-- Configuration: consumed text, text ahead, stack (bottom first). -/
structure Cfg where
  pre : Text
  suf : Text
  stk : List Text
deriving DecidableEq, Repr

/-- Index `i` into `n` elements; negative indices count from the end; `n` itself (one past the
end) is allowed. -/
def resolveIdx (i : Int) (n : Nat) : Option Nat :=
  if 0 ≤ i then (if i ≤ n then some i.toNat else none)
  else if 0 ≤ i + n then some (i + n).toNat
  else none

/-- The stack elements `a..b` (bottom to top); `none` if an index is out of range; empty if `b ≤ a`. -/
def sliceSpec (stk : List Text) (a : Int) (b : Option Int) : Option (List Text) :=
  match resolveIdx a stk.length, (match b with | some b => resolveIdx b stk.length | none => some stk.length) with
  | some i, some j => some ((stk.take j).drop i)
  | _, _ => none

/-- Match exactly `m`. -/
def eatText (m : Text) (suf : Text) : Option Text := if m <+: suf then some m else none

/-- Match one character satisfying `f`. -/
def eatChar (f : Char → Bool) : Text → Option Text
  | [] => none
  | c :: _ => if f c then some [c] else none

/-- Leaves: the text consumed and the new stack, or failure. -/
def leafSpec (l : Leaf) (c : Cfg) : Option (Text × List Text) :=
  match l with
  | .str s => (eatText s c.suf).map (·, c.stk)
  | .insens s =>
    if (c.suf.take s.length).map Char.toLower = s.map Char.toLower then
      some (c.suf.take s.length, c.stk)
    else none
  | .skipChar n => if n ≤ c.suf.length then some (c.suf.take n, c.stk) else none
  | .range lo hi => (eatChar (fun x => decide (lo ≤ x ∧ x ≤ hi)) c.suf).map (·, c.stk)
  | .chr x => (eatChar (fun y => x == y) c.suf).map (·, c.stk)
  | .prop f => (eatChar f c.suf).map (·, c.stk)
  | .any => (eatChar (fun _ => true) c.suf).map (·, c.stk)
  | .none => none
  | .empty => some ([], c.stk)
  | .soi => if c.pre = [] then some ([], c.stk) else none
  | .eoi => if c.suf = [] then some ([], c.stk) else none
  | .newline =>
    match c.suf with
    | '\r' :: '\n' :: _ => some (['\r', '\n'], c.stk)
    | '\n' :: _ => some (['\n'], c.stk)
    | '\r' :: _ => some (['\r'], c.stk)
    | _ => none
  | .peekAll => (eatText c.stk.reverse.flatten c.suf).map (·, c.stk)
  | .peek => match c.stk.getLast? with
    | some top => (eatText top c.suf).map (·, c.stk)
    | none => none
  | .drop => if c.stk = [] then none else some ([], c.stk.dropLast)
  | .pop => match c.stk.getLast? with
    | some top => (eatText top c.suf).map (·, c.stk.dropLast)
    | none => none
  | .popAll => (eatText c.stk.reverse.flatten c.suf).map (·, [])
  | .slice2 a b => match sliceSpec c.stk a (some b) with
    | some l => (eatText l.flatten c.suf).map (·, c.stk)
    | none => none
  | .slice1 a => match sliceSpec c.stk a none with
    | some l => (eatText l.flatten c.suf).map (·, c.stk)
    | none => none

/-- What a derivation is about: a node, the remaining alternatives of a choice, the remaining
fields of a sequence, one iteration of a repetition, or the iterations from the `i`-th on. -/
inductive Item where
  | node (n : Node)
  | alts (l : List Node)
  | fields (first : Bool) (l : List (Node × Node))
  | unit (n trivia : Node) (i : Nat)
  | reps (n trivia : Node) (min max i : Nat)

/-- Big-step PEG semantics.  `Peg env item c none`: `item` fails at `c`. -/
inductive Peg (env : Env) : Item → Cfg → Option Cfg → Prop
  | leafOk {l c m stk rest} : leafSpec l c = some (m, stk) → c.suf = m ++ rest →
      Peg env (.node (.leaf l)) c (some ⟨c.pre ++ m, rest, stk⟩)
  | leafFail {l c} : leafSpec l c = none → Peg env (.node (.leaf l)) c none
  | positiveOk {n c c'} : Peg env (.node n) c (some c') → Peg env (.node (.positive n)) c (some c)
  | positiveFail {n c} : Peg env (.node n) c none → Peg env (.node (.positive n)) c none
  | negativeOk {n c} : Peg env (.node n) c none → Peg env (.node (.negative n)) c (some c)
  | negativeFail {n c c'} : Peg env (.node n) c (some c') → Peg env (.node (.negative n)) c none
  | pushOk {n c m rest stk} : Peg env (.node n) c (some ⟨c.pre ++ m, rest, stk⟩) →
      Peg env (.node (.push n)) c (some ⟨c.pre ++ m, rest, stk ++ [m]⟩)
  | pushFail {n c} : Peg env (.node n) c none → Peg env (.node (.push n)) c none
  | optSome {n c c'} : Peg env (.node n) c (some c') → Peg env (.node (.opt n)) c (some c')
  | optNone {n c} : Peg env (.node n) c none → Peg env (.node (.opt n)) c (some c)
  | rep {n tr min max c r} : Peg env (.reps n tr min max 0) c r → Peg env (.node (.rep n tr min max)) c r
  | seq {fs c r} : Peg env (.fields true fs) c r → Peg env (.node (.seq fs)) c r
  | choice {l c r} : Peg env (.alts l) c r → Peg env (.node (.choice l)) c r
  | rule {id c r} : Peg env (.node (env id).body) c r → Peg env (.node (.rule id)) c r
  -- ordered choice: the first alternative that matches
  | altsNil {c} : Peg env (.alts []) c none
  | altsHit {a l c c'} : Peg env (.node a) c (some c') → Peg env (.alts (a :: l)) c (some c')
  | altsMiss {a l c r} : Peg env (.node a) c none → Peg env (.alts l) c r → Peg env (.alts (a :: l)) c r
  -- sequence: fields in order, trivia between (not before the first)
  | fieldsNil {first c} : Peg env (.fields first []) c (some c)
  | fieldsFirst {tr n l c c' r} : Peg env (.node n) c (some c') → Peg env (.fields false l) c' r →
      Peg env (.fields true ((tr, n) :: l)) c r
  | fieldsFirstFail {tr n l c} : Peg env (.node n) c none → Peg env (.fields true ((tr, n) :: l)) c none
  | fieldsNext {tr n l c c' c'' r} : Peg env (.node tr) c (some c') → Peg env (.node n) c' (some c'') →
      Peg env (.fields false l) c'' r → Peg env (.fields false ((tr, n) :: l)) c r
  | fieldsTriviaFail {tr n l c} : Peg env (.node tr) c none →
      Peg env (.fields false ((tr, n) :: l)) c none
  | fieldsNextFail {tr n l c c'} : Peg env (.node tr) c (some c') → Peg env (.node n) c' none →
      Peg env (.fields false ((tr, n) :: l)) c none
  -- one iteration: trivia (not before the first) and the body
  | unitFirst {n tr c r} : Peg env (.node n) c r → Peg env (.unit n tr 0) c r
  | unitNext {n tr i c c' r} : Peg env (.node tr) c (some c') → Peg env (.node n) c' r →
      Peg env (.unit n tr (i + 1)) c r
  | unitTriviaFail {n tr i c} : Peg env (.node tr) c none → Peg env (.unit n tr (i + 1)) c none
  -- greedy repetition, at least `min` and at most `max` iterations
  | repsMax {n tr min max i c} : max ≤ i → Peg env (.reps n tr min max i) c (some c)
  | repsMore {n tr min max i c c' r} : i < max → Peg env (.unit n tr i) c (some c') →
      Peg env (.reps n tr min max (i + 1)) c' r → Peg env (.reps n tr min max i) c r
  | repsFew {n tr min max i c} : i < max → Peg env (.unit n tr i) c none → i < min →
      Peg env (.reps n tr min max i) c none
  | repsStop {n tr min max i c} : i < max → Peg env (.unit n tr i) c none → min ≤ i →
      Peg env (.reps n tr min max i) c (some c)

end Pest3
