import Verif.Peg
import Verif.Tracker

/-!
# Specification: what happened during a parse, and what should be reported about it

`Traces` extends the declarative PEG semantics by the list of the events of the parse: every rule that
was tried, with its outcome, and every illegal stack access.  `reports` says what each event should
contribute to the error report.  Neither mentions the tracker.
-/

namespace Pest3

/-- An event: a rule tried at byte offset `pos` (`flag`: not directly under a negative lookahead; `ok`: it
matched) with the events that happened while it was tried; or an illegal stack access. -/
inductive Ev where
  | rule (r : Label) (pos : Nat) (flag ok : Bool) (children : List Ev)
  | special (pos : Nat) (e : SpecialError)

/-- Is the event about a rule? -/
def Ev.isRule : Ev → Bool
  | .rule .. => true
  | .special .. => false

/-- The illegal stack access made by a leaf on a stack of `n` elements. -/
def stackError (l : Leaf) (n : Nat) : Option SpecialError :=
  match l with
  | .peek | .drop | .pop => if n = 0 then some .emptyStack else none
  | .slice2 a b =>
    if (resolveIdx a n).isSome ∧ (resolveIdx b n).isSome then none else some (.sliceOutOfBound a (some b))
  | .slice1 a => if (resolveIdx a n).isSome then none else some (.sliceOutOfBound a none)
  | _ => none

/-- The events of a leaf. -/
def leafEvents (l : Leaf) (c : Cfg) : List Ev :=
  match stackError l c.stk.length with
  | some e => [.special (utf8Len c.pre) e]
  | none => []

/-- Big-step PEG semantics with events, in the order in which they happen. -/
inductive Traces (env : Env) : Bool → Item → Cfg → Option Cfg → List Ev → Prop
  | leafOk {f l c m stk rest} : leafSpec l c = some (m, stk) → c.suf = m ++ rest →
      Traces env f (.node (.leaf l)) c (some ⟨c.pre ++ m, rest, stk⟩) []
  | leafFail {f l c} : leafSpec l c = none → Traces env f (.node (.leaf l)) c none (leafEvents l c)
  | positiveOk {f n c c' es} : Traces env true (.node n) c (some c') es →
      Traces env f (.node (.positive n)) c (some c) es
  | positiveFail {f n c es} : Traces env true (.node n) c none es →
      Traces env f (.node (.positive n)) c none es
  | negativeOk {f n c es} : Traces env false (.node n) c none es →
      Traces env f (.node (.negative n)) c (some c) es
  | negativeFail {f n c c' es} : Traces env false (.node n) c (some c') es →
      Traces env f (.node (.negative n)) c none es
  | pushOk {f n c m rest stk es} : Traces env f (.node n) c (some ⟨c.pre ++ m, rest, stk⟩) es →
      Traces env f (.node (.push n)) c (some ⟨c.pre ++ m, rest, stk ++ [m]⟩) es
  | pushFail {f n c es} : Traces env f (.node n) c none es → Traces env f (.node (.push n)) c none es
  | optSome {f n c c' es} : Traces env f (.node n) c (some c') es →
      Traces env f (.node (.opt n)) c (some c') es
  | optNone {f n c es} : Traces env f (.node n) c none es → Traces env f (.node (.opt n)) c (some c) es
  | rep {f n tr min max c r es} : Traces env f (.reps n tr min max 0) c r es →
      Traces env f (.node (.rep n tr min max)) c r es
  | seq {f fs c r es} : Traces env f (.fields true fs) c r es → Traces env f (.node (.seq fs)) c r es
  | choice {f l c r es} : Traces env f (.alts l) c r es → Traces env f (.node (.choice l)) c r es
  | rule {f id c r es} : Traces env f (.node (env id).body) c r es →
      Traces env f (.node (.rule id)) c r [.rule (env id).label (utf8Len c.pre) f r.isSome es]
  | altsNil {f c} : Traces env f (.alts []) c none []
  | altsHit {f a l c c' es} : Traces env f (.node a) c (some c') es →
      Traces env f (.alts (a :: l)) c (some c') es
  | altsMiss {f a l c r es es'} : Traces env f (.node a) c none es → Traces env f (.alts l) c r es' →
      Traces env f (.alts (a :: l)) c r (es ++ es')
  | fieldsNil {f first c} : Traces env f (.fields first []) c (some c) []
  | fieldsFirst {f tr n l c c' r es es'} : Traces env f (.node n) c (some c') es →
      Traces env f (.fields false l) c' r es' → Traces env f (.fields true ((tr, n) :: l)) c r (es ++ es')
  | fieldsFirstFail {f tr n l c es} : Traces env f (.node n) c none es →
      Traces env f (.fields true ((tr, n) :: l)) c none es
  | fieldsNext {f tr n l c c' c'' r es es' es''} : Traces env f (.node tr) c (some c') es →
      Traces env f (.node n) c' (some c'') es' → Traces env f (.fields false l) c'' r es'' →
      Traces env f (.fields false ((tr, n) :: l)) c r (es ++ (es' ++ es''))
  | fieldsTriviaFail {f tr n l c es} : Traces env f (.node tr) c none es →
      Traces env f (.fields false ((tr, n) :: l)) c none es
  | fieldsNextFail {f tr n l c c' es es'} : Traces env f (.node tr) c (some c') es →
      Traces env f (.node n) c' none es' → Traces env f (.fields false ((tr, n) :: l)) c none (es ++ es')
  | unitFirst {f n tr c r es} : Traces env f (.node n) c r es → Traces env f (.unit n tr 0) c r es
  | unitNext {f n tr i c c' r es es'} : Traces env f (.node tr) c (some c') es →
      Traces env f (.node n) c' r es' → Traces env f (.unit n tr (i + 1)) c r (es ++ es')
  | unitTriviaFail {f n tr i c es} : Traces env f (.node tr) c none es →
      Traces env f (.unit n tr (i + 1)) c none es
  | repsMax {f n tr min max i c} : max ≤ i → Traces env f (.reps n tr min max i) c (some c) []
  | repsMore {f n tr min max i c c' r es es'} : i < max → Traces env f (.unit n tr i) c (some c') es →
      Traces env f (.reps n tr min max (i + 1)) c' r es' → Traces env f (.reps n tr min max i) c r (es ++ es')
  | repsFew {f n tr min max i c es} : i < max → Traces env f (.unit n tr i) c none es → i < min →
      Traces env f (.reps n tr min max i) c none es
  | repsStop {f n tr min max i c es} : i < max → Traces env f (.unit n tr i) c none es → min ≤ i →
      Traces env f (.reps n tr min max i) c (some c) es

/-! ## What is to be reported -/

/-- What an event says. -/
inductive What where
  /-- The rule failed where it was wanted. -/
  | expected (r : Label)
  /-- The rule matched where it was unwanted. -/
  | unexpected (r : Label)
  | special (e : SpecialError)
  /-- The rule did what was wanted. -/
  | nothing
deriving DecidableEq, Repr

/-- A report: the enclosing rule it is filed under, the byte offset, what happened. -/
structure Report where
  upper : Option Label
  pos : Nat
  what : What
deriving DecidableEq, Repr

/-- The innermost enclosing rule (innermost first) that started elsewhere. -/
def upperOf (ups : List (Label × Nat)) (pos : Nat) : Option Label :=
  (ups.find? fun u => u.2 != pos).map Prod.fst

/-- The outcome of a rule without sub-rules. -/
def outcome (r : Label) (flag ok : Bool) : What :=
  match flag, ok with
  | true, false => .expected r
  | false, true => .unexpected r
  | _, _ => .nothing

mutual
/-- The reports of an event under the given enclosing rules: rules that tried other rules leave the
reporting to those. -/
def Ev.reports (ups : List (Label × Nat)) : Ev → List Report
  | .special pos e => [⟨upperOf ups pos, pos, .special e⟩]
  | .rule r pos flag ok cs =>
    Ev.reportsList ((r, pos) :: ups) cs ++
      if cs.any Ev.isRule then [] else [⟨upperOf ups pos, pos, outcome r flag ok⟩]
/-- The reports of a list of events. -/
def Ev.reportsList (ups : List (Label × Nat)) : List Ev → List Report
  | [] => []
  | e :: es => e.reports ups ++ Ev.reportsList ups es
end

/-- The furthest offset reported, at least `start`. -/
def furthest (start : Nat) (rs : List Report) : Nat := rs.foldl (fun m r => max m r.pos) start

/-- Drop consecutive repetitions. -/
def squash : List Label → List Label
  | [] => []
  | [a] => [a]
  | a :: b :: l => if a = b then squash (b :: l) else a :: squash (b :: l)

/-- The rules reported as expected. -/
def expectedOf (rs : List Report) : List Label :=
  rs.filterMap fun r => match r.what with | .expected l => some l | _ => none

/-- The rules reported as unexpected. -/
def unexpectedOf (rs : List Report) : List Label :=
  rs.filterMap fun r => match r.what with | .unexpected l => some l | _ => none

/-- The illegal stack accesses reported. -/
def specialsOf (rs : List Report) : List SpecialError :=
  rs.filterMap fun r => match r.what with | .special e => some e | _ => none

/-- The reports filed under `k` at offset `pos`, without those that say nothing. -/
def filed (pos : Nat) (k : Option Label) (rs : List Report) : List Report :=
  rs.filter fun r => r.pos == pos && r.upper == k && r.what != .nothing

/-- The entry of the error report for `k`. -/
def entryFor (pos : Nat) (k : Option Label) (rs : List Report) : Option Tracked :=
  let l := filed pos k rs
  if l = [] then none else some ⟨squash (expectedOf l), squash (unexpectedOf l), specialsOf l⟩

end Pest3
