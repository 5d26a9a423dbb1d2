import Verif.Peg

/-!
# Specification: the syntax tree of a match

`Builds env inp item c ss c' ss' ts`: matching `item` from `c` to `c'` yields the values `ts` (one for
a node, one per field or iteration for sequences and repetitions).  `ss`, `ss'` are the spans on the
stack (their texts are `c.stk`, `c'.stk`).  Failed attempts are described by `Peg … none`.
-/

namespace Pest3

/-- The span of `inp` between two configurations. -/
def spanOf (inp : Str) (pre pre' : Text) : Span := ⟨inp, utf8Len pre, utf8Len pre'⟩

/-- The value stored by a leaf that matched `m` after `pre`. -/
def leafVal (inp : Str) (l : Leaf) (pre m : Text) (ss : List Span) : Option LeafVal :=
  match l with
  | .insens _ => some (.content m)
  | .range _ _ | .prop _ | .any => m.head?.map .chr
  | .skipChar _ | .peekAll | .peek | .popAll => some (.span (spanOf inp pre (pre ++ m)))
  | .pop => ss.getLast?.map .span
  | .newline => some (.nl (if m = ['\r', '\n'] then .crlf else if m = ['\n'] then .lf else .cr))
  | .str _ | .chr _ | .none | .empty | .soi | .eoi | .drop | .slice2 _ _ | .slice1 _ => some .unit

/-- The span stack after a successful leaf. -/
def leafSpans (l : Leaf) (ss : List Span) : List Span :=
  match l with
  | .drop | .pop => ss.dropLast
  | .popAll => []
  | _ => ss

/-- Successful matches and their trees. -/
inductive Builds (env : Env) (inp : Str) :
    Item → Cfg → List Span → Cfg → List Span → List Tree → Prop
  | leaf {l c ss m stk rest v} : leafSpec l c = some (m, stk) → c.suf = m ++ rest →
      leafVal inp l c.pre m ss = some v →
      Builds env inp (.node (.leaf l)) c ss ⟨c.pre ++ m, rest, stk⟩ (leafSpans l ss) [.leaf v]
  | positive {n c ss c' ss' t} : Builds env inp (.node n) c ss c' ss' [t] →
      Builds env inp (.node (.positive n)) c ss c ss [.positive t]
  | negative {n c ss} : Peg env (.node n) c none →
      Builds env inp (.node (.negative n)) c ss c ss [.negative]
  | push {n c ss m rest stk ss' t} : Builds env inp (.node n) c ss ⟨c.pre ++ m, rest, stk⟩ ss' [t] →
      Builds env inp (.node (.push n)) c ss ⟨c.pre ++ m, rest, stk ++ [m]⟩
        (ss' ++ [spanOf inp c.pre (c.pre ++ m)]) [.push t]
  | optSome {n c ss c' ss' t} : Builds env inp (.node n) c ss c' ss' [t] →
      Builds env inp (.node (.opt n)) c ss c' ss' [.optSome t]
  | optNone {n c ss} : Peg env (.node n) c none →
      Builds env inp (.node (.opt n)) c ss c ss [.optNone]
  | rep {n tr min max c ss c' ss' ts} : Builds env inp (.reps n tr min max 0) c ss c' ss' ts →
      Builds env inp (.node (.rep n tr min max)) c ss c' ss' [.rep ts]
  | seq {fs c ss c' ss' ts} : Builds env inp (.fields true fs) c ss c' ss' ts →
      Builds env inp (.node (.seq fs)) c ss c' ss' [.seq ts]
  | choice {pre a post c ss c' ss' t} :
      (∀ b ∈ pre, Peg env (.node b) c none) → Builds env inp (.node a) c ss c' ss' [t] →
      Builds env inp (.node (.choice (pre ++ a :: post))) c ss c' ss' [.choice pre.length t]
  | rule {id c ss c' ss' t} : Builds env inp (.node (env id).body) c ss c' ss' [t] →
      Builds env inp (.node (.rule id)) c ss c' ss' [.rule id t (spanOf inp c.pre c'.pre)]
  | fieldsNil {first c ss} : Builds env inp (.fields first []) c ss c ss []
  | fieldsFirst {tr n l c ss c' ss' t c'' ss'' ts} : Builds env inp (.node n) c ss c' ss' [t] →
      Builds env inp (.fields false l) c' ss' c'' ss'' ts →
      Builds env inp (.fields true ((tr, n) :: l)) c ss c'' ss'' (t :: ts)
  | fieldsNext {tr n l c ss c₁ ss₁ u c' ss' t c'' ss'' ts} : Builds env inp (.node tr) c ss c₁ ss₁ u →
      Builds env inp (.node n) c₁ ss₁ c' ss' [t] →
      Builds env inp (.fields false l) c' ss' c'' ss'' ts →
      Builds env inp (.fields false ((tr, n) :: l)) c ss c'' ss'' (t :: ts)
  | unitFirst {n tr c ss c' ss' t} : Builds env inp (.node n) c ss c' ss' [t] →
      Builds env inp (.unit n tr 0) c ss c' ss' [t]
  | unitNext {n tr i c ss c₁ ss₁ u c' ss' t} : Builds env inp (.node tr) c ss c₁ ss₁ u →
      Builds env inp (.node n) c₁ ss₁ c' ss' [t] →
      Builds env inp (.unit n tr (i + 1)) c ss c' ss' [t]
  | repsMax {n tr min max i c ss} : max ≤ i → Builds env inp (.reps n tr min max i) c ss c ss []
  | repsMore {n tr min max i c ss c' ss' t c'' ss'' ts} : i < max →
      Builds env inp (.unit n tr i) c ss c' ss' [t] →
      Builds env inp (.reps n tr min max (i + 1)) c' ss' c'' ss'' ts →
      Builds env inp (.reps n tr min max i) c ss c'' ss'' (t :: ts)
  | repsStop {n tr min max i c ss} : i < max → Peg env (.unit n tr i) c none → min ≤ i →
      Builds env inp (.reps n tr min max i) c ss c ss []

end Pest3
