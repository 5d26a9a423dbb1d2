import Verif.MetaFileSpec

/-!
# Specification: how grammars are written

What texts of grammars look like and what they mean, in terms of characters only: neither the meta-grammar nor pairs of tokens occur here.
`Gap` is what may stand between two tokens, `Note` gives the notation of expressions level by level, `RuleText` and `ImportText` that of
the items of a file, and `FileText` that of whole files.  Not all that is accepted is listed; left out are `~|` in place of `|`, raw strings
with `#`, which are misread (C42), and the character `'"'` (C43).
-/

namespace Pest3.Load
open Pest3 Pest3.Gen
open Pest3.Meta (Denotes charText decimal)

/-! ## Blanks and comments -/

/-- The end of a line. -/
inductive Newline : Text → Prop where
  | lf : Newline ['\n']
  | crlf : Newline ['\r', '\n']

inductive Blank : Text → Prop where
  | space : Blank [' ']
  | tab : Blank ['\t']
  | line {e} : Newline e → Blank e

/-- The inside of a comment `/* … */`: the next `*/` is the end of it, but comments may be nested. -/
inductive Body : Text → Prop where
  | nil : Body []
  | char {x b} : ¬ ['*', '/'] <+: x :: (b ++ ['*', '/']) → ¬ ['/', '*'] <+: x :: (b ++ ['*', '/']) → Body b → Body (x :: b)
  | nest {a b} : Body a → Body b → Body ('/' :: '*' :: (a ++ '*' :: '/' :: b))

/-- The rest of a line. -/
def Line (t : Text) : Prop := ∀ x ∈ t, x ≠ '\n' ∧ x ≠ '\r'

/-- The rest of a line after `//` that makes it a comment, not documentation. -/
def PlainLine (t : Text) : Prop := Line t ∧ t.head? ≠ some '/' ∧ t.head? ≠ some '!'

/-- What may stand between tokens: blanks and comments. -/
inductive Gap : Text → Prop where
  | nil : Gap []
  | blank {b g} : Blank b → Gap g → Gap (b ++ g)
  | line {t e g} : PlainLine t → Newline e → Gap g → Gap ('/' :: '/' :: (t ++ (e ++ g)))
  | block {b g} : Body b → Gap g → Gap ('/' :: '*' :: (b ++ '*' :: '/' :: g))

/-! ## Expressions -/

/-- A path: identifiers joined by `::`. -/
inductive PathText : List Name → Text → Prop where
  | one {x} : IsIdent x → PathText [x] x
  | cons {x q g h t} : IsIdent x → Gap g → Gap h → PathText q t → PathText (x :: q) (x ++ (g ++ ':' :: ':' :: (h ++ t)))

/-- An optional token with what is around it. -/
inductive Perhaps : Option Text → Text → Prop where
  | none {g} : Gap g → Perhaps none g
  | some {x g h} : Gap g → Gap h → Perhaps (some x) (g ++ (x ++ h))

/-- What stands before the operator of a repetition with trivia in between. -/
inductive SepText : Option Trivia → Text → Prop where
  | none : SepText none []
  | tilde {g} : Gap g → SepText (some .optional) ('~' :: g)
  | caret {g} : Gap g → SepText (some .mandatory) ('^' :: g)

/-- The operators of repetitions. -/
inductive OpText : PostOp → Text → Prop where
  | opt : OpText .opt ['?']
  | star : OpText .star ['*']
  | plus : OpText .plus ['+']
  | exact {n t} : Perhaps (some (decimal n)) t → OpText (.exact n) ('{' :: (t ++ ['}']))
  | bounds {a b : Option Nat} {t u} : Perhaps (a.map decimal) t → Perhaps (b.map decimal) u → OpText (.bounds a b) ('{' :: (t ++ '.' :: '.' :: (u ++ ['}'])))

/-- The operators of sequences. -/
inductive JoinText : Trivia → Char → Prop where
  | none : JoinText .none '-'
  | optional : JoinText .optional '~'
  | mandatory : JoinText .mandatory '^'

/-- Levels of binding, loosest first. -/
inductive Level where
  /-- a whole expression -/
  | whole
  | choice
  | sequence
  | prefixed
  | postfixed
  | primary

/-- An expression at a level, or the arguments of a call. -/
inductive NItem where
  | expr (l : Level) (e : Expr)
  | args (es : List Expr)

/-- The text of an expression. -/
inductive Note : NItem → Text → Prop where
  | whole {e t} : Note (.expr .choice e) t → Note (.expr .whole e) t
  /-- a bar at the beginning means nothing; it is possible if the first alternative is no sequence and not the only one -/
  | leading {x y f g h a b} : Gap f → Note (.expr .prefixed x) a → Gap g → Gap h → Note (.expr .choice y) b →
      Note (.expr .whole (.choice x y)) ('|' :: (f ++ (a ++ (g ++ '|' :: (h ++ b)))))
  | alternative {e t} : Note (.expr .sequence e) t → Note (.expr .choice e) t
  | choice {x y g h a b} : Note (.expr .sequence x) a → Gap g → Gap h → Note (.expr .choice y) b →
      Note (.expr .choice (.choice x y)) (a ++ (g ++ '|' :: (h ++ b)))
  | single {e t} : Note (.expr .prefixed e) t → Note (.expr .sequence e) t
  | seq {x y tr o g h a b} : Note (.expr .prefixed x) a → Gap g → JoinText tr o → Gap h → Note (.expr .sequence y) b →
      Note (.expr .sequence (.seq x y tr)) (a ++ (g ++ o :: (h ++ b)))
  | unprefixed {e t} : Note (.expr .postfixed e) t → Note (.expr .prefixed e) t
  | pos {e g t} : Gap g → Note (.expr .prefixed e) t → Note (.expr .prefixed (.pos e)) ('&' :: (g ++ t))
  | neg {e g t} : Gap g → Note (.expr .prefixed e) t → Note (.expr .prefixed (.neg e)) ('!' :: (g ++ t))
  | unpostfixed {e t} : Note (.expr .primary e) t → Note (.expr .postfixed e) t
  | post {e e' p g s o t} : Note (.expr .postfixed e) t → Gap g → SepText (Post.sep p) s → OpText p.op o → p.apply e = some e' →
      Note (.expr .postfixed e') (t ++ (g ++ (s ++ o)))
  | paren {e g h t} : Gap g → Note (.expr .whole e) t → Gap h → Note (.expr .primary e) ('(' :: (g ++ (t ++ (h ++ [')']))))
  | str {s v} : Denotes s (some v) → Note (.expr .primary (.str v)) ('"' :: (s ++ ['"']))
  | insens {s v} : Denotes s (some v) → Note (.expr .primary (.insens v)) ('i' :: '"' :: (s ++ ['"']))
  | raw {s} : '"' ∉ s → Note (.expr .primary (.str s)) ('r' :: '"' :: (s ++ ['"']))
  | range {x y a b g h} : CharLit a (some x) → Gap g → Gap h → CharLit b (some y) →
      Note (.expr .primary (.range x y)) (charText a ++ (g ++ '.' :: '.' :: (h ++ charText b)))
  | path {q t} : PathText q t → Note (.expr .primary (.path q)) t
  | call {q es g t u} : PathText q t → Gap g → Note (.args es) u → Note (.expr .primary (.call q es)) (t ++ (g ++ '(' :: (u ++ [')'])))
  | slice {q r g t u v} {a b : Option IntLit} : PathText q t → Gap g → Perhaps (a.map IntLit.text) u → Perhaps (b.map IntLit.text) v → Gen.sliceSpec a b = some r →
      Note (.expr .primary (.slice q r)) (t ++ (g ++ '[' :: (u ++ '.' :: '.' :: (v ++ [']']))))
  | noArgs {g} : Gap g → Note (.args []) g
  | lastArg {e g h t} : Gap g → Note (.expr .whole e) t → Gap h → Note (.args [e]) (g ++ (t ++ h))
  | trailing {e g h k t} : Gap g → Note (.expr .whole e) t → Gap h → Gap k → Note (.args [e]) (g ++ (t ++ (h ++ ',' :: k)))
  | moreArgs {e f es g h t u} : Gap g → Note (.expr .whole e) t → Gap h → Note (.args (f :: es)) u →
      Note (.args (e :: f :: es)) (g ++ (t ++ (h ++ ',' :: u)))

/-! ## Items -/

/-- Documentation of a rule or of the grammar: lines, each after the given sign, and what they say. -/
inductive Docs (sign : Text) : Text → List Text → Prop where
  | nil : Docs sign [] []
  | cons {t e g d ls} : Line t → Newline e → Gap g → Docs sign d ls → Docs sign (sign ++ (t ++ (e ++ (g ++ d)))) (t :: ls)

/-- Identifiers separated by commas. -/
inductive Names : List Name → Text → Prop where
  | none {g} : Gap g → Names [] g
  | last {x g h} : IsIdent x → Gap g → Gap h → Names [x] (g ++ (x ++ h))
  | trailing {x g h k} : IsIdent x → Gap g → Gap h → Gap k → Names [x] (g ++ (x ++ (h ++ ',' :: k)))
  | more {x y l g h t} : IsIdent x → Gap g → Gap h → Names (y :: l) t → Names (x :: y :: l) (g ++ (x ++ (h ++ ',' :: t)))

/-- The parameters of a rule, with what follows. -/
inductive Params : List Name → Text → Prop where
  | none : Params [] []
  | list {l t g} : Names l t → Gap g → Params l ('(' :: (t ++ ')' :: g))

/-- Characters that begin identifiers. -/
def identStart (x : Char) : Prop := x = '_' ∨ isAlpha x

/-- Characters in identifiers. -/
def identPart (x : Char) : Prop := x = '_' ∨ isAlpha x ∨ ('0' ≤ x ∧ x ≤ '9')

/-- Whether an identifier begins here. -/
def StartsIdent (t : Text) : Prop := ∃ x r, t = x :: r ∧ identStart x

/-- The part of a rule after `=`; `open` if it is not in braces.  An underscore for a silent rule is one that no identifier follows. -/
inductive BodyText (e : Expr) : Bool → (opened : Bool) → Text → Prop where
  | braced {g h t} : Gap g → Note (.expr .whole e) t → Gap h → BodyText e false false ('{' :: (g ++ (t ++ (h ++ ['}']))))
  | silentBraced {f g h t} : Gap f → Gap g → Note (.expr .whole e) t → Gap h → BodyText e true false ('_' :: (f ++ '{' :: (g ++ (t ++ (h ++ ['}'])))))
  | plain {t} : Note (.expr .whole e) t → (∀ r, t = '_' :: r → StartsIdent r) → BodyText e false true t
  | silentPlain {f t} : Gap f → Note (.expr .whole e) t → ¬ StartsIdent (f ++ t) → BodyText e true true ('_' :: (f ++ t))

/-- The text of a rule with its documentation; `opened` if it ends with an expression outside braces. -/
inductive RuleText : Rule → (docs : List Text) → (opened : Bool) → Text → Prop where
  | mk {r : Rule} {o d ls f ps g b} : Docs ['/', '/', '/'] d ls → IsRuleName r.name → Gap f → Params r.args ps → Gap g → BodyText r.node r.silent o b →
      RuleText r ls o (d ++ (r.name ++ (f ++ (ps ++ '=' :: (g ++ b)))))

/-- The file of an import. -/
inductive InText : Option FPath → Text → Prop where
  | none : InText none []
  | some {s v g h} : Gap g → g ≠ [] → Gap h → Denotes s (some v) → InText (some (pathOf v)) (g ++ 'i' :: 'n' :: (h ++ '"' :: (s ++ ['"'])))

/-- The other name of an import. -/
inductive AsText : Option Name → Text → Prop where
  | none : AsText none []
  | some {x g h} : Gap g → g ≠ [] → Gap h → h ≠ [] → IsIdent x → AsText (some x) (g ++ 'a' :: 's' :: (h ++ x))

/-- The text of an import. -/
inductive ImportText : ImportStmt → Text → Prop where
  | mk {q file alias f t u v} : Gap f → PathText q t → InText file u → AsText alias v →
      ImportText ⟨q, file, alias⟩ ('u' :: 's' :: 'e' :: ' ' :: (f ++ (t ++ (u ++ v))))

/-! ## Files -/

/-- How an item ends. -/
inductive Ending where
  | closed
  /-- with an expression -/
  | expr
  /-- with the path or the file of an import -/
  | path

/-- The text of an item, and the documentation of the rule if it is one. -/
inductive ItemText : FileItem → (docs : List (Name × List Text)) → Ending → Text → Prop where
  | closedRule {r ls t} : RuleText r ls false t → ItemText (.rule r) [(r.name, ls)] .closed t
  | openRule {r ls t} : RuleText r ls true t → ItemText (.rule r) [(r.name, ls)] .expr t
  | import {i t} : ImportText i t → ItemText (.imp i) [] (if i.alias = none then .path else .closed) t

/-- The text after an item is not taken as part of it.  After an expression, a rule `~(x)` would be; after an import without another name,
a rule with a name that begins with `as`. -/
def Fits : Ending → Text → Prop
  | .closed, _ => True
  | .expr, t => ¬ ∃ x g r, (x = '~' ∨ x = '^') ∧ Gap g ∧ t = x :: (g ++ '(' :: r)
  | .path, t => ¬ ∃ x r, t = 'a' :: 's' :: x :: r ∧ identPart x

/-- What may stand at the end of a file. -/
inductive Tail : Text → Prop where
  | gap {g} : Gap g → Tail g
  | line {g t} : Gap g → PlainLine t → Tail (g ++ '/' :: '/' :: t)

/-- Items one after the other. -/
inductive ItemsText : List FileItem → (docs : List (Name × List Text)) → Text → Prop where
  | last {i d k t g} : ItemText i d k t → Tail g → ItemsText [i] d (t ++ g)
  | cons {i d k l ds t g u} : ItemText i d k t → Gap g → g ≠ [] → ItemsText l ds u → Fits k u → ItemsText (i :: l) (d ++ ds) (t ++ (g ++ u))

/-- The text of a file: documentation of the grammar, then imports and rules, at least one rule.  `top` is the documentation of the grammar,
`docs` that of the rules. -/
inductive Documented : List FileItem → (top : List Text) → (docs : List (Name × List Text)) → Text → Prop where
  | mk {g d ls items ds t} : Gap g → Docs ['/', '/', '!'] d ls → ItemsText items ds t → (∃ r, .rule r ∈ items) →
      Documented (List.replicate ls.length .doc ++ items) ls ds (g ++ (d ++ t))

/-- The text of a file, whatever its documentation says. -/
def FileText (items : List FileItem) (text : Text) : Prop := ∃ top docs, Documented items top docs text

end Pest3.Load
