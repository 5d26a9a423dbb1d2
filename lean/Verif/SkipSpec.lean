import Verif.Utf8

/-!
# Specification: texts with comments
-/

namespace Pest3.Skip
open Pest3

/-- What may stand between the beginning of a comment and its end: a text in which the comment does not end earlier. -/
def Open (c : Text) : Prop := ∀ a b, c ++ ['*', '/'] = a ++ ['*', '/'] ++ b → b = []

/-- A blank or a comment. -/
inductive Gap : Text → Prop where
  | blank : Gap [' ']
  | comment {c} : Open c → Gap ('/' :: '*' :: (c ++ ['*', '/']))

/-- Any number of blanks and comments. -/
inductive Gaps : Text → Prop where
  | nil : Gaps []
  | cons {g t} : Gap g → Gaps t → Gaps (g ++ t)

/-- Further `x`, each of them after something. -/
inductive More (T : Text → Prop) : Text → Prop where
  | nil : More T []
  | cons {t s} : T t → More T s → More T (t ++ 'x' :: s)

/-- One or more `x`, with something between two of them. -/
def Xs (T : Text → Prop) (t : Text) : Prop := ∃ s, t = 'x' :: s ∧ More T s

/-- Blanks, comments and `x` in any order. -/
inductive Program : Text → Prop where
  | nil : Program []
  | gap {g t} : Gap g → Program t → Program (g ++ t)
  | x {t} : Program t → Program ('x' :: t)

end Pest3.Skip
