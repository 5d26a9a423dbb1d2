import Verif.States

/-!
# Specification: what expressions of character ranges, sequences, choices and repetitions match
-/

namespace Pest3.States

/-- Expressions for which the state builder has code. -/
def Form.Supported : Form → Prop
  | .range _ _ => True
  | .seq l r | .choice l r => l.Supported ∧ r.Supported
  | .rep e => e.Supported
  | _ => False

/-- All ranges are of characters below U+0080. -/
def Form.Ascii : Form → Prop
  | .range lo hi => lo.toNat < 128 ∧ hi.toNat < 128
  | .seq l r | .choice l r => l.Ascii ∧ r.Ascii
  | .rep e => e.Ascii
  | _ => False

/-- The expression with every range that names a character above U+007F replaced by one that matches nothing. -/
def Form.narrow : Form → Form
  | .range lo hi => if lo.toNat < 128 ∧ hi.toNat < 128 then .range lo hi else .range 'b' 'a'
  | .seq l r => .seq l.narrow r.narrow
  | .choice l r => .choice l.narrow r.narrow
  | .rep e => .rep e.narrow
  | e => e

/-- As in grammars: the text ahead, and what is left of it, or `none` if it does not match. -/
inductive Matches : Form → Text → Option Text → Prop
  | rangeOk {lo hi x s} : lo ≤ x → x ≤ hi → Matches (.range lo hi) (x :: s) (some s)
  | rangeFail {lo hi s} : (∀ x s', s = x :: s' → lo ≤ x → ¬ x ≤ hi) → Matches (.range lo hi) s none
  | seq {l r s s' o} : Matches l s (some s') → Matches r s' o → Matches (.seq l r) s o
  | seqFail {l r s} : Matches l s none → Matches (.seq l r) s none
  | choiceL {l r s s'} : Matches l s (some s') → Matches (.choice l r) s (some s')
  | choiceR {l r s o} : Matches l s none → Matches r s o → Matches (.choice l r) s o
  | repMore {e s s' o} : Matches e s (some s') → Matches (.rep e) s' o → Matches (.rep e) s o
  | repStop {e s} : Matches e s none → Matches (.rep e) s (some s)

/-- The same without going back: where an alternative, or an item, has failed, it goes on from there. -/
inductive Onward : Form → Text → Bool → Text → Prop
  | rangeOk {lo hi x s} : lo ≤ x → x ≤ hi → Onward (.range lo hi) (x :: s) true s
  | rangeFail {lo hi s} : (∀ x s', s = x :: s' → lo ≤ x → ¬ x ≤ hi) → Onward (.range lo hi) s false s
  | seq {l r s s' b s''} : Onward l s true s' → Onward r s' b s'' → Onward (.seq l r) s b s''
  | seqFail {l r s s'} : Onward l s false s' → Onward (.seq l r) s false s'
  | choiceL {l r s s'} : Onward l s true s' → Onward (.choice l r) s true s'
  | choiceR {l r s s' b s''} : Onward l s false s' → Onward r s' b s'' → Onward (.choice l r) s b s''
  | repMore {e s s' b s''} : Onward e s true s' → Onward (.rep e) s' b s'' → Onward (.rep e) s b s''
  | repStop {e s s'} : Onward e s false s' → Onward (.rep e) s true s'

/-- Cannot fail. -/
def Form.Sure : Form → Prop
  | .seq l r => l.Sure ∧ r.Sure
  | .choice l r => l.Sure ∨ r.Sure
  | .rep _ => True
  | _ => False

/-- Does not fail after having taken something. -/
def Form.Prompt : Form → Prop
  | .range _ _ | .rep _ => True
  | .seq l r => l.Prompt ∧ r.Sure
  | .choice l r => l.Prompt ∧ r.Prompt
  | _ => False

/-- Alternatives that are followed by others, and items of repetitions, do not fail after having taken something. -/
def Form.Steady : Form → Prop
  | .range _ _ => True
  | .seq l r => l.Steady ∧ r.Steady
  | .choice l r => l.Prompt ∧ l.Steady ∧ r.Steady
  | .rep e => e.Prompt ∧ e.Steady
  | _ => False

/-- Takes something if it matches. -/
def Form.Takes : Form → Prop
  | .range _ _ => True
  | .seq l r => l.Takes ∨ r.Takes
  | .choice l r => l.Takes ∧ r.Takes
  | _ => False

/-- Items of repetitions take something. -/
def Form.Ends : Form → Prop
  | .range _ _ => True
  | .seq l r | .choice l r => l.Ends ∧ r.Ends
  | .rep e => e.Takes ∧ e.Ends
  | _ => False

/-- The methods that a body calls. -/
def Body.calls : Body → List Nat
  | .stop | .fail => []
  | .byte _ _ a r | .wide _ _ _ a r => [a, r]
  | .go id => [id]

end Pest3.States
