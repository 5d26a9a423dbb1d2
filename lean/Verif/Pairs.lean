import Verif.PegTree

/-!
# Model of the token-tree API (`core/src/token/mod.rs`, `PairContainer` and `PairTree` implementations)

`FnMut(Pair)` callbacks are modelled by the list of pairs they are called with, in order.  `R` is the
rule type; `lab` gives the value of `R` for a label (`Rule::name`, followed by `.cvt_into()` once per
enclosing grammar module for the super rules: `generator.rs:196-226`).
-/

namespace Pest3

/-- `Pair<R>` (`core/src/token/mod.rs:9-18`). -/
inductive Pair (R : Type) where
  | mk (rule : R) (start stop : Nat) (children : List (Pair R))

namespace Pair
variable {R R' : Type}

def rule : Pair R → R | mk r _ _ _ => r
def start : Pair R → Nat | mk _ a _ _ => a
def stop : Pair R → Nat | mk _ _ b _ => b
def children : Pair R → List (Pair R) | mk _ _ _ cs => cs

mutual
/-- `Pair::convert` (`core/src/token/mod.rs:21-41`). -/
def convert (f : R → R') : Pair R → Pair R'
  | mk r a b cs => mk (f r) a b (converts f cs)
/-- The `map` over the children (`core/src/token/mod.rs:31-34`). -/
def converts (f : R → R') : List (Pair R) → List (Pair R')
  | [] => []
  | p :: ps => convert f p :: converts f ps
end

end Pair

section
variable {R : Type} (env : Env) (lab : Label → R)

mutual
/-- `for_self_or_for_each_child_pair`.  Defaults to `for_each_child_pair` (`traits.rs:175-177`), except
for rules (`generator.rs:187-188`, `:208-211`).  For a rule that is not silent, `as_pair_tree`
(`traits.rs:209-219`) with children `vec_children_pairs` (default, `traits.rs:181-185`) of the rule,
that is `content.for_self_or_for_each_child_pair` (`generator.rs:205-207`). -/
def Tree.selfPairs : Tree → List (Pair R)
  | .leaf _ => []                       -- EmptyPairContainer
  | .positive _ => []                   -- template/mod.rs:396
  | .negative => []                     -- template/mod.rs:459
  | .push t => t.selfPairs              -- template/mod.rs:959-961
  | .optNone => []                      -- traits.rs:188-194
  | .optSome t => t.selfPairs
  | .rep ts => Tree.selfPairsList ts    -- template/repetition.rs:207-211
  | .seq ts => Tree.selfPairsList ts    -- sequence.rs:94-98
  | .choice _ t => t.selfPairs          -- choice.rs:92-98
  | .rule id t s =>
    if (env id).silent then [] else [.mk (lab (env id).label) s.start s.stop t.selfPairs]
/-- One call per item, in order (`template/repetition.rs:208-210`, `sequence.rs:95-97`). -/
def Tree.selfPairsList : List Tree → List (Pair R)
  | [] => []
  | t :: ts => t.selfPairs ++ Tree.selfPairsList ts
end

/-- `for_each_child_pair`: differs from the previous method only on rules (`generator.rs:187`, `:204-206`). -/
def Tree.childPairs : Tree → List (Pair R)
  | .rule id t _ => if (env id).silent then [] else t.selfPairs env lab
  | t => t.selfPairs env lab

/-- `vec_children_pairs` (`traits.rs:181-185`), with the override of `push` (`template/mod.rs:962-964`). -/
def Tree.vecChildren : Tree → List (Pair R)
  | .push t => t.vecChildren
  | t => t.childPairs env lab

/-- `PairTree::as_pair_tree` (`traits.rs:209-219`); only rules that are not silent implement it. -/
def Tree.asPairTree : Tree → Option (Pair R)
  | .rule id t s =>
    if (env id).silent then none
    else some (.mk (lab (env id).label) s.start s.stop (Tree.vecChildren env lab (.rule id t s)))
  | _ => none

end

end Pest3
