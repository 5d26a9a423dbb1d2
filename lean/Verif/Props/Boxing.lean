import Verif.ReachLemmas

/-!
# C49, C50, C51: references between rules and boxing
-/

namespace Pest3.Props
open Pest3 Pest3.Meta Pest3.Gen

/-- The rules named `x` are not boxed. -/
def Unboxed (rules : List Rule) (boxed : Rule → Bool) (x : Name) : Prop :=
  ∀ r ∈ rules, r.name = x → boxed r = false

/-- Some rule named `x` is boxed. -/
def Boxed (rules : List Rule) (boxed : Rule → Bool) (x : Name) : Prop :=
  ∃ r ∈ rules, r.name = x ∧ boxed r = true

theorem reachability_some {rules : List Rule} {m : RefMap} (h : collectReachability rules = some m) :
    (∀ a, (m a).isSome → Defined rules a) ∧
    (∀ n a, ¬ Chain rules (fun x => (m x).isSome) n a a) ∧
    (∀ a, Defined rules a → (m a).isSome ∨ ∃ n, Chain rules (fun _ => True) n a a) := by
  by_cases ht : TriviaDefined rules
  · obtain ⟨m', h', h1⟩ := (collectReachability_spec rules).2 ht
    rw [h] at h'
    injection h' with h'
    subst h'
    exact h1
  · rw [(collectReachability_spec rules).1 ht] at h
    nomatch h

theorem Chain.mono {rules : List Rule} {P Q : Name → Prop} (h : ∀ x, Defined rules x → P x → Q x) {n : Nat} {a b : Name}
    (hc : Chain rules P n a b) : Chain rules Q n a b := by
  induction hc with
  | one hp hr => exact .one (h _ hr.defined hp) hr
  | step hp hr _ ih => exact .step (h _ hr.defined hp) hr ih

theorem unboxed_isSome {rules : List Rule} {m : RefMap} {x : Name} (hd : Defined rules x)
    (h : Unboxed rules (ruleBoxed true m) x) : (m x).isSome := by
  obtain ⟨r, hr, rfl⟩ := hd
  have := h r hr rfl
  simp only [ruleBoxed, Bool.not_true, Bool.false_or] at this
  cases hm : m r.name <;> simp_all

/-- C49: no cycle of references consists of unboxed rules only. -/
theorem C49_cycles_boxed (rules : List Rule) (m : RefMap) (h : collectReachability rules = some m)
    (n : Nat) (a : Name) : ¬ Chain rules (Unboxed rules (ruleBoxed true m)) n a a := by
  intro hc
  exact (reachability_some h).2.1 n a (Chain.mono (fun x hd hu => unboxed_isSome hd hu) hc)

/-- C49: the struct of every rule has a finite size, with and without `box_rules_only_if_needed`. -/
theorem C49_finite_size (rules : List Rule) (m : RefMap) (onlyIfNeeded : Bool)
    (h : collectReachability rules = some m) (a : Name) :
    FiniteSize rules (Boxed rules (ruleBoxed onlyIfNeeded m)) a := by
  cases onlyIfNeeded with
  | false =>
    refine .contains fun b hb => ?_
    by_cases hd : Defined rules b
    · obtain ⟨r, hr, rfl⟩ := hd
      exact .pointer ⟨r, hr, rfl, rfl⟩
    · exact .contains fun c hc => absurd hc.defined hd
  | true =>
    have hfin := finiteSize_of_no_cycle (reachability_some h).2.1 a
    induction hfin with
    | @pointer a hb =>
      by_cases hd : Defined rules a
      · obtain ⟨r, hr, rfl⟩ := hd
        exact .pointer ⟨r, hr, rfl, by simp [ruleBoxed]; simpa using hb⟩
      · exact .contains fun c hc => absurd hc.defined hd
    | contains _ ih => exact .contains ih

/-- C50: with `box_rules_only_if_needed`, only rules on a cycle of references are boxed. -/
theorem C50_minimal (rules : List Rule) (m : RefMap) (h : collectReachability rules = some m)
    (r : Rule) (hr : r ∈ rules) (hb : ruleBoxed true m r = true) :
    ∃ n, Chain rules (fun _ => True) n r.name r.name := by
  rcases (reachability_some h).2.2 r.name ⟨r, hr, rfl⟩ with hs | hc
  · simp [ruleBoxed] at hb
    simp [hb] at hs
  · exact hc

/-- C50: a grammar without cycles of references needs no box at all. -/
theorem C50_acyclic (rules : List Rule) (m : RefMap) (h : collectReachability rules = some m)
    (hac : ∀ n a, ¬ Chain rules (fun _ => True) n a a) (r : Rule) (hr : r ∈ rules) :
    ruleBoxed true m r = false := by
  cases hb : ruleBoxed true m r
  · rfl
  · obtain ⟨n, hc⟩ := C50_minimal rules m h r hr hb
    exact absurd hc (hac n _)

/-- C51: the collection finds exactly the names used, wherever they are, and exactly whether the two trivia
operators are used. -/
theorem C51_collected (rule : Rule) (used : List Name) :
    ∃ u, collectUsedInto rule used = some u ∧
      (∀ x, x ∈ u.names ↔ x ∈ used ∨ Refers x rule.node) ∧
      (u.opt = true ↔ UsesTrivia .optional rule.node) ∧ (u.man = true ↔ UsesTrivia .mandatory rule.node) :=
  collectUsedInto_spec rule used

/-- C51: an undefined trivia is reported exactly if its operator is used in some rule. -/
theorem C51_undefined_trivia (rules : List Rule) :
    collectReachability rules = none ↔ ¬ TriviaDefined rules := by
  constructor
  · intro h ht
    obtain ⟨m, hm, _⟩ := (collectReachability_spec rules).2 ht
    rw [h] at hm; nomatch hm
  · exact (collectReachability_spec rules).1

/-- The rules `a = "a" - b*`, `b = "b" - c?`, `c = a+`. -/
def cyclic : List Rule :=
  [⟨['a'], [], .seq (.str ['a']) (.rep (.path [['b']])) .none, false⟩,
   ⟨['b'], [], .seq (.str ['b']) (.opt (.path [['c']])) .none, false⟩,
   ⟨['c'], [], .repOnce (.path [['a']]), false⟩]

/-- C49/C50: there `a` and `c` are boxed and `b` is not; `b`'s content contains `c` but `c` is a pointer. -/
example : (collectReachability cyclic).map (fun m => cyclic.map (ruleBoxed true m)) = some [true, false, true] := by
  decide

/-- The cycle of that example. -/
example : Chain cyclic (fun _ => True) 3 ['a'] ['a'] := by
  refine .step trivial (b := ['b']) ⟨_, .head _, rfl, _, .seqR (.rep .refl), .inl rfl⟩ ?_
  refine .step trivial (b := ['c']) ⟨_, .tail _ (.head _), rfl, _, .seqR (.opt .refl), .inl rfl⟩ ?_
  exact .one trivial ⟨_, .tail _ (.tail _ (.head _)), rfl, _, .repOnce .refl, .inl rfl⟩

/-- C51: `f(x ~ y) - m::z[..]` uses `f`, `x` and `y` and the optional trivia operator. -/
example :
    collectUsedInto ⟨['r'], [], .seq (.call [['f']] [.seq (.path [['x']]) (.path [['y']]) .optional])
      (.slice [['m'], ['z']] ⟨none, none⟩) .none, false⟩ [] = some ⟨true, false, [['x'], ['y'], ['f']]⟩ := by
  rfl

/-- C51: the same rule alone is reported, as `~` is not defined. -/
example :
    collectReachability [⟨['r'], [], .seq (.path [['x']]) (.path [['y']]) .optional, false⟩] = none := by
  rfl

end Pest3.Props
