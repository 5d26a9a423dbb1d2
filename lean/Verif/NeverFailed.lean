import Verif.Interp

/-!
# Model of the infallible entry points (`NeverFailedTypedNode`)
-/

namespace Pest3

section
variable {S T : Type} (so : StackOps S) (recP : ParseFn S T) (recC : CheckFn S T)

/-- The loop of `RepMinMax::<T, TRIVIA, 0, MAX>::parse_with_partial` (`template/repetition.rs:69-87`):
position and items collected.  First argument: iterations left. -/
def neverFailedLoop (n trivia : Node) :
    Nat → Nat → Position → St S T → Res ((Position × List Tree) × St S T)
  | 0, _, input, st => .ok ((input, []), st)
  | remaining + 1, i, input, st =>
    match restoreOnNone so st (parseUnit recP recC n trivia i input) with
    | .ok (some (next, t), st) =>
      match neverFailedLoop n trivia remaining (i + 1) next st with
      | .ok ((q, ts), st) => .ok ((q, t :: ts), st)
      | .panic => .panic
      | .oof => .oof
    | .ok (none, st) => .ok ((input, []), st)
    | .panic => .panic
    | .oof => .oof

end

section
variable {S : Type} (so : StackOps S) (env : Env) (fuel : Nat)

/-- `RepMinMax::<T, TRIVIA, 0, MAX>::parse_with_partial` (`template/repetition.rs:64-95`); the tracker is local
and dropped. -/
def repParseWithPartial (n trivia : Node) (max : Nat) (input : Position) (stk : S) : Res ((Position × Tree) × S) :=
  match neverFailedLoop so (parse so realTracker env fuel) (check so realTracker env fuel) n trivia max 0 input
      ⟨stk, Tracker.new input⟩ with
  | .ok ((q, ts), st) => .ok ((q, .rep ts), st.stk)
  | .panic => .panic
  | .oof => .oof

/-- `NeverFailedTypedNode::parse_partial` (`traits.rs:303-308`) of `RepMinMax<T, TRIVIA, 0, MAX>`. -/
def repParsePartial (n trivia : Node) (max : Nat) (input : Str) : Res (Position × Tree) :=
  match repParseWithPartial so env fuel n trivia max (Position.fromStart input) so.empty with
  | .ok (r, _) => .ok r
  | .panic => .panic
  | .oof => .oof

/-- `Empty::parse_with_partial` (`template/mod.rs:544-551`). -/
def emptyParseWithPartial (input : Position) (stk : S) : (Position × Tree) × S := ((input, .leaf .unit), stk)

end

/-! ## The loop is that of the fallible method with `MIN = 0` -/

theorem neverFailedLoop_eq {S T : Type} (so : StackOps S) (recP : ParseFn S T) (recC : CheckFn S T) (n trivia : Node) :
    ∀ (k i : Nat) (p : Position) (st : St S T),
      parseRep so recP recC n trivia 0 k i p st =
        match neverFailedLoop so recP recC n trivia k i p st with
        | .ok (r, st) => .ok (some r, st)
        | .panic => .panic
        | .oof => .oof := by
  intro k
  induction k with
  | zero => intro i p st; rfl
  | succ k ih =>
    intro i p st
    rw [parseRep, neverFailedLoop]
    cases restoreOnNone so st (parseUnit recP recC n trivia i p) with
    | panic => rfl
    | oof => rfl
    | ok r =>
      obtain ⟨o, st'⟩ := r
      cases o with
      | none => simp
      | some x =>
        obtain ⟨q, t⟩ := x
        simp only [Out.bind_ok]
        rw [ih]
        cases neverFailedLoop so recP recC n trivia k (i + 1) q st' with
        | panic => rfl
        | oof => rfl
        | ok r => rfl

theorem repParseWithPartial_eq {S : Type} (so : StackOps S) (env : Env) (fuel : Nat) (n trivia : Node) (max : Nat)
    (p : Position) (stk : S) :
    repParseWithPartial so env fuel n trivia max p stk =
      match parse so realTracker env (fuel + 1) (.rep n trivia 0 max) p ⟨stk, Tracker.new p⟩ with
      | .ok (some r, st) => .ok (r, st.stk)
      | .ok (none, _) => .panic
      | .panic => .panic
      | .oof => .oof := by
  rw [parse, parseStep, repParseWithPartial, neverFailedLoop_eq]
  cases neverFailedLoop so (parse so realTracker env fuel) (check so realTracker env fuel) n trivia max 0 p
      ⟨stk, Tracker.new p⟩ with
  | panic => rfl
  | oof => rfl
  | ok r => rfl

end Pest3
