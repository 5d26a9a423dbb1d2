import Verif.Node

/-!
# Model of `try_parse_with_partial` and `check_with_partial` for every node type

Both are defined by recursion over *fuel*; each case is a transcription of the method of that type.  The
stack and the tracker are `&mut` parameters: their new values are part of the result, also on failure.
-/

namespace Pest3

/-- Result of a modelled function that may panic or not terminate (`oof`: out of fuel). -/
inductive Res (α : Type) where
  | ok (a : α)
  | panic
  | oof
deriving DecidableEq, Repr

/-- The two mutable parameters. -/
structure St (S T : Type) where
  stk : S
  trk : T
deriving DecidableEq, Repr

/-- `Option<α>` together with the new stack and tracker. -/
abbrev Out (S T α : Type) := Res (Option α × St S T)

namespace Out
variable {S T α β : Type}

/-- Sequencing: continue with the option that was returned. -/
def bind (x : Out S T α) (k : Option α → St S T → Out S T β) : Out S T β :=
  match x with
  | .ok (o, st) => k o st
  | .panic => .panic
  | .oof => .oof

/-- The `?` operator. -/
def andThen (x : Out S T α) (k : α → St S T → Out S T β) : Out S T β :=
  x.bind fun o st => match o with
    | some a => k a st
    | none => .ok (none, st)

/-- Continue with the value of a function that may panic (`none`). -/
def lift (o : Option α) (k : α → Out S T β) : Out S T β :=
  match o with
  | some a => k a
  | none => .panic

@[simp] theorem bind_ok (o : Option α) (st : St S T) (k : Option α → St S T → Out S T β) :
    bind (.ok (o, st)) k = k o st := rfl
@[simp] theorem bind_panic (k : Option α → St S T → Out S T β) : bind (.panic) k = .panic := rfl
@[simp] theorem bind_oof (k : Option α → St S T → Out S T β) : bind (.oof) k = .oof := rfl
@[simp] theorem andThen_some (a : α) (st : St S T) (k : α → St S T → Out S T β) :
    andThen (.ok (some a, st)) k = k a st := rfl
@[simp] theorem andThen_none (st : St S T) (k : α → St S T → Out S T β) :
    andThen (.ok (none, st)) k = .ok (none, st) := rfl
@[simp] theorem andThen_panic (k : α → St S T → Out S T β) : andThen (.panic) k = .panic := rfl
@[simp] theorem andThen_oof (k : α → St S T → Out S T β) : andThen (.oof) k = .oof := rfl
@[simp] theorem lift_some (a : α) (k : α → Out S T β) : lift (some a) k = k a := rfl
@[simp] theorem lift_none (k : α → Out S T β) : lift none k = .panic := rfl

end Out

section Helpers

/-- `constrain_idx` (`template/mod.rs:263-273`). -/
def constrainIdx (index : Int) (len : Nat) : Option Nat :=
  if index > (len : Int) then none
  else if index ≥ 0 then some index.toNat
  else if index ≥ -(len : Int) then some (index + (len : Int)).toNat
  else none

/-- `constrain_idxs` (`template/mod.rs:275-285`). -/
def constrainIdxs (start : Int) (stop : Option Int) (len : Nat) : Option (Nat × Nat) :=
  let start := constrainIdx start len
  let stop := match stop with
    | some e => constrainIdx e len
    | none => some len
  match start, stop with
  | some a, some b => some (a, b)
  | _, _ => none

/-- Indexing the stack with `a..b`; `none`: panic. -/
def sliceRange (l : List Span) (a b : Nat) : Option (List Span) :=
  if a ≤ b ∧ b ≤ l.length then some ((l.take b).drop a) else none

/-- `peek_spans` (`template/mod.rs:313-328`), the loop; outer `none`: panic in `as_str`. -/
def peekSpansLoop (pos : Position) : List Span → Option (Option Position)
  | [] => some (some pos)
  | s :: rest =>
    match s.asStr with
    | none => none
    | some str =>
      match pos.matchString str with
      | (true, pos') => peekSpansLoop pos' rest
      | (false, _) => some none

/-- `peek_spans` (`template/mod.rs:313-328`); outer `none`: panic. -/
def peekSpans (input : Position) (spans : List Span) : Option (Option (Position × Span)) :=
  match peekSpansLoop input spans with
  | none => none
  | some none => some none
  | some (some p) =>
    match input.span p with
    | none => none
    | some sp => some (some (p, sp))

/-- `match_char_by` (`template/mod.rs:1067-1077`): also returns the matched character. -/
def matchCharByRes (pos : Position) (pred : Char → Bool) : Option (Option Char × Position) :=
  match getFrom pos.input.text pos.pos with
  | none => none
  | some [] => some (none, pos)
  | some (c :: _) =>
    if pred c then some (some c, { pos with pos := pos.pos + c.utf8Size }) else some (none, pos)

end Helpers

section
variable {S T : Type} (so : StackOps S) (tk : TrackerOps T)

/-- `stack_slice` (`template/mod.rs:289-308`). -/
def stackSlice (input : Position) (start : Int) (stop : Option Int) (st : St S T) :
    Out S T (List Span) :=
  match constrainIdxs start stop (so.elems st.stk).length with
  | none =>
    Out.lift (tk.special input (.sliceOutOfBound start stop) st.trk) fun t => .ok (none, { st with trk := t })
  | some (a, b) =>
    if b ≤ a then .ok (some [], st)
    else Out.lift (sliceRange (so.elems st.stk) a b) fun l => .ok (some l, st)

/-- `while stack.pop().is_some() {}` (`template/mod.rs:885`, `:895`); the loop runs at most once per
element, so the number of elements bounds it. -/
def popLoop : Nat → S → S
  | 0, s => s
  | n + 1, s =>
    match so.pop s with
    | (some _, s') => popLoop n s'
    | (none, s') => s'

/-- `peek_all::try_parse_with_partial` (`template/mod.rs:687-695`), without building the struct. -/
def peekAllSpan (input : Position) (st : St S T) : Out S T (Position × Span) :=
  Out.lift (sliceRange (so.elems st.stk) 0 (so.elems st.stk).length) fun l =>
    Out.lift (peekSpans input l.reverse) fun o => .ok (o, st)

/-- `stack.pop()` of a non-empty stack; on an empty one `tracker.empty_stack(input)`. -/
def popOr (input : Position) (st : St S T) : Out S T Span :=
  match so.pop st.stk with
  | (some s, stk) => .ok (some s, { st with stk := stk })
  | (none, stk) => Out.lift (tk.special input .emptyStack st.trk) fun t => .ok (none, ⟨stk, t⟩)

/-- `stack.peek()`; on an empty stack `tracker.empty_stack(input)`. -/
def peekOr (input : Position) (st : St S T) : Out S T Span :=
  match so.peek st.stk with
  | some s => .ok (some s, st)
  | none => Out.lift (tk.special input .emptyStack st.trk) fun t => .ok (none, { st with trk := t })

/-- `check_with_partial` of the leaf types (line numbers at the constructors of `Leaf`). -/
def leafCheck (l : Leaf) (input : Position) (st : St S T) : Out S T Position :=
  match l with
  | .str s =>
    match input.matchString s with
    | (true, p) => .ok (some p, st)
    | (false, _) => .ok (none, st)
  | .insens s => Out.lift (input.matchInsensitive s) fun
    | (true, p) => .ok (some p, st)
    | (false, _) => .ok (none, st)
  | .skipChar n => Out.lift (input.skip n) fun
    | (true, p) => .ok (some p, st)
    | (false, _) => .ok (none, st)
  | .range lo hi => Out.lift (input.matchRange lo hi) fun
    | (true, p) => .ok (some p, st)
    | (false, _) => .ok (none, st)
  | .chr c =>
    match input.matchString [c] with
    | (true, p) => .ok (some p, st)
    | (false, _) => .ok (none, st)
  | .prop f => Out.lift (matchCharByRes input f) fun
    | (some _, p) => .ok (some p, st)
    | (none, _) => .ok (none, st)
  | .any => Out.lift (input.matchCharBy fun _ => true) fun
    | (true, p) => .ok (some p, st)
    | (false, _) => .ok (none, st)
  | .none => .ok (none, st)
  | .empty => .ok (some input, st)
  | .soi => if input.atStart then .ok (some input, st) else .ok (none, st)
  | .eoi => if input.atEnd then .ok (some input, st) else .ok (none, st)
  | .newline =>
    match input.matchString ['\r', '\n'] with
    | (true, p) => .ok (some p, st)
    | (false, p) =>
      match p.matchString ['\n'] with
      | (true, p) => .ok (some p, st)
      | (false, p) =>
        match p.matchString ['\r'] with
        | (true, p) => .ok (some p, st)
        | (false, _) => .ok (none, st)
  | .peekAll => (peekAllSpan so input st).andThen fun r st => .ok (some r.1, st)
  | .peek => (peekOr so tk input st).andThen fun span st =>
    Out.lift span.asStr fun s =>
      match input.matchString s with
      | (true, p) => .ok (some p, st)
      | (false, _) => .ok (none, st)
  | .drop => (popOr so tk input st).andThen fun _ st => .ok (some input, st)
  | .pop => (popOr so tk input st).andThen fun span st =>
    Out.lift span.asStr fun s =>
      match input.matchString s with
      | (true, p) => .ok (some p, st)
      | (false, _) => .ok (none, st)
  | .popAll => (peekAllSpan so input st).andThen fun r st =>
    .ok (some r.1, { st with stk := popLoop so ((so.elems st.stk).length + 1) st.stk })
  | .slice2 a b => (stackSlice so tk input a (some b) st).andThen fun l st =>
    Out.lift (peekSpans input l) fun o => .ok (o.map (·.1), st)
  | .slice1 a => (stackSlice so tk input a none st).andThen fun l st =>
    Out.lift (peekSpans input l) fun o => .ok (o.map (·.1), st)

/-- `try_parse_with_partial` of the leaf types (line numbers at the constructors of `Leaf`). -/
def leafParse (l : Leaf) (input : Position) (st : St S T) : Out S T (Position × LeafVal) :=
  match l with
  | .str s =>
    match input.matchString s with
    | (true, p) => .ok (some (p, .unit), st)
    | (false, _) => .ok (none, st)
  | .insens s => Out.lift (input.matchInsensitive s) fun
    | (true, p) => Out.lift (input.span p) fun span => Out.lift span.asStr fun str =>
        .ok (some (p, .content str), st)
    | (false, _) => .ok (none, st)
  | .skipChar n => Out.lift (input.skip n) fun
    | (true, p) => Out.lift (input.span p) fun span => .ok (some (p, .span span), st)
    | (false, _) => .ok (none, st)
  | .range lo hi => Out.lift (input.matchRange lo hi) fun
    | (true, p) => Out.lift (input.span p) fun span => Out.lift span.asStr fun str =>
        Out.lift str.head? fun c => .ok (some (p, .chr c), st)
    | (false, _) => .ok (none, st)
  | .chr c =>
    match input.matchString [c] with
    | (true, p) => .ok (some (p, .unit), st)
    | (false, _) => .ok (none, st)
  | .prop f => Out.lift (matchCharByRes input f) fun
    | (some c, p) => .ok (some (p, .chr c), st)
    | (none, _) => .ok (none, st)
  | .any => Out.lift input.nextChar fun
    | (some c, p) => .ok (some (p, .chr c), st)
    | (none, _) => .ok (none, st)
  | .none => .ok (none, st)
  | .empty => .ok (some (input, .unit), st)
  | .soi => if input.atStart then .ok (some (input, .unit), st) else .ok (none, st)
  | .eoi => if input.atEnd then .ok (some (input, .unit), st) else .ok (none, st)
  | .newline =>
    match input.matchString ['\r', '\n'] with
    | (true, p) => .ok (some (p, .nl .crlf), st)
    | (false, p) =>
      match p.matchString ['\n'] with
      | (true, p) => .ok (some (p, .nl .lf), st)
      | (false, p) =>
        match p.matchString ['\r'] with
        | (true, p) => .ok (some (p, .nl .cr), st)
        | (false, _) => .ok (none, st)
  | .peekAll => (peekAllSpan so input st).andThen fun r st => .ok (some (r.1, .span r.2), st)
  | .peek => (peekOr so tk input st).andThen fun span st =>
    Out.lift span.asStr fun s =>
      match input.matchString s with
      | (true, p) => Out.lift (input.span p) fun sp => .ok (some (p, .span sp), st)
      | (false, _) => .ok (none, st)
  | .drop => (popOr so tk input st).andThen fun _ st => .ok (some (input, .unit), st)
  | .pop => (popOr so tk input st).andThen fun span st =>
    Out.lift span.asStr fun s =>
      match input.matchString s with
      | (true, p) => .ok (some (p, .span span), st)
      | (false, _) => .ok (none, st)
  | .popAll => (peekAllSpan so input st).andThen fun r st =>
    .ok (some (r.1, .span r.2), { st with stk := popLoop so ((so.elems st.stk).length + 1) st.stk })
  | .slice2 a b => (stackSlice so tk input a (some b) st).andThen fun l st =>
    Out.lift (peekSpans input l) fun o => .ok (o.map fun r => (r.1, .unit), st)
  | .slice1 a => (stackSlice so tk input a none st).andThen fun l st =>
    Out.lift (peekSpans input l) fun o => .ok (o.map fun r => (r.1, .unit), st)

/-- The type of `check_with_partial` at every node. -/
abbrev CheckFn (S T : Type) := Node → Position → St S T → Out S T Position

/-- The type of `try_parse_with_partial` at every node. -/
abbrev ParseFn (S T : Type) := Node → Position → St S T → Out S T (Position × Tree)

/-- `stack.snapshot()`. -/
def St.snapshot (st : St S T) : St S T := { st with stk := so.snapshot st.stk }
/-- `stack.clear_snapshot()`. -/
def St.clear (st : St S T) : St S T := { st with stk := so.clear st.stk }
/-- `stack.restore()`. -/
def St.restore (st : St S T) : St S T := { st with stk := so.restore st.stk }
/-- Setting `tracker.positive`. -/
def St.setPositive (b : Bool) (st : St S T) : St S T := { st with trk := tk.setPositive b st.trk }
/-- `stack.push(span)`. -/
def St.push (sp : Span) (st : St S T) : St S T := { st with stk := so.push sp st.stk }
/-- Entering a rule (`tracker.rs:184-187`). -/
def St.enter (r : Label) (p : Position) (st : St S T) : St S T := { st with trk := tk.enter r p st.trk }
/-- Leaving a rule (`tracker.rs:189-194`). -/
def St.leave (r : Label) (p : Position) (b : Bool) (st : St S T) : Option (St S T) :=
  (tk.leave r p b st.trk).map fun t => { st with trk := t }

/-- `restore_on_none` (`template/mod.rs:1080-1091`). -/
def restoreOnNone {α : Type} (st : St S T) (f : St S T → Out S T α) : Out S T α :=
  (f (st.snapshot so)).bind fun res st => match res with
    | some a => .ok (some a, st.clear so)
    | none => .ok (none, st.restore so)

section Check
variable (rec : CheckFn S T)

/-- `choice_type!`, `check_with_partial` (`choice.rs:54-72`). -/
def checkAlts (input : Position) : List Node → St S T → Out S T Position
  | [], st => .ok (none, st)
  | a :: rest, st =>
    (rec a input (st.snapshot so)).bind fun res st => match res with
      | some p => .ok (some p, st.clear so)
      | none => checkAlts input rest (st.restore so)

/-- `sequence_type!`, `check_with_partial` (`sequence.rs:70-85`); `first` is `i <= 1`. -/
def checkFields (first : Bool) (input : Position) : List (Node × Node) → St S T → Out S T Position
  | [], st => .ok (some input, st)
  | (trivia, field) :: rest, st =>
    (if first then .ok (some input, st) else rec trivia input st).andThen fun input st =>
      (rec field input st).andThen fun next st => checkFields false next rest st

/-- `check_unit` (`template/repetition.rs:239-251`). -/
def checkUnit (n trivia : Node) (i : Nat) (input : Position) (st : St S T) : Out S T Position :=
  (if i > 0 then rec trivia input st else .ok (some input, st)).andThen fun input st =>
    (rec n input st).andThen fun next st => .ok (some next, st)

/-- The loop of `RepMinMax::check_with_partial` (`template/repetition.rs:145-162`); `remaining` is
`MAX - i`. -/
def checkRep (n trivia : Node) (min : Nat) : Nat → Nat → Position → St S T → Out S T Position
  | 0, _, input, st => .ok (some input, st)
  | remaining + 1, i, input, st =>
    (restoreOnNone so st (checkUnit rec n trivia i input)).bind fun res st => match res with
      | some next => checkRep n trivia min remaining (i + 1) next st
      | none => if i < min then .ok (none, st) else .ok (some input, st)

/-- `check_with_partial` of every node type, with recursive calls through `rec`. -/
def checkStep (env : Env) : CheckFn S T := fun n input st =>
  match n with
  | .leaf l => leafCheck so tk l input st
  | .positive n =>
    -- template/mod.rs:376-394
    let original := tk.positive st.trk
    (rec n input ((st.setPositive tk true).snapshot so)).bind fun res st =>
      .ok (res.map fun _ => input, (st.restore so).setPositive tk original)
  | .negative n =>
    -- template/mod.rs:434-452
    let original := tk.positive st.trk
    (rec n input ((st.setPositive tk false).snapshot so)).bind fun res st =>
      .ok (match res with | some _ => none | none => some input,
        (st.restore so).setPositive tk original)
  | .push n =>
    -- template/mod.rs:931-940
    (rec n input st).andThen fun next st =>
      Out.lift (input.span next) fun sp => .ok (some next, st.push so sp)
  | .opt n =>
    -- traits.rs:242-258
    (rec n input (st.snapshot so)).bind fun res st => match res with
      | some p => .ok (some p, st.clear so)
      | none => .ok (some input, st.restore so)
  | .rep n trivia min max => checkRep so rec n trivia min max 0 input st
  | .seq fields => checkFields rec true input fields st
  | .choice alts => checkAlts so rec input alts st
  | .rule id =>
    -- traits.rs:152-165, tracker.rs:178-195
    (rec (env id).body input (st.enter tk (env id).label input)).bind fun res st =>
      Out.lift (st.leave tk (env id).label input res.isSome) fun st => .ok (res, st)

end Check

/-- `check_with_partial`. -/
def check (env : Env) : Nat → CheckFn S T
  | 0 => fun _ _ _ => .oof
  | fuel + 1 => checkStep so tk (check env fuel) env

section Parse
variable (recP : ParseFn S T) (recC : CheckFn S T)

/-- `choice_type!`, `try_parse_with_partial` (`choice.rs:33-52`); `i` numbers the variants. -/
def parseAlts (input : Position) : Nat → List Node → St S T → Out S T (Position × Tree)
  | _, [], st => .ok (none, st)
  | i, a :: rest, st =>
    (recP a input (st.snapshot so)).bind fun res st => match res with
      | some (p, t) => .ok (some (p, .choice i t), st.clear so)
      | none => parseAlts input (i + 1) rest (st.restore so)

/-- `sequence_type!`, `try_parse_with_partial` (`sequence.rs:49-68`): the fields parsed. -/
def parseFields (first : Bool) (input : Position) :
    List (Node × Node) → St S T → Out S T (Position × List Tree)
  | [], st => .ok (some (input, []), st)
  | (trivia, field) :: rest, st =>
    (if first then .ok (some input, st) else recC trivia input st).andThen fun input st =>
      (recP field input st).andThen fun r st =>
        (parseFields false r.1 rest st).andThen fun rs st => .ok (some (rs.1, r.2 :: rs.2), st)

/-- `try_parse_unit` (`template/repetition.rs:224-236`). -/
def parseUnit (n trivia : Node) (i : Nat) (input : Position) (st : St S T) : Out S T (Position × Tree) :=
  (if i > 0 then recC trivia input st else .ok (some input, st)).andThen fun input st =>
    (recP n input st).andThen fun r st => .ok (some r, st)

/-- The loop of `RepMinMax::try_parse_with_partial` (`template/repetition.rs:113-137`). -/
def parseRep (n trivia : Node) (min : Nat) :
    Nat → Nat → Position → St S T → Out S T (Position × List Tree)
  | 0, _, input, st => .ok (some (input, []), st)
  | remaining + 1, i, input, st =>
    (restoreOnNone so st (parseUnit recP recC n trivia i input)).bind fun res st => match res with
      | some (next, t) =>
        (parseRep n trivia min remaining (i + 1) next st).andThen fun rs st =>
          .ok (some (rs.1, t :: rs.2), st)
      | none => if i < min then .ok (none, st) else .ok (some (input, []), st)

/-- `try_parse_with_partial` of every node type, with recursive calls through `recP` and `recC`. -/
def parseStep (env : Env) : ParseFn S T := fun n input st =>
  match n with
  | .leaf l => (leafParse so tk l input st).andThen fun r st => .ok (some (r.1, .leaf r.2), st)
  | .positive n =>
    -- template/mod.rs:356-374
    let original := tk.positive st.trk
    (recP n input ((st.setPositive tk true).snapshot so)).bind fun res st =>
      .ok (res.map fun r => (input, .positive r.2), (st.restore so).setPositive tk original)
  | .negative n =>
    -- template/mod.rs:414-432
    let original := tk.positive st.trk
    (recC n input ((st.setPositive tk false).snapshot so)).bind fun res st =>
      .ok (match res with | some _ => none | none => some (input, .negative),
        (st.restore so).setPositive tk original)
  | .push n =>
    -- template/mod.rs:920-929
    (recP n input st).andThen fun r st =>
      Out.lift (input.span r.1) fun sp => .ok (some (r.1, .push r.2), st.push so sp)
  | .opt n =>
    -- traits.rs:224-240
    (recP n input (st.snapshot so)).bind fun res st => match res with
      | some (p, t) => .ok (some (p, .optSome t), st.clear so)
      | none => .ok (some (input, .optNone), st.restore so)
  | .rep n trivia min max =>
    (parseRep so recP recC n trivia min max 0 input st).andThen fun r st =>
      .ok (some (r.1, .rep r.2), st)
  | .seq fields =>
    (parseFields recP recC true input fields st).andThen fun r st => .ok (some (r.1, .seq r.2), st)
  | .choice alts => parseAlts so recP input 0 alts st
  | .rule id =>
    -- traits.rs:136-151, tracker.rs:178-195
    ((recP (env id).body input (st.enter tk (env id).label input)).andThen fun r st =>
        Out.lift (input.span r.1) fun span => .ok (some (r.1, Tree.rule id r.2 span), st)).bind
      fun res st => Out.lift (st.leave tk (env id).label input res.isSome) fun st => .ok (res, st)

end Parse

/-- `try_parse_with_partial`. -/
def parse (env : Env) : Nat → ParseFn S T
  | 0 => fun _ _ _ => .oof
  | fuel + 1 => parseStep so tk (parse env fuel) (check so tk env fuel) env

end

/-! ## Entry points (`core/src/typed/traits.rs`) -/

section Entry
variable {S T : Type} (so : StackOps S) (tk : TrackerOps T) (env : Env) (fuel : Nat) (n : Node)

/-- The end-of-input test of `try_parse_with` and `check_with` (`traits.rs:30-34`, `:71-75`). -/
def eoiStep (input : Position) (st : St S T) : Out S T Position :=
  (leafCheck so tk .eoi input (st.enter tk eoiLabel input)).bind fun res st =>
    Out.lift (st.leave tk eoiLabel input res.isSome) fun st => .ok (res, st)

/-- `TypedNode::try_parse_with` (`traits.rs:24-36`). -/
def tryParseWith (input : Position) (st : St S T) : Out S T Tree :=
  (parse so tk env fuel n input st).andThen fun r st =>
    (eoiStep so tk r.1 st).andThen fun _ st => .ok (some r.2, st)

/-- `TypedNode::check_with` (`traits.rs:62-80`). -/
def checkWith (input : Position) (st : St S T) : Out S T Unit :=
  (check so tk env fuel n input st).andThen fun p st =>
    (eoiStep so tk p st).andThen fun _ st => .ok (some (), st)

end Entry

/-- `Result<α, tracker>`: on failure the library builds the error from the tracker
(`Tracker::collect`). -/
def finishRun {S T α : Type} : Out S T α → Res (Except T α)
  | .ok (some a, _) => .ok (.ok a)
  | .ok (none, st) => .ok (.error st.trk)
  | .panic => .panic
  | .oof => .oof

section Api
variable {S : Type} (so : StackOps S) (env : Env) (fuel : Nat) (n : Node) (input : Str)

/-- The state every entry point starts with: `Stack::new()`, `Tracker::new(input)`
(`traits.rs:40-42`). -/
def initSt : St S Tracker := ⟨so.empty, Tracker.new (Position.fromStart input)⟩

/-- `TypedNode::try_parse_partial` (`traits.rs:39-45`). -/
def tryParsePartial : Res (Except Tracker (Position × Tree)) :=
  finishRun (parse so realTracker env fuel n (Position.fromStart input) (initSt so input))

/-- `TypedNode::try_parse` (`traits.rs:48-53`). -/
def tryParse : Res (Except Tracker Tree) :=
  finishRun (tryParseWith so realTracker env fuel n (Position.fromStart input) (initSt so input))

/-- `TypedNode::check_partial` (`traits.rs:83-88`). -/
def checkPartial : Res (Except Tracker Position) :=
  finishRun (check so realTracker env fuel n (Position.fromStart input) (initSt so input))

/-- `TypedNode::check` (`traits.rs:91-99`). -/
def checkAll : Res (Except Tracker Unit) :=
  finishRun (checkWith so realTracker env fuel n (Position.fromStart input) (initSt so input))

end Api

end Pest3
