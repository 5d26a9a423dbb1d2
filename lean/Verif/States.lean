import Verif.Utf8

/-!
# Model of the state builder (`generator/src/state_builder.rs`, `generator/src/expr.rs`)

The state builder turns an expression into the methods of a state machine.  It is compiled (`generator/src/lib.rs:8`) and has tests, but nothing calls it yet.  The model consists of the builder and of
what the generated methods do.  The generated code is represented by what it is built of; that a compiler accepts it is not modelled (range patterns written `...` are refused since the 2021
edition, and so are empty ranges).
-/

namespace Pest3.States

/-- `Expr` (`generator/src/expr.rs:4-17`). -/
inductive Form where
  | accept
  | reject
  | any
  | none
  | str (s : Text)
  | insens (s : Text)
  | range (lo hi : Char)
  | ident (name : Text)
  | seq (l r : Form)
  | choice (l r : Form)
  | rep (e : Form)
  | pred (e : Form) (positive : Bool)

/-- The bodies of the generated methods. -/
inductive Body where
  /-- nothing: the accepting state (`generator/src/state_builder.rs:56`) -/
  | stop
  /-- `self.result = false;`: the rejecting state (`:57-61`) -/
  | fail
  /-- the test of one byte (`:113-121`) -/
  | byte (lo hi : UInt8) (accept reject : Nat)
  /-- the test of some bytes, read as a number (`:128-143`) -/
  | wide (len lo hi : Nat) (accept reject : Nat)
  /-- `return self.state…()` (`:22-26`) -/
  | go (id : Nat)

/-- `StateBuilder` (`generator/src/state_builder.rs:31-36`) without the rules.  The counter is a `u64`, which would need as many expressions to overflow. -/
structure Builder where
  states : List (Nat × Body)
  count : Nat

/-- `self.states.push(…)`. -/
def Builder.push (b : Builder) (id : Nat) (body : Body) : Builder := { b with states := b.states ++ [(id, body)] }

/-- `StateBuilder::gen_expr` (`generator/src/state_builder.rs:98-198`), with `next_id` (`:47-53`) and `State::gen` (`:230-246`), which never panics here since both transitions are always set;
`none`: `unimplemented!()`. -/
def genExpr : Form → (accept reject : Nat) → Builder → Option (Body × Builder)
  | .range lo hi, accept, reject, b =>
    if lo.utf8Size = 1 ∧ hi.utf8Size = 1 then some (.byte lo.val.toUInt8 hi.val.toUInt8 accept reject, b)
    else some (.wide (max lo.utf8Size hi.utf8Size) lo.toNat hi.toNat accept reject, b)
  | .seq l r, accept, reject, b =>
    let lId := b.count
    let rId := b.count + 1
    match genExpr l rId reject { b with count := b.count + 2 } with
    | none => none
    | some (lBody, b) =>
      match genExpr r accept reject b with
      | none => none
      | some (rBody, b) => some (.go lId, (b.push lId lBody).push rId rBody)
  | .choice l r, accept, reject, b =>
    let lId := b.count
    let rId := b.count + 1
    match genExpr l accept rId { b with count := b.count + 2 } with
    | none => none
    | some (lBody, b) =>
      match genExpr r accept reject b with
      | none => none
      | some (rBody, b) => some (.go lId, (b.push lId lBody).push rId rBody)
  | .rep e, accept, _, b =>
    let id := b.count
    match genExpr e id accept { b with count := b.count + 1 } with
    | none => none
    | some (body, b) => some (.go id, b.push id body)
  | _, _, _, _ => none

/-- The generated code: the method that `parse` calls, and the methods. -/
structure Program where
  enter : Nat
  states : List (Nat × Body)

/-- `StateBuilder::build` (`generator/src/state_builder.rs:55-96`); the outer `none`: panic, the inner `none`: `None`. -/
def build (rules : Text → Option Form) (rule : Text) : Option (Option Program) :=
  let b : Builder := ⟨[(0, .stop), (1, .fail)], 2⟩
  match rules rule with
  | none => some none
  | some e =>
    match genExpr e 0 1 { b with count := 3 } with
    | none => none
    | some (body, b) => some (some ⟨2, (b.push 2 body).states⟩)

/-! ## The generated code -/

/-- The fields that the generated methods use. -/
structure Machine where
  input : List UInt8
  index : Nat
  result : Bool

/-- `u32::from_le_bytes` of the bytes, filled up with zeros. -/
def littleEndian (bs : List UInt8) : Nat := bs.foldr (fun b n => b.toNat + 256 * n) 0

/-- What a body does; all calls are the last thing a method does.  `none`: out of fuel, or there is no such method. -/
def run (P : List (Nat × Body)) : Nat → Body → Machine → Option Machine
  | 0, _, _ => none
  | _ + 1, .stop, m => some m
  | _ + 1, .fail, m => some { m with result := false }
  | n + 1, .go id, m =>
    match P.find? fun s => s.1 == id with
    | none => none
    | some (_, body) => run P n body m
  | n + 1, .byte lo hi accept reject, m =>
    match m.input[m.index]? with
    | some x => if lo ≤ x && x ≤ hi then run P n (.go accept) { m with index := m.index + 1 } else run P n (.go reject) m
    | none => run P n (.go reject) m
  | n + 1, .wide len lo hi accept reject, m =>
    match byteRange m.input m.index (m.index + len) with
    | some slice =>
      if lo ≤ littleEndian slice && littleEndian slice ≤ hi then run P n (.go accept) { m with index := m.index + len } else run P n (.go reject) m
    | none => run P n (.go reject) m

/-- The generated `parse` (`generator/src/state_builder.rs:88-92`): the machine afterwards; what is returned is `result`. -/
def Program.parse (P : Program) (fuel : Nat) (m : Machine) : Option Machine := run P.states fuel (.go P.enter) m

end Pest3.States
