import Verif.CalcExample
import Verif.JsonLanguage

/-!
# What the rules of the calculator grammar match, as functions on texts
-/

namespace Pest3.Calc
open Pest3 Pest3.Gen Pest3.Json

/-- One blank, or the two characters of a line end. -/
def wsF : Text → Option Text
  | '\r' :: '\n' :: s => some s
  | s => one isSpace s

/-- The operators. -/
def isOp (x : Char) : Bool := x == '+' || (x == '-' || (x == '*' || (x == '/' || x == '^')))

/-- Without the signs at the beginning. -/
def signsF (s : Text) : Text := s.dropWhile (· == '-')

/-- Without the marks at the beginning. -/
def marksF (s : Text) : Text := s.dropWhile (· == '!')

section
variable (v : Text → Option Text)

/-- `primary` -/
def primaryF (s : Text) : Option Text := (intF s).or ((strip ['('] s).bind fun s => (v (Json.dropB s)).bind fun s => strip [')'] (Json.dropB s))
/-- `prefix* ~ primary ~ postfix*` -/
def operandF (s : Text) : Option Text := (primaryF v (Json.dropB (signsF s))).bind fun s => some (marksF (Json.dropB s))
/-- `infix ~ prefix* ~ primary ~ postfix*` -/
def stepF (s : Text) : Option Text := (one isOp s).bind fun s => operandF v (Json.dropB s)
/-- … again and again. -/
def stepsF (s : Text) : Text := again (stepF v) (s.length + 1) s
end

/-- `expr`, nested less than `n` times -/
def exprF : Nat → Text → Option Text
  | 0, _ => none
  | n + 1, s => (operandF (exprF n) s).bind fun s => some (stepsF (exprF n) (Json.dropB s))

/-- `program` at the beginning of a text: whether it matches all of it. -/
def programF (s : Text) : Bool := match exprF (s.length + 1) (Json.dropB s) with
  | some s' => (Json.dropB s').isEmpty
  | none => false

/-! ## That is what they match -/

theorem wsF_length {s s' : Text} (h : wsF s = some s') : s'.length < s.length := by
  unfold wsF at h
  split at h
  · cases h; simp only [List.length_cons]; omega
  · exact one_length h

theorem again_ws : ∀ (n : Nat) (s : Text), s.length ≤ n → again wsF n s = Json.dropB s := by
  intro n
  induction n with
  | zero => intro s h; cases s with
    | nil => rfl
    | cons => simp at h
  | succ n ih =>
    intro s h
    simp only [again]
    split
    · rename_i s' hs
      unfold wsF at hs
      split at hs
      · cases hs
        rw [ih _ (by simp only [List.length_cons] at h; omega)]
        simp [Json.dropB, isSpace]
      · obtain ⟨x, hx, rfl⟩ := one_some hs
        rw [ih _ (by simpa using h), Json.dropB, Json.dropB, List.dropWhile_cons, if_pos hx]
    · rename_i hs
      unfold wsF at hs
      split at hs
      · cases hs
      · cases s with
        | nil => rfl
        | cons x s =>
          rw [dropB_cons]
          simp only [one] at hs
          split at hs
          · cases hs
          · simpa using ‹¬ isSpace x = true›

theorem int_eq (s : Text) : ((one isNonzero s).bind (many1 isDigit)).or (one isDigit s) = intF s := by
  cases s with
  | nil => rfl
  | cons x s =>
    have hd : isNonzero x = true → isDigit x = true := by
      simp only [isNonzero, isDigit, decide_eq_true_eq, char_le, Char.reduceToNat]; omega
    have hz : isDigit x = true → isNonzero x = false → x = '0' := by
      intro h1 h2
      have h2 : ¬ isNonzero x = true := by simp [h2]
      simp only [isNonzero, isDigit, decide_eq_true_eq, char_le, Char.reduceToNat] at h1 h2
      rw [char_eq]; simp only [Char.reduceToNat]; omega
    by_cases h : isNonzero x = true
    · have h0 : x ≠ '0' := by rintro rfl; exact absurd h (by decide)
      have : intF (x :: s) = some (s.dropWhile isDigit) := by simp [intF, strip, h0, one, h]
      rw [this, one_cons h, Option.bind_some, one_cons (hd h)]
      cases s with
      | nil => rfl
      | cons y s => by_cases hy : isDigit y = true <;> simp [many1, one, hy]
    · have h : isNonzero x = false := by simpa using h
      rw [one_cons_none h, Option.bind_none, Option.none_or]
      by_cases h1 : isDigit x = true
      · obtain rfl := hz h1 h
        rfl
      · have h0 : x ≠ '0' := by rintro rfl; exact h1 (by decide)
        simp [intF, strip, h0, one, h, h1]

section
variable {u : Unicode} {pre s : Text} {stk : List Text}

theorem leaves_digit : Leaves u calcModule (Expr.at [alias] (.path [['a', 's', 'c', 'i', 'i', '_', 'd', 'i', 'g', 'i', 't']])) pre s stk (one isDigit s) := by
  refine leaves_rule (p' := [alias]) (r := ⟨['a', 's', 'c', 'i', 'i', '_', 'd', 'i', 'g', 'i', 't'], [], baseAsciiDigit, false⟩) rfl rfl ?_
  rw [isDigit_eq]
  exact leaves_or leaves_char (leaves_or leaves_char (leaves_or leaves_char (leaves_or leaves_char (leaves_or leaves_char (leaves_or leaves_char (leaves_or leaves_char (leaves_or leaves_char (leaves_or leaves_char leaves_char))))))))

theorem leaves_nonzero : Leaves u calcModule (Expr.at [alias] (.path [['a', 's', 'c', 'i', 'i', '_', 'n', 'o', 'n', 'z', 'e', 'r', 'o', '_', 'd', 'i', 'g', 'i', 't']])) pre s stk (one isNonzero s) := by
  refine leaves_rule (p' := [alias]) (r := ⟨['a', 's', 'c', 'i', 'i', '_', 'n', 'o', 'n', 'z', 'e', 'r', 'o', '_', 'd', 'i', 'g', 'i', 't'], [], baseAsciiNonzeroDigit, false⟩) rfl rfl ?_
  rw [isNonzero_eq]
  exact leaves_or leaves_char (leaves_or leaves_char (leaves_or leaves_char (leaves_or leaves_char (leaves_or leaves_char (leaves_or leaves_char (leaves_or leaves_char (leaves_or leaves_char leaves_char)))))))

theorem leaves_int (hs : s.length + 1 < usizeMax) : Leaves u calcModule (Expr.at [] (.path [['c', 'o', 'm', 'm', 'o', 'n'], ['i', 'n', 't']])) pre s stk (intF s) := by
  refine leaves_rule (p' := [alias]) (r := ⟨['i', 'n', 't'], [], baseInt, false⟩) rfl rfl ?_
  rw [← int_eq]
  exact leaves_choice (leaves_seq leaves_nonzero fun _ _ _ _ => leaves_many1 rfl (by omega) fun _ _ => leaves_digit) fun _ => leaves_digit

theorem leaves_newline : Leaves u calcModule (Expr.at [alias] (.path [['p', 'e', 's', 't'], ['n', 'e', 'w', 'l', 'i', 'n', 'e']])) pre s stk (match s with
    | '\r' :: '\n' :: s => some s
    | s => one (fun x => x == '\n' || x == '\r') s) := by
  have ok : ∀ m r, leafSpec .newline ⟨pre, m ++ r, stk⟩ = some (m, stk) → Leaves u calcModule (Expr.at [alias] (.path [['p', 'e', 's', 't'], ['n', 'e', 'w', 'l', 'i', 'n', 'e']])) pre (m ++ r) stk (some r) := fun m r h =>
    ⟨m, rfl, .builtinOk (full := [['p', 'e', 's', 't'], ['n', 'e', 'w', 'l', 'i', 'n', 'e']]) (l := .newline) rfl (fun _ _ => rfl) rfl rfl h rfl⟩
  have no : leafSpec .newline ⟨pre, s, stk⟩ = none → Leaves u calcModule (Expr.at [alias] (.path [['p', 'e', 's', 't'], ['n', 'e', 'w', 'l', 'i', 'n', 'e']])) pre s stk none := fun h =>
    .builtinFail (full := [['p', 'e', 's', 't'], ['n', 'e', 'w', 'l', 'i', 'n', 'e']]) (l := .newline) rfl (fun _ _ => rfl) rfl rfl h
  split
  · exact ok ['\r', '\n'] _ rfl
  · rename_i hs
    cases s with
    | nil => exact no rfl
    | cons x s =>
      by_cases h1 : x = '\n'
      · subst h1; exact ok ['\n'] s rfl
      · by_cases h2 : x = '\r'
        · subst h2
          refine ok ['\r'] s ?_
          cases s with
          | nil => rfl
          | cons y s =>
            have : y ≠ '\n' := fun h => hs s (by rw [h])
            simp [leafSpec, this]
        · rw [one_cons_none (by simp [h1, h2])]
          exact no (by simp [leafSpec, h1, h2])

theorem leaves_ws : Leaves u calcModule (Expr.at [] (.path [['c', 'o', 'm', 'm', 'o', 'n'], ['w', 'h', 'i', 't', 'e', 's', 'p', 'a', 'c', 'e', 's']])) pre s stk (wsF s) := by
  refine leaves_rule (p' := [alias]) (r := ⟨['w', 'h', 'i', 't', 'e', 's', 'p', 'a', 'c', 'e', 's'], [], baseWhitespaces, true⟩) rfl rfl ?_
  have : wsF s = (one (· == ' ') s).or ((one (· == '\t') s).or (match s with
      | '\r' :: '\n' :: s => some s
      | s => one (fun x => x == '\n' || x == '\r') s)) := by
    unfold wsF
    split
    · rfl
    · rw [or_one, or_one]
      congr 1
      funext x
      simp only [isSpace, Bool.or_assoc]
      cases x == ' ' <;> cases x == '\t' <;> cases x == '\r' <;> cases x == '\n' <;> rfl
  rw [this]
  exact leaves_choice leaves_char fun _ => leaves_choice leaves_char fun _ => leaves_newline

theorem leaves_trivia (hs : s.length + 1 < usizeMax) : Leaves u calcModule (.trivia [] .optional) pre s stk (some (Json.dropB s)) := by
  refine Leaves.imp (it := Expr.at [] cTrivia) ?_ fun _ k => .triviaRule (m := calcModule) (r := ⟨['~'], [], cTrivia, false⟩) rfl rfl k
  have := leaves_rep (u := u) (root := calcModule) (p := []) (pre := pre) (stk := stk) (e := cTrivia) (min := 0) (f := wsF) (o := wsF s) rfl (by omega) hs leaves_ws
    (fun i pre' s' h => leaves_unit leaves_ws) fun _ _ _ h => wsF_length h
  cases h : wsF s with
  | none =>
    rw [h] at this
    have h2 := again_ws (s.length + 1) s (by omega)
    simp only [again, h] at h2
    rw [← h2]
    exact this
  | some s' =>
    rw [h] at this
    have h2 := again_ws (s.length + 1) s (by omega)
    simp only [again, h] at h2
    rw [← h2]
    exact this

/-- A sequence with blanks between. -/
theorem leaves_seqO {l r : Expr} {o} {g : Text → Option Text} (hs : s.length + 1 < usizeMax) (h : Leaves u calcModule (Expr.at [] l) pre s stk o)
    (h' : ∀ pre' s', o = some s' → s'.length ≤ s.length → (Json.dropB s').length ≤ s.length → Leaves u calcModule (Expr.at [] r) pre' (Json.dropB s') stk (g (Json.dropB s'))) :
    Leaves u calcModule (Expr.at [] (.seq l r .optional)) pre s stk (o.bind fun s' => g (Json.dropB s')) :=
  leaves_seqT h (fun _ _ _ h => leaves_trivia (by omega)) h'

theorem leaves_infix : Leaves u calcModule (Expr.at [] (.path [['i', 'n', 'f', 'i', 'x']])) pre s stk (one isOp s) := by
  refine leaves_rule (p' := []) (r := ⟨['i', 'n', 'f', 'i', 'x'], [], cInfix, true⟩) rfl rfl ?_
  exact leaves_or (leaves_rule (p' := []) (r := ⟨['a', 'd', 'd'], [], cAdd, false⟩) rfl rfl leaves_char) (leaves_or (leaves_rule (p' := []) (r := ⟨['s', 'u', 'b'], [], cSub, false⟩) rfl rfl leaves_char)
    (leaves_or (leaves_rule (p' := []) (r := ⟨['m', 'u', 'l'], [], cMul, false⟩) rfl rfl leaves_char) (leaves_or (leaves_rule (p' := []) (r := ⟨['d', 'i', 'v'], [], cDiv, false⟩) rfl rfl leaves_char)
      (leaves_rule (p' := []) (r := ⟨['p', 'o', 'w'], [], cPow, false⟩) rfl rfl leaves_char))))

theorem leaves_signs (hs : s.length + 1 < usizeMax) : Leaves u calcModule (Expr.at [] (.rep (.path [['p', 'r', 'e', 'f', 'i', 'x']]))) pre s stk (some (signsF s)) :=
  leaves_many rfl hs fun _ _ => leaves_rule (p' := []) (r := ⟨['p', 'r', 'e', 'f', 'i', 'x'], [], cPrefix, true⟩) rfl rfl (leaves_rule (p' := []) (r := ⟨['n', 'e', 'g'], [], cNeg, false⟩) rfl rfl leaves_char)

theorem leaves_marks (hs : s.length + 1 < usizeMax) : Leaves u calcModule (Expr.at [] (.rep (.path [['p', 'o', 's', 't', 'f', 'i', 'x']]))) pre s stk (some (marksF s)) :=
  leaves_many rfl hs fun _ _ => leaves_rule (p' := []) (r := ⟨['p', 'o', 's', 't', 'f', 'i', 'x'], [], cPostfix, true⟩) rfl rfl (leaves_rule (p' := []) (r := ⟨['f', 'a', 'c'], [], cFac, false⟩) rfl rfl leaves_char)

/-- `f` is what `expr` leaves, on texts shorter than `m`. -/
def IsExpr (u : Unicode) (stk : List Text) (m : Nat) (f : Text → Option Text) : Prop :=
  ∀ pre s, s.length < m → Leaves u calcModule (Expr.at [] (.path [['e', 'x', 'p', 'r']])) pre s stk (f s)

variable {f : Text → Option Text}

theorem leaves_primary {m : Nat} (hv : IsExpr u stk m f) (hm : s.length < m + 1) (hs : s.length + 1 < usizeMax) :
    Leaves u calcModule (Expr.at [] (.path [['p', 'r', 'i', 'm', 'a', 'r', 'y']])) pre s stk (primaryF f s) := by
  refine leaves_rule (p' := []) (r := ⟨['p', 'r', 'i', 'm', 'a', 'r', 'y'], [], cPrimary, true⟩) rfl rfl ?_
  refine leaves_choice (leaves_int hs) fun _ => ?_
  refine leaves_seqO (g := fun s => (f s).bind fun s => strip [')'] (Json.dropB s)) hs leaves_str fun _ s1 k1 h1 h2 => ?_
  have := strip_length k1; have := dropB_length s1
  simp only [List.length_cons, List.length_nil] at *
  exact leaves_seqO (by omega) (hv _ _ (by omega)) fun _ _ _ _ _ => leaves_str

theorem leaves_operand {m : Nat} (hv : IsExpr u stk m f) (hm : s.length < m + 1) (hs : s.length + 1 < usizeMax) :
    Leaves u calcModule (Expr.at [] (.seq (.rep (.path [['p', 'r', 'e', 'f', 'i', 'x']])) (.seq (.path [['p', 'r', 'i', 'm', 'a', 'r', 'y']]) (.rep (.path [['p', 'o', 's', 't', 'f', 'i', 'x']])) .optional) .optional)) pre s stk (operandF f s) := by
  refine leaves_seqO (o := some (signsF s)) (g := fun s => (primaryF f s).bind fun s => some (marksF (Json.dropB s))) hs (leaves_signs hs) fun _ s1 _ h1 h2 => ?_
  exact leaves_seqO (g := fun s => some (marksF s)) (by omega) (leaves_primary hv (by omega) (by omega)) fun _ s2 _ h3 h4 => leaves_marks (by omega)

theorem leaves_step {m : Nat} (hv : IsExpr u stk m f) (hm : s.length < m + 1) (hs : s.length + 1 < usizeMax) :
    Leaves u calcModule (Expr.at [] (.seq (.path [['i', 'n', 'f', 'i', 'x']]) (.seq (.rep (.path [['p', 'r', 'e', 'f', 'i', 'x']])) (.seq (.path [['p', 'r', 'i', 'm', 'a', 'r', 'y']]) (.rep (.path [['p', 'o', 's', 't', 'f', 'i', 'x']])) .optional) .optional) .optional)) pre s stk (stepF f s) :=
  leaves_seqO hs leaves_infix fun _ _ _ _ _ => leaves_operand hv (by omega) (by omega)

theorem leaves_steps {m : Nat} (hv : IsExpr u stk m f) (hm : s.length < m + 1) (hs : s.length + 1 < usizeMax) :
    Leaves u calcModule (Expr.at [] (.rep (.seq (.path [['i', 'n', 'f', 'i', 'x']]) (.seq (.rep (.path [['p', 'r', 'e', 'f', 'i', 'x']])) (.seq (.path [['p', 'r', 'i', 'm', 'a', 'r', 'y']]) (.rep (.path [['p', 'o', 's', 't', 'f', 'i', 'x']])) .optional) .optional) .optional))) pre s stk
      (some (stepsF f s)) := by
  have := leaves_rep (u := u) (root := calcModule) (p := []) (pre := pre) (stk := stk)
    (e := .rep (.seq (.path [['i', 'n', 'f', 'i', 'x']]) (.seq (.rep (.path [['p', 'r', 'e', 'f', 'i', 'x']])) (.seq (.path [['p', 'r', 'i', 'm', 'a', 'r', 'y']]) (.rep (.path [['p', 'o', 's', 't', 'f', 'i', 'x']])) .optional) .optional) .optional)) (min := 0)
    (f := stepF f) (o := stepF f s) rfl (by omega) hs (leaves_step hv hm hs)
    (fun i pre' s' h => leaves_unit (leaves_step hv (by omega) (by omega)))
    (fun s1 s' h h1 => by
      obtain ⟨s2, h2, h3⟩ := Option.bind_eq_some_iff.mp h1
      have := one_length h2; have := dropB_length s2
      have k := leaves_operand (pre := []) (s := Json.dropB s2) hv (by omega) (by omega)
      rw [h3] at k
      have := k.length
      omega)
  unfold stepsF
  simp only [again]
  cases h : stepF f s with
  | none => rw [h] at this; exact this
  | some s' => rw [h] at this; exact this

theorem leaves_expr : ∀ (n : Nat) {pre s : Text}, s.length < n → s.length + 1 < usizeMax →
    Leaves u calcModule (Expr.at [] (.path [['e', 'x', 'p', 'r']])) pre s stk (exprF n s) := by
  intro n
  induction n with
  | zero => intro _ _ h; exact absurd h (Nat.not_lt_zero _)
  | succ n ih =>
    intro pre s h hs
    have hv : IsExpr u stk s.length (exprF n) := fun pre' s' h' => ih (by omega) (by omega)
    refine leaves_rule (p' := []) (r := ⟨['e', 'x', 'p', 'r'], [], cExpr, false⟩) rfl rfl ?_
    have : exprF (n + 1) s = (some (signsF s)).bind fun s => (primaryF (exprF n) (Json.dropB s)).bind fun s => some (stepsF (exprF n) (Json.dropB (marksF (Json.dropB s)))) := by
      simp only [exprF, operandF, Option.bind_some]
      cases primaryF (exprF n) (Json.dropB (signsF s)) <;> rfl
    rw [this]
    refine leaves_seqO (g := fun s => (primaryF (exprF n) s).bind fun s => some (stepsF (exprF n) (Json.dropB (marksF (Json.dropB s))))) hs (leaves_signs hs) fun _ s1 _ h1 h2 => ?_
    refine leaves_seqO (g := fun s => some (stepsF (exprF n) (Json.dropB (marksF s)))) (by omega) (leaves_primary hv (by omega) (by omega)) fun _ s2 _ h3 h4 => ?_
    exact leaves_seqO (o := some (marksF (Json.dropB s2))) (g := fun s => some (stepsF (exprF n) s)) (by omega) (leaves_marks (by omega)) fun _ s3 _ h5 h6 => leaves_steps hv (by omega) (by omega)

theorem leaves_program (hs : s.length + 1 < usizeMax) : Leaves u calcModule (Expr.at [] cProgram) [] s stk (if programF s then some [] else none) := by
  have h1 : Leaves u calcModule (Expr.at [] (.path [['p', 'e', 's', 't'], ['s', 'o', 'i']])) [] s stk (some s) :=
    ⟨[], rfl, .builtinOk (full := [['p', 'e', 's', 't'], ['s', 'o', 'i']]) (l := .soi) rfl (fun _ _ => rfl) rfl rfl rfl rfl⟩
  have h2 : ∀ pre s, Leaves u calcModule (Expr.at [] (.path [['p', 'e', 's', 't'], ['e', 'o', 'i']])) pre s stk (if s = [] then some [] else none) := by
    intro pre s
    cases s with
    | nil => exact ⟨[], rfl, .builtinOk (full := [['p', 'e', 's', 't'], ['e', 'o', 'i']]) (l := .eoi) rfl (fun _ _ => rfl) rfl rfl rfl rfl⟩
    | cons x s => exact .builtinFail (full := [['p', 'e', 's', 't'], ['e', 'o', 'i']]) (l := .eoi) rfl (fun _ _ => rfl) rfl rfl rfl
  have h3 := leaves_seqO (g := fun t => (exprF (s.length + 1) t).bind fun s => if Json.dropB s = [] then some [] else none) hs h1 fun pre' s' _ k1 k2 =>
    leaves_seqO (g := fun s => if s = [] then some [] else none) (by omega) (leaves_expr (s.length + 1) (by omega) (by omega)) fun _ _ _ _ _ => h2 _ _
  have : (if programF s then some [] else none) = ((some s).bind fun s' => (exprF (s.length + 1) (Json.dropB s')).bind fun s => if Json.dropB s = [] then some ([] : Text) else none) := by
    rcases h0 : exprF (s.length + 1) (Json.dropB s) with _ | s'
    · simp [programF, h0]
    · cases h : Json.dropB s' <;> simp [programF, h0, h]
  rw [this]
  exact h3

end
end Pest3.Calc
