import Verif.JsonExample
import Verif.GrammarSpec

/-!
# What the rules of the JSON grammar match, as functions on texts
-/

namespace Pest3.Json
open Pest3 Pest3.Gen

/-- What the item does at a text: it fails, or leaves a rest of it. -/
def Leaves (u : Unicode) (root : Module) (it : SItem) (pre s : Text) (stk : List Text) (o : Option Text) : Prop :=
  match o with
  | none => Meaning u root it ⟨pre, s, stk⟩ none
  | some s' => ∃ w, s = w ++ s' ∧ Meaning u root it ⟨pre, s, stk⟩ (some ⟨pre ++ w, s', stk⟩)

/-- An expression. -/
abbrev Expr.at (p : List Name) (e : Expr) : SItem := .expr (.mk p [] e)

section
variable {u : Unicode} {root : Module}

theorem Leaves.length {it pre s stk s'} (h : Leaves u root it pre s stk (some s')) : s'.length ≤ s.length := by
  obtain ⟨w, rfl, -⟩ := h
  simp

theorem Leaves.imp {it it' : SItem} {pre s stk o} (h : Leaves u root it pre s stk o) (hi : ∀ r, Meaning u root it ⟨pre, s, stk⟩ r → Meaning u root it' ⟨pre, s, stk⟩ r) :
    Leaves u root it' pre s stk o := by
  cases o with
  | none => exact hi _ h
  | some s' => obtain ⟨w, h1, h2⟩ := h; exact ⟨w, h1, hi _ h2⟩

/-- What a literal leaves. -/
def strip : Text → Text → Option Text
  | [], s => some s
  | _ :: _, [] => none
  | x :: t, y :: s => if y = x then strip t s else none

theorem strip_some {t s s' : Text} : strip t s = some s' ↔ s = t ++ s' := by
  induction t generalizing s with
  | nil => simp [strip]
  | cons x t ih =>
    cases s with
    | nil => simp [strip]
    | cons y s =>
      simp only [strip, List.cons_append, List.cons.injEq]
      split
      · rename_i h; simp [h, ih]
      · rename_i h; simp [h]

theorem leaves_str {p : List Name} {ρ : List (Name × Clo)} {t pre s : Text} {stk} : Leaves u root (.expr (.mk p ρ (.str t))) pre s stk (strip t s) := by
  cases h : strip t s with
  | some s' =>
    obtain rfl := strip_some.mp h
    exact ⟨t, rfl, .literalOk rfl (by simp [leafSpec, eatText]) rfl⟩
  | none =>
    refine .literalFail rfl ?_
    have : ¬ t <+: s := by
      rintro ⟨s', rfl⟩
      rw [strip_some.mpr rfl] at h
      cases h
    simp [leafSpec, eatText, this]

/-- One character. -/
def one (f : Char → Bool) : Text → Option Text
  | [] => none
  | x :: s => if f x then some s else none

theorem strip_one (x : Char) (s : Text) : strip [x] s = one (· == x) s := by
  cases s with
  | nil => rfl
  | cons y s => simp [strip, one]

theorem or_one {f g : Char → Bool} (s : Text) : (one f s).or (one g s) = one (fun x => f x || g x) s := by
  cases s with
  | nil => rfl
  | cons x s => by_cases h : f x <;> by_cases h' : g x <;> simp [one, h, h']

theorem leaves_choice {p : List Name} {ρ : List (Name × Clo)} {l r : Expr} {pre s stk o o'} (h : Leaves u root (.expr (.mk p ρ l)) pre s stk o)
    (h' : o = none → Leaves u root (.expr (.mk p ρ r)) pre s stk o') : Leaves u root (.expr (.mk p ρ (.choice l r))) pre s stk (o.or o') := by
  cases o with
  | some s' =>
    obtain ⟨w, h1, h2⟩ := h
    exact ⟨w, h1, .choiceL h2⟩
  | none => exact (h' rfl).imp fun r k => .choiceR h k

/-- A choice of single characters. -/
theorem leaves_or {p : List Name} {ρ : List (Name × Clo)} {l r : Expr} {f g : Char → Bool} {pre s stk} (h : Leaves u root (.expr (.mk p ρ l)) pre s stk (one f s))
    (h' : Leaves u root (.expr (.mk p ρ r)) pre s stk (one g s)) : Leaves u root (.expr (.mk p ρ (.choice l r))) pre s stk (one (fun x => f x || g x) s) := by
  rw [← or_one]
  exact leaves_choice h fun _ => h'

theorem leaves_char {p : List Name} {ρ : List (Name × Clo)} {x : Char} {pre s : Text} {stk} : Leaves u root (.expr (.mk p ρ (.str [x]))) pre s stk (one (· == x) s) := by
  rw [← strip_one]
  exact leaves_str

theorem leaves_rule {p q p' : List Name} {r : Rule} {pre s stk o} (ht : target u root p q = some (.rule p' r)) (ha : r.args = [])
    (h : Leaves u root (Expr.at p' r.node) pre s stk o) : Leaves u root (Expr.at p (.path q)) pre s stk o :=
  h.imp fun _ k => .rule (fun _ _ => rfl) ht ha k

theorem leaves_opt {p : List Name} {ρ : List (Name × Clo)} {e : Expr} {pre s stk o} (h : Leaves u root (.expr (.mk p ρ e)) pre s stk o) :
    Leaves u root (.expr (.mk p ρ (.opt e))) pre s stk (some (o.getD s)) := by
  cases o with
  | none => exact ⟨[], rfl, by rw [List.append_nil]; exact .optNone h⟩
  | some s' => obtain ⟨w, h1, h2⟩ := h; exact ⟨w, h1, .optSome h2⟩

theorem leaves_neg {p : List Name} {ρ : List (Name × Clo)} {e : Expr} {pre s stk o} (h : Leaves u root (.expr (.mk p ρ e)) pre s stk o) :
    Leaves u root (.expr (.mk p ρ (.neg e))) pre s stk (if o.isSome then none else some s) := by
  cases o with
  | none => exact ⟨[], rfl, by rw [List.append_nil]; exact .negOk h⟩
  | some s' => obtain ⟨w, h1, h2⟩ := h; exact .negFail h2

/-- A sequence, `f` being what the trivia leave, if they match. -/
theorem leaves_seqT {p : List Name} {ρ : List (Name × Clo)} {l r : Expr} {t : Trivia} {pre s stk o} {f : Text → Text} {g : Text → Option Text}
    (h : Leaves u root (.expr (.mk p ρ l)) pre s stk o) (hT : ∀ pre' s', o = some s' → s'.length ≤ s.length → Leaves u root (.trivia p t) pre' s' stk (some (f s')))
    (h' : ∀ pre' s', o = some s' → s'.length ≤ s.length → (f s').length ≤ s.length → Leaves u root (.expr (.mk p ρ r)) pre' (f s') stk (g (f s'))) :
    Leaves u root (.expr (.mk p ρ (.seq l r t))) pre s stk (o.bind fun s' => g (f s')) := by
  cases o with
  | none => exact .seqFail h
  | some s' =>
    obtain ⟨w, rfl, h2⟩ := h
    obtain ⟨w2, k1, k2⟩ := hT (pre ++ w) s' rfl (by simp)
    have h3 := h' (pre ++ w ++ w2) s' rfl (by simp) (by have := congrArg List.length k1; simp only [List.length_append] at this ⊢; omega)
    simp only [Option.bind_some]
    revert h3
    cases g (f s') with
    | none => exact fun h3 => .seq h2 k2 h3
    | some s2 =>
      rintro ⟨w3, k3, k4⟩
      refine ⟨w ++ (w2 ++ w3), ?_, ?_⟩
      · rw [k1, k3]; simp
      · rw [show pre ++ (w ++ (w2 ++ w3)) = pre ++ w ++ w2 ++ w3 by simp]
        exact .seq h2 k2 k4

theorem leaves_seq {p : List Name} {ρ : List (Name × Clo)} {l r : Expr} {pre s stk o} {g : Text → Option Text}
    (h : Leaves u root (.expr (.mk p ρ l)) pre s stk o) (h' : ∀ pre' s', o = some s' → s'.length ≤ s.length → Leaves u root (.expr (.mk p ρ r)) pre' s' stk (g s')) :
    Leaves u root (.expr (.mk p ρ (.seq l r .none))) pre s stk (o.bind g) :=
  leaves_seqT (f := fun s => s) h (fun _ _ _ _ => ⟨[], rfl, by rw [List.append_nil]; exact .triviaNone⟩) fun pre' s' h1 h2 _ => h' pre' s' h1 h2

/-- Again and again. -/
def again (f : Text → Option Text) : Nat → Text → Text
  | 0, s => s
  | n + 1, s => match f s with
    | some s' => again f n s'
    | none => s

/-- The items of a repetition from the `i`-th on. -/
theorem leaves_reps {e : Clo} {p : List Name} {t : Trivia} {min : Nat} {stk} {f : Text → Option Text} (n : Nat)
    (hu : ∀ i pre s, s.length ≤ n → Leaves u root (.unit e p t (i + 1)) pre s stk (f s)) (hf : ∀ s s', s.length ≤ n → f s = some s' → s'.length < s.length) :
    ∀ m i pre s, s.length ≤ m → m ≤ n → i + m < usizeMax → 0 < i → min ≤ i → Leaves u root (.reps e p t min usizeMax i) pre s stk (some (again f m s)) := by
  intro m
  induction m with
  | zero =>
    intro i pre s hs hn hi h0 hm
    obtain ⟨j, rfl⟩ : ∃ j, i = j + 1 := ⟨i - 1, by omega⟩
    have h := hu j pre s (by omega)
    refine ⟨[], rfl, ?_⟩
    rw [List.append_nil]
    cases h1 : f s with
    | some s' => have := hf _ _ (by omega) h1; omega
    | none => rw [h1] at h; exact .repsStop (by omega) h hm
  | succ m ih =>
    intro i pre s hs hn hi h0 hm
    obtain ⟨j, rfl⟩ : ∃ j, i = j + 1 := ⟨i - 1, by omega⟩
    have h := hu j pre s (by omega)
    simp only [again]
    cases h1 : f s with
    | none => rw [h1] at h; exact ⟨[], rfl, by rw [List.append_nil]; exact .repsStop (by omega) h hm⟩
    | some s' =>
      rw [h1] at h
      obtain ⟨w, k1, k2⟩ := h
      have h2 := hf _ _ (by omega) h1
      obtain ⟨w', k3, k4⟩ := ih (j + 1 + 1) (pre ++ w) s' (by omega) (by omega) (by omega) (by omega) (by omega)
      refine ⟨w ++ w', by rw [List.append_assoc, ← k3]; exact k1, ?_⟩
      rw [← List.append_assoc]
      exact .repsMore (by omega) k2 k4

/-- A repetition whose first item leaves what `g` says, the others what `f` says. -/
theorem leaves_rep {e e' : Expr} {p : List Name} {ρ : List (Name × Clo)} {min : Nat} {pre s : Text} {stk} {o : Option Text} {f : Text → Option Text} (hr : repetition e = some (e', min, usizeMax)) (hmin : min ≤ 1)
    (hn : s.length + 1 < usizeMax) (h0 : Leaves u root (.expr (.mk p ρ e')) pre s stk o)
    (hu : ∀ i pre s', s'.length ≤ s.length → Leaves u root (.unit (.mk p ρ e') p (sepTrivia e') (i + 1)) pre s' stk (f s')) (hf : ∀ s1 s', s1.length ≤ s.length → f s1 = some s' → s'.length < s1.length) :
    Leaves u root (.expr (.mk p ρ e)) pre s stk (match o with
      | some s' => some (again f s.length s')
      | none => if min = 0 then some s else none) := by
  refine Leaves.imp ?_ fun _ k => .rep hr k
  cases o with
  | some s' =>
    obtain ⟨w, rfl, h2⟩ := h0
    obtain ⟨w', k3, k4⟩ := leaves_reps (min := min) (w ++ s').length hu hf (w ++ s').length 1 (pre ++ w) s' (by simp) (Nat.le_refl _) (by omega) (by omega) (by omega)
    refine ⟨w ++ w', by rw [List.append_assoc, ← k3], ?_⟩
    rw [← List.append_assoc]
    exact .repsMore (by omega) (.unitFirst h2) k4
  | none =>
    dsimp only
    split
    · exact ⟨[], rfl, by rw [List.append_nil]; exact .repsStop (by omega) (.unitFirst h0) (by omega)⟩
    · exact .repsFew (by omega) (.unitFirst h0) (by omega)

theorem again_one {f : Char → Bool} : ∀ (n : Nat) (s : Text), s.length ≤ n → again (one f) n s = s.dropWhile f := by
  intro n
  induction n with
  | zero => intro s h; cases s with
    | nil => rfl
    | cons => simp at h
  | succ n ih =>
    intro s h
    cases s with
    | nil => rfl
    | cons x s =>
      simp only [again, one, List.dropWhile_cons]
      split
      · rename_i k; split at k
        · cases k; rename_i hx; rw [if_pos hx]; exact ih _ (by simpa using h)
        · cases k
      · rename_i k; split at k
        · cases k
        · rename_i hx; rw [if_neg hx]

theorem one_length {f : Char → Bool} {s s' : Text} (h : one f s = some s') : s'.length < s.length := by
  cases s with
  | nil => cases h
  | cons x s =>
    simp only [one] at h
    split at h <;> cases h
    simp

/-- The items are not separated by trivia. -/
theorem leaves_unit {e : Expr} {p : List Name} {ρ : List (Name × Clo)} {pre s : Text} {stk o} {i : Nat} (h : Leaves u root (.expr (.mk p ρ e)) pre s stk o) :
    Leaves u root (.unit (.mk p ρ e) p .none i) pre s stk o := by
  cases i with
  | zero => exact h.imp fun _ k => .unitFirst k
  | succ i => exact h.imp fun _ k => .unitNext .triviaNone k

theorem leaves_many {e : Expr} {p : List Name} {ρ : List (Name × Clo)} {pre s : Text} {stk} {f : Char → Bool} (ht : sepTrivia e = .none) (hn : s.length + 1 < usizeMax)
    (h : ∀ pre s, Leaves u root (.expr (.mk p ρ e)) pre s stk (one f s)) : Leaves u root (.expr (.mk p ρ (.rep e))) pre s stk (some (s.dropWhile f)) := by
  have := leaves_rep (e := .rep e) (min := 0) (f := one f) rfl (by omega) hn (h pre s) (fun i pre s' _ => by rw [ht]; exact leaves_unit (h pre s')) (fun _ _ _ => one_length)
  cases s with
  | nil => exact this
  | cons x s =>
    simp only [one] at this
    rw [List.dropWhile_cons]
    split at this
    · rename_i hx; split at hx
      · rename_i h1; cases hx; rw [if_pos h1]; rw [again_one _ _ (by simp)] at this; exact this
      · cases hx
    · rename_i hx; split at hx
      · cases hx
      · rename_i h1; rw [if_neg h1]; exact this

/-- One or more. -/
def many1 (f : Char → Bool) (s : Text) : Option Text := (one f s).map (·.dropWhile f)

theorem leaves_many1 {e : Expr} {p : List Name} {ρ : List (Name × Clo)} {pre s : Text} {stk} {f : Char → Bool} (ht : sepTrivia e = .none) (hn : s.length + 1 < usizeMax)
    (h : ∀ pre s, Leaves u root (.expr (.mk p ρ e)) pre s stk (one f s)) : Leaves u root (.expr (.mk p ρ (.repOnce e))) pre s stk (many1 f s) := by
  have := leaves_rep (e := .repOnce e) (min := 1) (f := one f) rfl (by omega) hn (h pre s) (fun i pre s' _ => by rw [ht]; exact leaves_unit (h pre s')) (fun _ _ _ => one_length)
  unfold many1
  cases h1 : one f s with
  | none => rw [h1] at this; exact this
  | some s' => rw [h1] at this; dsimp only at this; rw [again_one _ _ (Nat.le_of_lt (one_length h1))] at this; exact this

/-- Four characters. -/
def four (f : Char → Bool) (s : Text) : Option Text := (one f s).bind fun s => (one f s).bind fun s => (one f s).bind fun s => one f s

theorem leaves_times {e : Expr} {p : List Name} {stk} {f : Char → Bool} (h : ∀ pre s, Leaves u root (Expr.at p e) pre s stk (one f s)) {k i : Nat} {g : Text → Option Text}
    (hg : ∀ pre s, Leaves u root (.reps (.mk p [] e) p .none k k (i + 1)) pre s stk (g s)) (hi : i < k) (pre s : Text) :
    Leaves u root (.reps (.mk p [] e) p .none k k i) pre s stk ((one f s).bind g) := by
  have h1 := leaves_unit (i := i) (h pre s)
  cases h2 : one f s with
  | none => rw [h2] at h1; exact .repsFew hi h1 hi
  | some s' =>
    rw [h2] at h1
    obtain ⟨w, rfl, k2⟩ := h1
    have h3 := hg (pre ++ w) s'
    simp only [Option.bind_some]
    revert h3
    cases g s' with
    | none => exact fun h3 => .repsMore hi k2 h3
    | some s2 => exact fun ⟨w', k3, k4⟩ => ⟨w ++ w', by rw [k3]; simp, by rw [← List.append_assoc]; exact .repsMore hi k2 k4⟩

theorem leaves_four {e : Expr} {p : List Name} {stk} {f : Char → Bool} (ht : sepTrivia e = .none) (h : ∀ pre s, Leaves u root (Expr.at p e) pre s stk (one f s)) (pre s : Text) :
    Leaves u root (Expr.at p (.repRange e ⟨some 4, some 4⟩)) pre s stk (four f s) := by
  refine Leaves.imp (it := .reps (.mk p [] e) p .none 4 4 0) ?_ fun _ k => .rep (e' := e) rfl (by rw [ht]; exact k)
  refine leaves_times h (leaves_times h (leaves_times h (fun pre s => ?_) (by omega)) (by omega)) (by omega) pre s
  have : ∀ s, one f s = (one f s).bind some := fun s => by simp
  rw [this]
  exact leaves_times (k := 4) (i := 3) (g := some) h (fun pre s => ⟨[], rfl, by rw [List.append_nil]; exact .repsMax (Nat.le_refl _)⟩) (by omega) pre s

end

/-! ## The rules -/

/-- ASCII digits. -/
def isDigit (x : Char) : Bool := decide ('0' ≤ x ∧ x ≤ '9')
/-- … other than zero. -/
def isNonzero (x : Char) : Bool := decide ('1' ≤ x ∧ x ≤ '9')
/-- Hexadecimal digits with capital letters. -/
def isHex (x : Char) : Bool := decide ('0' ≤ x ∧ x ≤ '9') || decide ('A' ≤ x ∧ x ≤ 'F')
/-- Blanks. -/
def isSpace (x : Char) : Bool := x == ' ' || x == '\t' || x == '\r' || x == '\n'
/-- What is neither a quotation mark nor a backslash. -/
def isPlain (x : Char) : Bool := x != '"' && x != '\\'

/-- Without the blanks at the beginning. -/
def dropB (s : Text) : Text := s.dropWhile isSpace

/-- `int` -/
def intF (s : Text) : Option Text := (strip ['0'] s).or ((one isNonzero s).bind fun s => some (s.dropWhile isDigit))
/-- `exp` -/
def expF (s : Text) : Option Text := (one (fun x => x == 'E' || x == 'e') s).bind fun s => many1 isDigit ((one (fun x => x == '+' || x == '-') s).getD s)
/-- What follows the dot. -/
def fracF (s : Text) : Option Text := (strip ['.'] s).bind fun s => (many1 isDigit (dropB s)).bind fun s => some ((expF (dropB s)).getD (dropB s))
/-- `number` -/
def numberF (s : Text) : Option Text := (intF ((strip ['-'] s).getD s)).bind fun s => some (((fracF s).or (expF s)).getD s)

/-- The characters after a backslash. -/
def isEsc (x : Char) : Bool := x == '"' || (x == '\\' || (x == '/' || (x == 'b' || (x == 'f' || (x == 'n' || (x == 'r' || x == 't'))))))
/-- `escape` -/
def escF (s : Text) : Option Text := (strip ['\\'] s).bind fun s => (one isEsc s).or ((strip ['u'] s).bind (four isHex))
/-- `inner` with at most `n` escapes -/
def innerF : Nat → Text → Text
  | 0, s => s.dropWhile isPlain
  | n + 1, s => let s := s.dropWhile isPlain
    match escF s with
    | some s' => innerF n (dropB s')
    | none => s
/-- `string` -/
def stringF (s : Text) : Option Text := (strip ['"'] s).bind fun s => strip ['"'] (innerF s.length s)

section
variable (v : Text → Option Text)

/-- `pair` -/
def pairF (s : Text) : Option Text := (stringF s).bind fun s => (strip [':'] (dropB s)).bind fun s => v (dropB s)
/-- The blanks and the comma between members. -/
def sepF (s : Text) : Option Text := (strip [','] (dropB s)).bind fun s => some (dropB s)
/-- The members. -/
def pairsF (s : Text) : Text := match pairF v s with
  | some s' => again (fun s => (sepF s).bind (pairF v)) s.length s'
  | none => s
/-- `object` -/
def objectF (s : Text) : Option Text := (strip ['{'] s).bind fun s => strip ['}'] (dropB (pairsF v (dropB s)))
/-- An element other than the first. -/
def itemF (s : Text) : Option Text := (strip [','] s).bind fun s => v (dropB s)
/-- The elements other than the first. -/
def itemsF (s : Text) : Text := match itemF v s with
  | some s' => again (itemF v) s.length s'
  | none => s
/-- `array` -/
def arrayF (s : Text) : Option Text :=
  ((strip ['['] s).bind fun s => (v (dropB s)).bind fun s => strip [']'] (dropB (itemsF v (dropB s)))).or ((strip ['['] s).bind fun s => strip [']'] (dropB s))
end

/-- `value`, nested less than `n` times -/
def valueF : Nat → Text → Option Text
  | 0, _ => none
  | n + 1, s => (stringF s).or ((numberF s).or ((objectF (valueF n) s).or ((arrayF (valueF n) s).or
      (((strip ['t', 'r', 'u', 'e'] s).or (strip ['f', 'a', 'l', 's', 'e'] s)).or (strip ['n', 'u', 'l', 'l'] s)))))

/-! ## That is what they match -/

theorem char_le {x y : Char} : x ≤ y ↔ x.toNat ≤ y.toNat := by
  rw [Char.le_def, UInt32.le_iff_toNat_le]; rfl

theorem char_eq {x y : Char} : x = y ↔ x.toNat = y.toNat :=
  ⟨fun h => by rw [h], fun h => by rw [← Char.ofNat_toNat x, h, Char.ofNat_toNat]⟩

theorem isDigit_eq : isDigit = fun x => x == '0' || (x == '1' || (x == '2' || (x == '3' || (x == '4' || (x == '5' || (x == '6' || (x == '7' || (x == '8' || x == '9')))))))) := by
  funext x
  rw [Bool.eq_iff_iff]
  simp only [isDigit, decide_eq_true_eq, Bool.or_eq_true, beq_iff_eq, char_le, char_eq, Char.reduceToNat]
  omega

theorem isNonzero_eq : isNonzero = fun x => x == '1' || (x == '2' || (x == '3' || (x == '4' || (x == '5' || (x == '6' || (x == '7' || (x == '8' || x == '9'))))))) := by
  funext x
  rw [Bool.eq_iff_iff]
  simp only [isNonzero, decide_eq_true_eq, Bool.or_eq_true, beq_iff_eq, char_le, char_eq, Char.reduceToNat]
  omega

theorem isHex_eq : isHex = fun x => isDigit x || (x == 'A' || (x == 'B' || (x == 'C' || (x == 'D' || (x == 'E' || x == 'F'))))) := by
  funext x
  rw [Bool.eq_iff_iff]
  simp only [isHex, isDigit, decide_eq_true_eq, Bool.or_eq_true, beq_iff_eq, char_le, char_eq, Char.reduceToNat]
  omega

section
variable {u : Unicode} {pre s : Text} {stk : List Text}

theorem leaves_digit' : Leaves u jsonModule (Expr.at [['p']] baseAsciiDigit) pre s stk (one isDigit s) := by
  rw [isDigit_eq]
  exact leaves_or leaves_char (leaves_or leaves_char (leaves_or leaves_char (leaves_or leaves_char (leaves_or leaves_char (leaves_or leaves_char (leaves_or leaves_char (leaves_or leaves_char (leaves_or leaves_char leaves_char))))))))

theorem leaves_digit : Leaves u jsonModule (Expr.at [] (.path [['p'], ['a', 's', 'c', 'i', 'i', '_', 'd', 'i', 'g', 'i', 't']])) pre s stk (one isDigit s) :=
  leaves_rule (p' := [['p']]) (r := ⟨['a', 's', 'c', 'i', 'i', '_', 'd', 'i', 'g', 'i', 't'], [], baseAsciiDigit, false⟩) rfl rfl leaves_digit'

theorem leaves_nonzero : Leaves u jsonModule (Expr.at [] (.path [['p'], ['a', 's', 'c', 'i', 'i', '_', 'n', 'o', 'n', 'z', 'e', 'r', 'o', '_', 'd', 'i', 'g', 'i', 't']])) pre s stk (one isNonzero s) := by
  refine leaves_rule (p' := [['p']]) (r := ⟨['a', 's', 'c', 'i', 'i', '_', 'n', 'o', 'n', 'z', 'e', 'r', 'o', '_', 'd', 'i', 'g', 'i', 't'], [], baseAsciiNonzeroDigit, false⟩) rfl rfl ?_
  rw [isNonzero_eq]
  exact leaves_or leaves_char (leaves_or leaves_char (leaves_or leaves_char (leaves_or leaves_char (leaves_or leaves_char (leaves_or leaves_char (leaves_or leaves_char (leaves_or leaves_char leaves_char)))))))

theorem leaves_hex : Leaves u jsonModule (Expr.at [] (.path [['p'], ['a', 's', 'c', 'i', 'i', '_', 'h', 'e', 'x', '_', 'd', 'i', 'g', 'i', 't']])) pre s stk (one isHex s) := by
  refine leaves_rule (p' := [['p']]) (r := ⟨['a', 's', 'c', 'i', 'i', '_', 'h', 'e', 'x', '_', 'd', 'i', 'g', 'i', 't'], [], baseAsciiHexDigit, false⟩) rfl rfl ?_
  rw [isHex_eq]
  refine leaves_or ?_ (leaves_or leaves_char (leaves_or leaves_char (leaves_or leaves_char (leaves_or leaves_char (leaves_or leaves_char leaves_char)))))
  exact leaves_rule (p' := [['p']]) (r := ⟨['a', 's', 'c', 'i', 'i', '_', 'd', 'i', 'g', 'i', 't'], [], baseAsciiDigit, false⟩) rfl rfl leaves_digit'

theorem leaves_space : Leaves u jsonModule (Expr.at [] (.path [['s', 'p', 'a', 'c', 'e']])) pre s stk (one isSpace s) := by
  refine leaves_rule (p' := []) (r := ⟨['s', 'p', 'a', 'c', 'e'], [], rSpace, false⟩) rfl rfl ?_
  have : isSpace = fun x => x == ' ' || (x == '\t' || (x == '\r' || x == '\n')) := by
    funext x
    simp only [isSpace, Bool.or_assoc]
  rw [this]
  exact leaves_or leaves_char (leaves_or leaves_char (leaves_or leaves_char leaves_char))

theorem dropB_length (s : Text) : (dropB s).length ≤ s.length := (List.dropWhile_suffix _).length_le

theorem leaves_spaces (hs : s.length + 1 < usizeMax) : Leaves u jsonModule (Expr.at [] (.rep (.path [['s', 'p', 'a', 'c', 'e']]))) pre s stk (some (dropB s)) :=
  leaves_many rfl hs fun _ _ => leaves_space

theorem leaves_trivia (hs : s.length + 1 < usizeMax) : Leaves u jsonModule (.trivia [] .optional) pre s stk (some (dropB s)) :=
  (leaves_spaces hs).imp fun _ k => .triviaRule (m := jsonModule) (r := ⟨['~'], [], optRule, false⟩) rfl rfl k

/-- A sequence with blanks between. -/
theorem leaves_seqO {l r : Expr} {o} {g : Text → Option Text} (hs : s.length + 1 < usizeMax) (h : Leaves u jsonModule (Expr.at [] l) pre s stk o)
    (h' : ∀ pre' s', o = some s' → s'.length ≤ s.length → (dropB s').length ≤ s.length → Leaves u jsonModule (Expr.at [] r) pre' (dropB s') stk (g (dropB s'))) :
    Leaves u jsonModule (Expr.at [] (.seq l r .optional)) pre s stk (o.bind fun s' => g (dropB s')) :=
  leaves_seqT h (fun _ _ _ h => leaves_trivia (by omega)) h'

theorem leaves_sep (hs : s.length + 1 < usizeMax) : Leaves u jsonModule (.trivia [] .mandatory) pre s stk (sepF s) := by
  refine Leaves.imp (it := Expr.at [] manRule) ?_ fun _ k => .triviaRule (m := jsonModule) (r := ⟨['^'], [], manRule, false⟩) rfl rfl k
  exact leaves_seq (o := some (dropB s)) (g := fun s => (strip [','] s).bind fun s => some (dropB s)) (leaves_spaces hs) fun _ s1 _ h1 =>
    leaves_seq leaves_str fun _ s2 _ h2 => leaves_spaces (by omega)

theorem leaves_int (hs : s.length + 1 < usizeMax) : Leaves u jsonModule (Expr.at [] (.path [['i', 'n', 't']])) pre s stk (intF s) := by
  refine leaves_rule (p' := []) (r := ⟨['i', 'n', 't'], [], rInt, false⟩) rfl rfl ?_
  exact leaves_choice leaves_str fun _ => leaves_seq (g := fun s => some (s.dropWhile isDigit)) leaves_nonzero fun _ _ _ _ => leaves_many rfl (by omega) fun _ _ => leaves_digit

theorem leaves_exp (hs : s.length + 1 < usizeMax) : Leaves u jsonModule (Expr.at [] (.path [['e', 'x', 'p']])) pre s stk (expF s) := by
  refine leaves_rule (p' := []) (r := ⟨['e', 'x', 'p'], [], rExp, false⟩) rfl rfl ?_
  refine leaves_seq (g := fun s => (some ((one (fun x => x == '+' || x == '-') s).getD s)).bind (many1 isDigit)) (leaves_or leaves_char leaves_char) fun _ _ _ _ => ?_
  exact leaves_seq (leaves_opt (leaves_or leaves_char leaves_char)) fun _ _ _ _ => leaves_many1 rfl (by omega) fun _ _ => leaves_digit

theorem leaves_number (hs : s.length + 1 < usizeMax) : Leaves u jsonModule (Expr.at [] (.path [['n', 'u', 'm', 'b', 'e', 'r']])) pre s stk (numberF s) := by
  refine leaves_rule (p' := []) (r := ⟨['n', 'u', 'm', 'b', 'e', 'r'], [], rNumber, false⟩) rfl rfl ?_
  refine leaves_seq (o := some ((strip ['-'] s).getD s)) (g := fun s => (intF s).bind fun s => some (((fracF s).or (expF s)).getD s)) (leaves_opt leaves_str) fun _ _ _ h1 => ?_
  refine leaves_seq (g := fun s => some (((fracF s).or (expF s)).getD s)) (leaves_int (by omega)) fun _ _ _ h2 => leaves_opt (leaves_choice ?_ fun _ => leaves_exp (by omega))
  refine leaves_seqO (g := fun s => (many1 isDigit s).bind fun s => some ((expF (dropB s)).getD (dropB s))) (by omega) leaves_str fun _ _ _ h3 h4 => ?_
  exact leaves_seqO (g := fun s => some ((expF s).getD s)) (by omega) (leaves_many1 rfl (by omega) fun _ _ => leaves_digit) fun _ _ _ h5 h6 => leaves_opt (leaves_exp (by omega))

theorem leaves_esc : Leaves u jsonModule (Expr.at [] (.path [['e', 's', 'c', 'a', 'p', 'e']])) pre s stk (escF s) := by
  refine leaves_rule (p' := []) (r := ⟨['e', 's', 'c', 'a', 'p', 'e'], [], rEscape, false⟩) rfl rfl ?_
  refine leaves_seq (g := fun s => (one isEsc s).or ((strip ['u'] s).bind (four isHex))) leaves_str fun _ s' _ _ => ?_
  have : (one isEsc s').or ((strip ['u'] s').bind (four isHex)) = (one (· == '"') s').or ((one (· == '\\') s').or ((one (· == '/') s').or ((one (· == 'b') s').or ((one (· == 'f') s').or ((one (· == 'n') s').or
      ((one (· == 'r') s').or ((one (· == 't') s').or ((strip ['u'] s').bind (four isHex))))))))) := by
    simp only [← Option.or_assoc, or_one]
    rfl
  rw [this]
  refine leaves_choice leaves_char fun _ => leaves_choice leaves_char fun _ => leaves_choice leaves_char fun _ => leaves_choice leaves_char fun _ => leaves_choice leaves_char fun _ =>
    leaves_choice leaves_char fun _ => leaves_choice leaves_char fun _ => leaves_choice leaves_char fun _ => ?_
  refine leaves_rule (p' := []) (r := ⟨['u', 'n', 'i', 'c', 'o', 'd', 'e'], [], rUnicode, false⟩) rfl rfl ?_
  exact leaves_seq leaves_str fun _ _ _ _ => leaves_four rfl (fun _ _ => leaves_hex) _ _

theorem strip_length {t s s' : Text} (h : strip t s = some s') : s.length = t.length + s'.length := by
  rw [strip_some.mp h, List.length_append]

theorem four_length {f : Char → Bool} {s s' : Text} (h : four f s = some s') : s'.length < s.length := by
  simp only [four, Option.bind_eq_some_iff] at h
  obtain ⟨s1, h1, s2, h2, s3, h3, h4⟩ := h
  have := one_length h1; have := one_length h2; have := one_length h3; have := one_length h4
  omega

theorem escF_length {s s' : Text} (h : escF s = some s') : s'.length < s.length := by
  obtain ⟨s1, h1, h2⟩ := Option.bind_eq_some_iff.mp h
  have k := strip_length h1
  simp only [List.length_cons, List.length_nil] at k
  rcases Option.or_eq_some_iff.mp h2 with h3 | ⟨-, h3⟩
  · have := one_length h3; omega
  · obtain ⟨s2, h4, h5⟩ := Option.bind_eq_some_iff.mp h3
    have := strip_length h4; have := four_length h5
    omega

theorem leaves_any : Leaves u jsonModule (Expr.at [] (.path [['p', 'e', 's', 't'], ['a', 'n', 'y']])) pre s stk (one (fun _ => true) s) := by
  cases s with
  | nil => exact .builtinFail (full := [['p', 'e', 's', 't'], ['a', 'n', 'y']]) (l := .any) rfl (fun _ _ => rfl) rfl rfl rfl
  | cons x s => exact ⟨[x], rfl, .builtinOk (full := [['p', 'e', 's', 't'], ['a', 'n', 'y']]) (l := .any) rfl (fun _ _ => rfl) rfl rfl rfl rfl⟩

theorem leaves_plain : Leaves u jsonModule (Expr.at [] (.seq (.neg (.choice (.str ['"']) (.str ['\\']))) (.path [['p', 'e', 's', 't'], ['a', 'n', 'y']]) .none)) pre s stk (one isPlain s) := by
  have : (if (one (fun x => x == '"' || x == '\\') s).isSome then none else some s).bind (one fun _ => true) = one isPlain s := by
    cases s with
    | nil => rfl
    | cons x s =>
      by_cases h1 : x = '"' <;> by_cases h2 : x = '\\' <;> simp [one, isPlain, h1, h2]
  rw [← this]
  exact leaves_seq (leaves_neg (leaves_or leaves_char leaves_char)) fun _ _ _ _ => leaves_any

theorem leaves_inner : ∀ (n : Nat) {pre s : Text}, s.length ≤ n → s.length + 1 < usizeMax →
    Leaves u jsonModule (Expr.at [] (.path [['i', 'n', 'n', 'e', 'r']])) pre s stk (some (innerF n s)) := by
  intro n
  induction n with
  | zero =>
    intro pre s h hs
    refine leaves_rule (p' := []) (r := ⟨['i', 'n', 'n', 'e', 'r'], [], rInner, false⟩) rfl rfl ?_
    refine leaves_seq (g := some) (leaves_many rfl hs fun _ _ => leaves_plain) fun pre' s' _ hle => ?_
    have h1 : escF s' = none := by
      cases h1 : escF s' with
      | none => rfl
      | some s'' => have := escF_length h1; omega
    have : some s' = some (((escF s').bind fun _ => none).getD s') := by rw [h1]; rfl
    rw [this]
    exact leaves_opt (leaves_seqO (g := fun _ => none) (by omega) leaves_esc fun _ _ h _ _ => by rw [h1] at h; cases h)
  | succ n ih =>
    intro pre s h hs
    refine leaves_rule (p' := []) (r := ⟨['i', 'n', 'n', 'e', 'r'], [], rInner, false⟩) rfl rfl ?_
    have : innerF (n + 1) s = ((escF (s.dropWhile isPlain)).bind fun s' => some (innerF n (dropB s'))).getD (s.dropWhile isPlain) := by
      simp only [innerF]
      cases escF (s.dropWhile isPlain) <;> rfl
    rw [this]
    refine leaves_seq (o := some (s.dropWhile isPlain)) (g := fun s => some (((escF s).bind fun s' => some (innerF n (dropB s'))).getD s)) (leaves_many rfl hs fun _ _ => leaves_plain) fun _ s1 _ h1 => ?_
    refine leaves_opt (leaves_seqO (g := fun s' => some (innerF n s')) (by omega) leaves_esc fun _ s2 h2 h3 h4 => ih ?_ (by omega))
    have := escF_length h2; have := dropB_length s2
    omega

theorem leaves_string (hs : s.length + 1 < usizeMax) : Leaves u jsonModule (Expr.at [] (.path [['s', 't', 'r', 'i', 'n', 'g']])) pre s stk (stringF s) := by
  refine leaves_rule (p' := []) (r := ⟨['s', 't', 'r', 'i', 'n', 'g'], [], rString, false⟩) rfl rfl ?_
  refine leaves_seq (g := fun s => (some (innerF s.length s)).bind (strip ['"'])) leaves_str fun _ _ _ _ => ?_
  exact leaves_seq (leaves_inner _ (Nat.le_refl _) (by omega)) fun _ _ _ _ => leaves_str

/-- `f` is what `value` leaves, on texts shorter than `s`. -/
def IsValue (u : Unicode) (stk : List Text) (m : Nat) (f : Text → Option Text) : Prop :=
  ∀ pre s, s.length < m → Leaves u jsonModule (Expr.at [] (.path [['v', 'a', 'l', 'u', 'e']])) pre s stk (f s)

variable {f : Text → Option Text}

theorem stringF_length {s s' : Text} (hs : s.length + 1 < usizeMax) (h : stringF s = some s') : s'.length < s.length := by
  obtain ⟨s1, h1, h2⟩ := Option.bind_eq_some_iff.mp h
  have := strip_length h1; have := strip_length h2
  have := (leaves_inner (u := ⟨[], fun _ _ => false⟩) (stk := []) s1.length (pre := []) (Nat.le_refl _) (by simp at *; omega)).length
  simp only [List.length_cons, List.length_nil] at *
  omega

theorem leaves_pair {m : Nat} (hv : IsValue u stk m f) (hm : s.length < m + 1) (hs : s.length + 1 < usizeMax) :
    Leaves u jsonModule (Expr.at [] (.path [['p', 'a', 'i', 'r']])) pre s stk (pairF f s) := by
  refine leaves_rule (p' := []) (r := ⟨['p', 'a', 'i', 'r'], [], rPair, false⟩) rfl rfl ?_
  refine leaves_seqO (g := fun s => (strip [':'] s).bind fun s => f (dropB s)) hs (leaves_string hs) fun _ s1 k1 h1 h2 => ?_
  refine leaves_seqO (g := f) (by omega) leaves_str fun _ s2 k2 h3 h4 => hv _ _ ?_
  have := stringF_length hs k1; have := strip_length k2; have := dropB_length s1; have := dropB_length s2
  simp only [List.length_cons, List.length_nil] at *
  omega

theorem pairF_length {m : Nat} (hv : IsValue u stk m f) {s s' : Text} (hm : s.length < m + 1) (hs : s.length + 1 < usizeMax) (h : pairF f s = some s') : s'.length ≤ s.length := by
  have k := leaves_pair (pre := []) hv hm hs
  rw [h] at k
  exact k.length

theorem sepF_length {s s' : Text} (h : sepF s = some s') : s'.length < s.length := by
  obtain ⟨s1, h1, h2⟩ := Option.bind_eq_some_iff.mp h
  cases h2
  have := strip_length h1; have := dropB_length s; have := dropB_length s1
  simp only [List.length_cons, List.length_nil] at *
  omega

/-- An item of a repetition after the trivia. -/
theorem leaves_unitT {root : Module} {p : List Name} {e : Expr} {t : Trivia} {i : Nat} {o} {g : Text → Option Text} (h : Leaves u root (.trivia p t) pre s stk o)
    (h' : ∀ pre' s', o = some s' → s'.length ≤ s.length → Leaves u root (Expr.at p e) pre' s' stk (g s')) : Leaves u root (.unit (.mk p [] e) p t (i + 1)) pre s stk (o.bind g) := by
  cases o with
  | none => exact .unitTriviaFail h
  | some s' =>
    obtain ⟨w, rfl, h2⟩ := h
    have h3 := h' (pre ++ w) s' rfl (by simp)
    simp only [Option.bind_some]
    revert h3
    cases g s' with
    | none => exact fun h3 => .unitNext h2 h3
    | some s2 => exact fun ⟨w', k3, k4⟩ => ⟨w ++ w', by rw [k3]; simp, by rw [← List.append_assoc]; exact .unitNext h2 k4⟩

theorem leaves_pairs {m : Nat} (hv : IsValue u stk m f) (hm : s.length < m + 1) (hs : s.length + 1 < usizeMax) :
    Leaves u jsonModule (Expr.at [] (.rep (.separated (.path [['p', 'a', 'i', 'r']]) .mandatory))) pre s stk (some (pairsF f s)) := by
  have := leaves_rep (u := u) (root := jsonModule) (p := []) (pre := pre) (stk := stk) (e := .rep (.separated (.path [['p', 'a', 'i', 'r']]) .mandatory)) (min := 0)
    (f := fun s => (sepF s).bind (pairF f)) (o := pairF f s) rfl (by omega) hs ((leaves_pair hv hm hs).imp fun _ k => .separated k)
    (fun i pre' s' h => leaves_unitT (leaves_sep (by omega)) fun _ _ _ h1 => (leaves_pair hv (by omega) (by omega)).imp fun _ k => .separated k)
    (fun s1 s' h h1 => by
      obtain ⟨s2, h2, h3⟩ := Option.bind_eq_some_iff.mp h1
      have := sepF_length h2
      have := pairF_length hv (by omega) (by omega) h3
      omega)
  unfold pairsF
  cases h : pairF f s with
  | none => rw [h] at this; exact this
  | some s' => rw [h] at this; exact this

theorem leaves_object {m : Nat} (hv : IsValue u stk m f) (hm : s.length < m + 1) (hs : s.length + 1 < usizeMax) :
    Leaves u jsonModule (Expr.at [] (.path [['o', 'b', 'j', 'e', 'c', 't']])) pre s stk (objectF f s) := by
  refine leaves_rule (p' := []) (r := ⟨['o', 'b', 'j', 'e', 'c', 't'], [], rObject, false⟩) rfl rfl ?_
  refine leaves_seqO (g := fun s => strip ['}'] (dropB (pairsF f s))) hs leaves_str fun _ s1 k1 h1 h2 => ?_
  exact leaves_seqO (o := some (pairsF f (dropB s1))) (g := strip ['}']) (by omega) (leaves_pairs hv (by omega) (by omega)) fun _ s2 k2 h3 h4 => leaves_str

theorem leaves_item {m : Nat} (hv : IsValue u stk m f) (hm : s.length < m + 1) (hs : s.length + 1 < usizeMax) :
    Leaves u jsonModule (Expr.at [] (.seq (.str [',']) (.path [['v', 'a', 'l', 'u', 'e']]) .optional)) pre s stk (itemF f s) := by
  refine leaves_seqO (g := f) hs leaves_str fun _ s1 k1 h1 h2 => hv _ _ ?_
  have := strip_length k1; have := dropB_length s1
  simp only [List.length_cons, List.length_nil] at *
  omega

theorem leaves_items {m : Nat} (hv : IsValue u stk m f) (hm : s.length < m + 1) (hs : s.length + 1 < usizeMax) :
    Leaves u jsonModule (Expr.at [] (.rep (.seq (.str [',']) (.path [['v', 'a', 'l', 'u', 'e']]) .optional))) pre s stk (some (itemsF f s)) := by
  have := leaves_rep (u := u) (root := jsonModule) (p := []) (pre := pre) (stk := stk) (e := .rep (.seq (.str [',']) (.path [['v', 'a', 'l', 'u', 'e']]) .optional)) (min := 0)
    (f := itemF f) (o := itemF f s) rfl (by omega) hs (leaves_item hv hm hs)
    (fun i pre' s' h => leaves_unit (leaves_item hv (by omega) (by omega)))
    (fun s1 s' h h1 => by
      obtain ⟨s2, h2, h3⟩ := Option.bind_eq_some_iff.mp h1
      have := strip_length h2; have := dropB_length s2
      simp only [List.length_cons, List.length_nil] at *
      have k := hv [] (dropB s2) (by omega)
      rw [h3] at k
      have := k.length
      omega)
  unfold itemsF
  cases h : itemF f s with
  | none => rw [h] at this; exact this
  | some s' => rw [h] at this; exact this

theorem leaves_array {m : Nat} (hv : IsValue u stk m f) (hm : s.length < m + 1) (hs : s.length + 1 < usizeMax) :
    Leaves u jsonModule (Expr.at [] (.path [['a', 'r', 'r', 'a', 'y']])) pre s stk (arrayF f s) := by
  refine leaves_rule (p' := []) (r := ⟨['a', 'r', 'r', 'a', 'y'], [], rArray, false⟩) rfl rfl ?_
  refine leaves_choice ?_ fun _ => leaves_seqO hs leaves_str fun _ _ _ _ _ => leaves_str
  refine leaves_seqO (g := fun s => (f s).bind fun s => strip [']'] (dropB (itemsF f (dropB s)))) hs leaves_str fun _ s1 k1 h1 h2 => ?_
  have := strip_length k1; have := dropB_length s1
  simp only [List.length_cons, List.length_nil] at *
  refine leaves_seqO (g := fun s => strip [']'] (dropB (itemsF f s))) (by omega) (hv _ _ (by omega)) fun _ s2 k2 h3 h4 => ?_
  exact leaves_seqO (o := some (itemsF f (dropB s2))) (g := strip [']']) (by omega) (leaves_items hv (by omega) (by omega)) fun _ _ _ _ _ => leaves_str

theorem leaves_value : ∀ (n : Nat) {pre s : Text}, s.length < n → s.length + 1 < usizeMax →
    Leaves u jsonModule (Expr.at [] (.path [['v', 'a', 'l', 'u', 'e']])) pre s stk (valueF n s) := by
  intro n
  induction n with
  | zero => intro _ _ h; exact absurd h (Nat.not_lt_zero _)
  | succ n ih =>
    intro pre s h hs
    have hv : IsValue u stk s.length (valueF n) := fun pre' s' h' => ih (by omega) (by omega)
    refine leaves_rule (p' := []) (r := ⟨['v', 'a', 'l', 'u', 'e'], [], rValue, false⟩) rfl rfl ?_
    refine leaves_choice (leaves_string hs) fun _ => leaves_choice (leaves_number hs) fun _ => leaves_choice (leaves_object hv (by omega) hs) fun _ =>
      leaves_choice (leaves_array hv (by omega) hs) fun _ => leaves_choice ?_ fun _ => ?_
    · exact leaves_rule (p' := []) (r := ⟨['b', 'o', 'o', 'l'], [], rBool, false⟩) rfl rfl (leaves_choice leaves_str fun _ => leaves_str)
    · exact leaves_rule (p' := []) (r := ⟨['n', 'u', 'l', 'l'], [], rNull, false⟩) rfl rfl leaves_str

/-- `json` at the beginning of a text: whether it matches all of it. -/
def jsonF (s : Text) : Bool := match valueF (s.length + 1) (dropB s) with
  | some s' => (dropB s').isEmpty
  | none => false

theorem leaves_json (hs : s.length + 1 < usizeMax) : Leaves u jsonModule (Expr.at [] rJson) [] s stk (if jsonF s then some [] else none) := by
  have h1 : Leaves u jsonModule (Expr.at [] (.path [['p', 'e', 's', 't'], ['s', 'o', 'i']])) [] s stk (some s) :=
    ⟨[], rfl, .builtinOk (full := [['p', 'e', 's', 't'], ['s', 'o', 'i']]) (l := .soi) rfl (fun _ _ => rfl) rfl rfl rfl rfl⟩
  have h2 : ∀ pre s, Leaves u jsonModule (Expr.at [] (.path [['p', 'e', 's', 't'], ['e', 'o', 'i']])) pre s stk (if s = [] then some [] else none) := by
    intro pre s
    cases s with
    | nil => exact ⟨[], rfl, .builtinOk (full := [['p', 'e', 's', 't'], ['e', 'o', 'i']]) (l := .eoi) rfl (fun _ _ => rfl) rfl rfl rfl rfl⟩
    | cons x s => exact .builtinFail (full := [['p', 'e', 's', 't'], ['e', 'o', 'i']]) (l := .eoi) rfl (fun _ _ => rfl) rfl rfl rfl
  have h3 := leaves_seqO (g := fun t => (valueF (s.length + 1) t).bind fun s => if dropB s = [] then some [] else none) hs h1 fun pre' s' _ k1 k2 =>
    leaves_seqO (g := fun s => if s = [] then some [] else none) (by omega) (leaves_value (s.length + 1) (by omega) (by omega)) fun _ _ _ _ _ => h2 _ _
  have : (if jsonF s then some [] else none) = ((some s).bind fun s' => (valueF (s.length + 1) (dropB s')).bind fun s => if dropB s = [] then some ([] : Text) else none) := by
    rcases h0 : valueF (s.length + 1) (dropB s) with _ | s'
    · simp [jsonF, h0]
    · cases h : dropB s' <;> simp [jsonF, h0, h]
  rw [this]
  exact h3

end
end Pest3.Json
