import Verif.StackExample
import Verif.StackTexts
import Verif.JsonLemmas

/-!
# What the rules with a stack of the tests do
-/

namespace Pest3.Stk
open Pest3 Pest3.Gen
open Pest3.Json (Leaves strip strip_some one leaves_str leaves_many leaves_choice leaves_char leaves_or)

/-- What the item does at a text with a stack: it fails, or leaves a rest of the text and a stack. -/
def Runs (u : Unicode) (root : Module) (it : SItem) (pre s : Text) (stk : List Text) (o : Option (Text × List Text)) : Prop :=
  match o with
  | none => Meaning u root it ⟨pre, s, stk⟩ none
  | some (s', stk') => ∃ w, s = w ++ s' ∧ Meaning u root it ⟨pre, s, stk⟩ (some ⟨pre ++ w, s', stk'⟩)

section
variable {u : Unicode} {root : Module} {pre s : Text} {stk : List Text}

theorem Runs.imp {it it' : SItem} {o} (h : Runs u root it pre s stk o) (hi : ∀ r, Meaning u root it ⟨pre, s, stk⟩ r → Meaning u root it' ⟨pre, s, stk⟩ r) : Runs u root it' pre s stk o := by
  cases o with
  | none => exact hi _ h
  | some r => obtain ⟨w, h1, h2⟩ := h; exact ⟨w, h1, hi _ h2⟩

/-- Without an effect on the stack. -/
theorem runs_leaves {it : SItem} {o : Option Text} (h : Leaves u root it pre s stk o) : Runs u root it pre s stk (o.map (·, stk)) := by
  cases o with
  | none => exact h
  | some s' => exact h

theorem runs_seq {p : List Name} {l r : Expr} {t : Trivia} {o} {f : Text → Text} {g : Text → List Text → Option (Text × List Text)} (h : Runs u root (.expr (.mk p [] l)) pre s stk o)
    (hT : ∀ pre' s' stk', o = some (s', stk') → s'.length ≤ s.length → Leaves u root (.trivia p t) pre' s' stk' (some (f s')))
    (h' : ∀ pre' s' stk', o = some (s', stk') → s'.length ≤ s.length → (f s').length ≤ s'.length → Runs u root (.expr (.mk p [] r)) pre' (f s') stk' (g (f s') stk')) :
    Runs u root (.expr (.mk p [] (.seq l r t))) pre s stk (o.bind fun x => g (f x.1) x.2) := by
  cases o with
  | none => exact .seqFail h
  | some x =>
    obtain ⟨s', stk'⟩ := x
    obtain ⟨w, rfl, h2⟩ := h
    obtain ⟨w2, k1, k2⟩ := hT (pre ++ w) s' stk' rfl (by simp)
    have h3 := h' (pre ++ w ++ w2) s' stk' rfl (by simp) (by have := congrArg List.length k1; simp only [List.length_append] at this; omega)
    simp only [Option.bind_some]
    revert h3
    cases g (f s') stk' with
    | none => exact fun h3 => .seq h2 k2 h3
    | some x =>
      rintro ⟨w3, k3, k4⟩
      refine ⟨w ++ (w2 ++ w3), ?_, ?_⟩
      · rw [k1, k3]; simp
      · rw [show pre ++ (w ++ (w2 ++ w3)) = pre ++ w ++ w2 ++ w3 by simp]
        exact .seq h2 k2 k4

/-- A sequence without trivia. -/
theorem runs_then {p : List Name} {l r : Expr} {o} {g : Text → List Text → Option (Text × List Text)} (h : Runs u root (.expr (.mk p [] l)) pre s stk o)
    (h' : ∀ pre' s' stk', o = some (s', stk') → s'.length ≤ s.length → Runs u root (.expr (.mk p [] r)) pre' s' stk' (g s' stk')) :
    Runs u root (.expr (.mk p [] (.seq l r .none))) pre s stk (o.bind fun x => g x.1 x.2) :=
  runs_seq (f := fun s => s) h (fun _ _ _ _ _ => ⟨[], rfl, by rw [List.append_nil]; exact .triviaNone⟩) fun pre' s' stk' h1 h2 _ => h' pre' s' stk' h1 h2

theorem runs_choice {p : List Name} {l r : Expr} {o o'} (h : Runs u root (.expr (.mk p [] l)) pre s stk o) (h' : o = none → Runs u root (.expr (.mk p [] r)) pre s stk o') :
    Runs u root (.expr (.mk p [] (.choice l r))) pre s stk (o.or o') := by
  cases o with
  | some x =>
    obtain ⟨w, h1, h2⟩ := h
    exact ⟨w, h1, .choiceL h2⟩
  | none => exact (h' rfl).imp fun r k => .choiceR h k

theorem runs_neg {p : List Name} {e : Expr} {o} (h : Runs u root (.expr (.mk p [] e)) pre s stk o) : Runs u root (.expr (.mk p [] (.neg e))) pre s stk (if o.isSome then none else some (s, stk)) := by
  cases o with
  | none => exact ⟨[], rfl, by rw [List.append_nil]; exact .negOk h⟩
  | some x => obtain ⟨w, h1, h2⟩ := h; exact .negFail h2

theorem runs_rule {p q p' : List Name} {r : Rule} {o} (ht : target u root p q = some (.rule p' r)) (ha : r.args = []) (h : Runs u root (.expr (.mk p' [] r.node)) pre s stk o) :
    Runs u root (.expr (.mk p [] (.path q))) pre s stk o := h.imp fun _ k => .rule (fun _ _ => rfl) ht ha k

theorem runs_push {p : List Name} {e : Expr} {o : Option Text} (ht : target u root p pathPush = some (.builtin pathPush)) (h : Leaves u root (.expr (.mk p [] e)) pre s stk o) :
    Runs u root (.expr (.mk p [] (.call pathPush [e]))) pre s stk (o.map fun s' => (s', stk ++ [s.take (s.length - s'.length)])) := by
  cases o with
  | none => exact .pushFail (fun _ _ => rfl) ht h
  | some s' =>
    obtain ⟨w, rfl, h2⟩ := h
    refine ⟨w, rfl, ?_⟩
    have := Meaning.pushOk (m := w) (fun _ _ => rfl) ht h2
    simpa using this

/-- A leaf that takes a text which depends on the stack. -/
theorem runs_leaf {p q : List Name} {l : Leaf} {o : Option (Text × List Text)} (ht : target u root p q = some (.builtin q)) (hb : builtinLeaf u q = some l)
    (hl : ∀ pre, leafSpec l ⟨pre, s, stk⟩ = o) (ho : ∀ m k, o = some (m, k) → m <+: s) :
    Runs u root (.expr (.mk p [] (.path q))) pre s stk (o.map fun x => (s.drop x.1.length, x.2)) := by
  cases o with
  | none => exact .builtinFail rfl (fun _ _ => rfl) ht hb (hl _)
  | some x =>
    obtain ⟨m, k⟩ := x
    obtain ⟨r, rfl⟩ := ho m k rfl
    exact ⟨m, by simp, .builtinOk rfl (fun _ _ => rfl) ht hb (hl _) (by simp)⟩

/-- Taking a text. -/
def take (m : Text) (stk : List Text) (s : Text) : Option (Text × List Text) := (strip m s).map (·, stk)

theorem eatText_strip (m s : Text) : eatText m s = (strip m s).map fun _ => m := by
  unfold eatText
  cases h : strip m s with
  | some s' =>
    obtain rfl := strip_some.mp h
    simp
  | none =>
    have : ¬ m <+: s := by
      rintro ⟨s', rfl⟩
      rw [strip_some.mpr rfl] at h; cases h
    simp [this]

theorem runs_take {p q : List Name} {l : Leaf} {m : Text} {k : List Text} (ht : target u root p q = some (.builtin q)) (hb : builtinLeaf u q = some l)
    (hl : ∀ pre, leafSpec l ⟨pre, s, stk⟩ = (eatText m s).map (·, k)) : Runs u root (.expr (.mk p [] (.path q))) pre s stk (take m k s) := by
  have := runs_leaf (pre := pre) ht hb hl (fun m' k' h => by
    obtain ⟨m2, h1, h2⟩ := Option.map_eq_some_iff.mp h
    cases h2
    unfold eatText at h1
    split at h1
    · rename_i h3; cases h1; exact List.isPrefixOf_iff_prefix.mp (by simpa using h3)
    · cases h1)
  rw [eatText_strip] at this
  unfold take
  cases h : strip m s with
  | none => rw [h] at this; exact this
  | some s' =>
    rw [h] at this
    obtain rfl := strip_some.mp h
    simpa using this

/-- `pop` -/
def popF (s : Text) (stk : List Text) : Option (Text × List Text) := stk.getLast?.bind fun top => take top stk.dropLast s
/-- `peek` -/
def peekF (s : Text) (stk : List Text) : Option (Text × List Text) := stk.getLast?.bind fun top => take top stk s
/-- `drop` -/
def dropF (s : Text) (stk : List Text) : Option (Text × List Text) := if stk = [] then none else some (s, stk.dropLast)

theorem runs_pop {p : List Name} (ht : target u root p pathPop = some (.builtin pathPop)) : Runs u root (.expr (.mk p [] (.path pathPop))) pre s stk (popF s stk) := by
  unfold popF
  cases h : stk.getLast? with
  | none => exact .builtinFail rfl (fun _ _ => rfl) ht rfl (by simp [leafSpec, h])
  | some top => exact runs_take ht rfl fun pre => by simp [leafSpec, h]

theorem runs_peek {p : List Name} (ht : target u root p pathPeek = some (.builtin pathPeek)) : Runs u root (.expr (.mk p [] (.path pathPeek))) pre s stk (peekF s stk) := by
  unfold peekF
  cases h : stk.getLast? with
  | none => exact .builtinFail rfl (fun _ _ => rfl) ht rfl (by simp [leafSpec, h])
  | some top => exact runs_take ht rfl fun pre => by simp [leafSpec, h]

theorem runs_drop {p : List Name} (ht : target u root p pathDrop = some (.builtin pathDrop)) : Runs u root (.expr (.mk p [] (.path pathDrop))) pre s stk (dropF s stk) := by
  unfold dropF
  split
  · rename_i h; exact .builtinFail rfl (fun _ _ => rfl) ht rfl (by simp [leafSpec, h])
  · rename_i h; exact ⟨[], rfl, .builtinOk rfl (fun _ _ => rfl) ht rfl (by simp [leafSpec, h]) rfl⟩

theorem runs_popAll {p : List Name} (ht : target u root p pathPopAll = some (.builtin pathPopAll)) :
    Runs u root (.expr (.mk p [] (.path pathPopAll))) pre s stk (take stk.reverse.flatten [] s) := runs_take ht rfl fun _ => rfl

theorem runs_peekAll {p : List Name} (ht : target u root p pathPeekAll = some (.builtin pathPeekAll)) :
    Runs u root (.expr (.mk p [] (.path pathPeekAll))) pre s stk (take stk.reverse.flatten stk s) := runs_take ht rfl fun _ => rfl

/-- A slice of the stack. -/
def sliceF (a b : Int) (s : Text) (stk : List Text) : Option (Text × List Text) := (sliceSpec stk a (some b)).bind fun l => take l.flatten stk s

theorem runs_slice {p : List Name} {a b : Int} (ht : target u root p pathPeek = some (.builtin pathPeek)) : Runs u root (.expr (.mk p [] (.slice pathPeek ⟨some a, some b⟩))) pre s stk (sliceF a b s stk) := by
  unfold sliceF
  cases h : sliceSpec stk a (some b) with
  | none => exact .sliceFail (fun _ _ => rfl) ht rfl (by simp [leafSpec, h])
  | some l =>
    simp only [Option.bind_some, take]
    cases h2 : strip l.flatten s with
    | none => exact .sliceFail (fun _ _ => rfl) ht rfl (by simp [leafSpec, h, eatText_strip, h2])
    | some s' =>
      refine ⟨l.flatten, strip_some.mp h2, .sliceOk (fun _ _ => rfl) ht rfl ?_ (strip_some.mp h2)⟩
      simp [leafSpec, h, eatText_strip, h2]

/-- The end of the text. -/
def endF (s : Text) (stk : List Text) : Option (Text × List Text) := if s = [] then some ([], stk) else none

theorem runs_end {p : List Name} (ht : target u root p [['p', 'e', 's', 't'], ['e', 'o', 'i']] = some (.builtin [['p', 'e', 's', 't'], ['e', 'o', 'i']])) :
    Runs u root (.expr (.mk p [] (.path [['p', 'e', 's', 't'], ['e', 'o', 'i']]))) pre s stk (endF s stk) := by
  unfold endF
  split
  · rename_i h; subst h
    exact ⟨[], rfl, .builtinOk (l := .eoi) rfl (fun _ _ => rfl) ht rfl (by simp [leafSpec]) rfl⟩
  · rename_i h; exact .builtinFail (l := .eoi) rfl (fun _ _ => rfl) ht rfl (by simp [leafSpec, h])

theorem runs_str {p : List Name} {t : Text} : Runs u root (.expr (.mk p [] (.str t))) pre s stk (take t stk s) := runs_leaves leaves_str

/-- Pushing one character. -/
def pushC (f : Char → Bool) (s : Text) (stk : List Text) : Option (Text × List Text) :=
  match s with
  | [] => none
  | x :: s' => if f x then some (s', stk ++ [[x]]) else none

theorem runs_pushC {p : List Name} {e : Expr} {f : Char → Bool} (ht : target u root p pathPush = some (.builtin pathPush)) (h : Leaves u root (.expr (.mk p [] e)) pre s stk (one f s)) :
    Runs u root (.expr (.mk p [] (.call pathPush [e]))) pre s stk (pushC f s stk) := by
  have := runs_push ht h
  cases s with
  | nil => exact this
  | cons x s =>
    simp only [pushC]
    simp only [one] at this
    split
    · rename_i hx
      rw [if_pos hx] at this
      simpa using this
    · rename_i hx
      rw [if_neg hx] at this
      exact this

/-- Pushing a literal. -/
theorem runs_pushS {p : List Name} {t : Text} (ht : target u root p pathPush = some (.builtin pathPush)) :
    Runs u root (.expr (.mk p [] (.call pathPush [.str t]))) pre s stk (take t (stk ++ [t]) s) := by
  have := runs_push (pre := pre) (s := s) (stk := stk) ht (leaves_str (t := t))
  unfold take
  cases h : strip t s with
  | none => rw [h] at this; exact this
  | some s' =>
    rw [h] at this
    obtain rfl := strip_some.mp h
    simpa using this

/-- Again and again. -/
def againR (f : Text → List Text → Option (Text × List Text)) : Nat → Text → List Text → Text × List Text
  | 0, s, stk => (s, stk)
  | n + 1, s, stk => match f s stk with
    | some (s', stk') => againR f n s' stk'
    | none => (s, stk)

theorem runs_reps {e : Clo} {p : List Name} {t : Trivia} {f : Text → List Text → Option (Text × List Text)}
    (hu : ∀ i pre s stk, Runs u root (.unit e p t i) pre s stk (f s stk)) (hf : ∀ s stk s' stk', f s stk = some (s', stk') → s'.length < s.length) :
    ∀ m i pre s stk, s.length ≤ m → i + m < usizeMax → Runs u root (.reps e p t 0 usizeMax i) pre s stk (some (againR f m s stk)) := by
  intro m
  induction m with
  | zero =>
    intro i pre s stk hs hi
    have h := hu i pre s stk
    refine ⟨[], rfl, ?_⟩
    rw [List.append_nil]
    cases h1 : f s stk with
    | some x => have := hf _ _ x.1 x.2 h1; omega
    | none => rw [h1] at h; exact .repsStop (by omega) h (Nat.zero_le _)
  | succ m ih =>
    intro i pre s stk hs hi
    have h := hu i pre s stk
    simp only [againR]
    cases h1 : f s stk with
    | none => rw [h1] at h; exact ⟨[], rfl, by rw [List.append_nil]; exact .repsStop (by omega) h (Nat.zero_le _)⟩
    | some x =>
      obtain ⟨s', stk'⟩ := x
      rw [h1] at h
      obtain ⟨w, k1, k2⟩ := h
      have h2 := hf _ _ _ _ h1
      obtain ⟨w', k3, k4⟩ := ih (i + 1) (pre ++ w) s' stk' (by omega) (by omega)
      refine ⟨w ++ w', by rw [List.append_assoc, ← k3]; exact k1, ?_⟩
      rw [← List.append_assoc]
      exact .repsMore (by omega) k2 k4

theorem runs_rep {e : Expr} {p : List Name} {f : Text → List Text → Option (Text × List Text)} (ht : sepTrivia e = .none) (hn : s.length < usizeMax)
    (h : ∀ pre s stk, Runs u root (.expr (.mk p [] e)) pre s stk (f s stk)) (hf : ∀ s stk s' stk', f s stk = some (s', stk') → s'.length < s.length) :
    Runs u root (.expr (.mk p [] (.rep e))) pre s stk (some (againR f s.length s stk)) := by
  refine Runs.imp (it := .reps (.mk p [] e) p .none 0 usizeMax 0) ?_ fun _ k => .rep (e' := e) rfl (by rw [ht]; exact k)
  refine runs_reps (fun i pre s stk => ?_) hf _ _ _ _ _ (Nat.le_refl _) (by omega)
  cases i with
  | zero => exact (h pre s stk).imp fun _ k => .unitFirst k
  | succ i => exact (h pre s stk).imp fun _ k => .unitNext .triviaNone k

end

/-! ## The rules -/

/-- Digits. -/
def isDigit (x : Char) : Bool := decide ('0' ≤ x ∧ x ≤ '9')
/-- The letters `a`, `b`, `c`. -/
def isLetter (x : Char) : Bool := decide ('a' ≤ x ∧ x ≤ 'c')
/-- Blanks and dollar signs. -/
def isSpace (x : Char) : Bool := x == ' ' || x == '$'

def peek_F (s : Text) (stk : List Text) : Option (Text × List Text) :=
  (pushC isDigit s stk).bind fun x => (pushC isDigit x.1 x.2).bind fun x => (peekF x.1 x.2).bind fun x => peekF x.1 x.2
def peekAllF (s : Text) (stk : List Text) : Option (Text × List Text) :=
  (pushC isDigit s stk).bind fun x => (pushC isDigit x.1 x.2).bind fun x => take x.2.reverse.flatten x.2 x.1
def pop_F (s : Text) (stk : List Text) : Option (Text × List Text) :=
  (pushC isDigit s stk).bind fun x => (pushC isDigit x.1 x.2).bind fun x => (popF x.1 x.2).bind fun x => popF x.1 x.2
def popAllF (s : Text) (stk : List Text) : Option (Text × List Text) :=
  (pushC isDigit s stk).bind fun x => (pushC isDigit x.1 x.2).bind fun x => take x.2.reverse.flatten [] x.1
def popFailF (s : Text) (stk : List Text) : Option (Text × List Text) :=
  (pushC isDigit s stk).bind fun x => (if (popF x.1 x.2).isSome then none else some (x.1, x.2)).bind fun x => ((one isDigit x.1).map (·, x.2)).bind fun x => popF x.1 x.2
def slice23F (s : Text) (stk : List Text) : Option (Text × List Text) :=
  (pushC isDigit s stk).bind fun x => (pushC isDigit x.1 x.2).bind fun x => (pushC isDigit x.1 x.2).bind fun x => (pushC isDigit (x.1.dropWhile isSpace) x.2).bind fun x =>
    (pushC isDigit (x.1.dropWhile isSpace) x.2).bind fun x => sliceF 1 (-2) (x.1.dropWhile isSpace) x.2
def stepF (s : Text) (stk : List Text) : Option (Text × List Text) := (pushC isLetter s stk).bind fun x => take [','] x.2 x.1
def mutateF (s : Text) (stk : List Text) : Option (Text × List Text) :=
  (some (againR stepF s.length s stk)).bind fun x => (popF x.1 x.2).bind fun x => (popF x.1 x.2).bind fun x => popF x.1 x.2
def mutateAllF (s : Text) (stk : List Text) : Option (Text × List Text) :=
  (some (againR stepF s.length s stk)).bind fun x => take x.2.reverse.flatten [] x.1
def willFailF (s : Text) (stk : List Text) : Option (Text × List Text) := (mutateAllF s stk).bind fun x => take ['F', 'A', 'I', 'L'] x.2 x.1
def resumeF (s : Text) (stk : List Text) : Option (Text × List Text) := (willFailF s stk).or (mutateAllF s stk)
def pickF (s : Text) (stk : List Text) : Option (Text × List Text) :=
  ((take ['a'] (stk ++ [['a']]) s).bind fun x => (take ['b'] x.2 x.1).bind fun x => popF x.1 x.2).or
    (((dropF s stk).bind fun x => take ['b'] x.2 x.1).or ((popF s stk).bind fun x => take ['a'] x.2 x.1))
def checkpointF (s : Text) (stk : List Text) : Option (Text × List Text) := (take [] (stk ++ [[]]) s).bind fun x => (pickF x.1 x.2).bind fun x => endF x.1 x.2

theorem stepF_length {s : Text} {stk : List Text} {s' : Text} {stk' : List Text} (h : stepF s stk = some (s', stk')) : s'.length < s.length := by
  unfold stepF at h
  cases s with
  | nil => cases h
  | cons x s =>
    simp only [pushC] at h
    split at h
    · simp only [Option.bind_some, take, Option.map_eq_some_iff] at h
      obtain ⟨s1, h1, h2⟩ := h
      cases h2
      rw [strip_some.mp h1]
      simp only [List.length_cons, List.length_append]; omega
    · cases h

section
variable {u : Unicode} {pre s : Text} {stk : List Text}

theorem leaves_range {lo hi : Char} {root : Module} {p : List Name} : Leaves u root (.expr (.mk p [] (.range lo hi))) pre s stk (one (fun x => decide (lo ≤ x ∧ x ≤ hi)) s) := by
  cases s with
  | nil => exact .literalFail rfl (by simp [leafSpec, eatChar])
  | cons x s =>
    simp only [one]
    split
    · rename_i h
      exact ⟨[x], rfl, .literalOk rfl (by simp only [leafSpec, eatChar, h]; rfl) rfl⟩
    · rename_i h
      exact .literalFail rfl (by simp only [leafSpec, eatChar, h]; rfl)

theorem leaves_digit : Leaves u grammar (.expr (.mk [] [] (.path [['r', 'a', 'n', 'g', 'e']]))) pre s stk (one isDigit s) :=
  Json.leaves_rule (p' := []) (r := ⟨['r', 'a', 'n', 'g', 'e'], [], xRange, false⟩) rfl rfl leaves_range

theorem runs_digit : Runs u grammar (.expr (.mk [] [] (.call pathPush [.path [['r', 'a', 'n', 'g', 'e']]]))) pre s stk (pushC isDigit s stk) := runs_pushC rfl leaves_digit

theorem leaves_trivia (hs : s.length + 1 < usizeMax) : Leaves u grammar (.trivia [] .optional) pre s stk (some (s.dropWhile isSpace)) :=
  (leaves_many (f := isSpace) rfl hs fun _ _ => leaves_or leaves_char leaves_char).imp fun _ k => .triviaRule (m := grammar) (r := ⟨['~'], [], xOpt, false⟩) rfl rfl k

theorem runs_peek_ : Runs u grammar (.expr (.mk [] [] xPeek_)) pre s stk (peek_F s stk) :=
  runs_then runs_digit fun _ _ _ _ _ => runs_then runs_digit fun _ _ _ _ _ => runs_then (runs_peek rfl) fun _ _ _ _ _ => runs_peek rfl

theorem runs_peekAll_ : Runs u grammar (.expr (.mk [] [] xPeekAll)) pre s stk (peekAllF s stk) :=
  runs_then (g := fun s stk => (pushC isDigit s stk).bind fun x => take x.2.reverse.flatten x.2 x.1) runs_digit fun _ _ _ _ _ =>
    runs_then (g := fun s stk => take stk.reverse.flatten stk s) runs_digit fun _ _ _ _ _ => runs_peekAll rfl

theorem runs_pop_ : Runs u grammar (.expr (.mk [] [] xPop_)) pre s stk (pop_F s stk) :=
  runs_then runs_digit fun _ _ _ _ _ => runs_then runs_digit fun _ _ _ _ _ => runs_then (runs_pop rfl) fun _ _ _ _ _ => runs_pop rfl

theorem runs_popAll_ : Runs u grammar (.expr (.mk [] [] xPopAll)) pre s stk (popAllF s stk) :=
  runs_then (g := fun s stk => (pushC isDigit s stk).bind fun x => take x.2.reverse.flatten [] x.1) runs_digit fun _ _ _ _ _ =>
    runs_then (g := fun s stk => take stk.reverse.flatten [] s) runs_digit fun _ _ _ _ _ => runs_popAll rfl

theorem runs_popFail : Runs u grammar (.expr (.mk [] [] xPopFail)) pre s stk (popFailF s stk) :=
  runs_then (g := fun s stk => (if (popF s stk).isSome then none else some (s, stk)).bind fun x => ((one isDigit x.1).map (·, x.2)).bind fun x => popF x.1 x.2) runs_digit fun _ _ _ _ _ =>
    runs_then (g := fun s stk => ((one isDigit s).map (·, stk)).bind fun x => popF x.1 x.2) (runs_neg (runs_pop rfl)) fun _ _ _ _ _ =>
      runs_then (runs_leaves leaves_digit) fun _ _ _ _ _ => runs_pop rfl

theorem dropWhile_length {α} (f : α → Bool) (l : List α) : (l.dropWhile f).length ≤ l.length := by
  have := congrArg List.length (List.takeWhile_append_dropWhile (p := f) (l := l))
  simp only [List.length_append] at this; omega

theorem runs_slice23 (hs : s.length + 1 < usizeMax) : Runs u grammar (.expr (.mk [] [] xPeekSlice23)) pre s stk (slice23F s stk) := by
  refine runs_then (g := fun s stk => (pushC isDigit s stk).bind fun x => (pushC isDigit x.1 x.2).bind fun x => (pushC isDigit (x.1.dropWhile isSpace) x.2).bind fun x =>
    (pushC isDigit (x.1.dropWhile isSpace) x.2).bind fun x => sliceF 1 (-2) (x.1.dropWhile isSpace) x.2) runs_digit fun _ s1 _ _ h1 => ?_
  refine runs_then (g := fun s stk => (pushC isDigit s stk).bind fun x => (pushC isDigit (x.1.dropWhile isSpace) x.2).bind fun x =>
    (pushC isDigit (x.1.dropWhile isSpace) x.2).bind fun x => sliceF 1 (-2) (x.1.dropWhile isSpace) x.2) runs_digit fun _ s2 _ _ h2 => ?_
  refine runs_seq (f := fun s => s.dropWhile isSpace) (g := fun s stk => (pushC isDigit s stk).bind fun x =>
    (pushC isDigit (x.1.dropWhile isSpace) x.2).bind fun x => sliceF 1 (-2) (x.1.dropWhile isSpace) x.2) runs_digit (fun _ _ _ _ _ => leaves_trivia (by omega)) fun _ s3 _ _ h3 h4 => ?_
  refine runs_seq (f := fun s => s.dropWhile isSpace) (g := fun s stk => (pushC isDigit s stk).bind fun x => sliceF 1 (-2) (x.1.dropWhile isSpace) x.2) runs_digit
    (fun _ _ _ _ _ => leaves_trivia (by omega)) fun _ s5 _ _ h5 h6 => ?_
  exact runs_seq (f := fun s => s.dropWhile isSpace) (g := sliceF 1 (-2)) runs_digit (fun _ _ _ _ _ => leaves_trivia (by omega)) fun _ _ _ _ _ _ => runs_slice rfl

theorem runs_loop (hs : s.length < usizeMax) : Runs u grammar (.expr (.mk [] [] (.rep (.seq (.call pathPush [(.range 'a' 'c')]) (.str [',']) .none)))) pre s stk (some (againR stepF s.length s stk)) :=
  runs_rep rfl hs (fun _ _ _ => runs_then (g := fun s stk => take [','] stk s) (runs_pushC (f := isLetter) rfl leaves_range) fun _ _ _ _ _ => runs_str) fun _ _ _ _ => stepF_length

theorem runs_mutate (hs : s.length < usizeMax) : Runs u grammar (.expr (.mk [] [] xRepeatMutateStack)) pre s stk (mutateF s stk) :=
  runs_then (g := fun s stk => (popF s stk).bind fun x => (popF x.1 x.2).bind fun x => popF x.1 x.2) (runs_loop hs) fun _ _ _ _ _ => runs_then (runs_pop rfl) fun _ _ _ _ _ => runs_then (runs_pop rfl) fun _ _ _ _ _ => runs_pop rfl

theorem runs_mutateAll (hs : s.length < usizeMax) : Runs u grammar (.expr (.mk [] [] xRepeatMutateStackPopAll)) pre s stk (mutateAllF s stk) :=
  runs_then (g := fun s stk => take stk.reverse.flatten [] s) (runs_loop hs) fun _ _ _ _ _ => runs_popAll rfl

theorem runs_mutateAll_path (hs : s.length < usizeMax) : Runs u grammar (.expr (.mk [] [] (.path ["repeat_mutate_stack_pop_all".toList]))) pre s stk (mutateAllF s stk) :=
  runs_rule (p' := []) (r := ⟨['r', 'e', 'p', 'e', 'a', 't', '_', 'm', 'u', 't', 'a', 't', 'e', '_', 's', 't', 'a', 'c', 'k', '_', 'p', 'o', 'p', '_', 'a', 'l', 'l'], [], xRepeatMutateStackPopAll, false⟩) rfl rfl (runs_mutateAll hs)

theorem runs_willFail (hs : s.length < usizeMax) : Runs u grammar (.expr (.mk [] [] xWillFail)) pre s stk (willFailF s stk) :=
  runs_then (g := fun s stk => take ['F', 'A', 'I', 'L'] stk s) (runs_mutateAll_path hs) fun _ _ _ _ _ => runs_str

theorem runs_resume (hs : s.length < usizeMax) : Runs u grammar (.expr (.mk [] [] xStackResumeAfterFail)) pre s stk (resumeF s stk) :=
  runs_choice (runs_rule (p' := []) (r := ⟨['w', 'i', 'l', 'l', '_', 'f', 'a', 'i', 'l'], [], xWillFail, false⟩) rfl rfl (runs_willFail hs)) fun _ => runs_mutateAll_path hs

theorem runs_checkpoint : Runs u grammar (.expr (.mk [] [] xCheckpointRestore)) pre s stk (checkpointF s stk) :=
  runs_then (g := fun s stk => (pickF s stk).bind fun x => endF x.1 x.2) (runs_pushS rfl) fun _ _ _ _ _ => runs_then (runs_choice
    (runs_then (g := fun s stk => (take ['b'] stk s).bind fun x => popF x.1 x.2) (runs_pushS rfl) fun _ _ _ _ _ => runs_then runs_str fun _ _ _ _ _ => runs_pop rfl)
    fun _ => runs_choice (runs_then (g := fun s stk => take ['b'] stk s) (runs_drop rfl) fun _ _ _ _ _ => runs_str)
      fun _ => runs_then (g := fun s stk => take ['a'] stk s) (runs_pop rfl) fun _ _ _ _ _ => runs_str) fun _ _ _ _ _ => runs_end rfl

end

end Pest3.Stk
