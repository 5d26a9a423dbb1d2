import Verif.StackLang
import Verif.JsonLanguage
import Verif.PositionLemmas
import Verif.OpTexts

/-!
# What the rules without a stack of the tests do
-/

namespace Pest3.Stk
open Pest3 Pest3.Gen
open Pest3.Json (Leaves strip strip_some one leaves_str leaves_many leaves_many1 many1 leaves_choice leaves_char leaves_or leaves_neg leaves_opt leaves_seq leaves_seqT leaves_rule leaves_unit)

section
variable {u : Unicode} {root : Module} {pre s : Text} {stk : List Text}

/-- A sequence whose trivia may fail. -/
theorem leaves_seqM {p : List Name} {l r : Expr} {t : Trivia} {o : Option Text} {f g : Text → Option Text} (h : Leaves u root (.expr (.mk p [] l)) pre s stk o)
    (hT : ∀ pre' s', o = some s' → Leaves u root (.trivia p t) pre' s' stk (f s'))
    (h' : ∀ pre' s', Leaves u root (.expr (.mk p [] r)) pre' s' stk (g s')) :
    Leaves u root (.expr (.mk p [] (.seq l r t))) pre s stk (o.bind fun s' => (f s').bind g) := by
  cases o with
  | none => exact .seqFail h
  | some s' =>
    obtain ⟨w, rfl, h2⟩ := h
    have hT' := hT (pre ++ w) s' rfl
    simp only [Option.bind_some]
    revert hT'
    cases f s' with
    | none => exact fun k => .seqTriviaFail h2 k
    | some s2 =>
      rintro ⟨w2, k1, k2⟩
      have h3 := h' (pre ++ w ++ w2) s2
      simp only [Option.bind_some]
      revert h3
      cases g s2 with
      | none => exact fun h3 => .seq h2 k2 h3
      | some s3 =>
        rintro ⟨w3, k3, k4⟩
        refine ⟨w ++ (w2 ++ w3), by rw [k1, k3]; simp, ?_⟩
        rw [show pre ++ (w ++ (w2 ++ w3)) = pre ++ w ++ w2 ++ w3 by simp]
        exact .seq h2 k2 k4

theorem leaves_pos {p : List Name} {e : Expr} {o} (h : Leaves u root (.expr (.mk p [] e)) pre s stk o) :
    Leaves u root (.expr (.mk p [] (.pos e))) pre s stk (if o.isSome then some s else none) := by
  cases o with
  | none => exact .posFail h
  | some s' => obtain ⟨w, h1, h2⟩ := h; exact ⟨[], rfl, by rw [List.append_nil]; exact .posOk h2⟩

theorem leaves_insens {p : List Name} {t : Text} :
    Leaves u root (.expr (.mk p [] (.insens t))) pre s stk (if (s.take t.length).map Char.toLower = t.map Char.toLower then some (s.drop t.length) else none) := by
  split
  · rename_i h
    exact ⟨s.take t.length, by simp, .literalOk rfl (by simp only [leafSpec, if_pos h]) (by simp)⟩
  · rename_i h
    exact .literalFail rfl (by simp only [leafSpec, if_neg h])

/-! ## Repetitions -/

/-- One copy, after trivia unless it is the first. -/
def copyF (f : Text → Text) (i : Nat) (s : Text) : Option Text := strip abc (if i = 0 then s else f s)

/-- The number of copies, and the rest. -/
def units (f : Text → Text) (mx : Nat) : Nat → Nat → Text → Nat × Text
  | 0, i, s => (i, s)
  | n + 1, i, s => if i < mx then match copyF f i s with
      | some s' => units f mx n (i + 1) s'
      | none => (i, s)
    else (i, s)

/-- A repetition with bounds. -/
def copiesF (f : Text → Text) (mn mx : Nat) (s : Text) : Option Text := if mn ≤ (units f mx s.length 0 s).1 then some (units f mx s.length 0 s).2 else none

theorem copyF_length {f : Text → Text} (hf : ∀ s, (f s).length ≤ s.length) {i : Nat} {s s' : Text} (h : copyF f i s = some s') : s'.length < s.length := by
  unfold copyF at h
  have h1 := congrArg List.length (strip_some.mp h)
  simp only [abc, List.length_append, List.length_cons, List.length_nil] at h1
  have := hf s
  split at h1 <;> omega

theorem leaves_units {e : Clo} {p : List Name} {t : Trivia} {f : Text → Text} {N mn mx : Nat} (hf : ∀ s, (f s).length ≤ s.length) (hm : mn ≤ mx)
    (hu : ∀ i pre s, s.length ≤ N → Leaves u root (.unit e p t i) pre s stk (copyF f i s)) :
    ∀ n i pre s, s.length ≤ n → s.length ≤ N → Leaves u root (.reps e p t mn mx i) pre s stk (if mn ≤ (units f mx n i s).1 then some (units f mx n i s).2 else none) := by
  have stop : ∀ i pre s, s.length ≤ N → (i < mx → copyF f i s = none) → Leaves u root (.reps e p t mn mx i) pre s stk (if mn ≤ i then some s else none) := by
    intro i pre s hN h
    by_cases hi : i < mx
    · have h1 := hu i pre s hN
      rw [h hi] at h1
      split
      · exact ⟨[], rfl, by rw [List.append_nil]; exact .repsStop hi h1 (by assumption)⟩
      · exact .repsFew hi h1 (by omega)
    · rw [if_pos (by omega)]
      exact ⟨[], rfl, by rw [List.append_nil]; exact .repsMax (by omega)⟩
  intro n
  induction n with
  | zero =>
    intro i pre s hs hN
    refine stop i pre s hN fun _ => ?_
    cases h : copyF f i s with
    | none => rfl
    | some s' => have := copyF_length hf h; omega
  | succ n ih =>
    intro i pre s hs hN
    by_cases hi : i < mx
    · cases h : copyF f i s with
      | none =>
        have e : units f mx (n + 1) i s = (i, s) := by simp only [units]; rw [if_pos hi, h]
        rw [e]
        exact stop i pre s hN fun _ => h
      | some s' =>
        have e : units f mx (n + 1) i s = units f mx n (i + 1) s' := by simp only [units]; rw [if_pos hi, h]
        rw [e]
        have hl := copyF_length hf h
        have h1 := hu i pre s hN
        rw [h] at h1
        obtain ⟨w, rfl, h2⟩ := h1
        have h3 := ih (i + 1) (pre ++ w) s' (by omega) (by omega)
        split
        · rename_i hc
          rw [if_pos hc] at h3
          obtain ⟨w', k1, k2⟩ := h3
          refine ⟨w ++ w', by rw [List.append_assoc, ← k1], ?_⟩
          rw [← List.append_assoc]
          exact .repsMore hi h2 k2
        · rename_i hc
          rw [if_neg hc] at h3
          exact .repsMore hi h2 h3
    · have e : units f mx (n + 1) i s = (i, s) := by simp only [units]; rw [if_neg hi]
      rw [e]
      exact stop i pre s hN fun k => absurd k hi

/-- How the trivia between the copies are taken. -/
structure Between (Sep : Text → Prop) (f : Text → Text) : Prop where
  taken : ∀ s, ∃ w, Sep w ∧ s = w ++ f s
  back : ∀ w t, Sep w → f (w ++ (abc ++ t)) = abc ++ t

theorem Between.length {Sep : Text → Prop} {f : Text → Text} (h : Between Sep f) (s : Text) : (f s).length ≤ s.length := by
  obtain ⟨w, -, h⟩ := h.taken s
  have := congrArg List.length h
  simp only [List.length_append] at this; omega

theorem strip_abc (t : Text) : strip abc (abc ++ t) = some t := strip_some.mpr rfl

theorem units_nil {Sep : Text → Prop} {f : Text → Text} (hb : Between Sep f) (mx n i : Nat) : units f mx n i [] = (i, []) := by
  cases n with
  | zero => rfl
  | succ n =>
    simp only [units]
    split
    · cases h : copyF f i [] with
      | none => rfl
      | some s' => have := copyF_length hb.length h; simp at this
    · rfl

theorem units_more {Sep : Text → Prop} {f : Text → Text} (hb : Between Sep f) {mx n : Nat} {t : Text} (h : More Sep n t) : ∀ fuel i, t.length ≤ fuel → 0 < i → i + n ≤ mx → units f mx fuel i t = (i + n, []) := by
  induction h with
  | none => intro fuel i _ _ _; exact units_nil hb _ _ _
  | @more n w t hw h ih =>
    intro fuel i hl hi hm
    simp only [abc, List.length_append, List.length_cons, List.length_nil] at hl
    cases fuel with
    | zero => omega
    | succ fuel =>
      simp only [units]
      rw [if_pos (by omega)]
      have : copyF f i (w ++ (abc ++ t)) = some t := by
        rw [copyF, if_neg (by omega), hb.back w t hw, strip_abc]
      rw [this]
      simp only
      rw [ih fuel (i + 1) (by omega) (by omega) (by omega)]
      simp only [Prod.mk.injEq, and_true]
      omega

theorem units_sound {Sep : Text → Prop} {f : Text → Text} (hb : Between Sep f) {mx : Nat} : ∀ fuel i s, 0 < i → i ≤ mx → (units f mx fuel i s).2 = [] →
    ∃ n, More Sep n s ∧ (units f mx fuel i s).1 = i + n ∧ i + n ≤ mx := by
  intro fuel
  induction fuel with
  | zero => intro i s _ hm h; simp only [units] at h; subst h; exact ⟨0, .none, rfl, hm⟩
  | succ fuel ih =>
    intro i s hi hm h
    simp only [units] at h ⊢
    by_cases hx : i < mx
    · rw [if_pos hx] at h ⊢
      cases hc : copyF f i s with
      | none => rw [hc] at h; simp only at h; subst h; exact ⟨0, .none, rfl, hm⟩
      | some s' =>
        rw [hc] at h
        simp only at h ⊢
        obtain ⟨n, h1, h2, h3⟩ := ih (i + 1) s' (by omega) (by omega) h
        rw [copyF, if_neg (by omega)] at hc
        obtain ⟨w, hw, hs⟩ := hb.taken s
        rw [strip_some.mp hc] at hs
        refine ⟨n + 1, by rw [hs]; exact .more hw h1, by rw [h2]; omega, by omega⟩
    · rw [if_neg hx] at h ⊢
      simp only at h; subst h; exact ⟨0, .none, rfl, hm⟩

theorem copies_iff {Sep : Text → Prop} {f : Text → Text} (hb : Between Sep f) {mn mx : Nat} {s : Text} :
    copiesF f mn mx s = some [] ↔ ∃ k, mn ≤ k ∧ k ≤ mx ∧ Copies Sep k s := by
  unfold copiesF
  constructor
  · intro h
    split at h
    · rename_i hk
      have h2 : (units f mx s.length 0 s).2 = [] := by simpa using h
      cases s with
      | nil => exact ⟨0, by simpa [units_nil hb] using hk, by omega, rfl⟩
      | cons x s =>
        simp only [List.length_cons, units] at h2 hk
        by_cases hx : 0 < mx
        · rw [if_pos hx] at h2 hk
          cases hc : copyF f 0 (x :: s) with
          | none => rw [hc] at h2; cases h2
          | some s' =>
            rw [hc] at h2 hk
            simp only at h2 hk
            obtain ⟨n, h3, h4, h5⟩ := units_sound hb _ _ _ (by omega) (by omega) h2
            rw [h4] at hk
            rw [copyF, if_pos rfl] at hc
            exact ⟨n + 1, by omega, by omega, s', h3, strip_some.mp hc⟩
        · rw [if_neg hx] at h2; cases h2
    · cases h
  · rintro ⟨k, hk, hx, hc⟩
    cases k with
    | zero =>
      simp only [Copies] at hc; subst hc
      rw [units_nil hb, if_pos hk]
    | succ n =>
      obtain ⟨t, ht, rfl⟩ := hc
      have h1 : units f mx (abc ++ t).length 0 (abc ++ t) = (1 + n, []) := by
        simp only [abc, List.length_append, List.length_cons, List.length_nil]
        rw [show 0 + 1 + 1 + 1 + t.length = t.length + 2 + 1 by omega]
        simp only [units]
        rw [if_pos (by omega)]
        have : copyF f 0 (['a', 'b', 'c'] ++ t) = some t := by rw [copyF, if_pos rfl]; exact strip_abc t
        rw [this]
        exact units_more hb ht (t.length + 2) 1 (by omega) (by omega) (by omega)
      rw [h1, if_pos (by simp only; omega)]

theorem more_length {Sep : Text → Prop} {n : Nat} {t : Text} (h : More Sep n t) : n ≤ t.length := by
  induction h with
  | none => exact Nat.le_refl _
  | more _ _ ih => simp only [abc, List.length_append, List.length_cons]; omega

theorem copies_length {Sep : Text → Prop} {k : Nat} {t : Text} (h : Copies Sep k t) : k ≤ t.length := by
  cases k with
  | zero => omega
  | succ n =>
    obtain ⟨t', h, rfl⟩ := h
    have := more_length h
    simp only [abc, List.length_append, List.length_cons]; omega

theorem between_nothing : Between Nothing fun s => s := ⟨fun _ => ⟨[], rfl, rfl⟩, fun w t h => by cases h; rfl⟩

theorem between_space : Between Space (List.dropWhile isSpace) := by
  refine ⟨fun s => ⟨s.takeWhile isSpace, fun x hx => isSpace_iff.mp (Json.mem_takeWhile hx), (List.takeWhile_append_dropWhile ..).symm⟩, fun w t h => ?_⟩
  rw [List.dropWhile_append_of_pos fun x hx => isSpace_iff.mpr (h x hx)]
  rfl

/-! ## Long choices and sequences -/

/-- One of some texts. -/
def anyOf : Text → List Text → Expr
  | x, [] => .str x
  | x, y :: l => .choice (.str x) (anyOf y l)

/-- The first of the texts that is there. -/
def firstOf : Text → List Text → Text → Option Text
  | x, [], s => strip x s
  | x, y :: l, s => (strip x s).or (firstOf y l s)

theorem leaves_anyOf {p : List Name} (x : Text) (l : List Text) : Leaves u root (.expr (.mk p [] (anyOf x l))) pre s stk (firstOf x l s) := by
  induction l generalizing x with
  | nil => exact leaves_str
  | cons y l ih => exact leaves_choice leaves_str fun _ => ih y

theorem firstOf_iff {n : Nat} {x : Text} {l : List Text} (hl : ∀ y ∈ x :: l, y.length = n) {s : Text} : firstOf x l s = some [] ↔ s ∈ x :: l := by
  induction l generalizing x with
  | nil => simp [firstOf, strip_some]
  | cons y l ih =>
    have ih := ih fun z hz => hl z (List.mem_cons_of_mem _ hz)
    simp only [firstOf]
    cases h : strip x s with
    | none =>
      simp only [Option.none_or, ih]
      have : s ≠ x := by
        rintro rfl
        have := strip_some.mpr (List.append_nil s).symm
        rw [this] at h; cases h
      simp [this]
    | some s' =>
      simp only [Option.some_or, Option.some.injEq]
      have hs := strip_some.mp h
      constructor
      · rintro rfl; rw [hs]; simp
      · intro hm
        have h1 := hl s hm
        have h2 := hl x List.mem_cons_self
        rw [hs, List.length_append] at h1
        exact List.length_eq_zero_iff.mp (by omega)

/-- Texts in a row, with trivia between them. -/
def inRow : Text → List Text → Expr
  | x, [] => .str x
  | x, y :: l => .seq (.str x) (inRow y l) .optional

/-- The rest after the row. -/
def rowF : Text → List Text → Text → Option Text
  | x, [], s => strip x s
  | x, y :: l, s => (strip x s).bind fun s' => rowF y l (s'.dropWhile isSpace)

theorem leaves_inRow (x : Text) (l : List Text) (hs : s.length + 1 < usizeMax) : Leaves u grammar (.expr (.mk [] [] (inRow x l))) pre s stk (rowF x l s) := by
  induction l generalizing x pre s with
  | nil => exact leaves_str
  | cons y l ih => exact leaves_seqT (f := fun s => s.dropWhile isSpace) (g := rowF y l) leaves_str (fun _ _ _ h => leaves_trivia (by omega)) fun _ _ _ _ h => ih y (by omega)

theorem row_head {x : Text} {l : List Text} {t : Text} (h : Row (x :: l) t) : ∃ t', t = x ++ t' := by
  cases l with
  | nil => exact ⟨[], by rw [List.append_nil]; exact h⟩
  | cons y l => obtain ⟨w, t', -, -, h⟩ := h; exact ⟨_, h⟩

theorem rowF_iff {x : Text} {l : List Text} (hl : ∀ y ∈ l, ∃ c y', y = c :: y' ∧ isSpace c = false) {s : Text} : rowF x l s = some [] ↔ Row (x :: l) s := by
  induction l generalizing x s with
  | nil => simp [rowF, Row, strip_some]
  | cons y l ih =>
    have ih := fun s => ih (x := y) (s := s) fun z hz => hl z (List.mem_cons_of_mem _ hz)
    simp only [rowF, Row, Option.bind_eq_some_iff, strip_some]
    constructor
    · rintro ⟨s', rfl, h⟩
      obtain ⟨w, hw, hs⟩ := between_space.taken s'
      exact ⟨w, _, hw, (ih _).mp h, by rw [← hs]⟩
    · rintro ⟨w, t', hw, h, rfl⟩
      refine ⟨_, rfl, (ih _).mpr ?_⟩
      rw [List.dropWhile_append_of_pos fun x hx => isSpace_iff.mpr (hw x hx)]
      obtain ⟨t2, rfl⟩ := row_head h
      obtain ⟨c, y', rfl, hc⟩ := hl y List.mem_cons_self
      rw [List.cons_append, List.dropWhile_cons_of_neg (by simp [hc])]
      exact h

/-! ## The rules -/

theorem leaves_string : Leaves u grammar (.expr (.mk [] [] (.path [['s', 't', 'r', 'i', 'n', 'g']]))) pre s stk (strip abc s) :=
  leaves_rule (p' := []) (r := ⟨['s', 't', 'r', 'i', 'n', 'g'], [], xString, false⟩) rfl rfl leaves_str

theorem leaves_mandatory (hs : s.length + 1 < usizeMax) : Leaves u grammar (.trivia [] .mandatory) pre s stk (many1 isSpace s) :=
  (leaves_many1 (f := isSpace) rfl hs fun _ _ => leaves_or leaves_char leaves_char).imp fun _ k => .triviaRule (m := grammar) (r := ⟨['^'], [], xMan, false⟩) rfl rfl k

theorem leaves_copies {e : Expr} {mn mx : Nat} (hr : repetition e = some (.path [['s', 't', 'r', 'i', 'n', 'g']], mn, mx)) (hm : mn ≤ mx) :
    Leaves u grammar (.expr (.mk [] [] e)) pre s stk (copiesF (fun s => s) mn mx s) :=
  (leaves_units (N := s.length) between_nothing.length hm (fun i pre s _ => by
    unfold copyF
    rw [show (if i = 0 then s else s) = s by split <;> rfl]
    exact leaves_unit leaves_string) s.length 0 pre s (Nat.le_refl _) (Nat.le_refl _)).imp fun _ k => .rep hr k

theorem leaves_spaced {e : Expr} {mn mx : Nat} (hr : repetition e = some (.separated (.path [['s', 't', 'r', 'i', 'n', 'g']]) .optional, mn, mx)) (hm : mn ≤ mx) (hs : s.length + 1 < usizeMax) :
    Leaves u grammar (.expr (.mk [] [] e)) pre s stk (copiesF (List.dropWhile isSpace) mn mx s) := by
  refine (leaves_units (N := s.length) between_space.length hm (fun i pre s' hl => ?_) s.length 0 pre s (Nat.le_refl _) (Nat.le_refl _)).imp fun _ k => .rep hr k
  cases i with
  | zero => exact leaves_string.imp fun _ k => .unitFirst (.separated k)
  | succ i =>
    obtain ⟨w, h1, h2⟩ := leaves_trivia (u := u) (pre := pre) (s := s') (stk := stk) (by omega)
    have h3 := leaves_string (u := u) (pre := pre ++ w) (s := s'.dropWhile isSpace) (stk := stk)
    rw [copyF, if_neg (by omega)]
    revert h3
    cases strip abc (s'.dropWhile isSpace) with
    | none => exact fun h3 => .unitNext h2 (.separated h3)
    | some r =>
      rintro ⟨w2, k1, k2⟩
      refine ⟨w ++ w2, by rw [List.append_assoc, ← k1]; exact h1, ?_⟩
      rw [← List.append_assoc]
      exact .unitNext h2 (.separated k2)

theorem leaves_soi {p : List Name} {s : Text} (ht : target u root p [['p', 'e', 's', 't'], ['s', 'o', 'i']] = some (.builtin [['p', 'e', 's', 't'], ['s', 'o', 'i']])) :
    Leaves u root (.expr (.mk p [] (.path [['p', 'e', 's', 't'], ['s', 'o', 'i']]))) [] s stk (some s) :=
  ⟨[], rfl, .builtinOk (l := .soi) rfl (fun _ _ => rfl) ht rfl (by simp [leafSpec]) rfl⟩

/-- The two texts with trivia between. -/
def pairF (s : Text) : Option Text := (strip abc s).bind fun s' => strip abc (s'.dropWhile isSpace)

theorem leaves_pair (hs : s.length + 1 < usizeMax) : Leaves u grammar (.expr (.mk [] [] (.seq (.path [['s', 't', 'r', 'i', 'n', 'g']]) (.path [['s', 't', 'r', 'i', 'n', 'g']]) .optional))) pre s stk (pairF s) :=
  leaves_seqT (f := fun s => s.dropWhile isSpace) (g := strip abc) leaves_string (fun _ _ _ h => leaves_trivia (by omega)) fun _ _ _ _ _ => leaves_string

theorem pair_iff : pairF s = some [] ↔ ∃ w, Space w ∧ s = abc ++ (w ++ abc) := by
  simp only [pairF, Option.bind_eq_some_iff, strip_some, List.append_nil]
  constructor
  · rintro ⟨s', rfl, h⟩
    obtain ⟨w, hw, hs⟩ := between_space.taken s'
    rw [h] at hs
    exact ⟨w, hw, by rw [hs]⟩
  · rintro ⟨w, hw, rfl⟩
    exact ⟨_, rfl, by have := between_space.back w [] hw; simpa using this⟩

theorem many1_iff {s s' : Text} : many1 isSpace s = some s' ↔ s.dropWhile isSpace = s' ∧ s.takeWhile isSpace ≠ [] := by
  cases s with
  | nil => simp [many1, one]
  | cons x s =>
    by_cases h : isSpace x <;> simp [many1, one, h]

theorem mandatory_iff : ((strip abc s).bind fun s' => (many1 isSpace s').bind (strip abc)) = some [] ↔ ∃ w, Space w ∧ w ≠ [] ∧ s = abc ++ (w ++ abc) := by
  simp only [Option.bind_eq_some_iff, strip_some, List.append_nil, many1_iff]
  constructor
  · rintro ⟨s', rfl, s2, ⟨h1, h2⟩, rfl⟩
    exact ⟨s'.takeWhile isSpace, fun x hx => isSpace_iff.mp (Json.mem_takeWhile hx), h2, by rw [← h1, List.takeWhile_append_dropWhile]⟩
  · rintro ⟨w, hw, hn, rfl⟩
    refine ⟨_, rfl, _, ⟨by have := between_space.back w [] hw; simpa using this, ?_⟩, rfl⟩
    cases w with
    | nil => exact absurd rfl hn
    | cons x w => rw [List.cons_append, List.takeWhile_cons_of_pos (isSpace_iff.mpr (hw x List.mem_cons_self))]; simp

theorem one_digit_iff : one isDigit s = some [] ↔ ∃ x, Digit x ∧ s = [x] := by
  cases s with
  | nil => simp [one]
  | cons x s =>
    simp only [one]
    split
    · rename_i h
      simp only [Option.some.injEq]
      constructor
      · rintro rfl; exact ⟨x, isDigit_iff.mp h, rfl⟩
      · rintro ⟨y, -, h⟩; cases h; rfl
    · rename_i h
      refine ⟨fun k => (by cases k), ?_⟩
      rintro ⟨y, k, e⟩; cases e; exact absurd (isDigit_iff.mpr k) h

theorem choice_iff : (strip abc s).or (one isDigit s) = some [] ↔ s = abc ∨ ∃ x, Digit x ∧ s = [x] := by
  cases h : strip abc s with
  | some s' =>
    have hs := strip_some.mp h
    simp only [Option.some_or, Option.some.injEq]
    constructor
    · rintro rfl; exact .inl (by rw [hs, List.append_nil])
    · rintro (k | ⟨x, -, k⟩)
      · rw [hs] at k; simpa using k
      · rw [hs] at k; cases k
  | none =>
    simp only [Option.none_or, one_digit_iff]
    refine ⟨.inr, ?_⟩
    rintro (rfl | k)
    · cases h
    · exact k

theorem toLower_iff {y z : Char} (hd : ∀ n : Fin 128, (Char.ofNat n).toLower = y ↔ Char.ofNat n = y ∨ Char.ofNat n = z) (hz : z.toNat < 128) (x : Char) : x.toLower = y ↔ x = y ∨ x = z := by
  by_cases h : x.toNat < 128
  · have := hd ⟨x.toNat, h⟩
    simpa [Char.ofNat_toNat] using this
  · rw [toLower_eq_self_of_ge h]
    refine ⟨.inl, ?_⟩
    rintro (k | rfl)
    · exact k
    · exact absurd hz h

set_option maxRecDepth 10000 in
theorem lower_a : ∀ n : Fin 128, (Char.ofNat n).toLower = 'a' ↔ Char.ofNat n = 'a' ∨ Char.ofNat n = 'A' := by decide
set_option maxRecDepth 10000 in
theorem lower_b : ∀ n : Fin 128, (Char.ofNat n).toLower = 'b' ↔ Char.ofNat n = 'b' ∨ Char.ofNat n = 'B' := by decide
set_option maxRecDepth 10000 in
theorem lower_c : ∀ n : Fin 128, (Char.ofNat n).toLower = 'c' ↔ Char.ofNat n = 'c' ∨ Char.ofNat n = 'C' := by decide

theorem insens_iff : (if (s.take 3).map Char.toLower = ['a', 'b', 'c'].map Char.toLower then some (s.drop 3) else none) = some [] ↔
    ∃ x y z, (x = 'a' ∨ x = 'A') ∧ (y = 'b' ∨ y = 'B') ∧ (z = 'c' ∨ z = 'C') ∧ s = [x, y, z] := by
  have e : ['a', 'b', 'c'].map Char.toLower = ['a', 'b', 'c'] := by decide
  rw [e]
  constructor
  · intro h
    split at h
    · rename_i hl
      have hd : s.drop 3 = [] := by simpa using h
      rcases s with _ | ⟨x, _ | ⟨y, _ | ⟨z, s⟩⟩⟩
      · simp at hl
      · simp at hl
      · simp at hl
      · cases (show s = [] from hd)
        simp only [List.take_succ_cons, List.take_nil, List.map_cons, List.map_nil, List.cons.injEq, and_true] at hl
        exact ⟨x, y, z, (toLower_iff lower_a (by decide) x).mp hl.1, (toLower_iff lower_b (by decide) y).mp hl.2.1, (toLower_iff lower_c (by decide) z).mp hl.2.2, rfl⟩
    · cases h
  · rintro ⟨x, y, z, hx, hy, hz, rfl⟩
    rw [if_pos]
    · rfl
    · simp only [List.take_succ_cons, List.take_nil, List.map_cons, List.map_nil]
      rw [(toLower_iff lower_a (by decide) x).mpr hx, (toLower_iff lower_b (by decide) y).mpr hy, (toLower_iff lower_c (by decide) z).mpr hz]

theorem strip_iff : strip abc s = some [] ↔ s = abc := by rw [strip_some, List.append_nil]

theorem opt_iff : some ((strip abc s).getD s) = some [] ↔ s = [] ∨ s = abc := by
  rw [Option.some.injEq]
  cases h : strip abc s with
  | none =>
    refine ⟨.inl, ?_⟩
    rintro (k | rfl)
    · exact k
    · cases h
  | some s' =>
    obtain rfl := strip_some.mp h
    simp only [Option.getD_some]
    constructor
    · rintro rfl; exact .inr (List.append_nil _)
    · rintro (k | k)
      · cases k
      · simpa using k

theorem pos_iff : (if (strip abc s).isSome then some s else none) = some [] ↔ False := by
  cases h : strip abc s with
  | none => simp
  | some s' =>
    obtain rfl := strip_some.mp h
    simp [abc]

theorem neg_iff : (if (strip abc s).isSome then none else some s) = some [] ↔ s = [] := by
  cases h : strip abc s with
  | none => simp
  | some s' =>
    obtain rfl := strip_some.mp h
    simp [abc]

theorem double_iff : (if (if (strip abc s).isSome then none else some s).isSome then none else some s) = some [] ↔ False := by
  cases h : strip abc s with
  | none => simp
  | some s' =>
    obtain rfl := strip_some.mp h
    simp [abc]

theorem atomic_iff : (strip abc s).bind (strip abc) = some [] ↔ s = abc ++ abc := by
  simp only [Option.bind_eq_some_iff, strip_some, List.append_nil]
  exact ⟨fun ⟨_, h, k⟩ => by rw [h, k], fun h => ⟨_, h, rfl⟩⟩

end

end Pest3.Stk
