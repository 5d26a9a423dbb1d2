import Verif.SkipExample
import Verif.SkipSpec
import Verif.JsonLemmas

/-!
# What the rules of the grammars with comments match
-/

namespace Pest3.Skip
open Pest3 Pest3.Gen
open Pest3.Json (Leaves strip strip_some one again leaves_str leaves_choice leaves_neg leaves_seq leaves_seqT leaves_rep leaves_rule leaves_unit leaves_unitT)

/-- One character of a comment. -/
def stepF (s : Text) : Option Text := (if (strip ['*', '/'] s).isSome then none else some s).bind (one fun _ => true)

/-- The rest from the end of the comment on. -/
def untilF : Text → Text
  | [] => []
  | x :: s => if (strip ['*', '/'] (x :: s)).isSome then x :: s else untilF s

/-- What is behind the comment. -/
def bodyF (s : Text) : Option Text := strip ['*', '/'] (untilF s)

/-- Without a blank or comment. -/
def gapF (s : Text) : Option Text := (strip [' '] s).or ((strip ['/', '*'] s).bind bodyF)

/-- Without blanks and comments. -/
def gapsF (s : Text) : Text := again gapF s.length s

/-- The rest after the first and the further items. -/
def itemsF (f : Text → Option Text) (s : Text) : Option Text := (strip ['x'] s).map (again f s.length)

/-- A further `x` in the two grammars. -/
def nextF (s : Text) : Option Text := strip ['x'] (gapsF s)
def next1F (s : Text) : Option Text := (gapF s).bind (strip ['x'])

theorem untilF_length (s : Text) : (untilF s).length ≤ s.length := by
  induction s with
  | nil => exact Nat.le_refl _
  | cons x s ih =>
    simp only [untilF]
    split
    · exact Nat.le_refl _
    · simp only [List.length_cons]; omega

theorem strip_length {t s s' : Text} (h : strip t s = some s') : s.length = t.length + s'.length := by
  rw [strip_some.mp h, List.length_append]

theorem bodyF_length {s s' : Text} (h : bodyF s = some s') : s'.length < s.length := by
  have := strip_length h
  have := untilF_length s
  simp only [List.length_cons, List.length_nil] at *
  omega

theorem gapF_length {s s' : Text} (h : gapF s = some s') : s'.length < s.length := by
  unfold gapF at h
  cases h1 : strip [' '] s with
  | some s1 =>
    rw [h1] at h; cases h
    have := strip_length h1
    simp only [List.length_cons, List.length_nil] at this
    omega
  | none =>
    rw [h1, Option.none_or] at h
    obtain ⟨s1, h2, h3⟩ := Option.bind_eq_some_iff.mp h
    have := strip_length h2
    have := bodyF_length h3
    omega

theorem again_length {f : Text → Option Text} (hf : ∀ s s', f s = some s' → s'.length < s.length) (n : Nat) (s : Text) : (again f n s).length ≤ s.length := by
  induction n generalizing s with
  | zero => exact Nat.le_refl _
  | succ n ih =>
    simp only [again]
    cases h : f s with
    | none => exact Nat.le_refl _
    | some s' => have := hf _ _ h; have := ih s'; dsimp only; omega

theorem again_stop {f : Text → Option Text} (hf : ∀ s s', f s = some s' → s'.length < s.length) (n : Nat) (s : Text) (hs : s.length ≤ n) : f (again f n s) = none := by
  induction n generalizing s with
  | zero =>
    cases h : f s with
    | none => exact h
    | some s' => have := hf _ _ h; omega
  | succ n ih =>
    simp only [again]
    cases h : f s with
    | none => exact h
    | some s' => have := hf _ _ h; exact ih s' (by omega)

/-- The number of steps does not matter if it is large enough. -/
theorem again_more {f : Text → Option Text} (hf : ∀ s s', f s = some s' → s'.length < s.length) : ∀ (n m : Nat) (s : Text), s.length ≤ n → s.length ≤ m → again f n s = again f m s := by
  have h0 : ∀ m s, f s = none → again f m s = s := by
    intro m s h
    cases m with
    | zero => rfl
    | succ m => simp only [again, h]
  intro n
  induction n with
  | zero =>
    intro m s h h'
    have : f s = none := by
      cases h1 : f s with
      | none => rfl
      | some s' => have := hf _ _ h1; omega
    rw [h0 _ _ this, h0 _ _ this]
  | succ n ih =>
    intro m s h h'
    cases h1 : f s with
    | none => rw [h0 _ _ h1, h0 _ _ h1]
    | some s' =>
      have := hf _ _ h1
      cases m with
      | zero => omega
      | succ m => simp only [again, h1]; exact ih m s' (by omega) (by omega)

theorem stepF_length {s s' : Text} (h : stepF s = some s') : s'.length < s.length := by
  unfold stepF at h
  obtain ⟨s1, h1, h2⟩ := Option.bind_eq_some_iff.mp h
  split at h1 <;> cases h1
  exact Json.one_length h2

theorem gapsF_length (s : Text) : (gapsF s).length ≤ s.length := again_length (fun _ _ => gapF_length) _ _

theorem nextF_length {s s' : Text} (h : nextF s = some s') : s'.length < s.length := by
  have := strip_length h
  have := gapsF_length s
  simp only [List.length_cons, List.length_nil] at *
  omega

theorem next1F_length {s s' : Text} (h : next1F s = some s') : s'.length < s.length := by
  obtain ⟨s1, h1, h2⟩ := Option.bind_eq_some_iff.mp h
  have := strip_length h2
  have := gapF_length h1
  omega

/-- The items of a repetition, counted from the first one on. -/
theorem again_first {f : Text → Option Text} (s : Text) : (match f s with
    | some s' => again f s.length s'
    | none => s) = again f (s.length + 1) s := by
  simp only [again]
  cases f s <;> rfl

theorem again_step (n : Nat) (s : Text) (h : s.length ≤ n) : again stepF n s = untilF s := by
  induction n generalizing s with
  | zero =>
    cases s with
    | nil => rfl
    | cons x s => simp at h
  | succ n ih =>
    cases s with
    | nil => rfl
    | cons x s =>
      simp only [again, untilF, stepF]
      by_cases hx : (strip ['*', '/'] (x :: s)).isSome
      · simp only [hx, if_true, Option.bind_none]
      · simp only [hx, Bool.false_eq_true, if_false, Option.bind_some, one, if_true]
        exact ih s (by simpa using h)

section
variable {u : Unicode} {root : Module} {pre s : Text} {stk : List Text}

theorem leaves_body (hany : ∀ pre s, Leaves u root (.expr (.mk [] [] (.path anyPath))) pre s stk (one (fun _ => true) s)) (hs : s.length + 1 < usizeMax) :
    Leaves u root (.expr (.mk [] [] kBody)) pre s stk (some (untilF s)) := by
  have h : ∀ pre s, Leaves u root (.expr (.mk [] [] (.seq (.neg (.str ['*', '/'])) (.path anyPath) .none))) pre s stk (stepF s) := fun pre s =>
    leaves_seq (leaves_neg leaves_str) fun _ _ _ _ => hany _ _
  have := leaves_rep (e := kBody) (min := 0) (f := stepF) (o := stepF s) (pre := pre) rfl (by omega) hs (h pre s) (fun i pre s' _ => leaves_unit (h pre s')) (fun _ _ _ => stepF_length)
  have e := again_first (f := stepF) s
  rw [again_step _ _ (by omega)] at e
  rw [← e]
  cases h1 : stepF s with
  | none => rw [h1] at this; exact this
  | some s' => rw [h1] at this; exact this

theorem leaves_gap (hany : ∀ pre s, Leaves u root (.expr (.mk [] [] (.path anyPath))) pre s stk (one (fun _ => true) s)) (hs : s.length + 1 < usizeMax) :
    Leaves u root (.expr (.mk [] [] kGap)) pre s stk (gapF s) := by
  refine leaves_choice leaves_str fun _ => ?_
  refine leaves_seq leaves_str fun _ s1 _ h1 => ?_
  exact leaves_seq (o := some (untilF s1)) (g := strip ['*', '/']) (leaves_body hany (by omega)) fun _ _ _ _ => leaves_str

theorem leaves_any (ht : target u root [] anyPath = some (.builtin anyPath)) : ∀ pre s, Leaves u root (.expr (.mk [] [] (.path anyPath))) pre s stk (one (fun _ => true) s) := by
  intro pre s
  cases s with
  | nil => exact .builtinFail (full := anyPath) (l := .any) rfl (fun _ _ => rfl) ht rfl rfl
  | cons x s => exact ⟨[x], rfl, .builtinOk (full := anyPath) (l := .any) rfl (fun _ _ => rfl) ht rfl rfl rfl⟩

/-! ## `derive/tests/skip.rs` -/

theorem leaves_gaps (hs : s.length + 1 < usizeMax) : Leaves u skipModule (.trivia [] .optional) pre s stk (some (gapsF s)) := by
  have hg : ∀ pre s', s'.length ≤ s.length → Leaves u skipModule (.expr (.mk [] [] kGap)) pre s' stk (gapF s') := fun pre s' h => leaves_gap (leaves_any rfl) (by omega)
  have := leaves_rep (e := .rep kGap) (min := 0) (f := gapF) (o := gapF s) (pre := pre) rfl (by omega) hs (hg pre s (Nat.le_refl _)) (fun i pre s' h => leaves_unit (hg pre s' h)) (fun _ _ _ => gapF_length)
  have e := again_first (f := gapF) s
  rw [again_more (fun _ _ => gapF_length) _ s.length s (by omega) (by omega)] at e
  refine Leaves.imp (it := .expr (.mk [] [] (.rep kGap))) ?_ fun _ k => .triviaRule (m := skipModule) (r := ⟨['~'], [], .rep kGap, false⟩) rfl rfl k
  unfold gapsF
  rw [← e]
  cases h1 : gapF s with
  | none => rw [h1] at this; exact this
  | some s' => rw [h1] at this; exact this

theorem leaves_main (hs : s.length + 1 < usizeMax) : Leaves u skipModule (.expr (.mk [] [] kMain)) pre s stk (some ((itemsF nextF s).getD s)) := by
  have hx : ∀ pre s, Leaves u skipModule (.expr (.mk [] [] (.separated (.str ['x']) .optional))) pre s stk (strip ['x'] s) := fun pre s => leaves_str.imp fun _ k => .separated k
  have := leaves_rep (e := kMain) (min := 0) (f := nextF) (o := strip ['x'] s) (pre := pre) rfl (by omega) hs (hx pre s)
    (fun i pre s' h => leaves_unitT (o := some (gapsF s')) (leaves_gaps (by omega)) fun _ _ _ _ => hx _ _) (fun _ _ _ => nextF_length)
  unfold itemsF
  cases h1 : strip ['x'] s with
  | none => rw [h1] at this; exact this
  | some s' => rw [h1] at this; exact this

theorem leaves_program (hs : s.length + 1 < usizeMax) :
    Leaves u skipModule (.expr (.mk [] [] kProgram)) [] s stk (if gapsF ((itemsF nextF (gapsF s)).getD (gapsF s)) = [] then some [] else none) := by
  have h1 : Leaves u skipModule (.expr (.mk [] [] (.path soiPath))) [] s stk (some s) :=
    ⟨[], rfl, .builtinOk (full := soiPath) (l := .soi) rfl (fun _ _ => rfl) rfl rfl rfl rfl⟩
  have h2 : ∀ pre s, Leaves u skipModule (.expr (.mk [] [] (.path eoiPath))) pre s stk (if s = [] then some [] else none) := by
    intro pre s
    cases s with
    | nil => exact ⟨[], rfl, .builtinOk (full := eoiPath) (l := .eoi) rfl (fun _ _ => rfl) rfl rfl rfl rfl⟩
    | cons x s => exact .builtinFail (full := eoiPath) (l := .eoi) rfl (fun _ _ => rfl) rfl rfl rfl
  refine leaves_seqT (o := some s) (f := gapsF) (g := fun s => if gapsF ((itemsF nextF s).getD s) = [] then some [] else none) h1 (fun _ _ _ h => leaves_gaps (by omega)) fun _ s1 _ k1 k2 => ?_
  refine leaves_seqT (o := some ((itemsF nextF (gapsF s1)).getD (gapsF s1))) (f := gapsF) (g := fun s => if s = [] then some [] else none)
    (leaves_rule (p' := []) (r := ⟨mainName, [], kMain, false⟩) rfl rfl (leaves_main (by omega))) (fun _ _ _ h => leaves_gaps (by omega)) fun _ s2 _ k3 k4 => h2 _ _

/-! ## `derive/examples/reader.rs` -/

theorem leaves_gap1 (hs : s.length + 1 < usizeMax) : Leaves u readerModule (.trivia [] .optional) pre s stk (gapF s) := by
  refine Leaves.imp (it := .expr (.mk [] [] kGap)) (leaves_gap (leaves_any rfl) hs) fun _ k => .triviaRule (m := readerModule) (r := ⟨['~'], [], kGap, false⟩) rfl rfl k

theorem leaves_reader (hs : s.length + 1 < usizeMax) : Leaves u readerModule (.expr (.mk [] [] kReader)) pre s stk (itemsF next1F s) := by
  have hx : ∀ pre s, Leaves u readerModule (.expr (.mk [] [] (.separated (.path [['x']]) .optional))) pre s stk (strip ['x'] s) := fun pre s =>
    (leaves_rule (p := []) (p' := []) (r := ⟨['x'], [], .str ['x'], false⟩) rfl rfl leaves_str).imp fun _ k => .separated k
  have := leaves_rep (e := kReader) (min := 1) (f := next1F) (o := strip ['x'] s) (pre := pre) rfl (by omega) hs (hx pre s)
    (fun i pre s' h => leaves_unitT (leaves_gap1 (by omega)) fun _ _ _ _ => hx _ _) (fun _ _ _ => next1F_length)
  unfold itemsF
  cases h1 : strip ['x'] s with
  | none => rw [h1] at this; exact this
  | some s' => rw [h1] at this; exact this

end

/-! ## The functions and the specification -/

theorem strip_append (t s : Text) : strip t (t ++ s) = some s := strip_some.mpr rfl

theorem bodyF_some {s s' : Text} : bodyF s = some s' ↔ ∃ c, Open c ∧ s = c ++ ['*', '/'] ++ s' := by
  induction s with
  | nil =>
    constructor
    · intro h; cases h
    · rintro ⟨c, -, h⟩; cases c <;> cases h
  | cons x s ih =>
    unfold bodyF
    simp only [untilF]
    cases h1 : strip ['*', '/'] (x :: s) with
    | some r =>
      simp only [Option.isSome_some, if_true]
      have e := strip_some.mp h1
      constructor
      · intro h
        rw [h1] at h; cases h
        refine ⟨[], fun a b h => ?_, e⟩
        have := congrArg List.length h
        simp only [List.nil_append, List.length_append, List.length_cons, List.length_nil] at this
        exact List.length_eq_zero_iff.mp (by omega)
      · rintro ⟨c, hc, h⟩
        rcases c with _ | ⟨y, _ | ⟨z, c⟩⟩
        · rw [h]; exact strip_append _ _
        · rw [e] at h; cases h
        · rw [e] at h
          simp only [List.cons_append, List.nil_append, List.cons.injEq] at h
          obtain ⟨rfl, rfl, -⟩ := h
          have := hc [] (c ++ ['*', '/']) rfl
          simp at this
    | none =>
      simp only [Option.isSome_none, Bool.false_eq_true, if_false]
      refine ih.trans ⟨?_, ?_⟩
      · rintro ⟨c, hc, rfl⟩
        refine ⟨x :: c, fun a b h => ?_, rfl⟩
        cases a with
        | nil =>
          have h2 : strip ['*', '/'] (x :: (c ++ ['*', '/'] ++ s')) = some (b ++ s') := by
            rw [strip_some, ← List.append_assoc, show (['*', '/'] ++ b : Text) = x :: (c ++ ['*', '/']) from h.symm]; rfl
          rw [h2] at h1; cases h1
        | cons y a =>
          simp only [List.cons_append, List.cons.injEq] at h
          exact hc a b h.2
      · rintro ⟨c, hc, h⟩
        cases c with
        | nil => rw [h] at h1; cases h1
        | cons y c =>
          simp only [List.cons_append, List.cons.injEq] at h
          obtain ⟨rfl, h⟩ := h
          refine ⟨c, fun a b k => hc (x :: a) b ?_, h⟩
          simp only [List.cons_append, List.cons.injEq, true_and]
          exact k

theorem gapF_some {s s' : Text} : gapF s = some s' ↔ ∃ g, Gap g ∧ s = g ++ s' := by
  unfold gapF
  constructor
  · intro h
    cases h1 : strip [' '] s with
    | some s1 => rw [h1] at h; cases h; exact ⟨_, .blank, strip_some.mp h1⟩
    | none =>
      rw [h1, Option.none_or] at h
      obtain ⟨s1, h2, h3⟩ := Option.bind_eq_some_iff.mp h
      obtain ⟨c, hc, rfl⟩ := bodyF_some.mp h3
      exact ⟨_, .comment hc, by rw [strip_some.mp h2]; simp⟩
  · rintro ⟨g, hg, rfl⟩
    cases hg with
    | blank => rw [strip_append]; rfl
    | @comment c hc =>
      have : strip ['/', '*'] ('/' :: '*' :: (c ++ ['*', '/']) ++ s') = some (c ++ ['*', '/'] ++ s') := by rw [strip_some]; simp
      rw [this]
      show (none : Option Text).or (bodyF _) = _
      rw [Option.none_or]
      exact bodyF_some.mpr ⟨c, hc, rfl⟩

theorem gapF_x (s : Text) : gapF ('x' :: s) = none := rfl

theorem gapsF_none {s : Text} (h : gapF s = none) : gapsF s = s := by
  unfold gapsF
  cases s.length with
  | zero => rfl
  | succ n => simp only [again, h]

theorem gapsF_cons {s s' : Text} (h : gapF s = some s') : gapsF s = gapsF s' := by
  have hl := gapF_length h
  unfold gapsF
  obtain ⟨k, hk⟩ : ∃ k, s.length = k + 1 := ⟨s.length - 1, by omega⟩
  rw [hk]
  simp only [again, h]
  exact again_more (fun _ _ => gapF_length) _ _ _ (by omega) (Nat.le_refl _)

theorem gapsF_stop (s : Text) : gapF (gapsF s) = none := again_stop (fun _ _ => gapF_length) _ _ (Nat.le_refl _)

theorem gapsF_gaps {t s : Text} (h : Gaps t) : gapsF (t ++ s) = gapsF s := by
  induction h with
  | nil => rfl
  | cons hg _ ih => rw [List.append_assoc, gapsF_cons (gapF_some.mpr ⟨_, hg, rfl⟩), ih]

theorem again_split {f : Text → Option Text} {P : Text → Prop} (h0 : P []) (hf : ∀ s s', f s = some s' → ∃ t, s = t ++ s' ∧ ∀ w, P w → P (t ++ w)) (n : Nat) (s : Text) :
    ∃ t, P t ∧ s = t ++ again f n s := by
  induction n generalizing s with
  | zero => exact ⟨[], h0, rfl⟩
  | succ n ih =>
    simp only [again]
    cases h : f s with
    | none => exact ⟨[], h0, rfl⟩
    | some s' =>
      obtain ⟨t, rfl, h1⟩ := hf _ _ h
      obtain ⟨t', h2, h3⟩ := ih s'
      exact ⟨t ++ t', h1 _ h2, by rw [List.append_assoc, ← h3]⟩

theorem gapsF_split (s : Text) : ∃ t, Gaps t ∧ s = t ++ gapsF s :=
  again_split .nil (fun _ _ h => by obtain ⟨g, hg, rfl⟩ := gapF_some.mp h; exact ⟨g, rfl, fun _ => .cons hg⟩) _ _

/-- A further `x` after something. -/
structure Next (f : Text → Option Text) (T : Text → Prop) : Prop where
  sound : ∀ {s s'}, f s = some s' → ∃ t, T t ∧ s = t ++ 'x' :: s'
  complete : ∀ {t s'}, T t → f (t ++ 'x' :: s') = some s'

theorem next_gaps : Next nextF Gaps where
  sound {s s'} h := by
    obtain ⟨t, h1, h2⟩ := gapsF_split s
    have := strip_some.mp h
    rw [this] at h2
    exact ⟨t, h1, h2⟩
  complete {t s'} h := by
    unfold nextF
    rw [gapsF_gaps h, gapsF_none (gapF_x _)]
    exact strip_append ['x'] s'

theorem next_gap : Next next1F Gap where
  sound {s s'} h := by
    obtain ⟨s1, h1, h2⟩ := Option.bind_eq_some_iff.mp h
    obtain ⟨g, hg, rfl⟩ := gapF_some.mp h1
    exact ⟨g, hg, by rw [strip_some.mp h2]; rfl⟩
  complete {t s'} h := by
    unfold next1F
    rw [gapF_some.mpr ⟨t, h, rfl⟩]
    exact strip_append ['x'] s'

theorem Next.length {f : Text → Option Text} {T : Text → Prop} (h : Next f T) (s s' : Text) (hs : f s = some s') : s'.length < s.length := by
  obtain ⟨t, -, rfl⟩ := h.sound hs
  simp only [List.length_append, List.length_cons]
  omega

theorem again_more_iff {f : Text → Option Text} {T : Text → Prop} (h : Next f T) (n : Nat) (s : Text) (hs : s.length ≤ n) : again f n s = [] ↔ More T s := by
  constructor
  · intro h1
    obtain ⟨t, ht, e⟩ := again_split (f := f) (P := More T) .nil (fun s s' k => by
      obtain ⟨t, ht, rfl⟩ := h.sound k
      exact ⟨t ++ ['x'], by simp, fun w hw => by rw [List.append_assoc]; exact .cons ht hw⟩) n s
    rw [h1, List.append_nil] at e
    exact e ▸ ht
  · intro h1
    induction h1 generalizing n with
    | nil =>
      have := again_length h.length n []
      exact List.length_eq_zero_iff.mp (by simpa using this)
    | cons ht _ ih =>
      simp only [List.length_append, List.length_cons] at hs
      cases n with
      | zero => omega
      | succ n => simp only [again, h.complete ht]; exact ih n (by omega)

theorem itemsF_iff {f : Text → Option Text} {T : Text → Prop} (h : Next f T) (s : Text) : itemsF f s = some [] ↔ Xs T s := by
  unfold itemsF
  constructor
  · intro h1
    obtain ⟨s', h2, h3⟩ := Option.map_eq_some_iff.mp h1
    have e := strip_some.mp h2
    have hl := strip_length h2
    exact ⟨s', e, (again_more_iff h _ _ (by simp only [List.length_cons] at hl; omega)).mp h3⟩
  · rintro ⟨s', rfl, h1⟩
    rw [show strip ['x'] ('x' :: s') = some s' from strip_append ['x'] s', Option.map_some, (again_more_iff h _ _ (by simp)).mpr h1]

theorem again_longest {f : Text → Option Text} {T : Text → Prop} (h : Next f T) {a b : Text} (ha : More T a) (n : Nat) (hn : (a ++ b).length ≤ n) : (again f n (a ++ b)).length ≤ b.length := by
  induction ha generalizing n with
  | nil => exact again_length h.length n b
  | cons ht _ ih =>
    rw [List.append_assoc, List.cons_append]
    simp only [List.length_append, List.length_cons] at hn
    cases n with
    | zero => omega
    | succ n => simp only [again, h.complete ht]; exact ih n (by simp only [List.length_append]; omega)

/-- The items are taken as long as there are any. -/
theorem itemsF_split {f : Text → Option Text} {T : Text → Prop} (h : Next f T) (s : Text) : ∃ a, s = a ++ (itemsF f s).getD s ∧ (a = [] ∨ Xs T a) ∧
    ∀ a' b', s = a' ++ b' → a' = [] ∨ Xs T a' → a'.length ≤ a.length := by
  unfold itemsF
  cases h1 : strip ['x'] s with
  | none =>
    refine ⟨[], rfl, .inl rfl, ?_⟩
    rintro a' b' rfl (rfl | ⟨s', rfl, -⟩)
    · exact Nat.le_refl _
    · rw [List.cons_append, show strip ['x'] ('x' :: (s' ++ b')) = some (s' ++ b') from strip_append ['x'] _] at h1; cases h1
  | some s' =>
    obtain rfl := strip_some.mp h1
    rw [Option.map_some, Option.getD_some]
    obtain ⟨m, hm, e⟩ := again_split (f := f) (P := More T) .nil (fun s s' k => by
      obtain ⟨t, ht, rfl⟩ := h.sound k
      exact ⟨t ++ ['x'], by simp, fun w hw => by rw [List.append_assoc]; exact .cons ht hw⟩) (['x'] ++ s').length s'
    refine ⟨'x' :: m, congrArg ('x' :: ·) e, .inr ⟨m, rfl, hm⟩, ?_⟩
    rintro a' b' e' (rfl | ⟨s2, rfl, h2⟩)
    · exact Nat.zero_le _
    · simp only [List.cons_append, List.nil_append, List.cons.injEq, true_and] at e'
      subst e'
      have h3 := again_longest h (b := b') h2 (['x'] ++ (s2 ++ b')).length (by simp)
      have h4 := congrArg List.length e
      simp only [List.length_append, List.length_cons] at h4 h3 ⊢
      omega

/-! ## The whole text -/

theorem Gaps.program {t s : Text} (h : Gaps t) (hs : Program s) : Program (t ++ s) := by
  induction h with
  | nil => exact hs
  | cons hg _ ih => rw [List.append_assoc]; exact .gap hg ih

theorem program_gap {g s : Text} (hg : Gap g) (h : Program (g ++ s)) : Program s := by
  have h1 : gapF (g ++ s) = some s := gapF_some.mpr ⟨g, hg, rfl⟩
  revert h1
  generalize g ++ s = t at h
  intro h1
  cases h with
  | nil => cases h1
  | gap hg' h' => rw [gapF_some.mpr ⟨_, hg', rfl⟩] at h1; cases h1; exact h'
  | x h' => rw [gapF_x] at h1; cases h1

theorem program_x {s : Text} (h : Program ('x' :: s)) : Program s := by
  have h1 := gapF_x s
  revert h1
  generalize ht : 'x' :: s = t at h
  intro h1
  cases h with
  | nil => cases ht
  | gap hg' h' => rw [gapF_some.mpr ⟨_, hg', rfl⟩] at h1; cases h1
  | x h' => cases ht; exact h'

theorem program_gaps {t s : Text} (h : Gaps t) (hs : Program (t ++ s)) : Program s := by
  induction h with
  | nil => exact hs
  | cons hg _ ih => rw [List.append_assoc] at hs; exact ih (program_gap hg hs)

/-- Nothing is left of a text of blanks, comments and `x` if it begins with none of them. -/
theorem program_nil {s : Text} (h : Program s) (h1 : gapF s = none) (h2 : strip ['x'] s = none) : s = [] := by
  cases h with
  | nil => rfl
  | gap hg _ => rw [gapF_some.mpr ⟨_, hg, rfl⟩] at h1; cases h1
  | @x t _ => rw [show strip ['x'] ('x' :: t) = some t from strip_append ['x'] t] at h2; cases h2

/-- `x` taken away with what is before it. -/
structure Takes (t : Text) : Prop where
  put : ∀ {w}, Program w → Program (t ++ w)
  take : ∀ {w}, Program (t ++ w) → Program w

theorem program_iff (s : Text) : gapsF ((itemsF nextF (gapsF s)).getD (gapsF s)) = [] ↔ Program s := by
  obtain ⟨t, ht, e⟩ := gapsF_split s
  have key : ∃ m, Takes m ∧ gapsF s = m ++ (itemsF nextF (gapsF s)).getD (gapsF s) ∧ strip ['x'] (gapsF ((itemsF nextF (gapsF s)).getD (gapsF s))) = none := by
    unfold itemsF
    cases h1 : strip ['x'] (gapsF s) with
    | none => exact ⟨[], ⟨id, id⟩, rfl, by rw [Option.map_none, Option.getD_none, gapsF_none (gapsF_stop s), h1]⟩
    | some s' =>
      have hl := strip_length h1
      rw [Option.map_some, Option.getD_some]
      obtain ⟨m, hm, e'⟩ := again_split (f := nextF) (P := Takes) ⟨id, id⟩ (fun s s' k => by
        obtain ⟨t, ht, rfl⟩ := next_gaps.sound k
        refine ⟨t ++ ['x'], by simp, fun w hw => ⟨fun h => ?_, fun h => ?_⟩⟩
        · rw [List.append_assoc, List.append_assoc]; exact ht.program (.x (hw.put h))
        · rw [List.append_assoc, List.append_assoc] at h; exact hw.take (program_x (program_gaps ht h))) (gapsF s).length s'
      refine ⟨'x' :: m, ⟨fun h => .x (hm.put h), fun h => hm.take (program_x h)⟩, ?_, ?_⟩
      · rw [List.cons_append, ← e']; exact strip_some.mp h1
      · exact again_stop (f := nextF) (fun _ _ => nextF_length) _ _ (by simp only [List.length_cons] at hl; omega)
  obtain ⟨m, hm, e1, h1⟩ := key
  revert e1 h1
  generalize (itemsF nextF (gapsF s)).getD (gapsF s) = r
  intro e1 h1
  obtain ⟨t', ht', e2⟩ := gapsF_split r
  constructor
  · intro h
    rw [e, e1, e2, h]
    exact ht.program (hm.put (ht'.program .nil))
  · intro h
    rw [e, e1, e2] at h
    exact program_nil (program_gaps ht' (hm.take (program_gaps ht h))) (gapsF_stop r) h1

end Pest3.Skip
