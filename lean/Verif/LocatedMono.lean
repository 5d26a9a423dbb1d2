import Verif.Located

/-!
# With more fuel, reading with positions gives the same
-/

namespace Pest3.Gen
open Pest3 Pest3.Load
open Pest3.Meta (MetaRule)

/-- `b` is what `a` becomes with more fuel. -/
def Refines {α : Type} (a b : Res α) : Prop := a = .oof ∨ a = b

theorem Refines.refl {α : Type} (a : Res α) : Refines a a := .inr rfl

theorem Refines.oof {α : Type} (a : Res α) : Refines .oof a := .inl rfl

theorem Refines.trans {α : Type} {a b c : Res α} (h : Refines a b) (k : Refines b c) : Refines a c := by
  rcases h with rfl | rfl
  · exact .inl rfl
  · exact k

theorem Refines.andThen {α β : Type} {a b : Res α} {f g : α → Res β} (h : Refines a b) (k : ∀ x, Refines (f x) (g x)) :
    Refines (Gen.andThen a f) (Gen.andThen b g) := by
  rcases h with rfl | rfl
  · exact .inl rfl
  · cases a with
    | ok x => exact k x
    | panic => exact .inr rfl
    | oof => exact .inl rfl

theorem Refines.tryThen {α β : Type} {a b : Res (Option α)} {f g : α → Res (Option β)} (h : Refines a b) (k : ∀ x, Refines (f x) (g x)) :
    Refines (Gen.tryThen a f) (Gen.tryThen b g) :=
  Refines.andThen h fun
    | some x => k x
    | none => .refl _

theorem Refines.tryL {α β : Type} {a b : LRes α} {f g : α → LRes β} (h : Refines a b) (k : ∀ x, Refines (f x) (g x)) :
    Refines (Gen.tryL a f) (Gen.tryL b g) :=
  Refines.andThen h fun
    | .ok x => k x
    | .error _ => .refl _

theorem recogL_mono (g : Gram) : ∀ n m e c, Refines (recogL g n m e c) (recogL g (n + 1) m e c) := by
  intro n
  induction n with
  | zero => intro m e c; exact .oof _
  | succ n ih =>
    intro m e c
    unfold recogL
    cases e with
    | str | range | any | soi | eoi => exact .refl _
    | ref r => exact .tryThen (ih ..) fun _ => .refl _
    | seq e f => exact .tryThen (ih ..) fun _ => .tryThen (ih ..) fun _ => .tryThen (ih ..) fun _ => .refl _
    | choice e f => exact .andThen (ih ..) fun | some _ => .refl _ | none => ih ..
    | opt e => exact .andThen (ih ..) fun | some _ => .refl _ | none => .refl _
    | rep e => exact .andThen (ih ..) fun | some _ => .tryThen (ih ..) fun _ => .refl _ | none => .refl _
    | more e => exact .tryThen (ih ..) fun _ => .andThen (ih ..) fun | some _ => .tryThen (ih ..) fun _ => .refl _ | none => .refl _
    | pos e => exact .tryThen (ih ..) fun _ => .refl _
    | neg e => exact .andThen (ih ..) fun | some _ => .refl _ | none => .refl _
    | push e => exact .tryThen (ih ..) fun _ => .refl _
    | peek => exact .refl _
    | pop => exact .refl _
    | skip => cases m with
      | nonAtomic => exact .tryThen (ih ..) fun _ => .refl _
      | _ => exact .refl _

section
variable {f g : LTree → LRes SExpr}

theorem pratt_mono (ops : Ops) (h : ∀ t, Refines (f t) (g t)) : ∀ n,
    (∀ rbp ts, Refines (prattExprL ops f n rbp ts) (prattExprL ops g (n + 1) rbp ts)) ∧
    ∀ rbp lhs ts, Refines (prattLoopL ops f n rbp lhs ts) (prattLoopL ops g (n + 1) rbp lhs ts) := by
  intro n
  induction n with
  | zero => exact ⟨fun _ _ => .oof _, fun _ _ _ => .oof _⟩
  | succ n ih =>
    refine ⟨fun rbp ts => ?_, fun rbp lhs ts => ?_⟩
    · cases ts with
      | nil => exact .refl _
      | cons p rest =>
        unfold prattExprL
        simp only
        generalize ops p.rule = o
        cases o with
        | some _ => exact .refl _
        | none => exact .andThen (h p) fun _ => ih.2 ..
    · cases ts with
      | nil => exact .refl _
      | cons p rest =>
        unfold prattLoopL
        simp only
        generalize ops p.rule = o
        cases o with
        | none => exact .refl _
        | some prec =>
          by_cases hp : rbp < prec
          · simp only [if_pos hp]
            exact .andThen (ih.1 ..) fun _ => .andThen (.refl _) fun _ => ih.2 ..
          · simp only [if_neg hp]
            exact .refl _

theorem callArgs_mono (h : ∀ t, Refines (f t) (g t)) (ts : List LTree) : Refines (callArgsL f ts) (callArgsL g ts) := by
  fun_induction callArgsL f ts with
  | case1 p q rest h1 h2 ih =>
    simp only [callArgsL, if_pos h1, if_pos h2]
    exact .tryL (h p) fun _ => .tryL ih fun _ => .refl _
  | case2 p q rest h1 h2 ih =>
    rw [callArgsL, if_pos h1, if_neg h2]
    exact .tryL (h p) fun _ => .tryL ih fun _ => .refl _
  | case3 p q rest h1 =>
    rw [callArgsL, if_neg h1]
    exact .refl _
  | case4 p h1 =>
    rw [callArgsL, if_pos h1]
    exact .tryL (h p) fun _ => .refl _
  | case5 p h1 =>
    rw [callArgsL, if_neg h1]
    exact .refl _
  | case6 => exact .refl _

theorem path_mono (h : ∀ t, Refines (f t) (g t)) (p : LTree) : Refines (pathL f p) (pathL g p) := by
  unfold pathL
  cases (pathNamesL p.inner).2 with
  | nil => exact .refl _
  | cons a _ =>
    simp only
    cases a.rule <;> try exact .refl _
    cases a.inner with
    | nil => exact .refl _
    | cons _ inner => exact .tryL (callArgs_mono h inner) fun _ => .refl _

theorem term_mono (h : ∀ t, Refines (f t) (g t)) (t : LTree) : Refines (termL f t) (termL g t) := by
  have step : ∀ p st, Refines (termStepL f p st) (termStepL g p st) := by
    intro p st
    unfold termStepL
    cases p.rule <;> simp only <;>
      first
      | exact .refl _
      | exact .tryL (h p) fun _ => .refl _
      | exact .tryL (path_mono h p) fun _ => .refl _
  have loop : ∀ ts st, Refines (termLoopL f ts st) (termLoopL g ts st) := by
    intro ts
    induction ts with
    | nil => intro st; exact .refl _
    | cons p rest ih => intro st; exact .tryL (step p st) fun st => ih st
  exact .tryL (loop ..) fun _ => .refl _

end

theorem node_mono (ops : Ops) : ∀ n t, Refines (nodeL ops n t) (nodeL ops (n + 1) t) := by
  intro n
  induction n with
  | zero => intro t; exact .oof _
  | succ n ih => intro t; exact .andThen ((pratt_mono ops (term_mono ih) n).1 ..) fun _ => .refl _

theorem rule_mono (n : Nat) (t : LTree) : Refines (ruleL n t) (ruleL (n + 1) t) := by
  unfold ruleL
  cases dropDocsL t.inner with
  | nil => exact .refl _
  | cons name l => cases l with
    | nil => exact .refl _
    | cons args rest =>
      simp only
      cases skipL .assignmentOperator rest with
      | nil => exact .refl _
      | cons m rest =>
        simp only
        generalize (if decide (m.rule = .silentModifier) = true then (m :: rest).tail else m :: rest) = l
        cases skipL .openingBrace l with
        | nil => exact .refl _
        | cons e _ => exact .tryL (node_mono ..) fun _ => .refl _

theorem import_mono (n : Nat) (t : LTree) : Refines (importL n t) (importL (n + 1) t) := by
  unfold importL
  cases t.inner with
  | nil => exact .refl _
  | cons p rest => exact .tryL (path_mono (node_mono noOps n) p) fun _ => .refl _

end Pest3.Gen

namespace Pest3.Load
open Pest3 Pest3.Gen

theorem settle_mono {a b : LRes LItem} (h : Refines a b) : Refines (settleL a) (settleL b) := by
  rcases h with rfl | rfl
  · exact .inl rfl
  · exact .inr rfl

theorem readItems_mono (n : Nat) (ts : List LTree) : Refines (readItemsL n ts) (readItemsL (n + 1) ts) := by
  induction ts with
  | nil => exact .refl _
  | cons t rest ih =>
    unfold readItemsL readItemL
    cases t.rule <;> simp only <;>
      first
      | exact ih
      | exact .andThen (settle_mono (.tryL (rule_mono n t) fun _ => .refl _)) fun _ => .andThen ih fun _ => .refl _
      | exact .andThen (settle_mono (.tryL (import_mono n t) fun _ => .refl _)) fun _ => .andThen ih fun _ => .refl _
      | exact .andThen (.refl _) fun _ => .andThen ih fun _ => .refl _

theorem readText_mono (n : Nat) (text : Text) : Refines (readTextL n text) (readTextL (n + 1) text) :=
  .tryThen (recogL_mono ..) fun _ => .andThen (readItems_mono ..) fun _ => .refl _

theorem readText_le {n m : Nat} (h : n ≤ m) (text : Text) : Refines (readTextL n text) (readTextL m text) := by
  induction h with
  | refl => exact .refl _
  | step _ ih => exact ih.trans (readText_mono _ text)

end Pest3.Load
