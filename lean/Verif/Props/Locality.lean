import Verif.Shift
import Verif.Props.Combinators

/-!
# Property C37: parsing does not look behind

`notSoi`: the expression is not `SOI`.  The hypothesis on leaves is: no `SOI`, or the two places are
both at the start or both not at the start of their texts.
-/

namespace Pest3.Props

open Pest3

section
variable {S : Type} {so : StackOps S} {saved : S → List (List Span)} (hl : Lawful so saved) (env : Env)
  {P₁ P₂ : Text} (henv : ∀ id, (env id).body.All fun l => (P₁ = [] ↔ P₂ = []) ∨ l.notSoi)
include hl henv

/-- A match is determined by the text ahead and the texts on the stack: moved to another place in
another input with the same text ahead it consumes the same text and leaves the same texts on the
stack.  Spans in the tree and on the stack are moved along (`f`), nothing else in the tree changes. -/
theorem C37_moved {inp₁ inp₂ : Str} {suf : Text} {stk : List Text} {ss : List Span} (f : Span → Span)
    (hf : ∀ x y, f (spanOf inp₁ (P₁ ++ x) (P₁ ++ y)) = spanOf inp₂ (P₂ ++ x) (P₂ ++ y)) (n : Node)
    (hn : n.All fun l => (P₁ = [] ↔ P₂ = []) ∨ l.notSoi)
    (hh : Here inp₂ ⟨P₂, suf, stk⟩ (ss.map f)) (m rest : Text) (stk' : List Text) (ss' : List Span) (t : Tree)
    (h : Yields so saved env inp₁ n ⟨P₁, suf, stk⟩ ss ⟨P₁ ++ m, rest, stk'⟩ ss' t) :
    Yields so saved env inp₂ n ⟨P₂, suf, stk⟩ (ss.map f) ⟨P₂ ++ m, rest, stk'⟩ (ss'.map f) (t.mapSpan f) := by
  rw [yields_iff hl] at h ⊢
  refine ⟨hh, ?_⟩
  obtain ⟨d', hm, hb⟩ := h.2.moved henv hf hn (d := ⟨P₂, suf, stk⟩) ⟨⟨[], by simp, by simp⟩, rfl, rfl⟩
  obtain ⟨x, hc, hd⟩ := hm.pre
  obtain ⟨dp, ds, dk⟩ := d'
  have e1 := hm.suf
  have e2 := hm.stk
  simp only at hc hd e1 e2
  rw [List.append_cancel_left_eq] at hc
  subst hc hd e1 e2
  exact hb

/-- Failure depends only on the text ahead and the texts on the stack. -/
theorem C37_fails_iff {suf : Text} {stk : List Text} (n : Node)
    (hn : n.All fun l => (P₁ = [] ↔ P₂ = []) ∨ l.notSoi) :
    FailsAt so saved env n ⟨P₁, suf, stk⟩ ↔ FailsAt so saved env n ⟨P₂, suf, stk⟩ := by
  rw [failsAt_iff hl, failsAt_iff hl]
  constructor
  · intro h
    exact h.moved_none henv hn ⟨⟨[], by simp, by simp⟩, rfl, rfl⟩
  · intro h
    have swap : ∀ l : Leaf, ((P₁ = [] ↔ P₂ = []) ∨ l.notSoi) = ((P₂ = [] ↔ P₁ = []) ∨ l.notSoi) := by
      intro l; rw [iff_comm]
    simp only [swap] at henv hn
    exact h.moved_none henv hn ⟨⟨[], by simp, by simp⟩, rfl, rfl⟩

end

theorem notSoi_weaken (P Q : Text) {n : Node} (h : n.All Leaf.notSoi) : n.All fun l => (P = [] ↔ Q = []) ∨ l.notSoi := by
  induction h with
  | leaf h => exact .leaf (.inr h)
  | positive _ ih => exact .positive ih
  | negative _ ih => exact .negative ih
  | push _ ih => exact .push ih
  | opt _ ih => exact .opt ih
  | rep _ _ ih1 ih2 => exact .rep ih1 ih2
  | seq _ _ ih1 ih2 => exact .seq ih1 ih2
  | choice _ ih => exact .choice ih
  | rule => exact .rule

section
variable {S : Type} {so : StackOps S} {saved : S → List (List Span)} (hl : Lawful so saved) (env : Env)
include hl

/-- Prepending text `P` to an input, in a grammar without `SOI`: parsing from the end of `P` gives the same
outcome as parsing `suf` alone, with every offset increased by the length of `P`. -/
theorem C37_prepend (henv : ∀ id, (env id).body.All Leaf.notSoi) (n : Node) (hn : n.All Leaf.notSoi) (i₁ i₂ : Nat)
    (P suf : Text) (k : Nat) (t : Tree) :
    (∃ fuel st', parse so realTracker env fuel n ⟨⟨i₁, suf⟩, 0⟩ (initSt so ⟨i₁, suf⟩) =
        .ok (some (⟨⟨i₁, suf⟩, k⟩, t), st')) →
    ∃ fuel st', parse so realTracker env fuel n ⟨⟨i₂, P ++ suf⟩, utf8Len P⟩ (initSt so ⟨i₂, P ++ suf⟩) =
        .ok (some (⟨⟨i₂, P ++ suf⟩, utf8Len P + k⟩, t.mapSpan (moveSpan ⟨i₁, suf⟩ 0 ⟨i₂, P ++ suf⟩ (utf8Len P))), st') := by
  have weaken := fun {n : Node} => notSoi_weaken (n := n) ([] : Text) P
  rintro ⟨fuel, st', h⟩
  have hp := good_start ⟨i₁, suf⟩
  have hr := ready_init hl ⟨i₁, suf⟩
  have hco := corr_start hl ⟨i₁, suf⟩
  obtain ⟨hq, _, _, _, _, _, c', hco', hb⟩ := parse_ok hl hp hr hco h
  simp only [initSt, hl.elems_empty, startCfg] at hb
  have hp2 : Good ⟨i₂, P ++ suf⟩ ⟨⟨i₂, P ++ suf⟩, utf8Len P⟩ :=
    ⟨Position.valid_iff_at.2 ⟨P, suf, rfl, rfl⟩, rfl⟩
  have hr2 := ready_init hl ⟨i₂, P ++ suf⟩
  have hco2 : Corr so ⟨⟨i₂, P ++ suf⟩, utf8Len P⟩ (initSt so ⟨i₂, P ++ suf⟩) ⟨P, suf, []⟩ :=
    ⟨⟨rfl, rfl⟩, by simp only [initSt, hl.elems_empty]; exact .nil⟩
  obtain ⟨d', hm, hb'⟩ := hb.moved (P₁ := []) (P₂ := P) (fun id => weaken (henv id))
    (moveSpan_spanOf ⟨i₁, suf⟩ ⟨i₂, P ++ suf⟩ [] P) (weaken hn) (d := ⟨P, suf, []⟩)
    ⟨⟨[], by simp, by simp⟩, rfl, rfl⟩
  obtain ⟨N, q, st2, hN, rfl, hco3, _⟩ := builds_parse hl hp2 hr2 hco2
    (by simp only [initSt, hl.elems_empty]; exact hb')
  refine ⟨N, st2, ?_⟩
  rw [hN N (Nat.le_refl _)]
  obtain ⟨x, hc, hd⟩ := hm.pre
  have e := hco'.at_.2
  simp only [List.nil_append] at hc
  simp only at e
  rw [hd, utf8Len_append, ← hc, ← e]
  rfl

/-- Rejection is likewise unchanged. -/
theorem C37_prepend_fails (henv : ∀ id, (env id).body.All Leaf.notSoi) (n : Node) (hn : n.All Leaf.notSoi) (i₁ i₂ : Nat)
    (P suf : Text) :
    (∃ fuel st', parse so realTracker env fuel n ⟨⟨i₁, suf⟩, 0⟩ (initSt so ⟨i₁, suf⟩) = .ok (none, st')) →
    ∃ fuel st', parse so realTracker env fuel n ⟨⟨i₂, P ++ suf⟩, utf8Len P⟩ (initSt so ⟨i₂, P ++ suf⟩) =
        .ok (none, st') := by
  have weaken := fun {n : Node} => notSoi_weaken (n := n) ([] : Text) P
  rintro ⟨fuel, st', h⟩
  have hn1 := (parse_none hl (good_start ⟨i₁, suf⟩) (ready_init hl ⟨i₁, suf⟩) (corr_start hl ⟨i₁, suf⟩) h).2.2.2.2
  have hp2 : Good ⟨i₂, P ++ suf⟩ ⟨⟨i₂, P ++ suf⟩, utf8Len P⟩ :=
    ⟨Position.valid_iff_at.2 ⟨P, suf, rfl, rfl⟩, rfl⟩
  have hr2 := ready_init hl ⟨i₂, P ++ suf⟩
  have hco2 : Corr so ⟨⟨i₂, P ++ suf⟩, utf8Len P⟩ (initSt so ⟨i₂, P ++ suf⟩) ⟨P, suf, []⟩ :=
    ⟨⟨rfl, rfl⟩, by simp only [initSt, hl.elems_empty]; exact .nil⟩
  obtain ⟨N, st2, hN⟩ := none_parse hl hp2 hr2 hco2 (hn1.moved_none (P₁ := []) (P₂ := P)
    (fun id => weaken (henv id)) (weaken hn) ⟨⟨[], by simp [startCfg], by simp⟩, rfl, rfl⟩)
  exact ⟨N, st2, hN N (Nat.le_refl _)⟩

/-- And so is running forever; with the two theorems above, the outcomes correspond exactly. -/
theorem C37_prepend_returns_iff (henv : ∀ id, (env id).body.All Leaf.notSoi) (n : Node) (hn : n.All Leaf.notSoi)
    (i₁ i₂ : Nat) (P suf : Text) :
    (∃ fuel, parse so realTracker env fuel n ⟨⟨i₁, suf⟩, 0⟩ (initSt so ⟨i₁, suf⟩) ≠ .oof) ↔
    ∃ fuel, parse so realTracker env fuel n ⟨⟨i₂, P ++ suf⟩, utf8Len P⟩ (initSt so ⟨i₂, P ++ suf⟩) ≠ .oof := by
  have hp2 : Good ⟨i₂, P ++ suf⟩ ⟨⟨i₂, P ++ suf⟩, utf8Len P⟩ :=
    ⟨Position.valid_iff_at.2 ⟨P, suf, rfl, rfl⟩, rfl⟩
  have hr2 := ready_init hl ⟨i₂, P ++ suf⟩
  have hco2 : Corr so ⟨⟨i₂, P ++ suf⟩, utf8Len P⟩ (initSt so ⟨i₂, P ++ suf⟩) ⟨P, suf, []⟩ :=
    ⟨⟨rfl, rfl⟩, by simp only [initSt, hl.elems_empty]; exact .nil⟩
  have hd1 := C16_diverges_iff hl env (good_start ⟨i₁, suf⟩) (ready_init hl ⟨i₁, suf⟩) (corr_start hl ⟨i₁, suf⟩) n
  have hd2 := C16_diverges_iff hl env hp2 hr2 hco2 n
  rw [← Classical.not_forall, ← Classical.not_forall]
  refine not_congr (hd1.trans (Iff.trans ?_ hd2.symm))
  constructor
  · intro h r hr
    obtain ⟨r', _, hpeg⟩ := hr.moved (P₁ := P) (P₂ := []) (fun id => notSoi_weaken P [] (henv id))
      (notSoi_weaken P [] hn) (d := ⟨[], suf, []⟩) ⟨⟨[], by simp, by simp⟩, rfl, rfl⟩
    exact h r' hpeg
  · intro h r hr
    obtain ⟨r', _, hpeg⟩ := hr.moved (P₁ := []) (P₂ := P) (fun id => notSoi_weaken [] P (henv id))
      (notSoi_weaken [] P hn) (d := ⟨P, suf, []⟩) ⟨⟨[], by simp [startCfg], by simp⟩, rfl, rfl⟩
    exact h r' hpeg

end

/-! ## Instances -/

/-- The example grammar does not use `SOI`, so `C37_prepend` applies to it, with any prefix. -/
example : ∀ id, (exEnv id).body.All Leaf.notSoi := by
  have htr : exTrivia.All Leaf.notSoi := .rep (.leaf trivial) (.leaf trivial)
  intro id
  unfold exEnv
  split
  · refine .seq ?_ ?_ <;> simp only [List.mem_cons, List.not_mem_nil, or_false, forall_eq_or_imp, forall_eq]
    · exact ⟨.leaf trivial, htr, htr⟩
    · refine ⟨.push .rule, .leaf trivial, .choice ?_⟩
      simp only [List.mem_cons, List.not_mem_nil, or_false, forall_eq_or_imp, forall_eq]
      exact ⟨.leaf trivial, .leaf trivial⟩
  · exact .rep (.leaf trivial) (.leaf trivial)

/-- With `SOI` the claim is false: `SOI ~ "a"` matches `a` but not the `a` in `xa`. -/
example :
    (∃ st', parse idealOps realTracker exEnv 5 (.seq [(.leaf .empty, .leaf .soi), (.leaf .empty, .leaf (.str ['a']))])
      ⟨⟨1, ['a']⟩, 0⟩ (initSt idealOps ⟨1, ['a']⟩) = .ok (some (⟨⟨1, ['a']⟩, 1⟩, .seq [.leaf .unit, .leaf .unit]), st')) ∧
    ∃ st', parse idealOps realTracker exEnv 5 (.seq [(.leaf .empty, .leaf .soi), (.leaf .empty, .leaf (.str ['a']))])
      ⟨⟨1, ['x', 'a']⟩, 1⟩ (initSt idealOps ⟨1, ['x', 'a']⟩) = .ok (none, st') :=
  ⟨⟨_, rfl⟩, ⟨_, rfl⟩⟩

end Pest3.Props
