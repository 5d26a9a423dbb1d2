import Verif.ForwardAt

/-!
# Deriving that the recogniser accepts: paths and postfix operators
-/

namespace Pest3.Gen
open Pest3 Pest3.Load
open Pest3.Meta (MetaRule Denotes charText decimal)

instance (x : Char) : Decidable (isAlpha x) := by unfold isAlpha; infer_instance
instance (x : Char) : Decidable (identStart x) := by unfold identStart; infer_instance
instance (x : Char) : Decidable (identPart x) := by unfold identPart; infer_instance

/-! ## Characters -/

/-- What may follow a word: neither it goes on nor is it the beginning of a string. -/
def WordEnd (r : Text) : Prop := ∀ x, r.head? = some x → ¬ identPart x ∧ x ≠ '"' ∧ x ≠ '#'

theorem WordEnd.ident {r : Text} (h : WordEnd r) : IdentEnd r := fun x hx => (h x hx).1

theorem wordEnd_cons {x : Char} {r : Text} (h : ¬ identPart x ∧ x ≠ '"' ∧ x ≠ '#') : WordEnd (x :: r) := by
  intro y hy; cases hy; exact h

theorem wordEnd_gap {g r : Text} (hg : Gap g) (h : WordEnd r) : WordEnd (g ++ r) := by
  cases g with
  | nil => exact h
  | cons x g =>
    intro y hy
    cases hy
    rcases gap_head hg x rfl with rfl | rfl | rfl | rfl | rfl <;> decide

theorem gap_wordEnd {g r : Text} (hg : Gap g) (h : g ≠ []) : WordEnd (g ++ r) := by
  cases g with
  | nil => cases h rfl
  | cons x g =>
    intro y hy
    cases hy
    rcases gap_head hg x rfl with rfl | rfl | rfl | rfl | rfl <;> decide

theorem identStart_ne {x : Char} (hx : identStart x) {y : Char} (hy : ¬ identStart y) : x ≠ y := by
  rintro rfl; exact hy hx

/-- Characters with which a term without prefix operators begins. -/
def NodeHead (x : Char) : Prop := x = '(' ∨ x = '"' ∨ x = '\'' ∨ identStart x

/-- Characters with which a term begins. -/
def TermHead (x : Char) : Prop := x = '&' ∨ x = '!' ∨ NodeHead x

instance (x : Char) : Decidable (NodeHead x) := by unfold NodeHead; infer_instance
instance (x : Char) : Decidable (TermHead x) := by unfold TermHead; infer_instance

/-- The text begins with such a character. -/
def Starts (p : Char → Prop) (t : Text) : Prop := ∃ x r, t = x :: r ∧ p x

theorem Starts.append {p : Char → Prop} {t : Text} (h : Starts p t) (s : Text) : Starts p (t ++ s) := by
  obtain ⟨x, r, rfl, hx⟩ := h
  exact ⟨x, r ++ s, rfl, hx⟩

theorem Starts.mono {p q : Char → Prop} {t : Text} (h : Starts p t) (k : ∀ x, p x → q x) : Starts q t := by
  obtain ⟨x, r, rfl, hx⟩ := h
  exact ⟨x, r, rfl, k x hx⟩

theorem Starts.ne {p : Char → Prop} {t : Text} (h : Starts p t) {y : Char} (hy : ¬ p y) : t.head? ≠ some y := by
  obtain ⟨x, r, rfl, hx⟩ := h
  intro hh
  cases hh
  exact hy hx

theorem Starts.some {p : Char → Prop} {t : Text} (h : Starts p t) : ∃ x, t.head? = some x ∧ p x := by
  obtain ⟨x, r, rfl, hx⟩ := h
  exact ⟨x, rfl, hx⟩

theorem solid_of_ne {x : Option Char} (h : x ≠ some ' ' ∧ x ≠ some '\t' ∧ x ≠ some '\n' ∧ x ≠ some '\r' ∧ x ≠ some '/') : solidHead x = true := by
  cases x with
  | none => rfl
  | some x => simp [solidHead] at h ⊢; simp [h]

theorem Starts.solid {p : Char → Prop} {t : Text} (h : Starts p t) (hp : ¬ p ' ' ∧ ¬ p '\t' ∧ ¬ p '\n' ∧ ¬ p '\r' ∧ ¬ p '/') : Skips t t :=
  skips_solid (solid_of_ne ⟨h.ne hp.1, h.ne hp.2.1, h.ne hp.2.2.1, h.ne hp.2.2.2.1, h.ne hp.2.2.2.2⟩)

theorem Starts.ident {t : Text} (h : Starts identStart t) : Skips t t := h.solid (by decide)

theorem Starts.term {t : Text} (h : Starts TermHead t) : Skips t t := h.solid (by decide)

theorem Starts.node {t : Text} (h : Starts NodeHead t) : Starts TermHead t := h.mono fun _ hx => .inr (.inr hx)

/-! ## Paths -/

/-- `:: identifier`. -/
def colonName : PE := .seq (.ref .ancestryOperator) (.ref .identifier)

theorem ident_starts {x : Name} (h : IsIdent x) : Starts identStart x := by
  cases h with
  | mk hx _ => exact ⟨_, _, rfl, hx⟩

theorem path_starts {q : List Name} {t : Text} (h : PathText q t) : Starts identStart t := by
  cases h with
  | one h => exact ident_starts h
  | cons h => exact (ident_starts h).append _

theorem path_ne {q : List Name} {t : Text} (h : PathText q t) : q ≠ [] := by cases h <;> simp

/-- After the first character of a path there is no beginning of a string. -/
theorem path_second {q : List Name} {t s : Text} (h : PathText q t) (hs : WordEnd s) :
    ∃ x r, t ++ s = x :: r ∧ identStart x ∧ r.head? ≠ some '"' ∧ r.head? ≠ some '#' := by
  have key : ∀ {x : Name} {s : Text}, IsIdent x → WordEnd s → ∃ y r, x ++ s = y :: r ∧ identStart y ∧ r.head? ≠ some '"' ∧ r.head? ≠ some '#' := by
    intro x s hx hs
    cases hx with
    | @mk y ys hy hys =>
      refine ⟨y, ys ++ s, rfl, hy, ?_⟩
      cases ys with
      | nil => exact ⟨fun h => (hs _ h).2.1 rfl, fun h => (hs _ h).2.2 rfl⟩
      | cons z zs =>
        have hz : identPart z := hys z List.mem_cons_self
        refine ⟨?_, ?_⟩ <;> (intro h; cases h; revert hz; decide)
  cases h with
  | one hx => exact key hx hs
  | @cons x q g h t hx hg _ _ =>
    simp only [List.append_assoc, List.cons_append]
    exact key hx (wordEnd_gap hg (wordEnd_cons (by decide)))

theorem path_parts {q : List Name} {t s r : Text} (h : PathText q t) (hs : IdentEnd s) (hk : Skips s r) (hr : Skips r r) (hn : No colonName r) :
    ∃ x r0, At (.ref .identifier) (t ++ s) r0 (· = [.node .identifier x []]) ∧
      Loops colonName r0 r (fun ts => .node .identifier x [] :: ts = pathTrees q) := by
  induction h with
  | @one x hx =>
    exact ⟨x, r, At.ident hx hs hk, (Loops.nil hr hn).mono (by rintro _ rfl; rfl)⟩
  | @cons x q g h t hx hg hh hp ih =>
    obtain ⟨y, r0, h1, h2⟩ := ih
    refine ⟨x, "::".toList ++ (h ++ (t ++ s)), ?_, ?_⟩
    · have := At.ident (t := g ++ ':' :: ':' :: (h ++ (t ++ s))) (r := "::".toList ++ (h ++ (t ++ s))) hx
        (wordEnd_gap hg (wordEnd_cons (by decide))).ident (gap_skips hg (skips_solid rfl))
      simpa using this
    · refine (Loops.cons (At.seq (At.tok (k := .ancestryOperator) "::" rfl (gap_skips hh ((path_starts hp).append s).ident)) h1) h2).mono ?_
      rintro _ ⟨us, vs, rfl, ⟨_, _, rfl, rfl, rfl⟩, hv⟩
      cases q with
      | nil => cases path_ne hp rfl
      | cons z q => simp [pathTrees, ← hv]

/-! ## Optional tokens -/

theorem numbers {a : Option Nat} {t s : Text} (ht : Perhaps (a.map decimal) t) (hs : Skips s s) (hd : DigitEnd s) :
    ∃ r, Skips (t ++ s) r ∧ Skips r r ∧ At (.opt (.ref .number)) r s (· = (a.map fun n => PTree.node .number (decimal n) []).toList) := by
  generalize ho : a.map decimal = o at ht
  cases ht with
  | @none g hg =>
    cases a with
    | some _ => cases ho
    | none =>
      refine ⟨s, gap_skips hg hs, hs, At.optNone (fun c hc => ?_) hs⟩
      refine ref_fail rfl (.choice2 (fails 1 ?_) (.seqFail (fail_range ?_)))
      · rw [hc]
        cases hh : s.head? with
        | none => rfl
        | some x =>
          have : x ≠ '0' := by rintro rfl; exact hd _ hh (by decide)
          simp [mayStart, lit, this]
      · intro x hx h
        rw [hc] at hx
        exact hd x hx ⟨Char.le_trans (by decide) h.1, h.2⟩
  | @some x g h hg hh =>
    cases a with
    | none => cases ho
    | some n =>
      cases ho
      have hd' : DigitEnd (h ++ s) := by
        cases h with
        | nil => exact hd
        | cons x h =>
          intro y hy
          cases hy
          rcases gap_head hh x rfl with rfl | rfl | rfl | rfl | rfl <;> decide
      have hsol : Skips (decimal n ++ (h ++ s)) (decimal n ++ (h ++ s)) := by
        obtain ⟨x, xs, hx, hc⟩ := IntLit.text_head (.plain n)
        refine Starts.solid (p := fun x => x = '+' ∨ x = '-' ∨ ('0' ≤ x ∧ x ≤ '9')) ⟨x, xs ++ (h ++ s), ?_, hc⟩ (by decide)
        have hx : decimal n = x :: xs := hx
        rw [hx]; rfl
      refine ⟨decimal n ++ (h ++ s), ?_, hsol, At.opt ((At.number hd' (gap_skips hh hs)).mono (by rintro _ rfl; rfl))⟩
      simpa using gap_skips hg hsol

theorem integers {a : Option IntLit} {t s : Text} (ht : Perhaps (a.map IntLit.text) t) (hs : Skips s s) (hd : ∀ x, s.head? = some x → x ≠ '+' ∧ x ≠ '-' ∧ ¬ ('0' ≤ x ∧ x ≤ '9')) :
    ∃ r, Skips (t ++ s) r ∧ Skips r r ∧ At (.opt (.ref .integer)) r s (· = (a.map fun n => PTree.node .integer n.text []).toList) := by
  generalize ho : a.map IntLit.text = o at ht
  cases ht with
  | @none g hg =>
    cases a with
    | some _ => cases ho
    | none =>
      refine ⟨s, gap_skips hg hs, hs, At.optNone (fun c hc => ?_) hs⟩
      refine ref_fail rfl (.seqFail2 (.optNone (fails 2 ?_)) (.noSkip (by simp [RKind.inside])) (ref_fail rfl (.choice2 (fails 1 ?_) (.seqFail (fail_range ?_)))))
      · rw [hc]
        cases hh : s.head? with
        | none => rfl
        | some x => simp [mayStart, lit, (hd x hh).1, (hd x hh).2.1]
      · rw [hc]
        cases hh : s.head? with
        | none => rfl
        | some x =>
          have : x ≠ '0' := by rintro rfl; exact (hd _ hh).2.2 (by decide)
          simp [mayStart, lit, this]
      · intro x hx h
        rw [hc] at hx
        exact (hd x hx).2.2 ⟨Char.le_trans (by decide) h.1, h.2⟩
  | @some x g h hg hh =>
    cases a with
    | none => cases ho
    | some n =>
      cases ho
      have hd' : DigitEnd (h ++ s) := by
        cases h with
        | nil => exact fun x hx => (hd x hx).2.2
        | cons x h =>
          intro y hy
          cases hy
          rcases gap_head hh x rfl with rfl | rfl | rfl | rfl | rfl <;> decide
      have hsol : Skips (n.text ++ (h ++ s)) (n.text ++ (h ++ s)) := by
        obtain ⟨x, xs, hx, hc⟩ := IntLit.text_head n
        refine Starts.solid (p := fun x => x = '+' ∨ x = '-' ∨ ('0' ≤ x ∧ x ≤ '9')) ⟨x, xs ++ (h ++ s), ?_, hc⟩ (by decide)
        rw [hx]; rfl
      refine ⟨n.text ++ (h ++ s), ?_, hsol, At.opt ((At.integer hd' (gap_skips hh hs)).mono (by rintro _ rfl; rfl))⟩
      simpa using gap_skips hg hsol

/-! ## Postfix operators -/

theorem op_at {o : PostOp} {t s r : Text} (h : OpText o t) (hs : Skips s r) :
    At (alts [.ref .optionalOperator, .ref .repeatOperator, .ref .repeatOnceOperator, .ref .boundedRepeat]) (t ++ s) r
      (fun ts => ∃ x, ts = [x] ∧ o.IsTree x) := by
  cases h with
  | opt => exact (At.choice1 (At.tok (k := .optionalOperator) "?" rfl hs)).mono (by rintro _ rfl; exact ⟨_, rfl, rfl⟩)
  | star =>
    exact (At.choice2 (No.head 9 rfl) (At.choice1 (At.tok (k := .repeatOperator) "*" rfl hs))).mono (by rintro _ rfl; exact ⟨_, rfl, rfl⟩)
  | plus =>
    exact (At.choice2 (No.head 9 rfl) (At.choice2 (No.head 9 rfl) (At.choice1 (At.tok (k := .repeatOnceOperator) "+" rfl hs)))).mono
      (by rintro _ rfl; exact ⟨_, rfl, rfl⟩)
  | @exact n t ht =>
    obtain ⟨r0, h1, h2, h3⟩ := numbers (a := some n) (s := '}' :: s) ht (skips_solid rfl) (by intro x hx; cases hx; decide)
    have h4 : At (.ref .number) r0 ('}' :: s) (· = [.node .number (decimal n) []]) := by
      cases ht with
      | @some x g h hg hh =>
        intro c hc
        obtain ⟨c', ts, k1, k2, k3, rfl⟩ := h3 c hc
        generalize hy : some (c', (Option.map (fun n => PTree.node .number (decimal n) []) (some n)).toList) = y at k1
        cases k1 with
        | optNone _ => cases hy
        | optSome k1 => cases hy; exact ⟨c', _, k1, k2, k3, rfl⟩
    refine (At.choice2 (No.head 9 rfl) (At.choice2 (No.head 9 rfl) (At.choice2 (No.head 9 rfl) (At.normal (k := .boundedRepeat) rfl
      (At.seq (At.tok (t := t ++ '}' :: s) (k := .openingBrace) "{" rfl h1) (At.seq (At.choice2 (No.seq2 (At.opt h4) (No.seq1 (No.head 9 rfl))) h4)
        (At.tok (k := .closingBrace) "}" rfl hs))))))).mono ?_ |> fun h => by simpa [alts] using h
    rintro _ ⟨x, us, rfl, _, _, rfl, rfl, _, _, rfl, rfl, rfl⟩
    exact ⟨_, rfl, rfl, rfl⟩
  | @bounds a b t u ht hu =>
    obtain ⟨r1, k1, k2, k3⟩ := numbers (s := '}' :: s) hu (skips_solid rfl) (by intro x hx; cases hx; decide)
    obtain ⟨r0, h1, h2, h3⟩ := numbers (s := '.' :: '.' :: (u ++ '}' :: s)) ht (skips_solid rfl) (by intro x hx; cases hx; decide)
    refine (At.choice2 (No.head 9 rfl) (At.choice2 (No.head 9 rfl) (At.choice2 (No.head 9 rfl) (At.normal (k := .boundedRepeat) rfl
      (At.seq (At.tok (t := t ++ '.' :: '.' :: (u ++ '}' :: s)) (k := .openingBrace) "{" rfl h1) (At.seq (At.choice1 (At.seq h3 (At.seq
        (At.tok (t := u ++ '}' :: s) (k := .rangeOperator) ".." rfl k1) k3)))
        (At.tok (k := .closingBrace) "}" rfl hs))))))).mono ?_ |> fun h => by simpa [alts] using h
    rintro _ ⟨x, us, rfl, _, _, rfl, rfl, _, _, rfl, ⟨_, _, rfl, rfl, _, _, rfl, rfl, rfl⟩, rfl⟩
    refine ⟨_, rfl, rfl, ?_⟩
    cases a <;> cases b <;> rfl

theorem op_starts {o : PostOp} {t : Text} (h : OpText o t) : Starts (fun x => x = '?' ∨ x = '*' ∨ x = '+' ∨ x = '{') t := by
  cases h with
  | opt => exact ⟨_, _, rfl, by simp⟩
  | star => exact ⟨_, _, rfl, by simp⟩
  | plus => exact ⟨_, _, rfl, by simp⟩
  | exact => exact ⟨_, _, rfl, by simp⟩
  | bounds => exact ⟨_, _, rfl, by simp⟩

theorem sep_starts {p : Post} {t o : Text} (ht : SepText p.sep t) (ho : OpText p.op o) :
    Starts (fun x => x = '?' ∨ x = '*' ∨ x = '+' ∨ x = '{' ∨ x = '~' ∨ x = '^') (t ++ o) := by
  generalize hp : p.sep = sep at ht
  cases ht with
  | none => exact (op_starts ho).mono (by rintro x (h | h | h | h) <;> simp [h])
  | tilde => exact ⟨_, _, rfl, by simp⟩
  | caret => exact ⟨_, _, rfl, by simp⟩

theorem post_at {p : Post} {t o s r : Text} (ht : SepText p.sep t) (ho : OpText p.op o) (hs : Skips s r) :
    At (.ref .postfixOperator) (t ++ (o ++ s)) r (PostTrees [p]) := by
  have h1 := op_at ho hs
  have hsol : Skips (o ++ s) (o ++ s) := ((op_starts ho).append s).solid (by decide)
  have fin : ∀ ts, App (· = sepTrees p.sep) (fun ts => ∃ x, ts = [x] ∧ p.op.IsTree x) ts → p.sep ≠ some .none → PostTrees [p] ts := by
    rintro _ ⟨_, _, rfl, rfl, x, rfl, hx⟩ hn
    exact .cons hn hx .nil
  generalize hp : p.sep = sep at ht
  cases ht with
  | none =>
    refine At.silent rfl ((At.seq (At.optNone (No.head 9 ?_) hsol) h1).mono fun ts h => fin ts (by rw [hp]; exact h) (by rw [hp]; simp))
    obtain ⟨x, hx, hc⟩ := ((op_starts ho).append s).some
    rw [hx]
    rcases hc with rfl | rfl | rfl | rfl <;> rfl
  | tilde hg =>
    have := At.silent (k := .postfixOperator) rfl ((At.seq (At.opt (At.silent rfl (At.choice1 (At.tok (k := .tildeOperator) "~" rfl (gap_skips hg hsol))))) h1).mono
      fun ts h => fin ts (by rw [hp]; exact h) (by rw [hp]; simp))
    simpa using this
  | caret hg =>
    have := At.silent (k := .postfixOperator) rfl ((At.seq (At.opt (At.silent rfl (At.choice2 (No.head 9 rfl) (At.tok (k := .caretOperator) "^" rfl (gap_skips hg hsol))))) h1).mono
      fun ts h => fin ts (by rw [hp]; exact h) (by rw [hp]; simp))
    simpa using this

end Pest3.Gen
