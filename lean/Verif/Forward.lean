import Verif.MetaInv

/-!
# Deriving that the recogniser accepts: basic steps
-/

namespace Pest3.Gen
open Pest3
open Pest3.Meta (MetaRule)

variable {m : Mode} {c : Cfg}

/-! ## Failure by the first character -/

/-- Characters at which nothing is skipped. -/
def solidHead : Option Char → Bool
  | none => true
  | some x => !(x == ' ' || x == '\t' || x == '\n' || x == '\r' || x == '/')

/-- Whether the expression may match where the character `h` is ahead; an overestimate. -/
def mayStart : Nat → PE → Option Char → Bool
  | 0, _, _ => true
  | n + 1, e, h => match e with
    | .str [] => true
    | .str (x :: _) => h == some x
    | .range a b => match h with
      | some x => a ≤ x && x ≤ b
      | none => false
    | .any => h.isSome
    | .ref r => mayStart n (metaGrammar r).2 h
    | .seq (.opt a) f => mayStart n a h || !solidHead h || mayStart n f h
    | .seq (.rep a) f => mayStart n a h || !solidHead h || mayStart n f h
    | .seq e _ => mayStart n e h
    | .choice e f => mayStart n e h || mayStart n f h
    | _ => true

theorem fail_str {s : Text} (h : ¬ s <+: c.suf) : MRec m (.str s) c none := by
  have := Rec.str (g := metaGrammar) (m := m) (s := s) (c := c)
  unfold eat at this
  rwa [if_neg (by rwa [List.isPrefixOf_iff_prefix])] at this

theorem fail_range {a b : Char} (h : ∀ x, c.suf.head? = some x → ¬ (a ≤ x ∧ x ≤ b)) : MRec m (.range a b) c none := by
  have := Rec.range (g := metaGrammar) (m := m) (a := a) (b := b) (c := c)
  unfold eatIf at this
  split at this
  · rename_i x rest he
    rw [if_neg (by simpa using h x (by rw [he]; rfl))] at this
    exact this
  · exact this

theorem fail_any (h : c.suf.head? = none) : MRec m .any c none := by
  have := Rec.any (g := metaGrammar) (m := m) (c := c)
  unfold eatIf at this
  split at this
  · rename_i x rest he
    rw [he] at h; cases h
  · exact this

theorem fail_ref {r : MetaRule} (h : ∀ m, MRec m (metaGrammar r).2 c none) : MRec m (.ref r) c none := .refFail (h _)

theorem mayStart_false : ∀ (n : Nat) (m : Mode) (e : PE), (m ≠ .nonAtomic ∨ MRec .nonAtomic .skip c (some (c, [])) ∨ solidHead c.suf.head? = false) →
    mayStart n e c.suf.head? = false → MRec m e c none := by
  intro n
  induction n with
  | zero => intro m e _ h; cases h
  | succ n ih =>
    intro m e hs h
    have noop : solidHead c.suf.head? = true → MRec m .skip c (some (c, [])) := by
      intro hso
      by_cases hm : m = .nonAtomic
      · subst hm
        rcases hs with hs | hs | hs
        · exact absurd rfl hs
        · exact hs
        · rw [hs] at hso; cases hso
      · exact .noSkip hm
    cases e with
    | str s =>
      cases s with
      | nil => cases h
      | cons x s =>
        refine fail_str ?_
        rintro ⟨t, ht⟩
        rw [mayStart, ← ht] at h
        simp at h
    | range a b =>
      refine fail_range ?_
      intro x hx
      rw [hx] at h
      simpa [mayStart] using h
    | any =>
      refine fail_any ?_
      rw [mayStart] at h
      simpa using h
    | ref r =>
      refine .refFail (ih _ _ ?_ h)
      by_cases hm : (metaGrammar r).1.inside m = .nonAtomic
      · have : m = .nonAtomic := by
          cases hk : (metaGrammar r).1 <;> simp_all [RKind.inside]
        subst this
        rcases hs with hs | hs
        · exact absurd rfl hs
        · exact .inr hs
      · exact .inl hm
    | seq e f =>
      have key : ∀ a : PE, (mayStart n a c.suf.head? || !solidHead c.suf.head? || mayStart n f c.suf.head?) = false →
          MRec m a c none ∧ MRec m .skip c (some (c, [])) ∧ MRec m f c none := by
        intro a h
        simp only [Bool.or_eq_false_iff, Bool.not_eq_false'] at h
        exact ⟨ih _ _ hs h.1.1, noop h.1.2, ih _ _ hs h.2⟩
      cases e with
      | opt a =>
        obtain ⟨h1, h2, h3⟩ := key a h
        exact .seqFail2 (.optNone h1) h2 h3
      | rep a =>
        obtain ⟨h1, h2, h3⟩ := key a h
        exact .seqFail2 (.repNone h1) h2 h3
      | _ => exact .seqFail (ih _ _ hs h)
    | choice e f =>
      rw [mayStart, Bool.or_eq_false_iff] at h
      exact .choice2 (ih _ _ hs h.1) (ih _ _ hs h.2)
    | _ => cases h

/-- Outside letters, digits and the rest that may stand at the beginning of blanks and comments nothing is skipped. -/
theorem skip_none (h1 : MRec .atomic (.ref .whitespace) c none) (h2 : MRec .atomic (.ref .comment) c none) : MRec m .skip c (some (c, [])) := by
  by_cases hm : m = .nonAtomic
  · subst hm
    exact .skip (.seq (.repNone h1) (.noSkip (by simp)) (.repNone (.seqFail h2)))
  · exact .noSkip hm

theorem skip_solid (h : solidHead c.suf.head? = true) : MRec m .skip c (some (c, [])) := by
  have : mayStart 12 (.ref .whitespace) c.suf.head? = false ∧ mayStart 12 (.ref .comment) c.suf.head? = false := by
    generalize c.suf.head? = x at h
    cases x with
    | none => decide
    | some x =>
      simp only [solidHead, Bool.not_eq_true', Bool.or_eq_false_iff, beq_eq_false_iff_ne] at h
      obtain ⟨⟨⟨⟨h1, h2⟩, h3⟩, h4⟩, h5⟩ := h
      simp [mayStart, metaGrammar, lit, alts, seqs, h1, h2, h3, h4, h5]
  exact skip_none (mayStart_false 12 _ _ (.inl (by simp)) this.1) (mayStart_false 12 _ _ (.inl (by simp)) this.2)

/-- An expression that cannot start with what is ahead fails. -/
theorem fails (n : Nat) {e : PE} (h : mayStart n e c.suf.head? = false) : MRec m e c none := by
  refine mayStart_false n m e ?_ h
  by_cases hs : solidHead c.suf.head? = true
  · exact .inr (.inl (skip_solid hs))
  · exact .inr (.inr (by simpa using hs))

/-! ## Success -/

theorem eats_str {s r : Text} (h : c.suf = s ++ r) : ∃ c', MRec m (.str s) c (some (c', [])) ∧ Eats c s c' ∧ c'.suf = r := by
  refine ⟨⟨c.pre ++ s, r, c.stk⟩, ?_, ⟨h, rfl, rfl⟩, rfl⟩
  have := Rec.str (g := metaGrammar) (m := m) (s := s) (c := c)
  unfold eat at this
  rw [if_pos (by rw [List.isPrefixOf_iff_prefix, h]; exact List.prefix_append _ _), h] at this
  simpa using this

theorem eats_range {a b x : Char} {r : Text} (h : c.suf = x :: r) (h1 : a ≤ x) (h2 : x ≤ b) :
    ∃ c', MRec m (.range a b) c (some (c', [])) ∧ Eats c [x] c' ∧ c'.suf = r := by
  refine ⟨⟨c.pre ++ [x], r, c.stk⟩, ?_, ⟨h, rfl, rfl⟩, rfl⟩
  have := Rec.range (g := metaGrammar) (m := m) (a := a) (b := b) (c := c)
  unfold eatIf at this
  rw [h] at this
  simpa [h1, h2] using this

theorem eats_any {x : Char} {r : Text} (h : c.suf = x :: r) : ∃ c', MRec m .any c (some (c', [])) ∧ Eats c [x] c' ∧ c'.suf = r := by
  refine ⟨⟨c.pre ++ [x], r, c.stk⟩, ?_, ⟨h, rfl, rfl⟩, rfl⟩
  have := Rec.any (g := metaGrammar) (m := m) (c := c)
  unfold eatIf at this
  rw [h] at this
  simpa using this

/-- A rule for a fixed text. -/
theorem eats_tok {r : MetaRule} {s : String} {t : Text} (hr : metaGrammar r = (.normal, lit s)) (h : c.suf = s.toList ++ t) :
    ∃ c', MRec m (.ref r) c (some (c', if m = .atomic then [] else [tok r s])) ∧ Eats c s.toList c' ∧ c'.suf = t := by
  obtain ⟨c', h1, h2, h3⟩ := eats_str (m := m) h
  refine ⟨c', ?_, h2, h3⟩
  have := Rec.ref (g := metaGrammar) (m := m) (r := r) (c := c) (c' := c') (ts := []) (by rw [hr]; exact h1)
  unfold wrap at this
  rw [hr, h2.between] at this
  cases m <;> exact this

theorem ref_normal {r : MetaRule} {e : PE} {c' : Cfg} {ts : List PTree} (hr : metaGrammar r = (.normal, e)) (hm : m ≠ .atomic)
    (h : MRec m e c (some (c', ts))) : MRec m (.ref r) c (some (c', [.node r (between c c') ts])) := by
  have := Rec.ref (g := metaGrammar) (m := m) (r := r) (c := c) (c' := c') (ts := ts) (by rw [hr]; exact h)
  unfold wrap at this
  rw [hr] at this
  cases m
  · exact this
  · exact this
  · exact absurd rfl hm

theorem ref_silent {r : MetaRule} {e : PE} {c' : Cfg} {ts : List PTree} (hr : metaGrammar r = (.silent, e))
    (h : MRec m e c (some (c', ts))) : MRec m (.ref r) c (some (c', ts)) := by
  have := Rec.ref (g := metaGrammar) (m := m) (r := r) (c := c) (c' := c') (ts := ts) (by rw [hr]; exact h)
  unfold wrap at this
  rw [hr] at this
  cases m <;> exact this

theorem ref_atomic {r : MetaRule} {e : PE} {c' : Cfg} {ts : List PTree} (hr : metaGrammar r = (.atomic, e))
    (h : MRec .atomic e c (some (c', ts))) : MRec m (.ref r) c (some (c', if m = .atomic then ts else [.node r (between c c') ts])) := by
  have := Rec.ref (g := metaGrammar) (m := m) (r := r) (c := c) (c' := c') (ts := ts) (by rw [hr]; exact h)
  unfold wrap at this
  rw [hr] at this
  cases m <;> exact this

theorem ref_compound {r : MetaRule} {e : PE} {c' : Cfg} {ts : List PTree} (hr : metaGrammar r = (.compound, e))
    (h : MRec .compoundAtomic e c (some (c', ts))) : MRec m (.ref r) c (some (c', [.node r (between c c') ts])) := by
  have := Rec.ref (g := metaGrammar) (m := m) (r := r) (c := c) (c' := c') (ts := ts) (by rw [hr]; exact h)
  unfold wrap at this
  rw [hr] at this
  cases m <;> exact this

theorem ref_fail {r : MetaRule} {k : RKind} {e : PE} (hr : metaGrammar r = (k, e)) (h : MRec (k.inside m) e c none) : MRec m (.ref r) c none := by
  refine .refFail ?_
  rw [hr]; exact h

/-- Without skipping. -/
theorem seq_tight (hm : m ≠ .nonAtomic) {e f : PE} {c1 c2 : Cfg} {ts us : List PTree} (h1 : MRec m e c (some (c1, ts)))
    (h2 : MRec m f c1 (some (c2, us))) : MRec m (.seq e f) c (some (c2, ts ++ us)) := .seq h1 (.noSkip hm) h2

/-- `e` matches exactly the character `x`, for each of the characters, and then fails. -/
theorem more_chars (hm : m ≠ .nonAtomic) {e : PE} (t : Text) {r : Text} (h : ∀ (x : Char) (u v : Text) (c : Cfg), t = u ++ x :: v → c.suf = x :: (v ++ r) →
      ∃ c', MRec m e c (some (c', [])) ∧ Eats c [x] c' ∧ c'.suf = v ++ r)
    (hend : ∀ c : Cfg, c.suf = r → MRec m e c none) (c : Cfg) (hc : c.suf = t ++ r) :
    ∃ c', MRec m (.more e) c (some (c', [])) ∧ Eats c t c' ∧ c'.suf = r := by
  induction t generalizing c with
  | nil => exact ⟨c, .moreNone (.noSkip hm) (hend c (by simpa using hc)), .refl c, by simpa using hc⟩
  | cons x t ih =>
    obtain ⟨c1, h1, h2, h3⟩ := h x [] t c rfl (by simpa using hc)
    obtain ⟨c2, h4, h5, h6⟩ := ih (fun y u v c hu => h y (x :: u) v c (by rw [hu]; rfl)) c1 h3
    exact ⟨c2, .more (.noSkip hm) h1 h4, h2.trans h5, h6⟩

theorem rep_chars (hm : m ≠ .nonAtomic) {e : PE} (t : Text) {r : Text} (h : ∀ (x : Char) (u v : Text) (c : Cfg), t = u ++ x :: v → c.suf = x :: (v ++ r) →
      ∃ c', MRec m e c (some (c', [])) ∧ Eats c [x] c' ∧ c'.suf = v ++ r)
    (hend : ∀ c : Cfg, c.suf = r → MRec m e c none) (c : Cfg) (hc : c.suf = t ++ r) :
    ∃ c', MRec m (.rep e) c (some (c', [])) ∧ Eats c t c' ∧ c'.suf = r := by
  cases t with
  | nil => exact ⟨c, .repNone (hend c (by simpa using hc)), .refl c, by simpa using hc⟩
  | cons x t =>
    obtain ⟨c1, h1, h2, h3⟩ := h x [] t c rfl (by simpa using hc)
    obtain ⟨c2, h4, h5, h6⟩ := more_chars hm t (fun y u v c hu => h y (x :: u) v c (by rw [hu]; rfl)) hend c1 h3
    exact ⟨c2, .rep h1 h4, h2.trans h5, h6⟩

end Pest3.Gen
