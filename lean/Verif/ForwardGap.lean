import Verif.Forward
import Verif.NotationSpec

/-!
# Deriving that the recogniser accepts: blanks and comments
-/

namespace Pest3.Gen
open Pest3 Pest3.Load
open Pest3.Meta (MetaRule)

variable {m : Mode} {c : Cfg}

theorem tight_more (hm : m ≠ .nonAtomic) {e : PE} {c' : Cfg} {ts : List PTree} (h : MRec m (.rep e) c (some (c', ts))) :
    MRec m (.more e) c (some (c', ts)) := by
  cases h with
  | repNone h => exact .moreNone (.noSkip hm) h
  | rep h1 h2 => exact .more (.noSkip hm) h1 h2

theorem rep_cons (hm : m ≠ .nonAtomic) {e : PE} {c1 c2 : Cfg} {ts us : List PTree} (h1 : MRec m e c (some (c1, ts)))
    (h2 : MRec m (.rep e) c1 (some (c2, us))) : MRec m (.rep e) c (some (c2, ts ++ us)) := .rep h1 (tight_more hm h2)

/-! ## Blanks -/

theorem eats_newline {e r : Text} (he : Newline e) (h : c.suf = e ++ r) :
    ∃ c', MRec m (.ref .newline) c (some (c', [])) ∧ Eats c e c' ∧ c'.suf = r := by
  cases he with
  | lf =>
    obtain ⟨c', h1, h2, h3⟩ := eats_str (m := m) h
    exact ⟨c', ref_silent rfl (.choice1 h1), h2, h3⟩
  | crlf =>
    obtain ⟨c', h1, h2, h3⟩ := eats_str (m := m) h
    refine ⟨c', ref_silent rfl (.choice2 ?_ h1), h2, h3⟩
    exact fails 1 (by rw [h]; rfl)

theorem eats_blank {b r : Text} (hb : Blank b) (h : c.suf = b ++ r) :
    ∃ c', MRec m (.ref .whitespace) c (some (c', [])) ∧ Eats c b c' ∧ c'.suf = r := by
  cases hb with
  | space =>
    obtain ⟨c', h1, h2, h3⟩ := eats_str (m := m) h
    exact ⟨c', ref_silent rfl (.choice1 h1), h2, h3⟩
  | tab =>
    obtain ⟨c', h1, h2, h3⟩ := eats_str (m := m) h
    refine ⟨c', ref_silent rfl (.choice2 ?_ (.choice1 h1)), h2, h3⟩
    exact fails 1 (by rw [h]; rfl)
  | line he =>
    obtain ⟨c', h1, h2, h3⟩ := eats_newline (m := m) he h
    refine ⟨c', ref_silent rfl (.choice2 ?_ (.choice2 ?_ h1)), h2, h3⟩
    · exact fails 1 (by rw [h]; cases he <;> rfl)
    · exact fails 1 (by rw [h]; cases he <;> rfl)

/-! ## Comments -/

theorem newline_fails {x : Char} {r : Text} (h : c.suf = x :: r) (h1 : x ≠ '\n') (h2 : x ≠ '\r') : MRec m (.ref .newline) c none := by
  refine fails 5 ?_
  rw [h]
  simp [mayStart, metaGrammar, lit, h1, h2]

/-- `(!newline ~ ANY)*` -/
theorem eats_line (hm : m ≠ .nonAtomic) {t r : Text} (ht : Line t) (hr : ∀ c : Cfg, c.suf = r → MRec m (.seq (.neg (.ref .newline)) .any) c none)
    (h : c.suf = t ++ r) : ∃ c', MRec m (.rep (.seq (.neg (.ref .newline)) .any)) c (some (c', [])) ∧ Eats c t c' ∧ c'.suf = r := by
  refine rep_chars hm t ?_ hr c h
  intro x u v c hu hc
  have hx := ht x (by rw [hu]; simp)
  obtain ⟨c', h1, h2, h3⟩ := eats_any (m := m) hc
  exact ⟨c', seq_tight hm (.neg (newline_fails hc hx.1 hx.2)) h1, h2, h3⟩

theorem line_ends {e r : Text} (he : Newline e) (h : c.suf = e ++ r) : MRec m (.seq (.neg (.ref .newline)) .any) c none := by
  obtain ⟨c', h1, _⟩ := eats_newline (m := m) he h
  exact .seqFail (.negFail h1)

theorem line_ends_eof (hm : m ≠ .nonAtomic) (h : c.suf = []) : MRec m (.seq (.neg (.ref .newline)) .any) c none := by
  refine .seqFail2 (.neg (fails 5 (by rw [h]; rfl))) (.noSkip hm) (fails 1 (by rw [h]; rfl))

theorem eats_lineComment {t r : Text} (ht : PlainLine t) (hr : r = [] ∨ ∃ e r', Newline e ∧ r = e ++ r') (h : c.suf = '/' :: '/' :: (t ++ r)) :
    ∃ c', MRec .atomic (.ref .comment) c (some (c', [])) ∧ Eats c ('/' :: '/' :: t) c' ∧ c'.suf = r := by
  obtain ⟨c1, h1, e1, s1⟩ := eats_str (m := .atomic) (s := ['/', '/']) (r := t ++ r) (c := c) h
  obtain ⟨c2, h2, e2, s2⟩ := eats_line (m := .atomic) (by simp) ht.1 (r := r) (by
    intro c hc
    rcases hr with rfl | ⟨e, r', he, rfl⟩
    · exact line_ends_eof (by simp) hc
    · exact line_ends he hc) s1
  refine ⟨c2, ref_silent rfl (.choice2 ?_ (seq_tight (by simp) (seq_tight (by simp) h1 (seq_tight (by simp) (.neg ?_) h2)) ?_)), e1.trans e2, s2⟩
  · refine ref_fail rfl (.seqFail (fail_str ?_))
    rintro ⟨u, hu⟩
    rw [h] at hu
    simp at hu
  · have hh : c1.suf.head? ≠ some '/' ∧ c1.suf.head? ≠ some '!' := by
      rw [s1]
      cases t with
      | nil =>
        rcases hr with rfl | ⟨e, r', he, rfl⟩
        · simp
        · cases he <;> simp
      | cons x t => exact ht.2
    refine fails 5 ?_
    simp [mayStart, lit, hh.1, hh.2]
  · rcases hr with rfl | ⟨e, r', he, rfl⟩
    · have := Rec.ref (g := metaGrammar) (m := .atomic) (r := .eoi) (c := c2) (c' := c2) (ts := []) (by
        have := Rec.eoi (g := metaGrammar) (m := .atomic) (c := c2)
        rw [if_pos s2] at this
        exact this)
      exact .pos (.choice2 (fails 5 (by rw [s2]; rfl)) this)
    · obtain ⟨c3, h3, _⟩ := eats_newline (m := .atomic) he s2
      exact .pos (.choice1 h3)

/-- The part of a comment before `*/`. -/
theorem eats_body {b r : Text} (hb : Body b) : ∀ (c : Cfg), c.suf = b ++ '*' :: '/' :: r →
    ∃ c', MRec .atomic (.rep (.choice (.ref .blockComment) (.seq (.neg (lit "*/")) .any))) c (some (c', [])) ∧ Eats c b c' ∧
      c'.suf = '*' :: '/' :: r := by
  induction hb generalizing r with
  | nil =>
    intro c h
    refine ⟨c, .repNone (.choice2 ?_ ?_), .refl c, h⟩
    · exact fails 5 (by rw [h]; rfl)
    · obtain ⟨c1, h1, _⟩ := eats_str (m := .atomic) (s := ['*', '/']) (r := r) (c := c) h
      exact .seqFail (.negFail h1)
  | @char x b n1 n2 _ ih =>
    intro c h
    obtain ⟨c1, h1, e1, s1⟩ := eats_any (m := .atomic) (c := c) (x := x) (r := b ++ '*' :: '/' :: r) (by simpa using h)
    obtain ⟨c2, h2, e2, s2⟩ := ih c1 s1
    have pre : ∀ s : Text, s.length = 2 → s <+: c.suf → s <+: x :: (b ++ ['*', '/']) := by
      intro s hl hs
      rw [h] at hs
      have : x :: b ++ '*' :: '/' :: r = (x :: (b ++ ['*', '/'])) ++ r := by simp
      rw [this] at hs
      exact List.prefix_of_prefix_length_le hs (List.prefix_append _ _) (by simp [hl])
    refine ⟨c2, rep_cons (by simp) (.choice2 ?_ (seq_tight (by simp) (.neg ?_) h1)) h2, e1.trans e2, s2⟩
    · exact ref_fail rfl (.seqFail (fail_str fun hp => n2 (pre _ rfl hp)))
    · exact fail_str fun hp => n1 (pre _ rfl hp)
  | @nest a b _ _ iha ihb =>
    intro c h
    obtain ⟨c1, h1, e1, s1⟩ := eats_str (m := .atomic) (s := ['/', '*']) (r := a ++ '*' :: '/' :: (b ++ '*' :: '/' :: r)) (c := c) (by simpa using h)
    obtain ⟨c2, h2, e2, s2⟩ := iha c1 s1
    obtain ⟨c3, h3, e3, s3⟩ := eats_str (m := .atomic) (s := ['*', '/']) (r := b ++ '*' :: '/' :: r) (c := c2) s2
    obtain ⟨c4, h4, e4, s4⟩ := ihb c3 s3
    refine ⟨c4, rep_cons (by simp) (.choice1 (ref_silent rfl (seq_tight (by simp) h1 (seq_tight (by simp) h2 h3)))) h4, ?_, s4⟩
    have := e1.trans (e2.trans (e3.trans e4))
    simpa using this

theorem eats_blockComment {b r : Text} (hb : Body b) (h : c.suf = '/' :: '*' :: (b ++ '*' :: '/' :: r)) :
    ∃ c', MRec .atomic (.ref .comment) c (some (c', [])) ∧ Eats c ('/' :: '*' :: (b ++ ['*', '/'])) c' ∧ c'.suf = r := by
  obtain ⟨c1, h1, e1, s1⟩ := eats_str (m := .atomic) (s := ['/', '*']) (r := b ++ '*' :: '/' :: r) (c := c) h
  obtain ⟨c2, h2, e2, s2⟩ := eats_body hb c1 s1
  obtain ⟨c3, h3, e3, s3⟩ := eats_str (m := .atomic) (s := ['*', '/']) (r := r) (c := c2) s2
  exact ⟨c3, ref_silent rfl (.choice1 (ref_silent rfl (seq_tight (by simp) h1 (seq_tight (by simp) h2 h3)))), e1.trans (e2.trans e3), s3⟩

/-! ## Skipping -/

/-- Where `s` is ahead, skipping leads to where `r` is ahead. -/
def Skips (s r : Text) : Prop := ∀ c : Cfg, c.suf = s → ∃ c1 c2, MRec .atomic (.rep (.ref .whitespace)) c (some (c1, [])) ∧
  MRec .atomic (.rep (.seq (.ref .comment) (.rep (.ref .whitespace)))) c1 (some (c2, [])) ∧ c2.suf = r ∧ c2.stk = c.stk

theorem Skips.skip {s r : Text} (h : Skips s r) (hc : c.suf = s) : ∃ c', MRec .nonAtomic .skip c (some (c', [])) ∧ c'.suf = r ∧ c'.stk = c.stk := by
  obtain ⟨c1, c2, h1, h2, h3, h4⟩ := h c hc
  exact ⟨c2, .skip (seq_tight (by simp) h1 h2), h3, h4⟩

theorem skips_none {r : Text} (h : ∀ c : Cfg, c.suf = r → MRec .atomic (.ref .whitespace) c none ∧ MRec .atomic (.ref .comment) c none) : Skips r r := by
  intro c hc
  obtain ⟨h1, h2⟩ := h c hc
  exact ⟨c, c, .repNone h1, .repNone (.seqFail h2), hc, rfl⟩

theorem skips_solid {r : Text} (h : solidHead r.head? = true) : Skips r r := by
  have : mayStart 12 (.ref .whitespace) r.head? = false ∧ mayStart 12 (.ref .comment) r.head? = false := by
    generalize r.head? = x at h
    cases x with
    | none => decide
    | some x =>
      simp only [solidHead, Bool.not_eq_true', Bool.or_eq_false_iff, beq_eq_false_iff_ne] at h
      obtain ⟨⟨⟨⟨h1, h2⟩, h3⟩, h4⟩, h5⟩ := h
      simp [mayStart, metaGrammar, lit, alts, seqs, h1, h2, h3, h4, h5]
  exact skips_none fun c hc => ⟨fails 12 (by rw [hc]; exact this.1), fails 12 (by rw [hc]; exact this.2)⟩

/-- Documentation is not skipped. -/
theorem skips_doc {x : Char} {r : Text} (hx : x = '/' ∨ x = '!') : Skips ('/' :: '/' :: x :: r) ('/' :: '/' :: x :: r) := by
  refine skips_none fun c hc => ⟨fails 12 (by rw [hc]; rfl), ref_fail rfl (.choice2 (ref_fail rfl (.seqFail (fail_str ?_))) ?_)⟩
  · rintro ⟨u, hu⟩
    rw [hc] at hu
    simp at hu
  · obtain ⟨c1, h1, _, s1⟩ := eats_str (m := .atomic) (s := ['/', '/']) (r := x :: r) (c := c) hc
    refine .seqFail (.seqFail2 h1 (.noSkip (by decide)) (.seqFail ?_))
    obtain ⟨c2, h2, _⟩ := eats_str (m := .atomic) (s := [x]) (r := r) (c := c1) s1
    rcases hx with rfl | rfl
    · exact .negFail (.choice1 h2)
    · exact .negFail (.choice2 (fails 1 (by rw [s1]; rfl)) h2)

theorem gap_skips {g s r : Text} (hg : Gap g) (h : Skips s r) : Skips (g ++ s) r := by
  induction hg with
  | nil => exact h
  | @blank b g hb _ ih =>
    intro c hc
    obtain ⟨c0, h0, e0, s0⟩ := eats_blank (m := .atomic) hb (by rw [hc, List.append_assoc])
    obtain ⟨c1, c2, h1, h2, h3, h4⟩ := ih c0 s0
    exact ⟨c1, c2, rep_cons (by simp) h0 h1, h2, h3, by rw [h4, e0.stk]⟩
  | @line t e g ht he _ ih =>
    intro c hc
    obtain ⟨c0, h0, e0, s0⟩ := eats_lineComment ht (.inr ⟨e, g ++ s, he, rfl⟩) (c := c) (by rw [hc]; simp)
    obtain ⟨c1, h1, e1, s1⟩ := eats_blank (m := .atomic) (.line he) s0
    obtain ⟨c2, c3, h2, h3, h4, h5⟩ := ih c1 s1
    exact ⟨c, c3, .repNone (fails 12 (by rw [hc]; rfl)), rep_cons (by simp) (seq_tight (by simp) h0 (rep_cons (by simp) h1 h2)) h3, h4,
      by rw [h5, e1.stk, e0.stk]⟩
  | @block b g hb _ ih =>
    intro c hc
    obtain ⟨c0, h0, e0, s0⟩ := eats_blockComment hb (r := g ++ s) (c := c) (by rw [hc]; simp)
    obtain ⟨c2, c3, h2, h3, h4, h5⟩ := ih c0 s0
    exact ⟨c, c3, .repNone (fails 12 (by rw [hc]; rfl)), rep_cons (by simp) (seq_tight (by simp) h0 h2) h3, h4, by rw [h5, e0.stk]⟩

theorem skips_tail {g : Text} (h : Tail g) : Skips g [] := by
  cases h with
  | gap h => simpa using gap_skips h (skips_solid (r := []) rfl)
  | @line g t h ht =>
    refine gap_skips h ?_
    intro c hc
    obtain ⟨c0, h0, e0, s0⟩ := eats_lineComment ht (.inl rfl) (c := c) (by rw [hc, List.append_nil])
    exact ⟨c, c0, .repNone (fails 12 (by rw [hc]; rfl)), rep_cons (by simp) (seq_tight (by simp) h0 (.repNone (fails 12 (by rw [s0]; rfl))))
      (.repNone (fails 12 (by rw [s0]; rfl))), s0, by rw [e0.stk]⟩

/-- Gaps begin with no characters of tokens. -/
theorem gap_head {g : Text} (h : Gap g) : ∀ x, g.head? = some x → x = ' ' ∨ x = '\t' ∨ x = '\n' ∨ x = '\r' ∨ x = '/' := by
  intro x hx
  cases h with
  | nil => cases hx
  | blank hb _ => cases hb with
    | space => simp at hx; simp [← hx]
    | tab => simp at hx; simp [← hx]
    | line he => cases he <;> (simp at hx; simp [← hx])
  | line => simp at hx; simp [← hx]
  | block => simp at hx; simp [← hx]

end Pest3.Gen
