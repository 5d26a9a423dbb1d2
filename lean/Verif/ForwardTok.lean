import Verif.ForwardGap

/-!
# Deriving that the recogniser accepts: names, numbers and literals
-/

namespace Pest3.Gen
open Pest3 Pest3.Load
open Pest3.Meta (MetaRule Escape Letter Denotes isHex charText)

variable {m : Mode} {c : Cfg}

/-! ## Identifiers -/

/-- No identifier goes on here. -/
def IdentEnd (r : Text) : Prop := ∀ x, r.head? = some x → ¬ identPart x

theorem eats_alpha {x : Char} {r : Text} (hx : isAlpha x) (h : c.suf = x :: r) :
    ∃ c', MRec m (.ref .alpha) c (some (c', [])) ∧ Eats c [x] c' ∧ c'.suf = r := by
  rcases hx with hx | hx
  · obtain ⟨c', h1, h2, h3⟩ := eats_range (m := m) h hx.1 hx.2
    exact ⟨c', ref_silent rfl (.choice1 h1), h2, h3⟩
  · obtain ⟨c', h1, h2, h3⟩ := eats_range (m := m) h hx.1 hx.2
    by_cases h4 : 'a' ≤ x ∧ x ≤ 'z'
    · obtain ⟨c', h1, h2, h3⟩ := eats_range (m := m) h h4.1 h4.2
      exact ⟨c', ref_silent rfl (.choice1 h1), h2, h3⟩
    · refine ⟨c', ref_silent rfl (.choice2 (fail_range ?_) h1), h2, h3⟩
      rw [h]
      rintro y hy
      cases hy
      exact h4

theorem not_alpha {r : Text} (h : c.suf = r) (hr : ∀ x, r.head? = some x → ¬ isAlpha x) : MRec m (.ref .alpha) c none := by
  refine ref_fail rfl (.choice2 (fail_range ?_) (fail_range ?_))
  · rw [h]; exact fun x hx h' => hr x hx (.inl h')
  · rw [h]; exact fun x hx h' => hr x hx (.inr h')

theorem underscore {r : Text} {x : Char} (h : c.suf = x :: r) (hx : x ≠ '_') : MRec m (lit "_") c none := by
  refine fail_str ?_
  rw [h]
  rintro ⟨t, ht⟩
  simp at ht
  exact hx ht.1.symm

theorem eats_ident {n r : Text} (hn : IsIdent n) (h : c.suf = n ++ r) (hr : IdentEnd r) :
    ∃ c', MRec m (.ref .identifier) c (some (c', if m = .atomic then [] else [.node .identifier n []])) ∧ Eats c n c' ∧ c'.suf = r := by
  cases hn with
  | @mk x xs hx hxs =>
    have first : ∃ c', MRec .atomic (.choice (lit "_") (.ref .alpha)) c (some (c', [])) ∧ Eats c [x] c' ∧ c'.suf = xs ++ r := by
      by_cases hu : x = '_'
      · subst hu
        obtain ⟨c', h1, h2, h3⟩ := eats_str (m := .atomic) (s := ['_']) (r := xs ++ r) (c := c) h
        exact ⟨c', .choice1 h1, h2, h3⟩
      · obtain ⟨c', h1, h2, h3⟩ := eats_alpha (m := .atomic) (hx.resolve_left hu) h
        exact ⟨c', .choice2 (underscore h hu) h1, h2, h3⟩
    obtain ⟨c1, h1, e1, s1⟩ := first
    obtain ⟨c2, h2, e2, s2⟩ := rep_chars (m := .atomic) (by simp) (e := .choice (lit "_") (.ref .alphaNum)) xs (r := r) (by
      intro y u v c hu hc
      have hy := hxs y (by rw [hu]; simp)
      by_cases h1 : y = '_'
      · subst h1
        obtain ⟨c', h1, h2, h3⟩ := eats_str (m := .atomic) (s := ['_']) (r := v ++ r) (c := c) hc
        exact ⟨c', .choice1 h1, h2, h3⟩
      · rcases hy with hy | hy | hy
        · exact absurd hy h1
        · obtain ⟨c', h2, h3, h4⟩ := eats_alpha (m := .atomic) hy hc
          exact ⟨c', .choice2 (underscore hc h1) (ref_silent rfl (.choice1 h2)), h3, h4⟩
        · by_cases ha : isAlpha y
          · obtain ⟨c', h2, h3, h4⟩ := eats_alpha (m := .atomic) ha hc
            exact ⟨c', .choice2 (underscore hc h1) (ref_silent rfl (.choice1 h2)), h3, h4⟩
          · obtain ⟨c', h2, h3, h4⟩ := eats_range (m := .atomic) hc hy.1 hy.2
            refine ⟨c', .choice2 (underscore hc h1) (ref_silent rfl (.choice2 (not_alpha hc ?_) h2)), h3, h4⟩
            rintro z hz
            cases hz
            exact ha) (by
      intro c hc
      refine .choice2 ?_ (ref_fail rfl (.choice2 (not_alpha hc fun x hx h => hr x hx (.inr (.inl h))) (fail_range ?_)))
      · cases r with
        | nil => exact fails 1 (by rw [hc]; rfl)
        | cons x r => exact underscore hc fun h => hr x rfl (.inl h)
      · rw [hc]; exact fun x hx h => hr x hx (.inr (.inr h))) c1 s1
    have e := e1.trans e2
    refine ⟨c2, ?_, e, s2⟩
    have := ref_atomic (m := m) (r := .identifier) rfl (seq_tight (by simp) h1 h2)
    rw [e.between] at this
    exact this

theorem no_ident {r : Text} (h : c.suf = r) (hr : ¬ StartsIdent r) : MRec m (.ref .identifier) c none := by
  refine ref_fail rfl (.seqFail (.choice2 ?_ (not_alpha h ?_)))
  · cases r with
    | nil => exact fails 1 (by rw [h]; rfl)
    | cons x r => exact underscore h fun hx => hr ⟨x, r, rfl, .inl hx⟩
  · intro x hx ha
    cases r with
    | nil => cases hx
    | cons y r => cases hx; exact hr ⟨x, r, rfl, .inr ha⟩

/-! ## Numbers -/

/-- No number goes on here. -/
def DigitEnd (r : Text) : Prop := ∀ x, r.head? = some x → ¬ ('0' ≤ x ∧ x ≤ '9')

theorem digitChar_range {d : Nat} (h : d < 10) : '0' ≤ Nat.digitChar d ∧ Nat.digitChar d ≤ '9' := by
  have : ∀ d : Fin 10, '0' ≤ Nat.digitChar d ∧ Nat.digitChar d ≤ '9' := by decide
  exact this ⟨d, h⟩

theorem digitChar_pos {d : Nat} (h : d < 10) (h0 : d ≠ 0) : '1' ≤ Nat.digitChar d ∧ Nat.digitChar d ≤ '9' := by
  have : ∀ d : Fin 10, d ≠ 0 → '1' ≤ Nat.digitChar d ∧ Nat.digitChar d ≤ '9' := by decide
  exact this ⟨d, h⟩ (by intro h; exact h0 (congrArg Fin.val h))

theorem decimal_digits (n : Nat) (hn : n ≠ 0) :
    ∃ x xs, Meta.decimal n = x :: xs ∧ ('1' ≤ x ∧ x ≤ '9') ∧ ∀ y ∈ xs, '0' ≤ y ∧ y ≤ '9' := by
  induction n using Nat.strongRecOn with
  | ind n ih =>
    by_cases h : n < 10
    · exact ⟨_, [], Nat.toDigits_of_lt_base h, digitChar_pos h hn, by simp⟩
    · obtain ⟨x, xs, h1, h2, h3⟩ := ih (n / 10) (by omega) (by omega)
      refine ⟨x, xs ++ [Nat.digitChar (n % 10)], ?_, h2, ?_⟩
      · unfold Meta.decimal at *
        rw [Nat.toDigits_of_base_le (by omega) (by omega), h1]; rfl
      · intro y hy
        rcases List.mem_append.1 hy with hy | hy
        · exact h3 y hy
        · rw [List.mem_singleton.1 hy]; exact digitChar_range (by omega)

theorem eats_number {n : Nat} {r : Text} (h : c.suf = Meta.decimal n ++ r) (hr : DigitEnd r) :
    ∃ c', MRec m (.ref .number) c (some (c', if m = .atomic then [] else [.node .number (Meta.decimal n) []])) ∧
      Eats c (Meta.decimal n) c' ∧ c'.suf = r := by
  by_cases hn : n = 0
  · subst hn
    obtain ⟨c', h1, e, h3⟩ := eats_str (m := .atomic) (s := ['0']) (r := r) (c := c) h
    refine ⟨c', ?_, e, h3⟩
    have := ref_atomic (m := m) (r := .number) rfl (.choice1 h1)
    rw [e.between] at this
    exact this
  · obtain ⟨x, xs, hd, hx, hxs⟩ := decimal_digits n hn
    rw [hd] at h ⊢
    obtain ⟨c1, h1, e1, s1⟩ := eats_range (m := .atomic) h hx.1 hx.2
    obtain ⟨c2, h2, e2, s2⟩ := rep_chars (m := .atomic) (by simp) (e := .range '0' '9') xs (r := r) (by
      intro y u v c hu hc
      have hy := hxs y (by rw [hu]; simp)
      exact eats_range hc hy.1 hy.2) (by
      intro c hc
      exact fail_range (by rw [hc]; exact hr)) c1 s1
    have e := e1.trans e2
    refine ⟨c2, ?_, e, s2⟩
    have := ref_atomic (m := m) (r := .number) rfl (.choice2 ?_ (seq_tight (by simp) h1 h2))
    · rw [e.between] at this
      exact this
    · refine fail_str ?_
      rw [h]
      rintro ⟨t, ht⟩
      simp at ht
      rw [← ht.1] at hx
      revert hx; decide

theorem IntLit.text_head (i : IntLit) : ∃ x xs, i.text = x :: xs ∧ (x = '+' ∨ x = '-' ∨ ('0' ≤ x ∧ x ≤ '9')) := by
  have : ∀ n, ∃ x xs, Meta.decimal n = x :: xs ∧ ('0' ≤ x ∧ x ≤ '9') := by
    intro n
    by_cases h : n = 0
    · subst h; exact ⟨'0', [], rfl, by decide⟩
    · obtain ⟨x, xs, h1, h2, _⟩ := decimal_digits n h
      exact ⟨x, xs, h1, Char.le_trans (by decide) h2.1, h2.2⟩
  cases i with
  | plain n => obtain ⟨x, xs, h1, h2⟩ := this n; exact ⟨x, xs, h1, .inr (.inr h2)⟩
  | plus n => exact ⟨_, _, rfl, .inl rfl⟩
  | minus n => exact ⟨_, _, rfl, .inr (.inl rfl)⟩

theorem eats_integer {i : IntLit} {r : Text} (h : c.suf = i.text ++ r) (hr : DigitEnd r) :
    ∃ c', MRec .nonAtomic (.ref .integer) c (some (c', [.node .integer i.text []])) ∧ Eats c i.text c' ∧ c'.suf = r := by
  have : ∃ c', MRec .atomic (.seq (.opt (.choice (lit "+") (lit "-"))) (.ref .number)) c (some (c', [])) ∧ Eats c i.text c' ∧ c'.suf = r := by
    cases i with
    | plain n =>
      obtain ⟨c', h1, h2, h3⟩ := eats_number (m := .atomic) h hr
      refine ⟨c', seq_tight (by simp) (.optNone ?_) h1, h2, h3⟩
      have hh : ∃ x, c.suf.head? = some x ∧ '0' ≤ x ∧ x ≤ '9' := by
        rw [h]
        by_cases hn : n = 0
        · subst hn; exact ⟨'0', rfl, by decide, by decide⟩
        · obtain ⟨x, xs, h1, h2, _⟩ := decimal_digits n hn
          exact ⟨x, by simp [IntLit.text, h1], Char.le_trans (by decide) h2.1, h2.2⟩
      obtain ⟨x, hx, h5, _⟩ := hh
      have n1 : x ≠ '+' := by rintro rfl; revert h5; decide
      have n2 : x ≠ '-' := by rintro rfl; revert h5; decide
      refine fails 5 ?_
      rw [hx]
      simp [mayStart, lit, n1, n2]
    | plus n =>
      obtain ⟨c1, h1, e1, s1⟩ := eats_str (m := .atomic) (s := ['+']) (r := Meta.decimal n ++ r) (c := c) h
      obtain ⟨c2, h2, e2, s2⟩ := eats_number (m := .atomic) s1 hr
      exact ⟨c2, seq_tight (by simp) (.optSome (.choice1 h1)) h2, e1.trans e2, s2⟩
    | minus n =>
      obtain ⟨c1, h1, e1, s1⟩ := eats_str (m := .atomic) (s := ['-']) (r := Meta.decimal n ++ r) (c := c) h
      obtain ⟨c2, h2, e2, s2⟩ := eats_number (m := .atomic) s1 hr
      exact ⟨c2, seq_tight (by simp) (.optSome (.choice2 (fails 1 (by rw [h]; rfl)) h1)) h2, e1.trans e2, s2⟩
  obtain ⟨c', h1, e, h3⟩ := this
  refine ⟨c', ?_, e, h3⟩
  have := ref_atomic (m := .nonAtomic) (r := .integer) rfl h1
  rw [e.between] at this
  exact this

/-! ## Escapes and strings -/

theorem hex_range {x : Char} (h : isHex x) : ('0' ≤ x ∧ x ≤ '9') ∨ ('a' ≤ x ∧ x ≤ 'f') ∨ ('A' ≤ x ∧ x ≤ 'F') := by
  unfold isHex Meta.digitVal at h
  by_cases h1 : '0' ≤ x ∧ x ≤ '9'
  · exact .inl h1
  · by_cases h2 : 'a' ≤ x ∧ x ≤ 'f'
    · exact .inr (.inl h2)
    · by_cases h3 : 'A' ≤ x ∧ x ≤ 'F'
      · exact .inr (.inr h3)
      · simp [h1, h2, h3] at h

theorem eats_hex {x : Char} {r : Text} (hx : isHex x) (h : c.suf = x :: r) :
    ∃ c', MRec .atomic (.ref .hexDigit) c (some (c', [])) ∧ Eats c [x] c' ∧ c'.suf = r := by
  have no : ∀ {a b : Char}, ¬ (a ≤ x ∧ x ≤ b) → MRec .atomic (.range a b) c none := by
    intro a b hn
    refine fail_range ?_
    rw [h]
    rintro y hy
    cases hy
    exact hn
  by_cases h1 : '0' ≤ x ∧ x ≤ '9'
  · obtain ⟨c', k1, k2, k3⟩ := eats_range (m := .atomic) h h1.1 h1.2
    exact ⟨c', ref_atomic (m := .atomic) rfl (.choice1 k1), k2, k3⟩
  · by_cases h2 : 'a' ≤ x ∧ x ≤ 'f'
    · obtain ⟨c', k1, k2, k3⟩ := eats_range (m := .atomic) h h2.1 h2.2
      exact ⟨c', ref_atomic (m := .atomic) rfl (.choice2 (no h1) (.choice1 k1)), k2, k3⟩
    · have h3 := ((hex_range hx).resolve_left h1).resolve_left h2
      obtain ⟨c', k1, k2, k3⟩ := eats_range (m := .atomic) h h3.1 h3.2
      exact ⟨c', ref_atomic (m := .atomic) rfl (.choice2 (no h1) (.choice2 (no h2) k1)), k2, k3⟩

/-- `hex_digit? ~ … ~ "}"` -/
def hexes : Nat → PE
  | 0 => .ref .closingBrace
  | k + 1 => .seq (.opt (.ref .hexDigit)) (hexes k)

theorem eats_hexes : ∀ (k : Nat) (ds : Text) {r : Text} (c : Cfg), (∀ d ∈ ds, isHex d) → ds.length ≤ k → c.suf = ds ++ '}' :: r →
    ∃ c', MRec .atomic (hexes k) c (some (c', [])) ∧ Eats c (ds ++ ['}']) c' ∧ c'.suf = r := by
  intro k
  induction k with
  | zero =>
    intro ds r c _ hl h
    cases ds with
    | nil =>
      obtain ⟨c', h1, h2, h3⟩ := eats_tok (m := .atomic) (r := .closingBrace) (s := "}") (t := r) rfl h
      exact ⟨c', h1, h2, h3⟩
    | cons => simp at hl
  | succ k ih =>
    intro ds r c hh hl h
    cases ds with
    | nil =>
      obtain ⟨c', h1, h2, h3⟩ := ih [] c (by simp) (by simp) h
      exact ⟨c', seq_tight (by simp) (.optNone (fails 5 (by rw [h]; rfl))) h1, h2, h3⟩
    | cons x ds =>
      obtain ⟨c1, h1, e1, s1⟩ := eats_hex (hh x (by simp)) h
      obtain ⟨c2, h2, e2, s2⟩ := ih ds c1 (fun d hd => hh d (by simp [hd])) (by simpa using hl) s1
      exact ⟨c2, seq_tight (by simp) (.optSome h1) h2, e1.trans e2, s2⟩

theorem eats_escape {e r : Text} {v : Char ⊕ (Nat × Nat)} (he : Escape e v) (h : c.suf = e ++ r) :
    ∃ c', MRec .atomic (.ref .escape) c (some (c', [])) ∧ Eats c e c' ∧ c'.suf = r := by
  have no : ∀ {c : Cfg} {s : Char} {x : Char} {r : Text}, c.suf = x :: r → x ≠ s → MRec .atomic (.str [s]) c none := by
    intro c s x r hc hx
    refine fail_str ?_
    rw [hc]
    rintro ⟨t, ht⟩
    simp at ht
    exact hx ht.1.symm
  cases he with
  | @letter x y hl =>
    obtain ⟨c1, h1, e1, s1⟩ := eats_str (m := .atomic) (s := ['\\']) (r := x :: r) (c := c) h
    obtain ⟨c2, h2, e2, s2⟩ := eats_str (m := .atomic) (s := [x]) (r := r) (c := c1) s1
    refine ⟨c2, ref_atomic (m := .atomic) (ts := [] ++ []) rfl (seq_tight (by simp) h1 ?_), e1.trans e2, s2⟩
    cases hl
    · exact .choice1 h2
    · exact .choice2 (no s1 (by decide)) (.choice1 h2)
    · exact .choice2 (no s1 (by decide)) (.choice2 (no s1 (by decide)) (.choice1 h2))
    · exact .choice2 (no s1 (by decide)) (.choice2 (no s1 (by decide)) (.choice2 (no s1 (by decide)) (.choice1 h2)))
    · exact .choice2 (no s1 (by decide)) (.choice2 (no s1 (by decide)) (.choice2 (no s1 (by decide)) (.choice2 (no s1 (by decide)) (.choice1 h2))))
    · exact .choice2 (no s1 (by decide)) (.choice2 (no s1 (by decide)) (.choice2 (no s1 (by decide)) (.choice2 (no s1 (by decide))
        (.choice2 (no s1 (by decide)) (.choice1 h2)))))
    · exact .choice2 (no s1 (by decide)) (.choice2 (no s1 (by decide)) (.choice2 (no s1 (by decide)) (.choice2 (no s1 (by decide))
        (.choice2 (no s1 (by decide)) (.choice2 (no s1 (by decide)) (.choice1 h2))))))
  | @code a b ha hb =>
    obtain ⟨c1, h1, e1, s1⟩ := eats_str (m := .atomic) (s := ['\\']) (r := 'x' :: a :: b :: r) (c := c) h
    obtain ⟨c2, h2, e2, s2⟩ := eats_str (m := .atomic) (s := ['x']) (r := a :: b :: r) (c := c1) s1
    obtain ⟨c3, h3, e3, s3⟩ := eats_hex ha s2
    obtain ⟨c4, h4, e4, s4⟩ := eats_hex hb s3
    refine ⟨c4, ref_atomic (m := .atomic) (ts := [] ++ []) rfl (seq_tight (by simp) h1 ?_), e1.trans (e2.trans (e3.trans e4)), s4⟩
    refine .choice2 (no s1 (by decide)) (.choice2 (no s1 (by decide)) (.choice2 (no s1 (by decide)) (.choice2 (no s1 (by decide))
        (.choice2 (no s1 (by decide)) (.choice2 (no s1 (by decide)) (.choice2 (no s1 (by decide)) (.choice1 ?_)))))))
    exact ref_atomic (m := .atomic) (ts := [] ++ ([] ++ [])) rfl (seq_tight (by simp) h2 (seq_tight (by simp) h3 h4))
  | @unicode ds hd hp hl =>
    cases ds with
    | nil => simp at hp
    | cons x ds =>
      obtain ⟨c1, h1, e1, s1⟩ := eats_str (m := .atomic) (s := ['\\']) (r := 'u' :: '{' :: (x :: ds ++ '}' :: r)) (c := c) (by simpa using h)
      obtain ⟨c2, h2, e2, s2⟩ := eats_str (m := .atomic) (s := ['u']) (r := '{' :: (x :: ds ++ '}' :: r)) (c := c1) s1
      obtain ⟨c3, h3, e3, s3⟩ := eats_tok (m := .atomic) (r := .openingBrace) (s := "{") (t := x :: ds ++ '}' :: r) (c := c2) rfl s2
      obtain ⟨c4, h4, e4, s4⟩ := eats_hex (hd x (by simp)) s3
      obtain ⟨c5, h5, e5, s5⟩ := eats_hexes 5 ds (r := r) c4 (fun d h => hd d (by simp [h])) (by simpa using hl) s4
      refine ⟨c5, ref_atomic (m := .atomic) (ts := [] ++ []) rfl (seq_tight (by simp) h1 ?_), ?_, s5⟩
      · refine .choice2 (no s1 (by decide)) (.choice2 (no s1 (by decide)) (.choice2 (no s1 (by decide)) (.choice2 (no s1 (by decide))
          (.choice2 (no s1 (by decide)) (.choice2 (no s1 (by decide)) (.choice2 (no s1 (by decide)) (.choice2 ?_ ?_)))))))
        · exact ref_fail rfl (.seqFail (no s1 (by decide)))
        · exact ref_atomic (m := .atomic) (ts := [] ++ ([] ++ ([] ++ []))) rfl (seq_tight (by simp) h2 (seq_tight (by simp) h3 (seq_tight (by simp) h4 h5)))
      · have := e1.trans (e2.trans (e3.trans (e4.trans e5)))
        simpa using this

theorem eats_innerStr {s r : Text} {o : Option Text} (hs : Denotes s o) : ∀ (c : Cfg), c.suf = s ++ '"' :: r →
    ∃ c', (∀ m, MRec m (.ref .innerStr) c (some (c', if m = .atomic then [] else [.node .innerStr s []]))) ∧ Eats c s c' ∧ c'.suf = '"' :: r := by
  have done : ∀ {s : Text} {c c1 c2 : Cfg}, MRec .atomic (.rep (.seq (.neg (.choice (lit "\"") (lit "\\"))) .any)) c (some (c1, [])) →
      MRec .atomic (.opt (.seq (.ref .escape) (.ref .innerStr))) c1 (some (c2, [])) → Eats c s c2 →
      ∀ m, MRec m (.ref .innerStr) c (some (c2, if m = .atomic then [] else [.node .innerStr s []])) := by
    intro s c c1 c2 h1 h2 e m
    have := ref_atomic (m := m) (r := .innerStr) rfl (seq_tight (by simp) h1 h2)
    rw [e.between] at this
    exact this
  have key : ∀ (c : Cfg), c.suf = s ++ '"' :: r → ∃ c1 c2,
      MRec .atomic (.rep (.seq (.neg (.choice (lit "\"") (lit "\\"))) .any)) c (some (c1, [])) ∧
      MRec .atomic (.opt (.seq (.ref .escape) (.ref .innerStr))) c1 (some (c2, [])) ∧ Eats c s c2 ∧ c2.suf = '"' :: r := by
    induction hs with
    | nil =>
      intro c h
      obtain ⟨c1, h1, _⟩ := eats_str (m := .atomic) (s := ['"']) (r := r) (c := c) h
      exact ⟨c, c, .repNone (.seqFail (.negFail (.choice1 h1))), .optNone (fails 5 (by rw [h]; rfl)), .refl c, h⟩
    | @plain x s t n1 n2 _ ih =>
      intro c h
      obtain ⟨c0, h0, e0, s0⟩ := eats_any (m := .atomic) (c := c) (x := x) h
      obtain ⟨c1, c2, h1, h2, e2, s2⟩ := ih c0 s0
      refine ⟨c1, c2, rep_cons (by simp) (seq_tight (by simp) (.neg (fails 5 ?_)) h0) h1, h2, e0.trans e2, s2⟩
      rw [h]
      simp [mayStart, lit, n1, n2]
    | @escape e v s t he _ ih =>
      intro c h
      obtain ⟨c0, h0, e0, s0⟩ := eats_escape he (c := c) (r := s ++ '"' :: r) (by simpa using h)
      obtain ⟨c1, c2, h1, h2, e2, s2⟩ := ih c0 s0
      refine ⟨c, c2, .repNone (.seqFail ?_), .optSome (seq_tight (by simp) h0 (done h1 h2 e2 .atomic)), e0.trans e2, s2⟩
      have hh : ∃ t, e = '\\' :: t := by cases he <;> exact ⟨_, rfl⟩
      obtain ⟨t, rfl⟩ := hh
      obtain ⟨c3, h3, _⟩ := eats_str (m := .atomic) (s := ['\\']) (r := t ++ s ++ '"' :: r) (c := c) h
      exact .negFail (.choice2 (fails 1 (by rw [h]; rfl)) h3)
  intro c h
  obtain ⟨c1, c2, h1, h2, e, s2⟩ := key c h
  exact ⟨c2, done h1 h2 e, e, s2⟩

theorem eats_string {s r : Text} {o : Option Text} (hs : Denotes s o) (h : c.suf = '"' :: (s ++ '"' :: r)) :
    ∃ c' t, MRec m (.ref .string) c (some (c', [t])) ∧ PTree.pair t = Meta.stringPair s ∧ Eats c ('"' :: (s ++ ['"'])) c' ∧ c'.suf = r := by
  obtain ⟨c1, h1, e1, s1⟩ := eats_tok (m := .compoundAtomic) (r := .quote) (s := "\"") (t := s ++ '"' :: r) (c := c) rfl h
  obtain ⟨c2, h2, e2, s2⟩ := eats_innerStr hs c1 s1
  obtain ⟨c3, h3, e3, s3⟩ := eats_tok (m := .compoundAtomic) (r := .quote) (s := "\"") (t := r) (c := c2) rfl s2
  have e := e1.trans (e2.trans e3)
  refine ⟨c3, _, ref_compound rfl (seq_tight (by simp) h1 (seq_tight (by simp) (h2 _) h3)), ?_, e, s3⟩
  rw [e.between]
  rfl

theorem eats_insensitive {s r : Text} {o : Option Text} (hs : Denotes s o) (h : c.suf = 'i' :: '"' :: (s ++ '"' :: r)) :
    ∃ c' t, MRec m (.ref .insensitiveString) c (some (c', [t])) ∧ PTree.pair t = Meta.insensitivePair s ∧
      Eats c ('i' :: '"' :: (s ++ ['"'])) c' ∧ c'.suf = r := by
  obtain ⟨c1, h1, e1, s1⟩ := eats_str (m := .compoundAtomic) (s := ['i']) (r := '"' :: (s ++ '"' :: r)) (c := c) h
  obtain ⟨c2, t, h2, ht, e2, s2⟩ := eats_string (m := .compoundAtomic) hs s1
  have e := e1.trans e2
  refine ⟨c2, _, ref_compound rfl (seq_tight (by simp) h1 h2), ?_, e, s2⟩
  rw [e.between]
  simp only [PTree.pair, Meta.stringPair, Meta.MetaPair.mk.injEq] at ht
  obtain ⟨hr, hx, _⟩ := ht
  show Meta.MetaPair.mk _ _ [(t.rule, t.text)] = _
  rw [hr, hx]; rfl

theorem peek_empty {st : List Text} (hs : c.stk = st ++ [[]]) : MRec m .peek c (some (c, [])) := by
  have := Rec.peek (g := metaGrammar) (m := m) (c := c) (s := []) (by rw [hs]; simp)
  unfold eat at this
  simpa using this

theorem eats_innerRaw {st : List Text} : ∀ (s : Text) {r : Text} (c : Cfg), '"' ∉ s → c.stk = st ++ [[]] → c.suf = s ++ '"' :: r →
    ∃ c', MRec .compoundAtomic (.rep (.seq (.neg (.seq (lit "\"") .peek)) .any)) c (some (c', [])) ∧ Eats c s c' ∧ c'.suf = '"' :: r := by
  intro s
  induction s with
  | nil =>
    intro r c _ hst h
    obtain ⟨c1, h1, e1, s1⟩ := eats_str (m := .compoundAtomic) (s := ['"']) (r := r) (c := c) h
    exact ⟨c, .repNone (.seqFail (.negFail (seq_tight (by simp) h1 (peek_empty (by rw [e1.stk]; exact hst))))), .refl c, h⟩
  | cons x s ih =>
    intro r c hq hst h
    obtain ⟨c1, h1, e1, s1⟩ := eats_any (m := .compoundAtomic) (c := c) (x := x) h
    obtain ⟨c2, h2, e2, s2⟩ := ih c1 (fun hm => hq (List.mem_cons_of_mem _ hm)) (by rw [e1.stk]; exact hst) s1
    refine ⟨c2, rep_cons (by simp) (seq_tight (by simp) (.neg (.seqFail (fails 1 ?_))) h1) h2, e1.trans e2, s2⟩
    rw [h]
    have : x ≠ '"' := fun hx => hq (by rw [hx]; simp)
    simp [mayStart, lit, this]

theorem eats_raw {s r : Text} (hq : '"' ∉ s) (h : c.suf = 'r' :: '"' :: (s ++ '"' :: r)) :
    ∃ c' t, MRec m (.ref .rawString) c (some (c', [t])) ∧ PTree.pair t = Meta.rawStringPair 0 s ∧ c'.suf = r ∧ c'.stk = c.stk := by
  obtain ⟨c1, h1, e1, s1⟩ := eats_str (m := .compoundAtomic) (s := ['r']) (r := '"' :: (s ++ '"' :: r)) (c := c) h
  have hp : MRec .compoundAtomic (.push (.rep (.ref .pound))) c1 (some ({ c1 with stk := c1.stk ++ [[]] }, [])) := by
    have := Rec.push (g := metaGrammar) (m := .compoundAtomic) (e := .rep (.ref .pound)) (c := c1) (c1 := c1) (ts := [])
      (.repNone (fails 5 (by rw [s1]; rfl)))
    rw [(Eats.refl c1).between] at this
    exact this
  obtain ⟨c3, h3, e3, s3⟩ := eats_tok (m := .compoundAtomic) (r := .quote) (s := "\"") (t := s ++ '"' :: r) (c := { c1 with stk := c1.stk ++ [[]] }) rfl s1
  obtain ⟨c4, h4, e4, s4⟩ := eats_innerRaw (st := c1.stk) s c3 hq e3.stk s3
  obtain ⟨c5, h5, e5, s5⟩ := eats_tok (m := .compoundAtomic) (r := .quote) (s := "\"") (t := r) (c := c4) rfl s4
  have h4' := ref_normal (m := .compoundAtomic) (r := .innerRawStr) rfl (by simp) h4
  rw [e4.between] at h4'
  have hst : c5.stk = c1.stk ++ [[]] := by rw [e5.stk, e4.stk, e3.stk]
  have h6 : MRec .compoundAtomic .pop c5 (some ({ c5 with stk := c1.stk }, [])) := by
    have := Rec.pop (g := metaGrammar) (m := .compoundAtomic) (c := c5) (s := []) (by rw [hst]; simp)
    unfold eat at this
    simpa [hst] using this
  have hpre : c5.pre = c.pre ++ 'r' :: '"' :: (s ++ ['"']) := by
    have := e3.pre
    simp only at this
    rw [e5.pre, e4.pre, this, e1.pre]; simp
  have hfull := ref_compound (m := m) (r := .rawString) rfl (seq_tight (by simp) h1 (seq_tight (by simp) hp (seq_tight (by simp) h3
    (seq_tight (by simp) h4' (seq_tight (by simp) h5 h6)))))
  refine ⟨_, _, hfull, ?_, s5, e1.stk⟩
  have hb : between c { c5 with stk := c1.stk } = 'r' :: '"' :: (s ++ ['"']) := by
    unfold between
    simp only [hpre]
    simp
  rw [hb]
  rfl

/-! ## Ranges of characters -/

theorem eats_character {a r : Text} {x : Char} (ha : CharLit a (some x)) (h : c.suf = charText a ++ r) :
    ∃ c' us, MRec m (.ref .character) c (some (c', [.node .character (charText a) us])) ∧ Eats c (charText a) c' ∧ c'.suf = r := by
  obtain ⟨c1, h1, e1, s1⟩ := eats_tok (m := .compoundAtomic) (r := .singleQuote) (s := "'") (t := a ++ '\'' :: r) (c := c) rfl (by
    rw [h]; simp [charText])
  have : ∃ c2, MRec .atomic (.choice (.ref .escape) .any) c1 (some (c2, [])) ∧ Eats c1 a c2 ∧ c2.suf = '\'' :: r := by
    generalize ho : some x = o at ha
    cases ha with
    | @plain y n1 n2 =>
      obtain ⟨c2, h2, e2, s2⟩ := eats_any (m := .atomic) (c := c1) (x := y) s1
      refine ⟨c2, .choice2 (fails 5 ?_) h2, e2, s2⟩
      rw [s1]
      simp [mayStart, metaGrammar, lit, n2]
    | escape he =>
      obtain ⟨c2, h2, e2, s2⟩ := eats_escape he s1
      exact ⟨c2, .choice1 h2, e2, s2⟩
    | backslash => cases ho
  obtain ⟨c2, h2, e2, s2⟩ := this
  have h2' := ref_atomic (m := .compoundAtomic) (r := .innerChr) rfl h2
  obtain ⟨c3, h3, e3, s3⟩ := eats_tok (m := .compoundAtomic) (r := .singleQuote) (s := "'") (t := r) (c := c2) rfl s2
  have e := e1.trans (e2.trans e3)
  have hf := ref_compound (m := m) (r := .character) rfl (seq_tight (by simp) h1 (seq_tight (by simp) h2' h3))
  rw [e.between] at hf
  exact ⟨c3, _, hf, e, s3⟩

end Pest3.Gen
