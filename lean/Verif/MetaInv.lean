import Verif.Pest2Rel
import Verif.MetaFileSpec
import Verif.MetaLemmas

/-!
# What the recogniser accepts: tokens and literals
-/

namespace Pest3.Gen
open Pest3
open Pest3.Meta (MetaRule Escape Letter Denotes isHex)
open Pest3.Load (isAlpha IsIdent)

/-- From `c` to `c'` the text `t` is consumed, and the stack is the same. -/
structure Eats (c : Cfg) (t : Text) (c' : Cfg) : Prop where
  suf : c.suf = t ++ c'.suf
  pre : c'.pre = c.pre ++ t
  stk : c'.stk = c.stk

theorem Eats.refl (c : Cfg) : Eats c [] c := ⟨by simp, by simp, rfl⟩

theorem Eats.trans {a b c : Cfg} {s t : Text} (h : Eats a s b) (k : Eats b t c) : Eats a (s ++ t) c :=
  ⟨by simp [h.suf, k.suf], by simp [h.pre, k.pre], by rw [k.stk, h.stk]⟩

theorem Eats.between {c c' : Cfg} {t : Text} (h : Eats c t c') : Gen.between c c' = t := by
  simp [Gen.between, h.pre]

section
variable {g : Gram} {m : Mode} {c c' : Cfg} {ts : List PTree}

theorem inv_str {s : Text} (h : Rec g m (.str s) c (some (c', ts))) : Eats c s c' ∧ ts = [] := by
  generalize hr : (some (c', ts) : Hit) = r at h
  cases h
  obtain ⟨x, h, hx⟩ := Option.map_eq_some_iff.mp hr.symm
  cases hx
  obtain ⟨h1, h2, h3⟩ := eat_some h
  exact ⟨⟨h1, h2, h3⟩, rfl⟩

theorem inv_range {a b : Char} (h : Rec g m (.range a b) c (some (c', ts))) :
    ∃ x, a ≤ x ∧ x ≤ b ∧ Eats c [x] c' ∧ ts = [] := by
  generalize hr : (some (c', ts) : Hit) = r at h
  cases h
  obtain ⟨x, h, hx⟩ := Option.map_eq_some_iff.mp hr.symm
  cases hx
  obtain ⟨y, h0, h1, h2, h3⟩ := eatIf_some h
  simp only [Bool.and_eq_true, decide_eq_true_eq] at h0
  exact ⟨y, h0.1, h0.2, ⟨by simpa using h1, h2, h3⟩, rfl⟩

theorem inv_any (h : Rec g m .any c (some (c', ts))) : ∃ x, Eats c [x] c' ∧ ts = [] := by
  generalize hr : (some (c', ts) : Hit) = r at h
  cases h
  obtain ⟨x, h, hx⟩ := Option.map_eq_some_iff.mp hr.symm
  cases hx
  obtain ⟨y, _, h1, h2, h3⟩ := eatIf_some h
  exact ⟨y, ⟨by simpa using h1, h2, h3⟩, rfl⟩

theorem inv_ref {r : MetaRule} (h : Rec g m (.ref r) c (some (c', ts))) :
    ∃ us, Rec g ((g r).1.inside m) (g r).2 c (some (c', us)) ∧ ts = wrap (g r).1 m r c c' us := by
  cases h with
  | ref h => exact ⟨_, h, rfl⟩

theorem inv_seq {e f : PE} (h : Rec g m (.seq e f) c (some (c', ts))) :
    ∃ c1 c2 us sk vs, Rec g m e c (some (c1, us)) ∧ Rec g m .skip c1 (some (c2, sk)) ∧ Rec g m f c2 (some (c', vs)) ∧ ts = us ++ vs := by
  cases h with
  | seq h1 h2 h3 => exact ⟨_, _, _, _, _, h1, h2, h3, rfl⟩

theorem inv_skip (hm : m ≠ .nonAtomic) (h : Rec g m .skip c (some (c', ts))) : c' = c := by
  cases h with
  | skip => exact absurd rfl hm
  | noSkip => rfl

theorem inv_seq' (hm : m ≠ .nonAtomic) {e f : PE} (h : Rec g m (.seq e f) c (some (c', ts))) :
    ∃ c1 us vs, Rec g m e c (some (c1, us)) ∧ Rec g m f c1 (some (c', vs)) ∧ ts = us ++ vs := by
  obtain ⟨c1, c2, us, sk, vs, h1, h2, h3, h4⟩ := inv_seq h
  cases inv_skip hm h2
  exact ⟨_, _, _, h1, h3, h4⟩

theorem inv_choice {e f : PE} (h : Rec g m (.choice e f) c (some (c', ts))) :
    Rec g m e c (some (c', ts)) ∨ Rec g m e c none ∧ Rec g m f c (some (c', ts)) := by
  cases h with
  | choice1 h => exact Or.inl h
  | choice2 h1 h2 => exact Or.inr ⟨h1, h2⟩

theorem inv_opt {e : PE} (h : Rec g m (.opt e) c (some (c', ts))) :
    Rec g m e c (some (c', ts)) ∨ Rec g m e c none ∧ c' = c ∧ ts = [] := by
  cases h with
  | optSome h => exact Or.inl h
  | optNone h => exact Or.inr ⟨h, rfl, rfl⟩

theorem inv_neg {e : PE} (h : Rec g m (.neg e) c (some (c', ts))) : c' = c ∧ ts = [] ∧ Rec g m e c none := by
  cases h with
  | neg h => exact ⟨rfl, rfl, h⟩

theorem inv_choiceFail {e f : PE} (h : Rec g m (.choice e f) c none) : Rec g m e c none ∧ Rec g m f c none := by
  cases h with
  | choice2 h1 h2 => exact ⟨h1, h2⟩

theorem inv_strFail {s : Text} (h : Rec g m (.str s) c none) : ¬ ∃ t, c.suf = s ++ t := by
  rintro ⟨t, ht⟩
  generalize hr : (none : Hit) = r at h
  cases h
  have : eat s c ≠ none := by
    unfold eat
    rw [if_pos (List.isPrefixOf_iff_prefix.mpr ⟨t, ht.symm⟩)]
    simp
  cases he : eat s c with
  | none => exact this he
  | some x => rw [he] at hr; cases hr

/-- The parts of a repetition, whose pairs are put together. -/
theorem inv_rep {e : PE} (h : Rec g m (.rep e) c (some (c', ts))) :
    ∃ tss : List (List PTree), ts = tss.flatten ∧ ∀ us ∈ tss, ∃ a b, Rec g m e a (some (b, us)) ∧ a.suf.length ≤ c.suf.length ∧
      ∃ p, c.suf = p ++ a.suf := by
  have more : ∀ {f : PE} {a : Cfg} {r : Hit} {m' : Mode}, Rec g m' f a r → ∀ b us, m' = m → f = .more e → r = some (b, us) →
      ∃ tss : List (List PTree), us = tss.flatten ∧ ∀ l ∈ tss, ∃ x y, Rec g m e x (some (y, l)) ∧ x.suf.length ≤ a.suf.length ∧
        ∃ p, a.suf = p ++ x.suf := by
    intro f a r m' h
    induction h with
    | moreNone h1 h2 => intro b us hmm hf hr; cases hr; exact ⟨[], rfl, by simp⟩
    | more h1 h2 h3 ih1 ih2 ih3 =>
      intro b us hmm hf hr
      cases hf; cases hr; subst hmm
      obtain ⟨tss, rfl, hs⟩ := ih3 _ _ rfl rfl rfl
      obtain ⟨t1, s1, _⟩ := h1.consumes _ _ rfl
      obtain ⟨t2, s2, _⟩ := h2.consumes _ _ rfl
      refine ⟨_ :: tss, by rw [List.flatten_cons], ?_⟩
      intro l hl
      rcases List.mem_cons.1 hl with rfl | hl
      · exact ⟨_, _, h2, by rw [s1]; simp, t1, s1⟩
      · obtain ⟨x, y, h, hle, p, hp⟩ := hs l hl
        exact ⟨x, y, h, by rw [s1, s2]; simp only [List.length_append]; omega, t1 ++ (t2 ++ p), by rw [s1, s2, hp]; simp⟩
    | _ => intro b us hmm hf hr; first | (cases hf; done) | (cases hr; done)
  cases h with
  | repNone h => exact ⟨[], rfl, by simp⟩
  | rep h1 h2 =>
    obtain ⟨tss, rfl, hs⟩ := more h2 _ _ rfl rfl rfl
    obtain ⟨t1, s1, _⟩ := h1.consumes _ _ rfl
    refine ⟨_ :: tss, by rw [List.flatten_cons], ?_⟩
    intro l hl
    rcases List.mem_cons.1 hl with rfl | hl
    · exact ⟨_, _, h1, Nat.le_refl _, [], by simp⟩
    · obtain ⟨x, y, h, hle, p, hp⟩ := hs l hl
      exact ⟨x, y, h, by rw [s1]; simp only [List.length_append]; omega, t1 ++ p, by rw [s1, hp]; simp⟩

/-- Without skipping, the texts of a repetition are put together as well. -/
theorem inv_rep' (hm : m ≠ .nonAtomic) {e : PE} {P : Text → List PTree → Prop} (h0 : P [] [])
    (hstep : ∀ a b us t vs, Rec g m e a (some (b, us)) → P t vs → ∃ s, Eats a s b ∧ P (s ++ t) (us ++ vs))
    (h : Rec g m (.rep e) c (some (c', ts))) : ∃ t, Eats c t c' ∧ P t ts := by
  have more : ∀ {f : PE} {a : Cfg} {r : Hit} {m' : Mode}, Rec g m' f a r → ∀ b us, m' = m → f = .more e → r = some (b, us) →
      ∃ t, Eats a t b ∧ P t us := by
    intro f a r m' h
    induction h with
    | moreNone h1 h2 => intro b us hmm hf hr; cases hr; exact ⟨[], .refl _, h0⟩
    | more h1 h2 h3 ih1 ih2 ih3 =>
      intro b us hmm hf hr
      cases hf; cases hr; subst hmm
      cases inv_skip hm h1
      obtain ⟨t, e1, p1⟩ := ih3 _ _ rfl rfl rfl
      obtain ⟨s, e2, p2⟩ := hstep _ _ _ _ _ h2 p1
      exact ⟨_, e2.trans e1, p2⟩
    | _ => intro b us hmm hf hr; first | (cases hf; done) | (cases hr; done)
  cases h with
  | repNone h => exact ⟨[], .refl _, h0⟩
  | rep h1 h2 =>
    obtain ⟨t, e1, p1⟩ := more h2 _ _ rfl rfl rfl
    obtain ⟨s, e2, p2⟩ := hstep _ _ _ _ _ h1 p1
    exact ⟨_, e2.trans e1, p2⟩

end

/-! ## The meta-grammar -/

abbrev MRec := Rec metaGrammar

section
variable {m : Mode} {c c' : Cfg} {ts : List PTree}

/-- A rule for a fixed text. -/
theorem inv_tok {r : MetaRule} {s : Text} (hr : metaGrammar r = (.normal, .str s)) (h : MRec m (.ref r) c (some (c', ts))) :
    Eats c s c' ∧ ts = if m = .atomic then [] else [.node r s []] := by
  obtain ⟨us, h1, h2⟩ := inv_ref h
  rw [hr] at h1 h2
  obtain ⟨e, rfl⟩ := inv_str h1
  refine ⟨e, ?_⟩
  rw [h2]
  unfold wrap
  rw [e.between]
  cases m <;> rfl

/-- A normal rule outside atomic rules makes a pair. -/
theorem inv_normal {r : MetaRule} {e : PE} (hr : metaGrammar r = (.normal, e)) (hm : m ≠ .atomic)
    (h : MRec m (.ref r) c (some (c', ts))) : ∃ us, MRec m e c (some (c', us)) ∧ ts = [.node r (between c c') us] := by
  obtain ⟨us, h1, h2⟩ := inv_ref h
  rw [hr] at h1 h2
  refine ⟨us, h1, ?_⟩
  rw [h2]
  unfold wrap
  cases m
  · rfl
  · rfl
  · exact absurd rfl hm

theorem inv_silent {r : MetaRule} {e : PE} (hr : metaGrammar r = (.silent, e))
    (h : MRec m (.ref r) c (some (c', ts))) : MRec m e c (some (c', ts)) := by
  obtain ⟨us, h1, h2⟩ := inv_ref h
  rw [hr] at h1 h2
  cases h2
  exact h1

theorem inv_atomic {r : MetaRule} {e : PE} (hr : metaGrammar r = (.atomic, e))
    (h : MRec m (.ref r) c (some (c', ts))) :
    ∃ us, MRec .atomic e c (some (c', us)) ∧ ts = if m = .atomic then us else [.node r (between c c') us] := by
  obtain ⟨us, h1, h2⟩ := inv_ref h
  rw [hr] at h1 h2
  refine ⟨us, h1, ?_⟩
  rw [h2]
  cases m <;> rfl

theorem inv_compound {r : MetaRule} {e : PE} (hr : metaGrammar r = (.compound, e))
    (h : MRec m (.ref r) c (some (c', ts))) :
    ∃ us, MRec .compoundAtomic e c (some (c', us)) ∧ ts = [.node r (between c c') us] := by
  obtain ⟨us, h1, h2⟩ := inv_ref h
  rw [hr] at h1 h2
  exact ⟨us, h1, h2⟩

end

/-! ## Numbers -/

theorem digit_range {x : Char} (h1 : '0' ≤ x) (h2 : x ≤ '9') : ∃ d, d < 10 ∧ x = Nat.digitChar d := by
  refine ⟨x.toNat - 48, ?_, ?_⟩
  · have : x.toNat ≤ 57 := h2
    omega
  · have a : 48 ≤ x.toNat := h1
    have b : x.toNat ≤ 57 := h2
    have key : ∀ k : Fin 10, Char.ofNat (48 + k.val) = Nat.digitChar k.val := by decide
    have := key ⟨x.toNat - 48, by omega⟩
    simp only at this
    rw [← this, show 48 + (x.toNat - 48) = x.toNat by omega, Char.ofNat_toNat]

theorem digits_decimal (n : Nat) (hn : 0 < n) (ds : Text) (h : ∀ x ∈ ds, '0' ≤ x ∧ x ≤ '9') :
    ∃ k, Meta.decimal n ++ ds = Meta.decimal k := by
  induction ds generalizing n with
  | nil => exact ⟨n, by simp⟩
  | cons x ds ih =>
    obtain ⟨d, hd, rfl⟩ := digit_range (h x (by simp)).1 (h x (by simp)).2
    have := Nat.toDigits_append_toDigits (b := 10) (by omega) hn hd
    rw [Nat.toDigits_of_lt_base hd] at this
    obtain ⟨k, hk⟩ := ih (10 * n + d) (by omega) fun y hy => h y (List.mem_cons_of_mem _ hy)
    refine ⟨k, ?_⟩
    rw [← hk]
    unfold Meta.decimal
    rw [← this]; simp

theorem inv_digits {c c' : Cfg} {ts : List PTree} (h : MRec .atomic (.rep (.range '0' '9')) c (some (c', ts))) :
    ∃ ds, Eats c ds c' ∧ (∀ x ∈ ds, '0' ≤ x ∧ x ≤ '9') ∧ ts = [] := by
  obtain ⟨t, h1, h2, h3⟩ := inv_rep' (by simp) (P := fun t us => (∀ x ∈ t, '0' ≤ x ∧ x ≤ '9') ∧ us = []) (by simp) (by
    intro a b us t vs h hp
    obtain ⟨x, h1, h2, h3, rfl⟩ := inv_range h
    refine ⟨[x], h3, ?_, by rw [hp.2]; rfl⟩
    intro y hy
    rcases List.mem_append.1 hy with hy | hy
    · cases List.mem_singleton.1 hy; exact ⟨h1, h2⟩
    · exact hp.1 y hy) h
  exact ⟨t, h1, h2, h3⟩

theorem inv_number {m : Mode} {c c' : Cfg} {ts : List PTree} (h : MRec m (.ref .number) c (some (c', ts))) :
    ∃ n, Eats c (Meta.decimal n) c' ∧ ts = if m = .atomic then [] else [.node .number (Meta.decimal n) []] := by
  obtain ⟨us, h, hts⟩ := inv_atomic rfl h
  have : ∃ n, Eats c (Meta.decimal n) c' ∧ us = [] := by
    clear hts
    rcases inv_choice h with h | ⟨_, h⟩
    · obtain ⟨e, rfl⟩ := inv_str h
      exact ⟨0, e, rfl⟩
    · obtain ⟨c1, us, vs, h1, h2, rfl⟩ := inv_seq' (by simp) h
      obtain ⟨x, a, b, e1, rfl⟩ := inv_range h1
      obtain ⟨ds, e2, hd, rfl⟩ := inv_digits h2
      obtain ⟨d, hd10, rfl⟩ := digit_range (Char.le_trans (by decide) a) b
      have hpos : 0 < d := by
        rcases Nat.eq_zero_or_pos d with rfl | h
        · revert a; decide
        · exact h
      have hone : Meta.decimal d = [Nat.digitChar d] := Nat.toDigits_of_lt_base hd10
      obtain ⟨k, hk⟩ := digits_decimal d hpos ds hd
      exact ⟨k, by rw [← hk, hone]; exact e1.trans e2, rfl⟩
  obtain ⟨n, e, rfl⟩ := this
  exact ⟨n, e, by rw [hts, e.between]⟩

theorem inv_integer {m : Mode} {c c' : Cfg} {ts : List PTree} (hm : m ≠ .atomic) (h : MRec m (.ref .integer) c (some (c', ts))) :
    ∃ i : IntLit, Eats c i.text c' ∧ ts = [.node .integer i.text []] := by
  obtain ⟨us, h, hts⟩ := inv_atomic rfl h
  rw [if_neg hm] at hts
  have : ∃ i : IntLit, Eats c i.text c' ∧ us = [] := by
    clear hts
    obtain ⟨c1, us, vs, h1, h2, rfl⟩ := inv_seq' (by simp) h
    obtain ⟨n, e2, rfl⟩ := inv_number h2
    rcases inv_opt h1 with h1 | ⟨_, rfl, rfl⟩
    · rcases inv_choice h1 with h1 | ⟨_, h1⟩
      · obtain ⟨e1, rfl⟩ := inv_str h1
        exact ⟨.plus n, e1.trans e2, rfl⟩
      · obtain ⟨e1, rfl⟩ := inv_str h1
        exact ⟨.minus n, e1.trans e2, rfl⟩
    · exact ⟨.plain n, e2, rfl⟩
  obtain ⟨i, e, rfl⟩ := this
  exact ⟨i, e, by rw [hts, e.between]⟩

/-! ## Identifiers -/

theorem inv_alpha {m : Mode} {c c' : Cfg} {ts : List PTree} (h : MRec m (.ref .alpha) c (some (c', ts))) :
    ∃ x, isAlpha x ∧ Eats c [x] c' ∧ ts = [] := by
  have h := inv_silent rfl h
  rcases inv_choice h with h | ⟨_, h⟩
  · obtain ⟨x, h1, h2, h3, h4⟩ := inv_range h
    exact ⟨x, Or.inl ⟨h1, h2⟩, h3, h4⟩
  · obtain ⟨x, h1, h2, h3, h4⟩ := inv_range h
    exact ⟨x, Or.inr ⟨h1, h2⟩, h3, h4⟩

theorem inv_identifier {m : Mode} {c c' : Cfg} {ts : List PTree} (h : MRec m (.ref .identifier) c (some (c', ts))) :
    ∃ n, IsIdent n ∧ Eats c n c' ∧ ts = if m = .atomic then [] else [.node .identifier n []] := by
  obtain ⟨us, h, hts⟩ := inv_atomic rfl h
  have : ∃ n, IsIdent n ∧ Eats c n c' ∧ us = [] := by
    clear hts
    obtain ⟨c1, us, vs, h1, h2, rfl⟩ := inv_seq' (by simp) h
    have k1 : ∃ x, (x = '_' ∨ isAlpha x) ∧ Eats c [x] c1 ∧ us = [] := by
      rcases inv_choice h1 with h | ⟨_, h⟩
      · obtain ⟨e, rfl⟩ := inv_str h
        exact ⟨_, Or.inl rfl, e, rfl⟩
      · obtain ⟨x, hx, e, rfl⟩ := inv_alpha h
        exact ⟨x, Or.inr hx, e, rfl⟩
    obtain ⟨x, hx, e1, rfl⟩ := k1
    obtain ⟨t, e2, ht, rfl⟩ := inv_rep' (g := metaGrammar) (m := .atomic) (by simp)
      (P := fun t us => (∀ y ∈ t, y = '_' ∨ isAlpha y ∨ ('0' ≤ y ∧ y ≤ '9')) ∧ us = []) (by simp) (by
        intro a b us t vs h hp
        have : ∃ x, (x = '_' ∨ isAlpha x ∨ ('0' ≤ x ∧ x ≤ '9')) ∧ Eats a [x] b ∧ us = [] := by
          rcases inv_choice h with h | ⟨_, h⟩
          · obtain ⟨e, rfl⟩ := inv_str h
            exact ⟨_, Or.inl rfl, e, rfl⟩
          · have h := inv_silent rfl h
            rcases inv_choice h with h | ⟨_, h⟩
            · obtain ⟨x, hx, e, rfl⟩ := inv_alpha h
              exact ⟨x, Or.inr (Or.inl hx), e, rfl⟩
            · obtain ⟨x, h1, h2, h3, rfl⟩ := inv_range h
              exact ⟨x, Or.inr (Or.inr ⟨h1, h2⟩), h3, rfl⟩
        obtain ⟨x, hx, h3, rfl⟩ := this
        refine ⟨[x], h3, ?_, by rw [hp.2]; rfl⟩
        intro y hy
        rcases List.mem_append.1 hy with hy | hy
        · cases List.mem_singleton.1 hy; exact hx
        · exact hp.1 y hy) h2
    exact ⟨x :: t, ⟨hx, ht⟩, e1.trans e2, rfl⟩
  obtain ⟨n, hn, e, rfl⟩ := this
  exact ⟨n, hn, e, by rw [hts, e.between]⟩

/-! ## Escapes and strings -/

theorem inv_hex {c c' : Cfg} {ts : List PTree} (h : MRec .atomic (.ref .hexDigit) c (some (c', ts))) :
    ∃ x, isHex x ∧ Eats c [x] c' := by
  obtain ⟨us, h, _⟩ := inv_atomic rfl h
  have hv : ∀ x : Char, (('0' ≤ x ∧ x ≤ '9') ∨ ('a' ≤ x ∧ x ≤ 'f') ∨ ('A' ≤ x ∧ x ≤ 'F')) → isHex x := by
    intro x hx
    unfold isHex Meta.digitVal
    by_cases h1 : '0' ≤ x ∧ x ≤ '9'
    · have a : 48 ≤ x.toNat := h1.1
      have b : x.toNat ≤ 57 := h1.2
      simp [h1]; omega
    · by_cases h2 : 'a' ≤ x ∧ x ≤ 'f'
      · have a : 97 ≤ x.toNat := h2.1
        have b : x.toNat ≤ 102 := h2.2
        simp [h1, h2]; omega
      · have h3 : 'A' ≤ x ∧ x ≤ 'F' := by
          rcases hx with h | h | h
          · exact absurd h h1
          · exact absurd h h2
          · exact h
        have a : 65 ≤ x.toNat := h3.1
        have b : x.toNat ≤ 70 := h3.2
        simp [h1, h2, h3]; omega
  rcases inv_choice h with h | ⟨_, h⟩
  · obtain ⟨x, h1, h2, h3, h4⟩ := inv_range h
    exact ⟨x, hv x (Or.inl ⟨h1, h2⟩), h3⟩
  · rcases inv_choice h with h | ⟨_, h⟩
    · obtain ⟨x, h1, h2, h3, h4⟩ := inv_range h
      exact ⟨x, hv x (Or.inr (Or.inl ⟨h1, h2⟩)), h3⟩
    · obtain ⟨x, h1, h2, h3, h4⟩ := inv_range h
      exact ⟨x, hv x (Or.inr (Or.inr ⟨h1, h2⟩)), h3⟩

theorem inv_optHex {c c' : Cfg} {ts : List PTree} (h : MRec .atomic (.opt (.ref .hexDigit)) c (some (c', ts))) :
    ∃ ds, (∀ d ∈ ds, isHex d) ∧ ds.length ≤ 1 ∧ Eats c ds c' := by
  rcases inv_opt h with h | ⟨_, rfl, _⟩
  · obtain ⟨x, hx, e⟩ := inv_hex h
    exact ⟨[x], by simpa using hx, by simp, e⟩
  · exact ⟨[], by simp, by simp, .refl _⟩

theorem inv_escape {m : Mode} {c c' : Cfg} {ts : List PTree} (h : MRec m (.ref .escape) c (some (c', ts))) :
    ∃ e v, Escape e v ∧ Eats c e c' := by
  obtain ⟨us, h, _⟩ := inv_atomic rfl h
  obtain ⟨c1, us, vs, h1, h2, _⟩ := inv_seq' (by simp) h
  obtain ⟨e1, rfl⟩ := inv_str h1
  have letter : ∀ {s : String} {x y : Char}, s.toList = [x] → Letter x y → ∀ {us}, Rec metaGrammar .atomic (lit s) c1 (some (c', us)) →
      ∃ e v, Escape e v ∧ Eats c e c' := by
    intro s x y hs hl us h
    obtain ⟨e2, _⟩ := inv_str h
    rw [hs] at e2
    exact ⟨_, _, .letter hl, e1.trans e2⟩
  rcases inv_choice h2 with h2 | ⟨_, h2⟩
  · exact letter rfl .quote h2
  rcases inv_choice h2 with h2 | ⟨_, h2⟩
  · exact letter rfl .backslash h2
  rcases inv_choice h2 with h2 | ⟨_, h2⟩
  · exact letter rfl .r h2
  rcases inv_choice h2 with h2 | ⟨_, h2⟩
  · exact letter rfl .n h2
  rcases inv_choice h2 with h2 | ⟨_, h2⟩
  · exact letter rfl .t h2
  rcases inv_choice h2 with h2 | ⟨_, h2⟩
  · exact letter rfl .zero h2
  rcases inv_choice h2 with h2 | ⟨_, h2⟩
  · exact letter rfl .apostrophe h2
  rcases inv_choice h2 with h2 | ⟨_, h2⟩
  · obtain ⟨_, h2, _⟩ := inv_atomic rfl h2
    obtain ⟨c2, _, _, h3, h4, _⟩ := inv_seq' (by simp) h2
    obtain ⟨c3, _, _, h4, h5, _⟩ := inv_seq' (by simp) h4
    obtain ⟨e3, _⟩ := inv_str h3
    obtain ⟨x, hx, e4⟩ := inv_hex h4
    obtain ⟨y, hy, e5⟩ := inv_hex h5
    exact ⟨_, _, .code hx hy, e1.trans (e3.trans (e4.trans e5))⟩
  · obtain ⟨_, h2, _⟩ := inv_atomic rfl h2
    obtain ⟨c2, _, _, h3, h4, _⟩ := inv_seq' (by simp) h2
    obtain ⟨c3, _, _, h4, h5, _⟩ := inv_seq' (by simp) h4
    obtain ⟨c4, _, _, h5, h6, _⟩ := inv_seq' (by simp) h5
    obtain ⟨c5, _, _, h6, h7, _⟩ := inv_seq' (by simp) h6
    obtain ⟨c6, _, _, h7, h8, _⟩ := inv_seq' (by simp) h7
    obtain ⟨c7, _, _, h8, h9, _⟩ := inv_seq' (by simp) h8
    obtain ⟨c8, _, _, h9, h10, _⟩ := inv_seq' (by simp) h9
    obtain ⟨c9, _, _, h10, h11, _⟩ := inv_seq' (by simp) h10
    obtain ⟨e3, _⟩ := inv_str h3
    obtain ⟨e4, _⟩ := inv_tok (s := ['{']) rfl h4
    obtain ⟨x, hx, e5⟩ := inv_hex h5
    obtain ⟨d1, p1, l1, e6⟩ := inv_optHex h6
    obtain ⟨d2, p2, l2, e7⟩ := inv_optHex h7
    obtain ⟨d3, p3, l3, e8⟩ := inv_optHex h8
    obtain ⟨d4, p4, l4, e9⟩ := inv_optHex h9
    obtain ⟨d5, p5, l5, e10⟩ := inv_optHex h10
    obtain ⟨e11, _⟩ := inv_tok (s := ['}']) rfl h11
    have := e1.trans (e3.trans (e4.trans (e5.trans (e6.trans (e7.trans (e8.trans (e9.trans (e10.trans e11))))))))
    refine ⟨_, _, .unicode (ds := x :: (d1 ++ (d2 ++ (d3 ++ (d4 ++ d5))))) ?_ (by simp) ?_, ?_⟩
    · intro d hd
      simp only [List.mem_cons, List.mem_append] at hd
      rcases hd with rfl | hd | hd | hd | hd | hd
      · exact hx
      · exact p1 d hd
      · exact p2 d hd
      · exact p3 d hd
      · exact p4 d hd
      · exact p5 d hd
    · simp only [List.length_cons, List.length_append]; omega
    · simpa using this

theorem inv_plainChars {c c' : Cfg} {ts : List PTree}
    (h : MRec .atomic (.rep (.seq (.neg (.choice (lit "\"") (lit "\\"))) .any)) c (some (c', ts))) :
    ∃ t, Eats c t c' ∧ ∀ x ∈ t, x ≠ '"' ∧ x ≠ '\\' := by
  refine inv_rep' (g := metaGrammar) (m := .atomic) (by simp) (P := fun t _ => ∀ x ∈ t, x ≠ '"' ∧ x ≠ '\\') (by simp) ?_ h
  intro a b us t vs h hp
  obtain ⟨a1, _, _, h1, h2, _⟩ := inv_seq' (by simp) h
  obtain ⟨rfl, _, hn⟩ := inv_neg h1
  obtain ⟨n1, n2⟩ := inv_choiceFail hn
  obtain ⟨x, e, _⟩ := inv_any h2
  refine ⟨[x], e, ?_⟩
  intro y hy
  rcases List.mem_append.1 hy with hy | hy
  · cases List.mem_singleton.1 hy
    constructor
    · rintro rfl; exact inv_strFail n1 ⟨_, e.suf⟩
    · rintro rfl; exact inv_strFail n2 ⟨_, e.suf⟩
  · exact hp y hy

theorem denotes_plain {t s : Text} {o : Option Text} (h : ∀ x ∈ t, x ≠ '"' ∧ x ≠ '\\') (hs : Denotes s o) : ∃ o, Denotes (t ++ s) o := by
  induction t with
  | nil => exact ⟨o, hs⟩
  | cons x t ih =>
    obtain ⟨o, ho⟩ := ih fun y hy => h y (List.mem_cons_of_mem _ hy)
    exact ⟨_, .plain (h x (by simp)).1 (h x (by simp)).2 ho⟩

/-- The rules called by an expression satisfy `q`. -/
def PE.refsIn (q : MetaRule → Bool) : PE → Bool
  | .ref r => q r
  | .seq e f => e.refsIn q && f.refsIn q
  | .choice e f => e.refsIn q && f.refsIn q
  | .opt e => e.refsIn q
  | .rep e => e.refsIn q
  | .more e => e.refsIn q
  | .pos e => e.refsIn q
  | .neg e => e.refsIn q
  | .push e => e.refsIn q
  | _ => true

/-- Rules that make no pairs inside atomic ones. -/
def quiet : MetaRule → Bool
  | .escape | .innerStr | .code | .unicode | .hexDigit | .openingBrace | .closingBrace | .alpha | .alphaNum | .identifier
  | .newline | .whitespace | .comment | .blockComment | .eoi => true
  | _ => false

theorem quiet_closed (r : MetaRule) (h : quiet r = true) : (metaGrammar r).1 ≠ .compound ∧ (metaGrammar r).2.refsIn quiet = true := by
  revert h; cases r <;> decide

theorem quiet_tokens {m : Mode} {e : PE} {c : Cfg} {r : Hit} (h : MRec m e c r) :
    m = .atomic → e.refsIn quiet = true → ∀ c' ts, r = some (c', ts) → ts = [] := by
  induction h with
  | str | range | any | peek | pop =>
    intro _ _ c' ts hr
    obtain ⟨x, h, hx⟩ := Option.map_eq_some_iff.mp hr
    cases hx; rfl
  | soi | eoi => intro _ _ c' ts hr; split at hr <;> cases hr; rfl
  | ref _ ih =>
    rename_i m r c c' ts _
    intro hm hq c'' us hr
    cases hr
    subst hm
    obtain ⟨h1, h2⟩ := quiet_closed r hq
    have hi : (metaGrammar r).1.inside .atomic = .atomic := by
      cases h : (metaGrammar r).1 <;> first | rfl | exact absurd h h1
    have := ih hi h2 _ _ rfl
    subst this
    unfold wrap
    have ht : (metaGrammar r).1.token .atomic = false := by
      cases h : (metaGrammar r).1 <;> first | rfl | exact absurd h h1
    rw [ht]; rfl
  | seq _ _ _ ih1 _ ih3 =>
    intro hm hq c' ts hr
    cases hr
    simp only [PE.refsIn, Bool.and_eq_true] at hq
    rw [ih1 hm hq.1 _ _ rfl, ih3 hm hq.2 _ _ rfl]; rfl
  | rep _ _ ih1 ih2 =>
    intro hm hq c' ts hr
    cases hr
    rw [ih1 hm hq _ _ rfl, ih2 hm hq _ _ rfl]; rfl
  | more _ _ _ _ ih2 ih3 =>
    intro hm hq c' ts hr
    cases hr
    rw [ih2 hm hq _ _ rfl, ih3 hm hq _ _ rfl]; rfl
  | choice1 _ ih =>
    intro hm hq c' ts hr
    simp only [PE.refsIn, Bool.and_eq_true] at hq
    exact ih hm hq.1 _ _ hr
  | choice2 _ _ _ ih =>
    intro hm hq c' ts hr
    simp only [PE.refsIn, Bool.and_eq_true] at hq
    exact ih hm hq.2 _ _ hr
  | optSome _ ih => intro hm hq c' ts hr; exact ih hm hq _ _ hr
  | push _ ih => intro hm hq c' ts hr; cases hr; exact ih hm hq _ _ rfl
  | _ => intro hm hq c' ts hr; cases hr; try rfl

theorem inv_innerStr (n : Nat) : ∀ {m : Mode} {c c' : Cfg} {ts : List PTree}, c.suf.length = n →
    MRec m (.ref .innerStr) c (some (c', ts)) →
    ∃ s o, Denotes s o ∧ Eats c s c' ∧ ts = if m = .atomic then [] else [.node .innerStr s []] := by
  induction n using Nat.strongRecOn with
  | ind n ih =>
    intro m c c' ts hn h
    obtain ⟨us, h, hts⟩ := inv_atomic rfl h
    have hus : us = [] := quiet_tokens h rfl (by decide) _ _ rfl
    subst hus
    have : ∃ s o, Denotes s o ∧ Eats c s c' := by
      obtain ⟨c1, _, _, h1, h2, _⟩ := inv_seq' (by simp) h
      obtain ⟨t, e1, ht⟩ := inv_plainChars h1
      rcases inv_opt h2 with h2 | ⟨_, rfl, _⟩
      · obtain ⟨c2, _, _, h3, h4, _⟩ := inv_seq' (by simp) h2
        obtain ⟨e, v, he, e3⟩ := inv_escape h3
        have hpos : 0 < e.length := by cases he <;> simp
        obtain ⟨s, o, hs, e4, _⟩ := ih c2.suf.length (by
          have := congrArg List.length e1.suf
          have := congrArg List.length e3.suf
          simp only [List.length_append] at *
          omega) rfl h4
        obtain ⟨o', ho'⟩ := denotes_plain ht (.escape he hs)
        exact ⟨_, _, ho', e1.trans (e3.trans e4)⟩
      · obtain ⟨o', ho'⟩ := denotes_plain ht .nil
        exact ⟨_, _, ho', by simpa using e1⟩
    obtain ⟨s, o, hs, e⟩ := this
    exact ⟨s, o, hs, e, by rw [hts, e.between]⟩

/-! ## Literals -/

theorem inv_string {m : Mode} {c c' : Cfg} {ts : List PTree} (h : MRec m (.ref .string) c (some (c', ts))) :
    ∃ s o t, Denotes s o ∧ PTree.pair t = Meta.stringPair s ∧ Eats c ('"' :: (s ++ ['"'])) c' ∧ ts = [t] := by
  obtain ⟨us, h0, hts⟩ := inv_compound rfl h
  obtain ⟨c1, _, _, h1, h2, hu1⟩ := inv_seq' (by simp) h0
  obtain ⟨c2, _, _, h3, h4, hu2⟩ := inv_seq' (by simp) h2
  obtain ⟨e1, rfl⟩ := inv_tok (s := ['"']) rfl h1
  obtain ⟨s, o, hs, e2, rfl⟩ := inv_innerStr _ rfl h3
  obtain ⟨e3, rfl⟩ := inv_tok (s := ['"']) rfl h4
  have e := e1.trans (e2.trans e3)
  refine ⟨s, o, _, hs, ?_, e, hts⟩
  rw [e.between, hu1, hu2]
  rfl

theorem inv_insensitive {m : Mode} {c c' : Cfg} {ts : List PTree} (h : MRec m (.ref .insensitiveString) c (some (c', ts))) :
    ∃ s o t, Denotes s o ∧ PTree.pair t = Meta.insensitivePair s ∧ ts = [t] := by
  obtain ⟨us, h0, hts⟩ := inv_compound rfl h
  obtain ⟨c1, _, _, h1, h2, hu1⟩ := inv_seq' (by simp) h0
  obtain ⟨e1, rfl⟩ := inv_str h1
  obtain ⟨s, o, t, hs, ht, e2, rfl⟩ := inv_string h2
  have e := e1.trans e2
  refine ⟨s, o, _, hs, ?_, hts⟩
  rw [e.between, hu1]
  simp only [PTree.pair, Meta.stringPair, Meta.MetaPair.mk.injEq] at ht
  obtain ⟨hr, hx, _⟩ := ht
  show Meta.MetaPair.mk _ _ [(t.rule, t.text)] = _
  rw [hr, hx]; rfl

theorem inv_pounds {c c' : Cfg} {ts : List PTree} (h : MRec .compoundAtomic (.rep (.ref .pound)) c (some (c', ts))) :
    ∃ n, Eats c (List.replicate n '#') c' ∧ ts = List.replicate n (.node .pound ['#'] []) := by
  obtain ⟨t, e, n, rfl, rfl⟩ := inv_rep' (g := metaGrammar) (m := .compoundAtomic) (by simp)
    (P := fun t us => ∃ n, t = List.replicate n '#' ∧ us = List.replicate n (.node .pound ['#'] []))
    ⟨0, rfl, rfl⟩ (by
      rintro a b us t vs h ⟨n, rfl, rfl⟩
      obtain ⟨e, rfl⟩ := inv_tok (s := ['#']) rfl h
      exact ⟨_, e, n + 1, rfl, rfl⟩) h
  exact ⟨n, e, rfl⟩

theorem inv_innerRaw {c c' : Cfg} {ts : List PTree} (h : MRec .compoundAtomic (.ref .innerRawStr) c (some (c', ts))) :
    ∃ s, Eats c s c' ∧ ts = [.node .innerRawStr s []] := by
  obtain ⟨us, h0, hts⟩ := inv_normal rfl (by simp) h
  obtain ⟨t, e, hu⟩ := inv_rep' (g := metaGrammar) (m := .compoundAtomic) (by simp) (P := fun _ us => us = []) rfl (by
      rintro a b us t vs h rfl
      obtain ⟨a1, _, _, h1, h2, hu⟩ := inv_seq' (by simp) h
      obtain ⟨rfl, rfl, _⟩ := inv_neg h1
      obtain ⟨x, e, rfl⟩ := inv_any h2
      exact ⟨_, e, by rw [hu]; rfl⟩) h0
  exact ⟨t, e, by rw [hts, e.between, hu]⟩

theorem inv_rawString {m : Mode} {c c' : Cfg} {ts : List PTree} (h : MRec m (.ref .rawString) c (some (c', ts))) :
    ∃ n s t, PTree.pair t = Meta.rawStringPair n s ∧ (∃ r, c.suf = 'r' :: (List.replicate n '#' ++ r)) ∧ c'.stk = c.stk ∧ ts = [t] := by
  obtain ⟨us, h0, hts⟩ := inv_compound rfl h
  obtain ⟨c1, _, _, h1, g1, hu1⟩ := inv_seq' (by simp) h0
  obtain ⟨c2, _, _, h2, g2, hu2⟩ := inv_seq' (by simp) g1
  obtain ⟨c3, _, _, h3, g3, hu3⟩ := inv_seq' (by simp) g2
  obtain ⟨c4, _, _, h4, g4, hu4⟩ := inv_seq' (by simp) g3
  obtain ⟨c5, _, _, h5, h6, hu5⟩ := inv_seq' (by simp) g4
  obtain ⟨e1, rfl⟩ := inv_str h1
  obtain ⟨e3, rfl⟩ := inv_tok (s := ['"']) rfl h3
  obtain ⟨s, e4, rfl⟩ := inv_innerRaw h4
  obtain ⟨e5, rfl⟩ := inv_tok (s := ['"']) rfl h5
  generalize hz : (some (c2, _) : Hit) = z at h2
  cases h2 with
  | pushFail => cases hz
  | push h2 =>
    rename_i x vs
    cases hz
    obtain ⟨n, e2, rfl⟩ := inv_pounds h2
    rw [e2.between] at *
    have hstk : c5.stk = c.stk ++ [List.replicate n '#'] := by
      rw [e5.stk, e4.stk, e3.stk]; simp only; rw [e2.stk, e1.stk]
    generalize hz : (some (c', _) : Hit) = z at h6
    cases h6 with
    | popEmpty => cases hz
    | pop hl =>
      rw [hstk] at hl
      simp only [List.getLast?_concat, Option.some.injEq] at hl
      subst hl
      obtain ⟨y, hy, hz⟩ := Option.map_eq_some_iff.mp hz.symm
      cases hz
      obtain ⟨f1, f2, f3⟩ := eat_some hy
      have hs : c.suf = ('r' :: (List.replicate n '#' ++ '"' :: (s ++ '"' :: List.replicate n '#'))) ++ y.suf := by
        have := e3.suf
        simp only at this
        rw [e1.suf, e2.suf, this, e4.suf, e5.suf, f1]; simp
      have hp : y.pre = c.pre ++ ('r' :: (List.replicate n '#' ++ '"' :: (s ++ '"' :: List.replicate n '#'))) := by
        have := e3.pre
        simp only at this
        rw [f2, e5.pre, e4.pre, this, e2.pre, e1.pre]; simp
      refine ⟨n, s, _, ?_, ⟨_, by rw [hs]; simp; rfl⟩, ?_, hts⟩
      · rw [hu1, hu2, hu3, hu4, hu5]
        have : between c { y with stk := y.stk.dropLast } = 'r' :: (List.replicate n '#' ++ '"' :: (s ++ '"' :: List.replicate n '#')) := by
          unfold between; simp only [hp]; simp
        rw [this]
        simp [PTree.pair, Meta.rawStringPair, PTree.rule, PTree.text, PTree.inner]
      · simp only; rw [f3, hstk]; simp

/-- A character between apostrophes; an unescaped double quote shows in the text. -/
theorem inv_character {m : Mode} {c c' : Cfg} {ts : List PTree} (h : MRec m (.ref .character) c (some (c', ts))) :
    ∃ a us, ((∃ v, CharLit a v) ∨ a = ['"']) ∧ Eats c (Meta.charText a) c' ∧ ts = [.node .character (Meta.charText a) us] := by
  obtain ⟨us, h0, hts⟩ := inv_compound rfl h
  obtain ⟨c1, _, _, h1, g1, hu1⟩ := inv_seq' (by simp) h0
  obtain ⟨c2, _, _, h2, h3, hu2⟩ := inv_seq' (by simp) g1
  obtain ⟨e1, rfl⟩ := inv_tok (s := ['\'']) rfl h1
  obtain ⟨e3, rfl⟩ := inv_tok (s := ['\'']) rfl h3
  obtain ⟨vs, h4, _⟩ := inv_atomic rfl h2
  rcases inv_choice h4 with h4 | ⟨_, h4⟩
  · obtain ⟨e, v, he, e2⟩ := inv_escape h4
    have e := e1.trans (e2.trans e3)
    refine ⟨_, us, Or.inl ⟨_, .escape he⟩, e, ?_⟩
    rw [hts, e.between]; rfl
  · obtain ⟨x, e2, _⟩ := inv_any h4
    have e := e1.trans (e2.trans e3)
    refine ⟨[x], us, ?_, e, ?_⟩
    · by_cases hx : x = '"'
      · exact Or.inr (by rw [hx])
      · by_cases hy : x = '\\'
        · exact Or.inl ⟨_, hy ▸ CharLit.backslash⟩
        · exact Or.inl ⟨_, .plain hx hy⟩
    · rw [hts, e.between]; rfl

end Pest3.Gen
