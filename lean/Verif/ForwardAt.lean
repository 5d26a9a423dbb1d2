import Verif.ForwardTok

/-!
# Deriving that the recogniser accepts: statements about texts

`At e t r Q`: where `t` is ahead, `e` matches and gives pairs with `Q`, and then skipping leads to where `r` is ahead.  `No e t`: where `t`
is ahead, `e` does not match.  Both are about rules that are not atomic.
-/

namespace Pest3.Gen
open Pest3 Pest3.Load
open Pest3.Meta (MetaRule Denotes charText)

def Lands (e : PE) (c : Cfg) (r : Text) (Q : List PTree → Prop) : Prop :=
  ∃ c' ts, MRec .nonAtomic e c (some (c', ts)) ∧ Skips c'.suf r ∧ c'.stk = c.stk ∧ Q ts

def At (e : PE) (t r : Text) (Q : List PTree → Prop) : Prop := ∀ c : Cfg, c.suf = t → Lands e c r Q

def No (e : PE) (t : Text) : Prop := ∀ c : Cfg, c.suf = t → MRec .nonAtomic e c none

/-- The repetition of `e`, at its beginning and inside. -/
def Loops (e : PE) (t r : Text) (Q : List PTree → Prop) : Prop :=
  At (.rep e) t r Q ∧ ∀ c : Cfg, Skips c.suf t → Lands (.more e) c r Q

/-- Pairs of two parts. -/
def App (Q R : List PTree → Prop) (ts : List PTree) : Prop := ∃ us vs, ts = us ++ vs ∧ Q us ∧ R vs

variable {e f : PE} {t r r' s : Text} {Q R : List PTree → Prop}

theorem At.mono (h : At e t r Q) (k : ∀ ts, Q ts → R ts) : At e t r R := by
  intro c hc
  obtain ⟨c', ts, h1, h2, h3, h4⟩ := h c hc
  exact ⟨c', ts, h1, h2, h3, k ts h4⟩

theorem Loops.mono (h : Loops e t r Q) (k : ∀ ts, Q ts → R ts) : Loops e t r R := by
  refine ⟨h.1.mono k, fun c hc => ?_⟩
  obtain ⟨c', ts, h1, h2, h3, h4⟩ := h.2 c hc
  exact ⟨c', ts, h1, h2, h3, k ts h4⟩

theorem At.seq (h : At e t r Q) (k : At f r r' R) : At (.seq e f) t r' (App Q R) := by
  intro c hc
  obtain ⟨c1, ts, h1, h2, h3, h4⟩ := h c hc
  obtain ⟨c2, k1, k2, k3⟩ := h2.skip rfl
  obtain ⟨c3, us, l1, l2, l3, l4⟩ := k c2 k2
  exact ⟨c3, _, .seq h1 k1 l1, l2, by rw [l3, k3, h3], _, _, rfl, h4, l4⟩

theorem At.choice1 (h : At e t r Q) : At (.choice e f) t r Q := by
  intro c hc
  obtain ⟨c', ts, h1, h2⟩ := h c hc
  exact ⟨c', ts, .choice1 h1, h2⟩

theorem At.choice2 (n : No e t) (h : At f t r Q) : At (.choice e f) t r Q := by
  intro c hc
  obtain ⟨c', ts, h1, h2⟩ := h c hc
  exact ⟨c', ts, .choice2 (n c hc) h1, h2⟩

theorem At.opt (h : At e t r Q) : At (.opt e) t r Q := by
  intro c hc
  obtain ⟨c', ts, h1, h2⟩ := h c hc
  exact ⟨c', ts, .optSome h1, h2⟩

theorem At.optNone (h : No e t) (hs : Skips t r) : At (.opt e) t r (· = []) := by
  intro c hc
  exact ⟨c, [], .optNone (h c hc), by rw [hc]; exact hs, rfl, rfl⟩

theorem At.normal {k : MetaRule} (hk : metaGrammar k = (.normal, e)) (h : At e t r Q) :
    At (.ref k) t r (fun ts => ∃ x us, ts = [.node k x us] ∧ Q us) := by
  intro c hc
  obtain ⟨c', ts, h1, h2, h3, h4⟩ := h c hc
  exact ⟨c', _, ref_normal hk (by simp) h1, h2, h3, _, _, rfl, h4⟩

theorem At.silent {k : MetaRule} (hk : metaGrammar k = (.silent, e)) (h : At e t r Q) : At (.ref k) t r Q := by
  intro c hc
  obtain ⟨c', ts, h1, h2⟩ := h c hc
  exact ⟨c', ts, ref_silent hk h1, h2⟩

theorem No.seq1 (h : No e t) : No (.seq e f) t := fun c hc => .seqFail (h c hc)

theorem No.seq2 (h : At e t r Q) (k : No f r) : No (.seq e f) t := by
  intro c hc
  obtain ⟨c1, ts, h1, h2, _⟩ := h c hc
  obtain ⟨c2, k1, k2, _⟩ := h2.skip rfl
  exact .seqFail2 h1 k1 (k c2 k2)

theorem No.choice (h : No e t) (k : No f t) : No (.choice e f) t := fun c hc => .choice2 (h c hc) (k c hc)

theorem No.ref {k : MetaRule} (hk : metaGrammar k = (.normal, e) ∨ metaGrammar k = (.silent, e)) (h : No e t) : No (.ref k) t := by
  intro c hc
  rcases hk with hk | hk
  · exact ref_fail hk (h c hc)
  · exact ref_fail hk (h c hc)

theorem No.head (n : Nat) (h : mayStart n e t.head? = false) : No e t := fun _ hc => fails n (by rw [hc]; exact h)

theorem Loops.nil (hs : Skips t t) (h : No e t) : Loops e t t (· = []) := by
  constructor
  · intro c hc
    exact ⟨c, [], .repNone (h c hc), by rw [hc]; exact hs, rfl, rfl⟩
  · intro c hc
    obtain ⟨c1, h1, h2, h3⟩ := hc.skip rfl
    exact ⟨c, [], .moreNone h1 (h c1 h2), hc, rfl, rfl⟩

theorem Loops.cons (h : At e t r Q) (k : Loops e r r' R) : Loops e t r' (App Q R) := by
  constructor
  · intro c hc
    obtain ⟨c1, ts, h1, h2, h3, h4⟩ := h c hc
    obtain ⟨c2, us, k1, k2, k3, k4⟩ := k.2 c1 h2
    exact ⟨c2, _, .rep h1 k1, k2, by rw [k3, h3], _, _, rfl, h4, k4⟩
  · intro c hc
    obtain ⟨c0, h0, s0, st0⟩ := hc.skip rfl
    obtain ⟨c1, ts, h1, h2, h3, h4⟩ := h c0 s0
    obtain ⟨c2, us, k1, k2, k3, k4⟩ := k.2 c1 h2
    exact ⟨c2, _, .more h0 h1 k1, k2, by rw [k3, h3, st0], _, _, rfl, h4, k4⟩

/-! ## Tokens -/

theorem At.tok {k : MetaRule} (s : String) (hk : metaGrammar k = (.normal, lit s)) (hs : Skips t r) : At (.ref k) (s.toList ++ t) r (· = [tok k s]) := by
  intro c hc
  obtain ⟨c', h1, h2, h3⟩ := eats_tok (m := .nonAtomic) hk hc
  exact ⟨c', _, h1, by rw [h3]; exact hs, h2.stk, by simp⟩

theorem At.lit (s : String) (hs : Skips t r) : At (Gen.lit s) (s.toList ++ t) r (· = []) := by
  intro c hc
  obtain ⟨c', h1, h2, h3⟩ := eats_str (m := .nonAtomic) hc
  exact ⟨c', _, h1, by rw [h3]; exact hs, h2.stk, rfl⟩

theorem At.ident {n : Name} (hn : IsIdent n) (ht : IdentEnd t) (hs : Skips t r) : At (.ref .identifier) (n ++ t) r (· = [.node .identifier n []]) := by
  intro c hc
  obtain ⟨c', h1, h2, h3⟩ := eats_ident (m := .nonAtomic) hn hc ht
  exact ⟨c', _, h1, by rw [h3]; exact hs, h2.stk, by simp⟩

theorem No.ident (h : ¬ StartsIdent t) : No (.ref .identifier) t := fun _ hc => no_ident hc h

theorem At.number {n : Nat} (ht : DigitEnd t) (hs : Skips t r) : At (.ref .number) (Meta.decimal n ++ t) r (· = [.node .number (Meta.decimal n) []]) := by
  intro c hc
  obtain ⟨c', h1, h2, h3⟩ := eats_number (m := .nonAtomic) hc ht
  exact ⟨c', _, h1, by rw [h3]; exact hs, h2.stk, by simp⟩

theorem At.integer {i : IntLit} (ht : DigitEnd t) (hs : Skips t r) : At (.ref .integer) (i.text ++ t) r (· = [.node .integer i.text []]) := by
  intro c hc
  obtain ⟨c', h1, h2, h3⟩ := eats_integer hc ht
  exact ⟨c', _, h1, by rw [h3]; exact hs, h2.stk, rfl⟩

theorem At.string {x : Text} {o : Option Text} (hx : Denotes x o) (hs : Skips t r) :
    At (.ref .string) ('"' :: (x ++ '"' :: t)) r (fun ts => ∃ y, ts = [y] ∧ PTree.pair y = Meta.stringPair x) := by
  intro c hc
  obtain ⟨c', y, h1, h2, h3, h4⟩ := eats_string (m := .nonAtomic) hx hc
  exact ⟨c', _, h1, by rw [h4]; exact hs, h3.stk, y, rfl, h2⟩

theorem At.insensitive {x : Text} {o : Option Text} (hx : Denotes x o) (hs : Skips t r) :
    At (.ref .insensitiveString) ('i' :: '"' :: (x ++ '"' :: t)) r (fun ts => ∃ y, ts = [y] ∧ PTree.pair y = Meta.insensitivePair x) := by
  intro c hc
  obtain ⟨c', y, h1, h2, h3, h4⟩ := eats_insensitive (m := .nonAtomic) hx hc
  exact ⟨c', _, h1, by rw [h4]; exact hs, h3.stk, y, rfl, h2⟩

theorem At.raw {x : Text} (hx : '"' ∉ x) (hs : Skips t r) :
    At (.ref .rawString) ('r' :: '"' :: (x ++ '"' :: t)) r (fun ts => ∃ y, ts = [y] ∧ PTree.pair y = Meta.rawStringPair 0 x) := by
  intro c hc
  obtain ⟨c', y, h1, h2, h3, h4⟩ := eats_raw (m := .nonAtomic) hx hc
  exact ⟨c', _, h1, by rw [h3]; exact hs, h4, y, rfl, h2⟩

theorem At.character {a : Text} {x : Char} (ha : CharLit a (some x)) (hs : Skips t r) :
    At (.ref .character) (charText a ++ t) r (fun ts => ∃ us, ts = [.node .character (charText a) us]) := by
  intro c hc
  obtain ⟨c', us, h1, h2, h3⟩ := eats_character (m := .nonAtomic) ha hc
  exact ⟨c', _, h1, by rw [h3]; exact hs, h2.stk, us, rfl⟩

end Pest3.Gen
