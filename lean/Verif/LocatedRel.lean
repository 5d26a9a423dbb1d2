import Verif.LocatedErase
import Verif.LocatedSpec
import Verif.SpaceInv
import Verif.ForwardGap

/-!
# What the recogniser with positions accepts
-/

namespace Pest3.Gen
open Pest3 Pest3.Load
open Pest3.Meta (MetaRule)

/-- The expression matches from `c` to `c'` and gives the pairs. -/
def LRec (m : Mode) (e : PE) (c c' : Cfg) (ls : List LTree) : Prop := ∃ fuel, recogL metaGrammar fuel m e c = .ok (some (c', ls))

theorem LRec.bare {m : Mode} {e : PE} {c c' : Cfg} {ls : List LTree} (h : LRec m e c c' ls) : MRec m e c (some (c', LTree.eraseAll ls)) := by
  obtain ⟨fuel, h⟩ := h
  refine recog_rec (fuel := fuel) ?_
  rw [recog_erase, h]
  rfl

theorem fail_bare {m : Mode} {e : PE} {c : Cfg} {fuel : Nat} (h : recogL metaGrammar fuel m e c = .ok none) : MRec m e c none := by
  refine recog_rec (fuel := fuel) ?_
  rw [recog_erase, h]
  rfl

/-- `tryThen` that ends with something. -/
theorem tryThen_inv {α β : Type} {r : Res (Option α)} {k : α → Res (Option β)} {b : β} (h : tryThen r k = .ok (some b)) :
    ∃ a, r = .ok (some a) ∧ k a = .ok (some b) := by
  obtain ⟨a, h1, h2⟩ := andThen_inv h
  cases a with
  | none => cases h2
  | some a => exact ⟨a, h1, h2⟩

section
variable {m : Mode} {c c' : Cfg} {ls : List LTree}

theorem linv_str {s : Text} (h : LRec m (.str s) c c' ls) : ls = [] := by
  obtain ⟨fuel, h⟩ := h
  cases fuel with
  | zero => cases h
  | succ n =>
    simp only [recogL] at h
    injection h with h
    obtain ⟨x, -, hx⟩ := Option.map_eq_some_iff.mp h
    cases hx
    rfl

theorem linv_ref {r : MetaRule} (h : LRec m (.ref r) c c' ls) :
    ∃ us, LRec ((metaGrammar r).1.inside m) (metaGrammar r).2 c c' us ∧ ls = wrapL (metaGrammar r).1 m r c c' us := by
  obtain ⟨fuel, h⟩ := h
  cases fuel with
  | zero => cases h
  | succ n =>
    simp only [recogL] at h
    obtain ⟨x, h1, h2⟩ := tryThen_inv h
    cases h2
    exact ⟨_, ⟨n, h1⟩, rfl⟩

theorem linv_seq {e f : PE} (h : LRec m (.seq e f) c c' ls) :
    ∃ c1 c2 us sk vs, LRec m e c c1 us ∧ MRec m .skip c1 (some (c2, sk)) ∧ LRec m f c2 c' vs ∧ ls = us ++ vs := by
  obtain ⟨fuel, h⟩ := h
  cases fuel with
  | zero => cases h
  | succ n =>
    simp only [recogL] at h
    obtain ⟨x, h1, h⟩ := tryThen_inv h
    obtain ⟨y, h2, h⟩ := tryThen_inv h
    obtain ⟨z, h3, h⟩ := tryThen_inv h
    cases h
    exact ⟨_, _, _, _, _, ⟨n, h1⟩, LRec.bare ⟨n, h2⟩, ⟨n, h3⟩, rfl⟩

theorem linv_choice {e f : PE} (h : LRec m (.choice e f) c c' ls) : LRec m e c c' ls ∨ LRec m f c c' ls := by
  obtain ⟨fuel, h⟩ := h
  cases fuel with
  | zero => cases h
  | succ n =>
    simp only [recogL] at h
    obtain ⟨x, h1, h⟩ := andThen_inv h
    cases x with
    | none => exact .inr ⟨n, h⟩
    | some x => cases h; exact .inl ⟨n, h1⟩

theorem linv_opt {e : PE} (h : LRec m (.opt e) c c' ls) : LRec m e c c' ls ∨ c' = c ∧ ls = [] := by
  obtain ⟨fuel, h⟩ := h
  cases fuel with
  | zero => cases h
  | succ n =>
    simp only [recogL] at h
    obtain ⟨x, h1, h⟩ := andThen_inv h
    cases x with
    | none => cases h; exact .inr ⟨rfl, rfl⟩
    | some x => cases h; exact .inl ⟨n, h1⟩

/-- Blanks and comments from `c` to `c'`, all there are. -/
structure Over (c c' : Cfg) : Prop where
  takes : ∃ g, Takes c g c' ∧ LastSpace g ∧ (c'.suf ≠ [] → Space g)
  end_ : Skipped c'
  stays : Skipped c → c' = c

theorem Over.refl (h : Skipped c) : Over c c := ⟨⟨[], .refl _, .space .nil, fun _ => .nil⟩, h, fun _ => rfl⟩

theorem over {sk : List PTree} (h : MRec .nonAtomic .skip c (some (c', sk))) : Over c c' := by
  obtain ⟨g, h1, h2, h3, h4⟩ := inv_space h
  exact ⟨⟨g, h1, h2, h3⟩, h4, fun hs => hs.stays h⟩

/-- The parts of a repetition. -/
inductive Repeats (e : PE) : Cfg → Cfg → List LTree → Prop where
  | nil {a} : Repeats e a a []
  | cons {a s b d us vs} : Over a s → LRec .nonAtomic e s b us → Repeats e b d vs → Repeats e a d (us ++ vs)

theorem linv_more {e : PE} : ∀ {fuel : Nat} {c c' : Cfg} {ls : List LTree},
    recogL metaGrammar fuel .nonAtomic (.more e) c = .ok (some (c', ls)) → Repeats e c c' ls := by
  intro fuel
  induction fuel with
  | zero => intro c c' ls h; cases h
  | succ n ih =>
    intro c c' ls h
    simp only [recogL] at h
    obtain ⟨s, h1, h⟩ := tryThen_inv h
    obtain ⟨x, h2, h⟩ := andThen_inv h
    cases x with
    | none => cases h; exact .nil
    | some x =>
      obtain ⟨y, h3, h⟩ := tryThen_inv h
      cases h
      exact .cons (over (LRec.bare ⟨n, h1⟩)) ⟨n, h2⟩ (ih h3)

theorem linv_rep {e : PE} (hs : Skipped c) (h : LRec .nonAtomic (.rep e) c c' ls) : Repeats e c c' ls := by
  obtain ⟨fuel, h⟩ := h
  cases fuel with
  | zero => cases h
  | succ n =>
    simp only [recogL] at h
    obtain ⟨x, h1, h⟩ := andThen_inv h
    cases x with
    | none => cases h; exact .nil
    | some x =>
      obtain ⟨y, h2, h⟩ := tryThen_inv h
      cases h
      exact .cons (.refl hs) ⟨n, h1⟩ (linv_more h2)

theorem linv_seqO {e f : PE} (h : LRec .nonAtomic (.seq e f) c c' ls) :
    ∃ c1 c2 us vs, LRec .nonAtomic e c c1 us ∧ Over c1 c2 ∧ LRec .nonAtomic f c2 c' vs ∧ ls = us ++ vs := by
  obtain ⟨c1, c2, us, sk, vs, h1, h2, h3, h4⟩ := linv_seq h
  exact ⟨c1, c2, us, vs, h1, over h2, h3, h4⟩

/-- Byte positions. -/
def pos (c : Cfg) : Nat := utf8Len c.pre

/-- A rule that makes a pair. -/
theorem linv_pair {r : MetaRule} {k : RKind} {e : PE} (hr : metaGrammar r = (k, e)) (hk : k.token m = true) (h : LRec m (.ref r) c c' ls) :
    ∃ us, LRec (k.inside m) e c c' us ∧ ls = [.node r (between c c') ⟨pos c, pos c'⟩ us] := by
  obtain ⟨us, h1, h2⟩ := linv_ref h
  rw [hr] at h1 h2
  refine ⟨us, h1, ?_⟩
  rw [h2]
  simp only [wrapL, hk, if_true]
  rfl

theorem linv_silent {r : MetaRule} {e : PE} (hr : metaGrammar r = (.silent, e)) (h : LRec m (.ref r) c c' ls) : LRec m e c c' ls := by
  obtain ⟨us, h1, h2⟩ := linv_ref h
  rw [hr] at h1 h2
  cases h2
  exact h1

/-- A rule for a fixed text. -/
theorem linv_tok {r : MetaRule} {s : String} (hr : metaGrammar r = (.normal, lit s)) (h : LRec .nonAtomic (.ref r) c c' ls) :
    Takes c s.toList c' ∧ ls = [.node r s.toList ⟨pos c, pos c'⟩ []] := by
  obtain ⟨us, h1, h2⟩ := linv_pair hr rfl h
  cases linv_str h1
  have e := (inv_str h1.bare).1.takes
  refine ⟨e, ?_⟩
  rw [h2, e.between]

theorem linv_number (h : LRec .nonAtomic (.ref .number) c c' ls) :
    ∃ n us, Takes c (Meta.decimal n) c' ∧ ls = [.node .number (Meta.decimal n) ⟨pos c, pos c'⟩ us] := by
  obtain ⟨us, -, rfl⟩ := linv_pair rfl rfl h
  obtain ⟨n, e, -⟩ := inv_number h.bare
  exact ⟨n, us, e.takes, by rw [e.between]⟩

theorem linv_integer (h : LRec .nonAtomic (.ref .integer) c c' ls) :
    ∃ (n : IntLit) (us : _), Takes c n.text c' ∧ ls = [.node .integer n.text ⟨pos c, pos c'⟩ us] := by
  obtain ⟨us, -, rfl⟩ := linv_pair rfl rfl h
  obtain ⟨n, e, -⟩ := inv_integer (by simp) h.bare
  exact ⟨n, us, e.takes, by rw [e.between]⟩

theorem linv_ident (h : LRec .nonAtomic (.ref .identifier) c c' ls) :
    ∃ n us, IsIdent n ∧ Takes c n c' ∧ ls = [.node .identifier n ⟨pos c, pos c'⟩ us] := by
  obtain ⟨us, -, rfl⟩ := linv_pair rfl rfl h
  obtain ⟨n, hn, e, -⟩ := inv_identifier h.bare
  exact ⟨n, us, hn, e.takes, by rw [e.between]⟩

theorem linv_character (h : LRec .nonAtomic (.ref .character) c c' ls) :
    ∃ a us, ((∃ v, CharLit a v) ∨ a = ['"']) ∧ Takes c (Meta.charText a) c' ∧ ls = [.node .character (Meta.charText a) ⟨pos c, pos c'⟩ us] := by
  obtain ⟨us, -, rfl⟩ := linv_pair rfl rfl h
  obtain ⟨a, vs, ha, e, -⟩ := inv_character h.bare
  exact ⟨a, us, ha, e.takes, by rw [e.between]⟩

theorem pair_of {u : LTree} {t : PTree} {p : Meta.MetaPair} (h : LTree.eraseAll [u] = [t]) (ht : t.pair = p) : u.pair = p := by
  have : u.erase = t := by injection h
  rw [← ht, ← this, erase_pair]

theorem linv_string (h : LRec .nonAtomic (.ref .string) c c' ls) :
    ∃ s o u, Meta.Denotes s o ∧ u.pair = Meta.stringPair s ∧ u.loc = ⟨pos c, pos c'⟩ ∧ Takes c ('"' :: (s ++ ['"'])) c' ∧ ls = [u] := by
  obtain ⟨us, -, rfl⟩ := linv_pair rfl rfl h
  obtain ⟨s, o, t, h1, h2, e, h3⟩ := inv_string h.bare
  exact ⟨s, o, _, h1, pair_of h3 h2, rfl, e.takes, rfl⟩

theorem text_takes {u : LTree} {p : Meta.MetaPair} (hp : u.pair = p) (hu : u.text = between c c') (h : ∃ s, Takes c s c') : Takes c p.text c' := by
  obtain ⟨s, hs⟩ := h
  rw [← hp]
  show Takes c u.text c'
  rw [hu, hs.between]
  exact hs

theorem linv_insensitive (h : LRec .nonAtomic (.ref .insensitiveString) c c' ls) :
    ∃ s o u, Meta.Denotes s o ∧ u.pair = Meta.insensitivePair s ∧ u.loc = ⟨pos c, pos c'⟩ ∧ Takes c ('i' :: '"' :: (s ++ ['"'])) c' ∧ ls = [u] := by
  obtain ⟨us, -, rfl⟩ := linv_pair rfl rfl h
  obtain ⟨s, o, t, h1, h2, h3⟩ := inv_insensitive h.bare
  have hp := pair_of h3 h2
  exact ⟨s, o, _, h1, hp, rfl, text_takes hp rfl (rec_takes h.bare), rfl⟩

theorem linv_rawString (h : LRec .nonAtomic (.ref .rawString) c c' ls) :
    ∃ n s u, u.pair = Meta.rawStringPair n s ∧ u.loc = ⟨pos c, pos c'⟩ ∧
      Takes c ('r' :: (List.replicate n '#' ++ '"' :: (s ++ '"' :: List.replicate n '#'))) c' ∧ ls = [u] := by
  obtain ⟨us, -, rfl⟩ := linv_pair rfl rfl h
  obtain ⟨n, s, t, h2, -, -, h3⟩ := inv_rawString h.bare
  have hp := pair_of h3 h2
  exact ⟨n, s, _, hp, rfl, text_takes hp rfl (rec_takes h.bare), rfl⟩

end

/-! ## Places -/

section
variable {inp : Text} {c c' d : Cfg}

/-- The text is that consumed and that ahead. -/
def On (inp : Text) (c : Cfg) : Prop := inp = c.pre ++ c.suf

theorem Takes.on {t : Text} (h : Takes c t c') (hc : On inp c) : On inp c' := by
  unfold On at *
  rw [hc, h.suf, h.pre, List.append_assoc]

theorem Takes.stands {t : Text} (h : Takes c t c') (hc : On inp c) : Stands inp (pos c) t (pos c') :=
  ⟨c.pre, c'.suf, by rw [hc, h.suf], rfl, by unfold pos; rw [h.pre, utf8Len_append]⟩

theorem utf8_prefix {a b x y : Text} (h : a ++ b = x ++ y) (hl : utf8Len a = utf8Len x) : a = x := by
  induction a generalizing x with
  | nil => cases x with
    | nil => rfl
    | cons z x =>
      have := z.utf8Size_pos
      simp [utf8Len] at hl
      omega
  | cons z a ih => cases x with
    | nil =>
      have := z.utf8Size_pos
      simp [utf8Len] at hl
      omega
    | cons w x =>
      simp only [List.cons_append, List.cons.injEq] at h
      obtain ⟨rfl, h⟩ := h
      simp only [utf8Len, Nat.add_left_cancel_iff] at hl
      rw [ih h hl]

theorem _root_.Pest3.Load.Stands.trans {i j k : Nat} {s t : Text} (h : Stands inp i s j) (g : Stands inp j t k) : Stands inp i (s ++ t) k := by
  obtain ⟨a, b, h1, h2, h3⟩ := h
  obtain ⟨x, y, g1, g2, g3⟩ := g
  have key : x = a ++ s := by
    have hl : utf8Len (a ++ s) = utf8Len x := by rw [utf8Len_append, ← h3, g2]
    have heq : (a ++ s) ++ b = x ++ (t ++ y) := by rw [List.append_assoc, ← h1, g1]
    exact (utf8_prefix heq hl).symm
  subst key
  refine ⟨a, y, ?_, h2, ?_⟩
  · rw [g1]; simp
  · rw [g3]; simp [Nat.add_assoc]

theorem LRec.on {m : Mode} {e : PE} {ls : List LTree} (h : LRec m e c c' ls) (hc : On inp c) : On inp c' := by
  obtain ⟨t, h⟩ := rec_takes h.bare
  exact h.on hc

theorem Over.on (h : Over c c') (hc : On inp c) : On inp c' := by
  obtain ⟨g, h, -⟩ := h.takes
  exact h.on hc

theorem takes_ne {t : Text} (h : Takes c t c') (ht : t ≠ []) : c.suf ≠ [] := by
  rw [h.suf]
  intro h
  simp at h
  exact ht h.1

/-- Blanks and comments from `j` to where the recogniser is. -/
def Rests (inp : Text) (j : Nat) (c : Cfg) : Prop := ∃ g, Stands inp j g (pos c) ∧ LastSpace g ∧ (c.suf ≠ [] → Space g)

theorem Rests.here (hc : On inp c) : Rests inp (pos c) c := ⟨[], (Takes.refl c).stands hc, .space .nil, fun _ => .nil⟩

theorem Rests.over {j : Nat} (h : Rests inp j c) (hc : On inp c) (k : Over c d) : Rests inp j d := by
  obtain ⟨g, h1, h2, h3⟩ := h
  obtain ⟨f, k1, k2, k3⟩ := k.takes
  by_cases hs : c.suf = []
  · have : f = [] ∧ d.suf = [] := by
      have := k1.suf
      rw [hs] at this
      simpa using this.symm
    obtain ⟨rfl, hd⟩ := this
    refine ⟨g, ?_, h2, fun h => absurd hd h⟩
    have := h1.trans (k1.stands hc)
    rwa [List.append_nil] at this
  · exact ⟨g ++ f, h1.trans (k1.stands hc), k2.append (h3 hs), fun hd => (h3 hs).append (k3 hd)⟩

theorem Rests.blanks {j : Nat} (h : Rests inp j c) (hc : c.suf ≠ []) : Blanks inp j (pos c) := by
  obtain ⟨g, h1, -, h3⟩ := h
  exact ⟨g, h1, h3 hc⟩

theorem Rests.last {j : Nat} (h : Rests inp j c) (hc : On inp c) : LastBlanks inp j (pos c) := by
  obtain ⟨g, h1, h2, h3⟩ := h
  by_cases hs : c.suf = []
  · refine .inr ⟨g, h1, h2, ?_⟩
    rw [hc, hs, List.append_nil]
    rfl
  · exact .inl ⟨g, h1, h3 hs⟩

theorem Over.blanks (h : Over c c') (hc : On inp c) (hs : c'.suf ≠ []) : Blanks inp (pos c) (pos c') :=
  ((Rests.here hc).over hc h).blanks hs

/-- Nothing is left to skip. -/
theorem Skipped.noGap (h : Skipped c) (hc : On inp c) {g : Text} {k : Nat} (hg : Gap g) (hs : Stands inp (pos c) g k) : k = pos c := by
  obtain ⟨a, b, h1, h2, h3⟩ := hs
  have heq : c.pre ++ c.suf = a ++ (g ++ b) := by rw [← hc, h1]
  have ha := utf8_prefix heq h2
  subst ha
  have hsuf := List.append_cancel_left heq
  have clash : ∀ {e : PE} {c'' : Cfg} {ts}, MRec .atomic e c none → MRec .atomic e c (some (c'', ts)) → False := by
    intro e c'' ts h1 h2
    have := h1.det h2
    cases this
  cases hg with
  | nil => rw [h3]; rfl
  | blank hb _ =>
    obtain ⟨_, h4, _⟩ := eats_blank (m := .atomic) (c := c) hb (by rw [hsuf, List.append_assoc])
    exact (clash h.blank h4).elim
  | @line t e g ht he _ =>
    obtain ⟨_, h4, _⟩ := eats_lineComment (c := c) ht (.inr ⟨e, g ++ b, he, rfl⟩) (by rw [hsuf]; simp)
    exact (clash h.comment h4).elim
  | @block x g hx _ =>
    obtain ⟨_, h4, _⟩ := eats_blockComment (c := c) hx (r := g ++ b) (by rw [hsuf]; simp)
    exact (clash h.comment h4).elim

end

end Pest3.Gen
