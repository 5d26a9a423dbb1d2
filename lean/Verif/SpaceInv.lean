import Verif.DocSpec
import Verif.DocTrees
import Verif.Forward
import Verif.MetaShape

/-!
# What the recogniser accepts: blanks, comments and documentation
-/

namespace Pest3.Gen
open Pest3 Pest3.Load
open Pest3.Meta (MetaRule)

/-- From `c` to `c'` the text `t` is consumed. -/
structure Takes (c : Cfg) (t : Text) (c' : Cfg) : Prop where
  suf : c.suf = t ++ c'.suf
  pre : c'.pre = c.pre ++ t

theorem Takes.refl (c : Cfg) : Takes c [] c := ⟨by simp, by simp⟩

theorem Takes.trans {a b c : Cfg} {s t : Text} (h : Takes a s b) (k : Takes b t c) : Takes a (s ++ t) c :=
  ⟨by simp [h.suf, k.suf], by simp [h.pre, k.pre]⟩

theorem Takes.unique {c c' : Cfg} {s t : Text} (h : Takes c s c') (k : Takes c t c') : s = t := by
  have h1 := h.pre
  rw [k.pre] at h1
  exact (List.append_cancel_left h1).symm

theorem Takes.between {c c' : Cfg} {t : Text} (h : Takes c t c') : Gen.between c c' = t := by
  simp [Gen.between, h.pre]

theorem Eats.takes {c c' : Cfg} {t : Text} (h : Eats c t c') : Takes c t c' := ⟨h.suf, h.pre⟩

theorem rec_takes {g : Gram} {m : Mode} {e : PE} {c c' : Cfg} {ts : List PTree} (h : Rec g m e c (some (c', ts))) : ∃ t, Takes c t c' := by
  obtain ⟨t, h1, h2⟩ := h.consumes _ _ rfl
  exact ⟨t, h1, h2⟩

section
variable {m : Mode} {c c' : Cfg} {ts : List PTree}

/-- A repetition without skipping, from its end. -/
theorem inv_repTight (hm : m ≠ .nonAtomic) {e : PE} {Q : Cfg → Text → Cfg → Prop} (h0 : ∀ a, MRec m e a none → Q a [] a)
    (hstep : ∀ a b d us s t, MRec m e a (some (b, us)) → Takes a s b → Takes b t d → Q b t d → Q a (s ++ t) d)
    (h : MRec m (.rep e) c (some (c', ts))) : ∃ t, Takes c t c' ∧ Q c t c' := by
  have more : ∀ {f : PE} {a : Cfg} {r : Hit} {m' : Mode}, MRec m' f a r → ∀ b us, m' = m → f = .more e → r = some (b, us) →
      ∃ t, Takes a t b ∧ Q a t b := by
    intro f a r m' h
    induction h with
    | moreNone h1 h2 =>
      intro b us hmm hf hr
      cases hf; cases hr; subst hmm
      cases inv_skip hm h1
      exact ⟨[], .refl _, h0 _ h2⟩
    | more h1 h2 h3 ih1 ih2 ih3 =>
      intro b us hmm hf hr
      cases hf; cases hr; subst hmm
      cases inv_skip hm h1
      obtain ⟨t, e1, p1⟩ := ih3 _ _ rfl rfl rfl
      obtain ⟨s, e2⟩ := rec_takes h2
      exact ⟨_, e2.trans e1, hstep _ _ _ _ _ _ h2 e2 e1 p1⟩
    | _ => intro b us hmm hf hr; first | (cases hf; done) | (cases hr; done)
  cases h with
  | repNone h => exact ⟨[], .refl _, h0 _ h⟩
  | rep h1 h2 =>
    obtain ⟨t, e1, p1⟩ := more h2 _ _ rfl rfl rfl
    obtain ⟨s, e2⟩ := rec_takes h1
    exact ⟨_, e2.trans e1, hstep _ _ _ _ _ _ h1 e2 e1 p1⟩

/-! ## Blanks -/

/-- A newline is ahead. -/
def AtBreak (t : Text) : Prop := ∃ e r, Newline e ∧ t = e ++ r

theorem inv_newline (h : MRec m (.ref .newline) c (some (c', ts))) : ∃ e, Newline e ∧ Takes c e c' := by
  rcases inv_choice (inv_silent rfl h) with h | ⟨-, h⟩
  · exact ⟨_, .lf, (inv_str h).1.takes⟩
  · exact ⟨_, .crlf, (inv_str h).1.takes⟩

theorem inv_blank (h : MRec m (.ref .whitespace) c (some (c', ts))) : ∃ b, Blank b ∧ Takes c b c' := by
  rcases inv_choice (inv_silent rfl h) with h | ⟨-, h⟩
  · exact ⟨_, .space, (inv_str h).1.takes⟩
  rcases inv_choice h with h | ⟨-, h⟩
  · exact ⟨_, .tab, (inv_str h).1.takes⟩
  · obtain ⟨e, he, h⟩ := inv_newline h
    exact ⟨e, .line he, h⟩

theorem newline_none (h : MRec m (.ref .newline) c none) : ¬ AtBreak c.suf := by
  rintro ⟨e, r, he, hs⟩
  cases h with
  | refFail h =>
    obtain ⟨h1, h2⟩ := inv_choiceFail h
    cases he
    · exact inv_strFail h1 ⟨r, hs⟩
    · exact inv_strFail h2 ⟨r, hs⟩

theorem blank_none (h : MRec m (.ref .whitespace) c none) : ¬ AtBreak c.suf := by
  cases h with
  | refFail h => exact newline_none (inv_choiceFail (inv_choiceFail h).2).2

/-- Blanks, as many as there are. -/
theorem inv_blanks (h : MRec .atomic (.rep (.ref .whitespace)) c (some (c', ts))) :
    ∃ t, Takes c t c' ∧ (∀ {g}, Space g → Space (t ++ g)) ∧ MRec .atomic (.ref .whitespace) c' none :=
  inv_repTight (by simp) (Q := fun _ t d => (∀ {g}, Space g → Space (t ++ g)) ∧ MRec .atomic (.ref .whitespace) d none)
    (fun a h => ⟨fun h => h, h⟩) (fun a b d us s t h1 e _ h2 => by
      obtain ⟨s', hs, e'⟩ := inv_blank h1
      cases e.unique e'
      exact ⟨fun hg => by rw [List.append_assoc]; exact .blank hs (h2.1 hg), h2.2⟩) h

/-! ## Comments -/

/-- The rest of a line. -/
theorem inv_lineRest (hm : m ≠ .nonAtomic) (h : MRec m (.rep (.seq (.neg (.ref .newline)) .any)) c (some (c', ts))) :
    ∃ t, Takes c t c' ∧ '\n' ∉ t ∧ (c'.suf = [] ∨ AtBreak c'.suf) := by
  refine inv_repTight hm (Q := fun _ t d => '\n' ∉ t ∧ (d.suf = [] ∨ AtBreak d.suf)) ?_ ?_ h
  · intro a h
    refine ⟨by simp, ?_⟩
    cases h with
    | seqFail h =>
      cases h with
      | negFail h =>
        obtain ⟨e, he, h⟩ := inv_newline h
        exact .inr ⟨e, _, he, h.suf⟩
    | seqSkipFail _ h =>
      cases h
      exact absurd rfl hm
    | seqFail2 h1 h2 h3 =>
      obtain ⟨rfl, -, -⟩ := inv_neg h1
      cases inv_skip hm h2
      left
      generalize hr : (none : Hit) = r at h3
      cases h3
      unfold eatIf at hr
      split at hr
      · simp at hr
      · assumption
  · intro a b d us s t h1 e _ h2
    obtain ⟨c1, t1, t2, k1, k2, -⟩ := inv_seq' hm h1
    obtain ⟨rfl, -, k1⟩ := inv_neg k1
    obtain ⟨x, e', -⟩ := inv_any k2
    cases e.unique e'.takes
    refine ⟨?_, h2.2⟩
    intro hx
    rcases List.mem_append.mp hx with hx | hx
    · have : x = '\n' := (List.mem_singleton.mp hx).symm
      subst this
      exact newline_none k1 ⟨_, _, .lf, e.suf⟩
    · exact h2.1 hx

theorem inv_blockComment (n : Nat) : ∀ {c c' : Cfg} {ts : List PTree}, c.suf.length = n → MRec .atomic (.ref .blockComment) c (some (c', ts)) →
    ∃ b, Inside b ∧ Takes c ('/' :: '*' :: (b ++ ['*', '/'])) c' := by
  induction n using Nat.strongRecOn with
  | ind n ih =>
    intro c c' ts hn h
    obtain ⟨c1, t1, t2, k1, k2, -⟩ := inv_seq' (by simp) (inv_silent rfl h)
    obtain ⟨c2, t3, t4, k3, k4, -⟩ := inv_seq' (by simp) k2
    have e1 : Takes c ['/', '*'] c1 := (inv_str k1).1.takes
    have e3 : Takes c2 ['*', '/'] c' := (inv_str k4).1.takes
    have hlen : c1.suf.length < n := by
      have := congrArg List.length e1.suf
      simp at this
      omega
    obtain ⟨b, e2, hb⟩ := inv_repTight (by simp) (Q := fun a t d => a.suf.length < n → ['*', '/'] <+: d.suf → Inside t) (fun a _ _ _ => .nil) (by
      intro a b d us s t h1 es ed h2 hl hd
      have hl2 : b.suf.length < n := by
        have := congrArg List.length es.suf
        simp at this
        omega
      rcases inv_choice h1 with h1 | ⟨-, h1⟩
      · obtain ⟨s', hs, es'⟩ := ih _ hl rfl h1
        cases es.unique es'
        simpa using Inside.nest hs (h2 hl2 hd)
      · obtain ⟨c1, t1, t2, k1, k2, -⟩ := inv_seq' (by simp) h1
        obtain ⟨rfl, -, k1⟩ := inv_neg k1
        obtain ⟨x, e, -⟩ := inv_any k2
        cases es.unique e.takes
        refine Inside.char (x := x) ?_ (h2 hl2 hd)
        intro hp
        obtain ⟨r, hr⟩ := hd
        obtain ⟨q, hq⟩ := hp
        refine inv_strFail k1 ⟨q ++ r, ?_⟩
        rw [es.suf, ed.suf, ← hr]
        have h3 : [x] ++ (t ++ (['*', '/'] ++ r)) = (x :: (t ++ ['*', '/'])) ++ r := by simp
        rw [h3]
        have h4 : x :: (t ++ ['*', '/']) = ['*', '/'] ++ q := hq.symm
        rw [h4]
        simp) k3
    exact ⟨b, hb hlen ⟨_, e3.suf.symm⟩, by simpa using e1.trans (e2.trans e3)⟩

/-- A comment: what follows a comment on a line is the end of the line or of the text. -/
theorem inv_comment (h : MRec .atomic (.ref .comment) c (some (c', ts))) :
    (∃ b, Inside b ∧ Takes c ('/' :: '*' :: (b ++ ['*', '/'])) c') ∨
    (∃ t, '\n' ∉ t ∧ t.head? ≠ some '/' ∧ t.head? ≠ some '!' ∧ Takes c ('/' :: '/' :: t) c' ∧ (c'.suf = [] ∨ AtBreak c'.suf)) := by
  rcases inv_choice (inv_silent rfl h) with h | ⟨-, h⟩
  · exact .inl (inv_blockComment _ rfl h)
  obtain ⟨c1, t1, t2, k1, k2, -⟩ := inv_seq' (by simp) h
  have hc : c' = c1 := by cases k2; rfl
  subst hc
  obtain ⟨c2, t3, t4, k3, k4, -⟩ := inv_seq' (by simp) k1
  obtain ⟨c3, t5, t6, k5, k6, -⟩ := inv_seq' (by simp) k4
  obtain ⟨rfl, -, k5⟩ := inv_neg k5
  have e1 : Takes c ['/', '/'] c3 := (inv_str k3).1.takes
  obtain ⟨t, e2, ht, hb⟩ := inv_lineRest (by simp) k6
  obtain ⟨n1, n2⟩ := inv_choiceFail k5
  refine .inr ⟨t, ht, ?_, ?_, e1.trans e2, hb⟩
  · intro hh
    cases t with
    | nil => cases hh
    | cons x t => cases hh; exact inv_strFail n1 ⟨_, e2.suf⟩
  · intro hh
    cases t with
    | nil => cases hh
    | cons x t => cases hh; exact inv_strFail n2 ⟨_, e2.suf⟩

/-- A text that begins with blanks, where a newline is ahead. -/
theorem break_head {e r t : Text} (he : Newline e) (h : t = e ++ r) : ∃ x u, t = x :: u ∧ (x = '\n' ∨ x = '\r') := by
  cases he
  · exact ⟨_, _, h, .inl rfl⟩
  · exact ⟨_, _, h, .inr rfl⟩

/-- If a newline is ahead, spaces begin with it. -/
theorem space_break {g e r s : Text} (hg : Space g) (he : Newline e) (h : g ++ s = e ++ r) (hs : ¬ AtBreak s) :
    ∃ g', Space g' ∧ g = e ++ g' := by
  cases hg with
  | nil => exact absurd ⟨e, r, he, h⟩ hs
  | @blank b g hb hg =>
    suffices hbe : b = e from ⟨g, hg, by rw [hbe]⟩
    cases hb with
    | space => cases he <;> simp at h
    | tab => cases he <;> simp at h
    | line hb => cases hb <;> cases he <;> simp at h <;> rfl
  | line => cases he <;> simp at h
  | block => cases he <;> simp at h

theorem _root_.Pest3.Load.Space.append {a b : Text} (h : Space a) (k : Space b) : Space (a ++ b) := by
  induction h with
  | nil => exact k
  | blank hb _ ih => rw [List.append_assoc]; exact .blank hb ih
  | line h1 h2 h3 h4 _ ih => simpa using Space.line h1 h2 h3 h4 ih
  | block h1 _ ih => simpa using Space.block h1 ih

theorem _root_.Pest3.Load.LastSpace.append {a b : Text} (k : LastSpace b) (h : Space a) : LastSpace (a ++ b) := by
  cases k with
  | space k => exact .space (h.append k)
  | line h1 h2 h3 h4 => rw [← List.append_assoc]; exact .line (h.append h1) h2 h3 h4

/-- There is nothing to skip. -/
structure Skipped (c : Cfg) : Prop where
  blank : MRec .atomic (.ref .whitespace) c none
  comment : MRec .atomic (.ref .comment) c none

theorem Skipped.stays {us : List PTree} (h : Skipped c) (k : MRec m .skip c (some (c', us))) : c' = c := by
  have := k.det (skip_none h.blank h.comment)
  injection this with this
  injection this

theorem Skipped.noBreak (h : Skipped c) : ¬ AtBreak c.suf := blank_none h.blank

/-- A repetition without skipping does not fail. -/
theorem rep_total (hm : m ≠ .nonAtomic) {e : PE} (h : MRec m (.rep e) c none) : False := by
  have more : ∀ {f : PE} {a : Cfg} {r : Hit} {m' : Mode}, MRec m' f a r → m' = m → f = .more e → r = none → False := by
    intro f a r m' h
    induction h with
    | moreSkipFail h1 => intro hmm hf hr; subst hmm; cases h1; exact hm rfl
    | moreFail h1 h2 h3 ih1 ih2 ih3 => intro hmm hf hr; cases hf; subst hmm; exact ih3 rfl rfl rfl
    | _ => intro hmm hf hr; first | (cases hf; done) | (cases hr; done)
  cases h with
  | repFail h1 h2 => exact more h2 rfl rfl rfl

/-- What is skipped. -/
theorem inv_space (h : MRec .nonAtomic .skip c (some (c', ts))) :
    ∃ g, Takes c g c' ∧ LastSpace g ∧ (c'.suf ≠ [] → Space g) ∧ Skipped c' := by
  cases h with
  | noSkip h => exact absurd rfl h
  | skip h =>
    obtain ⟨c1, t1, t2, k1, k2, -⟩ := inv_seq' (by simp) h
    obtain ⟨t, e1, hs, hn⟩ := inv_blanks k1
    obtain ⟨g, e2, hl, hg, hw, hc⟩ := inv_repTight (by simp) (Q := fun a t d => LastSpace t ∧ (d.suf ≠ [] → Space t) ∧
        (MRec .atomic (.ref .whitespace) a none → MRec .atomic (.ref .whitespace) d none) ∧ MRec .atomic (.ref .comment) d none)
        (fun a h => ⟨.space .nil, fun _ => .nil, fun h => h, by
          cases h with
          | seqFail h => exact h
          | seqSkipFail _ h => cases h
          | seqFail2 _ _ h => exact (rep_total (by simp) h).elim⟩) (by
      intro a b d us s t h1 es ed h2
      obtain ⟨c2, t3, t4, k3, k4, -⟩ := inv_seq' (by simp) h1
      obtain ⟨w, e3, hw, hn'⟩ := inv_blanks k4
      have hw := hw .nil
      rw [List.append_nil] at hw
      have key : LastSpace (s ++ t) ∧ (d.suf ≠ [] → Space (s ++ t)) := by
        rcases inv_comment k3 with ⟨x, hx, e4⟩ | ⟨x, x1, x2, x3, e4, hb⟩
        · cases es.unique (e4.trans e3)
          have : Space (('/' :: '*' :: (x ++ ['*', '/'])) ++ w) := by simpa using Space.block hx hw
          exact ⟨h2.1.append this, fun hd => this.append (h2.2.1 hd)⟩
        · cases es.unique (e4.trans e3)
          rcases hb with hb | ⟨e, r, he, hb⟩
          · rw [e3.suf, ed.suf] at hb
            simp only [List.append_eq_nil_iff] at hb
            obtain ⟨rfl, rfl, hb⟩ := hb
            refine ⟨?_, fun h => absurd hb h⟩
            simpa using LastSpace.line (g := []) .nil x1 x2 x3
          · obtain ⟨g', hg', h5⟩ := space_break hw he (s := b.suf) (r := r) (by rw [← hb, e3.suf]) (blank_none hn')
            have : Space (('/' :: '/' :: x) ++ w) := by
              rw [h5]
              simpa using Space.line x1 x2 x3 he hg'
            exact ⟨h2.1.append this, fun hd => this.append (h2.2.1 hd)⟩
      exact ⟨key.1, key.2, fun _ => h2.2.2.1 hn', h2.2.2.2⟩) k2
    have ht := hs .nil
    rw [List.append_nil] at ht
    exact ⟨t ++ g, e1.trans e2, hl.append ht, fun h => ht.append (hg h), hw hn, hc⟩

/-! ## Documentation -/

/-- One line of documentation. -/
theorem inv_doc {k : MetaRule} {sign : String} (hk : metaGrammar k = (.compound, seqs [lit sign, .opt (lit " "), .ref .docContent]))
    (h : MRec m (.ref k) c (some (c', ts))) :
    ∃ t us, '\n' ∉ t ∧ Takes c (sign.toList ++ t) c' ∧ (c'.suf = [] ∨ AtBreak c'.suf) ∧ ts = [.node k (sign.toList ++ t) us] := by
  obtain ⟨us, h0, hts⟩ := inv_compound hk h
  obtain ⟨c1, t1, t2, k1, k2, -⟩ := inv_seq' (by simp) h0
  obtain ⟨c2, t3, t4, k3, k4, -⟩ := inv_seq' (by simp) k2
  have e1 : Takes c sign.toList c1 := (inv_str k1).1.takes
  obtain ⟨vs, k5, -⟩ := inv_compound rfl k4
  obtain ⟨t, e2, ht, hb⟩ := inv_lineRest (by simp) k5
  have : ∃ s, Takes c1 s c2 ∧ '\n' ∉ s := by
    rcases inv_opt k3 with k3 | ⟨-, rfl, -⟩
    · exact ⟨_, (inv_str k3).1.takes, by decide⟩
    · exact ⟨[], .refl _, by simp⟩
  obtain ⟨s, e3, hs⟩ := this
  have e := e1.trans (e3.trans e2)
  refine ⟨s ++ t, us, ?_, e, hb, ?_⟩
  · intro h
    rcases List.mem_append.mp h with h | h
    · exact hs h
    · exact ht h
  · rw [hts, e.between]

/-- All lines of documentation with what follows up to the next token. -/
theorem inv_docLines {k : MetaRule} {sign : String} {x : Char} (hx : sign.toList = '/' :: '/' :: x :: [])
    (hk : metaGrammar k = (.compound, seqs [lit sign, .opt (lit " "), .ref .docContent])) {c1 : Cfg} {us : List PTree}
    (h : MRec .nonAtomic (.rep (.ref k)) c (some (c1, ts))) (hsk : MRec .nonAtomic .skip c1 (some (c', us))) (hs : c'.suf ≠ []) :
    ∃ g d ls, Takes c (g ++ d) c' ∧ Space g ∧ DocLines sign.toList d ls ∧ DocTrees k sign.toList ls ts ∧ (Skipped c → g = []) := by
  obtain ⟨g0, e0, -, hg0, hn⟩ := inv_space hsk
  have nobreak : ∀ {d ls}, DocLines sign.toList d ls → ¬ AtBreak (d ++ c'.suf) := by
    intro d ls hd
    cases hd with
    | nil => exact hn.noBreak
    | cons =>
      rintro ⟨e, r, he, h⟩
      rw [hx] at h
      cases he <;> simp at h
  have one : ∀ {a b : Cfg} {vs ts g d ls}, MRec .nonAtomic (.ref k) a (some (b, vs)) → Takes b (g ++ d) c' → Space g →
      DocLines sign.toList d ls → DocTrees k sign.toList ls ts →
      ∃ d ls, Takes a d c' ∧ DocLines sign.toList d ls ∧ DocTrees k sign.toList ls (vs ++ ts) := by
    intro a b vs ts g d ls h e hg hd ht
    obtain ⟨t, us, h1, h2, h3, rfl⟩ := inv_doc hk h
    rcases h3 with h3 | ⟨nl, r, hnl, h3⟩
    · rw [e.suf] at h3
      simp at h3
      exact absurd h3.2.2 hs
    · obtain ⟨g', hg', rfl⟩ := space_break hg hnl (s := d ++ c'.suf) (r := r) (by rw [← h3, e.suf]; simp) (nobreak hd)
      exact ⟨_, _, by simpa using h2.trans e, .cons h1 hnl hg' hd, .cons ht⟩
  have more : ∀ {f : PE} {a : Cfg} {r : Hit} {m' : Mode}, MRec m' f a r → ∀ ts, m' = .nonAtomic → f = .more (.ref k) → r = some (c1, ts) →
      ∃ g d ls, Takes a (g ++ d) c' ∧ Space g ∧ DocLines sign.toList d ls ∧ DocTrees k sign.toList ls ts := by
    intro f a r m' h
    induction h with
    | moreNone h1 h2 =>
      intro ts hmm hf hr
      cases hr
      exact ⟨g0, [], [], by simpa using e0, hg0 hs, .nil, .nil⟩
    | more h1 h2 h3 ih1 ih2 ih3 =>
      intro ts hmm hf hr
      cases hf; cases hr; subst hmm
      obtain ⟨g, d, ls, e, hg, hd, ht⟩ := ih3 _ rfl rfl rfl
      obtain ⟨d', ls', e', hd', ht'⟩ := one h2 e hg hd ht
      obtain ⟨g', e1, -, hg', -⟩ := inv_space h1
      refine ⟨g', d', ls', e1.trans e', hg' ?_, hd', ht'⟩
      rw [e'.suf]
      intro h
      simp at h
      exact hs h.2
    | _ => intro ts hmm hf hr; first | (cases hf; done) | (cases hr; done)
  cases h with
  | repNone h =>
    refine ⟨g0, [], [], by simpa using e0, hg0 hs, .nil, .nil, fun h => ?_⟩
    cases h.stays hsk
    exact e0.unique (.refl _)
  | rep h1 h2 =>
    obtain ⟨g, d, ls, e, hg, hd, ht⟩ := more h2 _ rfl rfl rfl
    obtain ⟨d', ls', e', hd', ht'⟩ := one h1 e hg hd ht
    exact ⟨[], d', ls', by simpa using e', .nil, hd', ht', fun _ => rfl⟩

end

end Pest3.Gen
