import Verif.MetaInv

/-!
# What the recogniser accepts: expressions
-/

namespace Pest3.Gen
open Pest3
open Pest3.Meta (MetaRule Denotes)
open Pest3.Load (IsIdent)

/-- `c'` is at or after `c`. -/
def Below (c c' : Cfg) : Prop := ∃ p, c.suf = p ++ c'.suf

theorem Below.refl (c : Cfg) : Below c c := ⟨[], rfl⟩

theorem Below.trans {a b c : Cfg} (h : Below a b) (k : Below b c) : Below a c := by
  obtain ⟨p, hp⟩ := h
  obtain ⟨q, hq⟩ := k
  exact ⟨p ++ q, by rw [hp, hq, List.append_assoc]⟩

theorem Below.le {c c' : Cfg} (h : Below c c') : c'.suf.length ≤ c.suf.length := by
  obtain ⟨p, hp⟩ := h
  rw [hp]; simp

theorem Eats.below {c c' : Cfg} {t : Text} (h : Eats c t c') : Below c c' := ⟨t, h.suf⟩

theorem Eats.lt {c c' : Cfg} {t : Text} (h : Eats c t c') (ht : t ≠ []) : c'.suf.length < c.suf.length := by
  rw [h.suf]
  have := List.length_pos_iff.2 ht
  simp only [List.length_append]; omega

section
variable {m : Mode} {c c' : Cfg} {ts : List PTree}

theorem rec_below {e : PE} (h : MRec m e c (some (c', ts))) : Below c c' := by
  obtain ⟨t, h, _⟩ := h.consumes _ _ rfl
  exact ⟨t, h⟩

theorem inv_seqB {e f : PE} (h : MRec m (.seq e f) c (some (c', ts))) :
    ∃ c1 c2 us vs, MRec m e c (some (c1, us)) ∧ MRec m f c2 (some (c', vs)) ∧ Below c c1 ∧ Below c1 c2 ∧ ts = us ++ vs := by
  obtain ⟨c1, c2, us, sk, vs, h1, h2, h3, h4⟩ := inv_seq h
  exact ⟨c1, c2, us, vs, h1, h3, rec_below h1, rec_below h2, h4⟩

theorem inv_repB {e : PE} (h : MRec m (.rep e) c (some (c', ts))) :
    ∃ tss : List (List PTree), ts = tss.flatten ∧ ∀ us ∈ tss, ∃ a b, MRec m e a (some (b, us)) ∧ Below c a := by
  obtain ⟨tss, h1, h2⟩ := inv_rep h
  refine ⟨tss, h1, fun us hu => ?_⟩
  obtain ⟨a, b, h3, _, h4⟩ := h2 us hu
  exact ⟨a, b, h3, h4⟩

/-- A rule for a fixed text outside atomic rules. -/
theorem inv_tokN {r : MetaRule} {s : String} (hr : metaGrammar r = (.normal, lit s)) (hm : m ≠ .atomic)
    (h : MRec m (.ref r) c (some (c', ts))) : Eats c s.toList c' ∧ ts = [tok r s] := by
  obtain ⟨e, h⟩ := inv_tok hr h
  rw [if_neg hm] at h
  exact ⟨e, h⟩

end

/-! ## Character ranges, bounds, slices -/

section
variable {c c' : Cfg} {ts : List PTree}

/-- The text `'"'` does not occur, and raw strings that may occur have a meaning. -/
structure Plain (raw : RawMeaning) (x : Text) : Prop where
  quote : ¬ Meta.charText ['"'] <:+: x
  raw : ∀ n s, n = 0 ∨ ['r', '#'] <:+: x → ∃ s', raw n s s'

theorem Plain.below {raw : RawMeaning} {a b : Cfg} (h : Plain raw a.suf) (k : Below a b) : Plain raw b.suf := by
  obtain ⟨p, hp⟩ := k
  have hs : b.suf <:+: a.suf := by rw [hp]; exact (List.suffix_append _ _).isInfix
  exact ⟨fun q => h.quote (q.trans hs), fun n s hn => h.raw n s (hn.imp id fun q => q.trans hs)⟩

theorem inv_charB {raw : RawMeaning} (hx : Plain raw c.suf) (h : MRec .nonAtomic (.ref .character) c (some (c', ts))) :
    ∃ a us, (∃ v, CharLit a v) ∧ ts = [.node .character (Meta.charText a) us] := by
  obtain ⟨a, us, ha, e, h⟩ := inv_character h
  refine ⟨a, us, ?_, h⟩
  rcases ha with ha | rfl
  · exact ha
  · refine absurd ?_ hx.quote
    rw [e.suf]
    exact (List.prefix_append _ _).isInfix

theorem inv_rangeRule {raw : RawMeaning} (hx : Plain raw c.suf) (h : MRec .nonAtomic (.ref .range) c (some (c', ts))) :
    ∃ t a b, (∃ v, CharLit a v) ∧ (∃ v, CharLit b v) ∧ PTree.Spells t (Meta.rangePair a b) ∧ ts = [t] := by
  obtain ⟨us, h0, hts⟩ := inv_normal rfl (by simp) h
  obtain ⟨c1, c2, _, _, h1, g1, b1, b2, hu1⟩ := inv_seqB h0
  obtain ⟨c3, c4, _, _, h2, h3, b3, b4, hu2⟩ := inv_seqB g1
  obtain ⟨a, u1, ha, rfl⟩ := inv_charB hx h1
  obtain ⟨_, rfl⟩ := inv_tokN rfl (by simp) h2
  obtain ⟨b, u2, hb, rfl⟩ := inv_charB (hx.below (b1.trans (b2.trans (b3.trans b4)))) h3
  refine ⟨_, a, b, ha, hb, ?_, hts⟩
  rw [hu1, hu2]
  exact ⟨rfl, rfl⟩

theorem inv_optNumber (h : MRec .nonAtomic (.opt (.ref .number)) c (some (c', ts))) :
    ∃ a : Option Nat, ts.map (fun t => (PTree.rule t, PTree.text t)) = Meta.boundPairs .number (a.map Meta.decimal) := by
  rcases inv_opt h with h | ⟨_, _, rfl⟩
  · obtain ⟨n, _, rfl⟩ := inv_number h
    exact ⟨some n, rfl⟩
  · exact ⟨none, rfl⟩

theorem inv_optInteger (h : MRec .nonAtomic (.opt (.ref .integer)) c (some (c', ts))) :
    ∃ a : Option IntLit, ts.map (fun t => (PTree.rule t, PTree.text t)) = Meta.boundPairs .integer (a.map IntLit.text) := by
  rcases inv_opt h with h | ⟨_, _, rfl⟩
  · obtain ⟨n, _, rfl⟩ := inv_integer (by simp) h
    exact ⟨some n, rfl⟩
  · exact ⟨none, rfl⟩

theorem inv_bounded (h : MRec .nonAtomic (.ref .boundedRepeat) c (some (c', ts))) :
    ∃ (p : PostOp) (t : PTree), p.IsTree t ∧ ts = [t] := by
  obtain ⟨us, h0, hts⟩ := inv_normal rfl (by simp) h
  obtain ⟨_, _, _, _, h1, g1, _, _, hu1⟩ := inv_seqB h0
  obtain ⟨_, _, _, _, h2, h3, _, _, hu2⟩ := inv_seqB g1
  obtain ⟨_, rfl⟩ := inv_tokN rfl (by simp) h1
  obtain ⟨_, rfl⟩ := inv_tokN rfl (by simp) h3
  rcases inv_choice h2 with h2 | ⟨_, h2⟩
  · obtain ⟨_, _, _, _, k1, g2, _, _, hu3⟩ := inv_seqB h2
    obtain ⟨_, _, _, _, k2, k3, _, _, hu4⟩ := inv_seqB g2
    obtain ⟨a, ha⟩ := inv_optNumber k1
    obtain ⟨_, rfl⟩ := inv_tokN rfl (by simp) k2
    obtain ⟨b, hb⟩ := inv_optNumber k3
    refine ⟨.bounds a b, _, ?_, hts⟩
    refine ⟨rfl, ?_⟩
    rw [hu1, hu2, hu3, hu4]
    simp only [PTree.pair, PTree.inner, List.map_append, ha, hb, Meta.repeatPair]
    simp [tok, PTree.rule, PTree.text]
  · obtain ⟨n, _, rfl⟩ := inv_number h2
    refine ⟨.exact n, _, ⟨rfl, ?_⟩, hts⟩
    rw [hu1, hu2]
    rfl

theorem inv_sliceRule (h : MRec .nonAtomic (.ref .slice) c (some (c', ts))) :
    ∃ (t : PTree) (a b : Option IntLit), t.Spells (Meta.slicePair (a.map IntLit.text) (b.map IntLit.text)) ∧ ts = [t] := by
  obtain ⟨us, h0, hts⟩ := inv_normal rfl (by simp) h
  obtain ⟨_, _, _, _, h1, g1, _, _, hu1⟩ := inv_seqB h0
  obtain ⟨_, _, _, _, h2, g2, _, _, hu2⟩ := inv_seqB g1
  obtain ⟨_, _, _, _, h3, g3, _, _, hu3⟩ := inv_seqB g2
  obtain ⟨_, _, _, _, h4, h5, _, _, hu4⟩ := inv_seqB g3
  obtain ⟨_, rfl⟩ := inv_tokN rfl (by simp) h1
  obtain ⟨a, ha⟩ := inv_optInteger h2
  obtain ⟨_, rfl⟩ := inv_tokN rfl (by simp) h3
  obtain ⟨b, hb⟩ := inv_optInteger h4
  obtain ⟨_, rfl⟩ := inv_tokN rfl (by simp) h5
  refine ⟨_, a, b, ⟨rfl, ?_⟩, hts⟩
  rw [hu1, hu2, hu3, hu4]
  simp only [PTree.pair, PTree.inner, List.map_append, ha, hb, Meta.slicePair]
  simp [tok, PTree.rule, PTree.text]

/-! ## Operators -/

theorem inv_overridable (h : MRec .nonAtomic (.ref .overridableOperator) c (some (c', ts))) :
    ∃ t : Trivia, t ≠ .none ∧ ts = sepTrees (some t) := by
  rcases inv_choice (inv_silent rfl h) with h | ⟨_, h⟩
  · obtain ⟨_, rfl⟩ := inv_tokN rfl (by simp) h
    exact ⟨.optional, by simp, rfl⟩
  · obtain ⟨_, rfl⟩ := inv_tokN rfl (by simp) h
    exact ⟨.mandatory, by simp, rfl⟩

theorem inv_choiceOp (h : MRec .nonAtomic (.ref .choiceOperator) c (some (c', ts))) :
    ∃ t : PTree, t.rule = .choiceOperator ∧ ts = [t] := by
  obtain ⟨us, _, hts⟩ := inv_normal rfl (by simp) h
  exact ⟨_, rfl, hts⟩

theorem inv_infix (h : MRec .nonAtomic (.ref .infixOperator) c (some (c', ts))) :
    ∃ t : PTree, IsInfix t.rule ∧ ts = [t] := by
  rcases inv_choice (inv_silent rfl h) with h | ⟨_, h⟩
  · obtain ⟨_, rfl⟩ := inv_tokN rfl (by simp) h
    exact ⟨_, Or.inl rfl, rfl⟩
  rcases inv_choice h with h | ⟨_, h⟩
  · obtain ⟨_, rfl⟩ := inv_tokN rfl (by simp) h
    exact ⟨_, Or.inr (Or.inl rfl), rfl⟩
  rcases inv_choice h with h | ⟨_, h⟩
  · obtain ⟨_, rfl⟩ := inv_tokN rfl (by simp) h
    exact ⟨_, Or.inr (Or.inr (Or.inl rfl)), rfl⟩
  · obtain ⟨t, ht, rfl⟩ := inv_choiceOp h
    exact ⟨t, Or.inr (Or.inr (Or.inr ht)), rfl⟩

theorem inv_prefix (h : MRec .nonAtomic (.ref .prefixOperator) c (some (c', ts))) : ∃ p : Pre, ts = [p.tree] := by
  rcases inv_choice (inv_silent rfl h) with h | ⟨_, h⟩
  · obtain ⟨_, rfl⟩ := inv_tokN rfl (by simp) h
    exact ⟨.pos, rfl⟩
  · obtain ⟨_, rfl⟩ := inv_tokN rfl (by simp) h
    exact ⟨.neg, rfl⟩

theorem inv_postfix (h : MRec .nonAtomic (.ref .postfixOperator) c (some (c', ts))) :
    ∃ (p : Post) (t : PTree), p.sep ≠ some .none ∧ p.op.IsTree t ∧ ts = sepTrees p.sep ++ [t] := by
  obtain ⟨_, _, us, vs, h1, h2, _, _, rfl⟩ := inv_seqB (inv_silent rfl h)
  have k1 : ∃ s : Option Trivia, s ≠ some .none ∧ us = sepTrees s := by
    rcases inv_opt h1 with h1 | ⟨_, _, hu⟩
    · obtain ⟨t, ht, hu⟩ := inv_overridable h1
      exact ⟨some t, by simpa using ht, hu⟩
    · exact ⟨none, by simp, hu⟩
  have k2 : ∃ (p : PostOp) (t : PTree), p.IsTree t ∧ vs = [t] := by
    rcases inv_choice h2 with h | ⟨_, h⟩
    · obtain ⟨_, hu⟩ := inv_tokN rfl (by simp) h
      exact ⟨.opt, _, rfl, hu⟩
    rcases inv_choice h with h | ⟨_, h⟩
    · obtain ⟨_, hu⟩ := inv_tokN rfl (by simp) h
      exact ⟨.star, _, rfl, hu⟩
    rcases inv_choice h with h | ⟨_, h⟩
    · obtain ⟨_, hu⟩ := inv_tokN rfl (by simp) h
      exact ⟨.plus, _, rfl, hu⟩
    · exact inv_bounded h
  obtain ⟨s, hs, rfl⟩ := k1
  obtain ⟨p, t, hp, rfl⟩ := k2
  exact ⟨⟨s, p⟩, t, hs, hp, rfl⟩

theorem posts_of (tss : List (List PTree))
    (h : ∀ us ∈ tss, ∃ (p : Post) (t : PTree), p.sep ≠ some .none ∧ p.op.IsTree t ∧ us = sepTrees p.sep ++ [t]) :
    ∃ ps, PostTrees ps tss.flatten := by
  induction tss with
  | nil => exact ⟨[], .nil⟩
  | cons us tss ih =>
    obtain ⟨ps, hps⟩ := ih fun u hu => h u (List.mem_cons_of_mem _ hu)
    obtain ⟨p, t, h1, h2, rfl⟩ := h _ List.mem_cons_self
    refine ⟨p :: ps, ?_⟩
    rw [List.flatten_cons, List.append_assoc]
    exact .cons h1 h2 hps

theorem pres_of (tss : List (List PTree)) (h : ∀ us ∈ tss, ∃ p : Pre, us = [p.tree]) :
    ∃ ps : List Pre, tss.flatten = ps.map Pre.tree := by
  induction tss with
  | nil => exact ⟨[], rfl⟩
  | cons us tss ih =>
    obtain ⟨ps, hps⟩ := ih fun u hu => h u (List.mem_cons_of_mem _ hu)
    obtain ⟨p, rfl⟩ := h _ List.mem_cons_self
    exact ⟨p :: ps, by rw [List.flatten_cons, hps]; rfl⟩

theorem path_of (x : Name) (hx : IsIdent x) (tss : List (List PTree))
    (h : ∀ us ∈ tss, ∃ y, IsIdent y ∧ us = [tok .ancestryOperator "::", .node .identifier y []]) :
    ∃ ys, (∀ y ∈ x :: ys, IsIdent y) ∧ PTree.node .identifier x [] :: tss.flatten = pathTrees (x :: ys) := by
  induction tss generalizing x with
  | nil => exact ⟨[], by simpa using hx, rfl⟩
  | cons us tss ih =>
    obtain ⟨y, hy, rfl⟩ := h _ List.mem_cons_self
    obtain ⟨ys, hid, hys⟩ := ih y hy fun u hu => h u (List.mem_cons_of_mem _ hu)
    refine ⟨y :: ys, ?_, by rw [List.flatten_cons, pathTrees, ← hys]; rfl⟩
    intro z hz
    rcases List.mem_cons.1 hz with rfl | hz
    · exact hx
    · exact hid z hz

theorem commas_of {P : PTree → Prop} (tr : Bool) (a : PTree) (ha : P a) (tss : List (List PTree))
    (h : ∀ us ∈ tss, ∃ b, P b ∧ us = [tok .comma ",", b]) :
    ∃ l : List PTree, (∀ b ∈ l, P b) ∧ a :: (tss.flatten ++ if tr then [tok .comma ","] else []) = commaTrees tr (a :: l) := by
  induction tss generalizing a with
  | nil => exact ⟨[], by simp, by cases tr <;> rfl⟩
  | cons us tss ih =>
    obtain ⟨b, hb, rfl⟩ := h _ List.mem_cons_self
    obtain ⟨l, hl, hys⟩ := ih b hb fun u hu => h u (List.mem_cons_of_mem _ hu)
    refine ⟨b :: l, ?_, ?_⟩
    · intro y hy
      rcases List.mem_cons.1 hy with rfl | hy
      · exact hb
      · exact hl y hy
    · rw [List.flatten_cons, commaTrees, ← hys]; rfl

/-- `(e ~ ("," ~ e)* ~ ","?)?`. -/
theorem inv_commas {P : PTree → Prop} {e : PE}
    (hP : ∀ a b us, Below c a → MRec .nonAtomic e a (some (b, us)) → ∃ t, P t ∧ us = [t])
    (h : MRec .nonAtomic (.opt (seqs [e, .rep (.seq (.ref .comma) e), .opt (.ref .comma)])) c (some (c', ts))) :
    ∃ (tr : Bool) (l : List PTree), (∀ b ∈ l, P b) ∧ ts = commaTrees tr l := by
  rcases inv_opt h with h | ⟨_, _, rfl⟩
  · obtain ⟨c1, c2, _, _, h1, g1, b1, b2, hu1⟩ := inv_seqB h
    obtain ⟨c3, c4, _, vs, h2, h3, b3, b4, hu2⟩ := inv_seqB g1
    obtain ⟨a, ha, rfl⟩ := hP _ _ _ (.refl c) h1
    obtain ⟨tss, rfl, hs⟩ := inv_repB h2
    have hs' : ∀ us ∈ tss, ∃ b, P b ∧ us = [tok .comma ",", b] := by
      intro us hu
      obtain ⟨x, y, k, hb⟩ := hs us hu
      obtain ⟨d1, d2, _, _, k1, k2, p1, p2, rfl⟩ := inv_seqB k
      obtain ⟨_, rfl⟩ := inv_tokN rfl (by simp) k1
      obtain ⟨b, hb', rfl⟩ := hP _ _ _ (b1.trans (b2.trans (hb.trans (p1.trans p2)))) k2
      exact ⟨b, hb', rfl⟩
    have ht : ∃ tr : Bool, vs = if tr then [tok .comma ","] else [] := by
      rcases inv_opt h3 with h3 | ⟨_, _, hu⟩
      · obtain ⟨_, hu⟩ := inv_tokN rfl (by simp) h3
        exact ⟨true, hu⟩
      · exact ⟨false, hu⟩
    obtain ⟨tr, rfl⟩ := ht
    obtain ⟨l, hl, he⟩ := commas_of tr a ha tss hs'
    refine ⟨tr, a :: l, ?_, ?_⟩
    · intro y hy
      rcases List.mem_cons.1 hy with rfl | hy
      · exact ha
      · exact hl y hy
    · rw [hu1, hu2, ← he]; rfl
  · exact ⟨false, [], by simp, rfl⟩

theorem inv_identN (h : MRec .nonAtomic (.ref .identifier) c (some (c', ts))) :
    ∃ n, IsIdent n ∧ Eats c n c' ∧ ts = [.node .identifier n []] := inv_identifier h

/-! ## Expressions -/

section
variable {raw : RawMeaning} {n : Nat}

/-- Expressions shorter than `n` have the shape. -/
def ShapeHyp (raw : RawMeaning) (n : Nat) : Prop :=
  ∀ c c' ts, c.suf.length < n → Plain raw c.suf → MRec .nonAtomic (.ref .expression) c (some (c', ts)) →
    ∃ t, ts = [t] ∧ t.rule = .expression ∧ ShapedBy raw (.expr t)

/-- The names of a path, and what follows. -/
theorem inv_path (h : MRec .nonAtomic (.ref .path) c (some (c', ts))) :
    ∃ x q c1 tail, q ≠ [] ∧ (∀ y ∈ q, IsIdent y) ∧ c1.suf.length < c.suf.length ∧ Below c c1 ∧
      MRec .nonAtomic (.opt (.choice (.ref .call) (.ref .slice))) c1 (some (c', tail)) ∧ ts = [.node .path x (pathTrees q ++ tail)] := by
  obtain ⟨us, h0, hts⟩ := inv_normal rfl (by simp) h
  obtain ⟨c1, c2, _, _, h1, g1, b1, b2, hu1⟩ := inv_seqB h0
  obtain ⟨c3, c4, _, _, h2, h3, b3, b4, hu2⟩ := inv_seqB g1
  obtain ⟨x, hid, e1, rfl⟩ := inv_identN h1
  obtain ⟨tss, rfl, hs⟩ := inv_repB h2
  obtain ⟨ys, hall, hys⟩ := path_of x hid tss (by
    intro us hu
    obtain ⟨_, _, k, _⟩ := hs us hu
    obtain ⟨_, _, _, _, k1, k2, _, _, rfl⟩ := inv_seqB k
    obtain ⟨_, rfl⟩ := inv_tokN rfl (by simp) k1
    obtain ⟨y, hy, _, rfl⟩ := inv_identN k2
    exact ⟨y, hy, rfl⟩)
  refine ⟨between c c', _, c4, _, by simp, hall, ?_, b1.trans (b2.trans (b3.trans b4)), h3, ?_⟩
  · have := e1.lt (by cases hid; simp)
    have := (b2.trans (b3.trans b4)).le
    omega
  · rw [hts, hu1, hu2, ← List.append_assoc, List.singleton_append, hys]

/-- A path with what follows it. -/
theorem inv_pathRule (hyp : ShapeHyp raw n) (hn : c.suf.length ≤ n) (hx : Plain raw c.suf)
    (h : MRec .nonAtomic (.ref .path) c (some (c', ts))) : ShapedBy raw (.node ts) := by
  obtain ⟨x, q, c4, tail, hq, _, hlt, hb4, h3, hts⟩ := inv_path h
  have hlt := Nat.lt_of_lt_of_le hlt hn
  rcases inv_opt h3 with h3 | ⟨_, _, rfl⟩
  · rcases inv_choice h3 with h3 | ⟨_, h3⟩
    · obtain ⟨vs, k0, hv⟩ := inv_normal rfl (by simp) h3
      obtain ⟨d1, d2, _, _, k1, l1, p1, p2, hv1⟩ := inv_seqB k0
      obtain ⟨d3, d4, _, _, k2, k3, p3, p4, hv2⟩ := inv_seqB l1
      obtain ⟨_, rfl⟩ := inv_tokN rfl (by simp) k1
      obtain ⟨_, rfl⟩ := inv_tokN rfl (by simp) k3
      obtain ⟨tr, l, hl, rfl⟩ := inv_commas (P := fun t => ShapedBy raw (.expr t)) (by
        intro a b us hb k
        have hba := (p1.trans p2).trans hb
        obtain ⟨t, ht, _, hs⟩ := hyp a b us (Nat.lt_of_le_of_lt hba.le hlt) (hx.below (hb4.trans hba)) k
        exact ⟨t, hs, ht⟩) k2
      rw [hts, hv, hv1, hv2]
      exact .call hq hl
    · obtain ⟨t, a, b, ht, rfl⟩ := inv_sliceRule h3
      rw [hts]
      exact .slice hq ht
  · rw [hts, List.append_nil]
    exact .path hq

theorem inv_node (hyp : ShapeHyp raw n) (hn : c.suf.length ≤ n) (hx : Plain raw c.suf)
    (h : MRec .nonAtomic (.ref .node) c (some (c', ts))) : ShapedBy raw (.node ts) := by
  rcases inv_choice (inv_silent rfl h) with h | ⟨_, h⟩
  · obtain ⟨c1, c2, _, _, h1, g1, b1, b2, hu1⟩ := inv_seqB h
    obtain ⟨c3, c4, _, _, h2, h3, b3, b4, hu2⟩ := inv_seqB g1
    obtain ⟨e1, rfl⟩ := inv_tokN rfl (by simp) h1
    obtain ⟨_, rfl⟩ := inv_tokN rfl (by simp) h3
    obtain ⟨t, rfl, _, ht⟩ := hyp _ _ _ (by
      have := e1.lt (by simp)
      have := b2.le
      omega) (hx.below (b1.trans b2)) h2
    rw [hu1, hu2]
    exact .paren ht
  rcases inv_choice (inv_silent rfl h) with h | ⟨_, h⟩
  · obtain ⟨s, o, t, hs, ht, _, rfl⟩ := inv_string h
    exact .str ht hs
  rcases inv_choice h with h | ⟨_, h⟩
  · obtain ⟨k, s, t, ht, ⟨r, hr⟩, _, rfl⟩ := inv_rawString h
    obtain ⟨s', hs'⟩ := hx.raw k s (by
      cases k with
      | zero => exact Or.inl rfl
      | succ k =>
        refine Or.inr ?_
        rw [hr, List.replicate_succ]
        exact ⟨[], List.replicate k '#' ++ r, rfl⟩)
    exact .raw ht hs'
  rcases inv_choice h with h | ⟨_, h⟩
  · obtain ⟨s, o, t, hs, ht, rfl⟩ := inv_insensitive h
    exact .insens ht hs
  rcases inv_choice h with h | ⟨_, h⟩
  · exact inv_pathRule hyp hn hx h
  · obtain ⟨t, a, b, ⟨_, ha⟩, ⟨_, hb⟩, ht, rfl⟩ := inv_rangeRule hx h
    exact .range ht ha hb

theorem inv_term (hyp : ShapeHyp raw n) (hn : c.suf.length ≤ n) (hx : Plain raw c.suf)
    (h : MRec .nonAtomic (.ref .term) c (some (c', ts))) : ∃ t, ts = [t] ∧ ShapedBy raw (.term t) := by
  obtain ⟨us, h0, hts⟩ := inv_normal rfl (by simp) h
  obtain ⟨c1, c2, _, _, h1, g1, b1, b2, hu1⟩ := inv_seqB h0
  obtain ⟨c3, c4, _, _, h2, h3, b3, b4, hu2⟩ := inv_seqB g1
  obtain ⟨ps, rfl, hp⟩ := inv_repB h1
  obtain ⟨pres, hpres⟩ := pres_of ps fun us hu => by
    obtain ⟨_, _, k, _⟩ := hp us hu
    exact inv_prefix k
  obtain ⟨qs, rfl, hq⟩ := inv_repB h3
  obtain ⟨posts, hposts⟩ := posts_of qs fun us hu => by
    obtain ⟨_, _, k, _⟩ := hq us hu
    exact inv_postfix k
  have hb := b1.trans b2
  have hnode := inv_node hyp (Nat.le_trans hb.le hn) (hx.below hb) h2
  refine ⟨_, hts, ?_⟩
  rw [hu1, hu2, hpres]
  exact .term hnode hposts

theorem chain_of (t : PTree) (ht : ShapedBy raw (.term t)) (tss : List (List PTree))
    (h : ∀ us ∈ tss, ∃ op t, IsInfix (PTree.rule op) ∧ ShapedBy raw (.term t) ∧ us = [op, t]) :
    ShapedBy raw (.chain (t :: tss.flatten)) := by
  induction tss generalizing t with
  | nil => exact .one ht
  | cons us tss ih =>
    obtain ⟨op, u, h1, h2, rfl⟩ := h _ List.mem_cons_self
    have := ih u h2 fun v hv => h v (List.mem_cons_of_mem _ hv)
    exact .more ht h1 this

theorem inv_expression (raw : RawMeaning) (n : Nat) : ShapeHyp raw n := by
  induction n with
  | zero => intro c c' ts hl; exact absurd hl (Nat.not_lt_zero _)
  | succ n hyp =>
    intro c c' ts hl hx h
    have hn : c.suf.length ≤ n := Nat.le_of_lt_succ hl
    obtain ⟨us, h0, hts⟩ := inv_normal rfl (by simp) h
    obtain ⟨c1, c2, _, _, h1, g1, b1, b2, hu1⟩ := inv_seqB h0
    obtain ⟨c3, c4, _, _, h2, h3, b3, b4, hu2⟩ := inv_seqB g1
    have hb := b1.trans b2
    obtain ⟨t, rfl, ht⟩ := inv_term hyp (Nat.le_trans hb.le hn) (hx.below hb) h2
    obtain ⟨tss, rfl, hs⟩ := inv_repB h3
    have hchain : ShapedBy raw (.chain (t :: tss.flatten)) := chain_of t ht tss fun us hu => by
      obtain ⟨a, _, k, hba⟩ := hs us hu
      obtain ⟨d1, d2, _, _, k1, k2, p1, p2, rfl⟩ := inv_seqB k
      obtain ⟨op, hop, rfl⟩ := inv_infix k1
      have hb' := ((hb.trans (b3.trans b4)).trans hba).trans (p1.trans p2)
      obtain ⟨u, rfl, hsh⟩ := inv_term hyp (Nat.le_trans hb'.le hn) (hx.below hb') k2
      exact ⟨op, u, hop, hsh, rfl⟩
    refine ⟨_, hts, rfl, ?_⟩
    rw [hu1, hu2, List.singleton_append]
    rcases inv_opt h1 with h1 | ⟨_, _, rfl⟩
    · obtain ⟨d1, d2, _, _, k1, l1, p1, p2, hv1⟩ := inv_seqB h1
      obtain ⟨d3, d4, _, _, k2, k3, p3, p4, hv2⟩ := inv_seqB l1
      have hb' := p1.trans p2
      obtain ⟨t', rfl, ht'⟩ := inv_term hyp (Nat.le_trans hb'.le hn) (hx.below hb') k2
      obtain ⟨bar', hbar', rfl⟩ := inv_choiceOp k3
      rcases inv_opt k1 with k1 | ⟨_, _, rfl⟩
      · obtain ⟨bar, hbar, rfl⟩ := inv_choiceOp k1
        rw [hv1, hv2]
        exact .leading hbar ht' hbar' hchain
      · rw [hv1, hv2]
        exact .plain (.more ht' (Or.inr (Or.inr (Or.inr hbar'))) hchain)
    · exact .plain hchain

end

end

end Pest3.Gen
