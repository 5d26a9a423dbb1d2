import Verif.DocTrees
import Verif.MetaFileShape
import Verif.SpaceInv

/-!
# What the recogniser accepts: rules and files with their documentation
-/

namespace Pest3.Gen
open Pest3 Pest3.Load
open Pest3.Meta (MetaRule)

section
variable {c c' : Cfg} {ts : List PTree} {m : Mode}

/-- A rule with its documentation. -/
theorem inv_ruleDocs (hc : Skipped c) (h : MRec .nonAtomic (.ref .grammarRule) c (some (c', ts))) :
    ∃ p : RulePart, p.Ok ∧ Takes c p.text c' ∧ ∃ t, ts = [t] ∧ HasDocs t [(p.name, p.lines)] := by
  obtain ⟨us, h0, hts⟩ := inv_normal rfl (by simp) h
  obtain ⟨c1, c2, docs, _, _, h1, h2, h3, hu1⟩ := inv_seq h0
  obtain ⟨c3, c4, nm, sk, rest, h4, h5, h6, hu2⟩ := inv_seq h3
  have hname : ∃ r name, nm = [PTree.node r name []] ∧ (r = .identifier ∨ r = .tildeOperator ∨ r = .caretOperator) ∧ IsRuleName name ∧ Takes c2 name c3 := by
    rcases inv_choice h4 with h4 | ⟨_, h4⟩
    · obtain ⟨n, hn, e, hu⟩ := inv_identN h4
      exact ⟨_, n, hu, .inl rfl, .inl hn, e.takes⟩
    · rcases inv_choice (inv_silent rfl h4) with h4 | ⟨_, h4⟩
      · obtain ⟨e, hu⟩ := inv_tokN rfl (by simp) h4
        exact ⟨_, _, hu, .inr (.inl rfl), .inr (.inl rfl), e.takes⟩
      · obtain ⟨e, hu⟩ := inv_tokN rfl (by simp) h4
        exact ⟨_, _, hu, .inr (.inr rfl), .inr (.inr rfl), e.takes⟩
  obtain ⟨r, name, rfl, hr, hname, en⟩ := hname
  have hne : c2.suf ≠ [] := by
    rw [en.suf]
    intro h
    have : name = [] := (List.append_eq_nil_iff.mp h).1
    subst this
    rcases hname with h | h | h <;> cases h
  obtain ⟨g, d, ls, ed, hg, hd, ht, hgn⟩ := inv_docLines (k := .ruleDoc) (sign := "///") rfl rfl h1 h2 hne
  cases hgn hc
  obtain ⟨b1, e1⟩ := rec_takes h5
  obtain ⟨b2, e2⟩ := rec_takes h6
  refine ⟨⟨d, ls, name, b1 ++ b2⟩, ⟨hd, hname⟩, ed.trans (en.trans (e1.trans e2)), _, hts, .inl ⟨_, _, rfl, rfl, ?_⟩⟩
  obtain ⟨q1, q2⟩ := takeDocs_eq (rest := PTree.node r name [] :: rest) (by decide) ht (by
    rintro t ⟨⟩
    rcases hr with rfl | rfl | rfl <;> simp [PTree.rule])
  unfold ruleDocs
  rw [hu1, hu2]
  simp only [PTree.inner]
  erw [q1, q2]
  rfl

/-- An import or a rule. -/
def ItemHit (a b : Cfg) (us : List PTree) (d : List (Name × List Text)) : Prop :=
  ∃ x, us = [x] ∧ HasDocs x d ∧ ((∃ p : RulePart, p.Ok ∧ Takes a p.text b ∧ d = [(p.name, p.lines)]) ∨
    ∃ t, Takes a ('u' :: 's' :: 'e' :: ' ' :: t) b ∧ d = [])

theorem hit_rule (hc : Skipped c) (h : MRec .nonAtomic (.ref .grammarRule) c (some (c', ts))) : ∃ d, ItemHit c c' ts d := by
  obtain ⟨p, hp, e, t, rfl, ht⟩ := inv_ruleDocs hc h
  exact ⟨_, t, rfl, ht, .inl ⟨p, hp, e, rfl⟩⟩

theorem hit_import (h : MRec .nonAtomic (.ref .import) c (some (c', ts))) : ∃ d, ItemHit c c' ts d := by
  obtain ⟨us, h0, hts⟩ := inv_normal rfl (by simp) h
  obtain ⟨c1, c2, _, _, _, h1, h2, h3, _⟩ := inv_seq h0
  obtain ⟨b1, e1⟩ := rec_takes h2
  obtain ⟨b2, e2⟩ := rec_takes h3
  exact ⟨[], _, hts, .inr ⟨rfl, by simp [PTree.rule], by simp [PTree.rule]⟩, .inr ⟨_, (inv_str h1).1.takes.trans (e1.trans e2), rfl⟩⟩

/-- The rest of a file: nothing, or items. -/
def Rest (a : Cfg) (d : List (Name × List Text)) (ts : List PTree) : Prop :=
  Skipped a ∧ RuleTrees d ts ∧ (a.suf = [] ∧ d = [] ∨ a.suf ≠ [] ∧ ∃ ps, Items ps a.suf ∧ d = partDocs ps)

theorem rest_cons {a b z : Cfg} {us sk : List PTree} {d ds : List (Name × List Text)} (ha : Skipped a) (h : ItemHit a b us d)
    (hs : MRec .nonAtomic .skip b (some (z, sk))) (hz : Rest z ds ts) : Rest a (d ++ ds) (us ++ ts) := by
  obtain ⟨x, rfl, hx, h⟩ := h
  obtain ⟨g, eg, hl, hg, -⟩ := inv_space hs
  obtain ⟨-, ht, hz⟩ := hz
  refine ⟨ha, .cons hx ht, .inr ?_⟩
  rcases h with ⟨p, hp, e, rfl⟩ | ⟨t, e, rfl⟩
  · constructor
    · rw [e.suf]
      intro h
      have h1 := (List.append_eq_nil_iff.mp h).1
      have h2 := (List.append_eq_nil_iff.mp (List.append_eq_nil_iff.mp h1).2).1
      rcases hp.name with k | k | k
      · rw [h2] at k; cases k
      · rw [h2] at k; cases k
      · rw [h2] at k; cases k
    · rcases hz with ⟨hz, rfl⟩ | ⟨hz, ps, hi, rfl⟩
      · refine ⟨[p], ?_, rfl⟩
        rw [e.suf, eg.suf, hz, List.append_nil]
        exact .lastRule hp hl
      · refine ⟨p :: ps, ?_, rfl⟩
        rw [e.suf, eg.suf]
        exact .rule hp (hg hz) hi
  · constructor
    · rw [e.suf]; simp
    · rcases hz with ⟨hz, rfl⟩ | ⟨hz, ps, hi, rfl⟩
      · refine ⟨[], ?_, rfl⟩
        rw [e.suf, eg.suf, hz, List.append_nil]
        exact .lastImport hl
      · refine ⟨ps, ?_, rfl⟩
        rw [e.suf, eg.suf]
        exact .import (hg hz) hi

/-- Items one after the other. -/
theorem rest_loop {e : PE} (he : ∀ {a b us}, Skipped a → MRec .nonAtomic e a (some (b, us)) → ∃ d, ItemHit a b us d) {z : Cfg} {us sk : List PTree}
    {ds : List (Name × List Text)} (hc : Skipped c) (h : MRec .nonAtomic (.rep e) c (some (c', us))) (hs : MRec .nonAtomic .skip c' (some (z, sk)))
    (hz : Rest z ds ts) : ∃ d, Rest c (d ++ ds) (us ++ ts) := by
  have more : ∀ {f : PE} {a : Cfg} {r : Hit} {m' : Mode}, MRec m' f a r → ∀ us, m' = .nonAtomic → f = .more e → r = some (c', us) →
      ∃ w sk d, MRec .nonAtomic .skip a (some (w, sk)) ∧ Rest w (d ++ ds) (us ++ ts) := by
    intro f a r m' h
    induction h with
    | moreNone h1 h2 =>
      intro us hmm hf hr
      cases hr
      exact ⟨_, _, [], hs, hz⟩
    | more h1 h2 h3 ih1 ih2 ih3 =>
      intro us hmm hf hr
      cases hf; cases hr; subst hmm
      obtain ⟨w, sk, d, k1, k2⟩ := ih3 _ rfl rfl rfl
      obtain ⟨-, -, -, -, hk⟩ := inv_space h1
      obtain ⟨d', hd'⟩ := he hk h2
      refine ⟨_, _, d' ++ d, h1, ?_⟩
      have := rest_cons hk hd' k1 k2
      simpa using this
    | _ => intro us hmm hf hr; first | (cases hf; done) | (cases hr; done)
  cases h with
  | repNone h =>
    cases hc.stays hs
    exact ⟨[], hz⟩
  | rep h1 h2 =>
    obtain ⟨w, sk, d, k1, k2⟩ := more h2 _ rfl rfl rfl
    obtain ⟨d', hd'⟩ := he hc h1
    have := rest_cons hc hd' k1 k2
    exact ⟨d' ++ d, by simpa using this⟩

/-- A file with its documentation. -/
theorem inv_fileDocs {text : Text} (h : MRec .nonAtomic (.ref .grammarRules) ⟨[], text, []⟩ (some (c', ts))) :
    ∃ top ps us vs, FileDocs text top ps ∧ ts = us ++ (vs ++ [.node .eoi [] []]) ∧ DocTrees .grammarDoc ['/', '/', '!'] top us ∧
      RuleTrees (partDocs ps) vs := by
  obtain ⟨c1, c2, t1, _, _, h1, s1, g1, hu1⟩ := inv_seq (inv_silent rfl h)
  obtain ⟨c3, c4, docs, _, _, h2, s2, g2, hu2⟩ := inv_seq g1
  obtain ⟨c5, c6, imps, _, _, h3, s3, g3, hu3⟩ := inv_seq g2
  obtain ⟨c7, c8, t4, _, _, h4, s4, g4, hu4⟩ := inv_seq g3
  obtain ⟨c9, c10, rest, _, eoi, h5, s5, h6, hu5⟩ := inv_seq g4
  have hsoi : c1 = ⟨[], text, []⟩ ∧ t1 = [] := by
    generalize hr : (some (c1, t1) : Hit) = r at h1
    cases h1
    split at hr <;> cases hr
    exact ⟨rfl, rfl⟩
  obtain ⟨rfl, rfl⟩ := hsoi
  have heoi : c10.suf = [] ∧ eoi = [PTree.node .eoi [] []] := by
    obtain ⟨vs, k, hv⟩ := inv_normal rfl (by simp) h6
    generalize hr : (some (c', vs) : Hit) = r at k
    cases k
    split at hr <;> cases hr
    rename_i hs
    refine ⟨hs, ?_⟩
    rw [hv]
    simp [between]
  obtain ⟨he, rfl⟩ := heoi
  obtain ⟨-, -, -, -, k10⟩ := inv_space s5
  obtain ⟨-, -, -, -, k8⟩ := inv_space s4
  obtain ⟨-, -, -, -, k6⟩ := inv_space s3
  obtain ⟨-, -, -, -, k4⟩ := inv_space s2
  obtain ⟨g, eg, -, hg, k2⟩ := inv_space s1
  have r10 : Rest c10 [] [] := ⟨k10, .nil, .inl ⟨he, rfl⟩⟩
  obtain ⟨d8, r8⟩ := rest_loop (e := .choice (.ref .import) (.ref .grammarRule)) (by
    intro a b us ha h
    rcases inv_choice h with h | ⟨_, h⟩
    · exact hit_import h
    · exact hit_rule ha h) k8 h5 s5 r10
  obtain ⟨d6, hd6⟩ := hit_rule k6 h4
  have r6 := rest_cons k6 hd6 s4 r8
  obtain ⟨d4, r4⟩ := rest_loop (e := .ref .import) (fun _ h => hit_import h) k4 h3 s3 r6
  obtain ⟨-, ht, hr⟩ := r4
  have h4ne : c4.suf ≠ [] := by
    obtain ⟨t, e⟩ := rec_takes h3
    obtain ⟨u, e'⟩ := rec_takes s3
    obtain ⟨-, -, hr6⟩ := r6
    rw [e.suf, e'.suf]
    rcases hr6 with ⟨-, h⟩ | ⟨h, -⟩
    · obtain ⟨x, rfl, hx, hi⟩ := hd6
      have hd : d6 = [] := (List.append_eq_nil_iff.mp h).1
      subst hd
      obtain ⟨p, -, -, t, ht, hh⟩ := inv_ruleDocs k6 h4
      cases ht
      rcases hx with ⟨_, _, h, _⟩ | ⟨_, h, _⟩
      · cases h
      · rcases hh with ⟨_, _, _, h', _⟩ | ⟨h', _⟩
        · exact absurd h' h
        · cases h'
    · simp [h]
  rcases hr with ⟨h, -⟩ | ⟨-, ps, hi, hd⟩
  · exact absurd h h4ne
  obtain ⟨g', d, ls, ed, -, hdl, hdt, hgn⟩ := inv_docLines (k := .grammarDoc) (sign := "//!") rfl rfl h2 s2 h4ne
  cases hgn k2
  rw [hd] at ht
  refine ⟨ls, ps, docs, _, ⟨g, d, c4.suf, ?_, hg ?_, hdl, hi⟩, ?_, hdt, ht⟩
  · have h1 := eg.suf
    rw [ed.suf] at h1
    exact h1
  · rw [ed.suf]; simp [h4ne]
  · rw [hu1, hu2, hu3, hu4, hu5]; simp

end

end Pest3.Gen
