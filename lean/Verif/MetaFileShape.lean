import Verif.MetaShape
import Verif.Pest2Term
import Verif.MetaExprTotal

/-!
# What the recogniser accepts: rules, imports and files
-/

namespace Pest3.Gen
open Pest3
open Pest3.Meta (MetaRule Denotes)
open Pest3.Load (IsIdent IsRuleName ImportArgs)

section
variable {c c' : Cfg} {ts : List PTree}

theorem inv_docs {r : MetaRule} {e : PE} (hr : metaGrammar r = (.compound, e)) (h : MRec .nonAtomic (.rep (.ref r)) c (some (c', ts))) :
    ∀ d ∈ ts, PTree.rule d = r := by
  obtain ⟨tss, rfl, hs⟩ := inv_repB h
  intro d hd
  obtain ⟨us, hu, hd⟩ := List.mem_flatten.1 hd
  obtain ⟨_, _, k, _⟩ := hs us hu
  obtain ⟨_, _, rfl⟩ := inv_compound hr k
  cases List.mem_singleton.1 hd
  rfl

theorem inv_arguments (h : MRec .nonAtomic (.ref .arguments) c (some (c', ts))) :
    ∃ (y : Text) (tr : Bool) (l : List Name), (∀ p ∈ l, IsIdent p) ∧ ts = [.node .arguments y (tok .openingParen "(" ::
      (commaTrees tr (l.map fun p => .node .identifier p []) ++ [tok .closingParen ")"]))] := by
  obtain ⟨us, h0, hts⟩ := inv_normal rfl (by simp) h
  obtain ⟨_, _, _, _, h1, g1, _, _, hu1⟩ := inv_seqB h0
  obtain ⟨_, _, _, _, h2, h3, _, _, hu2⟩ := inv_seqB g1
  obtain ⟨_, rfl⟩ := inv_tokN rfl (by simp) h1
  obtain ⟨_, rfl⟩ := inv_tokN rfl (by simp) h3
  obtain ⟨tr, l, hl, rfl⟩ := inv_commas (P := fun t => ∃ p, IsIdent p ∧ t = PTree.node .identifier p []) (by
    intro a b us _ k
    obtain ⟨n, hn, _, hu⟩ := inv_identN k
    exact ⟨_, ⟨n, hn, rfl⟩, hu⟩) h2
  have : ∃ ps : List Name, (∀ p ∈ ps, IsIdent p) ∧ l = ps.map fun p => PTree.node .identifier p [] := by
    clear h2 hu2
    induction l with
    | nil => exact ⟨[], by simp, rfl⟩
    | cons a l ih =>
      obtain ⟨ps, h1, rfl⟩ := ih fun b hb => hl b (List.mem_cons_of_mem _ hb)
      obtain ⟨p, hp, rfl⟩ := hl a (by simp)
      refine ⟨p :: ps, ?_, rfl⟩
      intro q hq
      rcases List.mem_cons.1 hq with rfl | hq
      · exact hp
      · exact h1 q hq
  obtain ⟨ps, hps, rfl⟩ := this
  exact ⟨_, tr, ps, hps, by rw [hts, hu1, hu2]; rfl⟩

theorem inv_silentModifier (h : MRec .nonAtomic (.opt (.ref .silentModifier)) c (some (c', ts))) :
    ∃ s : Bool, ts = if s then [tok .silentModifier "_"] else [] := by
  rcases inv_opt h with h | ⟨_, _, rfl⟩
  · obtain ⟨us, h0, hts⟩ := inv_atomic rfl h
    obtain ⟨_, _, _, h1, h2, hu⟩ := inv_seq' (by simp) h0
    obtain ⟨e, rfl⟩ := inv_str h1
    obtain ⟨rfl, rfl, _⟩ := inv_neg h2
    refine ⟨true, ?_⟩
    rw [hts, hu, e.between]; rfl
  · exact ⟨false, rfl⟩

theorem inv_grammarRule {raw : RawMeaning} (hx : Plain raw c.suf) (h : MRec .nonAtomic (.ref .grammarRule) c (some (c', ts))) :
    ∃ t name params silent e, ts = [t] ∧ RuleShaped t name params silent e ∧ ShapedBy raw (.expr e) ∧ IsRuleName name ∧
      ∀ p ∈ params, IsIdent p := by
  obtain ⟨us, h0, hts⟩ := inv_normal rfl (by simp) h
  obtain ⟨c1, c2, docs, _, h1, g1, b1, b2, hu1⟩ := inv_seqB h0
  obtain ⟨c3, c4, nm, _, h2, g2, b3, b4, hu2⟩ := inv_seqB g1
  obtain ⟨c5, c6, ps, _, h3, g3, b5, b6, hu3⟩ := inv_seqB g2
  obtain ⟨c7, c8, _, _, h4, g4, b7, b8, hu4⟩ := inv_seqB g3
  obtain ⟨c9, c10, sl, body, h5, h6, b9, b10, hu5⟩ := inv_seqB g4
  have hdocs := inv_docs rfl h1
  have hname : ∃ r name, nm = [PTree.node r name []] ∧ (r = .identifier ∨ r = .tildeOperator ∨ r = .caretOperator) ∧ IsRuleName name := by
    rcases inv_choice h2 with h2 | ⟨_, h2⟩
    · obtain ⟨n, hn, _, hu⟩ := inv_identN h2
      exact ⟨_, n, hu, .inl rfl, .inl hn⟩
    · rcases inv_choice (inv_silent rfl h2) with h2 | ⟨_, h2⟩
      · obtain ⟨_, hu⟩ := inv_tokN rfl (by simp) h2
        exact ⟨_, _, hu, .inr (.inl rfl), .inr (.inl rfl)⟩
      · obtain ⟨_, hu⟩ := inv_tokN rfl (by simp) h2
        exact ⟨_, _, hu, .inr (.inr rfl), .inr (.inr rfl)⟩
  obtain ⟨r, name, rfl, hr, hname⟩ := hname
  have hps : ∃ (y : Text) (tr : Bool) (l : Option (List Name)), (∀ p ∈ l.getD [], IsIdent p) ∧ ps = match l with
      | none => []
      | some l => [.node .arguments y (tok .openingParen "(" ::
            (commaTrees tr (l.map fun p => .node .identifier p []) ++ [tok .closingParen ")"]))] := by
    rcases inv_opt h3 with h3 | ⟨_, _, hu⟩
    · obtain ⟨y, tr, l, hl, hu⟩ := inv_arguments h3
      exact ⟨y, tr, some l, hl, hu⟩
    · exact ⟨[], false, none, by simp, hu⟩
  obtain ⟨y, tr, l, hl, hps⟩ := hps
  obtain ⟨_, rfl⟩ := inv_tokN rfl (by simp) h4
  obtain ⟨silent, rfl⟩ := inv_silentModifier h5
  have hb10 : Below c c10 := b1.trans (b2.trans (b3.trans (b4.trans (b5.trans (b6.trans (b7.trans (b8.trans (b9.trans b10))))))))
  have hbody : ∃ e, (body = [e] ∨ body = [tok .openingBrace "{", e, tok .closingBrace "}"]) ∧ e.rule = .expression ∧
      ShapedBy raw (.expr e) := by
    rcases inv_choice h6 with h6 | ⟨_, h6⟩
    · obtain ⟨d1, d2, _, _, k1, l1, p1, p2, hv1⟩ := inv_seqB h6
      obtain ⟨d3, d4, _, _, k2, k3, p3, p4, hv2⟩ := inv_seqB l1
      obtain ⟨_, rfl⟩ := inv_tokN rfl (by simp) k1
      obtain ⟨_, rfl⟩ := inv_tokN rfl (by simp) k3
      obtain ⟨e, rfl, he, hs⟩ := inv_expression raw _ _ _ _ (Nat.lt_succ_self _) (hx.below (hb10.trans (p1.trans p2))) k2
      exact ⟨e, .inr (by rw [hv1, hv2]; rfl), he, hs⟩
    · obtain ⟨e, rfl, he, hs⟩ := inv_expression raw _ _ _ _ (Nat.lt_succ_self _) (hx.below hb10) h6
      exact ⟨e, .inl rfl, he, hs⟩
  obtain ⟨e, hb, he, hs⟩ := hbody
  refine ⟨_, name, l.getD [], silent, e, hts, ?_, hs, hname, hl⟩
  rw [hu1, hu2, hu3, hu4, hu5]
  exact .mk (x := between c c') hdocs hr hps he hb

theorem inv_import (h : MRec .nonAtomic (.ref .import) c (some (c', ts))) :
    ∃ t, ts = [t] ∧ (ImportArgs t ∨ ∃ q file alias, ImportShaped t q file alias ∧ (∀ s ∈ file, ∃ o, Denotes s o) ∧
      (∀ x ∈ q, IsIdent x) ∧ ∀ x ∈ alias, IsIdent x) := by
  obtain ⟨us, h0, hts⟩ := inv_normal rfl (by simp) h
  obtain ⟨_, _, _, _, h1, g1, _, _, hu1⟩ := inv_seqB h0
  obtain ⟨_, _, pt, _, h2, g2, _, _, hu2⟩ := inv_seqB g1
  obtain ⟨_, _, fs, als, h3, h4, _, _, hu3⟩ := inv_seqB g2
  obtain ⟨_, rfl⟩ := inv_str h1
  obtain ⟨x, q, _, tail, hq, hid, _, _, k, rfl⟩ := inv_path h2
  refine ⟨_, hts, ?_⟩
  rw [hu1, hu2, hu3]
  rcases inv_opt k with k | ⟨_, _, rfl⟩
  · refine .inl ?_
    rcases inv_choice k with k | ⟨_, k⟩
    · obtain ⟨_, _, rfl⟩ := inv_normal rfl (by simp) k
      exact .mk hq (.inl rfl)
    · obtain ⟨_, _, rfl⟩ := inv_normal rfl (by simp) k
      exact .mk hq (.inr rfl)
  · refine .inr ?_
    have hf : ∃ file : Option (PTree × Text), (∀ f ∈ file, f.1.pair = Meta.stringPair f.2) ∧ (∀ f ∈ file, ∃ o, Denotes f.2 o) ∧
        fs = (file.map Prod.fst).toList := by
      rcases inv_opt h3 with h3 | ⟨_, _, hu⟩
      · obtain ⟨_, _, _, _, l1, l2, _, _, hv⟩ := inv_seqB h3
        obtain ⟨_, rfl⟩ := inv_str l1
        obtain ⟨s, o, t, hs, ht, _, rfl⟩ := inv_string l2
        exact ⟨some (t, s), by simpa using ht, by simpa using ⟨o, hs⟩, hv⟩
      · exact ⟨none, by simp, by simp, hu⟩
    have ha : ∃ alias : Option Name, (∀ x ∈ alias, IsIdent x) ∧ als = (alias.map fun a => PTree.node .identifier a []).toList := by
      rcases inv_opt h4 with h4 | ⟨_, _, hu⟩
      · obtain ⟨_, _, _, _, l1, l2, _, _, hv⟩ := inv_seqB h4
        obtain ⟨_, rfl⟩ := inv_str l1
        obtain ⟨n, hn, _, rfl⟩ := inv_identN l2
        exact ⟨some n, by simpa using hn, hv⟩
      · exact ⟨none, by simp, hu⟩
    obtain ⟨file, h5, h6, rfl⟩ := hf
    obtain ⟨alias, h7, rfl⟩ := ha
    refine ⟨q, file.map Prod.snd, alias, ?_, ?_, hid, h7⟩
    · rw [List.append_nil]
      exact .mk hq h5
    · intro s hs
      obtain ⟨f, hf, rfl⟩ := Option.map_eq_some_iff.1 hs
      exact h6 f hf

/-- What the items of a file are. -/
def ItemShaped (raw : RawMeaning) (t : PTree) : Prop :=
  t.rule = .grammarDoc ∨ ImportArgs t ∨
  (∃ q file alias, ImportShaped t q file alias ∧ (∀ s ∈ file, ∃ o, Denotes s o) ∧ (∀ x ∈ q, IsIdent x) ∧ ∀ x ∈ alias, IsIdent x) ∨
  ∃ name params silent e, RuleShaped t name params silent e ∧ ShapedBy raw (.expr e) ∧ IsRuleName name ∧ ∀ p ∈ params, IsIdent p

theorem inv_file {raw : RawMeaning} (hx : Plain raw c.suf) (h : MRec .nonAtomic (.ref .grammarRules) c (some (c', ts))) :
    ∃ items, ts = items ++ [.node .eoi [] []] ∧ c'.suf = [] ∧ (∀ t ∈ items, ItemShaped raw t) ∧ (∃ t ∈ items, t.rule = .grammarRule) ∧
      ∃ docs rest, items = docs ++ rest ∧ (∀ t ∈ docs, t.rule = .grammarDoc) ∧ ∀ t ∈ rest, t.rule ≠ .grammarDoc := by
  have himp : ∀ {a b us}, MRec .nonAtomic (.ref .import) a (some (b, us)) → ∃ t, us = [t] ∧ ItemShaped raw t ∧ t.rule ≠ .grammarDoc := by
    intro a b us k
    obtain ⟨t, rfl, ht⟩ := inv_import k
    refine ⟨t, rfl, ht.elim (fun h => .inr (.inl h)) fun h => .inr (.inr (.inl h)), ?_⟩
    rcases ht with h | ⟨_, _, _, h, _⟩ <;> cases h <;> simp
  have hrule : ∀ {a b us}, Below c a → MRec .nonAtomic (.ref .grammarRule) a (some (b, us)) →
      ∃ t, us = [t] ∧ ItemShaped raw t ∧ t.rule = .grammarRule := by
    intro a b us hb k
    obtain ⟨t, name, params, silent, e, rfl, h1, h2⟩ := inv_grammarRule (hx.below hb) k
    exact ⟨t, rfl, .inr (.inr (.inr ⟨_, _, _, _, h1, h2⟩)), by cases h1; rfl⟩
  obtain ⟨c1, c2, _, _, h1, g1, b1, b2, hu1⟩ := inv_seqB (inv_silent rfl h)
  obtain ⟨c3, c4, docs, _, h2, g2, b3, b4, hu2⟩ := inv_seqB g1
  obtain ⟨c5, c6, imps, _, h3, g3, b5, b6, hu3⟩ := inv_seqB g2
  obtain ⟨c7, c8, _, _, h4, g4, b7, b8, hu4⟩ := inv_seqB g3
  obtain ⟨c9, c10, more, eoi, h5, h6, b9, b10, hu5⟩ := inv_seqB g4
  have b8' : Below c c8 := b1.trans (b2.trans (b3.trans (b4.trans (b5.trans (b6.trans (b7.trans b8))))))
  have hsoi : ∀ {x us}, MRec .nonAtomic .soi c (some (x, us)) → us = [] := by
    intro x us k
    generalize hr : (some (x, us) : Hit) = r at k
    cases k
    split at hr <;> cases hr
    rfl
  cases hsoi h1
  have heoi : c'.suf = [] ∧ eoi = [PTree.node .eoi [] []] := by
    obtain ⟨vs, k, hv⟩ := inv_normal rfl (by simp) h6
    generalize hr : (some (c', vs) : Hit) = r at k
    cases k
    split at hr <;> cases hr
    rename_i hs
    refine ⟨hs, ?_⟩
    rw [hv]
    simp [between]
  obtain ⟨he, rfl⟩ := heoi
  obtain ⟨t, rfl, ht, htr⟩ := hrule (b1.trans (b2.trans (b3.trans (b4.trans (b5.trans b6))))) h4
  obtain ⟨iss, rfl, hi⟩ := inv_repB h3
  obtain ⟨mss, rfl, hm⟩ := inv_repB h5
  have hdocs := inv_docs rfl h2
  have hrest : ∀ u ∈ iss.flatten ++ (t :: mss.flatten), ItemShaped raw u ∧ u.rule ≠ .grammarDoc := by
    intro u hu
    rcases List.mem_append.1 hu with hu | hu
    · obtain ⟨us, hus, hu⟩ := List.mem_flatten.1 hu
      obtain ⟨_, _, k, _⟩ := hi us hus
      obtain ⟨v, rfl, hv⟩ := himp k
      cases List.mem_singleton.1 hu
      exact hv
    rcases List.mem_cons.1 hu with rfl | hu
    · exact ⟨ht, by simp [htr]⟩
    · obtain ⟨us, hus, hu⟩ := List.mem_flatten.1 hu
      obtain ⟨_, _, k, hb⟩ := hm us hus
      rcases inv_choice k with k | ⟨_, k⟩
      · obtain ⟨v, rfl, hv⟩ := himp k
        cases List.mem_singleton.1 hu
        exact hv
      · obtain ⟨v, rfl, hv, hvr⟩ := hrule (b8'.trans hb) k
        cases List.mem_singleton.1 hu
        exact ⟨hv, by simp [hvr]⟩
  refine ⟨docs ++ (iss.flatten ++ (t :: mss.flatten)), ?_, he, ?_, ⟨t, by simp, htr⟩, docs, _, rfl, hdocs, fun u hu => (hrest u hu).2⟩
  · rw [hu1, hu2, hu3, hu4, hu5]; simp
  · intro u hu
    rcases List.mem_append.1 hu with hu | hu
    · exact .inl (hdocs u hu)
    · exact (hrest u hu).1

end

end Pest3.Gen
