import Verif.LocatedNode
import Verif.LocatedFacts
import Verif.DocInv

/-!
# Places of rules and items
-/

namespace Pest3.Gen
open Pest3 Pest3.Load
open Pest3.Meta (MetaRule MetaRange)

section
variable {inp : Text} {c c' : Cfg} {ls : List LTree}

/-! ## Parameters -/

/-- Identifiers among pairs. -/
def idents (us : List LTree) : List Name := (us.filter fun p => p.rule = .identifier).map LTree.text

theorem idents_append (us vs : List LTree) : idents (us ++ vs) = idents us ++ idents vs := by simp [idents]

theorem names_chain {a d : Cfg} {us : List LTree} (h : Repeats (.seq (.ref .comma) (.ref .identifier)) a d us) :
    On inp a → ∀ {x i s j}, Blanks inp i s → IsIdent x → Stands inp s x j → Rests inp j a →
      ∀ {e4 d3 d4 tail}, Over d e4 → LRec .nonAtomic (.opt (.ref .comma)) e4 d3 tail → Over d3 d4 → d4.suf ≠ [] →
        idents tail = [] ∧ NamesAt inp (x :: idents us) i (pos d4) := by
  induction h with
  | @nil a =>
    intro ha x i s j hb hx hs hr e4 d3 d4 tail p1 k p2 hne
    have he4 := p1.on ha
    have hd3 := k.on he4
    rcases linv_opt k with k | ⟨rfl, rfl⟩
    · obtain ⟨s1, n1, rfl⟩ := tokS "," rfl (by decide) k he4
      exact ⟨rfl, .trailing hb hx hs ((hr.over ha p1).blanks n1) s1 (p2.blanks hd3 hne)⟩
    · exact ⟨rfl, .last hb hx hs (((hr.over ha p1).over he4 p2).blanks hne)⟩
  | @cons a s0 b d us vs o1 h1 _ ih =>
    intro ha x i s j hb hx hs hr e4 d3 d4 tail p1 k p2 hne
    obtain ⟨d1, d2, _, _, k1, o2, k2, rfl⟩ := linv_seqO h1
    have hc0 := o1.on ha
    have hc1 := k1.on hc0
    have hc2 := o2.on hc1
    have hc3 := k2.on hc2
    obtain ⟨s1, n1, rfl⟩ := tokS "," rfl (by decide) k1 hc0
    obtain ⟨y, w, hy, e, rfl⟩ := linv_ident k2
    have hny := takes_ne e (t := y) (by cases hy; simp)
    obtain ⟨m1, m2⟩ := ih hc3 (o2.blanks hc1 hny) hy (e.stands hc2) (Rests.here hc3) p1 k p2 hne
    exact ⟨m1, .more hb hx hs ((hr.over ha o1).blanks n1) s1 m2⟩

/-- The parameters, with `=`. -/
theorem params_atL {j : Nat} {d1 d2 : Cfg} {ps eq : List LTree} (hc : On inp c) (hs : Skipped c) (hr : Rests inp j c) (h : LRec .nonAtomic (.opt (.ref .arguments)) c d1 ps)
    (o : Over d1 d2) (k : LRec .nonAtomic (.ref .assignmentOperator) d2 c' eq) :
    ∃ p rest xs, ps ++ eq = p :: rest ∧ (∀ t us, t.rule ≠ .assignmentOperator → skipL .assignmentOperator (rest ++ t :: us) = t :: us) ∧ idents p.inner = xs ∧
      ParamsAt inp xs j (pos d2) ∧ Stands inp (pos d2) ['='] (pos c') := by
  have hd1 := h.on hc
  have hd2 := o.on hd1
  obtain ⟨s1, n1, rfl⟩ := tokS "=" rfl (by decide) k hd2
  rcases linv_opt h with h | ⟨rfl, rfl⟩
  · obtain ⟨us, h0, rfl⟩ := linv_pair rfl rfl h
    refine ⟨_, [_], _, rfl, ?_, rfl, ?_, s1⟩
    · intro t us ht
      simp [skipL, rule_node]
    · obtain ⟨c1, c2, _, _, h1, o1, g1, hu1⟩ := linv_seqO h0
      obtain ⟨c3, c4, args, _, h2, o2, h3, hu2⟩ := linv_seqO g1
      have hc1 := h1.on hc
      have hc2 := o1.on hc1
      have hc3 := h2.on hc2
      have hc4 := o2.on hc3
      obtain ⟨sa, na, rfl⟩ := tokS "(" rfl (by decide) h1 hc
      obtain ⟨sb, nb, rfl⟩ := tokS ")" rfl (by decide) h3 hc4
      rw [hu1, hu2]
      have names : NamesAt inp (idents args) (pos c1) (pos c4) := by
        rcases linv_opt h2 with h2 | ⟨rfl, rfl⟩
        · obtain ⟨e1, e2, _, _, m1, q1, l1, hw1⟩ := linv_seqO h2
          obtain ⟨e3, e4, more, tail, m2, q2, m3, hw2⟩ := linv_seqO l1
          have he1 := m1.on hc2
          have he2 := q1.on he1
          obtain ⟨x, w, hx, ex, rfl⟩ := linv_ident m1
          obtain ⟨y1, y2⟩ := names_chain (linv_rep q1.end_ m2) he2 (o1.blanks hc1 (takes_ne ex (t := x) (by cases hx; simp))) hx (ex.stands hc2)
            ((Rests.here he1).over he1 q1) q2 m3 o2 nb
          rw [hw1, hw2, idents_append, idents_append, y1, List.append_nil]
          exact y2
        · exact .nil ((((Rests.here hc1).over hc1 o1).over hc2 o2).blanks nb)
      have : idents ([LTree.node .openingParen "(".toList ⟨pos c, pos c1⟩ []] ++ (args ++ [LTree.node .closingParen ")".toList ⟨pos c4, pos d1⟩ []])) = idents args := by
        rw [idents_append, idents_append]
        show [] ++ (idents args ++ []) = idents args
        simp
      show ParamsAt inp (idents _) _ _
      simp only [LTree.inner]
      rw [this]
      exact .some (hr.blanks na) sa names sb (o.blanks hd1 n1)
  · refine ⟨_, [], _, rfl, ?_, rfl, .none ((hr.over hc o).blanks n1), s1⟩
    intro t us ht
    simp [skipL, ht]

/-! ## Rules -/

theorem docs_chain {a d : Cfg} {us : List LTree} (h : Repeats (.ref .ruleDoc) a d us) (rest : List LTree) : dropDocsL (us ++ rest) = dropDocsL rest := by
  induction h with
  | nil => rfl
  | cons o h _ ih =>
    obtain ⟨vs, -, rfl⟩ := linv_pair (k := .compound) rfl rfl h
    show dropDocsL (_ :: (_ ++ rest)) = _
    simp only [dropDocsL, rule_node, if_true]
    exact ih

theorem silent_atL (hc : On inp c) (h : LRec .nonAtomic (.ref .silentModifier) c c' ls) :
    Stands inp (pos c) ['_'] (pos c') ∧ c.suf ≠ [] ∧ ∃ us, ls = [.node .silentModifier (between c c') ⟨pos c, pos c'⟩ us] := by
  obtain ⟨us, h1, h2⟩ := linv_pair (k := .atomic) rfl rfl h
  obtain ⟨c1, _, _, h3, h4, -⟩ := inv_seq' (by decide) h1.bare
  obtain ⟨e, -⟩ := inv_str h3
  obtain ⟨rfl, -, -⟩ := inv_neg h4
  exact ⟨e.takes.stands hc, takes_ne e.takes (by simp), us, h2⟩

theorem rule_atL (hc : On inp c) (hs : Skipped c) (h : LRec .nonAtomic (.ref .grammarRule) c c' ls) :
    c.suf ≠ [] ∧ ∃ u, ls = [u] ∧ u.rule = .grammarRule ∧ ∀ fuel r, ruleL fuel u = .ok r → RuleAt inp (pos c) (pos c') r := by
  obtain ⟨us, h0, rfl⟩ := linv_pair rfl rfl h
  obtain ⟨c1, c2, docs, sk, _, h1, k1, g1, hu1⟩ := linv_seq h0
  obtain ⟨c3, c4, nm, _, h2, o2, g2, hu2⟩ := linv_seqO g1
  obtain ⟨c5, c6, ps, _, h3, o3, g3, hu3⟩ := linv_seqO g2
  obtain ⟨c7, c8, eq, _, h4, o4, g4, hu4⟩ := linv_seqO g3
  obtain ⟨c9, c10, sl, body, h5, o5, h6, hu5⟩ := linv_seqO g4
  have hc1 := h1.on hc
  have hc2 := (over k1).on hc1
  have hc3 := h2.on hc2
  have hc4 := o2.on hc3
  have hc5 := h3.on hc4
  have hc6 := o3.on hc5
  have hc7 := h4.on hc6
  have hc8 := o4.on hc7
  have hc9 := h5.on hc8
  have hc10 := o5.on hc9
  have hname : ∃ t, nm = [t] ∧ t.rule ≠ .ruleDoc ∧ IsRuleName t.text ∧ Takes c2 t.text c3 := by
    rcases linv_choice h2 with h2 | h2
    · obtain ⟨x, w, hx, e, rfl⟩ := linv_ident h2
      exact ⟨_, rfl, by simp [rule_node], .inl hx, e⟩
    · rcases linv_choice (linv_silent rfl h2) with h2 | h2
      · obtain ⟨e, rfl⟩ := linv_tok rfl h2
        exact ⟨_, rfl, by simp [rule_node], .inr (.inl rfl), e⟩
      · obtain ⟨e, rfl⟩ := linv_tok rfl h2
        exact ⟨_, rfl, by simp [rule_node], .inr (.inr rfl), e⟩
  obtain ⟨t, rfl, htd, hname, en⟩ := hname
  have hne2 : c2.suf ≠ [] := takes_ne en (by
    intro h
    rw [h] at hname
    rcases hname with h | h | h <;> cases h)
  obtain ⟨g, d, lines, ed, -, hd, -, hgn⟩ := inv_docLines (k := .ruleDoc) (sign := "///") rfl rfl h1.bare k1 hne2
  cases hgn hs
  refine ⟨by rw [ed.suf]; simp [hne2], _, rfl, rfl, ?_⟩
  intro fuel r hr
  obtain ⟨p, rest, xs, hpe, hskip, hxs, hparams, heq⟩ := params_atL hc4 o2.end_ ((Rests.here hc3).over hc3 o2) h3 o3 h4
  -- the body
  have hbody : ∃ b rest', body = b :: rest' ∧ b.rule ≠ .assignmentOperator ∧ b.rule ≠ .silentModifier ∧ c10.suf ≠ [] ∧ ∀ r,
      (match skipL .openingBrace body with
        | e :: _ => nodeL ruleOps fuel e
        | [] => .panic) = .ok r → BodyAt inp r (pos c10) (pos c') := by
    have hc' := h6.on hc10
    rcases linv_choice h6 with h6 | h6
    · obtain ⟨d1, d2, _, _, m1, p1, n1, hv1⟩ := linv_seqO h6
      obtain ⟨d3, d4, _, _, m2, p2, m3, hv2⟩ := linv_seqO n1
      have hd1 := m1.on hc10
      have hd2 := p1.on hd1
      have hd3 := m2.on hd2
      have hd4 := p2.on hd3
      obtain ⟨s1, n1, rfl⟩ := tokS "{" rfl (by decide) m1 hc10
      obtain ⟨s3, n3, rfl⟩ := tokS "}" rfl (by decide) m3 hd4
      obtain ⟨u, rfl, hu, hne, hread⟩ := expression_at (fun _ _ h => h) _ fuel _ _ _ (Nat.lt_succ_self _) hd2 p1.end_ m2
      refine ⟨_, _, by rw [hv1]; rfl, by simp [rule_node], by simp [rule_node], n1, ?_⟩
      intro r hr
      rw [hv1, hv2] at hr
      simp only [List.cons_append, List.nil_append, skipL, rule_node, if_true] at hr
      obtain ⟨j, y1, y2⟩ := hread r hr
      exact .braced s1 (p1.blanks hd1 hne) y1 ((y2.over hd3 p2).blanks n3) s3
    · obtain ⟨u, rfl, hu, hne, hread⟩ := expression_at (fun _ _ h => h) _ fuel _ _ _ (Nat.lt_succ_self _) hc10 o5.end_ h6
      refine ⟨_, _, rfl, by simp [hu], by simp [hu], hne, ?_⟩
      intro r hr
      simp only [skipL, hu] at hr
      obtain ⟨j, y1, y2⟩ := hread r hr
      exact .plain y1 (y2.last hc')
  obtain ⟨b, rest', hb, hb1, hb2, hne10, hbread⟩ := hbody
  -- the modifier
  have hsil : ∃ m rest2 silent, sl ++ body = m :: rest2 ∧ m.rule ≠ .assignmentOperator ∧ decide (m.rule = .silentModifier) = silent ∧
      (if silent then (m :: rest2).tail else m :: rest2) = body ∧ SilentAt inp silent (pos c8) (pos c10) ∧ c8.suf ≠ [] := by
    rcases linv_opt h5 with h5 | ⟨rfl, rfl⟩
    · obtain ⟨s1, n1, w, rfl⟩ := silent_atL hc8 h5
      exact ⟨_, _, true, rfl, by simp [rule_node], by simp [rule_node], rfl, .silent s1 (o5.blanks hc9 hne10), n1⟩
    · cases o5.stays o4.end_
      exact ⟨b, rest', false, by rw [hb]; rfl, hb1, by simp [hb2], by rw [hb]; rfl, .loud, hne10⟩
  obtain ⟨m, rest2, silent, hm, hm1, hm2, hm3, hsilent, hne8⟩ := hsil
  have hus : us = docs ++ (t :: p :: (rest ++ m :: rest2)) := by
    rw [hu1, hu2, hu3, hu4, hu5, hm, ← List.append_assoc ps, hpe]
    rfl
  unfold ruleL at hr
  simp only [LTree.inner] at hr
  rw [hus, docs_chain (linv_rep hs h1)] at hr
  simp only [dropDocsL, if_neg htd, hskip m rest2 hm1, hm2, hm3] at hr
  have hmap : ∃ v, (match skipL .openingBrace body with
        | e :: _ => nodeL ruleOps fuel e
        | [] => .panic) = .ok v ∧ r = v.map fun e => (⟨t.text, idents p.inner, ⟨pos c, pos c'⟩, e, silent⟩ : SRule) := by
    cases hsk : skipL .openingBrace body with
    | nil => rw [hsk] at hr; cases hr
    | cons e es =>
      rw [hsk] at hr
      exact tryL_map hr
  obtain ⟨v, hv, rfl⟩ := hmap
  rw [hxs]
  exact .mk (ed.stands hc) hd hname (en.stands hc2) hparams heq (o4.blanks hc7 hne8) hsilent (hbread v hv)

/-! ## Imports -/

theorem import_string {u : LTree} {s : Text} {o : Option Text} {l : Loc} (hd : Meta.Denotes s o) (hp : u.pair = Meta.stringPair s) (hl : u.loc = l) :
    ofMetaL ⟨"invalid string literal".toList, u.loc⟩ (Meta.stringContent u.pair) = .ok (orElse o badImport l) := by
  have : ofMetaL ⟨"invalid string literal".toList, u.loc⟩ (Meta.stringContent u.pair) = ofMetaL ⟨badImport, u.loc⟩ (Meta.stringContent u.pair) := rfl
  rw [this, hp, hl, Props.C41_import_path s o hd]
  cases o <;> rfl

theorem import_atL (hc : On inp c) (h : LRec .nonAtomic (.ref .import) c c' ls) :
    c.suf ≠ [] ∧ ∃ u s, ls = [u] ∧ u.rule = .import ∧ Stands inp (pos c) ('u' :: 's' :: 'e' :: ' ' :: s) (pos c') ∧
      ∀ fuel e, importL fuel u = .ok (.error e) → FaultIn inp (pos c) (pos c') e := by
  obtain ⟨us, h0, rfl⟩ := linv_pair rfl rfl h
  obtain ⟨c1, c2, _, _, h1, o1, g1, hu1⟩ := linv_seqO h0
  obtain ⟨c3, c4, _, _, h2, o2, g2, hu2⟩ := linv_seqO g1
  obtain ⟨c5, c6, files, aliases, h3, o3, h4, hu3⟩ := linv_seqO g2
  have hc1 := h1.on hc
  have hc2 := o1.on hc1
  have hc3 := h2.on hc2
  have hc4 := o2.on hc3
  have hc5 := h3.on hc4
  have hc6 := o3.on hc5
  have hc' := h4.on hc6
  have le : ∀ {a b : Cfg}, On inp a → (∃ t, Takes a t b) → pos a ≤ pos b := by
    rintro a b ha ⟨t, h⟩
    exact (h.stands ha).le
  have leO : ∀ {a b : Cfg}, On inp a → Over a b → pos a ≤ pos b := by
    intro a b ha o
    obtain ⟨t, h, -⟩ := o.takes
    exact le ha ⟨t, h⟩
  have e1 : Takes c "use ".toList c1 := (inv_str h1.bare).1.takes
  cases linv_str h1
  obtain ⟨s, hs⟩ := (e1.stands hc).to ((Takes.refl c').stands hc').left (by
    have := leO hc1 o1; have := le hc2 (rec_takes h2.bare); have := leO hc3 o2; have := le hc4 (rec_takes h3.bare); have := leO hc5 o3
    have := le hc6 (rec_takes h4.bare); omega)
  obtain ⟨u, rfl, hu, -, -⟩ := path_at (ops := noOps) (fuel := 0) (expression_at (fun _ _ h => by cases h) _) (Nat.le_refl _) hc2 h2
  refine ⟨takes_ne e1 (by decide), _, s, rfl, rfl, hs, ?_⟩
  intro fuel e he
  obtain ⟨u', hu', -, -, hread⟩ := path_at (ops := noOps) (fuel := fuel) (expression_at (fun _ _ h => by cases h) _) (Nat.le_refl _) hc2 h2
  cases hu'
  have b1 := le hc ⟨_, e1⟩; have b2 := leO hc1 o1; have b3 := leO hc3 o2; have b4 := le hc4 (rec_takes h3.bare); have b5 := leO hc5 o3
  have b6 := le hc6 (rec_takes h4.bare); have b7 := le hc2 (rec_takes h2.bare)
  unfold importL at he
  rw [hu1, hu2, hu3] at he
  simp only [LTree.inner, List.nil_append, List.cons_append] at he
  rcases tryL_inv he with ⟨x, k1, k2⟩ | ⟨e', k1, k2⟩
  · -- the file name
    have loop : ∀ {r}, importLoopL (files ++ aliases) none none = .ok r → ∀ e, r = .error e → FaultIn inp (pos c4) (pos c5) e := by
      have last : ∀ {f r}, importLoopL aliases f none = .ok r → ∀ e, r ≠ .error e := by
        intro f r hr
        rcases linv_opt h4 with h4 | ⟨-, rfl⟩
        · obtain ⟨d1, d2, _, _, m1, q1, m2, hw⟩ := linv_seqO h4
          cases linv_str m1
          obtain ⟨x, w, hx, ex, rfl⟩ := linv_ident m2
          rw [hw] at hr
          cases hr
          intro e h
          cases h
        · cases hr
          intro e h
          cases h
      rcases linv_opt h3 with h3 | ⟨-, rfl⟩
      · obtain ⟨d1, d2, _, _, m1, q1, m2, hw⟩ := linv_seqO h3
        have hd1 := m1.on hc4
        have hd2 := q1.on hd1
        have b8 := le hc4 (rec_takes m1.bare); have b9 := leO hd1 q1
        cases linv_str m1
        obtain ⟨y, o, u', hd, hp, hl, ey, rfl⟩ := linv_string m2
        rintro r hr e rfl
        rw [hw] at hr
        have hrule : u'.rule = .string := congrArg Meta.MetaPair.rule hp
        simp only [List.nil_append, List.cons_append, importLoopL, hrule] at hr
        rw [import_string hd hp hl] at hr
        cases o with
        | none =>
          cases hr
          exact ⟨.import (ey.stands hd2) hd, by simp only; omega, by simp only; omega⟩
        | some o => exact absurd rfl (last hr e)
      · rintro r hr e rfl
        exact absurd rfl (last hr e)
    cases x with
    | path q l =>
      simp only at k2
      rcases tryL_inv k2 with ⟨y, m1, m2⟩ | ⟨e', m1, m2⟩
      · cases m2
      · cases m2
        exact (loop m1 e rfl).mono (by omega) (by omega)
    | _ => cases k2
  · cases k2
    exact (show FaultIn inp _ _ e from (hread _ k1).placed.2).mono (by omega) (by omega)

/-! ## Files -/

/-- What reading a pair of the file gives. -/
def Item (inp : Text) (i j : Nat) (u : LTree) : Prop :=
  ∀ fuel, ∃ r, readItemL fuel u = some r ∧ ∀ x, r = .ok x → ItemAt inp i j x

theorem settle_inv {r : LRes LItem} {x : LItem} (h : settleL r = .ok x) :
    r = .ok (.ok x) ∨ (∃ e, r = .ok (.error e) ∧ x = .invalid e) ∨ (r = .panic ∧ x = .panics) := by
  cases r with
  | ok r => cases r with
    | ok i => cases h; exact .inl rfl
    | error e => cases h; exact .inr (.inl ⟨e, rfl, rfl⟩)
  | panic => cases h; exact .inr (.inr ⟨rfl, rfl⟩)
  | oof => cases h

theorem takes_stands (hc : On inp c) (h : ∃ t, Takes c t c') : ∃ t, Stands inp (pos c) t (pos c') := by
  obtain ⟨t, h⟩ := h
  exact ⟨t, h.stands hc⟩

theorem item_rule (hc : On inp c) (hs : Skipped c) (h : LRec .nonAtomic (.ref .grammarRule) c c' ls) : c.suf ≠ [] ∧ ∃ u, ls = [u] ∧ Item inp (pos c) (pos c') u := by
  obtain ⟨hne, u, rfl, hu, hr⟩ := rule_atL hc hs h
  refine ⟨hne, u, rfl, fun fuel => ⟨_, by unfold readItemL; rw [hu], ?_⟩⟩
  intro x hx
  obtain ⟨t, ht⟩ := takes_stands hc (rec_takes h.bare)
  rcases settle_inv hx with hy | ⟨e, hy, rfl⟩ | ⟨-, rfl⟩
  · rcases tryL_inv hy with ⟨r, k1, k2⟩ | ⟨e, k1, k2⟩
    · cases k2; exact .rule (hr fuel _ k1)
    · cases k2
  · rcases tryL_inv hy with ⟨r, k1, k2⟩ | ⟨e, k1, k2⟩
    · cases k2
    · cases k2; exact .badRule (hr fuel _ k1)
  · exact .panics ht

theorem item_import (hc : On inp c) (h : LRec .nonAtomic (.ref .import) c c' ls) : c.suf ≠ [] ∧ ∃ u, ls = [u] ∧ Item inp (pos c) (pos c') u := by
  obtain ⟨hne, u, s, rfl, hu, hst, hr⟩ := import_atL hc h
  refine ⟨hne, u, rfl, fun fuel => ⟨_, by unfold readItemL; rw [hu], ?_⟩⟩
  intro x hx
  rcases settle_inv hx with hy | ⟨e, hy, rfl⟩ | ⟨-, rfl⟩
  · rcases tryL_inv hy with ⟨r, k1, k2⟩ | ⟨e, k1, k2⟩
    · cases k2; exact .imp hst
    · cases k2
  · rcases tryL_inv hy with ⟨r, k1, k2⟩ | ⟨e, k1, k2⟩
    · cases k2
    · cases k2
      obtain ⟨f1, f2, f3⟩ := hr fuel _ k1
      exact .badImp hst f1 f2 f3
  · exact .panics hst

theorem item_doc (hc : On inp c) (h : LRec .nonAtomic (.ref .grammarDoc) c c' ls) : c.suf ≠ [] ∧ ∃ u, ls = [u] ∧ Item inp (pos c) (pos c') u := by
  obtain ⟨us, h0, rfl⟩ := linv_pair (k := .compound) rfl rfl h
  obtain ⟨c1, _, _, h1, h2, -⟩ := inv_seq' (by decide) h0.bare
  obtain ⟨e, -⟩ := inv_str h1
  obtain ⟨t, e2⟩ := rec_takes h2
  refine ⟨takes_ne e.takes (by decide), _, rfl, fun fuel => ⟨_, rfl, ?_⟩⟩
  rintro x ⟨⟩
  exact .doc ((e.takes.trans e2).stands hc)

/-- Pairs of items from `c` on, with a given end. -/
def LItems (inp : Text) (c : Cfg) (us : List LTree) : Prop := ∀ j, Rests inp j c → ∀ fuel l, readItemsL fuel us = .ok l → FileAt inp j l

theorem LItems.cons {a s b : Cfg} {us vs : List LTree} (ha : On inp a) (o : Over a s) (hne : s.suf ≠ []) (hu : ∃ u, us = [u] ∧ Item inp (pos s) (pos b) u)
    (hb : On inp b) (h : LItems inp b vs) : LItems inp a (us ++ vs) := by
  obtain ⟨u, rfl, hu⟩ := hu
  intro j hj fuel l hl
  obtain ⟨r, h1, h2⟩ := hu fuel
  simp only [List.cons_append, List.nil_append, readItemsL, h1] at hl
  obtain ⟨x, k1, hl⟩ := andThen_inv hl
  obtain ⟨l', k2, hl⟩ := andThen_inv hl
  cases hl
  exact .item ((hj.over ha o).blanks hne) (h2 x k1) (h _ (Rests.here hb) fuel l' k2)

theorem LItems.chain {e : PE} (he : ∀ {a b us}, On inp a → Skipped a → LRec .nonAtomic e a b us → a.suf ≠ [] ∧ ∃ u, us = [u] ∧ Item inp (pos a) (pos b) u)
    {a d : Cfg} {us vs : List LTree} (h : Repeats e a d us) : On inp a → (On inp d → LItems inp d vs) → LItems inp a (us ++ vs) := by
  induction h with
  | nil => intro ha hd; exact hd ha
  | cons o h _ ih =>
    intro ha hd
    have hs := o.on ha
    have hb := h.on hs
    rw [List.append_assoc]
    exact .cons ha o (he hs o.end_ h).1 (he hs o.end_ h).2 hb (ih hb hd)

/-- What is before a skipped part. -/
theorem LItems.over {a b : Cfg} {us : List LTree} (ha : On inp a) (o : Over a b) (h : LItems inp b us) : LItems inp a us :=
  fun j hj fuel l hl => h j (hj.over ha o) fuel l hl

theorem file_at {fuel : Nat} {text : Text} {l : List LItem} (h : readTextL fuel text = .ok (some l)) : FileAt text 0 l := by
  obtain ⟨⟨c', ls⟩, h1, h2⟩ := tryThen_inv h
  obtain ⟨l', h3, h4⟩ := andThen_inv h2
  cases h4
  have hc : On text ⟨[], text, []⟩ := rfl
  have h0 : LRec .nonAtomic (.ref .grammarRules) ⟨[], text, []⟩ c' ls := ⟨_, h1⟩
  obtain ⟨c1, c2, t1, _, k1, o1, g1, hu1⟩ := linv_seqO (linv_silent rfl h0)
  obtain ⟨c3, c4, docs, _, k2, o2, g2, hu2⟩ := linv_seqO g1
  obtain ⟨c5, c6, imps, _, k3, o3, g3, hu3⟩ := linv_seqO g2
  obtain ⟨c7, c8, first, _, k4, o4, g4, hu4⟩ := linv_seqO g3
  obtain ⟨c9, c10, more, fin, k5, o5, k6, hu5⟩ := linv_seqO g4
  have hsoi : c1 = ⟨[], text, []⟩ ∧ t1 = [] := by
    obtain ⟨fuel, k1⟩ := k1
    cases fuel with
    | zero => cases k1
    | succ n => cases k1; exact ⟨rfl, rfl⟩
  obtain ⟨rfl, rfl⟩ := hsoi
  have hc2 := o1.on hc
  have hc3 := k2.on hc2
  have hc4 := o2.on hc3
  have hc5 := k3.on hc4
  have hc6 := o3.on hc5
  have hc7 := k4.on hc6
  have hc8 := o4.on hc7
  have heoi : c10.suf = [] ∧ ∃ x y us, fin = [.node .eoi x y us] := by
    obtain ⟨us, m1, rfl⟩ := linv_pair rfl rfl k6
    refine ⟨?_, _, _, _, rfl⟩
    obtain ⟨fuel, m1⟩ := m1
    cases fuel with
    | zero => cases m1
    | succ n =>
      simp only [recogL] at m1
      split at m1
      · assumption
      · cases m1
  obtain ⟨he, x, y, us, rfl⟩ := heoi
  have hls : ls = docs ++ (imps ++ (first ++ (more ++ [.node .eoi x y us]))) := by rw [hu1, hu2, hu3, hu4, hu5]; rfl
  have hend : LItems text c10 [.node .eoi x y us] := by
    rintro j ⟨g, hg, hl, -⟩ fuel l hl'
    cases hl'
    have hp : pos c10 = utf8Len text := by
      have := o5.on (k5.on hc8)
      rw [this, he, List.append_nil]
      rfl
    exact .done (.inr ⟨g, hp ▸ hg, hl, rfl⟩)
  have hmore : LItems text c8 (more ++ [.node .eoi x y us]) :=
    LItems.chain (e := .choice (.ref .import) (.ref .grammarRule)) (fun ha hs h => by
      rcases linv_choice h with h | h
      · exact item_import ha h
      · exact item_rule ha hs h) (linv_rep o4.end_ k5) hc8 fun h9 => .over h9 o5 hend
  have hfirst : LItems text c6 (first ++ (more ++ [.node .eoi x y us])) := by
    have := item_rule hc6 o3.end_ k4
    exact .cons hc6 (.refl o3.end_) this.1 this.2 hc7 (.over hc7 o4 hmore)
  have himps : LItems text c4 (imps ++ (first ++ (more ++ [.node .eoi x y us]))) :=
    LItems.chain (fun ha _ h => item_import ha h) (linv_rep o2.end_ k3) hc4 fun h5 => .over h5 o3 hfirst
  have hdocs : LItems text c2 ls := by
    rw [hls]
    exact LItems.chain (fun ha _ h => item_doc ha h) (linv_rep o1.end_ k2) hc2 fun h3 => .over h3 o2 himps
  exact hdocs 0 ((Rests.here hc).over hc o1) fuel l h3

end

end Pest3.Gen
