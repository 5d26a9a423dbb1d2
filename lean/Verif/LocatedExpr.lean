import Verif.LocatedTok

/-!
# Places of expressions
-/

namespace Pest3.Gen
open Pest3 Pest3.Load
open Pest3.Meta (MetaRule MetaRange decimal charText)

theorem rule_node (r : MetaRule) (t : Text) (l : Loc) (us : List LTree) : (LTree.node r t l us).rule = r := rfl
theorem text_node (r : MetaRule) (t : Text) (l : Loc) (us : List LTree) : (LTree.node r t l us).text = t := rfl

theorem tryL_inv {α β : Type} {r : LRes α} {k : α → LRes β} {b : Except LErr β} (h : tryL r k = .ok b) :
    (∃ a, r = .ok (.ok a) ∧ k a = .ok b) ∨ ∃ e, r = .ok (.error e) ∧ b = .error e := by
  obtain ⟨a, h1, h2⟩ := andThen_inv h
  cases a with
  | ok a => exact .inl ⟨a, h1, h2⟩
  | error e => exact .inr ⟨e, h1, by cases h2; rfl⟩

/-- A value made of a value. -/
theorem tryL_map {α β : Type} {r : LRes α} {f : α → β} {b : Except LErr β} (h : tryL r (fun a => .ok (.ok (f a))) = .ok b) :
    ∃ a, r = .ok a ∧ b = a.map f := by
  rcases tryL_inv h with ⟨a, h1, h2⟩ | ⟨e, h1, h2⟩
  · cases h2; exact ⟨_, h1, rfl⟩
  · exact ⟨_, h1, h2⟩

section
variable {inp : Text} {c c' : Cfg} {ls : List LTree}

/-! ## Literals -/

theorem string_located {u : LTree} {s : Text} {o : Option Text} {l : Loc} (hd : Meta.Denotes s o) (hp : u.pair = Meta.stringPair s) (hl : u.loc = l) :
    stringL u = .ok ((orElse o badString l).map fun v => .str v l) := by
  have : stringL u = tryL (ofMetaL ⟨badString, u.loc⟩ (Meta.parseString u.pair)) fun s => .ok (.ok (.str s u.loc)) := rfl
  rw [this, hp, hl, (Props.C41_string s o hd).1]
  cases o <;> rfl

theorem insensitive_located {u : LTree} {s : Text} {o : Option Text} {l : Loc} (hd : Meta.Denotes s o) (hp : u.pair = Meta.insensitivePair s) (hl : u.loc = l) :
    insensitiveL u = .ok ((orElse o badString l).map fun v => .insens v l) := by
  have : insensitiveL u = tryL (ofMetaL ⟨badString, u.loc⟩ (Meta.parseInsensitiveString u.pair)) fun s => .ok (.ok (.insens s u.loc)) := rfl
  rw [this, hp, hl, (Props.C41_string s o hd).2]
  cases o <;> rfl

theorem raw_located {u : LTree} {n : Nat} {s : Text} {l : Loc} (hp : u.pair = Meta.rawStringPair n s) (hl : u.loc = l) :
    ∃ v, RawRead n s v ∧ rawStringL u = .ok (.ok (.str v l)) := by
  refine ⟨_, rfl, ?_⟩
  unfold rawStringL
  rw [hp, hl]
  match n with
  | 0 => rfl
  | 1 => rfl
  | n + 2 => rfl

theorem character_located (a : Text) (l : Loc) (us : List LTree) :
    characterL (.node .character (charText a) l us) = .ok (orElse (Meta.unescape a) badChar l) := by
  have : characterL (.node .character (charText a) l us) = match Meta.slice (charText a) 1 1 with
    | none => .panic
    | some s => match Meta.unescape s with
      | none => .ok (.error ⟨badChar, l⟩)
      | some t => .ok (.ok t) := rfl
  rw [this, show Meta.slice (charText a) 1 1 = some a from Meta.slice_mid ['\''] a ['\'']]
  simp only
  cases Meta.unescape a <;> rfl

theorem quote_unescape : Meta.unescape ['"'] = some [] := by decide

theorem quote_not_none {a : Text} (h : Meta.unescape a ≠ none) : ¬ CharLit a none := fun k => h k.unescape

theorem range_rule_at (hc : On inp c) (h : LRec .nonAtomic (.ref .range) c c' ls) :
    ∃ u, ls = [u] ∧ u.rule = .range ∧ c.suf ≠ [] ∧ ∀ r, charRangeL u = .ok r → Reading inp (pos c) (pos c') (.expr .primary r) := by
  obtain ⟨us, h0, rfl⟩ := linv_pair rfl rfl h
  obtain ⟨c1, c2, _, _, h1, o1, g1, hu1⟩ := linv_seqO h0
  obtain ⟨c3, c4, _, _, h2, o2, h3, hu2⟩ := linv_seqO g1
  have hc1 := h1.on hc
  have hc2 := o1.on hc1
  have hc3 := h2.on hc2
  have hc4 := o2.on hc3
  obtain ⟨a, wa, ha, ea, rfl⟩ := linv_character h1
  obtain ⟨sd, nd, rfl⟩ := tokS ".." rfl (by decide) h2 hc2
  obtain ⟨b, wb, hb, eb, rfl⟩ := linv_character h3
  refine ⟨_, rfl, rfl, takes_ne ea (by simp [charText]), ?_⟩
  have sa := ea.stands hc
  have sb := eb.stands hc4
  have b1 := o1.blanks hc1 nd
  have b2 := o2.blanks hc3 (takes_ne eb (by simp [charText]))
  intro r hr
  rw [hu1, hu2] at hr
  simp only [List.cons_append, List.nil_append, charRangeL, LTree.inner, character_located] at hr
  have final : ∀ {v w : Text}, Meta.unescape a = some v → Meta.unescape b = some w →
      (match v, w with
        | x :: _, y :: _ => (.ok (.ok (.range x y ⟨pos c, pos c'⟩)) : LRes SExpr)
        | _, _ => .panic) = .ok r → Reading inp (pos c) (pos c') (.expr .primary r) := by
    intro v w hv hw hr
    have one : ∀ {a v}, ((∃ v, CharLit a v) ∨ a = ['"']) → Meta.unescape a = some v → v = [] ∨ ∃ x, v = [x] ∧ CharLit a (some x) := by
      intro a v ha hv
      rcases ha with ⟨x, ha⟩ | rfl
      · cases x with
        | none => rw [ha.unescape] at hv; cases hv
        | some x =>
          rw [ha.unescape] at hv
          cases hv
          exact .inr ⟨x, rfl, ha⟩
      · rw [quote_unescape] at hv
        cases hv
        exact .inl rfl
    rcases one ha hv with rfl | ⟨x, rfl, hx⟩
    · cases hr
    · rcases one hb hw with rfl | ⟨y, rfl, hy⟩
      · cases hr
      · cases hr
        exact .range sa hx b1 sd b2 sb hy
  have none_of : ∀ {a}, ((∃ v, CharLit a v) ∨ a = ['"']) → Meta.unescape a = none → CharLit a none := by
    intro a ha hv
    rcases ha with ⟨x, ha⟩ | rfl
    · cases x with
      | none => exact ha
      | some x => rw [ha.unescape] at hv; cases hv
    · rw [quote_unescape] at hv; cases hv
  cases hv : Meta.unescape a with
  | none =>
    rw [hv] at hr
    cases hr
    exact .badFirst sa (none_of ha hv) b1 sd b2 sb
  | some v =>
    rw [hv] at hr
    cases hw : Meta.unescape b with
    | none =>
      rw [hw] at hr
      cases hr
      exact .badSecond sa (quote_not_none (by rw [hv]; simp)) b1 sd b2 sb (none_of hb hw)
    | some w =>
      rw [hw] at hr
      exact final hv hw hr

/-! ## Paths -/

/-- Expressions shorter than `n` stand where they are read from. -/
def LocHyp (inp : Text) (ops : Ops) (n : Nat) : Prop :=
  ∀ fuel c c' ls, c.suf.length < n → On inp c → Skipped c → LRec .nonAtomic (.ref .expression) c c' ls →
    ∃ u, ls = [u] ∧ u.rule = .expression ∧ c.suf ≠ [] ∧
      ∀ r, nodeL ops fuel u = .ok r → ∃ j, Reading inp (pos c) j (.expr .whole r) ∧ Rests inp j c'

theorem names_atL {a d : Cfg} {us : List LTree} (h : Repeats (.seq (.ref .ancestryOperator) (.ref .identifier)) a d us) :
    On inp a → ∀ {x i j l w}, IsIdent x → Stands inp i x j → Rests inp j a →
      ∃ q j', PathAt inp q i j' ∧ Rests inp j' d ∧ On inp d ∧
        ∀ rest, (∀ t ∈ rest.head?, t.rule ≠ .identifier ∧ t.rule ≠ .ancestryOperator) →
          pathNamesL (.node .identifier x l w :: (us ++ rest)) = (q, rest) := by
  induction h with
  | nil =>
    intro ha x i j l w hx hs hr
    refine ⟨[x], j, .one hx hs, hr, ha, ?_⟩
    intro rest hrest
    cases rest with
    | nil => rfl
    | cons t rest =>
      have ht := hrest t (by simp)
      have hrec : pathNamesL (t :: rest) = ([], t :: rest) := by
        cases rest with
        | nil => simp [pathNamesL, ht.1]
        | cons s rest => simp [pathNamesL, ht.1]
      simp [pathNamesL, rule_node, text_node, ht.2, hrec]
  | @cons a s0 b d us vs o1 h1 _ ih =>
    intro ha x i j l w hx hs hr
    obtain ⟨d1, d2, _, _, k1, o2, k2, rfl⟩ := linv_seqO h1
    have hc0 := o1.on ha
    have hc1 := k1.on hc0
    have hc2 := o2.on hc1
    have hc3 := k2.on hc2
    obtain ⟨s1, n1, rfl⟩ := tokS "::" rfl (by decide) k1 hc0
    obtain ⟨y, w', hy, e, rfl⟩ := linv_ident k2
    obtain ⟨q, j', hq, hr', hd, hn⟩ := ih hc3 (l := ⟨pos d2, pos b⟩) (w := w') hy (e.stands hc2) (Rests.here hc3)
    refine ⟨x :: q, j', .cons hx hs ((hr.over ha o1).blanks n1) s1 (o2.blanks hc1 (takes_ne e (by cases hy; simp))) hq, hr', hd, ?_⟩
    intro rest hrest
    have := hn rest hrest
    simp only [List.cons_append, List.nil_append, pathNamesL, LTree.rule, LTree.text, if_true, this]

/-- The arguments after the first. -/
theorem args_at {node : LTree → LRes SExpr} {ops : Ops} {n fuel : Nat} (hnode : node = nodeL ops fuel) (hyp : LocHyp inp ops n) {a d : Cfg} {us : List LTree}
    (h : Repeats (.seq (.ref .comma) (.ref .expression)) a d us) : On inp a → a.suf.length ≤ n → ∀ {t i s}, t.rule = .expression → Blanks inp i s →
      (∀ r, node t = .ok r → ∃ j, Reading inp s j (.expr .whole r) ∧ Rests inp j a) →
      ∀ {e4 d3 d4 z tail}, Over d e4 → LRec .nonAtomic (.opt (.ref .comma)) e4 d3 tail → Over d3 d4 → d4.suf ≠ [] → z.rule = .closingParen →
        ∀ r, callArgsL node (t :: (us ++ (tail ++ [z]))) = .ok r → Reading inp i (pos d4) (.args r) := by
  induction h with
  | @nil a =>
    intro ha hlen t i s ht hb hread e4 d3 d4 z tail p1 k p2 hne hz r hr
    have he4 := p1.on ha
    have hd3 := k.on he4
    rcases linv_opt k with k | ⟨rfl, rfl⟩
    · obtain ⟨s1, n1, rfl⟩ := tokS "," rfl (by decide) k he4
      have : callArgsL node (t :: ([] ++ ([LTree.node .comma ",".toList ⟨pos e4, pos d3⟩ []] ++ [z]))) = tryL (node t) fun e => .ok (.ok [e]) := by
        simp [callArgsL, ht, rule_node, hz, tryL, andThen]
      rw [this] at hr
      obtain ⟨x, h1, rfl⟩ := tryL_map hr
      obtain ⟨j, h2, h3⟩ := hread _ h1
      exact .trailing hb h2 ((h3.over ha p1).blanks n1) s1 (p2.blanks hd3 hne)
    · have : callArgsL node (t :: ([] ++ ([] ++ [z]))) = tryL (node t) fun e => .ok (.ok [e]) := by
        simp [callArgsL, ht, hz, tryL, andThen]
      rw [this] at hr
      obtain ⟨x, h1, rfl⟩ := tryL_map hr
      obtain ⟨j, h2, h3⟩ := hread _ h1
      exact .lastArg hb h2 (((h3.over ha p1).over he4 p2).blanks hne)
  | @cons a s0 b d us0 vs o1 h1 hch ih =>
    intro ha hlen t i s ht hb hread e4 d3 d4 z tail p1 k p2 hne hz r hr
    obtain ⟨d1, d2, _, _, k1, o2, k2, rfl⟩ := linv_seqO h1
    have hc0 := o1.on ha
    have hc1 := k1.on hc0
    have hc2 := o2.on hc1
    have hc3 := k2.on hc2
    obtain ⟨s1, n1, rfl⟩ := tokS "," rfl (by decide) k1 hc0
    have hlt : d2.suf.length < n := by
      have e1 := (linv_tok rfl k1).1
      have l1 := congrArg List.length e1.suf
      obtain ⟨g, e2, -⟩ := o2.takes
      have l2 := congrArg List.length e2.suf
      obtain ⟨g', e3, -⟩ := o1.takes
      have l3 := congrArg List.length e3.suf
      simp only [List.length_append] at l1 l2 l3
      have : ",".toList.length = 1 := rfl
      omega
    have hle : b.suf.length ≤ n := by
      obtain ⟨t, e⟩ := rec_takes k2.bare
      have := congrArg List.length e.suf
      simp only [List.length_append] at this
      omega
    obtain ⟨u, rfl, hu, hu', hread'⟩ := hyp fuel _ _ _ hlt hc2 o2.end_ k2
    have key : callArgsL node (t :: (([LTree.node .comma ",".toList ⟨pos s0, pos d1⟩ []] ++ [u]) ++ vs ++ (tail ++ [z]))) =
        tryL (node t) fun e => tryL (callArgsL node (u :: (vs ++ (tail ++ [z])))) fun es => .ok (.ok (e :: es)) := by
      simp [callArgsL, ht, rule_node]
    rw [key] at hr
    rcases tryL_inv hr with ⟨x, h1, h2⟩ | ⟨e, h1, rfl⟩
    · obtain ⟨es, h3, rfl⟩ := tryL_map h2
      obtain ⟨j, h4, h5⟩ := hread _ h1
      exact .moreArgs hb h4 ((h5.over ha o1).blanks n1) s1
        (ih hc3 hle hu (o2.blanks hc1 hu') (fun r hr => hread' r (hnode ▸ hr)) p1 k p2 hne hz es h3)
    · obtain ⟨j, h4, h5⟩ := hread _ h1
      have hrest : ∃ x, Takes d1 x d4 := by
        obtain ⟨g2, e2, -⟩ := o2.takes
        obtain ⟨g3, e3⟩ := rec_takes k2.bare
        have chain : ∀ {a d : Cfg} {us : List LTree}, Repeats (.seq (.ref .comma) (.ref .expression)) a d us → ∃ x, Takes a x d := by
          intro a d us h
          induction h with
          | nil => exact ⟨_, .refl _⟩
          | cons o h _ ih =>
            obtain ⟨_, f1, -⟩ := o.takes
            obtain ⟨_, f2⟩ := rec_takes h.bare
            obtain ⟨_, f3⟩ := ih
            exact ⟨_, f1.trans (f2.trans f3)⟩
        obtain ⟨g4, e4'⟩ := chain hch
        obtain ⟨g5, e5, -⟩ := p1.takes
        obtain ⟨g6, e6⟩ := rec_takes k.bare
        obtain ⟨g7, e7, -⟩ := p2.takes
        exact ⟨_, e2.trans (e3.trans (e4'.trans (e5.trans (e6.trans e7))))⟩
      obtain ⟨x, hx⟩ := hrest
      exact .badArg hb h4 ((h5.over ha o1).blanks n1) s1 (hx.stands hc1)

theorem path_at {ops : Ops} {n fuel : Nat} (hyp : LocHyp inp ops n) (hn : c.suf.length ≤ n) (hc : On inp c)
    (h : LRec .nonAtomic (.ref .path) c c' ls) :
    ∃ u, ls = [u] ∧ u.rule = .path ∧ c.suf ≠ [] ∧ ∀ r, pathL (nodeL ops fuel) u = .ok r → Reading inp (pos c) (pos c') (.expr .primary r) := by
  obtain ⟨us, h0, rfl⟩ := linv_pair rfl rfl h
  obtain ⟨c1, c2, _, _, h1, o1, g1, hu1⟩ := linv_seqO h0
  obtain ⟨c3, c4, names, tail, h2, o2, h3, hu2⟩ := linv_seqO g1
  have hc1 := h1.on hc
  have hc2 := o1.on hc1
  obtain ⟨x, wx, hx, ex, rfl⟩ := linv_ident h1
  have hne := takes_ne ex (t := x) (by cases hx; simp)
  obtain ⟨q, j, hq, hr, hc3, hnames⟩ := names_atL (linv_rep o1.end_ h2) hc2 (l := ⟨pos c, pos c1⟩) (w := wx) hx (ex.stands hc)
    ((Rests.here hc1).over hc1 o1)
  have hr4 := hr.over hc3 o2
  have hc4 := o2.on hc3
  refine ⟨_, rfl, rfl, hne, ?_⟩
  rw [hu1, hu2]
  intro r hr
  unfold pathL at hr
  simp only [LTree.inner, List.cons_append, List.nil_append] at hr
  rcases linv_opt h3 with h3 | ⟨rfl, rfl⟩
  · have hlt : c4.suf.length < n := by
      have l1 := congrArg List.length ex.suf
      obtain ⟨g1, e1, -⟩ := o1.takes
      have l2 := congrArg List.length e1.suf
      obtain ⟨g2, e2⟩ := rec_takes h2.bare
      have l3 := congrArg List.length e2.suf
      obtain ⟨g3, e3, -⟩ := o2.takes
      have l4 := congrArg List.length e3.suf
      have : 0 < x.length := by cases hx; simp
      simp only [List.length_append] at l1 l2 l3 l4
      omega
    rcases linv_choice h3 with h3 | h3
    · obtain ⟨vs, k0, rfl⟩ := linv_pair rfl rfl h3
      rw [hnames _ (by simp [LTree.rule])] at hr
      simp only [LTree.rule, LTree.inner] at hr
      obtain ⟨d1, d2, _, _, k1, p1, l1, hv1⟩ := linv_seqO k0
      obtain ⟨d3, d4, args, _, k2, p2, k3, hv2⟩ := linv_seqO l1
      have hd1 := k1.on hc4
      have hd2 := p1.on hd1
      have hd3 := k2.on hd2
      have hd4 := p2.on hd3
      have e1 := (linv_tok rfl k1).1
      obtain ⟨s1, n1, rfl⟩ := tokS "(" rfl (by decide) k1 hc4
      obtain ⟨s3, n3, rfl⟩ := tokS ")" rfl (by decide) k3 hd4
      rw [hv1, hv2] at hr
      simp only [List.cons_append, List.nil_append] at hr
      obtain ⟨es, hes, rfl⟩ := tryL_map hr
      refine .call hq (hr4.blanks n1) s1 ?_ s3
      rcases linv_opt k2 with k2 | ⟨rfl, rfl⟩
      · obtain ⟨e1', e2', _, _, m1, q1, n1', hw1⟩ := linv_seqO k2
        obtain ⟨e3', e4', rest, tail, m2, q2, m3, hw2⟩ := linv_seqO n1'
        have hlen2 : d2.suf.length < n := by
          have l1 := congrArg List.length e1.suf
          obtain ⟨g, e2, -⟩ := p1.takes
          have l2 := congrArg List.length e2.suf
          simp only [List.length_append] at l1 l2
          omega
        obtain ⟨u, rfl, hu, hu', hread⟩ := hyp fuel _ _ _ hlen2 hd2 p1.end_ m1
        have he1 := m1.on hd2
        have he2 := q1.on he1
        have hlen3 : e2'.suf.length ≤ n := by
          obtain ⟨g, e2⟩ := rec_takes m1.bare
          have l2 := congrArg List.length e2.suf
          obtain ⟨g, e3, -⟩ := q1.takes
          have l3 := congrArg List.length e3.suf
          simp only [List.length_append] at l2 l3
          omega
        rw [hw1, hw2] at hes
        simp only [List.cons_append, List.nil_append, List.append_assoc] at hes
        exact args_at rfl hyp (linv_rep q1.end_ m2) he2 hlen3 hu (p1.blanks hd1 hu')
          (fun r hr => by obtain ⟨j, h1, h2⟩ := hread r hr; exact ⟨j, h1, h2.over he1 q1⟩) q2 m3 p2 n3 rfl es hes
      · have : es = .ok [] := by
          simp [callArgsL, LTree.rule] at hes
          exact hes.symm
        subst this
        exact .noArgs ((((Rests.here hd1).over hd1 p1).over hd2 p2).blanks n3)
    · obtain ⟨vs, k0, rfl⟩ := linv_pair rfl rfl h3
      rw [hnames _ (by simp [LTree.rule])] at hr
      simp only [LTree.rule, LTree.inner] at hr
      obtain ⟨d1, d2, _, _, k1, p1, l1, hv1⟩ := linv_seqO k0
      obtain ⟨d3, d4, va, _, k2, p2, l2, hv2⟩ := linv_seqO l1
      obtain ⟨d5, d6, _, _, k3, p3, l3, hv3⟩ := linv_seqO l2
      obtain ⟨d7, d8, vb, _, k4, p4, k5, hv4⟩ := linv_seqO l3
      have hd1 := k1.on hc4
      have hd2 := p1.on hd1
      have hd3 := k2.on hd2
      have hd4 := p2.on hd3
      have hd5 := k3.on hd4
      have hd6 := p3.on hd5
      have hd7 := k4.on hd6
      have hd8 := p4.on hd7
      obtain ⟨s1, n1, rfl⟩ := tokS "[" rfl (by decide) k1 hc4
      obtain ⟨s3, n3, rfl⟩ := tokS ".." rfl (by decide) k3 hd4
      obtain ⟨s5, n5, rfl⟩ := tokS "]" rfl (by decide) k5 hd8
      obtain ⟨a, ha, ma⟩ := maybe_at linv_integer int_ne hd1 p1 k2 p2 n3
      obtain ⟨b, hb, mb⟩ := maybe_at linv_integer int_ne hd5 p3 k4 p4 n5
      rw [hv1, hv2, hv3, hv4] at hr
      simp only [List.cons_append, List.nil_append] at hr
      rw [range_located (Or.inr rfl) intAt_read rfl (by simp [LTree.rule]) (by simp [LTree.rule]) ha hb] at hr
      obtain ⟨x, hx, rfl⟩ := tryL_map hr
      cases hx
      exact .slice hq (hr4.blanks n1) s1 ma s3 mb s5
  · rw [hnames [] (by simp)] at hr
    cases hr
    exact .path hq ⟨hr4.last hc4, fun g k hg hs => o2.end_.noGap hc4 hg hs⟩

/-! ## Terms -/

/-- The pairs are those of a primary expression whose value is `v`. -/
def Primary (node : LTree → LRes SExpr) (us : List LTree) (v : LRes SExpr) : Prop :=
  ∀ rest st, termLoopL node (us ++ rest) st = tryL v fun e => termLoopL node rest { st with expression := some e }

theorem primary_one {node : LTree → LRes SExpr} {u : LTree} {v : LRes SExpr}
    (h : ∀ st, termStepL node u st = tryL v fun e => .ok (.ok { st with expression := some e })) : Primary node [u] v := by
  intro rest st
  simp only [List.cons_append, List.nil_append, termLoopL, h]
  cases v with
  | ok v => cases v <;> rfl
  | panic => rfl
  | oof => rfl

theorem node_at {ops : Ops} {n fuel : Nat} (hyp : LocHyp inp ops n) (hn : c.suf.length ≤ n) (hc : On inp c)
    (h : LRec .nonAtomic (.ref .node) c c' ls) :
    c.suf ≠ [] ∧ ∃ v, Primary (nodeL ops fuel) ls v ∧ ∀ r, v = .ok r → ∃ j, Reading inp (pos c) j (.expr .primary r) ∧ Rests inp j c' := by
  have hc' := h.on hc
  rcases linv_choice (linv_silent rfl h) with h | h
  · obtain ⟨c1, c2, _, _, h1, o1, g1, hu1⟩ := linv_seqO h
    obtain ⟨c3, c4, _, _, h2, o2, h3, hu2⟩ := linv_seqO g1
    have hc1 := h1.on hc
    have hc2 := o1.on hc1
    have hc3 := h2.on hc2
    have hc4 := o2.on hc3
    have e1 := (linv_tok rfl h1).1
    obtain ⟨s1, n1, rfl⟩ := tokS "(" rfl (by decide) h1 hc
    obtain ⟨s3, n3, rfl⟩ := tokS ")" rfl (by decide) h3 hc4
    have hlt : c2.suf.length < n := by
      have l1 := congrArg List.length e1.suf
      obtain ⟨g, e2, -⟩ := o1.takes
      have l2 := congrArg List.length e2.suf
      simp only [List.length_append] at l1 l2
      have : "(".toList.length = 1 := rfl
      omega
    obtain ⟨u, rfl, hu, hu', hread⟩ := hyp fuel _ _ _ hlt hc2 o1.end_ h2
    refine ⟨n1, nodeL ops fuel u, ?_, ?_⟩
    · intro rest st
      rw [hu1, hu2]
      simp only [List.cons_append, List.nil_append, termLoopL, termStepL, rule_node]
      have : u.rule = .expression := hu
      rw [this]
      simp only
      cases nodeL ops fuel u with
      | ok v => cases v <;> rfl
      | panic => rfl
      | oof => rfl
    · intro r hr
      obtain ⟨j, k1, k2⟩ := hread r hr
      exact ⟨_, .paren s1 (o1.blanks hc1 hu') k1 ((k2.over hc3 o2).blanks n3) s3, Rests.here hc'⟩
  rcases linv_choice (linv_silent rfl h) with h | h
  · obtain ⟨s, o, u, hd, hp, hl, e, rfl⟩ := linv_string h
    have hr : u.rule = .string := congrArg Meta.MetaPair.rule hp
    refine ⟨takes_ne e (by simp), stringL u, primary_one fun st => by unfold termStepL; rw [hr], ?_⟩
    intro r h
    rw [string_located hd hp hl] at h
    cases h
    exact ⟨_, .str (e.stands hc) hd, Rests.here hc'⟩
  rcases linv_choice h with h | h
  · obtain ⟨k, s, u, hp, hl, e, rfl⟩ := linv_rawString h
    have hr : u.rule = .rawString := congrArg Meta.MetaPair.rule hp
    refine ⟨takes_ne e (by simp), rawStringL u, primary_one fun st => by unfold termStepL; rw [hr], ?_⟩
    intro r h
    obtain ⟨v, hv, h'⟩ := raw_located hp hl
    rw [h'] at h
    cases h
    exact ⟨_, .raw (e.stands hc) hv, Rests.here hc'⟩
  rcases linv_choice h with h | h
  · obtain ⟨s, o, u, hd, hp, hl, e, rfl⟩ := linv_insensitive h
    have hr : u.rule = .insensitiveString := congrArg Meta.MetaPair.rule hp
    refine ⟨takes_ne e (by simp), insensitiveL u, primary_one fun st => by unfold termStepL; rw [hr], ?_⟩
    intro r h
    rw [insensitive_located hd hp hl] at h
    cases h
    exact ⟨_, .insens (e.stands hc) hd, Rests.here hc'⟩
  rcases linv_choice h with h | h
  · obtain ⟨u, rfl, hr, hne, hread⟩ := path_at (fuel := fuel) hyp hn hc h
    exact ⟨hne, pathL (nodeL ops fuel) u, primary_one fun st => by unfold termStepL; rw [hr], fun r h => ⟨_, hread r h, Rests.here hc'⟩⟩
  · obtain ⟨u, rfl, hr, hne, hread⟩ := range_rule_at hc h
    exact ⟨hne, charRangeL u, primary_one fun st => by unfold termStepL; rw [hr], fun r h => ⟨_, hread r h, Rests.here hc'⟩⟩

/-- Prefix operators applied. -/
def foldPre (us : List LTree) (r : Except LErr SExpr) : LRes SExpr := tryL (.ok r) fun e => andThen (foldPrefixL us e) fun e => .ok (.ok e)

def IsPre (r : MetaRule) : Prop := r = .positivePredicate ∨ r = .negativePredicate

theorem pre_chain {a d d' : Cfg} {us : List LTree} (h : Repeats (.ref .prefixOperator) a d us) :
    On inp a → Over d d' → d'.suf ≠ [] → ∃ s, Over a s ∧ s.suf ≠ [] ∧ On inp d' ∧ (∀ u ∈ us, IsPre u.rule) ∧
      ∀ j r0, Reading inp (pos d') j (.expr .prefixed r0) → ∃ r, foldPre us r0 = .ok r ∧ Reading inp (pos s) j (.expr .prefixed r) := by
  induction h with
  | nil =>
    intro ha o hne
    exact ⟨d', o, hne, o.on ha, by simp, fun j r0 h => ⟨r0, by cases r0 <;> rfl, h⟩⟩
  | @cons a s b d us vs o1 h1 _ ih =>
    intro ha o hne
    have hs := o1.on ha
    have hb := h1.on hs
    obtain ⟨s', p1, n1, hd, hall, hread⟩ := ih hb o hne
    have one : ∃ u, us = [u] ∧ IsPre u.rule ∧ s.suf ≠ [] ∧ ∀ j r0, Reading inp (pos s') j (.expr .prefixed r0) →
        ∃ r, foldPre [u] r0 = .ok r ∧ Reading inp (pos s) j (.expr .prefixed r) := by
      have hbl := p1.blanks hb n1
      rcases linv_choice (linv_silent rfl h1) with h1 | h1
      · obtain ⟨s1, n1, rfl⟩ := tokS "&" rfl (by decide) h1 hs
        exact ⟨_, rfl, .inl rfl, n1, fun j r0 h => ⟨_, by cases r0 <;> rfl, .pos s1 hbl h⟩⟩
      · obtain ⟨s1, n1, rfl⟩ := tokS "!" rfl (by decide) h1 hs
        exact ⟨_, rfl, .inr rfl, n1, fun j r0 h => ⟨_, by cases r0 <;> rfl, .neg s1 hbl h⟩⟩
    obtain ⟨u, rfl, hu, hsn, hstep⟩ := one
    refine ⟨s, o1, hsn, hd, by simpa using ⟨hu, hall⟩, ?_⟩
    intro j r0 h
    obtain ⟨r1, k1, k2⟩ := hread j r0 h
    obtain ⟨r2, k3, k4⟩ := hstep j r1 k2
    refine ⟨r2, ?_, k4⟩
    cases r0 with
    | error e => cases k1; cases k3; rfl
    | ok e =>
      obtain ⟨x, m1, m2⟩ := andThen_inv (show andThen (foldPrefixL vs e) (fun e => .ok (.ok e)) = .ok r1 from k1)
      cases m2
      show andThen (andThen (foldPrefixL vs e) fun e => prefixL u e) _ = _
      rw [m1]
      exact k3

theorem post_link {s b : Cfg} {us : List LTree} (hs : Skipped s) (hc : On inp s) (h : LRec .nonAtomic (.ref .postfixOperator) s b us) :
    (∀ u ∈ us, IsPost u.rule) ∧ s.suf ≠ [] ∧ ∀ i j r0, Reading inp i j (.expr .postfixed r0) → Blanks inp j (pos s) →
      ∃ r, tryL (.ok r0) (foldPostfixL us) = .ok r ∧ Reading inp i (pos b) (.expr .postfixed r) := by
  obtain ⟨b1, b2, _, _, h1, o1, h2, rfl⟩ := linv_seqO (linv_silent rfl h)
  have hb1 := h1.on hc
  have hb2 := o1.on hb1
  obtain ⟨p, o, rfl, hp, hdoes, hat, hne⟩ := repeat_at hb2 h2
  rcases linv_opt h1 with h1 | ⟨rfl, rfl⟩
  · have hbl := o1.blanks hb1 hne
    have sep : ∀ {x : Char} {t : Trivia} {us : List LTree} {u : LTree}, us = [u] → u.rule = .tildeOperator ∨ u.rule = .caretOperator →
        (∀ e : SExpr, postfixL u e = .ok (.ok (.separated e t ⟨e.span.start, pos b1⟩))) → JoinText t x → t ≠ .none → Stands inp (pos s) [x] (pos b1) →
        s.suf ≠ [] →
        (∀ u ∈ us ++ [p], IsPost u.rule) ∧ s.suf ≠ [] ∧ ∀ i j r0, Reading inp i j (.expr .postfixed r0) → Blanks inp j (pos s) →
          ∃ r, tryL (.ok r0) (foldPostfixL (us ++ [p])) = .ok r ∧ Reading inp i (pos b) (.expr .postfixed r) := by
      rintro x t _ u rfl hu hpost hj ht hst hsn
      refine ⟨?_, hsn, ?_⟩
      · intro v hv
        simp only [List.cons_append, List.nil_append, List.mem_cons, List.not_mem_nil, or_false] at hv
        rcases hv with rfl | rfl
        · rcases hu with hu | hu
          · exact .inr (.inl hu)
          · exact .inr (.inr (.inl hu))
        · exact hp
      · intro i j r0 hr hb
        refine ⟨_, ?_, .sepPost hr hb hj ht hst hbl hat⟩
        cases r0 with
        | error e => rfl
        | ok e =>
          show tryL (postfixL u e) (fun e => tryL (postfixL p e) fun e => .ok (.ok e)) = _
          rw [hpost]
          show tryL (postfixL p _) _ = _
          rw [hdoes]
          cases o <;> rfl
    rcases linv_choice (linv_silent rfl h1) with h1 | h1
    · obtain ⟨s1, n1, rfl⟩ := tokS "~" rfl (by decide) h1 hc
      exact sep rfl (.inl rfl) (fun e => rfl) .optional (by simp) s1 n1
    · obtain ⟨s1, n1, rfl⟩ := tokS "^" rfl (by decide) h1 hc
      exact sep rfl (.inr rfl) (fun e => rfl) .mandatory (by simp) s1 n1
  · cases o1.stays hs
    refine ⟨by simpa using hp, hne, ?_⟩
    intro i j r0 hr hb
    refine ⟨_, ?_, .post hr hb hat⟩
    cases r0 with
    | error e => rfl
    | ok e =>
      show tryL (postfixL p e) (fun e => .ok (.ok e)) = _
      rw [hdoes]
      cases o <;> rfl

theorem foldPost_append (us vs : List LTree) (r : Except LErr SExpr) :
    tryL (.ok r) (foldPostfixL (us ++ vs)) = tryL (tryL (.ok r) (foldPostfixL us)) (foldPostfixL vs) := by
  cases r with
  | error e => rfl
  | ok e =>
    show foldPostfixL (us ++ vs) e = tryL (foldPostfixL us e) (foldPostfixL vs)
    induction us generalizing e with
    | nil => rfl
    | cons u us ih =>
      simp only [List.cons_append, foldPostfixL]
      cases postfixL u e with
      | ok r => cases r with
        | ok e => exact ih e
        | error e => rfl
      | panic => rfl
      | oof => rfl

theorem post_chain {a d : Cfg} {us : List LTree} (h : Repeats (.ref .postfixOperator) a d us) :
    On inp a → (∀ u ∈ us, IsPost u.rule) ∧ ∀ i j r0, Reading inp i j (.expr .postfixed r0) → Rests inp j a →
      ∃ r j', tryL (.ok r0) (foldPostfixL us) = .ok r ∧ Reading inp i j' (.expr .postfixed r) ∧ Rests inp j' d := by
  induction h with
  | nil =>
    intro ha
    exact ⟨by simp, fun i j r0 h hr => ⟨r0, j, by cases r0 <;> rfl, h, hr⟩⟩
  | @cons a s b d us vs o1 h1 _ ih =>
    intro ha
    have hs := o1.on ha
    have hb := h1.on hs
    obtain ⟨h2, h3⟩ := ih hb
    obtain ⟨k1, k2, k3⟩ := post_link o1.end_ hs h1
    refine ⟨fun u hu => (List.mem_append.1 hu).elim (k1 u) (h2 u), ?_⟩
    intro i j r0 hr hre
    obtain ⟨r1, m1, m2⟩ := k3 i j r0 hr ((hre.over ha o1).blanks k2)
    obtain ⟨r2, j', m3, m4, m5⟩ := h3 i _ r1 m2 (Rests.here hb)
    exact ⟨r2, j', by rw [foldPost_append, m1]; exact m3, m4, m5⟩

theorem loop_pre {node : LTree → LRes SExpr} {us : List LTree} (h : ∀ u ∈ us, IsPre u.rule) (rest : List LTree) (st : TermStL) :
    termLoopL node (us ++ rest) st = termLoopL node rest { st with pre := st.pre ++ us } := by
  induction us generalizing st with
  | nil => simp
  | cons u us ih =>
    have hu := h u (by simp)
    have : termStepL node u st = .ok (.ok { st with pre := st.pre ++ [u] }) := by
      unfold termStepL
      rcases hu with hu | hu <;> rw [hu]
    simp only [List.cons_append, termLoopL, this]
    show termLoopL node (us ++ rest) _ = _
    rw [ih fun v hv => h v (List.mem_cons_of_mem _ hv)]
    simp

theorem loop_post {node : LTree → LRes SExpr} {us : List LTree} (h : ∀ u ∈ us, IsPost u.rule) (st : TermStL) :
    termLoopL node us st = .ok (.ok { st with post := st.post ++ us }) := by
  induction us generalizing st with
  | nil => simp [termLoopL]
  | cons u us ih =>
    have hu := h u (by simp)
    have : termStepL node u st = .ok (.ok { st with post := st.post ++ [u] }) := by
      unfold termStepL
      rcases hu with hu | hu | hu | hu | hu | hu <;> rw [hu]
    simp only [termLoopL, this]
    show termLoopL node us _ = _
    rw [ih fun v hv => h v (List.mem_cons_of_mem _ hv)]
    simp

theorem term_at {ops : Ops} {n fuel : Nat} (hyp : LocHyp inp ops n) (hn : c.suf.length ≤ n) (hc : On inp c) (hs : Skipped c)
    (h : LRec .nonAtomic (.ref .term) c c' ls) :
    ∃ u, ls = [u] ∧ u.rule = .term ∧ c.suf ≠ [] ∧
      ∀ r, termL (nodeL ops fuel) u = .ok r → ∃ j, Reading inp (pos c) j (.expr .prefixed r) ∧ Rests inp j c' := by
  obtain ⟨us, h0, rfl⟩ := linv_pair rfl rfl h
  obtain ⟨c1, c2, pres, _, h1, o1, g1, hu1⟩ := linv_seqO h0
  obtain ⟨c3, c4, prim, posts, h2, o2, h3, hu2⟩ := linv_seqO g1
  have hc1 := h1.on hc
  have hc2 := o1.on hc1
  have hc3 := h2.on hc2
  have hc4 := o2.on hc3
  have hle : c2.suf.length ≤ n := by
    obtain ⟨g, e⟩ := rec_takes h1.bare
    have l1 := congrArg List.length e.suf
    obtain ⟨g, e2, -⟩ := o1.takes
    have l2 := congrArg List.length e2.suf
    simp only [List.length_append] at l1 l2
    omega
  obtain ⟨hne, v, hv, hread⟩ := node_at (fuel := fuel) hyp hle hc2 h2
  obtain ⟨s, p1, hsn, -, hpre, hfold⟩ := pre_chain (linv_rep hs h1) hc o1 hne
  cases p1.stays hs
  obtain ⟨hpost, hfold'⟩ := post_chain (linv_rep o2.end_ h3) hc4
  refine ⟨_, rfl, rfl, hsn, ?_⟩
  rw [hu1, hu2]
  intro r hr
  unfold termL at hr
  simp only [LTree.inner] at hr
  rw [loop_pre hpre, hv] at hr
  cases v with
  | panic => cases hr
  | oof => cases hr
  | ok v =>
    obtain ⟨j0, k1, k2⟩ := hread v rfl
    obtain ⟨r1, j1, k3, k4, k5⟩ := hfold' _ _ _ (.unpostfixed k1) (k2.over hc3 o2)
    obtain ⟨r2, k6, k7⟩ := hfold _ _ (.unprefixed k4)
    refine ⟨j1, ?_, k5⟩
    suffices r = r2 by rw [this]; exact k7
    cases v with
    | error e =>
      cases k3
      cases k6
      cases hr
      rfl
    | ok e =>
      simp only [tryL, andThen] at hr
      rw [loop_post hpost] at hr
      simp only [List.nil_append, unwrap] at hr
      have k3' : foldPostfixL posts e = .ok r1 := k3
      rw [k3'] at hr
      cases r1 with
      | error e =>
        cases k6
        cases hr
        rfl
      | ok e1 =>
        have k6' : andThen (foldPrefixL pres e1) (fun e => .ok (.ok e)) = (.ok r2 : LRes SExpr) := k6
        have hr' : andThen (foldPrefixL pres e1) (fun e => .ok (.ok e)) = (.ok r : LRes SExpr) := hr
        rw [k6'] at hr'
        cases hr'
        rfl

end

end Pest3.Gen
