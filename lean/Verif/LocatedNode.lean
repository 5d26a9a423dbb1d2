import Verif.LocatedExpr

/-!
# Places of choices and sequences
-/

namespace Pest3.Gen
open Pest3 Pest3.Load
open Pest3.Meta (MetaRule MetaRange)

/-- The rule of the operator that joins with `t`. -/
inductive JoinRule : Trivia → MetaRule → Prop where
  | none : JoinRule .none .sequenceOperator
  | optional : JoinRule .optional .tildeOperator
  | mandatory : JoinRule .mandatory .caretOperator

/-- Terms and operators from `i` on, up to `d`. -/
inductive Terms (inp : Text) (primary : LTree → LRes SExpr) (d : Cfg) : Nat → List LTree → Prop where
  | one {i t} : t.rule = .term → (∀ r, primary t = .ok r → ∃ j, Reading inp i j (.expr .prefixed r) ∧ Rests inp j d) → Terms inp primary d i [t]
  | join {i k l m t o tr x ls} : t.rule = .term → (∀ r, primary t = .ok r → ∃ j, Reading inp i j (.expr .prefixed r) ∧ Blanks inp j k) →
      JoinText tr x → JoinRule tr o.rule → Stands inp k [x] l → Blanks inp l m → Terms inp primary d m ls → Terms inp primary d i (t :: o :: ls)
  | bar {i k l m t o ls} : t.rule = .term → (∀ r, primary t = .ok r → ∃ j, Reading inp i j (.expr .prefixed r) ∧ Blanks inp j k) →
      o.rule = .choiceOperator → BarAt inp k l → Blanks inp l m → Terms inp primary d m ls → Terms inp primary d i (t :: o :: ls)

section
variable {inp : Text} {ops : Ops} {primary : LTree → LRes SExpr} {d : Cfg}

/-- What stands after a sequence. -/
def After (inp : Text) (primary : LTree → LRes SExpr) (d : Cfg) (j : Nat) (rest : List LTree) : Prop :=
  (rest = [] ∧ Rests inp j d) ∨
  ∃ o ls k l m, rest = o :: ls ∧ o.rule = .choiceOperator ∧ Blanks inp j k ∧ BarAt inp k l ∧ Blanks inp l m ∧ Terms inp primary d m ls

theorem infix_join {x y : Except LErr SExpr} {o : LTree} {tr : Trivia} (h : JoinRule tr o.rule) :
    infixL x o y = .ok (both (fun x y => .seq x y tr ⟨x.span.start, y.span.stop⟩) x y) := by
  unfold infixL
  cases x with
  | error e => rfl
  | ok x => cases y with
    | error e => rfl
    | ok y =>
      simp only
      generalize o.rule = r at h
      cases h <;> rfl

theorem infix_bar {x y : Except LErr SExpr} {o : LTree} (h : o.rule = .choiceOperator) :
    infixL x o y = .ok (both (fun x y => .choice x y ⟨x.span.start, y.span.stop⟩) x y) := by
  unfold infixL
  cases x with
  | error e => rfl
  | ok x => cases y with
    | error e => rfl
    | ok y => rw [h]; rfl

theorem JoinRule.prec {tr : Trivia} {r : MetaRule} (h : JoinRule tr r) : ruleOps r = some 30 := by cases h <;> rfl

/-- After a sequence the loop for operands of sequences ends. -/
theorem loop_ends (hops : ∀ r p, ops r = some p → ruleOps r = some p) {fuel j : Nat} {e : Except LErr SExpr} {rest : List LTree} {x : Except LErr SExpr × List LTree}
    (h : After inp primary d j rest) (hx : prattLoopL ops primary fuel 29 e rest = .ok x) : x = (e, rest) := by
  cases fuel with
  | zero => cases hx
  | succ n =>
    rcases h with ⟨rfl, -⟩ | ⟨o, ls, k, l, m, rfl, ho, -⟩
    · cases hx; rfl
    · simp only [prattLoopL] at hx
      cases hp : ops o.rule with
      | none => rw [hp] at hx; cases hx
      | some p =>
        have := hops _ _ hp
        rw [ho] at this
        cases this
        rw [hp] at hx
        cases hx
        rfl

/-- Precedence climbing reads the terms with the precedences and the associativity of the notation. -/
theorem pratt_at (hops : ∀ r p, ops r = some p → ruleOps r = some p) : ∀ fuel {i : Nat} {ls : List LTree} {r : Except LErr SExpr} {rest : List LTree}, Terms inp primary d i ls →
    (prattExprL ops primary fuel 29 ls = .ok (r, rest) → ∃ j, Reading inp i j (.expr .sequence r) ∧ After inp primary d j rest) ∧
    ∀ rbp < 20, prattExprL ops primary fuel rbp ls = .ok (r, rest) → rest = [] ∧ ∃ j, Reading inp i j (.expr .choice r) ∧ Rests inp j d := by
  intro fuel
  induction fuel using Nat.strongRecOn with
  | ind fuel ih =>
    -- from a sequence on
    have climb : ∀ {n rbp i j : Nat} {s r : Except LErr SExpr} {ls rest : List LTree}, n < fuel → rbp < 20 → Reading inp i j (.expr .sequence s) →
        After inp primary d j ls → prattLoopL ops primary n rbp s ls = .ok (r, rest) → rest = [] ∧ ∃ j, Reading inp i j (.expr .choice r) ∧ Rests inp j d := by
      intro n rbp i j s r ls rest hn hr hs ha h
      cases n with
      | zero => cases h
      | succ n =>
        rcases ha with ⟨rfl, ha⟩ | ⟨o, ls, k, l, m, rfl, ho, h1, h2, h3, h4⟩
        · cases h
          exact ⟨rfl, j, .alternative hs, ha⟩
        · simp only [prattLoopL] at h
          cases hp : ops o.rule with
          | none => rw [hp] at h; cases h
          | some p =>
            have := hops _ _ hp
            rw [ho] at this
            cases this
            rw [hp] at h
            simp only [if_pos hr] at h
            obtain ⟨⟨y, rest1⟩, k1, h⟩ := andThen_inv h
            obtain ⟨e, k2, h⟩ := andThen_inv h
            obtain ⟨rfl, j', k3, k4⟩ := (ih n (by omega) h4).2 19 (by omega) k1
            rw [infix_bar ho] at k2
            cases k2
            cases n with
            | zero => cases h
            | succ n =>
              cases h
              exact ⟨rfl, j', .choice hs h1 h2 h3 k3, k4⟩
    -- the first term, and the sequence it begins
    have first : ∀ {n rbp i : Nat} {r : Except LErr SExpr} {ls rest : List LTree}, n < fuel → (rbp = 29 ∨ rbp < 20) → Terms inp primary d i ls →
        prattExprL ops primary (n + 1) rbp ls = .ok (r, rest) →
        ∃ m s ls' j, m ≤ n ∧ Reading inp i j (.expr .sequence s) ∧ After inp primary d j ls' ∧ prattLoopL ops primary m rbp s ls' = .ok (r, rest) := by
      intro n rbp i r ls rest hn hr ht h
      have term : ∀ {t : LTree} {ls : List LTree}, t.rule = .term → prattExprL ops primary (n + 1) rbp (t :: ls) = .ok (r, rest) →
          ∃ v, primary t = .ok v ∧ prattLoopL ops primary n rbp v ls = .ok (r, rest) := by
        intro t ls ht h
        have hnone : ops t.rule = none := by
          cases hp : ops t.rule with
          | none => rfl
          | some p =>
            have := hops _ _ hp
            rw [ht] at this
            cases this
        simp only [prattExprL, hnone] at h
        exact andThen_inv h
      cases ht with
      | one h1 h2 =>
        obtain ⟨v, k1, k2⟩ := term h1 h
        obtain ⟨j, k3, k4⟩ := h2 v k1
        exact ⟨n, v, [], j, Nat.le_refl n, .single k3, .inl ⟨rfl, k4⟩, k2⟩
      | bar h1 h2 h3 h4 h5 h6 =>
        obtain ⟨v, k1, k2⟩ := term h1 h
        obtain ⟨j, k3, k4⟩ := h2 v k1
        exact ⟨n, v, _, j, Nat.le_refl n, .single k3, .inr ⟨_, _, _, _, _, rfl, h3, k4, h4, h5, h6⟩, k2⟩
      | @join _ k l m t o tr x ls h1 h2 h3 h4 h5 h6 h7 =>
        obtain ⟨v, k1, k2⟩ := term h1 h
        obtain ⟨j, k3, k4⟩ := h2 v k1
        cases n with
        | zero => cases k2
        | succ n =>
          simp only [prattLoopL] at k2
          cases hp : ops o.rule with
          | none => rw [hp] at k2; cases k2
          | some p =>
            have := hops _ _ hp
            rw [h4.prec] at this
            cases this
            rw [hp] at k2
            simp only [if_pos (show rbp < 30 by omega)] at k2
            obtain ⟨⟨y, rest1⟩, m1, k2⟩ := andThen_inv k2
            obtain ⟨e, m2, k2⟩ := andThen_inv k2
            obtain ⟨j', m3, m4⟩ := (ih n (by omega) h7).1 m1
            rw [infix_join h4] at m2
            cases m2
            exact ⟨n, _, rest1, j', by omega, .seq k3 k4 h3 h5 h6 m3, m4, k2⟩
    intro i ls r rest ht
    cases fuel with
    | zero => exact ⟨fun h => by simp [prattExprL] at h, fun _ _ h => by simp [prattExprL] at h⟩
    | succ n =>
      refine ⟨fun h => ?_, fun rbp hr h => ?_⟩
      · obtain ⟨m, s, ls', j, -, k1, k2, k3⟩ := first (Nat.lt_succ_self n) (.inl rfl) ht h
        cases loop_ends hops k2 k3
        exact ⟨j, k1, k2⟩
      · obtain ⟨m, s, ls', j, hm, k1, k2, k3⟩ := first (Nat.lt_succ_self n) (.inr hr) ht h
        exact climb (by omega) hr k1 k2 k3

/-- The terms after the first. -/
theorem terms_chain {n fuel : Nat} (hyp : LocHyp inp ops n) {a : Cfg} {us : List LTree}
    (h : Repeats (.seq (.ref .infixOperator) (.ref .term)) a d us) : On inp a → a.suf.length ≤ n → ∀ {i t}, t.rule = .term →
      (∀ r, termL (nodeL ops fuel) t = .ok r → ∃ j, Reading inp i j (.expr .prefixed r) ∧ Rests inp j a) →
      Terms inp (termL (nodeL ops fuel)) d i (t :: us) := by
  induction h with
  | nil => intro ha hlen i t ht hr; exact .one ht hr
  | @cons a s b d us vs o1 h1 hch ih =>
    intro ha hlen i t ht hr
    obtain ⟨d1, d2, _, _, k1, o2, k2, rfl⟩ := linv_seqO h1
    have hc0 := o1.on ha
    have hc1 := k1.on hc0
    have hc2 := o2.on hc1
    have hc3 := k2.on hc2
    have hl2 : d2.suf.length ≤ n := by
      obtain ⟨g1, e1, -⟩ := o1.takes
      have l1 := congrArg List.length e1.suf
      obtain ⟨g2, e2⟩ := rec_takes k1.bare
      have l2 := congrArg List.length e2.suf
      obtain ⟨g3, e3, -⟩ := o2.takes
      have l3 := congrArg List.length e3.suf
      simp only [List.length_append] at l1 l2 l3
      omega
    have hl3 : b.suf.length ≤ n := by
      obtain ⟨g2, e2⟩ := rec_takes k2.bare
      have l2 := congrArg List.length e2.suf
      simp only [List.length_append] at l2
      omega
    obtain ⟨u, rfl, hu, hne, hread⟩ := term_at (fuel := fuel) hyp hl2 hc2 o2.end_ k2
    have hrest := ih hc3 hl3 hu hread
    have hb := o2.blanks hc1 hne
    have before : s.suf ≠ [] → ∀ r, termL (nodeL ops fuel) t = .ok r → ∃ j, Reading inp i j (.expr .prefixed r) ∧ Blanks inp j (pos s) := by
      intro hs r h
      obtain ⟨j, m1, m2⟩ := hr r h
      exact ⟨j, m1, (m2.over ha o1).blanks hs⟩
    rcases linv_choice (linv_silent rfl k1) with k1 | k1
    · obtain ⟨s1, n1, rfl⟩ := tokS "-" rfl (by decide) k1 hc0
      exact .join ht (before n1) .none .none s1 hb hrest
    rcases linv_choice k1 with k1 | k1
    · obtain ⟨s1, n1, rfl⟩ := tokS "~" rfl (by decide) k1 hc0
      exact .join ht (before n1) .optional .optional s1 hb hrest
    rcases linv_choice k1 with k1 | k1
    · obtain ⟨s1, n1, rfl⟩ := tokS "^" rfl (by decide) k1 hc0
      exact .join ht (before n1) .mandatory .mandatory s1 hb hrest
    · obtain ⟨o, rfl, ho, hbar, n1⟩ := bar_atL o1.end_ hc0 k1
      exact .bar ht (before n1) ho hbar hb hrest

/-- Every expression stands where it is read from. -/
theorem expression_at (hops : ∀ r p, ops r = some p → ruleOps r = some p) (n : Nat) : LocHyp inp ops n := by
  induction n with
  | zero => intro fuel c c' ls h; omega
  | succ n hyp =>
    intro fuel c c' ls hlen hc hs h
    have hn : c.suf.length ≤ n := by omega
    obtain ⟨us, h0, rfl⟩ := linv_pair rfl rfl h
    obtain ⟨c1, c2, pre, _, h1, o1, g1, hu1⟩ := linv_seqO h0
    obtain ⟨c3, c4, _, more, h2, o2, h3, hu2⟩ := linv_seqO g1
    have hc1 := h1.on hc
    have hc2 := o1.on hc1
    have hc3 := h2.on hc2
    have hc4 := o2.on hc3
    have hl2 : c2.suf.length ≤ n := by
      obtain ⟨g2, e2⟩ := rec_takes h1.bare
      have l2 := congrArg List.length e2.suf
      obtain ⟨g3, e3, -⟩ := o1.takes
      have l3 := congrArg List.length e3.suf
      simp only [List.length_append] at l2 l3
      omega
    have hl4 : c4.suf.length ≤ n := by
      obtain ⟨g2, e2⟩ := rec_takes h2.bare
      have l2 := congrArg List.length e2.suf
      obtain ⟨g3, e3, -⟩ := o2.takes
      have l3 := congrArg List.length e3.suf
      simp only [List.length_append] at l2 l3
      omega
    -- what follows the optional beginning
    have tail : ∃ t, us = pre ++ (t :: more) ∧ t.rule = .term ∧ c2.suf ≠ [] ∧ ∀ fuel, Terms inp (termL (nodeL ops fuel)) c' (pos c2) (t :: more) := by
      obtain ⟨u, rfl, hu, hne, -⟩ := term_at (fuel := 0) hyp hl2 hc2 o1.end_ h2
      refine ⟨u, by rw [hu1, hu2]; rfl, hu, hne, fun fuel => ?_⟩
      obtain ⟨u', hu', -, -, hread⟩ := term_at (fuel := fuel) hyp hl2 hc2 o1.end_ h2
      cases hu'
      exact terms_chain hyp (linv_rep o2.end_ h3) hc4 hl4 hu fun r hr => by
        obtain ⟨j, m1, m2⟩ := hread r hr
        exact ⟨j, m1, m2.over hc3 o2⟩
    obtain ⟨t, rfl, ht, hne2, hterms⟩ := tail
    -- from terms to the value
    have finish : ∀ {f i us}, Terms inp (termL (nodeL ops f)) c' i us → ∀ r, andThen (prattExprL ops (termL (nodeL ops f)) f 0 us) (fun r => .ok r.1) = .ok r →
        ∃ j, Reading inp i j (.expr .choice r) ∧ Rests inp j c' := by
      intro f i us hu r h
      obtain ⟨⟨v, rest⟩, k1, k2⟩ := andThen_inv h
      cases k2
      exact ((pratt_at hops f hu).2 0 (by omega) k1).2
    have noBar : ∀ {t : LTree} {us}, t.rule = .term → skipL .choiceOperator (t :: us) = t :: us := by
      intro t us ht
      simp [skipL, ht]
    rcases linv_opt h1 with h1 | ⟨rfl, rfl⟩
    · obtain ⟨d1, d2, bar, _, k1, p1, l1, hv1⟩ := linv_seqO h1
      obtain ⟨d3, d4, _, _, k2, p2, k3, hv2⟩ := linv_seqO l1
      have hd1 := k1.on hc
      have hd2 := p1.on hd1
      have hd3 := k2.on hd2
      have hd4 := p2.on hd3
      have hld : d2.suf.length ≤ n := by
        obtain ⟨g2, e2⟩ := rec_takes k1.bare
        have l2 := congrArg List.length e2.suf
        obtain ⟨g3, e3, -⟩ := p1.takes
        have l3 := congrArg List.length e3.suf
        simp only [List.length_append] at l2 l3
        omega
      obtain ⟨o, rfl, ho, hbar, hne4⟩ := bar_atL p2.end_ hd4 k3
      have head : ∃ u, pre = bar ++ [u, o] ∧ u.rule = .term ∧ d2.suf ≠ [] ∧
          ∀ fuel, Terms inp (termL (nodeL ops fuel)) c' (pos d2) (u :: o :: t :: more) := by
        obtain ⟨u, rfl, hu, hne, -⟩ := term_at (fuel := 0) hyp hld hd2 p1.end_ k2
        refine ⟨u, by rw [hv1, hv2]; rfl, hu, hne, fun fuel => ?_⟩
        obtain ⟨u', hu', -, -, hread⟩ := term_at (fuel := fuel) hyp hld hd2 p1.end_ k2
        cases hu'
        refine .bar hu (fun r hr => ?_) ho hbar (o1.blanks hc1 hne2) (hterms fuel)
        obtain ⟨j, m1, m2⟩ := hread r hr
        exact ⟨j, m1, (m2.over hd3 p2).blanks hne4⟩
      obtain ⟨u, rfl, hu, hned, hhead⟩ := head
      rcases linv_opt k1 with k1 | ⟨rfl, rfl⟩
      · obtain ⟨o', rfl, ho', hbar', hne'⟩ := bar_atL hs hc k1
        refine ⟨_, rfl, rfl, hne', ?_⟩
        intro r hr
        cases fuel with
        | zero => cases hr
        | succ f =>
          simp only [nodeL, LTree.inner, List.cons_append, List.nil_append, skipL, ho', if_true] at hr
          obtain ⟨j, m1, m2⟩ := finish (hhead f) r hr
          exact ⟨j, .leading hbar' (p1.blanks hd1 hned) m1, m2⟩
      · cases p1.stays hs
        refine ⟨_, rfl, rfl, hned, ?_⟩
        intro r hr
        cases fuel with
        | zero => cases hr
        | succ f =>
          simp only [nodeL, LTree.inner, List.cons_append, List.nil_append, noBar hu] at hr
          obtain ⟨j, m1, m2⟩ := finish (hhead f) r hr
          exact ⟨j, .whole m1, m2⟩
    · cases o1.stays hs
      refine ⟨_, rfl, rfl, hne2, ?_⟩
      intro r hr
      cases fuel with
      | zero => cases hr
      | succ f =>
        simp only [nodeL, LTree.inner, List.nil_append, noBar ht] at hr
        obtain ⟨j, m1, m2⟩ := finish (hterms f) r hr
        exact ⟨j, .whole m1, m2⟩

end

end Pest3.Gen
