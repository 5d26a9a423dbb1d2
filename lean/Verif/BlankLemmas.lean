import Verif.BlankSpec
import Verif.UnorderedLemmas
import Verif.LeftLemmas

namespace Pest3.Gen
open Pest3

/-! ## Blanks left out -/

/-- `d` is behind some blanks. -/
def Past (W : Char → Bool) (c d : Cfg) : Prop := ∃ w, (∀ x ∈ w, W x = true) ∧ c.suf = w ++ d.suf ∧ d.pre = c.pre ++ w ∧ d.stk = c.stk

/-- Behind all blanks. -/
def pastAll (W : Char → Bool) (c : Cfg) : Cfg := ⟨c.pre ++ c.suf.takeWhile W, c.suf.dropWhile W, c.stk⟩

section
variable {W : Char → Bool}

theorem Past.refl (c : Cfg) : Past W c c := ⟨[], by simp, rfl, by simp, rfl⟩

theorem Past.trans {a b c : Cfg} (h : Past W a b) (h' : Past W b c) : Past W a c := by
  obtain ⟨w, h1, h2, h3, h4⟩ := h
  obtain ⟨w', k1, k2, k3, k4⟩ := h'
  refine ⟨w ++ w', fun x hx => ?_, by rw [h2, k2, List.append_assoc], by rw [k3, h3, List.append_assoc], by rw [k4, h4]⟩
  rcases List.mem_append.mp hx with hx | hx
  · exact h1 x hx
  · exact k1 x hx

theorem takeWhile_blank (l : Text) : ∀ x ∈ l.takeWhile W, W x = true := by
  induction l with
  | nil => intro x h; cases h
  | cons y l ih =>
    intro x h
    rw [List.takeWhile_cons] at h
    split at h
    · rcases List.mem_cons.mp h with rfl | h
      · assumption
      · exact ih x h
    · cases h

theorem past_all (c : Cfg) : Past W c (pastAll W c) := ⟨_, takeWhile_blank c.suf, (List.takeWhile_append_dropWhile ..).symm, rfl, rfl⟩

theorem Past.all {c d : Cfg} (h : Past W c d) : pastAll W d = pastAll W c := by
  obtain ⟨w, h1, h2, h3, h4⟩ := h
  have k : ∀ s : Text, (w ++ s).takeWhile W = w ++ s.takeWhile W ∧ (w ++ s).dropWhile W = s.dropWhile W := fun s =>
    ⟨List.takeWhile_append_of_pos h1, List.dropWhile_append_of_pos h1⟩
  simp only [pastAll, h2, h3, h4, (k d.suf).1, (k d.suf).2, List.append_assoc]

theorem Past.to_all {c d : Cfg} (h : Past W c d) : Past W d (pastAll W c) := h.all ▸ past_all d

theorem Past.length {c d : Cfg} (h : Past W c d) : d.suf.length ≤ c.suf.length := by
  obtain ⟨w, -, h2, -⟩ := h
  rw [h2, List.length_append]
  omega

theorem Past.same {c d : Cfg} (h : Past W c d) (hc : ∀ x, c.suf.head? = some x → W x = false) : d = c := by
  obtain ⟨w, h1, h2, h3, h4⟩ := h
  cases w with
  | nil =>
    obtain ⟨pre, suf, stk⟩ := d
    obtain ⟨pre', suf', stk'⟩ := c
    simp only [List.nil_append, List.append_nil] at h2 h3 h4
    rw [h2, h3, h4]
  | cons x w =>
    have := hc x (by rw [h2]; rfl)
    rw [h1 x List.mem_cons_self] at this
    cases this

theorem view_heads (s : Text) : (view W s).heads W s.head? := by
  cases s with
  | nil => simp [view, View.heads]
  | cons x s =>
    cases h : W x with
    | true => simp [view, View.heads, h]
    | false => simp [view, View.heads, h]

theorem Past.view {c d : Cfg} (h : Past W c d) : view W d.suf = view W c.suf ∨ view W d.suf = ⟨false, (view W c.suf).next⟩ := by
  obtain ⟨w, h1, h2, -⟩ := h
  have hn : (Gen.view W d.suf).next = (Gen.view W c.suf).next := by
    rw [h2]
    simp only [Gen.view]
    rw [List.dropWhile_append_of_pos h1]
  cases hg : (Gen.view W d.suf).gap with
  | false => right; rw [← hn, ← hg]
  | true =>
    left
    have : (Gen.view W c.suf).gap = true := by
      rw [h2]
      cases w with
      | nil => exact hg
      | cons x w => simp [Gen.view, h1 x List.mem_cons_self]
    calc Gen.view W d.suf = ⟨(Gen.view W d.suf).gap, (Gen.view W d.suf).next⟩ := rfl
      _ = Gen.view W c.suf := by rw [hg, hn, ← this]

theorem view_spaced {c d : Cfg} (h : Past W c d) {F : View → Prop} (hF : F (view W d.suf)) : Spaced F (view W c.suf) := by
  obtain ⟨w, h1, h2, -⟩ := h
  rw [h2]
  refine ⟨_, hF, ?_, ?_⟩
  · simp only [view]
    rw [List.dropWhile_append_of_pos h1]
  · intro hg
    cases w with
    | nil => exact hg
    | cons x w => simp [view, h1 x List.mem_cons_self]

end

section
variable {u : Unicode} {root : Module} {W : Char → Bool}

theorem May.length {it : SItem} {c c' : Cfg} (h : May u root it c c') : c'.suf.length ≤ c.suf.length := by
  obtain ⟨m, k, -⟩ := h.begins
  rw [k, List.length_append]
  omega

theorem May.starts {a : Clo} {c c' : Cfg} (h : May u root (.expr a) c c') : StartsAt u root W a (view W c.suf) := by
  obtain ⟨f, k1, k2⟩ := h.first
  exact ⟨f, k1, k2 ▸ view_heads c.suf⟩

theorem May.firm {a : Clo} {c c' d : Cfg} (h : May u root (.expr a) c c') (ha : Firm u root W a) (hd : Past W c d) : d = c := by
  obtain ⟨f, k1, k2⟩ := h.first
  exact hd.same fun x hx => ha f k1 x (k2.trans hx)

theorem May.heading {a : Clo} {G : View → Prop} {c c' : Cfg} (h1 : May u root (.expr a) c c') (h2 : G (view W c'.suf)) : Heading u root W G a (view W c.suf) := by
  obtain ⟨m, k1, k2⟩ := h1.begins
  have k2 : Begins u root (.expr a) (firstOf c.suf m) := k2
  have hh := view_heads (W := W) c.suf
  cases m with
  | nil =>
    rw [List.nil_append] at k1
    exact .inr ⟨_, hh, k2, by rw [k1]; exact h2⟩
  | cons x m => exact .inl ⟨x, by rw [show some x = c.suf.head? from by rw [k1]; rfl]; exact hh, k2⟩

/-! ## Trivia that are blanks -/

/-- An item of the trivia returns, and matches blanks only, at least one. -/
theorem BlankItem.item {p : List Name} {e : Expr} (h : BlankItem u root W p e) (c : Cfg) :
    (∃ o, Meaning u root (.expr (.mk p [] e)) c o) ∧ ∀ c', May u root (.expr (.mk p [] e)) c c' → Past W c c' ∧ c'.suf.length < c.suf.length := by
  have leaf : ∀ {m rest : Text} {stk}, (∀ x ∈ m, W x = true) → m ≠ [] → c.suf = m ++ rest → stk = c.stk → Past W c ⟨c.pre ++ m, rest, stk⟩ ∧ rest.length < c.suf.length := by
    intro m rest stk h1 h2 h3 h4
    refine ⟨⟨m, h1, h3, rfl, h4⟩, ?_⟩
    rw [h3, List.length_append]
    have := List.length_pos_iff.mpr h2
    omega
  have stkOf : ∀ {o : Option Text} {m : Text} {s stk : List Text}, o.map (·, s) = some (m, stk) → stk = s := by
    intro o m s stk h
    cases o with
    | none => cases h
    | some => cases h; rfl
  induction h with
  | @str s hs hb =>
    refine ⟨(leafOut_total (.str s) c).imp fun o h => (m_literal (e := .str s) rfl).mpr h, fun c' h => ?_⟩
    cases h with
    | literal h1 h2 h3 => cases h1; cases eatText_eq (map_stk h2); exact leaf hb hs h3 (stkOf h2)
    | builtin h1 => cases h1
    | rep h1 => cases h1
  | @range lo hi hb =>
    refine ⟨(leafOut_total (.range lo hi) c).imp fun o h => (m_literal (e := .range lo hi) rfl).mpr h, fun c' h => ?_⟩
    cases h with
    | literal h1 h2 h3 =>
      cases h1
      obtain ⟨x, k1, rfl⟩ := eatChar_eq (map_stk h2)
      have := of_decide_eq_true k1
      exact leaf (by simpa using hb x this.1 this.2) (by simp) h3 (stkOf h2)
    | builtin h1 => cases h1
    | rep h1 => cases h1
  | @prop q full b ht hl hb =>
    refine ⟨?_, fun c' h => ?_⟩
    · obtain ⟨o, h⟩ := leafOut_total (.prop b) c
      rcases h with ⟨m, rest, stk, h1, h2, rfl⟩ | ⟨h1, rfl⟩
      · exact ⟨_, .builtinOk (e := .path q) rfl (fun _ _ => rfl) ht hl h1 h2⟩
      · exact ⟨_, .builtinFail (e := .path q) rfl (fun _ _ => rfl) ht hl h1⟩
    · cases h with
      | literal h1 => cases h1
      | rep h1 => cases h1
      | param h1 => cases h1
      | rule h1 h2 => rw [ht] at h2; cases h2
      | builtin h1 h2 h3 h4 h5 h6 =>
        cases h1
        rw [ht] at h3; cases h3
        rw [hl] at h4; cases h4
        obtain ⟨x, k1, rfl⟩ := eatChar_eq (map_stk h5)
        exact leaf (by simpa using hb x k1) (by simp) h6 (stkOf h5)
  | @newline q full ht hl hr hn =>
    refine ⟨?_, fun c' h => ?_⟩
    · obtain ⟨o, h⟩ := leafOut_total .newline c
      rcases h with ⟨m, rest, stk, h1, h2, rfl⟩ | ⟨h1, rfl⟩
      · exact ⟨_, .builtinOk (e := .path q) rfl (fun _ _ => rfl) ht hl h1 h2⟩
      · exact ⟨_, .builtinFail (e := .path q) rfl (fun _ _ => rfl) ht hl h1⟩
    · cases h with
      | literal h1 => cases h1
      | rep h1 => cases h1
      | param h1 => cases h1
      | rule h1 h2 => rw [ht] at h2; cases h2
      | builtin h1 h2 h3 h4 h5 h6 =>
        cases h1
        rw [ht] at h3; cases h3
        rw [hl] at h4; cases h4
        simp only [leafSpec] at h5
        split at h5 <;> cases h5 <;> exact leaf (by simp [hr, hn]) (by simp) h6 rfl
  | @choice l r _ _ ih1 ih2 =>
    refine ⟨?_, fun c' h => ?_⟩
    · obtain ⟨o, h⟩ := ih1.1
      cases o with
      | some c1 => exact ⟨_, .choiceL h⟩
      | none =>
        obtain ⟨o, h'⟩ := ih2.1
        exact ⟨_, .choiceR h h'⟩
    · cases h with
      | literal h1 => cases h1
      | builtin h1 => cases h1
      | rep h1 => cases h1
      | choiceL h => exact ih1.2 _ h
      | choiceR h => exact ih2.2 _ h

/-- Trivia match blanks only. -/
theorem BlankTrivia.past {p : List Name} {t : Trivia} (hb : BlankTrivia u root W p t) {c c' : Cfg} (h : May u root (.trivia p t) c c') : Past W c c' := by
  cases h with
  | triviaNone => exact (hb.1 rfl).elim
  | @triviaRule _ m _ r _ _ h1 h2 h3 =>
    obtain ⟨e, k1, k2, k3, -⟩ := hb.2 m r h1 h2
    rw [k1] at h3
    have h3 : May u root (.reps (.mk p [] e) p .none 0 usizeMax 0) c c' := by
      cases h3 with
      | literal h1 => cases h1
      | builtin h1 => cases h1
      | rep h1 h => cases h1; rw [k2] at h; exact h
    have unit : ∀ {i c c'}, May u root (.unit (.mk p [] e) p .none i) c c' → Past W c c' := by
      intro i c c' h
      cases h with
      | unitFirst h => exact ((k3.item c).2 _ h).1
      | unitNext h1 h =>
        cases h1 with
        | triviaRule _ h => cases h
        | triviaNone => exact ((k3.item c).2 _ h).1
    have reps : ∀ it c c', May u root it c c' → ∀ i, it = .reps (.mk p [] e) p .none 0 usizeMax i → Past W c c' := by
      intro it c c' h
      induction h with
      | repsStop => intro i _; exact .refl _
      | repsMore h1 h2 h3 _ ih2 => rintro i ⟨⟩; exact (unit h2).trans (ih2 _ rfl)
      | _ => rintro i ⟨⟩
    exact reps _ _ _ h3 0 rfl

/-- Trivia match all blanks. -/
theorem BlankTrivia.all {p : List Name} {t : Trivia} (hb : BlankTrivia u root W p t) {m : Module} {r : Rule} (h1 : modAt root p = some m) (h2 : triviaRule m t = some r)
    {c : Cfg} (hc : c.suf.length ≤ usizeMax) : Meaning u root (.trivia p t) c (some (pastAll W c)) := by
  obtain ⟨e, k1, k2, k3, k4⟩ := hb.2 m r h1 h2
  refine .triviaRule h1 h2 ?_
  rw [k1]
  refine .rep (e := .rep e) rfl ?_
  rw [k2]
  have reps : ∀ n (c : Cfg) i, c.suf.length = n → i + n ≤ usizeMax → Meaning u root (.reps (.mk p [] e) p .none 0 usizeMax i) c (some (pastAll W c)) := by
    intro n
    induction n using Nat.strongRecOn with
    | ind n ih =>
      intro c i hn hi
      obtain ⟨⟨o, ho⟩, hm⟩ := k3.item c
      have unit : Meaning u root (.unit (.mk p [] e) p .none i) c o := by
        cases i with
        | zero => exact .unitFirst ho
        | succ i => exact .unitNext .triviaNone ho
      cases o with
      | some c1 =>
        obtain ⟨j1, j2⟩ := hm c1 (ho.may _ rfl)
        rw [← j1.all]
        exact .repsMore (by omega) unit (ih _ (by omega) c1 (i + 1) rfl (by omega))
      | none =>
        have : pastAll W c = c := (past_all c).same fun x hx => by
          cases hw : W x with
          | false => rfl
          | true => exact ((k4 x hw).sound c hx ho).elim
        rw [this]
        by_cases hi : i < usizeMax
        · exact .repsStop hi unit (Nat.zero_le _)
        · exact .repsMax (by omega)
  exact reps _ c 0 rfl (by omega)

/-- So the parser goes behind all blanks. -/
theorem BlankTrivia.goes {p : List Name} {t : Trivia} (hb : BlankTrivia u root W p t) {c : Cfg} (hc : c.suf.length ≤ usizeMax) {o : Option Cfg} (h : Meaning u root (.trivia p t) c o) :
    o = some (pastAll W c) := by
  rcases m_trivia.mp h with ⟨rfl, -⟩ | ⟨m, r, h1, h2, -⟩
  · exact (hb.1 rfl).elim
  · exact h.det _ (hb.all h1 h2 hc)

theorem BlankTrivia.can {p : List Name} {t : Trivia} (hb : BlankTrivia u root W p t) {c c' d : Cfg} (h : May u root (.trivia p t) c c') (hd : d.suf.length ≤ usizeMax) :
    May u root (.trivia p t) d (pastAll W d) := by
  cases h with
  | triviaNone => exact (hb.1 rfl).elim
  | triviaRule h1 h2 _ => exact (hb.all h1 h2 hd).may _ rfl

/-! ## Leaving out blanks in front -/

/-- The condition for items. -/
def SlackItem (u : Unicode) (root : Module) (W : Char → Bool) (sh : Clo → Prop) : SItem → Prop
  | .expr a => Slack u root W sh a
  | .trivia p t => t = .none ∨ BlankTrivia u root W p t
  | .unit a p t _ | .reps a p t _ _ _ => Slack u root W sh a ∧ (t = .none ∨ BlankTrivia u root W p t)

theorem slack_rep {sh : Clo → Prop} {p : List Name} {ρ : List (Name × Clo)} {e e' : Expr} {min max : Nat} (he : repetition e = some (e', min, max))
    (h : Slack u root W sh (.mk p ρ e)) : Firm u root W (.mk p ρ e) ∨ SlackItem u root W sh (.reps (.mk p ρ e') p (sepTrivia e') min max 0) := by
  cases e with
  | rep | repOnce | repRange =>
    cases he
    cases h with
    | firm h => exact .inl h
    | rep h h1 h2 => cases h; exact .inr ⟨h2, h1⟩
  | _ => cases he

theorem May.shift {sh : Clo → Prop} (hS : ∀ a, sh a → Slack u root W sh a) {it : SItem} {c c' : Cfg} (h : May u root it c c') :
    ∀ d, Past W c d → c.suf.length ≤ usizeMax → SlackItem u root W sh it → ∃ d', May u root it d d' ∧ Past W c' d' := by
  have firm : ∀ {a : Clo} {c c' d : Cfg}, Firm u root W a → May u root (.expr a) c c' → Past W c d → ∃ d', May u root (.expr a) d d' ∧ Past W c' d' := by
    intro a c c' d ha h hd
    rw [h.firm ha hd]
    exact ⟨c', h, .refl _⟩
  induction h with
  | @literal p ρ e l c m stk rest h1 h2 h3 =>
    intro d hd _ hs
    cases hs with
    | firm h => exact firm h (.literal h1 h2 h3) hd
    | nothing =>
      cases h1
      simp only [leafSpec, eatText] at h2
      cases h2
      simp only [List.nil_append] at h3
      refine ⟨d, ?_, ?_⟩
      · have := May.literal (u := u) (root := root) (c := d) (p := p) (ρ := ρ) (e := .str []) (l := .str []) (m := []) (stk := d.stk) (rest := d.suf) rfl rfl rfl
        rwa [List.append_nil] at this
      · rw [List.append_nil, ← h3]; exact hd
    | path => cases h1
    | call => cases h1
    | seq => cases h1
    | choice => cases h1
    | opt => cases h1
    | separated => cases h1
    | rep h => cases e <;> cases h1 <;> cases h
  | @builtin p ρ e q full l c m stk rest h1 h2 h3 h4 h5 h6 =>
    intro d hd _ hs
    cases hs with
    | firm h => exact firm h (.builtin h1 h2 h3 h4 h5 h6) hd
    | path h => cases h1; exact (h _ h3).elim
    | call h => rcases plainRef_cases h1 with h | h <;> cases h; exact (h _ h3).elim
    | nothing => cases h1
    | seq => cases h1
    | choice => cases h1
    | opt => cases h1
    | separated => cases h1
    | rep h => rcases plainRef_cases h1 with rfl | rfl <;> cases h
  | slice h1 h2 h3 h4 h5 =>
    intro d hd _ hs
    cases hs with
    | firm h => exact firm h (.slice h1 h2 h3 h4 h5) hd
    | rep h => cases h
  | push h1 h2 h3 _ =>
    intro d hd _ hs
    cases hs with
    | firm h => exact firm h (.push h1 h2 h3) hd
    | call h => exact (h _ h2).elim
    | rep h => cases h
  | param h1 h2 ih =>
    intro d hd hl hs
    cases hs with
    | firm h => exact firm h (.param h1 h2) hd
    | path _ h =>
      obtain ⟨d', k1, k2⟩ := ih d hd hl (h _ _ rfl h1)
      exact ⟨d', .param h1 k1, k2⟩
    | rep h => cases h
  | rule h1 h2 h3 h4 ih =>
    intro d hd hl hs
    cases hs with
    | firm h => exact firm h (.rule h1 h2 h3 h4) hd
    | path _ _ h =>
      obtain ⟨d', k1, k2⟩ := ih d hd hl (hS _ (h _ _ h1 h2))
      exact ⟨d', .rule h1 h2 h3 k1, k2⟩
    | rep h => cases h
  | call h1 h2 h3 h4 ih =>
    intro d hd hl hs
    cases hs with
    | firm h => exact firm h (.call h1 h2 h3 h4) hd
    | call _ h =>
      obtain ⟨d', k1, k2⟩ := ih d hd hl (hS _ (h _ _ h1 h2))
      exact ⟨d', .call h1 h2 h3 k1, k2⟩
    | rep h => cases h
  | pos h1 =>
    intro d hd _ hs
    cases hs with
    | firm h => exact firm h (.pos h1) hd
    | rep h => cases h
  | neg h1 =>
    intro d hd _ hs
    cases hs with
    | firm h => exact firm h (.neg h1) hd
    | rep h => cases h
  | seq h1 h2 h3 ih1 ih2 ih3 =>
    intro d hd hl hs
    cases hs with
    | firm h => exact firm h (.seq h1 h2 h3) hd
    | seq ht hl1 hr1 =>
      have l1 := h1.length
      have l2 := h2.length
      obtain ⟨d1, k1, k2⟩ := ih1 d hd hl hl1
      obtain ⟨d2, k3, k4⟩ := ih2 d1 k2 (by omega) ht
      obtain ⟨d3, k5, k6⟩ := ih3 d2 k4 (by omega) hr1
      exact ⟨d3, .seq k1 k3 k5, k6⟩
    | rep h => cases h
  | choiceL h1 ih =>
    intro d hd hl hs
    cases hs with
    | firm h => exact firm h (.choiceL h1) hd
    | choice h _ =>
      obtain ⟨d', k1, k2⟩ := ih d hd hl h
      exact ⟨d', .choiceL k1, k2⟩
    | rep h => cases h
  | choiceR h1 ih =>
    intro d hd hl hs
    cases hs with
    | firm h => exact firm h (.choiceR h1) hd
    | choice _ h =>
      obtain ⟨d', k1, k2⟩ := ih d hd hl h
      exact ⟨d', .choiceR k1, k2⟩
    | rep h => cases h
  | optSome h1 ih =>
    intro d hd hl hs
    cases hs with
    | firm h => exact firm h (.optSome h1) hd
    | opt h =>
      obtain ⟨d', k1, k2⟩ := ih d hd hl h
      exact ⟨d', .optSome k1, k2⟩
    | rep h => cases h
  | optNone => intro d hd _ _; exact ⟨d, .optNone, hd⟩
  | rep h1 h2 ih =>
    intro d hd hl hs
    rcases slack_rep h1 hs with h | h
    · exact firm h (.rep h1 h2) hd
    · obtain ⟨d', k1, k2⟩ := ih d hd hl h
      exact ⟨d', .rep h1 k1, k2⟩
  | separated h1 ih =>
    intro d hd hl hs
    cases hs with
    | firm h => exact firm h (.separated h1) hd
    | separated h =>
      obtain ⟨d', k1, k2⟩ := ih d hd hl h
      exact ⟨d', .separated k1, k2⟩
    | rep h => cases h
  | triviaNone => intro d hd _ _; exact ⟨d, .triviaNone, hd⟩
  | @triviaRule p m t r c c' h1 h2 h3 _ =>
    intro d hd hl hs
    rcases hs with rfl | hs
    · cases h2
    · have h := May.triviaRule h1 h2 h3
      have hd' := hd.length
      refine ⟨_, hs.can h (by omega), ?_⟩
      rw [hd.all]
      exact (hs.past h).to_all
  | unitFirst _ ih =>
    intro d hd hl hs
    obtain ⟨d', k1, k2⟩ := ih d hd hl hs.1
    exact ⟨d', .unitFirst k1, k2⟩
  | unitNext h1 _ ih1 ih2 =>
    intro d hd hl hs
    have l1 := h1.length
    obtain ⟨d1, k1, k2⟩ := ih1 d hd hl hs.2
    obtain ⟨d2, k3, k4⟩ := ih2 d1 k2 (by omega) hs.1
    exact ⟨d2, .unitNext k1 k3, k4⟩
  | repsMore h1 h2 _ ih1 ih2 =>
    intro d hd hl hs
    have l1 := h2.length
    obtain ⟨d1, k1, k2⟩ := ih1 d hd hl hs
    obtain ⟨d2, k3, k4⟩ := ih2 d1 k2 (by omega) hs
    exact ⟨d2, .repsMore h1 k1 k3, k4⟩
  | repsStop h1 => intro d hd _ _; exact ⟨d, .repsStop h1, hd⟩

/-- The same, and if there is only one way the result is the same. -/
theorem May.joins {sh : Clo → Prop} (hS : ∀ a, sh a → Slack u root W sh a) {b : Bool} {a : Clo} {c c' d : Cfg} (ha : Joins u root W sh b a) (h : May u root (.expr a) c c') (hd : Past W c d)
    (hl : c.suf.length ≤ usizeMax) : ∃ d', May u root (.expr a) d d' ∧ Past W c' d' ∧ (b = true → d' = c') := by
  cases b with
  | true =>
    rw [h.firm ha hd]
    exact ⟨c', h, .refl _, fun _ => rfl⟩
  | false =>
    obtain ⟨d', k1, k2⟩ := h.shift hS d hd hl ha
    exact ⟨d', k1, k2, fun h => by cases h⟩

/-! ## If the next character that is not blank decides, what may be matched is matched, up to blanks -/

/-- Where this holds, it does behind blanks. -/
def Clears (W : Char → Bool) (F : Cfg → Prop) : Prop := ∀ c d, F c → c.suf.length ≤ usizeMax → Past W c d → F d

/-- What the parser finds when `c'` may be found. -/
def FindsTo (W : Char → Bool) (b : Bool) (F : Cfg → Prop) (c' : Cfg) (o : Option Cfg) : Prop := ∃ d, o = some d ∧ Past W c' d ∧ F d ∧ (b = true → d = c')

/-- How items of a repetition are joined. -/
def UnitMode (u : Unicode) (root : Module) (W : Char → Bool) (sh : Clo → Prop) (b b' : Bool) (p : List Name) (t : Trivia) (a : Clo) : Prop :=
  (b = true → b' = true) ∧ ((t = .none ∧ (b = true ∨ Slack u root W sh a)) ∨ (BlankTrivia u root W p t ∧ Joins u root W sh b a))

/-- The claim for items. -/
def BlankClaim (u : Unicode) (root : Module) (W : Char → Bool) (sh : Clo → Prop) (fol : Bool → Clo → View → Prop) (c : Cfg) (o : Option Cfg) : SItem → Prop
  | .expr a => ∀ b F G c', BlankDecides u root W sh fol b G a → (∀ c, F c → G (view W c.suf)) → (b = false → Clears W F) → May u root (.expr a) c c' → F c' → FindsTo W b F c' o
  | .trivia _ _ => True
  | .unit a p t i => ∀ b b' F G c', UnitMode u root W sh b b' p t a → BlankDecides u root W sh fol b' G a → (∀ c, F c → G (view W c.suf)) → (b = false → Clears W F) →
      May u root (.unit a p t i) c c' → F c' → FindsTo W b F c' o
  | .reps a p t min max i => ∀ b b' F G c', UnitMode u root W sh b b' p t a → BlankDecides u root W sh fol b' G a →
      (∀ c j c', May u root (.reps a p t min max (j + 1)) c c' → F c' → G (view W c.suf)) →
      (min < max → ∀ c c' j, F c → ¬ May u root (.unit a p t j) c c') → (b = false → Clears W F) →
      May u root (.reps a p t min max i) c c' → F c' → FindsTo W b F c' o

theorem bd_rep {sh : Clo → Prop} {fol : Bool → Clo → View → Prop} {b : Bool} {G : View → Prop} {p : List Name} {ρ : List (Name × Clo)} {e e' : Expr} {min max : Nat}
    (he : repetition e = some (e', min, max)) (h : BlankDecides u root W sh fol b G (.mk p ρ e)) : (∀ v, ¬ G v) ∨
    ∃ x b' G', UnitMode u root W sh x b' p (sepTrivia e') (.mk p ρ e') ∧ (b = true → x = true) ∧ BlankDecides u root W sh fol b' G' (.mk p ρ e') ∧
      ∀ F : Cfg → Prop, (∀ c, F c → G (view W c.suf)) →
        (∀ c j c', May u root (.reps (.mk p ρ e') p (sepTrivia e') min max (j + 1)) c c' → F c' → G' (view W c.suf)) ∧
        (min < max → ∀ c c' j, F c → ¬ May u root (.unit (.mk p ρ e') p (sepTrivia e') j) c c') := by
  have unit : ∀ {a p t i c c'}, BlankTrivia u root W p t → May u root (.unit a p t i) c c' → Spaced (StartsAt u root W a) (view W c.suf) := by
    intro a p t i c c' hb h
    cases h with
    | unitFirst h => exact ⟨_, h.starts, rfl, id⟩
    | unitNext h1 h2 => exact view_spaced (hb.past h1) h2.starts
  have unit' : ∀ {a p i c c'}, May u root (.unit a p .none i) c c' → StartsAt u root W a (view W c.suf) := by
    intro a p i c c' h
    cases h with
    | unitFirst h => exact h.starts
    | unitNext h1 h2 =>
      cases h1 with
      | triviaRule _ h => cases h
      | triviaNone => exact h2.starts
  have fin : ∀ {e' : Expr} {min max : Nat}, ((∀ v, ¬ G v) ∨ (∃ b', BlankTrivia u root W p (sepTrivia e') ∧ (b = true → b' = true) ∧ Joins u root W sh b (.mk p ρ e') ∧
      (min < max → ∀ v, Spaced (StartsAt u root W (.mk p ρ e')) v → ¬ G v) ∧
      BlankDecides u root W sh fol b' (fun v => G v ∨ Spaced (StartsAt u root W (.mk p ρ e')) v) (.mk p ρ e')) ∨
      (∃ b', sepTrivia e' = .none ∧ (b' = true ∨ (b = false ∧ Slack u root W sh (.mk p ρ e'))) ∧
      (min < max → ∀ v, StartsAt u root W (.mk p ρ e') v → ¬ G v) ∧ BlankDecides u root W sh fol b' (fun v => G v ∨ StartsAt u root W (.mk p ρ e') v) (.mk p ρ e'))) →
      (∀ v, ¬ G v) ∨ ∃ x b' G', UnitMode u root W sh x b' p (sepTrivia e') (.mk p ρ e') ∧ (b = true → x = true) ∧ BlankDecides u root W sh fol b' G' (.mk p ρ e') ∧
      ∀ F : Cfg → Prop, (∀ c, F c → G (view W c.suf)) →
        (∀ c j c', May u root (.reps (.mk p ρ e') p (sepTrivia e') min max (j + 1)) c c' → F c' → G' (view W c.suf)) ∧
        (min < max → ∀ c c' j, F c → ¬ May u root (.unit (.mk p ρ e') p (sepTrivia e') j) c c') := by
    rintro e' min max (h | ⟨b', h1, h2, h3, h4, h5⟩ | ⟨b', h1, h2, h3, h4⟩)
    · exact .inl h
    · refine .inr ⟨b, b', _, ⟨h2, .inr ⟨h1, h3⟩⟩, id, h5, fun F hF => ⟨fun c j c' hm hc => ?_, fun hlt c c' j hc hm => h4 hlt _ (unit h1 hm) (hF _ hc)⟩⟩
      cases hm with
      | repsStop => exact .inl (hF _ hc)
      | repsMore _ h _ => exact .inr (unit h1 h)
    · have go : ∀ F : Cfg → Prop, (∀ c, F c → G (view W c.suf)) →
          (∀ c j c', May u root (.reps (.mk p ρ e') p (sepTrivia e') min max (j + 1)) c c' → F c' → G (view W c.suf) ∨ StartsAt u root W (.mk p ρ e') (view W c.suf)) ∧
          (min < max → ∀ c c' j, F c → ¬ May u root (.unit (.mk p ρ e') p (sepTrivia e') j) c c') := by
        refine fun F hF => ⟨fun c j c' hm hc => ?_, fun hlt c c' j hc hm => h3 hlt _ (unit' (h1 ▸ hm)) (hF _ hc)⟩
        cases hm with
        | repsStop => exact .inl (hF _ hc)
        | repsMore _ h _ => exact .inr (unit' (h1 ▸ h))
      rcases h2 with rfl | ⟨rfl, h2⟩
      · exact .inr ⟨true, true, _, ⟨id, .inl ⟨h1, .inl rfl⟩⟩, fun _ => rfl, h4, go⟩
      · exact .inr ⟨false, b', _, ⟨fun h => (by cases h), .inl ⟨h1, .inr h2⟩⟩, id, h4, go⟩
  apply fin
  cases e with
  | rep | repOnce | repRange =>
    cases he
    cases h with
    | never h => exact .inl h
    | literal h => cases h
    | rep h h1 h2 h3 h4 h5 => cases h; exact .inr (.inl ⟨_, h1, h2, h3, h4, h5⟩)
    | repJoin h h1 h2 h3 h4 => cases h; exact .inr (.inr ⟨_, h1, h2, h3, h4⟩)
  | _ => cases he

/-! What may be matched by what has no parts -/

theorem may_literal {p : List Name} {ρ : List (Name × Clo)} {e : Expr} {l : Leaf} {c c' : Cfg} (h1 : literal e = some l) (h : May u root (.expr (.mk p ρ e)) c c') :
    ∃ m stk rest, leafSpec l c = some (m, stk) ∧ c.suf = m ++ rest ∧ c' = ⟨c.pre ++ m, rest, stk⟩ := by
  cases e <;> cases h1 <;>
  · cases h with
    | literal k1 k2 k3 => cases k1; exact ⟨_, _, _, k2, k3, rfl⟩
    | builtin k1 => cases k1
    | rep k1 => cases k1

theorem may_builtin {p q : List Name} {ρ : List (Name × Clo)} {e : Expr} {full : List Name} {l : Leaf} {c c' : Cfg} (h1 : plainRef e = some q) (h2 : NotParam ρ q)
    (h3 : target u root p q = some (.builtin full)) (h4 : builtinLeaf u full = some l) (h : May u root (.expr (.mk p ρ e)) c c') :
    ∃ m stk rest, leafSpec l c = some (m, stk) ∧ c.suf = m ++ rest ∧ c' = ⟨c.pre ++ m, rest, stk⟩ := by
  have fin : ∀ {q' full' l' m stk rest}, plainRef e = some q' → target u root p q' = some (.builtin full') → builtinLeaf u full' = some l' → leafSpec l' c = some (m, stk) →
      c.suf = m ++ rest → ∃ m' stk' rest', leafSpec l c = some (m', stk') ∧ c.suf = m' ++ rest' ∧ (⟨c.pre ++ m, rest, stk⟩ : Cfg) = ⟨c.pre ++ m', rest', stk'⟩ := by
    intro q' full' l' m stk rest k1 k2 k3 k4 k5
    rw [h1] at k1; cases k1
    rw [h3] at k2; cases k2
    rw [h4] at k3; cases k3
    exact ⟨_, _, _, k4, k5, rfl⟩
  rcases plainRef_cases h1 with rfl | rfl
  · cases h with
    | literal k => cases k
    | builtin k1 k2 k3 k4 k5 k6 => exact fin k1 k3 k4 k5 k6
    | param k => exact (h2.lookup k).elim
    | rule _ k => rw [h3] at k; cases k
    | rep k => cases k
  · cases h with
    | literal k => cases k
    | builtin k1 k2 k3 k4 k5 k6 => exact fin k1 k3 k4 k5 k6
    | call _ k => rw [h3] at k; cases k
    | rep k => cases k

theorem Meaning.finds {sh : Clo → Prop} {fol : Bool → Clo → View → Prop} (hG : BlankDecidesGrammar u root W sh fol) {it : SItem} {c : Cfg} {o : Option Cfg} (h : Meaning u root it c o) :
    c.suf.length ≤ usizeMax → BlankClaim u root W sh fol c o it := by
  have body : ∀ {p q : List Name} {p' r}, target u root p q = some (.rule p' r) → ∀ (b : Bool) (ρ : List (Name × Clo)), ρ.map Prod.fst = r.args →
      BlankDecides u root W sh fol b (fol b (.mk p' ρ r.node)) (.mk p' ρ r.node) := by
    intro p q p' r ht b ρ hρ
    obtain ⟨m, h1, h2, -⟩ := target_rule ht
    exact hG.rules b p' m r ρ h1 (findRule_in h2) hρ
  have same : ∀ {b : Bool} {F : Cfg → Prop} {c' : Cfg} {o : Option Cfg}, o = some c' → F c' → FindsTo W b F c' o := fun h hF => ⟨_, h, .refl _, hF, fun _ => rfl⟩
  have hS := hG.slack
  have nothing : ∀ {b : Bool} {F : Cfg → Prop} {c' : Cfg}, ¬ FindsTo W b F c' none := by rintro b F c' ⟨d, h, -⟩; cases h
  -- what is joined may be matched behind blanks
  have join : ∀ {b : Bool} {F : Cfg → Prop} {a : Clo} {c c' d : Cfg}, Joins u root W sh b a → (b = false → Clears W F) → May u root (.expr a) c c' → F c' → Past W c d →
      c.suf.length ≤ usizeMax → ∃ d', May u root (.expr a) d d' ∧ F d' ∧ Past W c' d' ∧ (b = true → d' = c') := by
    intro b F a c c' d ha hc h hF hd hl
    obtain ⟨d', k1, k2, k3⟩ := h.joins hS ha hd hl
    refine ⟨d', k1, ?_, k2, k3⟩
    cases b with
    | true => rw [k3 rfl]; exact hF
    | false => exact hc rfl _ _ hF (Nat.le_trans h.length hl) k2
  have slackUnit : ∀ {b b' : Bool} {p t a min max i}, b = false → UnitMode u root W sh b b' p t a → SlackItem u root W sh (.reps a p t min max i) := by
    rintro b b' p t a min max i rfl ⟨-, ⟨h1, h | h⟩ | ⟨h1, h2⟩⟩
    · cases h
    · exact ⟨h, .inl h1⟩
    · exact ⟨h2, .inr h1⟩
  have more : ∀ {a p t min max i} {b b' : Bool} {F : Cfg → Prop} {G : View → Prop} {c c1 c' : Cfg}, c.suf.length ≤ usizeMax → UnitMode u root W sh b b' p t a →
      BlankDecides u root W sh fol b' G a → (∀ c j c', May u root (.reps a p t min max (j + 1)) c c' → F c' → G (view W c.suf)) → (b = false → Clears W F) →
      May u root (.unit a p t i) c c1 → May u root (.reps a p t min max (i + 1)) c1 c' → F c' → (c.suf.length ≤ usizeMax → BlankClaim u root W sh fol c none (.unit a p t i)) →
      FindsTo W b (fun e => ∃ e', May u root (.reps a p t min max (i + 1)) e e' ∧ F e') c1 none := by
    intro a p t min max i b b' F G c c1 c' hl hu hd hFG hcl k2 k3 hF ih
    exact ih hl b b' _ G _ hu hd (fun e he => hFG _ _ _ he.choose_spec.1 he.choose_spec.2)
      (fun hb e d he hle hd => by
        obtain ⟨e', j1, j2⟩ := he
        obtain ⟨d', i1, i2⟩ := j1.shift hS d hd hle (slackUnit hb hu)
        exact ⟨d', i1, hcl hb _ _ j2 (Nat.le_trans j1.length hle) i2⟩) k2 ⟨_, k3, hF⟩
  induction h with
  | literalOk h1 h2 h3 =>
    intro hl b F G c' _ _ _ hm hF
    obtain ⟨m, stk, rest, k1, k2, rfl⟩ := may_literal h1 hm
    rw [h2] at k1; cases k1
    rw [h3] at k2
    cases List.append_cancel_left k2
    exact same rfl hF
  | literalFail h1 h2 =>
    intro hl b F G c' _ _ _ hm hF
    obtain ⟨m, stk, rest, k1, -⟩ := may_literal h1 hm
    rw [h2] at k1; cases k1
  | builtinOk h1 h2 h3 h4 h5 h6 =>
    intro hl b F G c' _ _ _ hm hF
    obtain ⟨m, stk, rest, k1, k2, rfl⟩ := may_builtin h1 h2 h3 h4 hm
    rw [h5] at k1; cases k1
    rw [h6] at k2
    cases List.append_cancel_left k2
    exact same rfl hF
  | builtinFail h1 h2 h3 h4 h5 =>
    intro hl b F G c' _ _ _ hm hF
    obtain ⟨m, stk, rest, k1, -⟩ := may_builtin h1 h2 h3 h4 hm
    rw [h5] at k1; cases k1
  | sliceOk h1 h2 h3 h4 h5 =>
    intro hl b F G c' _ _ _ hm hF
    cases hm with
    | literal k => cases k
    | builtin k => cases k
    | rep k => cases k
    | slice _ _ k3 k4 k5 =>
      subst h3 k3
      cases h4.symm.trans k4
      rw [h5] at k5
      cases List.append_cancel_left k5
      exact same rfl hF
  | sliceFail h1 h2 h3 h4 =>
    intro hl b F G c' _ _ _ hm hF
    cases hm with
    | literal k => cases k
    | builtin k => cases k
    | rep k => cases k
    | slice _ _ k3 k4 k5 =>
      subst h3 k3
      cases h4.symm.trans k4
  | pushOk h1 h2 _ ih =>
    intro hl b F G c' hd hFG _ hm hF
    cases hm with
    | literal k => cases k
    | builtin k => cases k
    | rep k => cases k
    | call _ k => rw [h2] at k; cases k
    | push k1 k2 k3 =>
      cases hd with
      | never h => exact (h _ (hFG _ hF)).elim
      | literal h => cases h
      | rep h => cases h
      | repJoin h => cases h
      | call _ hp =>
        have hg := hFG _ hF
        obtain ⟨d, e1, -, -, e2⟩ := ih hl true (fun e => G (view W e.suf)) G _ (hp _ rfl h2) (fun _ h => h) (fun h => by cases h) k3 hg
        cases e1
        injection e2 rfl with j1 j2 j3
        subst j2 j3
        cases List.append_cancel_left j1
        exact same rfl hF
  | pushFail h1 h2 _ ih =>
    intro hl b F G c' hd hFG _ hm hF
    cases hm with
    | literal k => cases k
    | builtin k => cases k
    | rep k => cases k
    | call _ k => rw [h2] at k; cases k
    | push k1 k2 k3 =>
      cases hd with
      | never h => exact (h _ (hFG _ hF)).elim
      | literal h => cases h
      | rep h => cases h
      | repJoin h => cases h
      | call _ hp =>
        have hg := hFG _ hF
        exact (nothing (ih hl true (fun e => G (view W e.suf)) G _ (hp _ rfl h2) (fun _ h => h) (fun h => by cases h) k3 hg)).elim
  | param h1 _ ih =>
    intro hl b F G c' hd hFG hcl hm hF
    cases hd with
    | never h => exact (h _ (hFG _ hF)).elim
    | literal h => cases h
    | rep h => cases h
    | repJoin h => cases h
    | path hp _ =>
      cases hm with
      | literal k => cases k
      | builtin k k' => cases k; exact (k'.lookup h1).elim
      | rep k => cases k
      | rule k => exact (k.lookup h1).elim
      | param k1 k2 =>
        rw [h1] at k1; cases k1
        exact ih hl b F G c' (hp _ _ rfl h1) hFG hcl k2 hF
  | rule h1 h2 h3 _ ih =>
    intro hl b F G c' hd hFG hcl hm hF
    cases hd with
    | never h => exact (h _ (hFG _ hF)).elim
    | literal h => cases h
    | rep h => cases h
    | repJoin h => cases h
    | path _ hp =>
      cases hm with
      | literal k => cases k
      | builtin k _ k' => cases k; rw [h2] at k'; cases k'
      | rep k => cases k
      | param k => exact (h1.lookup k).elim
      | rule _ k1 _ k2 =>
        rw [h2] at k1; cases k1
        exact ih hl b F _ c' (body h2 b [] h3.symm) (fun _ h => hp _ _ h1 h2 _ (hFG _ h)) hcl k2 hF
  | call h1 h2 h3 _ ih =>
    intro hl b F G c' hd hFG hcl hm hF
    cases hd with
    | never h => exact (h _ (hFG _ hF)).elim
    | literal h => cases h
    | rep h => cases h
    | repJoin h => cases h
    | call hp _ =>
      cases hm with
      | literal k => cases k
      | builtin k _ k' => rcases plainRef_cases k with e | e <;> cases e; rw [h2] at k'; cases k'
      | rep k => cases k
      | push _ k => rw [h2] at k; cases k
      | call _ k1 _ k2 =>
        rw [h2] at k1; cases k1
        exact ih hl b F _ c' (body h2 b _ (by rw [List.map_fst_zip]; simp [h3])) (fun _ h => hp _ _ h1 h2 _ (hFG _ h)) hcl k2 hF
  | posOk h _ =>
    intro hl b F G c' _ _ _ hm hF
    cases hm with
    | literal k => cases k
    | builtin k => cases k
    | rep k => cases k
    | pos => exact same rfl hF
  | posFail h _ =>
    intro hl b F G c' _ _ _ hm hF
    cases hm with
    | literal k => cases k
    | builtin k => cases k
    | rep k => cases k
    | pos k => cases h.det _ k
  | negOk h _ =>
    intro hl b F G c' _ _ _ hm hF
    cases hm with
    | literal k => cases k
    | builtin k => cases k
    | rep k => cases k
    | neg => exact same rfl hF
  | negFail h _ =>
    intro hl b F G c' _ _ _ hm hF
    cases hm with
    | literal k => cases k
    | builtin k => cases k
    | rep k => cases k
    | neg k => cases h.det _ k
  | seq h1 h2 h3 ih1 _ ih3 =>
    intro hl b F G c' hd hFG hcl hm hF
    have l1 := (h1.may _ rfl).length
    have l2 := (h2.may _ rfl).length
    cases hd with
    | never h => exact (h _ (hFG _ hF)).elim
    | literal h => cases h
    | rep h => cases h
    | repJoin h => cases h
    | seq ht hj hdl hdr =>
      cases hm with
      | literal k => cases k
      | builtin k => cases k
      | rep k => cases k
      | seq k1 k2 k3 =>
        have m1 := k1.length
        have m2 := k2.length
        have m3 := k3.length
        have start := join hj hcl k3 hF (ht.past k2).to_all (by omega)
        obtain ⟨d1, e1, -, ⟨e', e2, e3, e4, e5⟩, -⟩ := ih1 hl _ (fun e => ∃ e', May u root (.expr _) (pastAll W e) e' ∧ F e' ∧ Past W c' e' ∧ (b = true → e' = c')) _ _ hdl
          (fun e he => view_spaced (past_all e) (he.choose_spec.1.heading (hFG _ he.choose_spec.2.1)))
          (fun _ e d he _ hd => by simpa only [hd.all] using he) k1 start
        cases e1
        cases ht.goes (by omega) h2
        obtain ⟨d, j1, j2, j3, j4⟩ := ih3 (by omega) b F G e' hdr hFG hcl e2 e3
        exact ⟨d, j1, e4.trans j2, j3, fun hb => (j4 hb).trans (e5 hb)⟩
    | join hj hdl hdr =>
      cases hm with
      | literal k => cases k
      | builtin k => cases k
      | rep k => cases k
      | seq k1 k2 k3 =>
        have m1 := k1.length
        cases k2 with
        | triviaRule _ k => cases k
        | triviaNone =>
        cases h2 with
        | triviaRule _ k => cases k
        | triviaNone =>
        obtain ⟨d1, e1, -, ⟨e', e2, e3, e4, e5⟩, -⟩ := ih1 hl _ (fun e => ∃ e', May u root (.expr _) e e' ∧ F e' ∧ Past W c' e' ∧ (b = true → e' = c')) _ _ hdl
          (fun e he => he.choose_spec.1.heading (hFG _ he.choose_spec.2.1))
          (fun hb e d he hle hd => by
            rcases hj with hj | hj
            · rw [hj] at hb; cases hb
            · obtain ⟨e', j1, j2, j3, j4⟩ := he
              obtain ⟨d', i1, i2, i3, i4⟩ := join hj hcl j1 j2 hd hle
              exact ⟨d', i1, i2, j3.trans i3, fun hb => (i4 hb).trans (j4 hb)⟩) k1 ⟨_, k3, hF, .refl _, fun _ => rfl⟩
        cases e1
        obtain ⟨d, j1, j2, j3, j4⟩ := ih3 (by omega) b F G e' hdr hFG hcl e2 e3
        exact ⟨d, j1, e4.trans j2, j3, fun hb => (j4 hb).trans (e5 hb)⟩
  | seqFail h1 ih1 =>
    intro hl b F G c' hd hFG hcl hm hF
    cases hd with
    | never h => exact (h _ (hFG _ hF)).elim
    | literal h => cases h
    | rep h => cases h
    | repJoin h => cases h
    | seq ht hj hdl hdr =>
      cases hm with
      | literal k => cases k
      | builtin k => cases k
      | rep k => cases k
      | seq k1 k2 k3 =>
        have m1 := k1.length
        have m2 := k2.length
        obtain ⟨e', e2, e3, -⟩ := join hj hcl k3 hF (ht.past k2).to_all (by omega)
        exact (nothing (ih1 hl _ (fun e => ∃ e', May u root (.expr _) (pastAll W e) e' ∧ F e') _ _ hdl
          (fun e he => view_spaced (past_all e) (he.choose_spec.1.heading (hFG _ he.choose_spec.2)))
          (fun _ e d he _ hd => by simpa only [hd.all] using he) k1 ⟨e', e2, e3⟩)).elim
    | join hj hdl hdr =>
      cases hm with
      | literal k => cases k
      | builtin k => cases k
      | rep k => cases k
      | seq k1 k2 k3 =>
        cases k2 with
        | triviaRule _ k => cases k
        | triviaNone =>
        exact (nothing (ih1 hl _ (fun e => ∃ e', May u root (.expr _) e e' ∧ F e') _ _ hdl
          (fun e he => he.choose_spec.1.heading (hFG _ he.choose_spec.2))
          (fun hb e d he hle hd => by
            rcases hj with hj | hj
            · rw [hj] at hb; cases hb
            · obtain ⟨e', j1, j2⟩ := he
              obtain ⟨d', i1, i2, -⟩ := join hj hcl j1 j2 hd hle
              exact ⟨d', i1, i2⟩) k1 ⟨_, k3, hF⟩)).elim
  | seqTriviaFail h1 h2 _ _ =>
    intro hl b F G c' hd hFG hcl hm hF
    have l1 := (h1.may _ rfl).length
    cases hd with
    | never h => exact (h _ (hFG _ hF)).elim
    | literal h => cases h
    | rep h => cases h
    | repJoin h => cases h
    | seq ht => cases ht.goes (by omega) h2
    | join => cases h2.det _ .triviaNone
  | choiceL h1 ih =>
    intro hl b F G c' hd hFG hcl hm hF
    cases hd with
    | never h => exact (h _ (hFG _ hF)).elim
    | literal h => cases h
    | rep h => cases h
    | repJoin h => cases h
    | choice d1 d2 d3 =>
      cases hm with
      | literal k => cases k
      | builtin k => cases k
      | rep k => cases k
      | choiceL k => exact ih hl b F G c' d2 hFG hcl k hF
      | choiceR k => exact (d1 _ (h1.may _ rfl).starts (k.heading (hFG _ hF))).elim
  | choiceR h1 _ ih1 ih2 =>
    intro hl b F G c' hd hFG hcl hm hF
    cases hd with
    | never h => exact (h _ (hFG _ hF)).elim
    | literal h => cases h
    | rep h => cases h
    | repJoin h => cases h
    | choice d1 d2 d3 =>
      cases hm with
      | literal k => cases k
      | builtin k => cases k
      | rep k => cases k
      | choiceL k => exact (nothing (ih1 hl b F G c' d2 hFG hcl k hF)).elim
      | choiceR k => exact ih2 hl b F G c' d3 hFG hcl k hF
  | optSome h1 ih =>
    intro hl b F G c' hd hFG hcl hm hF
    cases hd with
    | never h => exact (h _ (hFG _ hF)).elim
    | literal h => cases h
    | rep h => cases h
    | repJoin h => cases h
    | opt d1 d2 =>
      cases hm with
      | literal k => cases k
      | builtin k => cases k
      | rep k => cases k
      | optSome k => exact ih hl b F G c' d2 hFG hcl k hF
      | optNone => exact (d1 _ (h1.may _ rfl).starts (hFG _ hF)).elim
  | optNone h1 ih =>
    intro hl b F G c' hd hFG hcl hm hF
    cases hd with
    | never h => exact (h _ (hFG _ hF)).elim
    | literal h => cases h
    | rep h => cases h
    | repJoin h => cases h
    | opt d1 d2 =>
      cases hm with
      | literal k => cases k
      | builtin k => cases k
      | rep k => cases k
      | optSome k => exact (nothing (ih hl b F G c' d2 hFG hcl k hF)).elim
      | optNone => exact same rfl hF
  | @rep p ρ e e' min max c r h1 _ ih =>
    intro hl b F G c' hd hFG hcl hm hF
    have hm : May u root (.reps (.mk p ρ e') p (sepTrivia e') min max 0) c c' := by
      cases e <;> cases h1 <;>
      · cases hm with
        | literal k => cases k
        | builtin k => cases k
        | rep k k' => cases k; exact k'
    rcases bd_rep h1 hd with h | ⟨x, b', G', d1, d2, d3, d4⟩
    · exact (h _ (hFG _ hF)).elim
    · obtain ⟨j1, j2⟩ := d4 F hFG
      obtain ⟨d, i1, i2, i3, i4⟩ := ih hl x b' F G' c' d1 d3 j1 j2 (fun hx => hcl (by cases b with | false => rfl | true => rw [d2 rfl] at hx; cases hx)) hm hF
      exact ⟨d, i1, i2, i3, fun hb => i4 (d2 hb)⟩
  | separated _ ih =>
    intro hl b F G c' hd hFG hcl hm hF
    cases hd with
    | never h => exact (h _ (hFG _ hF)).elim
    | literal h => cases h
    | rep h => cases h
    | repJoin h => cases h
    | separated d =>
      cases hm with
      | literal k => cases k
      | builtin k => cases k
      | rep k => cases k
      | separated k => exact ih hl b F G c' d hFG hcl k hF
  | triviaNone => intro _; trivial
  | triviaRule => intro _; trivial
  | unitFirst _ ih =>
    intro hl b b' F G c' hu hd hFG hcl hm hF
    cases hm with
    | unitFirst k =>
      obtain ⟨d, i1, i2, i3, i4⟩ := ih hl b' F G c' hd hFG (fun hx => hcl (by cases b with | false => rfl | true => rw [hu.1 rfl] at hx; cases hx)) k hF
      exact ⟨d, i1, i2, i3, fun hb => i4 (hu.1 hb)⟩
  | unitNext h1 _ _ ih =>
    intro hl b b' F G c' hu hd hFG hcl hm hF
    have l1 := (h1.may _ rfl).length
    have hcl' : b' = false → Clears W F := fun hx => hcl (by cases b with | false => rfl | true => rw [hu.1 rfl] at hx; cases hx)
    cases hm with
    | unitNext k1 k2 =>
      rcases hu.2 with ⟨rfl, -⟩ | ⟨ht, hj⟩
      · cases k1 with
        | triviaRule _ k => cases k
        | triviaNone =>
        cases h1 with
        | triviaRule _ k => cases k
        | triviaNone =>
        obtain ⟨d, i1, i2, i3, i4⟩ := ih hl b' F G c' hd hFG hcl' k2 hF
        exact ⟨d, i1, i2, i3, fun hb => i4 (hu.1 hb)⟩
      · have m1 := k1.length
        cases ht.goes hl h1
        obtain ⟨e', e2, e3, e4, e5⟩ := join hj hcl k2 hF (ht.past k1).to_all (by omega)
        obtain ⟨d, i1, i2, i3, i4⟩ := ih (by omega) b' F G e' hd hFG hcl' e2 e3
        exact ⟨d, i1, e4.trans i2, i3, fun hb => (i4 (hu.1 hb)).trans (e5 hb)⟩
  | unitTriviaFail h1 _ =>
    intro hl b b' F G c' hu hd hFG hcl hm hF
    rcases hu.2 with ⟨rfl, -⟩ | ⟨ht, hj⟩
    · cases h1.det _ .triviaNone
    · cases ht.goes hl h1
  | repsMax h1 =>
    intro hl b b' F G c' hu hd hFG hst hcl hm hF
    cases hm with
    | repsMore k => omega
    | repsStop => exact same rfl hF
  | @repsMore a p t min max i c c1 r h1 h2 _ ih1 ih2 =>
    intro hl b b' F G c' hu hd hFG hst hcl hm hF
    have l1 := (h2.may _ rfl).length
    cases hm with
    | repsStop k => exact (hst (by omega) _ _ _ hF (h2.may _ rfl)).elim
    | repsMore k1 k2 k3 =>
      obtain ⟨d1, e1, -, ⟨e', e2, e3, e4, e5⟩, -⟩ := ih1 hl b b' (fun e => ∃ e', May u root (.reps a p t min max (i + 1)) e e' ∧ F e' ∧ Past W c' e' ∧ (b = true → e' = c')) G _ hu hd
        (fun e he => hFG _ _ _ he.choose_spec.1 he.choose_spec.2.1)
        (fun hb e d he hle hd => by
          obtain ⟨e', j1, j2, j3, j4⟩ := he
          obtain ⟨d', i1, i2⟩ := j1.shift hS d hd hle (slackUnit hb hu)
          exact ⟨d', i1, hcl hb _ _ j2 (Nat.le_trans j1.length hle) i2, j3.trans i2, fun h => by rw [hb] at h; cases h⟩) k2 ⟨_, k3, hF, .refl _, fun _ => rfl⟩
      cases e1
      obtain ⟨d, j1, j2, j3, j4⟩ := ih2 (by omega) b b' F G e' hu hd hFG hst hcl e2 e3
      exact ⟨d, j1, e4.trans j2, j3, fun hb => (j4 hb).trans (e5 hb)⟩
  | @repsFew a p t min max i c h1 h2 h3 ih1 =>
    intro hl b b' F G c' hu hd hFG hst hcl hm hF
    cases hm with
    | repsStop k => omega
    | repsMore k1 k2 k3 => exact (nothing (more hl hu hd hFG hcl k2 k3 hF ih1)).elim
  | @repsStop a p t min max i c h1 h2 h3 ih1 =>
    intro hl b b' F G c' hu hd hFG hst hcl hm hF
    cases hm with
    | repsStop k => exact same rfl hF
    | repsMore k1 k2 k3 => exact (nothing (more hl hu hd hFG hcl k2 k3 hF ih1)).elim

end
end Pest3.Gen
