import Verif.UnorderedSpec
import Verif.FirstLemmas

namespace Pest3.Gen
open Pest3

section
variable {u : Unicode} {root : Module}

/-! ## What is matched may be matched -/

theorem Meaning.may {it : SItem} {c : Cfg} {o : Option Cfg} (h : Meaning u root it c o) : ∀ c', o = some c' → May u root it c c' := by
  induction h with
  | literalOk h1 h2 h3 => rintro _ ⟨⟩; exact .literal h1 h2 h3
  | builtinOk h1 h2 h3 h4 h5 h6 => rintro _ ⟨⟩; exact .builtin h1 h2 h3 h4 h5 h6
  | sliceOk h1 h2 h3 h4 h5 => rintro _ ⟨⟩; exact .slice h1 h2 h3 h4 h5
  | pushOk h1 h2 _ ih => rintro _ ⟨⟩; exact .push h1 h2 (ih _ rfl)
  | param h1 _ ih => intro c' hc; exact .param h1 (ih c' hc)
  | rule h1 h2 h3 _ ih => intro c' hc; exact .rule h1 h2 h3 (ih c' hc)
  | call h1 h2 h3 _ ih => intro c' hc; exact .call h1 h2 h3 (ih c' hc)
  | posOk h _ => rintro _ ⟨⟩; exact .pos h
  | negOk h _ => rintro _ ⟨⟩; exact .neg h
  | seq _ _ _ ih1 ih2 ih3 => intro c' hc; exact .seq (ih1 _ rfl) (ih2 _ rfl) (ih3 _ hc)
  | choiceL _ ih => intro c' hc; exact .choiceL (ih c' hc)
  | choiceR _ _ _ ih => intro c' hc; exact .choiceR (ih c' hc)
  | optSome _ ih => intro c' hc; exact .optSome (ih c' hc)
  | optNone _ _ => rintro _ ⟨⟩; exact .optNone
  | rep h1 _ ih => intro c' hc; exact .rep h1 (ih c' hc)
  | separated _ ih => intro c' hc; exact .separated (ih c' hc)
  | triviaNone => rintro _ ⟨⟩; exact .triviaNone
  | triviaRule h1 h2 _ ih => intro c' hc; exact .triviaRule h1 h2 (ih c' hc)
  | unitFirst _ ih => intro c' hc; exact .unitFirst (ih c' hc)
  | unitNext _ _ ih1 ih2 => intro c' hc; exact .unitNext (ih1 _ rfl) (ih2 c' hc)
  | repsMax h => rintro _ ⟨⟩; exact .repsStop (.inr h)
  | repsMore h1 _ _ ih1 ih2 => intro c' hc; exact .repsMore h1 (ih1 _ rfl) (ih2 c' hc)
  | repsStop _ _ h3 _ => rintro _ ⟨⟩; exact .repsStop (.inl h3)
  | _ => rintro _ ⟨⟩

/-! ## Where the order does not matter, what may be matched is matched -/

variable {fol : Clo → Cfg → Prop}

/-- The condition for items. -/
def DecidesItem (u : Unicode) (root : Module) (fol : Clo → Cfg → Prop) (F : Cfg → Prop) : SItem → Prop
  | .expr a => Decides u root fol F a
  | .trivia p t => TriviaBefore root fol p t F
  | .unit a p t _ => Decides u root fol F a ∧ TriviaBefore root fol p t (Before u root (.expr a) F)
  | .reps a p t min max _ => (∀ i c c', min ≤ i → i < max → F c → ¬ May u root (.unit a p t i) c c') ∧
      Decides u root fol (fun c => ∃ i, Before u root (.reps a p t min max (i + 1)) F c) a ∧
      TriviaBefore root fol p t (Before u root (.expr a) fun c => ∃ i, Before u root (.reps a p t min max (i + 1)) F c)

theorem dec_rep {F : Cfg → Prop} {p : List Name} {ρ : List (Name × Clo)} {e e' : Expr} {min max : Nat} (he : repetition e = some (e', min, max))
    (h : Decides u root fol F (.mk p ρ e)) : (∀ c, ¬ F c) ∨ DecidesItem u root fol F (.reps (.mk p ρ e') p (sepTrivia e') min max 0) := by
  cases e with
  | rep | repOnce | repRange =>
    cases he
    cases h with
    | never h => exact .inl h
    | literal h => cases h
    | rep h h1 h2 h3 => cases h; exact .inr ⟨h1, h2, h3⟩
  | _ => cases he

theorem leafOut_some {l : Leaf} {c : Cfg} {m rest : Text} {stk : List Text} {o : Option Cfg} (h1 : leafSpec l c = some (m, stk)) (h2 : c.suf = m ++ rest) (h : leafOut l c o) :
    o = some ⟨c.pre ++ m, rest, stk⟩ := leafOut_det h (.inl ⟨_, _, _, h1, h2, rfl⟩)

theorem triviaRule_in {m : Module} {t : Trivia} {r : Rule} (h : triviaRule m t = some r) : r ∈ m.rules ∧ (r.name = optName ∨ r.name = manName) := by
  cases t with
  | none => cases h
  | optional => exact ⟨(findRule_mem h).1, .inl (findRule_mem h).2⟩
  | mandatory => exact ⟨(findRule_mem h).1, .inr (findRule_mem h).2⟩

theorem May.matched (hn : AllNamed u root) (hG : DecidesGrammar u root fol) {it : SItem} {c c' : Cfg} (h : May u root it c c') :
    ∀ F o, DecidesItem u root fol F it → F c' → Meaning u root it c o → o = some c' := by
  have body : ∀ {p q : List Name} {p' r}, target u root p q = some (.rule p' r) → ∀ ρ : List (Name × Clo), ρ.map Prod.fst = r.args →
      Decides u root fol (fol (.mk p' ρ r.node)) (.mk p' ρ r.node) := by
    intro p q p' r ht ρ hρ
    obtain ⟨m, h1, h2, -⟩ := target_rule ht
    exact hG p' m r ρ h1 (findRule_in h2) hρ
  induction h with
  | literal h1 h2 h3 => intro F o _ _ hm; exact leafOut_some h2 h3 ((m_literal h1).mp hm)
  | builtin h1 h2 h3 h4 h5 h6 => intro F o _ _ hm; exact leafOut_some h5 h6 (builtin_out h1 h2 h3 h4 hm)
  | slice h1 h2 h3 h4 h5 => intro F o _ _ hm; subst h3; exact leafOut_some h4 h5 (m_slice.mp hm).2.2
  | push h1 h2 _ ih =>
    intro F o hd hF hm
    obtain ⟨-, ⟨full', l', k, -⟩ | ⟨e, o', k0, k1, k2, k3⟩ | ⟨p', r, k1, -⟩⟩ := m_call.mp hm
    · cases k
    · cases k0
      cases hd with
      | never h => exact (h _ hF).elim
      | literal h => cases h
      | rep h => cases h
      | call _ hp =>
        have := ih _ o' (hp _ rfl h2) ⟨_, hF⟩ k2
        subst this
        exact pushOut_det k3 (.inl ⟨_, _, _, rfl, rfl⟩)
    · rw [h2] at k1; cases k1
  | @param p ρ x a c c' h1 _ ih =>
    intro F o hd hF hm
    rcases m_path.mp hm with ⟨y, e, k, k', k2⟩ | ⟨k, -⟩
    · cases k
      rw [h1] at k'; cases k'
      cases hd with
      | never h => exact (h _ hF).elim
      | literal h => cases h
      | rep h => cases h
      | path hp _ => exact ih F o (hp x _ rfl h1) hF k2
    · rw [k _ rfl] at h1; cases h1
  | rule h1 h2 h3 _ ih =>
    intro F o hd hF hm
    rcases m_path.mp hm with ⟨x, e, rfl, k, -⟩ | ⟨-, ⟨full', l', k1, -⟩ | ⟨p', r, k1, -, k2⟩⟩
    · exact (h1.lookup k).elim
    · rw [h2] at k1; cases k1
    · rw [h2] at k1; cases k1
      cases hd with
      | never h => exact (h _ hF).elim
      | literal h => cases h
      | rep h => cases h
      | path _ hp => exact ih _ o (body h2 [] h3.symm) (hp _ _ h1 h2 _ hF) k2
  | @call p ρ q args p' r c c' h1 h2 h3 _ ih =>
    intro F o hd hF hm
    obtain ⟨-, ⟨full', l', k, k1, -⟩ | ⟨e, o', k0, k1, -⟩ | ⟨p', r, k1, -, k2⟩⟩ := m_call.mp hm
    · rw [h2] at k1; cases k1
    · rw [h2] at k1; cases k1
    · rw [h2] at k1; cases k1
      cases hd with
      | never h => exact (h _ hF).elim
      | literal h => cases h
      | rep h => cases h
      | call hp _ => exact ih _ o (body h2 _ (by rw [List.map_fst_zip]; simp [h3])) (hp _ _ h1 h2 _ hF) k2
  | pos h => intro F o _ _ hm; exact hm.det _ (.posOk h)
  | neg h => intro F o _ _ hm; exact hm.det _ (.negOk h)
  | @seq p ρ l r t c c1 c2 c' _ h2 h3 ih1 ih2 ih3 =>
    intro F o hd hF hm
    cases hd with
    | never h => exact (h _ hF).elim
    | literal h => cases h
    | rep h => cases h
    | seq d1 d2 d3 =>
      rcases m_seq.mp hm with ⟨k, rfl⟩ | ⟨c1', k1, k⟩
      · exact absurd (ih1 _ _ d1 ⟨_, h2, _, h3, hF⟩ k) (by simp)
      · cases ih1 _ _ d1 ⟨_, h2, _, h3, hF⟩ k1
        rcases k with ⟨k, rfl⟩ | ⟨c2', k2, k3⟩
        · exact absurd (ih2 _ _ d2 ⟨_, h3, hF⟩ k) (by simp)
        · cases ih2 _ _ d2 ⟨_, h3, hF⟩ k2
          exact ih3 _ _ d3 hF k3
  | choiceL _ ih =>
    intro F o hd hF hm
    cases hd with
    | never h => exact (h _ hF).elim
    | literal h => cases h
    | rep h => cases h
    | choice d1 d2 d3 =>
      rcases m_choice.mp hm with ⟨c1, k, rfl⟩ | ⟨k, -⟩
      · exact ih _ _ d2 hF k
      · exact absurd (ih _ _ d2 hF k) (by simp)
  | choiceR h ih =>
    intro F o hd hF hm
    cases hd with
    | never h => exact (h _ hF).elim
    | literal h => cases h
    | rep h => cases h
    | choice d1 d2 d3 =>
      rcases m_choice.mp hm with ⟨c1, k, rfl⟩ | ⟨-, k⟩
      · exact (d1 _ _ ⟨_, h, hF⟩ (k.may _ rfl)).elim
      · exact ih _ _ d3 hF k
  | optSome _ ih =>
    intro F o hd hF hm
    cases hd with
    | never h => exact (h _ hF).elim
    | literal h => cases h
    | rep h => cases h
    | opt d1 d2 =>
      rcases m_opt.mp hm with ⟨c1, k, rfl⟩ | ⟨k, -⟩
      · exact ih _ _ d2 hF k
      · exact absurd (ih _ _ d2 hF k) (by simp)
  | optNone =>
    intro F o hd hF hm
    cases hd with
    | never h => exact (h _ hF).elim
    | literal h => cases h
    | rep h => cases h
    | opt d1 d2 =>
      rcases m_opt.mp hm with ⟨c1, k, rfl⟩ | ⟨-, k⟩
      · rw [d1 _ _ hF (k.may _ rfl)]
      · exact k
  | rep h1 _ ih =>
    intro F o hd hF hm
    rcases dec_rep h1 hd with h | h
    · exact (h _ hF).elim
    · exact ih F o h hF ((m_rep h1).mp hm)
  | separated _ ih =>
    intro F o hd hF hm
    cases hd with
    | never h => exact (h _ hF).elim
    | literal h => cases h
    | rep h => cases h
    | separated d => exact ih F o d hF (m_separated.mp hm)
  | triviaNone => intro F o _ _ hm; exact hm.det _ .triviaNone
  | triviaRule h1 h2 _ ih =>
    intro F o hd hF hm
    cases hm with
    | triviaNone => cases h2
    | triviaRule k1 k2 k3 =>
      rw [h1] at k1; cases k1
      rw [h2] at k2; cases k2
      obtain ⟨j1, j2⟩ := triviaRule_in h2
      exact ih _ o (hG _ _ _ [] h1 j1 ((hn _ (modAt_in _ h1)).trivia _ j1 j2).symm) (hd _ _ h1 h2 _ hF) k3
  | unitFirst _ ih => intro F o hd hF hm; exact ih F o hd.1 hF (m_unit0.mp hm)
  | unitNext _ h2 ih1 ih2 =>
    intro F o hd hF hm
    rcases m_unitS.mp hm with ⟨k, rfl⟩ | ⟨c1, k1, k2⟩
    · exact absurd (ih1 _ _ hd.2 ⟨_, h2, hF⟩ k) (by simp)
    · cases ih1 _ _ hd.2 ⟨_, h2, hF⟩ k1
      exact ih2 _ _ hd.1 hF k2
  | @repsMore a p t min max i c c1 c' h1 h2 h3 ih1 ih2 =>
    intro F o hd hF hm
    have du : DecidesItem u root fol (fun c => ∃ i, Before u root (.reps a p t min max (i + 1)) F c) (.unit a p t i) := ⟨hd.2.1, hd.2.2⟩
    rcases m_reps.mp hm with ⟨k, -⟩ | ⟨-, ⟨c2, k1, k2⟩ | ⟨k1, -⟩⟩
    · omega
    · cases ih1 _ _ du ⟨i, _, h3, hF⟩ k1
      exact ih2 _ _ hd hF k2
    · exact absurd (ih1 _ _ du ⟨i, _, h3, hF⟩ k1) (by simp)
  | repsStop h1 =>
    intro F o hd hF hm
    rcases m_reps.mp hm with ⟨-, k⟩ | ⟨hi, ⟨c2, k1, k2⟩ | ⟨-, ⟨k, -⟩ | ⟨-, k⟩⟩⟩
    · exact k
    · exact (hd.1 _ _ _ (by omega) hi hF (k1.may _ rfl)).elim
    · omega
    · exact k

/-! ## How what may be matched begins -/

/-- What may be matched begins as the expression may begin. -/
theorem May.begins {it : SItem} {c c' : Cfg} (h : May u root it c c') : ∃ m, c.suf = m ++ c'.suf ∧ ItemBegins u root it (firstOf c.suf m) := by
  induction h with
  | literal h1 h2 h3 => exact ⟨_, h3, .literal h1 (leaf_begins h2 h3)⟩
  | builtin h1 h2 h3 h4 h5 h6 => exact ⟨_, h6, .builtin h1 h2 h3 h4 (leaf_begins h5 h6)⟩
  | slice h1 h2 h3 h4 h5 => exact ⟨_, h5, .slice⟩
  | push h1 h2 _ ih => obtain ⟨m, k1, k2⟩ := ih; exact ⟨m, k1, .push h1 h2 k2⟩
  | param h1 _ ih => obtain ⟨m, k1, k2⟩ := ih; exact ⟨m, k1, .param h1 k2⟩
  | rule h1 h2 h3 _ ih => obtain ⟨m, k1, k2⟩ := ih; exact ⟨m, k1, .rule h1 h2 k2⟩
  | call h1 h2 h3 _ ih => obtain ⟨m, k1, k2⟩ := ih; exact ⟨m, k1, .call h1 h2 h3 k2⟩
  | pos h =>
    obtain ⟨m, k1, k2⟩ := h.begins _ rfl
    have := Begins.pos k2
    rw [firstOf_next k1] at this
    exact ⟨[], rfl, this⟩
  | neg h => exact ⟨[], rfl, .neg fun hs => hs.sound _ rfl h⟩
  | @seq p ρ l r t c c1 c2 c' h1 h2 h3 ih1 ih2 ih3 =>
    obtain ⟨m1, k1, j1⟩ := ih1
    obtain ⟨m2, k2, j2⟩ := ih2
    obtain ⟨m3, k3, j3⟩ := ih3
    refine ⟨m1 ++ (m2 ++ m3), by rw [k1, k2, k3]; simp, ?_⟩
    cases m1 with
    | cons x m1 => exact .seqL j1
    | nil =>
      rw [List.nil_append] at k1 ⊢
      rw [← k1] at j2 k2
      cases m2 with
      | cons x m2 =>
        have e : c.suf.head? = some x := by rw [k2]; rfl
        simp only [firstOf, e] at j1
        exact .seqTrivia j1 j2
      | nil =>
        rw [List.nil_append] at k2 ⊢
        rw [← k2] at j3 k3
        have e := firstOf_next k3
        refine .seqR ?_ ?_ j3
        · rw [e]; exact j1
        · rw [e]; exact j2
  | choiceL _ ih => obtain ⟨m, k1, k2⟩ := ih; exact ⟨m, k1, .choiceL k2⟩
  | choiceR _ ih => obtain ⟨m, k1, k2⟩ := ih; exact ⟨m, k1, .choiceR k2⟩
  | optSome _ ih => obtain ⟨m, k1, k2⟩ := ih; exact ⟨m, k1, .opt k2⟩
  | optNone => exact ⟨[], rfl, .optNone⟩
  | rep h1 _ ih =>
    obtain ⟨m, k1, k2⟩ := ih
    refine ⟨m, k1, ?_⟩
    rcases k2 with ⟨k, k2⟩ | ⟨x, e, k2, k3⟩ | ⟨k, o, e⟩
    · exact .rep h1 k k2
    · rw [e]; exact .repTrivia h1 k2 k3
    · rw [e]; exact .repNone h1 k
  | separated _ ih => obtain ⟨m, k1, k2⟩ := ih; exact ⟨m, k1, .separated k2⟩
  | triviaNone => exact ⟨[], rfl, .triviaNone⟩
  | triviaRule h1 h2 _ ih => obtain ⟨m, k1, k2⟩ := ih; exact ⟨m, k1, .triviaRule h1 h2 k2⟩
  | unitFirst _ ih => exact ih
  | unitNext _ _ ih1 ih2 =>
    obtain ⟨m1, k1, j1⟩ := ih1
    obtain ⟨m2, k2, j2⟩ := ih2
    refine ⟨m1 ++ m2, by rw [k1, k2]; simp, ?_⟩
    cases m1 with
    | cons x m1 => exact .inl ⟨x, rfl, j1⟩
    | nil =>
      rw [List.nil_append] at k1 ⊢
      rw [← k1] at j2
      exact .inr j2
  | @repsMore e p t min max i c c1 c' h1 h2 h3 ih1 ih2 =>
    obtain ⟨m1, k1, j1⟩ := ih1
    obtain ⟨m2, k2, j2⟩ := ih2
    refine ⟨m1 ++ m2, by rw [k1, k2]; simp, ?_⟩
    cases i with
    | zero =>
      cases m1 with
      | cons x m1 => exact .inl ⟨by omega, j1⟩
      | nil =>
        rw [List.nil_append] at k1 ⊢
        rw [← k1] at j2 k2
        cases m2 with
        | nil => exact .inl ⟨by omega, j1⟩
        | cons x m2 =>
          have e : c.suf.head? = some x := by rw [k2]; rfl
          simp only [firstOf, e] at j1
          rcases j2 with ⟨o, h⟩ | ⟨y, hy, h | h⟩
          · cases h
          · exact .inr (.inl ⟨x, rfl, j1, h⟩)
          · exact .inl ⟨by omega, h⟩
    | succ i =>
      cases m1 with
      | cons x m1 =>
        rcases j1 with ⟨y, hy, h⟩ | h
        · exact .inr ⟨x, rfl, .inl h⟩
        · exact .inr ⟨x, rfl, .inr h⟩
      | nil =>
        rw [List.nil_append] at k1 ⊢
        rw [← k1] at j2
        exact j2
  | @repsStop e p t min max i c h1 =>
    refine ⟨[], rfl, ?_⟩
    cases i with
    | zero => exact .inr (.inr ⟨by omega, _, rfl⟩)
    | succ i => exact .inl ⟨_, rfl⟩

/-- What begins in front of `c`. -/
theorem May.first {a : Clo} {c c' : Cfg} (h : May u root (.expr a) c c') : ∃ f, Begins u root (.expr a) f ∧ f.next = c.suf.head? := by
  obtain ⟨m, k1, k2⟩ := h.begins
  exact ⟨_, k2, firstOf_next k1⟩

/-- Expressions and trivia that are followed by `F`. -/
theorem leading_of {it : SItem} (hit : (∃ a, it = .expr a) ∨ ∃ p t, it = .trivia p t) {F : Option Char → Prop} {G : Cfg → Prop} (hG : ∀ c, G c → F c.suf.head?) {c : Cfg}
    (h : Before u root it G c) : Leading u root F it c.suf.head? := by
  obtain ⟨c', h1, h2⟩ := h
  obtain ⟨m, k1, k2⟩ := h1.begins
  have k2 : Begins u root it (firstOf c.suf m) := by
    rcases hit with ⟨a, rfl⟩ | ⟨p, t, rfl⟩ <;> exact k2
  cases m with
  | nil =>
    rw [List.nil_append] at k1
    exact .inr ⟨k2, by rw [k1]; exact hG _ h2⟩
  | cons x m => exact .inl ⟨x, by rw [k1]; rfl, k2⟩

/-! ## If the next character decides, the order does not matter -/

theorem Decides.anti {F : Cfg → Prop} {a : Clo} (h : Decides u root fol F a) : ∀ {G : Cfg → Prop}, (∀ c, G c → F c) → Decides u root fol G a := by
  have before : ∀ {it : SItem} {F G : Cfg → Prop}, (∀ c, G c → F c) → ∀ c, Before u root it G c → Before u root it F c := by
    rintro it F G h c ⟨c', h1, h2⟩
    exact ⟨c', h1, h _ h2⟩
  induction h with
  | never h => intro G hG; exact .never fun c hc => h c (hG c hc)
  | literal h => intro G hG; exact .literal h
  | slice => intro G hG; exact .slice
  | pos => intro G hG; exact .pos
  | neg => intro G hG; exact .neg
  | path _ h2 ih => intro G hG; exact .path (fun x a k1 k2 => ih x a k1 k2 hG) fun p' r k1 k2 c hc => h2 p' r k1 k2 c (hG c hc)
  | call h1 _ ih =>
    intro G hG
    refine .call (fun p' r k1 k2 c hc => h1 p' r k1 k2 c (hG c hc)) fun e k1 k2 => ih e k1 k2 ?_
    rintro c ⟨m, h⟩
    exact ⟨m, hG _ h⟩
  | seq _ h2 _ ih1 ih3 => intro G hG; exact .seq (ih1 (before (before hG))) (fun m r k1 k2 c hc => h2 m r k1 k2 c (before hG c hc)) (ih3 hG)
  | choice h1 _ _ ih1 ih2 => intro G hG; exact .choice (fun c c' hc => h1 c c' (before hG c hc)) (ih1 hG) (ih2 hG)
  | opt h1 _ ih => intro G hG; exact .opt (fun c c' hc => h1 c c' (hG c hc)) (ih hG)
  | rep h1 h2 _ h4 ih =>
    intro G hG
    refine .rep h1 (fun i c c' k1 k2 hc => h2 i c c' k1 k2 (hG c hc)) (ih ?_) fun m r k1 k2 c hc => h4 m r k1 k2 c (before ?_ c hc)
    · rintro c ⟨i, h⟩; exact ⟨i, before hG c h⟩
    · rintro c ⟨i, h⟩; exact ⟨i, before hG c h⟩
  | separated _ ih => intro G hG; exact .separated (ih hG)

/-- The condition on the next character implies the condition on what may be matched. -/
theorem NextDecides.decides {fol : Clo → Option Char → Prop} {F : Option Char → Prop} {a : Clo} (h : NextDecides u root fol F a) :
    Decides u root (fun a c => fol a c.suf.head?) (fun c => F c.suf.head?) a := by
  induction h with
  | never h => exact .never fun c => h _
  | literal h => exact .literal h
  | slice => exact .slice
  | pos => exact .pos
  | neg => exact .neg
  | path _ h2 ih => exact .path ih fun p' r k1 k2 c hc => h2 p' r k1 k2 _ hc
  | call h1 _ ih => exact .call (fun p' r k1 k2 c hc => h1 p' r k1 k2 _ hc) fun e k1 k2 => (ih e k1 k2).anti fun c ⟨_, h⟩ => h
  | seq _ h2 _ ih1 ih3 =>
    exact .seq (ih1.anti fun c hc => leading_of (.inr ⟨_, _, rfl⟩) (fun c hc => leading_of (.inl ⟨_, rfl⟩) (fun _ h => h) hc) hc)
      (fun m r k1 k2 c hc => h2 m r k1 k2 _ (leading_of (.inl ⟨_, rfl⟩) (fun _ h => h) hc)) ih3
  | choice h1 _ _ ih1 ih2 =>
    refine .choice (fun c c' hc hm => ?_) ih1 ih2
    obtain ⟨f, k1, k2⟩ := hm.first
    exact h1 f k1 (k2 ▸ leading_of (.inl ⟨_, rfl⟩) (fun _ h => h) hc)
  | opt h1 _ ih =>
    refine .opt (fun c c' hc hm => ?_) ih
    obtain ⟨f, k1, k2⟩ := hm.first
    exact (h1 f k1 (k2 ▸ hc)).elim
  | @rep F p ρ e e' min max h1 h2 h3 _ h5 ih =>
    refine .rep h1 (fun i c c' k1 k2 hc hm => ?_) (ih.anti ?_) fun m r k1 k2 c hc => ?_
    · obtain ⟨m, j1, j2⟩ := hm.begins
      have hh := firstOf_next j1
      cases i with
      | zero => exact h2 (by omega) _ j2 (hh ▸ hc)
      | succ i =>
        rcases j2 with ⟨x, e, j2⟩ | j2
        · rw [e] at j2 hh
          exact h3 (by omega) x j2 (by rw [show some x = c.suf.head? from hh]; exact hc)
        · exact h2 (by omega) _ j2 (hh ▸ hc)
    · rintro c ⟨i, c', hm, hF⟩
      obtain ⟨m, j1, j2⟩ := hm.begins
      cases m with
      | nil => rw [List.nil_append] at j1; exact .inl (by rw [j1]; exact hF)
      | cons x m =>
        rcases j2 with ⟨o, e⟩ | ⟨y, e, j2⟩
        · cases e
        · exact .inr ⟨x, by rw [j1]; rfl, j2⟩
    · obtain ⟨c', hm, -⟩ := hc
      obtain ⟨f, j1, j2⟩ := hm.first
      exact h5 m r k1 k2 _ ⟨f, j1, j2⟩
  | separated _ ih => exact .separated ih

end
end Pest3.Gen
