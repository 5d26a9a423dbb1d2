import Verif.AnswerSpec
import Verif.TriesInv
import Verif.AheadLemmas
import Verif.EqualErrorLemmas

/-!
# Expressions that do not fail without saying what was expected: lemmas
-/

namespace Pest3.Gen
open Pest3

section
variable {u : Unicode} {root : Module} {rank : RuleVal → Label}

theorem lookup_names {x : Name} : ∀ {ρ : List (Name × Clo)}, lookupClo x ρ = none ↔ x ∉ ρ.map Prod.fst
  | [] => by simp [lookupClo]
  | (y, c) :: ρ => by
    simp only [lookupClo, List.map_cons, List.mem_cons, not_or]
    by_cases h : y = x
    · subst h; simp
    · rw [if_neg h, lookup_names]
      simp [Ne.symm h]

theorem notParam_of {ρ : List (Name × Clo)} {q : List Name} (h : ∀ x ∈ ρ.map Prod.fst, q ≠ [x]) : NotParam ρ q :=
  fun x hx => lookup_names.mpr fun k => h x k hx

theorem t_trivia {f : Bool} {p : List Name} {t : Trivia} {c : Cfg} {o : Option Cfg} {es : List Ev} (h : Tries u root rank f (.trivia p t) c o es) :
    (t = .none ∧ o = some c ∧ es = []) ∨ ∃ m r, modAt root p = some m ∧ triviaRule m t = some r ∧ Tries u root rank f (.expr (.mk p [] r.node)) c o es := by
  cases h with
  | triviaNone => exact .inl ⟨rfl, rfl, rfl⟩
  | triviaRule h1 h2 h3 => exact .inr ⟨_, _, h1, h2, h3⟩

theorem Mute.quiet {p ps : List Name} {e : Expr} (h : Mute u root p ps e) :
    ∀ {ρ f c o es}, ρ.map Prod.fst = ps → Tries u root rank f (.expr (.mk p ρ e)) c o es → es = [] := by
  have triv : ∀ {p t}, (∀ m r, modAt root p = some m → triviaRule m t = some r → ∀ {ρ f c o es}, ρ.map Prod.fst = [] → Tries u root rank f (.expr (.mk p ρ r.node)) c o es → es = []) →
      ∀ {f c o es}, Tries u root rank f (.trivia p t) c o es → es = [] := by
    intro p t ih f c o es k
    rcases t_trivia k with ⟨-, -, h⟩ | ⟨m, r, h1, h2, h3⟩
    · exact h
    · exact ih m r h1 h2 rfl h3
  induction h with
  | literal h => exact fun _ k => ((t_literal h).mp k).2
  | builtin h1 h2 h3 h4 h5 =>
    intro ρ f c o es hρ k
    subst hρ
    rw [t_builtin h1 (notParam_of h2) h3 h4 k]
    unfold leafTries leafEvents
    split
    · rfl
    · rw [h5]
  | seq _ _ _ ih1 ih2 ih3 =>
    intro ρ f c o es hρ k
    rcases t_seq.mp k with ⟨k1, -⟩ | ⟨c1, es1, k1, ⟨es2, k2, -, rfl⟩ | ⟨c2, es2, es3, k2, k3, rfl⟩⟩
    · exact ih1 hρ k1
    · rw [ih1 hρ k1, triv ih3 k2]; rfl
    · rw [ih1 hρ k1, triv ih3 k2, ih2 hρ k3]; rfl
  | choice _ _ ih1 ih2 =>
    intro ρ f c o es hρ k
    rcases t_choice.mp k with ⟨c1, k1, -⟩ | ⟨es1, es2, k1, k2, rfl⟩
    · exact ih1 hρ k1
    · rw [ih1 hρ k1, ih2 hρ k2]; rfl
  | opt _ ih => intro ρ f c o es hρ k; rcases t_opt.mp k with ⟨_, k, -⟩ | ⟨k, -⟩ <;> exact ih hρ k
  | pos _ ih => intro ρ f c o es hρ k; rcases t_pos.mp k with ⟨_, k, -⟩ | ⟨k, -⟩ <;> exact ih hρ k
  | neg _ ih => intro ρ f c o es hρ k; rcases t_neg.mp k with ⟨_, k, -⟩ | ⟨k, -⟩ <;> exact ih hρ k
  | separated _ ih => intro ρ f c o es hρ k; exact ih hρ (t_separated.mp k)
  | @rep _ e e' min max h1 _ _ ih ih3 =>
    intro ρ f c o es hρ k
    rw [t_rep h1] at k
    have unit : ∀ {i f c o es}, Tries u root rank f (.unit (.mk p ρ e') p (sepTrivia e') i) c o es → es = [] := by
      intro i f c o es k
      cases i with
      | zero => exact ih hρ (t_unit0.mp k)
      | succ i =>
        rcases t_unitS.mp k with ⟨k1, -⟩ | ⟨c1, es1, es2, k1, k2, rfl⟩
        · exact triv ih3 k1
        · rw [triv ih3 k1, ih hρ k2]; rfl
    have reps : ∀ n i f c o es, max ≤ i + n → Tries u root rank f (.reps (.mk p ρ e') p (sepTrivia e') min max i) c o es → es = [] := by
      intro n
      induction n with
      | zero =>
        intro i f c o es hn k
        rcases t_reps.mp k with ⟨-, -, rfl⟩ | ⟨k, -⟩
        · rfl
        · omega
      | succ n ihn =>
        intro i f c o es hn k
        rcases t_reps.mp k with ⟨-, -, rfl⟩ | ⟨-, ⟨c1, es1, es2, k1, k2, rfl⟩ | ⟨k1, -⟩⟩
        · rfl
        · rw [unit k1, ihn _ _ _ _ _ (by omega) k2]; rfl
        · exact unit k1
    exact reps max 0 f c o es (by omega) k

theorem reps_not_none {f : Bool} {e : Clo} {p : List Name} {t : Trivia} {max : Nat} :
    ∀ n i {c o es}, max ≤ i + n → Tries u root rank f (.reps e p t 0 max i) c o es → o ≠ none := by
  intro n
  induction n with
  | zero =>
    intro i c o es hn k
    rcases t_reps.mp k with ⟨-, rfl, -⟩ | ⟨k, -⟩
    · simp
    · omega
  | succ n ihn =>
    intro i c o es hn k
    rcases t_reps.mp k with ⟨-, rfl, -⟩ | ⟨-, ⟨c1, es1, es2, k1, k2, rfl⟩ | ⟨k1, ⟨k, -⟩ | ⟨-, rfl⟩⟩⟩
    · simp
    · exact ihn _ (by omega) k2
    · omega
    · simp

/-! ## What is to be reported -/

/-- The report names a rule that was expected. -/
def _root_.Pest3.Report.expects (x : Report) : Prop := ∃ l, x.what = .expected l

/-- Whatever is reported beyond `q`, an expected rule is reported there or further. -/
def CoveredTo (es : List Ev) (q : Nat) : Prop := ∀ ups x, x ∈ Ev.reportsList ups es → x.pos ≤ q ∨ ∃ y ∈ Ev.reportsList ups es, y.expects ∧ x.pos ≤ y.pos

/-- An expected rule is reported at `q` or further. -/
def SpeaksFrom (es : List Ev) (q : Nat) : Prop := ∀ ups, ∃ y ∈ Ev.reportsList ups es, y.expects ∧ q ≤ y.pos

/-- What is to be shown of answering expressions. -/
def Spoken (sure : Bool) (c : Cfg) (es : List Ev) : Option Cfg → Prop
  | none => sure = false ∧ CoveredTo es (utf8Len c.pre) ∧ SpeaksFrom es (utf8Len c.pre)
  | some c' => CoveredTo es (utf8Len c'.pre)

theorem CoveredTo.nil {q : Nat} : CoveredTo [] q := fun ups x h => by simp [Ev.reportsList] at h

theorem CoveredTo.mono {es : List Ev} {q q' : Nat} (h : CoveredTo es q) (hq : q ≤ q') : CoveredTo es q' := fun ups x hx => by
  rcases h ups x hx with h | h
  · exact .inl (Nat.le_trans h hq)
  · exact .inr h

theorem SpeaksFrom.mono {es : List Ev} {q q' : Nat} (h : SpeaksFrom es q) (hq : q' ≤ q) : SpeaksFrom es q' := fun ups => by
  obtain ⟨y, h1, h2, h3⟩ := h ups
  exact ⟨y, h1, h2, Nat.le_trans hq h3⟩

theorem CoveredTo.append {es es' : List Ev} {q : Nat} (h : CoveredTo es q) (h' : CoveredTo es' q) : CoveredTo (es ++ es') q := by
  intro ups x hx
  simp only [mem_reportsList_append] at hx ⊢
  rcases hx with hx | hx
  · rcases h ups x hx with h | ⟨y, h1, h2⟩
    · exact .inl h
    · exact .inr ⟨y, .inl h1, h2⟩
  · rcases h' ups x hx with h | ⟨y, h1, h2⟩
    · exact .inl h
    · exact .inr ⟨y, .inr h1, h2⟩

theorem SpeaksFrom.left {es es' : List Ev} {q : Nat} (h : SpeaksFrom es q) : SpeaksFrom (es ++ es') q := fun ups => by
  obtain ⟨y, h1, h2⟩ := h ups
  exact ⟨y, mem_reportsList_append.mpr (.inl h1), h2⟩

theorem SpeaksFrom.right {es es' : List Ev} {q : Nat} (h : SpeaksFrom es' q) : SpeaksFrom (es ++ es') q := fun ups => by
  obtain ⟨y, h1, h2⟩ := h ups
  exact ⟨y, mem_reportsList_append.mpr (.inr h1), h2⟩

/-- If something is said from `q` on, what is reported up to `q` is covered. -/
theorem CoveredTo.all {es : List Ev} {q : Nat} (h : CoveredTo es q) (hs : SpeaksFrom es q) (q' : Nat) : CoveredTo es q' := fun ups x hx => by
  rcases h ups x hx with h | h
  · obtain ⟨y, h1, h2, h3⟩ := hs ups
    exact .inr ⟨y, h1, h2, Nat.le_trans h h3⟩
  · exact .inr h

theorem Tries.forward {f : Bool} {it : SItem} {c c' : Cfg} {es : List Ev} (h : Tries u root rank f it c (some c') es) : utf8Len c.pre ≤ utf8Len c'.pre := by
  obtain ⟨m, h, -⟩ := h.meaning.taken
  rw [h, utf8Len_append]
  exact Nat.le_add_right _ _

/-- First one, then the other. -/
theorem Spoken.after {b : Bool} {c c1 : Cfg} {o : Option Cfg} {es es' : List Ev} (hc : utf8Len c.pre ≤ utf8Len c1.pre) (h : CoveredTo es (utf8Len c1.pre)) (h' : Spoken b c1 es' o)
    (ho : ∀ c2, o = some c2 → utf8Len c1.pre ≤ utf8Len c2.pre) : Spoken b c (es ++ es') o := by
  cases o with
  | none => exact ⟨h'.1, ((h.append h'.2.1).all h'.2.2.right _), h'.2.2.right.mono hc⟩
  | some c2 => exact (h.mono (ho c2 rfl)).append h'

/-- Reports of a rule that was wanted. -/
theorem Spoken.rule {b : Bool} {l : Label} {c : Cfg} {o : Option Cfg} {es : List Ev} (hf : ∀ c', o = some c' → utf8Len c.pre ≤ utf8Len c'.pre) (h : Spoken b c es o ∨ es = []) :
    Spoken false c [.rule l (utf8Len c.pre) true o.isSome es] o := by
  have own : ∀ {q}, utf8Len c.pre ≤ q → CoveredTo es q → CoveredTo [.rule l (utf8Len c.pre) true o.isSome es] q := by
    intro q hq h ups x hx
    simp only [Ev.reportsList, Ev.reports, List.append_nil, List.mem_append] at hx ⊢
    rcases hx with hx | hx
    · rcases h _ x hx with h | ⟨y, h1, h2⟩
      · exact .inl h
      · exact .inr ⟨y, .inl h1, h2⟩
    · split at hx
      · simp at hx
      · simp only [List.mem_singleton] at hx
        subst hx
        exact .inl hq
  rcases h with h | rfl
  · cases o with
    | none =>
      refine ⟨rfl, own (Nat.le_refl _) h.2.1, fun ups => ?_⟩
      obtain ⟨y, h1, h2⟩ := h.2.2 ((l, utf8Len c.pre) :: ups)
      exact ⟨y, by simp [Ev.reportsList, Ev.reports, h1], h2⟩
    | some c' => exact own (hf c' rfl) h
  · cases o with
    | none => exact ⟨rfl, own (Nat.le_refl _) .nil, fun ups => ⟨⟨upperOf ups (utf8Len c.pre), utf8Len c.pre, .expected l⟩, by simp [Ev.reportsList, Ev.reports, outcome], ⟨l, rfl⟩, Nat.le_refl _⟩⟩
    | some c' => exact own (hf c' rfl) .nil

/-! ## Answering expressions -/

/-- What parameters stand for. -/
inductive AnswerClo (u : Unicode) (root : Module) : Clo → Prop
  | mk {p ρ e} : (∀ x ∈ ρ, AnswerClo u root x.2) → Answering u root p (ρ.map Prod.fst) false e → AnswerClo u root (.mk p ρ e)

/-- The trivia. -/
def AnswerTrivia (u : Unicode) (root : Module) (b : Bool) (p : List Name) (t : Trivia) : Prop :=
  ∀ m r, modAt root p = some m → triviaRule m t = some r → Answering u root p [] b r.node

/-- What is asked of items. -/
def AnswerItem (u : Unicode) (root : Module) (b : Bool) : SItem → Prop
  | .expr (.mk p ρ e) => (∀ x ∈ ρ, AnswerClo u root x.2) ∧ Answering u root p (ρ.map Prod.fst) b e
  | .trivia p t => AnswerTrivia u root b p t
  | .unit a p t _ => b = false ∧ AnswerClo u root a ∧ AnswerTrivia u root false p t
  | .reps a p t min _ _ => (min = 0 ∨ b = false) ∧ AnswerClo u root a ∧ AnswerTrivia u root false p t

theorem Spoken.weaken {b : Bool} {c : Cfg} {o : Option Cfg} {es : List Ev} (h : Spoken b c es o) : Spoken false c es o := by
  cases o with
  | none => exact ⟨rfl, h.2⟩
  | some => exact h

theorem lookup_some {x : Name} {cl : Clo} : ∀ {ρ : List (Name × Clo)}, lookupClo x ρ = some cl → (x, cl) ∈ ρ
  | [], h => by simp [lookupClo] at h
  | (y, c) :: ρ, h => by
    simp only [lookupClo] at h
    split at h
    · next k => injection h with h; subst k h; exact List.mem_cons_self
    · exact List.mem_cons_of_mem _ (lookup_some h)

theorem Answering.ofFalse {p ps : List Name} {b : Bool} {e : Expr} (h : Answering u root p ps b e) : Answering u root p ps false e := by
  induction h with
  | param h => exact .param h
  | rule h1 h2 => exact .rule h1 h2
  | call h1 h2 h3 => exact .call h1 h2 h3
  | push h1 h2 _ ih => exact .push h1 h2 ih
  | seq _ _ _ ih1 ih2 ih3 => exact .seq ih1 ih2 ih3
  | choice h1 _ _ ih2 => exact .choice h1 ih2
  | choiceMuteL h1 _ ih => exact .choiceMuteL h1 ih
  | choiceMuteR _ h1 ih => exact .choiceMuteR ih h1
  | separated _ ih => exact .separated ih
  | nothing => exact .nothing
  | opt h => exact .opt h
  | optMute h => exact .optMute h
  | rep h1 _ h3 h4 => exact .rep h1 (.inr rfl) h3 h4
  | repMute h1 h2 => exact .repMute h1 h2

/-- Answering expressions do not fail without saying what was expected. -/
theorem Tries.spoken (hs : SpeaksUp u root) {f : Bool} {it : SItem} {c : Cfg} {o : Option Cfg} {es : List Ev} (h : Tries u root rank f it c o es) :
    f = true → ∀ b, AnswerItem u root b it → Spoken b c es o := by
  have settled : ∀ {p q p' r}, target u root p q = some (.rule p' r) → Mute u root p' r.args r.node ∨ Answering u root p' r.args false r.node := by
    intro p q p' r ht
    obtain ⟨m, h1, h2, -⟩ := target_rule ht
    exact hs p' m h1 r (findRule_mem h2).1
  have fw : ∀ {f it c o es}, Tries u root rank f it c o es → ∀ c', o = some c' → utf8Len c.pre ≤ utf8Len c'.pre := by
    rintro f it c o es h c' rfl
    exact h.forward
  have norep : ∀ {e : Expr} {l}, Gen.literal e = some l → repetition e = none := by intro e l h; cases e <;> first | rfl | cases h
  have norep' : ∀ {e : Expr} {q}, plainRef e = some q → repetition e = none := by intro e l h; cases e <;> first | rfl | cases h
  have builtin : ∀ {p ρ e q full b}, plainRef e = some q → NotParam ρ q → target u root p q = some (.builtin full) → ¬ Answering u root p (ρ.map Prod.fst) b e := by
    intro p ρ e q full b h1 h2 h3 ha
    cases ha with
    | param k => cases h1; exact lookup_names.mp (h2 _ rfl) k
    | rule _ k => cases h1; rw [h3] at k; cases k
    | @call _ _ args _ _ _ k =>
      cases args with
      | nil => cases h1; rw [h3] at k; cases k
      | cons => cases h1
    | rep k => rw [norep' h1] at k; cases k
    | repMute k => rw [norep' h1] at k; cases k
    | _ => cases h1
  induction h with
  | literal h1 h2 =>
    rintro rfl b ⟨-, ha⟩
    cases ha with
    | nothing =>
      cases h2 with
      | literalOk => exact .nil
      | literalFail k1 k2 => cases k1; simp [leafSpec, eatText] at k2
      | _ => simp_all [plainRef, repetition]
    | rep k => rw [norep h1] at k; cases k
    | repMute k => rw [norep h1] at k; cases k
    | _ => cases h1
  | builtinOk h1 h2 h3 => exact fun _ b ha => absurd ha.2 (builtin h1 h2 h3)
  | builtinFail h1 h2 h3 => exact fun _ b ha => absurd ha.2 (builtin h1 h2 h3)
  | sliceOk => rintro rfl b ⟨-, ha⟩; cases ha with | rep k => cases k | repMute k => cases k
  | sliceFail => rintro rfl b ⟨-, ha⟩; cases ha with | rep k => cases k | repMute k => cases k
  | pushOk h1 h2 h3 ih =>
    rintro rfl b ⟨he, ha⟩
    cases ha with
    | call _ k => rw [h2] at k; cases k
    | push _ _ k => exact ih rfl b ⟨he, k⟩
    | rep k => cases k
    | repMute k => cases k
  | pushFail h1 h2 h3 ih =>
    rintro rfl b ⟨he, ha⟩
    cases ha with
    | call _ k => rw [h2] at k; cases k
    | push _ _ k => exact ih rfl b ⟨he, k⟩
    | rep k => cases k
    | repMute k => cases k
  | @param f p ρ x e c o es h1 h2 ih =>
    rintro rfl b ⟨he, ha⟩
    cases ha with
    | param k =>
      cases he _ (lookup_some h1) with
      | mk k1 k2 => exact ih rfl false ⟨k1, k2⟩
    | rule k => exact absurd rfl (k x (List.mem_map.mpr ⟨_, lookup_some h1, rfl⟩))
    | rep k => cases k
    | repMute k => cases k
  | rule h1 h2 h3 h4 ih =>
    rintro rfl b ⟨he, ha⟩
    have goal := fun l => Spoken.rule (b := false) (l := l) (fw h4) (by
      rcases settled h2 with k | k
      · exact .inr (k.quiet (by rw [h3]; rfl) h4)
      · exact .inl (ih rfl false ⟨by simp, by rw [h3] at k; exact k⟩))
    cases ha with
    | param k => exact goal _
    | rule => exact goal _
    | rep k => cases k
    | repMute k => cases k
  | @call f p ρ q args p' r c o es h1 h2 h3 h4 ih =>
    rintro rfl b ⟨he, ha⟩
    have names : (r.args.zip (args.map (Clo.mk p ρ))).map Prod.fst = r.args := by
      rw [List.map_fst_zip (by simp [h3])]
    cases ha with
    | call _ _ k =>
      refine .rule (b := false) (fw h4) ?_
      rcases settled h2 with k' | k'
      · exact .inr (k'.quiet names h4)
      · refine .inl (ih rfl false ⟨fun x hx => ?_, by rw [names]; exact k'⟩)
        obtain ⟨a, ha, hx⟩ := List.mem_map.mp (List.of_mem_zip hx).2
        rw [← hx]
        exact .mk he (k a ha)
    | push _ k => rw [h2] at k; cases k
    | rep k => cases k
    | repMute k => cases k
  | posOk => rintro rfl b ⟨-, ha⟩; cases ha with | rep k => cases k | repMute k => cases k
  | posFail => rintro rfl b ⟨-, ha⟩; cases ha with | rep k => cases k | repMute k => cases k
  | negOk => rintro rfl b ⟨-, ha⟩; cases ha with | rep k => cases k | repMute k => cases k
  | negFail => rintro rfl b ⟨-, ha⟩; cases ha with | rep k => cases k | repMute k => cases k
  | seq h1 h2 h3 ih1 ih2 ih3 =>
    rintro rfl b ⟨he, ha⟩
    cases ha with
    | seq k1 k2 k3 => exact .after h1.forward (ih1 rfl b ⟨he, k1⟩) (.after h2.forward (ih2 rfl b k3) (ih3 rfl b ⟨he, k2⟩) (fw h3)) fun c' hc => Nat.le_trans h2.forward (fw h3 c' hc)
    | rep k => cases k
    | repMute k => cases k
  | seqFail h1 ih =>
    rintro rfl b ⟨he, ha⟩
    cases ha with
    | seq k1 k2 k3 => exact ih rfl b ⟨he, k1⟩
    | rep k => cases k
    | repMute k => cases k
  | seqTriviaFail h1 h2 ih1 ih2 =>
    rintro rfl b ⟨he, ha⟩
    cases ha with
    | seq k1 k2 k3 => exact .after h1.forward (ih1 rfl b ⟨he, k1⟩) (ih2 rfl b k3) nofun
    | rep k => cases k
    | repMute k => cases k
  | choiceL h1 ih =>
    rintro rfl b ⟨he, ha⟩
    cases ha with
    | choice k1 k2 => exact ih rfl false ⟨he, k1⟩
    | choiceMuteL k1 k2 => rw [k1.quiet rfl h1]; exact .nil
    | choiceMuteR k1 k2 => exact ih rfl b ⟨he, k1⟩
    | rep k => cases k
    | repMute k => cases k
  | @choiceR f p ρ l r c o es es' h1 h2 ih1 ih2 =>
    rintro rfl b ⟨he, ha⟩
    have both : ∀ b', Spoken b' c es none → Spoken b c es' o → Spoken b c (es ++ es') o := by
      intro b' k1 k2
      cases o with
      | none => exact ⟨k2.1, k1.2.1.append k2.2.1, k1.2.2.left⟩
      | some c' => exact (k1.2.1.all k1.2.2 _).append k2
    cases ha with
    | choice k1 k2 => exact both false (ih1 rfl false ⟨he, k1⟩) (ih2 rfl b ⟨he, k2⟩)
    | choiceMuteL k1 k2 => rw [k1.quiet rfl h1]; exact ih2 rfl b ⟨he, k2⟩
    | choiceMuteR k1 k2 =>
      rw [k2.quiet rfl h2, List.append_nil]
      have := ih1 rfl b ⟨he, k1⟩
      cases o with
      | none => exact this
      | some c' => exact this.2.1.all this.2.2 _
    | rep k => cases k
    | repMute k => cases k
  | optSome h1 ih =>
    rintro rfl b ⟨he, ha⟩
    cases ha with
    | opt k => exact ih rfl false ⟨he, k⟩
    | optMute k => rw [k.quiet rfl h1]; exact .nil
    | rep k => cases k
    | repMute k => cases k
  | optNone h1 ih =>
    rintro rfl b ⟨he, ha⟩
    cases ha with
    | opt k => exact (ih rfl false ⟨he, k⟩).2.1
    | optMute k => rw [k.quiet rfl h1]; exact .nil
    | rep k => cases k
    | repMute k => cases k
  | @rep _ _ _ _ _ _ _ _ o _ h1 h2 ih =>
    rintro rfl b ⟨he, ha⟩
    cases ha with
    | rep k1 k2 k3 k4 =>
      rw [h1] at k1
      cases k1
      exact ih rfl b ⟨k2, .mk he k3, k4⟩
    | repMute k1 k2 =>
      rw [h1] at k1
      cases k1
      rw [k2.quiet rfl (.rep h1 h2)]
      cases o with
      | none => exact absurd rfl (reps_not_none _ _ (Nat.le_add_left _ _) h2)
      | some => exact .nil
    | _ => cases h1
  | separated h1 ih =>
    rintro rfl b ⟨he, ha⟩
    cases ha with
    | separated k => exact ih rfl b ⟨he, k⟩
    | rep k => cases k
    | repMute k => cases k
  | triviaNone => exact fun _ b _ => .nil
  | triviaRule h1 h2 h3 ih => rintro rfl b ha; exact ih rfl b ⟨by simp, ha _ _ h1 h2⟩
  | unitFirst h1 ih => 
    rintro rfl b ⟨rfl, ha, -⟩
    cases ha with | mk k1 k2 => exact ih rfl false ⟨k1, k2⟩
  | unitNext h1 h2 ih1 ih2 =>
    rintro rfl b ⟨rfl, ha, ht⟩
    cases ha with | mk k1 k2 => exact .after h1.forward (ih1 rfl false ht) (ih2 rfl false ⟨k1, k2⟩) (fw h2)
  | unitTriviaFail h1 ih => rintro rfl b ⟨rfl, ha, ht⟩; exact ih rfl false ht
  | repsMax => exact fun _ b _ => .nil
  | repsMore h0 h1 h2 ih1 ih2 => rintro rfl b ⟨hb, ha, ht⟩; exact .after h1.forward (ih1 rfl false ⟨rfl, ha, ht⟩) (ih2 rfl b ⟨hb, ha, ht⟩) (fw h2)
  | repsFew h0 h1 h2 ih =>
    rintro rfl b ⟨hb, ha, ht⟩
    have hb : b = false := hb.elim (fun hb => by omega) id
    subst hb
    exact ih rfl false ⟨rfl, ha, ht⟩
  | repsStop h0 h1 h2 ih => rintro rfl b ⟨hb, ha, ht⟩; exact (ih rfl false ⟨rfl, ha, ht⟩).2.1

/-- Whatever is reported about a rejected text, an expected rule is reported as far or further. -/
theorem FullTries.spoken (hs : SpeaksUp u root) {p : List Name} {m : Module} {r : Rule} (hp : modAt root p = some m) (hr : r ∈ m.rules) (hargs : r.args = []) {inp : Str} {es : List Ev}
    (h : FullTries u root rank p r inp false es) : CoveredTo es 0 ∧ SpeaksFrom es 0 := by
  have body : ∀ {o es}, Tries u root rank true (.expr (.mk p [] r.node)) (startCfg inp) o es →
      Spoken false (startCfg inp) (tried rank p r true (startCfg inp) o es) o := by
    intro o es h
    refine .rule (b := false) (by rintro c' rfl; exact h.forward) ?_
    rcases hs p m hp r hr with k | k
    · exact .inr (k.quiet (by rw [hargs]; rfl) h)
    · exact .inl (h.spoken hs rfl false ⟨by simp, by rw [hargs] at k; exact k⟩)
  generalize hb : false = b at h
  cases h with
  | fail h => exact (body h).2
  | @ok c es h =>
    have hc := body h
    have eoi : SpeaksFrom [.rule (rank .eoi) (utf8Len c.pre) true (decide (c.suf = [])) []] (utf8Len c.pre) := fun ups =>
      ⟨⟨upperOf ups (utf8Len c.pre), utf8Len c.pre, .expected (rank .eoi)⟩, by simp [← hb, Ev.reportsList, Ev.reports, outcome], ⟨_, rfl⟩, Nat.le_refl _⟩
    have cov : CoveredTo [.rule (rank .eoi) (utf8Len c.pre) true (decide (c.suf = [])) []] (utf8Len c.pre) := fun ups x hx => by
      simp [Ev.reportsList, Ev.reports] at hx
      subst hx
      exact .inl (Nat.le_refl _)
    exact ⟨(CoveredTo.append hc cov).all eoi.right _, eoi.right.mono (Nat.zero_le _)⟩

/-- So an expected rule is reported where the error is. -/
theorem spoken_furthest {es : List Ev} (h : CoveredTo es 0) (hs : SpeaksFrom es 0) (ups : List (Label × Nat)) :
    ∃ x ∈ Ev.reportsList ups es, x.expects ∧ x.pos = furthest 0 (Ev.reportsList ups es) := by
  obtain ⟨h1, h2, h3⟩ := furthest_spec (Ev.reportsList ups es) 0
  rcases h3 with h3 | ⟨x, h4, h5⟩
  · obtain ⟨y, k1, k2, -⟩ := hs ups
    exact ⟨y, k1, k2, Nat.le_antisymm (h2 y k1) (by omega)⟩
  · rcases h.all hs 0 ups x h4 with k | ⟨y, k1, k2, k3⟩
    · obtain ⟨y, k1, k2, -⟩ := hs ups
      exact ⟨y, k1, k2, Nat.le_antisymm (h2 y k1) (by omega)⟩
    · exact ⟨y, k1, k2, Nat.le_antisymm (h2 y k1) (by omega)⟩

/-- The error names it. -/
theorem error_names {inp : Str} {t0 : Tracker} {es : List Ev} (hg : t0.position.input = inp) (h0 : t0.position.pos = 0) (ha : t0.attempts = []) (h : CoveredTo es 0) (hs : SpeaksFrom es 0) :
    ∃ k v l, (k, v) ∈ (t0.after inp es).attempts ∧ l ∈ v.positives := by
  have pos : (t0.after inp es).position = ⟨inp, furthest t0.position.pos (Ev.reportsList t0.ups es)⟩ := by
    have hst : (t0.position, t0.attempts) = (⟨inp, t0.position.pos⟩, []) := by
      rw [ha]
      generalize t0.position = p at hg ⊢
      cases p; simp only at hg; rw [hg]
    have hH := Holds.foldl (Ev.reportsList t0.ups es) [] _ (Holds.start inp t0.position.pos)
    rw [← hst, List.nil_append] at hH
    exact hH.1
  obtain ⟨x, h1, ⟨l, h2⟩, h3⟩ := spoken_furthest h hs t0.ups
  have L := listed_of (es := es) hg ha
  have : ∃ v, (x.upper, v) ∈ (t0.after inp es).attempts ∧ l ∈ v.positives := by
    simp only [L.order]
    rw [entry_iff (P := fun v => l ∈ v.positives)]
    have hx : x.pos = (t0.after inp es).position.pos := by rw [pos, h0]; exact h3
    refine ⟨⟨x, filed_mem.mpr ⟨h1, hx, rfl, by rw [h2]; simp⟩⟩, mem_squash_expected.mpr ?_⟩
    rw [← hx, ← h2]
    exact h1
  obtain ⟨v, h4, h5⟩ := this
  exact ⟨_, v, l, h4, h5⟩

end
end Pest3.Gen
