import Verif.EqualErrorSpec
import Verif.TriesInv
import Verif.RewriteLemmas
import Verif.Summary

namespace Pest3.Gen
open Pest3

theorem comparison_eq : Comparison Eq where
  refl _ := rfl
  symm _ _ h := h.symm
  trans _ _ _ h h' := h.trans h'
  append _ _ _ _ h h' := by rw [h, h']
  rule _ _ _ _ _ _ h := by rw [h]

theorem mem_reportsList_append {ups : List (Label × Nat)} {x : Report} {es es' : List Ev} :
    x ∈ Ev.reportsList ups (es ++ es') ↔ x ∈ Ev.reportsList ups es ∨ x ∈ Ev.reportsList ups es' := by
  induction es with
  | nil => simp [Ev.reportsList]
  | cons e es ih => simp only [List.cons_append, Ev.reportsList, List.mem_append, ih, or_assoc]

theorem comparison_reports : Comparison SameReports where
  refl _ := ⟨.rfl, fun _ _ => .rfl⟩
  symm _ _ h := ⟨h.1.symm, fun ups x => (h.2 ups x).symm⟩
  trans _ _ _ h h' := ⟨h.1.trans h'.1, fun ups x => (h.2 ups x).trans (h'.2 ups x)⟩
  append es es' fs fs' h h' := by
    refine ⟨?_, fun ups x => ?_⟩
    · rw [List.any_append, List.any_append, Bool.or_eq_true, Bool.or_eq_true, h.1, h'.1]
    · rw [mem_reportsList_append, mem_reportsList_append, h.2, h'.2]
  rule l n f ok es es' h := by
    refine ⟨by simp [Ev.isRule], fun ups x => ?_⟩
    have hb : es.any Ev.isRule = es'.any Ev.isRule := Bool.eq_iff_iff.mpr h.1
    simp only [Ev.reportsList, Ev.reports, List.append_nil, List.mem_append, h.2, hb]

section
variable {Q : List Ev → List Ev → Prop} (hQ : Comparison Q) {u : Unicode} {root : Module} {rank : RuleVal → Label}

theorem Imitates.meaning {a b : Clo} (h : Imitates Q u root rank a b) (c : Cfg) (o : Option Cfg) (hm : Meaning u root (.expr a) c o) : Meaning u root (.expr b) c o := by
  obtain ⟨es, k⟩ := meaning_tries rank hm true
  obtain ⟨es', k', -⟩ := h _ _ _ _ k
  exact k'.meaning

section
variable {p ps : List Name} {e e' e'' x x' y y' : Expr} {ρ : List (Name × Clo)}

theorem TriesAt.agrees (h : TriesAt Q u root rank p ps e e') : AgreesAt u root p ps e e' :=
  ⟨h.1, fun ρ hρ c o => ⟨(h.2 ρ hρ).1.meaning c o, (h.2 ρ hρ).2.meaning c o⟩⟩

theorem TriesAt.weaken {Q' : List Ev → List Ev → Prop} (hw : ∀ es es', Q es es' → Q' es es') (h : TriesAt Q u root rank p ps e e') : TriesAt Q' u root rank p ps e e' :=
  ⟨h.1, fun ρ hρ => ⟨fun f c o es k => let ⟨es', k1, k2⟩ := (h.2 ρ hρ).1 f c o es k; ⟨es', k1, hw _ _ k2⟩,
    fun f c o es k => let ⟨es', k1, k2⟩ := (h.2 ρ hρ).2 f c o es k; ⟨es', k1, hw _ _ k2⟩⟩⟩

include hQ

theorem Imitates.refl {a : Clo} : Imitates Q u root rank a a := fun _ _ _ es h => ⟨es, h, hQ.refl es⟩
theorem Imitates.trans {a b d : Clo} (h : Imitates Q u root rank a b) (h' : Imitates Q u root rank b d) : Imitates Q u root rank a d := by
  intro f c o es k
  obtain ⟨es', k1, k2⟩ := h f c o es k
  obtain ⟨es'', k3, k4⟩ := h' f c o es' k1
  exact ⟨es'', k3, hQ.trans _ _ _ k2 k4⟩

theorem TriesAt.refl : TriesAt Q u root rank p ps e e := ⟨rfl, fun _ _ => ⟨.refl hQ, .refl hQ⟩⟩
omit hQ in
theorem TriesAt.symm (h : TriesAt Q u root rank p ps e e') : TriesAt Q u root rank p ps e' e := ⟨h.1.symm, fun ρ hρ => ⟨(h.2 ρ hρ).2, (h.2 ρ hρ).1⟩⟩
theorem TriesAt.trans (h : TriesAt Q u root rank p ps e e') (h' : TriesAt Q u root rank p ps e' e'') : TriesAt Q u root rank p ps e e'' :=
  ⟨h.1.trans h'.1, fun ρ hρ => ⟨(h.2 ρ hρ).1.trans hQ (h'.2 ρ hρ).1, (h'.2 ρ hρ).2.trans hQ (h.2 ρ hρ).2⟩⟩

theorem Imitates.seq (h : Imitates Q u root rank (.mk p ρ x) (.mk p ρ x')) (k : Imitates Q u root rank (.mk p ρ y) (.mk p ρ y')) (t : Trivia) :
    Imitates Q u root rank (.mk p ρ (.seq x y t)) (.mk p ρ (.seq x' y' t)) := by
  intro f c o es hm
  rcases t_seq.mp hm with ⟨h1, rfl⟩ | ⟨c1, es1, h1, ⟨es2, h2, rfl, rfl⟩ | ⟨c2, es2, es3, h2, h3, rfl⟩⟩
  · obtain ⟨es1', k1, q1⟩ := h _ _ _ _ h1
    exact ⟨_, .seqFail k1, q1⟩
  · obtain ⟨es1', k1, q1⟩ := h _ _ _ _ h1
    exact ⟨_, .seqTriviaFail k1 h2, hQ.append _ _ _ _ q1 (hQ.refl _)⟩
  · obtain ⟨es1', k1, q1⟩ := h _ _ _ _ h1
    obtain ⟨es3', k3, q3⟩ := k _ _ _ _ h3
    exact ⟨_, .seq k1 h2 k3, hQ.append _ _ _ _ q1 (hQ.append _ _ _ _ (hQ.refl _) q3)⟩

theorem Imitates.choice (h : Imitates Q u root rank (.mk p ρ x) (.mk p ρ x')) (k : Imitates Q u root rank (.mk p ρ y) (.mk p ρ y')) :
    Imitates Q u root rank (.mk p ρ (.choice x y)) (.mk p ρ (.choice x' y')) := by
  intro f c o es hm
  rcases t_choice.mp hm with ⟨c1, h1, rfl⟩ | ⟨es1, es2, h1, h2, rfl⟩
  · obtain ⟨es1', k1, q1⟩ := h _ _ _ _ h1
    exact ⟨_, .choiceL k1, q1⟩
  · obtain ⟨es1', k1, q1⟩ := h _ _ _ _ h1
    obtain ⟨es2', k2, q2⟩ := k _ _ _ _ h2
    exact ⟨_, .choiceR k1 k2, hQ.append _ _ _ _ q1 q2⟩

omit hQ in
theorem Imitates.opt (h : Imitates Q u root rank (.mk p ρ x) (.mk p ρ x')) : Imitates Q u root rank (.mk p ρ (.opt x)) (.mk p ρ (.opt x')) := by
  intro f c o es hm
  rcases t_opt.mp hm with ⟨c1, h1, rfl⟩ | ⟨h1, rfl⟩ <;> obtain ⟨es1', k1, q1⟩ := h _ _ _ _ h1
  · exact ⟨_, .optSome k1, q1⟩
  · exact ⟨_, .optNone k1, q1⟩

omit hQ in
theorem Imitates.pos (h : Imitates Q u root rank (.mk p ρ x) (.mk p ρ x')) : Imitates Q u root rank (.mk p ρ (.pos x)) (.mk p ρ (.pos x')) := by
  intro f c o es hm
  rcases t_pos.mp hm with ⟨c1, h1, rfl⟩ | ⟨h1, rfl⟩ <;> obtain ⟨es1', k1, q1⟩ := h _ _ _ _ h1
  · exact ⟨_, .posOk k1, q1⟩
  · exact ⟨_, .posFail k1, q1⟩

omit hQ in
theorem Imitates.neg (h : Imitates Q u root rank (.mk p ρ x) (.mk p ρ x')) : Imitates Q u root rank (.mk p ρ (.neg x)) (.mk p ρ (.neg x')) := by
  intro f c o es hm
  rcases t_neg.mp hm with ⟨c1, h1, rfl⟩ | ⟨h1, rfl⟩ <;> obtain ⟨es1', k1, q1⟩ := h _ _ _ _ h1
  · exact ⟨_, .negFail k1, q1⟩
  · exact ⟨_, .negOk k1, q1⟩

omit hQ in
theorem Imitates.separated (h : Imitates Q u root rank (.mk p ρ x) (.mk p ρ x')) (t : Trivia) : Imitates Q u root rank (.mk p ρ (.separated x t)) (.mk p ρ (.separated x' t)) := by
  intro f c o es hm
  obtain ⟨es1', k1, q1⟩ := h _ _ _ _ (t_separated.mp hm)
  exact ⟨_, .separated k1, q1⟩

theorem imitates_unit {a b : Clo} (h : Imitates Q u root rank a b) (t : Trivia) (i : Nat) {f : Bool} {c : Cfg} {o : Option Cfg} {es : List Ev}
    (hm : Tries u root rank f (.unit a p t i) c o es) : ∃ es', Tries u root rank f (.unit b p t i) c o es' ∧ Q es es' := by
  cases i with
  | zero =>
    obtain ⟨es1', k1, q1⟩ := h _ _ _ _ (t_unit0.mp hm)
    exact ⟨_, .unitFirst k1, q1⟩
  | succ i =>
    rcases t_unitS.mp hm with ⟨h1, rfl⟩ | ⟨c1, es1, es2, h1, h2, rfl⟩
    · exact ⟨_, .unitTriviaFail h1, hQ.refl _⟩
    · obtain ⟨es2', k2, q2⟩ := h _ _ _ _ h2
      exact ⟨_, .unitNext h1 k2, hQ.append _ _ _ _ (hQ.refl _) q2⟩

theorem imitates_reps {a b : Clo} (h : Imitates Q u root rank a b) (t : Trivia) (min max : Nat) : ∀ n i f c o es, max ≤ i + n →
    Tries u root rank f (.reps a p t min max i) c o es → ∃ es', Tries u root rank f (.reps b p t min max i) c o es' ∧ Q es es' := by
  intro n
  induction n with
  | zero =>
    intro i f c o es hn hm
    rcases t_reps.mp hm with ⟨h1, rfl, rfl⟩ | ⟨h1, -⟩
    · exact ⟨_, .repsMax h1, hQ.refl _⟩
    · omega
  | succ n ih =>
    intro i f c o es hn hm
    rcases t_reps.mp hm with ⟨h1, rfl, rfl⟩ | ⟨h1, ⟨c1, es1, es2, h2, h3, rfl⟩ | ⟨h2, ⟨h3, rfl⟩ | ⟨h3, rfl⟩⟩⟩
    · exact ⟨_, .repsMax h1, hQ.refl _⟩
    · obtain ⟨es1', k1, q1⟩ := imitates_unit hQ h t i h2
      obtain ⟨es2', k2, q2⟩ := ih _ _ _ _ _ (by omega) h3
      exact ⟨_, .repsMore h1 k1 k2, hQ.append _ _ _ _ q1 q2⟩
    · obtain ⟨es1', k1, q1⟩ := imitates_unit hQ h t i h2
      exact ⟨_, .repsFew h1 k1 h3, q1⟩
    · obtain ⟨es1', k1, q1⟩ := imitates_unit hQ h t i h2
      exact ⟨_, .repsStop h1 k1 h3, q1⟩

theorem Imitates.repetition (hs : sepTrivia x = sepTrivia x') (h : Imitates Q u root rank (.mk p ρ x) (.mk p ρ x')) {z z' : Expr} {min max : Nat}
    (hz : Gen.repetition z = some (x, min, max)) (hz' : Gen.repetition z' = some (x', min, max)) : Imitates Q u root rank (.mk p ρ z) (.mk p ρ z') := by
  intro f c o es hm
  rw [t_rep hz, hs] at hm
  obtain ⟨es', k, q⟩ := imitates_reps hQ h _ min max max 0 f c o es (by omega) hm
  exact ⟨es', (t_rep hz').mpr k, q⟩

theorem TriesAt.seq (h : TriesAt Q u root rank p ps x x') (k : TriesAt Q u root rank p ps y y') (t : Trivia) : TriesAt Q u root rank p ps (.seq x y t) (.seq x' y' t) :=
  ⟨rfl, fun ρ hρ => ⟨(h.2 ρ hρ).1.seq hQ (k.2 ρ hρ).1 t, (h.2 ρ hρ).2.seq hQ (k.2 ρ hρ).2 t⟩⟩
theorem TriesAt.choice (h : TriesAt Q u root rank p ps x x') (k : TriesAt Q u root rank p ps y y') : TriesAt Q u root rank p ps (.choice x y) (.choice x' y') :=
  ⟨rfl, fun ρ hρ => ⟨(h.2 ρ hρ).1.choice hQ (k.2 ρ hρ).1, (h.2 ρ hρ).2.choice hQ (k.2 ρ hρ).2⟩⟩
omit hQ in
theorem TriesAt.opt (h : TriesAt Q u root rank p ps x x') : TriesAt Q u root rank p ps (.opt x) (.opt x') := ⟨rfl, fun ρ hρ => ⟨(h.2 ρ hρ).1.opt, (h.2 ρ hρ).2.opt⟩⟩
omit hQ in
theorem TriesAt.pos (h : TriesAt Q u root rank p ps x x') : TriesAt Q u root rank p ps (.pos x) (.pos x') := ⟨rfl, fun ρ hρ => ⟨(h.2 ρ hρ).1.pos, (h.2 ρ hρ).2.pos⟩⟩
omit hQ in
theorem TriesAt.neg (h : TriesAt Q u root rank p ps x x') : TriesAt Q u root rank p ps (.neg x) (.neg x') := ⟨rfl, fun ρ hρ => ⟨(h.2 ρ hρ).1.neg, (h.2 ρ hρ).2.neg⟩⟩
omit hQ in
theorem TriesAt.separated (h : TriesAt Q u root rank p ps x x') (t : Trivia) : TriesAt Q u root rank p ps (.separated x t) (.separated x' t) :=
  ⟨rfl, fun ρ hρ => ⟨(h.2 ρ hρ).1.separated t, (h.2 ρ hρ).2.separated t⟩⟩
theorem TriesAt.repetition (h : TriesAt Q u root rank p ps x x') {z z' : Expr} {min max : Nat} (hz : Gen.repetition z = some (x, min, max))
    (hz' : Gen.repetition z' = some (x', min, max)) : TriesAt Q u root rank p ps z z' :=
  ⟨(sepTrivia_rep hz).trans (sepTrivia_rep hz').symm, fun ρ hρ => ⟨(h.2 ρ hρ).1.repetition hQ h.1 hz hz', (h.2 ρ hρ).2.repetition hQ h.1.symm hz' hz⟩⟩
theorem TriesAt.rep (h : TriesAt Q u root rank p ps x x') : TriesAt Q u root rank p ps (.rep x) (.rep x') := h.repetition hQ rfl rfl
theorem TriesAt.repOnce (h : TriesAt Q u root rank p ps x x') : TriesAt Q u root rank p ps (.repOnce x) (.repOnce x') := h.repetition hQ rfl rfl
theorem TriesAt.repRange (h : TriesAt Q u root rank p ps x x') (r : Meta.MetaRange Nat) : TriesAt Q u root rank p ps (.repRange x r) (.repRange x' r) := h.repetition hQ rfl rfl

end

/-! ## Arguments -/

include hQ

theorem tries_le {S : Clo → Clo → Prop} (hS : ∀ a b, S a b → Imitates Q u root rank a b) {f : Bool} {it : SItem} {c : Cfg} {o : Option Cfg} {es : List Ev}
    (h : Tries u root rank f it c o es) : ∀ it', ItemLe S it it' → ∃ es', Tries u root rank f it' c o es' ∧ Q es es' := by
  have go := fun {it c o} h {it'} => meaning_le (u := u) (root := root) (it := it) (c := c) (o := o) (fun a b k => (hS a b k).meaning) h it'
  induction h with
  | literal h1 h2 =>
    rintro _ (h | _); cases h with
    | same h => exact hS _ _ h _ _ _ _ (.literal h1 h2)
    | mk h => exact ⟨_, .literal h1 (go h2 (.expr (.mk h))), hQ.refl _⟩
  | builtinOk h1 h2 h3 h4 h5 =>
    rintro _ (h | _); cases h with
    | same h => exact hS _ _ h _ _ _ _ (.builtinOk h1 h2 h3 h4 h5)
    | mk h => exact ⟨_, .builtinOk h1 (h.notParam h2) h3 h4 (go h5 (.expr (.mk h))), hQ.refl _⟩
  | builtinFail h1 h2 h3 h4 h5 =>
    rintro _ (h | _); cases h with
    | same h => exact hS _ _ h _ _ _ _ (.builtinFail h1 h2 h3 h4 h5)
    | mk h => exact ⟨_, .builtinFail h1 (h.notParam h2) h3 h4 (go h5 (.expr (.mk h))), hQ.refl _⟩
  | sliceOk h1 =>
    rintro _ (h | _); cases h with
    | same h => exact hS _ _ h _ _ _ _ (.sliceOk h1)
    | mk h => exact ⟨_, .sliceOk (go h1 (.expr (.mk h))), hQ.refl _⟩
  | sliceFail h1 h2 =>
    rintro _ (h | _); cases h with
    | same h => exact hS _ _ h _ _ _ _ (.sliceFail h1 h2)
    | mk h => exact ⟨_, .sliceFail h1 (go h2 (.expr (.mk h))), hQ.refl _⟩
  | pushOk h1 h2 h3 ih =>
    rintro _ (h | _); cases h with
    | same h => exact hS _ _ h _ _ _ _ (.pushOk h1 h2 h3)
    | mk h => obtain ⟨_, k, q⟩ := ih _ (.expr (.mk h)); exact ⟨_, .pushOk (h.notParam h1) h2 k, q⟩
  | pushFail h1 h2 h3 ih =>
    rintro _ (h | _); cases h with
    | same h => exact hS _ _ h _ _ _ _ (.pushFail h1 h2 h3)
    | mk h => obtain ⟨_, k, q⟩ := ih _ (.expr (.mk h)); exact ⟨_, .pushFail (h.notParam h1) h2 k, q⟩
  | param h1 h2 ih =>
    rintro _ (h | _); cases h with
    | same h => exact hS _ _ h _ _ _ _ (.param h1 h2)
    | mk h => obtain ⟨b, k1, k2⟩ := h.param h1; obtain ⟨_, k, q⟩ := ih _ (.expr k2); exact ⟨_, .param k1 k, q⟩
  | rule h1 h2 h3 h4 ih =>
    rintro _ (h | _); cases h with
    | same h => exact hS _ _ h _ _ _ _ (.rule h1 h2 h3 h4)
    | mk h => exact ⟨_, .rule (h.notParam h1) h2 h3 h4, hQ.refl _⟩
  | call h1 h2 h3 h4 ih =>
    rintro _ (h | _); cases h with
    | same h => exact hS _ _ h _ _ _ _ (.call h1 h2 h3 h4)
    | mk h => obtain ⟨_, k, q⟩ := ih _ (.expr (.mk (h.zip _ _))); exact ⟨_, .call (h.notParam h1) h2 h3 k, hQ.rule _ _ _ _ _ _ q⟩
  | posOk h1 ih =>
    rintro _ (h | _); cases h with
    | same h => exact hS _ _ h _ _ _ _ (.posOk h1)
    | mk h => obtain ⟨_, k, q⟩ := ih _ (.expr (.mk h)); exact ⟨_, .posOk k, q⟩
  | posFail h1 ih =>
    rintro _ (h | _); cases h with
    | same h => exact hS _ _ h _ _ _ _ (.posFail h1)
    | mk h => obtain ⟨_, k, q⟩ := ih _ (.expr (.mk h)); exact ⟨_, .posFail k, q⟩
  | negOk h1 ih =>
    rintro _ (h | _); cases h with
    | same h => exact hS _ _ h _ _ _ _ (.negOk h1)
    | mk h => obtain ⟨_, k, q⟩ := ih _ (.expr (.mk h)); exact ⟨_, .negOk k, q⟩
  | negFail h1 ih =>
    rintro _ (h | _); cases h with
    | same h => exact hS _ _ h _ _ _ _ (.negFail h1)
    | mk h => obtain ⟨_, k, q⟩ := ih _ (.expr (.mk h)); exact ⟨_, .negFail k, q⟩
  | seq h1 h2 h3 ih1 ih2 ih3 =>
    rintro _ (h | _); cases h with
    | same h => exact hS _ _ h _ _ _ _ (.seq h1 h2 h3)
    | mk h => obtain ⟨_, k1, q1⟩ := ih1 _ (.expr (.mk h)); obtain ⟨_, k3, q3⟩ := ih3 _ (.expr (.mk h)); exact ⟨_, .seq k1 h2 k3, hQ.append _ _ _ _ q1 (hQ.append _ _ _ _ (hQ.refl _) q3)⟩
  | seqFail h1 ih =>
    rintro _ (h | _); cases h with
    | same h => exact hS _ _ h _ _ _ _ (.seqFail h1)
    | mk h => obtain ⟨_, k, q⟩ := ih _ (.expr (.mk h)); exact ⟨_, .seqFail k, q⟩
  | seqTriviaFail h1 h2 ih1 ih2 =>
    rintro _ (h | _); cases h with
    | same h => exact hS _ _ h _ _ _ _ (.seqTriviaFail h1 h2)
    | mk h => obtain ⟨_, k1, q1⟩ := ih1 _ (.expr (.mk h)); exact ⟨_, .seqTriviaFail k1 h2, hQ.append _ _ _ _ q1 (hQ.refl _)⟩
  | choiceL h1 ih =>
    rintro _ (h | _); cases h with
    | same h => exact hS _ _ h _ _ _ _ (.choiceL h1)
    | mk h => obtain ⟨_, k, q⟩ := ih _ (.expr (.mk h)); exact ⟨_, .choiceL k, q⟩
  | choiceR h1 h2 ih1 ih2 =>
    rintro _ (h | _); cases h with
    | same h => exact hS _ _ h _ _ _ _ (.choiceR h1 h2)
    | mk h => obtain ⟨_, k1, q1⟩ := ih1 _ (.expr (.mk h)); obtain ⟨_, k2, q2⟩ := ih2 _ (.expr (.mk h)); exact ⟨_, .choiceR k1 k2, hQ.append _ _ _ _ q1 q2⟩
  | optSome h1 ih =>
    rintro _ (h | _); cases h with
    | same h => exact hS _ _ h _ _ _ _ (.optSome h1)
    | mk h => obtain ⟨_, k, q⟩ := ih _ (.expr (.mk h)); exact ⟨_, .optSome k, q⟩
  | optNone h1 ih =>
    rintro _ (h | _); cases h with
    | same h => exact hS _ _ h _ _ _ _ (.optNone h1)
    | mk h => obtain ⟨_, k, q⟩ := ih _ (.expr (.mk h)); exact ⟨_, .optNone k, q⟩
  | rep h1 h2 ih =>
    rintro _ (h | _); cases h with
    | same h => exact hS _ _ h _ _ _ _ (.rep h1 h2)
    | mk h => obtain ⟨_, k, q⟩ := ih _ (.reps (.mk h)); exact ⟨_, .rep h1 k, q⟩
  | separated h1 ih =>
    rintro _ (h | _); cases h with
    | same h => exact hS _ _ h _ _ _ _ (.separated h1)
    | mk h => obtain ⟨_, k, q⟩ := ih _ (.expr (.mk h)); exact ⟨_, .separated k, q⟩
  | triviaNone => intro it' h; cases h; exact ⟨_, .triviaNone, hQ.refl _⟩
  | triviaRule h1 h2 h3 => intro it' h; cases h; exact ⟨_, .triviaRule h1 h2 h3, hQ.refl _⟩
  | unitFirst h ih => intro it' h'; cases h' with | unit h' => obtain ⟨_, k, q⟩ := ih _ (.expr h'); exact ⟨_, .unitFirst k, q⟩
  | unitNext h1 h2 ih1 ih2 => intro it' h'; cases h' with | unit h' => obtain ⟨_, k, q⟩ := ih2 _ (.expr h'); exact ⟨_, .unitNext h1 k, hQ.append _ _ _ _ (hQ.refl _) q⟩
  | unitTriviaFail h1 => intro it' h'; cases h' with | unit h' => exact ⟨_, .unitTriviaFail h1, hQ.refl _⟩
  | repsMax h1 => intro it' h'; cases h' with | reps h' => exact ⟨_, .repsMax h1, hQ.refl _⟩
  | repsMore h1 h2 h3 ih1 ih2 =>
    intro it' h'; cases h' with | reps h' =>
      obtain ⟨_, k1, q1⟩ := ih1 _ (.unit h')
      obtain ⟨_, k2, q2⟩ := ih2 _ (.reps h')
      exact ⟨_, .repsMore h1 k1 k2, hQ.append _ _ _ _ q1 q2⟩
  | repsFew h1 h2 h3 ih => intro it' h'; cases h' with | reps h' => obtain ⟨_, k, q⟩ := ih _ (.unit h'); exact ⟨_, .repsFew h1 k h3, q⟩
  | repsStop h1 h2 h3 ih => intro it' h'; cases h' with | reps h' => obtain ⟨_, k, q⟩ := ih _ (.unit h'); exact ⟨_, .repsStop h1 k h3, q⟩

theorem Imitates.call {p : List Name} {ρ : List (Name × Clo)} {xs xs' : List Expr} (h : ArgsBy (fun x y => Imitates Q u root rank (.mk p ρ x) (.mk p ρ y)) xs xs') (q : List Name) :
    Imitates Q u root rank (.mk p ρ (.call q xs)) (.mk p ρ (.call q xs')) := by
  have key := fun names => h.zip (S := Imitates Q u root rank) (fun x y k => k) names
  intro f c o es hm
  cases hm with
  | literal h1 => cases h1
  | rep h1 => cases h1
  | builtinOk h1 h2 h3 h4 h5 => cases xs with
    | nil => cases h; exact ⟨_, .builtinOk h1 h2 h3 h4 h5, hQ.refl _⟩
    | cons => cases h1
  | builtinFail h1 h2 h3 h4 h5 => cases xs with
    | nil => cases h; exact ⟨_, .builtinFail h1 h2 h3 h4 h5, hQ.refl _⟩
    | cons => cases h1
  | pushOk h1 h2 h3 => cases h with | cons k k' => cases k'; obtain ⟨_, k, q⟩ := k _ _ _ _ h3; exact ⟨_, .pushOk h1 h2 k, q⟩
  | pushFail h1 h2 h3 => cases h with | cons k k' => cases k'; obtain ⟨_, k, q⟩ := k _ _ _ _ h3; exact ⟨_, .pushFail h1 h2 k, q⟩
  | call h1 h2 h3 h4 =>
    obtain ⟨_, k, q⟩ := tries_le hQ (fun a b h => h) h4 _ (.expr (.mk (key _)))
    exact ⟨_, .call h1 h2 (h3.trans h.length) k, hQ.rule _ _ _ _ _ _ q⟩

theorem TriesAt.call {p ps : List Name} {xs xs' : List Expr} (h : ArgsBy (TriesAt Q u root rank p ps) xs xs') (q : List Name) : TriesAt Q u root rank p ps (.call q xs) (.call q xs') :=
  ⟨rfl, fun ρ hρ => ⟨.call hQ (h.mono fun _ _ k => (k.2 ρ hρ).1) q, .call hQ (h.flip.mono fun _ _ k => (k.2 ρ hρ).2) q⟩⟩

end

/-! ## Grammars with exchanged expressions -/

section
variable {Q : List Ev → List Ev → Prop} (hQ : Comparison Q) {E : List Name → List Name → Expr → Expr → Prop} {u : Unicode} {root root' : Module} {rank : RuleVal → Label}
  (ha : Alike E [] root root') (hE : ∀ p ps e e', E p ps e e' → TriesAt Q u root' rank p ps e e')
include hQ ha hE

theorem exchange_tries {f : Bool} {it : SItem} {c : Cfg} {o : Option Cfg} {es : List Ev} (h : Tries u root rank f it c o es) :
    ∃ es', Tries u root' rank f it c o es' ∧ Q es es' := by
  have go := fun {it c o} => exchange_meaning (u := u) (it := it) (c := c) (o := o) ha (fun p ps e e' h => (hE p ps e e' h).agrees)
  induction h with
  | literal h1 h2 => exact ⟨_, .literal h1 (go h2), hQ.refl _⟩
  | builtinOk h1 h2 h3 h4 h5 => exact ⟨_, .builtinOk h1 h2 (ha.builtin h3) h4 (go h5), hQ.refl _⟩
  | builtinFail h1 h2 h3 h4 h5 => exact ⟨_, .builtinFail h1 h2 (ha.builtin h3) h4 (go h5), hQ.refl _⟩
  | sliceOk h1 => exact ⟨_, .sliceOk (go h1), hQ.refl _⟩
  | sliceFail h1 h2 => exact ⟨_, .sliceFail h1 (go h2), hQ.refl _⟩
  | pushOk h1 h2 _ ih => obtain ⟨_, k, q⟩ := ih; exact ⟨_, .pushOk h1 (ha.builtin h2) k, q⟩
  | pushFail h1 h2 _ ih => obtain ⟨_, k, q⟩ := ih; exact ⟨_, .pushFail h1 (ha.builtin h2) k, q⟩
  | param h1 _ ih => obtain ⟨_, k, q⟩ := ih; exact ⟨_, .param h1 k, q⟩
  | rule h1 h2 h3 h4 ih =>
    obtain ⟨r', k1, k2⟩ := ha.rule h2
    obtain ⟨_, k, q⟩ := ih
    obtain ⟨_, k', q'⟩ := ((hE _ _ _ _ k2.node).2 [] h3.symm).1 _ _ _ _ k
    refine ⟨_, .rule h1 k1 (k2.args.trans h3) k', ?_⟩
    unfold tried
    rw [k2.name]
    exact hQ.rule _ _ _ _ _ _ (hQ.trans _ _ _ q q')
  | call h1 h2 h3 h4 ih =>
    obtain ⟨r', k1, k2⟩ := ha.rule h2
    obtain ⟨_, k, q⟩ := ih
    obtain ⟨_, k', q'⟩ := ((hE _ _ _ _ k2.node).2 _ (zip_fst (by simpa using h3))).1 _ _ _ _ k
    rw [← k2.args] at k'
    refine ⟨_, .call h1 k1 (by rw [k2.args]; exact h3) k', ?_⟩
    unfold tried
    rw [k2.name]
    exact hQ.rule _ _ _ _ _ _ (hQ.trans _ _ _ q q')
  | posOk _ ih => obtain ⟨_, k, q⟩ := ih; exact ⟨_, .posOk k, q⟩
  | posFail _ ih => obtain ⟨_, k, q⟩ := ih; exact ⟨_, .posFail k, q⟩
  | negOk _ ih => obtain ⟨_, k, q⟩ := ih; exact ⟨_, .negOk k, q⟩
  | negFail _ ih => obtain ⟨_, k, q⟩ := ih; exact ⟨_, .negFail k, q⟩
  | seq _ _ _ ih1 ih2 ih3 =>
    obtain ⟨_, k1, q1⟩ := ih1; obtain ⟨_, k2, q2⟩ := ih2; obtain ⟨_, k3, q3⟩ := ih3
    exact ⟨_, .seq k1 k2 k3, hQ.append _ _ _ _ q1 (hQ.append _ _ _ _ q2 q3)⟩
  | seqFail _ ih => obtain ⟨_, k, q⟩ := ih; exact ⟨_, .seqFail k, q⟩
  | seqTriviaFail _ _ ih1 ih2 => obtain ⟨_, k1, q1⟩ := ih1; obtain ⟨_, k2, q2⟩ := ih2; exact ⟨_, .seqTriviaFail k1 k2, hQ.append _ _ _ _ q1 q2⟩
  | choiceL _ ih => obtain ⟨_, k, q⟩ := ih; exact ⟨_, .choiceL k, q⟩
  | choiceR _ _ ih1 ih2 => obtain ⟨_, k1, q1⟩ := ih1; obtain ⟨_, k2, q2⟩ := ih2; exact ⟨_, .choiceR k1 k2, hQ.append _ _ _ _ q1 q2⟩
  | optSome _ ih => obtain ⟨_, k, q⟩ := ih; exact ⟨_, .optSome k, q⟩
  | optNone _ ih => obtain ⟨_, k, q⟩ := ih; exact ⟨_, .optNone k, q⟩
  | rep h _ ih => obtain ⟨_, k, q⟩ := ih; exact ⟨_, .rep h k, q⟩
  | separated _ ih => obtain ⟨_, k, q⟩ := ih; exact ⟨_, .separated k, q⟩
  | triviaNone => exact ⟨_, .triviaNone, hQ.refl _⟩
  | triviaRule h1 h2 h3 ih =>
    obtain ⟨m', r', k1, k2, k3, k4⟩ := ha.triviaRule h1 h2
    obtain ⟨_, k, q⟩ := ih
    obtain ⟨_, k', q'⟩ := ((hE _ _ _ _ k3.node).2 [] k4.symm).1 _ _ _ _ k
    exact ⟨_, .triviaRule k1 k2 k', hQ.trans _ _ _ q q'⟩
  | unitFirst _ ih => obtain ⟨_, k, q⟩ := ih; exact ⟨_, .unitFirst k, q⟩
  | unitNext _ _ ih1 ih2 => obtain ⟨_, k1, q1⟩ := ih1; obtain ⟨_, k2, q2⟩ := ih2; exact ⟨_, .unitNext k1 k2, hQ.append _ _ _ _ q1 q2⟩
  | unitTriviaFail _ ih => obtain ⟨_, k, q⟩ := ih; exact ⟨_, .unitTriviaFail k, q⟩
  | repsMax h => exact ⟨_, .repsMax h, hQ.refl _⟩
  | repsMore h _ _ ih1 ih2 => obtain ⟨_, k1, q1⟩ := ih1; obtain ⟨_, k2, q2⟩ := ih2; exact ⟨_, .repsMore h k1 k2, hQ.append _ _ _ _ q1 q2⟩
  | repsFew h _ h' ih => obtain ⟨_, k, q⟩ := ih; exact ⟨_, .repsFew h k h', q⟩
  | repsStop h _ h' ih => obtain ⟨_, k, q⟩ := ih; exact ⟨_, .repsStop h k h', q⟩

theorem exchange_full {p : List Name} {r r' : Rule} (hr : RuleAlike E p r r') (hargs : r.args = []) {inp : Str} {b : Bool} {es : List Ev} (h : FullTries u root rank p r inp b es) :
    ∃ es', FullTries u root' rank p r' inp b es' ∧ Q es es' := by
  cases h with
  | fail h =>
    obtain ⟨_, k, q⟩ := exchange_tries hQ ha hE h
    obtain ⟨_, k', q'⟩ := ((hE _ _ _ _ hr.node).2 [] hargs.symm).1 _ _ _ _ k
    refine ⟨_, .fail k', ?_⟩
    unfold tried
    rw [hr.name]
    exact hQ.rule _ _ _ _ _ _ (hQ.trans _ _ _ q q')
  | ok h =>
    obtain ⟨_, k, q⟩ := exchange_tries hQ ha hE h
    obtain ⟨_, k', q'⟩ := ((hE _ _ _ _ hr.node).2 [] hargs.symm).1 _ _ _ _ k
    refine ⟨_, .ok k', hQ.append _ _ _ _ ?_ (hQ.refl _)⟩
    unfold tried
    rw [hr.name]
    exact hQ.rule _ _ _ _ _ _ (hQ.trans _ _ _ q q')

end

/-! ## Expressions of literals -/

theorem Wordless.quiet {e : Expr} (h : Wordless e) {u : Unicode} {root : Module} {rank : RuleVal → Label} {p : List Name} {ρ : List (Name × Clo)} :
    ∀ {f c o es}, Tries u root rank f (.expr (.mk p ρ e)) c o es → es = [] := by
  induction h with
  | literal h => exact fun k => ((t_literal h).mp k).2
  | seq _ _ ih1 ih2 =>
    intro f c o es k
    rcases t_seq.mp k with ⟨k1, -⟩ | ⟨c1, es1, k1, ⟨es2, k2, -, rfl⟩ | ⟨c2, es2, es3, k2, k3, rfl⟩⟩
    · exact ih1 k1
    · rw [ih1 k1, (t_triviaNone.mp k2).2]; rfl
    · rw [ih1 k1, (t_triviaNone.mp k2).2, ih2 k3]; rfl
  | choice _ _ ih1 ih2 =>
    intro f c o es k
    rcases t_choice.mp k with ⟨c1, k1, -⟩ | ⟨es1, es2, k1, k2, rfl⟩
    · exact ih1 k1
    · rw [ih1 k1, ih2 k2]; rfl
  | opt _ ih => intro f c o es k; rcases t_opt.mp k with ⟨_, k, -⟩ | ⟨k, -⟩ <;> exact ih k
  | pos _ ih => intro f c o es k; rcases t_pos.mp k with ⟨_, k, -⟩ | ⟨k, -⟩ <;> exact ih k
  | neg _ ih => intro f c o es k; rcases t_neg.mp k with ⟨_, k, -⟩ | ⟨k, -⟩ <;> exact ih k
  | @rep e e' min max h1 h2 _ ih =>
    intro f c o es k
    rw [t_rep h1, h2] at k
    have unit : ∀ {i f c o es}, Tries u root rank f (.unit (.mk p ρ e') p .none i) c o es → es = [] := by
      intro i f c o es k
      cases i with
      | zero => exact ih (t_unit0.mp k)
      | succ i =>
        rcases t_unitS.mp k with ⟨k1, -⟩ | ⟨c1, es1, es2, k1, k2, rfl⟩
        · exact (t_triviaNone.mp k1).2
        · rw [(t_triviaNone.mp k1).2, ih k2]; rfl
    have reps : ∀ n i f c o es, max ≤ i + n → Tries u root rank f (.reps (.mk p ρ e') p .none min max i) c o es → es = [] := by
      intro n
      induction n with
      | zero =>
        intro i f c o es hn k
        rcases t_reps.mp k with ⟨-, -, rfl⟩ | ⟨k, -⟩
        · rfl
        · omega
      | succ n ihn =>
        intro i f c o es hn k
        rcases t_reps.mp k with ⟨-, -, rfl⟩ | ⟨-, ⟨c1, es1, es2, k1, k2, rfl⟩ | ⟨k1, -⟩⟩
        · rfl
        · rw [unit k1, ihn _ _ _ _ _ (by omega) k2]; rfl
        · exact unit k1
    exact reps max 0 f c o es (by omega) k

theorem reports_twice (es : List Ev) : SameReports (es ++ es) es := by
  refine ⟨by rw [List.any_append, Bool.or_self], fun ups x => ?_⟩
  rw [mem_reportsList_append, or_self]

/-! ## Errors -/

theorem mem_squash_expected {rs : List Report} {pos : Nat} {k : Option Label} {x : Label} :
    x ∈ squash (expectedOf (filed pos k rs)) ↔ (⟨k, pos, .expected x⟩ : Report) ∈ rs := by
  rw [squash_mem, expectedOf, List.mem_filterMap]
  constructor
  · rintro ⟨⟨k', n, w⟩, h1, h2⟩
    simp only [filed, List.mem_filter, Bool.and_eq_true, beq_iff_eq, bne_iff_ne] at h1
    obtain ⟨h1, ⟨rfl, rfl⟩, -⟩ := h1
    cases w <;> simp only [reduceCtorEq, Option.some.injEq] at h2
    exact h2 ▸ h1
  · exact fun h => ⟨⟨k, pos, .expected x⟩, by simp [filed, h], rfl⟩

theorem mem_squash_unexpected {rs : List Report} {pos : Nat} {k : Option Label} {x : Label} :
    x ∈ squash (unexpectedOf (filed pos k rs)) ↔ (⟨k, pos, .unexpected x⟩ : Report) ∈ rs := by
  rw [squash_mem, unexpectedOf, List.mem_filterMap]
  constructor
  · rintro ⟨⟨k', n, w⟩, h1, h2⟩
    simp only [filed, List.mem_filter, Bool.and_eq_true, beq_iff_eq, bne_iff_ne] at h1
    obtain ⟨h1, ⟨rfl, rfl⟩, -⟩ := h1
    cases w <;> simp only [reduceCtorEq, Option.some.injEq] at h2
    exact h2 ▸ h1
  · exact fun h => ⟨⟨k, pos, .unexpected x⟩, by simp [filed, h], rfl⟩

theorem mem_specialsOf {rs : List Report} {pos : Nat} {k : Option Label} {x : SpecialError} :
    x ∈ specialsOf (filed pos k rs) ↔ (⟨k, pos, .special x⟩ : Report) ∈ rs := by
  rw [specialsOf, List.mem_filterMap]
  constructor
  · rintro ⟨⟨k', n, w⟩, h1, h2⟩
    simp only [filed, List.mem_filter, Bool.and_eq_true, beq_iff_eq, bne_iff_ne] at h1
    obtain ⟨h1, ⟨rfl, rfl⟩, -⟩ := h1
    cases w <;> simp only [reduceCtorEq, Option.some.injEq] at h2
    exact h2 ▸ h1
  · exact fun h => ⟨⟨k, pos, .special x⟩, by simp [filed, h], rfl⟩

theorem entry_iff {rs : List Report} {pos : Nat} {k : Option Label} (P : Tracked → Prop) : (∃ v, entryFor pos k rs = some v ∧ P v) ↔
    (∃ r, r ∈ filed pos k rs) ∧ P ⟨squash (expectedOf (filed pos k rs)), squash (unexpectedOf (filed pos k rs)), specialsOf (filed pos k rs)⟩ := by
  unfold entryFor
  by_cases h : filed pos k rs = []
  · simp [h]
  · obtain ⟨r, l, hr⟩ := List.exists_cons_of_ne_nil h
    simp only [if_neg h, Option.some.injEq, exists_eq_left']
    exact ⟨fun hp => ⟨⟨r, by rw [hr]; exact List.mem_cons_self⟩, hp⟩, fun hp => hp.2⟩

theorem filed_mem {rs : List Report} {pos : Nat} {k : Option Label} {r : Report} : r ∈ filed pos k rs ↔ r ∈ rs ∧ r.pos = pos ∧ r.upper = k ∧ r.what ≠ .nothing := by
  simp [filed, and_assoc]

theorem keyLt_asymm {a b : Option Label} (h : keyLt a b = true) (h' : keyLt b a = true) : False := by
  cases a <;> cases b <;> simp only [keyLt, decide_eq_true_eq, reduceCtorEq] at h h'
  exact Nat.lt_asymm h h'

theorem sorted_keys : ∀ {l l' : List (Option Label)}, l.Pairwise (fun a b => keyLt a b = true) → l'.Pairwise (fun a b => keyLt a b = true) → (∀ k, k ∈ l ↔ k ∈ l') → l = l'
  | [], [], _, _, _ => rfl
  | [], b :: _, _, _, h => absurd ((h b).mpr List.mem_cons_self) (by simp)
  | a :: _, [], _, _, h => absurd ((h a).mp List.mem_cons_self) (by simp)
  | a :: l, b :: l', hl, hl', h => by
    rw [List.pairwise_cons] at hl hl'
    have hab : a = b := by
      rcases List.mem_cons.mp ((h a).mp List.mem_cons_self) with h1 | h1
      · exact h1
      · rcases List.mem_cons.mp ((h b).mpr List.mem_cons_self) with h2 | h2
        · exact h2.symm
        · exact (keyLt_asymm (hl.1 b h2) (hl'.1 a h1)).elim
    subst hab
    have irr : keyLt a a ≠ true := fun k => keyLt_asymm k k
    rw [sorted_keys hl.2 hl'.2 fun k => ?_]
    constructor
    · intro hk
      rcases List.mem_cons.mp ((h k).mp (List.mem_cons_of_mem _ hk)) with rfl | h1
      · exact absurd (hl.1 _ hk) irr
      · exact h1
    · intro hk
      rcases List.mem_cons.mp ((h k).mpr (List.mem_cons_of_mem _ hk)) with rfl | h1
      · exact absurd (hl'.1 _ hk) irr
      · exact h1

theorem furthest_congr {rs rs' : List Report} (h : ∀ x, x ∈ rs ↔ x ∈ rs') (s : Nat) : furthest s rs = furthest s rs' := by
  have le : ∀ {rs rs' : List Report}, (∀ x, x ∈ rs ↔ x ∈ rs') → furthest s rs ≤ furthest s rs' := by
    intro rs rs' h
    obtain ⟨h1, h2, h3⟩ := furthest_spec rs s
    obtain ⟨k1, k2, k3⟩ := furthest_spec rs' s
    rcases h3 with h3 | ⟨r, hr, h3⟩
    · omega
    · have := k2 r ((h r).mp hr)
      omega
  exact Nat.le_antisymm (le h) (le fun x => (h x).symm)

theorem named_of {inp : Str} {t0 : Tracker} {es es' : List Ev} (hg : t0.position.input = inp) (ha : t0.attempts = []) (h : SameReports es es') :
    SameNamed (t0.after inp es) (t0.after inp es') := by
  have pos : ∀ es, (t0.after inp es).position = ⟨inp, furthest t0.position.pos (Ev.reportsList t0.ups es)⟩ := by
    intro es
    have hst : (t0.position, t0.attempts) = (⟨inp, t0.position.pos⟩, []) := by
      rw [ha]
      generalize t0.position = p at hg ⊢
      cases p; simp only at hg; rw [hg]
    have hH := Holds.foldl (Ev.reportsList t0.ups es) [] _ (Holds.start inp t0.position.pos)
    rw [← hst, List.nil_append] at hH
    exact hH.1
  have hpos : (t0.after inp es').position = (t0.after inp es).position := by
    rw [pos, pos, furthest_congr (h.2 t0.ups)]
  have L := listed_of (es := es) hg ha
  have L' := listed_of (es := es') hg ha
  have read : ∀ k (P : Tracked → Prop), (∃ v, (k, v) ∈ (t0.after inp es).attempts ∧ P v) ↔ (∃ r, r ∈ filed (t0.after inp es).position.pos k (Ev.reportsList t0.ups es)) ∧
      P ⟨squash (expectedOf (filed (t0.after inp es).position.pos k (Ev.reportsList t0.ups es))),
        squash (unexpectedOf (filed (t0.after inp es).position.pos k (Ev.reportsList t0.ups es))), specialsOf (filed (t0.after inp es).position.pos k (Ev.reportsList t0.ups es))⟩ := by
    intro k P
    simp only [L.order]
    exact entry_iff P
  have read' : ∀ k (P : Tracked → Prop), (∃ v, (k, v) ∈ (t0.after inp es').attempts ∧ P v) ↔ (∃ r, r ∈ filed (t0.after inp es).position.pos k (Ev.reportsList t0.ups es')) ∧
      P ⟨squash (expectedOf (filed (t0.after inp es).position.pos k (Ev.reportsList t0.ups es'))),
        squash (unexpectedOf (filed (t0.after inp es).position.pos k (Ev.reportsList t0.ups es'))), specialsOf (filed (t0.after inp es).position.pos k (Ev.reportsList t0.ups es'))⟩ := by
    intro k P
    simp only [L'.order, hpos]
    exact entry_iff P
  refine ⟨hpos, ?_, fun k x => ?_, fun k x => ?_, fun k x => ?_⟩
  · refine sorted_keys (List.pairwise_map.mpr L'.sorted) (List.pairwise_map.mpr L.sorted) fun k => ?_
    have a := read k fun _ => True
    have b := read' k fun _ => True
    simp only [and_true, filed_mem, h.2] at a b
    have keys : ∀ l : List (Option Label × Tracked), k ∈ l.map Prod.fst ↔ ∃ v, (k, v) ∈ l := by
      intro l
      rw [List.mem_map]
      exact ⟨fun ⟨⟨_, v⟩, h1, h2⟩ => ⟨v, h2 ▸ h1⟩, fun ⟨v, h1⟩ => ⟨_, h1, rfl⟩⟩
    rw [keys, keys]
    exact b.trans a.symm
  · rw [read, read']
    simp only [mem_squash_expected, filed_mem, h.2]
  · rw [read, read']
    simp only [mem_squash_unexpected, filed_mem, h.2]
  · rw [read, read']
    simp only [mem_specialsOf, filed_mem, h.2]

end Pest3.Gen
