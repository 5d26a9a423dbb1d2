import Verif.WorkSpec
import Verif.AnswerLemmas
import Verif.FirstLemmas
import Verif.LeftLemmas
import Verif.ModuleLemmas

/-!
# Lemmas: predictive grammars try rules in proportion to the length of the text
-/

namespace Pest3
theorem Ev.countList_append (a b : List Ev) : Ev.countList (a ++ b) = Ev.countList a + Ev.countList b := by
  induction a with
  | nil => simp [Ev.countList]
  | cons e a ih => simp only [List.cons_append, Ev.countList, ih]; omega
end Pest3

namespace Pest3.Gen
open Pest3

theorem countList_tried (rank : RuleVal → Label) (p : List Name) (r : Rule) (f : Bool) (c : Cfg) (o : Option Cfg) (es : List Ev) :
    Ev.countList (tried rank p r f c o es) = 1 + Ev.countList es := by
  simp [tried, Ev.countList, Ev.count]

/-! ## Sizes -/

theorem Expr.size_pos (e : Expr) : 1 ≤ e.size := by
  cases e <;> simp [Expr.size]

theorem size_arg {a : Expr} : ∀ {args : List Expr}, a ∈ args → a.size ≤ sizeAll args
  | b :: args, h => by
    rcases List.mem_cons.mp h with rfl | h
    · simp [sizeAll]
    · have := size_arg h
      simp only [sizeAll]; omega

theorem Sub.size_le {a b : Expr} (h : Sub a b) : a.size ≤ b.size := by
  induction h with
  | refl => exact Nat.le_refl _
  | arg h1 _ ih => have := size_arg h1; simp only [Expr.size]; omega
  | _ => simp only [Expr.size]; omega

theorem repetition_size {e e' : Expr} {min max : Nat} (h : repetition e = some (e', min, max)) : e.size = e'.size + 1 := by
  cases e <;> simp only [repetition, Option.some.injEq, Prod.mk.injEq, reduceCtorEq] at h <;> (obtain ⟨rfl, -, -⟩ := h; rfl)

/-- There are finitely many modules. -/
theorem modAt_bounded (root : Module) : ∀ f : List Name → Module → Nat, ∃ S, ∀ p m, modAt root p = some m → f p m ≤ S := by
  refine Module.ind (PM := fun root => ∀ f : List Name → Module → Nat, ∃ S, ∀ p m, modAt root p = some m → f p m ≤ S)
    (PL := fun l => ∀ f : List Name → Module → Nat, ∃ S, ∀ x m', (.file x m') ∈ l → ∀ p m, modAt m' p = some m → f (x :: p) m ≤ S) ?_ ?_ ?_ ?_ root
  · intro rules imports ih f
    obtain ⟨S, h⟩ := ih f
    refine ⟨S + f [] (.mk rules imports), ?_⟩
    rintro (_ | ⟨x, p⟩) m hm
    · cases hm; exact Nat.le_add_left _ _
    · simp only [modAt, Module.child] at hm
      cases hf : (Module.mk rules imports).imports.find? (fun i => i.name = x) with
      | none => rw [hf] at hm; cases hm
      | some i =>
        rw [hf] at hm
        cases i with
        | builtin => cases hm
        | file y m' =>
          have h1 := List.mem_of_find?_eq_some hf
          have h2 := List.find?_some hf
          have h3 : y = x := of_decide_eq_true h2
          subst h3
          exact Nat.le_trans (h y m' h1 p m hm) (Nat.le_add_right _ _)
  · intro f
    exact ⟨0, by intro x m' h; cases h⟩
  · intro x p l ih f
    obtain ⟨S, h⟩ := ih f
    exact ⟨S, fun y m' hm => h y m' (by simpa using hm)⟩
  · intro x m' l ih ihl f
    obtain ⟨S, h⟩ := ih fun p => f (x :: p)
    obtain ⟨S', h'⟩ := ihl f
    refine ⟨S + S', ?_⟩
    intro y m'' hm p m hp
    rcases List.mem_cons.mp hm with hm | hm
    · cases hm
      exact Nat.le_trans (h p m hp) (Nat.le_add_right _ _)
    · exact Nat.le_trans (h' y m'' hm p m hp) (Nat.le_add_left _ _)

theorem sum_bound {α : Type} (f : α → Nat) : ∀ {l : List α} {a : α}, a ∈ l → f a ≤ (l.map f).sum
  | b :: l, a, h => by
    rcases List.mem_cons.mp h with rfl | h
    · simp
    · have := sum_bound f h
      simp only [List.map_cons, List.sum_cons]; omega

/-! ## Bounds by rank -/

/-- A rule of rank `k` costs itself and its expression, the rules in which have lower rank. -/
def climb (S b : Nat) : Nat → Nat
  | 0 => b
  | k + 1 => 1 + S * climb S b k

theorem climb_succ {S b : Nat} (hS : 1 ≤ S) (k : Nat) : climb S b k ≤ climb S b (k + 1) := by
  have : 1 * climb S b k ≤ S * climb S b k := Nat.mul_le_mul_right _ hS
  simp only [climb]; omega

theorem climb_mono {S b : Nat} (hS : 1 ≤ S) {k : Nat} : ∀ {j}, k ≤ j → climb S b k ≤ climb S b j := by
  intro j h
  induction h with
  | refl => exact Nat.le_refl _
  | step _ ih => exact Nat.le_trans ih (climb_succ hS _)

theorem climb_base (S : Nat) {b b' : Nat} (h : b ≤ b') : ∀ k, climb S b k ≤ climb S b' k
  | 0 => h
  | k + 1 => by
    have := Nat.mul_le_mul_left S (climb_base S h k)
    simp only [climb]; omega

/-! ## What is tried if the next character is not taken -/

section
variable {u : Unicode} {root : Module} {rank : RuleVal → Label} {fol : List Name → Name → Option Char → Prop} {g : Assumed}

/-- The next character may be taken. -/
def Awake (u : Unicode) (root : Module) (p : List Name) (e : Expr) (s : Text) : Prop := ∃ x, s.head? = some x ∧ Begins u root (.expr (.mk p [] e)) (.takes x)

theorem Meaning.stays {a : Clo} {c c' : Cfg} (h : Meaning u root (.expr a) c (some c')) (hn : ∀ x, c.suf.head? = some x → ¬ Begins u root (.expr a) (.takes x)) :
    c'.suf = c.suf ∧ Begins u root (.expr a) (.skips c.suf.head?) := by
  obtain ⟨m, k1, k2⟩ := h.begins _ rfl
  cases m with
  | nil => exact ⟨k1.symm, k2⟩
  | cons x m => exact absurd k2 (hn x (by rw [k1]; rfl))

theorem trivia_stays {p : List Name} {t : Trivia} {c c' : Cfg} (h : Meaning u root (.trivia p t) c (some c')) (hn : ∀ x, c.suf.head? = some x → ¬ Begins u root (.trivia p t) (.takes x)) :
    c'.suf = c.suf ∧ Begins u root (.trivia p t) (.skips c.suf.head?) := by
  obtain ⟨m, k1, k2⟩ := h.begins _ rfl
  cases m with
  | nil => exact ⟨k1.symm, k2⟩
  | cons x m => exact absurd k2 (hn x (by rw [k1]; rfl))

theorem quiet_trivia {p : List Name} {t : Trivia} (hq : ∀ m f, modAt root p = some m → triviaRule m t = some f → Mute u root p [] f.node) {f : Bool} {c : Cfg} {o : Option Cfg} {es : List Ev}
    (h : Tries u root rank f (.trivia p t) c o es) : es = [] := by
  rcases t_trivia h with ⟨-, -, h⟩ | ⟨m, r, h1, h2, h3⟩
  · exact h
  · exact (hq m r h1 h2).quiet rfl h3

/-- Where the expression is written: in a rule without parameters; what it may try first has a rank below `k`. -/
structure Placed (u : Unicode) (root : Module) (g : Assumed) (p : List Name) (r : Rule) (e : Expr) (k : Nat) : Prop where
  at_ : ∃ m, modAt root p = some m ∧ r ∈ m.rules
  args : r.args = []
  sub : Sub e r.node
  below : ∀ p' x, MayStart u root g p r e (.rule p' x) → g.rank p' x < k

theorem Placed.wf {p : List Name} {r : Rule} {e : Expr} {k : Nat} (h : Placed u root g p r e k) : WfClo u root g (.mk p [] e) r := by
  obtain ⟨m, h1, h2⟩ := h.at_
  exact (WfClo.rule h1 h2 h.args).sub h.sub

theorem Placed.part {p : List Name} {r : Rule} {e e' : Expr} {k : Nat} (h : Placed u root g p r e k) (hs : Sub e' e) (hm : ∀ h, MayStart u root g p r e' h → MayStart u root g p r e h) :
    Placed u root g p r e' k := ⟨h.at_, h.args, hs.trans h.sub, fun p' x hx => h.below p' x (hm _ hx)⟩

theorem Placed.body (hg : NotLeftRecursive u root g) {p q p' : List Name} {r r' : Rule} {k : Nat} (h : Placed u root g p r (.path q) k) (ht : target u root p q = some (.rule p' r')) (ha : r'.args = []) :
    g.rank p' r'.name < k ∧ Placed u root g p' r' r'.node (g.rank p' r'.name) := by
  obtain ⟨m', h1, h2, -⟩ := target_rule ht
  exact ⟨h.below _ _ (.rule ht), ⟨m', h1, findRule_in h2⟩, ha, .refl, fun p'' x hx => hg.rank _ _ _ h1 (findRule_in h2) _ _ hx⟩

/-- The bound for items. -/
def Cheap (u : Unicode) (root : Module) (fol : List Name → Name → Option Char → Prop) (g : Assumed) (S : Nat) (it : SItem) (c : Cfg) (es : List Ev) : Prop :=
  match it with
  | .expr (.mk p ρ e) => ρ = [] → ∀ r F k, Placed u root g p r e k → Predictive u root fol p F e → ¬ Awake u root p e c.suf → Ev.countList es ≤ e.size * climb S 1 k
  | .unit (.mk p ρ e) p' t _ => ρ = [] → p' = p → t = .none → ∀ r F k, Placed u root g p r e k → Predictive u root fol p F e → ¬ Awake u root p e c.suf →
      Ev.countList es ≤ e.size * climb S 1 k
  | .reps (.mk p ρ e) p' t _ _ _ => ρ = [] → p' = p → t = .none → ∀ r F k, Placed u root g p r e k → Predictive u root fol p F e →
      (∀ o, ¬ Begins u root (.expr (.mk p [] e)) (.skips o)) → ¬ Awake u root p e c.suf → Ev.countList es ≤ e.size * climb S 1 k
  | .trivia _ _ => True

theorem Tries.cheap (hg : NotLeftRecursive u root g) (hP : PredictiveGrammar u root fol) {S : Nat} (hS : ∀ p m r, modAt root p = some m → r ∈ m.rules → r.node.size ≤ S)
    {f : Bool} {it : SItem} {c : Cfg} {o : Option Cfg} {es : List Ev} (h : Tries u root rank f it c o es) : Cheap u root fol g S it c es := by
  have mute : ∀ {f p e c o es} (r : Rule) (k : Nat), Mute u root p [] e → Tries u root rank f (.expr (.mk p [] e)) c o es → Ev.countList es ≤ e.size * climb S 1 k := by
    intro f p e c o es r k h1 h2
    rw [h1.quiet rfl h2]
    exact Nat.zero_le _
  have sleeps : ∀ {f p e c c' es}, Tries u root rank f (.expr (.mk p [] e)) c (some c') es → ¬ Awake u root p e c.suf → c'.suf = c.suf ∧ Begins u root (.expr (.mk p [] e)) (.skips c.suf.head?) := by
    intro f p e c c' es h1 h2
    exact h1.meaning.stays fun x hx hb => h2 ⟨x, hx, hb⟩
  induction h with
  | literal h1 h2 => rintro rfl r F k - - -; exact Nat.zero_le _
  | builtinOk h1 h2 h3 h4 h5 => rintro rfl r F k - - -; exact Nat.zero_le _
  | @builtinFail f p ρ e q full l c h1 h2 h3 h4 h5 =>
    rintro rfl r F k - hp -
    cases hp with
    | mute hm => exact mute (f := true) r k hm (.builtinFail h1 h2 h3 h4 h5)
    | rule ht => cases h1; rw [ht] at h3; cases h3
    | rep he => exact absurd he (by cases e <;> first | (simp [repetition]; done) | (simp [plainRef] at h1; done))
    | _ => cases h1
  | sliceOk h1 => rintro rfl r F k - - -; exact Nat.zero_le _
  | sliceFail h1 h2 =>
    rintro rfl r F k - hp -
    cases hp with
    | mute hm => exact mute (f := true) r k hm (.sliceFail h1 h2)
    | rep he => cases he
  | pushOk h1 h2 h3 =>
    rintro rfl r F k - hp -
    cases hp with
    | mute hm => exact mute r k hm (.pushOk h1 h2 h3)
    | rep he => cases he
  | pushFail h1 h2 h3 =>
    rintro rfl r F k - hp -
    cases hp with
    | mute hm => exact mute r k hm (.pushFail h1 h2 h3)
    | rep he => cases he
  | param h1 => rintro rfl; cases h1
  | @rule f p ρ q p' r' c o es h1 h2 h3 h4 ih =>
    rintro rfl r F k hpl hp hs
    obtain ⟨k1, k2⟩ := hpl.body hg h2 h3
    obtain ⟨m', k3, k4⟩ := k2.at_
    have := ih rfl r' _ _ k2 (hP _ _ _ k3 k4 h3) fun ⟨x, hx, hb⟩ => hs ⟨x, hx, .rule h1 h2 hb⟩
    have hs1 := Nat.mul_le_mul_right (climb S 1 (g.rank p' r'.name)) (hS _ _ _ k3 k4)
    have hS1 : 1 ≤ S := Nat.le_trans (Expr.size_pos _) (hS _ _ _ k3 k4)
    have hm := climb_mono (b := 1) hS1 (Nat.succ_le_of_lt k1)
    simp only [climb] at hm
    rw [countList_tried]
    simp only [Expr.size, Nat.one_mul]
    omega
  | call h1 h2 h3 h4 =>
    rintro rfl r F k - hp -
    cases hp with
    | mute hm => exact mute r k hm (.call h1 h2 h3 h4)
    | rep he => cases he
  | posOk h1 =>
    rintro rfl r F k - hp -
    cases hp with
    | mute hm => exact mute (f := true) r k hm (.posOk h1)
    | rep he => cases he
  | posFail h1 =>
    rintro rfl r F k - hp -
    cases hp with
    | mute hm => exact mute (f := true) r k hm (.posFail h1)
    | rep he => cases he
  | negOk h1 =>
    rintro rfl r F k - hp -
    cases hp with
    | mute hm => exact mute (f := true) r k hm (.negOk h1)
    | rep he => cases he
  | negFail h1 =>
    rintro rfl r F k - hp -
    cases hp with
    | mute hm => exact mute (f := true) r k hm (.negFail h1)
    | rep he => cases he
  | @seq f p ρ l r' t c c1 c2 o es es' es'' h1 h2 h3 ih1 ih2 ih3 =>
    rintro rfl r F k hpl hp hs
    cases hp with
    | mute hm => exact mute r k hm (.seq h1 h2 h3)
    | rep he => cases he
    | seq ht hG hl hr =>
      have sl : ¬ Awake u root p l c.suf := fun ⟨x, hx, hb⟩ => hs ⟨x, hx, .seqL hb⟩
      obtain ⟨e1, b1⟩ := sleeps h1 sl
      obtain ⟨e2, b2⟩ := trivia_stays h2.meaning (by
        intro x hx hb
        rw [e1] at hx
        rw [hx] at b1
        exact hs ⟨x, hx, .seqTrivia b1 hb⟩)
      rw [e1] at b2 e2
      have sr : ¬ Awake u root p r' c2.suf := fun ⟨x, hx, hb⟩ => by
        rw [e2] at hx
        rw [hx] at b1 b2
        exact hs ⟨x, hx, .seqR (f := .takes x) b1 b2 hb⟩
      have hpl1 := hpl.part (e' := l) (.seqL .refl) fun _ => .seqL
      have hemp : CanBeEmpty u root g p r l := h1.meaning.empty hg _ rfl (by rw [e1]) r hpl1.wf
      have k1 := ih1 rfl r _ _ hpl1 hl sl
      have k2 := ih3 rfl r _ _ (hpl.part (.seqR .refl) fun _ => .seqR hemp) hr sr
      rw [Ev.countList_append, Ev.countList_append, quiet_trivia ht h2]
      simp only [Ev.countList, Expr.size, Nat.add_mul]
      omega
  | @seqFail f p ρ l r' t c es h1 ih1 =>
    rintro rfl r F k hpl hp hs
    cases hp with
    | mute hm => exact mute r k hm (.seqFail h1)
    | rep he => cases he
    | seq ht hG hl hr =>
      have k1 := ih1 rfl r _ _ (hpl.part (e' := l) (.seqL .refl) fun _ => .seqL) hl fun ⟨x, hx, hb⟩ => hs ⟨x, hx, .seqL hb⟩
      simp only [Expr.size, Nat.add_mul]
      omega
  | @seqTriviaFail f p ρ l r' t c c1 es es' h1 h2 ih1 ih2 =>
    rintro rfl r F k hpl hp hs
    cases hp with
    | mute hm => exact mute r k hm (.seqTriviaFail h1 h2)
    | rep he => cases he
    | seq ht hG hl hr =>
      have k1 := ih1 rfl r _ _ (hpl.part (e' := l) (.seqL .refl) fun _ => .seqL) hl fun ⟨x, hx, hb⟩ => hs ⟨x, hx, .seqL hb⟩
      rw [Ev.countList_append, quiet_trivia ht h2]
      simp only [Ev.countList, Expr.size, Nat.add_mul]
      omega
  | choiceL h1 ih1 =>
    rintro rfl r F k hpl hp hs
    cases hp with
    | mute hm => exact mute r k hm (.choiceL h1)
    | rep he => cases he
    | choice _ hl hr =>
      have k1 := ih1 rfl r _ _ (hpl.part (.choiceL .refl) fun _ => .choiceL) hl fun ⟨x, hx, hb⟩ => hs ⟨x, hx, .choiceL hb⟩
      simp only [Expr.size, Nat.add_mul]
      omega
  | choiceR h1 h2 ih1 ih2 =>
    rintro rfl r F k hpl hp hs
    cases hp with
    | mute hm => exact mute r k hm (.choiceR h1 h2)
    | rep he => cases he
    | choice _ hl hr =>
      have k1 := ih1 rfl r _ _ (hpl.part (.choiceL .refl) fun _ => .choiceL) hl fun ⟨x, hx, hb⟩ => hs ⟨x, hx, .choiceL hb⟩
      have k2 := ih2 rfl r _ _ (hpl.part (.choiceR .refl) fun _ => .choiceR) hr fun ⟨x, hx, hb⟩ => hs ⟨x, hx, .choiceR hb⟩
      rw [Ev.countList_append]
      simp only [Expr.size, Nat.add_mul]
      omega
  | optSome h1 ih1 =>
    rintro rfl r F k hpl hp hs
    cases hp with
    | mute hm => exact mute r k hm (.optSome h1)
    | rep he => cases he
    | opt _ hl =>
      have k1 := ih1 rfl r _ _ (hpl.part (.opt .refl) fun _ => .opt) hl fun ⟨x, hx, hb⟩ => hs ⟨x, hx, .opt hb⟩
      simp only [Expr.size, Nat.add_mul]
      omega
  | optNone h1 ih1 =>
    rintro rfl r F k hpl hp hs
    cases hp with
    | mute hm => exact mute r k hm (.optNone h1)
    | rep he => cases he
    | opt _ hl =>
      have k1 := ih1 rfl r _ _ (hpl.part (.opt .refl) fun _ => .opt) hl fun ⟨x, hx, hb⟩ => hs ⟨x, hx, .opt hb⟩
      simp only [Expr.size, Nat.add_mul]
      omega
  | @rep f p ρ e e' min max c o es h1 h2 ih =>
    rintro rfl r F k hpl hp hs
    cases hp with
    | mute hm => exact mute r k hm (.rep h1 h2)
    | rep he ht hn hF hl =>
      rw [h1] at he
      cases he
      by_cases hmax : max = 0
      · subst hmax
        rcases t_reps.mp h2 with ⟨-, -, rfl⟩ | ⟨h, -⟩
        · exact Nat.zero_le _
        · exact absurd h (by simp)
      · have k1 := ih rfl rfl ht r _ _ (hpl.part (repetition_sub h1) fun _ => .rep h1) hl hn fun ⟨x, hx, hb⟩ => hs ⟨x, hx, .rep h1 hmax hb⟩
        rw [repetition_size h1, Nat.add_mul]
        omega
    | _ => cases h1
  | separated h1 ih1 =>
    rintro rfl r F k hpl hp hs
    cases hp with
    | mute hm => exact mute r k hm (.separated h1)
    | rep he => cases he
    | separated hl =>
      have k1 := ih1 rfl r _ _ (hpl.part (.separated .refl) fun _ => .separated) hl fun ⟨x, hx, hb⟩ => hs ⟨x, hx, .separated hb⟩
      simp only [Expr.size, Nat.add_mul]
      omega
  | triviaNone => trivial
  | triviaRule => trivial
  | @unitFirst f e p t c o es h1 ih =>
    cases e with | mk p' ρ e =>
    rintro rfl rfl rfl r F k hpl hp hs
    exact ih rfl r F k hpl hp hs
  | @unitNext f e p t i c c' o es es' h1 h2 ih1 ih2 =>
    cases e with | mk p' ρ e =>
    rintro rfl rfl rfl r F k hpl hp hs
    obtain ⟨h, rfl⟩ := t_triviaNone.mp h1
    cases h
    exact ih2 rfl r F k hpl hp hs
  | @unitTriviaFail f e p t i c es h1 =>
    cases e with | mk p' ρ e =>
    rintro rfl rfl rfl r F k hpl hp hs
    cases (t_triviaNone.mp h1).1
  | @repsMax f e p t min max i c =>
    cases e with | mk p' ρ e =>
    rintro rfl rfl rfl r F k hpl hp hn hs
    exact Nat.zero_le _
  | @repsMore f e p t min max i c c' o es es' h0 h1 h2 ih1 ih2 =>
    cases e with | mk p' ρ e =>
    rintro rfl rfl rfl r F k hpl hp hn hs
    have : Tries u root rank f (.expr (.mk p [] e)) c (some c') es := by
      cases i with
      | zero => exact t_unit0.mp h1
      | succ i =>
        rcases t_unitS.mp h1 with ⟨k1, -⟩ | ⟨c1, es1, es2, k1, k2, k3⟩
        · cases (t_triviaNone.mp k1).1
        · obtain ⟨k4, k5⟩ := t_triviaNone.mp k1
          cases k4
          subst k5 k3
          exact k2
    exact absurd (sleeps this hs).2 (hn _)
  | @repsFew f e p t min max i c es h0 h1 h2 ih1 =>
    cases e with | mk p' ρ e =>
    rintro rfl rfl rfl r F k hpl hp hn hs
    exact ih1 rfl rfl rfl r F k hpl hp hs
  | @repsStop f e p t min max i c es h0 h1 h2 ih1 =>
    cases e with | mk p' ρ e =>
    rintro rfl rfl rfl r F k hpl hp hn hs
    exact ih1 rfl rfl rfl r F k hpl hp hs

/-! ## The bound for all texts -/

/-- `w` rules were tried in front of `s` with the result `o`.  If nothing is left to be matched, `w` is at most `K`; if something has been taken, each character pays `2 * A`; otherwise, what
comes next cannot follow. -/
def Costs (A K B : Nat) (F : Option Char → Prop) (s : Text) (w : Nat) : Option Text → Prop
  | none => w ≤ 2 * A * s.length + B
  | some s' => (s'.length = s.length ∧ w ≤ K) ∨ (∃ m, s.length = s'.length + m ∧ 1 ≤ m ∧ w + A ≤ 2 * A * m + B) ∨ (s'.length ≤ s.length ∧ ¬ F s'.head? ∧ w ≤ 2 * A * s.length + B)

theorem Costs.mono {A K B K' B' : Nat} {F F' : Option Char → Prop} {s : Text} {w : Nat} {o : Option Text} (h : Costs A K B F s w o) (hK : K ≤ K') (hB : B ≤ B') (hF : ∀ o, F' o → F o) :
    Costs A K' B' F' s w o := by
  cases o with
  | none => simp only [Costs] at h ⊢; omega
  | some s' =>
    simp only [Costs] at h ⊢
    rcases h with h | ⟨m, h1, h2, h3⟩ | ⟨h1, h2, h3⟩
    · exact .inl ⟨h.1, by omega⟩
    · exact .inr (.inl ⟨m, h1, h2, by omega⟩)
    · exact .inr (.inr ⟨h1, fun h => h2 (hF _ h), by omega⟩)

/-- Trying more. -/
theorem Costs.more {A K B : Nat} {F : Option Char → Prop} {s : Text} {w v : Nat} {o : Option Text} (h : Costs A K B F s w o) : Costs A (v + K) (v + B) F s (v + w) o := by
  cases o with
  | none => simp only [Costs] at h ⊢; omega
  | some s' =>
    simp only [Costs] at h ⊢
    rcases h with h | ⟨m, h1, h2, h3⟩ | ⟨h1, h2, h3⟩
    · exact .inl ⟨h.1, by omega⟩
    · exact .inr (.inl ⟨m, h1, h2, by omega⟩)
    · exact .inr (.inr ⟨h1, h2, by omega⟩)

theorem mul_le_of {A a b : Nat} (h : a ≤ b) : 2 * A * a ≤ 2 * A * b := Nat.mul_le_mul_left _ h

/-- The first part has failed, or what is in between. -/
theorem Costs.stop {A K B : Nat} {G F : Option Char → Prop} {s : Text} {w : Nat} {o : Option Text} (h : Costs A K B G s w o) (hKB : K ≤ B) : Costs A K B F s w none := by
  cases o with
  | none => exact h
  | some s' =>
    simp only [Costs] at h ⊢
    rcases h with h | ⟨m, h1, h2, h3⟩ | ⟨h1, h2, h3⟩
    · omega
    · have := mul_le_of (A := A) (a := m) (b := s.length) (by omega)
      omega
    · exact h3

/-- One after the other. -/
theorem Costs.seq {A Kl Bl Kr Br Km : Nat} {G F : Option Char → Prop} {s s1 s2 : Text} {o : Option Text} {w1 w2 : Nat} (hl : Costs A Kl Bl G s w1 (some s1)) (h12 : s2.length ≤ s1.length)
    (hr : s2.length = s.length → Costs A Kr Br F s2 w2 o) (hR : Costs A Km A F s2 w2 o)
    (hsp : ¬ G s1.head? → s2 = s1 ∧ w2 ≤ Km ∧ ∀ s3, o = some s3 → s3 = s1 ∧ ¬ F s1.head?) (hKB : Kl ≤ Bl) (hKm : Km ≤ Br) (hA : Km ≤ A) :
    Costs A (Kl + Kr) (Bl + Br) F s (w1 + w2) o := by
  simp only [Costs] at hl
  rcases hl with ⟨e1, e2⟩ | ⟨m1, e1, e2, e3⟩ | ⟨e1, e2, e3⟩
  · by_cases h2 : s2.length = s.length
    · have := hr h2
      cases o with
      | none =>
        simp only [Costs] at this ⊢
        rw [h2] at this
        omega
      | some s3 =>
        simp only [Costs] at this ⊢
        rw [h2] at this
        rcases this with h | ⟨m, h1, h2, h3⟩ | ⟨h1, h2, h3⟩
        · exact .inl ⟨h.1, by omega⟩
        · exact .inr (.inl ⟨m, h1, h2, by omega⟩)
        · exact .inr (.inr ⟨h1, h2, by omega⟩)
    · have ht : s2.length + 1 ≤ s.length := by omega
      have hmul := mul_le_of (A := A) ht
      rw [Nat.mul_add] at hmul
      cases o with
      | none =>
        simp only [Costs] at hR ⊢
        omega
      | some s3 =>
        simp only [Costs] at hR ⊢
        rcases hR with h | ⟨m, h1, h2, h3⟩ | ⟨h1, h2, h3⟩
        · refine .inr (.inl ⟨s.length - s3.length, by omega, by omega, ?_⟩)
          have := mul_le_of (A := A) (a := 1) (b := s.length - s3.length) (by omega)
          omega
        · refine .inr (.inl ⟨s.length - s3.length, by omega, by omega, ?_⟩)
          have := mul_le_of (A := A) (a := m + 1) (b := s.length - s3.length) (by omega)
          rw [Nat.mul_add] at this
          omega
        · exact .inr (.inr ⟨by omega, h2, by omega⟩)
  · have hmul := mul_le_of (A := A) (a := m1 + s2.length) (b := s.length) (by omega)
    rw [Nat.mul_add] at hmul
    cases o with
    | none =>
      simp only [Costs] at hR ⊢
      omega
    | some s3 =>
      simp only [Costs] at hR ⊢
      rcases hR with h | ⟨m, h1, h2, h3⟩ | ⟨h1, h2, h3⟩
      · refine .inr (.inl ⟨s.length - s3.length, by omega, by omega, ?_⟩)
        have := mul_le_of (A := A) (a := m1) (b := s.length - s3.length) (by omega)
        omega
      · refine .inr (.inl ⟨s.length - s3.length, by omega, by omega, ?_⟩)
        have := mul_le_of (A := A) (a := m1 + m) (b := s.length - s3.length) (by omega)
        rw [Nat.mul_add] at this
        omega
      · exact .inr (.inr ⟨by omega, h2, by omega⟩)
  · obtain ⟨rfl, k2, k3⟩ := hsp e2
    cases o with
    | none => simp only [Costs]; omega
    | some s3 =>
      obtain ⟨rfl, k4⟩ := k3 s3 rfl
      exact .inr (.inr ⟨e1, k4, by omega⟩)

/-- The constants for a grammar: the size of the rules, and a bound of the ranks. -/
structure Bounds (root : Module) (g : Assumed) where
  S : Nat
  R : Nat
  size : ∀ p m r, modAt root p = some m → r ∈ m.rules → r.node.size ≤ S
  rank : ∀ p m x, modAt root p = some m → (x = optName ∨ x = manName ∨ ∃ r ∈ m.rules, r.name = x) → g.rank p x < R

theorem Bounds.exist (root : Module) (g : Assumed) : Nonempty (Bounds root g) := by
  obtain ⟨S, hS⟩ := modAt_bounded root fun _ m => (m.rules.map fun r => r.node.size).sum
  obtain ⟨R, hR⟩ := modAt_bounded root fun p m => g.rank p optName + g.rank p manName + (m.rules.map fun r => g.rank p r.name).sum
  refine ⟨⟨S, R + 1, fun p m r h1 h2 => Nat.le_trans (sum_bound (fun r => r.node.size) h2) (hS p m h1), fun p m x h1 h2 => ?_⟩⟩
  have := hR p m h1
  rcases h2 with rfl | rfl | ⟨r, h2, rfl⟩
  · omega
  · omega
  · have : g.rank p r.name ≤ _ := sum_bound (fun r => g.rank p r.name) h2
    omega

variable (b : Bounds root g)

/-- The bound where nothing is taken. -/
def Bounds.K : Nat → Nat := climb b.S 1
def Bounds.Km : Nat := b.S * b.K b.R
/-- The bound at the beginning. -/
def Bounds.B : Nat → Nat := climb b.S (b.Km + 1)
def Bounds.A : Nat := b.S * b.B b.R

theorem MayStart.named {p : List Name} {r : Rule} {e : Expr} {h : Head} (hs : MayStart u root g p r e h) {m : Module} (hm : modAt root p = some m) {p' : List Name} {x : Name} (hh : h = .rule p' x) :
    ∃ m', modAt root p' = some m' ∧ (x = optName ∨ x = manName ∨ ∃ r ∈ m'.rules, r.name = x) := by
  have trv : ∀ {t : Trivia} {y}, triviaName t = some y → y = optName ∨ y = manName ∨ ∃ r ∈ m.rules, r.name = y := by
    intro t y h
    cases t <;> cases h
    · exact .inl rfl
    · exact .inr (.inl rfl)
  have tgt : ∀ {q p' r'}, target u root p q = some (.rule p' r') → ∃ m', modAt root p' = some m' ∧ (r'.name = optName ∨ r'.name = manName ∨ ∃ r ∈ m'.rules, r.name = r'.name) := by
    intro q p' r' h
    obtain ⟨m', h1, h2, -⟩ := target_rule h
    exact ⟨m', h1, .inr (.inr ⟨_, findRule_in h2, rfl⟩)⟩
  induction hs with
  | param => cases hh
  | rule h1 => cases hh; exact tgt h1
  | call h1 => cases hh; exact tgt h1
  | seqTrivia _ h1 => cases hh; exact ⟨m, hm, trv h1⟩
  | repTrivia _ _ h1 => cases hh; exact ⟨m, hm, trv h1⟩
  | arg _ _ _ _ ih => exact ih hh
  | push _ _ ih => exact ih hh
  | pos _ ih => exact ih hh
  | neg _ ih => exact ih hh
  | opt _ ih => exact ih hh
  | seqL _ ih => exact ih hh
  | seqR _ _ ih => exact ih hh
  | choiceL _ ih => exact ih hh
  | choiceR _ ih => exact ih hh
  | rep _ _ ih => exact ih hh
  | separated _ ih => exact ih hh

theorem Placed.top {p : List Name} {r : Rule} {e e' : Expr} {k : Nat} (h : Placed u root g p r e k) (hs : Sub e' e) : Placed u root g p r e' b.R := by
  obtain ⟨m, h1, h2⟩ := h.at_
  refine ⟨h.at_, h.args, hs.trans h.sub, fun p' x hx => ?_⟩
  obtain ⟨m', k1, k2⟩ := hx.named h1 rfl
  exact b.rank _ _ _ k1 k2

theorem Placed.size {p : List Name} {r : Rule} {e : Expr} {k : Nat} (h : Placed u root g p r e k) : e.size ≤ b.S := by
  obtain ⟨m, h1, h2⟩ := h.at_
  exact Nat.le_trans h.sub.size_le (b.size _ _ _ h1 h2)

theorem Placed.one {p : List Name} {r : Rule} {e : Expr} {k : Nat} (h : Placed u root g p r e k) : 1 ≤ b.S := Nat.le_trans (Expr.size_pos e) (h.size b)

theorem Bounds.K_le_B (k : Nat) : b.K k ≤ b.B k := climb_base _ (Nat.le_add_left _ _) k

theorem Bounds.Km_le_B (hS : 1 ≤ b.S) (k : Nat) : b.Km ≤ b.B k :=
  Nat.le_trans (Nat.le_add_right _ 1) (climb_mono (b := b.Km + 1) hS (Nat.zero_le k))

theorem Bounds.Km_le_A (hS : 1 ≤ b.S) : b.Km ≤ b.A := by
  have := Nat.mul_le_mul hS (b.Km_le_B hS b.R)
  simpa [Bounds.A] using this

/-- What is to be shown of items. -/
def Bounded (u : Unicode) (root : Module) (fol : List Name → Name → Option Char → Prop) (g : Assumed) (b : Bounds root g) (it : SItem) (c : Cfg) (o : Option Cfg) (es : List Ev) : Prop :=
  match it with
  | .expr (.mk p ρ e) => ρ = [] → ∀ r F k, Placed u root g p r e k → Predictive u root fol p F e →
      Costs b.A (e.size * b.K k) (e.size * b.B k) F c.suf (Ev.countList es) (o.map Cfg.suf)
  | .unit (.mk p ρ e) p' t _ => ρ = [] → p' = p → t = .none → ∀ r F k, Placed u root g p r e k → Predictive u root fol p F e →
      Costs b.A (e.size * b.K k) (e.size * b.B k) F c.suf (Ev.countList es) (o.map Cfg.suf)
  | .reps (.mk p ρ e) p' t _ _ _ => ρ = [] → p' = p → t = .none → ∀ r F k, Placed u root g p r e k → e.size + 1 ≤ b.S →
      (∀ o, ¬ Begins u root (.expr (.mk p [] e)) (.skips o)) → (∀ x, Begins u root (.expr (.mk p [] e)) (.takes x) → ¬ F (some x)) →
      Predictive u root fol p (fun o => F o ∨ ∃ x, o = some x ∧ Begins u root (.expr (.mk p [] e)) (.takes x)) e →
      Costs b.A ((e.size + 1) * b.K k) ((e.size + 1) * b.B k) F c.suf (Ev.countList es) (o.map Cfg.suf)
  | .trivia _ _ => True

/-- Nothing is tried. -/
theorem Costs.zero {A K B : Nat} {F : Option Char → Prop} {s : Text} {o : Option Text} (h : ∀ s', o = some s' → s'.length ≤ s.length) : Costs A K B F s 0 o := by
  cases o with
  | none => exact Nat.zero_le _
  | some s' =>
    have := h s' rfl
    by_cases he : s'.length = s.length
    · exact .inl ⟨he, Nat.zero_le _⟩
    · refine .inr (.inl ⟨s.length - s'.length, by omega, by omega, ?_⟩)
      have := mul_le_of (A := A) (a := 1) (b := s.length - s'.length) (by omega)
      omega

theorem unit_expr {p : List Name} {e : Expr} {i : Nat} {f : Bool} {c : Cfg} {o : Option Cfg} {es : List Ev} (h : Tries u root rank f (.unit (.mk p [] e) p .none i) c o es) :
    Tries u root rank f (.expr (.mk p [] e)) c o es := by
  cases i with
  | zero => exact t_unit0.mp h
  | succ i =>
    rcases t_unitS.mp h with ⟨k1, -⟩ | ⟨c1, es1, es2, k1, k2, k3⟩
    · cases (t_triviaNone.mp k1).1
    · obtain ⟨k4, k5⟩ := t_triviaNone.mp k1
      cases k4
      subst k5 k3
      exact k2

theorem Tries.bounded (hg : NotLeftRecursive u root g) (hP : PredictiveGrammar u root fol) {f : Bool} {it : SItem} {c : Cfg} {o : Option Cfg} {es : List Ev} (h : Tries u root rank f it c o es) :
    Bounded u root fol g b it c o es := by
  have shorter : ∀ {f it c o es}, Tries u root rank f it c o es → ∀ s', o.map Cfg.suf = some s' → s'.length ≤ c.suf.length := by
    intro f it c o es h s' hs
    cases o with
    | none => cases hs
    | some c' => cases hs; exact h.meaning.suf_le _ rfl
  have mute : ∀ {f p e c o es} {F : Option Char → Prop} (r : Rule) (k : Nat), Mute u root p [] e → Tries u root rank f (.expr (.mk p [] e)) c o es →
      Costs b.A (e.size * b.K k) (e.size * b.B k) F c.suf (Ev.countList es) (o.map Cfg.suf) := by
    intro f p e c o es F r k h1 h2
    rw [h1.quiet rfl h2]
    exact .zero (shorter h2)
  have cheap : ∀ {f p e c o es} {r : Rule} {F : Option Char → Prop} {k : Nat}, Tries u root rank f (.expr (.mk p [] e)) c o es → Placed u root g p r e k → Predictive u root fol p F e →
      ¬ Awake u root p e c.suf → Ev.countList es ≤ e.size * b.K k :=
    fun h h1 h2 h3 => h.cheap hg hP b.size rfl _ _ _ h1 h2 h3
  have sleeps : ∀ {f p e c c' es}, Tries u root rank f (.expr (.mk p [] e)) c (some c') es → ¬ Awake u root p e c.suf → c'.suf = c.suf ∧ Begins u root (.expr (.mk p [] e)) (.skips c.suf.head?) := by
    intro f p e c c' es h1 h2
    exact h1.meaning.stays fun x hx hb => h2 ⟨x, hx, hb⟩
  have toTop : ∀ {n k : Nat}, n ≤ b.S → n * b.K b.R ≤ b.Km ∧ n * b.B b.R ≤ b.A := fun hn => ⟨Nat.mul_le_mul_right _ hn, Nat.mul_le_mul_right _ hn⟩
  have KB : ∀ (n k : Nat), n * b.K k ≤ n * b.B k := fun n k => Nat.mul_le_mul_left _ (b.K_le_B k)
  induction h with
  | literal h1 h2 => rintro rfl r F k hpl hp; exact mute r k (.literal h1) (f := true) (.literal h1 h2)
  | @builtinOk f p ρ e q full l c c' h1 h2 h3 h4 h5 =>
    rintro rfl r F k hpl hp
    exact .zero (shorter (f := true) (.builtinOk h1 h2 h3 h4 h5))
  | @builtinFail f p ρ e q full l c h1 h2 h3 h4 h5 =>
    rintro rfl r F k hpl hp
    cases hp with
    | mute hm => exact mute (f := true) r k hm (.builtinFail h1 h2 h3 h4 h5)
    | rule ht => cases h1; rw [ht] at h3; cases h3
    | rep he => exact absurd he (by cases e <;> first | (simp [repetition]; done) | (simp [plainRef] at h1; done))
    | _ => cases h1
  | sliceOk h1 => rintro rfl r F k hpl hp; exact .zero (shorter (f := true) (.sliceOk h1))
  | sliceFail h1 h2 =>
    rintro rfl r F k hpl hp
    cases hp with
    | mute hm => exact mute (f := true) r k hm (.sliceFail h1 h2)
    | rep he => cases he
  | pushOk h1 h2 h3 =>
    rintro rfl r F k hpl hp
    cases hp with
    | mute hm => exact mute r k hm (.pushOk h1 h2 h3)
    | rep he => cases he
  | pushFail h1 h2 h3 =>
    rintro rfl r F k hpl hp
    cases hp with
    | mute hm => exact mute r k hm (.pushFail h1 h2 h3)
    | rep he => cases he
  | param h1 => rintro rfl; cases h1
  | @rule f p ρ q p' r' c o es h1 h2 h3 h4 ih =>
    rintro rfl r F k hpl hp
    cases hp with
    | mute hm => exact mute r k hm (.rule h1 h2 h3 h4)
    | rep he => cases he
    | rule ht ha hF =>
      rw [h2] at ht
      cases ht
      obtain ⟨k1, k2⟩ := hpl.body hg h2 h3
      obtain ⟨m', k3, k4⟩ := k2.at_
      have := ih rfl r' _ _ k2 (hP _ _ _ k3 k4 h3)
      have hs1 : r'.node.size * b.K (g.rank p' r'.name) ≤ _ := Nat.mul_le_mul_right _ (b.size _ _ _ k3 k4)
      have hs2 : r'.node.size * b.B (g.rank p' r'.name) ≤ _ := Nat.mul_le_mul_right _ (b.size _ _ _ k3 k4)
      have hm1 : _ ≤ b.K k := climb_mono (b := 1) (k2.one b) (Nat.succ_le_of_lt k1)
      have hm2 : _ ≤ b.B k := climb_mono (b := b.Km + 1) (k2.one b) (Nat.succ_le_of_lt k1)
      simp only [climb] at hm1 hm2
      rw [countList_tried]
      refine (Costs.more (v := 1) this).mono ?_ ?_ hF
      · simp only [Expr.size, Nat.one_mul]
        exact Nat.le_trans (Nat.add_le_add_left hs1 1) hm1
      · simp only [Expr.size, Nat.one_mul]
        exact Nat.le_trans (Nat.add_le_add_left hs2 1) hm2
  | call h1 h2 h3 h4 =>
    rintro rfl r F k hpl hp
    cases hp with
    | mute hm => exact mute r k hm (.call h1 h2 h3 h4)
    | rep he => cases he
  | posOk h1 =>
    rintro rfl r F k hpl hp
    cases hp with
    | mute hm => exact mute (f := true) r k hm (.posOk h1)
    | rep he => cases he
  | posFail h1 =>
    rintro rfl r F k hpl hp
    cases hp with
    | mute hm => exact mute (f := true) r k hm (.posFail h1)
    | rep he => cases he
  | negOk h1 =>
    rintro rfl r F k hpl hp
    cases hp with
    | mute hm => exact mute (f := true) r k hm (.negOk h1)
    | rep he => cases he
  | negFail h1 =>
    rintro rfl r F k hpl hp
    cases hp with
    | mute hm => exact mute (f := true) r k hm (.negFail h1)
    | rep he => cases he
  | @seq f p ρ l r' t c c1 c2 o es es' es'' h1 h2 h3 ih1 ih2 ih3 =>
    rintro rfl r F k hpl hp
    cases hp with
    | mute hm => exact mute r k hm (.seq h1 h2 h3)
    | rep he => cases he
    | @seq _ G _ _ _ ht hG hl hr =>
      have hpl1 := hpl.part (e' := l) (.seqL .refl) fun _ => .seqL
      have hplR := hpl.top b (e' := r') (.seqR .refl)
      obtain ⟨t1, t2⟩ := toTop (k := k) (hplR.size b)
      have k1 := ih1 rfl r _ _ hpl1 hl
      have hone := hpl.one b
      rw [Ev.countList_append, Ev.countList_append, quiet_trivia ht h2]
      simp only [Ev.countList, Expr.size, Nat.zero_add]
      refine Costs.mono (Costs.seq (Kr := r'.size * b.K k) (Br := r'.size * b.B k) (s1 := c1.suf) (s2 := c2.suf) k1 (h2.meaning.suf_le _ rfl) (fun hlen => ?_) ((ih3 rfl r _ _ hplR hr).mono t1 t2 fun _ h => h) ?_ (KB _ _)
        (Nat.le_trans (b.Km_le_B hone k) (Nat.le_mul_of_pos_left _ (Expr.size_pos r'))) (b.Km_le_A hone)) (by rw [Nat.add_mul, Nat.add_mul]; omega) (by rw [Nat.add_mul, Nat.add_mul]; omega) fun _ h => h
      · have a1 := h1.meaning.suf_le _ rfl
        have a2 := h2.meaning.suf_le _ rfl
        have hemp : CanBeEmpty u root g p r l := h1.meaning.empty hg _ rfl (by omega) r hpl1.wf
        exact ih3 rfl r _ _ (hpl.part (.seqR .refl) fun _ => .seqR hemp) hr
      · intro hn
        obtain ⟨e2, b2⟩ := trivia_stays h2.meaning (fun x hx hb => hn (hx ▸ hG _ (.trivia hb)))
        have sr : ¬ Awake u root p r' c2.suf := fun ⟨x, hx, hb⟩ => by
          rw [e2] at hx
          rw [hx] at b2
          exact hn (hx ▸ hG _ (.next b2 (.takes hb)))
        refine ⟨e2, Nat.le_trans (cheap h3 hplR hr sr) t1, ?_⟩
        intro s3 hs3
        cases o with
        | none => cases hs3
        | some c3 =>
          cases hs3
          obtain ⟨e3, b3⟩ := sleeps h3 sr
          rw [e2] at e3 b3
          exact ⟨e3, fun hF => hn (hG _ (.next b2 (.skips b3 hF)))⟩
  | @seqFail f p ρ l r' t c es h1 ih1 =>
    rintro rfl r F k hpl hp
    cases hp with
    | mute hm => exact mute r k hm (.seqFail h1)
    | rep he => cases he
    | seq ht hG hl hr =>
      have k1 := ih1 rfl r _ _ (hpl.part (e' := l) (.seqL .refl) fun _ => .seqL) hl
      refine (k1.stop (F := F) (KB _ _)).mono ?_ ?_ fun _ h => h <;> simp only [Expr.size, Nat.add_mul] <;> omega
  | @seqTriviaFail f p ρ l r' t c c1 es es' h1 h2 ih1 ih2 =>
    rintro rfl r F k hpl hp
    cases hp with
    | mute hm => exact mute r k hm (.seqTriviaFail h1 h2)
    | rep he => cases he
    | seq ht hG hl hr =>
      have k1 := ih1 rfl r _ _ (hpl.part (e' := l) (.seqL .refl) fun _ => .seqL) hl
      rw [Ev.countList_append, quiet_trivia ht h2]
      simp only [Ev.countList, Nat.add_zero]
      refine (k1.stop (F := F) (KB _ _)).mono ?_ ?_ fun _ h => h <;> simp only [Expr.size, Nat.add_mul] <;> omega
  | @choiceL f p ρ l r' c c' es h1 ih1 =>
    rintro rfl r F k hpl hp
    cases hp with
    | mute hm => exact mute r k hm (.choiceL h1)
    | rep he => cases he
    | choice _ hl hr =>
      refine (ih1 rfl r _ _ (hpl.part (.choiceL .refl) fun _ => .choiceL) hl).mono ?_ ?_ fun _ h => h <;> simp only [Expr.size, Nat.add_mul] <;> omega
  | @choiceR f p ρ l r' c o es es' h1 h2 ih1 ih2 =>
    rintro rfl r F k hpl hp
    cases hp with
    | mute hm => exact mute r k hm (.choiceR h1 h2)
    | rep he => cases he
    | choice ha hl hr =>
      have hpl1 := hpl.part (e' := l) (.choiceL .refl) fun _ => .choiceL
      have hpl2 := hpl.part (e' := r') (.choiceR .refl) fun _ => .choiceR
      rw [Ev.countList_append]
      by_cases haw : Awake u root p l c.suf
      · have k1 := ih1 rfl r _ _ hpl1 hl
        obtain ⟨x, hx, hb⟩ := haw
        have sr : ¬ Awake u root p r' c.suf := fun ⟨y, hy, hb'⟩ => by
          rw [hx] at hy
          cases hy
          exact ha _ ⟨.takes hb, .takes hb'⟩
        have k2 := cheap h2 hpl2 hr sr
        have k3 := KB r'.size k
        simp only [Option.map_none, Costs] at k1
        cases o with
        | none =>
          simp only [Option.map_none, Costs, Expr.size, Nat.add_mul]
          omega
        | some c' =>
          obtain ⟨e3, b3⟩ := sleeps h2 sr
          refine .inr (.inr ⟨by rw [e3]; exact Nat.le_refl _, fun hF => ?_, ?_⟩)
          · rw [e3] at hF
            rw [hx] at hF b3
            exact ha _ ⟨.takes hb, .skips b3 hF⟩
          · simp only [Expr.size, Nat.add_mul]
            omega
      · have k1 := cheap h1 hpl1 hl haw
        have k3 := KB l.size k
        refine (Costs.more (v := Ev.countList es) (ih2 rfl r _ _ hpl2 hr)).mono ?_ ?_ fun _ h => h <;> simp only [Expr.size, Nat.add_mul] <;> omega
  | optSome h1 ih1 =>
    rintro rfl r F k hpl hp
    cases hp with
    | mute hm => exact mute r k hm (.optSome h1)
    | rep he => cases he
    | opt _ hl =>
      refine (ih1 rfl r _ _ (hpl.part (.opt .refl) fun _ => .opt) hl).mono ?_ ?_ fun _ h => h <;> simp only [Expr.size, Nat.add_mul] <;> omega
  | @optNone f p ρ e c es h1 ih1 =>
    rintro rfl r F k hpl hp
    cases hp with
    | mute hm => exact mute r k hm (.optNone h1)
    | rep he => cases he
    | opt ha hl =>
      have hpl1 := hpl.part (e' := e) (.opt .refl) fun _ => .opt
      by_cases haw : Awake u root p e c.suf
      · have k1 := ih1 rfl r _ _ hpl1 hl
        obtain ⟨x, hx, hb⟩ := haw
        simp only [Option.map_none, Costs] at k1
        refine .inr (.inr ⟨Nat.le_refl _, by rw [hx]; exact ha x hb, ?_⟩)
        simp only [Expr.size, Nat.add_mul]
        omega
      · refine .inl ⟨rfl, ?_⟩
        have k1 := cheap h1 hpl1 hl haw
        simp only [Expr.size, Nat.add_mul]
        omega
  | @rep f p ρ e e' min max c o es h1 h2 ih =>
    rintro rfl r F k hpl hp
    cases hp with
    | mute hm => exact mute r k hm (.rep h1 h2)
    | rep he ht hn hF hl =>
      rw [h1] at he
      cases he
      rw [repetition_size h1]
      exact ih rfl rfl ht r F k (hpl.part (repetition_sub h1) fun _ => .rep h1) (repetition_size h1 ▸ hpl.size b) hn hF hl
    | _ => cases h1
  | separated h1 ih1 =>
    rintro rfl r F k hpl hp
    cases hp with
    | mute hm => exact mute r k hm (.separated h1)
    | rep he => cases he
    | separated hl =>
      refine (ih1 rfl r _ _ (hpl.part (.separated .refl) fun _ => .separated) hl).mono ?_ ?_ fun _ h => h <;> simp only [Expr.size, Nat.add_mul] <;> omega
  | triviaNone => trivial
  | triviaRule => trivial
  | @unitFirst f e p t c o es h1 ih =>
    cases e with | mk p' ρ e =>
    rintro rfl rfl rfl r F k hpl hp
    exact ih rfl r F k hpl hp
  | @unitNext f e p t i c c' o es es' h1 h2 ih1 ih2 =>
    cases e with | mk p' ρ e =>
    rintro rfl rfl rfl r F k hpl hp
    obtain ⟨h, rfl⟩ := t_triviaNone.mp h1
    cases h
    exact ih2 rfl r F k hpl hp
  | @unitTriviaFail f e p t i c es h1 =>
    cases e with | mk p' ρ e =>
    rintro rfl rfl rfl r F k hpl hp
    cases (t_triviaNone.mp h1).1
  | @repsMax f e p t min max i c =>
    cases e with | mk p' ρ e =>
    rintro rfl rfl rfl r F k hpl hsz hn hF hp
    exact .inl ⟨rfl, Nat.zero_le _⟩
  | @repsMore f e p t min max i c c' o es es' h0 h1 h2 ih1 ih2 =>
    cases e with | mk p' ρ e =>
    rintro rfl rfl rfl r F k hpl hsz hn hF hp
    have h1' := unit_expr h1
    have k1 := ih1 rfl rfl rfl r _ k hpl hp
    have hplR := hpl.top b (e' := e) .refl
    have k2 := ih2 rfl rfl rfl r F b.R hplR hsz hn hF hp
    obtain ⟨t1, t2⟩ := toTop (k := k) hsz
    have hone := hpl.one b
    rw [Ev.countList_append]
    have took : c'.suf.length ≠ c.suf.length := by
      intro heq
      obtain ⟨m, q1, q2⟩ := h1'.meaning.begins _ rfl
      cases m with
      | nil => exact hn _ q2
      | cons x m => rw [q1] at heq; simp at heq; omega
    refine Costs.mono (Costs.seq (Kr := 0) (Br := b.B k) (s1 := c'.suf) (s2 := c'.suf) k1 (Nat.le_refl _) (fun hlen => absurd hlen took) (k2.mono t1 t2 fun _ h => h) ?_ (KB _ _) (b.Km_le_B hone k)
      (b.Km_le_A hone)) (by rw [Nat.add_mul]; omega) (by rw [Nat.add_mul]; omega) fun _ h => h
    intro hG
    have sr : ¬ Awake u root p e c'.suf := fun ⟨x, hx, hb⟩ => hG (.inr ⟨x, hx, hb⟩)
    refine ⟨rfl, ?_, ?_⟩
    · have := h2.cheap (fol := fol) hg hP b.size rfl rfl rfl r _ _ hplR hp hn sr
      exact Nat.le_trans this (Nat.mul_le_mul_right _ (by omega))
    · intro s3 hs3
      cases o with
      | none => cases hs3
      | some c3 =>
        cases hs3
        refine ⟨?_, fun h => hG (.inl h)⟩
        rcases t_reps.mp h2 with ⟨-, q, -⟩ | ⟨-, ⟨c4, _, _, q1, q2, -⟩ | ⟨-, ⟨-, q⟩ | ⟨-, q⟩⟩⟩
        · cases q; rfl
        · exact absurd (sleeps (unit_expr q1) sr).2 (hn _)
        · cases q
        · cases q; rfl
  | @repsFew f e p t min max i c es h0 h1 h2 ih1 =>
    cases e with | mk p' ρ e =>
    rintro rfl rfl rfl r F k hpl hsz hn hF hp
    have k1 := ih1 rfl rfl rfl r _ k hpl hp
    refine (k1.stop (F := F) (KB _ _)).mono ?_ ?_ fun _ h => h <;> simp only [Nat.add_mul] <;> omega
  | @repsStop f e p t min max i c es h0 h1 h2 ih1 =>
    cases e with | mk p' ρ e =>
    rintro rfl rfl rfl r F k hpl hsz hn hF hp
    by_cases haw : Awake u root p e c.suf
    · have k1 := ih1 rfl rfl rfl r _ k hpl hp
      obtain ⟨x, hx, hb⟩ := haw
      simp only [Option.map_none, Costs] at k1
      refine .inr (.inr ⟨Nat.le_refl _, by rw [hx]; exact hF x hb, ?_⟩)
      simp only [Nat.add_mul]
      omega
    · refine .inl ⟨rfl, ?_⟩
      have k1 := cheap (unit_expr h1) hpl hp haw
      simp only [Nat.add_mul]
      omega

/-- The number of rules tried is at most proportional to the length of the text. -/
theorem FullTries.linear (hg : NotLeftRecursive u root g) (hP : PredictiveGrammar u root fol) {p : List Name} {m : Module} {r : Rule} (hm : modAt root p = some m) (hr : r ∈ m.rules)
    (ha : r.args = []) {inp : Str} {ok : Bool} {es : List Ev} (h : FullTries u root rank p r inp ok es) :
    Ev.countList es ≤ 2 * b.A * inp.text.length + (b.A + 2) := by
  have pl : Placed u root g p r r.node b.R := by
    refine ⟨⟨m, hm, hr⟩, ha, .refl, fun p' x hx => ?_⟩
    obtain ⟨m', k1, k2⟩ := hx.named hm rfl
    exact b.rank _ _ _ k1 k2
  have bnd : ∀ {o es}, Tries u root rank true (.expr (.mk p [] r.node)) (startCfg inp) o es → Ev.countList es ≤ 2 * b.A * inp.text.length + b.A := by
    intro o es h
    have k := ((h.bounded b hg hP) rfl r _ _ pl (hP _ _ _ hm hr ha)).stop (F := fun _ => True) (Nat.mul_le_mul_left _ (b.K_le_B _))
    simp only [Costs] at k
    have : r.node.size * b.B b.R ≤ b.A := Nat.mul_le_mul_right _ (b.size _ _ _ hm hr)
    have e : (startCfg inp).suf = inp.text := rfl
    rw [e] at k
    omega
  cases h with
  | fail h =>
    rw [countList_tried]
    have := bnd h
    omega
  | ok h =>
    rw [Ev.countList_append, countList_tried]
    have := bnd h
    simp only [Ev.countList, Ev.count]
    omega

end
end Pest3.Gen
