import Verif.FirstSpec
import Verif.LeftLemmas
import Verif.RewriteLemmas
import Verif.MovedCases

namespace Pest3.Gen
open Pest3

/-! ## How matches begin -/

/-- How the match of `m` in front of `suf` begins. -/
def firstOf (suf : Text) : Text → First
  | [] => .skips suf.head?
  | x :: _ => .takes x

theorem firstOf_next {suf m rest : Text} (h : suf = m ++ rest) : (firstOf suf m).next = suf.head? := by
  cases m with
  | nil => rfl
  | cons x m => rw [h]; rfl

theorem eatText_eq {s suf m : Text} (h : eatText s suf = some m) : m = s := by
  simp only [eatText] at h
  split at h
  · cases h; rfl
  · cases h

theorem eatChar_eq {f : Char → Bool} {suf m : Text} (h : eatChar f suf = some m) : ∃ x, f x = true ∧ m = [x] := by
  cases suf with
  | nil => cases h
  | cons x suf =>
    simp only [eatChar] at h
    split at h
    · cases h; exact ⟨x, by assumption, rfl⟩
    · cases h

theorem map_stk {o : Option Text} {m : Text} {s stk : List Text} (h : o.map (·, s) = some (m, stk)) : o = some m := by
  cases o with
  | none => cases h
  | some => cases h; rfl

theorem leaf_begins {l : Leaf} {c : Cfg} {m rest : Text} {stk : List Text} (h : leafSpec l c = some (m, stk)) (hs : c.suf = m ++ rest) :
    leafBegins l (firstOf c.suf m) := by
  cases l with
  | str s =>
    have := eatText_eq (map_stk h)
    subst this
    cases m with
    | nil => exact ⟨_, rfl⟩
    | cons => rfl
  | insens s =>
    simp only [leafSpec] at h
    split at h
    · rename_i hk
      simp only [Option.some.injEq, Prod.mk.injEq] at h
      rw [h.1] at hk
      cases s with
      | nil => cases m with
        | nil => exact ⟨_, rfl⟩
        | cons => cases hk
      | cons a s => cases m with
        | nil => cases hk
        | cons x m =>
          simp only [List.map_cons, List.cons.injEq] at hk
          exact ⟨x, rfl, hk.1⟩
    · cases h
  | skipChar n =>
    simp only [leafSpec] at h
    split at h
    · rename_i hk
      simp only [Option.some.injEq, Prod.mk.injEq] at h
      cases n with
      | zero => rw [List.take_zero] at h; rw [← h.1]; exact ⟨_, rfl⟩
      | succ n =>
        cases m with
        | nil =>
          have h1 := congrArg List.length h.1
          rw [List.length_take, List.length_nil] at h1
          omega
        | cons x m => exact ⟨x, rfl⟩
    · cases h
  | range lo hi =>
    obtain ⟨x, h1, rfl⟩ := eatChar_eq (map_stk h)
    exact ⟨x, rfl, of_decide_eq_true h1⟩
  | chr a =>
    obtain ⟨x, h1, rfl⟩ := eatChar_eq (map_stk h)
    rw [eq_of_beq h1]; rfl
  | prop f =>
    obtain ⟨x, h1, rfl⟩ := eatChar_eq (map_stk h)
    exact ⟨x, rfl, h1⟩
  | any =>
    obtain ⟨x, h1, rfl⟩ := eatChar_eq (map_stk h)
    exact ⟨x, rfl⟩
  | none => cases h
  | empty => cases h; exact ⟨_, rfl⟩
  | soi => simp only [leafSpec] at h; split at h <;> cases h; exact ⟨_, rfl⟩
  | eoi => simp only [leafSpec] at h; split at h <;> cases h; rw [hs]; simp_all [firstOf, leafBegins]
  | newline =>
    simp only [leafSpec] at h
    split at h <;> cases h
    · exact .inr rfl
    · exact .inl rfl
    · exact .inr rfl
  | peekAll => trivial
  | peek => trivial
  | pop => trivial
  | popAll => trivial
  | slice2 => trivial
  | slice1 => trivial
  | drop => simp only [leafSpec] at h; split at h <;> cases h; exact ⟨_, rfl⟩

theorem leaf_surely {l : Leaf} {c : Cfg} (h : leafSurely l c.suf.head?) : leafSpec l c ≠ none := by
  have one : ∀ {f : Char → Bool} {x}, c.suf.head? = some x → f x = true → (eatChar f c.suf).map (·, c.stk) ≠ none := by
    intro f x hx hf
    cases hc : c.suf with
    | nil => rw [hc] at hx; cases hx
    | cons y s => rw [hc] at hx; cases hx; simp [eatChar, hf]
  cases l with
  | str s =>
    cases s with
    | nil => simp [leafSpec, eatText]
    | cons a s => cases s with
      | nil =>
        cases hc : c.suf with
        | nil => rw [hc] at h; cases h
        | cons y s => rw [hc] at h; cases h; simp [leafSpec, eatText, hc]
      | cons => exact h.elim
  | insens s =>
    cases s with
    | nil => simp [leafSpec]
    | cons a s => cases s with
      | nil =>
        obtain ⟨x, h1, h2⟩ := h
        cases hc : c.suf with
        | nil => rw [hc] at h1; cases h1
        | cons y s => rw [hc] at h1; cases h1; simp [leafSpec, hc, h2]
      | cons => exact h.elim
  | range lo hi => obtain ⟨x, h1, h2⟩ := h; exact one h1 (decide_eq_true h2)
  | chr a => exact one h (beq_self_eq_true a)
  | prop f => obtain ⟨x, h1, h2⟩ := h; exact one h1 h2
  | any =>
    cases hc : c.suf with
    | nil => exact absurd (by rw [hc]; rfl) h
    | cons y s => simp [leafSpec, eatChar, hc]
  | eoi =>
    have : c.suf = [] := by simpa [leafSurely] using h
    simp [leafSpec, this]
  | newline =>
    cases hc : c.suf with
    | nil => rw [hc] at h; rcases h with h | h <;> cases h
    | cons y s =>
      rw [hc] at h
      simp only [leafSpec, hc]
      rcases h with h | h <;> cases h
      · simp
      · split <;> simp_all
  | empty => simp [leafSpec]
  | _ => exact h.elim

section
variable {u : Unicode} {root : Module}

theorem reps_zero {a : Clo} {p : List Name} {t : Trivia} {max : Nat} : ∀ n i c, max ≤ i + n → ¬ Meaning u root (.reps a p t 0 max i) c none := by
  intro n
  induction n with
  | zero =>
    intro i c hn h
    rcases m_reps.mp h with ⟨-, h⟩ | ⟨h, -⟩
    · cases h
    · omega
  | succ n ih =>
    intro i c hn h
    rcases m_reps.mp h with ⟨-, h⟩ | ⟨-, ⟨c1, -, h⟩ | ⟨-, ⟨h, -⟩ | ⟨-, h⟩⟩⟩
    · cases h
    · exact ih _ _ (by omega) h
    · omega
    · cases h

theorem leafOut_surely {l : Leaf} {c : Cfg} (h : leafSurely l c.suf.head?) : ¬ leafOut l c none := by
  rintro (⟨_, _, _, -, -, h⟩ | ⟨h1, -⟩)
  · cases h
  · exact leaf_surely h h1

theorem Surely.sound {a : Clo} {o : Option Char} (h : Surely u root a o) : ∀ c : Cfg, c.suf.head? = o → ¬ Meaning u root (.expr a) c none := by
  induction h with
  | literal h1 h2 => rintro c rfl hm; exact leafOut_surely h2 ((m_literal h1).mp hm)
  | @builtin p ρ e q full l o h1 h2 h3 h4 h5 =>
    rintro c rfl hm
    cases e with
    | path q' =>
      cases h1
      rcases m_path.mp hm with ⟨x, e, rfl, h, -⟩ | ⟨-, ⟨full', l', k1, k2, k3⟩ | ⟨p', r, k1, -⟩⟩
      · rw [h2 x rfl] at h; cases h
      · rw [h3] at k1; cases k1; rw [h4] at k2; cases k2; exact leafOut_surely h5 k3
      · rw [h3] at k1; cases k1
    | call q' args =>
      cases args with
      | nil =>
        cases h1
        rcases m_call.mp hm with ⟨-, ⟨full', l', -, k1, k2, k3⟩ | ⟨e, o', k, -⟩ | ⟨p', r, k1, -⟩⟩
        · rw [h3] at k1; cases k1; rw [h4] at k2; cases k2; exact leafOut_surely h5 k3
        · cases k
        · rw [h3] at k1; cases k1
      | cons => cases h1
    | _ => cases h1
  | param h1 _ ih =>
    intro c hc hm
    rcases m_path.mp hm with ⟨x, e, k, h, k'⟩ | ⟨k, -⟩
    · cases k; rw [h1] at h; cases h; exact ih c hc k'
    · rw [k _ rfl] at h1; cases h1
  | rule h1 h2 _ ih =>
    intro c hc hm
    rcases m_path.mp hm with ⟨x, e, rfl, h, -⟩ | ⟨-, ⟨full', l', k1, -⟩ | ⟨p', r, k1, -, k2⟩⟩
    · rw [h1 x rfl] at h; cases h
    · rw [h2] at k1; cases k1
    · rw [h2] at k1; cases k1; exact ih c hc k2
  | call h1 h2 h3 _ ih =>
    intro c hc hm
    rcases m_call.mp hm with ⟨-, ⟨full', l', -, k1, -⟩ | ⟨e, o', -, k1, -⟩ | ⟨p', r, k1, -, k2⟩⟩
    · rw [h2] at k1; cases k1
    · rw [h2] at k1; cases k1
    · rw [h2] at k1; cases k1; exact ih c hc k2
  | choiceL _ ih =>
    intro c hc hm
    rcases m_choice.mp hm with ⟨_, -, h⟩ | ⟨h, -⟩
    · cases h
    · exact ih c hc h
  | choiceR _ ih =>
    intro c hc hm
    rcases m_choice.mp hm with ⟨_, -, h⟩ | ⟨-, h⟩
    · cases h
    · exact ih c hc h
  | opt => intro c hc hm; rcases m_opt.mp hm with ⟨_, -, h⟩ | ⟨-, h⟩ <;> cases h
  | rep => intro c hc hm; exact reps_zero _ _ _ (by omega : usizeMax ≤ 0 + usizeMax) ((m_rep rfl).mp hm)
  | separated _ ih => intro c hc hm; exact ih c hc (m_separated.mp hm)

/-- How matches of items may begin. -/
def ItemBegins (u : Unicode) (root : Module) : SItem → First → Prop
  | .expr a, f => Begins u root (.expr a) f
  | .trivia p t, f => Begins u root (.trivia p t) f
  | .unit a _ _ 0, f => Begins u root (.expr a) f
  | .unit a p t (_ + 1), f => (∃ x, f = .takes x ∧ Begins u root (.trivia p t) f) ∨ Begins u root (.expr a) f
  | .reps a p t min max 0, f => (max ≠ 0 ∧ Begins u root (.expr a) f) ∨
      (∃ x, f = .takes x ∧ Begins u root (.expr a) (.skips (some x)) ∧ Begins u root (.trivia p t) (.takes x)) ∨ ((min = 0 ∨ max = 0) ∧ ∃ o, f = .skips o)
  | .reps a p t _ _ (_ + 1), f => (∃ o, f = .skips o) ∨ ∃ x, f = .takes x ∧ (Begins u root (.trivia p t) f ∨ Begins u root (.expr a) f)

/-- A match begins as the expression may begin. -/
theorem Meaning.begins {it : SItem} {c : Cfg} {o : Option Cfg} (h : Meaning u root it c o) :
    ∀ c', o = some c' → ∃ m, c.suf = m ++ c'.suf ∧ ItemBegins u root it (firstOf c.suf m) := by
  induction h with
  | literalOk h1 h2 h3 => rintro _ ⟨⟩; exact ⟨_, h3, .literal h1 (leaf_begins h2 h3)⟩
  | builtinOk h1 h2 h3 h4 h5 h6 => rintro _ ⟨⟩; exact ⟨_, h6, .builtin h1 h2 h3 h4 (leaf_begins h5 h6)⟩
  | sliceOk h1 h2 h3 h4 h5 => rintro _ ⟨⟩; exact ⟨_, h5, .slice⟩
  | pushOk h1 h2 _ ih => rintro _ ⟨⟩; obtain ⟨m, k1, k2⟩ := ih _ rfl; exact ⟨m, k1, .push h1 h2 k2⟩
  | param h1 _ ih => intro c' hc; obtain ⟨m, k1, k2⟩ := ih c' hc; exact ⟨m, k1, .param h1 k2⟩
  | rule h1 h2 h3 _ ih => intro c' hc; obtain ⟨m, k1, k2⟩ := ih c' hc; exact ⟨m, k1, .rule h1 h2 k2⟩
  | call h1 h2 h3 _ ih => intro c' hc; obtain ⟨m, k1, k2⟩ := ih c' hc; exact ⟨m, k1, .call h1 h2 h3 k2⟩
  | posOk _ ih =>
    rintro _ ⟨⟩
    obtain ⟨m, k1, k2⟩ := ih _ rfl
    have := Begins.pos k2
    rw [firstOf_next k1] at this
    exact ⟨[], rfl, this⟩
  | negOk h ih => rintro _ ⟨⟩; exact ⟨[], rfl, .neg fun hs => hs.sound _ rfl h⟩
  | @seq p ρ l r t c c1 c2 res h1 h2 h3 ih1 ih2 ih3 =>
    intro c' hc
    obtain ⟨m1, k1, j1⟩ := ih1 _ rfl
    obtain ⟨m2, k2, j2⟩ := ih2 _ rfl
    obtain ⟨m3, k3, j3⟩ := ih3 _ hc
    refine ⟨m1 ++ (m2 ++ m3), by rw [k1, k2, k3]; simp, ?_⟩
    cases m1 with
    | cons x m1 => exact .seqL j1
    | nil =>
      rw [List.nil_append] at k1 ⊢
      rw [← k1] at j2 k2
      cases m2 with
      | cons x m2 =>
        have e : c.suf.head? = some x := by rw [k2]; rfl
        simp only [firstOf, e] at j1
        exact .seqTrivia j1 j2
      | nil =>
        rw [List.nil_append] at k2 ⊢
        rw [← k2] at j3 k3
        have e := firstOf_next k3
        refine .seqR ?_ ?_ j3
        · rw [e]; exact j1
        · rw [e]; exact j2
  | choiceL _ ih => intro c' hc; obtain ⟨m, k1, k2⟩ := ih c' hc; exact ⟨m, k1, .choiceL k2⟩
  | choiceR _ _ _ ih => intro c' hc; obtain ⟨m, k1, k2⟩ := ih c' hc; exact ⟨m, k1, .choiceR k2⟩
  | optSome _ ih => intro c' hc; obtain ⟨m, k1, k2⟩ := ih c' hc; exact ⟨m, k1, .opt k2⟩
  | optNone _ _ => rintro _ ⟨⟩; exact ⟨[], rfl, .optNone⟩
  | rep h1 _ ih =>
    intro c' hc
    obtain ⟨m, k1, k2⟩ := ih c' hc
    refine ⟨m, k1, ?_⟩
    rcases k2 with ⟨k, k2⟩ | ⟨x, e, k2, k3⟩ | ⟨k, o, e⟩
    · exact .rep h1 k k2
    · rw [e]; exact .repTrivia h1 k2 k3
    · rw [e]; exact .repNone h1 k
  | separated _ ih => intro c' hc; obtain ⟨m, k1, k2⟩ := ih c' hc; exact ⟨m, k1, .separated k2⟩
  | triviaNone => rintro _ ⟨⟩; exact ⟨[], rfl, .triviaNone⟩
  | triviaRule h1 h2 _ ih => intro c' hc; obtain ⟨m, k1, k2⟩ := ih c' hc; exact ⟨m, k1, .triviaRule h1 h2 k2⟩
  | unitFirst _ ih => exact ih
  | unitNext _ _ ih1 ih2 =>
    intro c' hc
    obtain ⟨m1, k1, j1⟩ := ih1 _ rfl
    obtain ⟨m2, k2, j2⟩ := ih2 _ hc
    refine ⟨m1 ++ m2, by rw [k1, k2]; simp, ?_⟩
    cases m1 with
    | cons x m1 => exact .inl ⟨x, rfl, j1⟩
    | nil =>
      rw [List.nil_append] at k1 ⊢
      rw [← k1] at j2
      exact .inr j2
  | @repsMax e p t min max i c h =>
    rintro _ ⟨⟩
    refine ⟨[], rfl, ?_⟩
    cases i with
    | zero => exact .inr (.inr ⟨.inr (by omega), _, rfl⟩)
    | succ i => exact .inl ⟨_, rfl⟩
  | @repsMore e p t min max i c c1 o h1 h2 h3 ih1 ih2 =>
    intro c' hc
    obtain ⟨m1, k1, j1⟩ := ih1 _ rfl
    obtain ⟨m2, k2, j2⟩ := ih2 _ hc
    refine ⟨m1 ++ m2, by rw [k1, k2]; simp, ?_⟩
    cases i with
    | zero =>
      cases m1 with
      | cons x m1 => exact .inl ⟨by omega, j1⟩
      | nil =>
        rw [List.nil_append] at k1 ⊢
        rw [← k1] at j2 k2
        cases m2 with
        | nil => exact .inl ⟨by omega, j1⟩
        | cons x m2 =>
          have e : c.suf.head? = some x := by rw [k2]; rfl
          simp only [firstOf, e] at j1
          rcases j2 with ⟨o, h⟩ | ⟨y, hy, h | h⟩
          · cases h
          · exact .inr (.inl ⟨x, rfl, j1, h⟩)
          · exact .inl ⟨by omega, h⟩
    | succ i =>
      cases m1 with
      | cons x m1 =>
        rcases j1 with ⟨y, hy, h⟩ | h
        · exact .inr ⟨x, rfl, .inl h⟩
        · exact .inr ⟨x, rfl, .inr h⟩
      | nil =>
        rw [List.nil_append] at k1 ⊢
        rw [← k1] at j2
        exact j2
  | @repsStop e p t min max i c h1 _ h3 _ =>
    rintro _ ⟨⟩
    refine ⟨[], rfl, ?_⟩
    cases i with
    | zero => exact .inr (.inr ⟨.inl (by omega), _, rfl⟩)
    | succ i => exact .inl ⟨_, rfl⟩
  | _ => rintro _ ⟨⟩

/-! ## Alternatives -/

theorem BeginApart.symm {p ps : List Name} {a b : Expr} (h : BeginApart u root p ps a b) : BeginApart u root p ps b a :=
  fun ρ hρ f f' k k' e => h ρ hρ f' f k' k e.symm

/-- At no place both match. -/
theorem BeginApart.sound {p ps : List Name} {a b : Expr} (h : BeginApart u root p ps a b) {ρ : List (Name × Clo)} (hρ : ρ.map Prod.fst = ps) {c c' : Cfg}
    (hm : Meaning u root (.expr (.mk p ρ a)) c (some c')) : ∀ c'', ¬ Meaning u root (.expr (.mk p ρ b)) c (some c'') := by
  intro c'' hm'
  obtain ⟨m, k1, k2⟩ := hm.begins _ rfl
  obtain ⟨m', j1, j2⟩ := hm'.begins _ rfl
  exact h ρ hρ _ _ k2 j2 ((firstOf_next k1).trans (firstOf_next j1).symm)

theorem alternatives_ind {P : Expr → Prop} (single : ∀ e, alternatives e = [e] → P e) (choice : ∀ l r, P l → P r → P (.choice l r)) : ∀ e, P e
  | .choice l r => choice l r (alternatives_ind single choice l) (alternatives_ind single choice r)
  | .str _ => single _ rfl
  | .insens _ => single _ rfl
  | .range _ _ => single _ rfl
  | .path _ => single _ rfl
  | .call _ _ => single _ rfl
  | .slice _ _ => single _ rfl
  | .pos _ => single _ rfl
  | .neg _ => single _ rfl
  | .opt _ => single _ rfl
  | .rep _ => single _ rfl
  | .repOnce _ => single _ rfl
  | .repRange _ _ => single _ rfl
  | .separated _ _ => single _ rfl
  | .seq _ _ _ => single _ rfl

theorem alternatives_ne (e : Expr) : alternatives e ≠ [] := by
  induction e using alternatives_ind with
  | single e h => rw [h]; exact List.cons_ne_nil _ _
  | choice l r ih _ => simp [alternatives, ih]

theorem alternatives_sub {a : Expr} (e : Expr) (h : a ∈ alternatives e) : Sub a e := by
  induction e using alternatives_ind with
  | single e he => rw [he, List.mem_singleton] at h; rw [h]; exact .refl
  | choice l r ihl ihr =>
    rcases List.mem_append.mp h with h | h
    · exact .choiceL (ihl h)
    · exact .choiceR (ihr h)

theorem sepTrivia_alternatives {e e' : Expr} (h : (alternatives e).Perm (alternatives e')) : sepTrivia e = sepTrivia e' := by
  have two : ∀ l r a, alternatives (.choice l r) ≠ [a] := by
    intro l r a h
    have := congrArg List.length h
    have hl := List.length_pos_iff.mpr (alternatives_ne l)
    have hr := List.length_pos_iff.mpr (alternatives_ne r)
    rw [alternatives, List.length_append] at this
    simp only [List.length_singleton] at this
    omega
  cases e using alternatives_ind with
  | single e he =>
    rw [he] at h
    have h := List.singleton_perm.mp h
    cases e' using alternatives_ind with
    | single e' he' => rw [he'] at h; simp at h; rw [h]
    | choice l r => exact absurd h.symm (two l r _)
  | choice l r =>
    cases e' using alternatives_ind with
    | single e' he' => rw [he'] at h; exact absurd (List.perm_singleton.mp h) (two l r _)
    | choice l r => rfl

/-- The result of alternatives that begin differently, without an order. -/
theorem result_alternatives {p ps : List Name} {ρ : List (Name × Clo)} (hρ : ρ.map Prod.fst = ps) (c : Cfg) (e : Expr)
    (hp : (alternatives e).Pairwise (BeginApart u root p ps)) (hr : ∀ a ∈ alternatives e, AlwaysReturns u root p ps a) (o : Option (Cfg × List (Pair RuleVal))) :
    Result u root (.expr (.mk p ρ e)) c o ↔
      (∃ x a, o = some x ∧ a ∈ alternatives e ∧ Result u root (.expr (.mk p ρ a)) c (some x)) ∨ (o = none ∧ ∀ a ∈ alternatives e, Result u root (.expr (.mk p ρ a)) c none) := by
  induction e using alternatives_ind generalizing o with
  | single e h =>
    rw [h]
    cases o <;> simp
  | choice l r ihl ihr =>
    rw [alternatives, List.pairwise_append] at hp
    obtain ⟨hpl, hpr, hx⟩ := hp
    have hrl : ∀ a ∈ alternatives l, AlwaysReturns u root p ps a := fun a h => hr a (List.mem_append_left _ h)
    have hrr : ∀ a ∈ alternatives r, AlwaysReturns u root p ps a := fun a h => hr a (List.mem_append_right _ h)
    rw [r_choice]
    constructor
    · rintro (⟨x, h, rfl⟩ | ⟨h1, h2⟩)
      · rcases (ihl hpl hrl _).mp h with ⟨y, a, k, ha, h⟩ | ⟨k, -⟩
        · cases k; exact .inl ⟨x, a, rfl, List.mem_append_left _ ha, h⟩
        · cases k
      · rcases (ihl hpl hrl _).mp h1 with ⟨y, a, k, -⟩ | ⟨-, h1⟩
        · cases k
        · rcases (ihr hpr hrr _).mp h2 with ⟨y, a, k, ha, h⟩ | ⟨k, h2⟩
          · exact .inl ⟨y, a, k, List.mem_append_right _ ha, h⟩
          · refine .inr ⟨k, fun a ha => ?_⟩
            rcases List.mem_append.mp ha with ha | ha
            · exact h1 a ha
            · exact h2 a ha
    · rintro (⟨x, a, rfl, ha, h⟩ | ⟨rfl, h⟩)
      · rcases List.mem_append.mp ha with ha | ha
        · exact .inl ⟨x, (ihl hpl hrl _).mpr (.inl ⟨x, a, rfl, ha, h⟩), rfl⟩
        · refine .inr ⟨(ihl hpl hrl none).mpr (.inr ⟨rfl, fun b hb => ?_⟩), (ihr hpr hrr _).mpr (.inl ⟨x, a, rfl, ha, h⟩)⟩
          obtain ⟨o', ho⟩ := hrl b hb ρ hρ c
          cases o' with
          | none => exact ho
          | some c' => exact absurd h.meaning ((hx b hb a ha).sound hρ ho _)
      · exact .inr ⟨(ihl hpl hrl none).mpr (.inr ⟨rfl, fun b hb => h b (List.mem_append_left _ hb)⟩),
          (ihr hpr hrr none).mpr (.inr ⟨rfl, fun b hb => h b (List.mem_append_right _ hb)⟩)⟩

/-- Alternatives that begin differently can be written in any order. -/
theorem sameAt_reorder {p ps : List Name} {e e' : Expr} (h : (alternatives e).Perm (alternatives e')) (hp : (alternatives e).Pairwise (BeginApart u root p ps))
    (hr : ∀ a ∈ alternatives e, AlwaysReturns u root p ps a) : SameAt u root p ps e e' := by
  refine sameAt_iff.mpr ⟨sepTrivia_alternatives h, fun ρ hρ c o => ?_⟩
  rw [result_alternatives hρ c e hp hr, result_alternatives hρ c e' ((h.pairwise_iff fun h => h.symm).mp hp) fun a ha => hr a (h.mem_iff.mpr ha)]
  simp only [h.mem_iff]

/-! ## In grammars -/

theorem argsBy_of {R : Expr → Expr → Prop} : ∀ es es' : List Expr, es.length = es'.length → (∀ x ∈ es.zip es', R x.1 x.2) → ArgsBy R es es' := by
  intro es
  induction es with
  | nil => intro es' h _; cases es' with
    | nil => exact .nil
    | cons => cases h
  | cons e es ih => intro es' h hx; cases es' with
    | nil => cases h
    | cons e' es' =>
      rw [List.zip_cons_cons] at hx
      exact .cons (hx _ List.mem_cons_self) (ih es' (by simpa using h) fun x h => hx x (List.mem_cons_of_mem _ h))

theorem Reordered.sameAt {p ps : List Name} {D : List Expr → Prop} {e e' : Expr} (h : Reordered D e e')
    (hD : ∀ a a', (alternatives a).Perm (alternatives a') → D (alternatives a) → SameAt u root p ps a a') : SameAt u root p ps e e' := by
  induction h with
  | refl => exact .refl
  | order h1 h2 => exact hD _ _ h1 h2
  | pos _ ih => exact ih.pos
  | neg _ ih => exact ih.neg
  | opt _ ih => exact ih.opt
  | rep _ ih => exact ih.rep
  | repOnce _ ih => exact ih.repOnce
  | repRange _ ih => exact ih.repRange _
  | separated _ ih => exact ih.separated _
  | seq _ _ ih1 ih2 => exact ih1.seq ih2 _
  | choice _ _ ih1 ih2 => exact ih1.choice ih2
  | call h1 _ ih => exact .call (argsBy_of _ _ h1 fun x hx => ih x hx) _

/-- The reordered alternatives are in both expressions. -/
theorem Reordered.subs {D : List Expr → Prop} {e e' : Expr} (h : Reordered D e e') :
    Reordered (fun as => D as ∧ ∀ a ∈ as, Sub a e ∧ Sub a e') e e' := by
  suffices H : ∀ f f', (∀ a, Sub a e → Sub a f) → (∀ a, Sub a e' → Sub a f') → Reordered (fun as => D as ∧ ∀ a ∈ as, Sub a f ∧ Sub a f') e e' from H e e' (fun _ h => h) (fun _ h => h)
  induction h with
  | refl => intros; exact .refl
  | @order a a' h1 h2 => exact fun f f' hf hf' => .order h1 ⟨h2, fun b hb => ⟨hf b (alternatives_sub _ hb), hf' b (alternatives_sub _ (h1.mem_iff.mp hb))⟩⟩
  | pos _ ih => exact fun f f' hf hf' => .pos (ih f f' (fun a h => hf a (.pos h)) (fun a h => hf' a (.pos h)))
  | neg _ ih => exact fun f f' hf hf' => .neg (ih f f' (fun a h => hf a (.neg h)) (fun a h => hf' a (.neg h)))
  | opt _ ih => exact fun f f' hf hf' => .opt (ih f f' (fun a h => hf a (.opt h)) (fun a h => hf' a (.opt h)))
  | rep _ ih => exact fun f f' hf hf' => .rep (ih f f' (fun a h => hf a (.rep h)) (fun a h => hf' a (.rep h)))
  | repOnce _ ih => exact fun f f' hf hf' => .repOnce (ih f f' (fun a h => hf a (.repOnce h)) (fun a h => hf' a (.repOnce h)))
  | repRange _ ih => exact fun f f' hf hf' => .repRange (ih f f' (fun a h => hf a (.repRange h)) (fun a h => hf' a (.repRange h)))
  | separated _ ih => exact fun f f' hf hf' => .separated (ih f f' (fun a h => hf a (.separated h)) (fun a h => hf' a (.separated h)))
  | seq _ _ ih1 ih2 =>
    exact fun f f' hf hf' => .seq (ih1 f f' (fun a h => hf a (.seqL h)) (fun a h => hf' a (.seqL h))) (ih2 f f' (fun a h => hf a (.seqR h)) (fun a h => hf' a (.seqR h)))
  | choice _ _ ih1 ih2 =>
    exact fun f f' hf hf' => .choice (ih1 f f' (fun a h => hf a (.choiceL h)) (fun a h => hf' a (.choiceL h))) (ih2 f f' (fun a h => hf a (.choiceR h)) (fun a h => hf' a (.choiceR h)))
  | call h1 _ ih =>
    exact fun f f' hf hf' => .call h1 fun x hx => ih x hx f f' (fun a h => hf a (.arg (List.of_mem_zip hx).1 h)) (fun a h => hf' a (.arg (List.of_mem_zip hx).2 h))

/-- Expressions of rules without parameters return if the grammar is not left recursive. -/
theorem returns_of {g : Assumed} (hn : AllNamed u root) (hsc : AllScoped u root) (hg : NotLeftRecursive u root g) {p : List Name} {m : Module} {r : Rule}
    (hm : modAt root p = some m) (hr : r ∈ m.rules) (ha : r.args = []) {a : Expr} (hs : Sub a r.node) : AlwaysReturns u root p [] a := by
  intro ρ hρ c
  rw [List.map_eq_nil_iff] at hρ
  subst hρ
  exact total hn hsc hg _ _ r ((WfClo.rule hm hr ha).sub hs) c rfl

end

section
variable {E E' : List Name → List Name → Expr → Expr → Prop}

theorem RulesAlike.mono (hE : ∀ p ps e e', E p ps e e' → E' p ps e e') {p : List Name} {rs rs' : List Rule} (h : RulesAlike E p rs rs') : RulesAlike E' p rs rs' := by
  induction rs generalizing rs' with
  | nil => cases h; exact .nil
  | cons r rs ih =>
    cases h with
    | cons h1 h2 => exact .cons ⟨h1.name, h1.args, h1.silent, h1.trivia, hE _ _ _ _ h1.node⟩ (ih h2)

mutual
theorem Alike.mono (hE : ∀ p ps e e', E p ps e e' → E' p ps e e') : ∀ {m m' : Module} {p : List Name}, Alike E p m m' → Alike E' p m m'
  | .mk _ _, .mk _ _, _, .mk h1 h2 => .mk (h1.mono hE) (ImportsAlike.mono hE h2)
theorem ImportsAlike.mono (hE : ∀ p ps e e', E p ps e e' → E' p ps e e') : ∀ {is is' : List Import} {p : List Name}, ImportsAlike E p is is' → ImportsAlike E' p is is'
  | [], [], _, .nil => .nil
  | .builtin _ _ :: _, .builtin _ _ :: _, _, .builtin h => .builtin (ImportsAlike.mono hE h)
  | .file _ _ :: _, .file _ _ :: _, _, .file h1 h2 => .file (Alike.mono hE h1) (ImportsAlike.mono hE h2)
end

end

/-- A rule with these parameters and this expression is in the module at `p`. -/
def RuleAt (root : Module) (p ps : List Name) (e : Expr) : Prop := ∃ m r, modAt root p = some m ∧ r ∈ m.rules ∧ r.args = ps ∧ r.node = e

section
variable {u : Unicode} {E : List Name → List Name → Expr → Expr → Prop} {root root' : Module}

theorem RulesAlike.located {p : List Name} {rs rs' : List Rule} (h : RulesAlike E p rs rs') {m m' : Module} (hm : modAt root p = some m) (hm' : modAt root' p = some m')
    (hs : ∀ r ∈ rs, r ∈ m.rules) (hs' : ∀ r ∈ rs', r ∈ m'.rules) :
    RulesAlike (fun p ps e e' => E p ps e e' ∧ RuleAt root p ps e ∧ RuleAt root' p ps e') p rs rs' := by
  induction rs generalizing rs' with
  | nil => cases h; exact .nil
  | cons r rs ih =>
    cases h with
    | cons h1 h2 =>
      refine .cons ⟨h1.name, h1.args, h1.silent, h1.trivia, h1.node, ⟨m, r, hm, hs r List.mem_cons_self, rfl, rfl⟩, ⟨m', _, hm', hs' _ List.mem_cons_self, h1.args, rfl⟩⟩ ?_
      exact ih h2 (fun r h => hs r (List.mem_cons_of_mem _ h)) (fun r h => hs' r (List.mem_cons_of_mem _ h))

theorem child_file {m : Module} (hn : (m.imports.map Import.name).Nodup) {x : Name} {k : Module} (h : .file x k ∈ m.imports) : m.child x = some k := by
  have := find_import hn h
  simp only [Module.child]
  rw [show (Import.file x k).name = x from rfl] at this
  rw [this]

mutual
theorem Alike.located (hn : AllNamed u root) (hn' : AllNamed u root') : ∀ {m m' : Module} {p : List Name}, Alike E p m m' → modAt root p = some m → modAt root' p = some m' →
    Alike (fun p ps e e' => E p ps e e' ∧ RuleAt root p ps e ∧ RuleAt root' p ps e') p m m'
  | .mk rs is, .mk rs' is', p, .mk h1 h2, hm, hm' =>
    .mk (h1.located hm hm' (fun _ h => h) (fun _ h => h)) (ImportsAlike.located hn hn' h2 hm hm' (fun _ h => h) (fun _ h => h))
theorem ImportsAlike.located (hn : AllNamed u root) (hn' : AllNamed u root') : ∀ {is is' : List Import} {p : List Name} {m m' : Module}, ImportsAlike E p is is' →
    modAt root p = some m → modAt root' p = some m' → (∀ i ∈ is, i ∈ m.imports) → (∀ i ∈ is', i ∈ m'.imports) →
    ImportsAlike (fun p ps e e' => E p ps e e' ∧ RuleAt root p ps e ∧ RuleAt root' p ps e') p is is'
  | [], [], _, _, _, .nil, _, _, _, _ => .nil
  | .builtin _ _ :: _, .builtin _ _ :: _, _, _, _, .builtin h, hm, hm', hs, hs' =>
    .builtin (ImportsAlike.located hn hn' h hm hm' (fun i h => hs i (List.mem_cons_of_mem _ h)) (fun i h => hs' i (List.mem_cons_of_mem _ h)))
  | .file _ _ :: _, .file _ _ :: _, p, _, _, .file h1 h2, hm, hm', hs, hs' =>
    .file (Alike.located hn hn' h1
        ((modAt_snoc hm).trans (child_file (hn _ (modAt_in p hm)).imports (hs _ List.mem_cons_self)))
        ((modAt_snoc hm').trans (child_file (hn' _ (modAt_in p hm')).imports (hs' _ List.mem_cons_self))))
      (ImportsAlike.located hn hn' h2 hm hm' (fun i h => hs i (List.mem_cons_of_mem _ h)) (fun i h => hs' i (List.mem_cons_of_mem _ h)))
end

end

/-! ## How operators begin -/

section
variable {u : Unicode} {root : Module} {p : List Name} {ρ : List (Name × Clo)} {f : First}

theorem begins_literal {e : Expr} {l : Leaf} (he : literal e = some l) : Begins u root (.expr (.mk p ρ e)) f ↔ leafBegins l f := by
  constructor
  · intro h
    cases e <;> first | (cases he; done) | skip
    all_goals
      cases h with
      | literal h1 h2 => rw [he] at h1; cases h1; exact h2
      | builtin h1 => cases h1
      | rep h1 => cases h1
      | repTrivia h1 => cases h1
      | repNone h1 => cases h1
  · exact .literal he

theorem begins_seq {l r : Expr} {t : Trivia} : Begins u root (.expr (.mk p ρ (.seq l r t))) f ↔
    (∃ x, f = .takes x ∧ Begins u root (.expr (.mk p ρ l)) f) ∨ (∃ x, f = .takes x ∧ Begins u root (.expr (.mk p ρ l)) (.skips (some x)) ∧ Begins u root (.trivia p t) f) ∨
      (Begins u root (.expr (.mk p ρ l)) (.skips f.next) ∧ Begins u root (.trivia p t) (.skips f.next) ∧ Begins u root (.expr (.mk p ρ r)) f) := by
  constructor
  · intro h
    cases h with
    | literal h1 => cases h1
    | builtin h1 => cases h1
    | rep h1 => cases h1
    | repTrivia h1 => cases h1
    | repNone h1 => cases h1
    | seqL h1 => exact .inl ⟨_, rfl, h1⟩
    | seqTrivia h1 h2 => exact .inr (.inl ⟨_, rfl, h1, h2⟩)
    | seqR h1 h2 h3 => exact .inr (.inr ⟨h1, h2, h3⟩)
  · rintro (⟨x, rfl, h⟩ | ⟨x, rfl, h1, h2⟩ | ⟨h1, h2, h3⟩)
    · exact .seqL h
    · exact .seqTrivia h1 h2
    · exact .seqR h1 h2 h3

theorem begins_choice {l r : Expr} : Begins u root (.expr (.mk p ρ (.choice l r))) f ↔ Begins u root (.expr (.mk p ρ l)) f ∨ Begins u root (.expr (.mk p ρ r)) f := by
  constructor
  · intro h
    cases h with
    | literal h1 => cases h1
    | builtin h1 => cases h1
    | rep h1 => cases h1
    | repTrivia h1 => cases h1
    | repNone h1 => cases h1
    | choiceL h => exact .inl h
    | choiceR h => exact .inr h
  · rintro (h | h)
    · exact .choiceL h
    · exact .choiceR h

theorem begins_rule {q p' : List Name} {r : Rule} (hn : NotParam ρ q) (ht : target u root p q = some (.rule p' r)) :
    Begins u root (.expr (.mk p ρ (.path q))) f ↔ Begins u root (.expr (.mk p' [] r.node)) f := by
  constructor
  · intro h
    cases h with
    | literal h1 => cases h1
    | builtin h1 _ h2 => cases h1; rw [ht] at h2; cases h2
    | rep h1 => cases h1
    | repTrivia h1 => cases h1
    | repNone h1 => cases h1
    | param h1 => rw [hn _ rfl] at h1; cases h1
    | rule _ h1 h2 => rw [ht] at h1; cases h1; exact h2
  · exact .rule hn ht

theorem begins_builtin {q full : List Name} {l : Leaf} (hn : NotParam ρ q) (ht : target u root p q = some (.builtin full)) (hl : builtinLeaf u full = some l) :
    Begins u root (.expr (.mk p ρ (.path q))) f ↔ leafBegins l f := by
  constructor
  · intro h
    cases h with
    | literal h1 => cases h1
    | builtin h1 _ h2 h3 h4 => cases h1; rw [ht] at h2; cases h2; rw [hl] at h3; cases h3; exact h4
    | rep h1 => cases h1
    | repTrivia h1 => cases h1
    | repNone h1 => cases h1
    | param h1 => rw [hn _ rfl] at h1; cases h1
    | rule _ h1 h2 => rw [ht] at h1; cases h1
  · exact .builtin rfl hn ht hl

theorem begins_neg {e : Expr} : Begins u root (.expr (.mk p ρ (.neg e))) f ↔ ∃ o, f = .skips o ∧ ¬ Surely u root (.mk p ρ e) o := by
  constructor
  · intro h
    cases h with
    | literal h1 => cases h1
    | builtin h1 => cases h1
    | rep h1 => cases h1
    | repTrivia h1 => cases h1
    | repNone h1 => cases h1
    | neg h => exact ⟨_, rfl, h⟩
  · rintro ⟨o, rfl, h⟩; exact .neg h

theorem begins_opt {e : Expr} : Begins u root (.expr (.mk p ρ (.opt e))) f ↔ Begins u root (.expr (.mk p ρ e)) f ∨ ∃ o, f = .skips o := by
  constructor
  · intro h
    cases h with
    | literal h1 => cases h1
    | builtin h1 => cases h1
    | rep h1 => cases h1
    | repTrivia h1 => cases h1
    | repNone h1 => cases h1
    | opt h => exact .inl h
    | optNone => exact .inr ⟨_, rfl⟩
  · rintro (h | ⟨o, rfl⟩)
    · exact .opt h
    · exact .optNone

end

end Pest3.Gen
