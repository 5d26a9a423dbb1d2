import Verif.InlineLemmas
import Verif.GenLink

namespace Pest3.Gen
open Pest3

section
variable {u : Unicode} {m m' : Module}

/-- The same expression in related environments. -/
theorem irel_same {p ρ ρ'} (hρ : IRel u m (.env ρ ρ')) (e : Expr) :
    (∀ x c, lookupClo x ρ = some c → (∀ as, ¬ Sub (.call [x] as) e) ∧ ∀ b, ¬ Sub (.slice [x] b) e) →
    (∀ q, Cites q e → (∃ x c, q = [x] ∧ lookupClo x ρ = some c) ∨ ¬ Gone u m p q) →
    IRel u m (.clo (.mk p ρ e) (.mk p ρ' e)) := by
  have hnp : ∀ {q}, NotParam ρ q → NotParam ρ' q := fun hn x hx => by
    rcases irel_lookup hρ x with ⟨_, h⟩ | ⟨c, _, h, _⟩
    · exact h
    · rw [hn x hx] at h; simp at h
  have split : ∀ q : List Name, (∃ x c, q = [x] ∧ lookupClo x ρ = some c) ∨ NotParam ρ q := fun q => by
    by_cases h : ∃ x c, q = [x] ∧ lookupClo x ρ = some c
    · exact .inl h
    · refine .inr fun x hx => ?_
      cases hl : lookupClo x ρ with
      | none => rfl
      | some c => exact absurd ⟨x, c, hx, hl⟩ h
  have ref : ∀ {q e e'}, Sub e e' → Cites q e → Cites q e' := fun hs h => h.elim (fun h => .inl (h.trans hs)) fun ⟨as, h⟩ => .inr ⟨as, h.trans hs⟩
  induction e using Expr.ind with
  | str | insens | range => intro _ _; exact .lit rfl
  | path q =>
    intro h1 h2
    rcases split q with ⟨x, c, rfl, hx⟩ | hn
    · rcases irel_lookup hρ x with ⟨h, _⟩ | ⟨c1, c2, a1, a2, a3⟩
      · rw [hx] at h; simp at h
      · exact .param a1 a2 a3
    · refine .ref hn (hnp hn) ((h2 q (.inl .refl)).resolve_left ?_)
      rintro ⟨x, c, rfl, hx⟩
      rw [hn x rfl] at hx; simp at hx
  | slice q r =>
    intro h1 h2
    rcases split q with ⟨x, c, rfl, hx⟩ | hn
    · exact absurd .refl ((h1 x c hx).2 r)
    · exact .slice hn (hnp hn)
  | call q args ih =>
    intro h1 h2
    rcases split q with ⟨x, c, rfl, hx⟩ | hn
    · exact absurd .refl ((h1 x c hx).1 args)
    · refine .call hn (hnp hn) ((h2 q (.inr ⟨args, .refl⟩)).resolve_left ?_) ?_
      · rintro ⟨x, c, rfl, hx⟩
        rw [hn x rfl] at hx; simp at hx
      · have : ∀ a ∈ args, IRel u m (.clo (.mk p ρ a) (.mk p ρ' a)) := fun a ha => ih a ha
          (fun x c hx => ⟨fun as h => (h1 x c hx).1 as (h.trans (.arg ha .refl)), fun b h => (h1 x c hx).2 b (h.trans (.arg ha .refl))⟩)
          (fun q hq => h2 q (ref (.arg ha .refl) hq))
        clear ih h1 h2
        induction args with
        | nil => exact .argsNil
        | cons a args ihl => exact .argsCons (this a List.mem_cons_self) (ihl fun b hb => this b (List.mem_cons_of_mem _ hb))
  | pos e ih =>
    intro h1 h2
    exact .pos (ih (fun x c hx => ⟨fun as h => (h1 x c hx).1 as (.pos h), fun b h => (h1 x c hx).2 b (.pos h)⟩)
      fun q hq => h2 q (ref (.pos .refl) hq))
  | neg e ih =>
    intro h1 h2
    exact .neg (ih (fun x c hx => ⟨fun as h => (h1 x c hx).1 as (.neg h), fun b h => (h1 x c hx).2 b (.neg h)⟩)
      fun q hq => h2 q (ref (.neg .refl) hq))
  | opt e ih =>
    intro h1 h2
    exact .opt (ih (fun x c hx => ⟨fun as h => (h1 x c hx).1 as (.opt h), fun b h => (h1 x c hx).2 b (.opt h)⟩)
      fun q hq => h2 q (ref (.opt .refl) hq))
  | separated e t ih =>
    intro h1 h2
    exact .separated (ih (fun x c hx => ⟨fun as h => (h1 x c hx).1 as (.separated h), fun b h => (h1 x c hx).2 b (.separated h)⟩)
      fun q hq => h2 q (ref (.separated .refl) hq))
  | rep e ih =>
    intro h1 h2
    exact .rep rfl rfl rfl
      (ih (fun x c hx => ⟨fun as h => (h1 x c hx).1 as (.rep h), fun b h => (h1 x c hx).2 b (.rep h)⟩)
      fun q hq => h2 q (ref (.rep .refl) hq))
  | repOnce e ih =>
    intro h1 h2
    exact .rep rfl rfl rfl
      (ih (fun x c hx => ⟨fun as h => (h1 x c hx).1 as (.repOnce h), fun b h => (h1 x c hx).2 b (.repOnce h)⟩)
      fun q hq => h2 q (ref (.repOnce .refl) hq))
  | repRange e b ih =>
    intro h1 h2
    exact .rep (by unfold repetition; rfl) (by unfold repetition; rfl) rfl
      (ih (fun x c hx => ⟨fun as h => (h1 x c hx).1 as (.repRange h), fun b h => (h1 x c hx).2 b (.repRange h)⟩)
      fun q hq => h2 q (ref (.repRange .refl) hq))
  | seq l r t ihl ihr =>
    intro h1 h2
    exact .seq (ihl (fun x c hx => ⟨fun as h => (h1 x c hx).1 as (.seqL h), fun b h => (h1 x c hx).2 b (.seqL h)⟩)
      fun q hq => h2 q (ref (.seqL .refl) hq))
      (ihr (fun x c hx => ⟨fun as h => (h1 x c hx).1 as (.seqR h), fun b h => (h1 x c hx).2 b (.seqR h)⟩)
      fun q hq => h2 q (ref (.seqR .refl) hq))
  | choice l r ihl ihr =>
    intro h1 h2
    exact .choice (ihl (fun x c hx => ⟨fun as h => (h1 x c hx).1 as (.choiceL h), fun b h => (h1 x c hx).2 b (.choiceL h)⟩)
      fun q hq => h2 q (ref (.choiceL .refl) hq))
      (ihr (fun x c hx => ⟨fun as h => (h1 x c hx).1 as (.choiceR h), fun b h => (h1 x c hx).2 b (.choiceR h)⟩)
      fun q hq => h2 q (ref (.choiceR .refl) hq))

/-- A closure or arguments, and what they become by replacing parameters. -/
inductive SubItem where
  | one (c : Clo) (e : Expr)
  | args (ρ : List (Name × Clo)) (as bs : List Expr)

/-- `e`, in the new grammar with the parameters `ρ1`, is the closure with some parameters replaced. -/
inductive SRel (u : Unicode) (m : Module) (ρ1 : List (Name × Clo)) : SubItem → Prop
  | lit {ρ e l} : literal e = some l → SRel u m ρ1 (.one (.mk [] ρ e) e)
  | slice {ρ q r} : NotParam ρ q → NotParam ρ1 q → SRel u m ρ1 (.one (.mk [] ρ (.slice q r)) (.slice q r))
  | ref {ρ q} : NotParam ρ q → NotParam ρ1 q → SRel u m ρ1 (.one (.mk [] ρ (.path q)) (.path q))
  | param {ρ x c c'} : lookupClo x ρ = some c → lookupClo x ρ1 = some c' → IRel u m (.clo c c') → SRel u m ρ1 (.one (.mk [] ρ (.path [x])) (.path [x]))
  | call {ρ q as bs} : NotParam ρ q → NotParam ρ1 q → SRel u m ρ1 (.args ρ as bs) → SRel u m ρ1 (.one (.mk [] ρ (.call q as)) (.call q bs))
  | pos {ρ e e'} : SRel u m ρ1 (.one (.mk [] ρ e) e') → SRel u m ρ1 (.one (.mk [] ρ (.pos e)) (.pos e'))
  | neg {ρ e e'} : SRel u m ρ1 (.one (.mk [] ρ e) e') → SRel u m ρ1 (.one (.mk [] ρ (.neg e)) (.neg e'))
  | opt {ρ e e'} : SRel u m ρ1 (.one (.mk [] ρ e) e') → SRel u m ρ1 (.one (.mk [] ρ (.opt e)) (.opt e'))
  | separated {ρ e e' t} : SRel u m ρ1 (.one (.mk [] ρ e) e') → SRel u m ρ1 (.one (.mk [] ρ (.separated e t)) (.separated e' t))
  | seq {ρ l l' r r' t} : SRel u m ρ1 (.one (.mk [] ρ l) l') → SRel u m ρ1 (.one (.mk [] ρ r) r') → SRel u m ρ1 (.one (.mk [] ρ (.seq l r t)) (.seq l' r' t))
  | choice {ρ l l' r r'} : SRel u m ρ1 (.one (.mk [] ρ l) l') → SRel u m ρ1 (.one (.mk [] ρ r) r') → SRel u m ρ1 (.one (.mk [] ρ (.choice l r)) (.choice l' r'))
  | rep {ρ e e' a a' min max} : repetition e = some (a, min, max) → repetition e' = some (a', min, max) →
      sepTrivia a = sepTrivia a' → SRel u m ρ1 (.one (.mk [] ρ a) a') → SRel u m ρ1 (.one (.mk [] ρ e) e')
  | subst {ρ x c e} : lookupClo x ρ = some c → SRel u m ρ1 (.one c e) → SRel u m ρ1 (.one (.mk [] ρ (.path [x])) e)
  | argsNil {ρ} : SRel u m ρ1 (.args ρ [] [])
  | argsCons {ρ a b as bs} : SRel u m ρ1 (.one (.mk [] ρ a) b) → SRel u m ρ1 (.args ρ as bs) →
      SRel u m ρ1 (.args ρ (a :: as) (b :: bs))

/-- The same with equal constructors at the top. -/
inductive SHead (u : Unicode) (m : Module) (ρ1 : List (Name × Clo)) : Clo → Expr → Prop
  | lit {ρ e l} : literal e = some l → SHead u m ρ1 (.mk [] ρ e) e
  | slice {ρ q r} : NotParam ρ q → NotParam ρ1 q → SHead u m ρ1 (.mk [] ρ (.slice q r)) (.slice q r)
  | ref {ρ q} : NotParam ρ q → NotParam ρ1 q → SHead u m ρ1 (.mk [] ρ (.path q)) (.path q)
  | param {ρ x c c'} : lookupClo x ρ = some c → lookupClo x ρ1 = some c' → IRel u m (.clo c c') → SHead u m ρ1 (.mk [] ρ (.path [x])) (.path [x])
  | call {ρ q as bs} : NotParam ρ q → NotParam ρ1 q → SRel u m ρ1 (.args ρ as bs) → SHead u m ρ1 (.mk [] ρ (.call q as)) (.call q bs)
  | pos {ρ e e'} : SRel u m ρ1 (.one (.mk [] ρ e) e') → SHead u m ρ1 (.mk [] ρ (.pos e)) (.pos e')
  | neg {ρ e e'} : SRel u m ρ1 (.one (.mk [] ρ e) e') → SHead u m ρ1 (.mk [] ρ (.neg e)) (.neg e')
  | opt {ρ e e'} : SRel u m ρ1 (.one (.mk [] ρ e) e') → SHead u m ρ1 (.mk [] ρ (.opt e)) (.opt e')
  | separated {ρ e e' t} : SRel u m ρ1 (.one (.mk [] ρ e) e') → SHead u m ρ1 (.mk [] ρ (.separated e t)) (.separated e' t)
  | seq {ρ l l' r r' t} : SRel u m ρ1 (.one (.mk [] ρ l) l') → SRel u m ρ1 (.one (.mk [] ρ r) r') → SHead u m ρ1 (.mk [] ρ (.seq l r t)) (.seq l' r' t)
  | choice {ρ l l' r r'} : SRel u m ρ1 (.one (.mk [] ρ l) l') → SRel u m ρ1 (.one (.mk [] ρ r) r') → SHead u m ρ1 (.mk [] ρ (.choice l r)) (.choice l' r')
  | rep {ρ e e' a a' min max} : repetition e = some (a, min, max) → repetition e' = some (a', min, max) →
      sepTrivia a = sepTrivia a' → SRel u m ρ1 (.one (.mk [] ρ a) a') → SHead u m ρ1 (.mk [] ρ e) e'

/-- Following parameters. -/
inductive Follows : Clo → Clo → Prop
  | refl {c} : Follows c c
  | step {p ρ x c c2} : lookupClo x ρ = some c → Follows c c2 → Follows (.mk p ρ (.path [x])) c2

theorem Follows.irel {c c2 c'} (h : Follows c c2) (hi : IRel u m (.clo c2 c')) : IRel u m (.clo c c') := by
  induction h with
  | refl => exact hi
  | step h _ ih => exact .subst h (ih hi)

variable {ρ1 : List (Name × Clo)}

theorem srel_head {item} (h : SRel u m ρ1 item) : ∀ c e, item = .one c e → ∃ c2, Follows c c2 ∧ SHead u m ρ1 c2 e := by
  induction h with
  | argsNil | argsCons => intro c e he; simp at he
  | subst h1 _ ih =>
    intro c e he
    cases he
    obtain ⟨c2, a1, a2⟩ := ih _ _ rfl
    exact ⟨c2, .step h1 a1, a2⟩
  | lit h1 => intro c e he; cases he; exact ⟨_, .refl, .lit h1⟩
  | slice h1 h2 => intro c e he; cases he; exact ⟨_, .refl, .slice h1 h2⟩
  | ref h1 h2 => intro c e he; cases he; exact ⟨_, .refl, .ref h1 h2⟩
  | param h1 h2 h3 => intro c e he; cases he; exact ⟨_, .refl, .param h1 h2 h3⟩
  | call h1 h2 h3 => intro c e he; cases he; exact ⟨_, .refl, .call h1 h2 h3⟩
  | pos h1 => intro c e he; cases he; exact ⟨_, .refl, .pos h1⟩
  | neg h1 => intro c e he; cases he; exact ⟨_, .refl, .neg h1⟩
  | opt h1 => intro c e he; cases he; exact ⟨_, .refl, .opt h1⟩
  | separated h1 => intro c e he; cases he; exact ⟨_, .refl, .separated h1⟩
  | seq h1 h2 => intro c e he; cases he; exact ⟨_, .refl, .seq h1 h2⟩
  | choice h1 h2 => intro c e he; cases he; exact ⟨_, .refl, .choice h1 h2⟩
  | rep h1 h2 h3 h4 => intro c e he; cases he; exact ⟨_, .refl, .rep h1 h2 h3 h4⟩

theorem srel_args_length {ρ as bs} (h : SRel u m ρ1 (.args ρ as bs)) : as.length = bs.length := by
  induction as generalizing bs with
  | nil => cases h; rfl
  | cons a as ih => cases h with | argsCons _ h2 => simp [ih h2]

/-- Nothing in the item refers to a removed rule. -/
def Clean (u : Unicode) (m : Module) (ρ1 : List (Name × Clo)) (e : Expr) : Prop :=
  ∀ q, Cites q e → (∃ x c, q = [x] ∧ lookupClo x ρ1 = some c) ∨ ¬ Gone u m [] q

theorem Clean.sub {e e' : Expr} (h : Clean u m ρ1 e) (hs : Sub e' e) : Clean u m ρ1 e' := fun q hq =>
  h q (hq.elim (fun h => .inl (h.trans hs)) fun ⟨as, h⟩ => .inr ⟨as, h.trans hs⟩)

theorem repetition_sub {e a : Expr} {min max} (h : repetition e = some (a, min, max)) : Sub a e := by
  cases e with
  | rep e => simp only [repetition, Option.some.injEq, Prod.mk.injEq] at h; exact h.1 ▸ .rep .refl
  | repOnce e => simp only [repetition, Option.some.injEq, Prod.mk.injEq] at h; exact h.1 ▸ .repOnce .refl
  | repRange e b => simp only [repetition, Option.some.injEq, Prod.mk.injEq] at h; exact h.1 ▸ .repRange .refl
  | _ => simp [repetition] at h

theorem srel_irel {item} (h : SRel u m ρ1 item) : match item with
    | .one c e => Clean u m ρ1 e → IRel u m (.clo c (.mk [] ρ1 e))
    | .args ρ as bs => (∀ b ∈ bs, Clean u m ρ1 b) → IRel u m (.args [] ρ ρ1 as bs) := by
  induction h with
  | lit h => intro _; exact .lit h
  | slice h1 h2 => intro _; exact .slice h1 h2
  | ref h1 h2 =>
    intro hc
    refine .ref h1 h2 ((hc _ (.inl .refl)).resolve_left ?_)
    rintro ⟨x, c, rfl, hx⟩
    rw [h2 x rfl] at hx; simp at hx
  | param h1 h2 h3 => intro _; exact .param h1 h2 h3
  | call h1 h2 _ ih =>
    intro hc
    refine .call h1 h2 ((hc _ (.inr ⟨_, .refl⟩)).resolve_left ?_) (ih fun b hb => hc.sub (.arg hb .refl))
    rintro ⟨x, c, rfl, hx⟩
    rw [h2 x rfl] at hx; simp at hx
  | pos _ ih => intro hc; exact .pos (ih (hc.sub (.pos .refl)))
  | neg _ ih => intro hc; exact .neg (ih (hc.sub (.neg .refl)))
  | opt _ ih => intro hc; exact .opt (ih (hc.sub (.opt .refl)))
  | separated _ ih => intro hc; exact .separated (ih (hc.sub (.separated .refl)))
  | seq _ _ ih1 ih2 => intro hc; exact .seq (ih1 (hc.sub (.seqL .refl))) (ih2 (hc.sub (.seqR .refl)))
  | choice _ _ ih1 ih2 => intro hc; exact .choice (ih1 (hc.sub (.choiceL .refl))) (ih2 (hc.sub (.choiceR .refl)))
  | rep h1 h2 h3 _ ih => intro hc; exact .rep h1 h2 h3 (ih (hc.sub (repetition_sub h2)))
  | subst h1 _ ih => intro hc; exact .subst h1 (ih hc)
  | argsNil => intro _; exact .argsNil
  | argsCons _ _ ih1 ih2 =>
    intro hc
    exact .argsCons (ih1 (hc _ List.mem_cons_self)) (ih2 fun b hb => hc b (List.mem_cons_of_mem _ hb))

theorem srel_args {ρ : List (Name × Clo)} {σ : Name → Option Expr} : ∀ {l : List Expr},
    (∀ a ∈ l, SRel u m ρ1 (.one (.mk [] ρ a) (a.subst σ))) → SRel u m ρ1 (.args ρ l (l.map (Expr.subst σ)))
  | [], _ => .argsNil
  | a :: _, h => .argsCons (h a List.mem_cons_self) (srel_args fun b hb => h b (List.mem_cons_of_mem _ hb))

/-- Substitution of some parameters. -/
theorem srel_subst {ρ : List (Name × Clo)} {σ : Name → Option Expr}
    (hσ : ∀ x n, σ x = some n → sepTrivia n = .none ∧ ∃ c, lookupClo x ρ = some c ∧ SRel u m ρ1 (.one c n)) (e : Expr) :
    (∀ x, Occurs x e → σ x = none → (lookupClo x ρ = none ∧ lookupClo x ρ1 = none) ∨
      ∃ c c', lookupClo x ρ = some c ∧ lookupClo x ρ1 = some c' ∧ IRel u m (.clo c c')) →
    (∀ x as, Sub (.call [x] as) e → lookupClo x ρ = none ∧ lookupClo x ρ1 = none) →
    (∀ x b, Sub (.slice [x] b) e → lookupClo x ρ = none ∧ lookupClo x ρ1 = none) →
    SRel u m ρ1 (.one (.mk [] ρ e) (e.subst σ)) := by
  induction e using Expr.ind with
  | str | insens | range => intro _ _ _; simp only [Expr.subst]; exact .lit rfl
  | path q =>
    intro h1 _ _
    match q with
    | [] => simp only [Expr.subst]; exact .ref (fun x hx => by simp at hx) fun x hx => by simp at hx
    | [x] =>
      simp only [Expr.subst]
      cases hx : σ x with
      | none =>
        rcases h1 x .refl hx with ⟨a1, a2⟩ | ⟨c, c', a1, a2, a3⟩
        · refine .ref (fun y hy => ?_) fun y hy => ?_
          · simp only [List.cons.injEq, and_true] at hy; exact hy ▸ a1
          · simp only [List.cons.injEq, and_true] at hy; exact hy ▸ a2
        · exact .param a1 a2 a3
      | some n =>
        obtain ⟨_, c, a1, a2⟩ := hσ x n hx
        exact .subst a1 a2
    | _ :: _ :: _ => simp only [Expr.subst]; exact .ref (fun x hx => by simp at hx) fun x hx => by simp at hx
  | slice q r =>
    intro _ _ h3
    simp only [Expr.subst]
    refine .slice (fun x hx => ?_) fun x hx => ?_
    · subst hx; exact (h3 x r .refl).1
    · subst hx; exact (h3 x r .refl).2
  | call q args ih =>
    intro h1 h2 h3
    simp only [Expr.subst, substAll_eq_map]
    refine .call (fun x hx => ?_) (fun x hx => ?_) (srel_args fun a ha => ih a ha (fun x hx => h1 x (Sub.arg ha hx))
      (fun x as hx => h2 x as (.arg ha hx)) fun x b hx => h3 x b (.arg ha hx))
    · subst hx; exact (h2 x args .refl).1
    · subst hx; exact (h2 x args .refl).2
  | pos e ih =>
    intro h1 h2 h3
    exact .pos (ih (fun x hx => h1 x (Sub.pos hx)) (fun x as hx => h2 x as (.pos hx)) fun x b hx => h3 x b (.pos hx))
  | neg e ih =>
    intro h1 h2 h3
    exact .neg (ih (fun x hx => h1 x (Sub.neg hx)) (fun x as hx => h2 x as (.neg hx)) fun x b hx => h3 x b (.neg hx))
  | opt e ih =>
    intro h1 h2 h3
    exact .opt (ih (fun x hx => h1 x (Sub.opt hx)) (fun x as hx => h2 x as (.opt hx)) fun x b hx => h3 x b (.opt hx))
  | separated e t ih =>
    intro h1 h2 h3
    exact .separated (ih (fun x hx => h1 x (Sub.separated hx)) (fun x as hx => h2 x as (.separated hx)) fun x b hx => h3 x b (.separated hx))
  | rep e ih =>
    intro h1 h2 h3
    simp only [Expr.subst]
    exact .rep rfl rfl
      (sepTrivia_subst e fun x n _ hx => (hσ x n hx).1).symm
      (ih (fun x hx => h1 x (Sub.rep hx)) (fun x as hx => h2 x as (.rep hx)) fun x b hx => h3 x b (.rep hx))
  | repOnce e ih =>
    intro h1 h2 h3
    simp only [Expr.subst]
    exact .rep rfl rfl
      (sepTrivia_subst e fun x n _ hx => (hσ x n hx).1).symm
      (ih (fun x hx => h1 x (Sub.repOnce hx)) (fun x as hx => h2 x as (.repOnce hx)) fun x b hx => h3 x b (.repOnce hx))
  | repRange e b ih =>
    intro h1 h2 h3
    simp only [Expr.subst]
    exact .rep rfl rfl
      (sepTrivia_subst e fun x n _ hx => (hσ x n hx).1).symm
      (ih (fun x hx => h1 x (Sub.repRange hx)) (fun x as hx => h2 x as (.repRange hx)) fun x b hx => h3 x b (.repRange hx))
  | seq l r t ihl ihr =>
    intro h1 h2 h3
    exact .seq (ihl (fun x hx => h1 x (Sub.seqL hx)) (fun x as hx => h2 x as (.seqL hx)) fun x b hx => h3 x b (.seqL hx))
      (ihr (fun x hx => h1 x (Sub.seqR hx)) (fun x as hx => h2 x as (.seqR hx)) fun x b hx => h3 x b (.seqR hx))
  | choice l r ihl ihr =>
    intro h1 h2 h3
    exact .choice (ihl (fun x hx => h1 x (Sub.choiceL hx)) (fun x as hx => h2 x as (.choiceL hx)) fun x b hx => h3 x b (.choiceL hx))
      (ihr (fun x hx => h1 x (Sub.choiceR hx)) (fun x as hx => h2 x as (.choiceR hx)) fun x b hx => h3 x b (.choiceR hx))

end

end Pest3.Gen
