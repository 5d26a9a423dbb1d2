import Verif.InlineCorrect

namespace Pest3.Gen
open Pest3

section
variable {u : Unicode} {m : Module} {r : Rule}

theorem andThen_mono {α β : Type} {x x' : Res α} {k k' : α → Res β} (hx : x ≠ .oof → x' = x)
    (hk : ∀ a, x = .ok a → k a ≠ .oof → k' a = k a) (h : andThen x k ≠ .oof) : andThen x' k' = andThen x k := by
  have h1 : x ≠ .oof := by rintro rfl; exact h rfl
  rw [hx h1]
  cases x with
  | ok a => exact hk a rfl h
  | panic => rfl
  | oof => exact absurd rfl h1

/-- More fuel does not change a result. -/
theorem inlineNode_mono (sm : SilentMap) (fuel : Nat) : ∀ {fuel' e}, fuel ≤ fuel' → inlineNode sm fuel e ≠ .oof →
    inlineNode sm fuel' e = inlineNode sm fuel e := by
  induction fuel with
  | zero => intro fuel' e _ h; simp [inlineNode] at h
  | succ fuel ih =>
    intro fuel' e hle h
    obtain ⟨k, rfl⟩ : ∃ k, fuel' = k + 1 := ⟨fuel' - 1, by omega⟩
    have ih : ∀ e, inlineNode sm fuel e ≠ .oof → inlineNode sm k e = inlineNode sm fuel e := fun e => ih (by omega)
    simp only [inlineNode] at h ⊢
    refine andThen_mono (fun _ => rfl) (fun ⟨e, b⟩ _ h => ?_) h
    dsimp only at h ⊢
    cases b with
    | true => simp only [if_true] at h ⊢; exact ih e h
    | false =>
      simp only [Bool.false_eq_true, if_false] at h ⊢
      cases e with
      | str | insens | range | path | slice | call => rfl
      | seq l r t | choice l r =>
        exact andThen_mono (ih l) (fun _ _ h => andThen_mono (ih r) (fun _ _ _ => rfl) h) h
      | pos e | neg e | opt e | rep e | repOnce e | repRange e _ | separated e _ =>
        exact andThen_mono (ih e) (fun _ _ _ => rfl) h

/-- Inlining ends. -/
def Ends (m : Module) (e : Expr) : Prop := ∃ fuel, inlineNode (collectSilent none m) fuel e ≠ .oof

theorem inlineStep_ne_oof (sm : SilentMap) (e : Expr) : inlineStep sm e ≠ .oof := by
  unfold inlineStep
  split
  · split
    · simp
    · split
      · simp
      · split
        · dsimp only; split <;> simp
        · simp
  · simp

theorem ends_of_step {e : Expr} (h : ∀ e' , inlineStep (collectSilent none m) e = .ok (e', true) → Ends m e')
    (h0 : inlineStep (collectSilent none m) e = .ok (e, false) → Ends m e) (hb : ∀ e', inlineStep (collectSilent none m) e = .ok (e', false) → e' = e) :
    Ends m e := by
  cases hs : inlineStep (collectSilent none m) e with
  | panic => exact ⟨1, by simp [inlineNode, hs, andThen]⟩
  | oof => exact absurd hs (inlineStep_ne_oof _ _)
  | ok p =>
    obtain ⟨e', b⟩ := p
    cases b with
    | true =>
      obtain ⟨fuel, h1⟩ := h e' hs
      exact ⟨fuel + 1, by simpa [inlineNode, hs, andThen] using h1⟩
    | false => exact h0 (hb e' hs ▸ hs)

theorem ends_unary {e e0 : Expr} (k : Expr → Expr) (hk : ∀ fuel, inlineNode (collectSilent none m) (fuel + 1) e =
    andThen (inlineNode (collectSilent none m) fuel e0) fun e => .ok (k e)) (h : Ends m e0) : Ends m e := by
  obtain ⟨fuel, h⟩ := h
  refine ⟨fuel + 1, ?_⟩
  rw [hk]
  cases hf : inlineNode (collectSilent none m) fuel e0 with
  | oof => exact absurd hf h
  | ok => simp [andThen]
  | panic => simp [andThen]

theorem ends_binary {e l r : Expr} (k : Expr → Expr → Expr) (hk : ∀ fuel, inlineNode (collectSilent none m) (fuel + 1) e =
    andThen (inlineNode (collectSilent none m) fuel l) fun l => andThen (inlineNode (collectSilent none m) fuel r) fun r => .ok (k l r))
    (h1 : Ends m l) (h2 : Ends m r) : Ends m e := by
  obtain ⟨f1, h1⟩ := h1
  obtain ⟨f2, h2⟩ := h2
  have m1 := inlineNode_mono (collectSilent none m) f1 (Nat.le_max_left f1 f2) h1
  have m2 := inlineNode_mono (collectSilent none m) f2 (Nat.le_max_right f1 f2) h2
  refine ⟨max f1 f2 + 1, ?_⟩
  rw [hk, m1, m2]
  cases hf : inlineNode (collectSilent none m) f1 l with
  | oof => exact absurd hf h1
  | panic => simp [andThen]
  | ok a =>
    simp only [andThen]
    cases hf : inlineNode (collectSilent none m) f2 r with
    | oof => exact absurd hf h2
    | ok => simp
    | panic => simp

/-- Expressions all of whose silent calls have a rank below `n`, with terminating expressions put in for parameters. -/
theorem ends_subst (hn : WellNamed u m) (hy : Hygienic u m) (hr : r ∈ m.rules) (hk : r.inlined = false) (rank : Name → Nat)
    (hrank : ∀ f ∈ m.rules, f.inlined = true → ∀ g ∈ m.rules, g.inlined = true → ∀ as, Sub (.call [g.name] as) f.node →
      rank g.name < rank f.name) (n : Nat) : ∀ (e : Expr) (σ : Name → Option Expr),
      (∀ g ∈ m.rules, g.inlined = true → ∀ as, Sub (.call [g.name] as) e → rank g.name < n) →
      (∀ x t, σ x = some t → Ends m t) → Made m r (e.subst σ) → Ends m (e.subst σ) := by
  induction n using Nat.strongRecOn with
  | _ n ihn =>
    intro e
    induction e using Expr.ind with
    | str | insens | range | slice => intro σ _ _ _; exact ⟨1, by simp [Expr.subst, inlineNode, inlineStep, andThen]⟩
    | path p =>
      intro σ _ h2 _
      have triv : Ends m (.path p) := ⟨1, by simp [inlineNode, inlineStep, andThen]⟩
      match p with
      | [] => simpa [Expr.subst] using triv
      | [x] =>
        simp only [Expr.subst]
        cases hx : σ x with
        | none => exact triv
        | some t => exact h2 x t hx
      | _ :: _ :: _ => simpa [Expr.subst] using triv
    | pos e ih =>
      intro σ h1 h2 h3
      simp only [Expr.subst] at h3 ⊢
      exact ends_unary .pos (fun fuel => by simp [inlineNode, inlineStep, andThen])
        (ih σ (fun g hg hi as hs => h1 g hg hi as (.pos hs)) h2 (h3.sub (.pos .refl)))
    | neg e ih =>
      intro σ h1 h2 h3
      simp only [Expr.subst] at h3 ⊢
      exact ends_unary .neg (fun fuel => by simp [inlineNode, inlineStep, andThen])
        (ih σ (fun g hg hi as hs => h1 g hg hi as (.neg hs)) h2 (h3.sub (.neg .refl)))
    | opt e ih =>
      intro σ h1 h2 h3
      simp only [Expr.subst] at h3 ⊢
      exact ends_unary .opt (fun fuel => by simp [inlineNode, inlineStep, andThen])
        (ih σ (fun g hg hi as hs => h1 g hg hi as (.opt hs)) h2 (h3.sub (.opt .refl)))
    | rep e ih =>
      intro σ h1 h2 h3
      simp only [Expr.subst] at h3 ⊢
      exact ends_unary .rep (fun fuel => by simp [inlineNode, inlineStep, andThen])
        (ih σ (fun g hg hi as hs => h1 g hg hi as (.rep hs)) h2 (h3.sub (.rep .refl)))
    | repOnce e ih =>
      intro σ h1 h2 h3
      simp only [Expr.subst] at h3 ⊢
      exact ends_unary .repOnce (fun fuel => by simp [inlineNode, inlineStep, andThen])
        (ih σ (fun g hg hi as hs => h1 g hg hi as (.repOnce hs)) h2 (h3.sub (.repOnce .refl)))
    | repRange e b ih =>
      intro σ h1 h2 h3
      simp only [Expr.subst] at h3 ⊢
      exact ends_unary (.repRange · b) (fun fuel => by simp [inlineNode, inlineStep, andThen])
        (ih σ (fun g hg hi as hs => h1 g hg hi as (.repRange hs)) h2 (h3.sub (.repRange .refl)))
    | separated e t ih =>
      intro σ h1 h2 h3
      simp only [Expr.subst] at h3 ⊢
      exact ends_unary (.separated · t) (fun fuel => by simp [inlineNode, inlineStep, andThen])
        (ih σ (fun g hg hi as hs => h1 g hg hi as (.separated hs)) h2 (h3.sub (.separated .refl)))
    | seq l r' t ihl ihr =>
      intro σ h1 h2 h3
      simp only [Expr.subst] at h3 ⊢
      exact ends_binary (.seq · · t) (fun fuel => by simp [inlineNode, inlineStep, andThen])
        (ihl σ (fun g hg hi as hs => h1 g hg hi as (.seqL hs)) h2 (h3.sub (.seqL .refl)))
        (ihr σ (fun g hg hi as hs => h1 g hg hi as (.seqR hs)) h2 (h3.sub (.seqR .refl)))
    | choice l r' ihl ihr =>
      intro σ h1 h2 h3
      simp only [Expr.subst] at h3 ⊢
      exact ends_binary .choice (fun fuel => by simp [inlineNode, inlineStep, andThen])
        (ihl σ (fun g hg hi as hs => h1 g hg hi as (.choiceL hs)) h2 (h3.sub (.choiceL .refl)))
        (ihr σ (fun g hg hi as hs => h1 g hg hi as (.choiceR hs)) h2 (h3.sub (.choiceR .refl)))
    | call q args ih =>
      intro σ h1 h2 h3
      simp only [Expr.subst, substAll_eq_map] at h3 ⊢
      refine ends_of_step (fun e' he => ?_) (fun he => ⟨1, by rw [inlineNode, he]; simp [andThen]⟩) (fun e' he => ?_)
      · rcases inlineStep_ok hn hy hr hk he h3 with ⟨h, _⟩ | ⟨_, x, bs, f, h, hf, hi, ht, hl, hms, rfl⟩
        · simp at h
        · injection h with hq hb
          subst hq
          obtain ⟨_, _, y, hy', hx, _⟩ := target_root ht
          injection hy' with hy'
          subst hy'
          subst hx
          refine ihn (rank f.name) (h1 f hf hi args .refl) f.node _ (hrank f hf hi) (fun x t hx => ?_) (Made.step hy hf hi hl hms)
          have ht := (List.of_mem_zip (sig_mem hx)).2
          rw [← hb] at ht
          obtain ⟨a, ha, rfl⟩ := List.mem_map.mp ht
          exact ih a ha σ (fun g hg hi as hs => h1 g hg hi as (.arg ha hs)) h2 (h3.sub (.arg (List.mem_map.mpr ⟨a, ha, rfl⟩) .refl))
      · rcases inlineStep_ok hn hy hr hk he h3 with ⟨_, h⟩ | ⟨h, _⟩
        · exact h
        · simp at h

theorem inlineRules_ends {sm : SilentMap} : ∀ {rules : List Rule}, (∀ r ∈ rules, ∃ fuel, inlineNode sm fuel r.node ≠ .oof) →
    ∃ fuel, inlineRules sm fuel rules ≠ .oof := by
  have mono : ∀ {rules : List Rule} {f f'}, f ≤ f' → inlineRules sm f rules ≠ .oof → inlineRules sm f' rules = inlineRules sm f rules := by
    intro rules
    induction rules with
    | nil => intro f f' _ _; rfl
    | cons r rules ih =>
      intro f f' hf h
      exact andThen_mono (inlineNode_mono sm f hf) (fun _ _ h => andThen_mono (ih hf) (fun _ _ _ => rfl) h) h
  intro rules
  induction rules with
  | nil => intro _; exact ⟨0, by simp [inlineRules]⟩
  | cons r rules ih =>
    intro h
    obtain ⟨f1, h1⟩ := h r List.mem_cons_self
    obtain ⟨f2, h2⟩ := ih fun r hr => h r (List.mem_cons_of_mem _ hr)
    refine ⟨max f1 f2, ?_⟩
    rw [inlineRules, inlineNode_mono sm f1 (Nat.le_max_left ..) h1, mono (Nat.le_max_right ..) h2]
    cases hf : inlineNode sm f1 r.node with
    | oof => exact absurd hf h1
    | panic => simp [andThen]
    | ok a =>
      simp only [andThen]
      cases hf : inlineRules sm f2 rules with
      | oof => exact absurd hf h2
      | ok => simp
      | panic => simp

theorem inlineStep_ne_panic (hn : WellNamed u m) (hy : Hygienic u m)
    (har : ∀ g ∈ m.rules, ∀ f ∈ m.rules, f.inlined = true → ∀ as, Sub (.call [f.name] as) g.node → as.length = f.args.length)
    {e : Expr} (hm : Made m r e) : inlineStep (collectSilent none m) e ≠ .panic := by
  unfold inlineStep
  split
  · rename_i p args
    split
    · simp
    · rename_i x hx
      split
      · simp
      · rename_i f' hf'
        obtain ⟨_, as0, g, a2, _, a4, a5⟩ := hm.call p args .refl
        obtain ⟨rfl, hg⟩ := hy.scope g a2 p as0 x a4 hx (findSilent_name hf')
        obtain ⟨f, b1, b2, b3, b4⟩ := gone_iff.mp hg
        have := findSilent_root hn.rules b1 b2
        rw [b3, hf'] at this
        injection this with this
        subst this
        have hl := har g a2 f' b1 b2 as0 (b3 ▸ a4)
        rw [if_pos (by omega)]
        dsimp only; split <;> simp
  · simp

theorem andThen_ne_panic {α β : Type} {x : Res α} {k : α → Res β} (hx : x ≠ .panic) (hk : ∀ a, x = .ok a → k a ≠ .panic) :
    andThen x k ≠ .panic := by
  cases x with
  | ok a => exact hk a rfl
  | panic => exact absurd rfl hx
  | oof => simp [andThen]

theorem inlineNode_ne_panic (hn : WellNamed u m) (hy : Hygienic u m) (hr : r ∈ m.rules) (hk : r.inlined = false)
    (har : ∀ g ∈ m.rules, ∀ f ∈ m.rules, f.inlined = true → ∀ as, Sub (.call [f.name] as) g.node → as.length = f.args.length)
    (fuel : Nat) : ∀ {e : Expr}, Made m r e → inlineNode (collectSilent none m) fuel e ≠ .panic := by
  induction fuel with
  | zero => intro e _; simp [inlineNode]
  | succ fuel ih =>
    intro e hm
    simp only [inlineNode]
    refine andThen_ne_panic (inlineStep_ne_panic hn hy har hm) fun ⟨e', b⟩ hs => ?_
    dsimp only
    rcases inlineStep_ok hn hy hr hk hs hm with ⟨rfl, rfl⟩ | ⟨rfl, x, bs, f, rfl, hf, hi, ht, hl, hms, rfl⟩
    · rw [if_neg (by decide)]
      cases e' with
      | str | insens | range | path | slice | call => simp
      | seq => exact andThen_ne_panic (ih (hm.sub (.seqL .refl))) fun _ _ => andThen_ne_panic (ih (hm.sub (.seqR .refl))) fun _ _ => by simp
      | choice => exact andThen_ne_panic (ih (hm.sub (.choiceL .refl))) fun _ _ => andThen_ne_panic (ih (hm.sub (.choiceR .refl))) fun _ _ => by simp
      | pos => exact andThen_ne_panic (ih (hm.sub (.pos .refl))) fun _ _ => by simp
      | neg => exact andThen_ne_panic (ih (hm.sub (.neg .refl))) fun _ _ => by simp
      | opt => exact andThen_ne_panic (ih (hm.sub (.opt .refl))) fun _ _ => by simp
      | rep => exact andThen_ne_panic (ih (hm.sub (.rep .refl))) fun _ _ => by simp
      | repOnce => exact andThen_ne_panic (ih (hm.sub (.repOnce .refl))) fun _ _ => by simp
      | repRange => exact andThen_ne_panic (ih (hm.sub (.repRange .refl))) fun _ _ => by simp
      | separated => exact andThen_ne_panic (ih (hm.sub (.separated .refl))) fun _ _ => by simp
    · rw [if_pos rfl]
      exact ih (Made.step hy hf hi hl hms)

theorem inlineRules_ne_panic {sm : SilentMap} {fuel : Nat} : ∀ {rules : List Rule},
    (∀ r ∈ rules, inlineNode sm fuel r.node ≠ .panic) → inlineRules sm fuel rules ≠ .panic
  | [], _ => by simp [inlineRules]
  | _ :: _, h => andThen_ne_panic (h _ List.mem_cons_self) fun _ _ =>
      andThen_ne_panic (inlineRules_ne_panic fun r hr => h r (List.mem_cons_of_mem _ hr)) fun _ _ => by simp

/-- Inlining ends, and does not panic. -/
theorem inline_total (hn : WellNamed u m) (hy : Hygienic u m)
    (har : ∀ g ∈ m.rules, ∀ f ∈ m.rules, f.inlined = true → ∀ as, Sub (.call [f.name] as) g.node → as.length = f.args.length)
    (rank : Name → Nat) (hrank : ∀ f ∈ m.rules, f.inlined = true → ∀ g ∈ m.rules, g.inlined = true → ∀ as,
      Sub (.call [g.name] as) f.node → rank g.name < rank f.name) : ∃ fuel m', inlineModule fuel m = .ok m' := by
  have kept : ∀ r ∈ m.rules.filter (fun r => !r.silent || r.args.isEmpty), r ∈ m.rules ∧ r.inlined = false := fun r hr => by
    obtain ⟨h1, h2⟩ := List.mem_filter.mp hr
    exact ⟨h1, by simpa [kept_iff] using h2⟩
  obtain ⟨N, hN⟩ : ∃ N, ∀ g ∈ m.rules, rank g.name < N := by
    generalize m.rules = l
    induction l with
    | nil => exact ⟨0, by simp⟩
    | cons a l ih =>
      obtain ⟨N, h⟩ := ih
      refine ⟨max N (rank a.name + 1), fun g hg => ?_⟩
      rcases List.mem_cons.mp hg with rfl | hg
      · omega
      · have := h g hg; omega
  obtain ⟨fuel, hf⟩ := inlineRules_ends (sm := collectSilent none m) (rules := m.rules.filter fun r => !r.silent || r.args.isEmpty)
    fun r hr => by
      obtain ⟨h1, h2⟩ := kept r hr
      have := ends_subst hn hy h1 h2 rank hrank N r.node (fun _ => none) (fun g hg _ _ _ => hN g hg) (fun x t h => by simp at h)
        (by rw [subst_none]; exact Made.start hy h1)
      rwa [subst_none] at this
  have hp : inlineRules (collectSilent none m) fuel (m.rules.filter fun r => !r.silent || r.args.isEmpty) ≠ .panic :=
    inlineRules_ne_panic fun r hr => inlineNode_ne_panic hn hy (kept r hr).1 (kept r hr).2 har fuel (Made.start hy (kept r hr).1)
  refine ⟨fuel, ?_⟩
  unfold inlineModule
  cases h : inlineRules (collectSilent none m) fuel (m.rules.filter fun r => !r.silent || r.args.isEmpty) with
  | ok rules => exact ⟨_, rfl⟩
  | panic => exact absurd h hp
  | oof => exact absurd h hf

end

end Pest3.Gen
