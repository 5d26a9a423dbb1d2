import Verif.InlineRel

namespace Pest3.Gen
open Pest3

/-! ## Targets before and after inlining -/

section
variable {u : Unicode} {m m' : Module}

theorem lookupIn_prefix (q : List Name) : ∀ {a : Module} {cur p' r}, lookupIn u a cur q = some (.rule p' r) → cur <+: p' := by
  induction q with
  | nil => intro a cur p' r h; simp [lookupIn] at h
  | cons x q ih =>
    intro a cur p' r h
    rw [lookupIn] at h
    split at h
    · split at h <;> simp at h
    · exact (List.prefix_append cur [x]).trans (ih h)
    · split at h
      · rw [Option.map_eq_some_iff] at h
        obtain ⟨_, _, h⟩ := h
        injection h with h
        exact h ▸ List.prefix_refl _
      · simp at h

theorem target_prefix {p q p' r} (h : target u m p q = some (.rule p' r)) : p <+: p' := by
  unfold target at h
  split at h
  · simp at h
  · split at h
    · simp at h
    · exact lookupIn_prefix q h

theorem not_gone {p q} (h : p ≠ []) : ¬ Gone u m p q := by
  rintro ⟨f, h1, _⟩
  exact h (List.prefix_nil.mp (target_prefix h1))

theorem target_root {p q r} (h : target u m p q = some (.rule [] r)) : p = [] ∧ ¬ IsBuiltin u q ∧ ∃ x, q = [x] ∧ r.name = x ∧
    m.imports.find? (fun i => i.name = x) = none ∧ x ≠ optName ∧ x ≠ manName ∧ findRule m.rules x = some r := by
  obtain rfl := List.prefix_nil.mp (target_prefix h)
  unfold target at h
  split at h
  · simp at h
  · rename_i hb
    refine ⟨rfl, hb, ?_⟩
    simp only [modAt] at h
    cases q with
    | nil => simp [lookupIn] at h
    | cons x rest =>
      rw [lookupIn] at h
      split at h
      · split at h <;> simp at h
      · have := lookupIn_prefix rest h
        simp at this
      · rename_i hf
        split at h
        · rename_i hx
          rw [Option.map_eq_some_iff] at h
          obtain ⟨r', h1, h⟩ := h
          injection h with _ h
          subst h
          exact ⟨x, by rw [hx.1], (findRule_mem h1).2, hf, hx.2.1, hx.2.2, h1⟩
        · simp at h

theorem modAt_in (p : List Name) : ∀ {m a : Module}, modAt m p = some a → ModIn a m := by
  induction p with
  | nil => intro m a h; simp only [modAt, Option.some.injEq] at h; exact h ▸ .refl
  | cons x p ih =>
    intro m a h
    simp only [modAt] at h
    split at h
    · rename_i b hb
      unfold Module.child at hb
      split at hb
      · rename_i hf
        injection hb with hb
        subst hb
        exact .step (List.mem_of_find?_eq_some hf) (ih h)
      · simp at hb
    · simp at h

theorem modAt_same (hi : m'.imports = m.imports) {p} (hp : p ≠ []) : modAt m' p = modAt m p := by
  cases p with
  | nil => exact absurd rfl hp
  | cons x p => simp only [modAt, Module.child, hi]

theorem target_same (hi : m'.imports = m.imports) {p q} (hp : p ≠ []) : target u m' p q = target u m p q := by
  unfold target
  rw [modAt_same hi hp]

/-- From the root module: either a name of a rule, or the same before and after. -/
theorem target_cases (hi : m'.imports = m.imports) (q : List Name) : target u m' [] q = target u m [] q ∨
    ∃ x, q = [x] ∧ x ≠ optName ∧ x ≠ manName ∧ target u m [] [x] = (findRule m.rules x).map (.rule []) ∧
      target u m' [] [x] = (findRule m'.rules x).map (.rule []) := by
  unfold target
  by_cases hb : IsBuiltin u q
  · simp [hb]
  · simp only [modAt]
    rw [if_neg hb, if_neg hb]
    cases q with
    | nil => left; simp [lookupIn]
    | cons x rest =>
      simp only [lookupIn, hi]
      cases hf : m.imports.find? (fun i => i.name = x) with
      | some i => cases i <;> simp
      | none =>
        dsimp only
        by_cases hx : rest = [] ∧ x ≠ optName ∧ x ≠ manName
        · right
          obtain ⟨rfl, h1, h2⟩ := hx
          exact ⟨x, rfl, h1, h2, by rw [if_neg hb, hf]; simp [h1, h2], by rw [if_neg hb, hf]; simp [h1, h2]⟩
        · left; simp [hx]

/-! ## The inliner -/

theorem lookup_sig {ρ1 ρ : List (Name × Clo)} {xs : List Name} : ∀ {as bs : List Expr}, SRel u m ρ1 (.args ρ as bs) →
    ∀ {x n}, sig (xs.zip bs) x = some n →
    ∃ c, lookupClo x (xs.zip (as.map (Clo.mk [] ρ))) = some c ∧ SRel u m ρ1 (.one c n) := by
  induction xs with
  | nil => intro as bs _ x n h; simp [sig] at h
  | cons y xs ih =>
    intro as bs h x n hs
    cases h with
    | argsNil => simp [sig] at hs
    | argsCons h1 h2 =>
      simp only [List.zip_cons_cons, sig] at hs
      simp only [List.map_cons, List.zip_cons_cons, lookupClo]
      by_cases e : y = x
      · rw [if_pos e] at hs ⊢
        injection hs with hs
        exact ⟨_, rfl, hs ▸ h1⟩
      · rw [if_neg e] at hs ⊢
        exact ih h2 hs

theorem lookup_none {xs : List Name} {l : List Clo} {x : Name} (h : x ∉ xs) : lookupClo x (xs.zip l) = none := by
  cases h' : lookupClo x (xs.zip l) with
  | none => rfl
  | some c => exact absurd (lookup_zip_mem h') h

theorem gone_iff {x} : Gone u m [] [x] ↔ ∃ f, f ∈ m.rules ∧ f.inlined = true ∧ f.name = x ∧
    target u m [] [x] = some (.rule [] f) := by
  constructor
  · rintro ⟨f, h1, h2⟩
    obtain ⟨_, _, y, e, h3, _, _, _, h4⟩ := target_root h1
    injection e with e
    subst e
    exact ⟨f, (findRule_mem h4).1, h2, h3, h1⟩
  · rintro ⟨f, _, h2, _, h1⟩
    exact ⟨f, h1, h2⟩

variable {r : Rule} {ρ1 : List (Name × Clo)}

/-- The body of a silent rule with the parameters replaced. -/
theorem srel_body (hn : WellNamed u m) (hy : Hygienic u m) (hr : r ∈ m.rules) (hk : r.inlined = false)
    (hρ1 : ∀ x, x ∈ r.args ↔ ∃ c, lookupClo x ρ1 = some c) {f : Rule} (hf : f ∈ m.rules) (hi : f.inlined = true)
    {ρ : List (Name × Clo)} {as bs : List Expr} (ha : SRel u m ρ1 (.args ρ as bs)) (hl : f.args.length = bs.length)
    (hs : ∀ b ∈ bs, sepTrivia b = .none) :
    SRel u m ρ1 (.one (.mk [] (f.args.zip (as.map (Clo.mk [] ρ))) f.node) (f.node.subst (sig (f.args.zip bs)))) := by
  have none1 : ∀ {x}, x ∉ r.args → lookupClo x ρ1 = none := fun {x} hx => by
    cases h : lookupClo x ρ1 with
    | none => rfl
    | some c => exact absurd ((hρ1 x).mpr ⟨c, h⟩) hx
  refine srel_subst (fun x n hx => ⟨hs n (List.of_mem_zip (sig_mem hx)).2, lookup_sig ha hx⟩) _ ?_ ?_ ?_
  · intro x hx h0
    have h1 : x ∉ f.args := zip_fst hl ▸ sig_none h0
    exact .inl ⟨lookup_none h1, none1 fun h2 => h1 ((hy.capture f hf hi r hr hk x h2).1 hx)⟩
  · intro x bs hx
    exact ⟨lookup_none fun h => (hn.plain f hf x h).1 bs hx, none1 fun h => (hy.capture f hf hi r hr hk x h).2.1 bs hx⟩
  · intro x b hx
    exact ⟨lookup_none fun h => (hn.plain f hf x h).2 b hx, none1 fun h => (hy.capture f hf hi r hr hk x h).2.2 b hx⟩

/-- The body of a kept rule. -/
theorem srel_kept (hn : WellNamed u m) (hr : r ∈ m.rules) {ρ : List (Name × Clo)} (hρ : IRel u m (.env ρ ρ1))
    (hd : ∀ x, x ∈ r.args ↔ ∃ c, lookupClo x ρ = some c) : SRel u m ρ1 (.one (.mk [] ρ r.node) r.node) := by
  have h := srel_subst (u := u) (m := m) (ρ1 := ρ1) (ρ := ρ) (σ := fun _ => none) (fun x n hx => by simp at hx) r.node
    (fun x _ _ => irel_lookup hρ x) (fun x bs hx => ?_) (fun x b hx => ?_)
  · rwa [subst_none] at h
  · have : x ∉ r.args := fun hx' => (hn.plain r hr x hx').1 bs hx
    rcases irel_lookup hρ x with h | ⟨c, _, h, _⟩
    · exact h
    · exact absurd ((hd x).mpr ⟨c, h⟩) this
  · have : x ∉ r.args := fun hx' => (hn.plain r hr x hx').2 b hx
    rcases irel_lookup hρ x with h | ⟨c, _, h, _⟩
    · exact h
    · exact absurd ((hd x).mpr ⟨c, h⟩) this

/-- What a step does. -/
theorem inlineStep_ok (hn : WellNamed u m) (hy : Hygienic u m) (hr : r ∈ m.rules) (hk : r.inlined = false) {e e' : Expr}
    {b : Bool} (h : inlineStep (collectSilent none m) e = .ok (e', b)) (hm : Made m r e) :
    (b = false ∧ e' = e) ∨ b = true ∧ ∃ x bs f, e = .call [x] bs ∧ f ∈ m.rules ∧ f.inlined = true ∧
      target u m [] [x] = some (.rule [] f) ∧ f.args.length = bs.length ∧ (∀ b ∈ bs, Made m r b ∧ sepTrivia b = .none) ∧
      e' = f.node.subst (sig (f.args.zip bs)) := by
  unfold inlineStep at h
  split at h
  · rename_i p args
    split at h
    · cases h; exact .inl ⟨rfl, rfl⟩
    · rename_i x hx
      split at h
      · cases h; exact .inl ⟨rfl, rfl⟩
      · rename_i f' hf'
        obtain ⟨a1, as0, g, a2, a3, a4, _⟩ := hm.call p args .refl
        obtain ⟨rfl, hg⟩ := hy.scope g a2 p as0 x a4 hx (findSilent_name hf')
        obtain ⟨f, b1, b2, b3, b4⟩ := gone_iff.mp hg
        have := findSilent_root hn.rules b1 b2
        rw [b3, hf'] at this
        injection this with this
        subst this
        split at h
        · rename_i hl
          have hms : ∀ b ∈ args, Made m r b ∧ sepTrivia b = .none := fun b hb => ⟨hm.sub (.arg hb .refl), a1 b hb⟩
          have he := replaceArgs_eq hy hr hk b1 b2 hl fun b hb => (hms b hb).1
          dsimp only at h
          split at h
          · rename_i hb
            injection h with h
            rw [h] at hb he
            exact .inr ⟨hb, x, args, f', rfl, b1, b2, b4, hl, hms, he⟩
          · cases h; exact .inl ⟨rfl, rfl⟩
        · simp at h
  · cases h; exact .inl ⟨rfl, rfl⟩

/-- The result of inlining does not change the separator. -/
theorem inline_sep (hn : WellNamed u m) (hy : Hygienic u m) (hr : r ∈ m.rules) (hk : r.inlined = false) (fuel : Nat) :
    ∀ {e e1}, inlineNode (collectSilent none m) fuel e = .ok e1 → Made m r e → sepTrivia e1 = sepTrivia e := by
  induction fuel with
  | zero => intro e e1 h; simp [inlineNode] at h
  | succ fuel ih =>
    intro e e1 h hm
    simp only [inlineNode] at h
    obtain ⟨⟨e', b⟩, h1, h2⟩ := andThen_ok.mp h
    clear h
    dsimp only at h2
    rcases inlineStep_ok hn hy hr hk h1 hm with ⟨rfl, rfl⟩ | ⟨rfl, x, bs, f, rfl, hf, hi, _, hl, hms, rfl⟩
    · rw [if_neg (by decide)] at h2
      cases e' <;> simp only at h2 <;> first
        | (cases h2; rfl)
        | (obtain ⟨l, _, h3⟩ := andThen_ok.mp h2; obtain ⟨r, _, h4⟩ := andThen_ok.mp h3; cases h4; rfl)
        | (obtain ⟨l, _, h3⟩ := andThen_ok.mp h2; cases h3; rfl)
    · rw [if_pos rfl] at h2
      rw [ih h2 (Made.step hy hf hi hl hms), sepTrivia_subst _ fun y n _ hy' => (hms n (List.of_mem_zip (sig_mem hy')).2).2,
          (hy.sep f hf).1]
      rfl

/-- Inlining relates a closure to the result. -/
theorem inline_irel (hn : WellNamed u m) (hy : Hygienic u m) (hr : r ∈ m.rules) (hk : r.inlined = false)
    (hρ1 : ∀ x, x ∈ r.args ↔ ∃ c, lookupClo x ρ1 = some c) (fuel : Nat) :
    ∀ {e e1 c}, inlineNode (collectSilent none m) fuel e = .ok e1 → Made m r e → SRel u m ρ1 (.one c e) →
      Clean u m ρ1 e1 → IRel u m (.clo c (.mk [] ρ1 e1)) := by
  induction fuel with
  | zero => intro e e1 c h; simp [inlineNode] at h
  | succ fuel ih =>
    intro e e1 c h hm hs hc
    simp only [inlineNode] at h
    obtain ⟨⟨e', b⟩, h1, h2⟩ := andThen_ok.mp h
    clear h
    dsimp only at h2
    rcases inlineStep_ok hn hy hr hk h1 hm with ⟨rfl, rfl⟩ | ⟨rfl, x, bs, f, rfl, hf, hi, ht, hl, hms, rfl⟩
    · rw [if_neg (by decide)] at h2
      have same : e1 = e' → IRel u m (.clo c (.mk [] ρ1 e1)) := fun he => by subst he; exact srel_irel hs hc
      obtain ⟨c2, hch, hh⟩ := srel_head hs _ _ rfl
      cases e' with
      | str | insens | range | path | slice | call => simp only [Res.ok.injEq] at h2; exact same h2.symm
      | pos e =>
        obtain ⟨e2, a1, h3⟩ := andThen_ok.mp h2; cases h3
        refine hch.irel ?_
        cases hh with
        | lit hl => simp [literal] at hl
        | rep _ hr => simp [repetition] at hr
        | pos hh => exact .pos (ih a1 (hm.sub (.pos .refl)) hh (hc.sub (.pos .refl)))
      | neg e =>
        obtain ⟨e2, a1, h3⟩ := andThen_ok.mp h2; cases h3
        refine hch.irel ?_
        cases hh with
        | lit hl => simp [literal] at hl
        | rep _ hr => simp [repetition] at hr
        | neg hh => exact .neg (ih a1 (hm.sub (.neg .refl)) hh (hc.sub (.neg .refl)))
      | opt e =>
        obtain ⟨e2, a1, h3⟩ := andThen_ok.mp h2; cases h3
        refine hch.irel ?_
        cases hh with
        | lit hl => simp [literal] at hl
        | rep _ hr => simp [repetition] at hr
        | opt hh => exact .opt (ih a1 (hm.sub (.opt .refl)) hh (hc.sub (.opt .refl)))
      | separated e t =>
        obtain ⟨e2, a1, h3⟩ := andThen_ok.mp h2; cases h3
        refine hch.irel ?_
        cases hh with
        | lit hl => simp [literal] at hl
        | rep _ hr => simp [repetition] at hr
        | separated hh => exact .separated (ih a1 (hm.sub (.separated .refl)) hh (hc.sub (.separated .refl)))
      | rep e =>
        obtain ⟨e2, a1, h3⟩ := andThen_ok.mp h2; cases h3
        refine hch.irel ?_
        cases hh with
        | lit hl => simp [literal] at hl
        | rep b1 b2 b3 b4 =>
          simp only [repetition, Option.some.injEq, Prod.mk.injEq] at b2
          obtain ⟨rfl, rfl, rfl⟩ := b2
          exact .rep b1 rfl (b3.trans (inline_sep hn hy hr hk fuel a1 (hm.sub (.rep .refl))).symm)
            (ih a1 (hm.sub (.rep .refl)) b4 (hc.sub (.rep .refl)))
      | repOnce e =>
        obtain ⟨e2, a1, h3⟩ := andThen_ok.mp h2; cases h3
        refine hch.irel ?_
        cases hh with
        | lit hl => simp [literal] at hl
        | rep b1 b2 b3 b4 =>
          simp only [repetition, Option.some.injEq, Prod.mk.injEq] at b2
          obtain ⟨rfl, rfl, rfl⟩ := b2
          exact .rep b1 rfl (b3.trans (inline_sep hn hy hr hk fuel a1 (hm.sub (.repOnce .refl))).symm)
            (ih a1 (hm.sub (.repOnce .refl)) b4 (hc.sub (.repOnce .refl)))
      | repRange e bd =>
        obtain ⟨e2, a1, h3⟩ := andThen_ok.mp h2; cases h3
        refine hch.irel ?_
        cases hh with
        | lit hl => simp [literal] at hl
        | rep b1 b2 b3 b4 =>
          simp only [repetition, Option.some.injEq, Prod.mk.injEq] at b2
          obtain ⟨rfl, rfl, rfl⟩ := b2
          exact .rep b1 rfl (b3.trans (inline_sep hn hy hr hk fuel a1 (hm.sub (.repRange .refl))).symm)
            (ih a1 (hm.sub (.repRange .refl)) b4 (hc.sub (.repRange .refl)))
      | seq l r t =>
        obtain ⟨l2, a1, h3⟩ := andThen_ok.mp h2
        obtain ⟨r2, a2, h4⟩ := andThen_ok.mp h3; cases h4
        refine hch.irel ?_
        cases hh with
        | lit hl => simp [literal] at hl
        | rep _ hr => simp [repetition] at hr
        | seq hh1 hh2 =>
          exact .seq (ih a1 (hm.sub (.seqL .refl)) hh1 (hc.sub (.seqL .refl)))
            (ih a2 (hm.sub (.seqR .refl)) hh2 (hc.sub (.seqR .refl)))
      | choice l r =>
        obtain ⟨l2, a1, h3⟩ := andThen_ok.mp h2
        obtain ⟨r2, a2, h4⟩ := andThen_ok.mp h3; cases h4
        refine hch.irel ?_
        cases hh with
        | lit hl => simp [literal] at hl
        | rep _ hr => simp [repetition] at hr
        | choice hh1 hh2 =>
          exact .choice (ih a1 (hm.sub (.choiceL .refl)) hh1 (hc.sub (.choiceL .refl)))
            (ih a2 (hm.sub (.choiceR .refl)) hh2 (hc.sub (.choiceR .refl)))
    · rw [if_pos rfl] at h2
      obtain ⟨c2, hch, hh⟩ := srel_head hs _ _ rfl
      refine hch.irel ?_
      cases hh with
      | lit hl => simp [literal] at hl
      | rep _ hr => simp [repetition] at hr
      | @call ρ _ as _ b1 b2 b3 =>
        refine .inline b1 ht hi (by rw [hl, srel_args_length b3]) ?_
        exact ih h2 (Made.step hy hf hi hl hms) (srel_body hn hy hr hk hρ1 hf hi b3 hl fun b hb => (hms b hb).2) hc

/-! ## The grammar after inlining -/

theorem inlineRules_ok {sm : SilentMap} {fuel : Nat} : ∀ {rules rules'}, inlineRules sm fuel rules = .ok rules' →
    (∀ x, (∀ r', findRule rules' x = some r' → ∃ r e, findRule rules x = some r ∧ inlineNode sm fuel r.node = .ok e ∧ r' = { r with node := e }) ∧
      (∀ r, findRule rules x = some r → ∃ e, findRule rules' x = some { r with node := e } ∧ inlineNode sm fuel r.node = .ok e)) ∧
    rules'.map Rule.name = rules.map Rule.name ∧
    ∀ r' ∈ rules', ∃ r e, r ∈ rules ∧ inlineNode sm fuel r.node = .ok e ∧ r' = { r with node := e } := by
  intro rules
  induction rules with
  | nil => intro rules' h; simp only [inlineRules, Res.ok.injEq] at h; subst h; simp [findRule]
  | cons r rules ih =>
    intro rules' h
    simp only [inlineRules] at h
    obtain ⟨e, h1, h⟩ := andThen_ok.mp h
    obtain ⟨rest, h2, h⟩ := andThen_ok.mp h
    cases h
    obtain ⟨i1, i2, i3⟩ := ih h2
    refine ⟨fun x => ?_, by simp [i2], ?_⟩
    · simp only [findRule, List.find?_cons]
      by_cases hx : r.name = x
      · subst hx
        simp only [decide_true, Option.some.injEq, forall_eq']
        exact ⟨⟨r, e, rfl, h1, rfl⟩, e, rfl, h1⟩
      · simp only [hx, decide_false]
        exact i1 x
    · intro r' hr'
      rcases List.mem_cons.mp hr' with rfl | hr'
      · exact ⟨r, e, List.mem_cons_self, h1, rfl⟩
      · obtain ⟨r0, e0, a1, a2⟩ := i3 r' hr'
        exact ⟨r0, e0, List.mem_cons_of_mem _ a1, a2⟩

theorem kept_iff (r : Rule) : (!r.silent || r.args.isEmpty) = !r.inlined := by
  unfold Rule.inlined; cases r.silent <;> cases r.args.isEmpty <;> rfl

/-- The rules of the grammar after inlining. -/
theorem inlineModule_ok (hn : WellNamed u m) {fuel : Nat} (h : inlineModule fuel m = .ok m') : m'.imports = m.imports ∧
    (∀ x r', findRule m'.rules x = some r' → ∃ r e, findRule m.rules x = some r ∧ r ∈ m.rules ∧ r.inlined = false ∧
      inlineNode (collectSilent none m) fuel r.node = .ok e ∧ r' = { r with node := e }) ∧
    (∀ x r, findRule m.rules x = some r → r.inlined = false → ∃ e, findRule m'.rules x = some { r with node := e } ∧
      inlineNode (collectSilent none m) fuel r.node = .ok e) ∧
    (m'.rules.map Rule.name).Nodup ∧
    ∀ r' ∈ m'.rules, ∃ r e, r ∈ m.rules ∧ r.inlined = false ∧ inlineNode (collectSilent none m) fuel r.node = .ok e ∧
      r' = { r with node := e } := by
  unfold inlineModule at h
  obtain ⟨rules, h1, h2⟩ := andThen_ok.mp h
  cases h2
  obtain ⟨a1, a2, a3⟩ := inlineRules_ok h1
  have hnd : ((m.rules.filter fun r => !r.silent || r.args.isEmpty).map Rule.name).Nodup :=
    hn.rules.sublist (List.filter_sublist.map _)
  have hf : ∀ {x r}, findRule (m.rules.filter fun r => !r.silent || r.args.isEmpty) x = some r →
      findRule m.rules x = some r ∧ r ∈ m.rules ∧ r.inlined = false := fun {x r} h => by
    obtain ⟨b1, b2⟩ := findRule_mem h
    obtain ⟨c1, c2⟩ := List.mem_filter.mp b1
    exact ⟨b2 ▸ findRule_eq hn.rules c1, c1, by simpa [kept_iff] using c2⟩
  refine ⟨rfl, fun x r' hr' => ?_, fun x r hr hk => ?_, by simp only [Module.rules, a2]; exact hnd, fun r' hr' => ?_⟩
  · obtain ⟨r, e, b1, b2, b3⟩ := (a1 x).1 r' hr'
    obtain ⟨c1, c2, c3⟩ := hf b1
    exact ⟨r, e, c1, c2, c3, b2, b3⟩
  · obtain ⟨b1, b2⟩ := findRule_mem hr
    exact (a1 x).2 r (b2 ▸ findRule_eq hnd (List.mem_filter.mpr ⟨b1, by simp [kept_iff, hk]⟩))
  · obtain ⟨r, e, b1, b2, b3⟩ := a3 r' hr'
    obtain ⟨c1, c2⟩ := List.mem_filter.mp b1
    exact ⟨r, e, c1, by simpa [kept_iff] using c2, b2, b3⟩

/-- The rule after inlining is related to the rule before. -/
theorem kept_irel (hn : WellNamed u m) (hy : Hygienic u m) {fuel : Nat} (hl : NoneLeft u m m')
    {r : Rule} (hr : r ∈ m.rules) (hk : r.inlined = false) {e : Expr} (he : inlineNode (collectSilent none m) fuel r.node = .ok e)
    (hm : { r with node := e } ∈ m'.rules) {ρ ρ1 : List (Name × Clo)} (hρ : IRel u m (.env ρ ρ1))
    (hd : ∀ x, x ∈ r.args ↔ ∃ c, lookupClo x ρ = some c) : IRel u m (.clo (.mk [] ρ r.node) (.mk [] ρ1 e)) := by
  have hd1 : ∀ x, x ∈ r.args ↔ ∃ c, lookupClo x ρ1 = some c := fun x => by
    rw [hd x]
    rcases irel_lookup hρ x with ⟨h1, h2⟩ | ⟨c, c', h1, h2, _⟩ <;> simp [h1, h2]
  refine inline_irel hn hy hr hk hd1 fuel he (Made.start hy hr) (srel_kept hn hr hρ hd) fun q hq => ?_
  rcases hl _ hm q hq with ⟨x, hx, rfl⟩ | hg
  · obtain ⟨c, hc⟩ := (hd1 x).mp hx
    exact .inl ⟨x, c, rfl, hc⟩
  · exact .inr hg

theorem inline_sim (hn : AllNamed u m) (hy : Hygienic u m) {fuel : Nat} (h : inlineModule fuel m = .ok m')
    (hl : NoneLeft u m m') : Sim u m m' := by
  have hw := hn m .refl
  obtain ⟨hi, k1, k2, k3, k4⟩ := inlineModule_ok hw h
  have same : ∀ {p q p' r}, target u m p q = some (.rule p' r) → p' ≠ [] → ∀ ρ ρ', IRel u m (.env ρ ρ') →
      (∀ x, x ∈ r.args ↔ ∃ c, lookupClo x ρ = some c) → IRel u m (.clo (.mk p' ρ r.node) (.mk p' ρ' r.node)) := by
    intro p q p' r ht hp ρ ρ' hρ hd
    obtain ⟨a, b1, b2, _⟩ := target_rule ht
    have hpl := (hn a (modAt_in p' b1)).plain r (findRule_mem b2).1
    exact irel_same hρ r.node (fun x c hx => hpl x ((hd x).mpr ⟨c, hx⟩)) fun q _ => .inr (not_gone hp)
  refine ⟨fun p q p' r hg ht => ?_, fun p q p' r' ht => ?_, fun p q full => ?_, fun p t a r ha hr => ?_, fun p t a r ha hr => ?_⟩
  · by_cases hp : p' = []
    · subst hp
      obtain ⟨rfl, hb, x, rfl, hx, hf, ho, hm, hr⟩ := target_root ht
      have hk : r.inlined = false := by
        cases hk : r.inlined with
        | false => rfl
        | true => exact absurd ⟨r, ht, hk⟩ hg
      obtain ⟨e, c1, c2⟩ := k2 x r hr hk
      refine ⟨{ r with node := e }, ?_, rfl, ⟨rfl, rfl⟩, fun ρ ρ' hρ hd => kept_irel hw hy hl (findRule_mem hr).1 hk c2 (findRule_mem c1).1 hρ hd⟩
      unfold target
      rw [if_neg hb]
      simp only [modAt, lookupIn, hi, hf, ne_eq, ho, hm, not_false_eq_true, and_self, if_true, c1, Option.map_some]
    · refine ⟨r, ?_, rfl, ⟨rfl, rfl⟩, same ht hp⟩
      by_cases hp0 : p = []
      · subst hp0
        rcases target_cases hi q with he | ⟨x, rfl, _, _, h1, _⟩
        · rw [he, ht]
        · rw [h1, Option.map_eq_some_iff] at ht
          obtain ⟨_, _, ht⟩ := ht
          injection ht with ht
          exact absurd ht.symm hp
      · rw [target_same hi hp0, ht]
  · by_cases hp0 : p = []
    · subst hp0
      rcases target_cases hi q with he | ⟨x, rfl, _, _, h1, h2⟩
      · exact ⟨r', by rw [← he, ht]⟩
      · rw [h2, Option.map_eq_some_iff] at ht
        obtain ⟨r0, h3, ht⟩ := ht
        injection ht with ht
        subst ht
        obtain ⟨r, _, h4, _⟩ := k1 x r0 h3
        exact ⟨r, by rw [h1, h4]; rfl⟩
    · exact ⟨r', by rw [← target_same hi hp0, ht]⟩
  · by_cases hp0 : p = []
    · subst hp0
      rcases target_cases hi q with he | ⟨x, rfl, _, _, h1, h2⟩
      · rw [he]
      · rw [h1, h2]; simp [Option.map_eq_some_iff]
    · rw [target_same hi hp0]
  · by_cases hp0 : p = []
    · subst hp0
      simp only [modAt, Option.some.injEq] at ha
      subst ha
      have key : ∀ x, (x = optName ∨ x = manName) → findRule m.rules x = some r → ∃ e, findRule m'.rules x = some { r with node := e } ∧
          IRel u m (.clo (.mk [] [] r.node) (.mk [] [] e)) := fun x hx hr => by
        obtain ⟨a1, a2⟩ := findRule_mem hr
        have ha := hw.trivia r a1 (a2 ▸ hx)
        have hk : r.inlined = false := by simp [Rule.inlined, ha]
        obtain ⟨e, c1, c2⟩ := k2 x r hr hk
        exact ⟨e, c1, kept_irel hw hy hl a1 hk c2 (findRule_mem c1).1 .nil fun x => by simp [ha, lookupClo]⟩
      cases t with
      | none => simp [triviaRule] at hr
      | optional =>
        obtain ⟨e, c1, c2⟩ := key optName (.inl rfl) hr
        exact ⟨m', _, rfl, c1, c2⟩
      | mandatory =>
        obtain ⟨e, c1, c2⟩ := key manName (.inr rfl) hr
        exact ⟨m', _, rfl, c1, c2⟩
    · exact ⟨a, r, by rw [modAt_same hi hp0, ha], hr,
        irel_same .nil r.node (fun x c hx => by simp [lookupClo] at hx) fun q _ => .inr (not_gone hp0)⟩
  · by_cases hp0 : p = []
    · subst hp0
      simp only [modAt, Option.some.injEq] at ha
      subst ha
      cases t with
      | none => simp [triviaRule] at hr
      | optional => obtain ⟨r, _, a1, _⟩ := k1 _ _ hr; exact ⟨m, r, rfl, a1⟩
      | mandatory => obtain ⟨r, _, a1, _⟩ := k1 _ _ hr; exact ⟨m, r, rfl, a1⟩
    · exact ⟨a, r, by rw [← modAt_same hi hp0, ha], hr⟩

/-! ## Naming after inlining -/

theorem Made.unary {e e' : Expr} (hs : ∀ s, Sub s e' → s = e' ∨ Sub s e) (hp : ∀ q, e' ≠ .path q) (hq : ∀ q as, e' ≠ .call q as)
    (hb : ∀ q b, e' ≠ .slice q b) (h : Made m r e) : Made m r e' :=
  ⟨fun y hy => h.name y ((hs _ hy).resolve_left fun e => hp _ e.symm),
   fun q as hc => h.call q as ((hs _ hc).resolve_left fun e => hq _ _ e.symm),
   fun q b hc => h.slice q b ((hs _ hc).resolve_left fun e => hb _ _ e.symm)⟩

theorem Made.binary {e1 e2 e' : Expr} (hs : ∀ s, Sub s e' → s = e' ∨ Sub s e1 ∨ Sub s e2) (hp : ∀ q, e' ≠ .path q)
    (hq : ∀ q as, e' ≠ .call q as) (hb : ∀ q b, e' ≠ .slice q b) (h1 : Made m r e1) (h2 : Made m r e2) : Made m r e' :=
  ⟨fun y hy => ((hs _ hy).resolve_left fun e => hp _ e.symm).elim (h1.name y) (h2.name y),
   fun q as hc => ((hs _ hc).resolve_left fun e => hq _ _ e.symm).elim (h1.call q as) (h2.call q as),
   fun q b hc => ((hs _ hc).resolve_left fun e => hb _ _ e.symm).elim (h1.slice q b) (h2.slice q b)⟩

theorem inline_made (hn : WellNamed u m) (hy : Hygienic u m) (hr : r ∈ m.rules) (hk : r.inlined = false) (fuel : Nat) :
    ∀ {e e1}, inlineNode (collectSilent none m) fuel e = .ok e1 → Made m r e → Made m r e1 := by
  induction fuel with
  | zero => intro e e1 h; simp [inlineNode] at h
  | succ fuel ih =>
    intro e e1 h hm
    simp only [inlineNode] at h
    obtain ⟨⟨e', b⟩, h1, h2⟩ := andThen_ok.mp h
    clear h
    dsimp only at h2
    rcases inlineStep_ok hn hy hr hk h1 hm with ⟨rfl, rfl⟩ | ⟨rfl, x, bs, f, rfl, hf, hi, _, hl, hms, rfl⟩
    · rw [if_neg (by decide)] at h2
      cases e' with
      | str | insens | range | path | slice | call => simp only [Res.ok.injEq] at h2; exact h2 ▸ hm
      | pos e =>
        obtain ⟨e2, a1, h3⟩ := andThen_ok.mp h2; cases h3
        exact Made.unary (fun s hs => by cases hs with | refl => exact .inl rfl | pos hs => exact .inr hs) (by simp) (by simp) (by simp)
          (ih a1 (hm.sub (.pos .refl)))
      | neg e =>
        obtain ⟨e2, a1, h3⟩ := andThen_ok.mp h2; cases h3
        exact Made.unary (fun s hs => by cases hs with | refl => exact .inl rfl | neg hs => exact .inr hs) (by simp) (by simp) (by simp)
          (ih a1 (hm.sub (.neg .refl)))
      | opt e =>
        obtain ⟨e2, a1, h3⟩ := andThen_ok.mp h2; cases h3
        exact Made.unary (fun s hs => by cases hs with | refl => exact .inl rfl | opt hs => exact .inr hs) (by simp) (by simp) (by simp)
          (ih a1 (hm.sub (.opt .refl)))
      | separated e t =>
        obtain ⟨e2, a1, h3⟩ := andThen_ok.mp h2; cases h3
        exact Made.unary (fun s hs => by cases hs with | refl => exact .inl rfl | separated hs => exact .inr hs) (by simp) (by simp) (by simp)
          (ih a1 (hm.sub (.separated .refl)))
      | rep e =>
        obtain ⟨e2, a1, h3⟩ := andThen_ok.mp h2; cases h3
        exact Made.unary (fun s hs => by cases hs with | refl => exact .inl rfl | rep hs => exact .inr hs) (by simp) (by simp) (by simp)
          (ih a1 (hm.sub (.rep .refl)))
      | repOnce e =>
        obtain ⟨e2, a1, h3⟩ := andThen_ok.mp h2; cases h3
        exact Made.unary (fun s hs => by cases hs with | refl => exact .inl rfl | repOnce hs => exact .inr hs) (by simp) (by simp) (by simp)
          (ih a1 (hm.sub (.repOnce .refl)))
      | repRange e bd =>
        obtain ⟨e2, a1, h3⟩ := andThen_ok.mp h2; cases h3
        exact Made.unary (fun s hs => by cases hs with | refl => exact .inl rfl | repRange hs => exact .inr hs) (by simp) (by simp) (by simp)
          (ih a1 (hm.sub (.repRange .refl)))
      | seq l r t =>
        obtain ⟨l2, a1, h3⟩ := andThen_ok.mp h2
        obtain ⟨r2, a2, h4⟩ := andThen_ok.mp h3; cases h4
        exact Made.binary (fun s hs => by
            cases hs with
            | refl => exact .inl rfl
            | seqL hs => exact .inr (.inl hs)
            | seqR hs => exact .inr (.inr hs)) (by simp) (by simp) (by simp)
          (ih a1 (hm.sub (.seqL .refl))) (ih a2 (hm.sub (.seqR .refl)))
      | choice l r =>
        obtain ⟨l2, a1, h3⟩ := andThen_ok.mp h2
        obtain ⟨r2, a2, h4⟩ := andThen_ok.mp h3; cases h4
        exact Made.binary (fun s hs => by
            cases hs with
            | refl => exact .inl rfl
            | choiceL hs => exact .inr (.inl hs)
            | choiceR hs => exact .inr (.inr hs)) (by simp) (by simp) (by simp)
          (ih a1 (hm.sub (.choiceL .refl))) (ih a2 (hm.sub (.choiceR .refl)))
    · rw [if_pos rfl] at h2
      exact ih h2 (Made.step hy hf hi hl hms)

theorem inline_named (hn : AllNamed u m) (hy : Hygienic u m) {fuel : Nat} (h : inlineModule fuel m = .ok m') : AllNamed u m' := by
  have hw := hn m .refl
  obtain ⟨hi, k1, k2, k3, k4⟩ := inlineModule_ok hw h
  intro a ha
  cases ha with
  | step h1 h2 => exact hn a (.step (hi ▸ h1) h2)
  | refl =>
    refine ⟨k3, hi ▸ hw.imports, hi ▸ hw.pest, hi ▸ hw.alias, fun r' hr' hx => ?_, fun r' hr' x hx => ?_⟩
    · obtain ⟨r, e, a1, a2, a3, rfl⟩ := k4 r' hr'
      exact hw.trivia r a1 hx
    · obtain ⟨r, e, a1, a2, a3, rfl⟩ := k4 r' hr'
      have hm := inline_made hw hy a1 a2 fuel a3 (Made.start hy a1)
      refine ⟨fun as hs => ?_, fun b hs => ?_⟩
      · obtain ⟨_, as0, g, b1, b2, b3, _⟩ := hm.call _ _ hs
        rcases b2 with rfl | b2
        · exact (hw.plain _ a1 x hx).1 _ b3
        · exact (hy.capture g b1 b2 r a1 a2 x hx).2.1 _ b3
      · obtain ⟨g, b1, b2, b3⟩ := hm.slice _ _ hs
        rcases b2 with rfl | b2
        · exact (hw.plain _ a1 x hx).2 _ b3
        · exact (hy.capture g b1 b2 r a1 a2 x hx).2.2 _ b3

end

end Pest3.Gen
