import Verif.InlineTerm
import Verif.InlineNone
import Verif.ScopeSpec
import Verif.LinkGen

/-!
# Well-scoped grammars stay well-scoped when silent rules with parameters are replaced
-/

namespace Pest3.Gen
open Pest3

/-- The conditions under which all calls of silent rules with parameters can be replaced: each of them uses a parameter, none is called in an argument of a
call, and none calls itself, directly or through others. -/
structure Expandable (m : Module) (rank : Name → Nat) : Prop where
  uses : ∀ f ∈ m.rules, f.inlined = true → ∃ x ∈ f.args, Occurs x f.node
  args : ∀ r ∈ m.rules, ∀ q as, Sub (.call q as) r.node → ∀ a ∈ as, ∀ f ∈ m.rules, f.inlined = true → ∀ bs, ¬ Sub (.call [f.name] bs) a
  rank : ∀ f ∈ m.rules, f.inlined = true → ∀ g ∈ m.rules, g.inlined = true → ∀ as, Sub (.call [g.name] as) f.node → rank g.name < rank f.name

section
variable {u : Unicode} {m m' : Module} {r : Rule}

variable (u m r) in
/-- What holds of the parts of expressions on the way. -/
def PartOk : Expr → Prop
  | .path q => (∃ x ∈ r.args, q = [x]) ∨ Usable u m q .plain
  | .call _ as => ∀ a ∈ as, ∀ f ∈ m.rules, f.inlined = true → ∀ bs, ¬ Sub (.call [f.name] bs) a
  | .seq _ _ t => t = .none ∨ ∃ g ∈ m.rules, UsesTrivia t g.node
  | .separated _ t => t = .none ∨ ∃ g ∈ m.rules, UsesTrivia t g.node
  | _ => True

variable (u m r) in
/-- What holds of the parts of the result. -/
def PartDone : Expr → Prop
  | .path q => (∃ x ∈ r.args, q = [x]) ∨ Usable u m q .plain
  | .call q _ => ∀ f ∈ m.rules, f.inlined = true → q ≠ [f.name]
  | .seq _ _ t => t = .none ∨ ∃ g ∈ m.rules, UsesTrivia t g.node
  | .separated _ t => t = .none ∨ ∃ g ∈ m.rules, UsesTrivia t g.node
  | _ => True

theorem partOk_rule (hsc : WellScoped u m) {rank : Name → Nat} (hex : Expandable m rank) (hr : r ∈ m.rules) {s : Expr} (hs : Sub s r.node) : PartOk u m r s := by
  cases s with
  | path q => exact (hsc.refs r hr).path q hs
  | call q as => exact hex.args r hr q as hs
  | seq l r' t => exact .inr ⟨r, hr, .inl ⟨_, _, hs⟩⟩
  | separated e t => exact .inr ⟨r, hr, .inr ⟨_, hs⟩⟩
  | _ => trivial

theorem subst_eq_seq {σ : Name → Option Expr} {s0 l r : Expr} {t} (h : .seq l r t = s0.subst σ)
    (hs : ∀ x, s0 = .path [x] → σ x = none) : ∃ l0 r0, s0 = .seq l0 r0 t := by
  cases s0 with
  | path p =>
    match p with
    | [] => simp [Expr.subst] at h
    | [x] => simp [Expr.subst, hs x rfl] at h
    | _ :: _ :: _ => simp [Expr.subst] at h
  | seq l0 r0 t0 =>
    simp only [Expr.subst, Expr.seq.injEq] at h
    exact ⟨l0, r0, by rw [h.2.2]⟩
  | _ => simp [Expr.subst] at h

theorem subst_eq_separated {σ : Name → Option Expr} {s0 e : Expr} {t} (h : .separated e t = s0.subst σ)
    (hs : ∀ x, s0 = .path [x] → σ x = none) : ∃ e0, s0 = .separated e0 t := by
  cases s0 with
  | path p =>
    match p with
    | [] => simp [Expr.subst] at h
    | [x] => simp [Expr.subst, hs x rfl] at h
    | _ :: _ :: _ => simp [Expr.subst] at h
  | separated e0 t0 =>
    simp only [Expr.subst, Expr.separated.injEq] at h
    exact ⟨e0, by rw [h.2]⟩
  | _ => simp [Expr.subst] at h

theorem partOk_step (hsc : WellScoped u m) {rank : Name → Nat} (hex : Expandable m rank) {f : Rule} (hf : f ∈ m.rules) {bs : List Expr}
    (hl : f.args.length = bs.length) (hb : ∀ b ∈ bs, ∀ s, Sub s b → PartOk u m r s)
    (hno : ∀ b ∈ bs, ∀ g ∈ m.rules, g.inlined = true → ∀ cs, ¬ Sub (.call [g.name] cs) b) {s : Expr}
    (hs : Sub s (f.node.subst (sig (f.args.zip bs)))) : PartOk u m r s := by
  have himg : ∀ x n, sig (f.args.zip bs) x = some n → n ∈ bs := fun x n h => (List.of_mem_zip (sig_mem h)).2
  rcases sub_subst _ hs with ⟨x, n, _, h2, h3⟩ | ⟨s0, h1, h2, h3⟩
  · exact hb n (himg x n h2) s h3
  · cases s with
    | path q =>
      have := subst_eq_path h2 h3
      subst this
      rcases (hsc.refs f hf).path q h1 with ⟨x, hx, rfl⟩ | h
      · exact absurd hx (by rw [← zip_fst hl]; exact sig_none (h3 x rfl))
      · exact .inr h
    | call q as =>
      obtain ⟨as0, rfl, rfl⟩ := subst_eq_call h2 h3
      intro a ha g hg hgi cs hc
      obtain ⟨a0, ha0, rfl⟩ := List.mem_map.mp ha
      rcases sub_subst _ hc with ⟨x, n, _, h4, h5⟩ | ⟨s0, h4, h5, h6⟩
      · exact hno n (himg x n h4) g hg hgi cs h5
      · obtain ⟨as1, rfl, -⟩ := subst_eq_call h5 h6
        exact hex.args f hf q as0 h1 a0 ha0 g hg hgi as1 h4
    | seq l r' t =>
      obtain ⟨l0, r0, rfl⟩ := subst_eq_seq h2 h3
      exact .inr ⟨f, hf, .inl ⟨_, _, h1⟩⟩
    | separated e t =>
      obtain ⟨e0, rfl⟩ := subst_eq_separated h2 h3
      exact .inr ⟨f, hf, .inr ⟨_, h1⟩⟩
    | _ => trivial

theorem replaceArgs_reports : ∀ (l : List (Name × Expr)) (e : Expr), (∃ x ∈ l.map Prod.fst, Occurs x e) → (replaceArgs l e).2 = true
  | [], e, ⟨x, hx, _⟩ => by simp at hx
  | (y, a) :: l, e, ⟨x, hx, hxo⟩ => by
    simp only [replaceArgs, Bool.or_eq_true]
    by_cases hy : Occurs y e
    · exact .inl ((replace_reports y a e).mpr hy)
    · have hne : x ≠ y := fun e => hy (e ▸ hxo)
      refine .inr (replaceArgs_reports l _ ⟨x, ?_, ?_⟩)
      · simpa [hne] using hx
      · rw [replace_subst y a e fun p pre b post hs hb => absurd (Sub.trans (.arg (by simp) hb) hs) hy, subst_single_of_not_occurs hy]
        exact hxo

/-- A call of a silent rule with parameters is replaced. -/
theorem inlineStep_call (hn : WellNamed u m) {rank : Name → Nat} (hex : Expandable m rank) {f : Rule} (hf : f ∈ m.rules) (hi : f.inlined = true) {args : List Expr} {e' : Expr} {b : Bool}
    (h : inlineStep (collectSilent none m) (.call [f.name] args) = .ok (e', b)) : b = true := by
  unfold inlineStep at h
  simp only [List.getLast?_singleton] at h
  rw [findSilent_root hn.rules hf hi] at h
  dsimp only at h
  split at h
  · rename_i hl
    obtain ⟨x, hx, ho⟩ := hex.uses f hf hi
    rw [replaceArgs_reports _ _ ⟨x, by rw [zip_fst hl]; exact hx, ho⟩, if_pos rfl] at h
    injection h with h
    have := replaceArgs_reports (f.args.zip args) f.node ⟨x, by rw [zip_fst hl]; exact hx, ho⟩
    rw [h] at this
    exact this
  · cases h

theorem inline_done (hn : WellNamed u m) (hy : Hygienic u m) (hr : r ∈ m.rules) (hk : r.inlined = false) (hsc : WellScoped u m) {rank : Name → Nat} (hex : Expandable m rank) (fuel : Nat) :
    ∀ {e e1}, inlineNode (collectSilent none m) fuel e = .ok e1 → Made m r e → (∀ s, Sub s e → PartOk u m r s) → ∀ s, Sub s e1 → PartDone u m r s := by
  induction fuel with
  | zero => intro e e1 h; simp [inlineNode] at h
  | succ fuel ih =>
    intro e e1 h hm hp
    simp only [inlineNode] at h
    obtain ⟨⟨e', b⟩, h1, h2⟩ := andThen_ok.mp h
    clear h
    dsimp only at h2
    rcases inlineStep_ok hn hy hr hk h1 hm with ⟨rfl, rfl⟩ | ⟨rfl, x, bs, f, rfl, hf, hi, ht, hl, hms, rfl⟩
    · rw [if_neg (by decide)] at h2
      cases e' with
      | str | insens | range | slice => simp only [Res.ok.injEq] at h2; subst h2; intro s hs; cases hs; trivial
      | path q => simp only [Res.ok.injEq] at h2; subst h2; intro s hs; cases hs; exact hp _ .refl
      | call q as =>
        simp only [Res.ok.injEq] at h2
        subst h2
        intro s hs
        cases hs with
        | refl =>
          rintro f hf hi rfl
          exact absurd (inlineStep_call hn hex hf hi h1) (by decide)
        | arg ha hs =>
          rename_i a
          have h3 := hp _ (.arg ha hs)
          cases s with
          | call q' as' =>
            rintro f hf hi rfl
            exact hp _ .refl a ha f hf hi _ hs
          | path | seq | separated => exact h3
          | _ => trivial
      | pos e =>
        obtain ⟨e2, a1, h3⟩ := andThen_ok.mp h2; cases h3
        intro s hs
        cases hs with
        | refl => trivial
        | pos hs => exact ih a1 (hm.sub (.pos .refl)) (fun s hs => hp s (.pos hs)) s hs
      | neg e =>
        obtain ⟨e2, a1, h3⟩ := andThen_ok.mp h2; cases h3
        intro s hs
        cases hs with
        | refl => trivial
        | neg hs => exact ih a1 (hm.sub (.neg .refl)) (fun s hs => hp s (.neg hs)) s hs
      | opt e =>
        obtain ⟨e2, a1, h3⟩ := andThen_ok.mp h2; cases h3
        intro s hs
        cases hs with
        | refl => trivial
        | opt hs => exact ih a1 (hm.sub (.opt .refl)) (fun s hs => hp s (.opt hs)) s hs
      | rep e =>
        obtain ⟨e2, a1, h3⟩ := andThen_ok.mp h2; cases h3
        intro s hs
        cases hs with
        | refl => trivial
        | rep hs => exact ih a1 (hm.sub (.rep .refl)) (fun s hs => hp s (.rep hs)) s hs
      | repOnce e =>
        obtain ⟨e2, a1, h3⟩ := andThen_ok.mp h2; cases h3
        intro s hs
        cases hs with
        | refl => trivial
        | repOnce hs => exact ih a1 (hm.sub (.repOnce .refl)) (fun s hs => hp s (.repOnce hs)) s hs
      | repRange e bd =>
        obtain ⟨e2, a1, h3⟩ := andThen_ok.mp h2; cases h3
        intro s hs
        cases hs with
        | refl => trivial
        | repRange hs => exact ih a1 (hm.sub (.repRange .refl)) (fun s hs => hp s (.repRange hs)) s hs
      | separated e t =>
        obtain ⟨e2, a1, h3⟩ := andThen_ok.mp h2; cases h3
        intro s hs
        cases hs with
        | refl => exact hp _ .refl
        | separated hs => exact ih a1 (hm.sub (.separated .refl)) (fun s hs => hp s (.separated hs)) s hs
      | seq l r' t =>
        obtain ⟨l2, a1, h3⟩ := andThen_ok.mp h2
        obtain ⟨r2, a2, h4⟩ := andThen_ok.mp h3; cases h4
        intro s hs
        cases hs with
        | refl => exact hp _ .refl
        | seqL hs => exact ih a1 (hm.sub (.seqL .refl)) (fun s hs => hp s (.seqL hs)) s hs
        | seqR hs => exact ih a2 (hm.sub (.seqR .refl)) (fun s hs => hp s (.seqR hs)) s hs
      | choice l r' =>
        obtain ⟨l2, a1, h3⟩ := andThen_ok.mp h2
        obtain ⟨r2, a2, h4⟩ := andThen_ok.mp h3; cases h4
        intro s hs
        cases hs with
        | refl => trivial
        | choiceL hs => exact ih a1 (hm.sub (.choiceL .refl)) (fun s hs => hp s (.choiceL hs)) s hs
        | choiceR hs => exact ih a2 (hm.sub (.choiceR .refl)) (fun s hs => hp s (.choiceR hs)) s hs
    · rw [if_pos rfl] at h2
      refine ih h2 (Made.step hy hf hi hl hms) fun s hs => partOk_step hsc hex hf hl (fun b hb s hs => hp s (.arg hb hs)) (fun b hb => hp _ .refl b hb) hs

theorem usable_kept (hn : WellNamed u m) {fuel : Nat} (h : inlineModule fuel m = .ok m') {q : List Name} {use : Use} (hu : Usable u m q use)
    (hq : ∀ r, target u m [] q = some (.rule [] r) → r.inlined = false) : Usable u m' q use := by
  obtain ⟨hi, -, k2, -, -⟩ := inlineModule_ok hn h
  refine ⟨hu.1, ?_⟩
  have h2 := hu.2
  rcases target_cases hi q with he | ⟨x, rfl, h3, h4, h5, h6⟩
  · rw [he]; exact h2
  · rw [h5] at h2
    have nob : ∀ full, (findRule m.rules x).map (Target.rule []) ≠ some (.builtin full) := by
      intro full h; cases hx : findRule m.rules x <;> simp [hx] at h
    have rule : ∀ {p r0}, (findRule m.rules x).map (Target.rule []) = some (.rule p r0) → ∃ r1, target u m' [] [x] = some (.rule p r1) ∧ r1.args = r0.args := by
      intro p r0 h
      rw [Option.map_eq_some_iff] at h
      obtain ⟨r', h7, h8⟩ := h
      injection h8 with h8 h9
      subst h8 h9
      obtain ⟨e, k, -⟩ := k2 x r' h7 (hq r' (by rw [h5, h7]; rfl))
      exact ⟨{ r' with node := e }, by rw [h6, k]; rfl, rfl⟩
    cases use with
    | plain =>
      rcases h2 with ⟨full, l, h, -⟩ | ⟨p, r0, h, ha⟩
      · exact absurd h (nob _)
      · obtain ⟨r1, c1, c2⟩ := rule h
        exact .inr ⟨p, r1, c1, c2.trans ha⟩
    | call n =>
      rcases h2 with ⟨h, -⟩ | ⟨y, h, -⟩ | ⟨p, r0, h, ha⟩
      · exact absurd h (nob _)
      · exact absurd h (nob _)
      · obtain ⟨r1, c1, c2⟩ := rule h
        exact .inr (.inr ⟨p, r1, c1, by rw [c2]; exact ha⟩)
    | slice => exact absurd h2 (nob _)

/-- Well-scoped grammars stay well-scoped. -/
theorem inline_scoped (hn : AllNamed u m) (hy : Hygienic u m) (hsc : AllScoped u m) {rank : Name → Nat} (hex : Expandable m rank) {fuel : Nat}
    (h : inlineModule fuel m = .ok m') : AllScoped u m' := by
  have hw := hn m .refl
  have hs := hsc m .refl
  obtain ⟨hi, k1, k2, k3, k4⟩ := inlineModule_ok hw h
  intro a ha
  cases ha with
  | step h1 h2 => exact hsc a (.step (hi ▸ h1) h2)
  | refl =>
    have done : ∀ {r e}, r ∈ m.rules → r.inlined = false → inlineNode (collectSilent none m) fuel r.node = .ok e → ∀ s, Sub s e → PartDone u m r s :=
      fun hr hk he => inline_done hw hy hr hk hs hex fuel he (Made.start hy hr) fun s h => partOk_rule hs hex hr h
    have def' : ∀ {t : Trivia} {x : Name}, (x = optName ∨ x = manName) → Defined m.rules x → Defined m'.rules x := by
      rintro t x hx ⟨r, hr, rfl⟩
      have hk : r.inlined = false := by simp [Rule.inlined, hw.trivia r hr hx]
      obtain ⟨e, c, -⟩ := k2 _ _ (findRule_eq hw.rules hr) hk
      exact ⟨_, (findRule_mem c).1, rfl⟩
    refine ⟨by rw [hi]; exact hs.imports, ?_, ?_, ?_⟩
    · intro r' hr' h1 h2 i hi'
      obtain ⟨r, e, a1, a2, a3, rfl⟩ := k4 r' hr'
      exact hs.names r a1 h1 h2 i (hi ▸ hi')
    · intro r' hr'
      obtain ⟨r, e, a1, a2, a3, rfl⟩ := k4 r' hr'
      have trv : ∀ {t}, t ≠ .none → UsesTrivia t e → ∃ g ∈ m.rules, UsesTrivia t g.node := by
        rintro t ht (⟨l, r', h⟩ | ⟨e', h⟩)
        · exact (done a1 a2 a3 _ h).resolve_left ht
        · exact (done a1 a2 a3 _ h).resolve_left ht
      refine ⟨fun h => ?_, fun h => ?_⟩
      · obtain ⟨g, hg, h⟩ := trv (by simp) h
        exact def' (t := .optional) (.inl rfl) ((hs.trivia g hg).1 h)
      · obtain ⟨g, hg, h⟩ := trv (by simp) h
        exact def' (t := .optional) (.inr rfl) ((hs.trivia g hg).2 h)
    · intro r' hr'
      obtain ⟨r, e, a1, a2, a3, rfl⟩ := k4 r' hr'
      have hm := inline_made hw hy a1 a2 fuel a3 (Made.start hy a1)
      refine ⟨fun q hq => ?_, fun q as hq => ?_, fun q b hq => ?_⟩
      · rcases done a1 a2 a3 _ hq with hx | hu
        · exact .inl hx
        · refine .inr (usable_kept hw h hu fun r0 ht => ?_)
          rcases hu.2 with ⟨full, l, h, -⟩ | ⟨p, r1, h, ha⟩
          · rw [h] at ht; cases ht
          · rw [h] at ht; cases ht; simp [Rule.inlined, ha]
      · obtain ⟨-, as0, g, b1, -, b3, b4⟩ := hm.call q as hq
        have hu := (hs.refs g b1).call q as0 b3
        rw [b4] at hu
        refine usable_kept hw h hu fun r0 ht => ?_
        cases hk : r0.inlined with
        | false => rfl
        | true =>
          obtain ⟨-, -, x, rfl, hx, -, -, -, hf⟩ := target_root ht
          subst hx
          exact absurd rfl (done a1 a2 a3 _ hq r0 (findRule_mem hf).1 hk)
      · obtain ⟨g, b1, -, b3⟩ := hm.slice q b hq
        refine usable_kept hw h ((hs.refs g b1).slice q b b3) fun r0 ht => ?_
        have h2 : target u m [] q = some (.builtin peekPath) := ((hs.refs g b1).slice q b b3).2
        rw [h2] at ht; cases ht

/-- Well-scoped grammars can be expanded. -/
theorem inline_exists (hn : AllNamed u m) (hy : Hygienic u m) (hsc : AllScoped u m) {rank : Name → Nat} (hex : Expandable m rank) : ∃ fuel m', inlineModule fuel m = .ok m' := by
  have hw := hn m .refl
  have hs := hsc m .refl
  refine inline_total hw hy (fun g hg f hf hi as hsub => ?_) rank hex.rank
  obtain ⟨-, hgone⟩ := hy.scope g hg [f.name] as f.name hsub rfl ⟨m, .refl, f, hf, hi, rfl⟩
  obtain ⟨f', ht, -⟩ := hgone
  obtain ⟨-, -, x, hx, hx', -, -, -, hfr⟩ := target_root ht
  injection hx with hx
  subst hx
  rw [findRule_eq hw.rules hf] at hfr
  injection hfr with hfr
  subst hfr
  rcases ((hs.refs g hg).call _ _ hsub).2 with ⟨h, -⟩ | ⟨y, h, -⟩ | ⟨p, r0, h, ha⟩
  · rw [ht] at h; cases h
  · rw [ht] at h; cases h
  · rw [ht] at h; cases h; exact ha.symm

/-- Nothing happens to expressions that do not call silent rules with parameters. -/
theorem inlineNode_untouched (fuel : Nat) : ∀ {e e1 : Expr}, (∀ q as x, Sub (.call q as) e → q.getLast? = some x → ¬ SilentName m x) →
    inlineNode (collectSilent none m) fuel e = .ok e1 → e1 = e := by
  induction fuel with
  | zero => intro e e1 _ h; simp [inlineNode] at h
  | succ fuel ih =>
    intro e e1 hc h
    have hstep : inlineStep (collectSilent none m) e = .ok (e, false) := by
      unfold inlineStep
      split
      · split
        · rfl
        · rename_i x hx
          split
          · rfl
          · rename_i f hf
            exact absurd (findSilent_name hf) (hc _ _ x .refl hx)
      · rfl
    simp only [inlineNode] at h
    obtain ⟨⟨e', b⟩, h1, h2⟩ := andThen_ok.mp h
    clear h
    rw [hstep] at h1
    injection h1 with h1
    injection h1 with h1 h3
    subst h1 h3
    dsimp only at h2
    rw [if_neg (by decide)] at h2
    have h := h2
    clear h2
    cases e with
    | str | insens | range | slice | path | call => simp only [Res.ok.injEq] at h; exact h.symm
    | pos e => obtain ⟨e2, a1, h3⟩ := andThen_ok.mp h; cases h3; rw [ih (fun q as x hs => hc q as x (.pos hs)) a1]
    | neg e => obtain ⟨e2, a1, h3⟩ := andThen_ok.mp h; cases h3; rw [ih (fun q as x hs => hc q as x (.neg hs)) a1]
    | opt e => obtain ⟨e2, a1, h3⟩ := andThen_ok.mp h; cases h3; rw [ih (fun q as x hs => hc q as x (.opt hs)) a1]
    | rep e => obtain ⟨e2, a1, h3⟩ := andThen_ok.mp h; cases h3; rw [ih (fun q as x hs => hc q as x (.rep hs)) a1]
    | repOnce e => obtain ⟨e2, a1, h3⟩ := andThen_ok.mp h; cases h3; rw [ih (fun q as x hs => hc q as x (.repOnce hs)) a1]
    | repRange e b => obtain ⟨e2, a1, h3⟩ := andThen_ok.mp h; cases h3; rw [ih (fun q as x hs => hc q as x (.repRange hs)) a1]
    | separated e t => obtain ⟨e2, a1, h3⟩ := andThen_ok.mp h; cases h3; rw [ih (fun q as x hs => hc q as x (.separated hs)) a1]
    | seq l r t =>
      obtain ⟨l2, a1, h3⟩ := andThen_ok.mp h
      obtain ⟨r2, a2, h4⟩ := andThen_ok.mp h3; cases h4
      rw [ih (fun q as x hs => hc q as x (.seqL hs)) a1, ih (fun q as x hs => hc q as x (.seqR hs)) a2]
    | choice l r =>
      obtain ⟨l2, a1, h3⟩ := andThen_ok.mp h
      obtain ⟨r2, a2, h4⟩ := andThen_ok.mp h3; cases h4
      rw [ih (fun q as x hs => hc q as x (.choiceL hs)) a1, ih (fun q as x hs => hc q as x (.choiceR hs)) a2]

/-- Trivia rules that do not use themselves, nor silent rules with parameters, still do not use themselves. -/
theorem inline_acyclic (hn : AllNamed u m) (hac : ∀ a, ModIn a m → TriviaAcyclic a)
    (hc : ∀ r ∈ m.rules, r.name = optName ∨ r.name = manName → ∀ q as x, Sub (.call q as) r.node → q.getLast? = some x → ¬ SilentName m x) {fuel : Nat}
    (h : inlineModule fuel m = .ok m') : ∀ a, ModIn a m' → TriviaAcyclic a := by
  obtain ⟨hi, k1, k2, k3, k4⟩ := inlineModule_ok (hn m .refl) h
  intro a ha
  cases ha with
  | step h1 h2 => exact hac a (.step (hi ▸ h1) h2)
  | refl =>
    have same : ∀ r' ∈ m'.rules, r'.name = optName ∨ r'.name = manName → r' ∈ m.rules := by
      intro r' hr' hx
      obtain ⟨r, e, a1, a2, a3, rfl⟩ := k4 r' hr'
      rw [inlineNode_untouched fuel (hc r a1 hx) a3]
      exact a1
    have hm := hac m .refl
    refine ⟨fun r hr hx => hm.opt r (same r hr (.inl hx)) hx, fun r hr hx => hm.man r (same r hr (.inr hx)) hx, ?_⟩
    rcases hm.both with hb | hb
    · exact .inl fun r hr hx => hb r (same r hr (.inl hx)) hx
    · exact .inr fun r hr hx => hb r (same r hr (.inr hx)) hx

end

end Pest3.Gen
