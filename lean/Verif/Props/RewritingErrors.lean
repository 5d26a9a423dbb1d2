import Verif.EqualErrorLaws
import Verif.Props.Rewriting
import Verif.Props.Moved

/-!
# C87: which rewritings of a grammar keep the errors
-/

namespace Pest3.Props
open Pest3 Pest3.Gen Pest3.Load

/-! ## Leading to the same errors is kept by all operators -/

/-- Both relations can be used: trying the same, and having the same to be reported. -/
theorem C87_comparisons : Comparison Eq ∧ Comparison SameReports ∧ (∀ e e', SameTries e e' → SameErrors e e') ∧ ∀ e e', SameErrors e e' → ∀ u root p ps, AgreesAt u root p ps e e' :=
  ⟨comparison_eq, comparison_reports, fun _ _ h u root rank p ps => (h u root rank p ps).weaken (fun es es' (k : es = es') => k ▸ comparison_reports.refl es),
    fun _ _ h u root p ps => (h u root (fun _ => 0) p ps).agrees⟩

/-- An equivalence that every operator keeps, also in the arguments of calls. -/
theorem C87_congruence {Q : List Ev → List Ev → Prop} (hQ : Comparison Q) (u : Unicode) (root : Module) (rank : RuleVal → Label) (p ps : List Name) :
    let R := TriesAt Q u root rank p ps
    (∀ e, R e e) ∧ (∀ e e', R e e' → R e' e) ∧ (∀ e e' e'', R e e' → R e' e'' → R e e'') ∧
    (∀ e e' f f' t, R e e' → R f f' → R (.seq e f t) (.seq e' f' t)) ∧ (∀ e e' f f', R e e' → R f f' → R (.choice e f) (.choice e' f')) ∧
    (∀ e e', R e e' → R (.opt e) (.opt e') ∧ R (.rep e) (.rep e') ∧ R (.repOnce e) (.repOnce e') ∧ (∀ r, R (.repRange e r) (.repRange e' r)) ∧
      R (.pos e) (.pos e') ∧ R (.neg e) (.neg e') ∧ ∀ t, R (.separated e t) (.separated e' t)) ∧
    ∀ q es es', es.length = es'.length → (∀ x ∈ es.zip es', R x.1 x.2) → R (.call q es) (.call q es') := by
  intro R
  have args : ∀ es es' : List Expr, es.length = es'.length → (∀ x ∈ es.zip es', R x.1 x.2) → ArgsBy R es es' := by
    intro es
    induction es with
    | nil => intro es' h _; cases es' with
      | nil => exact .nil
      | cons => cases h
    | cons e es ih => intro es' h hx; cases es' with
      | nil => cases h
      | cons e' es' =>
        rw [List.zip_cons_cons] at hx
        exact .cons (hx _ List.mem_cons_self) (ih es' (by simpa using h) fun x h => hx x (List.mem_cons_of_mem _ h))
  exact ⟨fun e => .refl hQ, fun e e' h => h.symm, fun e e' e'' h h' => h.trans hQ h', fun e e' f f' t h h' => h.seq hQ h' t, fun e e' f f' h h' => h.choice hQ h',
    fun e e' h => ⟨h.opt, h.rep hQ, h.repOnce hQ, h.repRange hQ, h.pos, h.neg, h.separated⟩, fun q es es' h h' => .call hQ (args es es' h h') q⟩

/-! ## Exchanging expressions in grammars -/

/-- In grammars whose rules differ in such expressions comparable things happen, whatever is matched. -/
theorem C87_grammar {Q : List Ev → List Ev → Prop} (hQ : Comparison Q) {u : Unicode} {root root' : Module} {rank : RuleVal → Label} {E : List Name → List Name → Expr → Expr → Prop}
    (h : Alike E [] root root') (hE : ∀ p ps e e', E p ps e e' → TriesAt Q u root rank p ps e e' ∧ TriesAt Q u root' rank p ps e e')
    (p : List Name) (ρ : List (Name × Clo)) (e : Expr) (f : Bool) (c : Cfg) (o : Option Cfg) :
    (∀ es, Tries u root rank f (.expr (.mk p ρ e)) c o es → ∃ es', Tries u root' rank f (.expr (.mk p ρ e)) c o es' ∧ Q es es') ∧
    ∀ es', Tries u root' rank f (.expr (.mk p ρ e)) c o es' → ∃ es, Tries u root rank f (.expr (.mk p ρ e)) c o es ∧ Q es es' :=
  ⟨fun _ k => exchange_tries hQ h (fun p ps e e' k => (hE p ps e e' k).2) k, fun _ k =>
    let ⟨es, k1, k2⟩ := exchange_tries hQ h.flip (fun p ps e e' k => (hE p ps e' e k).1.symm) k
    ⟨es, k1, hQ.symm _ _ k2⟩⟩

section
variable {S : Type} {so : StackOps S} {saved : S → List (List Span)} (hls : Lawful so saved) {env env' : Setting} {attrs attrs' : List Attr} {ms ms' : List Module}
  {table : Name → Char → Bool} {d d' : Derived} {R R' : Layout} {e e' : Env} {rank : RuleVal → Label} {lab lab' : Label → RuleVal}
  (D : Derives env attrs ms table d R e rank lab) (D' : Derives env' attrs' ms' table d' R' e' rank lab') (hu : env'.unicodeNames = env.unicodeNames)
  {E : List Name → List Name → Expr → Expr → Prop} (ha : Alike E [] (united ms) (united ms'))
include hls D D' hu ha

private theorem error_events {Q : List Ev → List Ev → Prop} (hQ : Comparison Q)
    (hE : ∀ p ps e e', E p ps e e' → TriesAt Q (unicodeOf env.unicodeNames table) (united ms') rank p ps e e')
    {p : List Name} {m : Module} {r : Rule} (hp : modAt (united ms) p = some m) (hr : r ∈ m.rules) (ho : r.name ≠ optName) (hman : r.name ≠ manName) (hargs : r.args = []) {inp : Str}
    {n n' : Nat} {t t' : Tracker} (h : tryParse so e n (.rule (R.num p r.name [])) inp = .ok (.error t)) (h' : tryParse so e' n' (.rule (R'.num p r.name [])) inp = .ok (.error t')) :
    ∃ es es', t = (initSt so inp).trk.after inp es ∧ t' = (initSt so inp).trk.after inp es' ∧ Q es es' := by
  obtain ⟨m', r', hp', hr', hra⟩ : ∃ m' r', modAt (united ms') p = some m' ∧ findRule m'.rules r'.name = some r' ∧ RuleAlike E p r r' := by
    rcases ha.modAt p with ⟨h1, -⟩ | ⟨n, n', h1, h2, h3⟩
    · rw [hp] at h1; cases h1
    · rw [hp] at h1; cases h1
      rw [List.nil_append] at h3
      rcases h3.rules.find r.name with ⟨k, -⟩ | ⟨r0, r', k1, k2, k3⟩
      · rw [findRule_eq (D.named m (modAt_in p hp)).rules hr] at k; cases k
      · rw [findRule_eq (D.named m (modAt_in p hp)).rules hr] at k1; cases k1
        exact ⟨n', r', h2, k3.name ▸ k2, k3⟩
  obtain ⟨fuel, hd⟩ := D.derive
  obtain ⟨fuel', hd'⟩ := D'.derive
  obtain ⟨ms1, cfg, hm1, hg1, -⟩ := C71_result_partial _ _ _ _ hd
  cases modules_unique D.modules hm1
  obtain ⟨ms2, cfg', hm2, hg2, -⟩ := C71_result_partial _ _ _ _ hd'
  cases modules_unique D'.modules hm2
  have hgen := (generateTyped_none D.silent).mp ⟨_, hg1⟩
  have hgen' := (generateTyped_none D'.silent).mp ⟨_, hg2⟩
  have full := fun b es => fullTries_iff hgen D.named D.linked D.numbered D.ranks.eoi hp (findRule_eq (D.named m (modAt_in p hp)).rules hr) ho hman hargs inp b es
  have full' := fun b es => fullTries_iff hgen' D'.named D'.linked D'.numbered D'.ranks.eoi hp' hr' (hra.name ▸ ho) (hra.name ▸ hman) (hra.args.trans hargs) inp b es
  rw [hu, hra.name] at full'
  obtain ⟨es, k1, k2⟩ := error_trace hls h
  obtain ⟨es', k3, k4⟩ := error_trace hls h'
  obtain ⟨es1, k5, k6⟩ := exchange_full hQ ha hE hra hargs ((full _ _).mp k1)
  refine ⟨es, es', k2, k4, ?_⟩
  rw [(fullTraces_det k3 ((full' _ _).mpr k5)).2]
  exact k6

/-- If the expressions try the same rules at the same places in the same order, then the generated parsers reject the same texts, with the same errors. -/
theorem C87_error (hE : ∀ p ps e e', E p ps e e' → TriesAt Eq (unicodeOf env.unicodeNames table) (united ms) rank p ps e e' ∧
      TriesAt Eq (unicodeOf env.unicodeNames table) (united ms') rank p ps e e')
    {p : List Name} {m : Module} {r : Rule} (hp : modAt (united ms) p = some m) (hr : r ∈ m.rules) (ho : r.name ≠ optName) (hman : r.name ≠ manName) (hargs : r.args = []) (inp : Str) (t : Tracker) :
    (∃ n, tryParse so e n (.rule (R.num p r.name [])) inp = .ok (.error t)) ↔ ∃ n, tryParse so e' n (.rule (R'.num p r.name [])) inp = .ok (.error t) := by
  obtain ⟨fuel, hd⟩ := D.derive
  obtain ⟨fuel', hd'⟩ := D'.derive
  have key := (C79_parser hls hd hd' D.modules D'.modules hu D.silent D'.silent D.named (hu ▸ D'.named) ha (fun p ps e e' k => ⟨(hE p ps e e' k).1.agrees, (hE p ps e e' k).2.agrees⟩)
    D.linked D.labelled (hu ▸ D'.linked) D'.labelled hp hr ho hman hargs inp).2.1
  have same : ∀ {n n' t t'}, tryParse so e n (.rule (R.num p r.name [])) inp = .ok (.error t) → tryParse so e' n' (.rule (R'.num p r.name [])) inp = .ok (.error t') → t' = t := by
    intro n n' t t' h h'
    obtain ⟨es, es', k1, k2, rfl⟩ := error_events hls D D' hu ha comparison_eq (fun p ps e e' k => (hE p ps e e' k).2) hp hr ho hman hargs h h'
    rw [k1, k2]
  constructor
  · rintro ⟨n, h⟩
    obtain ⟨n', t', h'⟩ := key.mp ⟨n, t, h⟩
    exact ⟨n', same h h' ▸ h'⟩
  · rintro ⟨n', h'⟩
    obtain ⟨n, t', h⟩ := key.mpr ⟨n', t, h'⟩
    exact ⟨n, same h h' ▸ h⟩

/-- If the same is to be reported about the expressions, the generated parsers reject the same texts, and the errors are at the same place and name the same rules. -/
theorem C87_named (hE : ∀ p ps e e', E p ps e e' → TriesAt SameReports (unicodeOf env.unicodeNames table) (united ms) rank p ps e e' ∧
      TriesAt SameReports (unicodeOf env.unicodeNames table) (united ms') rank p ps e e')
    {p : List Name} {m : Module} {r : Rule} (hp : modAt (united ms) p = some m) (hr : r ∈ m.rules) (ho : r.name ≠ optName) (hman : r.name ≠ manName) (hargs : r.args = []) (inp : Str) :
    ((∃ n t, tryParse so e n (.rule (R.num p r.name [])) inp = .ok (.error t)) ↔ ∃ n t, tryParse so e' n (.rule (R'.num p r.name [])) inp = .ok (.error t)) ∧
    ∀ n n' t t', tryParse so e n (.rule (R.num p r.name [])) inp = .ok (.error t) → tryParse so e' n' (.rule (R'.num p r.name [])) inp = .ok (.error t') → SameNamed t t' := by
  obtain ⟨fuel, hd⟩ := D.derive
  obtain ⟨fuel', hd'⟩ := D'.derive
  refine ⟨(C79_parser hls hd hd' D.modules D'.modules hu D.silent D'.silent D.named (hu ▸ D'.named) ha (fun p ps e e' k => ⟨(hE p ps e e' k).1.agrees, (hE p ps e e' k).2.agrees⟩)
    D.linked D.labelled (hu ▸ D'.linked) D'.labelled hp hr ho hman hargs inp).2.1, ?_⟩
  intro n n' t t' h h'
  obtain ⟨es, es', k1, k2, k3⟩ := error_events hls D D' hu ha comparison_reports (fun p ps e e' k => (hE p ps e e' k).2) hp hr ho hman hargs h h'
  rw [k1, k2]
  exact named_of rfl rfl k3

end

/-! ## Rewritings that keep the error -/

section
variable (a b c : Expr) (t s : Trivia)

private theorem tries_of {a b : Expr} (h : sepTrivia a = sepTrivia b)
    (k : ∀ u root rank p ρ f c o es, Tries u root rank f (.expr (.mk p ρ a)) c o es ↔ Tries u root rank f (.expr (.mk p ρ b)) c o es) : SameTries a b :=
  fun u root rank p _ => ⟨h, fun ρ _ => ⟨fun f c o es h => ⟨es, (k u root rank p ρ f c o es).mp h, rfl⟩, fun f c o es h => ⟨es, (k u root rank p ρ f c o es).mpr h, rfl⟩⟩⟩

/-- Choices and sequences can be grouped as one likes. -/
theorem C87_assoc : SameTries (.choice (.choice a b) c) (.choice a (.choice b c)) ∧ SameTries (.seq (.seq a b t) c s) (.seq a (.seq b c s) t) := by
  refine ⟨tries_of rfl fun u root rank p ρ f c o es => ?_, tries_of rfl fun u root rank p ρ f c o es => ?_⟩
  · simp only [t_choice]
    constructor
    · rintro (⟨x, ⟨y, h1, h⟩ | ⟨es1, es2, h1, h2, rfl⟩, rfl⟩ | ⟨_, es3, ⟨y, h1, h⟩ | ⟨es1, es2, h1, h2, rfl⟩, h3, rfl⟩)
      · cases h; exact .inl ⟨_, h1, rfl⟩
      · exact .inr ⟨es1, es2, h1, .inl ⟨_, h2, rfl⟩, rfl⟩
      · cases h
      · exact .inr ⟨es1, es2 ++ es3, h1, .inr ⟨es2, es3, h2, h3, rfl⟩, List.append_assoc ..⟩
    · rintro (⟨x, h, rfl⟩ | ⟨es1, es2, h1, ⟨x, h2, rfl⟩ | ⟨es3, es4, h2, h3, rfl⟩, rfl⟩)
      · exact .inl ⟨x, .inl ⟨x, h, rfl⟩, rfl⟩
      · exact .inl ⟨x, .inr ⟨es1, es2, h1, h2, rfl⟩, rfl⟩
      · exact .inr ⟨es1 ++ es3, es4, .inr ⟨es1, es3, h1, h2, rfl⟩, h3, (List.append_assoc ..).symm⟩
  · simp only [t_seq]
    constructor
    · rintro (⟨⟨h, -⟩ | ⟨c1, es1, h1, ⟨es2, h2, -, rfl⟩ | ⟨c2, es2, es3, h2, h3, rfl⟩⟩, rfl⟩ |
        ⟨c3, _, ⟨-, h⟩ | ⟨c1, es1, h1, ⟨es2, -, h, -⟩ | ⟨c2, es2, es3, h2, h3, rfl⟩⟩, ⟨es4, h4, rfl, rfl⟩ | ⟨c4, es4, es5, h4, h5, rfl⟩⟩)
      · exact .inl ⟨h, rfl⟩
      · exact .inr ⟨c1, es1, h1, .inl ⟨es2, h2, rfl, rfl⟩⟩
      · exact .inr ⟨c1, es1, h1, .inr ⟨c2, es2, es3, h2, .inl ⟨h3, rfl⟩, rfl⟩⟩
      · cases h
      · cases h
      · cases h
      · cases h
      · exact .inr ⟨c1, es1, h1, .inr ⟨c2, es2, es3 ++ es4, h2, .inr ⟨c3, es3, h3, .inl ⟨es4, h4, rfl, rfl⟩⟩, by simp only [List.append_assoc]⟩⟩
      · exact .inr ⟨c1, es1, h1, .inr ⟨c2, es2, es3 ++ (es4 ++ es5), h2, .inr ⟨c3, es3, h3, .inr ⟨c4, es4, es5, h4, h5, rfl⟩⟩, by simp only [List.append_assoc]⟩⟩
    · rintro (⟨h, rfl⟩ | ⟨c1, es1, h1, ⟨es2, h2, rfl, rfl⟩ | ⟨c2, es2, _, h2, ⟨h3, rfl⟩ | ⟨c3, es3, h3, ⟨es4, h4, rfl, rfl⟩ | ⟨c4, es4, es5, h4, h5, rfl⟩⟩, rfl⟩⟩)
      · exact .inl ⟨.inl ⟨h, trivial⟩, rfl⟩
      · exact .inl ⟨.inr ⟨c1, es1, h1, .inl ⟨es2, h2, trivial, rfl⟩⟩, rfl⟩
      · exact .inl ⟨.inr ⟨c1, es1, h1, .inr ⟨c2, es2, _, h2, h3, rfl⟩⟩, rfl⟩
      · exact .inr ⟨c3, es1 ++ (es2 ++ es3), .inr ⟨c1, es1, h1, .inr ⟨c2, es2, es3, h2, h3, rfl⟩⟩, .inl ⟨es4, h4, rfl, by simp only [List.append_assoc]⟩⟩
      · exact .inr ⟨c3, es1 ++ (es2 ++ es3), .inr ⟨c1, es1, h1, .inr ⟨c2, es2, es3, h2, h3, rfl⟩⟩, .inr ⟨c4, es4, es5, h4, h5, by simp only [List.append_assoc]⟩⟩

/-- An optional expression: the expression or nothing; making it optional again, or adding an alternative, has no effect. -/
theorem C87_opt : SameTries (.opt a) (.choice a (.str [])) ∧ SameTries (.opt (.opt a)) (.opt a) ∧ SameTries (.choice (.opt a) b) (.opt a) := by
  refine ⟨tries_of rfl fun u root rank p ρ f c o es => ?_, tries_of rfl fun u root rank p ρ f c o es => ?_, tries_of rfl fun u root rank p ρ f c o es => ?_⟩
  · simp only [t_opt, t_choice, t_empty]
    constructor
    · rintro (h | ⟨h, rfl⟩)
      · exact .inl h
      · exact .inr ⟨es, [], h, ⟨rfl, rfl⟩, (List.append_nil _).symm⟩
    · rintro (h | ⟨es1, _, h, ⟨rfl, rfl⟩, rfl⟩)
      · exact .inl h
      · rw [List.append_nil]; exact .inr ⟨h, rfl⟩
  · simp only [t_opt]
    constructor
    · rintro (⟨x, h, rfl⟩ | ⟨⟨x, -, h⟩ | ⟨-, h⟩, -⟩)
      · exact h
      · cases h
      · cases h
    · rintro (⟨x, h, rfl⟩ | ⟨h, rfl⟩)
      · exact .inl ⟨x, .inl ⟨x, h, rfl⟩, rfl⟩
      · exact .inl ⟨_, .inr ⟨h, rfl⟩, rfl⟩
  · simp only [t_choice, t_opt]
    constructor
    · rintro (⟨x, h, rfl⟩ | ⟨es1, es2, ⟨x, -, h⟩ | ⟨-, h⟩, -⟩)
      · exact h
      · cases h
      · cases h
    · rintro (⟨x, h, rfl⟩ | ⟨h, rfl⟩)
      · exact .inl ⟨x, .inl ⟨x, h, rfl⟩, rfl⟩
      · exact .inl ⟨_, .inr ⟨h, rfl⟩, rfl⟩

/-- Positive lookahead around lookahead has no effect. -/
theorem C87_predicates : SameTries (.pos (.pos a)) (.pos a) ∧ SameTries (.pos (.neg a)) (.neg a) := by
  refine ⟨tries_of rfl fun u root rank p ρ f c o es => ?_, tries_of rfl fun u root rank p ρ f c o es => ?_⟩ <;> simp only [t_neg, t_pos] <;> constructor
  · rintro (⟨x, ⟨y, h, k⟩ | ⟨h, k⟩, rfl⟩ | ⟨⟨y, h, k⟩ | ⟨h, k⟩, rfl⟩)
    · exact .inl ⟨y, h, rfl⟩
    · cases k
    · cases k
    · exact .inr ⟨h, rfl⟩
  · rintro (⟨x, h, rfl⟩ | ⟨h, rfl⟩)
    · exact .inl ⟨_, .inl ⟨x, h, rfl⟩, rfl⟩
    · exact .inr ⟨.inr ⟨h, trivial⟩, rfl⟩
  · rintro (⟨x, ⟨y, h, k⟩ | ⟨h, k⟩, rfl⟩ | ⟨⟨y, h, k⟩ | ⟨h, k⟩, rfl⟩)
    · cases k
    · exact .inr ⟨h, rfl⟩
    · exact .inl ⟨y, h, rfl⟩
    · cases k
  · rintro (⟨x, h, rfl⟩ | ⟨h, rfl⟩)
    · exact .inr ⟨.inl ⟨x, h, trivial⟩, rfl⟩
    · exact .inl ⟨_, .inr ⟨h, rfl⟩, rfl⟩

/-- Nothing, before or after. -/
theorem C87_nothing (ha : sepTrivia a = .none) : SameTries (.seq (.str []) a .none) a ∧ SameTries (.seq a (.str []) .none) a := by
  refine ⟨tries_of ha.symm fun u root rank p ρ f c o es => ?_, tries_of ha.symm fun u root rank p ρ f c o es => ?_⟩ <;> simp only [t_seq, t_empty, t_triviaNone] <;> constructor
  · rintro (⟨⟨h, -⟩, -⟩ | ⟨c1, es1, ⟨h, rfl⟩, ⟨es2, ⟨h2, -⟩, -⟩ | ⟨c2, es2, es3, ⟨h2, rfl⟩, h3, rfl⟩⟩)
    · cases h
    · cases h2
    · cases h; cases h2; exact h3
  · exact fun h => .inr ⟨c, [], ⟨rfl, rfl⟩, .inr ⟨c, [], es, ⟨rfl, rfl⟩, h, rfl⟩⟩
  · rintro (⟨h, rfl⟩ | ⟨c1, es1, h, ⟨es2, ⟨h2, -⟩, -⟩ | ⟨c2, es2, es3, ⟨h2, rfl⟩, ⟨rfl, rfl⟩, rfl⟩⟩)
    · exact h
    · cases h2
    · cases h2; simpa using h
  · intro h
    cases o with
    | none => exact .inl ⟨h, rfl⟩
    | some x => exact .inr ⟨x, es, h, .inr ⟨x, [], [], ⟨rfl, rfl⟩, ⟨rfl, rfl⟩, by simp⟩⟩

/-- Repetitions: `e*` is `e{0..}`, `e+` is `e{1..}`, `e{0..1}` is `e?`, `e{1}` is `e`. -/
theorem C87_bounds : SameTries (.rep a) (.repRange a ⟨some 0, none⟩) ∧ SameTries (.rep a) (.repRange a ⟨none, none⟩) ∧ SameTries (.repOnce a) (.repRange a ⟨some 1, none⟩) ∧
    SameTries (.repRange a ⟨some 0, some 1⟩) (.opt a) ∧ (sepTrivia a = .none → SameTries (.repRange a ⟨some 1, some 1⟩) a) := by
  refine ⟨tries_of rfl fun u root rank p ρ f c o es => ?_, tries_of rfl fun u root rank p ρ f c o es => ?_, tries_of rfl fun u root rank p ρ f c o es => ?_,
    tries_of rfl fun u root rank p ρ f c o es => ?_, fun ha => tries_of ha.symm fun u root rank p ρ f c o es => ?_⟩
  · rw [t_rep rfl, t_rep rfl] <;> rfl
  · rw [t_rep rfl, t_rep rfl] <;> rfl
  · rw [t_rep rfl, t_rep rfl] <;> rfl
  · rw [t_rep (min := 0) (max := 1) rfl, t_reps_one, t_opt]
    simp
  · rw [t_rep (min := 1) (max := 1) rfl, t_reps_one]
    constructor
    · rintro (⟨x, h, rfl⟩ | ⟨h, ⟨h', -⟩ | ⟨-, rfl⟩⟩)
      · exact h
      · cases h'
      · exact h
    · intro h; cases o with
      | none => exact .inr ⟨h, .inr ⟨by omega, rfl⟩⟩
      | some x => exact .inl ⟨x, h, rfl⟩

/-- One item more: `e{m+1..n+1}` is `e - e{m..n}`; with trivia between the items, `(e ~){m+1..n+1}` is `e ~ (e ~){m..n}` unless `m` is zero. -/
theorem C87_unroll (m n : Nat) (hn : 0 < n) :
    (sepTrivia a = .none → SameTries (.repRange a ⟨some (m + 1), some (n + 1)⟩) (.seq a (.repRange a ⟨some m, some n⟩) .none)) ∧
    (m ≠ 0 → SameTries (.repRange (.separated a t) ⟨some (m + 1), some (n + 1)⟩) (.seq a (.repRange (.separated a t) ⟨some m, some n⟩) t)) := by
  refine ⟨fun ha => tries_of rfl fun u root rank p ρ f c o es => ?_, fun hm => tries_of rfl fun u root rank p ρ f c o es => ?_⟩
  · rw [t_rep (min := m + 1) (max := n + 1) rfl, ha, t_reps_more (.inr rfl) hn, t_seq]
    have : ∀ c o es, Tries u root rank f (.expr (.mk p ρ (.repRange a ⟨some m, some n⟩))) c o es ↔ Tries u root rank f (.reps (.mk p ρ a) p .none m n 0) c o es := by
      intro c o es
      rw [t_rep (min := m) (max := n) rfl, ha]
    simp only [this]
  · rw [t_rep (min := m + 1) (max := n + 1) rfl]
    show Tries u root rank f (.reps (.mk p ρ (.separated a t)) p t (m + 1) (n + 1) 0) c o es ↔ _
    rw [t_reps_more (.inl hm) hn, t_seq]
    have : ∀ c o es, Tries u root rank f (.expr (.mk p ρ (.repRange (.separated a t) ⟨some m, some n⟩))) c o es ↔
        Tries u root rank f (.reps (.mk p ρ (.separated a t)) p t m n 0) c o es := by
      intro c o es
      rw [t_rep (min := m) (max := n) rfl]
      rfl
    simp only [this, t_separated]

end

/-- Expressions of literals do not appear in errors, so they can be exchanged when they match the same. -/
theorem C87_literals {u : Unicode} {root : Module} {p ps : List Name} {e e' : Expr} (he : Wordless e) (he' : Wordless e') (h : AgreesAt u root p ps e e') (rank : RuleVal → Label) :
    TriesAt Eq u root rank p ps e e' := by
  refine ⟨h.1, fun ρ hρ => ⟨fun f c o es k => ?_, fun f c o es k => ?_⟩⟩
  · obtain ⟨es', k'⟩ := meaning_tries rank ((h.2 ρ hρ c o).mp k.meaning) f
    exact ⟨es', k', by rw [he.quiet k, he'.quiet k']⟩
  · obtain ⟨es', k'⟩ := meaning_tries rank ((h.2 ρ hρ c o).mpr k.meaning) f
    exact ⟨es', k', by rw [he'.quiet k, he.quiet k']⟩

/-- So strings can be cut into pieces, and a string after a beginning of it left out, without a trace. -/
theorem C87_strings (s t : Text) : SameTries (.str (s ++ t)) (.seq (.str s) (.str t) .none) ∧ SameTries (.choice (.str s) (.str (s ++ t))) (.str s) :=
  ⟨fun u root rank p ps => C87_literals (.literal (l := .str _) rfl) (.seq (.literal (l := .str _) rfl) (.literal (l := .str _) rfl)) (C79_split s t u root p ps).1 rank,
    fun u root rank p ps => C87_literals (.choice (.literal (l := .str _) rfl) (.literal (l := .str _) rfl)) (.literal (l := .str _) rfl) (C79_prefix s t u root p ps).1 rank⟩

/-! ## Rewritings that keep the rules named in the error -/

section
variable (a b c : Expr) (t : Trivia)

private theorem reports_of {es es' : List Ev} (h : ∀ P : List Ev → Prop, (∀ x y, P (x ++ y) ↔ P x ∨ P y) → (P es ↔ P es')) : SameReports es es' :=
  ⟨h (fun l => l.any Ev.isRule = true) (fun x y => by rw [List.any_append, Bool.or_eq_true]), fun _ _ => h (fun l => _ ∈ Ev.reportsList _ l) fun _ _ => mem_reportsList_append⟩

/-- An alternative that is there already can be left out; so can one that starts with an alternative before it. -/
theorem C87_dead (ha : sepTrivia a = .none) : SameErrors (.choice a a) a ∧ SameErrors (.choice a (.seq a b t)) a ∧ SameErrors (.choice (.choice a b) a) (.choice a b) := by
  refine ⟨fun u root rank p ps => ⟨ha.symm, fun ρ _ => ⟨fun f c o es h => ?_, fun f c o es h => ?_⟩⟩, fun u root rank p ps => ⟨ha.symm, fun ρ _ => ⟨fun f c o es h => ?_, fun f c o es h => ?_⟩⟩,
    fun u root rank p ps => ⟨rfl, fun ρ _ => ⟨fun f c o es h => ?_, fun f c o es h => ?_⟩⟩⟩
  · rcases t_choice.mp h with ⟨x, h0, rfl⟩ | ⟨es1, es2, h1, h2, rfl⟩
    · exact ⟨es, h0, comparison_reports.refl _⟩
    · obtain ⟨rfl, rfl⟩ := h1.det _ _ h2
      exact ⟨es1, h1, reports_twice _⟩
  · cases o with
    | none => exact ⟨es ++ es, .choiceR h h, comparison_reports.symm _ _ (reports_twice _)⟩
    | some x => exact ⟨es, .choiceL h, comparison_reports.refl _⟩
  · rcases t_choice.mp h with ⟨x, h0, rfl⟩ | ⟨es1, es2, h1, h2, rfl⟩
    · exact ⟨es, h0, comparison_reports.refl _⟩
    · rcases t_seq.mp h2 with ⟨h3, rfl⟩ | ⟨c1, es3, h3, -⟩
      · obtain ⟨-, rfl⟩ := h1.det _ _ h3
        exact ⟨es1, h1, reports_twice _⟩
      · cases (h1.det _ _ h3).1
  · cases o with
    | none => exact ⟨es ++ es, .choiceR h (.seqFail h), comparison_reports.symm _ _ (reports_twice _)⟩
    | some x => exact ⟨es, .choiceL h, comparison_reports.refl _⟩
  · rcases t_choice.mp h with ⟨x, h0, rfl⟩ | ⟨es1, es2, h1, h2, rfl⟩
    · exact ⟨es, h0, comparison_reports.refl _⟩
    · rcases t_choice.mp h1 with ⟨x, -, h⟩ | ⟨es3, es4, h3, h4, rfl⟩
      · cases h
      · obtain ⟨rfl, rfl⟩ := h3.det _ _ h2
        refine ⟨es3 ++ es4, h1, reports_of fun P hP => ?_⟩
        simp only [hP]
        exact ⟨fun h => h.elim id .inl, .inl⟩
  · cases o with
    | none =>
      rcases t_choice.mp h with ⟨x, -, h'⟩ | ⟨es3, es4, h3, h4, rfl⟩
      · cases h'
      · refine ⟨_, .choiceR h h3, reports_of fun P hP => ?_⟩
        simp only [hP]
        exact ⟨.inl, fun h => h.elim id .inl⟩
    | some x => exact ⟨es, .choiceL h, comparison_reports.refl _⟩

/-- A common beginning of two alternatives can be taken out. -/
theorem C87_factor : SameErrors (.choice (.seq a b t) (.seq a c t)) (.seq a (.choice b c) t) := by
  refine fun u root rank p ps => ⟨rfl, fun ρ _ => ⟨fun f c0 o es h => ?_, fun f c0 o es h => ?_⟩⟩
  · rcases t_choice.mp h with ⟨x, h0, rfl⟩ | ⟨es1, es2, h1, h2, rfl⟩
    · rcases t_seq.mp h0 with ⟨-, h⟩ | ⟨c1, es1, h1, ⟨es2, -, h, -⟩ | ⟨c2, es2, es3, h2, h3, rfl⟩⟩
      · cases h
      · cases h
      · exact ⟨_, .seq h1 h2 (.choiceL h3), comparison_reports.refl _⟩
    · rcases t_seq.mp h1 with ⟨h3, -⟩ | ⟨c1, es3, h3, ⟨es4, h4, -, rfl⟩ | ⟨c2, es4, es5, h4, h5, rfl⟩⟩
      · rcases t_seq.mp h2 with ⟨k, rfl⟩ | ⟨c1, es3, k, -⟩
        · obtain ⟨-, rfl⟩ := h3.det _ _ k
          exact ⟨_, .seqFail h3, reports_twice _⟩
        · cases (h3.det _ _ k).1
      · rcases t_seq.mp h2 with ⟨k, -⟩ | ⟨c1', es3', k3, ⟨es4', k4, rfl, rfl⟩ | ⟨c2, es4, es5, k4, k5, rfl⟩⟩
        · cases (h3.det _ _ k).1
        · obtain ⟨k0, rfl⟩ := h3.det _ _ k3
          cases k0
          obtain ⟨-, rfl⟩ := h4.det _ _ k4
          exact ⟨_, .seqTriviaFail h3 h4, reports_twice _⟩
        · obtain ⟨k0, rfl⟩ := h3.det _ _ k3
          cases k0
          cases (h4.det _ _ k4).1
      · rcases t_seq.mp h2 with ⟨k, -⟩ | ⟨c1', es3', k3, ⟨es4', k4, rfl, rfl⟩ | ⟨c2', es4', es5', k4, k5, rfl⟩⟩
        · cases (h3.det _ _ k).1
        · obtain ⟨k0, rfl⟩ := h3.det _ _ k3
          cases k0
          cases (h4.det _ _ k4).1
        · obtain ⟨k0, rfl⟩ := h3.det _ _ k3
          cases k0
          obtain ⟨k0, rfl⟩ := h4.det _ _ k4
          cases k0
          refine ⟨_, .seq h3 h4 (.choiceR h5 k5), reports_of fun P hP => ?_⟩
          simp only [hP]
          constructor
          · rintro ((h | h | h) | h | h | h) <;> simp [h]
          · rintro (h | h | h | h) <;> simp [h]
  · rcases t_seq.mp h with ⟨h1, rfl⟩ | ⟨c1, es1, h1, ⟨es2, h2, rfl, rfl⟩ | ⟨c2, es2, es3, h2, h3, rfl⟩⟩
    · exact ⟨_, .choiceR (.seqFail h1) (.seqFail h1), comparison_reports.symm _ _ (reports_twice _)⟩
    · exact ⟨_, .choiceR (.seqTriviaFail h1 h2) (.seqTriviaFail h1 h2), comparison_reports.symm _ _ (reports_twice _)⟩
    · rcases t_choice.mp h3 with ⟨x, h4, rfl⟩ | ⟨es4, es5, h4, h5, rfl⟩
      · exact ⟨_, .choiceL (.seq h1 h2 h4), comparison_reports.refl _⟩
      · refine ⟨_, .choiceR (.seq h1 h2 h4) (.seq h1 h2 h5), reports_of fun P hP => ?_⟩
        simp only [hP]
        constructor
        · rintro (h | h | h | h) <;> simp [h]
        · rintro ((h | h | h) | h | h | h) <;> simp [h]

end

/-! ## Rewritings that do not keep the errors

All of these keep what is matched and the tokens (C79). -/

private theorem tries_x {f : Bool} {rank : RuleVal → Label} {pre rest : Text} {stk : List Text} :
    Tries rwUnicode oneRule rank f (.expr (.mk [] [] (.path [['x']]))) ⟨pre, 'a' :: rest, stk⟩ (some ⟨pre ++ ['a'], rest, stk⟩) [.rule (rank (ruleAt [] ['x'])) (utf8Len pre) f true []] :=
  .rule (r := ⟨['x'], [], .str ['a'], false⟩) (fun _ _ => rfl) oneRule_target rfl (.literal rfl (rw_lit ['a'] pre rest stk))

private theorem tries_no_x {f : Bool} {rank : RuleVal → Label} {pre rest : Text} {stk : List Text} :
    Tries rwUnicode oneRule rank f (.expr (.mk [] [] (.path [['x']]))) ⟨pre, 'b' :: rest, stk⟩ none [.rule (rank (ruleAt [] ['x'])) (utf8Len pre) f false []] :=
  .rule (r := ⟨['x'], [], .str ['a'], false⟩) (fun _ _ => rfl) oneRule_target rfl (.literal rfl (rw_not_lit (by simp)))

private theorem differ_errors {Q : List Ev → List Ev → Prop} {rank : RuleVal → Label} {a b : Expr} {c : Cfg} {o : Option Cfg} {es es' : List Ev}
    (ha : Tries rwUnicode oneRule rank true (.expr (.mk [] [] a)) c o es) (hb : Tries rwUnicode oneRule rank true (.expr (.mk [] [] b)) c o es') (h : ¬ Q es es') :
    ¬ TriesAt Q rwUnicode oneRule rank [] [] a b := by
  intro k
  obtain ⟨es1, k1, k2⟩ := (k.2 [] rfl).1 _ _ _ _ ha
  rw [(k1.det _ _ hb).2] at k2
  exact h k2

/-- `!!x` is not `&x`: if `x` is not found, `&x` says that it was expected, and `!!x` says nothing. -/
theorem C87_neg_neg_witness (rank : RuleVal → Label) : ¬ TriesAt SameReports rwUnicode oneRule rank [] [] (.neg (.neg (.path [['x']]))) (.pos (.path [['x']])) :=
  differ_errors (c := ⟨[], ['b'], []⟩) (.negFail (.negOk tries_no_x)) (.posFail tries_no_x)
    (fun k => by
      have := (k.2 [] ⟨none, 0, .expected (rank (ruleAt [] ['x']))⟩).mpr (by simp [Ev.reportsList, Ev.reports, upperOf, outcome])
      simp [Ev.reportsList, Ev.reports, outcome] at this)

/-- `!&x` is not `!x`: if `x` is found, `!x` says that it was unexpected, and `!&x` says nothing. -/
theorem C87_neg_pos_witness (rank : RuleVal → Label) : ¬ TriesAt SameReports rwUnicode oneRule rank [] [] (.neg (.pos (.path [['x']]))) (.neg (.path [['x']])) :=
  differ_errors (c := ⟨[], ['a'], []⟩) (.negFail (.posOk tries_x)) (.negFail tries_x)
    (fun k => by
      have := (k.2 [] ⟨none, 0, .unexpected (rank (ruleAt [] ['x']))⟩).mpr (by simp [Ev.reportsList, Ev.reports, upperOf, outcome])
      simp [Ev.reportsList, Ev.reports, outcome] at this)

/-- `x - "a" | "c"` is not `x - "a" | !(x - "a") - "c"`, where `x` may be unexpected. -/
theorem C87_guard_witness (rank : RuleVal → Label) : ¬ TriesAt SameReports rwUnicode oneRule rank [] [] (.choice (.seq (.path [['x']]) (.str ['a']) .none) (.str ['c']))
    (.choice (.seq (.path [['x']]) (.str ['a']) .none) (.seq (.neg (.seq (.path [['x']]) (.str ['a']) .none)) (.str ['c']) .none)) :=
  have no : ∀ {f}, Tries rwUnicode oneRule rank f (.expr (.mk [] [] (.seq (.path [['x']]) (.str ['a']) .none))) ⟨[], ['a', 'b'], []⟩ none _ :=
    fun {f} => .seq tries_x .triviaNone (.literal rfl (rw_not_lit (by simp)))
  differ_errors (c := ⟨[], ['a', 'b'], []⟩) (.choiceR no (.literal rfl (rw_not_lit (by simp)))) (.choiceR no (.seq (.negOk no) .triviaNone (.literal rfl (rw_not_lit (by simp)))))
    (fun k => by
      have := (k.2 [] ⟨none, 0, .unexpected (rank (ruleAt [] ['x']))⟩).mpr (by simp [Ev.reportsList, Ev.reports, upperOf, outcome])
      simp [Ev.reportsList, Ev.reports, outcome] at this)

/-- `x | x` has the rules of `x` in the error, but they are there twice. -/
theorem C87_dead_witness (rank : RuleVal → Label) : SameErrors (.choice (.path [['x']]) (.path [['x']])) (.path [['x']]) ∧ ¬ TriesAt Eq rwUnicode oneRule rank [] [] (.choice (.path [['x']]) (.path [['x']])) (.path [['x']]) :=
  ⟨(C87_dead (.path [['x']]) (.str []) .none rfl).1,
    differ_errors (c := ⟨[], ['b'], []⟩) (.choiceR tries_no_x tries_no_x) tries_no_x (by simp)⟩

/-- A rule is named in errors, the expression of the rule is not. -/
theorem C87_unfold_witness (rank : RuleVal → Label) : ¬ TriesAt SameReports rwUnicode oneRule rank [] [] (.path [['x']]) (.str ['a']) :=
  differ_errors (c := ⟨[], ['b'], []⟩) tries_no_x (.literal rfl (rw_not_lit (by simp))) (fun k => by simpa [Ev.isRule] using k.1)

/-! ## Examples -/

/-- There are two parsers for `x = "a" | "ab"`, `y = x - x` and for `x = "a"`, `y = x - x`, and `y` of both gives the same errors on all texts. -/
example (rank : RuleVal → Label) (hr : Ranks rank) : ∃ (d d' : Derived) (R R' : Layout) (e e' : Env) (lab lab' : RuleId → RuleVal),
    Derives twoSetting [⟨some "grammar_inline".toList, .str []⟩] [.mk longRules []] (fun _ _ => false) d R e rank lab ∧
    Derives twoSetting [⟨some "grammar_inline".toList, .str ['s']⟩] [.mk shortRules []] (fun _ _ => false) d' R' e' rank lab' ∧
    ∀ inp t, (∃ n, tryParse idealOps e n (.rule (R.num [] ['y'] [])) inp = .ok (.error t)) ↔ ∃ n, tryParse idealOps e' n (.rule (R'.num [] ['y'] [])) inp = .ok (.error t) := by
  obtain ⟨hm, hs, hn, ⟨fuel, d, h⟩, ha⟩ := two_ready (.inl ⟨rfl, rfl⟩)
  obtain ⟨hm', hs', hn', ⟨fuel', d', h'⟩, ha'⟩ := two_ready (.inr ⟨rfl, rfl⟩)
  obtain ⟨R, e, lab, D⟩ := C84_exists h hm hs hn ha hr
  obtain ⟨R', e', lab', D'⟩ := C84_exists h' hm' hs' hn' ha' hr
  have alike : Alike (fun _ _ => SameTries) [] (united [.mk longRules []]) (united [.mk shortRules []]) := by
    refine .mk (.cons ⟨rfl, rfl, rfl, fun _ => rfl, (C87_strings ['a'] ['b']).2⟩ (.cons ⟨rfl, rfl, rfl, fun _ => rfl, fun u root rank p ps => .refl comparison_eq⟩ .nil)) .nil
  refine ⟨d, d', R, R', e, e', lab, lab', D, D', fun inp t => ?_⟩
  exact C87_error ideal_lawful D D' rfl alike (fun p ps e e' k => ⟨k _ _ _ p ps, k _ _ _ p ps⟩) (p := []) (m := united [.mk longRules []])
    (r := ⟨['y'], [], .seq (.path [['x']]) (.path [['x']]) .none, false⟩) rfl (by simp [united, Module.rules, longRules]) (by decide) (by decide) rfl inp t

end Pest3.Props
