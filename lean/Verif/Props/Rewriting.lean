import Verif.RewriteLaws
import Verif.Props.EndToEnd

/-!
# C79: expressions that do the same can be exchanged
-/

namespace Pest3.Props
open Pest3 Pest3.Gen Pest3.Load

/-! ## Doing the same is kept by all operators -/

/-- An equivalence that every operator keeps, also in the arguments of calls; so parts of an expression can be exchanged. -/
theorem C79_congruence (u : Unicode) (root : Module) (p ps : List Name) (R : Expr → Expr → Prop) (hR : R = SameAt u root p ps ∨ R = AgreesAt u root p ps) :
    (∀ e, R e e) ∧ (∀ e e', R e e' → R e' e) ∧ (∀ e e' e'', R e e' → R e' e'' → R e e'') ∧
    (∀ e e' f f' t, R e e' → R f f' → R (.seq e f t) (.seq e' f' t)) ∧ (∀ e e' f f', R e e' → R f f' → R (.choice e f) (.choice e' f')) ∧
    (∀ e e', R e e' → R (.opt e) (.opt e') ∧ R (.rep e) (.rep e') ∧ R (.repOnce e) (.repOnce e') ∧ (∀ r, R (.repRange e r) (.repRange e' r)) ∧
      R (.pos e) (.pos e') ∧ R (.neg e) (.neg e') ∧ ∀ t, R (.separated e t) (.separated e' t)) ∧
    ∀ q es es', es.length = es'.length → (∀ x ∈ es.zip es', R x.1 x.2) → R (.call q es) (.call q es') := by
  have args : ∀ es es' : List Expr, es.length = es'.length → (∀ x ∈ es.zip es', R x.1 x.2) → ArgsBy R es es' := by
    intro es
    induction es with
    | nil => intro es' h _; cases es' with
      | nil => exact .nil
      | cons => cases h
    | cons e es ih => intro es' h hx; cases es' with
      | nil => cases h
      | cons e' es' =>
        rw [List.zip_cons_cons] at hx
        exact .cons (hx _ List.mem_cons_self) (ih es' (by simpa using h) fun x h => hx x (List.mem_cons_of_mem _ h))
  rcases hR with rfl | rfl
  · exact ⟨fun e => .refl, fun e e' h => h.symm, fun e e' e'' h h' => h.trans h', fun e e' f f' t h h' => h.seq h' t, fun e e' f f' h h' => h.choice h',
      fun e e' h => ⟨h.opt, h.rep, h.repOnce, h.repRange, h.pos, h.neg, h.separated⟩, fun q es es' h h' => .call (args es es' h h') q⟩
  · exact ⟨fun e => .refl, fun e e' h => h.symm, fun e e' e'' h h' => h.trans h', fun e e' f f' t h h' => h.seq h' t, fun e e' f f' h h' => h.choice h',
      fun e e' h => ⟨h.opt, h.rep, h.repOnce, h.repRange, h.pos, h.neg, h.separated⟩, fun q es es' h h' => .call (args es es' h h') q⟩

/-! ## Exchanging expressions in grammars -/

/-- Grammars whose rules differ in expressions that match the same mean the same: every expression, written in any of the modules, matches the same. -/
theorem C79_grammar {u : Unicode} {root root' : Module} {E : List Name → List Name → Expr → Expr → Prop} (h : Alike E [] root root')
    (hE : ∀ p ps e e', E p ps e e' → AgreesAt u root p ps e e' ∧ AgreesAt u root' p ps e e') (p : List Name) (ρ : List (Name × Clo)) (e : Expr) (c : Cfg) (o : Option Cfg) :
    Meaning u root (.expr (.mk p ρ e)) c o ↔ Meaning u root' (.expr (.mk p ρ e)) c o :=
  ⟨exchange_meaning h fun p ps e e' k => (hE p ps e e' k).2, exchange_meaning h.flip fun p ps e e' k => (hE p ps e' e k).1.symm⟩

/-- If the expressions also show the same tokens, so do the grammars. -/
theorem C79_tokens {u : Unicode} {root root' : Module} {E : List Name → List Name → Expr → Expr → Prop} (h : Alike E [] root root')
    (hE : ∀ p ps e e', E p ps e e' → SameAt u root p ps e e' ∧ SameAt u root' p ps e e') (p : List Name) (ρ : List (Name × Clo)) (e : Expr) (c c' : Cfg) (F : List (Pair RuleVal)) :
    Shows u root (.expr (.mk p ρ e)) c c' F ↔ Shows u root' (.expr (.mk p ρ e)) c c' F :=
  ⟨exchange_shows h fun p ps e e' k => (hE p ps e e' k).2, exchange_shows h.flip fun p ps e e' k => (hE p ps e' e k).1.symm⟩

/-- So the parsers generated for them cannot be told apart by what they accept, reject and run forever on; and, if the expressions show the same tokens,
not by their tokens either. -/
theorem C79_parser {S : Type} {so : StackOps S} {saved : S → List (List Span)} (hls : Lawful so saved) {env env' : Setting} {attrs attrs' : List Attr} {ms ms' : List Module}
    {table : Name → Char → Bool} {fuel fuel' : Nat} {d d' : Derived} (h : derive env fuel attrs = .ok d) (h' : derive env' fuel' attrs' = .ok d')
    (hm : Modules env (attrs.filterMap sourceOf) ms) (hm' : Modules env' (attrs'.filterMap sourceOf) ms') (hu : env'.unicodeNames = env.unicodeNames)
    (hs : ∀ x, ¬ SilentName (united ms) x) (hs' : ∀ x, ¬ SilentName (united ms') x) (hn : AllNamed (unicodeOf env.unicodeNames table) (united ms))
    (hn' : AllNamed (unicodeOf env.unicodeNames table) (united ms'))
    {E : List Name → List Name → Expr → Expr → Prop} (ha : Alike E [] (united ms) (united ms'))
    (hE : ∀ p ps e e', E p ps e e' → AgreesAt (unicodeOf env.unicodeNames table) (united ms) p ps e e' ∧ AgreesAt (unicodeOf env.unicodeNames table) (united ms') p ps e e')
    {R R' : Layout} {e e' : Env} {lab lab' : RuleId → RuleVal}
    (hl : Linked (unicodeOf env.unicodeNames table) d.code.1 d.code.2.wrappers R e) (hlab : Labelled d.code.1 R e lab)
    (hl' : Linked (unicodeOf env.unicodeNames table) d'.code.1 d'.code.2.wrappers R' e') (hlab' : Labelled d'.code.1 R' e' lab')
    {p : List Name} {m : Module} {r : Rule} (hp : modAt (united ms) p = some m) (hr : r ∈ m.rules) (ho : r.name ≠ optName) (hman : r.name ≠ manName) (hargs : r.args = []) (inp : Str) :
    let parser := fun n => tryParse so e n (.rule (R.num p r.name [])) inp
    let parser' := fun n => tryParse so e' n (.rule (R'.num p r.name [])) inp
    ((∃ n t, parser n = .ok (.ok t)) ↔ ∃ n t, parser' n = .ok (.ok t)) ∧
    ((∃ n trk, parser n = .ok (.error trk)) ↔ ∃ n trk, parser' n = .ok (.error trk)) ∧
    ((∀ n, parser n = .oof) ↔ ∀ n, parser' n = .oof) ∧
    (r.silent = false →
      (∀ p ps e e', E p ps e e' → SameAt (unicodeOf env.unicodeNames table) (united ms) p ps e e' ∧ SameAt (unicodeOf env.unicodeNames table) (united ms') p ps e e') →
      ∀ P, (∃ n t, parser n = .ok (.ok t) ∧ t.asPairTree e lab = some P) ↔ ∃ n t, parser' n = .ok (.ok t) ∧ t.asPairTree e' lab' = some P) := by
  obtain ⟨m', r', hp', hr', hra⟩ : ∃ m' r', modAt (united ms') p = some m' ∧ r' ∈ m'.rules ∧ RuleAlike E p r r' := by
    rcases ha.modAt p with ⟨h1, -⟩ | ⟨n, n', h1, h2, h3⟩
    · rw [hp] at h1; cases h1
    · rw [hp] at h1; cases h1
      rw [List.nil_append] at h3
      rcases h3.rules.find r.name with ⟨k, -⟩ | ⟨r0, r', k1, k2, k3⟩
      · rw [findRule_eq (hn m (modAt_in p hp)).rules hr] at k; cases k
      · rw [findRule_eq (hn m (modAt_in p hp)).rules hr] at k1; cases k1
        exact ⟨n', r', h2, List.mem_of_find?_eq_some k2, k3⟩
  rw [← hu] at hn' hl'
  have A := (C75_parser hls h hm hs hn).2 R e lab hl hlab p m r hp hr ho hman hargs inp
  have B := (C75_parser hls h' hm' hs' hn').2 R' e' lab' hl' hlab' p m' r' hp' hr' (hra.name ▸ ho) (hra.name ▸ hman) (hra.args.trans hargs) inp
  rw [hu, hra.name] at B
  have means : ∀ o, Meaning (unicodeOf env.unicodeNames table) (united ms) (.expr (.mk p [] r.node)) (startCfg inp) o ↔
      Meaning (unicodeOf env.unicodeNames table) (united ms') (.expr (.mk p [] r'.node)) (startCfg inp) o := fun o =>
    (C79_grammar ha hE p [] r.node (startCfg inp) o).trans ((hE _ _ _ _ hra.node).2.2 [] hargs.symm _ _)
  intro parser parser'
  refine ⟨A.1.trans (Iff.trans ?_ B.1.symm), A.2.2.1.trans (Iff.trans ?_ B.2.2.1.symm), A.2.2.2.trans (Iff.trans ?_ B.2.2.2.symm), fun hsil hT P => ?_⟩
  · simp only [means]
  · simp only [means]
  · simp only [means]
  · have shows_ : ∀ c' F, Shows (unicodeOf env.unicodeNames table) (united ms) (.expr (.mk p [] r.node)) (startCfg inp) c' F ↔
        Shows (unicodeOf env.unicodeNames table) (united ms') (.expr (.mk p [] r'.node)) (startCfg inp) c' F := fun c' F =>
      (C79_tokens ha hT p [] r.node (startCfg inp) c' F).trans ((hT _ _ _ _ hra.node).2.2 [] hargs.symm _ _ _)
    refine (A.2.1 hsil P).trans (Iff.trans ?_ (B.2.1 (hra.silent.trans hsil) P).symm)
    simp only [shows_]

/-! ## Laws -/

section
variable (a b c : Expr) (t s : Trivia)

private theorem same_of {a b : Expr} (h : sepTrivia a = sepTrivia b)
    (k : ∀ u root p ρ c o, Result u root (.expr (.mk p ρ a)) c o ↔ Result u root (.expr (.mk p ρ b)) c o) : Same a b :=
  fun u root p _ => sameAt_iff.mpr ⟨h, fun ρ _ c o => k u root p ρ c o⟩

/-- Choices can be grouped as one likes. -/
theorem C79_choice_assoc : Same (.choice (.choice a b) c) (.choice a (.choice b c)) := by
  refine same_of rfl fun u root p ρ c o => ?_
  simp only [r_choice]
  constructor
  · rintro (⟨x, ⟨y, h1, h⟩ | ⟨h1, h2⟩, rfl⟩ | ⟨⟨y, h1, h⟩ | ⟨h1, h2⟩, h3⟩)
    · cases h; exact .inl ⟨_, h1, rfl⟩
    · exact .inr ⟨h1, .inl ⟨_, h2, rfl⟩⟩
    · cases h
    · exact .inr ⟨h1, .inr ⟨h2, h3⟩⟩
  · rintro (⟨x, h, rfl⟩ | ⟨h1, ⟨x, h2, rfl⟩ | ⟨h2, h3⟩⟩)
    · exact .inl ⟨x, .inl ⟨x, h, rfl⟩, rfl⟩
    · exact .inl ⟨x, .inr ⟨h1, h2⟩, rfl⟩
    · exact .inr ⟨.inr ⟨h1, h2⟩, h3⟩

/-- Sequences can be grouped as one likes, whichever trivia there are between the parts. -/
theorem C79_seq_assoc : Same (.seq (.seq a b t) c s) (.seq a (.seq b c s) t) := by
  refine same_of rfl fun u root p ρ c o => ?_
  simp only [r_seq]
  constructor
  · rintro (⟨⟨h, -⟩ | ⟨c1, F, h1, ⟨h2, -⟩ | ⟨c2, o', h2, h3, h⟩⟩, rfl⟩ | ⟨c3, G, ⟨h, k⟩ | ⟨c1, F, h1, ⟨h2, k⟩ | ⟨c2, o', h2, h3, k⟩⟩, h⟩)
    · exact .inl ⟨h, rfl⟩
    · exact .inr ⟨c1, F, h1, .inl ⟨h2, rfl⟩⟩
    · cases o' with
      | none => exact .inr ⟨c1, F, h1, .inr ⟨c2, none, h2, .inl ⟨h3, rfl⟩, rfl⟩⟩
      | some x => cases h
    · cases k
    · cases k
    · cases o' with
      | none => cases k
      | some x =>
        cases k
        rcases h with ⟨h4, rfl⟩ | ⟨c4, o4, h4, h5, rfl⟩
        · exact .inr ⟨c1, F, h1, .inr ⟨c2, none, h2, .inr ⟨_, _, h3, .inl ⟨h4, rfl⟩⟩, rfl⟩⟩
        · exact .inr ⟨c1, F, h1, .inr ⟨c2, after x.2 o4, h2, .inr ⟨_, _, h3, .inr ⟨c4, o4, h4, h5, rfl⟩⟩, (after_after _ _ _).symm⟩⟩
  · rintro (⟨h, rfl⟩ | ⟨c1, F, h1, ⟨h2, rfl⟩ | ⟨c2, o', h2, ⟨h3, rfl⟩ | ⟨c3, G, h3, ⟨h4, rfl⟩ | ⟨c4, o4, h4, h5, rfl⟩⟩, rfl⟩⟩)
    · exact .inl ⟨.inl ⟨h, trivial⟩, rfl⟩
    · exact .inl ⟨.inr ⟨c1, F, h1, .inl ⟨h2, trivial⟩⟩, rfl⟩
    · exact .inl ⟨.inr ⟨c1, F, h1, .inr ⟨c2, none, h2, h3, rfl⟩⟩, rfl⟩
    · exact .inr ⟨c3, F ++ G, .inr ⟨c1, F, h1, .inr ⟨c2, some (c3, G), h2, h3, rfl⟩⟩, .inl ⟨h4, rfl⟩⟩
    · exact .inr ⟨c3, F ++ G, .inr ⟨c1, F, h1, .inr ⟨c2, some (c3, G), h2, h3, rfl⟩⟩, .inr ⟨c4, o4, h4, h5, after_after _ _ _⟩⟩

/-- An alternative that is there already can be left out; so can one that starts with an alternative before it. -/
theorem C79_dead (ha : sepTrivia a = .none) : Same (.choice a a) a ∧ Same (.choice a (.seq a b t)) a := by
  refine ⟨same_of ha.symm fun u root p ρ c o => ?_, same_of ha.symm fun u root p ρ c o => ?_⟩
  · rw [r_choice]
    constructor
    · rintro (⟨x, h, rfl⟩ | ⟨-, h⟩) <;> exact h
    · intro h; cases o with
      | none => exact .inr ⟨h, h⟩
      | some x => exact .inl ⟨x, h, rfl⟩
  · rw [r_choice]
    constructor
    · rintro (⟨x, h, rfl⟩ | ⟨h, h'⟩)
      · exact h
      · rcases r_seq.mp h' with ⟨-, rfl⟩ | ⟨c1, F, h1, -⟩
        · exact h
        · cases h.det h1
    · intro h; cases o with
      | none => exact .inr ⟨h, r_seq.mpr (.inl ⟨h, rfl⟩)⟩
      | some x => exact .inl ⟨x, h, rfl⟩

/-- A common beginning of two alternatives can be taken out. -/
theorem C79_factor : Same (.choice (.seq a b t) (.seq a c t)) (.seq a (.choice b c) t) := by
  refine same_of rfl fun u root p ρ c o => ?_
  simp only [r_choice, r_seq]
  constructor
  · rintro (⟨x, ⟨-, h⟩ | ⟨c1, F, h1, ⟨-, h⟩ | ⟨c2, o', h2, h3, h⟩⟩, rfl⟩ | ⟨⟨h, -⟩ | ⟨c1, F, h1, ⟨h2, -⟩ | ⟨c2, o', h2, h3, h⟩⟩, h'⟩)
    · cases h
    · cases h
    · cases o' with
      | none => cases h
      | some y => exact .inr ⟨c1, F, h1, .inr ⟨c2, _, h2, .inl ⟨y, h3, rfl⟩, h⟩⟩
    · rcases h' with ⟨-, rfl⟩ | ⟨c1, F, h1, -⟩
      · exact .inl ⟨h, rfl⟩
      · cases h.det h1
    · rcases h' with ⟨h, -⟩ | ⟨c1', F', h1', ⟨-, rfl⟩ | ⟨c2, o', h2', -⟩⟩
      · cases h1.det h
      · exact .inr ⟨c1, F, h1, .inl ⟨h2, rfl⟩⟩
      · cases h1.det h1'
        cases h2.det _ h2'
    · cases o' with
      | some y => cases h
      | none =>
        rcases h' with ⟨h, -⟩ | ⟨c1', F', h1', ⟨h2', -⟩ | ⟨c2', o', h2', h3', rfl⟩⟩
        · cases h1.det h
        · cases h1.det h1'
          cases h2.det _ h2'
        · cases h1.det h1'
          cases h2.det _ h2'
          exact .inr ⟨c1, F, h1, .inr ⟨c2, o', h2, .inr ⟨h3, h3'⟩, rfl⟩⟩
  · rintro (⟨h, rfl⟩ | ⟨c1, F, h1, ⟨h2, rfl⟩ | ⟨c2, o', h2, ⟨x, h3, rfl⟩ | ⟨h3, h4⟩, rfl⟩⟩)
    · exact .inr ⟨.inl ⟨h, trivial⟩, .inl ⟨h, rfl⟩⟩
    · exact .inr ⟨.inr ⟨c1, F, h1, .inl ⟨h2, trivial⟩⟩, .inr ⟨c1, F, h1, .inl ⟨h2, rfl⟩⟩⟩
    · exact .inl ⟨_, .inr ⟨c1, F, h1, .inr ⟨c2, some x, h2, h3, rfl⟩⟩, rfl⟩
    · exact .inr ⟨.inr ⟨c1, F, h1, .inr ⟨c2, none, h2, h3, rfl⟩⟩, .inr ⟨c1, F, h1, .inr ⟨c2, o', h2, h4, rfl⟩⟩⟩

/-- The second alternative is used where the first does not match. -/
theorem C79_guard : Same (.choice a b) (.choice a (.seq (.neg a) b .none)) := by
  refine same_of rfl fun u root p ρ c o => ?_
  simp only [r_choice, r_seq, r_neg]
  constructor
  · rintro (h | ⟨h1, h2⟩)
    · exact .inl h
    · exact .inr ⟨h1, .inr ⟨c, [], .inr ⟨h1, rfl⟩, .inr ⟨c, o, .triviaNone, h2, (after_nil o).symm⟩⟩⟩
  · rintro (h | ⟨h1, ⟨⟨x, h2, -⟩ | ⟨-, h⟩, -⟩ | ⟨c1, F, ⟨x, h2, -⟩ | ⟨h2, h⟩, ⟨h3, -⟩ | ⟨c2, o', h3, h4, rfl⟩⟩⟩)
    · exact .inl h
    · cases h1.det h2
    · cases h
    · cases h1.det h2
    · cases h1.det h2
    · cases h3 with | triviaRule k1 k2 => cases k2
    · cases h
      cases h3 with
      | triviaNone => rw [after_nil]; exact .inr ⟨h1, h4⟩
      | triviaRule k1 k2 => cases k2

/-- An optional expression: the expression or nothing; making it optional again, or adding an alternative, has no effect. -/
theorem C79_opt : Same (.opt a) (.choice a (.str [])) ∧ Same (.opt (.opt a)) (.opt a) ∧ Same (.choice (.opt a) b) (.opt a) := by
  refine ⟨same_of rfl fun u root p ρ c o => ?_, same_of rfl fun u root p ρ c o => ?_, same_of rfl fun u root p ρ c o => ?_⟩
  · rw [r_opt, r_choice, r_empty]
  · simp only [r_opt]
    constructor
    · rintro (⟨x, h, rfl⟩ | ⟨⟨x, -, h⟩ | ⟨-, h⟩, -⟩)
      · exact h
      · cases h
      · cases h
    · rintro (⟨x, h, rfl⟩ | ⟨h, rfl⟩)
      · exact .inl ⟨x, .inl ⟨x, h, rfl⟩, rfl⟩
      · exact .inl ⟨_, .inr ⟨h, rfl⟩, rfl⟩
  · simp only [r_choice, r_opt]
    constructor
    · rintro (⟨x, h, rfl⟩ | ⟨⟨x, -, h⟩ | ⟨-, h⟩, -⟩)
      · exact h
      · cases h
      · cases h
    · rintro (⟨x, h, rfl⟩ | ⟨h, rfl⟩)
      · exact .inl ⟨x, .inl ⟨x, h, rfl⟩, rfl⟩
      · exact .inl ⟨_, .inr ⟨h, rfl⟩, rfl⟩

/-- Lookahead within lookahead. -/
theorem C79_predicates : Same (.neg (.neg a)) (.pos a) ∧ Same (.pos (.pos a)) (.pos a) ∧ Same (.neg (.pos a)) (.neg a) ∧ Same (.pos (.neg a)) (.neg a) := by
  refine ⟨same_of rfl fun u root p ρ c o => ?_, same_of rfl fun u root p ρ c o => ?_, same_of rfl fun u root p ρ c o => ?_, same_of rfl fun u root p ρ c o => ?_⟩ <;>
    simp only [r_neg, r_pos] <;> constructor
  · rintro (⟨x, ⟨y, h, k⟩ | ⟨h, k⟩, rfl⟩ | ⟨⟨y, h, -⟩ | ⟨h, k⟩, rfl⟩)
    · cases k
    · exact .inr ⟨h, rfl⟩
    · exact .inl ⟨y, h, rfl⟩
    · cases k
  · rintro (⟨x, h, rfl⟩ | ⟨h, rfl⟩)
    · exact .inr ⟨.inl ⟨x, h, trivial⟩, rfl⟩
    · exact .inl ⟨_, .inr ⟨h, rfl⟩, rfl⟩
  · rintro (⟨x, ⟨y, h, k⟩ | ⟨h, k⟩, rfl⟩ | ⟨⟨y, h, k⟩ | ⟨h, k⟩, rfl⟩)
    · exact .inl ⟨y, h, rfl⟩
    · cases k
    · cases k
    · exact .inr ⟨h, rfl⟩
  · rintro (⟨x, h, rfl⟩ | ⟨h, rfl⟩)
    · exact .inl ⟨_, .inl ⟨x, h, rfl⟩, rfl⟩
    · exact .inr ⟨.inr ⟨h, trivial⟩, rfl⟩
  · rintro (⟨x, ⟨y, h, k⟩ | ⟨h, k⟩, rfl⟩ | ⟨⟨y, h, k⟩ | ⟨h, k⟩, rfl⟩)
    · exact .inl ⟨y, h, rfl⟩
    · cases k
    · cases k
    · exact .inr ⟨h, rfl⟩
  · rintro (⟨x, h, rfl⟩ | ⟨h, rfl⟩)
    · exact .inl ⟨_, .inl ⟨x, h, rfl⟩, rfl⟩
    · exact .inr ⟨.inr ⟨h, trivial⟩, rfl⟩
  · rintro (⟨x, ⟨y, h, k⟩ | ⟨h, k⟩, rfl⟩ | ⟨⟨y, h, k⟩ | ⟨h, k⟩, rfl⟩)
    · cases k
    · exact .inr ⟨h, rfl⟩
    · exact .inl ⟨y, h, rfl⟩
    · cases k
  · rintro (⟨x, h, rfl⟩ | ⟨h, rfl⟩)
    · exact .inr ⟨.inl ⟨x, h, trivial⟩, rfl⟩
    · exact .inl ⟨_, .inr ⟨h, rfl⟩, rfl⟩

/-- Nothing, before or after. -/
theorem C79_nothing (ha : sepTrivia a = .none) : Same (.seq (.str []) a .none) a ∧ Same (.seq a (.str []) .none) a := by
  refine ⟨same_of ha.symm fun u root p ρ c o => ?_, same_of ha.symm fun u root p ρ c o => ?_⟩ <;> simp only [r_seq, r_empty] <;> constructor
  · rintro (⟨h, -⟩ | ⟨c1, F, h, ⟨h2, -⟩ | ⟨c2, o', h2, h3, rfl⟩⟩)
    · cases h
    · cases h2 with | triviaRule k1 k2 => cases k2
    · cases h
      cases h2 with
      | triviaNone => rw [after_nil]; exact h3
      | triviaRule k1 k2 => cases k2
  · exact fun h => .inr ⟨c, [], rfl, .inr ⟨c, o, .triviaNone, h, (after_nil o).symm⟩⟩
  · rintro (⟨h, rfl⟩ | ⟨c1, F, h, ⟨h2, -⟩ | ⟨c2, o', h2, rfl, rfl⟩⟩)
    · exact h
    · cases h2 with | triviaRule k1 k2 => cases k2
    · cases h2 with
      | triviaNone => simpa [after] using h
      | triviaRule k1 k2 => cases k2
  · intro h
    cases o with
    | none => exact .inl ⟨h, rfl⟩
    | some x => exact .inr ⟨x.1, x.2, h, .inr ⟨x.1, _, .triviaNone, rfl, by simp [after]⟩⟩

/-- Repetitions with the same bounds: `e*` is `e{0..}`, `e+` is `e{1..}`. -/
theorem C79_bounds : Same (.rep a) (.repRange a ⟨some 0, none⟩) ∧ Same (.rep a) (.repRange a ⟨none, none⟩) ∧ Same (.repOnce a) (.repRange a ⟨some 1, none⟩) := by
  refine ⟨same_of rfl fun u root p ρ c o => ?_, same_of rfl fun u root p ρ c o => ?_, same_of rfl fun u root p ρ c o => ?_⟩ <;>
    rw [r_rep rfl, r_rep rfl] <;> rfl

/-- One item exactly, and at most one. -/
theorem C79_one : Same (.repRange a ⟨some 0, some 1⟩) (.opt a) ∧ (sepTrivia a = .none → Same (.repRange a ⟨some 1, some 1⟩) a) ∧
    Same (.repRange (.separated a t) ⟨some 1, some 1⟩) (.repRange a ⟨some 1, some 1⟩) := by
  refine ⟨same_of rfl fun u root p ρ c o => ?_, fun ha => same_of ha.symm fun u root p ρ c o => ?_, same_of rfl fun u root p ρ c o => ?_⟩
  · rw [r_rep (min := 0) (max := 1) rfl, r_reps_one, r_opt]
    simp
  · rw [r_rep (min := 1) (max := 1) rfl, r_reps_one]
    constructor
    · rintro (⟨x, h, rfl⟩ | ⟨h, ⟨h', -⟩ | ⟨-, rfl⟩⟩)
      · exact h
      · cases h'
      · exact h
    · intro h; cases o with
      | none => exact .inr ⟨h, .inr ⟨by omega, rfl⟩⟩
      | some x => exact .inl ⟨x, h, rfl⟩
  · rw [r_rep (min := 1) (max := 1) rfl, r_reps_one, r_rep (e := .repRange a ⟨some 1, some 1⟩) (min := 1) (max := 1) rfl, r_reps_one]
    simp only [r_separated]

/-- One item more: `e{m+1..n+1}` is `e - e{m..n}`; with trivia between the items, `(e ~){m+1..n+1}` is `e ~ (e ~){m..n}` unless `m` is zero. -/
theorem C79_unroll (m n : Nat) (hn : 0 < n) :
    (sepTrivia a = .none → Same (.repRange a ⟨some (m + 1), some (n + 1)⟩) (.seq a (.repRange a ⟨some m, some n⟩) .none)) ∧
    (m ≠ 0 → Same (.repRange (.separated a t) ⟨some (m + 1), some (n + 1)⟩) (.seq a (.repRange (.separated a t) ⟨some m, some n⟩) t)) := by
  refine ⟨fun ha => same_of rfl fun u root p ρ c o => ?_, fun hm => same_of rfl fun u root p ρ c o => ?_⟩
  · rw [r_rep (min := m + 1) (max := n + 1) rfl, ha, r_reps_more (.inr rfl) hn, r_seq]
    have : ∀ c o, Result u root (.expr (.mk p ρ (.repRange a ⟨some m, some n⟩))) c o ↔ Result u root (.reps (.mk p ρ a) p .none m n 0) c o := by
      intro c o
      rw [r_rep (min := m) (max := n) rfl, ha]
    simp only [this]
  · rw [r_rep (min := m + 1) (max := n + 1) rfl]
    show Result u root (.reps (.mk p ρ (.separated a t)) p t (m + 1) (n + 1) 0) c o ↔ _
    rw [r_reps_more (.inl hm) hn, r_seq]
    have : ∀ c o, Result u root (.expr (.mk p ρ (.repRange (.separated a t) ⟨some m, some n⟩))) c o ↔ Result u root (.reps (.mk p ρ (.separated a t)) p t m n 0) c o := by
      intro c o
      rw [r_rep (min := m) (max := n) rfl]
      rfl
    simp only [this, r_separated]

end

/-! ## Literals -/

/-- A string can be cut into pieces. -/
theorem C79_split (s t : Text) : Same (.str (s ++ t)) (.seq (.str s) (.str t) .none) := by
  refine same_of rfl fun u root p ρ c o => ?_
  simp only [r_seq, r_str]
  constructor
  · rintro (⟨rest, h, rfl⟩ | ⟨h, rfl⟩)
    · exact .inr ⟨⟨c.pre ++ s, t ++ rest, c.stk⟩, [], .inl ⟨t ++ rest, by rw [h, List.append_assoc], rfl⟩, .inr ⟨_, _, .triviaNone, .inl ⟨rest, rfl, rfl⟩, by
        simp [after]⟩⟩
    · by_cases hs : s <+: c.suf
      · obtain ⟨r, hr⟩ := hs
        refine .inr ⟨⟨c.pre ++ s, r, c.stk⟩, [], .inl ⟨r, hr.symm, rfl⟩, .inr ⟨_, none, .triviaNone, .inr ⟨fun ⟨r', h'⟩ => h ⟨r', ?_⟩, rfl⟩, rfl⟩⟩
        rw [← hr, List.append_assoc, (h' : t ++ r' = r)]
      · exact .inl ⟨.inr ⟨hs, trivial⟩, rfl⟩
  · have none_ : ∀ {c o}, Meaning u root (.trivia p .none) c o → o = some c := by
      intro c o h
      cases h with
      | triviaNone => rfl
      | triviaRule k1 k2 => cases k2
    rintro (⟨⟨r, h, k⟩ | ⟨h, -⟩, rfl⟩ | ⟨c1, F, ⟨r, h1, k⟩ | ⟨-, k⟩, ⟨h2, -⟩ | ⟨c2, o', h2, ⟨r', h3, rfl⟩ | ⟨h3, rfl⟩, rfl⟩⟩)
    · cases k
    · exact .inr ⟨fun h' => h ((List.prefix_append s t).trans h'), rfl⟩
    · cases none_ h2
    · cases k
      cases none_ h2
      simp only at h3
      exact .inl ⟨r', by rw [h1, h3, List.append_assoc], by simp [after]⟩
    · cases k
      cases none_ h2
      simp only at h3
      refine .inr ⟨?_, rfl⟩
      rw [h1]
      exact fun h' => h3 ((List.prefix_append_right_inj s).mp h')
    · cases k
    · cases k
    · cases k

/-- So a string is never reached after a beginning of it. -/
theorem C79_prefix (s t : Text) : Same (.choice (.str s) (.str (s ++ t))) (.str s) := fun u root p ps =>
  (SameAt.choice .refl (C79_split s t u root p ps)).trans ((C79_dead (.str s) (.str t) .none rfl).2 u root p ps)

/-- A range of one character. -/
theorem C79_range (x : Char) : Same (.range x x) (.str [x]) := by
  refine same_of rfl fun u root p ρ c o => ?_
  rw [r_literal (l := .range x x) rfl, r_literal (l := .str [x]) rfl]
  have : leafSpec (.range x x) c = leafSpec (.str [x]) c := by
    unfold leafSpec eatText
    dsimp only
    cases h : c.suf with
    | nil => simp [eatChar]
    | cons y l =>
      by_cases hy : y = x
      · subst hy
        simp [eatChar]
      · have : ¬ (x ≤ y ∧ y ≤ x) := fun h => hy (Char.le_antisymm h.2 h.1)
        simp [eatChar, this, Ne.symm hy]
  simp only [leafOut, this]

private theorem lower_eq {x y : Char} (hy : y.isAlpha = false) (h : x.toLower = y.toLower) : x = y := by
  have hu : y.isUpper = false := by simp only [Char.isAlpha, Bool.or_eq_false_iff] at hy; exact hy.1
  have hl : y.isLower = false := by simp only [Char.isAlpha, Bool.or_eq_false_iff] at hy; exact hy.2
  have hu' := of_decide_eq_false hu
  unfold Char.toLower at h
  rw [dif_neg hu'] at h
  by_cases hx : x.val ≥ 'A'.val ∧ x.val ≤ 'Z'.val
  · rw [dif_pos hx] at h
    have h1 : x.val.toNat ≥ 65 := UInt32.le_iff_toNat_le.mp hx.1
    have h2 : x.val.toNat ≤ 90 := UInt32.le_iff_toNat_le.mp hx.2
    have h3 : y.val.toNat = x.val.toNat + 32 := by
      rw [← h]
      show (x.val + 32).toNat = _
      rw [UInt32.toNat_add]
      show (x.val.toNat + 32) % 4294967296 = _
      omega
    exfalso
    simp only [Char.isLower, Bool.and_eq_false_iff, decide_eq_false_iff_not] at hl
    rcases hl with hl | hl
    · exact hl (UInt32.le_iff_toNat_le.mpr (show 97 ≤ y.val.toNat by omega))
    · exact hl (UInt32.le_iff_toNat_le.mpr (show y.val.toNat ≤ 122 by omega))
  · rw [dif_neg hx] at h
    exact h

/-- Without letters, upper and lower case are the same. -/
theorem C79_caseless (s : Text) (hs : ∀ x ∈ s, x.isAlpha = false) : Same (.insens s) (.str s) := by
  refine same_of rfl fun u root p ρ c o => ?_
  rw [r_literal (l := .insens s) rfl, r_literal (l := .str s) rfl]
  have low : ∀ (s r : Text), (∀ x ∈ s, x.isAlpha = false) → r.map Char.toLower = s.map Char.toLower → r = s := by
    intro s
    induction s with
    | nil => intro r _ h; simpa using h
    | cons y s ih =>
      intro r hs h
      cases r with
      | nil => cases h
      | cons x r =>
        rw [List.map_cons, List.map_cons, List.cons.injEq] at h
        rw [lower_eq (hs y List.mem_cons_self) h.1, ih r (fun x hx => hs x (List.mem_cons_of_mem _ hx)) h.2]
  have : leafSpec (.insens s) c = leafSpec (.str s) c := by
    unfold leafSpec eatText
    dsimp only
    by_cases h : s <+: c.suf
    · have : c.suf.take s.length = s := (List.prefix_iff_eq_take.mp h).symm
      simp [h, this]
    · have : ¬ (c.suf.take s.length).map Char.toLower = s.map Char.toLower := fun h' => h (List.prefix_iff_eq_take.mpr (low s _ hs h').symm)
      rw [if_neg this, if_neg h]
      rfl
  simp only [leafOut, this]

/-! ## Rules -/

/-- A reference to a rule of the same module matches what the expression of the rule matches, in rules without parameters (but it has a token). -/
theorem C79_unfold {u : Unicode} {root : Module} {p q : List Name} {r : Rule} (h : target u root p q = some (.rule p r)) (ha : r.args = []) (hs : sepTrivia r.node = .none) :
    AgreesAt u root p [] (.path q) r.node := by
  refine ⟨hs.symm, fun ρ hρ c o => ?_⟩
  cases List.map_eq_nil_iff.mp hρ
  constructor
  · intro hm
    rcases m_path.mp hm with ⟨x, e, -, h1, -⟩ | ⟨-, ⟨full, l, h1, -⟩ | ⟨p', r', h1, -, h3⟩⟩
    · cases h1
    · rw [h] at h1; cases h1
    · rw [h] at h1; cases h1; exact h3
  · exact fun hm => .rule (fun _ _ => rfl) h ha hm

/-! ## What does not hold -/

def rwUnicode : Unicode := ⟨[], fun _ _ => false⟩

theorem rw_lit {u : Unicode} {root : Module} {p : List Name} {ρ : List (Name × Clo)} (s pre rest : Text) (stk : List Text) :
    Meaning u root (.expr (.mk p ρ (.str s))) ⟨pre, s ++ rest, stk⟩ (some ⟨pre ++ s, rest, stk⟩) :=
  .literalOk (l := .str s) (m := s) rfl (by simp [leafSpec, eatText]) rfl

theorem rw_not_lit {u : Unicode} {root : Module} {p : List Name} {ρ : List (Name × Clo)} {s pre suf : Text} {stk : List Text} (h : ¬ s <+: suf) :
    Meaning u root (.expr (.mk p ρ (.str s))) ⟨pre, suf, stk⟩ none :=
  .literalFail (l := .str s) rfl (by simp [leafSpec, eatText, h])

private theorem differ {a b : Expr} {root : Module} {c : Cfg} {o o' : Option Cfg} (ha : Meaning rwUnicode root (.expr (.mk [] [] a)) c o)
    (hb : Meaning rwUnicode root (.expr (.mk [] [] b)) c o') (h : o ≠ o') : ¬ AgreesAt rwUnicode root [] [] a b :=
  fun k => h (((k.2 [] rfl _ _).mp ha).det _ hb)

/-- The order of alternatives matters: `"a" | "ab"` is not `"ab" | "a"`. -/
theorem C79_choice_comm_witness : ¬ ∀ a b, Same (.choice a b) (.choice b a) := fun h =>
  differ (a := .choice (.str ['a']) (.str ['a', 'b'])) (b := .choice (.str ['a', 'b']) (.str ['a'])) (root := .mk [] []) (c := ⟨[], ['a', 'b'], []⟩)
    (.choiceL (rw_lit ['a'] [] ['b'] [])) (.choiceL (rw_lit ['a', 'b'] [] [] [])) (by decide) (h _ _ rwUnicode _ [] []).1

/-- A common end of alternatives cannot be taken out: `"a" - "c" | "ab" - "c"` is not `("a" | "ab") - "c"`. -/
theorem C79_factor_right_witness : ¬ ∀ a b c t, Same (.choice (.seq a c t) (.seq b c t)) (.seq (.choice a b) c t) := fun h =>
  differ (a := .choice (.seq (.str ['a']) (.str ['c']) .none) (.seq (.str ['a', 'b']) (.str ['c']) .none)) (b := .seq (.choice (.str ['a']) (.str ['a', 'b'])) (.str ['c']) .none)
    (root := .mk [] []) (c := ⟨[], ['a', 'b', 'c'], []⟩)
    (.choiceR (.seq (rw_lit ['a'] [] ['b', 'c'] []) .triviaNone (rw_not_lit (by decide))) (.seq (rw_lit ['a', 'b'] [] ['c'] []) .triviaNone (rw_lit ['c'] ['a', 'b'] [] [])))
    (.seq (.choiceL (rw_lit ['a'] [] ['b', 'c'] [])) .triviaNone (rw_not_lit (by decide))) (by decide) (h _ _ _ _ rwUnicode _ [] []).1

/-- `(e ~){1..2}` is not `e ~ (e ~){0..1}`, which takes the trivia after the last item, too. -/
theorem C79_unroll_witness : ¬ ∀ a t m n, 0 < n → Same (.repRange (.separated a t) ⟨some (m + 1), some (n + 1)⟩) (.seq a (.repRange (.separated a t) ⟨some m, some n⟩) t) := fun h =>
  have trivia : ∀ pre rest, Meaning rwUnicode (.mk [⟨optName, [], .str [' '], false⟩] []) (.trivia [] .optional) ⟨pre, ' ' :: rest, []⟩ (some ⟨pre ++ [' '], rest, []⟩) :=
    fun pre rest => .triviaRule (m := .mk [⟨optName, [], .str [' '], false⟩] []) rfl rfl (rw_lit [' '] pre rest [])
  differ (a := .repRange (.separated (.str ['a']) .optional) ⟨some 1, some 2⟩) (b := .seq (.str ['a']) (.repRange (.separated (.str ['a']) .optional) ⟨some 0, some 1⟩) .optional)
    (root := .mk [⟨optName, [], .str [' '], false⟩] []) (c := ⟨[], ['a', ' '], []⟩) (o := some ⟨['a'], [' '], []⟩) (o' := some ⟨['a', ' '], [], []⟩)
    (.rep rfl (.repsMore (by decide) (.unitFirst (.separated (rw_lit ['a'] [] [' '] []))) (.repsStop (by decide) (.unitNext (trivia ['a'] []) (.separated (rw_not_lit (by decide)))) (by decide))))
    (.seq (rw_lit ['a'] [] [' '] []) (trivia ['a'] []) (.rep rfl (.repsStop (by decide) (.unitFirst (.separated (rw_not_lit (by decide)))) (by decide))))
    (by decide) (h _ .optional 0 1 (by decide) rwUnicode _ [] []).1

/-- Twice negated is not the expression: lookahead does not move on. -/
theorem C79_neg_neg_witness : ¬ ∀ a, Same (.neg (.neg a)) a := fun h =>
  differ (a := .neg (.neg (.str ['a']))) (b := .str ['a']) (root := .mk [] []) (c := ⟨[], ['a'], []⟩) (.negOk (.negFail (rw_lit ['a'] [] [] []))) (rw_lit ['a'] [] [] []) (by decide)
    (h _ rwUnicode _ [] []).1

def oneRule : Module := .mk [⟨['x'], [], .str ['a'], false⟩] []

theorem oneRule_target : target rwUnicode oneRule [] [['x']] = some (.rule [] ⟨['x'], [], .str ['a'], false⟩) := rfl

/-- Writing the expression of a rule instead of the rule removes its token. -/
theorem C79_unfold_witness : AgreesAt rwUnicode oneRule [] [] (.path [['x']]) (.str ['a']) ∧ ¬ SameAt rwUnicode oneRule [] [] (.path [['x']]) (.str ['a']) := by
  refine ⟨C79_unfold (r := ⟨['x'], [], .str ['a'], false⟩) oneRule_target rfl rfl, fun h => ?_⟩
  have h1 : Shows rwUnicode oneRule (.expr (.mk [] [] (.path [['x']]))) ⟨[], ['a'], []⟩ ⟨['a'], [], []⟩ _ :=
    .rule (fun _ _ => rfl) oneRule_target rfl (.literal rfl (rw_lit ['a'] [] [] []))
  have h2 : Shows rwUnicode oneRule (.expr (.mk [] [] (.str ['a']))) ⟨[], ['a'], []⟩ ⟨['a'], [], []⟩ [] := .literal rfl (rw_lit ['a'] [] [] [])
  have := ((h.2 [] rfl _ _ _).mp h1).det (some (_, [])) h2
  simp [tokens] at this

/-! ## Examples -/

/-- `"a" | "ab" | "b"` can be written as `"a" | "b"`, also in a rule with a parameter and in an argument. -/
example (u : Unicode) (root : Module) (p ps q : List Name) :
    SameAt u root p ps (.call q [.rep (.choice (.choice (.str ['a']) (.str ['a', 'b'])) (.str ['b']))]) (.call q [.rep (.choice (.str ['a']) (.str ['b']))]) :=
  .call (.cons (.rep (.choice (C79_prefix ['a'] ['b'] u root p ps) .refl)) .nil) q

/-- `("a" ~){2}` is `"a" ~ "a"`. -/
example : Same (.repRange (.separated (.str ['a']) .optional) ⟨some 2, some 2⟩) (.seq (.str ['a']) (.str ['a']) .optional) := fun u root p ps =>
  ((C79_unroll (.str ['a']) .optional 1 1 (by decide)).2 (by decide) u root p ps).trans
    (.seq .refl (((C79_one (.str ['a']) .optional).2.2 u root p ps).trans ((C79_one (.str ['a']) .none).2.1 rfl u root p ps)) .optional)

/-- `x = "a" | "ab"`, `y = x - x`. -/
def longRules : List Rule := [⟨['x'], [], .choice (.str ['a']) (.str ['a', 'b']), false⟩, ⟨['y'], [], .seq (.path [['x']]) (.path [['x']]) .none, false⟩]

/-- `x = "a"`, `y = x - x`. -/
def shortRules : List Rule := [⟨['x'], [], .str ['a'], false⟩, ⟨['y'], [], .seq (.path [['x']]) (.path [['x']]) .none, false⟩]

def twoWorld : World := ⟨fun _ => none, fun t => if t = [] then some (longRules.map .rule) else some (shortRules.map .rule)⟩

def twoSetting : Setting := ⟨none, ⟨true, []⟩, fun _ => false, fun _ => false, [], twoWorld⟩

theorem two_ready {t : Text} {rules : List Rule} (hr : rules = longRules ∧ t = [] ∨ rules = shortRules ∧ t = ['s']) :
    Modules twoSetting ([⟨some "grammar_inline".toList, .str t⟩].filterMap sourceOf) [.mk rules []] ∧
    (∀ x, ¬ SilentName (united [.mk rules []]) x) ∧ AllNamed (unicodeOf [] fun _ _ => false) (united [.mk rules []]) ∧
    (∃ fuel d, derive twoSetting fuel [⟨some "grammar_inline".toList, .str t⟩] = .ok d) ∧ ∀ m', ModIn m' (united [.mk rules []]) → TriviaAcyclic m' := by
  have hun : united [.mk rules []] = .mk rules [] := by simp [united, Module.rules, Module.imports]
  have all : ∀ {m'}, ModIn m' (.mk rules []) → m' = .mk rules [] := by
    intro m' h
    cases h with
    | refl => rfl
    | step h1 _ => simp [Module.imports] at h1
  have hsrc : [⟨some "grammar_inline".toList, .str t⟩].filterMap sourceOf = [.inline t] := by
    rcases hr with ⟨-, rfl⟩ | ⟨-, rfl⟩ <;> decide
  have hm : Modules twoSetting ([⟨some "grammar_inline".toList, .str t⟩].filterMap sourceOf) [.mk rules []] := by
    rw [hsrc]
    refine .cons .inline (.file (l := rules.map .rule) ?_ ?_) .nil
    · rcases hr with ⟨rfl, rfl⟩ | ⟨rfl, rfl⟩ <;> rfl
    · have : ∀ (root : FPath) (l : List Rule), Loads twoSetting.world (.items root (l.map .rule) l []) := by
        intro root l
        induction l with
        | nil => exact .nil
        | cons r l ih => exact .rule ih
      exact this _ _
  have hs : ∀ x, ¬ SilentName (united [.mk rules []]) x := by
    rw [hun]
    rintro x ⟨m', h1, f, h2, h3, -⟩
    cases all h1
    have : f.silent = false := by
      rcases hr with ⟨rfl, -⟩ | ⟨rfl, -⟩ <;> simp [Module.rules, longRules, shortRules] at h2 <;> rcases h2 with rfl | rfl <;> rfl
    simp [Rule.inlined, this] at h3
  have hn : AllNamed (unicodeOf [] fun _ _ => false) (united [.mk rules []]) := by
    rw [hun]
    intro m' h
    cases all h
    rcases hr with ⟨rfl, -⟩ | ⟨rfl, -⟩ <;> refine ⟨by decide, by decide, by simp [Module.imports], by simp [Module.imports], ?_, ?_⟩ <;>
      simp [Module.rules, longRules, shortRules, ParamsPlain]
  refine ⟨hm, hs, hn, (C75_accepted hm hs hn).mpr ⟨?_, by rw [hsrc]; simp, ?_⟩, ?_⟩
  · intro a ha
    cases List.mem_singleton.mp ha
    exact ⟨fun x _ _ => ⟨_, rfl⟩, fun x hx h => by cases h; exact absurd hx (by decide), fun h => absurd h (by show ¬ some "grammar_inline".toList = some "rules_mod".toList; decide)⟩
  · refine (C61_accepts (cfg := ⟨true, false, none⟩) hn).mp ?_
    rw [hun]
    rcases hr with ⟨rfl, -⟩ | ⟨rfl, -⟩ <;> exact ⟨_, rfl⟩
  · rw [hun]
    intro m' h
    cases all h
    rcases hr with ⟨rfl, -⟩ | ⟨rfl, -⟩ <;> refine ⟨?_, ?_, .inl ?_⟩ <;>
      simp only [longRules, shortRules, Module.rules, List.mem_cons, List.not_mem_nil, or_false, forall_eq_or_imp, forall_eq] <;>
      exact ⟨fun h => absurd h (by decide), fun h => absurd h (by decide)⟩

/-- There are two such parsers, and `y` of both has the same tokens on all texts. -/
example : ∃ (d d' : Derived) (R R' : Layout) (e e' : Env) (lab lab' : RuleId → RuleVal),
    Linked (unicodeOf [] fun _ _ => false) d.code.1 d.code.2.wrappers R e ∧ Linked (unicodeOf [] fun _ _ => false) d'.code.1 d'.code.2.wrappers R' e' ∧
    ∀ inp P, (∃ n t, tryParse idealOps e n (.rule (R.num [] ['y'] [])) inp = .ok (.ok t) ∧ t.asPairTree e lab = some P) ↔
      ∃ n t, tryParse idealOps e' n (.rule (R'.num [] ['y'] [])) inp = .ok (.ok t) ∧ t.asPairTree e' lab' = some P := by
  obtain ⟨hm, hs, hn, ⟨fuel, d, h⟩, ha⟩ := two_ready (.inl ⟨rfl, rfl⟩)
  obtain ⟨hm', hs', hn', ⟨fuel', d', h'⟩, ha'⟩ := two_ready (.inr ⟨rfl, rfl⟩)
  obtain ⟨R, e, lab, hl, hlab⟩ := (C75_parser (table := fun _ _ => false) ideal_lawful h hm hs hn).1 ha
  obtain ⟨R', e', lab', hl', hlab'⟩ := (C75_parser (table := fun _ _ => false) ideal_lawful h' hm' hs' hn').1 ha'
  have alike : Alike (fun _ _ => Same) [] (united [.mk longRules []]) (united [.mk shortRules []]) := by
    refine .mk (.cons ⟨rfl, rfl, rfl, fun _ => rfl, C79_prefix ['a'] ['b']⟩ (.cons ⟨rfl, rfl, rfl, fun _ => rfl, fun u root p ps => .refl⟩ .nil)) .nil
  refine ⟨d, d', R, R', e, e', lab, lab', hl, hl', fun inp => ?_⟩
  exact (C79_parser ideal_lawful h h' hm hm' rfl hs hs' hn hn' alike (fun p ps e e' k => ⟨(k _ _ p ps).1, (k _ _ p ps).1⟩) hl hlab hl' hlab' (p := []) (m := united [.mk longRules []])
    (r := ⟨['y'], [], .seq (.path [['x']]) (.path [['x']]) .none, false⟩) rfl (by simp [united, Module.rules, longRules]) (by decide) (by decide) rfl inp).2.2.2 rfl
    (fun p ps e e' k => ⟨k _ _ p ps, k _ _ p ps⟩)

end Pest3.Props
