import Verif.FreeLemmas
import Verif.Props.Answering
import Verif.Props.First

/-!
# C90: grammars read without order
-/

namespace Pest3.Props
open Pest3 Pest3.Gen Pest3.Load

section
variable {u : Unicode} {root : Module}

/-- What a grammar matches can also be matched if it is read without order. -/
theorem C90_sound {a : Clo} {c c' : Cfg} (h : Meaning u root (.expr a) c (some c')) : May u root (.expr a) c c' := h.may c' rfl

/-- Where the order does not matter, and the expression returns, what can be matched without order such that what follows may go on is what is matched. -/
theorem C90_complete {fol : Clo → Cfg → Prop} (hn : AllNamed u root) (hG : DecidesGrammar u root fol) {F : Cfg → Prop} {a : Clo} (ha : Decides u root fol F a) {c c' : Cfg}
    (h : May u root (.expr a) c c') (hF : F c') {o : Option Cfg} (hm : Meaning u root (.expr a) c o) : o = some c' := h.matched hn hG F o ha hF hm

/-- So in front of what may follow, there is only one way to go on. -/
theorem C90_unique {fol : Clo → Cfg → Prop} (hn : AllNamed u root) (hG : DecidesGrammar u root fol) {F : Cfg → Prop} {a : Clo} (ha : Decides u root fol F a) {c c' c'' : Cfg}
    (h : May u root (.expr a) c c') (hF : F c') (h' : May u root (.expr a) c c'') (hF' : F c'') {o : Option Cfg} (hm : Meaning u root (.expr a) c o) : c' = c'' :=
  Option.some.inj ((C90_complete hn hG ha h hF hm).symm.trans (C90_complete hn hG ha h' hF' hm))

/-- It does not matter if the next character decides. -/
theorem C90_next {fol : Clo → Option Char → Prop} (hG : NextDecidesGrammar u root fol) : DecidesGrammar u root fun a c => fol a c.suf.head? :=
  fun p m r ρ hm hr hρ => (hG p m r ρ hm hr hρ).decides

/-- Without order, a grammar without predicates, stack, `soi`, `eoi` and `newline` is a context-free grammar: what can be matched is what it generates. -/
theorem C90_context_free (hG : FreeGrammar u root) {p : List Name} {e : Expr} (he : Free u root p e) (c c' : Cfg) :
    May u root (.expr (.mk p [] e)) c c' ↔
      ∃ w, c.suf = w ++ c'.suf ∧ c'.pre = c.pre ++ w ∧ c'.stk = c.stk ∧ Generates u root (.expr (.mk p [] e)) w := by
  constructor
  · intro h
    obtain ⟨w, ⟨k1, k2, k3⟩, k4⟩ := h.generates hG (.mk he fun _ _ h => by cases h)
    exact ⟨w, k1, k2, k3, k4⟩
  · rintro ⟨w, k1, k2, k3, k4⟩
    obtain ⟨pre, suf, stk⟩ := c
    obtain ⟨pre', suf', stk'⟩ := c'
    simp only at k1 k2 k3
    subst k1 k2 k3
    exact k4.may pre suf' stk'

end

section
variable {S : Type} {so : StackOps S} {saved : S → List (List Span)} (hls : Lawful so saved) {env : Setting} {attrs : List Attr} {ms : List Module}
  {table : Name → Char → Bool} {d : Derived} {R : Layout} {e : Env} {rank : RuleVal → Label} {lab : Label → RuleVal}
  (D : Derives env attrs ms table d R e rank lab)
include hls D

private theorem accepts_iff {p : List Name} {m : Module} {r : Rule} (hp : modAt (united ms) p = some m) (hr : r ∈ m.rules) (ho : r.name ≠ optName) (hman : r.name ≠ manName)
    (ha : r.args = []) (inp : Str) : (∃ n t, tryParse so e n (.rule (R.num p r.name [])) inp = .ok (.ok t)) ↔
      ∃ stk, Meaning (unicodeOf env.unicodeNames table) (united ms) (.expr (.mk p [] r.node)) (startCfg inp) (some ⟨inp.text, [], stk⟩) := by
  obtain ⟨fuel, hd⟩ := D.derive
  exact ((C75_parser hls hd D.modules D.silent D.named).2 R e lab D.linked D.labelled p m r hp hr ho hman ha inp).1

/-- The parser of a grammar that is not left-recursive, in which the order does not matter, accepts the texts that can be matched without order. -/
theorem C90_parser {g : Assumed} (hg : NotLeftRecursive (unicodeOf env.unicodeNames table) (united ms) g) {fol : Clo → Cfg → Prop}
    (hG : DecidesGrammar (unicodeOf env.unicodeNames table) (united ms) fol) {p : List Name} {m : Module} {r : Rule} (hp : modAt (united ms) p = some m) (hr : r ∈ m.rules)
    (ho : r.name ≠ optName) (hman : r.name ≠ manName) (ha : r.args = []) (hend : ∀ c : Cfg, c.suf = [] → fol (.mk p [] r.node) c) (inp : Str) :
    (∃ n t, tryParse so e n (.rule (R.num p r.name [])) inp = .ok (.ok t)) ↔
      ∃ stk, May (unicodeOf env.unicodeNames table) (united ms) (.expr (.mk p [] r.node)) (startCfg inp) ⟨inp.text, [], stk⟩ := by
  rw [accepts_iff hls D hp hr ho hman ha inp]
  constructor
  · rintro ⟨stk, h⟩; exact ⟨stk, C90_sound h⟩
  · rintro ⟨stk, h⟩
    obtain ⟨o, hm⟩ := C80_total D.named D.scoped hg hp hr ha (startCfg inp)
    have := C90_complete D.named hG (hG p m r [] hp hr ha.symm) h (hend _ rfl) hm
    exact ⟨stk, this ▸ hm⟩

/-- The parser of a grammar without predicates, stack, `soi`, `eoi` and `newline` accepts only texts that the grammar generates as a context-free grammar. -/
theorem C90_only (hf : FreeGrammar (unicodeOf env.unicodeNames table) (united ms)) {p : List Name} {m : Module} {r : Rule} (hp : modAt (united ms) p = some m) (hr : r ∈ m.rules)
    (ho : r.name ≠ optName) (hman : r.name ≠ manName) (ha : r.args = []) {inp : Str} {n : Nat} {t : Tree} (h : tryParse so e n (.rule (R.num p r.name [])) inp = .ok (.ok t)) :
    Generates (unicodeOf env.unicodeNames table) (united ms) (.expr (.mk p [] r.node)) inp.text := by
  obtain ⟨stk, hm⟩ := (accepts_iff hls D hp hr ho hman ha inp).mp ⟨n, t, h⟩
  obtain ⟨w, k1, -, -, k2⟩ := (C90_context_free hf (hf p m r hp hr) _ _).mp (C90_sound hm)
  have : inp.text = w := by simpa [startCfg] using k1
  rw [this]
  exact k2

/-- If moreover it is not left-recursive and the next character decides, it accepts exactly these. -/
theorem C90_language {g : Assumed} (hg : NotLeftRecursive (unicodeOf env.unicodeNames table) (united ms) g) (hf : FreeGrammar (unicodeOf env.unicodeNames table) (united ms))
    {fol : Clo → Option Char → Prop} (hG : NextDecidesGrammar (unicodeOf env.unicodeNames table) (united ms) fol) {p : List Name} {m : Module} {r : Rule}
    (hp : modAt (united ms) p = some m) (hr : r ∈ m.rules) (ho : r.name ≠ optName) (hman : r.name ≠ manName) (ha : r.args = []) (hend : fol (.mk p [] r.node) none) (inp : Str) :
    (∃ n t, tryParse so e n (.rule (R.num p r.name [])) inp = .ok (.ok t)) ↔
      Generates (unicodeOf env.unicodeNames table) (united ms) (.expr (.mk p [] r.node)) inp.text := by
  constructor
  · rintro ⟨n, t, h⟩; exact C90_only hls D hf hp hr ho hman ha h
  · intro h
    refine (C90_parser hls D hg (C90_next hG) hp hr ho hman ha ?_ inp).mpr ⟨[], ?_⟩
    · intro c hc
      simpa [hc] using hend
    · have := h.may [] [] []
      simpa [startCfg] using this

end

/-! ## Examples -/

private def nu : Unicode := unicodeOf [] fun _ _ => false

private theorem at_one {r : Rule} {p : List Name} {m : Module} (h : modAt (.mk [r] []) p = some m) : p = [] ∧ m = .mk [r] [] := by
  cases p with
  | nil => cases h; exact ⟨rfl, rfl⟩
  | cons x p => cases h

/-- `x = "[" - (x - ("," - x)*)? - "]" | "0"`. -/
def innerRule : Rule := ⟨['x'], [], .choice (.seq (.seq (.str ['[']) (.opt (.seq (.path [['x']]) (.rep (.seq (.str [',']) (.path [['x']]) .none)) .none)) .none) (.str [']']) .none)
  (.str ['0']), false⟩

private def innerRoot : Module := .mk [innerRule] []

private theorem inner_ready {rank : RuleVal → Label} (hr : Ranks rank) : ∃ d R e lab,
    Derives (sampleSetting [innerRule]) [⟨some "grammar_inline".toList, .str []⟩] [innerRoot] (fun _ _ => false) d R e rank lab := by
  refine sample_ready (by simp [innerRule]) ?_ ⟨_, rfl⟩ ?_ hr
  · intro m' h
    cases h with
    | step h1 _ => simp [Module.imports] at h1
    | refl =>
      refine ⟨by decide, by decide, by simp [Module.imports], by simp [Module.imports], ?_, ?_⟩ <;> simp [Module.rules, innerRule, ParamsPlain]
  · refine ⟨?_, ?_, .inl ?_⟩ <;>
      simp only [Module.rules, List.mem_cons, List.not_mem_nil, or_false, forall_eq, show innerRule.name = ['x'] from rfl] <;>
      exact fun h => absurd h (by decide)

private theorem inner_not : NotLeftRecursive nu innerRoot ⟨fun _ _ => True, fun _ _ _ => False, fun _ _ _ => False, fun _ _ => 0⟩ := by
  have starts : ∀ {hd}, ¬ MayStart nu innerRoot ⟨fun _ _ => True, fun _ _ _ => False, fun _ _ _ => False, fun _ _ => 0⟩ [] innerRule innerRule.node hd := by
    intro hd hs
    rw [innerRule] at hs
    dsimp only at hs
    rw [start_choice, start_seq, start_seq, empty_seq, empty_str] at hs
    rcases hs with ((h | ⟨h, -⟩) | ⟨⟨h, -⟩, -⟩) | h
    · exact (start_str h).elim
    · cases h
    · cases h
    · exact (start_str h).elim
  refine ⟨fun _ _ _ _ _ _ => trivial, ?_, ?_, ?_⟩
  · intro p m r hm h q args p' r' hc
    obtain ⟨rfl, rfl⟩ := at_one hm
    cases List.mem_singleton.mp (show r ∈ [innerRule] from h)
    rw [innerRule] at hc
    dsimp only at hc
    repeat' cases ‹Sub _ _›
  · intro p m r hm h x hs
    obtain ⟨rfl, rfl⟩ := at_one hm
    cases List.mem_singleton.mp (show r ∈ [innerRule] from h)
    exact (starts hs).elim
  · intro p m r hm h p' x hs
    obtain ⟨rfl, rfl⟩ := at_one hm
    cases List.mem_singleton.mp (show r ∈ [innerRule] from h)
    exact (starts hs).elim

private theorem inner_free : FreeGrammar nu innerRoot := by
  intro p m r hm hr
  obtain ⟨rfl, rfl⟩ := at_one hm
  cases List.mem_singleton.mp (show r ∈ [innerRule] from hr)
  have path : Free nu innerRoot [] (.path [['x']]) := .path fun full l h _ => by cases h
  exact .choice (.seq (.seq (.literal rfl) (.opt (.seq path (.rep rfl (.seq (.literal rfl) path)))) ) (.literal rfl)) (.literal rfl)

private def innerFollow : Clo → Option Char → Prop := fun _ o => o = none ∨ o = some ',' ∨ o = some ']'

private theorem inner_decides : NextDecidesGrammar nu innerRoot innerFollow := by
  intro p m r ρ hm hr hρ
  obtain ⟨rfl, rfl⟩ := at_one hm
  cases List.mem_singleton.mp (show r ∈ [innerRule] from hr)
  have : ρ = [] := List.map_eq_nil_iff.mp hρ
  subst this
  have lit : ∀ a f, Begins nu innerRoot (.expr (.mk [] [] (.str [a]))) f ↔ f = .takes a := fun a f => begins_literal (e := .str [a]) (l := .str [a]) rfl
  have trv : ∀ f, Begins nu innerRoot (.trivia [] .none) f → ∃ o, f = .skips o := by
    intro f h
    cases h with
    | triviaNone => exact ⟨_, rfl⟩
    | triviaRule _ h => cases h
  have seqLit : ∀ a r f, Begins nu innerRoot (.expr (.mk [] [] (.seq (.str [a]) r .none))) f → f = .takes a := by
    intro a r f h
    rcases begins_seq.mp h with ⟨x, -, h⟩ | ⟨x, -, h, -⟩ | ⟨h, -⟩
    · exact (lit _ _).mp h
    · cases (lit _ _).mp h
    · cases (lit _ _).mp h
  have seqFirst : ∀ l r f, (∀ o, ¬ Begins nu innerRoot (.expr (.mk [] [] l)) (.skips o)) → Begins nu innerRoot (.expr (.mk [] [] (.seq l r .none))) f →
      Begins nu innerRoot (.expr (.mk [] [] l)) f := by
    intro l r f hl h
    rcases begins_seq.mp h with ⟨x, -, h⟩ | ⟨x, -, h, -⟩ | ⟨h, -⟩
    · exact h
    · exact (hl _ h).elim
    · exact (hl _ h).elim
  have node : ∀ f, Begins nu innerRoot (.expr (.mk [] [] innerRule.node)) f → f = .takes '[' ∨ f = .takes '0' := by
    intro f h
    rcases begins_choice.mp h with h | h
    · have := seqFirst _ _ _ (fun o h => by cases seqLit _ _ _ h) h
      exact .inl (seqLit _ _ _ this)
    · exact .inr ((lit _ _).mp h)
  have path : ∀ f, Begins nu innerRoot (.expr (.mk [] [] (.path [['x']]))) f → f = .takes '[' ∨ f = .takes '0' := fun f h =>
    node f ((begins_rule (p' := []) (r := innerRule) (fun _ _ => rfl) rfl).mp h)
  have noTrivia : ∀ {m : Module} {f : Rule}, triviaRule m .none ≠ some f := by intro m f h; cases h
  have ref : ∀ {F : Option Char → Prop}, (∀ o, F o → innerFollow (.mk [] [] innerRule.node) o) → NextDecides nu innerRoot innerFollow F (.mk [] [] (.path [['x']])) := by
    intro F hF
    refine .path (fun x a _ h => by cases h) fun p' r _ h o ho => ?_
    cases h
    exact hF o ho
  have leadPath : ∀ F o, Leading nu innerRoot F (.expr (.mk [] [] (.path [['x']]))) o → o = some '[' ∨ o = some '0' := by
    rintro F o (⟨x, rfl, h⟩ | ⟨h, -⟩)
    · rcases path _ h with h | h <;> cases h <;> simp
    · rcases path _ h with h | h <;> cases h
  have leadLit : ∀ F a o, Leading nu innerRoot F (.expr (.mk [] [] (.str [a]))) o → o = some a := by
    rintro F a o (⟨x, rfl, h⟩ | ⟨h, -⟩)
    · cases (lit _ _).mp h; rfl
    · cases (lit _ _).mp h
  have leadTrivia : ∀ F o, Leading nu innerRoot F (.trivia [] .none) o → F o := by
    rintro F o (⟨x, rfl, h⟩ | ⟨-, h⟩)
    · obtain ⟨o, h⟩ := trv _ h; cases h
    · exact h
  have ne : ∀ {a b : Char}, a ≠ b → some a ≠ some b := fun h k => h (Option.some.inj k)
  refine .choice ?_ (.seq (.seq (.literal rfl) (fun _ _ _ h => (noTrivia h).elim) (.opt ?_ (.seq (ref ?_) (fun _ _ _ h => (noTrivia h).elim) ?_))) (fun _ _ _ h => (noTrivia h).elim) (.literal rfl)) (.literal rfl)
  · intro f h k
    have h := seqFirst _ _ _ (fun o h => by cases seqLit _ _ _ h) h
    cases seqLit _ _ _ h
    exact ne (by decide) (leadLit _ _ _ k)
  · intro f h k
    have k := leadLit _ _ _ (leadTrivia _ _ k)
    rcases path f (seqFirst _ _ _ (fun o h => by rcases path _ h with h | h <;> cases h) h) with rfl | rfl
    · exact ne (by decide) k
    · exact ne (by decide) k
  · intro o h
    rcases leadTrivia _ _ h with ⟨x, rfl, k⟩ | ⟨-, k⟩
    · cases k with
      | literal h => cases h
      | builtin h => cases h
      | rep h _ h2 => cases h; cases seqLit _ _ _ h2; exact .inr (.inl rfl)
      | repTrivia h h2 => cases h; cases seqLit _ _ _ h2
    · exact .inr (.inr (leadLit _ _ _ (leadTrivia _ _ k)))
  · refine .rep rfl (fun _ f h k => ?_) (fun _ x h => ?_) (.seq (.literal rfl) (fun _ _ _ h => (noTrivia h).elim) (ref ?_)) fun _ _ _ h => (noTrivia h).elim
    · cases seqLit _ _ _ h
      exact ne (by decide) (leadLit _ _ _ (leadTrivia _ _ k))
    · obtain ⟨o, h⟩ := trv _ h; cases h
    · rintro o (h | ⟨x, rfl, h | h⟩)
      · exact .inr (.inr (leadLit _ _ _ (leadTrivia _ _ h)))
      · obtain ⟨o, h⟩ := trv _ h; cases h
      · cases seqLit _ _ _ h; exact .inr (.inl rfl)

/-- Nested lists: the parser accepts exactly what the context-free grammar generates. -/
theorem C90_nested {rank : RuleVal → Label} (hr : Ranks rank) : ∃ d R e lab,
    Derives (sampleSetting [innerRule]) [⟨some "grammar_inline".toList, .str []⟩] [innerRoot] (fun _ _ => false) d R e rank lab ∧
    ∀ inp, (∃ n t, tryParse idealOps e n (.rule (R.num [] ['x'] [])) inp = .ok (.ok t)) ↔ Generates nu innerRoot (.expr (.mk [] [] innerRule.node)) inp.text := by
  obtain ⟨d, R, e, lab, D⟩ := inner_ready hr
  have hun : united [innerRoot] = innerRoot := by simp [united, innerRoot, Module.rules, Module.imports]
  refine ⟨d, R, e, lab, D, fun inp => ?_⟩
  have := C90_language ideal_lawful D (p := []) (r := innerRule) (m := innerRoot) (by rw [hun]; exact inner_not) (by rw [hun]; exact inner_free) (fol := innerFollow) (by rw [hun]; exact inner_decides)
    (by rw [hun]; rfl) (List.mem_singleton.mpr rfl) (by decide) (by decide) rfl (.inl rfl) inp
  rw [hun] at this
  exact this

example : Generates nu innerRoot (.expr (.mk [] [] innerRule.node)) ['[', '0', ',', '0', ']'] := by
  have zero : Generates nu innerRoot (.expr (.mk [] [] (.path [['x']]))) ['0'] := .rule (p' := []) (r := innerRule) (fun _ _ => rfl) rfl rfl (.choiceR (.literal rfl rfl rfl))
  exact .choiceL (.seq (w1 := ['[', '0', ',', '0']) (w2 := []) (w3 := [']']) (.seq (w1 := ['[']) (w2 := []) (w3 := ['0', ',', '0']) (.literal rfl rfl rfl) .triviaNone
    (.optSome (.seq (w1 := ['0']) (w2 := []) (w3 := [',', '0']) zero .triviaNone (.rep rfl (.repsMore (w1 := [',', '0']) (w2 := []) (by decide)
      (.unitFirst (.seq (w1 := [',']) (w2 := []) (w3 := ['0']) (.literal rfl rfl rfl) .triviaNone zero)) (.repsStop (.inl (by decide)))))))) .triviaNone (.literal rfl rfl rfl))

/-- `x = "a" | "ab"`. -/
def firstRule : Rule := ⟨['x'], [], .choice (.str ['a']) (.str ['a', 'b']), false⟩

/-- Otherwise texts may be rejected although they are generated: `ab` by `x = "a" | "ab"`. -/
theorem C90_order_witness {rank : RuleVal → Label} (hr : Ranks rank) : ∃ d R e lab,
    Derives (sampleSetting [firstRule]) [⟨some "grammar_inline".toList, .str []⟩] [.mk [firstRule] []] (fun _ _ => false) d R e rank lab ∧
    Generates nu (.mk [firstRule] []) (.expr (.mk [] [] firstRule.node)) ['a', 'b'] ∧
    ∀ n t, tryParse idealOps e n (.rule (R.num [] ['x'] [])) ⟨0, ['a', 'b']⟩ ≠ .ok (.ok t) := by
  obtain ⟨d, R, e, lab, D⟩ : ∃ d R e lab, Derives (sampleSetting [firstRule]) [⟨some "grammar_inline".toList, .str []⟩] [.mk [firstRule] []] (fun _ _ => false) d R e rank lab := by
    refine sample_ready (by simp [firstRule]) ?_ ⟨_, rfl⟩ ?_ hr
    · intro m' h
      cases h with
      | step h1 _ => simp [Module.imports] at h1
      | refl =>
        refine ⟨by decide, by decide, by simp [Module.imports], by simp [Module.imports], ?_, ?_⟩ <;> simp [Module.rules, firstRule, ParamsPlain]
    · refine ⟨?_, ?_, .inl ?_⟩ <;>
        simp only [Module.rules, List.mem_cons, List.not_mem_nil, or_false, forall_eq, show firstRule.name = ['x'] from rfl] <;>
        exact fun h => absurd h (by decide)
  refine ⟨d, R, e, lab, D, .choiceR (.literal rfl rfl rfl), fun n t h => ?_⟩
  have hun : united [.mk [firstRule] []] = .mk [firstRule] [] := by simp [united, Module.rules, Module.imports]
  obtain ⟨stk, hm⟩ := (accepts_iff ideal_lawful D (p := []) (r := firstRule) (m := .mk [firstRule] []) (by rw [hun]; rfl) (List.mem_singleton.mpr rfl) (by decide) (by decide) rfl _).mp ⟨n, t, h⟩
  rw [hun] at hm
  have : Meaning nu (.mk [firstRule] []) (.expr (.mk [] [] firstRule.node)) ⟨[], ['a', 'b'], []⟩ (some ⟨['a'], ['b'], []⟩) :=
    .choiceL (.literalOk (l := .str ['a']) (m := ['a']) rfl rfl rfl)
  have := hm.det _ this
  simp at this

end Pest3.Props
