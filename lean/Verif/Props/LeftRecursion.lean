import Verif.LeftLemmas
import Verif.Props.EndToEnd

/-!
# C80: grammars without left recursion give parsers that return
-/

namespace Pest3.Props
open Pest3 Pest3.Gen Pest3.Load

/-- In a grammar where everything is well scoped and that is not left recursive every rule without parameters has a result, wherever it is applied. -/
theorem C80_total {u : Unicode} {root : Module} {g : Assumed} (hn : AllNamed u root) (hsc : AllScoped u root) (hg : NotLeftRecursive u root g)
    {p : List Name} {m : Module} {r : Rule} (hm : modAt root p = some m) (hr : r ∈ m.rules) (ha : r.args = []) (c : Cfg) :
    ∃ res, Meaning u root (.expr (.mk p [] r.node)) c res :=
  total hn hsc hg _ _ r (.rule hm hr ha) c rfl

/-- The rules of a cycle of rules that always try each other first have no result, wherever they are applied and whatever the arguments are. -/
theorem C80_loop {u : Unicode} {root : Module} {among : List Name → Name → Prop} (hl : LeftRecursive u root among)
    {p : List Name} {m : Module} {x : Name} {r : Rule} (hx : among p x) (hm : modAt root p = some m) (hr : findRule m.rules x = some r)
    {ρ : List (Name × Clo)} (hρ : ρ.map Prod.fst = r.args) (c : Cfg) (res : Option Cfg) :
    ¬ Meaning u root (.expr (.mk p ρ r.node)) c res := fun h => by
  refine LoopsFirst.none hl h ?_
  rw [LoopsFirst, hρ]
  exact hl p m x r hx hm hr

/-- The two exclude each other. -/
theorem C80_exclusive {u : Unicode} {root : Module} {g : Assumed} {among : List Name → Name → Prop} (hn : AllNamed u root) (hsc : AllScoped u root) (hg : NotLeftRecursive u root g)
    (hl : LeftRecursive u root among) {p : List Name} {m : Module} {r : Rule} (hm : modAt root p = some m) (hr : r ∈ m.rules) (ha : r.args = []) : ¬ among p r.name := fun hx => by
  obtain ⟨res, h⟩ := C80_total hn hsc hg hm hr ha ⟨[], [], []⟩
  exact C80_loop hl hx hm (findRule_eq (hn m (modAt_in p hm)).rules hr) (ρ := []) ha.symm _ _ h

theorem tryParse_answers {S : Type} {so : StackOps S} {saved : S → List (List Span)} (hls : Lawful so saved) {e : Env} {n : Nat} {x : Node} {inp : Str} :
    tryParse so e n x inp = .oof ∨ ∃ ans, tryParse so e n x inp = .ok ans := by
  unfold tryParse tryParseWith
  rcases run_cases hls e (good_start inp) (ready_init hls inp) n x with ⟨h1, h2⟩ | ⟨s, h1, h2⟩ | ⟨q', t', s, h1, h2, hq, hs⟩ <;> rw [h1]
  · exact .inl rfl
  · exact .inr ⟨_, rfl⟩
  · obtain ⟨s', he, _⟩ := eoi_run hq hs
    simp only [Out.andThen_some, he]
    cases q'.atEnd
    · exact .inr ⟨_, rfl⟩
    · exact .inr ⟨_, rfl⟩

section
variable {env : Setting} {attrs : List Attr} {ms : List Module} {table : Name → Char → Bool}
variable {S : Type} {so : StackOps S} {saved : S → List (List Span)}

/-- The parser generated from a grammar that is not left recursive returns on every text: with enough fuel there is always the same answer, a value or an error. -/
theorem C80_parser (hls : Lawful so saved) {fuel : Nat} {d : Derived} (h : derive env fuel attrs = .ok d) (hm : Modules env (attrs.filterMap sourceOf) ms)
    (hs : ∀ x, ¬ SilentName (united ms) x) (hn : AllNamed (unicodeOf env.unicodeNames table) (united ms)) {g : Assumed}
    (hg : NotLeftRecursive (unicodeOf env.unicodeNames table) (united ms) g) {R : Layout} {e : Env} {lab : RuleId → RuleVal}
    (hl : Linked (unicodeOf env.unicodeNames table) d.code.1 d.code.2.wrappers R e) (hlab : Labelled d.code.1 R e lab)
    {p : List Name} {m : Module} {r : Rule} (hp : modAt (united ms) p = some m) (hr : r ∈ m.rules) (ho : r.name ≠ optName) (hma : r.name ≠ manName) (ha : r.args = []) (inp : Str) :
    ∃ N ans, ∀ n, N ≤ n → tryParse so e n (.rule (R.num p r.name [])) inp = .ok ans := by
  have hsc : AllScoped (unicodeOf env.unicodeNames table) (united ms) := ((C75_accepted hm hs hn).mp ⟨fuel, d, h⟩).2.2
  obtain ⟨res, hres⟩ := C80_total hn hsc hg hp hr ha (startCfg inp)
  have hc := ((C75_parser hls h hm hs hn).2 R e lab hl hlab p m r hp hr ho hma ha inp).2.2.2
  obtain ⟨N, hN⟩ := Classical.not_forall.mp fun h => hc.mp h res hres
  have hpar : parse so realTracker e N (.rule (R.num p r.name [])) (Position.fromStart inp) (initSt so inp) ≠ .oof := fun h => hN ((tryParse_oof hls).mpr h)
  have hsame : ∀ n, N ≤ n → tryParse so e n (.rule (R.num p r.name [])) inp = tryParse so e N (.rule (R.num p r.name [])) inp := by
    intro n hn
    unfold tryParse tryParseWith
    rw [(C17_stable e so realTracker N n hn _ _ _).1 hpar]
  rcases tryParse_answers hls (e := e) (n := N) (x := .rule (R.num p r.name [])) (inp := inp) with h | ⟨ans, h⟩
  · exact absurd h hN
  · exact ⟨N, ans, fun n hn => (hsame n hn).trans h⟩

/-- The parser generated from rules that always try each other first returns on no text. -/
theorem C80_forever (hls : Lawful so saved) {fuel : Nat} {d : Derived} (h : derive env fuel attrs = .ok d) (hm : Modules env (attrs.filterMap sourceOf) ms)
    (hs : ∀ x, ¬ SilentName (united ms) x) (hn : AllNamed (unicodeOf env.unicodeNames table) (united ms)) {among : List Name → Name → Prop}
    (hlr : LeftRecursive (unicodeOf env.unicodeNames table) (united ms) among) {R : Layout} {e : Env} {lab : RuleId → RuleVal}
    (hl : Linked (unicodeOf env.unicodeNames table) d.code.1 d.code.2.wrappers R e) (hlab : Labelled d.code.1 R e lab)
    {p : List Name} {m : Module} {r : Rule} (hp : modAt (united ms) p = some m) (hr : r ∈ m.rules) (ho : r.name ≠ optName) (hma : r.name ≠ manName) (ha : r.args = [])
    (hx : among p r.name) (inp : Str) (n : Nat) :
    tryParse so e n (.rule (R.num p r.name [])) inp = .oof :=
  ((C75_parser hls h hm hs hn).2 R e lab hl hlab p m r hp hr ho hma ha inp).2.2.2.mpr
    (fun res => C80_loop hlr hx hp (findRule_eq (hn m (modAt_in p hp)).rules hr) (ρ := []) ha.symm _ res) n

end

/-! ## Examples -/

private def noUni : Unicode := unicodeOf [] fun _ _ => false

private def termRule : Rule := ⟨['t'], [], .choice (.call [['p']] [.path [['e']]]) (.str ['1']), false⟩
private def exprRule : Rule := ⟨['e'], [], .seq (.path [['t']]) (.rep (.separated (.seq (.str ['+']) (.path [['t']]) .optional) .optional)) .optional, false⟩
private def parenRule : Rule := ⟨['p'], [['x']], .seq (.seq (.str ['(']) (.path [['x']]) .optional) (.str [')']) .optional, false⟩
private def spaceRule : Rule := ⟨optName, [], .rep (.str [' ']), false⟩

/-- `e = t ~ ("+" ~ t ~)*`, `t = p(e) | "1"`, `p(x) = "(" ~ x ~ ")"`, `~ = " "*`: recursive, also through the parameter, but not left recursive. -/
private def sumRules : List Rule := [exprRule, termRule, parenRule, spaceRule]

private def sumRoot : Module := .mk sumRules []

private def sumAssumed : Assumed where
  empty := fun _ x => x = optName
  emptyArg := fun _ _ _ => False
  first := fun _ _ _ => False
  rank := fun _ x => if x = ['e'] then 2 else if x = ['t'] then 1 else 0

/-- `e = (e ~ "+")? ~ "1"`, `~ = " "*`: left recursive. -/
private def loopRules : List Rule := [⟨['e'], [], .seq (.opt (.seq (.path [['e']]) (.str ['+']) .optional)) (.str ['1']) .optional, false⟩, spaceRule]

private theorem sum_t : target noUni sumRoot [] [['t']] = some (.rule [] termRule) := rfl
private theorem sum_e : target noUni sumRoot [] [['e']] = some (.rule [] exprRule) := rfl
private theorem sum_p : target noUni sumRoot [] [['p']] = some (.rule [] parenRule) := rfl
private theorem sum_x : target noUni sumRoot [] [['x']] = none := rfl

private theorem sum_modAt {p : List Name} {m : Module} (h : modAt sumRoot p = some m) : p = [] ∧ m = sumRoot := by
  cases p with
  | nil => cases h; exact ⟨rfl, rfl⟩
  | cons x p => cases h

private theorem sum_not : NotLeftRecursive noUni sumRoot sumAssumed := by
  have mem : ∀ {r}, r ∈ sumRoot.rules → r = exprRule ∨ r = termRule ∨ r = parenRule ∨ r = spaceRule := by
    intro r h
    simpa [sumRoot, sumRules, Module.rules] using h
  have starts : ∀ {r hd}, r ∈ sumRoot.rules → MayStart noUni sumRoot sumAssumed [] r r.node hd → r = exprRule ∧ hd = .rule [] ['t'] ∨ r = termRule ∧ hd = .rule [] ['p'] := by
    intro r hd hr h
    rcases mem hr with rfl | rfl | rfl | rfl
    · rw [exprRule] at h
      dsimp only at h
      rw [start_seq, start_path sum_t (by intro x h; cases h), empty_path sum_t (by intro x h; cases h)] at h
      rcases h with h | ⟨h, -⟩
      · exact .inl ⟨rfl, h⟩
      · exact absurd (show ['t'] = optName from h) (by decide)
    · rw [termRule] at h
      dsimp only at h
      rw [start_choice, start_call sum_p] at h
      rcases h with (h | ⟨x, a, -, h, -⟩) | h
      · exact .inr ⟨rfl, h⟩
      · exact h.elim
      · exact (start_str h).elim
    · rw [parenRule] at h
      dsimp only at h
      rw [start_seq, start_seq, empty_seq, empty_str] at h
      rcases h with (h | ⟨h, -⟩) | ⟨⟨h, -⟩, -⟩
      · exact (start_str h).elim
      · cases h
      · cases h
    · rw [spaceRule] at h
      dsimp only at h
      rw [start_rep rfl, empty_str] at h
      rcases h with h | ⟨h, -⟩
      · exact (start_str h).elim
      · cases h
  refine ⟨?_, ?_, ?_, ?_⟩
  · intro p m r hm hr h
    obtain ⟨rfl, rfl⟩ := sum_modAt hm
    rcases mem hr with rfl | rfl | rfl | rfl
    · rw [exprRule] at h
      dsimp only at h
      rw [empty_seq, empty_path sum_t (by intro x h; cases h)] at h
      exact absurd (show ['t'] = optName from h.1) (by decide)
    · rw [termRule] at h
      dsimp only at h
      rw [empty_choice, empty_call sum_p, empty_str] at h
      rcases h with h | h
      · exact absurd (show ['p'] = optName from h) (by decide)
      · cases h
    · rw [parenRule] at h
      dsimp only at h
      rw [empty_seq, empty_seq, empty_str] at h
      cases h.1.1
    · rfl
  · intro p m r hm hr q args p' r' hc ht x a ha he
    obtain ⟨rfl, rfl⟩ := sum_modAt hm
    rcases mem hr with rfl | rfl | rfl | rfl
    · rw [exprRule] at hc
      dsimp only at hc
      repeat' cases ‹Sub _ _›
    · have : q = [['p']] ∧ args = [.path [['e']]] := by
        rw [termRule] at hc
        dsimp only at hc
        cases hc with
        | choiceL h => cases h with
          | refl => exact ⟨rfl, rfl⟩
          | arg h h' => cases List.mem_singleton.mp h; cases h'
        | choiceR h => cases h
      obtain ⟨rfl, rfl⟩ := this
      rw [sum_p] at ht
      cases ht
      simp [parenRule] at ha
      obtain ⟨rfl, rfl⟩ := ha
      rw [empty_path sum_e (by intro x h; cases h)] at he
      exact absurd (show ['e'] = optName from he) (by decide)
    · rw [parenRule] at hc
      dsimp only at hc
      repeat' cases ‹Sub _ _›
    · rw [spaceRule] at hc
      dsimp only at hc
      repeat' cases ‹Sub _ _›
  · intro p m r hm hr x h
    obtain ⟨rfl, rfl⟩ := sum_modAt hm
    rcases starts hr h with ⟨-, k⟩ | ⟨-, k⟩ <;> cases k
  · intro p m r hm hr p' x h
    obtain ⟨rfl, rfl⟩ := sum_modAt hm
    rcases starts hr h with ⟨rfl, k⟩ | ⟨rfl, k⟩ <;> cases k <;> decide

private def sumWorld : World := ⟨fun _ => none, fun t => if t = [] then some (sumRules.map .rule) else some (loopRules.map .rule)⟩

private def sumSetting : Setting := ⟨none, ⟨true, []⟩, fun _ => false, fun _ => false, [], sumWorld⟩

private theorem sum_ready {t : Text} {rules : List Rule} (hr : rules = sumRules ∧ t = [] ∨ rules = loopRules ∧ t = ['l']) :
    Modules sumSetting ([⟨some "grammar_inline".toList, .str t⟩].filterMap sourceOf) [.mk rules []] ∧ united [.mk rules []] = .mk rules [] ∧
    (∀ x, ¬ SilentName (united [.mk rules []]) x) ∧ AllNamed noUni (united [.mk rules []]) ∧
    (∃ fuel d, derive sumSetting fuel [⟨some "grammar_inline".toList, .str t⟩] = .ok d) ∧ ∀ m', ModIn m' (united [.mk rules []]) → TriviaAcyclic m' := by
  have hun : united [.mk rules []] = .mk rules [] := by simp [united, Module.rules, Module.imports]
  have all : ∀ {m'}, ModIn m' (.mk rules []) → m' = .mk rules [] := by
    intro m' h
    cases h with
    | refl => rfl
    | step h1 _ => simp [Module.imports] at h1
  have hsrc : [⟨some "grammar_inline".toList, .str t⟩].filterMap sourceOf = [.inline t] := by
    rcases hr with ⟨-, rfl⟩ | ⟨-, rfl⟩ <;> decide
  have hm : Modules sumSetting ([⟨some "grammar_inline".toList, .str t⟩].filterMap sourceOf) [.mk rules []] := by
    rw [hsrc]
    refine .cons .inline (.file (l := rules.map .rule) ?_ ?_) .nil
    · rcases hr with ⟨rfl, rfl⟩ | ⟨rfl, rfl⟩ <;> rfl
    · have : ∀ (root : FPath) (l : List Rule), Loads sumSetting.world (.items root (l.map .rule) l []) := by
        intro root l
        induction l with
        | nil => exact .nil
        | cons r l ih => exact .rule ih
      exact this _ _
  have hs : ∀ x, ¬ SilentName (united [.mk rules []]) x := by
    rw [hun]
    rintro x ⟨m', h1, f, h2, h3, -⟩
    cases all h1
    have : f.silent = false := by
      rcases hr with ⟨rfl, -⟩ | ⟨rfl, -⟩
      · simp only [Module.rules, sumRules, List.mem_cons, List.not_mem_nil, or_false] at h2
        rcases h2 with rfl | rfl | rfl | rfl <;> rfl
      · simp only [Module.rules, loopRules, List.mem_cons, List.not_mem_nil, or_false] at h2
        rcases h2 with rfl | rfl <;> rfl
    simp [Rule.inlined, this] at h3
  have hn : AllNamed noUni (united [.mk rules []]) := by
    rw [hun]
    intro m' h
    cases all h
    rcases hr with ⟨rfl, -⟩ | ⟨rfl, -⟩
    · refine ⟨by decide, by decide, by simp [Module.imports], by simp [Module.imports], ?_, ?_⟩
      · decide
      · intro r h2 x hx
        simp only [Module.rules, sumRules, List.mem_cons, List.not_mem_nil, or_false] at h2
        rcases h2 with rfl | rfl | rfl | rfl
        · cases hx
        · cases hx
        · cases List.mem_singleton.mp hx
          refine ⟨fun args h => ?_, fun range h => ?_⟩ <;> (rw [parenRule] at h; dsimp only at h; repeat' cases ‹Sub _ _›)
        · cases hx
    · refine ⟨by decide, by decide, by simp [Module.imports], by simp [Module.imports], ?_, ?_⟩
      · decide
      · intro r h2 x hx
        simp only [Module.rules, loopRules, List.mem_cons, List.not_mem_nil, or_false] at h2
        rcases h2 with rfl | rfl <;> cases hx
  refine ⟨hm, hun, hs, hn, (C75_accepted hm hs hn).mpr ⟨?_, by rw [hsrc]; simp, ?_⟩, ?_⟩
  · intro a ha
    cases List.mem_singleton.mp ha
    exact ⟨fun x _ _ => ⟨_, rfl⟩, fun x hx h => by cases h; exact absurd hx (by decide), fun h => absurd h (by show ¬ some "grammar_inline".toList = some "rules_mod".toList; decide)⟩
  · refine (C61_accepts (cfg := ⟨true, false, none⟩) hn).mp ?_
    rw [hun]
    rcases hr with ⟨rfl, -⟩ | ⟨rfl, -⟩ <;> exact ⟨_, rfl⟩
  · rw [hun]
    intro m' h
    cases all h
    have space : ∀ t, ¬ UsesTrivia t spaceRule.node := by
      rintro t (⟨l, r, h⟩ | ⟨e, h⟩) <;> (rw [spaceRule] at h; dsimp only at h; repeat' cases ‹Sub _ _›)
    have only : ∀ r ∈ rules, (r.name = optName → r = spaceRule) ∧ r.name ≠ manName := by
      rcases hr with ⟨rfl, -⟩ | ⟨rfl, -⟩ <;>
        simp only [sumRules, loopRules, List.mem_cons, List.not_mem_nil, or_false, forall_eq_or_imp, forall_eq]
      · exact ⟨⟨fun h => absurd h (by decide), by decide⟩, ⟨fun h => absurd h (by decide), by decide⟩, ⟨fun h => absurd h (by decide), by decide⟩, fun _ => trivial, by decide⟩
      · exact ⟨⟨fun h => absurd h (by decide), by decide⟩, fun _ => trivial, by decide⟩
    exact ⟨fun r h ho => (only r h).1 ho ▸ space _, fun r h ho => absurd ho (only r h).2, .inl fun r h ho => (only r h).1 ho ▸ space _⟩

/-- There is a parser of the sums, and it returns on all texts. -/
example : ∃ (d : Derived) (R : Layout) (e : Env), Linked noUni d.code.1 d.code.2.wrappers R e ∧
    ∀ inp, ∃ N ans, ∀ n, N ≤ n → tryParse idealOps e n (.rule (R.num [] ['e'] [])) inp = .ok ans := by
  obtain ⟨hm, hun, hs, hn, ⟨fuel, d, h⟩, ha⟩ := sum_ready (.inl ⟨rfl, rfl⟩)
  obtain ⟨R, e, lab, hl, hlab⟩ := (C75_parser (table := fun _ _ => false) ideal_lawful h hm hs hn).1 ha
  refine ⟨d, R, e, hl, fun inp => ?_⟩
  exact C80_parser (table := fun _ _ => false) ideal_lawful h hm hs hn (g := sumAssumed) (by rw [hun]; exact sum_not) hl hlab (p := []) (m := united [.mk sumRules []]) (r := exprRule) rfl
    (by rw [hun]; exact List.mem_cons_self) (by decide) (by decide) rfl inp

/-- There is a parser of the left recursive rule, and it returns on none. -/
example : ∃ (d : Derived) (R : Layout) (e : Env), Linked noUni d.code.1 d.code.2.wrappers R e ∧
    ∀ inp n, tryParse idealOps e n (.rule (R.num [] ['e'] [])) inp = .oof := by
  obtain ⟨hm, hun, hs, hn, ⟨fuel, d, h⟩, ha⟩ := sum_ready (.inr ⟨rfl, rfl⟩)
  obtain ⟨R, e, lab, hl, hlab⟩ := (C75_parser (table := fun _ _ => false) ideal_lawful h hm hs hn).1 ha
  refine ⟨d, R, e, hl, fun inp n => ?_⟩
  refine C80_forever (table := fun _ _ => false) ideal_lawful h hm hs hn (among := fun p x => p = [] ∧ x = ['e']) ?_ hl hlab (p := []) (m := united [.mk loopRules []])
    (r := ⟨['e'], [], .seq (.opt (.seq (.path [['e']]) (.str ['+']) .optional)) (.str ['1']) .optional, false⟩) rfl
    (by rw [hun]; exact List.mem_cons_self) (by decide) (by decide) rfl ⟨rfl, rfl⟩ inp n
  rw [hun]
  rintro p m x r ⟨rfl, rfl⟩ hm hr
  cases hm
  cases hr
  exact ⟨[], ['e'], ⟨rfl, rfl⟩, .seq (.opt (.seq (.rule (r' := ⟨['e'], [], .seq (.opt (.seq (.path [['e']]) (.str ['+']) .optional)) (.str ['1']) .optional, false⟩) (by intro x h; cases h) rfl)))⟩

end Pest3.Props
