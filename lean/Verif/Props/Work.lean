import Verif.CountRun
import Verif.WorkLemmas
import Verif.Props.Answering
import Verif.Props.First

/-!
# C89: how often rules are tried
-/

namespace Pest3.Props
open Pest3 Pest3.Gen Pest3.Load

/-! ## Counting -/

/-- Counting does not change what the parser does: whatever `try_parse` returns, the run that counts returns the same, and the number is the number of rules among the events of the run. -/
theorem C89_counter {S : Type} {so : StackOps S} {saved : S → List (List Span)} (hl : Lawful so saved) {env : Env} {n : Nat} {node : Node} {inp : Str} {ans : Except Tracker Tree}
    (h : tryParse so env n node inp = .ok ans) :
    ∃ es N, FullTraces env node inp ans.isOk es ∧ ∀ fuel, N ≤ fuel → countTries so env fuel node inp = .ok (ans.isOk, Ev.countList es) := by
  unfold tryParse at h
  cases hx : tryParseWith so realTracker env n node (Position.fromStart inp) (initSt so inp) with
  | oof => rw [hx] at h; cases h
  | panic => rw [hx] at h; cases h
  | ok x =>
    obtain ⟨o, st⟩ := x
    obtain ⟨es, h1, -⟩ := full_trace hl hx
    rw [hx] at h
    have : o.isSome = ans.isOk := by
      cases o with
      | none => cases h; rfl
      | some t => cases h; rfl
    rw [this] at h1
    obtain ⟨N, h2⟩ := counts hl h1
    exact ⟨es, N, h1, h2⟩

/-! ## Grammars in which the next character decides -/

/-- If the next character always decides and no rule is left-recursive, the number of times that rules are tried is at most proportional to the length of the text, with one factor for all
texts, whether the rule matches or not. -/
theorem C89_linear {u : Unicode} {root : Module} {g : Assumed} {fol : List Name → Name → Option Char → Prop} (hg : NotLeftRecursive u root g) (hP : PredictiveGrammar u root fol) :
    ∃ A, ∀ rank p m r, modAt root p = some m → r ∈ m.rules → r.args = [] → ∀ inp ok es, FullTries u root rank p r inp ok es → Ev.countList es ≤ A * (inp.text.length + 1) := by
  obtain ⟨b⟩ := Bounds.exist root g
  refine ⟨2 * b.A + 2, fun rank p m r hm hr ha inp ok es h => ?_⟩
  have := h.linear b hg hP hm hr ha
  rw [Nat.mul_add, Nat.add_mul]
  omega

section
variable {S : Type} {so : StackOps S} {saved : S → List (List Span)} (hls : Lawful so saved) {env : Setting} {attrs : List Attr} {ms : List Module}
  {table : Name → Char → Bool} {d : Derived} {R : Layout} {e : Env} {rank : RuleVal → Label} {lab : Label → RuleVal}
  (D : Derives env attrs ms table d R e rank lab)
include hls D

private theorem full_iff {p : List Name} {m : Module} {r : Rule} (hp : modAt (united ms) p = some m) (hr : r ∈ m.rules)
    (ho : r.name ≠ optName) (hman : r.name ≠ manName) (ha : r.args = []) (inp : Str) (b : Bool) (es : List Ev) :
    FullTraces e (.rule (R.num p r.name [])) inp b es ↔ FullTries (unicodeOf env.unicodeNames table) (united ms) rank p r inp b es := by
  have _ := hls
  obtain ⟨fuel, hd⟩ := D.derive
  obtain ⟨ms1, cfg, hm1, hg1, -⟩ := C71_result_partial _ _ _ _ hd
  cases modules_unique D.modules hm1
  have hgen := (generateTyped_none D.silent).mp ⟨_, hg1⟩
  exact fullTries_iff hgen D.named D.linked D.numbered D.ranks.eoi hp (findRule_eq (D.named m (modAt_in p hp)).rules hr) ho hman ha inp b es

/-- The number of times that the derived parser tries rules is the number that the grammar says. -/
theorem C89_same {p : List Name} {m : Module} {r : Rule} (hp : modAt (united ms) p = some m) (hr : r ∈ m.rules)
    (ho : r.name ≠ optName) (hman : r.name ≠ manName) (ha : r.args = []) (inp : Str) (ok : Bool) (k : Nat) :
    (∃ fuel, countTries so e fuel (.rule (R.num p r.name [])) inp = .ok (ok, k)) ↔
      ∃ es, FullTries (unicodeOf env.unicodeNames table) (united ms) rank p r inp ok es ∧ k = Ev.countList es := by
  constructor
  · rintro ⟨fuel, h⟩
    obtain ⟨es, h1, h2⟩ := counted hls h
    exact ⟨es, (full_iff hls D hp hr ho hman ha inp ok es).mp h1, h2⟩
  · rintro ⟨es, h1, rfl⟩
    obtain ⟨N, h2⟩ := counts hls ((full_iff hls D hp hr ho hman ha inp ok es).mpr h1)
    exact ⟨N, h2 N (Nat.le_refl _)⟩

/-- The parser of such a grammar answers on every text, and until then it has tried rules at most so many times. -/
theorem C89_parser {g : Assumed} {fol : List Name → Name → Option Char → Prop} (hg : NotLeftRecursive (unicodeOf env.unicodeNames table) (united ms) g)
    (hP : PredictiveGrammar (unicodeOf env.unicodeNames table) (united ms) fol) :
    ∃ A, ∀ p m r, modAt (united ms) p = some m → r ∈ m.rules → r.name ≠ optName → r.name ≠ manName → r.args = [] → ∀ inp,
      ∃ N ok k, (∀ fuel, N ≤ fuel → countTries so e fuel (.rule (R.num p r.name [])) inp = .ok (ok, k)) ∧ k ≤ A * (inp.text.length + 1) := by
  obtain ⟨A, hA⟩ := C89_linear hg hP
  refine ⟨A, fun p m r hp hr ho hman ha inp => ?_⟩
  obtain ⟨fuel, hd⟩ := D.derive
  have hsc : AllScoped (unicodeOf env.unicodeNames table) (united ms) := ((C75_accepted D.modules D.silent D.named).mp ⟨fuel, d, hd⟩).2.2
  obtain ⟨res, hres⟩ := C80_total D.named hsc hg hp hr ha (startCfg inp)
  have full : ∃ ok es, FullTries (unicodeOf env.unicodeNames table) (united ms) rank p r inp ok es := by
    obtain ⟨es, h⟩ := meaning_tries rank hres true
    cases res with
    | none => exact ⟨_, _, .fail h⟩
    | some c => exact ⟨_, _, .ok h⟩
  obtain ⟨ok, es, h⟩ := full
  obtain ⟨N, h2⟩ := counts hls ((full_iff hls D hp hr ho hman ha inp ok es).mpr h)
  exact ⟨N, ok, _, h2, hA rank p m r hp hr ha inp ok es h⟩

end

/-! ## A grammar in which it does not decide -/

private def nu : Unicode := unicodeOf [] fun _ _ => false

/-- `x = "(" - x - "a" | "(" - x - "b" | ""`. -/
def forkRule : Rule := ⟨['x'], [], .choice (.choice (.seq (.seq (.str ['(']) (.path [['x']]) .none) (.str ['a']) .none)
  (.seq (.seq (.str ['(']) (.path [['x']]) .none) (.str ['b']) .none)) (.str []), false⟩

private theorem nil_lit {root : Module} (pre suf : Text) : Meaning nu root (.expr (.mk [] [] (.str []))) ⟨pre, suf, []⟩ (some ⟨pre, suf, []⟩) := by
  have := rw_lit (u := nu) (root := root) (p := []) (ρ := []) [] pre suf []
  simpa using this

private theorem no_lit {root : Module} {a : Char} (ha : a ≠ '(') (pre : Text) (n : Nat) : Meaning nu root (.expr (.mk [] [] (.str [a]))) ⟨pre, List.replicate n '(', []⟩ none := by
  refine rw_not_lit ?_
  rintro ⟨t, h⟩
  cases n with
  | zero => cases h
  | succ n => rw [List.replicate_succ] at h; cases h; exact ha rfl

private theorem fork_tries (rank : RuleVal → Label) : ∀ n pre, ∃ es, Tries nu (.mk [forkRule] []) rank true (.expr (.mk [] [] forkRule.node)) ⟨pre, List.replicate n '(', []⟩
    (some ⟨pre, List.replicate n '(', []⟩) es ∧ Ev.countList es + 2 = 2 ^ (n + 1)
  | 0, pre => by
    have no : ∀ a : Char, Meaning nu (.mk [forkRule] []) (.expr (.mk [] [] (.str [a]))) ⟨pre, [], []⟩ none := fun a => rw_not_lit (by simp)
    exact ⟨_, .choiceR (.choiceR (.seqFail (.seqFail (.literal rfl (no _)))) (.seqFail (.seqFail (.literal rfl (no _))))) (.literal rfl (nil_lit _ _)), by simp [Ev.countList]⟩
  | n + 1, pre => by
    obtain ⟨es, h, hc⟩ := fork_tries rank n (pre ++ ['('])
    have part : ∀ a : Char, a ≠ '(' → ∃ es', Tries nu (.mk [forkRule] []) rank true (.expr (.mk [] [] (.seq (.seq (.str ['(']) (.path [['x']]) .none) (.str [a]) .none)))
        ⟨pre, List.replicate (n + 1) '(', []⟩ none es' ∧ Ev.countList es' = 1 + Ev.countList es := by
      intro a ha
      refine ⟨_, .seq (.seq (c1 := ⟨pre ++ ['('], List.replicate n '(', []⟩) (.literal rfl ?_) .triviaNone (.rule (p' := []) (r := forkRule) (fun _ _ => rfl) rfl rfl h)) .triviaNone
        (.literal rfl (no_lit ha _ n)), ?_⟩
      · exact rw_lit ['('] pre (List.replicate n '(') []
      · simp [countList_tried]
    obtain ⟨es1, h1, c1⟩ := part 'a' (by decide)
    obtain ⟨es2, h2, c2⟩ := part 'b' (by decide)
    refine ⟨_, .choiceR (.choiceR h1 h2) (.literal rfl (nil_lit _ _)), ?_⟩
    simp only [Ev.countList_add, c1, c2, List.append_nil]
    rw [Nat.pow_succ]
    omega

private theorem one_ready {r : Rule} (hsil : r.silent = false) (hx : r.name = ['x']) (hn : AllNamed nu (.mk [r] [])) (hg : ∃ x, generateModule ⟨true, false, none⟩ [] (.mk [r] []) = .ok x)
    {rank : RuleVal → Label} (hr : Ranks rank) : ∃ d R e lab,
    Derives (sampleSetting [r]) [⟨some "grammar_inline".toList, .str []⟩] [.mk [r] []] (fun _ _ => false) d R e rank lab := by
  refine sample_ready (by simp [hsil]) hn hg ?_ hr
  refine ⟨?_, ?_, .inl ?_⟩ <;>
    simp only [Module.rules, List.mem_cons, List.not_mem_nil, or_false, forall_eq, hx] <;>
    exact fun h => absurd h (by decide)

private theorem fork_named : AllNamed nu (.mk [forkRule] []) := by
  intro m' h
  cases h with
  | step h1 _ => simp [Module.imports] at h1
  | refl =>
    refine ⟨by decide, by decide, by simp [Module.imports], by simp [Module.imports], ?_, ?_⟩ <;> simp [Module.rules, forkRule, ParamsPlain]

/-- Otherwise the number may double with every further character: on `n` parentheses, the parser of `x = "(" - x - "a" | "(" - x - "b" | ""` tries rules `2 ^ (n + 1)` times. -/
theorem C89_exponential_witness {rank : RuleVal → Label} (hr : Ranks rank) : ∃ d R e lab,
    Derives (sampleSetting [forkRule]) [⟨some "grammar_inline".toList, .str []⟩] [.mk [forkRule] []] (fun _ _ => false) d R e rank lab ∧
    ∀ n, ∃ N, ∀ fuel, N ≤ fuel → countTries idealOps e fuel (.rule (R.num [] ['x'] [])) ⟨0, List.replicate n '('⟩ = .ok (decide (n = 0), 2 ^ (n + 1)) := by
  obtain ⟨d, R, e, lab, D⟩ := one_ready (r := forkRule) rfl rfl fork_named ⟨_, rfl⟩ hr
  refine ⟨d, R, e, lab, D, fun n => ?_⟩
  obtain ⟨es, h, hc⟩ := fork_tries rank n []
  have full := (full_iff ideal_lawful D (p := []) (r := forkRule) (m := united [.mk [forkRule] []]) rfl (by simp [united, Module.rules]) (by decide) (by decide) rfl ⟨0, List.replicate n '('⟩ _ _).mpr (.ok h)
  obtain ⟨N, hN⟩ := counts ideal_lawful full
  refine ⟨N, fun fuel hf => ?_⟩
  rw [show ['x'] = forkRule.name from rfl, hN fuel hf, Ev.countList_add, countList_tried, ← hc]
  have : decide (List.replicate n '(' = []) = decide (n = 0) := by cases n <;> rfl
  simp only [this, Ev.countList, Ev.count]
  congr 2
  omega

/-! ## Example -/

/-- `x = "(" - x - ("a" | "b") | ""`. -/
def joinRule : Rule := ⟨['x'], [], .choice (.seq (.seq (.str ['(']) (.path [['x']]) .none) (.choice (.str ['a']) (.str ['b'])) .none) (.str []), false⟩

private theorem join_named : AllNamed nu (.mk [joinRule] []) := by
  intro m' h
  cases h with
  | step h1 _ => simp [Module.imports] at h1
  | refl =>
    refine ⟨by decide, by decide, by simp [Module.imports], by simp [Module.imports], ?_, ?_⟩ <;> simp [Module.rules, joinRule, ParamsPlain]

private def joinFollow : List Name → Name → Option Char → Prop := fun _ _ o => o = none ∨ o = some 'a' ∨ o = some 'b'

private theorem at_one {r : Rule} {p : List Name} {m : Module} (h : modAt (.mk [r] []) p = some m) : p = [] ∧ m = .mk [r] [] := by
  cases p with
  | nil => cases h; exact ⟨rfl, rfl⟩
  | cons x p => cases h

private theorem join_predictive : PredictiveGrammar nu (.mk [joinRule] []) joinFollow := by
  intro p m r hm hr ha
  obtain ⟨rfl, rfl⟩ := at_one hm
  cases List.mem_singleton.mp (show r ∈ [joinRule] from hr)
  have lit : ∀ a f, Begins nu (.mk [joinRule] []) (.expr (.mk [] [] (.str [a]))) f ↔ f = .takes a := fun a f => begins_literal (e := .str [a]) (l := .str [a]) rfl
  have nil : ∀ f, Begins nu (.mk [joinRule] []) (.expr (.mk [] [] (.str []))) f ↔ ∃ o, f = .skips o := fun f => begins_literal (e := .str []) (l := .str []) rfl
  have none' : ∀ m f, modAt (.mk [joinRule] []) [] = some m → triviaRule m .none = some f → Mute nu (.mk [joinRule] []) [] [] f.node := fun m f _ h => by cases h
  refine .choice ?_ (.seq (G := fun o => o = some 'a' ∨ o = some 'b') none' ?_ (.seq (G := fun _ => True) none' (fun _ _ => trivial) (.mute (.literal rfl)) (.rule (p' := []) (r := joinRule) rfl rfl (fun o h => .inr h)))
    (.mute (.choice (.literal rfl) (.literal rfl)))) (.mute (.literal rfl))
  · rintro o ⟨h1, h2⟩
    have h2 : joinFollow [] ['x'] o := by
      cases h2 with
      | takes h => obtain ⟨o, h⟩ := (nil _).mp h; cases h
      | skips h k => exact k
    have h1 : o = some '(' := by
      cases h1 with
      | takes h =>
        simp only [begins_seq, lit] at h
        rcases h with ⟨x, h, ⟨y, h', k⟩ | ⟨y, h', k, -⟩ | ⟨k, -⟩⟩ | ⟨x, -, ⟨y, k, -⟩ | ⟨y, k, -⟩ | ⟨k, -⟩, -⟩ | ⟨⟨y, k, -⟩ | ⟨y, k, -⟩ | ⟨k, -⟩, -⟩ <;> first | (cases k; done) | skip
        cases k; cases h'; cases h; rfl
      | skips h _ =>
        simp only [begins_seq, lit] at h
        rcases h with ⟨x, h, -⟩ | ⟨x, h, -⟩ | ⟨⟨y, k, -⟩ | ⟨y, k, -⟩ | ⟨k, -⟩, -⟩ <;> first | (cases h; done) | (cases k; done)
    subst h1
    rcases h2 with h | h | h
    · cases h
    · exact absurd (Option.some.inj h) (by decide)
    · exact absurd (Option.some.inj h) (by decide)
  · intro o h
    cases h with
    | trivia h => cases h with | triviaRule _ h => cases h
    | next _ h =>
      cases h with
      | takes h =>
        rcases begins_choice.mp h with h | h
        · cases (lit _ _).mp h; exact .inl rfl
        · cases (lit _ _).mp h; exact .inr rfl
      | skips h _ =>
        rcases begins_choice.mp h with h | h <;> cases (lit _ _).mp h

private theorem join_not : NotLeftRecursive nu (.mk [joinRule] []) ⟨fun _ _ => True, fun _ _ _ => False, fun _ _ _ => False, fun _ _ => 0⟩ := by
  have starts : ∀ {hd}, ¬ MayStart nu (.mk [joinRule] []) ⟨fun _ _ => True, fun _ _ _ => False, fun _ _ _ => False, fun _ _ => 0⟩ [] joinRule joinRule.node hd := by
    intro hd hs
    rw [joinRule] at hs
    dsimp only at hs
    rw [start_choice, start_seq, start_seq, empty_seq, empty_str] at hs
    rcases hs with ((h | ⟨h, -⟩) | ⟨⟨h, -⟩, -⟩) | h
    · exact (start_str h).elim
    · cases h
    · cases h
    · exact (start_str h).elim
  refine ⟨fun _ _ _ _ _ _ => trivial, ?_, ?_, ?_⟩
  · intro p m r hm h q args p' r' hc
    obtain ⟨rfl, rfl⟩ := at_one hm
    cases List.mem_singleton.mp (show r ∈ [joinRule] from h)
    rw [joinRule] at hc
    dsimp only at hc
    repeat' cases ‹Sub _ _›
  · intro p m r hm h x hs
    obtain ⟨rfl, rfl⟩ := at_one hm
    cases List.mem_singleton.mp (show r ∈ [joinRule] from h)
    exact (starts hs).elim
  · intro p m r hm h p' x hs
    obtain ⟨rfl, rfl⟩ := at_one hm
    cases List.mem_singleton.mp (show r ∈ [joinRule] from h)
    exact (starts hs).elim

/-- With the common part written once, the number is proportional to the length of the text, for all texts. -/
example {rank : RuleVal → Label} (hr : Ranks rank) : ∃ d R e lab,
    Derives (sampleSetting [joinRule]) [⟨some "grammar_inline".toList, .str []⟩] [.mk [joinRule] []] (fun _ _ => false) d R e rank lab ∧
    ∃ A, ∀ inp, ∃ N ok k, (∀ fuel, N ≤ fuel → countTries idealOps e fuel (.rule (R.num [] ['x'] [])) inp = .ok (ok, k)) ∧ k ≤ A * (inp.text.length + 1) := by
  obtain ⟨d, R, e, lab, D⟩ := one_ready (r := joinRule) rfl rfl join_named ⟨_, rfl⟩ hr
  have hun : united [.mk [joinRule] []] = .mk [joinRule] [] := by simp [united, Module.rules, Module.imports]
  obtain ⟨A, hA⟩ := C89_parser ideal_lawful D (by rw [hun]; exact join_not) (by rw [hun]; exact join_predictive)
  exact ⟨d, R, e, lab, D, A, fun inp => hA [] _ joinRule rfl (by rw [hun]; exact List.mem_singleton.mpr rfl) (by decide) (by decide) rfl inp⟩

end Pest3.Props
