import Verif.AheadLemmas
import Verif.Props.First

/-!
# C86: what a rule finds depends only on the text ahead of it
-/

namespace Pest3.Props
open Pest3 Pest3.Gen Pest3.Load

section
variable {u : Unicode} {root : Module}

/-- A grammar that writes down no literal or built-in of a kind does not use it. -/
theorem C86_unused {K : Option Leaf → Prop} (hall : ∀ p m r, modAt root p = some m → r ∈ m.rules → ¬ WritesDown u root K p r.node) {p : List Name} {m : Module} {r : Rule}
    (hm : modAt root p = some m) (hr : r ∈ m.rules) : ¬ Uses u root K (.expr (.mk p [] r.node)) :=
  fun h => unused_of hall h (.mk (hall p m r hm hr) fun _ _ h => by cases h)

/-- The text before matters only for `pest::soi`: after `P` and after `Q`, with the same text ahead and the same stack, an expression fails alike and takes the same
text, leaves the same stack, and has the same tokens, moved. -/
theorem C86_place {it : SItem} {P Q : Text} (hu : ¬ Uses u root isSoi it ∨ (P = [] ↔ Q = [])) (s : Text) (k : List Text) :
    (Meaning u root it ⟨P, s, k⟩ none ↔ Meaning u root it ⟨Q, s, k⟩ none) ∧
    ∀ m s' k' F, Shows u root it ⟨P, s, k⟩ ⟨P ++ m, s', k'⟩ F →
      Shows u root it ⟨Q, s, k⟩ ⟨Q ++ m, s', k'⟩ (movePairs (fun n => n - utf8Len P + utf8Len Q) F) := by
  have hu' : ∀ {P Q : Text}, ¬ Uses u root isSoi it ∨ (P = [] ↔ Q = []) → ¬ Uses u root (fun l => isSoi l ∧ ¬ (P = [] ↔ Q = [])) it := by
    rintro P Q (h | h) k
    · exact h (k.mono fun _ h => h.1)
    · exact (unused_of_false (k.mono fun _ h' => (h'.2 h).elim)).elim
  refine ⟨⟨fun h => h.blind_none (blind_place P Q) (hu' hu) ⟨[], by simp⟩, fun h => h.blind_none (blind_place Q P) (hu' (hu.imp id Iff.symm)) ⟨[], by simp⟩⟩, ?_⟩
  intro m s' k' F h
  obtain ⟨d, h1, x, h2, h3, h4, h5⟩ := h.blind (blind_place P Q) (hu' hu) ⟨Q, s, k⟩ ⟨[], by simp⟩
  obtain ⟨dp, ds, dk⟩ := d
  simp only at h2 h3 h4 h5
  cases List.append_cancel_left h2
  subst h3 h4 h5
  exact h1

/-- The errors, too, are the same, moved. -/
theorem C86_errors {rank : RuleVal → Label} {b : Bool} {it : SItem} {P Q : Text} (hu : ¬ Uses u root isSoi it ∨ (P = [] ↔ Q = [])) {s : Text} {k : List Text} {o : Option Cfg} {es : List Ev}
    (h : Tries u root rank b it ⟨P, s, k⟩ o es) :
    ∃ o', Tries u root rank b it ⟨Q, s, k⟩ o' (moveEvs (fun n => n - utf8Len P + utf8Len Q) es) ∧ (o' = none ↔ o = none) := by
  have hu' : ¬ Uses u root (fun l => isSoi l ∧ ¬ (P = [] ↔ Q = [])) it := by
    rcases hu with h | h <;> intro k
    · exact h (k.mono fun _ h => h.1)
    · exact (unused_of_false (k.mono fun _ h' => (h'.2 h).elim)).elim
  obtain ⟨o', h1, h2⟩ := h.blind (blind_place P Q) hu' ⟨Q, s, k⟩ ⟨[], by simp⟩
  refine ⟨o', h1, ?_⟩
  cases o <;> cases o' <;> first | exact h2.elim | simp

/-- The stack matters only for the built-ins of `pest::stack`: an expression that uses none of them leaves the stack as it is, and does the same, with the same tokens
and the same errors, whatever the stack. -/
theorem C86_stack {it : SItem} (hu : ¬ Uses u root onStack it) (P s : Text) (k : List Text) :
    (Meaning u root it ⟨P, s, k⟩ none → ∀ k', Meaning u root it ⟨P, s, k'⟩ none) ∧
    (∀ c F, Shows u root it ⟨P, s, k⟩ c F → c.stk = k ∧ ∀ k', Shows u root it ⟨P, s, k'⟩ ⟨c.pre, c.suf, k'⟩ F) ∧
    ∀ rank b o es, Tries u root rank b it ⟨P, s, k⟩ o es → ∀ k', Tries u root rank b it ⟨P, s, k'⟩ (o.map fun c => ⟨c.pre, c.suf, k'⟩) es := by
  refine ⟨fun h k' => h.blind_none (blind_stack k k') hu ⟨rfl, rfl, rfl, rfl⟩, ?_, ?_⟩
  · intro c F h
    have go : ∀ k', Shows u root it ⟨P, s, k'⟩ ⟨c.pre, c.suf, k'⟩ F ∧ c.stk = k := by
      intro k'
      obtain ⟨⟨dp, ds, dk⟩, h1, h2, h3, h4, h5⟩ := h.blind (blind_stack k k') hu ⟨P, s, k'⟩ ⟨rfl, rfl, rfl, rfl⟩
      simp only at h2 h3 h5
      subst h2 h3 h5
      rw [movePairs_id] at h1
      exact ⟨h1, h4⟩
    exact ⟨(go k).2, fun k' => (go k').1⟩
  · intro rank b o es h k'
    obtain ⟨o', h1, h2⟩ := h.blind (blind_stack k k') hu ⟨P, s, k'⟩ ⟨rfl, rfl, rfl, rfl⟩
    rw [moveEvs_id] at h1
    cases o with
    | none => cases o' with
      | none => exact h1
      | some => exact h2.elim
    | some c => cases o' with
      | none => exact h2.elim
      | some d =>
        obtain ⟨dp, ds, dk⟩ := d
        obtain ⟨h2, h3, h4, h5⟩ := h2
        simp only at h2 h3 h5
        subst h2 h3 h5
        exact h1

/-- Every token, at any depth, is that of a match of its rule, at the place where it is and with the tokens inside it. -/
theorem C86_tokens {it : SItem} {c c' : Cfg} {F : List (Pair RuleVal)} (h : Shows u root it c c' F) {x : Pair RuleVal} (hx : TokenIn x F) : OfMatch u root (c.pre ++ c.suf) x :=
  h.within x hx

/-- Matching the rule of a token again, on the text from where the token begins, gives the same token with the same tokens inside. -/
theorem C86_again {whole : Text} {v : RuleVal} {s e : Nat} {G : List (Pair RuleVal)} (hx : OfMatch u root whole (.mk v s e G)) {p : List Name} {m : Module} {r : Rule}
    (hm : modAt root p = some m) (hr : findRule m.rules r.name = some r) (ha : r.args = []) (hv : v = ruleAt p r.name)
    (hu : ¬ Uses u root (fun l => isSoi l ∨ onStack l) (.expr (.mk p [] r.node))) :
    ∃ before m rest, whole = before ++ (m ++ rest) ∧ utf8Len before = s ∧ utf8Len before + utf8Len m = e ∧
      Shows u root (.expr (.mk p [] r.node)) ⟨[], m ++ rest, []⟩ ⟨m, rest, []⟩ (movePairs (· - s) G) := by
  obtain ⟨p', m', r', ρ, ⟨cp, cs, ck⟩, ⟨cp', cs', ck'⟩, h1, h2, h3, h4, h5, h6, h7, h8, rfl, rfl, rfl⟩ := hx
  obtain ⟨rfl, e⟩ := ruleAt_inj (hv.symm.trans h8)
  rw [hm] at h1
  cases h1
  rw [← e, hr] at h2
  cases h2
  rw [ha, List.map_eq_nil_iff] at h6
  subst h6
  obtain ⟨t, j1, j2⟩ := h7.meaning.taken
  simp only at j1 j2
  subst j1 j2
  refine ⟨cp, t, cs', rfl, rfl, by simp, ?_⟩
  have a := (C86_place (Q := []) (.inl fun k => hu (k.mono fun _ => .inl)) _ _).2 _ _ _ _ h7
  have b := ((C86_stack (fun k => hu (k.mono fun _ => .inr)) _ _ _).2.1 _ _ a).2 []
  simpa [utf8Len] using b

end

/-- From declarations to parsers: for a token of the tree that the parser of a rule returns, at any depth, the parser of the rule of the token, if it has no parameters
and uses neither `pest::soi` nor the stack, run on the text from where the token begins, stops where the token ends and returns the same token, moved. -/
theorem C86_parser {S : Type} {so : StackOps S} {saved : S → List (List Span)} (hls : Lawful so saved) {env : Setting} {attrs : List Attr} {ms : List Module}
    {table : Name → Char → Bool} {fuel : Nat} {d : Derived} (h : derive env fuel attrs = .ok d) (hm : Modules env (attrs.filterMap sourceOf) ms)
    (hs : ∀ x, ¬ SilentName (united ms) x) (hn : AllNamed (unicodeOf env.unicodeNames table) (united ms)) {R : Layout} {e : Env} {lab : RuleId → RuleVal}
    (hl : Linked (unicodeOf env.unicodeNames table) d.code.1 d.code.2.wrappers R e) (hlab : Labelled d.code.1 R e lab)
    {p p' : List Name} {m m' : Module} {r r' : Rule} (hp : modAt (united ms) p = some m) (hr : r ∈ m.rules) (ho : r.name ≠ optName) (hman : r.name ≠ manName) (hargs : r.args = [])
    (hsil : r.silent = false) (hp' : modAt (united ms) p' = some m') (hr' : r' ∈ m'.rules) (hargs' : r'.args = [])
    (hu : ¬ Uses (unicodeOf env.unicodeNames table) (united ms) (fun l => isSoi l ∨ onStack l) (.expr (.mk p' [] r'.node)))
    {inp : Str} {n stop : Nat} {t : Tree} {P : Pair RuleVal} (ht : tryParsePartial so e n (.rule (R.num p r.name [])) inp = .ok (.ok (⟨inp, stop⟩, t))) (hP : t.asPairTree e lab = some P)
    {a b : Nat} {G : List (Pair RuleVal)} (hx : TokenIn (.mk (ruleAt p' r'.name) a b G) [P]) :
    ∃ before rest, inp.text = before ++ rest ∧ utf8Len before = a ∧ ∀ inp' : Str, inp'.text = rest →
      ∃ n' t', tryParsePartial so e n' (.rule (R.num p' r'.name [])) inp' = .ok (.ok (⟨inp', b - a⟩, t')) ∧
        t'.asPairTree e lab = some (.mk (ruleAt p' r'.name) 0 (b - a) (movePairs (· - a) G)) := by
  obtain ⟨ms', cfg, hm', hg, -⟩ := C71_result_partial _ _ _ _ h
  cases modules_unique hm hm'
  have hgen := (generateTyped_none hs).mp ⟨_, hg⟩
  have hf := findRule_eq (hn m (modAt_in p hp)).rules hr
  have hf' := findRule_eq (hn m' (modAt_in p' hp')).rules hr'
  obtain ⟨c, F, k1, k2, k3⟩ := (C65_try_parse_prefix hls hgen hn hl hlab hp hf ho hman hargs hsil inp stop P).mp ⟨n, t, ht, hP⟩
  have hof : OfMatch (unicodeOf env.unicodeNames table) (united ms) inp.text (.mk (ruleAt p' r'.name) a b G) := by
    subst k3
    cases hx with
    | here hx =>
      have hx := List.mem_singleton.mp hx
      rw [Pair.mk.injEq] at hx
      obtain ⟨e1, e2, e3, e4⟩ := hx
      subst e4
      exact ⟨p, m, r, [], startCfg inp, c, hp, hf, ho, hman, hsil, by simp [hargs], k1, e1, e2, by rw [e3, k2], rfl⟩
    | inside hx k =>
      cases List.mem_singleton.mp hx
      exact C86_tokens k1 k
  obtain ⟨p1, m1, r1, ρ, -, -, i1, i2, i3, i4, i5, -, -, i6, -⟩ := id hof
  obtain ⟨rfl, e1⟩ := ruleAt_inj i6
  rw [hp'] at i1
  cases i1
  rw [← e1, hf'] at i2
  cases i2
  obtain ⟨before, t1, rest, j1, j2, j3, j4⟩ := C86_again hof hp' hf' hargs' rfl hu
  refine ⟨before, t1 ++ rest, j1, j2, fun inp' hi => ?_⟩
  refine (C65_try_parse_prefix hls hgen hn hl hlab hp' hf' i3 i4 hargs' i5 inp' (b - a) _).mpr ⟨⟨t1, rest, []⟩, movePairs (· - a) G, ?_, ?_, rfl⟩
  · rw [startCfg, hi]; exact j4
  · show b - a = utf8Len t1; omega

/-! ## Why the hypotheses are needed -/

private def noUnis : Unicode := unicodeOf [] fun _ _ => false

private def soiPath : List Name := ["pest".toList, "soi".toList]

/-- `pest::soi` matches at the beginning and nowhere else, whatever is ahead. -/
theorem C86_soi_witness (u : Unicode) (root : Module) (p : List Name) (s : Text) (k : List Text) :
    Meaning u root (.expr (.mk p [] (.path soiPath))) ⟨[], s, k⟩ (some ⟨[], s, k⟩) ∧ Meaning u root (.expr (.mk p [] (.path soiPath))) ⟨['a'], s, k⟩ none ∧
    Uses u root isSoi (.expr (.mk p [] (.path soiPath))) := by
  have hl : builtinLeaf u soiPath = some .soi := by rfl
  have ht : target u root p soiPath = some (.builtin soiPath) := by
    rw [target, if_pos (.inl (by rw [hl]; rfl))]
  have hq : NotParam [] soiPath := fun _ _ => rfl
  exact ⟨.builtinOk (c := ⟨[], s, k⟩) (m := []) rfl hq ht hl rfl rfl, .builtinFail (c := ⟨['a'], s, k⟩) rfl hq ht hl rfl, .builtin rfl hq ht hl trivial⟩

private def topRule : Rule := ⟨['x'], [], .path peekPath, false⟩
private def pushRule : Rule := ⟨['s'], [], .seq (.call pushPath [.str ['a']]) (.path [['x']]) .none, false⟩
private def topRoot : Module := .mk [pushRule, topRule] []

/-- With `s = pest::stack::push("a") - x` and `x = pest::stack::peek`, the text `aa` has a token of `x`, and `x` does not match the text from where it begins. -/
theorem C86_stack_witness :
    Shows noUnis topRoot (.expr (.mk [] [] pushRule.node)) ⟨[], ['a', 'a'], []⟩ ⟨['a', 'a'], [], [['a']]⟩ [.mk (ruleAt [] ['x']) 1 2 []] ∧
    Meaning noUnis topRoot (.expr (.mk [] [] topRule.node)) ⟨[], ['a'], []⟩ none ∧ Uses noUnis topRoot onStack (.expr (.mk [] [] topRule.node)) := by
  have hl : builtinLeaf noUnis peekPath = some .peek := by rfl
  have ht : target noUnis topRoot [] peekPath = some (.builtin peekPath) := by
    rw [target, if_pos (.inl (by rw [hl]; rfl))]
  have hp : target noUnis topRoot [] pushPath = some (.builtin pushPath) := by
    rw [target, if_pos (.inr rfl)]
  have hx : target noUnis topRoot [] [['x']] = some (.rule [] topRule) := rfl
  have hq : NotParam [] peekPath := fun _ _ => rfl
  refine ⟨?_, .builtinFail rfl hq ht hl rfl, .builtin rfl hq ht hl trivial⟩
  have a : Shows noUnis topRoot (.expr (.mk [] [] (.call pushPath [.str ['a']]))) ⟨[], ['a', 'a'], []⟩ ⟨['a'], ['a'], [['a']]⟩ [] :=
    .push (m := ['a']) (stk := []) (fun _ _ => rfl) hp (.literal (l := .str ['a']) rfl (.literalOk (l := .str ['a']) (m := ['a']) (rest := ['a']) rfl rfl rfl))
  have b : Shows noUnis topRoot (.expr (.mk [] [] topRule.node)) ⟨['a'], ['a'], [['a']]⟩ ⟨['a', 'a'], [], [['a']]⟩ [] :=
    .builtin rfl hq ht hl (.builtinOk (c := ⟨['a'], ['a'], [['a']]⟩) (m := ['a']) (rest := []) rfl hq ht hl rfl rfl)
  exact .seq (c2 := ⟨['a'], ['a'], [['a']]⟩) a .triviaNone (.rule (fun _ _ => rfl) hx rfl b)

/-! ## A grammar that depends only on the text ahead -/

private theorem nest_unused {r : Rule} (hr : r ∈ nestRules) (K : Option Leaf → Prop) (hK : ∀ t, ¬ K (some (.str t))) : ¬ Uses noUnis (.mk nestRules []) K (.expr (.mk [] [] r.node)) := by
  refine C86_unused (m := .mk nestRules []) ?_ rfl hr
  intro p m r hm hr h
  have e : p = [] ∧ m = .mk nestRules [] := by
    cases p with
    | nil => cases hm; exact ⟨rfl, rfl⟩
    | cons => cases hm
  obtain ⟨rfl, rfl⟩ := e
  have ta : target noUnis (.mk nestRules []) [] [['a']] = some (.rule [] nestRule) := rfl
  have tv : target noUnis (.mk nestRules []) [] [['v']] = some (.rule [] ⟨['v'], [], .choice (.path [['a']]) (.str ['n']), false⟩) := rfl
  have hr : r = ⟨['v'], [], .choice (.path [['a']]) (.str ['n']), false⟩ ∨ r = nestRule := by
    have hr : r ∈ nestRules := hr
    simpa [nestRules] using hr
  have parts : ∀ {s}, Sub s r.node → (∃ l r, s = .choice l r) ∨ (∃ l r t, s = .seq l r t) ∨ s = .path [['a']] ∨ s = .path [['v']] ∨ ∃ t, s = .str t := by
    intro s hs
    rcases hr with rfl | rfl
    · dsimp only at hs
      repeat' cases ‹Sub _ _›
      all_goals simp
    · rw [nestRule] at hs
      dsimp only at hs
      repeat' cases ‹Sub _ _›
      all_goals simp
  cases h with
  | literal h1 h2 h3 =>
    rcases parts h1 with ⟨_, _, rfl⟩ | ⟨_, _, _, rfl⟩ | rfl | rfl | ⟨_, rfl⟩ <;> cases h2
    exact hK _ h3
  | builtin h1 h2 h3 =>
    rcases parts h1 with ⟨_, _, rfl⟩ | ⟨_, _, _, rfl⟩ | rfl | rfl | ⟨_, rfl⟩ <;> cases h2
    · rw [ta] at h3; cases h3
    · rw [tv] at h3; cases h3
  | slice h1 => rcases parts h1 with ⟨_, _, h⟩ | ⟨_, _, _, h⟩ | h | h | ⟨_, h⟩ <;> cases h
  | push h1 => rcases parts h1 with ⟨_, _, h⟩ | ⟨_, _, _, h⟩ | h | h | ⟨_, h⟩ <;> cases h

/-- With `v = a | "n"` and `a = "[" - v - "]"`, a parser is generated, and for every token of `a` in the tree of a text, the parser of `a` returns it again from the
text where it begins. -/
example : ∃ (d : Derived) (R : Layout) (e : Env) (lab : RuleId → RuleVal), Linked noUnis d.code.1 d.code.2.wrappers R e ∧
    ∀ inp n stop t P, tryParsePartial idealOps e n (.rule (R.num [] ['v'] [])) inp = .ok (.ok (⟨inp, stop⟩, t)) → t.asPairTree e lab = some P →
      ∀ a b G, TokenIn (.mk (.rule ['a']) a b G) [P] → ∃ before rest, inp.text = before ++ rest ∧ utf8Len before = a ∧ ∀ inp' : Str, inp'.text = rest →
        ∃ n' t', tryParsePartial idealOps e n' (.rule (R.num [] ['a'] [])) inp' = .ok (.ok (⟨inp', b - a⟩, t')) ∧
          t'.asPairTree e lab = some (.mk (.rule ['a']) 0 (b - a) (movePairs (· - a) G)) := by
  obtain ⟨hm, hs, hn, ⟨fuel, d, h⟩, ha⟩ := nest_ready (.inl ⟨rfl, rfl⟩)
  obtain ⟨R, e, lab, hl, hlab⟩ := (C75_parser (table := fun _ _ => false) ideal_lawful h hm hs hn).1 ha
  refine ⟨d, R, e, lab, hl, fun inp n stop t P ht hP a b G hx => ?_⟩
  refine C86_parser (p := []) (p' := []) (m := united [.mk nestRules []]) (m' := united [.mk nestRules []]) (r := ⟨['v'], [], .choice (.path [['a']]) (.str ['n']), false⟩) (r' := nestRule)
    (table := fun _ _ => false) ideal_lawful h hm hs hn hl hlab rfl (by simp [united, Module.rules, nestRules]) (by decide) (by decide) rfl rfl rfl (by simp [united, Module.rules, nestRules]) rfl ?_ ht hP hx
  have hun : united [.mk nestRules []] = .mk nestRules [] := by simp [united, Module.rules, Module.imports]
  rw [hun]
  exact nest_unused (by simp [nestRules]) _ fun t h => h.elim id id

/-- There is such a token: in `[[n]]`, a token of `a` from 1 to 4. -/
example : ∃ c F, Shows noUnis (.mk nestRules []) (.expr (.mk [] [] (.path [['a']]))) ⟨[], "[[n]]".toList, []⟩ c F ∧ ∃ G, TokenIn (.mk (.rule ['a']) 1 4 G) F := by
  have ta : target noUnis (.mk nestRules []) [] [['a']] = some (.rule [] nestRule) := rfl
  have tv : target noUnis (.mk nestRules []) [] [['v']] = some (.rule [] ⟨['v'], [], .choice (.path [['a']]) (.str ['n']), false⟩) := rfl
  have lit : ∀ (x : Char) (pre suf : Text), Shows noUnis (.mk nestRules []) (.expr (.mk [] [] (.str [x]))) ⟨pre, x :: suf, []⟩ ⟨pre ++ [x], suf, []⟩ [] := fun x pre suf =>
    .literal (l := .str [x]) rfl (.literalOk (l := .str [x]) (m := [x]) (rest := suf) rfl (by simp [leafSpec, eatText]) rfl)
  have no : Meaning noUnis (.mk nestRules []) (.expr (.mk [] [] (.path [['a']]))) ⟨['[', '['], ['n', ']', ']'], []⟩ none :=
    .rule (fun _ _ => rfl) ta rfl (.seqFail (.seqFail (.literalFail (l := .str ['[']) rfl rfl)))
  have inner : Shows noUnis (.mk nestRules []) (.expr (.mk [] [] (.path [['v']]))) ⟨['[', '['], ['n', ']', ']'], []⟩ ⟨['[', '[', 'n'], [']', ']'], []⟩ _ :=
    .rule (fun _ _ => rfl) tv rfl (.choiceR no (lit 'n' ['[', '['] [']', ']']))
  have mid : Shows noUnis (.mk nestRules []) (.expr (.mk [] [] (.path [['a']]))) ⟨['['], ['[', 'n', ']', ']'], []⟩ ⟨['[', '[', 'n', ']'], [']'], []⟩ _ :=
    .rule (fun _ _ => rfl) ta rfl (.seq (.seq (lit '[' ['['] ['n', ']', ']']) .triviaNone inner) .triviaNone (lit ']' ['[', '[', 'n'] [']']))
  have out : Shows noUnis (.mk nestRules []) (.expr (.mk [] [] (.path [['a']]))) ⟨[], ['[', '[', 'n', ']', ']'], []⟩ ⟨['[', '[', 'n', ']', ']'], [], []⟩ _ :=
    .rule (fun _ _ => rfl) ta rfl (.seq (.seq (lit '[' [] ['[', 'n', ']', ']']) .triviaNone (.rule (fun _ _ => rfl) tv rfl (.choiceL mid))) .triviaNone (lit ']' ['[', '[', 'n', ']'] []))
  exact ⟨_, _, out, _, .inside List.mem_cons_self (.inside List.mem_cons_self (.here List.mem_cons_self))⟩

end Pest3.Props
