import Verif.InlineGen
import Verif.InlineTerm
import Verif.Props.Generation

/-!
# Property C46: inlining silent rules with parameters

`generate_typed` first replaces calls of silent rules with parameters by their bodies and removes those rules.  The full
claim is that this does not change what the remaining rules mean.  It is false for some grammars (see the findings at
the end); it is proved here for grammars whose names are not confused (`Hygienic`).
-/

namespace Pest3.Props
open Pest3 Pest3.Gen

section
variable {u : Unicode} {m m' : Module}

theorem sig_lookup (l : List (Name × Expr)) (x : Name) : sig l x = l.lookup x := by
  induction l with
  | nil => rfl
  | cons b l ih =>
    obtain ⟨y, a⟩ := b
    simp only [sig, List.lookup_cons, ih]
    by_cases h : y = x
    · subst h; simp
    · rw [if_neg h, beq_false_of_ne fun e => h e.symm]

/-- A call of a silent rule with parameters, the last of its name, becomes the body with all parameters replaced simultaneously, if some parameter is
used, none is used in two arguments of one call, and no argument contains the name of a later parameter.
(Missing from the full claim: these conditions.) -/
theorem C46_call_partial {f : Rule} {before after : List Rule} (hf : m.rules = before ++ f :: after) (hs : f.silent = true)
    (hlast : ∀ g ∈ after, g.silent = true → g.args ≠ [] → g.name ≠ f.name)
    {args : List Expr} (hl : f.args.length = args.length) (hu : ∃ x ∈ f.args, Occurs x f.node)
    (ho : ∀ x ∈ f.args, OncePerCall x f.node)
    (hc : ∀ i j : Nat, i < j → ∀ x a, f.args[j]? = some x → args[i]? = some a → ¬ Occurs x a) (q : List Name) :
    inlineStep (collectSilent none m) (.call (q ++ [f.name]) args) =
      .ok (f.node.subst fun x => (f.args.zip args).lookup x, true) := by
  obtain ⟨x0, hx0, hu⟩ := hu
  have hi : f.inlined = true := by
    unfold Rule.inlined
    rw [hs]
    cases h : f.args with
    | nil => rw [h] at hx0; simp at hx0
    | cons => rfl
  have hlater : ∀ pre x a post, f.args.zip args = pre ++ (x, a) :: post → ∀ y ∈ post.map Prod.fst, ¬ Occurs y a := by
    intro pre x a post hp y hy
    obtain ⟨⟨y', b⟩, hb, rfl⟩ := List.mem_map.mp hy
    obtain ⟨k, hk⟩ := List.mem_iff_getElem?.mp hb
    refine hc pre.length (pre.length + 1 + k) (by omega) y' a ?_ ?_
    · have : (f.args.zip args)[pre.length + 1 + k]? = some (y', b) := by
        rw [hp, List.getElem?_append_right (by omega)]
        have : pre.length + 1 + k - pre.length = k + 1 := by omega
        rw [this, List.getElem?_cons_succ, hk]
      exact (List.getElem?_zip_eq_some.mp this).1
    · have : (f.args.zip args)[pre.length]? = some (x, a) := by
        rw [hp, List.getElem?_append_right (by omega), Nat.sub_self]; rfl
      exact (List.getElem?_zip_eq_some.mp this).2
  have hrep := replaceArgs_subst (f.args.zip args) f.node (fun x hx => ho x (zip_fst hl ▸ hx)) hlater
  -- something is replaced
  have hflag : ∀ (l : List (Name × Expr)) (e : Expr), (∃ x ∈ l.map Prod.fst, Occurs x e) →
      (replaceArgs l e).2 = true := by
    intro l
    induction l with
    | nil => rintro e ⟨x, hx, _⟩; simp at hx
    | cons b l ih =>
      obtain ⟨y, a⟩ := b
      rintro e ⟨x, hx, hxo⟩
      simp only [replaceArgs, Bool.or_eq_true]
      by_cases hy : Occurs y e
      · exact .inl ((replace_reports y a e).mpr hy)
      · have hne : x ≠ y := fun e => hy (e ▸ hxo)
        refine .inr (ih _ ⟨x, ?_, ?_⟩)
        · simpa [hne] using hx
        · rw [replace_subst y a e fun p pre b post hs hb => absurd (Sub.trans (.arg (by simp) hb) hs) hy, subst_single_of_not_occurs hy]
          exact hxo
  unfold inlineStep
  have hq : (q ++ [f.name]).getLast? = some f.name := by simp
  simp only [hq]
  rw [findSilent_last hf hi fun g hg h => by
    simp only [Rule.inlined, Bool.and_eq_true, Bool.not_eq_true', List.isEmpty_eq_false_iff] at h
    exact hlast g hg h.1 h.2]
  dsimp only
  rw [if_pos hl, hflag _ _ ⟨x0, by rw [zip_fst hl]; exact hx0, hu⟩, if_pos rfl]
  congr 1
  refine Prod.ext ?_ (hflag _ _ ⟨x0, by rw [zip_fst hl]; exact hx0, hu⟩)
  rw [hrep]
  exact subst_congr _ fun x _ => sig_lookup _ x

/-- The remaining rules mean what they meant: of every expression that does not mention a removed rule, in every module,
at every position and with every stack.  (Missing from the full claim: `Hygienic`, and that no reference to a removed rule is left.) -/
theorem C46_meaning_partial (hn : AllNamed u m) (hy : Hygienic u m) {fuel : Nat} (h : inlineModule fuel m = .ok m')
    (hl : NoneLeft u m m') (p : List Name) (e : Expr) (he : ∀ q, Cites q e → ¬ Gone u m p q) (c : Cfg) (res : Option Cfg) :
    Meaning u m' (.expr (.mk p [] e)) c res ↔ Meaning u m (.expr (.mk p [] e)) c res := by
  have hs := inline_sim hn hy h hl
  have hi : ISim u m (.expr (.mk p [] e)) (.expr (.mk p [] e)) :=
    .expr (irel_same .nil e (fun x c hx => by simp [lookupClo] at hx) fun q hq => .inr (he q hq))
  exact ⟨fun h => meaning_of_inline hs h _ hi, fun h => meaning_inline hs h _ hi⟩

/-- The rules after inlining: those that are not silent or have no parameters, in the same order, with the same names, parameters and
modifiers. -/
theorem C46_rules {fuel : Nat} (h : inlineModule fuel m = .ok m') : m'.imports = m.imports ∧
    m'.rules.map (fun r => (r.name, r.args, r.silent)) =
      (m.rules.filter fun r => !r.silent || r.args.isEmpty).map fun r => (r.name, r.args, r.silent) := by
  unfold inlineModule at h
  obtain ⟨rules, h1, h2⟩ := andThen_ok.mp h
  clear h
  cases h2
  refine ⟨rfl, ?_⟩
  show rules.map _ = _
  generalize List.filter _ _ = l at h1 ⊢
  induction l generalizing rules with
  | nil => simp only [inlineRules, Res.ok.injEq] at h1; subst h1; rfl
  | cons r l ih =>
    simp only [inlineRules] at h1
    obtain ⟨e, _, h1⟩ := andThen_ok.mp h1
    obtain ⟨rest, h2, h1⟩ := andThen_ok.mp h1
    cases h1
    simp [ih rest h2]

/-- Inlining ends and does not panic if calls have the right number of arguments and no silent rule with parameters calls
itself, directly or through others. -/
theorem C46_terminates_partial (hn : WellNamed u m) (hy : Hygienic u m)
    (har : ∀ g ∈ m.rules, ∀ f ∈ m.rules, f.inlined = true → ∀ as, Sub (.call [f.name] as) g.node → as.length = f.args.length)
    (rank : Name → Nat) (hrank : ∀ f ∈ m.rules, f.inlined = true → ∀ g ∈ m.rules, g.inlined = true → ∀ as,
      Sub (.call [g.name] as) f.node → rank g.name < rank f.name) : ∃ fuel m', inlineModule fuel m = .ok m' :=
  inline_total hn hy har rank hrank

variable {cfg : Config} {names : List Name} {table : Name → Char → Bool} {out : Output} {st : GenSt} {R : Layout} {env : Env}

theorem mentions_rule (hn : AllNamed u m) (hy : Hygienic u m) {fuel : Nat} (h : inlineModule fuel m = .ok m') (hl : NoneLeft u m m')
    {r : Rule} (hr : findRule m.rules r.name = some r) (hk : r.inlined = false) (ha : r.args = []) :
    ∃ e, findRule m'.rules r.name = some { r with node := e } ∧
      ∀ c res, Meaning u m' (.expr (.mk [] [] e)) c res ↔ Meaning u m (.expr (.mk [] [] r.node)) c res := by
  have hs := inline_sim hn hy h hl
  obtain ⟨_, _, k2, _⟩ := inlineModule_ok (hn m .refl) h
  obtain ⟨e, a1, a2⟩ := k2 _ _ hr hk
  refine ⟨e, a1, fun c res => ?_⟩
  have hi : ISim u m (.expr (.mk [] [] r.node)) (.expr (.mk [] [] e)) :=
    .expr (kept_irel (hn m .refl) hy hl (findRule_mem hr).1 hk a2 (findRule_mem a1).1 .nil fun x => by simp [ha, lookupClo])
  exact ⟨fun h => meaning_of_inline hs h _ hi, fun h => meaning_inline hs h _ hi⟩

/-- From the grammar as written to the generated parser: if `generate_typed` succeeds, the struct of every remaining rule without
parameters matches exactly what the rule means in the grammar before inlining.  (Missing from the full claim: `Hygienic`.) -/
theorem C46_generated_partial {fuel : Nat} (h : generateTyped cfg names fuel m = .ok (out, st))
    (hn : AllNamed (unicodeOf names table) m) (hy : Hygienic (unicodeOf names table) m)
    (hl : Linked (unicodeOf names table) out st.wrappers R env) {p : List Name} {a : Module} (hm : modAt m p = some a) {r : Rule}
    (hr : findRule a.rules r.name = some r) (ho : r.name ≠ optName) (hm' : r.name ≠ manName) (ha : r.args = [])
    (c : Cfg) (res : Option Cfg) :
    Peg env (.node (.rule (R.num p r.name []))) c res ↔ Meaning (unicodeOf names table) m (.expr (.mk p [] r.node)) c res := by
  unfold generateTyped at h
  obtain ⟨m', h1, h2⟩ := andThen_ok.mp h
  have hn' := inline_named hn hy h1
  obtain ⟨hc, hrule⟩ := compiled_of h2 hn' hl
  have hnd := (hn' m' .refl).rules
  have hleft : NoneLeft (unicodeOf names table) m m' := by
    refine none_left hn h1 fun r hr => ?_
    have hfr := findRule_eq hnd hr
    have key : ∀ t, triviaRule m' t = some r → ∃ σ t, (∀ x c, lookupC x σ = some c → x ∈ r.args) ∧
        Comp (unicodeOf names table) m' [] σ (.one r.node t) := fun t ht => by
      obtain ⟨ty, _, h⟩ := hc.trivia [] m' t r rfl ht
      exact ⟨[], ty, fun x c hx => by simp [lookupC] at hx, h⟩
    by_cases h1 : r.name = optName
    · exact key .optional (by simpa [triviaRule, h1] using hfr)
    · by_cases h2 : r.name = manName
      · exact key .mandatory (by simpa [triviaRule, h2] using hfr)
      · obtain ⟨_, t, _, h⟩ := hrule [] m' r (List.replicate r.args.length (.choice [])) rfl hfr h1 h2 (by simp)
        exact ⟨_, t, fun x c hx => (lookupC_zip r.args (List.replicate r.args.length (.choice [])) (by simp) x).mpr (by rw [hx]; rfl), h⟩
  obtain ⟨hi, k1, k2, _⟩ := inlineModule_ok (hn m .refl) h1
  by_cases hp : p = []
  · subst hp
    simp only [modAt, Option.some.injEq] at hm
    subst hm
    have hk : r.inlined = false := by simp [Rule.inlined, ha]
    obtain ⟨e, a1, a2⟩ := mentions_rule hn hy h1 hleft hr hk ha
    rw [← a2]
    exact C52_rule (r := { r with node := e }) h2 hn' hl rfl a1 ho hm' ha c res
  · rw [C52_rule h2 hn' hl (by rw [modAt_same hi hp]; exact hm) hr ho hm' ha c res]
    exact C46_meaning_partial hn hy h1 hleft p r.node (fun q _ => not_gone hp) c res

end

/-! ### Examples

`list(x, s) = _{ x - (s - x)* }`, `top = list(item, ",")`, `item = "a"`. -/

def inlList : Rule := ⟨"list".toList, [['x'], ['s']], .seq (.path [['x']]) (.rep (.seq (.path [['s']]) (.path [['x']]) .none)) .none, true⟩
def inlTop : Rule := ⟨"top".toList, [], .call ["list".toList] [.path ["item".toList], .str [',']], false⟩
def inlItem : Rule := ⟨"item".toList, [], .str ['a'], false⟩
def inlMod : Module := .mk [inlList, inlTop, inlItem] []
/-- The same after inlining. -/
def inlMod' : Module := .mk [⟨"top".toList, [], .seq (.path ["item".toList])
  (.rep (.seq (.str [',']) (.path ["item".toList]) .none)) .none, false⟩, inlItem] []

theorem inlMod_in {m' : Module} (h : ModIn m' inlMod) : m' = inlMod := by
  cases h with
  | refl => rfl
  | step h1 _ => simp [inlMod, Module.imports] at h1

/-- The parts of the three bodies. -/
theorem inlList_sub {s : Expr} (h : Sub s inlList.node) : s = inlList.node ∨ s = .path [['x']] ∨ s = .path [['s']] ∨
    s = .rep (.seq (.path [['s']]) (.path [['x']]) .none) ∨ s = .seq (.path [['s']]) (.path [['x']]) .none := by
  unfold inlList at h ⊢
  cases h with
  | refl => exact .inl rfl
  | seqL h => cases h; simp
  | seqR h =>
    cases h with
    | refl => simp
    | rep h =>
      cases h with
      | refl => simp
      | seqL h => cases h; simp
      | seqR h => cases h; simp

theorem inlTop_sub {s : Expr} (h : Sub s inlTop.node) : s = inlTop.node ∨ s = .path ["item".toList] ∨ s = .str [','] := by
  unfold inlTop at h ⊢
  cases h with
  | refl => exact .inl rfl
  | arg hm h =>
    simp only [List.mem_cons, List.not_mem_nil, or_false] at hm
    rcases hm with rfl | rfl <;> cases h <;> simp

theorem inlItem_sub {s : Expr} (h : Sub s inlItem.node) : s = .str ['a'] := by
  unfold inlItem at h
  cases h; rfl

theorem inlMod_named (u : Unicode) : AllNamed u inlMod := by
  intro m' h
  cases inlMod_in h
  refine ⟨by decide, by decide, by simp [inlMod, Module.imports], by simp [inlMod, Module.imports], ?_, ?_⟩
  · simp only [inlMod, Module.rules, List.mem_cons, List.not_mem_nil, or_false, forall_eq_or_imp, forall_eq]
    decide
  · simp only [inlMod, Module.rules, List.mem_cons, List.not_mem_nil, or_false, forall_eq_or_imp, forall_eq]
    refine ⟨fun x _ => ⟨fun args h => ?_, fun range h => ?_⟩, by simp [ParamsPlain, inlTop], by simp [ParamsPlain, inlItem]⟩
    · have := inlList_sub h; simp [inlList] at this
    · have := inlList_sub h; simp [inlList] at this

theorem inlMod_rules {r : Rule} (h : r ∈ inlMod.rules) : r = inlList ∨ r = inlTop ∨ r = inlItem := by
  simpa [inlMod, Module.rules] using h

theorem inlMod_silent {f : Rule} (h : f ∈ inlMod.rules) (hi : f.inlined = true) : f = inlList := by
  rcases inlMod_rules h with rfl | rfl | rfl
  · rfl
  · exact absurd hi (by decide)
  · exact absurd hi (by decide)

theorem inlMod_hygienic (names : List Name) (table : Name → Char → Bool) : Hygienic (unicodeOf names table) inlMod := by
  have once : ∀ x, OncePerCall x inlList.node := fun x p pre a post h => by
    have := inlList_sub h; simp [inlList] at this
  refine ⟨fun r hr q args x hs hq hx => ?_, fun f hf hi x _ => inlMod_silent hf hi ▸ once x, fun f hf hi x hx r hr ho => ?_,
    fun f hf hi r hr hk y hy => ?_, fun r hr => ⟨?_, fun q args hs a ha => ?_⟩⟩
  · rcases inlMod_rules hr with rfl | rfl | rfl
    · have := inlList_sub hs; simp [inlList] at this
    · have := inlTop_sub hs
      simp only [inlTop, Expr.call.injEq, reduceCtorEq, or_false] at this
      obtain ⟨rfl, _⟩ := this
      simp only [List.getLast?_singleton, Option.some.injEq] at hq
      subst hq
      exact ⟨rfl, inlList, rfl, by decide⟩
    · have := inlItem_sub hs; simp at this
  · cases inlMod_silent hf hi
    rcases inlMod_rules hr with rfl | rfl | rfl
    · exact ⟨hi, List.mem_of_mem_tail hx⟩
    · have := inlTop_sub ho
      simp only [inlTop, Expr.path.injEq, List.cons.injEq, and_true, reduceCtorEq, false_or, or_false] at this
      subst this
      exact absurd hx (by decide)
    · have := inlItem_sub ho; simp at this
  · rcases inlMod_rules hr with rfl | rfl | rfl
    · exact absurd hk (by decide)
    · simp [inlTop] at hy
    · simp [inlItem] at hy
  · rcases inlMod_rules hr with rfl | rfl | rfl <;> rfl
  · rcases inlMod_rules hr with rfl | rfl | rfl
    · have := inlList_sub hs; simp [inlList] at this
    · have := inlTop_sub hs
      simp only [inlTop, Expr.call.injEq, reduceCtorEq, or_false] at this
      obtain ⟨_, rfl⟩ := this
      simp only [List.mem_cons, List.not_mem_nil, or_false] at ha
      rcases ha with rfl | rfl <;> rfl
    · have := inlItem_sub hs; simp at this

theorem inlMod_inline : inlineModule 5 inlMod = .ok inlMod' := by rfl

theorem inlMod_generate : ∃ out st, generateTyped ⟨true, false, none⟩ [] 5 inlMod = .ok (out, st) := ⟨_, _, rfl⟩

-- C46_call_partial: `list(item, ",")`
example : inlineStep (collectSilent none inlMod) (.call ["list".toList] [.path ["item".toList], .str [',']]) =
    .ok (.seq (.path ["item".toList]) (.rep (.seq (.str [',']) (.path ["item".toList]) .none)) .none, true) :=
  C46_call_partial (m := inlMod) (f := inlList) (before := []) (after := [inlTop, inlItem]) rfl rfl (by decide) rfl
    ⟨['x'], by decide, .seqL .refl⟩ (fun x _ p pre a post h => by have := inlList_sub h; simp [inlList] at this)
    (fun i j hij x a hx ha ho => by
      match j, i with
      | 0, _ => omega
      | 1, 0 =>
        simp only [inlList, List.getElem?_cons_succ, List.getElem?_cons_zero, Option.some.injEq] at hx ha
        subst hx ha
        cases ho
      | 1, _ + 1 => omega
      | _ + 2, _ => simp [inlList] at hx) []

-- C46_terminates_partial
example : ∃ fuel m', inlineModule fuel inlMod = .ok m' := by
  refine C46_terminates_partial (inlMod_named (unicodeOf [] fun _ _ => false) _ .refl) (inlMod_hygienic [] _) ?_ (fun _ => 0) ?_
  · intro g hg f hf hi as hs
    cases inlMod_silent hf hi
    rcases inlMod_rules hg with rfl | rfl | rfl
    · have := inlList_sub hs; simp [inlList] at this
    · have := inlTop_sub hs
      simp only [inlTop, Expr.call.injEq, reduceCtorEq, or_false] at this
      rw [this.2]; rfl
    · have := inlItem_sub hs; simp at this
  · intro f hf hi g hg hgi as hs
    cases inlMod_silent hf hi
    have := inlList_sub hs; simp [inlList] at this

-- C46_generated_partial: the generated `top` accepts `a,a`
example : ∃ out st, generateTyped ⟨true, false, none⟩ [] 5 inlMod = .ok (out, st) ∧
    ∃ R env, Linked (unicodeOf [] fun _ _ => false) out st.wrappers R env ∧
      Peg env (.node (.rule (R.num [] "top".toList []))) ⟨[], "a,a".toList, []⟩ (some ⟨"a,a".toList, [], []⟩) := by
  obtain ⟨out, st, hgen⟩ := inlMod_generate
  have hgen' : generateModule ⟨true, false, none⟩ [] inlMod' = .ok (out, st) := hgen
  have hn' := inline_named (inlMod_named (unicodeOf [] fun _ _ => false)) (inlMod_hygienic [] _) inlMod_inline
  obtain ⟨R, env, hl⟩ := C52_exists (unicodeOf [] fun _ _ => false) hgen' (fun m' h => (hn' m' h).rules) fun m' h => by
    cases h with
    | step h1 _ => simp [inlMod', Module.imports] at h1
    | refl =>
      refine ⟨?_, ?_, .inl ?_⟩ <;>
        simp only [inlMod', inlItem, Module.rules, List.mem_cons, List.not_mem_nil, or_false, forall_eq_or_imp, forall_eq] <;>
        exact ⟨fun h => absurd h (by decide), fun h => absurd h (by decide)⟩
  refine ⟨out, st, hgen, R, env, hl, ?_⟩
  refine (C46_generated_partial (p := []) (r := inlTop) hgen (inlMod_named _) (inlMod_hygienic [] _) hl rfl rfl
    (by decide) (by decide) rfl _ _).mpr ?_
  have item : ∀ pre suf, Meaning (unicodeOf [] fun _ _ => false) inlMod (.expr (.mk [] [] (.path ["item".toList]))) ⟨pre, 'a' :: suf, []⟩
      (some ⟨pre ++ ['a'], suf, []⟩) := fun pre suf =>
    .rule (p' := []) (r := inlItem) (fun x hx => rfl) rfl rfl (.literalOk (m := ['a']) rfl rfl rfl)
  refine .call (p' := []) (r := inlList) (fun x hx => rfl) rfl rfl (.seq (.param rfl (item [] _)) .triviaNone (.rep rfl ?_))
  refine .repsMore (by decide) (.unitFirst (.seq (.param rfl (.literalOk (m := [',']) (rest := ['a']) rfl rfl rfl)) .triviaNone
    (.param rfl (item _ _)))) (.repsStop (by decide) (.unitNext .triviaNone (.seqFail (.param rfl (.literalFail rfl rfl)))) (by decide))

/-! ### Findings: the full claim is false -/

/-- Parameters are replaced one after the other: with `f(a, b) = _{ a - b }` and a rule `b = "y"`, the call `f(b, "x")` becomes
`"x" - "x"`. -/
theorem C46_capture : ∃ m m', inlineModule 4 m = .ok m' ∧ ∀ u,
    Meaning u m (.expr (.mk [] [] (.path ["top".toList]))) ⟨[], "yx".toList, []⟩ (some ⟨"yx".toList, [], []⟩) ∧
    Meaning u m' (.expr (.mk [] [] (.path ["top".toList]))) ⟨[], "yx".toList, []⟩ none := by
  refine ⟨.mk [⟨['f'], [['a'], ['b']], .seq (.path [['a']]) (.path [['b']]) .none, true⟩, ⟨['b'], [], .str ['y'], false⟩,
    ⟨"top".toList, [], .call [['f']] [.path [['b']], .str ['x']], false⟩] [], _, rfl, fun u => ⟨?_, ?_⟩⟩
  · refine .rule (p' := []) (fun x hx => rfl) (by rw [target, if_neg (by simp [IsBuiltin, builtinLeaf, pushPath])]; rfl) rfl ?_
    refine .call (p' := []) (fun x hx => rfl) (by rw [target, if_neg (by simp [IsBuiltin, builtinLeaf, pushPath])]; rfl) rfl ?_
    refine .seq (.param rfl (.rule (p' := []) (fun x hx => rfl)
      (by rw [target, if_neg (by simp [IsBuiltin, builtinLeaf, pushPath])]; rfl) rfl
      (.literalOk (m := ['y']) (rest := ['x']) rfl rfl rfl))) .triviaNone ?_
    exact .param rfl (.literalOk (m := ['x']) (rest := []) rfl rfl rfl)
  · refine .rule (p' := []) (fun x hx => rfl) (by rw [target, if_neg (by simp [IsBuiltin, builtinLeaf, pushPath])]; rfl) rfl ?_
    exact .seqFail (.literalFail rfl rfl)

/-- The module part of a path is ignored: a call of a rule of an imported module becomes the body of the silent rule of the
same name. -/
theorem C46_other_module : ∃ m m', inlineModule 4 m = .ok m' ∧ ∀ u,
    Meaning u m (.expr (.mk [] [] (.path ["top".toList]))) ⟨[], "bc".toList, []⟩ (some ⟨"bc".toList, [], []⟩) ∧
    Meaning u m' (.expr (.mk [] [] (.path ["top".toList]))) ⟨[], "bc".toList, []⟩ none := by
  refine ⟨.mk [⟨['f'], [['x']], .seq (.str ['a']) (.path [['x']]) .none, true⟩,
    ⟨"top".toList, [], .call [['m'], ['f']] [.str ['c']], false⟩]
    [.file ['m'] (.mk [⟨['f'], [['x']], .seq (.str ['b']) (.path [['x']]) .none, false⟩] [])], _, rfl, fun u => ⟨?_, ?_⟩⟩
  · refine .rule (p' := []) (fun x hx => rfl) (by rw [target, if_neg (by simp [IsBuiltin, builtinLeaf, pushPath])]; rfl) rfl ?_
    refine .call (p' := [['m']]) (fun x hx => by simp at hx)
      (by rw [target, if_neg (by simp [IsBuiltin, builtinLeaf, pushPath])]; rfl) rfl ?_
    exact .seq (.literalOk (m := ['b']) (rest := ['c']) rfl rfl rfl) .triviaNone
      (.param rfl (.literalOk (m := ['c']) (rest := []) rfl rfl rfl))
  · refine .rule (p' := []) (fun x hx => rfl) (by rw [target, if_neg (by simp [IsBuiltin, builtinLeaf, pushPath])]; rfl) rfl ?_
    exact .seqFail (.literalFail rfl rfl)

/-- The body of an imported silent rule is moved into the importing module, where its names mean something else. -/
theorem C46_moved_body : ∃ m m', inlineModule 4 m = .ok m' ∧ ∀ u,
    Meaning u m (.expr (.mk [] [] (.path ["top".toList]))) ⟨[], "ai".toList, []⟩ (some ⟨"ai".toList, [], []⟩) ∧
    Meaning u m' (.expr (.mk [] [] (.path ["top".toList]))) ⟨[], "ai".toList, []⟩ none := by
  refine ⟨.mk [⟨['g'], [], .str ['o'], false⟩, ⟨"top".toList, [], .call [['m'], ['f']] [.str ['a']], false⟩]
    [.file ['m'] (.mk [⟨['f'], [['x']], .seq (.path [['x']]) (.path [['g']]) .none, true⟩, ⟨['g'], [], .str ['i'], false⟩] [])],
    _, rfl, fun u => ⟨?_, ?_⟩⟩
  · refine .rule (p' := []) (fun x hx => rfl) (by rw [target, if_neg (by simp [IsBuiltin, builtinLeaf, pushPath])]; rfl) rfl ?_
    refine .call (p' := [['m']]) (fun x hx => by simp at hx)
      (by rw [target, if_neg (by simp [IsBuiltin, builtinLeaf, pushPath])]; rfl) rfl ?_
    exact .seq (.param rfl (.literalOk (m := ['a']) (rest := ['i']) rfl rfl rfl)) .triviaNone
      (.rule (p' := [['m']]) (fun x hx => by simp at hx; subst hx; rfl)
        (by rw [target, if_neg (by simp [IsBuiltin, builtinLeaf, pushPath])]; rfl) rfl
        (.literalOk (m := ['i']) (rest := []) rfl rfl rfl))
  · refine .rule (p' := []) (fun x hx => rfl) (by rw [target, if_neg (by simp [IsBuiltin, builtinLeaf, pushPath])]; rfl) rfl ?_
    exact .seq (.literalOk (m := ['a']) (rest := ['i']) rfl rfl rfl) .triviaNone
      (.rule (p' := []) (fun x hx => rfl) (by rw [target, if_neg (by simp [IsBuiltin, builtinLeaf, pushPath])]; rfl) rfl
        (.literalFail rfl rfl))

/-- A silent rule that does not use its parameters is removed, but calls of it stay: generation panics on a grammar with a
meaning. -/
theorem C46_unused_parameter : ∃ m, (∀ u, Meaning u m (.expr (.mk [] [] (.path ["top".toList]))) ⟨[], ['a'], []⟩ (some ⟨['a'], [], []⟩)) ∧
    ∀ cfg names fuel, generateTyped cfg names (fuel + 1) m = .panic := by
  refine ⟨.mk [⟨['f'], [['x']], .str ['a'], true⟩, ⟨"top".toList, [], .call [['f']] [.str ['b']], false⟩] [],
    fun u => ?_, fun cfg names fuel => rfl⟩
  refine .rule (p' := []) (fun x hx => rfl) (by rw [target, if_neg (by simp [IsBuiltin, builtinLeaf, pushPath])]; rfl) rfl ?_
  refine .call (p' := []) (fun x hx => rfl) (by rw [target, if_neg (by simp [IsBuiltin, builtinLeaf, pushPath])]; rfl) rfl ?_
  exact .literalOk (m := ['a']) (rest := []) rfl rfl rfl

/-- Calls in the arguments of other calls are not inlined. -/
theorem C46_nested_argument : ∃ m, (∀ u, Meaning u m (.expr (.mk [] [] (.path ["top".toList]))) ⟨[], ['a'], []⟩ (some ⟨['a'], [], []⟩)) ∧
    ∀ cfg names fuel, generateTyped cfg names (fuel + 1) m = .panic := by
  refine ⟨.mk [⟨['f'], [['x']], .path [['x']], true⟩, ⟨['g'], [['x']], .path [['x']], false⟩,
    ⟨"top".toList, [], .call [['g']] [.call [['f']] [.str ['a']]], false⟩] [], fun u => ?_, fun cfg names fuel => rfl⟩
  refine .rule (p' := []) (fun x hx => rfl) (by rw [target, if_neg (by simp [IsBuiltin, builtinLeaf, pushPath])]; rfl) rfl ?_
  refine .call (p' := []) (fun x hx => rfl) (by rw [target, if_neg (by simp [IsBuiltin, builtinLeaf, pushPath])]; rfl) rfl ?_
  refine .param rfl (.call (p' := []) (fun x hx => rfl) (by rw [target, if_neg (by simp [IsBuiltin, builtinLeaf, pushPath])]; rfl) rfl ?_)
  exact .param rfl (.literalOk (m := ['a']) (rest := []) rfl rfl rfl)

/-- A call with the wrong number of arguments panics. -/
theorem C46_arity : ∃ m, ∀ cfg names fuel, generateTyped cfg names (fuel + 1) m = .panic :=
  ⟨.mk [⟨['f'], [['x']], .path [['x']], true⟩, ⟨"top".toList, [], .call [['f']] [.str ['a'], .str ['b']], false⟩] [],
    fun _ _ _ => rfl⟩

/-- A recursive silent rule with parameters is inlined forever, though it has a meaning. -/
theorem C46_recursion : ∃ m, (∀ u, Meaning u m (.expr (.mk [] [] (.path ["top".toList]))) ⟨[], ['a'], []⟩ (some ⟨['a'], [], []⟩)) ∧
    ∀ cfg names fuel, generateTyped cfg names fuel m = .oof := by
  refine ⟨.mk [⟨['f'], [['x']], .choice (.path [['x']]) (.call [['f']] [.path [['x']]]), true⟩,
    ⟨"top".toList, [], .call [['f']] [.str ['a']], false⟩] [], fun u => ?_, fun cfg names fuel => ?_⟩
  · refine .rule (p' := []) (fun x hx => rfl) (by rw [target, if_neg (by simp [IsBuiltin, builtinLeaf, pushPath])]; rfl) rfl ?_
    refine .call (p' := []) (fun x hx => rfl) (by rw [target, if_neg (by simp [IsBuiltin, builtinLeaf, pushPath])]; rfl) rfl ?_
    exact .choiceL (.param rfl (.literalOk (m := ['a']) (rest := []) rfl rfl rfl))
  · have key : ∀ fuel sm, sm = [(none, [(⟨['f'], [['x']], .choice (.path [['x']]) (.call [['f']] [.path [['x']]]), true⟩ : Rule)])] →
        inlineNode sm fuel (.call [['f']] [.str ['a']]) = .oof := by
      intro fuel sm hsm
      induction fuel using Nat.strongRecOn with
      | _ fuel ih =>
        match fuel with
        | 0 => rfl
        | 1 => subst hsm; rfl
        | 2 => subst hsm; rfl
        | k + 3 =>
          have := ih (k + 1) (by omega)
          subst hsm
          show andThen (.ok (.str ['a'])) (fun l => andThen (inlineNode _ (k + 1) (.call [['f']] [.str ['a']])) fun r => .ok (Expr.choice l r)) = Res.oof
          rw [this]; rfl
    show andThen (andThen (andThen (inlineNode [(none, [(⟨['f'], [['x']], .choice (.path [['x']]) (.call [['f']] [.path [['x']]]), true⟩ : Rule)])]
      fuel (.call [['f']] [.str ['a']])) _) _) _ = Res.oof
    rw [key fuel _ rfl]
    rfl

end Pest3.Props
