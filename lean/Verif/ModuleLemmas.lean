import Verif.WrapperLemmas

namespace Pest3.Gen
open Pest3

/-- What a derivation of the generator for modules is about. -/
inductive MItem where
  | mod (m : Module) (out : Output) (sys : ModSys)
  | imports (l : List Import) (sys sys' : ModSys) (outs : List (Name × Output))

/-- `process_rules` as a relation. -/
inductive GenMod (cfg : Config) (pest : ModNode) : MItem → GenSt → GenSt → Prop
  | mk {rules imports outs sys sys' reach content opt man st st1 st2} :
      GenMod cfg pest (.imports imports (ModSys.new pest) sys outs) st st1 →
      collectReachability rules = some reach → insertRules rules sys = .ok sys' →
      processRuleList cfg reach sys' rules ([], none, none) st1 = .ok ((content, opt, man), st2) →
      GenMod cfg pest (.mod (.mk rules imports) (.mk content opt man outs cfg.rulesMod) sys') st st2
  | nil {sys st} : GenMod cfg pest (.imports [] sys sys []) st st
  | builtin {x p l sys sys' outs st st'} : (sys.alias p x).2 = true →
      GenMod cfg pest (.imports l (sys.alias p x).1 sys' outs) st st' →
      GenMod cfg pest (.imports (.builtin x p :: l) sys sys' outs) st st'
  | file {x m l out child sys sys' outs st st1 st2} : GenMod cfg pest (.mod m out child) st st1 →
      GenMod cfg pest (.imports l (sys.insert child.root x).1 sys' outs) st1 st2 →
      GenMod cfg pest (.imports (.file x m :: l) sys sys' ((x, out) :: outs)) st st2

section
variable {PM : Module → Prop} {PL : List Import → Prop}
  (mk : ∀ rules imports, PL imports → PM (.mk rules imports)) (nil : PL [])
  (builtin : ∀ x p l, PL l → PL (.builtin x p :: l)) (file : ∀ x m l, PM m → PL l → PL (.file x m :: l))
include mk nil builtin file

/-- Structural induction over modules and their imports. -/
theorem Module.ind (m : Module) : PM m :=
  Module.rec (motive_1 := PM)
    (motive_2 := fun i => ∀ l, PL l → PL (i :: l)) (motive_3 := PL)
    (fun rules imports h => mk rules imports h) (fun x p l h => builtin x p l h) (fun x m hm l hl => file x m l hm hl)
    nil (fun _ l hi hl => hi l hl) m
end

section
variable {cfg : Config} {pest : ModNode}

theorem processModule_gen (m : Module) : ∀ st out sys st', processModule cfg pest m st = .ok ((out, sys), st') →
    GenMod cfg pest (.mod m out sys) st st' := by
  refine Module.ind (PM := fun m => ∀ st out sys st', processModule cfg pest m st = .ok ((out, sys), st') →
      GenMod cfg pest (.mod m out sys) st st')
    (PL := fun l => ∀ sys st outs sys' st', processImports cfg pest l sys st = .ok ((outs, sys'), st') →
      GenMod cfg pest (.imports l sys sys' outs) st st') ?_ ?_ ?_ ?_ m
  · intro rules imports ih st out sys st' h
    simp only [processModule] at h
    obtain ⟨⟨⟨outs, sys1⟩, st1⟩, h1, h⟩ := andThen_ok.mp h
    obtain ⟨reach, h2, h⟩ := andThen_ok.mp h
    obtain ⟨sys2, h3, h⟩ := andThen_ok.mp h
    obtain ⟨⟨⟨content, opt, man⟩, st2⟩, h4, h⟩ := andThen_ok.mp h
    simp only [Res.ok.injEq, Prod.mk.injEq] at h
    obtain ⟨⟨rfl, rfl⟩, rfl⟩ := h
    exact .mk (ih _ _ _ _ _ h1) (unwrap_ok.mp h2) h3 h4
  · intro sys st outs sys' st' h
    simp only [processImports, Res.ok.injEq, Prod.mk.injEq] at h
    obtain ⟨⟨rfl, rfl⟩, rfl⟩ := h
    exact .nil
  · intro x p l ih sys st outs sys' st' h
    simp only [processImports] at h
    split at h
    · rename_i h1; exact .builtin h1 (ih _ _ _ _ _ h)
    · simp at h
  · intro x m l ihm ih sys st outs sys' st' h
    simp only [processImports] at h
    obtain ⟨⟨⟨out, child⟩, st1⟩, h1, h⟩ := andThen_ok.mp h
    obtain ⟨⟨⟨outs', sys1⟩, st2⟩, h2, h⟩ := andThen_ok.mp h
    simp only [Res.ok.injEq, Prod.mk.injEq] at h
    obtain ⟨⟨rfl, rfl⟩, rfl⟩ := h
    exact .file (ihm _ _ _ _ h1) (ih _ _ _ _ _ h2)

theorem processImports_gen (l : List Import) : ∀ sys st outs sys' st', processImports cfg pest l sys st = .ok ((outs, sys'), st') →
    GenMod cfg pest (.imports l sys sys' outs) st st' := by
  induction l with
  | nil =>
    intro sys st outs sys' st' h
    simp only [processImports, Res.ok.injEq, Prod.mk.injEq] at h
    obtain ⟨⟨rfl, rfl⟩, rfl⟩ := h
    exact .nil
  | cons i l ih =>
    intro sys st outs sys' st' h
    cases i with
    | builtin x p =>
      simp only [processImports] at h
      split at h
      · rename_i h1; exact .builtin h1 (ih _ _ _ _ _ h)
      · simp at h
    | file x m =>
      simp only [processImports] at h
      obtain ⟨⟨⟨out, child⟩, st1⟩, h1, h⟩ := andThen_ok.mp h
      obtain ⟨⟨⟨outs', sys1⟩, st2⟩, h2, h⟩ := andThen_ok.mp h
      simp only [Res.ok.injEq, Prod.mk.injEq] at h
      obtain ⟨⟨rfl, rfl⟩, rfl⟩ := h
      exact .file (processModule_gen _ _ _ _ _ h1) (ih _ _ _ _ _ h2)

/-- The structs and trivia types of a list of rules, starting from those of earlier rules. -/
inductive GenRules (cfg : Config) (reach : RefMap) (sys : ModSys) :
    List Rule → List RuleStruct × Option Ty × Option Ty → List RuleStruct × Option Ty × Option Ty → GenSt → GenSt → Prop
  | nil {o st} : GenRules cfg reach sys [] o o st st
  | opt {r rest content opt man o ty g st st1 st2} : r.name = optName →
      GenRel r.args sys (.one r.node (ty, g)) st st1 →
      GenRules cfg reach sys rest (content, some ty, man) o st1 st2 →
      GenRules cfg reach sys (r :: rest) (content, opt, man) o st st2
  | man {r rest content opt man o ty g st st1 st2} : r.name = manName →
      GenRel r.args sys (.one r.node (ty, g)) st st1 →
      GenRules cfg reach sys rest (content, opt, some ty) o st1 st2 →
      GenRules cfg reach sys (r :: rest) (content, opt, man) o st st2
  | rule {r rest content opt man o ty g st st1 st2} : r.name ≠ optName → r.name ≠ manName →
      GenRel r.args sys (.one r.node (ty, g)) st st1 →
      GenRules cfg reach sys rest (content ++
        [⟨r.name, r.args, r.silent, ruleBoxed cfg.boxOnlyIfNeeded reach r, ty, if cfg.noGetter then [] else g⟩],
        opt, man) o st1 st2 →
      GenRules cfg reach sys (r :: rest) (content, opt, man) o st st2

theorem processRuleList_gen {reach : RefMap} {sys : ModSys} (rules : List Rule) : ∀ o o' st st',
    processRuleList cfg reach sys rules o st = .ok (o', st') → GenRules cfg reach sys rules o o' st st' := by
  induction rules with
  | nil =>
    intro o o' st st' h
    simp only [processRuleList, Res.ok.injEq, Prod.mk.injEq] at h
    obtain ⟨rfl, rfl⟩ := h; exact .nil
  | cons r rest ih =>
    intro ⟨content, opt, man⟩ o' st st' h
    simp only [processRuleList] at h
    obtain ⟨⟨⟨ty, g⟩, st1⟩, h1, h⟩ := andThen_ok.mp h
    have hg := processExpr_gen h1
    dsimp only at h
    split at h
    · rename_i hn; exact .opt hn hg (ih _ _ _ _ h)
    · rename_i hn
      split at h
      · rename_i hm; exact .man hm hg (ih _ _ _ _ h)
      · rename_i hm; exact .rule hn hm hg (ih _ _ _ _ h)

theorem genRules_wf {reach sys rules o o' st st'} (h : GenRules cfg reach sys rules o o' st st') (hw : WfSt st) :
    WfSt st' := by
  induction h with
  | nil => exact hw
  | opt _ hg _ ih => exact ih (gen_wf hg hw)
  | man _ hg _ ih => exact ih (gen_wf hg hw)
  | rule _ _ hg _ ih => exact ih (gen_wf hg hw)

theorem genRules_prefix {reach sys rules o o' st st'} (h : GenRules cfg reach sys rules o o' st st') :
    st.wrappers <+: st'.wrappers := by
  induction h with
  | nil => exact List.prefix_refl _
  | opt _ hg _ ih => exact (gen_prefix hg).trans ih
  | man _ hg _ ih => exact (gen_prefix hg).trans ih
  | rule _ _ hg _ ih => exact (gen_prefix hg).trans ih

theorem genRules_lits {reach sys rules o o' st st'} (h : GenRules cfg reach sys rules o o' st st') :
    ∀ w ∈ st'.wrappers, w ∈ st.wrappers ∨ ∃ r ∈ rules, Lit w.2 r.node := by
  have step : ∀ {r : Rule} {rest : List Rule} {params sys ty g st st1} {w : Name × Text},
      GenRel params sys (.one r.node (ty, g)) st st1 → (w ∈ st1.wrappers ∨ ∃ r ∈ rest, Lit w.2 r.node) →
      w ∈ st.wrappers ∨ ∃ r' ∈ r :: rest, Lit w.2 r'.node := fun hg hw => by
    rcases hw with hw | ⟨r', hr, hl⟩
    · refine (gen_lits hg _ hw).imp id fun ⟨e, he, hl⟩ => ⟨_, List.mem_cons_self, ?_⟩
      simp only [GItem.exprs, List.mem_singleton] at he
      subst he; exact hl
    · exact .inr ⟨r', List.mem_cons_of_mem _ hr, hl⟩
  induction h with
  | nil => exact fun w hw => .inl hw
  | opt _ hg _ ih => exact fun w hw => step hg (ih w hw)
  | man _ hg _ ih => exact fun w hw => step hg (ih w hw)
  | rule _ _ hg _ ih => exact fun w hw => step hg (ih w hw)

theorem genMod_wf {item st st'} (h : GenMod cfg pest item st st') (hw : WfSt st) : WfSt st' := by
  induction h with
  | mk _ _ _ h4 ih => exact genRules_wf (processRuleList_gen _ _ _ _ _ h4) (ih hw)
  | nil => exact hw
  | builtin _ _ ih => exact ih hw
  | file _ _ ih1 ih2 => exact ih2 (ih1 hw)

theorem genMod_prefix {item st st'} (h : GenMod cfg pest item st st') : st.wrappers <+: st'.wrappers := by
  induction h with
  | mk _ _ _ h4 ih => exact ih.trans (genRules_prefix (processRuleList_gen _ _ _ _ _ h4))
  | nil => exact List.prefix_refl _
  | builtin _ _ ih => exact ih
  | file _ _ ih1 ih2 => exact ih1.trans ih2

/-- `ModIn m' m`: `m'` is `m` or directly or indirectly imported by it. -/
inductive ModIn (m' : Module) : Module → Prop
  | refl : ModIn m' m'
  | step {x m1 m} : Import.file x m1 ∈ m.imports → ModIn m' m1 → ModIn m' m

theorem genMod_lits {item st st'} (h : GenMod cfg pest item st st') :
    ∀ w ∈ st'.wrappers, w ∈ st.wrappers ∨ (match item with
      | .mod m _ _ => ∃ m', ModIn m' m ∧ ∃ r ∈ m'.rules, Lit w.2 r.node
      | .imports l _ _ _ => ∃ x m1 m', Import.file x m1 ∈ l ∧ ModIn m' m1 ∧ ∃ r ∈ m'.rules, Lit w.2 r.node) := by
  induction h with
  | mk _ _ _ h4 ih =>
    intro w hw
    rcases genRules_lits (processRuleList_gen _ _ _ _ _ h4) w hw with hw | ⟨r, hr, hl⟩
    · exact (ih w hw).imp id fun ⟨x, m1, m', h1, h2, h3⟩ => ⟨m', .step h1 h2, h3⟩
    · exact .inr ⟨_, .refl, r, hr, hl⟩
  | nil => exact fun w hw => .inl hw
  | builtin _ _ ih =>
    exact fun w hw => (ih w hw).imp id fun ⟨x, m1, m', h1, h2⟩ => ⟨x, m1, m', List.mem_cons_of_mem _ h1, h2⟩
  | file _ _ ih1 ih2 =>
    intro w hw
    rcases ih2 w hw with hw | ⟨x, m1, m', h1, h2⟩
    · exact (ih1 w hw).imp id fun ⟨m', h1, h2⟩ => ⟨_, _, m', List.mem_cons_self, h1, h2⟩
    · exact .inr ⟨x, m1, m', List.mem_cons_of_mem _ h1, h2⟩

end
end Pest3.Gen
