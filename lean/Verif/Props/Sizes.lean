import Verif.Props.Boxing
import Verif.SizeLemmas

/-!
# C49: the generated types have finite sizes

`Props/Boxing.lean` is about references between rules, this file is about the types in the generated code: the structs of
all modules, with all the types their parameters may stand for.
-/

namespace Pest3.Props
open Pest3 Pest3.Gen

section
variable {cfg : Config} {pest : ModNode} {root : Module} {out : Output} {sys : ModSys} {st st' : GenSt}

theorem struct_size (h : GenMod cfg pest (.mod root out sys) st st') (W : List (Name × Text)) : ∀ n p o, sizeOf o = n →
    outAt out p = some o → ∀ x ts, (∀ c ∈ ts, HasSize out W c) → HasSize out W (.rule p x ts) := by
  intro n
  induction n using Nat.strongRecOn with
  | _ n ihn =>
    intro p o hn ho x
    obtain ⟨m, sys1, st1, st2, hg, _⟩ := genMod_out p h ho
    cases hg with
    | @mk rules imports outs _ _ reach content opt man _ _ _ _ hreach _ hrules =>
      have hfrom := genRules_from (processRuleList_gen _ _ _ _ _ hrules)
      have hfin := C49_finite_size rules reach cfg.boxOnlyIfNeeded hreach x
      induction hfin with
      | @pointer x hb =>
        intro ts hts
        obtain ⟨r, hr, hx, hb⟩ := hb
        refine .rule fun o' s ho' hs hsx hsb => ?_
        rw [ho] at ho'
        simp only [Option.some.injEq] at ho'
        subst ho'
        rcases hfrom s hs with h | ⟨r', _, h1, h2, _⟩
        · simp at h
        · have : r'.name = r.name := by rw [← h1, hsx, hx]
          rw [h2] at hsb
          simp only [ruleBoxed, this] at hsb hb
          rw [hb] at hsb
          simp at hsb
      | @contains x _ ih =>
        intro ts hts
        refine .rule fun o' s ho' hs hsx hsb => ?_
        rw [ho] at ho'
        simp only [Option.some.injEq] at ho'
        subst ho'
        rcases hfrom s hs with h | ⟨r, hr, h1, _, g, sta, stb, hgen⟩
        · simp at h
        · refine close_size (fun a ha => hts _ (List.of_mem_zip ha).2) s.inner fun q hq ts' hts' => ?_
          rcases gen_refs hgen q hq with h | ⟨h0, hq⟩
          · cases hoq : outAt out (p ++ q.1) with
            | none => exact .rule fun o' s ho' => by rw [hoq] at ho'; simp at ho'
            | some o' =>
              have := hoq
              rw [outAt_append, ho] at this
              exact ihn _ (hn ▸ (outAt_sizeOf _ this).2 h) _ _ rfl hoq _ _ hts'
          · rw [h0, List.append_nil]
            exact ih q.2 ⟨r, hr, by rw [← h1, hsx], hq⟩ ts' hts'

/-- C49: every type of the generated code has a finite size, with and without `box_rules_only_if_needed`, whatever its
parameters are. -/
theorem C49_generated (cfg : Config) (names : List Name) (m : Module) (out : Output) (st : GenSt)
    (h : generateModule cfg names m = .ok (out, st)) (t : CTy) : HasSize out st.wrappers t := by
  obtain ⟨⟨⟨o, sys⟩, st1⟩, h1, h⟩ := andThen_ok.mp h
  simp only [Res.ok.injEq, Prod.mk.injEq] at h
  obtain ⟨rfl, rfl⟩ := h
  have hg := processModule_gen m _ _ _ _ h1
  refine (CTy.ind (P := HasSize o st1.wrappers) (PL := fun l => ∀ c ∈ l, HasSize o st1.wrappers c)
    (PF := fun l => ∀ f ∈ l, HasSize o st1.wrappers f.2) (fun _ => .leaf) (fun _ => .push) (fun _ => .positive)
    (fun _ _ => .negative) (fun _ => .option) (fun _ => .seq) (fun _ => .choice) (fun _ _ _ _ _ => .rep) ?_
    (by simp) (fun _ _ h1 h2 => by simpa using ⟨h1, h2⟩) (by simp) (fun _ _ _ h1 h2 f hf => (List.mem_cons.mp hf).elim (fun e => e ▸ h1) (h2 f))).1 t
  intro p x ts ih
  cases ho : outAt o p with
  | none => exact .rule fun o' s ho' => by rw [ho] at ho'; simp at ho'
  | some o' => exact struct_size hg _ _ p o' rfl ho x ts ih

/-- C50: with `box_rules_only_if_needed`, the content of a generated struct is boxed only if its rule is on a cycle of
references; otherwise always. -/
theorem C50_generated (cfg : Config) (names : List Name) (m : Module) (out : Output) (st : GenSt)
    (h : generateModule cfg names m = .ok (out, st)) (p : List Name) (m' : Module) (hm : modAt m p = some m') :
    ∃ o, outAt out p = some o ∧ ∀ s ∈ o.content, (cfg.boxOnlyIfNeeded = false → s.boxed = true) ∧
      (cfg.boxOnlyIfNeeded = true → s.boxed = true → ∃ n, Chain m'.rules (fun _ => True) n s.name s.name) := by
  obtain ⟨⟨⟨o', sys⟩, st1⟩, h1, h⟩ := andThen_ok.mp h
  simp only [Res.ok.injEq, Prod.mk.injEq] at h
  obtain ⟨rfl, rfl⟩ := h
  obtain ⟨o, sys1, sta, stb, ho, hg, _⟩ := genMod_at p (processModule_gen m _ _ _ _ h1) WfSt.new hm
  refine ⟨o, ho, fun s hs => ?_⟩
  cases hg with
  | @mk rules imports outs _ _ reach content opt man _ _ _ _ hreach _ hrules =>
    rcases genRules_from (processRuleList_gen _ _ _ _ _ hrules) s hs with h | ⟨r, hr, e1, e2, _⟩
    · simp at h
    · refine ⟨fun hc => by rw [e2, hc]; rfl, fun hc hb => ?_⟩
      rw [e2, hc] at hb
      rw [e1]
      exact C50_minimal rules reach hreach r hr hb

/-- The rules `a = "a" - b?` and `b = f(a)`, `f(x) = x`. -/
def ring : Module :=
  .mk [⟨['a'], [], .seq (.str ['a']) (.opt (.path [['b']])) .none, false⟩,
    ⟨['b'], [], .call [['f']] [.path [['a']]], false⟩, ⟨['f'], [['x']], .path [['x']], false⟩] []

/-- C49, C50: generated with a box in `a` only. -/
example : ∃ o st, generateModule ⟨true, false, none⟩ [] ring = .ok (o, st) ∧
    o.content.map (fun s => (s.name, s.boxed)) = [(['a'], true), (['b'], false), (['f'], false)] :=
  ⟨_, _, rfl, rfl⟩

/-- C49: without that box the types have no size. -/
example : ¬ HasSize (.mk [⟨['a'], [], false, false, .seq [.none, .none] [.str ['W', '0'], .option (.rule [] ['b'] [])], []⟩,
      ⟨['b'], [], false, false, .rule [] ['f'] [.rule [] ['a'] []], []⟩,
      ⟨['f'], [['x']], false, false, .param ['x'], []⟩] none none [] none) [] (.rule [] ['a'] []) := by
  intro h
  generalize hc : CTy.rule [] ['a'] [] = c at h
  have key : ∀ c, HasSize (.mk [⟨['a'], [], false, false, .seq [.none, .none] [.str ['W', '0'], .option (.rule [] ['b'] [])], []⟩,
      ⟨['b'], [], false, false, .rule [] ['f'] [.rule [] ['a'] []], []⟩,
      ⟨['f'], [['x']], false, false, .param ['x'], []⟩] none none [] none) [] c →
      c ≠ .rule [] ['a'] [] ∧ c ≠ .rule [] ['b'] [] ∧ c ≠ .option (.rule [] ['b'] []) ∧
      c ≠ .rule [] ['f'] [.rule [] ['a'] []] ∧
      c ≠ .seq [(([], .none), .leaf (.str [])), (([], .none), .option (.rule [] ['b'] []))] := by
    intro c h
    induction h with
    | rule _ ih =>
      refine ⟨?_, ?_, by simp, ?_, by simp⟩
      · intro e
        simp only [CTy.rule.injEq] at e
        obtain ⟨rfl, rfl, rfl⟩ := e
        exact (ih _ _ rfl (.head _) rfl rfl).2.2.2.2 rfl
      · intro e
        simp only [CTy.rule.injEq] at e
        obtain ⟨rfl, rfl, rfl⟩ := e
        exact (ih _ _ rfl (.tail _ (.head _)) rfl rfl).2.2.2.1 rfl
      · intro e
        simp only [CTy.rule.injEq] at e
        obtain ⟨rfl, rfl, rfl⟩ := e
        exact (ih _ _ rfl (.tail _ (.tail _ (.head _))) rfl rfl).1 rfl
    | option _ ih =>
      refine ⟨by simp, by simp, ?_, by simp, by simp⟩
      intro e
      simp only [CTy.option.injEq] at e
      exact ih.2.1 e
    | seq _ ih =>
      refine ⟨by simp, by simp, by simp, by simp, ?_⟩
      intro e
      simp only [CTy.seq.injEq] at e
      subst e
      exact (ih _ (.tail _ (.head _))).2.2.1 rfl
    | _ => simp
  exact (key c h).1 hc.symm

end

end Pest3.Props
