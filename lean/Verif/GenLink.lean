import Verif.GenComp

namespace Pest3.Gen
open Pest3

/-! ## Modules -/

theorem outChild_find {cfg : Config} {pest : ModNode} {item st st'} (h : GenMod cfg pest item st st') :
    match item with
    | .mod _ _ _ => True
    | .imports l _ _ outs => ∀ x y m', l.find? (fun i => i.name = x) = some (.file y m') →
        ∃ o sys1 st1 st2, outChild x outs = some o ∧ GenMod cfg pest (.mod m' o sys1) st1 st2 ∧
          st.wrappers <+: st1.wrappers ∧ st2.wrappers <+: st'.wrappers ∧ (WfSt st → WfSt st1) ∧
          Import.file y m' ∈ l := by
  induction h with
  | mk => trivial
  | nil => intro x y m' h; simp at h
  | @builtin x' p l sys sys' outs st st' _ _ ih =>
    intro x y m' h
    rw [List.find?_cons] at h
    simp only [Import.name] at h
    split at h
    · simp at h
    · obtain ⟨o, sys1, st1, st2, h1, h2, h3, h4, h5, h6⟩ := ih x y m' h
      exact ⟨o, sys1, st1, st2, h1, h2, h3, h4, h5, List.mem_cons_of_mem _ h6⟩
  | @file x' m l out child sys sys' outs st st1 st2 hm hi ih1 ih2 =>
    intro x y m' h
    rw [List.find?_cons] at h
    simp only [Import.name] at h
    split at h
    · rename_i hx
      have hx := of_decide_eq_true hx
      simp only [Option.some.injEq, Import.file.injEq] at h
      obtain ⟨rfl, rfl⟩ := h
      exact ⟨out, child, st, st1, by simp [outChild, hx], hm, List.prefix_refl _, genMod_prefix hi, id, List.mem_cons_self⟩
    · rename_i hx
      have hx := of_decide_eq_false hx
      obtain ⟨o, sys1, sta, stb, h1, h2, h3, h4, h5, h6⟩ := ih2 x y m' h
      exact ⟨o, sys1, sta, stb, by simp [outChild, hx, h1], h2, (genMod_prefix hm).trans h3, h4,
        fun hw => h5 (genMod_wf hm hw), List.mem_cons_of_mem _ h6⟩

/-- The module at a path was generated on its own. -/
theorem genMod_at {cfg : Config} {pest : ModNode} (p : List Name) : ∀ {root out sys st st'},
    GenMod cfg pest (.mod root out sys) st st' → WfSt st → ∀ {m}, modAt root p = some m →
    ∃ o sys1 st1 st2, outAt out p = some o ∧ GenMod cfg pest (.mod m o sys1) st1 st2 ∧
      st2.wrappers <+: st'.wrappers ∧ WfSt st1 ∧ ModIn m root := by
  induction p with
  | nil =>
    intro root out sys st st' h hw m hm
    simp only [modAt, Option.some.injEq] at hm
    subst hm
    exact ⟨out, sys, st, st', by cases out; rfl, h, List.prefix_refl _, hw, .refl⟩
  | cons x p ih =>
    intro root out sys st st' h hw m hm
    cases h with
    | @mk rules imports outs sys1 sys' reach content opt man st st1 st2 h1 _ _ h4 =>
      simp only [modAt] at hm
      split at hm
      · rename_i m' hc
        simp only [Module.child] at hc
        split at hc
        · rename_i y m'' hf
          simp only [Option.some.injEq] at hc
          subst hc
          obtain ⟨o, sysA, stA, stB, a1, a2, a3, a4, a5, a6⟩ := outChild_find h1 x y _ hf
          obtain ⟨o', sysC, stC, stD, b1, b2, b3, b4, b5⟩ := ih a2 (a5 hw) hm
          refine ⟨o', sysC, stC, stD, ?_, b2, (b3.trans a4).trans ?_, b4, .step a6 b5⟩
          · simp only [outAt, a1]; exact b1
          · exact genRules_prefix (processRuleList_gen _ _ _ _ _ h4)
        · simp at hc
      · simp at hm

theorem genRules_struct {cfg : Config} {reach : RefMap} {sys : ModSys} {rules o o' st st'}
    (h : GenRules cfg reach sys rules o o' st st') (hw : WfSt st) :
    (∀ s ∈ o.1, s ∈ o'.1) ∧
    (∀ r ∈ rules, r.name ≠ optName → r.name ≠ manName → ∃ s ∈ o'.1, s.name = r.name ∧ s.args = r.args ∧
      s.silent = r.silent ∧ ∃ g st1 st2, GenRel r.args sys (.one r.node (s.inner, g)) st1 st2 ∧ WfSt st1 ∧
        st2.wrappers <+: st'.wrappers ∧ s.getter = if cfg.noGetter then [] else g) ∧
    ((∀ r ∈ rules, r.name ≠ optName) → o'.2.1 = o.2.1) ∧ ((∀ r ∈ rules, r.name ≠ manName) → o'.2.2 = o.2.2) ∧
    (∀ r ∈ rules, r.name = optName → (∀ r' ∈ rules, r'.name = optName → r' = r) →
      ∃ ty, o'.2.1 = some ty ∧ ∃ g st1 st2, GenRel r.args sys (.one r.node (ty, g)) st1 st2 ∧ WfSt st1 ∧
        st2.wrappers <+: st'.wrappers) ∧
    (∀ r ∈ rules, r.name = manName → (∀ r' ∈ rules, r'.name = manName → r' = r) →
      ∃ ty, o'.2.2 = some ty ∧ ∃ g st1 st2, GenRel r.args sys (.one r.node (ty, g)) st1 st2 ∧ WfSt st1 ∧
        st2.wrappers <+: st'.wrappers) := by
  have hne : optName ≠ manName := by decide
  induction h with
  | nil => simp
  | @opt r rest content opt man o ty g st st1 st2 hn hg hr ih =>
    obtain ⟨i1, i2, i3, i4, i5, i6⟩ := ih (gen_wf hg hw)
    refine ⟨i1, fun r' hr' h1 h2 => ?_, fun h => ?_, fun h => ?_, fun r' hr' h1 h2 => ?_, fun r' hr' h1 h2 => ?_⟩
    · rcases List.mem_cons.mp hr' with rfl | hr'
      · exact absurd hn h1
      · exact i2 r' hr' h1 h2
    · exact absurd hn (h r List.mem_cons_self)
    · exact i4 fun r' hr' => h r' (List.mem_cons_of_mem _ hr')
    · have : r = r' := h2 r List.mem_cons_self hn
      subst this
      by_cases hin : ∃ r' ∈ rest, r'.name = optName
      · obtain ⟨r', hr'', hn'⟩ := hin
        have : r' = r := h2 r' (List.mem_cons_of_mem _ hr'') hn'
        subst this
        exact i5 r' hr'' h1 fun a ha hna => h2 a (List.mem_cons_of_mem _ ha) hna
      · exact ⟨ty, i3 fun a ha hna => hin ⟨a, ha, hna⟩, g, st, st1, hg, hw, genRules_prefix hr⟩
    · rcases List.mem_cons.mp hr' with rfl | hr'
      · exact absurd (hn.symm.trans h1) hne
      · exact i6 r' hr' h1 fun a ha => h2 a (List.mem_cons_of_mem _ ha)
  | @man r rest content opt man o ty g st st1 st2 hn hg hr ih =>
    obtain ⟨i1, i2, i3, i4, i5, i6⟩ := ih (gen_wf hg hw)
    refine ⟨i1, fun r' hr' h1 h2 => ?_, fun h => ?_, fun h => ?_, fun r' hr' h1 h2 => ?_, fun r' hr' h1 h2 => ?_⟩
    · rcases List.mem_cons.mp hr' with rfl | hr'
      · exact absurd hn h2
      · exact i2 r' hr' h1 h2
    · exact i3 fun r' hr' => h r' (List.mem_cons_of_mem _ hr')
    · exact absurd hn (h r List.mem_cons_self)
    · rcases List.mem_cons.mp hr' with rfl | hr'
      · exact absurd (h1.symm.trans hn) hne
      · exact i5 r' hr' h1 fun a ha => h2 a (List.mem_cons_of_mem _ ha)
    · have : r = r' := h2 r List.mem_cons_self hn
      subst this
      by_cases hin : ∃ r' ∈ rest, r'.name = manName
      · obtain ⟨r', hr'', hn'⟩ := hin
        have : r' = r := h2 r' (List.mem_cons_of_mem _ hr'') hn'
        subst this
        exact i6 r' hr'' h1 fun a ha hna => h2 a (List.mem_cons_of_mem _ ha) hna
      · exact ⟨ty, i4 fun a ha hna => hin ⟨a, ha, hna⟩, g, st, st1, hg, hw, genRules_prefix hr⟩
  | @rule r rest content opt man o ty g st st1 st2 hn hm hg hr ih =>
    obtain ⟨i1, i2, i3, i4, i5, i6⟩ := ih (gen_wf hg hw)
    refine ⟨fun s hs => i1 s (List.mem_append_left _ hs), fun r' hr' h1 h2 => ?_,
      fun h => i3 fun r' hr' => h r' (List.mem_cons_of_mem _ hr'),
      fun h => i4 fun r' hr' => h r' (List.mem_cons_of_mem _ hr'), fun r' hr' h1 h2 => ?_, fun r' hr' h1 h2 => ?_⟩
    · rcases List.mem_cons.mp hr' with rfl | hr'
      · exact ⟨_, i1 _ (List.mem_append_right _ (List.mem_singleton.mpr rfl)), rfl, rfl, rfl, g, st, st1, hg, hw,
          genRules_prefix hr, rfl⟩
      · exact i2 r' hr' h1 h2
    · rcases List.mem_cons.mp hr' with rfl | hr'
      · exact absurd h1 hn
      · exact i5 r' hr' h1 fun a ha => h2 a (List.mem_cons_of_mem _ ha)
    · rcases List.mem_cons.mp hr' with rfl | hr'
      · exact absurd h1 hm
      · exact i6 r' hr' h1 fun a ha => h2 a (List.mem_cons_of_mem _ ha)

/-! ## Targets -/

theorem modAt_append (p q : List Name) : ∀ m, modAt m (p ++ q) = (modAt m p).bind fun m => modAt m q := by
  induction p with
  | nil => intro m; rfl
  | cons x p ih =>
    intro m
    simp only [List.cons_append, modAt]
    cases m.child x with
    | none => rfl
    | some m' => exact ih m'

theorem findRule_mem {rules : List Rule} {x : Name} {r : Rule} (h : findRule rules x = some r) : r ∈ rules ∧ r.name = x := by
  refine ⟨List.mem_of_find?_eq_some h, ?_⟩
  have := List.find?_some h
  simpa using this

theorem lookupIn_rule {u : Unicode} {root : Module} (q : List Name) : ∀ {m cur p' r}, modAt root cur = some m →
    lookupIn u m cur q = some (.rule p' r) →
    ∃ m', modAt root p' = some m' ∧ findRule m'.rules r.name = some r ∧ r.name ≠ optName ∧ r.name ≠ manName := by
  induction q with
  | nil => intro m cur p' r _ h; simp [lookupIn] at h
  | cons x q ih =>
    intro m cur p' r hm h
    rw [lookupIn] at h
    split at h
    · split at h
      · simp at h
      · simp at h
    · rename_i y m' hf
      refine ih (m := m') (cur := cur ++ [x]) ?_ h
      rw [modAt_append, hm]
      simp only [Option.bind_some, modAt, Module.child, hf]
    · split at h
      · rename_i hx
        rw [Option.map_eq_some_iff] at h
        obtain ⟨r', h1, h2⟩ := h
        injection h2 with h2 h3
        subst h2 h3
        have := (findRule_mem h1).2
        subst this
        exact ⟨m, hm, h1, hx.2.1, hx.2.2⟩
      · simp at h

theorem target_rule {u : Unicode} {root : Module} {p q p' r} (h : target u root p q = some (.rule p' r)) :
    ∃ m', modAt root p' = some m' ∧ findRule m'.rules r.name = some r ∧ r.name ≠ optName ∧ r.name ≠ manName := by
  unfold target at h
  split at h
  · simp at h
  · split at h
    · simp at h
    · rename_i m hm
      exact lookupIn_rule q hm h

/-! ## The compiled program -/

theorem lookupC_zip (xs : List Name) : ∀ (ts : List CTy), ts.length = xs.length →
    ∀ x, x ∈ xs ↔ (lookupC x (xs.zip ts)).isSome := by
  induction xs with
  | nil => intro ts _ x; simp [lookupC]
  | cons y xs ih =>
    intro ts hl x
    cases ts with
    | nil => simp at hl
    | cons t ts =>
      simp only [List.zip_cons_cons, lookupC]
      by_cases e : y = x
      · simp [e]
      · have e' : x ≠ y := fun h => e h.symm
        simp only [if_neg e, List.mem_cons, e', false_or]
        exact ih ts (by simpa using hl) x

theorem ModIn.mono {a b c : Module} (h1 : ModIn a b) (h2 : ModIn b c) : ModIn a c := by
  induction h2 with
  | refl => exact h1
  | step h _ ih => exact .step h ih

theorem find_defined {rules : List Rule} {x : Name} (h : Defined rules x) : ∃ r, findRule rules x = some r := by
  obtain ⟨r, hr, hx⟩ := h
  cases hf : findRule rules x with
  | some r => exact ⟨r, rfl⟩
  | none =>
    have := List.find?_eq_none.mp hf r hr
    simp [hx] at this

theorem gen_compiled {cfg : Config} {names : List Name} {table : Name → Char → Bool} {root : Module} {out : Output}
    {sys : ModSys} {st' : GenSt} (hg : GenMod cfg (makeGlobal names) (.mod root out sys) GenSt.new st')
    (hn : AllNamed (unicodeOf names table) root) {R : Layout} {env : Env}
    (hl : Linked (unicodeOf names table) out st'.wrappers R env) : Compiled (unicodeOf names table) root R env ∧
    ∀ p m r ts, modAt root p = some m → findRule m.rules r.name = some r → r.name ≠ optName → r.name ≠ manName →
      ts.length = r.args.length → (env (R.num p r.name ts)).silent = r.silent ∧
      ∃ t, (env (R.num p r.name ts)).body = nodeOf (unicodeOf names table) R t ∧
        Comp (unicodeOf names table) root p (r.args.zip ts) (.one r.node t) := by
  have hwf := genMod_wf hg WfSt.new
  have unique : ∀ {m : Module}, WellNamed (unicodeOf names table) m → ∀ {r r' : Rule}, r ∈ m.rules → r' ∈ m.rules →
      r.name = r'.name → r = r' := fun hm _ _ h1 h2 e => eq_of_nodup_map hm.rules h1 h2 e
  -- the code of a rule in the module at `p`
  have comp : ∀ {p m o sys1 st1 st2 r ty g sta stb σ}, modAt root p = some m →
      GenMod cfg (makeGlobal names) (.mod m o sys1) st1 st2 → st2.wrappers <+: st'.wrappers → ModIn m root → r ∈ m.rules →
      GenRel r.args sys1 (.one r.node (ty, g)) sta stb → WfSt sta → stb.wrappers <+: st2.wrappers →
      (∀ x, x ∈ r.args ↔ (lookupC x σ).isSome) →
      Comp (unicodeOf names table) root p σ (.one r.node (close st'.wrappers p σ ty)) := by
    intro p m o sys1 st1 st2 r ty g sta stb σ hm hgm hpre hin hr hgen hwa hpre2 hσ
    have hnamed : AllNamed (unicodeOf names table) m := fun m' h => hn m' (h.mono hin)
    obtain ⟨hp, hnode⟩ := resolve_ok (table := table) hgm hnamed
    have hwell := hnamed m .refl
    refine gen_comp (item := .one r.node (ty, g)) (fun q args ty g h => sys_resolve hp hnode hm h) hσ hwf.names_nodup
      hgen hwa (fun w hw => (hpre2.trans hpre).subset hw) fun e he => ?_
    simp only [GItem.exprs, List.mem_singleton] at he
    subst he
    refine ⟨fun x hx => (hwell.plain r hr x hx).1, fun x hx => (hwell.plain r hr x hx).2, fun t ht => ?_⟩
    cases hgm with
    | @mk rules imports outs sys2 _ reach content opt man _ stx _ a1 a2 a3 a4 =>
      have hd : TriviaDefined rules := by
        by_cases hd : TriviaDefined rules
        · exact hd
        · rw [(collectReachability_spec rules).1 hd] at a2; simp at a2
      cases t with
      | none => exact .inl rfl
      | optional =>
        obtain ⟨r', h'⟩ := find_defined ((hd r hr).1 ht)
        exact .inr ⟨_, r', hm, h'⟩
      | mandatory =>
        obtain ⟨r', h'⟩ := find_defined ((hd r hr).2 ht)
        exact .inr ⟨_, r', hm, h'⟩
  suffices hrule : ∀ p m r ts, modAt root p = some m → findRule m.rules r.name = some r → r.name ≠ optName →
      r.name ≠ manName → ts.length = r.args.length → (env (R.num p r.name ts)).silent = r.silent ∧
      ∃ t, (env (R.num p r.name ts)).body = nodeOf (unicodeOf names table) R t ∧
        Comp (unicodeOf names table) root p (r.args.zip ts) (.one r.node t) by
    refine ⟨⟨fun p q p' r ts ht hlen => ?_, hl.noTrivia, fun p m t r hm ht => ?_⟩, hrule⟩
    · obtain ⟨m, hm, hf, h1, h2⟩ := target_rule ht
      exact (hrule p' m r ts hm hf h1 h2 hlen).2
    · obtain ⟨o, sys1, st1, st2, ho, hgm, hpre, hw1, hin⟩ := genMod_at p hg WfSt.new hm
      have hwell := hn m hin
      have hgm' := hgm
      cases hgm with
      | @mk rules imports outs sys2 _ reach content opt man _ stx _ a1 a2 a3 a4 =>
        obtain ⟨_, _, _, _, i5, i6⟩ := genRules_struct (processRuleList_gen _ _ _ _ _ a4) (genMod_wf a1 hw1)
        have fin : ∀ {ty}, t ≠ .none → (Output.mk content opt man outs cfg.rulesMod).trivia t = some ty → r ∈ rules →
            r.name = optName ∨ r.name = manName →
            (∃ g sta stb, GenRel r.args sys1 (.one r.node (ty, g)) sta stb ∧ WfSt sta ∧ stb.wrappers <+: st2.wrappers) →
            ∃ ty, R.triv (p, t) = nodeOf (unicodeOf names table) R ty ∧
              Comp (unicodeOf names table) root p [] (.one r.node ty) := by
          rintro ty hne hty hr hname ⟨g, sta, stb, hgen, hwa, hpre2⟩
          have := hl.trivia p _ t hne ho
          rw [hty] at this
          exact ⟨_, this, comp hm hgm' hpre hin hr hgen hwa hpre2
            (by rw [hwell.trivia r hr hname]; simp [lookupC])⟩
        cases t with
        | none => simp [triviaRule] at ht
        | optional =>
          simp only [triviaRule] at ht
          obtain ⟨hr, hname⟩ := findRule_mem ht
          obtain ⟨ty, hty, rest⟩ := i5 r hr hname fun r' h' e => unique hwell h' hr (e.trans hname.symm)
          exact fin (by simp) hty hr (.inl hname) rest
        | mandatory =>
          simp only [triviaRule] at ht
          obtain ⟨hr, hname⟩ := findRule_mem ht
          obtain ⟨ty, hty, rest⟩ := i6 r hr hname fun r' h' e => unique hwell h' hr (e.trans hname.symm)
          exact fin (by simp) hty hr (.inr hname) rest
  · intro p' m r ts hm hf h1 h2 hlen
    obtain ⟨o, sys1, st1, st2, ho, hgm, hpre, hw1, hin⟩ := genMod_at p' hg WfSt.new hm
    have hr := (findRule_mem hf).1
    have hgm' := hgm
    cases hgm with
    | @mk rules imports outs sys2 _ reach content opt man _ stx _ a1 a2 a3 a4 =>
      obtain ⟨_, i2, _⟩ := genRules_struct (processRuleList_gen _ _ _ _ _ a4) (genMod_wf a1 hw1)
      obtain ⟨s, hs, e1, e2, e3, g, sta, stb, hgen, hwa, hpre2, _⟩ := i2 r hr h1 h2
      obtain ⟨hb, hsil⟩ := hl.rule p' _ s ts ho hs (by rw [e2]; exact hlen)
      rw [e1, e2] at hb
      rw [e1, e3] at hsil
      exact ⟨hsil, _, hb, comp hm hgm' hpre hin hr hgen hwa hpre2 (lookupC_zip _ _ hlen)⟩

end Pest3.Gen
