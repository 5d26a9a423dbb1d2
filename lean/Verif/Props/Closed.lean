import Verif.ItemLemmas
import Verif.Props.Generation

/-!
# Property C70: what the generated code refers to exists

`generated` (`Verif/Items.lean`) is the tree of modules and types that the generator emits, `Ty.paths` are the paths
in the types it emits, and `PathsGood` says that such a type can be written at a place: its paths lead to types that are
defined there, with as many arguments as the type has parameters.
-/

namespace Pest3.Props
open Pest3 Pest3.Gen

/-- The names of the modules for the rules: the usual one, or another one that is not used for something else, in a
grammar that does not import files. -/
def Placed (cfg : Config) (m : Module) : Prop :=
  (∀ x, cfg.rulesMod = some x → x = "rules".toList) ∨
    m.fileNames = [] ∧ ∀ x, cfg.rulesMod = some x → x ∉ ["wrapper".toList, "unicode".toList, "generics".toList]

/-- The parameters of rules are not called like an imported file or a trivia alias. -/
def ParamsApart (m : Module) : Prop :=
  ∀ r ∈ m.rules, ∀ x ∈ r.args, x ∉ m.fileNames ∧ x ≠ "__OptionalTrivia".toList ∧ x ≠ "__MandatoryTrivia".toList

section
variable {cfg : Config} {names uni : List Name} {table : Name → Char → Bool} {m m' : Module} {out : Output} {st : GenSt}

theorem rules_usual (h : ∀ x, cfg.rulesMod = some x → x = "rules".toList) : typesMod cfg.rulesMod = "rules".toList := by
  unfold typesMod
  cases hr : cfg.rulesMod with
  | none => rfl
  | some x => exact h x hr

theorem placed_apart (h : Placed cfg m) : typesMod cfg.rulesMod ≠ "wrapper".toList ∧
    typesMod cfg.rulesMod ≠ "unicode".toList ∧ typesMod cfg.rulesMod ≠ "generics".toList := by
  rcases h with h | ⟨_, h⟩
  · rw [rules_usual h]; decide
  · unfold typesMod
    cases hr : cfg.rulesMod with
    | none => decide
    | some x => simpa [not_or] using h x hr

theorem no_files {root : Module} (h : root.fileNames = []) {p : List Name} {m : Module} (hm : modAt root p = some m) : p = [] := by
  cases p with
  | nil => rfl
  | cons x p =>
    exfalso
    simp only [modAt] at hm
    split at hm
    · rename_i m1 hc
      unfold Module.child at hc
      split at hc
      · rename_i y m2 hf
        have := List.mem_of_find?_eq_some hf
        have : y ∈ root.fileNames := List.mem_filterMap.mpr ⟨_, this, rfl⟩
        rw [h] at this
        simp at this
      · simp at hc
    · simp at hm

theorem first_file {u : Unicode} {m : Module} {cur : List Name} {x y : Name} {q p : List Name} {r : Rule}
    (h : lookupIn u m cur (x :: y :: q) = some (.rule p r)) : x ∈ m.fileNames := by
  rw [lookupIn] at h
  split at h
  · split at h <;> simp at h
  · rename_i y' m1 hf
    have h1 := List.mem_of_find?_eq_some hf
    have h2 : y' = x := of_decide_eq_true (List.find?_some (p := fun i : Import => decide (i.name = x)) hf)
    subst h2
    exact List.mem_filterMap.mpr ⟨_, h1, rfl⟩
  · simp at h

theorem scopeOf_modsPath {rm : Option Name} (h : typesMod rm = "rules".toList) (p mods : List Name) :
    scopeOf rm p ++ modsPath mods = scopeOf rm (p ++ mods) := by
  have : modsPath mods = mods.flatMap fun x => [x, typesMod rm] := by
    induction mods with
    | nil => rfl
    | cons x mods ih => simp only [modsPath, List.flatMap_cons, ih, h, List.cons_append, List.nil_append]
  rw [this]
  unfold scopeOf
  rw [List.flatMap_append, List.cons_append]

/-- In the code generated for a grammar with unambiguous names, every path in the type of every rule and of the trivia
leads to a type that is defined, with the number of arguments it has parameters, is not mistaken for a parameter, and
the parameters are those of the rule.  The same holds for the types in the signatures of the accessors, and the paths to the
enumerations of rules are right as well.

This is less than what one expects, that all accepted grammars give such code (`C70_rules_mod_witness`,
`C70_renamed_witness`, `C70_parameter_witness`, `C70_trivia_witness`). -/
theorem C70_closed_partial (h : generateModule cfg names m = .ok (out, st)) (hn : AllNamed (unicodeOf names table) m)
    (hpl : Placed cfg m) (hpa : ∀ m', ModIn m' m → ParamsApart m') (hu : ∀ x ∈ names, x.map Char.toUpper ∈ uni)
    {p : List Name} (hm : modAt m p = some m') :
    ∃ o, outAt out p = some o ∧
      (∀ s ∈ o.content, PathsGood (generated uni out st) (scopeOf cfg.rulesMod p) s.args p.length s.inner ∧
        (∀ a ∈ s.getter, ∀ t ∈ a.2.tys, PathsGood (generated uni out st) (scopeOf cfg.rulesMod p) s.args p.length t) ∧
        ∀ r ∈ ruleRefs p.length, r.Resolves (generated uni out st) (scopeOf cfg.rulesMod p)) ∧
      ∀ t ty, o.trivia t = some ty → PathsGood (generated uni out st) (scopeOf cfg.rulesMod p) [] p.length ty := by
  unfold generateModule at h
  obtain ⟨⟨⟨out', sys⟩, st'⟩, h1, h⟩ := andThen_ok.mp h
  simp only [Res.ok.injEq, Prod.mk.injEq] at h
  obtain ⟨rfl, rfl⟩ := h
  have hg := processModule_gen m _ _ _ _ h1
  have huni : ∀ q o, outAt out' q = some o → o.rulesMod = cfg.rulesMod := fun q o ho => genMod_uniform hg ho
  obtain ⟨a1, a2, a3⟩ := placed_apart hpl
  have htwo : st'.Two := (genMod_le hg).2 ⟨by simp [GenSt.new], by simp [GenSt.new]⟩
  -- what there is in the top module
  have top : ∀ {x : Name} {i : Items}, x ≠ typesMod cfg.rulesMod →
      findMod x [("wrapper".toList, .mk (st'.wrappers.map fun w => (w.1, 0)) []), ("unicode".toList, .mk (uni.map fun x => (x, 0)) []),
       ("generics".toList, .mk (declTypes (genericsDecls st')) [])] = some i →
      ∀ {q : List Name} {y : Name} {n : Nat}, (y, n) ∈ i.types →
        Ref.Resolves (generated uni out' st') (scopeOf cfg.rulesMod q) ⟨rootUps q.length, [x], y, n⟩ := by
    intro x i hx hi q y n hy
    obtain ⟨h1, h2⟩ := root_at (rm := cfg.rulesMod) q
    refine ⟨h1, i, ?_, hy⟩
    have h0 : out'.rulesMod = cfg.rulesMod := huni [] out' (by cases out'; rfl)
    dsimp only
    rw [h2, List.nil_append, generated_eq, h0]
    have : ¬ typesMod cfg.rulesMod = x := fun h => hx h.symm
    rw [Items.at_one, List.cons_append, List.nil_append, findMod_skip this]
    exact hi
  -- the structs of rules
  have struct : ∀ {q : List Name} {m1 : Module} {r : Rule}, modAt m q = some m1 → findRule m1.rules r.name = some r →
      r.name ≠ optName → r.name ≠ manName →
      ∃ i, (generated uni out' st').at (scopeOf cfg.rulesMod q) = some i ∧ (r.name, r.args.length) ∈ i.types := by
    intro q m1 r hq hf h2 h3
    obtain ⟨o, sys1, st1, st2, ho, hgm, _, hw1, _⟩ := genMod_at_le q hg WfSt.new hq
    refine ⟨_, generated_scope huni ho, ?_⟩
    cases hgm with
    | mk b1 b2 b3 b4 =>
      obtain ⟨_, i2, _⟩ := genRules_struct (processRuleList_gen _ _ _ _ _ b4) (genMod_wf b1 hw1)
      obtain ⟨s, hs, e1, e2, _⟩ := i2 r (findRule_mem hf).1 h2 h3
      refine List.mem_cons_of_mem _ (List.mem_cons_of_mem _ ?_)
      exact List.mem_map.mpr ⟨s, hs, by rw [e1, e2]⟩
  obtain ⟨o, sys1, st1, st2, ho, hgm, hle, hw1, hin⟩ := genMod_at_le p hg WfSt.new hm
  have hnamed : AllNamed (unicodeOf names table) m' := fun m1 h => hn m1 (h.mono hin)
  obtain ⟨hp, hnode⟩ := resolve_ok (table := table) hgm hnamed
  have hwell := hnamed m' .refl
  have scope := generated_scope (uni := uni) (st := st') huni ho
  have prov : ∀ r ∈ m'.rules, Provides names (unicodeOf names table) m p r.args st' p.length fun a =>
      a.Resolves (generated uni out' st') (scopeOf cfg.rulesMod p) ∧ ∀ x ∈ r.args, a.first ≠ some x := by
    intro r0 hr0
    have up : ∀ {n : Nat} {a : Ref}, a.ups = rootUps n → ∀ x ∈ r0.args, a.first ≠ some x := by
      intro n a ha x _ hf
      have : a.ups ≠ 0 := by rw [ha, rootUps_eq]; omega
      simp [Ref.first, this] at hf
    have gen : ∀ {x n}, (x, n) ∈ declTypes (genericsDecls st') →
        (genericRef p.length x n).Resolves (generated uni out' st') (scopeOf cfg.rulesMod p) := fun hx =>
      top (Ne.symm a3) rfl hx
    refine ⟨fun x n hx hl => ⟨gen (exported_mem hx hl st'), up (n := p.length) rfl⟩, fun n hn => ⟨gen (sequence_mem (htwo.seqs n hn) hn), up (n := p.length) rfl⟩,
      fun n hn => ⟨gen (choice_mem (htwo.choices n hn) hn), up (n := p.length) rfl⟩,
      fun w hw => ⟨top (Ne.symm a1) rfl (List.mem_map.mpr ⟨w, hw, rfl⟩), up (n := p.length) rfl⟩,
      fun x hx => ⟨top (Ne.symm a2) rfl (List.mem_map.mpr ⟨_, hu x hx, rfl⟩), up (n := p.length) rfl⟩, fun t a ha => ?_, fun q r hq ht => ?_⟩
    · have key : ∀ {x : Name}, (x, 0) ∈ o.scope.types → (∀ y ∈ r0.args, y ≠ x) →
          (⟨0, [], x, 0⟩ : Ref).Resolves (generated uni out' st') (scopeOf cfg.rulesMod p) ∧
            ∀ y ∈ r0.args, (⟨0, [], x, 0⟩ : Ref).first ≠ some y := by
        intro x hx hy
        refine ⟨⟨Nat.zero_le _, o.scope, ?_, hx⟩, fun y hy' hf => ?_⟩
        · dsimp only
          rw [Nat.sub_zero, List.take_length, List.append_nil]; exact scope
        · simp only [Ref.first, if_true, List.nil_append, List.head?_cons, Option.some.injEq] at hf
          exact hy y hy' hf.symm
      have apart := hpa m' hin r0 hr0
      cases t with
      | none => simp [triviaRef] at ha
      | optional =>
        rw [List.mem_singleton.mp ha]
        exact key (by cases o; exact List.mem_cons_self) fun y hy => (apart y hy).2.1
      | mandatory =>
        rw [List.mem_singleton.mp ha]
        exact key (by cases o; exact List.mem_cons_of_mem _ List.mem_cons_self) fun y hy => (apart y hy).2.2
    · obtain ⟨m1, hm1, hf, h2, h3⟩ := target_rule ht
      obtain ⟨i, hi, hmem⟩ := struct hm1 hf h2 h3
      refine ⟨⟨Nat.zero_le _, i, ?_, hmem⟩, fun x hx hfst => ?_⟩
      · dsimp only
        rw [Nat.sub_zero, List.take_length]
        rcases hpl with hpl | ⟨hfiles, _⟩
        · rw [scopeOf_modsPath (rules_usual hpl)]; exact hi
        · have := no_files hfiles hm1
          simp only [List.append_eq_nil_iff] at this
          rw [this.2]
          simp only [this.1, this.2, List.append_nil, modsPath] at hi ⊢
          exact hi
      · -- the first segment is the rule or an imported file
        have hlook : lookupIn (unicodeOf names table) m' p q = some (.rule (p ++ q.dropLast) r) := by
          unfold target at ht
          split at ht
          · simp at ht
          · rw [hm] at ht; exact ht
        match q, hq, hlook, hfst with
        | [], _, hlook, _ => simp [lookupIn] at hlook
        | [y], hq, hlook, hfst =>
          simp only [Ref.first, if_true, List.dropLast_singleton, modsPath, List.nil_append, List.head?_cons,
            Option.some.injEq] at hfst
          have hname : r.name = y := by
            rw [lookupIn] at hlook
            split at hlook
            · split at hlook <;> simp at hlook
            · simp [lookupIn] at hlook
            · split at hlook
              · simp only [Option.map_eq_some_iff, Target.rule.injEq] at hlook
                obtain ⟨r', hr', _, rfl⟩ := hlook
                exact (findRule_mem hr').2
              · simp at hlook
          exact hq x hx (by rw [← hname, hfst])
        | y :: z :: q, _, hlook, hfst =>
          have hfile := first_file hlook
          simp only [Ref.first, if_true, List.dropLast_cons_cons, modsPath, List.cons_append, List.head?_cons,
            Option.some.injEq] at hfst
          exact (hpa m' hin r0 hr0 x hx).1 (hfst ▸ hfile)
  have rule : ∀ {r : Rule} {ty g sta stb}, r ∈ m'.rules → GenRel r.args sys1 (.one r.node (ty, g)) sta stb → WfSt sta →
      stb.Le st2 → PathsGood (generated uni out' st') (scopeOf cfg.rulesMod p) r.args p.length ty := by
    intro r ty g sta stb hr hgen hwa hst
    obtain ⟨h2, h3⟩ := gen_paths hgen (prov r hr) (fun q args ty g h => sys_resolve hp hnode hm h) hwa (hst.trans hle)
    exact ⟨h2, h3⟩
  refine ⟨o, ho, ?_, ?_⟩
  · intro s hs
    rw [← and_assoc]
    refine ⟨?_, fun a ha => ?_⟩
    · cases hgm with
      | mk b1 b2 b3 b4 =>
        obtain ⟨i1, _⟩ := genRules_origin (processRuleList_gen _ _ _ _ _ b4) (genMod_wf b1 hw1)
        rcases i1 s hs with h | ⟨r, hr, e1, e2, g, sta, stb, eg, hgen, hwa, hst⟩
        · simp at h
        · rw [e2]
          have hwr := rule hr hgen hwa hst
          refine ⟨hwr, fun a ha t ht => ?_⟩
          rw [eg] at ha
          split at ha
          · simp at ha
          · obtain ⟨i1, i2⟩ := gen_accessor_paths hgen p.length a ha t ht
            exact ⟨fun x hx => hwr.refs x (i1 x hx), fun x hx => hwr.params x (i2 x hx)⟩
    · obtain ⟨n, hn', rfl⟩ := List.mem_map.mp ha
      have hn' := List.mem_range.mp hn'
      obtain ⟨o', ho'⟩ : ∃ o', outAt out' (p.take (p.length - n)) = some o' := by
        have := outAt_append (p.take (p.length - n)) (p.drop (p.length - n)) out'
        rw [List.take_append_drop, ho] at this
        cases h : outAt out' (p.take (p.length - n)) with
        | none => rw [h] at this; simp at this
        | some o' => exact ⟨o', rfl⟩
      obtain ⟨i, hi, hmem⟩ := generated_around (uni := uni) (st := st') huni ho'
      refine ⟨by rw [scopeOf_length]; dsimp only; omega, i, ?_, hmem⟩
      dsimp only
      rw [List.append_nil, scopeOf_length, scopeOf_eq, List.take_append_of_le_length (by rw [aroundOf_length]; omega),
        show 2 * p.length + 1 - (1 + 2 * n) = 2 * (p.length - n) by omega, around_take]
      exact hi
  · intro t ty hty
    cases hgm with
    | mk b1 b2 b3 b4 =>
      obtain ⟨_, i2, i3⟩ := genRules_origin (processRuleList_gen _ _ _ _ _ b4) (genMod_wf b1 hw1)
      have fin : ∀ {r : Rule} {g sta stb}, r ∈ _ → r.name = optName ∨ r.name = manName → _ := fun {r g sta stb} hr hname
          (hgen : GenRel r.args sys1 (.one r.node (ty, g)) sta stb) (hwa : WfSt sta) (hst : stb.Le st2) => by
        have := rule hr hgen hwa hst
        rw [hwell.trivia r hr hname] at this
        exact this
      cases t with
      | none => simp [Output.trivia] at hty
      | optional =>
        rcases i2 ty hty with h | ⟨r, hr, hname, g, sta, stb, hgen, hwa, hst⟩
        · simp at h
        · exact fin hr (.inl hname) hgen hwa hst
      | mandatory =>
        rcases i3 ty hty with h | ⟨r, hr, hname, g, sta, stb, hgen, hwa, hst⟩
        · simp at h
        · exact fin hr (.inr hname) hgen hwa hst

/-- Whatever the grammar, the module `generics` only imports types that the library has. -/
theorem C70_imports (h : generateModule cfg names m = .ok (out, st)) : ∀ d ∈ genericsDecls st, d.arity.isSome := by
  unfold generateModule at h
  obtain ⟨⟨⟨out', sys⟩, st'⟩, h1, h⟩ := andThen_ok.mp h
  simp only [Res.ok.injEq, Prod.mk.injEq] at h
  obtain ⟨rfl, rfl⟩ := h
  have htwo : st'.Two := (genMod_le (processModule_gen m _ _ _ _ h1)).2 ⟨by simp [GenSt.new], by simp [GenSt.new]⟩
  intro d hd
  unfold genericsDecls at hd
  rw [List.mem_append, List.mem_append] at hd
  rcases hd with (hd | hd) | hd
  · have key : ∀ x ∈ exported, (libTemplate.lookup x).isSome := by decide
    obtain ⟨x, hx, rfl⟩ := List.mem_map.mp hd
    exact key x hx
  · obtain ⟨n, hn, rfl⟩ := List.mem_map.mp hd
    have h2 := htwo.seqs n (elements_mem.mp hn)
    split
    · rfl
    · unfold libSequence
      rw [Decl.arity, lookup_map (fun _ _ => sequenceName_inj) _ (List.mem_range'_1.mpr (by omega))]; rfl
  · obtain ⟨n, hn, rfl⟩ := List.mem_map.mp hd
    have h2 := htwo.choices n (elements_mem.mp hn)
    split
    · rfl
    · unfold libChoice
      rw [Decl.arity, lookup_map (fun _ _ => choiceName_inj) _ (List.mem_range'_1.mpr (by omega))]; rfl

/-- Whatever has been recorded, the module `generics` declares no name twice. -/
theorem C70_distinct (st : GenSt) : ((genericsDecls st).map Decl.name).Nodup := by
  have hfill : ∀ (name : Nat → Name) lib arity lens, (fill name lib arity lens).map Decl.name = (elements lens).map name := by
    intro name lib arity lens
    unfold fill
    rw [List.map_map]
    refine List.map_congr_left fun n _ => ?_
    dsimp only [Function.comp]
    split <;> rfl
  have hexp : (exported.map (fun x => Decl.use x (libTemplate.lookup x))).map Decl.name = exported := by
    rw [List.map_map]
    exact List.map_id _
  unfold genericsDecls
  rw [List.map_append, List.map_append, hfill, hfill, hexp]
  have k1 : ∀ x ∈ exported, x.take 8 ≠ "Sequence".toList ∧ x.take 6 ≠ "Choice".toList := by decide
  rw [List.nodup_append, List.nodup_append]
  refine ⟨⟨by decide, ?_, ?_⟩, ?_, ?_⟩
  · exact nodup_map (fun _ _ => sequenceName_inj) (elements_nodup _)
  · intro x hx y hy e
    obtain ⟨n, _, rfl⟩ := List.mem_map.mp hy
    exact (k1 x hx).1 (by rw [e]; rfl)
  · exact nodup_map (fun _ _ => choiceName_inj) (elements_nodup _)
  · intro x hx y hy e
    obtain ⟨n, _, rfl⟩ := List.mem_map.mp hy
    rcases List.mem_append.mp hx with hx | hx
    · exact (k1 x hx).2 (by rw [e]; rfl)
    · obtain ⟨k, _, rfl⟩ := List.mem_map.mp hx
      exact absurd (congrArg List.head? e) (by
        show some 'S' ≠ some 'C'
        decide)

/-! The hypotheses can be met. -/

example : (∃ r, generateModule ⟨true, false, none⟩ [] genOuter = .ok r) ∧ Placed ⟨true, false, none⟩ genOuter ∧
    (∀ m', ModIn m' genOuter → ParamsApart m') ∧ modAt genOuter [['m']] = some genInner := by
  refine ⟨⟨_, rfl⟩, .inl (fun _ h => by cases h), fun m' h => ?_, rfl⟩
  rcases genOuter_in h with rfl | rfl <;> unfold ParamsApart <;> decide

/-! The hypotheses are needed. -/

/-- With another name for the module of the rules, the code for a reference to an imported rule does not compile. -/
theorem C70_rules_mod_witness : ∃ out st, generateModule ⟨true, false, some ['r']⟩ [] genOuter = .ok (out, st) ∧
    ∃ s ∈ out.content, ∃ r ∈ s.inner.paths 0, ∀ uni, ¬ r.Resolves (generated uni out st) (scopeOf (some ['r']) []) := by
  refine ⟨_, _, rfl, _, List.mem_cons_of_mem _ List.mem_cons_self, ⟨0, [['m'], "rules".toList], ['z'], 0⟩, by decide,
    fun uni => ?_⟩
  rw [Ref.resolves_iff]
  exact Bool.false_ne_true

/-- Nor does it if the module of the rules has the name of another generated module. -/
theorem C70_rules_mod_clash_witness : ∃ m out st, generateModule ⟨true, false, some "generics".toList⟩ [] m = .ok (out, st) ∧
    m.imports = [] ∧ ∃ s ∈ out.content, ∃ r ∈ s.inner.paths 0,
      ∀ uni, ¬ r.Resolves (generated uni out st) (scopeOf (some "generics".toList) []) := by
  refine ⟨.mk [⟨['x'], [], .str ['a'], false⟩] [], _, _, rfl, rfl, _, List.mem_cons_self, genericRef 0 "Str".toList 1,
    by decide, fun uni => ?_⟩
  rw [Ref.resolves_iff]
  exact Bool.false_ne_true

/-- A single built-in under another name: the code refers to the new name, which does not exist. -/
theorem C70_renamed_witness : ∃ m out st, generateModule ⟨true, false, none⟩ [] m = .ok (out, st) ∧
    ∃ s ∈ out.content, ∃ r ∈ s.inner.paths 0, ∀ uni, ¬ r.Resolves (generated uni out st) (scopeOf none []) := by
  refine ⟨.mk [⟨['x'], [], .path [['c']], false⟩] [.builtin ['c'] ["pest".toList, "any".toList]], _, _, rfl, _,
    List.mem_cons_self, genericRef 0 ['c'] 0, by decide, fun uni => ?_⟩
  rw [Ref.resolves_iff]
  exact Bool.false_ne_true

/-- A parameter that is called like an imported file, in a rule that uses the file: the path begins with the
parameter. -/
theorem C70_parameter_witness : ∃ m out st, generateModule ⟨true, false, none⟩ [] m = .ok (out, st) ∧
    ∃ s ∈ out.content, ∃ r ∈ s.inner.paths 0, ∃ x ∈ s.args, r.first = some x := by
  exact ⟨.mk [⟨['x'], [['m']], .path [['m'], ['z']], false⟩] [.file ['m'] genInner], _, _, rfl, _,
    List.mem_cons_self, ⟨0, [['m'], "rules".toList], ['z'], 0⟩, by decide, ['m'], List.mem_cons_self, rfl⟩

/-- Trivia with a parameter: the alias has no parameters. -/
theorem C70_trivia_witness : ∃ m out st, generateModule ⟨true, false, none⟩ [] m = .ok (out, st) ∧
    ∃ ty, out.trivia .optional = some ty ∧ ∃ x, x ∈ ty.params := by
  exact ⟨.mk [⟨optName, [['x']], .path [['x']], false⟩] [], _, _, rfl, _, rfl, ['x'], List.mem_cons_self⟩

end

end Pest3.Props
