import Verif.IdentLemmas
import Verif.Props.Accessors
import Verif.Props.Files

/-!
# Property C72: the identifiers of the generated code

`Output.idents` (`Verif/Idents.lean`) are the texts from which the generator makes identifiers, `formatAll` makes them, and
`Ident.Legal` (`Verif/IdentSpec.lean`) says which tokens Rust accepts as identifiers.
-/

namespace Pest3.Props
open Pest3 Pest3.Gen Pest3.Load

section
variable {cfg : Config} {names : List Name} {table : Name → Char → Bool} {m m' : Module} {out : Output} {st : GenSt}

/-- What is assumed about the external list of Unicode properties. -/
def PropertiesFine (names : List Name) : Prop := ∀ x ∈ names, RawName (x.map Char.toLower) ∧ PlainName (x.map Char.toUpper)

theorem leaf_names : ∀ x ∈ pestLeaves.map Prod.fst ++ (stackLeaves.map Prod.fst ++ ["push".toList]), PlainName x := by
  intro x hx
  have key : ∀ y ∈ pestLeaves.map Prod.fst ++ (stackLeaves.map Prod.fst ++ ["push".toList]),
    isWord y = true ∧ y ≠ "_".toList ∧ y ∉ keywords := by decide
  obtain ⟨h1, h2, h3⟩ := key x hx
  exact ⟨isWord_iff.mp h1, h2, h3⟩

theorem exported_names : ∀ x ∈ exported, PlainName x := by
  intro x hx
  have key : ∀ y ∈ exported, isWord y = true ∧ y ≠ "_".toList ∧ y ∉ keywords := by decide
  obtain ⟨h1, h2, h3⟩ := key x hx
  exact ⟨isWord_iff.mp h1, h2, h3⟩

theorem builtin_name (hu : PropertiesFine names) {full : List Name} (h : IsBuiltin (unicodeOf names table) full) {x : Name}
    (hx : full.getLast? = some x) : RawName x := by
  rcases h with h | rfl
  · unfold builtinLeaf at h
    split at h
    · rename_i a y
      have : y = x := by simpa using hx
      subst this
      split at h
      · refine (leaf_names _ ?_).raw
        rw [List.mem_append]
        obtain ⟨l, hl⟩ := Option.isSome_iff_exists.mp h
        exact .inl (List.mem_map.mpr ⟨_, mem_of_lookup hl, rfl⟩)
      · simp at h
    · rename_i a b y
      have : y = x := by simpa using hx
      subst this
      split at h
      · refine (leaf_names _ ?_).raw
        rw [List.mem_append, List.mem_append]
        obtain ⟨l, hl⟩ := Option.isSome_iff_exists.mp h
        exact .inr (.inl (List.mem_map.mpr ⟨_, mem_of_lookup hl, rfl⟩))
      · split at h
        · rename_i hy
          obtain ⟨z, hz, rfl⟩ := List.mem_map.mp hy.2.2
          exact (hu z hz).1
        · simp at h
    · simp at h
  · have : x = "push".toList := by
      have : some "push".toList = some x := hx
      exact (Option.some.inj this).symm
    subst this
    exact (leaf_names _ (by decide)).raw

theorem modAt_in {m : Module} (p : List Name) : ∀ {root : Module}, modAt root p = some m → ModIn m root := by
  induction p with
  | nil =>
    intro root h
    simp only [modAt, Option.some.injEq] at h
    subst h; exact .refl
  | cons x p ih =>
    intro root h
    simp only [modAt] at h
    split at h
    · rename_i m1 hc
      unfold Module.child at hc
      split at hc
      · rename_i y m2 hf
        simp only [Option.some.injEq] at hc
        subst hc
        exact .step (List.mem_of_find?_eq_some hf) (ih h)
      · simp at hc
    · simp at h

theorem target_names (hf : ∀ m', ModIn m' m → NamesFine m') (hu : PropertiesFine names) {q : List Name} {x : Name}
    (h : targetName (unicodeOf names table) m [] q = some x) : RawName x := by
  unfold targetName at h
  split at h
  · rename_i full ht
    refine builtin_name (table := table) hu ?_ h
    unfold target at ht
    split at ht
    · rename_i hb
      simp only [Option.some.injEq, Target.builtin.injEq] at ht
      subst ht; exact hb
    · simp only [modAt] at ht
      have key : ∀ (q : List Name) (m : Module) (cur : List Name), lookupIn (unicodeOf names table) m cur q = some (.builtin full) →
          IsBuiltin (unicodeOf names table) full := by
        intro q
        induction q with
        | nil => intro m cur h; simp [lookupIn] at h
        | cons y q ih =>
          intro m cur h
          rw [lookupIn] at h
          split at h
          · split at h
            · rename_i hb
              simp only [Option.some.injEq, Target.builtin.injEq] at h
              subst h; exact hb
            · simp at h
          · exact ih _ _ h
          · split at h
            · simp at h
            · simp at h
      exact key _ _ _ ht
  · rename_i p r ht
    obtain ⟨m1, h1, h2, h3, h4⟩ := target_rule ht
    simp only [Option.some.injEq] at h
    subst h
    exact (hf m1 (modAt_in p h1)).rules r (findRule_mem h2).1 h3 h4
  · simp at h

theorem mentions_name {nm : List Name → Option Name} {x : Name} {e : Expr} (h : Mentions nm x e) : ∃ q, nm q = some x := by
  induction h with
  | ref _ h => exact ⟨_, h⟩
  | pos _ ih | seqL _ ih | seqR _ ih | choiceL _ ih | choiceR _ ih | opt _ ih | rep _ _ ih | separated _ ih => exact ih

theorem struct_untrivial {reach : RefMap} {sys : ModSys} {rules o o' st st'} (h : GenRules cfg reach sys rules o o' st st')
    (h0 : ∀ s ∈ o.1, s.name ≠ optName ∧ s.name ≠ manName) : ∀ s ∈ o'.1, s.name ≠ optName ∧ s.name ≠ manName := by
  induction h with
  | nil => exact h0
  | opt _ _ _ ih => exact ih h0
  | man _ _ _ ih => exact ih h0
  | rule a b _ _ ih =>
    refine ih fun s hs => ?_
    rcases List.mem_append.mp hs with hs | hs
    · exact h0 s hs
    · rw [List.mem_singleton.mp hs]; exact ⟨a, b⟩

theorem path_files {u : Unicode} (q : List Name) : ∀ {m cur p' r}, lookupIn u m cur q = some (.rule p' r) →
    ∀ x ∈ q.dropLast, ∃ m', ModIn m' m ∧ x ∈ m'.fileNames := by
  induction q with
  | nil => intro m cur p' r _ x hx; simp at hx
  | cons y q ih =>
    intro m cur p' r h x hx
    cases q with
    | nil => simp at hx
    | cons z q =>
      rw [lookupIn] at h
      split at h
      · split at h <;> simp at h
      · rename_i y' m1 hf
        have h1 := List.mem_of_find?_eq_some hf
        have h2 : y' = y := of_decide_eq_true (List.find?_some (p := fun i : Import => decide (i.name = y)) hf)
        subst h2
        rw [List.dropLast_cons_cons] at hx
        rcases List.mem_cons.mp hx with rfl | hx
        · exact ⟨m, .refl, List.mem_filterMap.mpr ⟨_, h1, rfl⟩⟩
        · obtain ⟨m2, i1, i2⟩ := ih h x hx
          exact ⟨m2, .step h1 i1, i2⟩
      · simp at h

theorem target_path {u : Unicode} {q : List Name} {p' : List Name} {r : Rule} (h : target u m [] q = some (.rule p' r)) :
    ∀ x ∈ q.dropLast, ∃ m', ModIn m' m ∧ x ∈ m'.fileNames := by
  unfold target at h
  split at h
  · simp at h
  · exact path_files q h

/-- The texts of a module are fine, if the names in it are. -/
theorem gen_idents {item st st'} (h : GenMod cfg (makeGlobal names) item st st')
    (hrm : ∀ x, cfg.rulesMod = some x → RulesName x) (hu : PropertiesFine names) (hw : WfSt st) :
    match item with
    | .mod m out _ => AllNamed (unicodeOf names table) m → (∀ m', ModIn m' m → NamesFine m') → ∀ t ∈ out.idents, Fine t
    | .imports l _ _ outs => (∀ x m, Import.file x m ∈ l → PlainName x ∧ AllNamed (unicodeOf names table) m ∧ ∀ m', ModIn m' m → NamesFine m') →
        ∀ t ∈ identsMods outs, Fine t := by
  induction h with
  | @mk rules imports outs sys sys' reach content opt man st st1 st2 a1 a2 a3 a4 ih =>
    intro hn hf t ht
    have hmod : GenMod cfg (makeGlobal names) (.mod (.mk rules imports) (.mk content opt man outs cfg.rulesMod) sys') st st2 :=
      .mk a1 a2 a3 a4
    obtain ⟨hp, hnode⟩ := resolve_ok (table := table) hmod hn
    have hfine := hf _ .refl
    have hwell := hn _ .refl
    have hm0 : modAt (Module.mk rules imports) [] = some (.mk rules imports) := rfl
    have prov : ∀ r : Rule, Provides names (unicodeOf names table) (.mk rules imports) [] r.args st2 0 RefFine := by
      intro r0
      have plain : ∀ {d : Nat} {p : List Name} {x : Name} {n : Nat}, PlainName x → RefFine ⟨rootUps d, p, x, n⟩ :=
        fun {d p x n} h => ⟨fine_raw.mpr h.raw, fun _ => fine_plain h, fun h0 => absurd h0 (rootUps_ne d)⟩
      refine ⟨fun x n hx _ => plain (exported_names x hx), fun n _ => plain (numbered (isWord_iff.mp (by decide)) n),
        fun n _ => plain (numbered (isWord_iff.mp (by decide)) n), fun w hw' => plain ?_, fun x hx => plain (hu x hx).2, fun t a ha => ?_,
        fun q r hq ht => ?_⟩
      · have hwf : WfSt st2 := genRules_wf (processRuleList_gen _ _ _ _ _ a4) (genMod_wf a1 hw)
        rw [hwf.emitted, List.mem_reverse] at hw'
        obtain ⟨c, _, rfl⟩ := List.mem_map.mp hw'
        exact numbered (p := ['W']) (isWord_iff.mp (by decide)) c.2
      · have lit : ∀ {x : Name}, PlainName x → RefFine ⟨0, [], x, 0⟩ := fun h =>
          ⟨fine_raw.mpr h.raw, fun h0 => absurd rfl h0, fun _ y hy => by simp at hy⟩
        cases t with
        | none => simp [triviaRef] at ha
        | optional => rw [List.mem_singleton.mp ha]; exact lit (plain_lit (x := "__OptionalTrivia") (by decide) (by decide) (by decide))
        | mandatory => rw [List.mem_singleton.mp ha]; exact lit (plain_lit (x := "__MandatoryTrivia") (by decide) (by decide) (by decide))
      · obtain ⟨m1, h1, h2, h3, h4⟩ := target_rule ht
        refine ⟨fine_raw.mpr ((hf m1 (modAt_in _ h1)).rules r (findRule_mem h2).1 h3 h4), fun h0 => absurd rfl h0, fun _ x hx => ?_⟩
        have hx' : x ∈ q.dropLast ∨ x = "rules".toList := by
          dsimp only at hx
          revert hx
          generalize q.dropLast = l
          induction l with
          | nil => simp [modsPath]
          | cons y l ih =>
            intro hx
            rw [modsPath, List.mem_cons, List.mem_cons] at hx
            rcases hx with rfl | rfl | hx
            · simp
            · exact .inr rfl
            · exact (ih hx).imp (List.mem_cons_of_mem _) id
        rcases hx' with hx' | rfl
        · obtain ⟨m2, i1, i2⟩ := target_path ht x hx'
          exact fine_plain ((hf m2 i1).files x i2)
        · exact fine_plain (plain_lit (x := "rules") (by decide) (by decide) (by decide))
    have rule : ∀ {r : Rule} {ty g sta stb}, r ∈ rules → GenRel r.args sys' (.one r.node (ty, g)) sta stb → WfSt sta →
        stb.Le st2 → (∀ a ∈ ty.paths 0, RefFine a) ∧ ∀ x ∈ ty.params, x ∈ r.args := by
      intro r ty g sta stb hr hgen hwa hst
      exact gen_paths hgen (prov r) (fun q args ty g h => sys_resolve hp hnode hm0 h) hwa hst
    have hargs : ∀ r ∈ rules, ∀ x ∈ r.args, RawName x := by
      intro r hr x hx
      by_cases h1 : r.name = optName ∨ r.name = manName
      · rw [hwell.trivia r hr h1] at hx
        simp at hx
      · rw [not_or] at h1
        exact hfine.params r hr h1.1 h1.2 x hx
    obtain ⟨i1, i2, i3⟩ := genRules_origin (processRuleList_gen _ _ _ _ _ a4) (genMod_wf a1 hw)
    have hun := struct_untrivial (processRuleList_gen _ _ _ _ _ a4) (by simp)
    simp only [Output.idents, List.mem_cons, List.mem_append] at ht
    rcases ht with rfl | ht | ht | ht | ht
    · unfold typesMod
      cases hr : cfg.rulesMod with
      | none => exact fine_plain (plain_lit (x := "rules") (by decide) (by decide) (by decide))
      | some x =>
        rcases hrm x hr with h | ⟨y, rfl, h⟩
        · exact fine_plain h
        · exact fine_raw.mpr h
    · obtain ⟨ty, hty, ht⟩ := List.mem_flatMap.mp ht
      rcases i2 ty (Option.mem_toList.mp hty) with h | ⟨r, hr, _, g, sta, stb, hgen, hwa, hst⟩
      · simp at h
      · obtain ⟨k1, k2⟩ := rule hr hgen hwa hst
        exact ty_fine 0 ty k1 (fun x hx => hargs r hr x (k2 x hx)) t ht
    · obtain ⟨ty, hty, ht⟩ := List.mem_flatMap.mp ht
      rcases i3 ty (Option.mem_toList.mp hty) with h | ⟨r, hr, _, g, sta, stb, hgen, hwa, hst⟩
      · simp at h
      · obtain ⟨k1, k2⟩ := rule hr hgen hwa hst
        exact ty_fine 0 ty k1 (fun x hx => hargs r hr x (k2 x hx)) t ht
    · obtain ⟨s, hs, ht⟩ := List.mem_flatMap.mp ht
      rcases i1 s hs with h | ⟨r, hr, e1, e2, g, sta, stb, eg, hgen, hwa, hst⟩
      · simp at h
      · obtain ⟨k1, k2⟩ := rule hr hgen hwa hst
        have k3 : ∀ x ∈ s.inner.params, RawName x := fun x hx => hargs r hr x (k2 x hx)
        simp only [RuleStruct.idents, List.mem_cons, List.mem_append] at ht
        rcases ht with rfl | ht | ht | ht
        · obtain ⟨n1, n2⟩ := hun s hs
          rw [e1] at n1 n2 ⊢
          exact fine_raw.mpr (hfine.rules r hr n1 n2)
        · obtain ⟨x, hx, rfl⟩ := List.mem_map.mp ht
          rw [e2] at hx
          exact fine_raw.mpr (hargs r hr x hx)
        · exact ty_fine 0 s.inner k1 k3 t ht
        · obtain ⟨a, ha, ht⟩ := List.mem_flatMap.mp ht
          rw [eg] at ha
          split at ha
          · simp at ha
          · rcases List.mem_cons.mp ht with rfl | ht
            · have good : Gen.Good (refName (unicodeOf names table) (.mk rules imports) [] r.args) r.node (s.inner, g) := by
                refine gen_good (item := .one r.node (s.inner, g)) (fun x hx => refName_param hx) (fun q args res hq hres => ?_) hgen
                rw [refName_target hq]
                exact resolve_getter hp hnode hm0 hres
              have hfit := good.2 a.1
              have hfind : Getter.find g a.1 = some a.2 := (find_mem good.1).mpr ha
              dsimp only at hfit
              rw [hfind] at hfit
              obtain ⟨q, hq⟩ := mentions_name hfit.1
              refine fine_raw.mpr ?_
              unfold refName at hq
              split at hq
              · split at hq
                · rename_i y hy
                  simp only [Option.some.injEq] at hq
                  rw [← hq]
                  exact hargs r hr y hy
                · exact target_names hf hu hq
              · exact target_names hf hu hq
            · obtain ⟨ty, hty, ht⟩ := List.mem_flatMap.mp ht
              obtain ⟨j1, j2⟩ := gen_accessor_paths hgen 0 a ha ty hty
              exact ty_fine 0 ty (fun x hx => k1 x (j1 x hx)) (fun x hx => k3 x (j2 x hx)) t ht
    · refine ih hw (fun x m1 hx => ⟨hfine.files x (List.mem_filterMap.mpr ⟨_, hx, rfl⟩), fun m2 h2 => hn m2 (.step hx h2), fun m2 h2 => hf m2 (.step hx h2)⟩) t ht
  | nil => intro _ t ht; simp [identsMods] at ht
  | builtin _ _ ih => exact fun h => ih hw fun x m1 hx => h x m1 (List.mem_cons_of_mem _ hx)
  | @file x m1 l out child sys sys' outs st st1 st2 b1 b2 ih1 ih2 =>
    intro h t ht
    simp only [identsMods, List.mem_cons, List.mem_append] at ht
    obtain ⟨h1, h2, h3⟩ := h x m1 List.mem_cons_self
    rcases ht with rfl | rfl | ht | ht
    · exact fine_raw.mpr h1.raw
    · exact fine_plain h1
    · exact ih1 hw h2 h3 t ht
    · exact ih2 (genMod_wf b1 hw) (fun y m2 hy => h y m2 (List.mem_cons_of_mem _ hy)) t ht

/-- All identifiers that the generator makes for a grammar with unambiguous names are made without a panic and are what Rust
accepts, if no rule or parameter is called `_`, `self`, `Self`, `super` or `crate` and no imported file is known by a keyword.

This is less than what one expects, that all accepted grammars give such code (`C72_rule_witness`, `C72_import_witness`). -/
theorem C72_identifiers_partial (h : generateModule cfg names m = .ok (out, st)) (hn : AllNamed (unicodeOf names table) m)
    (hf : ∀ m', ModIn m' m → NamesFine m') (hrm : ∀ x, cfg.rulesMod = some x → RulesName x) (hu : PropertiesFine names) :
    ∃ is, formatAll out.idents = .ok is ∧ ∀ i ∈ is, i.Legal := by
  unfold generateModule at h
  obtain ⟨⟨⟨out', sys⟩, st'⟩, h1, h⟩ := andThen_ok.mp h
  simp only [Res.ok.injEq, Prod.mk.injEq] at h
  obtain ⟨rfl, rfl⟩ := h
  exact formatAll_ok.mpr (gen_idents (table := table) (processModule_gen m _ _ _ _ h1) hrm hu WfSt.new hn hf)

theorem idents_names {cfg : Config} {pest : ModNode} {item st st'} (h : GenMod cfg pest item st st') (hw : WfSt st) :
    match item with
    | .mod m out _ => ∀ m', ModIn m' m →
        (∀ r ∈ m'.rules, r.name ≠ optName → r.name ≠ manName → rawText r.name ∈ out.idents ∧ ∀ x ∈ r.args, rawText x ∈ out.idents) ∧
        ∀ x ∈ m'.fileNames, rawText x ∈ out.idents ∧ x ∈ out.idents
    | .imports l _ _ outs => ∀ x m, Import.file x m ∈ l → rawText x ∈ identsMods outs ∧ x ∈ identsMods outs ∧ ∀ m', ModIn m' m →
        (∀ r ∈ m'.rules, r.name ≠ optName → r.name ≠ manName → rawText r.name ∈ identsMods outs ∧ ∀ x ∈ r.args, rawText x ∈ identsMods outs) ∧
        ∀ x ∈ m'.fileNames, rawText x ∈ identsMods outs ∧ x ∈ identsMods outs := by
  induction h with
  | @mk rules imports outs sys sys' reach content opt man st st1 st2 a1 a2 a3 a4 ih =>
    have up : ∀ t ∈ identsMods outs, t ∈ (Output.mk content opt man outs cfg.rulesMod).idents := fun t ht => by
      simp only [Output.idents, List.mem_cons, List.mem_append]
      exact .inr (.inr (.inr (.inr ht)))
    intro m' hm'
    cases hm' with
    | refl =>
      refine ⟨fun r hr h1 h2 => ?_, fun x hx => ?_⟩
      · obtain ⟨_, i2, _⟩ := genRules_struct (processRuleList_gen _ _ _ _ _ a4) (genMod_wf a1 hw)
        obtain ⟨s, hs, e1, e2, _⟩ := i2 r hr h1 h2
        have inc : ∀ t ∈ s.idents, t ∈ (Output.mk content opt man outs cfg.rulesMod).idents := fun t ht => by
          simp only [Output.idents, List.mem_cons, List.mem_append]
          exact .inr (.inr (.inr (.inl (List.mem_flatMap.mpr ⟨s, hs, ht⟩))))
        refine ⟨inc _ ?_, fun x hx => inc _ ?_⟩
        · rw [← e1]; simp [RuleStruct.idents]
        · rw [← e2] at hx
          have : rawText x ∈ s.args.map rawText := List.mem_map.mpr ⟨x, hx, rfl⟩
          simp only [RuleStruct.idents, List.mem_cons, List.mem_append]
          exact .inr (.inl this)
      · obtain ⟨i, hi, hx⟩ := List.mem_filterMap.mp hx
        cases i with
        | builtin y p => simp at hx
        | file y m1 =>
          simp only [Option.some.injEq] at hx
          subst hx
          obtain ⟨k1, k2, _⟩ := ih hw y m1 hi
          exact ⟨up _ k1, up _ k2⟩
    | step hi h1 =>
      obtain ⟨_, _, k⟩ := ih hw _ _ hi
      obtain ⟨k1, k2⟩ := k _ h1
      exact ⟨fun r hr n1 n2 => ⟨up _ (k1 r hr n1 n2).1, fun x hx => up _ ((k1 r hr n1 n2).2 x hx)⟩, fun x hx => ⟨up _ (k2 x hx).1, up _ (k2 x hx).2⟩⟩
  | nil => intro x m hx; simp at hx
  | builtin _ _ ih =>
    intro x m hx
    rcases List.mem_cons.mp hx with hx | hx
    · cases hx
    · exact ih hw x m hx
  | @file x m1 l out child sys sys' outs st st1 st2 b1 b2 ih1 ih2 =>
    intro y m2 hy
    rcases List.mem_cons.mp hy with hy | hy
    · injection hy with hy1 hy2
      subst hy1 hy2
      refine ⟨by simp [identsMods], by simp [identsMods], fun m' hm' => ?_⟩
      have up : ∀ t ∈ out.idents, t ∈ identsMods ((y, out) :: outs) := fun t ht => by simp [identsMods, ht]
      obtain ⟨k1, k2⟩ := ih1 hw m' hm'
      exact ⟨fun r hr n1 n2 => ⟨up _ (k1 r hr n1 n2).1, fun x hx => up _ ((k1 r hr n1 n2).2 x hx)⟩, fun x hx => ⟨up _ (k2 x hx).1, up _ (k2 x hx).2⟩⟩
    · have up : ∀ t ∈ identsMods outs, t ∈ identsMods ((x, out) :: outs) := fun t ht => by simp [identsMods, ht]
      obtain ⟨j1, j2, k⟩ := ih2 (genMod_wf b1 hw) y m2 hy
      refine ⟨up _ j1, up _ j2, fun m' hm' => ?_⟩
      obtain ⟨k1, k2⟩ := k m' hm'
      exact ⟨fun r hr n1 n2 => ⟨up _ (k1 r hr n1 n2).1, fun x hx => up _ ((k1 r hr n1 n2).2 x hx)⟩, fun x hx => ⟨up _ (k2 x hx).1, up _ (k2 x hx).2⟩⟩

/-- The condition on the names is needed, whatever the grammar: if the identifiers are made and accepted, it holds. -/
theorem C72_needed (h : generateModule cfg names m = .ok (out, st)) (hi : ∀ m', ModIn m' m → ∀ x ∈ m'.fileNames, IsIdent x)
    (hl : ∃ is, formatAll out.idents = .ok is ∧ ∀ i ∈ is, i.Legal) : ∀ m', ModIn m' m → NamesFine m' := by
  unfold generateModule at h
  obtain ⟨⟨⟨out', sys⟩, st'⟩, h1, h⟩ := andThen_ok.mp h
  simp only [Res.ok.injEq, Prod.mk.injEq] at h
  obtain ⟨rfl, rfl⟩ := h
  have hl := formatAll_ok.mp hl
  intro m' hm'
  obtain ⟨k1, k2⟩ := idents_names (processModule_gen m _ _ _ _ h1) WfSt.new m' hm'
  exact ⟨fun r hr n1 n2 => fine_raw.mp (hl _ (k1 r hr n1 n2).1), fun r hr n1 n2 x hx => fine_raw.mp (hl _ ((k1 r hr n1 n2).2 x hx)),
    fun x hx => (fine_plain_iff (hi m' hm' x hx)).mp (hl _ (k2 x hx).2)⟩

/-- The generator panics if a rule, a parameter or an imported file has one of five names. -/
theorem C72_panics (h : generateModule cfg names m = .ok (out, st)) (hm' : ModIn m' m) {x : Name}
    (hx : x ∈ ["_", "self", "Self", "super", "crate"].map String.toList)
    (hr : (∃ r ∈ m'.rules, r.name ≠ optName ∧ r.name ≠ manName ∧ (x = r.name ∨ x ∈ r.args)) ∨ x ∈ m'.fileNames) :
    formatAll out.idents = .panic := by
  unfold generateModule at h
  obtain ⟨⟨⟨out', sys⟩, st'⟩, h1, h⟩ := andThen_ok.mp h
  simp only [Res.ok.injEq, Prod.mk.injEq] at h
  obtain ⟨rfl, rfl⟩ := h
  obtain ⟨k1, k2⟩ := idents_names (processModule_gen m _ _ _ _ h1) WfSt.new m' hm'
  have hmem : rawText x ∈ out'.idents := by
    rcases hr with ⟨r, hr, n1, n2, h⟩ | h
    · rcases h with rfl | h
      · exact (k1 r hr n1 n2).1
      · exact (k1 r hr n1 n2).2 x h
    · exact (k2 x h).1
  refine formatAll_panic.mpr ⟨_, hmem, ?_⟩
  rw [formatIdent_raw, if_neg]
  rw [Bool.and_eq_true, Bool.not_eq_true', List.contains_eq_mem, decide_eq_false_iff_not]
  exact fun h => h.2 hx

/-- The names in a grammar that is loaded from files are words. -/
theorem C72_words {w : World} (hw : ∀ text items, w.parse text = some items → ∀ i ∈ items, ItemOk i) {root : FPath} {text : Text}
    (h : Loads w (.file root text m)) : ∀ m', ModIn m' m → (∀ r ∈ m'.rules, IsRuleName r.name ∧ ∀ x ∈ r.args, IsIdent x) ∧
      ∀ x ∈ m'.fileNames, IsIdent x := by
  have key : ∀ {item : LdItem}, Loads w item → match item with
      | .file _ _ m => ∀ m', ModIn m' m → (∀ r ∈ m'.rules, IsRuleName r.name ∧ ∀ x ∈ r.args, IsIdent x) ∧ ∀ x ∈ m'.fileNames, IsIdent x
      | .items _ l rules imports => (∀ i ∈ l, ItemOk i) → (∀ r ∈ rules, IsRuleName r.name ∧ ∀ x ∈ r.args, IsIdent x) ∧
          ∀ x m, Import.file x m ∈ imports → IsIdent x ∧
            ∀ m', ModIn m' m → (∀ r ∈ m'.rules, IsRuleName r.name ∧ ∀ x ∈ r.args, IsIdent x) ∧ ∀ x ∈ m'.fileNames, IsIdent x := by
    intro item h
    induction h with
    | file hp _ ih =>
      obtain ⟨i1, i2⟩ := ih (hw _ _ hp)
      intro m' hm'
      cases hm' with
      | refl =>
        refine ⟨i1, fun x hx => ?_⟩
        obtain ⟨i, hi, hx⟩ := List.mem_filterMap.mp hx
        cases i with
        | builtin y p => simp at hx
        | file y m1 =>
          simp only [Option.some.injEq] at hx
          subst hx
          exact (i2 y m1 hi).1
      | step hi h => exact (i2 _ _ hi).2 _ h
    | nil => exact fun _ => ⟨fun r hr => by simp at hr, fun x m hx => by simp at hx⟩
    | doc _ ih => exact fun h => ih fun i hi => h i (List.mem_cons_of_mem _ hi)
    | rule _ ih =>
      intro h
      obtain ⟨i1, i2⟩ := ih fun i hi => h i (List.mem_cons_of_mem _ hi)
      refine ⟨fun r hr => ?_, i2⟩
      rcases List.mem_cons.mp hr with rfl | hr
      · have : RuleOk r := h _ List.mem_cons_self
        exact ⟨this.name, this.params⟩
      · exact i1 r hr
    | builtin _ _ _ ih =>
      intro h
      obtain ⟨i1, i2⟩ := ih fun i hi => h i (List.mem_cons_of_mem _ hi)
      refine ⟨i1, fun x m hx => ?_⟩
      rcases List.mem_cons.mp hx with hx | hx
      · cases hx
      · exact i2 x m hx
    | @file_ root i x p t m l rules imports hn hb ht hr _ _ ih1 ih2 =>
      intro h
      obtain ⟨i1, i2⟩ := ih2 fun i hi => h i (List.mem_cons_of_mem _ hi)
      refine ⟨i1, fun y m1 hy => ?_⟩
      rcases List.mem_cons.mp hy with hy | hy
      · injection hy with hy1 hy2
        subst hy1 hy2
        refine ⟨?_, ih1⟩
        have hok : ImportOk i := h _ List.mem_cons_self
        unfold ImportStmt.name at hn
        split at hn
        · rename_i a ha
          simp only [Option.some.injEq] at hn
          subst hn
          exact hok.alias a ha
        · exact hok.names y (List.mem_of_getLast? hn)
      · exact i2 y m1 hy
  exact key h

/-! The hypotheses can be met. -/

theorem fine_dec {m : Module} (h1 : ∀ r ∈ m.rules, r.name ≠ optName → r.name ≠ manName → isWord r.name = true ∧ r.name ∉ noRaw)
    (h2 : ∀ r ∈ m.rules, ∀ x ∈ r.args, isWord x = true ∧ x ∉ noRaw)
    (h3 : ∀ x ∈ m.fileNames, isWord x = true ∧ x ≠ "_".toList ∧ x ∉ keywords) : NamesFine m :=
  ⟨fun r hr n1 n2 => ⟨isWord_iff.mp (h1 r hr n1 n2).1, (h1 r hr n1 n2).2⟩, fun r hr _ _ x hx => ⟨isWord_iff.mp (h2 r hr x hx).1, (h2 r hr x hx).2⟩,
    fun x hx => ⟨isWord_iff.mp (h3 x hx).1, (h3 x hx).2.1, (h3 x hx).2.2⟩⟩

example : (∃ r, generateModule ⟨true, false, none⟩ ["HAN".toList] genOuter = .ok r) ∧ (∀ m', ModIn m' genOuter → NamesFine m') ∧
    PropertiesFine ["HAN".toList] := by
  refine ⟨⟨_, rfl⟩, fun m' h => ?_, fun x hx => ?_⟩
  · rcases genOuter_in h with rfl | rfl <;> exact fine_dec (by decide) (by decide) (by decide)
  · rw [List.mem_singleton.mp hx]
    exact ⟨⟨isWord_iff.mp (by decide), by decide⟩, ⟨isWord_iff.mp (by decide), by decide, by decide⟩⟩

/-- A rule that is called like a keyword is fine if the keyword is not one of five. -/
example : ∃ out st, generateModule ⟨true, false, none⟩ [] (.mk [⟨"fn".toList, [], .str ['a'], false⟩] []) = .ok (out, st) ∧
    ∃ is, formatAll out.idents = .ok is ∧ ∀ i ∈ is, i.Legal := by
  refine ⟨_, _, rfl, formatAll_ok.mpr fun t ht => ?_⟩
  have : t = "rules".toList ∨ t = rawText "fn".toList ∨ t = "W0".toList := by
    revert t
    decide
  rcases this with rfl | rfl | rfl
  · exact fine_plain (plain_lit (x := "rules") (by decide) (by decide) (by decide))
  · exact fine_raw.mpr ⟨isWord_iff.mp (by decide), by decide⟩
  · exact fine_plain (plain_lit (x := "W0") (by decide) (by decide) (by decide))

/-! The hypotheses are needed. -/

/-- A rule can be called `self`; the generator panics. -/
theorem C72_rule_witness : ∃ (m : Module) (out : Output) (st : GenSt), generateModule ⟨true, false, none⟩ [] m = .ok (out, st) ∧
    m.imports = [] ∧ (∀ r ∈ m.rules, IsIdent r.name ∧ r.args = []) ∧ formatAll out.idents = .panic := by
  refine ⟨.mk [⟨"self".toList, [], .str ['a'], false⟩] [], _, _, rfl, rfl, fun r hr => ?_, by decide⟩
  rw [List.mem_singleton.mp hr]
  exact ⟨isWord_iff.mp (by decide), rfl⟩

/-- A file can be called `type`; the generator does not panic, and the code is not Rust. -/
theorem C72_import_witness : ∃ (m : Module) (out : Output) (st : GenSt), generateModule ⟨true, false, none⟩ [] m = .ok (out, st) ∧
    (∀ m', ModIn m' m → (∀ r ∈ m'.rules, r.args = [] ∧ PlainName r.name) ∧ ∀ x ∈ m'.fileNames, RawName x) ∧
    ∃ is, formatAll out.idents = .ok is ∧ ¬ ∀ i ∈ is, i.Legal := by
  refine ⟨.mk [⟨['x'], [], .path ["type".toList, ['z']], false⟩] [.file "type".toList genInner], _, _, rfl, fun m' h => ?_, _, rfl, fun h => ?_⟩
  · have : m' = .mk [⟨['x'], [], .path ["type".toList, ['z']], false⟩] [.file "type".toList genInner] ∨ m' = genInner := by
      cases h with
      | refl => exact .inl rfl
      | step hi h =>
        simp only [Module.imports, List.mem_singleton, Import.file.injEq] at hi
        obtain ⟨rfl, rfl⟩ := hi
        cases h with
        | refl => exact .inr rfl
        | step hi _ => simp [genInner, Module.imports] at hi
    rcases this with rfl | rfl
    · refine ⟨fun r hr => ?_, fun x hx => ?_⟩
      · rw [List.mem_singleton.mp hr]
        exact ⟨rfl, isWord_iff.mp (by decide), by decide, by decide⟩
      · have hx' : x = "type".toList := List.mem_singleton.mp hx
        rw [hx']
        exact ⟨isWord_iff.mp (by decide), by decide⟩
    · refine ⟨fun r hr => ?_, fun x hx => by simp [genInner, Module.fileNames, Module.imports] at hx⟩
      have : r.args = [] ∧ isWord r.name = true ∧ r.name ≠ "_".toList ∧ r.name ∉ keywords := by
        revert r
        decide
      exact ⟨this.1, isWord_iff.mp this.2.1, this.2.2.1, this.2.2.2⟩
  · have : PlainName "type".toList := h (.plain "type".toList) (by decide)
    exact this.free (by decide)

end

end Pest3.Props
