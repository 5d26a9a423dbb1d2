import Verif.AccessorBuild
import Verif.Props.Generation

/-!
# Property C53: accessors return all matched occurrences in order

The expressions are those of the rules of a generated grammar; `Mentions` and `Finds` (`Verif/AccessorSpec.lean`) say
which references are written in an expression and which of them were matched where.
-/

namespace Pest3.Props
open Pest3 Pest3.Gen

section
variable {cfg : Config} {names : List Name} {table : Name → Char → Bool} {m m' : Module} {out : Output} {st : GenSt}
  {R : Layout} {env : Env}

/-- The struct generated for a rule, with what is shown about its accessors. -/
theorem struct_good (h : generateModule cfg names m = .ok (out, st)) (hn : AllNamed (unicodeOf names table) m)
    (hg : cfg.noGetter = false) {p : List Name} (hm : modAt m p = some m') {r : Rule} (hr : r ∈ m'.rules)
    (ho : r.name ≠ optName) (hm' : r.name ≠ manName) :
    ∃ o s, outAt out p = some o ∧ s ∈ o.content ∧ s.name = r.name ∧ s.args = r.args ∧
      Gen.Good (refName (unicodeOf names table) m p r.args) r.node (s.inner, s.getter) := by
  unfold generateModule at h
  obtain ⟨⟨⟨out', sys⟩, st'⟩, h1, h⟩ := andThen_ok.mp h
  simp only [Res.ok.injEq, Prod.mk.injEq] at h
  obtain ⟨rfl, rfl⟩ := h
  obtain ⟨o, sys1, st1, st2, ho', hgm, hpre, hw1, hin⟩ := genMod_at p (processModule_gen m _ _ _ _ h1) WfSt.new hm
  have hnamed : AllNamed (unicodeOf names table) m' := fun m'' h => hn m'' (h.mono hin)
  obtain ⟨hp, hnode⟩ := resolve_ok (table := table) hgm hnamed
  cases hgm with
  | @mk rules imports outs sys2 _ reach content opt man _ stx _ a1 a2 a3 a4 =>
    obtain ⟨_, i2, _⟩ := genRules_struct (processRuleList_gen _ _ _ _ _ a4) (genMod_wf a1 hw1)
    obtain ⟨s, hs, e1, e2, e3, g, sta, stb, hgen, _, _, e4⟩ := i2 r hr ho hm'
    refine ⟨_, s, ho', hs, e1, e2, ?_⟩
    rw [hg, if_neg (by simp)] at e4
    rw [e4]
    refine gen_good (item := .one r.node (s.inner, g)) (fun x hx => refName_param hx) (fun q args res hq hres => ?_) hgen
    rw [refName_target hq]
    exact resolve_getter hp hnode hm hres

/-- A struct has exactly one accessor for each name of a reference written in the rule's expression outside of negative
lookaheads and arguments, and no other accessors; the type declared for an accessor is the type of its body. -/
theorem C53_accessors (h : generateModule cfg names m = .ok (out, st)) (hn : AllNamed (unicodeOf names table) m)
    (hg : cfg.noGetter = false) {p : List Name} (hm : modAt m p = some m') {r : Rule} (hr : r ∈ m'.rules)
    (ho : r.name ≠ optName) (hm' : r.name ≠ manName) :
    ∃ o s, outAt out p = some o ∧ s ∈ o.content ∧ s.name = r.name ∧ s.args = r.args ∧ (s.getter.map Prod.fst).Nodup ∧
      (∀ x, x ∈ s.getter.map Prod.fst ↔ Mentions (refName (unicodeOf names table) m p r.args) x r.node) ∧
      ∀ x n, (x, n) ∈ s.getter → n.typed s.inner = some n.declared := by
  obtain ⟨o, s, h1, h2, h3, h4, h5, h6⟩ := struct_good h hn hg hm hr ho hm'
  refine ⟨o, s, h1, h2, h3, h4, h5, fun x => ?_, fun x n hx => ?_⟩
  · have := h6 x
    cases hf : s.getter.find x with
    | none => rw [hf] at this; exact ⟨fun h' => absurd h' (find_none.mp hf), fun h' => absurd h' this.1⟩
    | some n =>
      rw [hf] at this
      exact ⟨fun _ => this.1, fun _ => List.mem_map.mpr ⟨_, (find_mem h5).mp hf, rfl⟩⟩
  · have := h6 x
    rw [(find_mem h5).mpr hx] at this
    exact this.2.1

/-- Called on the value of a match, an accessor returns references to exactly the values of the references of that
name that were matched, in the order in which they were matched, each being the value built by the reference's code
where it was matched. -/
theorem C53_value (h : generateModule cfg names m = .ok (out, st)) (hn : AllNamed (unicodeOf names table) m)
    (hl : Linked (unicodeOf names table) out st.wrappers R env)
    (hg : cfg.noGetter = false) {p : List Name} (hm : modAt m p = some m') {r : Rule}
    (hr : findRule m'.rules r.name = some r) (ho : r.name ≠ optName) (hm' : r.name ≠ manName) :
    ∃ o s, outAt out p = some o ∧ s ∈ o.content ∧ s.name = r.name ∧ s.args = r.args ∧
      ∀ (clos : List Clo) (ts : List CTy), ts.length = r.args.length →
        CRel (unicodeOf names table) m (.env (r.args.zip clos) (r.args.zip ts)) →
      ∀ (inp : Str) (c : Cfg) (ss : List Span) (c' : Cfg) (ss' : List Span) (id : RuleId) (t : Tree) (span : Span),
        Builds env inp (.node (.rule (R.num p r.name ts))) c ss c' ss' [.rule id t span] →
      ∀ x n, (x, n) ∈ s.getter → ∃ v, ∃ L : List (Occ × Tree), n.eval t = some v ∧ v.refs = L.map Prod.snd ∧
        Finds (unicodeOf names table) m p (r.args.zip clos) x (.expr r.node) c c' (L.map Prod.fst) ∧
        ∀ ot ∈ L, Answers (unicodeOf names table) m R env inp p (r.args.zip ts) ot.1 ot.2 := by
  obtain ⟨hc, hrule⟩ := compiled_of h hn hl
  obtain ⟨o, s, h1, h2, h3, h4, h5, h6⟩ := struct_good h hn hg hm (findRule_mem hr).1 ho hm'
  refine ⟨o, s, h1, h2, h3, h4, fun clos ts hlen hrel inp c ss c' ss' id t span hb x n hx => ?_⟩
  obtain ⟨_, ty, hbody, hcomp⟩ := hrule p m' r ts hm hr ho hm' hlen
  cases hb with
  | rule hb =>
    rw [hbody] at hb
    obtain ⟨L, f, oc, a⟩ := comp_track (x := x) hc hrel hcomp hb
    have hfst : (r.args.zip clos).map Prod.fst = r.args := by
      have hl2 : (r.args.zip clos).length = (r.args.zip ts).length := by
        clear f oc a hcomp hbody hb
        generalize r.args.zip clos = A at hrel
        generalize r.args.zip ts = B at hrel
        induction A generalizing B with
        | nil => cases hrel; rfl
        | cons a A ih => cases hrel with | cons _ h => simp [ih _ h]
      rw [List.map_fst_zip]
      simp only [List.length_zip] at hl2
      omega
    rw [hfst] at oc
    have := h6 x
    rw [(find_mem h5).mpr hx] at this
    obtain ⟨v, hv, hrefs⟩ := this.2.2 _ _ oc
    exact ⟨v, L, hv, hrefs, f, a⟩

/-- What answers a reference to a rule is a value of the rule's struct, whose span is what the reference matched. -/
theorem C53_answer_rule {u : Unicode} {p q p' : List Name} {σ : List (Name × CTy)} {inp : Str} {o : Occ} {t : Tree}
    {r : Rule} (ha : Answers u m R env inp p σ o t) (hq : refPath o.e = some q)
    (hx : ∀ x, q = [x] → lookupC x σ = none) (ht : target u m p q = some (.rule p' r)) :
    ∃ ts t', ts.length = r.args.length ∧
      t = .rule (R.num p' r.name ts) t' (spanOf inp o.start.pre o.stop.pre) := by
  obtain ⟨ty, ss, ss', hcomp, hb⟩ := ha
  obtain ⟨e, c, c'⟩ := o
  simp only at hq hcomp hb ⊢
  have fin : ∀ ts, ts.length = r.args.length → Builds env inp (.node (nodeOf u R (.rule p' r.name ts))) c ss c' ss' [t] →
      ∃ ts t', ts.length = r.args.length ∧ t = .rule (R.num p' r.name ts) t' (spanOf inp c.pre c'.pre) := by
    intro ts hts hb
    rw [nodeOf] at hb
    cases hb with
    | rule _ => exact ⟨ts, _, hts, rfl⟩
  cases hcomp with
  | param h =>
    simp only [refPath, Option.some.injEq] at hq
    rw [hx _ hq.symm] at h; simp at h
  | @builtin _ q' full l k h1 h2 h3 h4 h5 =>
    have : q' = q := by
      unfold plainRef at h1
      split at h1 <;> simp_all [refPath]
    subst this
    rw [ht] at h3; simp at h3
  | slice h1 h2 =>
    simp only [refPath, Option.some.injEq] at hq
    subst hq; rw [ht] at h2; simp at h2
  | push h1 h2 =>
    simp only [refPath, Option.some.injEq] at hq
    subst hq; rw [ht] at h2; simp at h2
  | rule h1 h2 h3 =>
    simp only [refPath, Option.some.injEq] at hq
    subst hq; rw [ht] at h2
    simp only [Option.some.injEq, Target.rule.injEq] at h2
    obtain ⟨rfl, rfl⟩ := h2
    exact fin [] (by simp [h3]) hb
  | call h1 h2 h3 h4 =>
    simp only [refPath, Option.some.injEq] at hq
    subst hq; rw [ht] at h2
    simp only [Option.some.injEq, Target.rule.injEq] at h2
    obtain ⟨rfl, rfl⟩ := h2
    exact fin _ (by rw [h3, args_length h4]) hb
  | rep h => cases e <;> simp [repetition, refPath] at h hq
  | _ => simp [refPath] at hq

/-- Without accessors there are none. -/
theorem C53_no_getter (h : generateModule cfg names m = .ok (out, st)) (hg : cfg.noGetter = true) {p : List Name}
    (hm : modAt m p = some m') {r : Rule} (hr : r ∈ m'.rules) (ho : r.name ≠ optName) (hm' : r.name ≠ manName) :
    ∃ o s, outAt out p = some o ∧ s ∈ o.content ∧ s.name = r.name ∧ s.getter = [] := by
  unfold generateModule at h
  obtain ⟨⟨⟨out', sys⟩, st'⟩, h1, h⟩ := andThen_ok.mp h
  simp only [Res.ok.injEq, Prod.mk.injEq] at h
  obtain ⟨rfl, rfl⟩ := h
  obtain ⟨o, sys1, st1, st2, ho', hgm, hpre, hw1, hin⟩ := genMod_at p (processModule_gen m _ _ _ _ h1) WfSt.new hm
  cases hgm with
  | @mk rules imports outs sys2 _ reach content opt man _ stx _ a1 a2 a3 a4 =>
    obtain ⟨_, i2, _⟩ := genRules_struct (processRuleList_gen _ _ _ _ _ a4) (genMod_wf a1 hw1)
    obtain ⟨s, hs, e1, e2, e3, g, sta, stb, hgen, _, _, e4⟩ := i2 r hr ho hm'
    rw [hg, if_pos rfl] at e4
    exact ⟨_, s, ho', hs, e1, e4⟩

end

/-! ### Example

`x = (y - z?)* - (y | z)`, `y = "b"`, `z = "c"`: `y()` is a pair of a vector and an option, `z()` a pair of a vector of
options and an option. -/

def accRule : Rule := ⟨['x'], [], .seq (.rep (.seq (.path [['y']]) (.opt (.path [['z']])) .none))
  (.choice (.path [['y']]) (.path [['z']])) .none, false⟩
def accMod : Module := .mk [accRule, ⟨['y'], [], .str ['b'], false⟩, ⟨['z'], [], .str ['c'], false⟩] []

theorem accMod_named (u : Unicode) : AllNamed u accMod := by
  intro m' h
  cases h with
  | refl =>
    refine ⟨by decide, by decide, by simp [accMod, Module.imports], by simp [accMod, Module.imports], ?_, ?_⟩ <;>
      simp only [accMod, accRule, Module.rules, List.mem_cons, List.not_mem_nil, or_false, forall_eq_or_imp, forall_eq]
    · decide
    · simp [ParamsPlain]
  | step h1 _ => simp [accMod, Module.imports] at h1

def yTy : Ty := .rule [] ['y'] []
def zTy : Ty := .rule [] ['z'] []

-- the accessors of `x`
example : ∃ out st s, generateModule ⟨true, false, none⟩ [] accMod = .ok (out, st) ∧ s ∈ out.content ∧ s.name = ['x'] ∧
    s.getter = [(['y'], .tuple [.seqI 0 (.contents (.seqI 0 (.rule yTy))), .seqI 1 (.choiceI 0 false (.rule yTy))]),
      (['z'], .tuple [.seqI 0 (.contents (.seqI 1 (.optional false (.rule zTy)))),
        .seqI 1 (.choiceI 1 false (.rule zTy))])] :=
  ⟨_, _, _, rfl, List.mem_cons_self, rfl, rfl⟩

-- their values for `bbcb`: the three matches of `y`, and the match of `z`
example (y1 y2 y3 z1 : Tree) :
    let t := Tree.seq [.rep [.seq [y1, .optNone], .seq [y2, .optSome z1]], .choice 0 y3]
    ((GNode.tuple [.seqI 0 (.contents (.seqI 0 (.rule yTy))), .seqI 1 (.choiceI 0 false (.rule yTy))]).eval t =
      some (.tuple [.vec [.ref y1, .ref y2], .some (.ref y3)])) ∧
    ((GNode.tuple [.seqI 0 (.contents (.seqI 1 (.optional false (.rule zTy)))),
        .seqI 1 (.choiceI 1 false (.rule zTy))]).eval t =
      some (.tuple [.vec [.none, .some (.ref z1)], .none])) := ⟨rfl, rfl⟩

-- `C53_accessors` applies: `x` has accessors `y` and `z`, and no other
example : ∃ s : RuleStruct, s.name = ['x'] ∧ ∀ a, a ∈ s.getter.map Prod.fst ↔ a = ['y'] ∨ a = ['z'] := by
  obtain ⟨out, st, hgen⟩ : ∃ out st, generateModule ⟨true, false, none⟩ [] accMod = .ok (out, st) := ⟨_, _, rfl⟩
  obtain ⟨o, s, _, _, h3, _, _, h6, _⟩ := C53_accessors (table := fun _ _ => false) hgen (accMod_named _) rfl (p := []) rfl
    (r := accRule) List.mem_cons_self (by decide) (by decide)
  refine ⟨s, h3, fun a => ?_⟩
  rw [h6]
  constructor
  · intro h
    have ref : ∀ {e q}, refPath e = some q → ∀ {b}, refName (unicodeOf [] fun _ _ => false) accMod [] [] q = some b →
        Mentions (refName (unicodeOf [] fun _ _ => false) accMod [] []) a e → a = b := by
      intro e q he b hb hm
      cases hm with
      | ref h1 h2 =>
        rw [he] at h1; injection h1 with h1; subst h1
        have h2' : refName (unicodeOf [] fun _ _ => false) accMod [] [] q = some a := h2
        rw [hb] at h2'; exact (Option.some.inj h2').symm
      | rep h => cases e <;> simp [refPath, repetition] at he h
      | _ => simp [refPath] at he
    cases h with
    | ref h => simp [refPath, accRule] at h
    | rep h => simp [accRule, repetition] at h
    | seqL h =>
      cases h with
      | ref h => simp [refPath] at h
      | rep h1 h =>
        simp only [repetition, Option.some.injEq, Prod.mk.injEq] at h1
        rw [← h1.1] at h
        cases h with
        | ref h => simp [refPath] at h
        | rep h => simp [repetition] at h
        | seqL h => exact .inl (ref rfl rfl h)
        | seqR h =>
          cases h with
          | ref h => simp [refPath] at h
          | rep h => simp [repetition] at h
          | opt h => exact .inr (ref rfl rfl h)
    | seqR h =>
      cases h with
      | ref h => simp [refPath] at h
      | rep h => simp [repetition] at h
      | choiceL h => exact .inl (ref rfl rfl h)
      | choiceR h => exact .inr (ref rfl rfl h)
  · rintro (rfl | rfl)
    · exact .seqR (.choiceL (.ref rfl rfl))
    · exact .seqR (.choiceR (.ref rfl rfl))

end Pest3.Props
