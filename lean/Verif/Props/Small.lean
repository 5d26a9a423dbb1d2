import Verif.SmallRead
import Verif.SmallRuns
import Verif.Props.Skip

/-!
# The parsers for the grammar of a reported bug and of the tests of sequences (`derive/tests/issue27.pest`, `derive/tests/sequence.rs`)
-/

namespace Pest3.Small
open Pest3 Pest3.Gen Pest3.Load Pest3.Props
open Pest3.Json (Leaves strip strip_some)
open Pest3.Skip (united_one leaves_accepts)

/-- The texts are read as the rules of the model. -/
theorem C100_grammars : Reads issueText (.doc :: issueRules.map .rule) ∧ Reads seqText (seqRules.map .rule) := ⟨reads_run issue_read, reads_run seq_read⟩

/-- `#[grammar = "tests/issue27.pest"]` (`derive/tests/issue27.rs:5`). -/
def issuePath : Text := "tests/issue27.pest".toList

/-- The declaration has that attribute as its only grammar, and the file is where it is found. -/
structure Project (env : Setting) (attrs : List Attr) : Prop where
  faithful : Faithful env.world
  understood : ∀ a ∈ attrs, Understood env.ident a
  source : attrs.filterMap sourceOf = [.file issuePath]
  grammar : env.world.read (env.locate issuePath) = some issueText

theorem project_modules {env : Setting} {attrs : List Attr} (P : Project env attrs) : Modules env (attrs.filterMap sourceOf) [issueModule] := by
  rw [P.source]
  have hp : pathOf issuePath = ⟨false, ["tests".toList, "issue27.pest".toList]⟩ := by decide +kernel
  have hj : ∀ p : FPath, (p.join (pathOf issuePath)).fileName ≠ none := by
    intro p
    rw [hp, FPath.join]
    simp only [Bool.false_eq_true, if_false]
    split
    · decide
    · have : ["tests".toList, "issue27.pest".toList].filter (fun x => decide (x ≠ dot)) = ["tests".toList, "issue27.pest".toList] := by decide
      rw [this, FPath.fileName]
      have h2 : p.comps ++ ["tests".toList, "issue27.pest".toList] = (p.comps ++ ["tests".toList]) ++ ["issue27.pest".toList] := by simp
      simp only [h2, List.getLast?_concat]
      decide
  refine .cons (.file ?_ P.grammar) (.file ((P.faithful _ _).mpr C100_grammars.1) (.doc (Skip.loads_rules _))) .nil
  unfold Setting.locate
  split
  · exact hj _
  · exact hj _

section
variable {S : Type} {so : StackOps S} {saved : S → List (List Span)} (hls : Lawful so saved) {env : Setting} {attrs : List Attr} {table : Name → Char → Bool}
include hls

/-- The parsers of a grammar of rules without parameters and imports. -/
theorem simple_parser {rules : List Rule} {paths : List (List Name)} {ts : List Trivia} (hm : Modules env (attrs.filterMap sourceOf) [.mk rules []])
    (hu : ∀ a ∈ attrs, Understood env.ident a) (hne : attrs.filterMap sourceOf ≠ []) (hp : Simple (unicodeOf env.unicodeNames table) rules paths ts) :
    (∃ fuel d, derive env fuel attrs = .ok d) ∧ ∀ fuel d, derive env fuel attrs = .ok d →
      (∃ R e lab, Linked (unicodeOf env.unicodeNames table) d.code.1 d.code.2.wrappers R e ∧ Labelled d.code.1 R e lab) ∧
      ∀ R e lab, Linked (unicodeOf env.unicodeNames table) d.code.1 d.code.2.wrappers R e → Labelled d.code.1 R e lab → ∀ r ∈ rules, r.name ≠ optName → r.name ≠ manName →
        ∀ (inp : Str) (o : Option Text), Leaves (unicodeOf env.unicodeNames table) (.mk rules []) (.expr (.mk [] [] r.node)) [] inp.text [] o →
          ((∃ n t, tryParse so e n (.rule (R.num [] r.name [])) inp = .ok (.ok t)) ↔ o = some []) ∧
          ((∃ n trk, tryParse so e n (.rule (R.num [] r.name [])) inp = .ok (.error trk)) ↔ o ≠ some []) ∧
          (∀ k, (∃ n t, tryParsePartial so e n (.rule (R.num [] r.name [])) inp = .ok (.ok (⟨inp, k⟩, t))) ↔ ∃ a b, inp.text = a ++ b ∧ utf8Len a = k ∧ o = some b) := by
  have hs : ∀ x, ¬ SilentName (united [.mk rules []]) x := by rw [united_one]; exact hp.silent
  have hn' : AllNamed (unicodeOf env.unicodeNames table) (united [.mk rules []]) := by rw [united_one]; exact hp.named
  refine ⟨(C75_accepted hm hs hn').mpr ⟨hu, hne, by rw [united_one]; exact hp.scoped⟩, fun fuel d hd => ?_⟩
  obtain ⟨h1, h2⟩ := C75_parser (table := table) hls hd hm hs hn'
  refine ⟨h1 fun m' h => hp.acyclic (by rwa [united_one] at h), fun R e lab hl hlab r hr ho hman inp o hlv => ?_⟩
  have h3 := h2 R e lab hl hlab [] (.mk rules []) r (by rw [united_one]; rfl) hr ho hman (hp.args r hr) inp
  rw [united_one] at h3
  have h4 := leaves_accepts hlv
  refine ⟨h3.1.trans h4.1, h3.2.2.1.trans h4.2, fun k => ?_⟩
  obtain ⟨ms', cfg, hm', hg, -⟩ := C71_result_partial _ _ _ _ hd
  cases modules_unique hm hm'
  have hgen := (generateTyped_none hs).mp ⟨_, hg⟩
  rw [united_one] at hgen
  have hf := findRule_eq (hp.named (.mk rules []) .refl).rules hr
  refine ((C52_try_parse hls hgen hp.named hl (p := []) rfl hf ho hman (hp.args r hr) inp).2 k).trans ?_
  cases o with
  | none =>
    refine ⟨fun ⟨c, _, h5⟩ => ?_, fun ⟨_, _, _, _, h5⟩ => by cases h5⟩
    have := h5.det _ hlv; cases this
  | some s' =>
    obtain ⟨w, h5, h6⟩ := hlv
    constructor
    · rintro ⟨c, rfl, h7⟩
      have := h7.det _ h6
      cases this
      exact ⟨w, s', h5, rfl, rfl⟩
    · rintro ⟨a, b, h7, rfl, h8⟩
      cases h8
      rw [h7] at h5
      cases List.append_cancel_right h5
      exact ⟨_, rfl, h6⟩

/-- The macro accepts the grammar of the report.  `useA` accepts `a`, the comma that the trivia rule asks for, and any number of `b`; `a` and `_b` accept one or more `b`.
The rule `x`, which calls itself in a lookahead, accepts the text `ab` only; with `try_parse_partial` it matches two characters of a text that begins with `ab`, one character of a text that begins with
two or more `a` and a `b`, and nothing else. -/
theorem C100_issue (P : Project env attrs) : (∃ fuel d, derive env fuel attrs = .ok d) ∧ ∀ fuel d, derive env fuel attrs = .ok d →
    (∃ R e lab, Linked (unicodeOf env.unicodeNames table) d.code.1 d.code.2.wrappers R e ∧ Labelled d.code.1 R e lab) ∧
    ∀ R e lab, Linked (unicodeOf env.unicodeNames table) d.code.1 d.code.2.wrappers R e → Labelled d.code.1 R e lab → ∀ inp : Str, inp.text.length + 1 < usizeMax →
      let accepts := fun (name : String) => ∃ n t, tryParse so e n (.rule (R.num [] name.toList [])) inp = .ok (.ok t)
      let rejects := fun (name : String) => ∃ n trk, tryParse so e n (.rule (R.num [] name.toList [])) inp = .ok (.error trk)
      let stops := fun (name : String) k => ∃ n t, tryParsePartial so e n (.rule (R.num [] name.toList [])) inp = .ok (.ok (⟨inp, k⟩, t))
      let bs := ∃ n, inp.text = List.replicate (n + 1) 'b'
      let abs := ∃ n, inp.text = 'a' :: ',' :: List.replicate n 'b'
      (accepts "useA" ↔ abs) ∧ (rejects "useA" ↔ ¬ abs) ∧
      (accepts "a" ↔ bs) ∧ (rejects "a" ↔ ¬ bs) ∧ (accepts "_b" ↔ bs) ∧ (rejects "_b" ↔ ¬ bs) ∧
      (accepts "x" ↔ inp.text = ['a', 'b']) ∧ (rejects "x" ↔ inp.text ≠ ['a', 'b']) ∧
      (∀ k, stops "x" k ↔ (k = 2 ∧ ∃ r, inp.text = 'a' :: 'b' :: r) ∨ (k = 1 ∧ ∃ n r, inp.text = List.replicate (n + 2) 'a' ++ 'b' :: r)) := by
  obtain ⟨h1, h2⟩ := simple_parser (table := table) hls (project_modules P) P.understood (by rw [P.source]; simp) issue_simple
  refine ⟨h1, fun fuel d hd => ?_⟩
  obtain ⟨h3, h4⟩ := h2 fuel d hd
  refine ⟨h3, fun R e lab hl hlab inp hi => ?_⟩
  have k1 := h4 R e lab hl hlab ⟨['u', 's', 'e', 'A'], [], tUse, false⟩ (by simp [issueRules]) (by show ['u', 's', 'e', 'A'] ≠ _; decide) (by show ['u', 's', 'e', 'A'] ≠ _; decide) inp _ (leaves_use hi)
  have k2 := h4 R e lab hl hlab ⟨['a'], [], tA, false⟩ (by simp [issueRules]) (by show ['a'] ≠ _; decide) (by show ['a'] ≠ _; decide) inp _ (leaves_a hi)
  have k3 := h4 R e lab hl hlab ⟨['_', 'b'], [], tB, false⟩ (by simp [issueRules]) (by show ['_', 'b'] ≠ _; decide) (by show ['_', 'b'] ≠ _; decide) inp _ (leaves_b hi)
  have k4 := h4 R e lab hl hlab ⟨['x'], [], tX, false⟩ (by simp [issueRules]) (by show ['x'] ≠ _; decide) (by show ['x'] ≠ _; decide) inp _ (leaves_x inp.text [])
  have ex : xF inp.text = some [] ↔ inp.text = ['a', 'b'] := by
    rw [xF_iff]
    refine ⟨?_, .inl⟩
    rintro (h | ⟨n, r, -, h⟩)
    · exact h
    · simp at h
  refine ⟨k1.1.trans (useF_iff _), k1.2.1.trans (not_congr (useF_iff _)), k2.1.trans (bF_iff _), k2.2.1.trans (not_congr (bF_iff _)), k3.1.trans (bF_iff _), k3.2.1.trans (not_congr (bF_iff _)),
    k4.1.trans ex, k4.2.1.trans (not_congr ex), fun k => (k4.2.2 k).trans ?_⟩
  have ea : ('a' : Char).utf8Size = 1 := by decide
  have eb : ('b' : Char).utf8Size = 1 := by decide
  constructor
  · rintro ⟨a, b, h5, rfl, h6⟩
    rcases (xF_iff _ _).mp h6 with h7 | ⟨n, r, h7, h8⟩
    · refine .inl ⟨?_, b, h7⟩
      have : a = ['a', 'b'] := List.append_cancel_right (bs := b) (by rw [← h5, h7]; rfl)
      rw [this]; decide
    · refine .inr ⟨?_, n, r, by rw [h7, h8]; rfl⟩
      have : a = ['a'] := List.append_cancel_right (bs := b) (by rw [← h5, h7]; rfl)
      rw [this]; decide
  · rintro (⟨rfl, r, h5⟩ | ⟨rfl, n, r, h5⟩)
    · exact ⟨['a', 'b'], r, h5, by decide, (xF_iff _ _).mpr (.inl h5)⟩
    · exact ⟨['a'], List.replicate (n + 1) 'a' ++ 'b' :: r, h5, by decide, (xF_iff _ _).mpr (.inr ⟨n, r, h5, rfl⟩)⟩

/-- The parsers of `derive/tests/sequence.rs`: the rule `s` with the number `k` accepts one text, the first `k` letters, and rejects all others; with `try_parse_partial` it matches
exactly that text at the beginning. -/
theorem C100_sequences (hw : Faithful env.world) (hu : ∀ a ∈ attrs, Understood env.ident a) (ha : attrs.filterMap sourceOf = [.inline seqText]) :
    (∃ fuel d, derive env fuel attrs = .ok d) ∧ ∀ fuel d, derive env fuel attrs = .ok d →
    (∃ R e lab, Linked (unicodeOf env.unicodeNames table) d.code.1 d.code.2.wrappers R e ∧ Labelled d.code.1 R e lab) ∧
    ∀ R e lab, Linked (unicodeOf env.unicodeNames table) d.code.1 d.code.2.wrappers R e → Labelled d.code.1 R e lab → ∀ inp : Str, ∀ k, 1 ≤ k → k ≤ 12 →
      let rule := R.num [] ('s' :: Nat.toDigits 10 k) []
      let letters := "abcdefghijkl".toList.take k
      ((∃ n t, tryParse so e n (.rule rule) inp = .ok (.ok t)) ↔ inp.text = letters) ∧
      ((∃ n trk, tryParse so e n (.rule rule) inp = .ok (.error trk)) ↔ inp.text ≠ letters) ∧
      (∀ i, (∃ n t, tryParsePartial so e n (.rule rule) inp = .ok (.ok (⟨inp, i⟩, t))) ↔ i = k ∧ letters <+: inp.text) := by
  obtain ⟨h1, h2⟩ := simple_parser (table := table) hls (Skip.inline_modules C100_grammars.2 hw ha) hu (by rw [ha]; simp) seq_simple
  refine ⟨h1, fun fuel d hd => ?_⟩
  obtain ⟨h3, h4⟩ := h2 fuel d hd
  refine ⟨h3, fun R e lab hl hlab inp k hk1 hk12 => ?_⟩
  have hq : ∀ k, k ≤ 12 → 1 ≤ k → ('s' :: Nat.toDigits 10 k, "abcdefghijkl".toList.take k) ∈ seqTexts ∧ ("abcdefghijkl".toList.take k).length = k := by decide +kernel
  obtain ⟨hq, hk⟩ := hq k hk12 hk1
  dsimp only
  generalize "abcdefghijkl".toList.take k = w at hq hk
  generalize 's' :: Nat.toDigits 10 k = name at hq
  obtain rfl := hk
  revert hq
  suffices h : ∀ q ∈ seqTexts, ((∃ n t, tryParse so e n (.rule (R.num [] q.1 [])) inp = .ok (.ok t)) ↔ inp.text = q.2) ∧
      ((∃ n trk, tryParse so e n (.rule (R.num [] q.1 [])) inp = .ok (.error trk)) ↔ inp.text ≠ q.2) ∧
      (∀ k, (∃ n t, tryParsePartial so e n (.rule (R.num [] q.1 [])) inp = .ok (.ok (⟨inp, k⟩, t))) ↔ k = q.2.length ∧ q.2 <+: inp.text) from fun hq => h _ hq
  clear hk1 hk12
  intro q hq
  have hk : ∀ q ∈ seqTexts, q.1 ≠ optName ∧ q.1 ≠ manName ∧ utf8Len q.2 = q.2.length := by decide +kernel
  obtain ⟨ho, hman, hlen⟩ := hk q hq
  have k := h4 R e lab hl hlab ⟨q.1, [], seqOf q.2, false⟩ (List.mem_map.mpr ⟨q, hq, rfl⟩) ho hman inp _ (leaves_seqOf q.2 [] inp.text)
  have e1 : strip q.2 inp.text = some [] ↔ inp.text = q.2 := by rw [strip_some, List.append_nil]
  refine ⟨k.1.trans e1, k.2.1.trans (not_congr e1), fun n => (k.2.2 n).trans ?_⟩
  constructor
  · rintro ⟨a, b, h5, rfl, h6⟩
    have h7 := strip_some.mp h6
    rw [h5] at h7
    cases List.append_cancel_right h7
    exact ⟨hlen, b, h5.symm⟩
  · rintro ⟨rfl, b, h5⟩
    exact ⟨q.2, b, h5.symm, hlen, strip_some.mpr h5.symm⟩

end

/-! ## Declarations that meet the hypotheses; the texts of the tests -/

private def env (w : World) : Setting := ⟨some "/p".toList, ⟨true, ["p".toList]⟩, fun p => p == ⟨true, ["p".toList, "tests".toList, "issue27.pest".toList]⟩, fun _ => false, [], w⟩

private def attrs : List Attr := [⟨some "grammar".toList, .str issuePath⟩]

/-- A declaration with the file in place. -/
theorem example_project : ∃ w : World, Project (env w) attrs := by
  obtain ⟨w, hr, hw, -⟩ := C67_world (fun _ => some issueText)
  refine ⟨w, hw, ?_, by decide, ?_⟩
  · intro a ha
    cases List.mem_singleton.mp ha
    exact ⟨fun x _ _ => ⟨_, rfl⟩, fun x hx h => by cases h; exact absurd hx (by decide), fun h => absurd h (by show ¬ some "grammar".toList = some "rules_mod".toList; decide)⟩
  · show w.read _ = _
    rw [hr]

/-- With the file in place the parsers are generated, and `x` matches one character of `aaab`. -/
example : ∃ (w : World) (fuel : Nat) (d : Derived) (R : Layout) (e : Env), Project (env w) attrs ∧ derive (env w) fuel attrs = .ok d ∧
    Linked (unicodeOf [] fun _ _ => false) d.code.1 d.code.2.wrappers R e ∧
    (∃ n t, tryParsePartial idealOps e n (.rule (R.num [] "x".toList [])) ⟨0, "aaab".toList⟩ = .ok (.ok (⟨⟨0, "aaab".toList⟩, 1⟩, t))) ∧
    (∃ n trk, tryParse idealOps e n (.rule (R.num [] "x".toList [])) ⟨0, "aaab".toList⟩ = .ok (.error trk)) := by
  obtain ⟨w, P⟩ := example_project
  obtain ⟨⟨fuel, d, h1⟩, h2⟩ := C100_issue (table := fun _ _ => false) ideal_lawful P
  obtain ⟨⟨R, e, lab, h3, h4⟩, h5⟩ := h2 fuel d h1
  obtain ⟨-, -, -, -, -, -, -, h6, h7⟩ := h5 R e lab h3 h4 ⟨0, "aaab".toList⟩ (by decide)
  exact ⟨w, fuel, d, R, e, P, h1, h3, (h7 1).mpr (.inr ⟨rfl, 1, [], rfl⟩), h6.mpr (by decide)⟩

/-- The attributes of the test (`derive/tests/sequence.rs:5-18`) meet the hypotheses of `C100_sequences`; `Faithful` worlds exist by `C67_world`. -/
example (env : Setting) : ∃ attrs : List Attr, (∀ a ∈ attrs, Understood env.ident a) ∧ attrs.filterMap sourceOf = [.inline seqText] :=
  ⟨[⟨some "grammar_inline".toList, .str seqText⟩], by
    intro a ha
    cases List.mem_singleton.mp ha
    exact ⟨fun x _ _ => ⟨_, rfl⟩, fun x hx h => by cases h; exact absurd hx (by decide), fun h => absurd h (by show ¬ some "grammar_inline".toList = some "rules_mod".toList; decide)⟩, rfl⟩

/-- The rule `s10` is one of those of `C100_sequences`, with the text of its test. -/
example : 's' :: Nat.toDigits 10 10 = "s10".toList ∧ "abcdefghijkl".toList.take 10 = "abcdefghij".toList := by decide +kernel

end Pest3.Small
