import Verif.RecordShows
import Verif.RecordRead
import Verif.RecordWell
import Verif.Props.Skip
import Verif.Props.Transparent

/-!
# The parser of records of the examples (`derive/tests/meta_rules_silent.rs`)
-/

namespace Pest3.Records
open Pest3 Pest3.Gen Pest3.Load Pest3.Props
open Pest3.Json (Leaves)

/-- The text is read as the rules of the model. -/
theorem C99_grammar : Props.Reads recordText (recordRules.map .rule) := reads_run record_read

section
variable {S : Type} {so : StackOps S} {saved : S → List (List Span)} (hls : Lawful so saved) {env : Setting} {attrs : List Attr} {table : Name → Char → Bool}
  (hw : Faithful env.world) (hu : ∀ a ∈ attrs, Understood env.ident a) (ha : attrs.filterMap sourceOf = [.inline recordText])
include hls hw hu ha

/-- The macro generates a parser for the example, although `record` only uses silent rules with parameters, one of which calls the other.  The struct `file` accepts exactly the texts that consist
of records with the ends of their lines, `record` exactly the records, `field` exactly the fields; and they reject all other texts.
The tree of a file has a token for each record, in which there is a token for each field, where they are in the text: there is nothing for the silent rules in between. -/
theorem C99_parser : (∃ fuel d, derive env fuel attrs = .ok d) ∧ ∀ fuel d, derive env fuel attrs = .ok d →
    (∃ R e lab, Linked (unicodeOf env.unicodeNames table) d.code.1 d.code.2.wrappers R e ∧ Labelled d.code.1 R e lab) ∧
    ∀ R e lab, Linked (unicodeOf env.unicodeNames table) d.code.1 d.code.2.wrappers R e → Labelled d.code.1 R e lab → ∀ inp : Str, inp.text.length + 1 < usizeMax →
      let parser := fun (name : String) n => tryParse so e n (.rule (R.num [] name.toList [])) inp
      let accepts := fun name => ∃ n t, parser name n = .ok (.ok t)
      let rejects := fun name => ∃ n trk, parser name n = .ok (.error trk)
      (accepts "file" ↔ ∃ rs, File rs inp.text) ∧ (rejects "file" ↔ ¬ ∃ rs, File rs inp.text) ∧
      (accepts "record" ↔ ∃ r, Record r inp.text) ∧ (rejects "record" ↔ ¬ ∃ r, Record r inp.text) ∧
      (accepts "field" ↔ Field inp.text) ∧ (rejects "field" ↔ ¬ Field inp.text) ∧
      ∀ P, (∃ n t, parser "file" n = .ok (.ok t) ∧ t.asPairTree e lab = some P) ↔ ∃ rs F, File rs inp.text ∧ FileTokens 0 rs inp.text F ∧ P = .mk (.rule "file".toList) 0 (utf8Len inp.text) F := by
  have hm : Modules env (attrs.filterMap sourceOf) [recordModule] := Skip.inline_modules C99_grammar hw ha
  have hun : united [recordModule] = recordModule := Skip.united_one _
  have hn : AllNamed (unicodeOf env.unicodeNames table) (united [recordModule]) := by rw [hun]; exact record_named
  have hy : Hygienic (unicodeOf env.unicodeNames table) (united [recordModule]) := by rw [hun]; exact record_hygienic
  refine ⟨C82_accepted hm hn hy (by rw [hun]; exact record_expandable) hu (by rw [ha]; simp) (by rw [hun]; exact record_scoped), fun fuel d hd => ?_⟩
  obtain ⟨h1, h2⟩ := C82_parser (table := table) hls hd hm hn hy
  refine ⟨h1 (C82_trivia hn (by rw [hun]; exact fun _ => record_acyclic) (by rw [hun]; exact fun r hr hx q as x hs => absurd hs (record_break hr hx))), fun R e lab hl hlab inp hi => ?_⟩
  have key : ∀ r ∈ recordRules, r.name ≠ optName → r.name ≠ manName → r.args = [] → ∀ {o}, Leaves (unicodeOf env.unicodeNames table) recordModule (.expr (.mk [] [] r.node)) [] inp.text [] o →
      ((∃ n t, tryParse so e n (.rule (R.num [] r.name [])) inp = .ok (.ok t)) ↔ o = some []) ∧
      ((∃ n trk, tryParse so e n (.rule (R.num [] r.name [])) inp = .ok (.error trk)) ↔ o ≠ some []) := by
    intro r hr ho hman hargs o hleaves
    have h3 := h2 R e lab hl hlab [] recordModule r (by rw [hun]; rfl) hr ho hman hargs inp
    rw [hun] at h3
    have h4 := Skip.leaves_accepts hleaves
    exact ⟨h3.1.trans h4.1, h3.2.2.1.trans h4.2⟩
  have k1 := key fileRule (by simp [recordRules]) (by decide) (by decide) rfl (leaves_file hi)
  have k2 := key recordRule (by simp [recordRules]) (by decide) (by decide) rfl (record_body hi)
  have k3 := key fieldRule (by simp [recordRules]) (by decide) (by decide) rfl (field_body hi)
  rw [file_run] at k1
  rw [record_run] at k2
  rw [field_run] at k3
  rw [Ne, file_run] at k1
  rw [Ne, record_run] at k2
  rw [Ne, field_run] at k3
  refine ⟨k1.1, k1.2, k2.1, k2.2, k3.1, k3.2, fun P => ?_⟩
  have h3 := (h2 R e lab hl hlab [] recordModule fileRule (by rw [hun]; rfl) (by simp [recordModule, Module.rules, recordRules]) (by decide) (by decide) rfl inp).2.1 rfl P
  rw [hun] at h3
  refine h3.trans ⟨?_, ?_⟩
  · rintro ⟨stk, F, h4, rfl⟩
    obtain ⟨n, t, h5, -⟩ := h3.mpr ⟨stk, F, h4, rfl⟩
    obtain ⟨rs, h6⟩ := k1.1.mp ⟨n, t, h5⟩
    obtain ⟨F', h7⟩ := file_tokens h6 0
    have h8 := C82_tokens_unique hd hm hn hy hl (p := []) (m' := recordModule) (r := fileRule) (by rw [hun]; rfl) (by simp [recordModule, Module.rules, recordRules]) rfl
      (by rw [hun]; exact h4) (by rw [hun]; exact shows_file h7 hi)
    exact ⟨rs, F, h6, h8.2 ▸ h7, rfl⟩
  · rintro ⟨rs, F, -, h5, rfl⟩
    exact ⟨[], F, shows_file h5 hi, rfl⟩

end

/-! ## A text is a file in one way only -/

instance : DecidablePred FieldChar := fun x => by unfold FieldChar; infer_instance
instance : DecidablePred Field := fun x => by unfold Field; infer_instance

/-- Where the first record ends. -/
theorem record_starts {w r : Text} (h : Break w) : Ends (w ++ r) := (breakF_complete h).2

theorem field_split {a b r r' : Text} (ha : Field a) (hb : Field b) (hr : Json.Not isField r) (hr' : Json.Not isField r') (h : a ++ r = b ++ r') : a = b ∧ r = r' := by
  have h1 := fieldF_complete ha hr
  rw [h, fieldF_complete hb hr'] at h1
  cases h1
  exact ⟨List.append_cancel_right h, rfl⟩

theorem record_det {cs : List Text} {t : Text} (h : Record cs t) : ∀ cs' t' r r', Record cs' t' → Ends r → Ends r' → t ++ r = t' ++ r' → cs = cs' ∧ r = r' := by
  have hc : ∀ t : Text, Json.Not isField (',' :: t) := fun t => Json.not_cons (by decide)
  have hno : ∀ {r t : Text}, Ends r → r ≠ ',' :: t := by
    rintro r t ⟨-, h⟩ rfl
    rw [Json.strip_cons] at h; cases h
  induction h with
  | one h =>
    intro cs' t' r r' h' hr hr' e
    cases h' with
    | one h' => obtain ⟨rfl, rfl⟩ := field_split h h' hr.1 hr'.1 e; exact ⟨rfl, rfl⟩
    | more h1 h2 =>
      rw [List.append_assoc, List.cons_append] at e
      exact absurd (field_split h h1 hr.1 (hc _) e).2 (hno hr)
  | more h1 _ ih =>
    intro cs' t' r r' h' hr hr' e
    rw [List.append_assoc, List.cons_append] at e
    cases h' with
    | one h' => exact absurd (field_split h1 h' (hc _) hr'.1 e).2.symm (hno hr')
    | more k1 k2 =>
      rw [List.append_assoc, List.cons_append] at e
      obtain ⟨rfl, e'⟩ := field_split h1 k1 (hc _) (hc _) e
      simp only [List.cons.injEq, true_and] at e'
      obtain ⟨rfl, rfl⟩ := ih _ _ _ _ k2 hr hr' e'
      exact ⟨rfl, rfl⟩

/-- No text is written for two lists of records: the records and fields of `C99_parser` are determined by the text. -/
theorem C99_records {rs rs' : List (List Text)} {t : Text} (h : File rs t) (h' : File rs' t) : rs = rs' := by
  suffices k : ∀ rs' t', File rs' t' → t = t' → rs = rs' from k _ t h' rfl
  clear h'
  have hne : ∀ {r : List Text} {t s : Text}, Record r t → t ++ s ≠ [] := by
    intro r t s h
    cases h with
    | one h => simp [h.1]
    | more h => simp
  induction h with
  | nil =>
    intro rs' t' h' e
    cases h' with
    | nil => rfl
    | cons h => exact absurd e.symm (hne h)
  | cons h1 h2 _ ih =>
    intro rs' t' h' e
    cases h' with
    | nil => exact absurd e (hne h1)
    | cons k1 k2 k3 =>
      obtain ⟨rfl, e⟩ := record_det h1 _ _ _ _ k1 (record_starts h2) (record_starts k2) e
      have h3 := (breakF_complete h2).1.symm.trans ((congrArg breakF e).trans (breakF_complete k2).1)
      cases h3
      rw [ih _ _ k3 rfl]

/-! ## The text of the test -/

/-- The attributes of the test (`derive/tests/meta_rules_silent.rs:5-12`) meet the hypotheses of `C99_parser`; `Faithful` worlds exist by `C67_world`. -/
example (env : Setting) : ∃ attrs : List Attr, (∀ a ∈ attrs, Understood env.ident a) ∧ attrs.filterMap sourceOf = [.inline recordText] :=
  ⟨[⟨some "grammar_inline".toList, .str recordText⟩], by
    intro a ha
    cases List.mem_singleton.mp ha
    exact ⟨fun x _ _ => ⟨_, rfl⟩, fun x hx h => by cases h; exact absurd hx (by decide), fun h => absurd h (by show ¬ some "grammar_inline".toList = some "rules_mod".toList; decide)⟩, rfl⟩

/-- The text of the test (`derive/tests/meta_rules_silent.rs:24-31`) and its records. -/
example : File [["123".toList, "456".toList], ["789".toList, "012".toList]] "123,456\n789,012\n".toList :=
  .cons (t := "123,456".toList) (w := ['\n']) (.more (c := "123".toList) (t := "456".toList) (by decide) (.one (by decide))) (.inr rfl)
    (.cons (t := "789,012".toList) (w := ['\n']) (.more (c := "789".toList) (t := "012".toList) (by decide) (.one (by decide))) (.inr rfl) .nil)

/-- The tokens of the text of the test: two of `record`, with two of `field` in each. -/
example : FileTokens 0 [["123".toList, "456".toList], ["789".toList, "012".toList]] "123,456\n789,012\n".toList
    [.mk (.rule "record".toList) 0 7 [.mk (.rule "field".toList) 0 3 [], .mk (.rule "field".toList) 4 7 []],
      .mk (.rule "record".toList) 8 15 [.mk (.rule "field".toList) 8 11 [], .mk (.rule "field".toList) 12 15 []]] :=
  .cons (t := "123,456".toList) (w := ['\n']) (.more (c := "123".toList) (t := "456".toList) (by decide) (.one (by decide))) (.inr rfl)
    (.cons (t := "789,012".toList) (w := ['\n']) (.more (c := "789".toList) (t := "012".toList) (by decide) (.one (by decide))) (.inr rfl) .nil)

/-- Without the end of the last line, or with an empty field, a text is no file. -/
example : ∀ t ∈ ["1,2".toList, "1,\n".toList, "\n".toList, "1, 2\n".toList], ¬ ∃ rs, File rs t := by
  intro t ht
  have h : ∀ t ∈ ["1,2".toList, "1,\n".toList, "\n".toList, "1, 2\n".toList], fileF t ≠ some [] := by decide +kernel
  rw [← file_run]
  exact h t ht

end Pest3.Records
