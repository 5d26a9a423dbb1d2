import Verif.CsvTable
import Verif.CsvRead
import Verif.CsvWell
import Verif.MeaningInv
import Verif.Props.EndToEnd

/-!
# The parser of tables of the examples (`derive/tests/meta_rules.rs`)
-/

namespace Pest3.Csv
open Pest3 Pest3.Gen Pest3.Load Pest3.Props

/-- The text is read as the rules of the model. -/
theorem C95_grammar : Reads csvText csvItems := reads_run csv_read

theorem loads_rules {w : World} {root : FPath} (l : List Rule) : Loads w (.items root (l.map .rule) l []) := by
  induction l with
  | nil => exact .nil
  | cons r l ih => exact .rule ih

theorem csv_modules {env : Setting} {attrs : List Attr} (hw : Faithful env.world) (ha : attrs.filterMap sourceOf = [.inline csvText]) : Modules env (attrs.filterMap sourceOf) [csvModule] := by
  rw [ha]
  exact .cons .inline (.file ((hw _ _).mpr C95_grammar) (loads_rules _)) .nil

theorem united_csv : united [csvModule] = csvModule := by simp [united, csvModule, Module.rules, Module.imports]

theorem csv_means {u : Unicode} {inp : Str} (hl : inp.text.length + 1 < usizeMax) : (∃ rows, Table rows inp.text) ∨
    (Meaning u csvModule (.expr (.mk [] [] tMain)) (startCfg inp) none ∨ ∃ c, Meaning u csvModule (.expr (.mk [] [] tMain)) (startCfg inp) (some c) ∧ c.suf ≠ []) := by
  have h := leaves_table (u := u) (pre := []) (stk := []) hl
  cases h1 : tableF inp.text with
  | none => rw [h1] at h; exact .inr (.inl h)
  | some s' =>
    rw [h1] at h
    cases s' with
    | nil =>
      obtain ⟨rows, t, h2, h3⟩ := tableF_sound h1
      rw [List.append_nil] at h3
      exact .inl ⟨rows, h3 ▸ h2⟩
    | cons x s' =>
      obtain ⟨w, -, h2⟩ := h
      exact .inr (.inr ⟨_, h2, by simp⟩)

section
variable {S : Type} {so : StackOps S} {saved : S → List (List Span)} (hls : Lawful so saved) {env : Setting} {attrs : List Attr} {table : Name → Char → Bool}
  (hw : Faithful env.world) (hu : ∀ a ∈ attrs, Understood env.ident a) (ha : attrs.filterMap sourceOf = [.inline csvText])
include hls hw hu ha

/-- The macro generates a parser for the example.  The struct `main` accepts exactly the tables and rejects all other texts; and the tokens of what it returns are those of the rows and cells. -/
theorem C95_parser : (∃ fuel d, derive env fuel attrs = .ok d) ∧ ∀ fuel d, derive env fuel attrs = .ok d →
    (∃ R e lab, Linked (unicodeOf env.unicodeNames table) d.code.1 d.code.2.wrappers R e ∧ Labelled d.code.1 R e lab) ∧
    ∀ R e lab, Linked (unicodeOf env.unicodeNames table) d.code.1 d.code.2.wrappers R e → Labelled d.code.1 R e lab → ∀ inp : Str, inp.text.length + 1 < usizeMax →
      let parser := fun n => tryParse so e n (.rule (R.num [] "main".toList [])) inp
      (∀ rows, Table rows inp.text → ∃ n t P, parser n = .ok (.ok t) ∧ t.asPairTree e lab = some P ∧ TableToken inp.text rows P) ∧
      (∀ n t, parser n = .ok (.ok t) → ∃ rows, Table rows inp.text) ∧
      (∀ n t P, parser n = .ok (.ok t) → t.asPairTree e lab = some P → ∃ rows, Table rows inp.text ∧ TableToken inp.text rows P) ∧
      ((∃ n trk, parser n = .ok (.error trk)) ↔ ¬ ∃ rows, Table rows inp.text) := by
  have hm := csv_modules hw ha
  have hs : ∀ x, ¬ SilentName (united [csvModule]) x := by rw [united_csv]; exact csv_silent
  have hn : AllNamed (unicodeOf env.unicodeNames table) (united [csvModule]) := by rw [united_csv]; exact csv_named
  refine ⟨(C75_accepted hm hs hn).mpr ⟨hu, by rw [ha]; simp, by rw [united_csv]; exact csv_scoped⟩, fun fuel d hd => ?_⟩
  obtain ⟨h1, h2⟩ := C75_parser (table := table) hls hd hm hs hn
  refine ⟨h1 fun m' h => csv_acyclic (by rwa [united_csv] at h), fun R e lab hl hlab inp hi => ?_⟩
  have h3 := h2 R e lab hl hlab [] csvModule ⟨mainName, [], tMain, false⟩ (by rw [united_csv]; rfl) (by simp [csvModule, Module.rules, csvRules])
    (by show mainName ≠ _; decide) (by show mainName ≠ _; decide) rfl inp
  rw [united_csv] at h3
  obtain ⟨h4, h5, h6, -⟩ := h3
  have hnot : ∀ n t, tryParse so e n (.rule (R.num [] mainName [])) inp = .ok (.ok t) → ∃ rows, Table rows inp.text := by
    intro n t h
    obtain ⟨stk, k⟩ := h4.mp ⟨n, t, h⟩
    rcases csv_means (u := unicodeOf env.unicodeNames table) hi with h | h | ⟨c, h, hc⟩
    · exact h
    · have := k.det _ h; cases this
    · have := k.det _ h; cases this; exact absurd rfl hc
  refine ⟨fun rows hr => ?_, hnot, fun n t P h hP => ?_, ?_⟩
  · obtain ⟨F, k1, k2⟩ := shows_table (u := unicodeOf env.unicodeNames table) hr hi
    obtain ⟨n, t, k3, k4⟩ := (h5 rfl _).mpr ⟨[], F, k2, rfl⟩
    exact ⟨n, t, _, k3, k4, k1⟩
  · obtain ⟨rows, hr⟩ := hnot n t h
    obtain ⟨F, k1, k2⟩ := shows_table (u := unicodeOf env.unicodeNames table) hr hi
    obtain ⟨stk, F', k3, rfl⟩ := (h5 rfl _).mp ⟨n, t, h, hP⟩
    have := k2.det (some (_, _)) k3
    cases this
    exact ⟨rows, hr, k1⟩
  · refine h6.trans ⟨?_, fun h => ?_⟩
    · rintro h ⟨rows, hr⟩
      obtain ⟨F, -, k2⟩ := shows_table (u := unicodeOf env.unicodeNames table) hr hi
      rcases h with h | ⟨c, h, hc⟩
      · have := k2.meaning.det _ h; cases this
      · have := k2.meaning.det _ h; cases this; exact absurd rfl hc
    · rcases csv_means (u := unicodeOf env.unicodeNames table) hi with h' | h'
      · exact absurd h' h
      · exact h'

end

/-! ## A text is a table in one way only -/

/-- A text goes on with something else. -/
def Stops (f : Char → Prop) (r : Text) : Prop := ∀ x r', r = x :: r' → ¬ f x

theorem split {f : Char → Prop} {a b r r' : Text} (ha : ∀ x ∈ a, f x) (hb : ∀ x ∈ b, f x) (hr : Stops f r) (hr' : Stops f r') (h : a ++ r = b ++ r') : a = b ∧ r = r' := by
  induction a generalizing b with
  | nil =>
    cases b with
    | nil => exact ⟨rfl, h⟩
    | cons y b => exact absurd (hb y (by simp)) (hr y _ h)
  | cons x a ih =>
    cases b with
    | nil => exact absurd (ha x (by simp)) (hr' x _ h.symm)
    | cons y b =>
      simp only [List.cons_append, List.cons.injEq] at h
      obtain ⟨rfl, h⟩ := h
      obtain ⟨rfl, rfl⟩ := ih (fun z hz => ha z (by simp [hz])) (fun z hz => hb z (by simp [hz])) h
      exact ⟨rfl, rfl⟩

theorem split_at {f : Char → Prop} {x : Char} {a b r r' : Text} (ha : ∀ x ∈ a, f x) (hb : ∀ x ∈ b, f x) (hx : ¬ f x) (h : a ++ x :: r = b ++ x :: r') : a = b ∧ r = r' := by
  have hs : ∀ r, Stops f (x :: r) := fun r y r' h => by cases h; exact hx
  obtain ⟨h1, h⟩ := split ha hb (hs r) (hs r') h
  cases h
  exact ⟨h1, rfl⟩

instance : DecidablePred CellChar := fun x => by unfold CellChar; infer_instance
instance : DecidablePred Cell := fun x => by unfold Cell; infer_instance
instance : DecidablePred Blanks := fun x => by unfold Blanks; infer_instance

theorem row_starts {cs : List Text} {t : Text} (h : Row cs t) : Stops (· = ' ') t := by
  have hc : ∀ c r, Cell c → Stops (· = ' ') (c ++ r) := by
    rintro (_ | ⟨y, c⟩) r ⟨hn, hc⟩ z r' h rfl
    · exact hn rfl
    · cases h; exact absurd (hc ' ' (by simp)) (by decide)
  cases h with
  | one h => have := hc _ [] h; rwa [List.append_nil] at this
  | more h => rw [List.append_assoc]; exact hc _ _ h

theorem blank_comma {w r : Text} (h : Blanks w) : Stops CellChar (w ++ ',' :: r) := by
  intro x r' e
  cases w with
  | nil => cases e; decide
  | cons y w =>
    cases e
    have : x = ' ' := h x (by simp)
    subst this; decide

theorem row_det {cs : List Text} {t : Text} (h : Row cs t) : ∀ cs' t', Row cs' t' → t = t' → cs = cs' := by
  have clash : ∀ {c c' w t : Text}, Cell c → Cell c' → Blanks w → c' ≠ c ++ w ++ ',' :: t := by
    rintro c c' w t - ⟨-, h⟩ - rfl
    exact absurd (h ',' (by simp)) (by decide)
  induction h with
  | one h =>
    rintro cs' t' h' ht
    cases h' with
    | one h' => rw [ht]
    | more h1 h2 => exact absurd ht (clash h1 h h2)
  | more h1 h2 h3 _ ih =>
    rename_i c w w' cs t hrow
    rintro cs' t' h' ht
    cases h' with
    | one h' => exact absurd ht.symm (clash h1 h' h2)
    | more k1 k2 k3 k4 =>
      rw [List.append_assoc, List.append_assoc] at ht
      obtain ⟨e1, ht1⟩ := split h1.2 k1.2 (blank_comma h2) (blank_comma k2) ht
      obtain ⟨-, ht2⟩ := split_at (f := (· = ' ')) (x := ',') h2 k2 (by decide) ht1
      obtain ⟨-, e2⟩ := split h3 k3 (row_starts hrow) (row_starts k4) ht2
      rw [e1, ih _ _ k4 e2]

theorem row_line {cs : List Text} {t : Text} (h : Row cs t) : ∀ x ∈ t, x ≠ '\n' := by
  have hc : ∀ {c : Text}, Cell c → ∀ x ∈ c, x ≠ '\n' := by
    rintro c ⟨-, h⟩ x hx rfl
    exact absurd (h _ hx) (by decide)
  have hb : ∀ {c : Text}, Blanks c → ∀ x ∈ c, x ≠ '\n' := by
    rintro c h x hx rfl
    exact absurd (h _ hx) (by decide)
  induction h with
  | one h => exact hc h
  | more h1 h2 h3 _ ih =>
    intro x hx
    simp only [List.mem_append, List.mem_cons] at hx
    rcases hx with (hx | hx) | rfl | hx | hx
    · exact hc h1 x hx
    · exact hb h2 x hx
    · decide
    · exact hb h3 x hx
    · exact ih x hx

/-- No text is written for two tables: the rows and cells of `C95_parser` are determined by the text. -/
theorem C95_rows {rows rows' : List (List Text)} {t : Text} (h : Table rows t) (h' : Table rows' t) : rows = rows' := by
  suffices k : ∀ t', Table rows' t' → t = t' → rows = rows' from k t h' rfl
  clear h'
  induction h generalizing rows' with
  | one h =>
    intro t' h' ht
    cases h' with
    | one h' => rw [row_det h _ _ h' ht]
    | more h1 h2 => exact absurd rfl (row_line h '\n' (by rw [ht]; simp))
  | more h1 _ ih =>
    intro t' h' ht
    cases h' with
    | one h' => exact absurd rfl (row_line h' '\n' (by rw [← ht]; simp))
    | more k1 k2 =>
      obtain ⟨h2, h3⟩ := split_at (f := (· ≠ '\n')) (row_line h1) (row_line k1) (by simp) ht
      rw [row_det h1 _ _ k1 h2, ih _ k2 h3]

/-! ## The texts of the tests -/

/-- Whether a text is a table can be computed. -/
theorem table_run {t : Text} (hl : t.length + 1 < usizeMax) : (∃ rows, Table rows t) ↔ tableF t = some [] := by
  constructor
  · rintro ⟨rows, h⟩
    let u : Unicode := unicodeOf [] fun _ _ => false
    obtain ⟨F, -, k⟩ := shows_table (u := u) h hl
    have h1 := leaves_table (u := u) (pre := []) (stk := []) hl
    cases h2 : tableF t with
    | none => rw [h2] at h1; have := k.meaning.det _ h1; cases this
    | some s' =>
      rw [h2] at h1
      obtain ⟨w, -, h1⟩ := h1
      have := k.meaning.det _ h1
      cases this
      rfl
  · intro h
    obtain ⟨rows, t', h2, h3⟩ := tableF_sound h
    rw [List.append_nil] at h3
    exact ⟨rows, h3 ▸ h2⟩

/-- The attributes of the test (`derive/tests/meta_rules.rs:8-12`) meet the hypotheses of `C95_parser`; `Faithful` worlds exist by `C67_world`. -/
example (env : Setting) : ∃ attrs : List Attr, (∀ a ∈ attrs, Understood env.ident a) ∧ attrs.filterMap sourceOf = [.inline csvText] :=
  ⟨[⟨some "grammar_inline".toList, .str csvText⟩], by
    intro a ha
    cases List.mem_singleton.mp ha
    exact ⟨fun x _ _ => ⟨_, rfl⟩, fun x hx h => by cases h; exact absurd hx (by decide), fun h => absurd h (by show ¬ some "grammar_inline".toList = some "rules_mod".toList; decide)⟩, rfl⟩

/-- The second text of the tests (`derive/tests/meta_rules.rs:33-36`), with blanks at a comma, and its rows. -/
example : Table [["123".toList, "456".toList], ["789".toList, "abc".toList]] "123 , 456\n789,abc".toList :=
  .more (r := ["123".toList, "456".toList]) (t := "123 , 456".toList)
    (.more (c := "123".toList) (w := [' ']) (w' := [' ']) (t := "456".toList) (by decide) (by decide) (by decide) (.one (by decide)))
    (.one (.more (c := "789".toList) (w := []) (w' := []) (t := "abc".toList) (by decide) (by decide) (by decide) (.one (by decide))))

/-- The texts that the tests expect to be rejected (`derive/tests/meta_rules.rs:37-41`) are no tables. -/
example : ∀ t ∈ ["".toList, "123,".toList, "123,456,".toList, "123\n".toList, "123,\n456".toList], ¬ ∃ rows, Table rows t := by
  intro t ht
  have h : ∀ t ∈ ["".toList, "123,".toList, "123,456,".toList, "123\n".toList, "123,\n456".toList], t.length < 10 ∧ tableF t ≠ some [] := by decide +kernel
  rw [table_run (Nat.lt_trans (Nat.succ_lt_succ (h t ht).1) (by decide))]
  exact (h t ht).2

end Pest3.Csv
