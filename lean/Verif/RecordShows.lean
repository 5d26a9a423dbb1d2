import Verif.RecordRuns
import Verif.ThroughLemmas

/-!
# The tokens of records
-/

namespace Pest3.Records
open Pest3 Pest3.Gen
open Pest3.Json (Leaves leaves_str strip strip_some not_cons not_nil strip_cons)

section
variable {u : Unicode}

theorem reps_none {root : Module} {e : Clo} {p : List Name} {t : Trivia} {min max : Nat} (he : ∀ c c' F, ShowsThrough u root (.expr e) c c' F → F = []) {it : SItem} {c c' : Cfg} {F : List (Pair RuleVal)}
    (h : ShowsThrough u root it c c' F) : (∃ i, it = .unit e p t i ∨ it = .reps e p t min max i) → F = [] := by
  induction h with
  | unitFirst h _ =>
    rintro ⟨i, h' | h'⟩ <;> cases h'
    exact he _ _ _ h
  | unitNext _ h _ =>
    rintro ⟨i, h' | h'⟩ <;> cases h'
    exact he _ _ _ h
  | repsMore _ _ _ ih1 ih2 =>
    rintro ⟨i, h' | h'⟩ <;> cases h'
    rw [ih1 ⟨_, .inl rfl⟩, ih2 ⟨_, .inr rfl⟩]; rfl
  | repsMax | repsStop => exact fun _ => rfl
  | _ => rintro ⟨i, h' | h'⟩ <;> cases h'

theorem char_none {c c' : Cfg} {F : List (Pair RuleVal)} (h : ShowsThrough u recordModule (.expr (.mk [] [] (.choice (.path digitPath) (.choice (.str ['.']) (.str ['-']))))) c c' F) : F = [] := by
  have lit : ∀ {t c c' F}, ShowsThrough u recordModule (.expr (.mk [] [] (.str t))) c c' F → F = [] := by
    intro t c c' F h
    cases h with
    | literal => rfl
    | builtin h => cases h
    | rep h => cases h
  cases h with
  | literal h => cases h
  | builtin h => cases h
  | rep h => cases h
  | choiceL h =>
    cases h with
    | literal h => cases h
    | builtin => rfl
    | rep h => cases h
    | rule _ h => cases h
  | choiceR _ h =>
    cases h with
    | literal h => cases h
    | builtin h => cases h
    | rep h => cases h
    | choiceL h => exact lit h
    | choiceR _ h => exact lit h

theorem field_none {c c' : Cfg} {F : List (Pair RuleVal)} (h : ShowsThrough u recordModule (.expr (.mk [] [] tField)) c c' F) : F = [] := by
  cases h with
  | literal h => cases h
  | builtin h => cases h
  | rep h h' =>
    cases h
    exact reps_none (fun _ _ _ => char_none) h' ⟨_, .inr rfl⟩

theorem shows_field {c pre r : Text} (hc : Field c) (hr : Json.Not isField r) (hl : (c ++ r).length + 1 < usizeMax) :
    ShowsThrough u recordModule (.expr (.mk [] [] (.path [fieldName]))) ⟨pre, c ++ r, []⟩ ⟨pre ++ c, r, []⟩ [.mk (.rule fieldName) (utf8Len pre) (utf8Len pre + utf8Len c) []] := by
  have h := field_body (u := u) (pre := pre) (stk := []) hl
  rw [fieldF_complete hc hr] at h
  obtain ⟨w, h1, h2⟩ := h
  obtain rfl := List.append_cancel_right h1
  obtain ⟨F, h3⟩ := meaning_showsThrough h2 _ rfl (by simp)
  obtain rfl := field_none h3
  have := ShowsThrough.rule (u := u) (root := recordModule) (p := []) (ρ := []) (q := [fieldName]) (p' := []) (r := fieldRule) (fun _ _ => rfl) rfl rfl h3
  simpa [tokens, ruleAt, fieldRule, utf8Len_append] using this

/-- The parameters in `record`. -/
abbrev outer : List (Name × Clo) := [(['e'], .mk [] [] (.path [fieldName]))]
abbrev inner : List (Name × Clo) := params (.mk [] outer (.path [['e']])) (.mk [] outer (.str [',']))

theorem shows_param {c pre r : Text} (hc : Field c) (hr : Json.Not isField r) (hl : (c ++ r).length + 1 < usizeMax) :
    ShowsThrough u recordModule (.expr (.mk [] inner (.path [['e']]))) ⟨pre, c ++ r, []⟩ ⟨pre ++ c, r, []⟩ [.mk (.rule fieldName) (utf8Len pre) (utf8Len pre + utf8Len c) []] :=
  .param rfl (.param rfl (shows_field hc hr hl))

theorem shows_more {c pre r : Text} {i : Nat} (hc : Field c) (hr : Json.Not isField r) (hl : (c ++ r).length + 1 < usizeMax) :
    ShowsThrough u recordModule (.unit (.mk [] inner tStep) [] .none i) ⟨pre, ',' :: (c ++ r), []⟩ ⟨pre ++ [','] ++ c, r, []⟩ [.mk (.rule fieldName) (utf8Len pre + 1) (utf8Len pre + 1 + utf8Len c) []] := by
  have h := shows_param (u := u) (pre := pre ++ [',']) hc hr hl
  have e : utf8Len (pre ++ [',']) = utf8Len pre + 1 := by rw [utf8Len_append]; rfl
  rw [e] at h
  have h1 : ShowsThrough u recordModule (.expr (.mk [] inner tStep)) ⟨pre, ',' :: (c ++ r), []⟩ ⟨pre ++ [','] ++ c, r, []⟩ ([] ++ [.mk (.rule fieldName) (utf8Len pre + 1) (utf8Len pre + 1 + utf8Len c) []]) :=
    .seq (c1 := ⟨pre ++ [','], c ++ r, []⟩) (.param rfl (.literal rfl (.literalOk (m := [',']) rfl (by simp [leafSpec, eatText]) rfl))) .triviaNone h
  cases i with
  | zero => exact .unitFirst h1
  | succ i => exact .unitNext .triviaNone h1

theorem shows_stop {pre r : Text} {i : Nat} (hr : Ends r) (hi : i < usizeMax) : ShowsThrough u recordModule (.reps (.mk [] inner tStep) [] .none 0 usizeMax i) ⟨pre, r, []⟩ ⟨pre, r, []⟩ [] := by
  have h : Leaves u recordModule (.expr (.mk [] outer (.str [',']))) pre r [] (strip [','] r) := leaves_str
  rw [hr.2] at h
  refine .repsStop hi ?_ (by omega)
  cases i with
  | zero => exact .unitFirst (.seqFail (.param rfl h))
  | succ i => exact .unitNext .triviaNone (.seqFail (.param rfl h))

theorem comma_not (t : Text) : Json.Not isField (',' :: t) := not_cons (by decide)

theorem shows_tail {cs : List Text} {t r : Text} (h : Record cs t) (hr : Ends r) : ∀ (i : Nat) (pre : Text), i + (t ++ r).length + 2 < usizeMax →
    ShowsThrough u recordModule (.reps (.mk [] inner tStep) [] .none 0 usizeMax i) ⟨pre, ',' :: (t ++ r), []⟩ ⟨pre ++ [','] ++ t, r, []⟩ (fieldTokens (utf8Len pre + 1) cs) := by
  induction h with
  | one h =>
    intro i pre hl
    exact .repsMore (F := [_]) (G := []) (by omega) (shows_more h hr.1 (by omega)) (shows_stop hr (by omega))
  | @more c cs t h _ ih =>
    intro i pre hl
    simp only [List.length_append, List.length_cons] at hl
    have h1 := shows_more (u := u) (pre := pre) (i := i) (r := ',' :: (t ++ r)) h (comma_not _) (by simp only [List.length_append, List.length_cons]; omega)
    have hpos := List.length_pos_iff.mpr h.1
    have h2 := ih (i + 1) (pre ++ [','] ++ c) (by simp only [List.length_append]; omega)
    have e1 : c ++ ',' :: t ++ r = c ++ ',' :: (t ++ r) := by simp
    have e2 : pre ++ [','] ++ (c ++ ',' :: t) = pre ++ [','] ++ c ++ [','] ++ t := by simp
    have e3 : utf8Len (pre ++ [','] ++ c) = utf8Len pre + 1 + utf8Len c := by rw [utf8Len_append, utf8Len_append]; rfl
    rw [e3] at h2
    rw [e1, e2]
    exact .repsMore (F := [_]) (by omega) h1 h2

theorem shows_record {cs : List Text} {t pre r : Text} (h : Record cs t) (hr : Ends r) (hl : (t ++ r).length + 1 < usizeMax) :
    ShowsThrough u recordModule (.expr (.mk [] [] tRecord)) ⟨pre, t ++ r, []⟩ ⟨pre ++ t, r, []⟩ (fieldTokens (utf8Len pre) cs) := by
  have key : ShowsThrough u recordModule (.expr (.mk [] inner tSeparated)) ⟨pre, t ++ r, []⟩ ⟨pre ++ t, r, []⟩ (fieldTokens (utf8Len pre) cs) := by
    cases h with
    | one h => exact .seq (F := [_]) (G := []) (shows_param h hr.1 hl) .triviaNone (.rep rfl (shows_stop hr (by omega)))
    | @more c cs t h h' =>
      simp only [List.length_append, List.length_cons] at hl
      have h1 := shows_param (u := u) (pre := pre) (r := ',' :: (t ++ r)) h (comma_not _) (by simp only [List.length_append, List.length_cons]; omega)
      have hpos := List.length_pos_iff.mpr h.1
      have h2 := shows_tail (u := u) h' hr 0 (pre ++ c) (by simp only [List.length_append]; omega)
      have e1 : c ++ ',' :: t ++ r = c ++ ',' :: (t ++ r) := by simp
      have e2 : pre ++ (c ++ ',' :: t) = pre ++ c ++ [','] ++ t := by simp
      rw [utf8Len_append] at h2
      rw [e1, e2]
      exact .seq (F := [_]) h1 .triviaNone (.rep rfl h2)
  have h1 := ShowsThrough.call (u := u) (root := recordModule) (p := []) (ρ := outer) (q := [sepName]) (args := [.path [['e']], .str [',']]) (p' := []) (r := sepRule) (by intro x hx; cases hx; rfl) rfl rfl key
  exact ShowsThrough.call (u := u) (root := recordModule) (p := []) (ρ := []) (q := [commaName]) (args := [.path [fieldName]]) (p' := []) (r := commaRule) (fun _ _ => rfl) rfl rfl h1

theorem shows_line {cs : List Text} {t w s pre : Text} {i : Nat} (h : Record cs t) (hw : Break w) (hl : (t ++ (w ++ s)).length + 1 < usizeMax) :
    ShowsThrough u recordModule (.unit (.mk [] [] tLine) [] .none i) ⟨pre, t ++ (w ++ s), []⟩ ⟨pre ++ t ++ w, s, []⟩ [.mk (.rule recordName) (utf8Len pre) (utf8Len pre + utf8Len t) (fieldTokens (utf8Len pre) cs)] := by
  have h1 := ShowsThrough.rule (u := u) (root := recordModule) (p := []) (ρ := []) (q := [recordName]) (p' := []) (r := recordRule) (fun _ _ => rfl) rfl rfl
    (shows_record (u := u) (pre := pre) h (breakF_complete (r := s) hw).2 hl)
  have h2 := leaves_break (u := u) (pre := pre ++ t) (s := w ++ s) (stk := [])
  rw [(breakF_complete hw).1] at h2
  obtain ⟨w', h3, h4⟩ := h2
  obtain rfl := List.append_cancel_right h3
  have h5 : Meaning u recordModule (.expr (.mk [] [] (.str []))) ⟨pre ++ t ++ w, s, []⟩ (some ⟨pre ++ t ++ w ++ [], s, []⟩) := .literalOk rfl (by simp [leafSpec, eatText]) rfl
  rw [List.append_nil] at h5
  have h6 := ShowsThrough.seq h1 h4 (.literal rfl h5)
  simp only [tokens, recordRule, Bool.false_eq_true, if_false, ruleAt, utf8Len_append, List.append_nil] at h6
  cases i with
  | zero => exact .unitFirst h6
  | succ i => exact .unitNext .triviaNone h6

theorem shows_lines {k : Nat} {rs : List (List Text)} {s : Text} {F : List (Pair RuleVal)} (h : FileTokens k rs s F) : ∀ (i : Nat) (pre : Text), k = utf8Len pre → i + s.length + 1 < usizeMax →
    ShowsThrough u recordModule (.reps (.mk [] [] tLine) [] .none 0 usizeMax i) ⟨pre, s, []⟩ ⟨pre ++ s, [], []⟩ F := by
  induction h with
  | nil =>
    intro i pre _ hl
    have h : Meaning u recordModule (.expr (.mk [] [] tLine)) ⟨pre, [], []⟩ none := leaves_line (u := u) (pre := pre) (s := []) (stk := []) (by simp only [List.length_nil] at *; omega)
    rw [List.append_nil]
    refine .repsStop (by omega) ?_ (by omega)
    cases i with
    | zero => exact .unitFirst h
    | succ i => exact .unitNext .triviaNone h
  | @cons k r t w rs s F h1 h2 _ ih =>
    rintro i pre rfl hl
    simp only [List.length_append] at hl
    have hpos : 0 < w.length := by rcases h2 with rfl | rfl <;> simp
    have h4 := ih (i + 1) (pre ++ t ++ w) (by rw [utf8Len_append, utf8Len_append]) (by omega)
    have h5 := shows_line (u := u) (pre := pre) (i := i) (s := s) h1 h2 (by simp only [List.length_append]; omega)
    rw [show pre ++ (t ++ (w ++ s)) = pre ++ t ++ w ++ s by simp]
    exact .repsMore (F := [_]) (by omega) h5 h4

theorem file_tokens {rs : List (List Text)} {s : Text} (h : File rs s) : ∀ k, ∃ F, FileTokens k rs s F := by
  induction h with
  | nil => exact fun k => ⟨[], .nil⟩
  | cons h1 h2 _ ih => exact fun k => (ih _).elim fun F h => ⟨_, .cons h1 h2 h⟩

theorem shows_file {rs : List (List Text)} {s : Text} {F : List (Pair RuleVal)} (h : FileTokens 0 rs s F) (hl : s.length + 1 < usizeMax) :
    ShowsThrough u recordModule (.expr (.mk [] [] tFile)) ⟨[], s, []⟩ ⟨s, [], []⟩ F := by
  have h2 := shows_lines (u := u) h 0 [] rfl (by omega)
  have h3 : Meaning u recordModule (.expr (.mk [] [] (.path soiPath))) ⟨[], s, []⟩ (some ⟨[], s, []⟩) :=
    .builtinOk (full := soiPath) (l := .soi) (m := []) rfl (fun _ _ => rfl) rfl rfl rfl rfl
  have h4 : Meaning u recordModule (.expr (.mk [] [] (.path eoiPath))) ⟨s, [], []⟩ (some ⟨s ++ [], [], []⟩) :=
    .builtinOk (full := eoiPath) (l := .eoi) (m := []) rfl (fun _ _ => rfl) rfl rfl rfl rfl
  rw [List.append_nil] at h4
  have h5 := ShowsThrough.seq (.builtin (q := soiPath) (full := soiPath) (l := .soi) rfl (fun _ _ => rfl) rfl rfl h3) .triviaNone
    (.seq (.rep (e := .rep tLine) rfl h2) .triviaNone (.builtin (q := eoiPath) (full := eoiPath) (l := .eoi) rfl (fun _ _ => rfl) rfl rfl h4))
  rw [List.nil_append, List.append_nil] at h5
  exact h5

end

end Pest3.Records
