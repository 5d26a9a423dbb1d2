import Verif.RecordExample
import Verif.RecordSpec
import Verif.CsvTable

/-!
# What the rules of the grammar of records match
-/

namespace Pest3.Records
open Pest3 Pest3.Gen
open Pest3.Json (Leaves leaves_seq leaves_rep leaves_unit leaves_many1 leaves_or leaves_choice leaves_char leaves_str again one many1 strip strip_some strip_length one_length one_some
  dropWhile_not not_cons not_nil mem_takeWhile strip_cons)
open Pest3.Csv (stepG sepByF)

/-- What the parameters stand for. -/
abbrev params (ci cs : Clo) : List (Name × Clo) := [(['e'], ci), (['s'], cs)]

/-- What is repeated. -/
abbrev tStep : Expr := .seq (.path [['s']]) (.path [['e']]) .none

section
variable {u : Unicode} {root : Module} {stk : List Text} {ci cs : Clo} {item sep : Text → Option Text} {n : Nat}
  (hi : ∀ pre s, s.length ≤ n → Leaves u root (.expr ci) pre s stk (item s)) (hs : ∀ pre s, s.length ≤ n → Leaves u root (.expr cs) pre s stk (sep s))
include hi hs

theorem leaves_step {p : List Name} {pre s : Text} (h : s.length ≤ n) : Leaves u root (.expr (.mk p (params ci cs) tStep)) pre s stk (stepG item sep s) :=
  leaves_seq ((hs pre s h).imp fun _ k => .param rfl k) fun pre' s' _ h' => (hi pre' s' (by omega)).imp fun _ k => .param rfl k

theorem leaves_separated {p : List Name} (hl : ∀ s s', s.length ≤ n → item s = some s' → s'.length < s.length) {pre s : Text} (h : s.length ≤ n) (hn : n + 1 < usizeMax) :
    Leaves u root (.expr (.mk p (params ci cs) tSeparated)) pre s stk (sepByF item sep s) := by
  refine leaves_seq ((hi pre s h).imp fun _ k => .param rfl k) fun pre' s' _ h' => ?_
  have := leaves_rep (u := u) (root := root) (p := p) (ρ := params ci cs) (pre := pre') (stk := stk) (e := .rep tStep) (min := 0) (f := stepG item sep) (o := stepG item sep s') rfl (by omega) (by omega)
    (leaves_step hi hs (by omega)) (fun i pre s h => leaves_unit (leaves_step hi hs (by omega)))
    (fun s1 s2 h1 h2 => by
      obtain ⟨s3, h3, h4⟩ := Option.bind_eq_some_iff.mp h2
      have k := hs [] s1 (by omega)
      rw [h3] at k
      have := k.length
      have := hl s3 s2 (by omega) h4
      omega)
  simp only [again]
  cases h : stepG item sep s' with
  | none => rw [h] at this; exact this
  | some s2 => rw [h] at this; exact this

end

/-! ## Fields, records and line breaks -/

def isField (x : Char) : Bool := decide ('0' ≤ x ∧ x ≤ '9') || (x == '.' || x == '-')

theorem isField_iff {x : Char} : isField x = true ↔ FieldChar x := by simp [isField, FieldChar]

/-- What is left behind a field, a record, a line break, a record and its line break, all of them, and a file. -/
def fieldF : Text → Option Text := many1 isField
def recordF : Text → Option Text := sepByF fieldF (strip [','])
def breakF (s : Text) : Option Text := (strip ['\r', '\n'] s).or (strip ['\n'] s)
def lineF (s : Text) : Option Text := (recordF s).bind breakF
def linesF (s : Text) : Text := again lineF (s.length + 1) s
def fileF (s : Text) : Option Text := if linesF s = [] then some [] else none

section
variable {u : Unicode} {stk : List Text}

theorem leaves_digit {ρ : List (Name × Clo)} (hρ : NotParam ρ digitPath) {pre s : Text} : Leaves u recordModule (.expr (.mk [] ρ (.path digitPath))) pre s stk (one (fun x => decide ('0' ≤ x ∧ x ≤ '9')) s) := by
  cases s with
  | nil => exact .builtinFail (full := digitPath) (l := .range '0' '9') rfl hρ rfl rfl rfl
  | cons x s =>
    by_cases h : '0' ≤ x ∧ x ≤ '9'
    · simp only [one, h, decide_true, and_self, if_true]
      exact ⟨[x], rfl, .builtinOk (full := digitPath) (l := .range '0' '9') rfl hρ rfl rfl (by simp [leafSpec, eatChar, h]) rfl⟩
    · simp only [one, h, decide_false, Bool.false_eq_true, if_false]
      exact .builtinFail (full := digitPath) (l := .range '0' '9') rfl hρ rfl rfl (by simp only [leafSpec, eatChar, decide_eq_true_eq, if_neg h, Option.map_none])

theorem field_body {pre s : Text} (hs : s.length + 1 < usizeMax) : Leaves u recordModule (.expr (.mk [] [] tField)) pre s stk (fieldF s) :=
  leaves_many1 rfl hs fun _ _ => leaves_or (leaves_digit fun _ _ => rfl) (leaves_or leaves_char leaves_char)

theorem leaves_field {pre s : Text} (hs : s.length + 1 < usizeMax) : Leaves u recordModule (.expr (.mk [] [] (.path [fieldName]))) pre s stk (fieldF s) :=
  (field_body hs).imp fun _ k => .rule (fun _ _ => rfl) rfl rfl k

theorem fieldF_length {s s' : Text} (h : fieldF s = some s') : s'.length < s.length := by
  unfold fieldF many1 at h
  obtain ⟨s1, h1, rfl⟩ := Option.map_eq_some_iff.mp h
  have := one_length h1
  have := (List.dropWhile_suffix isField (l := s1)).length_le
  omega

theorem record_body {pre s : Text} (hs : s.length + 1 < usizeMax) : Leaves u recordModule (.expr (.mk [] [] tRecord)) pre s stk (recordF s) := by
  refine Leaves.imp (it := .expr (.mk [] [(['e'], .mk [] [] (.path [fieldName]))] tComma)) ?_ fun _ k => .call (p' := []) (r := commaRule) (fun _ _ => rfl) rfl rfl k
  refine Leaves.imp (it := .expr (.mk [] (params (.mk [] [(['e'], .mk [] [] (.path [fieldName]))] (.path [['e']])) (.mk [] [(['e'], .mk [] [] (.path [fieldName]))] (.str [',']))) tSeparated)) ?_
    fun _ k => .call (p' := []) (r := sepRule) (by intro x hx; cases hx; rfl) rfl rfl k
  exact leaves_separated (n := s.length) (fun _ s' h => (leaves_field (by omega)).imp fun _ k => .param rfl k) (fun _ _ _ => leaves_str) (fun _ _ _ => fieldF_length) (Nat.le_refl _) hs

theorem leaves_record {pre s : Text} (hs : s.length + 1 < usizeMax) : Leaves u recordModule (.expr (.mk [] [] (.path [recordName]))) pre s stk (recordF s) :=
  (record_body hs).imp fun _ k => .rule (fun _ _ => rfl) rfl rfl k

theorem leaves_break {pre s : Text} : Leaves u recordModule (.trivia [] .mandatory) pre s stk (breakF s) :=
  (leaves_choice leaves_str fun _ => leaves_str).imp fun _ k => .triviaRule (m := recordModule) (r := breakRule) rfl rfl k

theorem leaves_line {pre s : Text} (hs : s.length + 1 < usizeMax) : Leaves u recordModule (.expr (.mk [] [] tLine)) pre s stk (lineF s) := by
  unfold lineF
  have h := leaves_record (u := u) (stk := stk) (pre := pre) hs
  cases h1 : recordF s with
  | none => rw [h1] at h; exact .seqFail h
  | some s1 =>
    rw [h1] at h
    obtain ⟨w, rfl, h2⟩ := h
    have h3 := leaves_break (u := u) (stk := stk) (pre := pre ++ w) (s := s1)
    rw [Option.bind_some]
    cases h4 : breakF s1 with
    | none => rw [h4] at h3; exact .seqTriviaFail h2 h3
    | some s2 =>
      rw [h4] at h3
      obtain ⟨v, rfl, h5⟩ := h3
      refine ⟨w ++ v, by simp, ?_⟩
      have h6 : Meaning u recordModule (.expr (.mk [] [] (.str []))) ⟨pre ++ w ++ v, s2, stk⟩ (some ⟨pre ++ w ++ v ++ [], s2, stk⟩) :=
        .literalOk rfl (by simp [leafSpec, eatText]) rfl
      rw [List.append_nil] at h6
      have h7 : Meaning u recordModule (.expr (.mk [] [] tLine)) ⟨pre, w ++ (v ++ s2), stk⟩ (some ⟨pre ++ w ++ v, s2, stk⟩) := .seq h2 h5 h6
      rwa [List.append_assoc pre w v] at h7

theorem breakF_length {s s' : Text} (h : breakF s = some s') : s'.length < s.length := by
  unfold breakF at h
  cases h1 : strip ['\r', '\n'] s with
  | some s1 =>
    rw [h1] at h; cases h
    rw [strip_some.mp h1]; simp only [List.length_append, List.length_cons]; omega
  | none =>
    rw [h1, Option.none_or] at h
    rw [strip_some.mp h]; simp

theorem again_le {f : Text → Option Text} (hf : ∀ s s', f s = some s' → s'.length ≤ s.length) (n : Nat) (s : Text) : (again f n s).length ≤ s.length := by
  induction n generalizing s with
  | zero => exact Nat.le_refl _
  | succ n ih =>
    simp only [again]
    cases h : f s with
    | none => exact Nat.le_refl _
    | some s' => have := hf _ _ h; have := ih s'; dsimp only; omega

theorem recordF_length {s s' : Text} (h : recordF s = some s') : s'.length ≤ s.length := by
  obtain ⟨s1, h1, h2⟩ := Option.bind_eq_some_iff.mp h
  cases h2
  have := fieldF_length h1
  have := again_le (f := stepG fieldF (strip [','])) (fun s s' h => by
    obtain ⟨s2, h3, h4⟩ := Option.bind_eq_some_iff.mp h
    have := fieldF_length h4
    rw [strip_some.mp h3]; simp only [List.length_append]; omega) (s1.length + 1) s1
  omega

theorem lineF_length {s s' : Text} (h : lineF s = some s') : s'.length < s.length := by
  obtain ⟨s1, h1, h2⟩ := Option.bind_eq_some_iff.mp h
  have := recordF_length h1
  have := breakF_length h2
  omega

theorem leaves_lines {pre s : Text} (hs : s.length + 1 < usizeMax) : Leaves u recordModule (.expr (.mk [] [] (.rep tLine))) pre s stk (some (linesF s)) := by
  have := leaves_rep (u := u) (root := recordModule) (p := []) (ρ := []) (pre := pre) (stk := stk) (e := .rep tLine) (min := 0) (f := lineF) (o := lineF s) rfl (by omega) hs
    (leaves_line hs) (fun i pre s h => leaves_unit (leaves_line (by omega))) (fun _ _ _ => lineF_length)
  unfold linesF
  simp only [again]
  cases h : lineF s with
  | none => rw [h] at this; exact this
  | some s2 => rw [h] at this; exact this

theorem leaves_file {s : Text} (hs : s.length + 1 < usizeMax) : Leaves u recordModule (.expr (.mk [] [] tFile)) [] s stk (fileF s) := by
  have h1 : Leaves u recordModule (.expr (.mk [] [] (.path soiPath))) [] s stk (some s) :=
    ⟨[], rfl, .builtinOk (full := soiPath) (l := .soi) rfl (fun _ _ => rfl) rfl rfl rfl rfl⟩
  have h2 : ∀ pre s, Leaves u recordModule (.expr (.mk [] [] (.path eoiPath))) pre s stk (if s = [] then some [] else none) := by
    intro pre s
    cases s with
    | nil => exact ⟨[], rfl, .builtinOk (full := eoiPath) (l := .eoi) rfl (fun _ _ => rfl) rfl rfl rfl rfl⟩
    | cons x s => exact .builtinFail (full := eoiPath) (l := .eoi) rfl (fun _ _ => rfl) rfl rfl rfl
  exact leaves_seq (o := some s) (g := fileF) h1 fun _ s1 _ k1 =>
    leaves_seq (o := some (linesF s1)) (g := fun s => if s = [] then some [] else none) (leaves_lines (by omega)) fun _ s2 _ k2 => h2 _ _

end

/-! ## These are the texts of the specification -/

theorem fieldF_sound {s s' : Text} (h : fieldF s = some s') : ∃ c t, (c = t ∧ Field c) ∧ s = t ++ s' := by
  unfold fieldF many1 at h
  obtain ⟨s1, h1, rfl⟩ := Option.map_eq_some_iff.mp h
  obtain ⟨x, hx, rfl⟩ := one_some h1
  refine ⟨x :: s1.takeWhile isField, _, ⟨rfl, by simp, ?_⟩, by rw [List.cons_append, List.takeWhile_append_dropWhile]⟩
  intro y hy
  rcases List.mem_cons.mp hy with rfl | hy
  · exact isField_iff.mp hx
  · exact isField_iff.mp (mem_takeWhile hy)

theorem fieldF_complete {c r : Text} (hc : Field c) (hr : Json.Not isField r) : fieldF (c ++ r) = some r := by
  obtain ⟨h1, h2⟩ := hc
  cases c with
  | nil => exact absurd rfl h1
  | cons x c =>
    have hx : isField x = true := isField_iff.mpr (h2 x List.mem_cons_self)
    simp only [fieldF, many1, List.cons_append, one, hx, if_true, Option.map_some]
    rw [dropWhile_not (fun y hy => isField_iff.mpr (h2 y (List.mem_cons_of_mem _ hy))) hr]

theorem field_run (t : Text) : fieldF t = some [] ↔ Field t := by
  constructor
  · intro h
    obtain ⟨c, t', ⟨rfl, h1⟩, h2⟩ := fieldF_sound h
    rw [List.append_nil] at h2
    exact h2 ▸ h1
  · intro h
    have := fieldF_complete (r := []) h not_nil
    rwa [List.append_nil] at this

theorem record_joined {cs : List Text} {t : Text} (h : Csv.Joined (fun c t => c = t ∧ Field c) (· = [',']) cs t) : Record cs t := by
  induction h with
  | one h => obtain ⟨rfl, h⟩ := h; exact .one h
  | more h hw _ ih => obtain ⟨rfl, h⟩ := h; subst hw; exact .more h ih

theorem recordF_sound {s s' : Text} (h : recordF s = some s') : ∃ cs t, Record cs t ∧ s = t ++ s' := by
  obtain ⟨cs, t, h1, h2⟩ := Csv.joined_sound (I := fun c t => c = t ∧ Field c) (S := (· = [','])) (fun _ _ => fieldF_sound) (fun s s' h => ⟨[','], rfl, strip_some.mp h⟩) h
  exact ⟨cs, t, record_joined h1, h2⟩

/-- Nothing of a record can follow. -/
def Ends (r : Text) : Prop := Json.Not isField r ∧ strip [','] r = none

theorem record_tail {cs : List Text} {t : Text} (h : Record cs t) {r : Text} (hr : Ends r) :
    ∃ s, fieldF (t ++ r) = some s ∧ ∀ n, s.length ≤ n → again (stepG fieldF (strip [','])) n s = r := by
  induction h with
  | one h =>
    refine ⟨r, fieldF_complete h hr.1, fun n _ => ?_⟩
    cases n with
    | zero => rfl
    | succ n => simp only [again, stepG, hr.2, Option.bind_none]
  | @more c cs t h _ ih =>
    obtain ⟨s, h1, h2⟩ := ih
    refine ⟨',' :: (t ++ r), ?_, fun n hn => ?_⟩
    · rw [List.append_assoc, List.cons_append]
      exact fieldF_complete h (not_cons (by decide))
    · cases n with
      | zero => simp at hn
      | succ n =>
        have := fieldF_length h1
        simp only [List.length_cons] at hn
        simp only [again, stepG, strip_cons, Option.bind_some, h1]
        exact h2 n (by omega)

theorem recordF_complete {cs : List Text} {t r : Text} (h : Record cs t) (hr : Ends r) : recordF (t ++ r) = some r := by
  obtain ⟨s, h1, h2⟩ := record_tail h hr
  unfold recordF sepByF
  rw [h1, Option.bind_some, h2 _ (by omega)]

theorem record_run (t : Text) : recordF t = some [] ↔ ∃ cs, Record cs t := by
  constructor
  · intro h
    obtain ⟨cs, t', h1, h2⟩ := recordF_sound h
    rw [List.append_nil] at h2
    exact ⟨cs, h2 ▸ h1⟩
  · rintro ⟨cs, h⟩
    have := recordF_complete (r := []) h ⟨not_nil, rfl⟩
    rwa [List.append_nil] at this

theorem breakF_sound {s s' : Text} (h : breakF s = some s') : ∃ w, Break w ∧ s = w ++ s' := by
  unfold breakF at h
  cases h1 : strip ['\r', '\n'] s with
  | some s1 => rw [h1] at h; cases h; exact ⟨_, .inl rfl, strip_some.mp h1⟩
  | none => rw [h1, Option.none_or] at h; exact ⟨_, .inr rfl, strip_some.mp h⟩

theorem breakF_complete {w r : Text} (h : Break w) : breakF (w ++ r) = some r ∧ Ends (w ++ r) := by
  rcases h with rfl | rfl
  · exact ⟨by simp [breakF, strip], not_cons (by decide), by simp [strip]⟩
  · exact ⟨by simp [breakF, strip], not_cons (by decide), by simp [strip]⟩

theorem lines_sound : ∀ (n : Nat) (s : Text), again lineF n s = [] → ∃ rs, File rs s := by
  intro n
  induction n with
  | zero => rintro s rfl; exact ⟨[], .nil⟩
  | succ n ih =>
    intro s h
    simp only [again] at h
    cases h1 : lineF s with
    | none => rw [h1] at h; dsimp only at h; subst h; exact ⟨[], .nil⟩
    | some s1 =>
      rw [h1] at h
      obtain ⟨rs, h2⟩ := ih s1 h
      obtain ⟨s2, h3, h4⟩ := Option.bind_eq_some_iff.mp h1
      obtain ⟨r, t, h5, rfl⟩ := recordF_sound h3
      obtain ⟨w, h6, rfl⟩ := breakF_sound h4
      exact ⟨r :: rs, .cons h5 h6 h2⟩

theorem lines_complete {rs : List (List Text)} {s : Text} (h : File rs s) : ∀ n, s.length ≤ n → again lineF n s = [] := by
  induction h with
  | nil => intro n _; cases n <;> rfl
  | @cons r t w rs s h1 h2 _ ih =>
    intro n hn
    have e : lineF (t ++ (w ++ s)) = some s := by
      unfold lineF
      rw [recordF_complete h1 (breakF_complete h2).2, Option.bind_some, (breakF_complete h2).1]
    have := lineF_length e
    cases n with
    | zero => omega
    | succ n => simp only [again, e]; exact ih n (by omega)

theorem file_run (s : Text) : fileF s = some [] ↔ ∃ rs, File rs s := by
  have : fileF s = some [] ↔ linesF s = [] := by
    unfold fileF
    split <;> simp_all
  rw [this]
  exact ⟨lines_sound _ s, fun ⟨rs, h⟩ => lines_complete h _ (by omega)⟩

end Pest3.Records
