import Verif.CalcLanguage
import Verif.CalcRead
import Verif.CalcWell
import Verif.Props.Json

/-!
# The calculator parser of the examples (`derive/tests/calc.rs`)
-/

namespace Pest3.Calc
open Pest3 Pest3.Gen Pest3.Load Pest3.Props
open Pest3.Json (baseText baseItems baseModule loads_rules)

/-! ## The files -/

/-- The two files are read as the rules of the model. -/
theorem C94_files : Reads calcText calcItems ∧ Reads baseText baseItems := ⟨reads_run calc_read, Json.C93_files.2⟩

/-- `#[grammar = "tests/calc.pest"]` (`derive/tests/calc.rs:8`). -/
def calcPath : Text := "tests/calc.pest".toList

/-- The declaration has that attribute as its only grammar, and the two files are where they are found. -/
structure Project (env : Setting) (attrs : List Attr) : Prop where
  faithful : Faithful env.world
  understood : ∀ a ∈ attrs, Understood env.ident a
  source : attrs.filterMap sourceOf = [.file calcPath]
  grammar : env.world.read (env.locate calcPath) = some calcText
  base : env.world.read { env.locate calcPath with comps := (env.locate calcPath).comps.dropLast ++ ["common".toList, "base.pest".toList] } = some baseText

theorem locate_last (env : Setting) : ∃ d, (env.locate calcPath).comps = d ++ ["calc.pest".toList] := by
  have hp : pathOf calcPath = ⟨false, ["tests".toList, "calc.pest".toList]⟩ := by decide +kernel
  have hj : ∀ p : FPath, ∃ d, (p.join (pathOf calcPath)).comps = d ++ ["calc.pest".toList] := by
    intro p
    rw [hp, FPath.join]
    simp only [Bool.false_eq_true, if_false]
    split
    · exact ⟨["tests".toList], rfl⟩
    · refine ⟨p.comps ++ ["tests".toList], ?_⟩
      have : ["tests".toList, "calc.pest".toList].filter (fun x => decide (x ≠ dot)) = ["tests".toList, "calc.pest".toList] := by decide
      rw [this]
      simp
  unfold Setting.locate
  split
  · exact hj _
  · exact hj _

theorem project_modules {env : Setting} {attrs : List Attr} (P : Project env attrs) : Modules env (attrs.filterMap sourceOf) [calcModule] := by
  rw [P.source]
  obtain ⟨d, hd⟩ := locate_last env
  have hname : (env.locate calcPath).fileName = some "calc.pest".toList := by
    rw [FPath.fileName, hd, List.getLast?_concat]
    decide
  refine .cons (.file (by rw [hname]; simp) P.grammar) (.file ((P.faithful _ _).mpr C94_files.1) ?_) .nil
  have hbase : Loads env.world (.file { env.locate calcPath with comps := (env.locate calcPath).comps.dropLast ++ ["common".toList, "base.pest".toList] } baseText baseModule) :=
    .file ((P.faithful _ _).mpr C94_files.2) (loads_rules _)
  refine .file_ (x := alias) rfl (by decide) ?_ P.base hbase (loads_rules _)
  have hext : (env.locate calcPath).extension = some pestExt := by
    rw [FPath.extension, hname]
    decide
  have hpar : ((env.locate calcPath).push "_.rs".toList).parent = some (env.locate calcPath) := by
    simp [FPath.parent, FPath.push]
  have : ∀ p : FPath, (({ p with comps := p.comps ++ ["common".toList] } : FPath).push "base".toList).withExtension pestExt = { p with comps := p.comps ++ ["common".toList, "base.pest".toList] } := by
    intro p
    have h1 : (({ p with comps := p.comps ++ ["common".toList] } : FPath).push "base".toList).fileName = some "base".toList := by
      rw [FPath.fileName, FPath.push, List.getLast?_concat]
      decide
    rw [FPath.withExtension, h1]
    simp only [FPath.push, List.dropLast_concat]
    rw [List.append_assoc]
    congr
  show modPathToFsPath _ _ = _
  rw [modPathToFsPath, hpar]
  simp only [hext, if_true]
  exact congrArg some (this { env.locate calcPath with comps := (env.locate calcPath).comps.dropLast })

theorem united_calc : united [calcModule] = calcModule := by simp [united, calcModule, Module.rules, Module.imports]

/-! ## The language -/

/-- The rule `program` matches the expressions of the examples and nothing else. -/
theorem calc_means {u : Unicode} (inp : Str) (hs : inp.text.length + 1 < usizeMax) (o : Option Cfg) : Meaning u calcModule (.expr (.mk [] [] cProgram)) (startCfg inp) o ↔
    (Program sample inp.text ∧ o = some ⟨inp.text, [], []⟩) ∨ (¬ Program sample inp.text ∧ o = none) := by
  have h := leaves_program (u := u) (stk := []) hs
  by_cases hj : Program sample inp.text
  · rw [if_pos (programF_iff.mpr hj)] at h
    obtain ⟨w, h1, h2⟩ := h
    rw [List.append_nil] at h1
    subst h1
    constructor
    · exact fun k => .inl ⟨hj, (h2.det _ k).symm⟩
    · rintro (⟨-, rfl⟩ | ⟨h, -⟩)
      · exact h2
      · exact absurd hj h
  · rw [if_neg (fun k => hj (programF_iff.mp k))] at h
    constructor
    · exact fun k => .inr ⟨hj, (Meaning.det h _ k).symm⟩
    · rintro (⟨h, -⟩ | ⟨-, rfl⟩)
      · exact absurd h hj
      · exact h

section
variable {S : Type} {so : StackOps S} {saved : S → List (List Span)} (hls : Lawful so saved) {env : Setting} {attrs : List Attr} (P : Project env attrs) {table : Name → Char → Bool}
include hls P

/-- The macro generates a parser for the example, and the struct `program` accepts exactly the expressions of the dialect `sample` and rejects all others. -/
theorem C94_parser : (∃ fuel d, derive env fuel attrs = .ok d) ∧ ∀ fuel d, derive env fuel attrs = .ok d →
    (∃ R e lab, Linked (unicodeOf env.unicodeNames table) d.code.1 d.code.2.wrappers R e ∧ Labelled d.code.1 R e lab) ∧
    ∀ R e lab, Linked (unicodeOf env.unicodeNames table) d.code.1 d.code.2.wrappers R e → Labelled d.code.1 R e lab → ∀ inp : Str, inp.text.length + 1 < usizeMax →
      ((∃ n t, tryParse so e n (.rule (R.num [] "program".toList [])) inp = .ok (.ok t)) ↔ Program sample inp.text) ∧
      ((∃ n trk, tryParse so e n (.rule (R.num [] "program".toList [])) inp = .ok (.error trk)) ↔ ¬ Program sample inp.text) := by
  have hm := project_modules P
  have hs : ∀ x, ¬ SilentName (united [calcModule]) x := by rw [united_calc]; exact calc_silent
  have hn : AllNamed (unicodeOf env.unicodeNames table) (united [calcModule]) := by rw [united_calc]; exact calc_named
  refine ⟨(C75_accepted hm hs hn).mpr ⟨P.understood, by rw [P.source]; simp, by rw [united_calc]; exact calc_scoped⟩, fun fuel d hd => ?_⟩
  obtain ⟨h1, h2⟩ := C75_parser (table := table) hls hd hm hs hn
  refine ⟨h1 fun m' h => calc_acyclic (by rwa [united_calc] at h), fun R e lab hl hlab inp hi => ?_⟩
  have h3 := h2 R e lab hl hlab [] calcModule ⟨['p', 'r', 'o', 'g', 'r', 'a', 'm'], [], cProgram, false⟩ (by rw [united_calc]; rfl) (by simp [calcModule, Module.rules, calcRules])
    (by show ['p', 'r', 'o', 'g', 'r', 'a', 'm'] ≠ _; decide) (by show ['p', 'r', 'o', 'g', 'r', 'a', 'm'] ≠ _; decide) rfl inp
  rw [united_calc] at h3
  obtain ⟨h4, -, h5, -⟩ := h3
  constructor
  · refine h4.trans ⟨?_, fun h => ⟨[], (calc_means inp hi _).mpr (.inl ⟨h, rfl⟩)⟩⟩
    rintro ⟨stk, h⟩
    rcases (calc_means inp hi _).mp h with ⟨h, -⟩ | ⟨-, h⟩
    · exact h
    · cases h
  · refine h5.trans ⟨?_, fun h => .inl ((calc_means inp hi _).mpr (.inr ⟨h, rfl⟩))⟩
    rintro (h | ⟨c, h, hc⟩)
    · rcases (calc_means inp hi _).mp h with ⟨-, h⟩ | ⟨h, -⟩
      · cases h
      · exact h
    · rcases (calc_means inp hi _).mp h with ⟨-, h⟩ | ⟨-, h⟩
      · cases h; exact absurd rfl hc
      · cases h

end

/-! ## Blanks anywhere -/

theorem bool_mono {a b : Bool} (h : a = true → b = true) (hb : b = false) : a = false := by
  cases a with
  | false => rfl
  | true => rw [h rfl] at hb; cases hb

theorem Signs.mono {D D' : Dialect} (h : D.le D') {s : Text} (hs : Signs D s) : Signs D' s := by
  induction hs with
  | nil => exact .nil
  | cons h1 h2 _ ih => exact .cons h1 (fun a b => h2 a (bool_mono h.signs b)) ih

theorem Marks.mono {D D' : Dialect} (h : D.le D') {b : Bool} {s : Text} (hs : Marks D b s) : Marks D' b s := by
  induction hs with
  | nil => exact .nil
  | cons h1 h2 _ ih => exact .cons h1 (fun a b => h2 a (bool_mono h.marks b)) ih

theorem Expression.mono {D D' : Dialect} (h : D.le D') {k : Kind} {t : Text} (ht : Expression D k t) : Expression D' k t := by
  induction ht with
  | number h1 => exact .number h1
  | group h1 _ h2 ih => exact .group h1 ih h2
  | operand h1 _ h2 h3 ih => exact .operand (h1.mono h) ih (h2.mono h) h3
  | last _ ih => exact .last ih
  | more _ h1 h2 h3 h4 _ ih ih' => exact .more ih h1 (fun a b c => h2 a b (bool_mono h.room c)) h3 h4 ih'

theorem Program.mono {D D' : Dialect} (h : D.le D') {t : Text} (ht : Program D t) : Program D' t := by
  obtain ⟨w, e, w', h1, h2, h3, h4⟩ := ht
  exact ⟨w, e, w', h1, h2.mono h, h3, h4⟩

/-- No blanks stand between two minus signs, between two marks, or between a mark and an operator. -/
def Apart (t : Text) : Prop := ∀ a x w y b, t = a ++ x :: (w ++ y :: b) → Json.Blank w → w ≠ [] → (x = '-' → y ≠ '-') ∧ (x = '!' → y ≠ '!' ∧ ¬ Operator y)

theorem Apart.part {t a s b : Text} (h : Apart t) (ht : t = a ++ s ++ b) : Apart s := by
  intro a' x w y b' hs hw hn
  refine h (a ++ a') x w y (b' ++ b) ?_ hw hn
  rw [ht, hs]
  simp

theorem Signs.tight {s : Text} (hs : Signs free s) : Apart s → Signs sample s := by
  induction hs with
  | nil => exact fun _ => .nil
  | @cons w s hw _ hs ih =>
    intro ha
    refine .cons hw (fun hn _ => ?_) (ih (ha.part (a := '-' :: w) (b := []) (by simp)))
    cases hs with
    | nil => exact absurd rfl hn
    | cons =>
      refine Classical.byContradiction fun hne => ?_
      exact (ha [] '-' w '-' _ rfl hw hne).1 rfl rfl

theorem Marks.tight {first : Bool} {m : Text} (hm : Marks free first m) : Apart m → (first = false → Apart ('!' :: m)) → Marks sample first m := by
  induction hm with
  | nil => exact fun _ _ => .nil
  | @cons first w s hw _ hs ih =>
    intro ha hf
    have h1 : Apart ('!' :: s) := ha.part (a := w) (b := []) (by simp)
    refine .cons hw (fun hb _ => ?_) (ih (h1.part (a := ['!']) (b := []) (by simp)) fun _ => h1)
    refine Classical.byContradiction fun hne => ?_
    exact ((hf hb [] '!' w '!' s rfl hw hne).2 rfl).1 rfl

theorem Marks.last {D : Dialect} {first : Bool} {m : Text} (hm : Marks D first m) : m ≠ [] → ∃ m', m = m' ++ ['!'] := by
  induction hm with
  | nil => exact fun h => absurd rfl h
  | @cons _ w s _ _ _ ih =>
    intro _
    by_cases h : s = []
    · subst h; exact ⟨w, rfl⟩
    · obtain ⟨m', rfl⟩ := ih h
      exact ⟨w ++ '!' :: m', by simp⟩

theorem marked_last {D : Dialect} {o : Text} (h : Expression D (.operand true) o) : ∃ o', o = o' ++ ['!'] := by
  cases h with
  | @operand s p m _ _ _ hm hk =>
    obtain ⟨m', rfl⟩ := hm.last (hk.mp rfl)
    exact ⟨s ++ p ++ m', by simp⟩

theorem Expression.tight {k : Kind} {t : Text} (h : Expression free k t) : Apart t → Expression sample k t := by
  induction h with
  | number h1 => exact fun _ => .number h1
  | @group w e w' h1 _ h2 ih => exact fun ha => .group h1 (ih (ha.part (a := '(' :: w) (b := w' ++ [')']) (by simp))) h2
  | @operand s p m _ h1 _ h2 h3 ih =>
    exact fun ha => .operand (h1.tight (ha.part (a := []) (b := p ++ m) (by simp))) (ih (ha.part (a := s) (b := m) (by simp))) (h2.tight (ha.part (a := s ++ p) (b := []) (by simp)) (by simp)) h3
  | last _ ih => exact fun ha => .last (ih ha)
  | @more o marked first w x w' e ho h1 _ h3 h4 _ ih ih' =>
    intro ha
    refine .more (ih (ha.part (a := []) (b := w ++ x :: (w' ++ e)) (by simp))) h1 (fun _ hm _ => ?_) h3 h4 (ih' (ha.part (a := o ++ w ++ x :: w') (b := []) (by simp)))
    refine Classical.byContradiction fun hne => ?_
    subst hm
    obtain ⟨o', rfl⟩ := marked_last ho
    exact ((ha o' '!' w x (w' ++ e) (by simp) h1 hne).2 rfl).2 h3

/-- What is accepted is an expression; and an expression is accepted unless there are blanks between two minus signs, between two marks, or between a mark and an operator. -/
theorem C94_free_partial {t : Text} : (Program sample t → Program free t) ∧ (Program free t → Apart t → Program sample t) := by
  refine ⟨fun h => h.mono ⟨fun _ => rfl, fun _ => rfl, fun _ => rfl⟩, ?_⟩
  rintro ⟨w, e, w', h1, h2, h3, h4⟩ ha
  exact ⟨w, e, w', h1, h2.tight (ha.part h4), h3, h4⟩

theorem digit_expression {D : Dialect} {x : Char} (h : '1' ≤ x ∧ x ≤ '9') : Expression D .primary [x] := .number (.other h (by simp))

/-- `1 + 2! + 3` is an expression but rejected, whereas `1! + 2 + 3`, `1 + 2 + 3!` and `1 + 2!+ 3` are accepted. -/
theorem C94_room_witness : Program free "1 + 2! + 3".toList ∧ ¬ Program sample "1 + 2! + 3".toList ∧
    Program sample "1! + 2 + 3".toList ∧ Program sample "1 + 2 + 3!".toList ∧ Program sample "1 + 2!+ 3".toList := by
  refine ⟨⟨[], _, [], .nil, .more (w := [' ']) (x := '+') (w' := [' ']) (.operand (marked := false) .nil (digit_expression (x := '1') (by decide)) .nil (by simp)) Json.blank_singleton (by simp) (by simp [Operator])
      Json.blank_singleton (.more (w := [' ']) (x := '+') (w' := [' ']) (.operand (marked := true) .nil (digit_expression (x := '2') (by decide)) (.cons (w := []) .nil (by simp) .nil) (by simp)) Json.blank_singleton
      (by simp [free]) (by simp [Operator]) Json.blank_singleton (.last (.operand (marked := false) .nil (digit_expression (x := '3') (by decide)) .nil (by simp)))), .nil, by decide⟩, ?_, ?_, ?_, ?_⟩
  all_goals (rw [← programF_iff]; decide +kernel)

/-- `- -1` is an expression but rejected, whereas `--1`, `- 1` and `1 - -1` are accepted. -/
theorem C94_signs_witness : Program free "- -1".toList ∧ ¬ Program sample "- -1".toList ∧ Program sample "--1".toList ∧ Program sample "- 1".toList ∧ Program sample "1 - -1".toList := by
  refine ⟨⟨[], _, [], .nil, .last (.operand (marked := false) (.cons (w := [' ']) Json.blank_singleton (by simp [free]) (.cons (w := []) .nil (by simp) .nil)) (digit_expression (x := '1') (by decide)) .nil (by simp)),
    .nil, by decide⟩, ?_, ?_, ?_, ?_⟩
  all_goals (rw [← programF_iff]; decide +kernel)

/-- `1! !` is an expression but rejected, whereas `1!!` and `1 !` are accepted. -/
theorem C94_marks_witness : Program free "1! !".toList ∧ ¬ Program sample "1! !".toList ∧ Program sample "1!!".toList ∧ Program sample "1 !".toList := by
  refine ⟨⟨[], _, [], .nil, .last (.operand (marked := true) .nil (digit_expression (x := '1') (by decide)) (.cons (w := []) .nil (by simp) (.cons (w := [' ']) Json.blank_singleton (by simp [free]) .nil)) (by simp)),
    .nil, by decide⟩, ?_, ?_, ?_⟩
  all_goals (rw [← programF_iff]; decide +kernel)

/-! ### Examples -/

private def env (w : World) : Setting := ⟨some "/p".toList, ⟨true, ["p".toList]⟩, fun p => p == ⟨true, ["p".toList, "tests".toList, "calc.pest".toList]⟩, fun _ => false, [], w⟩

private def attrs : List Attr := [⟨some "grammar".toList, .str calcPath⟩]

private def disk (p : FPath) : Option Text :=
  if p = ⟨true, ["p".toList, "tests".toList, "calc.pest".toList]⟩ then some calcText
  else if p = ⟨true, ["p".toList, "tests".toList, "common".toList, "base.pest".toList]⟩ then some baseText else none

private theorem env_locate (w : World) : (env w).locate calcPath = ⟨true, ["p".toList, "tests".toList, "calc.pest".toList]⟩ :=
  (C71_file (env w) (.inl (by show (pathOf "/p".toList).abs = true; decide)) ["tests".toList, "calc.pest".toList] (by simp) (by decide)).1
    (by show ((⟨(pathOf "/p".toList).abs, (pathOf "/p".toList).comps ++ ["tests".toList, "calc.pest".toList]⟩ : FPath) == ⟨true, ["p".toList, "tests".toList, "calc.pest".toList]⟩) = true; decide)

/-- With the two files in place the parser is generated, accepts the text of the example and rejects the other one (`derive/tests/calc.rs:19-27`). -/
example : ∃ (w : World) (fuel : Nat) (d : Derived) (R : Layout) (e : Env), Project (env w) attrs ∧ derive (env w) fuel attrs = .ok d ∧
    Linked (unicodeOf [] fun _ _ => false) d.code.1 d.code.2.wrappers R e ∧
    (∃ n t, tryParse idealOps e n (.rule (R.num [] "program".toList [])) ⟨0, "3 + 4 * 5".toList⟩ = .ok (.ok t)) ∧
    (∃ n trk, tryParse idealOps e n (.rule (R.num [] "program".toList [])) ⟨0, "3 + * 4".toList⟩ = .ok (.error trk)) := by
  obtain ⟨w, hr, hw, -⟩ := C67_world disk
  have P : Project (env w) attrs := by
    refine ⟨hw, ?_, by decide, ?_, ?_⟩
    · intro a ha
      cases List.mem_singleton.mp ha
      exact ⟨fun x _ _ => ⟨_, rfl⟩, fun x hx h => by cases h; exact absurd hx (by decide), fun h => absurd h (by show ¬ some "grammar".toList = some "rules_mod".toList; decide)⟩
    · rw [env_locate]
      show w.read _ = _
      rw [hr, disk, if_pos rfl]
    · rw [env_locate]
      show w.read _ = _
      rw [hr, disk, if_neg (by decide), if_pos (by decide)]
  obtain ⟨⟨fuel, d, h1⟩, h2⟩ := C94_parser (table := fun _ _ => false) ideal_lawful P
  obtain ⟨⟨R, e, lab, h3, h4⟩, h5⟩ := h2 fuel d h1
  refine ⟨w, fuel, d, R, e, P, h1, h3, ?_, ?_⟩
  · refine ((h5 R e lab h3 h4 ⟨0, _⟩ (by decide)).1).mpr ?_
    rw [← programF_iff]
    decide +kernel
  · refine ((h5 R e lab h3 h4 ⟨0, _⟩ (by decide)).2).mpr ?_
    rw [← programF_iff]
    decide +kernel

/-- A text to which both parts of `C94_free_partial` apply. -/
example : Program free "1!".toList ∧ Apart "1!".toList := by
  refine ⟨⟨[], _, [], .nil, .last (.operand (marked := true) .nil (digit_expression (x := '1') (by decide)) (.cons (w := []) .nil (by simp) .nil) (by simp)), .nil, by decide⟩, ?_⟩
  intro a x w y b h hw hn
  have := congrArg List.length h
  simp only [List.length_append, List.length_cons] at this
  have h2 : "1!".toList.length = 2 := by decide
  cases w with
  | nil => exact absurd rfl hn
  | cons z w => simp only [List.length_cons] at this; omega

end Pest3.Calc
