import Verif.JsonLanguage
import Verif.JsonRead
import Verif.JsonWell
import Verif.MeaningInv
import Verif.Props.EndToEnd

/-!
# The JSON parser of the examples (`derive/tests/json.rs`)
-/

namespace Pest3.Json
open Pest3 Pest3.Gen Pest3.Load Pest3.Props

/-! ## The files -/

/-- The two files are read as the rules of the model. -/
theorem C93_files : Reads jsonText jsonItems ∧ Reads baseText baseItems := ⟨reads_run json_read, reads_run base_read⟩

/-- `#[grammar = "tests/json.pest"]` (`derive/tests/json.rs:12`). -/
def jsonPath : Text := "tests/json.pest".toList

/-- The declaration has that attribute as its only grammar, and the two files are where they are found. -/
structure Project (env : Setting) (attrs : List Attr) : Prop where
  faithful : Faithful env.world
  understood : ∀ a ∈ attrs, Understood env.ident a
  source : attrs.filterMap sourceOf = [.file jsonPath]
  json : env.world.read (env.locate jsonPath) = some jsonText
  base : env.world.read { env.locate jsonPath with comps := (env.locate jsonPath).comps.dropLast ++ ["common".toList, "base.pest".toList] } = some baseText

theorem locate_last (env : Setting) : ∃ d, (env.locate jsonPath).comps = d ++ ["json.pest".toList] := by
  have hp : pathOf jsonPath = ⟨false, ["tests".toList, "json.pest".toList]⟩ := by decide +kernel
  have hj : ∀ p : FPath, ∃ d, (p.join (pathOf jsonPath)).comps = d ++ ["json.pest".toList] := by
    intro p
    rw [hp, FPath.join]
    simp only [Bool.false_eq_true, if_false]
    split
    · exact ⟨["tests".toList], rfl⟩
    · refine ⟨p.comps ++ ["tests".toList], ?_⟩
      have : ["tests".toList, "json.pest".toList].filter (fun x => decide (x ≠ dot)) = ["tests".toList, "json.pest".toList] := by decide
      rw [this]
      simp
  unfold Setting.locate
  split
  · exact hj _
  · exact hj _

theorem loads_rules {w : World} {root : FPath} (l : List Rule) : Loads w (.items root (l.map .rule) l []) := by
  induction l with
  | nil => exact .nil
  | cons r l ih => exact .rule ih

theorem project_modules {env : Setting} {attrs : List Attr} (P : Project env attrs) : Modules env (attrs.filterMap sourceOf) [jsonModule] := by
  rw [P.source]
  obtain ⟨d, hd⟩ := locate_last env
  have hname : (env.locate jsonPath).fileName = some "json.pest".toList := by
    rw [FPath.fileName, hd, List.getLast?_concat]
    decide
  refine .cons (.file (by rw [hname]; simp) P.json) (.file ((P.faithful _ _).mpr C93_files.1) ?_) .nil
  have hbase : Loads env.world (.file { env.locate jsonPath with comps := (env.locate jsonPath).comps.dropLast ++ ["common".toList, "base.pest".toList] } baseText baseModule) :=
    .file ((P.faithful _ _).mpr C93_files.2) (loads_rules _)
  refine .doc (.doc (.doc (.doc (.doc (.doc (.file_ (x := ['p']) rfl (by decide) ?_ P.base hbase (loads_rules _)))))))
  have hext : (env.locate jsonPath).extension = some pestExt := by
    rw [FPath.extension, hname]
    decide
  have hpar : ((env.locate jsonPath).push "_.rs".toList).parent = some (env.locate jsonPath) := by
    simp [FPath.parent, FPath.push]
  have : ∀ p : FPath, (({ p with comps := p.comps ++ ["common".toList] } : FPath).push "base".toList).withExtension pestExt = { p with comps := p.comps ++ ["common".toList, "base.pest".toList] } := by
    intro p
    have h1 : (({ p with comps := p.comps ++ ["common".toList] } : FPath).push "base".toList).fileName = some "base".toList := by
      rw [FPath.fileName, FPath.push, List.getLast?_concat]
      decide
    rw [FPath.withExtension, h1]
    simp only [FPath.push, List.dropLast_concat]
    rw [List.append_assoc]
    congr
  show modPathToFsPath _ _ = _
  rw [modPathToFsPath, hpar]
  simp only [hext, if_true]
  exact congrArg some (this { env.locate jsonPath with comps := (env.locate jsonPath).comps.dropLast })

theorem united_json : united [jsonModule] = jsonModule := by simp [united, jsonModule, Module.rules, Module.imports]

/-! ## The language -/

/-- The rule `json` matches the JSON texts of the examples and nothing else. -/
theorem json_means {u : Unicode} (inp : Str) (hs : inp.text.length + 1 < usizeMax) (o : Option Cfg) : Meaning u jsonModule (.expr (.mk [] [] rJson)) (startCfg inp) o ↔
    (JsonText sample inp.text ∧ o = some ⟨inp.text, [], []⟩) ∨ (¬ JsonText sample inp.text ∧ o = none) := by
  have h := leaves_json (u := u) (stk := []) hs
  by_cases hj : JsonText sample inp.text
  · rw [if_pos (jsonF_iff.mpr hj)] at h
    obtain ⟨w, h1, h2⟩ := h
    rw [List.append_nil] at h1
    subst h1
    constructor
    · exact fun k => .inl ⟨hj, (h2.det _ k).symm⟩
    · rintro (⟨-, rfl⟩ | ⟨h, -⟩)
      · exact h2
      · exact absurd hj h
  · rw [if_neg (fun k => hj (jsonF_iff.mp k))] at h
    constructor
    · exact fun k => .inr ⟨hj, (Meaning.det h _ k).symm⟩
    · rintro (⟨h, -⟩ | ⟨-, rfl⟩)
      · exact absurd h hj
      · exact h

section
variable {S : Type} {so : StackOps S} {saved : S → List (List Span)} (hls : Lawful so saved) {env : Setting} {attrs : List Attr} (P : Project env attrs) {table : Name → Char → Bool}
include hls P

/-- The macro generates a parser for the example, and the struct `json` accepts exactly the JSON texts of the dialect `sample` and rejects all others. -/
theorem C93_parser : (∃ fuel d, derive env fuel attrs = .ok d) ∧ ∀ fuel d, derive env fuel attrs = .ok d →
    (∃ R e lab, Linked (unicodeOf env.unicodeNames table) d.code.1 d.code.2.wrappers R e ∧ Labelled d.code.1 R e lab) ∧
    ∀ R e lab, Linked (unicodeOf env.unicodeNames table) d.code.1 d.code.2.wrappers R e → Labelled d.code.1 R e lab → ∀ inp : Str, inp.text.length + 1 < usizeMax →
      ((∃ n t, tryParse so e n (.rule (R.num [] "json".toList [])) inp = .ok (.ok t)) ↔ JsonText sample inp.text) ∧
      ((∃ n trk, tryParse so e n (.rule (R.num [] "json".toList [])) inp = .ok (.error trk)) ↔ ¬ JsonText sample inp.text) := by
  have hm := project_modules P
  have hs : ∀ x, ¬ SilentName (united [jsonModule]) x := by rw [united_json]; exact json_silent
  have hn : AllNamed (unicodeOf env.unicodeNames table) (united [jsonModule]) := by rw [united_json]; exact json_named
  refine ⟨(C75_accepted hm hs hn).mpr ⟨P.understood, by rw [P.source]; simp, by rw [united_json]; exact json_scoped⟩, fun fuel d hd => ?_⟩
  obtain ⟨h1, h2⟩ := C75_parser (table := table) hls hd hm hs hn
  refine ⟨h1 fun m' h => json_acyclic (by rwa [united_json] at h), fun R e lab hl hlab inp hi => ?_⟩
  have h3 := h2 R e lab hl hlab [] jsonModule ⟨['j', 's', 'o', 'n'], [], rJson, false⟩ (by rw [united_json]; rfl) (by simp [jsonModule, Module.rules, jsonRules]) (by show ['j', 's', 'o', 'n'] ≠ _; decide)
    (by show ['j', 's', 'o', 'n'] ≠ _; decide) rfl inp
  rw [united_json] at h3
  obtain ⟨h4, -, h5, -⟩ := h3
  constructor
  · refine h4.trans ⟨?_, fun h => ⟨[], (json_means inp hi _).mpr (.inl ⟨h, rfl⟩)⟩⟩
    rintro ⟨stk, h⟩
    rcases (json_means inp hi _).mp h with ⟨h, -⟩ | ⟨-, h⟩
    · exact h
    · cases h
  · refine h5.trans ⟨?_, fun h => .inl ((json_means inp hi _).mpr (.inr ⟨h, rfl⟩))⟩
    rintro (h | ⟨c, h, hc⟩)
    · rcases (json_means inp hi _).mp h with ⟨-, h⟩ | ⟨h, -⟩
      · cases h
      · exact h
    · rcases (json_means inp hi _).mp h with ⟨-, h⟩ | ⟨-, h⟩
      · cases h; exact absurd rfl hc
      · cases h

end

/-! ## RFC 8259 -/

theorem Chars.mono {D D' : Dialect} (h : D.le D') {c : Text} (hc : Chars D c) : Chars D' c := by
  induction hc with
  | nil => exact .nil
  | plain h1 h2 h3 _ ih => exact .plain h1 h2 (fun k => h.controls (h3 k)) ih
  | escape h1 _ ih => exact .escape h1 ih
  | unicode h1 h2 _ ih => exact .unicode h1 (fun x hx => (h2 x hx).imp_right (.imp_right (.imp_left h.small))) ih

theorem Number.mono {D D' : Dialect} (h : D.le D') {x : Text} (hx : Number D x) : Number D' x := by
  obtain ⟨h1, h2, h3⟩ := hx
  refine .mk h1 h2 ?_
  cases h3 with
  | none => exact .none
  | exp h3 => exact .exp h3
  | dot a b c d e =>
    refine .dot a b c (fun k => d ?_) e
    cases k' : D.gaps with
    | false => rfl
    | true => rw [h.gaps k'] at k; cases k

theorem Json.mono {D D' : Dialect} (h : D.le D') {k : Kind} {t : Text} (ht : Json D k t) : Json D' k t := by
  induction ht with
  | true => exact .true
  | false => exact .false
  | null => exact .null
  | string h1 => exact .string (h1.mono h)
  | number h1 => exact .number (h1.mono h)
  | object h1 _ h2 ih => exact .object h1 ih h2
  | objectEmpty h1 => exact .objectEmpty h1
  | array h1 _ h2 ih => exact .array h1 ih h2
  | arrayEmpty h1 => exact .arrayEmpty h1
  | member h1 h2 h3 _ ih => exact .member (h1.mono h) h2 h3 ih
  | last _ ih => exact .last ih
  | members _ h1 h2 _ ih ih' => exact .members ih h1 h2 ih'
  | element _ ih => exact .element ih
  | elements _ h1 h2 h3 _ ih ih' =>
    refine .elements ih h1 (fun a b => h2 a ?_) h3 ih'
    cases k' : D.room with
    | false => rfl
    | true => rw [h.room k'] at b; cases b

theorem JsonText.mono {D D' : Dialect} (h : D.le D') {t : Text} (ht : JsonText D t) : JsonText D' t := by
  obtain ⟨w, v, w', h1, h2, h3, h4⟩ := ht
  exact ⟨w, v, w', h1, h2.mono h, h3, h4⟩

/-- Not all JSON texts are accepted, but all without small letters in escapes and without blanks in front of the second and further commas of an array; and what is accepted is JSON up to
control characters in strings and blanks around the digits after a decimal point. -/
theorem C93_rfc_partial {t : Text} : (JsonText { rfc with small := false, room := false } t → JsonText sample t) ∧ (JsonText sample t → JsonText { rfc with controls := true, gaps := true } t) :=
  ⟨fun h => h.mono ⟨fun h => (by cases h), fun h => (by cases h), fun h => (by cases h), fun h => (by cases h)⟩,
   fun h => h.mono ⟨fun _ => rfl, fun h => (by cases h), fun _ => rfl, fun h => (by cases h)⟩⟩

theorem heads {a b : Char} {s t : Text} (h : a :: s = b :: t) : b = a ∧ s = t := ⟨(List.cons.inj h).1.symm, (List.cons.inj h).2⟩

theorem blank_singleton : Blank [' '] := by simp [Blank]

theorem digit_number {D : Dialect} {x : Char} (h : '1' ≤ x ∧ x ≤ '9') : Json D .value [x] := .number (.mk (s := []) (n := [x]) (x := []) (.inl rfl) (.other h (by simp)) .none)

/-- `[1,2 ,3]` is JSON but rejected, whereas `[1 ,2]` and `[1,2.5 ,3]` are accepted. -/
theorem C93_comma_witness : JsonText rfc "[1,2 ,3]".toList ∧ ¬ JsonText sample "[1,2 ,3]".toList ∧ JsonText sample "[1 ,2]".toList ∧ JsonText sample "[1,2.5 ,3]".toList := by
  refine ⟨?_, ?_, ?_, ?_⟩
  · refine ⟨[], _, [], .nil, .array (w := []) (w' := []) .nil (.elements (w := []) (w' := []) (digit_number (x := '1') (by decide)) .nil (by simp) .nil
      (.elements (w := [' ']) (w' := []) (digit_number (x := '2') (by decide)) blank_singleton (by simp [rfc]) .nil (.element (digit_number (x := '3') (by decide))))) .nil, .nil, by decide⟩
  · rw [← jsonF_iff]; decide +kernel
  · rw [← jsonF_iff]; decide +kernel
  · rw [← jsonF_iff]; decide +kernel

/-- `"\u00e9"` is JSON but rejected. -/
theorem C93_escape_witness : JsonText rfc "\"\\u00e9\"".toList ∧ ¬ JsonText sample "\"\\u00e9\"".toList ∧ JsonText sample "\"\\u00E9\"".toList := by
  refine ⟨⟨[], _, [], .nil, .string (.unicode (h := ['0', '0', 'e', '9']) (s := []) rfl ?_ .nil), .nil, by decide⟩, ?_, ?_⟩
  · simp only [List.mem_cons, List.not_mem_nil, or_false, forall_eq_or_imp, forall_eq, Hex, rfc]
    decide
  · rw [← jsonF_iff]; decide +kernel
  · rw [← jsonF_iff]; decide +kernel

/-- A string with a line feed in it is accepted, but is not JSON. -/
theorem C93_control_witness : JsonText sample ['"', '\n', '"'] ∧ ¬ JsonText rfc ['"', '\n', '"'] := by
  refine ⟨by rw [← jsonF_iff]; decide +kernel, ?_⟩
  rintro ⟨w, v, w', hw, hv, hw', h⟩
  cases w with
  | cons y w =>
    obtain ⟨rfl, -⟩ := heads h
    exact absurd (blank_iff.mp hw '"' List.mem_cons_self) (by decide)
  | nil =>
    rw [List.nil_append] at h
    cases hv with
    | string hc =>
      cases hc with
      | nil => cases h
      | plain h1 h2 h3 _ =>
        obtain ⟨rfl, -⟩ := heads (heads h).2
        cases h3 (by decide)
      | escape => cases h
      | unicode => cases h
    | number hn =>
      obtain ⟨hs, hn, -⟩ := hn
      rcases hs with rfl | rfl
      · cases hn with
        | zero => cases h
        | other h1 _ =>
          obtain ⟨rfl, -⟩ := heads h
          exact absurd h1 (by decide)
      · cases h
    | _ => cases h

/-- `1. 5` is accepted, but is not JSON. -/
theorem C93_gap_witness : JsonText sample "1. 5".toList ∧ ¬ JsonText rfc "1. 5".toList := by
  refine ⟨by rw [← jsonF_iff]; decide +kernel, ?_⟩
  rintro ⟨w, v, w', hw, hv, hw', h⟩
  have h : ['1', '.', ' ', '5'] = w ++ v ++ w' := h
  cases w with
  | cons y w =>
    obtain ⟨rfl, -⟩ := heads h
    exact absurd (blank_iff.mp hw '1' List.mem_cons_self) (by decide)
  | nil =>
    rw [List.nil_append] at h
    cases hv with
    | number hn =>
      obtain ⟨hs, hn, hx⟩ := hn
      rcases hs with rfl | rfl
      · cases hn with
        | zero => cases h
        | @other x d h1 h2 =>
          have h := (heads h).2
          cases d with
          | cons y d =>
            obtain ⟨rfl, -⟩ := heads h
            exact absurd (h2 '.' List.mem_cons_self) (by decide)
          | nil =>
            cases hx with
            | none =>
              have h : '.' :: [' ', '5'] = w' := h
              exact absurd (blank_iff.mp hw' '.' (h ▸ List.mem_cons_self)) (by decide)
            | exp he =>
              cases he with
              | mk he _ _ =>
                obtain ⟨rfl, -⟩ := heads h
                exact absurd he (by decide)
            | @dot w1 d w2 x h3 h4 _ h5 _ =>
              obtain ⟨rfl, rfl⟩ := h5 rfl
              obtain ⟨h6, h7⟩ := h4
              have h := (heads h).2
              cases d with
              | nil => exact h6 rfl
              | cons y d =>
                obtain ⟨rfl, -⟩ := heads h
                exact absurd (h7 ' ' List.mem_cons_self) (by decide)
      · cases h
    | _ => cases h

/-! ### Examples -/

private def env (w : World) : Setting := ⟨some "/p".toList, ⟨true, ["p".toList]⟩, fun p => p == ⟨true, ["p".toList, "tests".toList, "json.pest".toList]⟩, fun _ => false, [], w⟩

private def attrs : List Attr := [⟨some "grammar".toList, .str jsonPath⟩]

private def disk (p : FPath) : Option Text :=
  if p = ⟨true, ["p".toList, "tests".toList, "json.pest".toList]⟩ then some jsonText
  else if p = ⟨true, ["p".toList, "tests".toList, "common".toList, "base.pest".toList]⟩ then some baseText else none

private theorem env_locate (w : World) : (env w).locate jsonPath = ⟨true, ["p".toList, "tests".toList, "json.pest".toList]⟩ :=
  (C71_file (env w) (.inl (by show (pathOf "/p".toList).abs = true; decide)) ["tests".toList, "json.pest".toList] (by simp) (by decide)).1
    (by show ((⟨(pathOf "/p".toList).abs, (pathOf "/p".toList).comps ++ ["tests".toList, "json.pest".toList]⟩ : FPath) == ⟨true, ["p".toList, "tests".toList, "json.pest".toList]⟩) = true; decide)

/-- With the two files in place the parser is generated, accepts a JSON text and rejects another text. -/
example : ∃ (w : World) (fuel : Nat) (d : Derived) (R : Layout) (e : Env), Project (env w) attrs ∧ derive (env w) fuel attrs = .ok d ∧
    Linked (unicodeOf [] fun _ _ => false) d.code.1 d.code.2.wrappers R e ∧
    (∃ n t, tryParse idealOps e n (.rule (R.num [] "json".toList [])) ⟨0, "{\"a\": [1, -2.5e3, null]}".toList⟩ = .ok (.ok t)) ∧
    (∃ n trk, tryParse idealOps e n (.rule (R.num [] "json".toList [])) ⟨0, "{\"a\": [1, 02]}".toList⟩ = .ok (.error trk)) := by
  obtain ⟨w, hr, hw, -⟩ := C67_world disk
  have P : Project (env w) attrs := by
    refine ⟨hw, ?_, by decide, ?_, ?_⟩
    · intro a ha
      cases List.mem_singleton.mp ha
      exact ⟨fun x _ _ => ⟨_, rfl⟩, fun x hx h => by cases h; exact absurd hx (by decide), fun h => absurd h (by show ¬ some "grammar".toList = some "rules_mod".toList; decide)⟩
    · rw [env_locate]
      show w.read _ = _
      rw [hr, disk, if_pos rfl]
    · rw [env_locate]
      show w.read _ = _
      rw [hr, disk, if_neg (by decide), if_pos (by decide)]
  obtain ⟨⟨fuel, d, h1⟩, h2⟩ := C93_parser (table := fun _ _ => false) ideal_lawful P
  obtain ⟨⟨R, e, lab, h3, h4⟩, h5⟩ := h2 fuel d h1
  refine ⟨w, fuel, d, R, e, P, h1, h3, ?_, ?_⟩
  · refine ((h5 R e lab h3 h4 ⟨0, _⟩ (by decide)).1).mpr ?_
    rw [← jsonF_iff]
    decide +kernel
  · refine ((h5 R e lab h3 h4 ⟨0, _⟩ (by decide)).2).mpr ?_
    rw [← jsonF_iff]
    decide +kernel

/-- A text to which both parts of `C93_rfc_partial` apply. -/
example : JsonText { rfc with small := false, room := false } "[1]".toList :=
  ⟨[], _, [], .nil, .array (w := []) (w' := []) .nil (.element (digit_number (x := '1') (by decide))) .nil, .nil, by decide⟩

end Pest3.Json
