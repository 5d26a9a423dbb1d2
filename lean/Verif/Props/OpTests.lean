import Verif.OpRuns
import Verif.Props.StackTests

/-!
# The other parsers of the tests of the derive macro (`derive/tests/grammar.pest`)
-/

namespace Pest3.Stk
open Pest3 Pest3.Gen Pest3.Load Pest3.Props
open Pest3.Json (Leaves leaves_str leaves_choice leaves_neg leaves_opt leaves_seq leaves_rule)
open Pest3.Skip (leaves_accepts)

theorem copies_all {Sep : Text → Prop} {f : Text → Text} (hb : Between Sep f) {mn : Nat} {s : Text} (hs : s.length + 1 < usizeMax) : copiesF f mn usizeMax s = some [] ↔ ∃ k, mn ≤ k ∧ Copies Sep k s :=
  (copies_iff hb).trans ⟨fun ⟨k, h1, _, h2⟩ => ⟨k, h1, h2⟩, fun ⟨k, h1, h2⟩ => ⟨k, h1, by have := copies_length h2; omega, h2⟩⟩

theorem copies_any {Sep : Text → Prop} {f : Text → Text} (hb : Between Sep f) {s : Text} (hs : s.length + 1 < usizeMax) : copiesF f 0 usizeMax s = some [] ↔ ∃ k, Copies Sep k s :=
  (copies_all hb hs).trans ⟨fun ⟨k, _, h⟩ => ⟨k, h⟩, fun ⟨k, h⟩ => ⟨k, by omega, h⟩⟩

theorem copies_max {Sep : Text → Prop} {f : Text → Text} (hb : Between Sep f) {s : Text} {n : Nat} : copiesF f 0 n s = some [] ↔ ∃ k, k ≤ n ∧ Copies Sep k s :=
  (copies_iff hb).trans ⟨fun ⟨k, _, h⟩ => ⟨k, h⟩, fun ⟨k, h⟩ => ⟨k, by omega, h⟩⟩

theorem copies_exact {Sep : Text → Prop} {f : Text → Text} (hb : Between Sep f) {s : Text} {n : Nat} : copiesF f n n s = some [] ↔ Copies Sep n s := by
  refine (copies_iff hb).trans ⟨fun ⟨k, h1, h2, h⟩ => ?_, fun h => ⟨n, by omega, by omega, h⟩⟩
  cases Nat.le_antisymm h1 h2
  exact h

theorem numerals_start {n : Nat} (hn : n ≤ 90 := by decide) : ∀ y ∈ (numerals n).tail, ∃ c y', y = c :: y' ∧ isSpace c = false := by
  have hd : ∀ i : Fin 10, isSpace (Char.ofNat (48 + i)) = false := by decide
  intro y hy
  have := List.mem_of_mem_tail hy
  simp only [numerals, List.mem_map, List.mem_range] at this
  obtain ⟨i, hi, rfl⟩ := this
  exact ⟨_, _, rfl, hd ⟨(i + 1) / 10, by omega⟩⟩

section
variable {S : Type} {so : StackOps S} {saved : S → List (List Span)} (hls : Lawful so saved) {env : Setting} {attrs : List Attr} {table : Name → Char → Bool}
  (P : Project env attrs)
include hls P

/-- The parser of each of the other rules accepts the texts of the language of the rule and no others. -/
theorem C98_languages : ∀ fuel d, derive env fuel attrs = .ok d →
    ∀ R e lab, Linked (unicodeOf env.unicodeNames table) d.code.1 d.code.2.wrappers R e → Labelled d.code.1 R e lab → ∀ inp : Str, inp.text.length + 1 < usizeMax →
      ∀ q ∈ opLanguages,
        ((∃ n t, tryParse so e n (.rule (R.num [] q.1 [])) inp = .ok (.ok t)) ↔ q.2 inp.text) ∧
        ((∃ n trk, tryParse so e n (.rule (R.num [] q.1 [])) inp = .ok (.error trk)) ↔ ¬ q.2 inp.text) := by
  intro fuel d hd R e lab hl hlab inp hi
  have hm := project_modules P
  have hs : ∀ x, ¬ SilentName (united [grammar]) x := by rw [united_grammar]; exact grammar_silent
  have hn' : AllNamed (unicodeOf env.unicodeNames table) (united [grammar]) := by rw [united_grammar]; exact grammar_named
  obtain ⟨h1, h2⟩ := C75_parser (table := table) hls hd hm hs hn'
  have key : ∀ r ∈ rules, r.name ≠ optName → r.name ≠ manName → ∀ (o : Option Text) (Q : Prop), Leaves (unicodeOf env.unicodeNames table) grammar (.expr (.mk [] [] r.node)) [] inp.text [] o → (o = some [] ↔ Q) →
      ((∃ n t, tryParse so e n (.rule (R.num [] r.name [])) inp = .ok (.ok t)) ↔ Q) ∧
      ((∃ n trk, tryParse so e n (.rule (R.num [] r.name [])) inp = .ok (.error trk)) ↔ ¬ Q) := by
    intro r hr ho hman o Q hrun hQ
    have h3 := h2 R e lab hl hlab [] grammar r (by rw [united_grammar]; rfl) hr ho hman (args_nil r hr) inp
    rw [united_grammar] at h3
    have h4 := leaves_accepts hrun
    exact ⟨(h3.1.trans h4.1).trans hQ, (h3.2.2.1.trans h4.2).trans (not_congr hQ)⟩
  simp only [opLanguages, List.mem_cons, List.not_mem_nil, or_false, forall_eq_or_imp, forall_eq]
  refine ⟨?_, ?_, ?_, ?_, ?_, ?_, ?_, ?_, ?_, ?_, ?_, ?_, ?_, ?_, ?_, ?_, ?_, ?_, ?_, ?_, ?_, ?_, ?_, ?_, ?_, ?_, ?_, ?_, ?_, ?_, ?_, ?_, ?_⟩
  · exact key (rules[0]'(by decide)) (List.getElem_mem _) (by decide) (by decide) _ _ leaves_str strip_iff
  · exact key (rules[1]'(by decide)) (List.getElem_mem _) (by decide) (by decide) _ _ leaves_insens insens_iff
  · exact key (rules[2]'(by decide)) (List.getElem_mem _) (by decide) (by decide) _ _ leaves_range one_digit_iff
  · exact key (rules[3]'(by decide)) (List.getElem_mem _) (by decide) (by decide) _ _ leaves_string strip_iff
  · exact key (rules[4]'(by decide)) (List.getElem_mem _) (by decide) (by decide) _ _ (leaves_pos leaves_string) pos_iff
  · exact key (rules[5]'(by decide)) (List.getElem_mem _) (by decide) (by decide) _ _ (leaves_neg leaves_string) neg_iff
  · exact key (rules[6]'(by decide)) (List.getElem_mem _) (by decide) (by decide) _ _ (leaves_neg (leaves_neg leaves_string)) double_iff
  · exact key (rules[7]'(by decide)) (List.getElem_mem _) (by decide) (by decide) _ _ (leaves_seq leaves_string fun _ _ _ _ => leaves_string) atomic_iff
  · exact key (rules[8]'(by decide)) (List.getElem_mem _) (by decide) (by decide) _ _ (leaves_pair hi) pair_iff
  · exact key (rules[9]'(by decide)) (List.getElem_mem _) (by decide) (by decide) _ _
      (leaves_seqM (s := inp.text) leaves_string (fun _ s' h => leaves_mandatory (by have := congrArg List.length (Json.strip_some.mp h); simp only [List.length_append] at this; omega)) fun _ _ => leaves_string) mandatory_iff
  · exact key (rules[10]'(by decide)) (List.getElem_mem _) (by decide) (by decide) _ _ (leaves_pair hi) pair_iff
  · exact key (rules[11]'(by decide)) (List.getElem_mem _) (by decide) (by decide) _ _ (leaves_rule (p' := []) (r := rules[10]'(by decide)) rfl rfl (leaves_pair hi)) pair_iff
  · exact key (rules[12]'(by decide)) (List.getElem_mem _) (by decide) (by decide) _ _ (leaves_choice leaves_string fun _ => leaves_digit) choice_iff
  · exact key (rules[13]'(by decide)) (List.getElem_mem _) (by decide) (by decide) _ _ (leaves_choice leaves_string fun _ => leaves_digit) choice_iff
  · exact key (rules[14]'(by decide)) (List.getElem_mem _) (by decide) (by decide) _ _ (leaves_opt leaves_string) opt_iff
  · exact key (rules[15]'(by decide)) (List.getElem_mem _) (by decide) (by decide) _ _ (leaves_spaced rfl (by decide) hi) (copies_any between_space hi)
  · exact key (rules[16]'(by decide)) (List.getElem_mem _) (by decide) (by decide) _ _ (leaves_copies rfl (by decide)) (copies_any between_nothing hi)
  · exact key (rules[17]'(by decide)) (List.getElem_mem _) (by decide) (by decide) _ _ (leaves_spaced rfl (by decide) hi) (copies_all between_space hi)
  · exact key (rules[18]'(by decide)) (List.getElem_mem _) (by decide) (by decide) _ _ (leaves_copies rfl (by decide)) (copies_all between_nothing hi)
  · exact key (rules[19]'(by decide)) (List.getElem_mem _) (by decide) (by decide) _ _ (leaves_spaced rfl (by decide) hi) (copies_iff between_space)
  · exact key (rules[20]'(by decide)) (List.getElem_mem _) (by decide) (by decide) _ _ (leaves_copies rfl (by decide)) (copies_iff between_nothing)
  · exact key (rules[21]'(by decide)) (List.getElem_mem _) (by decide) (by decide) _ _ (leaves_spaced rfl (by decide) hi) (copies_exact between_space)
  · exact key (rules[22]'(by decide)) (List.getElem_mem _) (by decide) (by decide) _ _ (leaves_spaced rfl (by decide) hi) (copies_all between_space hi)
  · exact key (rules[23]'(by decide)) (List.getElem_mem _) (by decide) (by decide) _ _ (leaves_copies rfl (by decide)) (copies_all between_nothing hi)
  · exact key (rules[24]'(by decide)) (List.getElem_mem _) (by decide) (by decide) _ _ (leaves_spaced rfl (by decide) hi) (copies_max between_space)
  · exact key (rules[25]'(by decide)) (List.getElem_mem _) (by decide) (by decide) _ _ (leaves_copies rfl (by decide)) (copies_max between_nothing)
  · exact key (rules[26]'(by decide)) (List.getElem_mem _) (by decide) (by decide) _ _ (leaves_seq (g := Json.strip abc) (leaves_soi rfl) fun _ _ _ _ => leaves_string) strip_iff
  · exact key (rules[38]'(by decide)) (List.getElem_mem _) (by decide) (by decide) _ _ (leaves_anyOf _ (numerals 16).tail) (firstOf_iff (n := 2) (by decide))
  · exact key (rules[39]'(by decide)) (List.getElem_mem _) (by decide) (by decide) _ _ (leaves_inRow _ (numerals 16).tail hi) (rowF_iff numerals_start)
  · exact key (rules[40]'(by decide)) (List.getElem_mem _) (by decide) (by decide) _ _ (leaves_anyOf _ (numerals 17).tail) (firstOf_iff (n := 2) (by decide))
  · exact key (rules[41]'(by decide)) (List.getElem_mem _) (by decide) (by decide) _ _ (leaves_inRow _ (numerals 17).tail hi) (rowF_iff numerals_start)
  · exact key (rules[42]'(by decide)) (List.getElem_mem _) (by decide) (by decide) _ _ (leaves_anyOf _ (numerals 19).tail) (firstOf_iff (n := 2) (by decide))
  · exact key (rules[43]'(by decide)) (List.getElem_mem _) (by decide) (by decide) _ _ (leaves_inRow _ (numerals 19).tail hi) (rowF_iff numerals_start)

end

/-! ## The texts of the tests -/

/-- With the file in place, `repeat_min_max` accepts `abc $abc` and rejects `abc` (`derive/tests/grammar.rs`). -/
example : ∃ (env : Setting) (attrs : List Attr) (fuel : Nat) (d : Derived) (R : Layout) (e : Env), Project env attrs ∧ derive env fuel attrs = .ok d ∧
    Linked (unicodeOf env.unicodeNames fun _ _ => false) d.code.1 d.code.2.wrappers R e ∧
    (∃ n t, tryParse idealOps e n (.rule (R.num [] "repeat_min_max".toList [])) ⟨0, "abc $abc".toList⟩ = .ok (.ok t)) ∧
    (∃ n trk, tryParse idealOps e n (.rule (R.num [] "repeat_min_max".toList [])) ⟨0, "abc".toList⟩ = .ok (.error trk)) := by
  obtain ⟨w, P⟩ := example_project
  obtain ⟨⟨fuel, d, h1⟩, h2⟩ := C97_stack (table := fun _ _ => false) ideal_lawful P
  obtain ⟨⟨R, e, lab, h3, h4⟩, -⟩ := h2 fuel d h1
  have h5 := C98_languages (table := fun _ _ => false) ideal_lawful P fuel d h1 R e lab h3 h4
  refine ⟨_, _, fuel, d, R, e, P, h1, h3, ?_, ?_⟩
  · refine ((h5 ⟨0, _⟩ (by decide) (opLanguages[19]'(by decide)) (List.getElem_mem _)).1).mpr ?_
    exact ⟨2, by omega, by omega, _, .more (w := [' ', '$']) (by simp [Space]) .none, by decide⟩
  · refine ((h5 ⟨0, _⟩ (by decide) (opLanguages[19]'(by decide)) (List.getElem_mem _)).2).mpr ?_
    rintro ⟨k, h, -, hc⟩
    obtain ⟨n, rfl⟩ : ∃ n, k = n + 2 := ⟨k - 2, by omega⟩
    obtain ⟨t', hm, ht⟩ := hc
    have h6 := more_length hm
    have h7 := congrArg List.length ht
    have h8 : "abc".toList.length = 3 := by decide
    rw [h8] at h7
    simp only [abc, List.length_append, List.length_cons, List.length_nil] at h7
    omega

/-- Trivia are taken between the copies only. -/
example : (∃ k, Copies Space k "abc abc$abc".toList) ∧ ¬ (∃ k, Copies Space k "abc ".toList) ∧ ¬ (∃ k, Copies Nothing k "abc abc".toList) := by
  refine ⟨⟨3, _, .more (w := [' ']) (by simp [Space]) (.more (w := ['$']) (by simp [Space]) .none), by decide⟩, ?_, ?_⟩
  · intro h
    have := (copies_any between_space (by decide)).mpr h
    revert this; decide +kernel
  · intro h
    have := (copies_any between_nothing (by decide)).mpr h
    revert this; decide +kernel

/-- Numbers in a row, with blanks or without. -/
example : Row (numerals 3) "01 02$03".toList ∧ ¬ Row (numerals 3) "0102".toList ∧ "16".toList ∈ numerals 16 ∧ "17".toList ∉ numerals 16 := by
  refine ⟨⟨[' '], "02$03".toList, by simp [Space], ⟨['$'], "03".toList, by simp [Space], rfl, by decide⟩, by decide⟩, ?_, by decide, by decide⟩
  intro h
  have := (rowF_iff (x := numeral 1) (l := (numerals 3).tail) numerals_start).mpr h
  revert this; decide +kernel

end Pest3.Stk
