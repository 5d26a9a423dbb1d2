import Verif.RuleEnum
import Verif.ScopeLemmas

/-!
# Lemmas: the names defined by a generated module
-/

namespace Pest3.Gen
open Pest3

theorem alias_root {s s' : ModSys} {n : ModNode} {x : Name} {ch : List (Name × ModNode)} (hr : s.root = .collection ch)
    (h : (s.insert n x).1 = s') : s'.root = .collection (insertChild ch x n).1 := by
  subst h
  simp [ModSys.insert, ModNode.alias, hr]

/-- After the imports have been processed, their names are taken. -/
theorem imports_taken {cfg : Config} {pest : ModNode} {item : MItem} {st st' : GenSt} (h : GenMod cfg pest item st st') :
    match item with
    | .mod _ _ _ => True
    | .imports l sys sys' outs => outs.map Prod.fst = (Module.mk [] l).fileNames ∧
      ∀ ch, sys.root = .collection ch → ∃ ch', sys'.root = .collection ch' ∧
        (∀ x, lookupChild x ch ≠ none → lookupChild x ch' ≠ none) ∧ ∀ i ∈ l, lookupChild i.name ch' ≠ none := by
  have ins : ∀ (ch : List (Name × ModNode)) x n y, lookupChild y ch ≠ none ∨ y = x →
      lookupChild y (insertChild ch x n).1 ≠ none := by
    intro ch x n y h
    by_cases hy : y = x
    · subst hy; rw [lookupChild_insert_self]; simp
    · rw [lookupChild_insert_ne hy]; exact h.resolve_right hy
  induction h with
  | mk => trivial
  | nil => exact ⟨rfl, fun ch hr => ⟨ch, hr, fun x h => h, by simp⟩⟩
  | @builtin x p l sys sys' outs st st' hok _ ih =>
    refine ⟨ih.1, fun ch hr => ?_⟩
    cases hres : sys.resolveNode p with
    | none => simp [ModSys.alias, hres] at hok
    | some n =>
      have hroot : (sys.alias p x).1.root = .collection (insertChild ch x n).1 := by
        simp only [ModSys.alias, hres]
        exact alias_root hr rfl
      obtain ⟨ch', h1, h2, h3⟩ := ih.2 _ hroot
      refine ⟨ch', h1, fun y hy => h2 y (ins _ _ _ _ (.inl hy)), fun i hi => ?_⟩
      rcases List.mem_cons.mp hi with rfl | hi
      · exact h2 _ (ins _ _ _ _ (.inr rfl))
      · exact h3 i hi
  | @file x m l out child sys sys' outs st st1 st2 _ _ _ ih =>
    refine ⟨by simp only [List.map_cons, ih.1]; rfl, fun ch hr => ?_⟩
    obtain ⟨ch', h1, h2, h3⟩ := ih.2 _ (alias_root hr rfl)
    refine ⟨ch', h1, fun y hy => h2 y (ins _ _ _ _ (.inl hy)), fun i hi => ?_⟩
    rcases List.mem_cons.mp hi with rfl | hi
    · exact h2 _ (ins _ _ _ _ (.inr rfl))
    · exact h3 i hi

/-- Rules whose names are taken, by imports or other rules, are not inserted. -/
theorem insertRules_fresh (rules : List Rule) : ∀ {sys sys' : ModSys} {ch}, sys.root = .collection ch →
    insertRules rules sys = .ok sys' →
    ((rules.filter fun r => r.name ≠ optName ∧ r.name ≠ manName).map Rule.name).Nodup ∧
    ∀ r ∈ rules, r.name ≠ optName → r.name ≠ manName → lookupChild r.name ch = none := by
  induction rules with
  | nil => intro sys sys' ch hr h; simp
  | cons r rest ih =>
    intro sys sys' ch hr h
    simp only [insertRules] at h
    split at h
    · rename_i ht
      obtain ⟨h1, h2⟩ := ih hr h
      have hf : (decide (r.name ≠ optName ∧ r.name ≠ manName)) = false := by
        rw [decide_eq_false_iff_not]; rintro ⟨a, b⟩; exact ht.elim a b
      rw [List.filter_cons, hf]
      refine ⟨by simpa using h1, fun r' hr' ho hm => ?_⟩
      rcases List.mem_cons.mp hr' with rfl | hr'
      · exact absurd ht (by simp [ho, hm])
      · exact h2 r' hr' ho hm
    · rename_i ht
      simp only [not_or] at ht
      split at h
      · rename_i hok
        simp only [ModSys.insertRule, ModSys.insert, ModNode.alias, hr] at h hok
        have hnone : lookupChild r.name ch = none := by
          simpa [insertChild, Option.isSome_eq_false_iff] using hok
        obtain ⟨h1, h2⟩ := ih (ch := (insertChild ch r.name (.rule r.args.length)).1) rfl h
        have hne : ∀ r' ∈ rest, r'.name ≠ optName → r'.name ≠ manName → r'.name ≠ r.name := by
          intro r' hr' ho hm e
          have := h2 r' hr' ho hm
          rw [e, lookupChild_insert_self] at this
          simp at this
        rw [List.filter_cons, if_pos (by simpa using ht), List.map_cons, List.nodup_cons]
        refine ⟨⟨?_, h1⟩, fun r' hr' ho hm => ?_⟩
        · intro hmem
          obtain ⟨r', hr', e⟩ := List.mem_map.mp hmem
          simp only [List.mem_filter, decide_eq_true_eq] at hr'
          exact hne r' hr'.1 hr'.2.1 hr'.2.2 e
        · rcases List.mem_cons.mp hr' with rfl | hr'
          · exact hnone
          · have := h2 r' hr' ho hm
            rwa [lookupChild_insert_ne (hne r' hr' ho hm)] at this
      · simp at h

theorem genRules_names {cfg : Config} {reach : RefMap} {sys : ModSys} {rules o o' st st'}
    (h : GenRules cfg reach sys rules o o' st st') : o'.1.map RuleStruct.name =
      o.1.map RuleStruct.name ++ (rules.filter fun r => r.name ≠ optName ∧ r.name ≠ manName).map Rule.name := by
  induction h with
  | nil => simp
  | opt hn _ _ ih => rw [ih]; simp [hn]
  | man hn _ _ ih => rw [ih]; simp [hn]
  | rule h1 h2 _ _ ih => rw [ih]; simp [h1, h2]

/-- The rules of a generated module have different names, which are not those of its imports; the definitions are
those of the imported files and of the rules. -/
theorem genMod_names {cfg : Config} {pest : ModNode} {m : Module} {o : Output} {sys : ModSys} {st st' : GenSt}
    (h : GenMod cfg pest (.mod m o sys) st st') :
    ((m.rules.filter fun r => r.name ≠ optName ∧ r.name ≠ manName).map Rule.name).Nodup ∧
    (∀ r ∈ m.rules, r.name ≠ optName → r.name ≠ manName → ∀ i ∈ m.imports, i.name ≠ r.name) ∧
    o.items = "__OptionalTrivia".toList :: "__MandatoryTrivia".toList ::
      (m.fileNames ++ (m.rules.filter fun r => r.name ≠ optName ∧ r.name ≠ manName).map Rule.name) := by
  cases h with
  | @mk rules imports outs sys1 _ reach content opt man _ st1 _ h1 h2 h3 h4 =>
    obtain ⟨e1, ht⟩ := imports_taken h1
    obtain ⟨ch, hr, _, h5⟩ := ht [] rfl
    obtain ⟨h6, h7⟩ := insertRules_fresh rules hr h3
    have h8 := genRules_names (processRuleList_gen _ _ _ _ _ h4)
    refine ⟨h6, fun r hr' ho hm i hi e => ?_, ?_⟩
    · have := h5 i hi
      rw [e] at this
      exact this (h7 r hr' ho hm)
    · simp only [Output.items, e1]
      simp only [List.map_nil, List.nil_append] at h8
      rw [h8]
      rfl

theorem mem_fileNames {m : Module} {x : Name} : x ∈ m.fileNames ↔ ∃ m', Import.file x m' ∈ m.imports := by
  unfold Module.fileNames
  rw [List.mem_filterMap]
  constructor
  · rintro ⟨i, hi, h⟩
    cases i with
    | builtin y src => simp at h
    | file y m' => simp only [Option.some.injEq] at h; subst h; exact ⟨m', hi⟩
  · rintro ⟨m', h⟩
    exact ⟨_, h, rfl⟩

/-- Every module has been generated. -/
theorem genMod_in {cfg : Config} {pest : ModNode} {m' root : Module} (hin : ModIn m' root) :
    ∀ {out sys st st'}, GenMod cfg pest (.mod root out sys) st st' →
      ∃ o sys1 st1 st2, GenMod cfg pest (.mod m' o sys1) st1 st2 := by
  have child : ∀ {l sys sys' outs st st'}, GenMod cfg pest (.imports l sys sys' outs) st st' → ∀ {x m}, Import.file x m ∈ l →
      ∃ o sys1 st1 st2, GenMod cfg pest (.mod m o sys1) st1 st2 := by
    intro l
    induction l with
    | nil => intro _ _ _ _ _ _ x m h; simp at h
    | cons i l ih =>
      intro sys sys' outs st st' h x m hi
      cases h with
      | builtin _ h =>
        rcases List.mem_cons.mp hi with e | hi
        · simp at e
        · exact ih h hi
      | file h1 h =>
        rcases List.mem_cons.mp hi with e | hi
        · injection e with _ e; subst e; exact ⟨_, _, _, _, h1⟩
        · exact ih h hi
  induction hin with
  | refl => intro out sys st st' h; exact ⟨_, _, _, _, h⟩
  | step hi _ ih =>
    intro out sys st st' h
    cases h with
    | mk h1 _ _ _ =>
      obtain ⟨o, sys1, st1, st2, h2⟩ := child h1 hi
      exact ih h2

