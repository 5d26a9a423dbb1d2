import Verif.DocLemmas
import Verif.Props.Notation

/-!
# Property C74: documentation comments
-/

namespace Pest3.Props
open Pest3 Pest3.Gen Pest3.Load
open Pest3.Meta (MetaRule)

/-- The text is a grammar with the given documentation. -/
def DocsRead (text : Text) (m : ModDocs) : Prop := ∃ N, ∀ fuel, N ≤ fuel → readDocs fuel text = .ok (some m)

/-- The documentation of a text is that of the one given, without the white space around the lines. -/
structure Says (text : Text) (top : List Text) (docs : List (Name × List Text)) (m : ModDocs) : Prop where
  read : DocsRead text m
  top : TrimmedLines top m.top
  rules : TrimmedRules docs m.rules

/-- There is one documentation of a text. -/
theorem C74_unique {text : Text} {m m' : ModDocs} (h : DocsRead text m) (h' : DocsRead text m') : m = m' := by
  have := Settled.unique (f := fun n => readDocs n text) h h'
  injection this with this
  injection this

/-- What is written as documentation is read: that of the grammar, and that of the rules, each with the name of its rule. -/
theorem C74_written {items : List FileItem} {top : List Text} {docs : List (Name × List Text)} {text : Text} (h : Documented items top docs text) :
    Reads text items ∧ ∃ m, Says text top docs m := by
  refine ⟨C68_notation ⟨_, _, h⟩, ⟨top.map trim, trimDocs docs⟩, ?_, trimmedLines_iff.2 rfl, trimmedRules_iff.2 rfl⟩
  obtain ⟨c, us, ts, l, h1, rfl, h2, h3⟩ := file_rec h
  exact readDocs_some (recognised_iff.2 ⟨c, h1⟩) (collect_file h2 h3.docs)

/-- Documentation does not depend on how a text is divided according to the notation. -/
theorem C74_unambiguous {items items' : List FileItem} {top top' : List Text} {docs docs' : List (Name × List Text)} {text : Text}
    (h : Documented items top docs text) (h' : Documented items' top' docs' text) :
    ∃ m, Says text top docs m ∧ Says text top' docs' m := by
  obtain ⟨m, hm⟩ := (C74_written h).2
  obtain ⟨m', hm'⟩ := (C74_written h').2
  cases C74_unique hm.read hm'.read
  exact ⟨m, hm, hm'⟩

/-- Every grammar, written according to the notation or not, has documentation, and all of it is in the text: lines with `//!` at the
beginning, and lines with `///` right before the names of rules.  In particular reading it does not panic. -/
theorem C74_every_text {text : Text} {items : List FileItem} (h : Reads text items) :
    ∃ top parts m, FileDocs text top parts ∧ Says text top (partDocs parts) m := by
  obtain ⟨o, ho⟩ := recognised_total text
  cases o with
  | none => exact absurd (readText_none ho) (C67_unique h).1
  | some us =>
    obtain ⟨c, hc⟩ := recognised_iff.1 ho
    obtain ⟨top, ps, us, vs, h1, rfl, h2, h3⟩ := inv_fileDocs hc
    exact ⟨top, ps, _, h1, readDocs_some ho (collect_file h2 h3), trimmedLines_iff.2 rfl, trimmedRules_iff.2 rfl⟩

/-- There is documentation for every rule, under its name and in the same order. -/
theorem C74_names {text : Text} {items : List FileItem} {m : ModDocs} (h : Reads text items) (hd : DocsRead text m) (hi : .invalid ∉ items)
    (hp : .panics ∉ items) : m.rules.map Prod.fst = ruleNames items := by
  obtain ⟨o, ho⟩ := recognised_total text
  cases o with
  | none => exact absurd (readText_none ho) (C67_unique h).1
  | some us =>
    obtain ⟨c, hc⟩ := recognised_iff.1 ho
    obtain ⟨top, ps, us, vs, h1, rfl, h2, h3⟩ := inv_fileDocs hc
    cases C74_unique hd (readDocs_some ho (collect_file h2 h3))
    obtain ⟨its, hits⟩ := allRead_total (vs ++ [.node .eoi [] []])
    have := (C67_unique h).2 _ (readText_some ho (docs_read h2 hits))
    subst this
    have := names_aligned h3 hits (fun k => hi (List.mem_append_right _ k)) fun k => hp (List.mem_append_right _ k)
    have hn : ∀ n, ruleNames (List.replicate n .doc ++ its) = ruleNames its := by
      intro n
      induction n with
      | zero => rfl
      | succ n ih => exact ih
    rw [hn, ← this]
    simp [trimDocs]

/-- The variants of the generated enumeration and the names of the rules are the same, and each rule other than those for trivia has
its documentation.  The variant `EOI` and those for imports have none. -/
theorem C74_variants {text : Text} {items : List FileItem} {top : List Text} {docs : List (Name × List Text)} {files : List Name} {m : ModDocs}
    (h : Documented items top docs text) (hd : DocsRead text m) :
    (variantDocs m files).map Prod.fst = "EOI".toList :: ((ruleNames items).filter (fun x => x ≠ ['~'] ∧ x ≠ ['^']) ++ files) ∧
      (∀ x ls, (x, ls) ∈ docs → x ≠ ['~'] → x ≠ ['^'] → ∃ ls', TrimmedLines ls ls' ∧ (x, ls') ∈ variantDocs m files) ∧
      (∀ x ls', (x, ls') ∈ variantDocs m files → ls' ≠ [] → ∃ ls, TrimmedLines ls ls' ∧ (x, ls) ∈ docs) ∧
      TrimmedLines top (enumDocs m) := by
  obtain ⟨hr, m', hm⟩ := C74_written h
  cases C74_unique hd hm.read
  have ok := text_proper ⟨_, _, h⟩
  have hi : ∀ i ∈ items, i ≠ .invalid ∧ i ≠ .panics := by
    obtain ⟨n, rest, rfl, h1, -⟩ := ok
    intro i hi
    rcases List.mem_append.1 hi with hi | hi
    · rw [(List.mem_replicate.1 hi).2]; simp
    · rcases h1 i hi with ⟨_, rfl, _⟩ | ⟨_, rfl, _⟩ <;> simp
  have names := C74_names hr hd (fun k => (hi _ k).1 rfl) fun k => (hi _ k).2 rfl
  have hrules := trimmedRules_iff.1 hm.rules
  refine ⟨?_, ?_, ?_, hm.top⟩
  · rw [← names]
    simp only [variantDocs, List.map_cons, List.map_append, List.map_map, Function.comp_def, List.map_id']
    rw [List.filter_map]
    rfl
  · intro x ls hx h1 h2
    refine ⟨ls.map trim, trimmedLines_iff.2 rfl, ?_⟩
    refine List.mem_cons_of_mem _ (List.mem_append_left _ (List.mem_filter.2 ⟨?_, ?_⟩))
    · rw [hrules]
      exact List.mem_map.2 ⟨_, hx, rfl⟩
    · exact decide_eq_true ⟨h1, h2⟩
  · intro x ls' hx hne
    rcases List.mem_cons.1 hx with hx | hx
    · cases hx; exact absurd rfl hne
    rcases List.mem_append.1 hx with hx | hx
    · have := (List.mem_filter.1 hx).1
      rw [hrules] at this
      obtain ⟨⟨y, ls⟩, hy, he⟩ := List.mem_map.1 this
      cases he
      exact ⟨ls, trimmedLines_iff.2 rfl, hy⟩
    · obtain ⟨y, -, he⟩ := List.mem_map.1 hx
      cases he
      exact absurd rfl hne

/-- Several grammars have the documentation of all of them, in order. -/
theorem C74_joined (l : List ModDocs) : (∀ t, t ∈ (joinDocs l).top ↔ ∃ m ∈ l, t ∈ m.top) ∧ (∀ r, r ∈ (joinDocs l).rules ↔ ∃ m ∈ l, r ∈ m.rules) ∧
    ∀ a b, joinDocs (a ++ b) = ⟨(joinDocs a).top ++ (joinDocs b).top, (joinDocs a).rules ++ (joinDocs b).rules⟩ := by
  refine ⟨fun t => ?_, fun r => ?_, fun a b => ?_⟩
  · simp only [joinDocs, List.mem_flatten, List.mem_map]
    exact ⟨fun ⟨_, ⟨m, hm, e⟩, ht⟩ => ⟨m, hm, e ▸ ht⟩, fun ⟨m, hm, ht⟩ => ⟨_, ⟨m, hm, rfl⟩, ht⟩⟩
  · simp only [joinDocs, List.mem_flatten, List.mem_map]
    exact ⟨fun ⟨_, ⟨m, hm, e⟩, ht⟩ => ⟨m, hm, e ▸ ht⟩, fun ⟨m, hm, ht⟩ => ⟨_, ⟨m, hm, rfl⟩, ht⟩⟩
  · simp [joinDocs]

/-! ## Examples -/

example : ∃ m, Says exText [" d".toList] [(['r'], [" e".toList]), (['~'], [])] m := (C74_written exText_documented).2

theorem docs_run {text : Text} {m : ModDocs} {n : Nat} (h : readDocs n text = .ok (some m)) : DocsRead text m := by
  obtain ⟨r, h1, h2⟩ := Gen.andThen_inv h
  obtain ⟨x, h3, h4⟩ := Gen.andThen_inv h1
  obtain ⟨N, hN⟩ := rec_recog (recog_rec h3)
  cases x with
  | none => cases h4; cases h2
  | some x =>
    cases h4
    obtain ⟨l, h5, h6⟩ := Gen.andThen_inv h2
    cases h6
    exact readDocs_some ⟨N, fun n hn => by simp only [recogFile, hN n hn]; rfl⟩ h5

/-- Several lines with comments in between, and trivia. -/
example : DocsRead "//! A
//!B
// no
/// x
/* no */
///  y\u00e9 \r
a = b
~ = c ///z
^ = d".toList ⟨["A".toList, "B".toList], [(['a'], ["x".toList, "y\u00e9".toList]), (['~'], []), (['^'], [['z']])]⟩ :=
  docs_run (n := 1000) (by decide +kernel)

/-- The indentation of lines is lost, and with it lists in lists and blocks of code. -/
theorem C74_indentation_witness :
    DocsRead "/// - x
///   - y
a = b".toList ⟨[], [(['a'], ["- x".toList, "- y".toList])]⟩ := docs_run (n := 1000) (by decide +kernel)

/-- A line of slashes is documentation. -/
theorem C74_slashes_witness : DocsRead "//////
a = b".toList ⟨[], [(['a'], ["///".toList])]⟩ := docs_run (n := 1000) (by decide +kernel)

/-- The documentation of the rules for trivia is nowhere in the enumeration. -/
theorem C74_trivia_witness : ∃ m, DocsRead "/// x
~ = a".toList m ∧ m.rules = [(['~'], [['x']])] ∧ variantDocs m [] = [("EOI".toList, [])] :=
  ⟨⟨[], [(['~'], [['x']])]⟩, docs_run (n := 1000) (by decide +kernel), rfl, by decide⟩

/-- Documentation of the grammar is possible only before everything else, and documentation must be of something. -/
theorem C74_place_witness : Rejected "use pest
//! x
a = b".toList ∧ Rejected "/// x
use pest
a = b".toList ∧ Rejected "a = b
/// x".toList :=
  ⟨rejected_run (n := 1000) (by decide +kernel), rejected_run (n := 1000) (by decide +kernel), rejected_run (n := 1000) (by decide +kernel)⟩

end Pest3.Props
