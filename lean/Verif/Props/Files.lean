import Verif.Props.Reading
import Verif.Props.Loading
import Verif.MetaFileLemmas
import Verif.MetaNames
import Verif.ExprEq

/-!
# Property C67: what the text of a grammar file is read as
-/

namespace Pest3.Props
open Pest3 Pest3.Gen Pest3.Load
open Pest3.Meta (MetaRule)

/-- The text is a grammar with the given items. -/
def Reads (text : Text) (items : List FileItem) : Prop := ∃ N, ∀ fuel, N ≤ fuel → readText fuel text = .ok (some items)

/-- The text is no grammar. -/
def Rejected (text : Text) : Prop := ∃ N, ∀ fuel, N ≤ fuel → readText fuel text = .ok none

/-- The pairs that the meta-grammar gives for a text, up to the end of the input. -/
def Pairs (text : Text) (ts : List PTree) : Prop :=
  ∃ c, Rec metaGrammar .nonAtomic (.ref .grammarRules) ⟨[], text, []⟩ (some (c, ts ++ [.node .eoi [] []]))

/-- The characters `'"'`, which are misread in character ranges (C43). -/
def quoteChar : Text := ['\'', '"', '\'']

/-- The beginning of raw strings with signs, which are misread (C42). -/
def poundRaw : Text := ['r', '#']

/-- Every text is either a grammar or rejected. -/
theorem C67_decided (text : Text) : (∃ items, Reads text items) ∨ Rejected text := by
  obtain ⟨o, ho⟩ := recognised_total text
  cases o with
  | none => exact .inr (readText_none ho)
  | some ts =>
    obtain ⟨items, hi⟩ := allRead_total ts
    exact .inl ⟨items, readText_some ho hi⟩

/-- … and not both, and with one list of items. -/
theorem C67_unique {text : Text} {items : List FileItem} (h : Reads text items) :
    ¬ Rejected text ∧ ∀ items', Reads text items' → items' = items := by
  refine ⟨fun h' => ?_, fun items' h' => ?_⟩
  · have h1 := Settled.unique (f := fun n => readText n text) h h'; cases h1
  · have h1 := Settled.unique (f := fun n => readText n text) h' h
    injection h1 with h1; injection h1

theorem rawPlain_plain {text : Text} (hq : ¬ quoteChar <:+: text) (hr : ¬ poundRaw <:+: text) : Plain RawPlain text :=
  ⟨hq, fun n s h => by
    rcases h with rfl | h
    · exact ⟨s, rfl, rfl⟩
    · exact absurd h hr⟩

theorem rawRead_plain {text : Text} (hq : ¬ quoteChar <:+: text) : Plain RawRead text := ⟨hq, fun _ _ _ => ⟨_, rfl⟩⟩

theorem readAs_unique {t : PTree} {o o' : Option FileItem} (h : ReadAs t o) (h' : ReadAs t o') : o = o' := by
  obtain ⟨N, hN⟩ := h
  obtain ⟨M, hM⟩ := h'
  have := (hN (N + M) (by omega)).symm.trans (hM (N + M) (by omega))
  cases o <;> cases o' <;> simp_all

/-- An import with arguments is never read as something. -/
theorem readAs_args {t : PTree} {o : Option FileItem} (h : ImportArgs t) (ho : ReadAs t o) : o = some .panics ∨ o = some .invalid := by
  obtain ⟨N, hN⟩ := ho
  have hn := hN N (Nat.le_refl _)
  cases h with
  | mk hq ha =>
    rename_i x y q a rest
    simp only [readItem, PTree.rule_node, parseImport, PTree.inner_node] at hn
    have hpn := pathNames_trees hq (rest := [a]) (by intro _ _ h; cases h; rcases ha with ha | ha <;> simp [ha])
    have key : ∀ q', parsePath (parseNode noOps N) (.node .path y (pathTrees q ++ [a])) ≠ .ok (some (.path q')) := by
      intro q' he
      simp only [parsePath, PTree.inner_node, hpn] at he
      rcases ha with ha | ha <;> simp only [ha] at he
      · split at he
        · cases he
        · obtain ⟨l, _, he⟩ := Gen.andThen_inv he
          cases l <;> cases he
      · obtain ⟨l, _, he⟩ := Gen.andThen_inv he
        cases l <;> cases he
    cases hp : parsePath (parseNode noOps N) (.node .path y (pathTrees q ++ [a])) with
    | oof => 
      rw [hp] at hn
      cases o <;> cases hn
    | panic =>
      rw [hp] at hn
      cases o <;> cases hn
      exact .inl rfl
    | ok e =>
      rw [hp] at hn
      cases e with
      | none => cases o <;> cases hn; exact .inr rfl
      | some e =>
        simp only [tryThen_some] at hn
        split at hn
        · exact absurd hp (key _)
        · cases o <;> cases hn
          exact .inl rfl

theorem importShaped_rule {t : PTree} {q : List Name} {file : Option Text} {alias : Option Name} (h : ImportShaped t q file alias) :
    t.rule = .import := by cases h; rfl

theorem ruleShaped_deep {t e : PTree} {name : Name} {params : List Name} {silent : Bool} (h : RuleShaped t name params silent e)
    (hd : Deep IdentOk t) : Deep IdentOk e := by
  cases h with
  | mk _ _ _ _ hb =>
    cases hd with
    | node _ hd =>
      refine hd e ?_
      rcases hb with rfl | rfl <;> simp

theorem readAs_means {raw : RawMeaning} (hraw : ∀ n s s', raw n s s' → RawRead n s s') {t : PTree} (h : ItemShaped raw t)
    (hd : Deep IdentOk t) : ∃ i, ReadAs t (some i) ∧ ItemOk i ∧ (ItemMeans raw t i ∨ ImportArgs t ∧ (i = .panics ∨ i = .invalid)) := by
  rcases h with h | h | ⟨q, file, alias, h, hf, hn1, hn2⟩ | ⟨name, params, silent, e, h, hs, hn1, hn2⟩
  · exact ⟨.doc, ⟨0, fun n _ => by simp only [readItem, h]; rfl⟩, trivial, .inl (.doc h)⟩
  · obtain ⟨o, ho⟩ := readItem_settled t
    rcases readAs_args h ho with rfl | rfl
    · exact ⟨_, ho, trivial, .inr ⟨h, .inl rfl⟩⟩
    · exact ⟨_, ho, trivial, .inr ⟨h, .inr rfl⟩⟩
  · have hr : t.rule = .import := by cases h; rfl
    have hq0 : q ≠ [] := by cases h; assumption
    cases file with
    | none =>
      have h1 := C64_import (content := some) h (by intro _ h; cases h)
      exact ⟨.imp ⟨q, none, alias⟩, ⟨0, fun n _ => by simp only [readItem, hr, h1, tryThen_some, settle]; rfl⟩,
        ImportOk.mk hq0 hn1 hn2 (by intro _ h; cases h), .inl (.imp h)⟩
    | some s =>
      obtain ⟨o, ho⟩ := hf s rfl
      have h1 := C64_import (content := fun _ => o) h (by intro _ h; cases h; exact ho)
      cases o with
      | none =>
        exact ⟨.invalid, ⟨0, fun n _ => by simp only [readItem, hr, h1, tryThen_none, settle, Option.map_none, Option.map_some]⟩, trivial, .inl (.badFile h ho)⟩
      | some f =>
        exact ⟨.imp ⟨q, some (pathOf f), alias⟩, ⟨0, fun n _ => by simp only [readItem, hr, h1, tryThen_some, settle, Option.map_some]⟩,
          ImportOk.mk hq0 hn1 hn2 (by intro _ h; cases h; exact ⟨_, rfl⟩), .inl (.impFile h ho)⟩
  · have hr : t.rule = .grammarRule := by cases h; rfl
    obtain ⟨o, ho⟩ := shaped_meaning hs
    obtain ⟨N, hN⟩ := rule_read hraw h ho
    cases o with
    | none =>
      exact ⟨.invalid, ⟨N, fun n hn => by simp only [readItem, hr, hN n hn, tryThen_none, settle, Option.map_none, Option.map_some]⟩, trivial, .inl (.badRule h ho)⟩
    | some x =>
      exact ⟨.rule ⟨name, params, x, silent⟩, ⟨N, fun n hn => by simp only [readItem, hr, hN n hn, tryThen_some, settle, Option.map_some]⟩,
        RuleOk.mk hn1 hn2 (written_writable ho x rfl) (written_named ho (by simpa [WItem.trees] using ruleShaped_deep h hd) x rfl), .inl (.rule h ho)⟩

/-- The pairs and the items of a text. -/
theorem reads_pairs {raw : RawMeaning} (hraw : ∀ n s s', raw n s s' → RawRead n s s') {text : Text} {items : List FileItem}
    (hx : Plain raw text) (h : Reads text items) :
    ∃ ts, Pairs text ts ∧ ts.length = items.length ∧ (∀ i ∈ items, ItemOk i) ∧
      (∃ t ∈ ts, t.rule = .grammarRule) ∧
      (∃ docs rest, ts = docs ++ rest ∧ (∀ t ∈ docs, t.rule = .grammarDoc) ∧ ∀ t ∈ rest, t.rule ≠ .grammarDoc) ∧
      ∀ p ∈ ts.zip items, ItemMeans raw p.1 p.2 ∨ ImportArgs p.1 ∧ (p.2 = .panics ∨ p.2 = .invalid) := by
  obtain ⟨o, ho⟩ := recognised_total text
  cases o with
  | none => exact absurd (readText_none ho) (C67_unique h).1
  | some us =>
    obtain ⟨c, hc⟩ := recognised_iff.1 ho
    have hdeep := deep_rec hc
    obtain ⟨ts, rfl, _, hs, hg, hk⟩ := inv_file hx hc
    refine ⟨ts, ⟨c, hc⟩, ?_⟩
    have heoi : ReadAs (.node .eoi [] []) none := ⟨0, fun _ _ => rfl⟩
    have all : ∀ l : List PTree, (∀ t ∈ l, ItemShaped raw t ∧ Deep IdentOk t) → ∃ is, AllRead (l ++ [.node .eoi [] []]) is ∧ l.length = is.length ∧
        (∀ i ∈ is, ItemOk i) ∧ ∀ p ∈ l.zip is, ItemMeans raw p.1 p.2 ∨ ImportArgs p.1 ∧ (p.2 = .panics ∨ p.2 = .invalid) := by
      intro l
      induction l with
      | nil => exact fun _ => ⟨[], .skip heoi .nil, rfl, by simp, by simp⟩
      | cons t l ih =>
        intro hl
        obtain ⟨is, h1, h2, h6, h3⟩ := ih fun u hu => hl u (List.mem_cons_of_mem _ hu)
        obtain ⟨i, h4, h7, h5⟩ := readAs_means hraw (hl t List.mem_cons_self).1 (hl t List.mem_cons_self).2
        refine ⟨i :: is, .cons h4 h1, by simp [h2], ?_, ?_⟩
        · intro j hj
          rcases List.mem_cons.1 hj with rfl | hj
          · exact h7
          · exact h6 j hj
        intro p hp
        rw [List.zip_cons_cons] at hp
        rcases List.mem_cons.1 hp with rfl | hp
        · exact h5
        · exact h3 p hp
    obtain ⟨is, h1, h2, h4, h3⟩ := all ts fun t ht => ⟨hs t ht, hdeep t (List.mem_append_left _ ht)⟩
    have := (C67_unique h).2 is (readText_some ho h1)
    subst this
    exact ⟨h2, h4, hg, hk, h3⟩

/-- The items of a text are, one by one and in order, what the pairs of the meta-grammar say, except for imports with arguments, which are
not read at all. -/
theorem C67_items {text : Text} {items : List FileItem} (hq : ¬ quoteChar <:+: text) (hr : ¬ poundRaw <:+: text) (h : Reads text items) :
    ∃ ts, Pairs text ts ∧ ts.length = items.length ∧
      ∀ p ∈ ts.zip items, ItemMeans RawPlain p.1 p.2 ∨ ImportArgs p.1 ∧ (p.2 = .panics ∨ p.2 = .invalid) := by
  obtain ⟨ts, h1, h2, _, _, _, h3⟩ := reads_pairs rawPlain_read (rawPlain_plain hq hr) h
  exact ⟨ts, h1, h2, h3⟩

/-- A text is a grammar exactly if the meta-grammar matches. -/
theorem C67_accepted (text : Text) :
    (∃ items, Reads text items) ↔ ∃ r, Rec metaGrammar .nonAtomic (.ref .grammarRules) ⟨[], text, []⟩ (some r) := by
  constructor
  · rintro ⟨items, h⟩
    obtain ⟨o, ho⟩ := recognised_total text
    cases o with
    | none => exact absurd (readText_none ho) (C67_unique h).1
    | some us =>
      obtain ⟨c, hc⟩ := recognised_iff.1 ho
      exact ⟨_, hc⟩
  · rintro ⟨⟨c, ts⟩, h⟩
    obtain ⟨items, hi⟩ := allRead_total ts
    exact ⟨items, readText_some (recognised_iff.2 ⟨c, h⟩) hi⟩

theorem zip_item {α β : Type} {l : List α} {k : List β} (h : l.length = k.length) {b : β} (hb : b ∈ k) : ∃ a ∈ l, (a, b) ∈ l.zip k := by
  obtain ⟨n, hn, rfl⟩ := List.getElem_of_mem hb
  have hn' : n < l.length := by omega
  refine ⟨l[n], List.getElem_mem hn', ?_⟩
  rw [List.mem_iff_getElem]
  exact ⟨n, by simp; omega, by simp⟩

/-- Reading panics only if there is an import with arguments. -/
theorem C67_no_panic {text : Text} {items : List FileItem} (hq : ¬ quoteChar <:+: text) (h : Reads text items) (hp : .panics ∈ items) :
    ∃ ts, Pairs text ts ∧ ∃ t ∈ ts, ImportArgs t := by
  obtain ⟨ts, h1, h2, _, _, _, h3⟩ := reads_pairs (fun _ _ _ h => h) (rawRead_plain hq) h
  obtain ⟨t, ht, hm⟩ := zip_item h2 hp
  rcases h3 _ hm with h4 | h4
  · cases h4
  · exact ⟨ts, h1, t, ht, h4.1⟩

/-- All that is read can be written: the names are identifiers and the expressions have a notation. -/
theorem C67_names {text : Text} {items : List FileItem} (hq : ¬ quoteChar <:+: text) (h : Reads text items) : ∀ i ∈ items, ItemOk i := by
  obtain ⟨ts, _, _, h1, _⟩ := reads_pairs (fun _ _ _ h => h) (rawRead_plain hq) h
  exact h1

/-- A grammar has a rule. -/
theorem C67_has_rule {text : Text} {items : List FileItem} (hq : ¬ quoteChar <:+: text) (h : Reads text items) (hi : .invalid ∉ items) :
    ∃ r, .rule r ∈ items := by
  obtain ⟨ts, _, hl, _, ⟨t, ht, htr⟩, _, h3⟩ := reads_pairs (fun _ _ _ h => h) (rawRead_plain hq) h
  obtain ⟨n, hn, rfl⟩ := List.getElem_of_mem ht
  have hn' : n < items.length := by omega
  have hm : (ts[n], items[n]) ∈ ts.zip items := by
    rw [List.mem_iff_getElem]
    exact ⟨n, by simp; omega, by simp⟩
  have hi' : items[n] ∈ items := List.getElem_mem hn'
  rcases h3 _ hm with h4 | ⟨h4, _⟩
  · dsimp only at h4
    generalize items[n] = x at h4 hi'
    generalize ts[n] = y at h4 htr
    cases h4 with
    | rule => exact ⟨_, hi'⟩
    | badRule => exact absurd hi' hi
    | imp h => rw [importShaped_rule h] at htr; cases htr
    | impFile h => rw [importShaped_rule h] at htr; cases htr
    | badFile h => rw [importShaped_rule h] at htr; cases htr
    | doc h => rw [h] at htr; cases htr
  · dsimp only at h4
    generalize ts[n] = x at h4 htr
    cases h4
    cases htr

/-! ## Loading -/

/-- Texts are read as they are by the code. -/
def Faithful (w : World) : Prop := ∀ text items, w.parse text = some items ↔ Reads text items

/-- Whatever the files are, there is exactly one way to read them. -/
theorem C67_world (read : FPath → Option Text) :
    ∃ w : World, w.read = read ∧ Faithful w ∧ ∀ w' : World, w'.read = read → Faithful w' → w' = w := by
  classical
  have hp : ∀ text, ∃ o : Option (List FileItem), ∀ items, o = some items ↔ Reads text items := by
    intro text
    rcases C67_decided text with ⟨items, h⟩ | h
    · refine ⟨some items, fun items' => ⟨fun e => ?_, fun e => ?_⟩⟩
      · cases e; exact h
      · rw [(C67_unique h).2 _ e]
    · exact ⟨none, fun items => ⟨fun e => (by cases e), fun e => absurd h (C67_unique e).1⟩⟩
  refine ⟨⟨read, fun text => Classical.choose (hp text)⟩, rfl, fun text => Classical.choose_spec (hp text), ?_⟩
  rintro ⟨read', parse'⟩ hr hf
  cases hr
  congr
  funext text
  apply Option.ext
  intro items
  rw [Classical.choose_spec (hp text) items]
  exact hf text items

theorem ident_no_dot {x : Name} (h : IsIdent x) : '.' ∉ x := by
  cases h with
  | mk h1 h2 =>
    intro hd
    rcases List.mem_cons.1 hd with hd | hd
    · rw [← hd] at h1
      revert h1
      unfold isAlpha
      decide
    · have h3 := h2 _ hd
      revert h3
      unfold isAlpha
      decide

/-- `use a::b` in the text of the file `dir/f` is the file `dir/a/b.pest`. -/
theorem C67_default_path {text : Text} {items : List FileItem} (hq : ¬ quoteChar <:+: text) (h : Reads text items) {i : ImportStmt}
    (hi : .imp i ∈ items) (hf : i.file = none) {segs : List Name} {x : Name} (hx : i.modPath = segs ++ [x]) (hs : x ≠ "super".toList)
    (abs : Bool) (dir : List Name) (f : Name) (hdir : FPath.extension ⟨abs, dir⟩ ≠ some pestExt) :
    i.target ⟨abs, dir ++ [f]⟩ = some ⟨abs, dir ++ segs.map section_ ++ [x ++ ".pest".toList]⟩ := by
  have hok : ImportOk i := C67_names hq h _ hi
  unfold ImportStmt.target
  rw [hf, hx]
  exact C59_default_path abs dir f segs x hdir (ident_no_dot (hok.names x (by rw [hx]; simp))) hs

/-- Names with slashes in between. -/
def slashed : List Name → Text
  | [] => []
  | [a] => a
  | a :: b :: l => a ++ '/' :: slashed (b :: l)

theorem split_slashed {l : List Name} (hl : l ≠ []) (h : ∀ a ∈ l, '/' ∉ a) : splitSlash (slashed l) = l := by
  induction l with
  | nil => exact absurd rfl hl
  | cons a l ih =>
    have ha : '/' ∉ a := h a (by simp)
    cases l with
    | nil =>
      clear ih h hl
      induction a with
      | nil => rfl
      | cons x a ih =>
        simp only [List.mem_cons, not_or] at ha
        have h1 := ih ha.2
        simp only [slashed] at h1 ⊢
        simp only [splitSlash]
        rw [if_neg (Ne.symm ha.1), h1]
    | cons b l =>
      have h1 := ih (by simp) fun x hx => h x (List.mem_cons_of_mem _ hx)
      clear ih h hl
      induction a with
      | nil => simp only [slashed, List.nil_append, splitSlash]; rw [if_pos trivial, h1]
      | cons x a ih =>
        simp only [List.mem_cons, not_or] at ha
        have h2 := ih ha.2
        simp only [slashed, List.cons_append] at h2 ⊢
        simp only [splitSlash]
        rw [if_neg (Ne.symm ha.1), h2]

/-- The file of an import is the names between the slashes, beginning at the root if there is a slash at the beginning.  Empty names
do not count, nor do dots except for one at the beginning. -/
theorem C67_path {l : List Name} (h : ∀ a ∈ l, '/' ∉ a) :
    (l ≠ [] → pathOf ('/' :: slashed l) = ⟨true, l.filter fun x => x ≠ [] && x ≠ ['.']⟩) ∧
    ∀ a, a ≠ [] → '/' ∉ a → pathOf (slashed (a :: l)) = ⟨false, a :: l.filter fun x => x ≠ [] && x ≠ ['.']⟩ := by
  constructor
  · intro hl
    simp only [pathOf, split_slashed hl h]
    rfl
  · intro a ha hs
    have h1 := split_slashed (l := a :: l) (by simp) (by
      intro x hx
      rcases List.mem_cons.1 hx with rfl | hx
      · exact hs
      · exact h x hx)
    have h2 : ∀ r, slashed (a :: l) ≠ '/' :: r := by
      intro r he
      cases a with
      | nil => exact absurd rfl ha
      | cons x a =>
        cases l <;> simp only [slashed, List.cons_append, List.cons.injEq] at he <;> exact hs (by simp [he.1])
    unfold pathOf
    split
    · rename_i r he; exact absurd he (h2 r)
    · rw [h1]
      simp only [if_neg ha, List.singleton_append]
      rfl

/-- An import with a slice is a panic, or an error if the slice itself is none. -/
theorem C67_import_slice {x y : Text} {q : List Name} {s : PTree} {rest : List PTree} {a b : Option IntLit} (hq : q ≠ [])
    (hs : s.Spells (Meta.slicePair (a.map IntLit.text) (b.map IntLit.text))) :
    ReadAs (.node .import x (.node .path y (pathTrees q ++ [s]) :: rest)) (some (if (Gen.sliceSpec a b).isSome then .panics else .invalid)) := by
  have hr : s.rule = .slice := hs.1
  have hpn := pathNames_trees hq (rest := [s]) (by intro _ _ h; cases h; simp [hr])
  have hp : ofMeta (Meta.parseSlice s.pair) = .ok (Gen.sliceSpec a b) := by
    rw [hs.same (f := Meta.parseSlice) fun _ _ _ _ _ => rfl]
    exact slice_read a b
  refine ⟨0, fun n _ => ?_⟩
  simp only [readItem, PTree.rule_node, parseImport, PTree.inner_node, parsePath, hpn, hr, hp]
  cases Gen.sliceSpec a b <;> rfl

example : ∃ t, ReadAs t (some .panics) := by
  have := C67_import_slice (x := []) (y := []) (q := [['a']]) (rest := []) (a := none) (b := some (.minus 1)) (by simp) (ofPair_spells _)
  exact ⟨_, by simpa [Gen.sliceSpec, fits, IntLit.value] using this⟩

/-! ## Texts -/

theorem reads_run {n : Nat} {text : Text} {items : List FileItem} (h : readText n text = .ok (some items)) : Reads text items := readText_one h
theorem rejected_run {n : Nat} {text : Text} (h : readText n text = .ok none) : Rejected text := readText_one h

/-- A file with documentation, a comment, imports and rules. -/
private def exText : Text := "//! About this.
use pest
use a::b in \"c\\u{64}/e\" as f
/// A rule.
r = \"x\" ~ pest::ascii | !'a'..'z'~{2..} /* or */ - f::g(s, i\"y\",)
s(x) = _{ (x ^ r)[0] }
".toList

/-- The same without the mistake in the last rule. -/
private def exText' : Text := "//! About this.
use pest
use a::b in \"c\\u{64}/e\" as f
/// A rule.
r = \"x\" ~ pest::ascii | !'a'..'z'~{2..} /* or */ - f::g(s, i\"y\",)
s(x) = _{ (x ^ r)+ - x[..-1] }
~ = \" \"
".toList

private def exItems : List FileItem :=
  [.doc, .imp ⟨["pest".toList], none, none⟩, .imp ⟨[['a'], ['b']], some ⟨false, [['c', 'd'], ['e']]⟩, some ['f']⟩,
   .rule ⟨['r'], [], .choice (.seq (.str ['x']) (.path ["pest".toList, "ascii".toList]) .optional)
     (.seq (.neg (.repRange (.separated (.range 'a' 'z') .optional) ⟨some 2, none⟩))
       (.call [['f'], ['g']] [.path [['s']], .insens ['y']]) .none), false⟩,
   .rule ⟨['s'], [['x']], .seq (.repOnce (.seq (.path [['x']]) (.path [['r']]) .mandatory)) (.slice [['x']] ⟨none, some (-1)⟩) .none, true⟩,
   .rule ⟨['~'], [], .str [' '], false⟩]

/-- Slices apply to names only. -/
example : Rejected exText := rejected_run (n := 1000) (by decide +kernel)

example : Reads exText' exItems ∧ ¬ quoteChar <:+: exText' ∧ ¬ poundRaw <:+: exText' :=
  ⟨reads_run (n := 1000) (by decide +kernel), by decide +kernel, by decide +kernel⟩

/-- For `C67_default_path`. -/
example : Reads "use a::b\nx = b::c".toList [.imp ⟨[['a'], ['b']], none, none⟩, .rule ⟨['x'], [], .path [['b'], ['c']], false⟩] :=
  reads_run (n := 1000) (by decide +kernel)

/-- For `C67_no_panic`: an import with arguments, on which the code panics. -/
theorem C67_import_args_witness :
    Reads "use pest(a)\na = b".toList [.panics, .rule ⟨['a'], [], .path [['b']], false⟩] := reads_run (n := 1000) (by decide +kernel)

/-- Without the hypothesis on `'"'` the code panics. -/
theorem C67_quote_witness : Reads "a = '\"'..'b'".toList [.panics] := reads_run (n := 1000) (by decide +kernel)

/-! ## Texts that are not read as one would expect -/

/-- After an import without another name, a rule whose name begins with `as` is not possible. -/
theorem C67_as_witness : Rejected "use pest\nascii = \"x\"".toList ∧
    Reads "use pest\nbscii = \"x\"".toList [.imp ⟨["pest".toList], none, none⟩, .rule ⟨"bscii".toList, [], .str ['x'], false⟩] :=
  ⟨rejected_run (n := 1000) (by decide +kernel), reads_run (n := 1000) (by decide +kernel)⟩

/-- `~|` is possible only once, namely in the first place. -/
theorem C67_trivia_choice_witness : Rejected "a = b ~| c ~| d".toList ∧
    Reads "a = b ~| c".toList [.rule ⟨['a'], [], .choice (.path [['b']]) (.path [['c']]), false⟩] :=
  ⟨rejected_run (n := 1000) (by decide +kernel), reads_run (n := 1000) (by decide +kernel)⟩

/-- A rule for trivia with a parameter is not possible after a rule without braces. -/
theorem C67_operator_rule_witness : Rejected "a = b\n~(c) = d".toList ∧
    Reads "a = {b}\n~(c) = d".toList [.rule ⟨['a'], [], .path [['b']], false⟩, .rule ⟨['~'], [['c']], .path [['d']], false⟩] :=
  ⟨rejected_run (n := 1000) (by decide +kernel), reads_run (n := 1000) (by decide +kernel)⟩

/-- `use` needs a space. -/
theorem C67_use_tab_witness : Rejected "use\tpest\na = b".toList := rejected_run (n := 1000) (by decide +kernel)

/-- A line of more than two slashes is documentation, which is not possible everywhere. -/
theorem C67_slashes_witness : Rejected "a = b\n////".toList ∧ Reads "a = b\n// /".toList [.rule ⟨['a'], [], .path [['b']], false⟩] :=
  ⟨rejected_run (n := 1000) (by decide +kernel), reads_run (n := 1000) (by decide +kernel)⟩

end Pest3.Props
