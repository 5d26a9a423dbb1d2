import Verif.LoaderLemmas

/-!
# Properties C47, C48, C59: loading grammar files

`Reaches w root text p`: the grammar `text` of `root` imports the file `p`, directly or through other files.
`Loads`: the module a file stands for, defined without cache.
-/

namespace Pest3.Props
open Pest3 Pest3.Gen Pest3.Load

theorem goodSt_nil (w : World) : GoodSt w ⟨[], []⟩ := fun _ _ h => by simp [cacheGet] at h

/-! ## C47 -/

theorem keys_reached {w : World} {st : LState} (hg : GoodSt w st) {root text p} (h : Reaches w root text p) :
    (∀ q, ImportsFile w root text q → q ∈ st.keys) → p ∈ st.keys := by
  induction h with
  | direct h => exact fun hd => hd _ h
  | step h1 h2 _ ih =>
    intro hd
    obtain ⟨m, hm⟩ := cacheGet_mem.mpr (hd _ h1)
    obtain ⟨t, a1, _, a3⟩ := hg _ _ hm
    rw [h2] at a1; injection a1 with a1; subst a1
    exact ih a3

theorem reads_reached {w : World} {fuel text root m st} (h : parseGrammar w fuel text root = .ok (m, st)) :
    st.reads.Nodup ∧ (∀ p, p ∈ st.reads ↔ Reaches w root text p) ∧ ∀ p, p ∈ m.deps ↔ p ∈ st.reads := by
  obtain ⟨g, _, d, new, gr⟩ := parseText_ok fuel root text _ m st (goodSt_nil w) h
  have hr : st.reads = new := by rw [gr.reads]; rfl
  refine ⟨hr ▸ gr.nodup, fun p => ⟨fun hp => gr.reached p (hr ▸ hp), fun hp => ?_⟩, fun p => ?_⟩
  · rw [hr]
    exact ((gr.keys p).mp (keys_reached g hp d)).resolve_left (by simp [LState.keys])
  · rw [hr, gr.deps]; simp

/-- The dependencies of a grammar are exactly the files it imports, directly or through other files. -/
theorem C47_dependencies (w : World) (fuel : Nat) (text : Text) (root : FPath) (m : LMod) (st : LState)
    (h : parseGrammar w fuel text root = .ok (m, st)) : ∀ p, p ∈ m.deps ↔ Reaches w root text p := fun p => by
  obtain ⟨_, h2, h3⟩ := reads_reached h
  rw [h3, h2]

/-- Each of these files is read and parsed exactly once, and no other file is. -/
theorem C47_parsed_once (w : World) (fuel : Nat) (text : Text) (root : FPath) (m : LMod) (st : LState)
    (h : parseGrammar w fuel text root = .ok (m, st)) :
    st.reads.Nodup ∧ ∀ p, p ∈ st.reads ↔ Reaches w root text p :=
  ⟨(reads_reached h).1, (reads_reached h).2.1⟩

/-- Sharing is not visible: every import stands for the module of its file. -/
theorem C47_module (w : World) (fuel : Nat) (text : Text) (root : FPath) (m : LMod) (st : LState)
    (h : parseGrammar w fuel text root = .ok (m, st)) :
    Loads w (.file root text m.module) ∧ ∀ m', Loads w (.file root text m') → m' = m.module := by
  have := (parseText_ok fuel root text _ m st (goodSt_nil w) h).2.1
  exact ⟨this, loads_det this⟩

/-- An import is known under its alias, without one under the last part of its path; it is built in if the path starts with
`pest`. -/
theorem C47_import (a p : List Name) (x y : Name) (file : Option FPath) (al : Option Name) :
    ImportStmt.name ⟨p, file, some x⟩ = some x ∧ ImportStmt.name ⟨a ++ [y], file, none⟩ = some y ∧
    (ImportStmt.isBuiltin ⟨p, file, al⟩ = true ↔ ∃ rest, p = "pest".toList :: rest) := by
  refine ⟨rfl, by simp [ImportStmt.name], ?_⟩
  cases p with
  | nil => simp [ImportStmt.isBuiltin]
  | cons z p => simp [ImportStmt.isBuiltin]

theorem mem_insertDep {l : List FPath} {p q : FPath} : q ∈ insertDep l p ↔ q ∈ l ∨ q = p := by
  unfold insertDep
  split
  · rename_i h
    exact ⟨.inl, fun h' => h'.elim id fun e => e ▸ h⟩
  · simp

theorem mem_extendDeps {q : FPath} (m : List FPath) : ∀ l, q ∈ extendDeps l m ↔ q ∈ l ∨ q ∈ m := by
  induction m with
  | nil => intro l; simp [extendDeps]
  | cons p m ih =>
    intro l
    show q ∈ extendDeps (insertDep l p) m ↔ _
    rw [ih, mem_insertDep, List.mem_cons, or_assoc]

/-- Several grammars together: the rules and imports of all in order, and the dependencies of all. -/
theorem C47_joined (l : List LMod) : (joinModules l).rules = l.flatMap LMod.rules ∧
    (joinModules l).imports = l.flatMap LMod.imports ∧ ∀ p, p ∈ (joinModules l).deps ↔ ∃ m ∈ l, p ∈ m.deps := by
  induction l with
  | nil => simp [joinModules]
  | cons m l ih => simp [joinModules, ih, mem_extendDeps]

/-! The files `a` and `b`, both importing `c`; the texts are single letters. -/

private def imp (x : String) : FileItem := .imp ⟨[x.toList], none, none⟩
private def aRule : Rule := ⟨['r'], [], .range 'a' 'b', false⟩
private def file (x : String) : FPath := ⟨false, [(x ++ ".pest").toList]⟩

private def diamond : World where
  read p := if p = file "a" ∨ p = file "b" then some ['x'] else if p = file "c" then some ['c'] else none
  parse t := if t = ['m'] then some [imp "a", .rule aRule, imp "b"] else if t = ['x'] then some [imp "c", .rule aRule]
    else if t = ['c'] then some [.rule aRule] else none

private def run : Load.Out (LMod × LState) := parseGrammar diamond 3 ['m'] (file "main")

example : (match run with | .ok (m, st) => m.deps == [file "a", file "c", file "b"] && st.reads == m.deps | _ => false) =
    true := by decide

/-- The dependencies of an imported module itself may be incomplete: here `b` imports `c`, but `c` was loaded for `a`
before. -/
theorem C47_nested_incomplete : ∃ (w : World) (fuel : Nat) (text : Text) (root : FPath) (m : LMod) (st : LState) (p q : FPath)
    (t : Text) (n : LMod), parseGrammar w fuel text root = .ok (m, st) ∧ cacheGet p st.cache = some n ∧
    w.read p = some t ∧ Reaches w p t q ∧ q ∉ n.deps :=
  ⟨diamond, 3, ['m'], file "main",
    ⟨[file "a", file "c", file "b"], [aRule], [.file ['a'] (.mk [aRule] [.file ['c'] (.mk [aRule] [])]),
      .file ['b'] (.mk [aRule] [.file ['c'] (.mk [aRule] [])])]⟩,
    ⟨[(file "b", ⟨[], [aRule], [.file ['c'] (.mk [aRule] [])]⟩),
      (file "a", ⟨[file "c"], [aRule], [.file ['c'] (.mk [aRule] [])]⟩), (file "c", ⟨[], [aRule], []⟩)],
      [file "a", file "c", file "b"]⟩,
    file "b", file "c", ['x'], ⟨[], [aRule], [.file ['c'] (.mk [aRule] [])]⟩,
    by rfl, by rfl, by rfl, .direct ⟨[imp "c", .rule aRule], ⟨["c".toList], none, none⟩, by rfl, List.mem_cons_self,
      by decide, by decide⟩, by simp⟩

/-! ## C48 -/

/-- Loading a grammar succeeds exactly if all files are readable grammars and there is no infinite chain of imports. -/
theorem C48_loads_iff (w : World) (text : Text) (root : FPath) :
    (∃ fuel r, parseGrammar w fuel text root = .ok r) ↔
      AllOk w root text ∧ ∀ p, ImportsFile w root text p → Acc (Above w) p := by
  constructor
  · rintro ⟨fuel, ⟨m, st⟩, h⟩
    have := (parseText_ok fuel root text _ m st (goodSt_nil w) h).2.1
    exact ⟨loads_ok this, loads_acc this⟩
  · rintro ⟨hok, hacc⟩
    obtain ⟨m, hm⟩ := loads_exists.loads_step hok fun q hq t ht htok => loads_exists q (hacc q hq) t ht htok
    obtain ⟨N, hN⟩ := loads_run hm
    obtain ⟨lm, st, h, _⟩ := hN N (Nat.le_refl _) ⟨[], []⟩ (goodSt_nil w)
    exact ⟨N, _, h⟩

/-- A cycle among the imported files: no module results. -/
theorem C48_cyclic (w : World) (text : Text) (root p : FPath) (t : Text) (h1 : Reaches w root text p)
    (h2 : w.read p = some t) (h3 : Reaches w p t p) : ∀ fuel r, parseGrammar w fuel text root ≠ .ok r := by
  intro fuel r h
  obtain ⟨_, hacc⟩ := (C48_loads_iff w text root).mp ⟨fuel, r, h⟩
  have down : ∀ {q t p}, Acc (Above w) q → w.read q = some t → Reaches w q t p → Acc (Above w) p := by
    intro q t p ha ht hr
    induction hr with
    | direct h => exact ha.inv ⟨_, ht, h⟩
    | step b1 b2 _ ih => exact ih (ha.inv ⟨_, ht, b1⟩) b2
  have : Acc (Above w) p := by
    cases h1 with
    | direct h => exact hacc p h
    | step b1 b2 b3 => exact down (hacc _ b1) b2 b3
  exact acc_irrefl this t h2 h3

/-- If nothing else is wrong, loading a grammar with a cycle never ends. -/
theorem C48_cyclic_diverges (w : World) (text : Text) (root p : FPath) (t : Text) (hok : AllOk w root text)
    (h1 : Reaches w root text p) (h2 : w.read p = some t) (h3 : Reaches w p t p) :
    ∀ fuel, parseGrammar w fuel text root = .oof := by
  intro fuel
  have hf := parseText_fine fuel root text ⟨[], []⟩ hok
  have hn := C48_cyclic w text root p t h1 h2 h3 fuel
  unfold parseGrammar at hn ⊢
  generalize parseText w fuel root text ⟨[], []⟩ = o at hf hn
  cases o with
  | ok r => exact absurd rfl (hn r)
  | oof => rfl
  | err => exact hf.elim
  | panic => exact hf.elim

theorem filter_length_lt {α : Type} (P Q : α → Bool) (l : List α) (h : ∀ a, P a = true → Q a = true) (a : α) (ha : a ∈ l)
    (hp : P a = false) (hq : Q a = true) : (l.filter P).length < (l.filter Q).length := by
  have mono : ∀ l : List α, (l.filter P).length ≤ (l.filter Q).length := by
    intro l
    induction l with
    | nil => simp
    | cons b l ih =>
      cases hb : P b with
      | true => simp [hb, h b hb, ih]
      | false =>
        simp only [List.filter_cons, hb, Bool.false_eq_true, if_false]
        split
        · simp; omega
        · exact ih
  induction l with
  | nil => simp at ha
  | cons b l ih =>
    rcases List.mem_cons.mp ha with rfl | ha
    · simp only [List.filter_cons, hp, hq, Bool.false_eq_true, if_false, if_true, List.length_cons]
      have := mono l; omega
    · have := ih ha
      cases hb : P b with
      | true => simp [hb, h b hb, this]
      | false =>
        simp only [List.filter_cons, hb, Bool.false_eq_true, if_false]
        split
        · simp; omega
        · exact this

/-- With finitely many files, loading succeeds exactly if all files are readable grammars and no imported file imports
itself, directly or through other files. -/
theorem C48_acyclic_iff (w : World) (text : Text) (root : FPath) (files : List FPath)
    (hfin : ∀ p, Reaches w root text p → p ∈ files) :
    (∃ fuel r, parseGrammar w fuel text root = .ok r) ↔
      AllOk w root text ∧ ∀ p t, Reaches w root text p → w.read p = some t → ¬ Reaches w p t p := by
  constructor
  · rintro ⟨fuel, r, h⟩
    exact ⟨((C48_loads_iff w text root).mp ⟨fuel, r, h⟩).1, fun p t h1 h2 h3 => C48_cyclic w text root p t h1 h2 h3 fuel r h⟩
  · rintro ⟨hok, hcyc⟩
    refine (C48_loads_iff w text root).mpr ⟨hok, fun p hp => ?_⟩
    have trans : ∀ {r t q}, Reaches w r t q → ∀ {t' p}, w.read q = some t' → Reaches w q t' p → Reaches w r t p := by
      intro r t q h
      induction h with
      | direct h => exact fun h1 h2 => .step h h1 h2
      | step b1 b2 _ ih => exact fun h1 h2 => .step b1 b2 (ih h1 h2)
    classical
    suffices ∀ n p, Reaches w root text p →
        (files.filter fun q => decide (∃ t, w.read p = some t ∧ Reaches w p t q)).length ≤ n → Acc (Above w) p from
      this _ p (.direct hp) (Nat.le_refl _)
    intro n
    induction n with
    | zero =>
      intro p hr hn
      refine .intro _ fun q ⟨t, ht, hq⟩ => ?_
      have : q ∈ files.filter fun q => decide (∃ t, w.read p = some t ∧ Reaches w p t q) :=
        List.mem_filter.mpr ⟨hfin q (trans hr ht (.direct hq)), decide_eq_true ⟨t, ht, .direct hq⟩⟩
      rw [List.eq_nil_of_length_eq_zero (Nat.le_zero.mp hn)] at this
      simp at this
    | succ n ih =>
      intro p hr hn
      refine .intro _ fun q ⟨t, ht, hq⟩ => ?_
      have hrq := trans hr ht (.direct hq)
      refine ih q hrq ?_
      have := filter_length_lt (fun r => decide (∃ t, w.read q = some t ∧ Reaches w q t r))
        (fun r => decide (∃ t, w.read p = some t ∧ Reaches w p t r)) files
        (fun r h => by
          obtain ⟨t', h1, h2⟩ := of_decide_eq_true h
          exact decide_eq_true ⟨t, ht, .step hq h1 h2⟩) q (hfin q hrq)
        (decide_eq_false fun ⟨t', h1, h2⟩ => hcyc q t' hrq h1 h2) (decide_eq_true ⟨t, ht, .direct hq⟩)
      omega

/-- Two files importing each other. -/
private def cyclic : World where
  read p := if p = file "a" then some ['a'] else if p = file "b" then some ['b'] else none
  parse t := if t = ['a'] then some [imp "b"] else if t = ['b'] then some [imp "a"] else none

private theorem cyclic_a : ImportsFile cyclic (file "b") ['b'] (file "a") :=
  ⟨[imp "a"], ⟨["a".toList], none, none⟩, by rfl, List.mem_cons_self, by decide, by decide⟩

private theorem cyclic_b : ImportsFile cyclic (file "a") ['a'] (file "b") :=
  ⟨[imp "b"], ⟨["b".toList], none, none⟩, by rfl, List.mem_cons_self, by decide, by decide⟩

example : ∀ fuel r, parseGrammar cyclic fuel ['a'] (file "a") ≠ .ok r :=
  C48_cyclic cyclic ['a'] (file "a") (file "b") ['b'] (.direct cyclic_b) (by rfl)
    (.step cyclic_a (by rfl : cyclic.read (file "a") = some ['a']) (.direct cyclic_b))

/-- A returned error always stems from the grammar itself: it is not a grammar, or one of the files it imports
cannot be read.  (Errors in imported files are panics.) -/
theorem C48_error_source (w : World) (fuel : Nat) (text : Text) (root : FPath)
    (h : parseGrammar w fuel text root = .err) :
    w.parse text = none ∨ (∃ items, w.parse text = some items ∧ .invalid ∈ items) ∨
      ∃ p, ImportsFile w root text p ∧ w.read p = none := by
  unfold parseGrammar at h
  cases fuel with
  | zero => simp [parseText] at h
  | succ fuel =>
    simp only [parseText] at h
    cases hp : w.parse text with
    | none => exact .inl rfl
    | some items =>
      rw [hp] at h
      dsimp only at h
      refine .inr ?_
      suffices ∀ l m st, (∀ a ∈ l, a ∈ items) → runItems w (parseText w fuel) root l m st = .err →
          .invalid ∈ l ∨ ∃ p, ImportsFile w root text p ∧ w.read p = none by
        exact (this items _ _ (fun _ h => h) h).imp (fun h => ⟨items, rfl, h⟩) id
      intro l
      induction l with
      | nil => intro m st _ h; simp [runItems] at h
      | cons a l ih =>
        intro m st hl h
        have ih := fun m st h => (ih m st (fun b hb => hl b (List.mem_cons_of_mem _ hb)) h).imp (List.mem_cons_of_mem a) id
        cases a with
        | invalid => exact .inl List.mem_cons_self
        | panics => simp [runItems] at h
        | doc => exact ih _ _ h
        | rule r => exact ih _ _ h
        | imp i =>
          simp only [runItems] at h
          cases hn : i.name with
          | none => rw [hn] at h; simp at h
          | some x =>
            rw [hn] at h
            dsimp only at h
            split at h
            · exact ih _ _ h
            · rename_i hb
              cases ht : i.target root with
              | none => rw [ht] at h; simp at h
              | some q =>
                rw [ht] at h
                dsimp only at h
                cases hI : importFile w (parseText w fuel) q m st with
                | ok r => rw [hI] at h; exact ih _ _ h
                | panic => rw [hI] at h; simp at h
                | oof => rw [hI] at h; simp at h
                | err =>
                  refine .inr ⟨q, ⟨items, i, hp, hl _ List.mem_cons_self, by simpa using hb, ht⟩, ?_⟩
                  unfold importFile at hI
                  cases hr : w.read q with
                  | none => rfl
                  | some t =>
                    rw [hr] at hI
                    split at hI
                    · simp at hI
                    · dsimp only at hI
                      split at hI <;> simp at hI

example : parseGrammar diamond 3 ['z'] (file "main") = .err := by rfl

/-! ## C59: where imports are looked up -/

theorem splitDot_none (x : Name) (h : '.' ∉ x) : splitDot x = (x, none) := by
  unfold splitDot
  have : ∀ l : Name, '.' ∉ l → l.dropWhile (· != '.') = [] := by
    intro l
    induction l with
    | nil => simp
    | cons c l ih =>
      intro hl
      have hc : (c != '.') = true := by
        simp only [bne_iff_ne]
        exact fun e => hl (e ▸ List.mem_cons_self)
      rw [List.dropWhile_cons, if_pos hc, ih fun hm => hl (List.mem_cons_of_mem _ hm)]
  rw [this x.reverse (by simpa using h)]

theorem foldl_push (l : List Name) : ∀ p : FPath,
    l.foldl (fun p x => p.push (section_ x)) p = ⟨p.abs, p.comps ++ l.map section_⟩ := by
  induction l with
  | nil => intro p; simp
  | cons x l ih => intro p; rw [List.foldl_cons, ih]; simp [FPath.push]

private theorem span_dot (a b : Name) (ha : '.' ∉ a) : (a ++ '.' :: b).dropWhile (· != '.') = '.' :: b ∧ (a ++ '.' :: b).takeWhile (· != '.') = a := by
  induction a with
  | nil => simp
  | cons c a ih =>
    have hc : (c != '.') = true := by
      simp only [bne_iff_ne]
      exact fun e => ha (e ▸ List.mem_cons_self)
    obtain ⟨h1, h2⟩ := ih fun hm => ha (List.mem_cons_of_mem _ hm)
    rw [List.cons_append, List.dropWhile_cons, List.takeWhile_cons, if_pos hc, if_pos hc, h1, h2]
    exact ⟨rfl, rfl⟩

/-- The extension of a path is what comes after the last dot of the file name, if something comes before it (so `.pest` has none); `..` is not a file name. -/
theorem C59_extension (p : FPath) (e : Name) :
    p.extension = some e ↔ '.' ∉ e ∧ ∃ s, s ≠ [] ∧ s ++ '.' :: e ≠ "..".toList ∧ p.comps.getLast? = some (s ++ '.' :: e) := by
  have split : ∀ x, (splitDot x).2 = some e ↔ '.' ∉ e ∧ ∃ s, s ≠ [] ∧ x = s ++ '.' :: e := by
    intro x
    constructor
    · intro h
      have hx : x.reverse.takeWhile (· != '.') ++ x.reverse.dropWhile (· != '.') = x.reverse := List.takeWhile_append_dropWhile
      have hn : '.' ∉ x.reverse.takeWhile (· != '.') := fun hm => by
        have := List.all_takeWhile (p := (· != '.')) (l := x.reverse)
        rw [List.all_eq_true] at this
        exact absurd (this _ hm) (by decide)
      unfold splitDot at h
      split at h
      · cases h
      · cases h
      · next c before hne hd =>
        cases h
        rw [hd] at hx
        have hc : c = '.' := by
          have := List.head?_dropWhile_not (p := (· != '.')) (l := x.reverse)
          rw [hd] at this
          simpa using this
        subst hc
        refine ⟨fun hm => hn (List.mem_reverse.mp hm), before.reverse, fun h => hne (List.reverse_eq_nil_iff.mp h), ?_⟩
        have := congrArg List.reverse hx
        rw [List.reverse_reverse] at this
        refine this.symm.trans ?_
        simp
    · rintro ⟨he, s, hs, rfl⟩
      obtain ⟨h1, h2⟩ := span_dot e.reverse s.reverse (by simpa using he)
      unfold splitDot
      have hr : (s ++ '.' :: e).reverse = e.reverse ++ '.' :: s.reverse := by simp
      rw [hr, h1, h2]
      cases hs' : s.reverse with
      | nil => exact absurd (List.reverse_eq_nil_iff.mp hs') hs
      | cons c l => simp
  unfold FPath.extension FPath.fileName
  cases hl : p.comps.getLast? with
  | none => simp
  | some x =>
    dsimp only
    by_cases hx : x = dot ∨ x = dotDot
    · rw [if_pos hx]
      constructor
      · intro h; cases h
      · rintro ⟨he, s, hs, hd, h⟩
        cases h
        rcases hx with h | h
        · cases s with
          | nil => exact absurd rfl hs
          | cons c s => simp [dot] at h
        · exact absurd h hd
    · rw [if_neg hx]
      dsimp only
      rw [split]
      constructor
      · rintro ⟨he, s, hs, rfl⟩
        exact ⟨he, s, hs, fun h => hx (.inr h), rfl⟩
      · rintro ⟨he, s, hs, -, h⟩
        exact ⟨he, s, hs, Option.some.inj h⟩

example : FPath.extension ⟨true, ["g".toList, "a.b.pest".toList]⟩ = some "pest".toList ∧ FPath.extension ⟨true, ["g".toList, ".pest".toList]⟩ = none := by decide

/-- `use a::b` in the file `dir/f` is the file `dir/a/b.pest`, where `super` stands for `..`. -/
theorem C59_default_path (abs : Bool) (dir : List Name) (f : Name) (segs : List Name) (x : Name)
    (hdir : FPath.extension ⟨abs, dir⟩ ≠ some pestExt) (hx : '.' ∉ x) (hs : x ≠ "super".toList) :
    modPathToFsPath ⟨abs, dir ++ [f]⟩ (segs ++ [x]) =
      some ⟨abs, dir ++ segs.map section_ ++ [x ++ ".pest".toList]⟩ := by
  have hp : FPath.parent ⟨abs, dir ++ [f]⟩ = some ⟨abs, dir⟩ := by simp [FPath.parent]
  have hsec : section_ x = x := if_neg hs
  have hfn : FPath.fileName ⟨abs, dir ++ (segs ++ [x]).map section_⟩ = some x := by
    simp only [FPath.fileName, List.map_append, List.map_cons, List.map_nil, ← List.append_assoc,
      List.getLast?_concat, hsec]
    rw [if_neg]
    rintro (rfl | rfl) <;> exact hx (by simp [dot, dotDot])
  unfold modPathToFsPath
  rw [hp]
  dsimp only
  rw [if_neg hdir, foldl_push]
  unfold FPath.withExtension
  rw [hfn]
  dsimp only
  rw [splitDot_none x hx]
  simp only [List.map_append, List.map_cons, List.map_nil, ← List.append_assoc, List.dropLast_concat]
  rfl

example : modPathToFsPath ⟨true, ["g".toList, "main.pest".toList]⟩ ["super".toList, "a".toList, "b".toList] =
    some ⟨true, ["g".toList, "..".toList, "a".toList, "b.pest".toList]⟩ := by decide

/-- Different module paths (without `super`) are different files. -/
theorem C59_injective (abs : Bool) (dir : List Name) (f : Name) (p q : List Name) (x y : Name)
    (hdir : FPath.extension ⟨abs, dir⟩ ≠ some pestExt) (hp : ∀ s ∈ p ++ [x], '.' ∉ s ∧ s ≠ "super".toList)
    (hq : ∀ s ∈ q ++ [y], '.' ∉ s ∧ s ≠ "super".toList)
    (h : modPathToFsPath ⟨abs, dir ++ [f]⟩ (p ++ [x]) = modPathToFsPath ⟨abs, dir ++ [f]⟩ (q ++ [y])) :
    p ++ [x] = q ++ [y] := by
  rw [C59_default_path abs dir f p x hdir (hp x (by simp)).1 (hp x (by simp)).2,
    C59_default_path abs dir f q y hdir (hq y (by simp)).1 (hq y (by simp)).2] at h
  injection h with h
  injection h with _ h
  have hm : ∀ l : List Name, (∀ s ∈ l, s ≠ "super".toList) → l.map section_ = l := by
    intro l hl
    induction l with
    | nil => rfl
    | cons a l ih =>
      rw [List.map_cons, ih fun s hs => hl s (List.mem_cons_of_mem _ hs)]
      rw [show section_ a = a from if_neg (hl a List.mem_cons_self)]
  rw [hm p fun s hs => (hp s (List.mem_append_left _ hs)).2, hm q fun s hs => (hq s (List.mem_append_left _ hs)).2,
    List.append_assoc, List.append_assoc] at h
  have h := List.append_cancel_left h
  obtain ⟨rfl, h'⟩ := List.append_inj' h rfl
  injection h' with h
  rw [List.append_cancel_right h]

/-- The derive macro passes the path of the grammar file with `_.rs` appended; imports are looked up as if the path of the
grammar file had been passed, if its extension is `pest`. -/
theorem C59_derive (abs : Bool) (dir : List Name) (g : Name) (path : List Name)
    (hdir : FPath.extension ⟨abs, dir⟩ ≠ some pestExt) (hg : FPath.extension ⟨abs, dir ++ [g]⟩ = some pestExt) :
    modPathToFsPath (FPath.push ⟨abs, dir ++ [g]⟩ "_.rs".toList) path = modPathToFsPath ⟨abs, dir ++ [g]⟩ path := by
  have h1 : FPath.parent (FPath.push ⟨abs, dir ++ [g]⟩ "_.rs".toList) = some ⟨abs, dir ++ [g]⟩ := by
    simp [FPath.parent, FPath.push]
  have h2 : FPath.parent ⟨abs, dir ++ [g]⟩ = some ⟨abs, dir⟩ := by simp [FPath.parent]
  unfold modPathToFsPath
  rw [h1, h2]
  dsimp only
  rw [if_pos hg, if_neg hdir, List.dropLast_concat]

example : modPathToFsPath (FPath.push ⟨true, ["g".toList, "main.pest".toList]⟩ "_.rs".toList) ["a".toList] =
    some ⟨true, ["g".toList, "a.pest".toList]⟩ := by decide

/-- With another extension they are looked up below the grammar file, where nothing can be. -/
theorem C59_other_extension : modPathToFsPath (FPath.push ⟨true, ["g".toList, "main.peg".toList]⟩ "_.rs".toList)
    ["a".toList] = some ⟨true, ["g".toList, "main.peg".toList, "a.pest".toList]⟩ := by decide

/-- `use super` names a directory. -/
theorem C59_super_alone : modPathToFsPath ⟨true, ["g".toList, "main.pest".toList]⟩ ["super".toList] =
    some ⟨true, ["g".toList, "..".toList]⟩ := by decide

/-- An explicit file is not looked up next to the importing file, but taken as it is. -/
theorem C59_explicit (root p : FPath) (path : List Name) (alias : Option Name) :
    (ImportStmt.mk path (some p) alias).target root = some p := rfl

end Pest3.Props
