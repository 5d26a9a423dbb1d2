import Verif.Items
import Verif.ScopeLemmas
import Verif.GenLink
import Verif.LinkGen
import Verif.SizeLemmas
import Verif.AccessorBuild

namespace Pest3.Gen
open Pest3

/-! ## Where things are -/

/-- The configured name of the module of the rules. -/
def Output.rulesMod : Output → Option Name
  | .mk _ _ _ _ rm => rm

/-- The contents of the module of the rules. -/
def Output.scope : Output → Items
  | .mk content _ _ mods _ =>
    .mk (("__OptionalTrivia".toList, 0) :: ("__MandatoryTrivia".toList, 0) ::
        content.map fun s => (s.name, s.args.length)) (codeAll mods)

theorem code_eq (o : Output) : o.code = .mk [("Rule".toList, 0)] [(typesMod o.rulesMod, o.scope)] := by
  cases o; simp only [Output.code, Output.rulesMod, Output.scope]

theorem findMod_codeAll (x : Name) (mods : List (Name × Output)) :
    findMod x (codeAll mods) = (outChild x mods).map Output.code := by
  induction mods with
  | nil => rfl
  | cons a mods ih =>
    obtain ⟨y, o⟩ := a
    simp only [codeAll, findMod, outChild]
    split <;> simp [ih]

/-- The module around the module of the rules. -/
def aroundOf (rm : Option Name) (p : List Name) : List Name := p.flatMap fun x => [typesMod rm, x]

theorem scopeOf_eq (rm : Option Name) (p : List Name) : scopeOf rm p = aroundOf rm p ++ [typesMod rm] := by
  unfold scopeOf aroundOf
  induction p with
  | nil => rfl
  | cons x p ih =>
    simp only [List.flatMap_cons, List.cons_append, List.nil_append] at ih ⊢
    rw [ih]

theorem aroundOf_length (rm : Option Name) (p : List Name) : (aroundOf rm p).length = 2 * p.length := by
  unfold aroundOf
  induction p with
  | nil => rfl
  | cons x p ih => simp only [List.flatMap_cons, List.cons_append, List.nil_append, List.length_cons, ih]; omega

theorem scopeOf_length (rm : Option Name) (p : List Name) : (scopeOf rm p).length = 2 * p.length + 1 := by
  rw [scopeOf_eq, List.length_append, aroundOf_length]; rfl

theorem around_take (rm : Option Name) (p : List Name) (n : Nat) :
    (aroundOf rm p).take (2 * n) = aroundOf rm (p.take n) := by
  unfold aroundOf
  induction p generalizing n with
  | nil => simp
  | cons x p ih =>
    cases n with
    | zero => simp
    | succ n =>
      rw [show 2 * (n + 1) = 2 * n + 1 + 1 by omega]
      simp only [List.flatMap_cons, List.cons_append, List.nil_append, List.take_succ_cons, ih]

theorem rootUps_eq (d : Nat) : rootUps d = 2 * d + 1 := by
  induction d with
  | zero => rfl
  | succ d ih => rw [rootUps, ih]; omega

theorem Items.at_append (p q : List Name) : ∀ i : Items, i.at (p ++ q) = (i.at p).bind fun i => i.at q := by
  induction p with
  | nil => intro i; cases i; simp [Items.at]
  | cons x p ih =>
    intro i
    cases i with
    | mk types mods =>
      simp only [List.cons_append, Items.at]
      cases findMod x mods with
      | none => rfl
      | some i => exact ih i

section
variable {rm : Option Name}

theorem code_around (p : List Name) : ∀ {out o : Output}, (∀ q o, outAt out q = some o → o.rulesMod = rm) →
    outAt out p = some o → out.code.at (aroundOf rm p) = some o.code := by
  induction p with
  | nil =>
    intro out o _ h
    have : out = o := by cases out; simpa [outAt] using h
    subst this
    cases out; simp [aroundOf, Items.at]
  | cons x p ih =>
    intro out o hu h
    have h0 : out.rulesMod = rm := hu [] out (by cases out; rfl)
    have hcons : aroundOf rm (x :: p) = typesMod rm :: x :: aroundOf rm p := rfl
    rw [code_eq, hcons, h0]
    cases out with
    | mk c a b mods r =>
      simp only [outAt] at h
      split at h
      · rename_i o1 h1
        simp only [Items.at, findMod, if_true, Output.scope, findMod_codeAll, h1, Option.map_some]
        refine ih (fun q o' hq => hu (x :: q) o' ?_) h
        simp only [outAt, h1, hq]
      · simp at h

variable {uni : List Name} {st : GenSt}

theorem generated_eq (out : Output) : generated uni out st = .mk [("Rule".toList, 0)]
    ([(typesMod out.rulesMod, out.scope)] ++ [("wrapper".toList, .mk (st.wrappers.map fun w => (w.1, 0)) []),
       ("unicode".toList, .mk (uni.map fun x => (x, 0)) []),
       ("generics".toList, .mk (declTypes (genericsDecls st)) [])]) := by
  unfold generated
  rw [code_eq]

theorem generated_scope {p : List Name} {out o : Output} (hu : ∀ q o, outAt out q = some o → o.rulesMod = rm)
    (h : outAt out p = some o) : (generated uni out st).at (scopeOf rm p) = some o.scope := by
  have h0 : out.rulesMod = rm := hu [] out (by cases out; rfl)
  have h1 : out.code.at (scopeOf rm p) = some o.scope := by
    rw [scopeOf_eq, Items.at_append, code_around p hu h, Option.bind_some, code_eq, hu p o h]
    simp only [Items.at, findMod, if_true]
  rw [code_eq, h0] at h1
  rw [generated_eq, h0]
  simpa [scopeOf, Items.at, findMod] using h1

theorem generated_around {p : List Name} {out o : Output} (hu : ∀ q o, outAt out q = some o → o.rulesMod = rm)
    (h : outAt out p = some o) : ∃ i, (generated uni out st).at (aroundOf rm p) = some i ∧ ("Rule".toList, 0) ∈ i.types := by
  have h0 : out.rulesMod = rm := hu [] out (by cases out; rfl)
  have h1 := code_around p hu h
  cases p with
  | nil => exact ⟨_, by rw [generated_eq]; rfl, List.mem_cons_self⟩
  | cons x p =>
    refine ⟨o.code, ?_, by rw [code_eq]; exact List.mem_cons_self⟩
    rw [code_eq, h0] at h1
    rw [generated_eq, h0]
    have hcons : aroundOf rm (x :: p) = typesMod rm :: x :: aroundOf rm p := rfl
    rw [hcons] at h1 ⊢
    simpa [Items.at, findMod] using h1

theorem Items.at_one (types : List (Name × Nat)) (mods : List (Name × Items)) (x : Name) :
    (Items.mk types mods).at [x] = findMod x mods := by
  rw [Items.at]
  cases findMod x mods with
  | none => rfl
  | some i => cases i; rfl

theorem findMod_skip {x y : Name} {i : Items} {l : List (Name × Items)} (h : y ≠ x) : findMod x ((y, i) :: l) = findMod x l := by
  rw [findMod, if_neg h]

/-- From any module of rules, the root is the generated code. -/
theorem root_at (p : List Name) : rootUps p.length ≤ (scopeOf rm p).length ∧
    (scopeOf rm p).take ((scopeOf rm p).length - rootUps p.length) = [] := by
  rw [scopeOf_length, rootUps_eq]; simp

end

/-! ## The module `generics` -/

theorem nodup_map {α β : Type} {f : α → β} (hf : ∀ a b, f a = f b → a = b) {l : List α} (h : l.Nodup) : (l.map f).Nodup := by
  induction l with
  | nil => simp
  | cons a l ih =>
    rw [List.nodup_cons] at h
    rw [List.map_cons, List.nodup_cons]
    refine ⟨fun hm => ?_, ih h.2⟩
    obtain ⟨b, hb, e⟩ := List.mem_map.mp hm
    exact h.1 (hf _ _ e ▸ hb)

theorem foldl_max (l : List Nat) : ∀ a, a ≤ l.foldl max a ∧ ∀ n ∈ l, n ≤ l.foldl max a := by
  induction l with
  | nil => intro a; simp
  | cons b l ih =>
    intro a
    obtain ⟨h1, h2⟩ := ih (max a b)
    refine ⟨Nat.le_trans (Nat.le_max_left a b) h1, fun n hn => ?_⟩
    rcases List.mem_cons.mp hn with rfl | hn
    · exact Nat.le_trans (Nat.le_max_right a n) h1
    · exact h2 n hn

theorem elements_mem {l : List Nat} {n : Nat} : n ∈ elements l ↔ n ∈ l := by
  unfold elements
  simp only [List.mem_filter, List.mem_range, List.contains_iff_mem]
  exact ⟨And.right, fun h => ⟨Nat.lt_succ_of_le ((foldl_max l 0).2 n h), h⟩⟩

theorem elements_nodup (l : List Nat) : (elements l).Nodup := List.nodup_range.filter _

theorem sequenceName_inj {a b : Nat} (h : sequenceName a = sequenceName b) : a = b :=
  showNat_inj (List.append_cancel_left h)
theorem choiceName_inj {a b : Nat} (h : choiceName a = choiceName b) : a = b :=
  showNat_inj (List.append_cancel_left h)

theorem lookup_map {f : Nat → Name} {g : Nat → Nat} (hf : ∀ a b, f a = f b → a = b) (l : List Nat) {n : Nat} (h : n ∈ l) :
    (l.map fun n => (f n, g n)).lookup (f n) = some (g n) := by
  induction l with
  | nil => simp at h
  | cons a l ih =>
    rw [List.map_cons, List.lookup_cons]
    by_cases e : n = a
    · subst e; simp
    · have : ¬ f n = f a := fun h => e (hf _ _ h)
      have hb : (f n == f a) = false := by simpa using this
      simp only [hb]
      exact ih (by simpa [e] using h)

theorem fill_mem {name : Nat → Name} {arity : Nat → Nat} {lens : List Nat} {n : Nat} (hf : ∀ a b, name a = name b → a = b)
    (h2 : 2 ≤ n) (h : n ∈ lens) : (name n, arity n) ∈
      declTypes (fill name ((List.range' 2 15).map fun n => (name n, arity n)) arity lens) := by
  unfold declTypes fill
  rw [List.mem_filterMap]
  refine ⟨_, List.mem_map.mpr ⟨n, elements_mem.mpr h, rfl⟩, ?_⟩
  split
  · rfl
  · rw [lookup_map hf _ (List.mem_range'_1.mpr (by omega))]; rfl

theorem declTypes_append (a b : List Decl) : declTypes (a ++ b) = declTypes a ++ declTypes b := List.filterMap_append

theorem exported_mem {x : Name} {n : Nat} (hx : x ∈ exported) (h : libTemplate.lookup x = some n) (st : GenSt) :
    (x, n) ∈ declTypes (genericsDecls st) := by
  unfold genericsDecls
  rw [declTypes_append, declTypes_append, List.append_assoc]
  refine List.mem_append_left _ ?_
  unfold declTypes
  rw [List.mem_filterMap]
  exact ⟨_, List.mem_map.mpr ⟨x, hx, rfl⟩, by simp [Decl.arity, Decl.name, h]⟩

theorem sequence_mem {n : Nat} {st : GenSt} (h2 : 2 ≤ n) (h : n ∈ st.seqs) :
    (sequenceName n, 2 * n) ∈ declTypes (genericsDecls st) := by
  unfold genericsDecls
  rw [declTypes_append, declTypes_append]
  exact List.mem_append_left _ (List.mem_append_right _ (fill_mem (arity := (2 * ·)) (fun _ _ => sequenceName_inj) h2 h))

theorem choice_mem {n : Nat} {st : GenSt} (h2 : 2 ≤ n) (h : n ∈ st.choices) :
    (choiceName n, n) ∈ declTypes (genericsDecls st) := by
  unfold genericsDecls
  rw [declTypes_append, declTypes_append]
  exact List.mem_append_right _ (fill_mem (arity := id) (fun _ _ => choiceName_inj) h2 h)

/-! ## The tracker only grows -/

/-- What has been recorded is still recorded. -/
structure GenSt.Le (a b : GenSt) : Prop where
  wrappers : a.wrappers <+: b.wrappers
  seqs : ∀ n ∈ a.seqs, n ∈ b.seqs
  choices : ∀ n ∈ a.choices, n ∈ b.choices

theorem GenSt.Le.refl (a : GenSt) : a.Le a := ⟨List.prefix_refl _, fun _ h => h, fun _ h => h⟩
theorem GenSt.Le.trans {a b c : GenSt} (h1 : a.Le b) (h2 : b.Le c) : a.Le c :=
  ⟨h1.1.trans h2.1, fun n h => h2.2 n (h1.2 n h), fun n h => h2.3 n (h1.3 n h)⟩

theorem insertString_counts (st : GenSt) (s : Text) :
    (st.insertString s).2.seqs = st.seqs ∧ (st.insertString s).2.choices = st.choices := by
  unfold GenSt.insertString
  split <;> simp

theorem insertString_le (st : GenSt) (s : Text) : st.Le (st.insertString s).2 := by
  obtain ⟨h1, h2⟩ := insertString_counts st s
  exact ⟨insertString_prefix _ _, fun n h => h1 ▸ h, fun n h => h2 ▸ h⟩

theorem gen_le {params : List Name} {sys : ModSys} {item st st'} (h : GenRel params sys item st st') : st.Le st' := by
  induction h with
  | str => exact insertString_le _ _
  | insens => exact insertString_le _ _
  | range | param _ | paramSlice _ | paramCall _ | path _ _ | slice _ _ | nil => exact .refl _
  | call _ _ _ ih => exact ih
  | pos _ ih | neg _ ih | opt _ ih | rep _ ih | repOnce _ ih | repRange _ ih | separated _ ih => exact ih
  | seq _ ih => exact ih.trans ⟨List.prefix_refl _, fun _ h => List.mem_cons_of_mem _ h, fun _ h => h⟩
  | choice _ ih => exact ih.trans ⟨List.prefix_refl _, fun _ h => h, fun _ h => List.mem_cons_of_mem _ h⟩
  | cons _ _ ih1 ih2 => exact ih1.trans ih2

/-- Sequences and choices have at least two parts. -/
structure GenSt.Two (a : GenSt) : Prop where
  seqs : ∀ n ∈ a.seqs, 2 ≤ n
  choices : ∀ n ∈ a.choices, 2 ≤ n

theorem seqTail_length (t : Trivia) (e : Expr) : 1 ≤ (seqTail t e).length := by
  cases e <;> simp [seqTail]
theorem choiceTail_length (e : Expr) : 1 ≤ (choiceTail e).length := by
  cases e <;> simp [choiceTail]

theorem gen_two {params : List Name} {sys : ModSys} {item st st'} (h : GenRel params sys item st st') : st.Two → st'.Two := by
  induction h with
  | @str s st => intro h; obtain ⟨h1, h2⟩ := insertString_counts st s; exact ⟨h1 ▸ h.1, h2 ▸ h.2⟩
  | @insens s st => intro h; obtain ⟨h1, h2⟩ := insertString_counts st s; exact ⟨h1 ▸ h.1, h2 ▸ h.2⟩
  | range | param _ | paramSlice _ | paramCall _ | path _ _ | slice _ _ | nil => exact id
  | call _ _ _ ih => exact ih
  | pos _ ih | neg _ ih | opt _ ih | rep _ ih | repOnce _ ih | repRange _ ih | separated _ ih => exact ih
  | @seq l r t rs st st' hg ih =>
    intro h
    have := gen_length hg
    refine ⟨fun n hn => ?_, (ih h).2⟩
    rcases List.mem_cons.mp hn with rfl | hn
    · have h1 := seqTail_length t r
      simp only [collectSequence, List.map_cons, List.length_cons, List.length_map] at this
      omega
    · exact (ih h).1 n hn
  | @choice l r rs st st' hg ih =>
    intro h
    have := gen_length hg
    refine ⟨(ih h).1, fun n hn => ?_⟩
    rcases List.mem_cons.mp hn with rfl | hn
    · have h1 := choiceTail_length r
      simp only [collectChoices, List.length_cons] at this
      omega
    · exact (ih h).2 n hn
  | cons _ _ ih1 ih2 => exact ih2 ∘ ih1

section
variable {cfg : Config}

theorem genRules_le {reach : RefMap} {sys : ModSys} {rules o o' st st'} (h : GenRules cfg reach sys rules o o' st st') :
    st.Le st' ∧ (st.Two → st'.Two) := by
  induction h with
  | nil => exact ⟨.refl _, id⟩
  | opt _ hg _ ih => exact ⟨(gen_le hg).trans ih.1, ih.2 ∘ gen_two hg⟩
  | man _ hg _ ih => exact ⟨(gen_le hg).trans ih.1, ih.2 ∘ gen_two hg⟩
  | rule _ _ hg _ ih => exact ⟨(gen_le hg).trans ih.1, ih.2 ∘ gen_two hg⟩

variable {pest : ModNode}

theorem genMod_le {item st st'} (h : GenMod cfg pest item st st') : st.Le st' ∧ (st.Two → st'.Two) := by
  induction h with
  | mk _ _ _ h4 ih =>
    have := genRules_le (processRuleList_gen _ _ _ _ _ h4)
    exact ⟨ih.1.trans this.1, this.2 ∘ ih.2⟩
  | nil => exact ⟨.refl _, id⟩
  | builtin _ _ ih => exact ih
  | file _ _ ih1 ih2 => exact ⟨ih1.1.trans ih2.1, ih2.2 ∘ ih1.2⟩

theorem outChild_le {item st st'} (h : GenMod cfg pest item st st') :
    match item with
    | .mod _ _ _ => True
    | .imports l _ _ outs => ∀ x y m', l.find? (fun i => i.name = x) = some (.file y m') →
        ∃ o sys1 st1 st2, outChild x outs = some o ∧ GenMod cfg pest (.mod m' o sys1) st1 st2 ∧ st2.Le st' ∧
          (WfSt st → WfSt st1) ∧ Import.file y m' ∈ l := by
  induction h with
  | mk => trivial
  | nil => intro x y m' h; simp at h
  | @builtin x' p l sys sys' outs st st' _ _ ih =>
    intro x y m' h
    rw [List.find?_cons] at h
    simp only [Import.name] at h
    split at h
    · simp at h
    · obtain ⟨o, sys1, st1, st2, h1, h2, h3, h4, h5⟩ := ih x y m' h
      exact ⟨o, sys1, st1, st2, h1, h2, h3, h4, List.mem_cons_of_mem _ h5⟩
  | @file x' m l out child sys sys' outs st st1 st2 hm hi ih1 ih2 =>
    intro x y m' h
    rw [List.find?_cons] at h
    simp only [Import.name] at h
    split at h
    · rename_i hx
      have hx := of_decide_eq_true hx
      simp only [Option.some.injEq, Import.file.injEq] at h
      obtain ⟨rfl, rfl⟩ := h
      exact ⟨out, child, st, st1, by simp [outChild, hx], hm, (genMod_le hi).1, id, List.mem_cons_self⟩
    · rename_i hx
      have hx := of_decide_eq_false hx
      obtain ⟨o, sys1, sta, stb, h1, h2, h3, h4, h5⟩ := ih2 x y m' h
      exact ⟨o, sys1, sta, stb, by simp [outChild, hx, h1], h2, h3, fun hw => h4 (genMod_wf hm hw),
        List.mem_cons_of_mem _ h5⟩

/-- The module at a path was generated on its own, and what was recorded for it is still recorded in the end. -/
theorem genMod_at_le (p : List Name) : ∀ {root out sys st st'}, GenMod cfg pest (.mod root out sys) st st' → WfSt st →
    ∀ {m}, modAt root p = some m → ∃ o sys1 st1 st2, outAt out p = some o ∧ GenMod cfg pest (.mod m o sys1) st1 st2 ∧
      st2.Le st' ∧ WfSt st1 ∧ ModIn m root := by
  induction p with
  | nil =>
    intro root out sys st st' h hw m hm
    simp only [modAt, Option.some.injEq] at hm
    subst hm
    exact ⟨out, sys, st, st', by cases out; rfl, h, .refl _, hw, .refl⟩
  | cons x p ih =>
    intro root out sys st st' h hw m hm
    cases h with
    | @mk rules imports outs sys1 sys' reach content opt man st st1 st2 h1 _ _ h4 =>
      simp only [modAt] at hm
      split at hm
      · rename_i m' hc
        simp only [Module.child] at hc
        split at hc
        · rename_i y m'' hf
          simp only [Option.some.injEq] at hc
          subst hc
          obtain ⟨o, sysA, stA, stB, a1, a2, a3, a4, a5⟩ := outChild_le h1 x y _ hf
          obtain ⟨o', sysC, stC, stD, b1, b2, b3, b4, b5⟩ := ih a2 (a4 hw) hm
          refine ⟨o', sysC, stC, stD, ?_, b2, (b3.trans a3).trans ?_, b4, .step a5 b5⟩
          · simp only [outAt, a1]; exact b1
          · exact (genRules_le (processRuleList_gen _ _ _ _ _ h4)).1
        · simp at hc
      · simp at hm

theorem genMod_uniform {root out sys st st'} (h : GenMod cfg pest (.mod root out sys) st st') {q : List Name} {o : Output}
    (ho : outAt out q = some o) : o.rulesMod = cfg.rulesMod := by
  obtain ⟨m, sys1, st1, st2, h, _⟩ := genMod_out q h ho
  cases h; rfl

/-- The rule a struct was generated for, and the same for the trivia aliases. -/
theorem genRules_origin {reach : RefMap} {sys : ModSys} {rules o o' st st'} (h : GenRules cfg reach sys rules o o' st st')
    (hw : WfSt st) :
    (∀ s ∈ o'.1, s ∈ o.1 ∨ ∃ r ∈ rules, s.name = r.name ∧ s.args = r.args ∧ ∃ g sta stb,
      s.getter = (if cfg.noGetter then [] else g) ∧ GenRel r.args sys (.one r.node (s.inner, g)) sta stb ∧ WfSt sta ∧ stb.Le st') ∧
    (∀ ty, o'.2.1 = some ty → o.2.1 = some ty ∨ ∃ r ∈ rules, r.name = optName ∧ ∃ g sta stb,
      GenRel r.args sys (.one r.node (ty, g)) sta stb ∧ WfSt sta ∧ stb.Le st') ∧
    (∀ ty, o'.2.2 = some ty → o.2.2 = some ty ∨ ∃ r ∈ rules, r.name = manName ∧ ∃ g sta stb,
      GenRel r.args sys (.one r.node (ty, g)) sta stb ∧ WfSt sta ∧ stb.Le st') := by
  induction h with
  | nil => exact ⟨fun s h => .inl h, fun ty h => .inl h, fun ty h => .inl h⟩
  | opt hn hg hr ih =>
    obtain ⟨i1, i2, i3⟩ := ih (gen_wf hg hw)
    refine ⟨fun s h => ?_, fun ty h => ?_, fun ty h => ?_⟩
    · exact (i1 s h).imp id fun ⟨r, hr, h⟩ => ⟨r, List.mem_cons_of_mem _ hr, h⟩
    · rcases i2 ty h with h | ⟨r, hr, h⟩
      · simp only [Option.some.injEq] at h
        subst h
        exact .inr ⟨_, List.mem_cons_self, hn, _, _, _, hg, hw, (genRules_le hr).1⟩
      · exact .inr ⟨r, List.mem_cons_of_mem _ hr, h⟩
    · exact (i3 ty h).imp id fun ⟨r, hr, h⟩ => ⟨r, List.mem_cons_of_mem _ hr, h⟩
  | man hn hg hr ih =>
    obtain ⟨i1, i2, i3⟩ := ih (gen_wf hg hw)
    refine ⟨fun s h => ?_, fun ty h => ?_, fun ty h => ?_⟩
    · exact (i1 s h).imp id fun ⟨r, hr, h⟩ => ⟨r, List.mem_cons_of_mem _ hr, h⟩
    · exact (i2 ty h).imp id fun ⟨r, hr, h⟩ => ⟨r, List.mem_cons_of_mem _ hr, h⟩
    · rcases i3 ty h with h | ⟨r, hr, h⟩
      · simp only [Option.some.injEq] at h
        subst h
        exact .inr ⟨_, List.mem_cons_self, hn, _, _, _, hg, hw, (genRules_le hr).1⟩
      · exact .inr ⟨r, List.mem_cons_of_mem _ hr, h⟩
  | rule _ _ hg hr ih =>
    obtain ⟨i1, i2, i3⟩ := ih (gen_wf hg hw)
    refine ⟨fun s h => ?_, fun ty h => ?_, fun ty h => ?_⟩
    · rcases i1 s h with h | ⟨r, hr, h⟩
      · rcases List.mem_append.mp h with h | h
        · exact .inl h
        · have := List.mem_singleton.mp h
          subst this
          exact .inr ⟨_, List.mem_cons_self, rfl, rfl, _, _, _, rfl, hg, hw, (genRules_le hr).1⟩
      · exact .inr ⟨r, List.mem_cons_of_mem _ hr, h⟩
    · exact (i2 ty h).imp id fun ⟨r, hr, h⟩ => ⟨r, List.mem_cons_of_mem _ hr, h⟩
    · exact (i3 ty h).imp id fun ⟨r, hr, h⟩ => ⟨r, List.mem_cons_of_mem _ hr, h⟩

end

/-! ## The references in the type of an expression -/

theorem pathsAll_mem {d : Nat} {r : Ref} {l : List Ty} : r ∈ Ty.pathsAll d l ↔ ∃ ty ∈ l, r ∈ ty.paths d := by
  induction l with
  | nil => simp [Ty.pathsAll]
  | cons a l ih => simp [Ty.pathsAll, ih]

theorem paramsAll_mem {x : Name} {l : List Ty} : x ∈ Ty.paramsAll l ↔ ∃ ty ∈ l, x ∈ ty.params := by
  induction l with
  | nil => simp [Ty.paramsAll]
  | cons a l ih => simp [Ty.paramsAll, ih]

/-- What may be referred to. -/
structure Provides (names : List Name) (u : Unicode) (root : Module) (cur : List Name) (params : List Name) (fin : GenSt)
    (d : Nat) (P : Ref → Prop) : Prop where
  lib : ∀ x n, x ∈ exported → libTemplate.lookup x = some n → P (genericRef d x n)
  seqs : ∀ n ∈ fin.seqs, P (genericRef d (sequenceName n) (2 * n))
  choices : ∀ n ∈ fin.choices, P (genericRef d (choiceName n) n)
  wrappers : ∀ w ∈ fin.wrappers, P ⟨rootUps d, ["wrapper".toList], w.1, 0⟩
  unicode : ∀ x ∈ names, P ⟨rootUps d, ["unicode".toList], x.map Char.toUpper, 0⟩
  trivia : ∀ t, ∀ r ∈ triviaRef t, P r
  rules : ∀ q r, (∀ x ∈ params, q ≠ [x]) → target u root cur q = some (.rule (cur ++ q.dropLast) r) →
    P ⟨0, modsPath q.dropLast, r.name, r.args.length⟩

section
variable {names : List Name} {u : Unicode} {root : Module} {cur params : List Name} {fin : GenSt} {d : Nat} {P : Ref → Prop}

theorem leaf_exported {x : Name} {l : Leaf} (h : pestLeaves.lookup x = some l ∨ stackLeaves.lookup x = some l) :
    x ∈ exported ∧ libTemplate.lookup x = some 0 := by
  have key : ∀ y ∈ pestLeaves.map Prod.fst ++ stackLeaves.map Prod.fst, y ∈ exported ∧ libTemplate.lookup y = some 0 := by
    decide
  refine key x ?_
  rw [List.mem_append]
  exact h.imp (fun h => List.mem_map.mpr ⟨_, mem_of_lookup h, rfl⟩) fun h => List.mem_map.mpr ⟨_, mem_of_lookup h, rfl⟩

theorem resolved_paths (hP : Provides names u root cur params fin d P) {q : List Name} {args : PArgs} {ty : Ty}
    (hq : ∀ x ∈ params, q ≠ [x]) (h : Resolved names u root cur q args ty) :
    (∀ r ∈ ty.paths d, P r ∨ ∃ as, args = .call as ∧ r ∈ Ty.pathsAll d as) ∧
    (∀ x ∈ ty.params, ∃ as, args = .call as ∧ x ∈ Ty.paramsAll as) := by
  cases h with
  | @rule r as ht hlen ha =>
    refine ⟨fun r' hr' => ?_, fun x hx => ?_⟩
    · simp only [Ty.paths, List.mem_cons] at hr'
      rcases hr' with rfl | hr'
      · rw [hlen]; exact .inl (hP.rules q r hq ht)
      · rcases ha with ha | ⟨_, rfl⟩
        · exact .inr ⟨as, ha, hr'⟩
        · simp [Ty.pathsAll] at hr'
    · simp only [Ty.params] at hx
      rcases ha with ha | ⟨_, rfl⟩
      · exact ⟨as, ha, hx⟩
      · simp [Ty.paramsAll] at hx
  | @leaf full x l h1 h2 h3 h4 =>
    obtain ⟨e1, e2⟩ := leaf_exported h3
    refine ⟨fun r hr => ?_, fun x hx => by simp [Ty.params, Ty.paramsAll] at hx⟩
    simp only [Ty.paths, Ty.pathsAll, List.length_nil, List.mem_singleton] at hr
    subst hr
    exact .inl (hP.lib _ _ e1 e2)
  | @unicode x h1 =>
    refine ⟨fun r hr => ?_, fun x hx => by simp [Ty.params] at hx⟩
    simp only [Ty.paths, List.mem_singleton] at hr
    subst hr
    exact .inl (hP.unicode x h1)
  | @push t h1 h2 =>
    refine ⟨fun r hr => ?_, fun x hx => ⟨_, h2, by simpa [Ty.params] using hx⟩⟩
    simp only [Ty.paths, List.mem_cons, List.length_cons, List.length_nil] at hr
    rcases hr with rfl | hr
    · exact .inl (hP.lib _ _ (by decide) (by decide))
    · exact .inr ⟨_, h2, hr⟩
  | @slice range h1 h2 =>
    refine ⟨fun r hr => ?_, fun x hx => ?_⟩
    · split at hr <;> simp only [Ty.paths, List.mem_singleton] at hr <;> subst hr <;>
        exact .inl (hP.lib _ _ (by decide) (by decide))
    · split at hx <;> simp [Ty.params] at hx

theorem gen_paths {sys : ModSys} {item st st'} (h : GenRel params sys item st st')
    (hP : Provides names u root cur params fin d P)
    (hres : ∀ q args ty g, sys.resolve q args = some (ty, g) → Resolved names u root cur q args ty)
    (hw : WfSt st) (hle : st'.Le fin) :
    match item with
    | .one _ r => (∀ a ∈ r.1.paths d, P a) ∧ ∀ x ∈ r.1.params, x ∈ params
    | .all _ rs => ∀ r ∈ rs, (∀ a ∈ r.1.paths d, P a) ∧ ∀ x ∈ r.1.params, x ∈ params := by
  have lib : ∀ {x : Name} {n : Nat} {l : List Ref}, x ∈ exported → libTemplate.lookup x = some n → (∀ r ∈ l, P r) →
      ∀ r ∈ genericRef d x n :: l, P r := fun h1 h2 h3 r hr => by
    rcases List.mem_cons.mp hr with rfl | hr
    · exact hP.lib _ _ h1 h2
    · exact h3 r hr
  have triv : ∀ {t : Trivia} {l : List Ref}, (∀ r ∈ l, P r) → ∀ r ∈ triviaRef t ++ l, P r := fun h r hr => by
    rcases List.mem_append.mp hr with hr | hr
    · exact hP.trivia _ r hr
    · exact h r hr
  induction h with
  | @str s st =>
    refine ⟨fun r hr => ?_, fun x hx => by simp [Ty.params] at hx⟩
    refine lib (x := "Str".toList) (n := 1) (l := [⟨rootUps d, ["wrapper".toList], (st.insertString s).1, 0⟩]) (by decide) (by decide) (fun r hr => ?_) r
      (by simpa only [Ty.paths] using hr)
    rw [List.mem_singleton.mp hr]
    exact hP.wrappers _ (hle.wrappers.subset (insertString_mem hw s))
  | @insens s st =>
    refine ⟨fun r hr => ?_, fun x hx => by simp [Ty.params] at hx⟩
    refine lib (x := "Insens".toList) (n := 1) (l := [⟨rootUps d, ["wrapper".toList], (st.insertString s).1, 0⟩]) (by decide) (by decide) (fun r hr => ?_) r
      (by simpa only [Ty.paths] using hr)
    rw [List.mem_singleton.mp hr]
    exact hP.wrappers _ (hle.wrappers.subset (insertString_mem hw s))
  | range =>
    refine ⟨?_, fun x hx => by simp [Ty.params] at hx⟩
    simp only [Ty.paths]
    exact lib (by decide) (by decide) (by simp)
  | param hx | paramSlice hx | paramCall hx =>
    refine ⟨by simp [Ty.paths], fun y hy => ?_⟩
    simp only [Ty.params, List.mem_singleton] at hy
    exact hy ▸ hx
  | @path p r st hq hr =>
    obtain ⟨h1, h2⟩ := resolved_paths hP hq (hres _ _ r.1 r.2 hr)
    refine ⟨fun a ha => ?_, fun x hx => ?_⟩
    · rcases h1 a ha with h | ⟨as, h, _⟩
      · exact h
      · simp at h
    · obtain ⟨as, h, _⟩ := h2 x hx; simp at h
  | @slice p range r st hq hr =>
    obtain ⟨h1, h2⟩ := resolved_paths hP hq (hres _ _ r.1 r.2 hr)
    refine ⟨fun a ha => ?_, fun x hx => ?_⟩
    · rcases h1 a ha with h | ⟨as, h, _⟩
      · exact h
      · simp at h
    · obtain ⟨as, h, _⟩ := h2 x hx; simp at h
  | @call p args rs r st st' hq hg hr ih =>
    obtain ⟨h1, h2⟩ := resolved_paths hP hq (hres _ _ r.1 r.2 hr)
    have ih := ih hw hle
    refine ⟨fun a ha => ?_, fun x hx => ?_⟩
    · rcases h1 a ha with h | ⟨as, h, h'⟩
      · exact h
      · injection h with h
        subst h
        obtain ⟨ty, hty, hta⟩ := pathsAll_mem.mp h'
        obtain ⟨b, hb, rfl⟩ := List.mem_map.mp hty
        exact (ih b hb).1 a hta
    · obtain ⟨as, h, h'⟩ := h2 x hx
      injection h with h
      subst h
      obtain ⟨ty, hty, hta⟩ := paramsAll_mem.mp h'
      obtain ⟨b, hb, rfl⟩ := List.mem_map.mp hty
      exact (ih b hb).2 x hta
  | pos _ ih =>
    obtain ⟨i1, i2⟩ := ih hw hle
    refine ⟨?_, by simpa only [Ty.params] using i2⟩
    simp only [Ty.paths]
    exact lib (by decide) (by decide) i1
  | neg _ ih =>
    obtain ⟨i1, i2⟩ := ih hw hle
    refine ⟨?_, by simpa only [Ty.params] using i2⟩
    simp only [Ty.paths]
    exact lib (by decide) (by decide) i1
  | opt _ ih =>
    obtain ⟨i1, i2⟩ := ih hw hle
    exact ⟨by simpa only [Ty.paths] using i1, by simpa only [Ty.params] using i2⟩
  | separated _ ih => exact ih hw hle
  | @seq l r t rs st st' hg ih =>
    have ih := ih hw (GenSt.Le.trans (b := st'.recordSeq rs.length)
      ⟨List.prefix_refl _, fun _ h => List.mem_cons_of_mem _ h, fun _ h => h⟩ hle)
    have hlen := gen_length hg
    refine ⟨fun a ha => ?_, fun x hx => ?_⟩
    · simp only [Ty.paths, List.mem_cons, List.mem_append, List.mem_flatMap] at ha
      rcases ha with rfl | ⟨t, _, ha⟩ | ha
      · have := hP.seqs rs.length (hle.seqs _ List.mem_cons_self)
        simp only [List.length_map] at hlen ⊢
        rw [← hlen, show rs.length + rs.length = 2 * rs.length by omega]
        exact this
      · exact hP.trivia t a ha
      · obtain ⟨ty, hty, hta⟩ := pathsAll_mem.mp ha
        obtain ⟨b, hb, rfl⟩ := List.mem_map.mp hty
        exact (ih b hb).1 a hta
    · simp only [Ty.params] at hx
      obtain ⟨ty, hty, hta⟩ := paramsAll_mem.mp hx
      obtain ⟨b, hb, rfl⟩ := List.mem_map.mp hty
      exact (ih b hb).2 x hta
  | @choice l r rs st st' hg ih =>
    have ih := ih hw (GenSt.Le.trans (b := st'.recordChoice rs.length)
      ⟨List.prefix_refl _, fun _ h => h, fun _ h => List.mem_cons_of_mem _ h⟩ hle)
    refine ⟨fun a ha => ?_, fun x hx => ?_⟩
    · simp only [Ty.paths, List.mem_cons] at ha
      rcases ha with rfl | ha
      · have := hP.choices rs.length (hle.choices _ List.mem_cons_self)
        simpa only [List.length_map] using this
      · obtain ⟨ty, hty, hta⟩ := pathsAll_mem.mp ha
        obtain ⟨b, hb, rfl⟩ := List.mem_map.mp hty
        exact (ih b hb).1 a hta
    · simp only [Ty.params] at hx
      obtain ⟨ty, hty, hta⟩ := paramsAll_mem.mp hx
      obtain ⟨b, hb, rfl⟩ := List.mem_map.mp hty
      exact (ih b hb).2 x hta
  | rep _ ih =>
    obtain ⟨i1, i2⟩ := ih hw hle
    refine ⟨?_, by simpa only [Ty.params] using i2⟩
    simp only [Ty.paths]
    exact lib (by decide) (by decide) (triv i1)
  | repOnce _ ih =>
    obtain ⟨i1, i2⟩ := ih hw hle
    refine ⟨?_, by simpa only [Ty.params] using i2⟩
    simp only [Ty.paths]
    exact lib (by decide) (by decide) (triv i1)
  | repRange _ ih =>
    obtain ⟨i1, i2⟩ := ih hw hle
    refine ⟨?_, ?_⟩
    · dsimp only
      split <;> simp only [Ty.paths] <;> exact lib (by decide) (by decide) (triv i1)
    · dsimp only
      split <;> simpa only [Ty.params] using i2
  | nil => intro r hr; simp at hr
  | @cons e l r rs st st1 st2 h1 h2 ih1 ih2 =>
    intro b hb
    rcases List.mem_cons.mp hb with rfl | hb
    · exact ih1 hw ((gen_le h2).trans hle)
    · exact ih2 (gen_wf h1 hw) hle b hb

end

/-! ## The types of accessors -/

theorem wrap_tys (g : GNode) (e : Edge) : (g.wrap e).tys = g.tys := by
  cases e <;> simp only [GNode.wrap, GNode.tys]

theorem tysAll_append (a b : List GNode) : GNode.tysAll (a ++ b) = GNode.tysAll a ++ GNode.tysAll b := by
  induction a with
  | nil => rfl
  | cons g a ih => simp only [List.cons_append, GNode.tysAll, ih, List.append_assoc]

theorem merge_tys (a b : GNode) : (a.merge b).tys = a.tys ++ b.tys := by
  cases a <;> cases b <;>
    simp only [GNode.merge, GNode.tys, GNode.tysAll, tysAll_append, List.append_nil]

theorem prepend_tys {g : Getter} {e : Edge} {a : Name × GNode} (h : a ∈ g.prepend e) : ∃ b ∈ g, b.2.tys = a.2.tys := by
  obtain ⟨b, hb, rfl⟩ := List.mem_map.mp h
  exact ⟨b, hb, (wrap_tys _ _).symm⟩

theorem joinOne_tys {x : Name} {n : GNode} (g : Getter) : ∀ a ∈ g.joinOne x n, ∀ t ∈ a.2.tys,
    (∃ b ∈ g, t ∈ b.2.tys) ∨ t ∈ n.tys := by
  induction g with
  | nil =>
    intro a ha t ht
    rw [Getter.joinOne, List.mem_singleton] at ha
    subst ha
    exact .inr ht
  | cons b g ih =>
    obtain ⟨y, k⟩ := b
    intro a ha t ht
    rw [Getter.joinOne] at ha
    split at ha
    · rcases List.mem_cons.mp ha with rfl | ha
      · rw [merge_tys] at ht
        exact (List.mem_append.mp ht).imp (fun h => ⟨_, List.mem_cons_self, h⟩) id
      · exact .inl ⟨a, List.mem_cons_of_mem _ ha, ht⟩
    · rcases List.mem_cons.mp ha with rfl | ha
      · exact .inl ⟨_, List.mem_cons_self, ht⟩
      · exact (ih a ha t ht).imp (fun ⟨b, hb, h⟩ => ⟨b, List.mem_cons_of_mem _ hb, h⟩) id

theorem join_tys (l : Getter) : ∀ (g : Getter), ∀ a ∈ g.join l, ∀ t ∈ a.2.tys,
    (∃ b ∈ g, t ∈ b.2.tys) ∨ ∃ b ∈ l, t ∈ b.2.tys := by
  induction l with
  | nil => intro g a ha t ht; exact .inl ⟨a, ha, ht⟩
  | cons c l ih =>
    intro g a ha t ht
    rcases ih (g.joinOne c.1 c.2) a ha t ht with ⟨b, hb, h⟩ | ⟨b, hb, h⟩
    · exact (joinOne_tys g b hb t h).imp id fun h => ⟨c, List.mem_cons_self, h⟩
    · exact .inr ⟨b, List.mem_cons_of_mem _ hb, h⟩

theorem joinAll_tys {edge : Nat → Edge} (l : List Getter) : ∀ i (g : Getter), ∀ a ∈ joinAll edge i g l, ∀ t ∈ a.2.tys,
    (∃ b ∈ g, t ∈ b.2.tys) ∨ ∃ c ∈ l, ∃ b ∈ c, t ∈ b.2.tys := by
  induction l with
  | nil => intro i g a ha t ht; exact .inl ⟨a, ha, ht⟩
  | cons c l ih =>
    intro i g a ha t ht
    rcases ih (i + 1) _ a ha t ht with ⟨b, hb, h⟩ | ⟨c', hc, h⟩
    · rcases join_tys _ _ b hb t h with h | ⟨b', hb', h⟩
      · exact .inl h
      · obtain ⟨b2, hb2, e⟩ := prepend_tys hb'
        exact .inr ⟨c, List.mem_cons_self, b2, hb2, e ▸ h⟩
    · exact .inr ⟨c', List.mem_cons_of_mem _ hc, h⟩

/-- The types in the signatures of the accessors only use what the type of the contents uses. -/
theorem gen_accessor_paths {params : List Name} {sys : ModSys} {item st st'} (h : GenRel params sys item st st') (d : Nat) :
    match item with
    | .one _ r => ∀ a ∈ r.2, ∀ t ∈ a.2.tys, (∀ x ∈ t.paths d, x ∈ r.1.paths d) ∧ ∀ x ∈ t.params, x ∈ r.1.params
    | .all _ rs => ∀ r ∈ rs, ∀ a ∈ r.2, ∀ t ∈ a.2.tys,
        (∀ x ∈ t.paths d, x ∈ r.1.paths d) ∧ ∀ x ∈ t.params, x ∈ r.1.params := by
  have res : ∀ {q : List Name} {args : PArgs} {r : Ty × Getter}, sys.resolve q args = some r →
      ∀ a ∈ r.2, ∀ t ∈ a.2.tys, (∀ x ∈ t.paths d, x ∈ r.1.paths d) ∧ ∀ x ∈ t.params, x ∈ r.1.params := by
    intro q args r hr a ha t ht
    unfold ModSys.resolve at hr
    split at hr
    · simp at hr
    · split at hr
      · simp at hr
      · obtain ⟨x, hx⟩ : ∃ x, r.2 = [(x, .rule r.1)] := ⟨_, get_getter (ty := r.1) (g := r.2) hr⟩
        rw [hx, List.mem_singleton] at ha
        subst ha
        simp only [GNode.tys, List.mem_singleton] at ht
        subst ht
        exact ⟨fun _ h => h, fun _ h => h⟩
  have pre : ∀ {g : Getter} {e : Edge} {ty ty' : Ty}, (∀ x ∈ ty.paths d, x ∈ ty'.paths d) → (∀ x ∈ ty.params, x ∈ ty'.params) →
      (∀ a ∈ g, ∀ t ∈ a.2.tys, (∀ x ∈ t.paths d, x ∈ ty.paths d) ∧ ∀ x ∈ t.params, x ∈ ty.params) →
      ∀ a ∈ g.prepend e, ∀ t ∈ a.2.tys, (∀ x ∈ t.paths d, x ∈ ty'.paths d) ∧ ∀ x ∈ t.params, x ∈ ty'.params := by
    intro g e ty ty' h1 h2 h3 a ha t ht
    obtain ⟨b, hb, hbt⟩ := prepend_tys ha
    obtain ⟨i1, i2⟩ := h3 b hb t (hbt ▸ ht)
    exact ⟨fun x hx => h1 x (i1 x hx), fun x hx => h2 x (i2 x hx)⟩
  have par : ∀ {y : Name}, ∀ a ∈ [(y, GNode.arg y)], ∀ t ∈ a.2.tys,
      (∀ x ∈ t.paths d, x ∈ (Ty.param y).paths d) ∧ ∀ x ∈ t.params, x ∈ (Ty.param y).params := by
    intro y a ha t ht
    rw [List.mem_singleton.mp ha] at ht
    simp only [GNode.tys, List.mem_singleton] at ht
    subst ht
    exact ⟨fun _ h => h, fun _ h => h⟩
  induction h with
  | str | insens | range => intro a ha; simp at ha
  | param | paramSlice | paramCall => exact par
  | path _ hr => exact res hr
  | slice _ hr => exact res hr
  | call _ _ hr => exact res hr
  | pos _ ih =>
    exact pre (fun x hx => by simp only [Ty.paths]; exact List.mem_cons_of_mem _ hx) (fun x hx => by simpa only [Ty.params]) ih
  | neg => intro a ha; simp at ha
  | opt _ ih => exact pre (fun x hx => by simpa only [Ty.paths]) (fun x hx => by simpa only [Ty.params]) ih
  | separated _ ih => exact ih
  | @seq l r t rs st st' _ ih =>
    intro a ha ty hty
    rcases joinAll_tys _ _ _ a ha ty hty with ⟨b, hb, _⟩ | ⟨c, hc, b, hb, h⟩
    · simp at hb
    · obtain ⟨r', hr', rfl⟩ := List.mem_map.mp hc
      obtain ⟨i1, i2⟩ := ih r' hr' b hb ty h
      refine ⟨fun x hx => ?_, fun x hx => ?_⟩
      · simp only [Ty.paths]
        exact List.mem_cons_of_mem _ (List.mem_append_right _
          (pathsAll_mem.mpr ⟨_, List.mem_map.mpr ⟨r', hr', rfl⟩, i1 x hx⟩))
      · simp only [Ty.params]
        exact paramsAll_mem.mpr ⟨_, List.mem_map.mpr ⟨r', hr', rfl⟩, i2 x hx⟩
  | @choice l r rs st st' _ ih =>
    intro a ha ty hty
    rcases joinAll_tys _ _ _ a ha ty hty with ⟨b, hb, _⟩ | ⟨c, hc, b, hb, h⟩
    · simp at hb
    · obtain ⟨r', hr', rfl⟩ := List.mem_map.mp hc
      obtain ⟨i1, i2⟩ := ih r' hr' b hb ty h
      refine ⟨fun x hx => ?_, fun x hx => ?_⟩
      · simp only [Ty.paths]
        exact List.mem_cons_of_mem _ (pathsAll_mem.mpr ⟨_, List.mem_map.mpr ⟨r', hr', rfl⟩, i1 x hx⟩)
      · simp only [Ty.params]
        exact paramsAll_mem.mpr ⟨_, List.mem_map.mpr ⟨r', hr', rfl⟩, i2 x hx⟩
  | rep _ ih =>
    exact pre (fun x hx => by simp only [Ty.paths]; exact List.mem_cons_of_mem _ (List.mem_append_right _ hx))
      (fun x hx => by simpa only [Ty.params]) ih
  | repOnce _ ih =>
    exact pre (fun x hx => by simp only [Ty.paths]; exact List.mem_cons_of_mem _ (List.mem_append_right _ hx))
      (fun x hx => by simpa only [Ty.params]) ih
  | repRange _ ih =>
    refine pre (fun x hx => ?_) (fun x hx => ?_) ih
    · dsimp only
      split <;> (simp only [Ty.paths]; exact List.mem_cons_of_mem _ (List.mem_append_right _ hx))
    · dsimp only
      split <;> simpa only [Ty.params]
  | nil => intro r hr; simp at hr
  | cons _ _ ih1 ih2 =>
    intro b hb
    rcases List.mem_cons.mp hb with rfl | hb
    · exact ih1
    · exact ih2 b hb

/-- Whether a path resolves can be computed. -/
def Ref.resolves (top : Items) (loc : List Name) (r : Ref) : Bool :=
  decide (r.ups ≤ loc.length) && match top.at (loc.take (loc.length - r.ups) ++ r.path) with
    | some i => i.types.contains (r.name, r.arity)
    | none => false

theorem Ref.resolves_iff {top : Items} {loc : List Name} {r : Ref} : r.Resolves top loc ↔ r.resolves top loc = true := by
  unfold Ref.Resolves Ref.resolves
  rw [Bool.and_eq_true, decide_eq_true_eq]
  refine and_congr Iff.rfl ?_
  cases top.at (loc.take (loc.length - r.ups) ++ r.path) with
  | none => simp
  | some i => simp

instance (top : Items) (loc : List Name) (r : Ref) : Decidable (r.Resolves top loc) :=
  decidable_of_iff _ Ref.resolves_iff.symm

end Pest3.Gen
