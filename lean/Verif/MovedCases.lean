import Verif.MovedLemmas
import Verif.LeftLemmas
import Verif.ForestLemmas
import Verif.CollectLemmas
import Verif.Fuel

/-!
# Rules that correspond: importing, adding and reordering, renaming
-/

namespace Pest3.Gen
open Pest3

variable {u : Unicode} {root root' : Module} {B : List Name → Rule → List Name → Rule → Prop}

/-- An expression, in two places where it refers to rules that are related. -/
theorem exprLike_refl {p p' ps : List Name} (e : Expr) : (∀ q, Sub (.path q) e → RefLike u root root' B p p' ps ps q q) →
    (∀ q args, Sub (.call q args) e → RefLike u root root' B p p' ps ps q q) → (∀ q r, Sub (.slice q r) e → RefLike u root root' B p p' ps ps q q) →
    (∀ t, UsesTrivia t e → TriviaLike root root' B p p' t) → ExprLike u root root' B p p' ps ps e e := by
  induction e using Expr.ind with
  | str s => exact fun _ _ _ _ => .literal rfl
  | insens s => exact fun _ _ _ _ => .literal rfl
  | range a b => exact fun _ _ _ _ => .literal rfl
  | path q => exact fun h1 _ _ _ => .path (h1 q .refl)
  | call q args ih =>
    intro h1 h2 h3 h4
    refine .call (h2 q args .refl) rfl fun i a a' k k' => ?_
    rw [k] at k'; cases k'
    have hm := List.mem_of_getElem? k
    exact ih a hm (fun q h => h1 q (.arg hm h)) (fun q x h => h2 q x (.arg hm h)) (fun q x h => h3 q x (.arg hm h))
      fun t h => h4 t (h.imp (fun ⟨l, r, k⟩ => ⟨l, r, .arg hm k⟩) fun ⟨l, k⟩ => ⟨l, .arg hm k⟩)
  | slice q r => exact fun _ _ h3 _ => .slice (h3 q r .refl)
  | pos e ih => exact fun h1 h2 h3 h4 => .pos (ih (fun q h => h1 q (.pos h)) (fun q x h => h2 q x (.pos h)) (fun q x h => h3 q x (.pos h))
      fun t h => h4 t (h.imp (fun ⟨l, r, k⟩ => ⟨l, r, .pos k⟩) fun ⟨l, k⟩ => ⟨l, .pos k⟩))
  | neg e ih => exact fun h1 h2 h3 h4 => .neg (ih (fun q h => h1 q (.neg h)) (fun q x h => h2 q x (.neg h)) (fun q x h => h3 q x (.neg h))
      fun t h => h4 t (h.imp (fun ⟨l, r, k⟩ => ⟨l, r, .neg k⟩) fun ⟨l, k⟩ => ⟨l, .neg k⟩))
  | opt e ih => exact fun h1 h2 h3 h4 => .opt (ih (fun q h => h1 q (.opt h)) (fun q x h => h2 q x (.opt h)) (fun q x h => h3 q x (.opt h))
      fun t h => h4 t (h.imp (fun ⟨l, r, k⟩ => ⟨l, r, .opt k⟩) fun ⟨l, k⟩ => ⟨l, .opt k⟩))
  | rep e ih => exact fun h1 h2 h3 h4 => .rep (ih (fun q h => h1 q (.rep h)) (fun q x h => h2 q x (.rep h)) (fun q x h => h3 q x (.rep h))
      fun t h => h4 t (h.imp (fun ⟨l, r, k⟩ => ⟨l, r, .rep k⟩) fun ⟨l, k⟩ => ⟨l, .rep k⟩))
  | repOnce e ih => exact fun h1 h2 h3 h4 => .repOnce (ih (fun q h => h1 q (.repOnce h)) (fun q x h => h2 q x (.repOnce h)) (fun q x h => h3 q x (.repOnce h))
      fun t h => h4 t (h.imp (fun ⟨l, r, k⟩ => ⟨l, r, .repOnce k⟩) fun ⟨l, k⟩ => ⟨l, .repOnce k⟩))
  | repRange e b ih => exact fun h1 h2 h3 h4 => .repRange (ih (fun q h => h1 q (.repRange h)) (fun q x h => h2 q x (.repRange h)) (fun q x h => h3 q x (.repRange h))
      fun t h => h4 t (h.imp (fun ⟨l, r, k⟩ => ⟨l, r, .repRange k⟩) fun ⟨l, k⟩ => ⟨l, .repRange k⟩))
  | separated e t ih => exact fun h1 h2 h3 h4 => .separated (ih (fun q h => h1 q (.separated h)) (fun q x h => h2 q x (.separated h)) (fun q x h => h3 q x (.separated h))
      fun t h => h4 t (h.imp (fun ⟨l, r, k⟩ => ⟨l, r, .separated k⟩) fun ⟨l, k⟩ => ⟨l, .separated k⟩)) (h4 t (.inr ⟨e, .refl⟩))
  | seq l r t ihl ihr =>
    exact fun h1 h2 h3 h4 => .seq
      (ihl (fun q h => h1 q (.seqL h)) (fun q x h => h2 q x (.seqL h)) (fun q x h => h3 q x (.seqL h))
        fun t h => h4 t (h.imp (fun ⟨l, r, k⟩ => ⟨l, r, .seqL k⟩) fun ⟨l, k⟩ => ⟨l, .seqL k⟩))
      (ihr (fun q h => h1 q (.seqR h)) (fun q x h => h2 q x (.seqR h)) (fun q x h => h3 q x (.seqR h))
        fun t h => h4 t (h.imp (fun ⟨l, r, k⟩ => ⟨l, r, .seqR k⟩) fun ⟨l, k⟩ => ⟨l, .seqR k⟩)) (h4 t (.inl ⟨l, r, .refl⟩))
  | choice l r ihl ihr =>
    exact fun h1 h2 h3 h4 => .choice
      (ihl (fun q h => h1 q (.choiceL h)) (fun q x h => h2 q x (.choiceL h)) (fun q x h => h3 q x (.choiceL h))
        fun t h => h4 t (h.imp (fun ⟨l, r, k⟩ => ⟨l, r, .choiceL k⟩) fun ⟨l, k⟩ => ⟨l, .choiceL k⟩))
      (ihr (fun q h => h1 q (.choiceR h)) (fun q x h => h2 q x (.choiceR h)) (fun q x h => h3 q x (.choiceR h))
        fun t h => h4 t (h.imp (fun ⟨l, r, k⟩ => ⟨l, r, .choiceR k⟩) fun ⟨l, k⟩ => ⟨l, .choiceR k⟩))

theorem SameParam.map (f : Name → Name) (hf : ∀ x y, f x = f y → x = y) : ∀ {ps : List Name} {x}, x ∈ ps → SameParam ps (ps.map f) x (f x)
  | y :: ps, x, h => by
    by_cases e : y = x
    · subst e; exact .here
    · exact .there e (fun k => e (hf _ _ k)) (SameParam.map f hf ((List.mem_cons.mp h).resolve_left fun k => e k.symm))

theorem SameParam.refl {ps : List Name} {x : Name} (h : x ∈ ps) : SameParam ps ps x x := by
  have := SameParam.map id (fun _ _ h => h) h
  rwa [List.map_id] at this

/-- A reference with the same target is the same, whether or not it is a parameter. -/
theorem refLike_of {p p' ps q : List Name} (h : TargetLike B (target u root p q) (target u root' p' q)) : RefLike u root root' B p p' ps ps q q := by
  by_cases hq : ∃ x ∈ ps, q = [x]
  · obtain ⟨x, hx, rfl⟩ := hq
    exact .param (.refl hx)
  · exact .other (fun x e k => hq ⟨x, k, e⟩) (fun x e k => hq ⟨x, k, e⟩) h

/-! ## Importing -/

/-- The rules of a module, seen from further up. -/
def Imported (p0 : List Name) : List Name → Rule → List Name → Rule → Prop := fun p r p' r' => p' = p0 ++ p ∧ r' = r

theorem target_imported {p0 : List Name} (h0 : modAt root' p0 = some root) (p q : List Name) : target u root' (p0 ++ p) q = (target u root p q).map (Target.under p0) := by
  unfold target
  by_cases hb : IsBuiltin u q
  · rw [if_pos hb, if_pos hb]; rfl
  · rw [if_neg hb, if_neg hb, modAt_append, h0]
    simp only [Option.bind_some]
    cases modAt root p with
    | none => rfl
    | some m => exact lookupIn_under p0 q m p

theorem trivia_args (hn : AllNamed u root) {p : List Name} {m : Module} (hm : modAt root p = some m) {t : Trivia} {r : Rule} (h : triviaRule m t = some r) : r.args = [] := by
  cases t with
  | none => cases h
  | optional => exact (hn m (modAt_in p hm)).trivia r (findRule_mem h).1 (.inl (findRule_mem h).2)
  | mandatory => exact (hn m (modAt_in p hm)).trivia r (findRule_mem h).1 (.inr (findRule_mem h).2)

theorem imported {p0 : List Name} (hn : AllNamed u root) (h0 : modAt root' p0 = some root) : Corresponds u root root' (Imported p0) := by
  rintro p r p' r' ⟨h, h'⟩
  have h' := h'.symm
  subst h; subst h'
  have ref : ∀ q, RefLike u root root' (Imported p0) p (p0 ++ p) r.args r.args q q := by
    intro q
    refine refLike_of ?_
    rw [target_imported h0]
    cases target u root p q with
    | none => exact .none
    | some t => cases t with
      | builtin => exact .builtin
      | rule => exact .rule ⟨rfl, rfl⟩
  refine ⟨rfl, rfl, exprLike_refl _ (fun q _ => ref q) (fun q _ _ => ref q) (fun q _ _ => ref q) fun t _ => ?_⟩
  have hmod : modAt root' (p0 ++ p) = modAt root p := by rw [modAt_append, h0]; rfl
  cases hm : modAt root p with
  | none => exact .absent (fun m h => by rw [hm] at h; cases h) (fun m h => by rw [hmod, hm] at h; cases h)
  | some m =>
    cases ht : triviaRule m t with
    | none => exact .absent (fun m h => by rw [hm] at h; cases h; exact ht) (fun m h => by rw [hmod, hm] at h; cases h; exact ht)
    | some r0 => exact .rule hm (hmod.trans hm) ht ht (trivia_args hn hm ht) (trivia_args hn hm ht) ⟨rfl, rfl⟩

theorem ruleAt_under (p0 p : List Name) (x : Name) : ruleAt (p0 ++ p) x = RuleVal.under p0 (ruleAt p x) := by
  induction p0 with
  | nil => rfl
  | cons y p0 ih => simp only [List.cons_append, ruleAt, ih, RuleVal.under, List.foldr_cons]

/-! ## Adding and reordering -/

/-- The rules of the grammar, in a larger one. -/
def Kept (root : Module) : List Name → Rule → List Name → Rule → Prop := fun p r p' r' => p' = p ∧ r' = r ∧ ∃ m, modAt root p = some m ∧ r ∈ m.rules

theorem find_import {m : Module} (hn : (m.imports.map Import.name).Nodup) {i : Import} (hi : i ∈ m.imports) : m.imports.find? (fun j => j.name = i.name) = some i := by
  generalize m.imports = l at hn hi
  induction l with
  | nil => cases hi
  | cons j l ih =>
    rw [List.map_cons, List.nodup_cons] at hn
    rw [List.find?_cons]
    rcases List.mem_cons.mp hi with rfl | hi
    · simp
    · have : j.name ≠ i.name := fun e => hn.1 (e ▸ List.mem_map_of_mem hi)
      simp only [decide_eq_false this]
      exact ih hn.2 hi

theorem modAt_snoc {cur : List Name} {x : Name} {m : Module} (hm : modAt root cur = some m) : modAt root (cur ++ [x]) = m.child x := by
  rw [modAt_append, hm]
  simp only [Option.bind_some, modAt]
  cases m.child x <;> rfl

theorem lookupIn_extends (hn' : AllNamed u root') (hs' : AllScoped u root') (he : Extends root root') (q : List Name) :
    ∀ {m m' : Module} {cur : List Name} {t : Target}, modAt root cur = some m → modAt root' cur = some m' → lookupIn u m cur q = some t → lookupIn u m' cur q = some t := by
  induction q with
  | nil => intro m m' cur t _ _ h; simp [lookupIn] at h
  | cons x q ih =>
    intro m m' cur t hm hm' h
    obtain ⟨m1, h1, h2, h3⟩ := he cur m hm
    rw [hm'] at h1; cases h1
    have hname := hn' m' (modAt_in cur hm')
    rw [lookupIn] at h ⊢
    cases hf : m.imports.find? (fun i => i.name = x) with
    | some i =>
      have hx : i.name = x := by simpa using List.find?_some hf
      rw [hf] at h
      cases i with
      | builtin y src =>
        cases hx
        have := find_import hname.imports (h3 _ _ (List.mem_of_find?_eq_some hf))
        simp only [Import.name] at this h ⊢
        rw [this]
        exact h
      | file y m1 =>
        have hc : m.child x = some m1 := by simp [Module.child, hf]
        have k := (modAt_snoc hm (x := x)).trans hc
        obtain ⟨m2, k1, -⟩ := he _ _ k
        have hc' : m'.child x = some m2 := (modAt_snoc hm').symm.trans k1
        have hf' : ∃ z, m'.imports.find? (fun i => i.name = x) = some (.file z m2) := by
          unfold Module.child at hc'
          split at hc'
          · rename_i z m3 e; cases hc'; exact ⟨z, e⟩
          · cases hc'
        obtain ⟨z, hf'⟩ := hf'
        rw [hf']
        exact ih k k1 h
    | none =>
      rw [hf] at h
      dsimp only at h
      by_cases hc : q = [] ∧ x ≠ optName ∧ x ≠ manName
      · rw [if_pos hc] at h
        cases hr : findRule m.rules x with
        | none => rw [hr] at h; cases h
        | some r =>
          obtain ⟨k1, rfl⟩ := findRule_mem hr
          have hnone : m'.imports.find? (fun i => i.name = r.name) = none :=
            List.find?_eq_none.mpr fun i hi => by simpa using (hs' m' (modAt_in cur hm')).names r (h2 r k1) hc.2.1 hc.2.2 i hi
          rw [hnone]
          dsimp only
          rw [if_pos hc, findRule_eq hname.rules (h2 r k1), ← hr]
          exact h
      · rw [if_neg hc] at h; cases h

theorem target_extends (hn' : AllNamed u root') (hs' : AllScoped u root') (he : Extends root root') {p q : List Name} {t : Target} (h : target u root p q = some t) :
    target u root' p q = some t := by
  unfold target at h ⊢
  by_cases hb : IsBuiltin u q
  · rw [if_pos hb] at h ⊢; exact h
  · rw [if_neg hb] at h ⊢
    cases hm : modAt root p with
    | none => rw [hm] at h; cases h
    | some m =>
      rw [hm] at h
      obtain ⟨m', hm', -⟩ := he p m hm
      rw [hm']
      exact lookupIn_extends hn' hs' he q hm hm' h

theorem Usable.target {a : Module} {q : List Name} {use : Use} (h : Usable u a q use) : ∃ t, target u a [] q = some t := by
  obtain ⟨-, h⟩ := h
  cases use with
  | plain => rcases h with ⟨full, l, h, -⟩ | ⟨p, r, h, -⟩ <;> exact ⟨_, h⟩
  | call n => rcases h with ⟨h, -⟩ | ⟨x, h, -⟩ | ⟨p, r, h, -⟩ <;> exact ⟨_, h⟩
  | slice => exact ⟨_, h⟩

theorem kept (hn' : AllNamed u root') (hs : AllScoped u root) (hs' : AllScoped u root') (he : Extends root root') : Corresponds u root root' (Kept root) := by
  rintro p r p' r' ⟨h, h', m, hm, hr⟩
  have h := h.symm
  have h' := h'.symm
  subst h; subst h'
  obtain ⟨m', hm', hrules, -⟩ := he p m hm
  have hscope := hs m (modAt_in p hm)
  have hname := hn' m' (modAt_in p hm')
  have ref : ∀ {q use}, Usable u m q use → RefLike u root root' (Kept root) p p r.args r.args q q := by
    intro q use h
    obtain ⟨t, ht⟩ := h.target
    refine refLike_of ?_
    have k := target_under hm ht
    rw [k, target_extends hn' hs' he k]
    generalize hg : t.under p = t' at k
    cases t' with
    | builtin => exact .builtin
    | rule p1 r1 =>
      obtain ⟨m1, k1, k2, -⟩ := target_rule k
      exact .rule ⟨rfl, rfl, m1, k1, (findRule_mem k2).1⟩
  refine ⟨rfl, rfl, exprLike_refl _ (fun q h => ?_) (fun q args h => ref ((hscope.refs r hr).call q args h)) (fun q b h => ref ((hscope.refs r hr).slice q b h)) fun t h => ?_⟩
  · rcases (hscope.refs r hr).path q h with ⟨x, hx, rfl⟩ | h
    · exact .param (.refl hx)
    · exact ref h
  · have key : ∀ {x}, Defined m.rules x → (x = optName ∨ x = manName) → ∃ r0, r0 ∈ m.rules ∧ findRule m.rules x = some r0 ∧ findRule m'.rules x = some r0 ∧ r0.args = [] := by
      rintro x ⟨r1, h1, rfl⟩ hx
      cases hf : findRule m.rules r1.name with
      | none =>
        have := List.find?_eq_none.mp hf r1 h1
        simp at this
      | some r0 =>
        obtain ⟨k1, k2⟩ := findRule_mem hf
        have k3 := findRule_eq hname.rules (hrules r0 k1)
        rw [k2] at k3
        exact ⟨r0, k1, rfl, k3, hname.trivia r0 (hrules r0 k1) (k2 ▸ hx)⟩
    cases t with
    | none => exact .none
    | optional =>
      obtain ⟨r0, k0, k1, k2, k3⟩ := key ((hscope.trivia r hr).1 h) (.inl rfl)
      exact .rule hm hm' k1 k2 k3 k3 ⟨rfl, rfl, m, hm, k0⟩
    | mandatory =>
      obtain ⟨r0, k0, k1, k2, k3⟩ := key ((hscope.trivia r hr).2 h) (.inr rfl)
      exact .rule hm hm' k1 k2 k3 k3 ⟨rfl, rfl, m, hm, k0⟩

/-- More rules and imports, in any order. -/
theorem extends_of {m m' : Module} (hn' : (m'.imports.map Import.name).Nodup) (hr : ∀ r ∈ m.rules, r ∈ m'.rules) (hi : ∀ i ∈ m.imports, i ∈ m'.imports) : Extends m m' := by
  intro p
  cases p with
  | nil =>
    rintro a ⟨⟩
    exact ⟨m', rfl, hr, fun x src h => hi _ h⟩
  | cons x p =>
    intro a h
    refine ⟨a, ?_, fun _ h => h, fun _ _ h => h⟩
    have hc : ∀ m1, m.child x = some m1 → m'.child x = some m1 := by
      intro m1 h1
      unfold Module.child at h1 ⊢
      split at h1
      · rename_i z m2 e
        cases h1
        have hz : (Import.file z m1).name = x := by simpa using List.find?_some e
        have := find_import hn' (hi _ (List.mem_of_find?_eq_some e))
        rw [hz] at this
        rw [this]
      · cases h1
    simp only [modAt] at h ⊢
    cases h1 : m.child x with
    | none => rw [h1] at h; cases h
    | some m1 => rw [hc m1 h1]; rw [h1] at h; exact h

/-! ## Renaming -/

variable {f : Name → Name}

/-- The rules of the top module are renamed, the others remain. -/
def Renamed (f : Name → Name) : List Name → Rule → List Name → Rule → Prop := fun p r p' r' => p' = p ∧ r' = if p = [] then renameRule f r else r

theorem findRule_renamed (hf : ∀ x y, f x = f y → x = y) (rules : List Rule) (x : Name) : findRule (rules.map (renameRule f)) (f x) = (findRule rules x).map (renameRule f) := by
  unfold findRule
  induction rules with
  | nil => rfl
  | cons r rules ih =>
    rw [List.map_cons, List.find?_cons, List.find?_cons]
    by_cases h : r.name = x
    · have : (renameRule f r).name = f x := by rw [← h]; rfl
      simp [h, this]
    · have : ¬ (renameRule f r).name = f x := fun k => h (hf _ _ k)
      simp only [decide_eq_false h, decide_eq_false this]
      exact ih

theorem not_builtin_one (x : Name) : ¬ IsBuiltin u [x] := by
  simp [IsBuiltin, builtinLeaf, pushPath]

theorem lookupIn_path (m : Module) (cur q : List Name) (hc : cur ≠ []) {p : List Name} {r : Rule} (h : lookupIn u m cur q = some (.rule p r)) : p ≠ [] := by
  have := lookupIn_under (u := u) cur q m []
  rw [List.append_nil, h] at this
  cases hl : lookupIn u m [] q with
  | none => rw [hl] at this; cases this
  | some t =>
    rw [hl] at this
    cases t with
    | builtin => cases this
    | rule p1 r1 => cases this; simp [hc]

theorem rename_target {m : Module} (hr : Renames f m) (q : List Name) : TargetLike (Renamed f) (target u m [] q) (target u (renameModule f m) [] (renamePath f q)) := by
  have hi : (renameModule f m).imports = m.imports := rfl
  have ne : ∀ {i}, i ∈ m.imports → ∀ x, f x = i.name → x = i.name := fun hi x h => hr.inj _ _ (h.trans (hr.imports _ hi).symm)
  match q with
  | [] => unfold target; simp [renamePath, IsBuiltin, builtinLeaf, pushPath, modAt, lookupIn]; exact .none
  | [x] =>
    unfold target
    rw [renamePath, if_neg (not_builtin_one x), if_neg (not_builtin_one (f x))]
    simp only [modAt, lookupIn, hi]
    cases hfi : m.imports.find? (fun i => i.name = x) with
    | some i =>
      have hx : i.name = x := by simpa using List.find?_some hfi
      have hfx : f x = x := by rw [← hx]; exact hr.imports i (List.mem_of_find?_eq_some hfi)
      rw [hfx, hfi]
      cases i with
      | builtin y src =>
        dsimp only
        split
        · exact .builtin
        · exact .none
      | file y m1 => dsimp only [lookupIn]; exact .none
    | none =>
      have : m.imports.find? (fun i => i.name = f x) = none := by
        refine List.find?_eq_none.mpr fun i hi' k => ?_
        have k : i.name = f x := by simpa using k
        have := ne hi' x k.symm
        have h0 := List.find?_eq_none.mp hfi i hi'
        simp [this] at h0
      rw [this]
      dsimp only
      by_cases hc : x ≠ optName ∧ x ≠ manName
      · have hc' : f x ≠ optName ∧ f x ≠ manName := ⟨fun k => hc.1 (hr.inj _ _ (k.trans hr.opt.symm)), fun k => hc.2 (hr.inj _ _ (k.trans hr.man.symm))⟩
        rw [if_pos ⟨trivial, hc⟩, if_pos ⟨trivial, hc'⟩]
        have hrules : (renameModule f m).rules = m.rules.map (renameRule f) := rfl
        rw [hrules, findRule_renamed hr.inj]
        cases findRule m.rules x with
        | none => exact .none
        | some r => exact .rule ⟨rfl, by simp⟩
      · have hc' : ¬ (f x ≠ optName ∧ f x ≠ manName) := by
          intro ⟨k1, k2⟩
          refine hc ⟨fun k => k1 ?_, fun k => k2 ?_⟩
          · rw [k]; exact hr.opt
          · rw [k]; exact hr.man
        rw [if_neg (fun k => hc k.2), if_neg (fun k => hc' k.2)]
        exact .none
  | x :: y :: rest =>
    have e : renamePath f (x :: y :: rest) = x :: y :: rest := rfl
    rw [e]
    rcases target_cases (u := u) hi (x :: y :: rest) with h | ⟨z, h, -⟩
    · rw [h]
      cases ht : target u m [] (x :: y :: rest) with
      | none => exact .none
      | some t => cases t with
        | builtin => exact .builtin
        | rule p r =>
          refine .rule ⟨rfl, ?_⟩
          have hp : p ≠ [] := by
            unfold target at ht
            split at ht
            · cases ht
            · simp only [modAt] at ht
              rw [lookupIn] at ht
              split at ht
              · split at ht <;> cases ht
              · exact lookupIn_path _ _ _ (by simp) ht
              · simp at ht
          rw [if_neg hp]
    · cases h

theorem rename_ref {m : Module} (hr : Renames f m) (ps q : List Name) : RefLike u m (renameModule f m) (Renamed f) [] [] ps (ps.map f) q (renamePath f q) := by
  by_cases hq : ∃ x ∈ ps, q = [x]
  · obtain ⟨x, hx, rfl⟩ := hq
    exact .param (.map f hr.inj hx)
  · refine .other (fun x e k => hq ⟨x, k, e⟩) (fun x e k => ?_) (rename_target hr q)
    obtain ⟨y, hy, rfl⟩ := List.mem_map.mp k
    match q, e with
    | [z], e =>
      simp only [renamePath, List.cons.injEq, and_true] at e
      exact hq ⟨z, hr.inj _ _ e ▸ hy, rfl⟩
    | _ :: _ :: _, e => simp [renamePath] at e

theorem triviaRule_renamed {m : Module} (hr : Renames f m) (t : Trivia) : triviaRule (renameModule f m) t = (triviaRule m t).map (renameRule f) := by
  cases t with
  | none => rfl
  | optional =>
    have := findRule_renamed hr.inj m.rules optName
    rw [hr.opt] at this
    exact this
  | mandatory =>
    have := findRule_renamed hr.inj m.rules manName
    rw [hr.man] at this
    exact this

theorem rename_trivia {m : Module} (hn : AllNamed u m) (hr : Renames f m) (t : Trivia) : TriviaLike m (renameModule f m) (Renamed f) [] [] t := by
  cases ht : triviaRule m t with
  | none => exact .absent (fun m h => by cases h; exact ht) (fun m h => by cases h; rw [triviaRule_renamed hr, ht]; rfl)
  | some r =>
    have ha : r.args = [] := trivia_args (p := []) hn rfl ht
    exact .rule (m := m) (m' := renameModule f m) (r' := renameRule f r) rfl rfl ht (by rw [triviaRule_renamed hr, ht]; rfl) ha (by simp [renameRule, ha]) ⟨rfl, by simp⟩

theorem renameExprs_eq (es : List Expr) : renameExprs f es = es.map (renameExpr f) := by
  induction es with
  | nil => rfl
  | cons e es ih => rw [renameExprs, ih]; rfl

theorem rename_expr {m : Module} (hn : AllNamed u m) (hr : Renames f m) (ps : List Name) (e : Expr) : ExprLike u m (renameModule f m) (Renamed f) [] [] ps (ps.map f) e (renameExpr f e) := by
  induction e using Expr.ind with
  | str s => exact .literal rfl
  | insens s => exact .literal rfl
  | range a b => exact .literal rfl
  | path q => exact .path (rename_ref hr ps q)
  | call q args ih =>
    rw [renameExpr, renameExprs_eq]
    refine .call (rename_ref hr ps q) (by simp) fun i a a' k k' => ?_
    rw [List.getElem?_map, k] at k'; cases k'
    exact ih a (List.mem_of_getElem? k)
  | slice q r => exact .slice (rename_ref hr ps q)
  | pos e ih => exact .pos ih
  | neg e ih => exact .neg ih
  | opt e ih => exact .opt ih
  | rep e ih => exact .rep ih
  | repOnce e ih => exact .repOnce ih
  | repRange e b ih => exact .repRange ih
  | separated e t ih => exact .separated ih (rename_trivia hn hr t)
  | seq l r t ihl ihr => exact .seq ihl ihr (rename_trivia hn hr t)
  | choice l r ihl ihr => exact .choice ihl ihr

theorem renamed {m : Module} (hn : AllNamed u m) (hr : Renames f m) : Corresponds u m (renameModule f m) (Renamed f) := by
  rintro p r p' _ ⟨h, rfl⟩
  have h := h.symm
  subst h
  by_cases hp : p = []
  · subst hp
    rw [if_pos rfl]
    exact ⟨by simp [renameRule], rfl, rename_expr hn hr _ _⟩
  · rw [if_neg hp]
    have hi : (renameModule f m).imports = m.imports := rfl
    have ref : ∀ q, RefLike u m (renameModule f m) (Renamed f) p p r.args r.args q q := by
      intro q
      refine refLike_of ?_
      rw [target_same hi hp]
      cases ht : target u m p q with
      | none => exact .none
      | some t => cases t with
        | builtin => exact .builtin
        | rule p1 r1 =>
          refine .rule ⟨rfl, ?_⟩
          rw [if_neg]
          unfold target at ht
          split at ht
          · cases ht
          · split at ht
            · cases ht
            · exact lookupIn_path _ _ _ hp ht
    refine ⟨rfl, rfl, exprLike_refl _ (fun q _ => ref q) (fun q _ _ => ref q) (fun q _ _ => ref q) fun t _ => ?_⟩
    have hmod : modAt (renameModule f m) p = modAt m p := modAt_same hi hp
    cases hm : modAt m p with
    | none => exact .absent (fun m h => by rw [hm] at h; cases h) (fun m h => by rw [hmod, hm] at h; cases h)
    | some m0 =>
      cases ht : triviaRule m0 t with
      | none => exact .absent (fun m h => by rw [hm] at h; cases h; exact ht) (fun m h => by rw [hmod, hm] at h; cases h; exact ht)
      | some r0 => exact .rule hm (hmod.trans hm) ht ht (trivia_args hn hm ht) (trivia_args hn hm ht) ⟨rfl, by rw [if_neg hp]⟩

theorem ruleAt_renamed {p : List Name} {r : Rule} : ruleAt p (if p = [] then renameRule f r else r).name = RuleVal.renamed f (ruleAt p r.name) := by
  cases p with
  | nil => rfl
  | cons x p => rfl

/-! ## Tokens -/

variable {g : RuleVal → RuleVal}

mutual
theorem TokenLike.convert (hg : ∀ a a', LabelLike B a a' → a' = g a) : ∀ {t t' : Pair RuleVal}, TokenLike B t t' → t' = t.convert g
  | _, _, .mk h1 h2 => by rw [Pair.convert, hg _ _ h1, TokensLike.convert hg h2]
theorem TokensLike.convert (hg : ∀ a a', LabelLike B a a' → a' = g a) : ∀ {F F' : List (Pair RuleVal)}, TokensLike B F F' → F' = Pair.converts g F
  | _, _, .nil => rfl
  | _, _, .cons h1 h2 => by rw [Pair.converts, TokenLike.convert hg h1, TokensLike.convert hg h2]
end

/-- Bodies of rules that are related match the same. -/
theorem meaning_iff (H : Corresponds u root root' B) {p p' : List Name} {r r' : Rule} (hb : B p r p' r') (h : r.args = []) (c : Cfg) (o : Option Cfg) :
    Meaning u root (.expr (.mk p [] r.node)) c o ↔ Meaning u root' (.expr (.mk p' [] r'.node)) c o := by
  obtain ⟨h1, h2⟩ := body_like H hb h
  exact ⟨fun k => meaning_like H k (.expr h2), fun k => meaning_like H.back k (.expr (body_like H.back (p := p') (r := r') (p' := p) (r' := r) hb h1).2)⟩

/-- And have the same tokens, up to labels. -/
theorem shows_iff (H : Corresponds u root root' B) (hg : ∀ a a', LabelLike B a a' → a' = g a) {p p' : List Name} {r r' : Rule} (hb : B p r p' r') (h : r.args = []) (c c' : Cfg)
    (F' : List (Pair RuleVal)) :
    Shows u root' (.expr (.mk p' [] r'.node)) c c' F' ↔ ∃ F, Shows u root (.expr (.mk p [] r.node)) c c' F ∧ F' = Pair.converts g F := by
  obtain ⟨h1, h2⟩ := body_like H hb h
  constructor
  · intro k
    obtain ⟨F, k1, -⟩ := shows_like H.back k (.expr (body_like H.back (p := p') (r := r') (p' := p) (r' := r) hb h1).2)
    obtain ⟨F1, k2, k3⟩ := shows_like H k1 (.expr h2)
    have := k.det (some (_, _)) k2
    simp only [Option.some.injEq, Prod.mk.injEq] at this
    exact ⟨F, k1, this.2 ▸ TokensLike.convert hg k3⟩
  · rintro ⟨F, k1, rfl⟩
    obtain ⟨F1, k2, k3⟩ := shows_like H k1 (.expr h2)
    rwa [TokensLike.convert hg k3] at k2

/-- And try the same. -/
theorem fullTries_like (H : Corresponds u root root' B) {rank rank' : RuleVal → Label} (hrank : ∀ a a', LabelLike B a a' → rank a = rank' a') (heoi : rank .eoi = rank' .eoi)
    {p p' : List Name} {r r' : Rule} (hb : B p r p' r') (h : r.args = []) {inp : Str} {b : Bool} {es : List Ev} (k : FullTries u root rank p r inp b es) :
    FullTries u root' rank' p' r' inp b es := by
  obtain ⟨h1, h2⟩ := body_like H hb h
  have tr : ∀ f c o es, tried rank p r f c o es = tried rank' p' r' f c o es := by
    intro f c o es
    unfold tried
    rw [hrank _ _ ⟨p, r, p', r', hb, rfl, rfl⟩]
  cases k with
  | fail k => rw [tr]; exact .fail (tries_like H hrank k (.expr h2))
  | ok k => rw [tr, heoi]; exact .ok (tries_like H hrank k (.expr h2))

theorem fullTries_iff_like (H : Corresponds u root root' B) {rank rank' : RuleVal → Label} (hrank : ∀ a a', LabelLike B a a' → rank a = rank' a') (heoi : rank .eoi = rank' .eoi)
    {p p' : List Name} {r r' : Rule} (hb : B p r p' r') (h : r.args = []) (inp : Str) (b : Bool) (es : List Ev) :
    FullTries u root rank p r inp b es ↔ FullTries u root' rank' p' r' inp b es :=
  ⟨fullTries_like H hrank heoi hb h, fullTries_like H.back (B := Back B) (fun a a' ⟨p, r, p', r', k1, k2, k3⟩ => (hrank a' a ⟨p', r', p, r, k1, k3, k2⟩).symm) heoi.symm hb (body_like H hb h).1⟩

mutual
theorem convert_id {R : Type} : ∀ t : Pair R, t.convert id = t
  | .mk a i j F => by rw [Pair.convert, converts_id]; rfl
theorem converts_id {R : Type} : ∀ F : List (Pair R), Pair.converts id F = F
  | [] => rfl
  | t :: F => by rw [Pair.converts, convert_id, converts_id]
end

theorem shows_exists {p : List Name} {ρ : List (Name × Clo)} {e : Expr} {c c' : Cfg} (h : Meaning u root (.expr (.mk p ρ e)) c (some c')) :
    ∃ F, Shows u root (.expr (.mk p ρ e)) c c' F := meaning_shows h c' rfl (by simp)

/-! ## Runs -/

/-- What `try_parse` returns does not depend on the fuel. -/
theorem tryParse_det {S : Type} {so : StackOps S} {env : Env} {n : Node} {inp : Str} {k k' : Nat} {x y : Except Tracker Tree} (h : tryParse so env k n inp = .ok x)
    (h' : tryParse so env k' n inp = .ok y) : x = y := by
  have mono : ∀ {k k' x}, k ≤ k' → tryParse so env k n inp = .ok x → tryParse so env k' n inp = .ok x := by
    intro k k' x hk h
    unfold tryParse tryParseWith at h ⊢
    rcases parse_mono so realTracker env hk n (Position.fromStart inp) (initSt so inp) with e | e
    · rw [e] at h; simp [finishRun, Out.andThen] at h
    · rw [← e]; exact h
  have a := mono (Nat.le_max_left k k') h
  have b := mono (Nat.le_max_right k k') h'
  rw [a] at b
  cases b
  rfl

/-- The error of `try_parse` is determined by what was tried. -/
theorem error_trace {S : Type} {so : StackOps S} {saved : S → List (List Span)} (hls : Lawful so saved) {env : Env} {n : Node} {inp : Str} {k : Nat} {t : Tracker}
    (h : tryParse so env k n inp = .ok (.error t)) : ∃ es, FullTraces env n inp false es ∧ t = (initSt so inp).trk.after inp es := by
  unfold tryParse finishRun at h
  split at h
  · cases h
  · next st' hs =>
    cases h
    exact full_trace hls hs
  · cases h
  · cases h

end Pest3.Gen
