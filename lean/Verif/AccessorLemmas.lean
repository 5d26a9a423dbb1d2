import Verif.AccessorSpec
import Verif.CodegenLemmas

/-!
# The accessors of an expression and the references in its values
-/

namespace Pest3.Gen
open Pest3

/-- What the relation between values and the references in them is about. -/
inductive OItem where
  | one (e : Expr) (t : Tree)
  | tail (e : Expr) (ts : List Tree)
  | alts (e : Expr) (i : Nat) (t : Tree)
  | all (e : Expr) (ts : List Tree)

/-- The references called `x` in the value of an expression. -/
inductive Occs (nm : List Name → Option Name) (x : Name) : OItem → List Tree → Prop
  | literal {e l t} : literal e = some l → Occs nm x (.one e t) []
  | hit {e q t} : refPath e = some q → nm q = some x → Occs nm x (.one e t) [t]
  | miss {e q t} : refPath e = some q → nm q ≠ some x → Occs nm x (.one e t) []
  | pos {e t L} : Occs nm x (.one e t) L → Occs nm x (.one (.pos e) (.positive t)) L
  | neg {e} : Occs nm x (.one (.neg e) .negative) []
  | seq {l r tr t ts L1 L2} : Occs nm x (.one l t) L1 → Occs nm x (.tail r ts) L2 →
      Occs nm x (.one (.seq l r tr) (.seq (t :: ts))) (L1 ++ L2)
  | tailLast {e t L} : (∀ l r tr, e ≠ .seq l r tr) → Occs nm x (.one e t) L → Occs nm x (.tail e [t]) L
  | tailMore {l r tr t ts L1 L2} : Occs nm x (.one l t) L1 → Occs nm x (.tail r ts) L2 →
      Occs nm x (.tail (.seq l r tr) (t :: ts)) (L1 ++ L2)
  | choice0 {l r t L} : Occs nm x (.one l t) L → Occs nm x (.one (.choice l r) (.choice 0 t)) L
  | choiceS {l r i t L} : Occs nm x (.alts r i t) L → Occs nm x (.one (.choice l r) (.choice (i + 1) t)) L
  | altsLast {e t L} : (∀ l r, e ≠ .choice l r) → Occs nm x (.one e t) L → Occs nm x (.alts e 0 t) L
  | alts0 {l r t L} : Occs nm x (.one l t) L → Occs nm x (.alts (.choice l r) 0 t) L
  | altsS {l r i t L} : Occs nm x (.alts r i t) L → Occs nm x (.alts (.choice l r) (i + 1) t) L
  | optNone {e} : Occs nm x (.one (.opt e) .optNone) []
  | optSome {e t L} : Occs nm x (.one e t) L → Occs nm x (.one (.opt e) (.optSome t)) L
  | rep {e e' min max ts L} : repetition e = some (e', min, max) → Occs nm x (.all e' ts) L →
      Occs nm x (.one e (.rep ts)) L
  | separated {e tr t L} : Occs nm x (.one e t) L → Occs nm x (.one (.separated e tr) t) L
  | allNil {e} : Occs nm x (.all e []) []
  | allCons {e t ts L1 L2} : Occs nm x (.one e t) L1 → Occs nm x (.all e ts) L2 →
      Occs nm x (.all e (t :: ts)) (L1 ++ L2)

/-! ## Entries -/

theorem find_prepend (g : Getter) (e : Edge) (x : Name) : (g.prepend e).find x = (g.find x).map (·.wrap e) := by
  induction g with
  | nil => rfl
  | cons a g ih =>
    obtain ⟨y, n⟩ := a
    simp only [Getter.prepend, List.map_cons, Getter.find]
    split
    · rfl
    · exact ih

theorem keys_prepend (g : Getter) (e : Edge) : (g.prepend e).map Prod.fst = g.map Prod.fst := by
  simp only [Getter.prepend, List.map_map]; rfl

theorem find_none {g : Getter} {x : Name} : g.find x = none ↔ x ∉ g.map Prod.fst := by
  induction g with
  | nil => simp [Getter.find]
  | cons a g ih =>
    obtain ⟨y, n⟩ := a
    simp only [Getter.find, List.map_cons, List.mem_cons, not_or]
    by_cases e : y = x
    · simp [e]
    · rw [if_neg e, ih]; exact ⟨fun h => ⟨fun h' => e h'.symm, h⟩, fun h => h.2⟩

theorem find_mem {g : Getter} (hn : (g.map Prod.fst).Nodup) {x n} : g.find x = some n ↔ (x, n) ∈ g := by
  induction g with
  | nil => simp [Getter.find]
  | cons a g ih =>
    obtain ⟨y, m⟩ := a
    simp only [List.map_cons, List.nodup_cons] at hn
    simp only [Getter.find, List.mem_cons, Prod.mk.injEq]
    by_cases e : y = x
    · subst e
      simp only [if_true, Option.some.injEq]
      constructor
      · rintro rfl; exact .inl ⟨trivial, rfl⟩
      · rintro (⟨_, rfl⟩ | h)
        · rfl
        · exact absurd (List.mem_map.mpr ⟨_, h, rfl⟩) hn.1
    · rw [if_neg e, ih hn.2]
      exact ⟨.inr, fun h => h.resolve_left fun h => e h.1.symm⟩

/-- Merging with what was there. -/
def mergeO : Option GNode → Option GNode → Option GNode
  | none, o => o
  | some m, none => some m
  | some m, some n => some (m.merge n)

theorem find_joinOne (g : Getter) (y : Name) (n : GNode) (x : Name) :
    (g.joinOne y n).find x = if y = x then mergeO (g.find x) (some n) else g.find x := by
  induction g with
  | nil => simp only [Getter.joinOne, Getter.find, mergeO]
  | cons a g ih =>
    obtain ⟨z, m⟩ := a
    simp only [Getter.joinOne, Getter.find]
    by_cases e : z = y
    · subst e
      simp only [if_true, Getter.find]
      by_cases e' : z = x <;> simp [e', mergeO]
    · rw [if_neg e]
      simp only [Getter.find]
      by_cases e' : z = x
      · subst e'; simp [Ne.symm e]
      · simp only [if_neg e', ih]

theorem keys_joinOne (g : Getter) (y : Name) (n : GNode) : ∀ z, z ∈ (g.joinOne y n).map Prod.fst ↔ z ∈ g.map Prod.fst ∨ z = y := by
  induction g with
  | nil => simp [Getter.joinOne]
  | cons a g ih =>
    obtain ⟨w, m⟩ := a
    intro z
    simp only [Getter.joinOne]
    by_cases e : w = y
    · subst e
      rw [if_pos rfl]
      simp only [List.map_cons, List.mem_cons]
      constructor
      · exact .inl
      · rintro (h | rfl)
        · exact h
        · exact .inl rfl
    · rw [if_neg e]
      simp only [List.map_cons, List.mem_cons, ih z]
      exact or_assoc.symm

theorem nodup_joinOne {g : Getter} (hn : (g.map Prod.fst).Nodup) (y : Name) (n : GNode) :
    ((g.joinOne y n).map Prod.fst).Nodup := by
  induction g with
  | nil => simp [Getter.joinOne]
  | cons a g ih =>
    obtain ⟨w, m⟩ := a
    simp only [List.map_cons, List.nodup_cons] at hn
    simp only [Getter.joinOne]
    by_cases e : w = y
    · rw [if_pos e]; simp only [List.map_cons, List.nodup_cons]; exact hn
    · rw [if_neg e]
      simp only [List.map_cons, List.nodup_cons]
      exact ⟨fun h => ((keys_joinOne g y n w).mp h).elim hn.1 e, ih hn.2⟩

theorem find_join (g h : Getter) (hh : (h.map Prod.fst).Nodup) (x : Name) :
    (g.join h).find x = mergeO (g.find x) (h.find x) := by
  induction h generalizing g with
  | nil => simp only [Getter.join, List.foldl_nil, Getter.find]; cases g.find x <;> rfl
  | cons a h ih =>
    obtain ⟨y, n⟩ := a
    simp only [List.map_cons, List.nodup_cons] at hh
    have : g.join ((y, n) :: h) = (g.joinOne y n).join h := rfl
    rw [this, ih _ hh.2, find_joinOne]
    simp only [Getter.find]
    by_cases e : y = x
    · subst e
      rw [if_pos rfl, if_pos rfl, find_none.mpr hh.1]
      cases g.find y <;> rfl
    · rw [if_neg e, if_neg e]

theorem nodup_join {g : Getter} (hn : (g.map Prod.fst).Nodup) (h : Getter) : ((g.join h).map Prod.fst).Nodup := by
  induction h generalizing g with
  | nil => exact hn
  | cons a h ih => exact ih (nodup_joinOne hn a.1 a.2)

/-- The entries of the items of a sequence or choice. -/
def wrapped (edge : Nat → Edge) (x : Name) : Nat → List Getter → List GNode
  | _, [] => []
  | i, c :: rest => ((c.find x).map (·.wrap (edge i))).toList ++ wrapped edge x (i + 1) rest

/-- One entry, or a tuple of several. -/
def packed : List GNode → Option GNode
  | [] => none
  | [n] => some n
  | l => some (.tuple l)

/-- Not a tuple. -/
def GNode.plain : GNode → Prop
  | .tuple _ => False
  | _ => True

theorem wrap_plain (n : GNode) (e : Edge) : (n.wrap e).plain := by cases e <;> trivial

theorem merge_packed (l : List GNode) (hl : ∀ n ∈ l, n.plain) (n : GNode) (hn : n.plain) :
    mergeO (packed l) (some n) = packed (l ++ [n]) := by
  match l, hl with
  | [], _ => rfl
  | [m], hl =>
    have := hl m (List.mem_singleton.mpr rfl)
    cases m <;> first | exact this.elim | (cases n <;> first | exact hn.elim | rfl)
  | a :: b :: l, _ => cases n <;> first | exact hn.elim | rfl

theorem find_joinAll (edge : Nat → Edge) (x : Name) (gs : List Getter) (hgs : ∀ g ∈ gs, (g.map Prod.fst).Nodup) :
    ∀ (i : Nat) (g : Getter) (l : List GNode), g.find x = packed l → (∀ n ∈ l, n.plain) →
    (joinAll edge i g gs).find x = packed (l ++ wrapped edge x i gs) := by
  induction gs with
  | nil => intro i g l h _; simp only [joinAll, wrapped, List.append_nil]; exact h
  | cons c gs ih =>
    intro i g l h hl
    have hc : ((c.prepend (edge i)).map Prod.fst).Nodup := by rw [keys_prepend]; exact hgs c (List.mem_cons_self ..)
    simp only [joinAll, wrapped]
    have h' := find_join g _ hc x
    rw [find_prepend, h] at h'
    cases hf : c.find x with
    | none =>
      rw [hf] at h'
      have h2 : mergeO (packed l) none = packed l := by cases packed l <;> rfl
      simp only [Option.map_none, h2] at h'
      simpa using ih (fun g hg => hgs g (List.mem_cons_of_mem _ hg)) (i + 1) _ l h' hl
    | some n =>
      rw [hf] at h'
      simp only [Option.map_some, merge_packed l hl _ (wrap_plain n (edge i))] at h'
      have := ih (fun g hg => hgs g (List.mem_cons_of_mem _ hg)) (i + 1) _ _ h' (fun m hm => by
        rcases List.mem_append.mp hm with hm | hm
        · exact hl m hm
        · rw [List.mem_singleton.mp hm]; exact wrap_plain n (edge i))
      simpa using this

theorem nodup_joinAll (edge : Nat → Edge) (gs : List Getter) : ∀ (i : Nat) (g : Getter), (g.map Prod.fst).Nodup →
    ((joinAll edge i g gs).map Prod.fst).Nodup := by
  induction gs with
  | nil => intro i g h; exact h
  | cons c gs ih => intro i g h; exact ih _ _ (nodup_join h _)

/-! ## Flattening -/

/-- The value is an option. -/
def AVal.isOpt : AVal → Prop
  | .none => True
  | .some _ => True
  | _ => False

theorem flatten_opt {v : AVal} (h : v.isOpt) : v.flatten = some v := by
  cases v <;> simp_all [AVal.isOpt, AVal.flatten]

theorem flatten_isOpt {v w : AVal} (h : v.flatten = some w) : w.isOpt ∧ w = v := by
  cases v with
  | none => simp only [AVal.flatten, Option.some.injEq] at h; subst h; exact ⟨trivial, rfl⟩
  | some v => simp only [AVal.flatten, Option.some.injEq] at h; subst h; exact ⟨trivial, rfl⟩
  | _ => simp [AVal.flatten] at h

theorem eval_isOpt : ∀ (g : GNode) (t : Tree) (v : AVal), g.flattenable = true → g.eval t = some v → v.isOpt
  | .rule _, _, _, h, _ => by simp [GNode.flattenable] at h
  | .arg _, _, _, h, _ => by simp [GNode.flattenable] at h
  | .contents _, _, _, h, _ => by simp [GNode.flattenable] at h
  | .tuple _, _, _, h, _ => by simp [GNode.flattenable] at h
  | .content g, t, v, h, hv => by
    cases t <;> simp only [GNode.eval] at hv <;> first | contradiction | exact eval_isOpt g _ v h hv
  | .seqI i g, t, v, h, hv => by
    cases t <;> simp only [GNode.eval] at hv <;> first | contradiction | skip
    split at hv
    · exact eval_isOpt g _ v h hv
    · contradiction
  | .optional flat g, t, v, h, hv => by
    cases t <;> simp only [GNode.eval] at hv <;> first | contradiction | skip
    · injection hv with hv; subst hv; trivial
    · split at hv
      · split at hv
        · exact (flatten_isOpt hv).1
        · injection hv with hv; subst hv; trivial
      · contradiction
  | .choiceI i flat g, t, v, h, hv => by
    cases t <;> simp only [GNode.eval] at hv <;> first | contradiction | skip
    split at hv
    · split at hv
      · split at hv
        · exact (flatten_isOpt hv).1
        · injection hv with hv; subst hv; trivial
      · contradiction
    · injection hv with hv; subst hv; trivial

theorem declared_opt : ∀ (g : GNode), g.flattenable = true → ∃ a, g.declared = .opt a
  | .rule _, h => by simp [GNode.flattenable] at h
  | .arg _, h => by simp [GNode.flattenable] at h
  | .contents _, h => by simp [GNode.flattenable] at h
  | .tuple _, h => by simp [GNode.flattenable] at h
  | .content g, h => by simp only [GNode.declared]; exact declared_opt g h
  | .seqI _ g, h => by simp only [GNode.declared]; exact declared_opt g h
  | .optional false g, _ => ⟨_, by simp [GNode.declared]; rfl⟩
  | .choiceI _ false g, _ => ⟨_, by simp [GNode.declared]; rfl⟩
  | .optional true g, h => by simp only [GNode.declared, if_true]; exact declared_opt g h
  | .choiceI _ true g, h => by simp only [GNode.declared, if_true]; exact declared_opt g h

/-! ## Sound entries -/

section
variable (nm : List Name → Option Name)

/-- The entry called `x` fits the expression and the type. -/
def Fits (x : Name) (e : Expr) (ty : Ty) : Option GNode → Prop
  | none => ¬ Mentions nm x e ∧ ∀ t L, Occs nm x (.one e t) L → L = []
  | some n => Mentions nm x e ∧ n.typed ty = some n.declared ∧
      ∀ t L, Occs nm x (.one e t) L → ∃ v, n.eval t = some v ∧ v.refs = L

/-- The accessors fit the expression and the type. -/
def Good (e : Expr) (r : Ty × Getter) : Prop :=
  (r.2.map Prod.fst).Nodup ∧ ∀ x, Fits nm x e r.1 (r.2.find x)

/-- … for several expressions. -/
inductive GoodAll : List Expr → List (Ty × Getter) → Prop
  | nil : GoodAll [] []
  | cons {e l r rs} : Good nm e r → GoodAll l rs → GoodAll (e :: l) (r :: rs)

/-- The references in the values of several expressions. -/
inductive OccsAll (x : Name) : List Expr → List Tree → List Tree → Prop
  | nil : OccsAll x [] [] []
  | cons {e l t ts L1 L2} : Occs nm x (.one e t) L1 → OccsAll x l ts L2 → OccsAll x (e :: l) (t :: ts) (L1 ++ L2)

variable {nm}

theorem GoodAll.nodup {l rs} (h : GoodAll nm l rs) : ∀ g ∈ rs.map Prod.snd, (g.map Prod.fst).Nodup := by
  induction h with
  | nil => simp
  | cons h1 _ ih =>
    intro g hg
    rcases List.mem_cons.mp hg with rfl | hg
    · exact h1.1
    · exact ih g hg

theorem occs_tail (x : Name) (e : Expr) : ∀ tr ts L, Occs nm x (.tail e ts) L →
    OccsAll nm x ((seqTail tr e).map Prod.snd) ts L := by
  have base : ∀ (e : Expr) (tr : Trivia) ts L, seqTail tr e = [(tr, e)] → (∀ l r t, e ≠ .seq l r t) →
      Occs nm x (.tail e ts) L → OccsAll nm x ((seqTail tr e).map Prod.snd) ts L := fun e tr ts L hs hn h => by
    rw [hs]
    cases h with
    | tailLast _ h => simpa using OccsAll.cons h .nil
    | tailMore => exact absurd rfl (hn _ _ _)
  induction e using Expr.ind with
  | seq l r t _ ih =>
    intro tr ts L h
    cases h with
    | tailLast hn => exact absurd rfl (hn _ _ _)
    | tailMore h1 h2 => exact .cons h1 (ih t _ _ h2)
  | _ => intro tr ts L h; exact base _ tr ts L rfl (by intros; simp) h

theorem occs_alts (x : Name) (e : Expr) : ∀ i t L, Occs nm x (.alts e i t) L →
    ∃ a, (choiceTail e)[i]? = some a ∧ Occs nm x (.one a t) L := by
  have base : ∀ (e : Expr) i t L, choiceTail e = [e] → (∀ l r, e ≠ .choice l r) →
      Occs nm x (.alts e i t) L → ∃ a, (choiceTail e)[i]? = some a ∧ Occs nm x (.one a t) L := fun e i t L hs hn h => by
    rw [hs]
    cases h with
    | altsLast _ h => exact ⟨_, rfl, h⟩
    | alts0 => exact absurd rfl (hn _ _)
    | altsS => exact absurd rfl (hn _ _)
  induction e using Expr.ind with
  | choice l r _ ih =>
    intro i t L h
    cases h with
    | altsLast hn => exact absurd rfl (hn _ _)
    | alts0 h => exact ⟨_, rfl, h⟩
    | altsS h => exact ih _ _ _ h
  | _ => intro i t L h; exact base _ i t L rfl (by intros; simp) h

theorem mentions_tail (x : Name) (e : Expr) (tr : Trivia) :
    Mentions nm x e ↔ ∃ a ∈ (seqTail tr e).map Prod.snd, Mentions nm x a := by
  induction e using Expr.ind generalizing tr with
  | seq l r t _ ih =>
    simp only [seqTail, List.map_cons, List.mem_cons, exists_eq_or_imp, ← ih t]
    constructor
    · intro h
      cases h with
      | ref h => simp [refPath] at h
      | rep h => simp [repetition] at h
      | seqL h => exact .inl h
      | seqR h => exact .inr h
    · rintro (h | h)
      · exact .seqL h
      · exact .seqR h
  | _ => simp [seqTail]

theorem mentions_alts (x : Name) (e : Expr) : Mentions nm x e ↔ ∃ a ∈ choiceTail e, Mentions nm x a := by
  induction e using Expr.ind with
  | choice l r _ ih =>
    simp only [choiceTail, List.mem_cons, exists_eq_or_imp, ← ih]
    constructor
    · intro h
      cases h with
      | ref h => simp [refPath] at h
      | rep h => simp [repetition] at h
      | choiceL h => exact .inl h
      | choiceR h => exact .inr h
    · rintro (h | h)
      · exact .choiceL h
      · exact .choiceR h
  | _ => simp [choiceTail]

theorem wrapped_mentions {x l rs} (edge : Nat → Edge) (h : GoodAll nm l rs) : ∀ i,
    wrapped edge x i (rs.map Prod.snd) = [] ↔ ¬ ∃ a ∈ l, Mentions nm x a := by
  induction h with
  | nil => intro i; simp [wrapped]
  | @cons e l r rs h1 h2 ih =>
    intro i
    have hx := h1.2 x
    simp only [List.map_cons, wrapped, List.mem_cons, exists_eq_or_imp, not_or, List.append_eq_nil_iff, ih (i + 1)]
    cases hf : r.2.find x with
    | none => rw [hf] at hx; simp [hx.1]
    | some n => rw [hf] at hx; simp [hx.1]

/-! ### Sequences -/

theorem seq_typed {x l rs} (h : GoodAll nm l rs) : ∀ (trs : List Trivia) (pre : List Ty),
    typedAll (wrapped .contentI x pre.length (rs.map Prod.snd)) (.seq trs (pre ++ rs.map Prod.fst)) =
      some (declaredAll (wrapped .contentI x pre.length (rs.map Prod.snd))) := by
  induction h with
  | nil => intro trs pre; rfl
  | @cons e l r rs h1 h2 ih =>
    intro trs pre
    have hx := h1.2 x
    have hi := ih trs (pre ++ [r.1])
    simp only [List.length_append, List.length_cons, List.length_nil, Nat.zero_add, List.append_assoc,
      List.cons_append, List.nil_append] at hi
    simp only [List.map_cons, wrapped]
    cases hf : r.2.find x with
    | none => simpa using hi
    | some n =>
      rw [hf] at hx
      simp only [Option.map_some, Option.toList_some, List.cons_append, List.nil_append, typedAll, declaredAll, hi]
      have : (n.wrap (.contentI pre.length)).typed (.seq trs (pre ++ r.1 :: rs.map Prod.fst)) = some n.declared := by
        simp only [GNode.wrap, GNode.typed, List.getElem?_append_right (Nat.le_refl _), Nat.sub_self,
          List.getElem?_cons_zero]
        exact hx.2.1
      rw [this]
      simp [GNode.wrap, GNode.declared]

theorem seq_eval {x l rs} (h : GoodAll nm l rs) : ∀ (pre ts : List Tree) (L : List Tree), OccsAll nm x l ts L →
    ∃ vs, evalAll (wrapped .contentI x pre.length (rs.map Prod.snd)) (.seq (pre ++ ts)) = some vs ∧ refsAll vs = L := by
  induction h with
  | nil => intro pre ts L ho; cases ho; exact ⟨[], rfl, rfl⟩
  | @cons e l r rs h1 h2 ih =>
    intro pre ts L ho
    cases ho with
    | @cons _ _ t ts L1 L2 o1 o2 =>
      have hx := h1.2 x
      obtain ⟨vs, hv, hr⟩ := ih (pre ++ [t]) ts L2 o2
      simp only [List.length_append, List.length_cons, List.length_nil, Nat.zero_add, List.append_assoc,
        List.cons_append, List.nil_append] at hv
      simp only [List.map_cons, wrapped]
      cases hf : r.2.find x with
      | none =>
        rw [hf] at hx
        rw [hx.2 _ _ o1]
        exact ⟨vs, by simpa using hv, by simpa using hr⟩
      | some n =>
        rw [hf] at hx
        obtain ⟨v, h3, h4⟩ := hx.2.2 _ _ o1
        refine ⟨v :: vs, ?_, by simp only [refsAll, h4, hr]⟩
        have : (n.wrap (.contentI pre.length)).eval (.seq (pre ++ t :: ts)) = some v := by
          simp only [GNode.wrap, GNode.eval, List.getElem?_append_right (Nat.le_refl _), Nat.sub_self,
            List.getElem?_cons_zero]
          exact h3
        simp only [Option.map_some, Option.toList_some, List.cons_append, List.nil_append, evalAll, this, hv]

/-! ### Options -/

theorem typed_flat {n : GNode} {a : ATy} (h : a = n.declared) :
    (if n.flattenable = true then a.flatten else some (.opt a)) =
      some (if n.flattenable = true then n.declared else .opt n.declared) := by
  subst h
  by_cases hf : n.flattenable = true
  · obtain ⟨b, hb⟩ := declared_opt n hf
    rw [if_pos hf, if_pos hf, hb]; rfl
  · rw [if_neg hf, if_neg hf]

theorem eval_flat {n : GNode} {t : Tree} {v : AVal} (h : n.eval t = some v) :
    ∃ w, (if n.flattenable = true then v.flatten else some (.some v)) = some w ∧ w.refs = v.refs := by
  by_cases hf : n.flattenable = true
  · rw [if_pos hf]; exact ⟨v, flatten_opt (eval_isOpt n t v hf h), rfl⟩
  · rw [if_neg hf]; exact ⟨_, rfl, by simp [AVal.refs]⟩

/-! ### Choices -/

theorem choice_typed {x l rs} (h : GoodAll nm l rs) : ∀ (pre : List Ty),
    typedAll (wrapped .choiceI x pre.length (rs.map Prod.snd)) (.choice (pre ++ rs.map Prod.fst)) =
      some (declaredAll (wrapped .choiceI x pre.length (rs.map Prod.snd))) := by
  induction h with
  | nil => intro pre; rfl
  | @cons e l r rs h1 h2 ih =>
    intro pre
    have hx := h1.2 x
    have hi := ih (pre ++ [r.1])
    simp only [List.length_append, List.length_cons, List.length_nil, Nat.zero_add, List.append_assoc,
      List.cons_append, List.nil_append] at hi
    simp only [List.map_cons, wrapped]
    cases hf : r.2.find x with
    | none => simpa using hi
    | some n =>
      rw [hf] at hx
      simp only [Option.map_some, Option.toList_some, List.cons_append, List.nil_append, typedAll, declaredAll, hi]
      have : (n.wrap (.choiceI pre.length)).typed (.choice (pre ++ r.1 :: rs.map Prod.fst)) =
          some (n.wrap (.choiceI pre.length)).declared := by
        simp only [GNode.wrap, GNode.typed, List.getElem?_append_right (Nat.le_refl _), Nat.sub_self,
          List.getElem?_cons_zero, hx.2.1, GNode.declared]
        exact typed_flat rfl
      rw [this]

/-- Accessors of other alternatives than the one that matched. -/
theorem choice_eval_none {x l rs} (h : GoodAll nm l rs) (t : Tree) : ∀ (k j : Nat), j < k →
    ∃ vs, evalAll (wrapped .choiceI x k (rs.map Prod.snd)) (.choice j t) = some vs ∧ refsAll vs = [] := by
  induction h with
  | nil => intro k j _; exact ⟨[], rfl, rfl⟩
  | @cons e l r rs h1 h2 ih =>
    intro k j hj
    obtain ⟨vs, hv, hr⟩ := ih (k + 1) j (Nat.lt_succ_of_lt hj)
    simp only [List.map_cons, wrapped]
    cases hf : r.2.find x with
    | none => exact ⟨vs, by simpa using hv, hr⟩
    | some n =>
      refine ⟨.none :: vs, ?_, by simp [refsAll, AVal.refs, hr]⟩
      have : (n.wrap (.choiceI k)).eval (.choice j t) = some .none := by
        simp only [GNode.wrap, GNode.eval]; rw [if_neg (Nat.ne_of_gt hj)]
      simp only [Option.map_some, Option.toList_some, List.cons_append, List.nil_append, evalAll, this, hv]

theorem choice_eval {x l rs} (h : GoodAll nm l rs) (t : Tree) (L : List Tree) : ∀ (k j : Nat) a, l[j]? = some a →
    Occs nm x (.one a t) L →
    ∃ vs, evalAll (wrapped .choiceI x k (rs.map Prod.snd)) (.choice (k + j) t) = some vs ∧ refsAll vs = L := by
  induction h with
  | nil => intro k j a ha; simp at ha
  | @cons e l r rs h1 h2 ih =>
    intro k j a ha ho
    have hx := h1.2 x
    simp only [List.map_cons, wrapped]
    cases j with
    | zero =>
      simp only [List.getElem?_cons_zero, Option.some.injEq] at ha
      subst ha
      obtain ⟨vs, hv, hr⟩ := choice_eval_none (x := x) h2 t (k + 1) k (Nat.lt_succ_self k)
      cases hf : r.2.find x with
      | none =>
        rw [hf] at hx
        exact ⟨vs, by simpa using hv, by rw [hx.2 _ _ ho]; exact hr⟩
      | some n =>
        rw [hf] at hx
        obtain ⟨v, h3, h4⟩ := hx.2.2 _ _ ho
        obtain ⟨w, h5, h6⟩ := eval_flat h3
        refine ⟨w :: vs, ?_, by simp [refsAll, h6, h4, hr]⟩
        have : (n.wrap (.choiceI k)).eval (.choice (k + 0) t) = some w := by
          simp only [GNode.wrap, GNode.eval, h3, Nat.add_zero, if_true]; exact h5
        simp only [Option.map_some, Option.toList_some, List.cons_append, List.nil_append, evalAll, this]
        simp only [Nat.add_zero, hv]
    | succ j =>
      obtain ⟨vs, hv, hr⟩ := ih (k + 1) j a (by simpa using ha) ho
      have hk : k + 1 + j = k + (j + 1) := by omega
      rw [hk] at hv
      cases hf : r.2.find x with
      | none => exact ⟨vs, by simpa using hv, hr⟩
      | some n =>
        refine ⟨.none :: vs, ?_, by simp [refsAll, AVal.refs, hr]⟩
        have : (n.wrap (.choiceI k)).eval (.choice (k + (j + 1)) t) = some .none := by
          simp only [GNode.wrap, GNode.eval]; rw [if_neg (by omega)]
        simp only [Option.map_some, Option.toList_some, List.cons_append, List.nil_append, evalAll, this, hv]

/-! ### Packing -/

theorem packed_typed {l : List GNode} {ty : Ty} (h : typedAll l ty = some (declaredAll l)) {n} (hp : packed l = some n) :
    n.typed ty = some n.declared := by
  match l, h, hp with
  | [], _, hp => simp [packed] at hp
  | [m], h, hp =>
    simp only [packed, Option.some.injEq] at hp
    subst hp
    simp only [typedAll, declaredAll] at h
    cases hm : m.typed ty with
    | none => rw [hm] at h; simp at h
    | some a => rw [hm] at h; simpa using h
  | a :: b :: l, h, hp =>
    simp only [packed, Option.some.injEq] at hp
    subst hp
    simp [GNode.typed, h, GNode.declared]

theorem packed_eval {l : List GNode} {t : Tree} {vs} (h : evalAll l t = some vs) {n} (hp : packed l = some n) :
    ∃ v, n.eval t = some v ∧ v.refs = refsAll vs := by
  match l, h, hp with
  | [], _, hp => simp [packed] at hp
  | [m], h, hp =>
    simp only [packed, Option.some.injEq] at hp
    subst hp
    simp only [evalAll] at h
    cases hm : m.eval t with
    | none => rw [hm] at h; simp at h
    | some a => rw [hm] at h; simp only [Option.some.injEq] at h; subst h; exact ⟨a, rfl, by simp [refsAll]⟩
  | a :: b :: l, h, hp =>
    simp only [packed, Option.some.injEq] at hp
    subst hp
    refine ⟨.tuple vs, by simp [GNode.eval, h], by simp [AVal.refs]⟩

theorem packed_none {l : List GNode} : packed l = none ↔ l = [] := by
  match l with
  | [] => simp [packed]
  | [_] => simp [packed]
  | _ :: _ :: _ => simp [packed]

theorem mapM_eval {x e n} (h : ∀ t L, Occs nm x (.one e t) L → ∃ v, GNode.eval n t = some v ∧ v.refs = L) :
    ∀ ts L, Occs nm x (.all e ts) L → ∃ vs, ts.mapM (fun t => n.eval t) = some vs ∧ refsAll vs = L := by
  intro ts
  induction ts with
  | nil => intro L ho; cases ho; exact ⟨[], by simp, rfl⟩
  | cons t ts ih =>
    intro L ho
    cases ho with
    | allCons o1 o2 =>
      obtain ⟨v, h1, h2⟩ := h _ _ o1
      obtain ⟨vs, h3, h4⟩ := ih _ o2
      exact ⟨v :: vs, by simp [h1, h3], by simp [refsAll, h2, h4]⟩

/-! ### The generator -/

theorem Fits.one {x e ty q} (he : refPath e = some q) {y n} (hy : nm q = some y) (hn : n.typed ty = some n.declared)
    (hv : ∀ t, n.eval t = some (.ref t)) : Fits nm x e ty (Getter.find [(y, n)] x) := by
  have inv : ∀ t L, Occs nm x (.one e t) L → (nm q = some x ∧ L = [t]) ∨ (nm q ≠ some x ∧ L = []) := by
    intro t L ho
    cases ho with
    | literal h => cases e <;> simp [refPath, literal] at he h
    | hit h1 h2 => rw [h1] at he; injection he with he; subst he; exact .inl ⟨h2, rfl⟩
    | miss h1 h2 => rw [h1] at he; injection he with he; subst he; exact .inr ⟨h2, rfl⟩
    | rep h => cases e <;> simp [refPath, repetition] at he h
    | _ => simp [refPath] at he
  simp only [Getter.find]
  by_cases hyx : y = x
  · subst hyx
    rw [if_pos rfl]
    refine ⟨.ref he hy, hn, fun t L ho => ?_⟩
    rcases inv t L ho with ⟨_, rfl⟩ | ⟨h, _⟩
    · exact ⟨_, hv t, by simp [AVal.refs]⟩
    · exact absurd hy h
  · rw [if_neg hyx]
    refine ⟨fun hm => ?_, fun t L ho => ?_⟩
    · cases hm with
      | ref h1 h2 => rw [h1] at he; injection he with he; subst he; rw [hy] at h2; exact hyx (by injection h2)
      | rep h => cases e <;> simp [refPath, repetition] at he h
      | _ => simp [refPath] at he
    · rcases inv t L ho with ⟨h, _⟩ | ⟨_, rfl⟩
      · rw [hy] at h; exact absurd (by injection h) hyx
      · rfl

theorem good_ref {e q y} {r : Ty × Getter} (he : refPath e = some q) (hy : nm q = some y) (hr : r.2 = [(y, .rule r.1)]) :
    Good nm e r := by
  refine ⟨by simp [hr], fun x => ?_⟩
  rw [hr]
  exact .one he hy (by simp [GNode.typed, GNode.declared]) (fun t => by simp [GNode.eval])

theorem good_arg {e q y} (he : refPath e = some q) (hy : nm q = some y) : Good nm e (.param y, [(y, .arg y)]) := by
  refine ⟨by simp, fun x => ?_⟩
  exact .one he hy (by simp [GNode.typed, GNode.declared]) (fun t => by simp [GNode.eval])

theorem good_literal {e l ty} (h : literal e = some l) : Good nm e (ty, []) := by
  refine ⟨by simp, fun x => ⟨fun hm => ?_, fun t L ho => ?_⟩⟩
  · cases hm with
    | ref h' => cases e <;> simp [refPath, literal] at h h'
    | rep h' => cases e <;> simp [repetition, literal] at h h'
    | _ => simp [literal] at h
  · cases ho with
    | literal => rfl
    | hit h' => cases e <;> simp [refPath, literal] at h h'
    | miss => rfl
    | rep h' => cases e <;> simp [repetition, literal] at h h'
    | _ => simp [literal] at h

theorem good_neg {e ty} : Good nm (.neg e) (ty, []) := by
  refine ⟨by simp, fun x => ⟨fun hm => ?_, fun t L ho => ?_⟩⟩
  · cases hm with
    | ref h => simp [refPath] at h
    | rep h => simp [repetition] at h
  · cases ho with
    | literal => rfl
    | neg => rfl
    | hit h => simp [refPath] at h
    | miss h => rfl
    | rep h => simp [repetition] at h

theorem good_pos {e r} (h : Good nm e r) : Good nm (.pos e) (.positive r.1, r.2.prepend .content) := by
  refine ⟨by rw [keys_prepend]; exact h.1, fun x => ?_⟩
  have hx := h.2 x
  have inv : ∀ t L, Occs nm x (.one (.pos e) t) L → ∃ t', t = .positive t' ∧ Occs nm x (.one e t') L := by
    intro t L ho
    cases ho with
    | literal h => simp [literal] at h
    | hit h => simp [refPath] at h
    | miss h => simp [refPath] at h
    | rep h => simp [repetition] at h
    | pos h => exact ⟨_, rfl, h⟩
  have minv : Mentions nm x (.pos e) ↔ Mentions nm x e := by
    refine ⟨fun hm => ?_, .pos⟩
    cases hm with
    | ref h => simp [refPath] at h
    | rep h => simp [repetition] at h
    | pos h => exact h
  rw [find_prepend]
  cases hf : r.2.find x with
  | none =>
    rw [hf] at hx
    refine ⟨fun hm => hx.1 (minv.mp hm), fun t L hoo => ?_⟩
    obtain ⟨t', rfl, ho⟩ := inv t L hoo
    exact hx.2 _ _ ho
  | some n =>
    rw [hf] at hx
    refine ⟨minv.mpr hx.1, by simp only [GNode.wrap, GNode.typed, GNode.declared]; exact hx.2.1, fun t L hoo => ?_⟩
    obtain ⟨t', rfl, ho⟩ := inv t L hoo
    simp only [GNode.wrap, GNode.eval]
    exact hx.2.2 _ _ ho

theorem good_opt {e r} (h : Good nm e r) : Good nm (.opt e) (.option r.1, r.2.prepend .optional) := by
  refine ⟨by rw [keys_prepend]; exact h.1, fun x => ?_⟩
  have hx := h.2 x
  have inv : ∀ t L, Occs nm x (.one (.opt e) t) L →
      (t = .optNone ∧ L = []) ∨ ∃ t', t = .optSome t' ∧ Occs nm x (.one e t') L := by
    intro t L ho
    cases ho with
    | literal h => simp [literal] at h
    | hit h => simp [refPath] at h
    | miss h => simp [refPath] at h
    | rep h => simp [repetition] at h
    | optNone => exact .inl ⟨rfl, rfl⟩
    | optSome h => exact .inr ⟨_, rfl, h⟩
  have minv : Mentions nm x (.opt e) ↔ Mentions nm x e := by
    refine ⟨fun hm => ?_, .opt⟩
    cases hm with
    | ref h => simp [refPath] at h
    | rep h => simp [repetition] at h
    | opt h => exact h
  rw [find_prepend]
  cases hf : r.2.find x with
  | none =>
    rw [hf] at hx
    refine ⟨fun hm => hx.1 (minv.mp hm), fun t L hoo => ?_⟩
    rcases inv t L hoo with ⟨_, rfl⟩ | ⟨t', rfl, ho⟩
    · rfl
    · exact hx.2 _ _ ho
  | some n =>
    rw [hf] at hx
    refine ⟨minv.mpr hx.1, ?_, fun t L hoo => ?_⟩
    · simp only [GNode.wrap, GNode.typed, GNode.declared, hx.2.1]; exact typed_flat rfl
    · simp only [GNode.wrap]
      rcases inv t L hoo with ⟨rfl, rfl⟩ | ⟨t', rfl, ho⟩
      · exact ⟨.none, by simp [GNode.eval], by simp [AVal.refs]⟩
      · obtain ⟨v, h1, h2⟩ := hx.2.2 _ _ ho
        obtain ⟨w, h3, h4⟩ := eval_flat h1
        exact ⟨w, by simp only [GNode.eval, h1]; exact h3, h4.trans h2⟩

theorem good_rep {e e' min max r ty} (he : repetition e = some (e', min, max)) (hty : ty.item = some r.1)
    (h : Good nm e' r) : Good nm e (ty, r.2.prepend .contents) := by
  refine ⟨by rw [keys_prepend]; exact h.1, fun x => ?_⟩
  have hx := h.2 x
  have inv : ∀ t L, Occs nm x (.one e t) L → ∃ ts, t = .rep ts ∧ Occs nm x (.all e' ts) L := by
    intro t L ho
    cases ho with
    | literal h => cases e <;> simp [literal, repetition] at he h
    | hit h => cases e <;> simp [refPath, repetition] at he h
    | miss h => cases e <;> simp [refPath, repetition] at he h
    | rep h h' =>
      rw [he] at h
      simp only [Option.some.injEq, Prod.mk.injEq] at h
      exact ⟨_, rfl, h.1 ▸ h'⟩
    | _ => simp [repetition] at he
  have minv : Mentions nm x e ↔ Mentions nm x e' := by
    refine ⟨fun hm => ?_, .rep he⟩
    cases hm with
    | ref h => cases e <;> simp [refPath, repetition] at he h
    | rep h h' =>
      rw [he] at h
      simp only [Option.some.injEq, Prod.mk.injEq] at h
      exact h.1 ▸ h'
    | _ => simp [repetition] at he
  have nilL : (∀ t L, Occs nm x (.one e' t) L → L = []) → ∀ ts L, Occs nm x (.all e' ts) L → L = [] := by
    intro hn ts
    induction ts with
    | nil => intro L ho; cases ho; rfl
    | cons t ts ih =>
      intro L ho
      cases ho with
      | allCons o1 o2 => rw [hn _ _ o1, ih _ o2]; rfl
  rw [find_prepend]
  cases hf : r.2.find x with
  | none =>
    rw [hf] at hx
    refine ⟨fun hm => hx.1 (minv.mp hm), fun t L hoo => ?_⟩
    obtain ⟨ts, rfl, ho⟩ := inv t L hoo
    exact nilL hx.2 _ _ ho
  | some n =>
    rw [hf] at hx
    refine ⟨minv.mpr hx.1, ?_, fun t L hoo => ?_⟩
    · simp [GNode.wrap, GNode.typed, GNode.declared, hty, hx.2.1]
    · obtain ⟨ts, rfl, ho⟩ := inv t L hoo
      obtain ⟨vs, h1, h2⟩ := mapM_eval hx.2.2 _ _ ho
      exact ⟨.vec vs, by simp [GNode.wrap, GNode.eval, h1], by simp [AVal.refs, h2]⟩

theorem good_separated {e tr r} (h : Good nm e r) : Good nm (.separated e tr) r := by
  refine ⟨h.1, fun x => ?_⟩
  have hx := h.2 x
  have inv : ∀ t L, Occs nm x (.one (.separated e tr) t) L → Occs nm x (.one e t) L := by
    intro t L ho
    cases ho with
    | literal h => simp [literal] at h
    | hit h => simp [refPath] at h
    | miss h => simp [refPath] at h
    | rep h => simp [repetition] at h
    | separated h => exact h
  have minv : Mentions nm x (.separated e tr) ↔ Mentions nm x e := by
    refine ⟨fun hm => ?_, .separated⟩
    cases hm with
    | ref h => simp [refPath] at h
    | rep h => simp [repetition] at h
    | separated h => exact h
  cases hf : r.2.find x with
  | none =>
    rw [hf] at hx
    exact ⟨fun hm => hx.1 (minv.mp hm), fun t L ho => hx.2 _ _ (inv t L ho)⟩
  | some n =>
    rw [hf] at hx
    exact ⟨minv.mpr hx.1, hx.2.1, fun t L ho => hx.2.2 _ _ (inv t L ho)⟩

theorem good_seq {l r tr rs} (trs : List Trivia) (h : GoodAll nm ((collectSequence l r tr).map Prod.snd) rs) :
    Good nm (.seq l r tr) (.seq trs (rs.map Prod.fst), joinAll .contentI 0 [] (rs.map Prod.snd)) := by
  refine ⟨nodup_joinAll _ _ _ _ (by simp), fun x => ?_⟩
  have hfind := find_joinAll .contentI x _ h.nodup 0 [] [] rfl (by simp)
  simp only [List.nil_append] at hfind
  have inv : ∀ t L, Occs nm x (.one (.seq l r tr) t) L →
      ∃ ts, t = .seq ts ∧ OccsAll nm x ((collectSequence l r tr).map Prod.snd) ts L := by
    intro t L ho
    cases ho with
    | literal h => simp [literal] at h
    | hit h => simp [refPath] at h
    | miss h => simp [refPath] at h
    | rep h => simp [repetition] at h
    | seq h1 h2 => exact ⟨_, rfl, .cons h1 (occs_tail x r tr _ _ h2)⟩
  have minv : Mentions nm x (.seq l r tr) ↔ ∃ a ∈ (collectSequence l r tr).map Prod.snd, Mentions nm x a :=
    mentions_tail x (.seq l r tr) .none
  rw [hfind]
  cases hp : packed (wrapped Edge.contentI x 0 (rs.map Prod.snd)) with
  | none =>
    have hw := packed_none.mp hp
    refine ⟨fun hm => (wrapped_mentions _ h 0).mp hw (minv.mp hm), fun t L hoo => ?_⟩
    obtain ⟨ts, rfl, ho⟩ := inv t L hoo
    obtain ⟨vs, h1, h2⟩ := seq_eval h [] ts L ho
    simp only [List.length_nil, hw, evalAll, Option.some.injEq] at h1
    subst h1
    rw [← h2]; rfl
  | some n =>
    refine ⟨?_, packed_typed (seq_typed h trs []) hp, fun t L hoo => ?_⟩
    · refine Classical.byContradiction fun hm => ?_
      rw [(wrapped_mentions .contentI h 0).mpr (fun h' => hm (minv.mpr h'))] at hp
      simp [packed] at hp
    · obtain ⟨ts, rfl, ho⟩ := inv t L hoo
      obtain ⟨vs, h1, h2⟩ := seq_eval h [] ts L ho
      obtain ⟨v, h3, h4⟩ := packed_eval h1 hp
      exact ⟨v, h3, h4.trans h2⟩

theorem good_choice {l r rs} (h : GoodAll nm (collectChoices l r) rs) :
    Good nm (.choice l r) (.choice (rs.map Prod.fst), joinAll .choiceI 0 [] (rs.map Prod.snd)) := by
  refine ⟨nodup_joinAll _ _ _ _ (by simp), fun x => ?_⟩
  have hfind := find_joinAll .choiceI x _ h.nodup 0 [] [] rfl (by simp)
  simp only [List.nil_append] at hfind
  have inv : ∀ t L, Occs nm x (.one (.choice l r) t) L →
      ∃ j t' a, t = .choice j t' ∧ (collectChoices l r)[j]? = some a ∧ Occs nm x (.one a t') L := by
    intro t L ho
    cases ho with
    | literal h => simp [literal] at h
    | hit h => simp [refPath] at h
    | miss h => simp [refPath] at h
    | rep h => simp [repetition] at h
    | choice0 h1 => exact ⟨0, _, _, rfl, rfl, h1⟩
    | choiceS h1 =>
      obtain ⟨a, h2, h3⟩ := occs_alts x r _ _ _ h1
      exact ⟨_, _, a, rfl, by simpa [collectChoices] using h2, h3⟩
  have minv : Mentions nm x (.choice l r) ↔ ∃ a ∈ collectChoices l r, Mentions nm x a :=
    mentions_alts x (.choice l r)
  rw [hfind]
  cases hp : packed (wrapped Edge.choiceI x 0 (rs.map Prod.snd)) with
  | none =>
    have hw := packed_none.mp hp
    refine ⟨fun hm => (wrapped_mentions _ h 0).mp hw (minv.mp hm), fun t L hoo => ?_⟩
    obtain ⟨j, t', a, rfl, ha, ho⟩ := inv t L hoo
    obtain ⟨vs, h1, h2⟩ := choice_eval h t' L 0 j a ha ho
    simp only [hw, evalAll, Option.some.injEq] at h1
    subst h1
    rw [← h2]; rfl
  | some n =>
    refine ⟨?_, packed_typed (choice_typed h []) hp, fun t L hoo => ?_⟩
    · refine Classical.byContradiction fun hm => ?_
      rw [(wrapped_mentions .choiceI h 0).mpr (fun h' => hm (minv.mpr h'))] at hp
      simp [packed] at hp
    · obtain ⟨j, t', a, rfl, ha, ho⟩ := inv t L hoo
      obtain ⟨vs, h1, h2⟩ := choice_eval h t' L 0 j a ha ho
      rw [Nat.zero_add] at h1
      obtain ⟨v, h3, h4⟩ := packed_eval h1 hp
      exact ⟨v, h3, h4.trans h2⟩

/-- The accessors the generator makes for an expression are those of the references written in it. -/
theorem gen_good {params : List Name} {sys : ModSys} (hparam : ∀ x ∈ params, nm [x] = some x)
    (hres : ∀ q args r, (∀ x ∈ params, q ≠ [x]) → sys.resolve q args = some r →
      ∃ y, nm q = some y ∧ r.2 = [(y, .rule r.1)]) {item st st'} (h : GenRel params sys item st st') :
    match item with
    | .one e r => Good nm e r
    | .all l rs => GoodAll nm l rs := by
  induction h with
  | str => exact good_literal rfl
  | insens => exact good_literal rfl
  | range => exact good_literal rfl
  | param hx => exact good_arg rfl (hparam _ hx)
  | paramSlice hx => exact good_arg rfl (hparam _ hx)
  | paramCall hx => exact good_arg rfl (hparam _ hx)
  | path hq hr => obtain ⟨y, h1, h2⟩ := hres _ _ _ hq hr; exact good_ref rfl h1 h2
  | slice hq hr => obtain ⟨y, h1, h2⟩ := hres _ _ _ hq hr; exact good_ref rfl h1 h2
  | call hq _ hr => obtain ⟨y, h1, h2⟩ := hres _ _ _ hq hr; exact good_ref rfl h1 h2
  | pos _ ih => exact good_pos ih
  | neg _ _ => exact good_neg
  | seq _ ih => exact good_seq _ ih
  | choice _ ih => exact good_choice ih
  | opt _ ih => exact good_opt ih
  | rep _ ih => exact good_rep rfl rfl ih
  | repOnce _ ih => exact good_rep rfl rfl ih
  | @repRange e range r _ _ _ ih =>
    refine good_rep rfl ?_ ih
    obtain ⟨a, b⟩ := range
    cases a <;> cases b <;> rfl
  | separated _ ih => exact good_separated ih
  | nil => exact .nil
  | cons _ _ ih1 ih2 => exact .cons ih1 ih2

end

end Pest3.Gen
