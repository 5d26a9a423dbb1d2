import Verif.Graph
import Verif.GraphSpec
import Verif.AstLemmas

namespace Pest3.Gen
open Pest3 Pest3.Meta

/-! ## Equality and size -/

mutual
theorem eqb_size : ∀ {a b : Expr}, a.eqb b = true → a.size = b.size
  | .str _, b, h => by cases b <;> simp_all [Expr.eqb, Expr.size]
  | .insens _, b, h => by cases b <;> simp_all [Expr.eqb, Expr.size]
  | .range _ _, b, h => by cases b <;> simp_all [Expr.eqb, Expr.size]
  | .path _, b, h => by cases b <;> simp_all [Expr.eqb, Expr.size]
  | .slice _ _, b, h => by cases b <;> simp_all [Expr.eqb, Expr.size]
  | .call _ as, b, h => by
    cases b <;> simp [Expr.eqb] at h
    simp [Expr.size, eqbAll_size h.2]
  | .pos a, b, h => by cases b <;> simp [Expr.eqb] at h; simp [Expr.size, eqb_size h]
  | .neg a, b, h => by cases b <;> simp [Expr.eqb] at h; simp [Expr.size, eqb_size h]
  | .opt a, b, h => by cases b <;> simp [Expr.eqb] at h; simp [Expr.size, eqb_size h]
  | .rep a, b, h => by cases b <;> simp [Expr.eqb] at h; simp [Expr.size, eqb_size h]
  | .repOnce a, b, h => by cases b <;> simp [Expr.eqb] at h; simp [Expr.size, eqb_size h]
  | .repRange a _, b, h => by cases b <;> simp [Expr.eqb] at h; simp [Expr.size, eqb_size h.1]
  | .separated a _, b, h => by cases b <;> simp [Expr.eqb] at h; simp [Expr.size, eqb_size h.1]
  | .seq a a' _, b, h => by
    cases b <;> simp [Expr.eqb] at h; simp [Expr.size, eqb_size h.1.1, eqb_size h.1.2]
  | .choice a a', b, h => by
    cases b <;> simp [Expr.eqb] at h; simp [Expr.size, eqb_size h.1, eqb_size h.2]
theorem eqbAll_size : ∀ {as bs : List Expr}, eqbAll as bs = true → sizeAll as = sizeAll bs
  | [], [], _ => rfl
  | [], _ :: _, h => by simp [eqbAll] at h
  | _ :: _, [], h => by simp [eqbAll] at h
  | a :: as, b :: bs, h => by
    simp [eqbAll] at h; simp [sizeAll, eqb_size h.1, eqbAll_size h.2]
end

theorem sizeAll_append (a b : List Expr) : sizeAll (a ++ b) = sizeAll a + sizeAll b := by
  induction a with
  | nil => simp [sizeAll]
  | cons x a ih => simp only [List.cons_append, sizeAll, ih]; omega

theorem sizeAll_reverse (a : List Expr) : sizeAll a.reverse = sizeAll a := by
  induction a with
  | nil => rfl
  | cons x a ih => simp only [List.reverse_cons, sizeAll_append, ih, sizeAll]; omega

theorem size_le_sizeAll {e : Expr} {l : List Expr} (h : e ∈ l) : e.size ≤ sizeAll l := by
  induction l with
  | nil => nomatch h
  | cons x l ih =>
    simp only [sizeAll]
    rcases List.mem_cons.mp h with rfl | h
    · omega
    · have := ih h; omega

/-! ## One step of the collection -/

/-- The parts visited after `e`, in the order in which they are taken from the stack. -/
def children : Expr → List Expr
  | .str _ | .insens _ | .range _ _ | .path _ | .slice _ _ => []
  | .pos n | .neg n | .opt n | .rep n | .repOnce n => [n]
  | .repRange n _ => [n]
  | .separated n _ => [n]
  | .seq l r _ => [r, l]
  | .choice l r => [r, l]
  | .call _ args => args.reverse

theorem sub_iff_children {s e : Expr} : Sub s e ↔ s = e ∨ ∃ c ∈ children e, Sub s c := by
  constructor
  · intro h
    cases h <;> simp_all [children]
    rename_i hm h; exact .inr ⟨_, hm, h⟩
  · rintro (rfl | ⟨c, hc, h⟩)
    · exact .refl
    · cases e <;> simp [children] at hc
      case call => exact .arg hc h
      case pos => exact .pos (hc ▸ h)
      case neg => exact .neg (hc ▸ h)
      case opt => exact .opt (hc ▸ h)
      case rep => exact .rep (hc ▸ h)
      case repOnce => exact .repOnce (hc ▸ h)
      case repRange => exact .repRange (hc ▸ h)
      case separated => exact .separated (hc ▸ h)
      case seq =>
        rcases hc with rfl | rfl
        · exact .seqR h
        · exact .seqL h
      case choice =>
        rcases hc with rfl | rfl
        · exact .choiceR h
        · exact .choiceL h

theorem sizeAll_children (e : Expr) : sizeAll (children e) + 1 = e.size := by
  cases e <;> simp [children, Expr.size, sizeAll, sizeAll_reverse]
  all_goals omega

/-- What `visit` records for the node itself. -/
def Used.add (u : Used) (e : Expr) : Used := (visit e [] u).2

theorem visit_eq (e : Expr) (nodes : List Expr) (u : Used) : visit e nodes u = (children e ++ nodes, u.add e) := by
  cases e <;> simp [visit, children, Used.add]

theorem mem_add {u : Used} {e : Expr} {x : Name} : x ∈ (u.add e).names ↔ x ∈ u.names ∨ IsUse x e := by
  unfold Used.add IsUse
  cases e with
  | path p =>
    match p with
    | [] => simp [visit, Used.insertPath]
    | [y] => simp [visit, Used.insertPath, or_comm, eq_comm]
    | _ :: _ :: _ => simp [visit, Used.insertPath]
  | call p args =>
    match p with
    | [] => simp [visit, Used.insertPath]
    | [y] => simp [visit, Used.insertPath, or_comm, eq_comm]
    | _ :: _ :: _ => simp [visit, Used.insertPath]
  | slice p r =>
    match p with
    | [] => simp [visit, Used.insertPath]
    | [y] => simp [visit, Used.insertPath, or_comm, eq_comm]
    | _ :: _ :: _ => simp [visit, Used.insertPath]
  | seq l r t => cases t <;> simp [visit, Used.mark]
  | separated e t => cases t <;> simp [visit, Used.mark]
  | _ => simp [visit]

/-- The trivia operator at the top of `e` is `t`. -/
def TopTrivia (t : Trivia) (e : Expr) : Prop := (∃ l r, e = .seq l r t) ∨ ∃ e', e = .separated e' t

theorem opt_add {u : Used} {e : Expr} : (u.add e).opt = true ↔ u.opt = true ∨ TopTrivia .optional e := by
  unfold Used.add TopTrivia
  cases e with
  | path p => match p with | [] | [_] | _ :: _ :: _ => simp [visit, Used.insertPath]
  | call p args => match p with | [] | [_] | _ :: _ :: _ => simp [visit, Used.insertPath]
  | slice p r => match p with | [] | [_] | _ :: _ :: _ => simp [visit, Used.insertPath]
  | seq l r t => cases t <;> simp [visit, Used.mark]
  | separated e t => cases t <;> simp [visit, Used.mark]
  | _ => simp [visit]

theorem man_add {u : Used} {e : Expr} : (u.add e).man = true ↔ u.man = true ∨ TopTrivia .mandatory e := by
  unfold Used.add TopTrivia
  cases e with
  | path p => match p with | [] | [_] | _ :: _ :: _ => simp [visit, Used.insertPath]
  | call p args => match p with | [] | [_] | _ :: _ :: _ => simp [visit, Used.insertPath]
  | slice p r => match p with | [] | [_] | _ :: _ :: _ => simp [visit, Used.insertPath]
  | seq l r t => cases t <;> simp [visit, Used.mark]
  | separated e t => cases t <;> simp [visit, Used.mark]
  | _ => simp [visit]

theorem usesTrivia_iff {t : Trivia} {e : Expr} : UsesTrivia t e ↔ ∃ s, Sub s e ∧ TopTrivia t s := by
  constructor
  · rintro (⟨l, r, h⟩ | ⟨e', h⟩)
    · exact ⟨_, h, .inl ⟨l, r, rfl⟩⟩
    · exact ⟨_, h, .inr ⟨e', rfl⟩⟩
  · rintro ⟨s, h, ⟨l, r, rfl⟩ | ⟨e', rfl⟩⟩
    · exact .inl ⟨l, r, h⟩
    · exact .inr ⟨e', h⟩

theorem exists_sub_iff {Q : Expr → Prop} {e : Expr} :
    (∃ s, Sub s e ∧ Q s) ↔ Q e ∨ ∃ c ∈ children e, ∃ s, Sub s c ∧ Q s := by
  constructor
  · rintro ⟨s, h, hq⟩
    rcases sub_iff_children.mp h with rfl | ⟨c, hc, h⟩
    · exact .inl hq
    · exact .inr ⟨c, hc, s, h, hq⟩
  · rintro (hq | ⟨c, hc, s, h, hq⟩)
    · exact ⟨e, .refl, hq⟩
    · exact ⟨s, sub_iff_children.mpr (.inr ⟨c, hc, h⟩), hq⟩

/-! ## The loop -/

/-- `u'` is `u` plus everything found in `nodes`. -/
def Collected (nodes : List Expr) (u u' : Used) : Prop :=
  (∀ x, x ∈ u'.names ↔ x ∈ u.names ∨ ∃ n ∈ nodes, ∃ s, Sub s n ∧ IsUse x s) ∧
  (u'.opt = true ↔ u.opt = true ∨ ∃ n ∈ nodes, ∃ s, Sub s n ∧ TopTrivia .optional s) ∧
  (u'.man = true ↔ u.man = true ∨ ∃ n ∈ nodes, ∃ s, Sub s n ∧ TopTrivia .mandatory s)

private theorem regroup {A B : Prop} {Q : Expr → Prop} {ch nodes : List Expr} :
    ((A ∨ B) ∨ ∃ n ∈ ch ++ nodes, Q n) ↔ A ∨ (B ∨ ∃ c ∈ ch, Q c) ∨ ∃ n ∈ nodes, Q n := by
  constructor
  · rintro ((h | h) | ⟨n, hn, h⟩)
    · exact .inl h
    · exact .inr (.inl (.inl h))
    · rcases List.mem_append.mp hn with hn | hn
      · exact .inr (.inl (.inr ⟨n, hn, h⟩))
      · exact .inr (.inr ⟨n, hn, h⟩)
  · rintro (h | (h | ⟨n, hn, h⟩) | ⟨n, hn, h⟩)
    · exact .inl (.inl h)
    · exact .inl (.inr h)
    · exact .inr ⟨n, List.mem_append.mpr (.inl hn), h⟩
    · exact .inr ⟨n, List.mem_append.mpr (.inr hn), h⟩

theorem Collected.visit {e : Expr} {nodes : List Expr} {u u' : Used}
    (h : Collected (children e ++ nodes) (u.add e) u') : Collected (e :: nodes) u u' := by
  obtain ⟨h1, h2, h3⟩ := h
  refine ⟨fun x => ?_, ?_, ?_⟩
  · rw [h1 x, mem_add, regroup, ← exists_sub_iff]; simp
  · rw [h2, opt_add, regroup, ← exists_sub_iff]; simp
  · rw [h3, man_add, regroup, ← exists_sub_iff]; simp

theorem collectLoop_spec {root : Expr} : ∀ (fuel : Nat) (nodes : List Expr) (u : Used),
    (∀ n ∈ nodes, n.size < root.size) → sizeAll nodes ≤ fuel →
    ∃ u', collectLoop root fuel nodes u = some u' ∧ Collected nodes u u'
  | fuel, [], u, _, _ => ⟨u, by cases fuel <;> rfl, by simp [Collected]⟩
  | 0, e :: nodes, u, _, h => by
    have := sizeAll_children e
    simp only [sizeAll] at h; omega
  | fuel + 1, e :: nodes, u, hn, hf => by
    have hsz := sizeAll_children e
    have hlt : e.size < root.size := hn e (by simp)
    have hne : e.eqb root = false := by
      cases h : e.eqb root
      · rfl
      · have := eqb_size h; omega
    obtain ⟨u', h1, h2⟩ := collectLoop_spec (root := root) fuel (children e ++ nodes) (u.add e)
      (fun n hn' => by
        rcases List.mem_append.mp hn' with h | h
        · have : n.size ≤ _ := size_le_sizeAll h
          omega
        · exact hn n (by simp [h]))
      (by rw [sizeAll_append]; simp only [sizeAll] at hf; omega)
    refine ⟨u', ?_, h2.visit⟩
    rw [collectLoop, hne]
    simp only [Bool.false_eq_true, if_false, visit_eq]
    exact h1

/-- The collection always finishes and finds exactly the names and operators used. -/
theorem collectUsedInto_spec (rule : Rule) (used : List Name) :
    ∃ u, collectUsedInto rule used = some u ∧
      (∀ x, x ∈ u.names ↔ x ∈ used ∨ Refers x rule.node) ∧
      (u.opt = true ↔ UsesTrivia .optional rule.node) ∧ (u.man = true ↔ UsesTrivia .mandatory rule.node) := by
  have hsz := sizeAll_children rule.node
  obtain ⟨u, h1, h2⟩ := collectLoop_spec (root := rule.node) rule.node.size (children rule.node)
    (Used.add ⟨false, false, used⟩ rule.node)
    (fun n hn => by have := size_le_sizeAll hn; omega) (by omega)
  have h2' : Collected [rule.node] ⟨false, false, used⟩ u := Collected.visit (by simpa using h2)
  refine ⟨u, ?_, ?_, ?_, ?_⟩
  · unfold collectUsedInto; simp only [visit_eq, List.append_nil]; exact h1
  · intro x; have := h2'.1 x; simpa [Refers] using this
  · have := h2'.2.1; simpa [usesTrivia_iff] using this
  · have := h2'.2.2; simpa [usesTrivia_iff] using this

theorem definesRule_iff {rules : List Rule} {x : Name} : definesRule rules x = true ↔ Defined rules x := by
  simp [definesRule, Defined]

open Classical in
/-- `collect_used_rule`: panics exactly if an undefined trivia is used. -/
theorem collectUsedRule_spec (rule : Rule) (opt man : Bool) (res : List Name) :
    (¬ ((UsesTrivia .optional rule.node → opt = true) ∧ (UsesTrivia .mandatory rule.node → man = true)) →
      collectUsedRule rule opt man res = none) ∧
    (((UsesTrivia .optional rule.node → opt = true) ∧ (UsesTrivia .mandatory rule.node → man = true)) →
      ∃ s, collectUsedRule rule opt man res = some s ∧ ∀ x, x ∈ s ↔ x ∈ res ∨ Refers x rule.node) := by
  obtain ⟨u, hu, h1, h2, h3⟩ := collectUsedInto_spec rule res
  unfold collectUsedRule
  rw [hu]
  have key : ((u.opt && !opt) || (u.man && !man)) = true ↔
      ¬ ((UsesTrivia .optional rule.node → opt = true) ∧ (UsesTrivia .mandatory rule.node → man = true)) := by
    rw [← h2, ← h3]
    cases u.opt <;> cases u.man <;> cases opt <;> cases man <;> simp
  constructor
  · intro h; simp only [key.mpr h, if_true]
  · intro h
    have : ((u.opt && !opt) || (u.man && !man)) = false := by
      cases hh : ((u.opt && !opt) || (u.man && !man))
      · rfl
      · exact absurd h (key.mp hh)
    simp only [this]
    exact ⟨u.names, by simp, h1⟩

end Pest3.Gen
