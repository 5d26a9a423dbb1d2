import Verif.MetaFileShape

/-!
# The names in what is recognised
-/

namespace Pest3.Gen
open Pest3 Pest3.Load
open Pest3.Meta (MetaRule MetaRange)

/-- `P` holds of the rule and the text of all pairs in the tree. -/
inductive Deep (P : MetaRule → Text → Prop) : PTree → Prop where
  | node {r x l} : P r x → (∀ t ∈ l, Deep P t) → Deep P (.node r x l)

/-- Identifiers are such. -/
def IdentOk : MetaRule → Text → Prop := fun r x => r = .identifier → IsIdent x

theorem deep_rec {m e c c' ts} (h : MRec m e c (some (c', ts))) : ∀ t ∈ ts, Deep IdentOk t := by
  generalize hr : (some (c', ts) : Hit) = r at h
  induction h generalizing c' ts with
  | str | range | any =>
    obtain ⟨_, _, h⟩ := Option.map_eq_some_iff.1 hr.symm
    cases h
    simp
  | soi | eoi => split at hr <;> cases hr; simp
  | ref h1 ih =>
    rename_i m q c x us
    cases hr
    simp only [wrap]
    split
    · rename_i hk
      intro t ht
      rw [List.mem_singleton] at ht
      subst ht
      refine .node ?_ (ih rfl)
      intro hq
      subst hq
      cases m with
      | atomic => cases hk
      | nonAtomic =>
        obtain ⟨n, hn, _, hts⟩ := inv_identN (.ref h1)
        simp [wrap, RKind.token, metaGrammar] at hts
        rw [hts.1]; exact hn
      | compoundAtomic =>
        have h2 : MRec .nonAtomic (.ref .identifier) c (some (_, _)) := .ref h1
        obtain ⟨n, hn, _, hts⟩ := inv_identN h2
        simp [wrap, RKind.token, metaGrammar] at hts
        rw [hts.1]; exact hn
    · exact ih rfl
  | seq _ _ _ ih1 _ ih3 =>
    cases hr
    intro t ht
    rcases List.mem_append.1 ht with ht | ht
    · exact ih1 rfl t ht
    · exact ih3 rfl t ht
  | rep _ _ ih1 ih2 =>
    cases hr
    intro t ht
    rcases List.mem_append.1 ht with ht | ht
    · exact ih1 rfl t ht
    · exact ih2 rfl t ht
  | more _ _ _ _ ih2 ih3 =>
    cases hr
    intro t ht
    rcases List.mem_append.1 ht with ht | ht
    · exact ih2 rfl t ht
    · exact ih3 rfl t ht
  | choice1 _ ih => exact ih hr
  | choice2 _ _ _ ih => exact ih hr
  | optSome _ ih => exact ih hr
  | push _ ih => cases hr; exact ih rfl
  | peek | pop => obtain ⟨_, _, h⟩ := Option.map_eq_some_iff.1 hr.symm; cases h; simp
  | _ => cases hr <;> simp

theorem deep_path {q : List Name} {l : List PTree} (h : ∀ t ∈ pathTrees q ++ l, Deep IdentOk t) : ∀ x ∈ q, IsIdent x := by
  fun_induction pathTrees q with
  | case1 => simp
  | case2 x =>
    intro y hy
    rw [List.mem_singleton] at hy
    subst hy
    cases h _ List.mem_cons_self with
    | node h1 _ => exact h1 rfl
  | case3 x y rest ih =>
    intro z hz
    rcases List.mem_cons.1 hz with rfl | hz
    · cases h _ List.mem_cons_self with
      | node h1 _ => exact h1 rfl
    · exact ih (fun t ht => h t (by simp only [List.cons_append]; exact List.mem_cons_of_mem _ (List.mem_cons_of_mem _ ht))) z hz

theorem mem_commaTrees {tr : Bool} {l : List PTree} {t : PTree} (h : t ∈ l) : t ∈ commaTrees tr l := by
  fun_induction commaTrees tr l with
  | case1 => exact h
  | case2 => rw [List.mem_singleton] at h; subst h; exact List.mem_cons_self
  | case3 => exact h
  | case4 a b rest ih =>
    rcases List.mem_cons.1 h with rfl | h
    · exact List.mem_cons_self
    · exact List.mem_cons_of_mem _ (List.mem_cons_of_mem _ (ih h))

/-- The pairs of a part of an expression. -/
def WItem.trees : WItem → List PTree
  | .expr t => [t]
  | .choices ts => ts
  | .sequence ts => ts
  | .term t => [t]
  | .primary ts => ts

theorem posts_named {ps : List Post} : ∀ {e e' : Expr}, Named e → applyPosts ps e = some e' → Named e' := by
  have one : ∀ {p : Post} {e e' : Expr}, Named e → p.apply e = some e' → Named e' := by
    intro p e e' he h
    obtain ⟨sep, op⟩ := p
    have hs : Named (Post.sepApply ⟨sep, op⟩ e) := by
      cases sep with
      | none => exact he
      | some t => exact .separated he
    cases op with
    | opt => cases h; exact .opt hs
    | star => cases h; exact .rep hs
    | plus => cases h; exact .repOnce hs
    | bounds a b => obtain ⟨r, _, rfl⟩ := Option.map_eq_some_iff.mp h; exact .repRange hs
    | exact n => obtain ⟨r, _, rfl⟩ := Option.map_eq_some_iff.mp h; exact .repRange hs
  induction ps with
  | nil => intro e e' he h; cases h; exact he
  | cons p ps ih =>
    intro e e' he h
    obtain ⟨e1, h1, h2⟩ := Option.bind_eq_some_iff.mp h
    exact ih (one he h1) h2

theorem pres_named (ps : List Pre) {e : Expr} (he : Named e) : Named (applyPres ps e) := by
  induction ps with
  | nil => exact he
  | cons p ps ih =>
    cases p
    · exact .pos ih
    · exact .neg ih

theorem allOf_eq {os : List (Option Expr)} {es : List Expr} (h : allOf os = some es) : os = es.map some := by
  induction os generalizing es with
  | nil => cases h; rfl
  | cons o os ih =>
    obtain ⟨e, rfl, h⟩ := Option.bind_eq_some_iff.mp h
    obtain ⟨l, hl, rfl⟩ := Option.map_eq_some_iff.mp h
    rw [ih hl, List.map_cons]

theorem written_named {raw : RawMeaning} {i : WItem} {o : Option Expr} (h : WrittenBy raw i o) :
    (∀ t ∈ i.trees, Deep IdentOk t) → ∀ e, o = some e → Named e := by
  have inner : ∀ {r x l}, (∀ t ∈ [PTree.node r x l], Deep IdentOk t) → ∀ t ∈ l, Deep IdentOk t := by
    intro r x l h
    cases h _ List.mem_cons_self with
    | node _ h => exact h
  induction h with
  | expression _ ih => exact fun ht => ih (inner ht)
  | leading _ _ ih => exact fun ht => ih fun t h => inner ht t (List.mem_cons_of_mem _ h)
  | alternative _ ih => exact ih
  | single _ ih => exact ih
  | paren _ ih => exact fun ht => ih fun t h => ht t (by rw [List.mem_singleton.1 h]; simp [WItem.trees])
  | choice _ _ _ ih1 ih2 =>
    intro ht e h
    obtain ⟨a, ha, h⟩ := Option.bind_eq_some_iff.mp h
    obtain ⟨b, hb, rfl⟩ := Option.map_eq_some_iff.mp h
    exact .choice (ih1 (fun t h => ht t (List.mem_append_left _ h)) a ha)
      (ih2 (fun t h => ht t (List.mem_append_right _ (List.mem_cons_of_mem _ h))) b hb)
  | seq _ _ _ ih1 ih2 =>
    intro ht e h
    obtain ⟨a, ha, h⟩ := Option.bind_eq_some_iff.mp h
    obtain ⟨b, hb, rfl⟩ := Option.map_eq_some_iff.mp h
    exact .seq (ih1 (fun t h => ht t (by rw [List.mem_singleton.1 h]; exact List.mem_cons_self)) a ha)
      (ih2 (fun t h => ht t (List.mem_cons_of_mem _ (List.mem_cons_of_mem _ h))) b hb)
  | term _ _ ih =>
    intro ht e h
    obtain ⟨a, ha, h⟩ := Option.bind_eq_some_iff.mp h
    obtain ⟨b, hb, rfl⟩ := Option.map_eq_some_iff.mp h
    exact pres_named _ (posts_named (ih (fun t h => inner ht t (List.mem_append_right _ (List.mem_append_left _ h))) a ha) hb)
  | str => intro _ e h; obtain ⟨a, _, rfl⟩ := Option.map_eq_some_iff.mp h; exact .str _
  | raw => intro _ e h; cases h; exact .str _
  | insens => intro _ e h; obtain ⟨a, _, rfl⟩ := Option.map_eq_some_iff.mp h; exact .insens _
  | range =>
    intro _ e h
    obtain ⟨a, ha, h⟩ := Option.bind_eq_some_iff.mp h
    obtain ⟨b, hb, rfl⟩ := Option.map_eq_some_iff.mp h
    exact .range _ _
  | path _ => intro ht e h; cases h; exact .path (deep_path (l := []) (by rw [List.append_nil]; exact inner ht))
  | call _ hl _ ih =>
    rename_i x y q args os tr _ _
    intro ht e h
    obtain ⟨es, hes, rfl⟩ := Option.map_eq_some_iff.mp h
    have hin := inner ht
    refine .call (deep_path hin) fun a ha => ?_
    have := allOf_eq hes
    subst this
    obtain ⟨k, hk, rfl⟩ := List.getElem_of_mem ha
    have hk' : k < args.length := by rw [hl]; simpa using hk
    refine ih (args[k], some es[k]) ?_ ?_ _ rfl
    · rw [List.mem_iff_getElem]
      exact ⟨k, by simp; omega, by simp⟩
    · intro t ht
      rw [List.mem_singleton.1 ht]
      have hc := hin _ (List.mem_append_right _ List.mem_cons_self)
      cases hc with
      | node _ hc =>
        exact hc _ (List.mem_cons_of_mem _ (List.mem_append_left _ (mem_commaTrees (List.getElem_mem hk'))))
  | slice _ _ =>
    intro ht e h
    obtain ⟨r, hr, rfl⟩ := Option.map_eq_some_iff.mp h
    exact .slice (deep_path (inner ht))

end Pest3.Gen
