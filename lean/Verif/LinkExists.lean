import Verif.GenLink

/-!
# Compiled programs exist

Closed types are numbered injectively; the rule structs and the trivia aliases of a generated program then have the
meanings `Linked` asks for, if the trivia aliases are not cyclic.
-/

namespace Pest3.Gen
open Pest3

/-! ## Numbering -/

/-- The number of a list of numbers. -/
def pack : List Nat → Nat
  | [] => 0
  | a :: l => 2 ^ a * (2 * pack l + 1)

theorem pow_odd_inj {a b m n : Nat} (h : 2 ^ a * (2 * m + 1) = 2 ^ b * (2 * n + 1)) : a = b ∧ m = n := by
  induction a generalizing b with
  | zero =>
    cases b with
    | zero => simp at h; exact ⟨rfl, by omega⟩
    | succ b =>
      rw [Nat.pow_succ, Nat.mul_comm (2 ^ b) 2, Nat.mul_assoc] at h
      omega
  | succ a ih =>
    cases b with
    | zero =>
      rw [Nat.pow_succ, Nat.mul_comm (2 ^ a) 2, Nat.mul_assoc] at h
      omega
    | succ b =>
      rw [Nat.pow_succ, Nat.mul_comm (2 ^ a) 2, Nat.mul_assoc, Nat.pow_succ, Nat.mul_comm (2 ^ b) 2, Nat.mul_assoc] at h
      have := ih (b := b) (by omega)
      exact ⟨by omega, this.2⟩

theorem pack_inj {l m : List Nat} (h : pack l = pack m) : l = m := by
  induction l generalizing m with
  | nil =>
    cases m with
    | nil => rfl
    | cons b m =>
      simp only [pack] at h
      have := Nat.mul_pos (Nat.two_pow_pos b) (Nat.succ_pos (2 * pack m))
      simp only [Nat.succ_eq_add_one] at this
      omega
  | cons a l ih =>
    cases m with
    | nil =>
      simp only [pack] at h
      have := Nat.mul_pos (Nat.two_pow_pos a) (Nat.succ_pos (2 * pack l))
      simp only [Nat.succ_eq_add_one] at this
      omega
    | cons b m =>
      obtain ⟨e1, e2⟩ := pow_odd_inj h
      rw [e1, ih e2]

/-- Values are written one after another and can be read back. -/
def Readable {α : Type} (enc : α → List Nat) : Prop := ∀ a b r s, enc a ++ r = enc b ++ s → a = b ∧ r = s

theorem Readable.inj {α : Type} {enc : α → List Nat} (h : Readable enc) {a b : α} (e : enc a = enc b) : a = b :=
  (h a b [] [] (by rw [e])).1

def encChar (c : Char) : List Nat := [c.toNat]
def encInt (i : Int) : List Nat := match i with | .ofNat n => [0, n] | .negSucc n => [1, n]
def encList {α : Type} (enc : α → List Nat) : List α → List Nat
  | [] => [0]
  | a :: l => 1 :: (enc a ++ encList enc l)
def encTrivia : Trivia → List Nat | .none => [0] | .optional => [1] | .mandatory => [2]

theorem Readable.iff {α : Type} {enc : α → List Nat} (h : Readable enc) {a b : α} {r s : List Nat} :
    (enc a ++ r = enc b ++ s) = (a = b ∧ r = s) :=
  propext ⟨h a b r s, fun ⟨e1, e2⟩ => by rw [e1, e2]⟩

theorem readable_char : Readable encChar := fun a b r s h => by
  simp only [encChar, List.singleton_append, List.cons.injEq] at h
  exact ⟨Char.toNat_inj.mp h.1, h.2⟩

theorem readable_int : Readable encInt := fun a b r s h => by
  cases a <;> cases b <;> simp [encInt] at h ⊢
  · exact ⟨congrArg _ h.1, h.2⟩
  · exact h

theorem readable_trivia : Readable encTrivia := fun a b r s h => by
  cases a <;> cases b <;> simp [encTrivia] at h ⊢ <;> exact h

theorem readable_list {α : Type} {enc : α → List Nat} (hr : Readable enc) : Readable (encList enc) := by
  intro l
  induction l with
  | nil =>
    intro m r s h
    cases m with
    | nil => simpa [encList] using h
    | cons b m => simp [encList] at h
  | cons a l ih =>
    intro m r s h
    cases m with
    | nil => simp [encList] at h
    | cons b m =>
      simp only [encList, List.cons_append, List.append_assoc, List.cons.injEq, true_and] at h
      obtain ⟨e1, h1⟩ := hr _ _ _ _ h
      obtain ⟨e2, h2⟩ := ih _ _ _ h1
      exact ⟨by rw [e1, e2], h2⟩

abbrev encName : Name → List Nat := encList encChar
abbrev encPath : List Name → List Nat := encList encName
theorem readable_name : Readable encName := readable_list readable_char
theorem readable_path : Readable encPath := readable_list readable_name

def encLeaf : CLeaf → List Nat
  | .str s => 0 :: encName s
  | .insens s => 1 :: encName s
  | .range lo hi => 2 :: (encChar lo ++ encChar hi)
  | .builtin x => 3 :: encName x
  | .unicode x => 4 :: encName x
  | .slice1 x a => 5 :: (encName x ++ encInt a)
  | .slice2 x a b => 6 :: (encName x ++ (encInt a ++ encInt b))

theorem readable_leaf : Readable encLeaf := fun a b r s h => by
  cases a <;> cases b <;> simp [encLeaf, List.append_assoc, readable_name.iff, readable_char.iff, readable_int.iff] at h ⊢ <;>
    simp [h]

mutual
def encTy : CTy → List Nat
  | .leaf k => 0 :: encLeaf k
  | .push t => 1 :: encTy t
  | .positive t => 2 :: encTy t
  | .negative t => 3 :: encTy t
  | .option t => 4 :: encTy t
  | .seq fields => 5 :: encFields fields
  | .choice alts => 6 :: encTys alts
  | .rep t tr min max => 7 :: (encTy t ++ (encPath tr.1 ++ (encTrivia tr.2 ++ [min, max])))
  | .rule path name args => 8 :: (encPath path ++ (encName name ++ encTys args))
def encTys : List CTy → List Nat
  | [] => [0]
  | t :: l => 1 :: (encTy t ++ encTys l)
def encFields : List ((List Name × Trivia) × CTy) → List Nat
  | [] => [0]
  | (tr, t) :: l => 1 :: (encPath tr.1 ++ (encTrivia tr.2 ++ (encTy t ++ encFields l)))
end

section
variable {P : CTy → Prop} {PL : List CTy → Prop} {PF : List ((List Name × Trivia) × CTy) → Prop}
  (leaf : ∀ k, P (.leaf k)) (push : ∀ t, P t → P (.push t)) (positive : ∀ t, P t → P (.positive t))
  (negative : ∀ t, P t → P (.negative t)) (option : ∀ t, P t → P (.option t)) (seq : ∀ f, PF f → P (.seq f))
  (choice : ∀ l, PL l → P (.choice l)) (rep : ∀ t tr min max, P t → P (.rep t tr min max))
  (rule : ∀ p x l, PL l → P (.rule p x l)) (nil : PL []) (cons : ∀ t l, P t → PL l → PL (t :: l))
  (fnil : PF []) (fcons : ∀ tr t l, P t → PF l → PF ((tr, t) :: l))
include leaf push positive negative option seq choice rep rule nil cons fnil fcons

/-- Structural induction over closed types. -/
theorem CTy.ind : (∀ t, P t) ∧ (∀ l, PL l) := by
  have h : ∀ t, P t := fun t => CTy.rec (motive_1 := P) (motive_2 := PF) (motive_3 := PL) (motive_4 := fun a => P a.2)
    leaf push positive negative option seq choice (fun t tr min max h => rep t tr min max h)
    (fun p x l h => rule p x l h) fnil (fun a l h1 h2 => fcons a.1 a.2 l h1 h2) nil (fun t l h1 h2 => cons t l h1 h2)
    (fun _ _ h => h) t
  refine ⟨h, fun l => ?_⟩
  induction l with
  | nil => exact nil
  | cons t l ih => exact cons t l (h t) ih
end

theorem readable_ty : Readable encTy ∧ Readable encTys := by
  refine CTy.ind (P := fun a => ∀ b r s, encTy a ++ r = encTy b ++ s → a = b ∧ r = s)
    (PL := fun a => ∀ b r s, encTys a ++ r = encTys b ++ s → a = b ∧ r = s)
    (PF := fun a => ∀ b r s, encFields a ++ r = encFields b ++ s → a = b ∧ r = s)
    ?_ ?_ ?_ ?_ ?_ ?_ ?_ ?_ ?_ ?_ ?_ ?_ ?_
  · intro k b r s h
    cases b <;> simp [encTy, readable_leaf.iff] at h ⊢; exact h
  · intro t ih b r s h
    cases b <;> simp [encTy] at h ⊢; exact ih _ _ _ h
  · intro t ih b r s h
    cases b <;> simp [encTy] at h ⊢; exact ih _ _ _ h
  · intro t ih b r s h
    cases b <;> simp [encTy] at h ⊢; exact ih _ _ _ h
  · intro t ih b r s h
    cases b <;> simp [encTy] at h ⊢; exact ih _ _ _ h
  · intro t ih b r s h
    cases b <;> simp [encTy] at h ⊢; exact ih _ _ _ h
  · intro t ih b r s h
    cases b <;> simp [encTy] at h ⊢; exact ih _ _ _ h
  · intro t tr min max ih b r s h
    cases b <;> simp [encTy] at h ⊢
    obtain ⟨e, h⟩ := ih _ _ _ h
    rw [readable_path.iff, readable_trivia.iff] at h
    simp only [List.cons.injEq] at h
    exact ⟨⟨e, Prod.ext h.1 h.2.1, h.2.2.1, h.2.2.2.1⟩, h.2.2.2.2⟩
  · intro p x l ih b r s h
    cases b <;> simp [encTy] at h ⊢
    rw [readable_path.iff, readable_name.iff] at h
    obtain ⟨e1, e2, h⟩ := h
    obtain ⟨e, h⟩ := ih _ _ _ h
    exact ⟨⟨e1, e2, e⟩, h⟩
  · intro b r s h
    cases b <;> simp [encTys] at h ⊢; exact h
  · intro t l ih1 ih2 b r s h
    cases b <;> simp [encTys] at h ⊢
    obtain ⟨e1, h⟩ := ih1 _ _ _ h
    obtain ⟨e2, h⟩ := ih2 _ _ _ h
    exact ⟨⟨e1, e2⟩, h⟩
  · intro b r s h
    cases b <;> simp [encFields] at h ⊢; exact h
  · intro tr t l ih1 ih2 b r s h
    cases b with
    | nil => simp [encFields] at h
    | cons f b =>
      obtain ⟨tr', t'⟩ := f
      simp [encFields] at h ⊢
      rw [readable_path.iff, readable_trivia.iff] at h
      obtain ⟨e1, e2, h⟩ := h
      obtain ⟨e3, h⟩ := ih1 _ _ _ h
      obtain ⟨e4, h⟩ := ih2 _ _ _ h
      exact ⟨⟨⟨Prod.ext e1 e2, e3⟩, e4⟩, h⟩

/-- The number of a rule struct of a module instantiated at some types. -/
def ruleNum (path : List Name) (name : Name) (args : List CTy) : Nat :=
  pack (encPath path ++ (encName name ++ encTys args))

theorem ruleNum_inj {p q : List Name} {x y : Name} {as bs : List CTy} (h : ruleNum p x as = ruleNum q y bs) :
    p = q ∧ x = y ∧ as = bs := by
  have h := pack_inj h
  rw [readable_path.iff, readable_name.iff] at h
  exact ⟨h.1, h.2.1, readable_ty.2.inj h.2.2⟩

/-! ## Trivia aliases -/

mutual
/-- The trivia aliases written in a generated type. -/
def Ty.aliases : Ty → List Trivia
  | .str _ | .insens _ | .charRange _ _ | .param _ | .slice1 _ _ | .slice2 _ _ _ | .unicode _ => []
  | .rule _ _ args => Ty.aliasesAll args
  | .builtin _ args => Ty.aliasesAll args
  | .positive t | .negative t | .option t => t.aliases
  | .seq trivia fields => trivia ++ Ty.aliasesAll fields
  | .choice alts => Ty.aliasesAll alts
  | .rep t tr | .repOnce t tr | .repMin t tr _ | .repMax t tr _ | .repMinMax t tr _ _ => tr :: t.aliases
/-- The trivia aliases written in several types. -/
def Ty.aliasesAll : List Ty → List Trivia
  | [] => []
  | t :: rest => t.aliases ++ Ty.aliasesAll rest
end

theorem close_congr (u : Unicode) (W : List (Name × Text)) (p : List Name) {R R' : Layout} (hn : R.num = R'.num) :
    (∀ t : Ty, (∀ a ∈ t.aliases, R.triv (p, a) = R'.triv (p, a)) →
      nodeOf u R (close W p [] t) = nodeOf u R' (close W p [] t)) := by
  intro t
  refine Ty.rec
    (motive_1 := fun t => (∀ a ∈ t.aliases, R.triv (p, a) = R'.triv (p, a)) →
      nodeOf u R (close W p [] t) = nodeOf u R' (close W p [] t))
    (motive_2 := fun l => (∀ a ∈ Ty.aliasesAll l, R.triv (p, a) = R'.triv (p, a)) →
      nodesOf u R (closeAll W p [] l) = nodesOf u R' (closeAll W p [] l) ∧
      ∀ ts : List Trivia, (∀ a ∈ ts, R.triv (p, a) = R'.triv (p, a)) →
        fieldsOf u R ((ts.map fun t => (p, t)).zip (closeAll W p [] l)) =
        fieldsOf u R' ((ts.map fun t => (p, t)).zip (closeAll W p [] l)))
    ?_ ?_ ?_ ?_ ?_ ?_ ?_ ?_ ?_ ?_ ?_ ?_ ?_ ?_ ?_ ?_ ?_ ?_ ?_ ?_ ?_ t
  · intros; simp only [close, nodeOf]
  · intros; simp only [close, nodeOf]
  · intros; simp only [close, nodeOf]
  · intros; simp only [close, lookupC, Option.getD_none, nodeOf, nodesOf]
  · intros; simp only [close, nodeOf, hn]
  · intro x args ih h
    simp only [close]
    have := (ih h).1
    generalize closeAll W p [] args = l at this
    cases l with
    | nil => simp only [nodeOf]
    | cons a l =>
      cases l with
      | nil =>
        simp only [nodesOf, List.cons.injEq, and_true] at this
        simp only
        split <;> simp only [nodeOf, this]
      | cons b l => simp only [nodeOf]
  · intros; simp only [close, nodeOf]
  · intros; simp only [close, nodeOf]
  · intros; simp only [close, nodeOf]
  · intro t ih h; simp only [close, nodeOf, ih h]
  · intro t ih h; simp only [close, nodeOf, ih h]
  · intro t ih h; simp only [close, nodeOf, ih h]
  · intro ts l ih h
    simp only [Ty.aliases, List.mem_append] at h
    simp only [close, nodeOf, (ih fun a ha => h a (.inr ha)).2 ts fun a ha => h a (.inl ha)]
  · intro l ih h; simp only [close, nodeOf, (ih h).1]
  · intro t tr ih h
    simp only [Ty.aliases, List.mem_cons, forall_eq_or_imp] at h
    simp only [close, nodeOf, ih h.2, h.1]
  · intro t tr ih h
    simp only [Ty.aliases, List.mem_cons, forall_eq_or_imp] at h
    simp only [close, nodeOf, ih h.2, h.1]
  · intro t tr min ih h
    simp only [Ty.aliases, List.mem_cons, forall_eq_or_imp] at h
    simp only [close, nodeOf, ih h.2, h.1]
  · intro t tr max ih h
    simp only [Ty.aliases, List.mem_cons, forall_eq_or_imp] at h
    simp only [close, nodeOf, ih h.2, h.1]
  · intro t tr min max ih h
    simp only [Ty.aliases, List.mem_cons, forall_eq_or_imp] at h
    simp only [close, nodeOf, ih h.2, h.1]
  · intro _
    refine ⟨rfl, fun ts _ => ?_⟩
    simp [closeAll, fieldsOf]
  · intro t l ih1 ih2 h
    simp only [Ty.aliasesAll, List.mem_append] at h
    have h1 := ih1 fun a ha => h a (.inl ha)
    have h2 := ih2 fun a ha => h a (.inr ha)
    refine ⟨by simp only [closeAll, nodesOf, h1, h2.1], fun ts hts => ?_⟩
    cases ts with
    | nil => rfl
    | cons t' ts =>
      simp only [List.mem_cons, forall_eq_or_imp] at hts
      simp only [closeAll, List.map_cons, List.zip_cons_cons, fieldsOf, h1, hts.1, h2.2 ts hts.2]

/-- The trivia aliases of a module do not refer to themselves: one of them mentions neither, the other at most the
first. -/
def Acyclic (o : Output) : Prop :=
  ∃ a b : Trivia, (∀ t, t ≠ .none → t = a ∨ t = b) ∧
    (∀ ty, o.trivia a = some ty → ∀ t ∈ ty.aliases, t = .none) ∧
    (∀ ty, o.trivia b = some ty → ∀ t ∈ ty.aliases, t = .none ∨ t = a)

/-- One step of expanding aliases. -/
def expand (u : Unicode) (out : Output) (W : List (Name × Text)) (f : List Name × Trivia → Node) :
    List Name × Trivia → Node
  | (_, .none) => .leaf .empty
  | (p, t) => match outAt out p with
    | some o => match o.trivia t with
      | some ty => nodeOf u ⟨ruleNum, f⟩ (close W p [] ty)
      | none => .leaf .empty
    | none => .leaf .empty

theorem expand_fix (u : Unicode) (out : Output) (W : List (Name × Text)) {f : List Name × Trivia → Node}
    (hf : ∀ p, f (p, .none) = .leaf .empty) {p o} (ho : outAt out p = some o) (ha : Acyclic o) (t : Trivia) :
    expand u out W (expand u out W (expand u out W f)) (p, t) = expand u out W (expand u out W f) (p, t) := by
  obtain ⟨a, b, hab, h1, h2⟩ := ha
  have key : ∀ (g g' : List Name × Trivia → Node) (t : Trivia),
      (∀ ty, o.trivia t = some ty → ∀ t' ∈ ty.aliases, g (p, t') = g' (p, t')) →
      expand u out W g (p, t) = expand u out W g' (p, t) := by
    intro g g' t h
    cases t
    · rfl
    all_goals
      simp only [expand, ho]
      split
      · rename_i ty hty
        exact close_congr u W p (R := ⟨ruleNum, g⟩) (R' := ⟨ruleNum, g'⟩) rfl ty (h ty hty)
      · rfl
  have none : ∀ g g' : List Name × Trivia → Node, expand u out W g (p, .none) = expand u out W g' (p, .none) :=
    fun _ _ => rfl
  have hA : ∀ g g' : List Name × Trivia → Node,
      expand u out W (expand u out W g) (p, a) = expand u out W (expand u out W g') (p, a) := by
    intro g g'
    refine key _ _ a fun ty hty t ht => ?_
    rw [h1 ty hty t ht]; exact none _ _
  have hA' : ∀ g g' : List Name × Trivia → Node, g (p, .none) = g' (p, .none) →
      expand u out W g (p, a) = expand u out W g' (p, a) := by
    intro g g' hg
    refine key _ _ a fun ty hty t ht => ?_
    rw [h1 ty hty t ht]; exact hg
  by_cases ht : t = .none
  · subst ht; exact none _ _
  · rcases hab t ht with rfl | rfl
    · exact hA _ _
    · refine key _ _ t fun ty hty t' ht' => ?_
      rcases h2 ty hty t' ht' with rfl | rfl
      · exact none _ _
      · exact hA' _ _ (hf p).symm

/-- The layout of a generated program. -/
def layoutOf (u : Unicode) (out : Output) (W : List (Name × Text)) : Layout :=
  ⟨ruleNum, expand u out W (expand u out W fun _ => .leaf .empty)⟩

open Classical in
/-- The rule structs of a generated program. -/
noncomputable def envOf (u : Unicode) (out : Output) (W : List (Name × Text)) (n : RuleId) : RuleDef :=
  if h : ∃ d : RuleDef, ∃ p o s ts, outAt out p = some o ∧ s ∈ o.content ∧ ts.length = s.args.length ∧
    ruleNum p s.name ts = n ∧ d.body = nodeOf u (layoutOf u out W) (close W p (s.args.zip ts) s.inner) ∧ d.silent = s.silent
  then h.choose
  else ⟨0, false, .leaf .none⟩

theorem nodup_name {l : List RuleStruct} (h : (l.map RuleStruct.name).Nodup) {s s' : RuleStruct} (hs : s ∈ l)
    (hs' : s' ∈ l) (he : s.name = s'.name) : s = s' := by
  induction l with
  | nil => simp at hs
  | cons a l ih =>
    simp only [List.map_cons, List.nodup_cons, List.mem_map, not_exists, not_and] at h
    simp only [List.mem_cons] at hs hs'
    rcases hs with e1 | hs <;> rcases hs' with e2 | hs'
    · rw [e1, e2]
    · exact absurd (by rw [← he, e1]) (h.1 s' hs')
    · exact absurd (by rw [he, e2]) (h.1 s hs)
    · exact ih h.2 hs hs'

/-- A generated program whose structs have different names and whose trivia aliases are not cyclic has a meaning. -/
theorem exists_linked (u : Unicode) (out : Output) (W : List (Name × Text))
    (hd : ∀ p o, outAt out p = some o → (o.content.map RuleStruct.name).Nodup)
    (ha : ∀ p o, outAt out p = some o → Acyclic o) :
    Linked u out W (layoutOf u out W) (envOf u out W) := by
  refine ⟨?_, fun p => rfl, ?_⟩
  · intro p o s ts ho hs hl
    have h : ∃ d : RuleDef, ∃ p' o s' ts', outAt out p' = some o ∧ s' ∈ o.content ∧ ts'.length = s'.args.length ∧
        ruleNum p' s'.name ts' = ruleNum p s.name ts ∧
        d.body = nodeOf u (layoutOf u out W) (close W p' (s'.args.zip ts') s'.inner) ∧ d.silent = s'.silent :=
      ⟨⟨0, s.silent, nodeOf u (layoutOf u out W) (close W p (s.args.zip ts) s.inner)⟩, p, o, s, ts, ho, hs, hl, rfl,
        rfl, rfl⟩
    have e : envOf u out W ((layoutOf u out W).num p s.name ts) = h.choose := by
      show envOf u out W (ruleNum p s.name ts) = _
      rw [envOf, dif_pos h]
    rw [e]
    obtain ⟨p', o', s', ts', h1, h2, h3, h4, h5, h6⟩ := h.choose_spec
    obtain ⟨e1, e2, e3⟩ := ruleNum_inj h4
    subst e1 e3
    rw [ho] at h1
    simp only [Option.some.injEq] at h1
    subst h1
    have := nodup_name (hd _ _ ho) hs h2 e2.symm
    subst this
    exact ⟨h5, h6⟩
  · intro p o t ht ho
    have := expand_fix u out W (f := fun _ => .leaf .empty) (fun _ => rfl) ho (ha p o ho) t
    show expand u out W (expand u out W fun _ => .leaf .empty) (p, t) = _
    rw [← this]
    cases t
    · exact absurd rfl ht
    all_goals
      simp only [expand, ho]
      rfl

end Pest3.Gen
