import Verif.LinkGen
import Verif.SizeSpec

namespace Pest3.Gen
open Pest3

mutual
/-- The structs written in a generated type. -/
def Ty.refs : Ty → List (List Name × Name)
  | .str _ | .insens _ | .charRange _ _ | .param _ | .slice1 _ _ | .slice2 _ _ _ | .unicode _ => []
  | .rule mods x args => (mods, x) :: Ty.refsAll args
  | .builtin _ args => Ty.refsAll args
  | .positive t | .negative t | .option t => t.refs
  | .seq _ fields => Ty.refsAll fields
  | .choice alts => Ty.refsAll alts
  | .rep t _ | .repOnce t _ | .repMin t _ _ | .repMax t _ _ | .repMinMax t _ _ _ => t.refs
/-- The structs written in several types. -/
def Ty.refsAll : List Ty → List (List Name × Name)
  | [] => []
  | t :: rest => t.refs ++ Ty.refsAll rest
end

theorem refsAll_mem {t : List Name × Name} {l : List Ty} : t ∈ Ty.refsAll l ↔ ∃ ty ∈ l, t ∈ ty.refs := by
  induction l with
  | nil => simp [Ty.refsAll]
  | cons a l ih => simp [Ty.refsAll, ih]

theorem get_refs {n : ModNode} {path : List Name} {args : PArgs} {r : Ty × Getter} (h : n.get path args = some r) :
    ∀ t ∈ r.1.refs, t = (path.dropLast, path.getLastD []) ∨ ∃ as, args = .call as ∧ t ∈ Ty.refsAll as := by
  unfold ModNode.get at h
  dsimp only at h
  repeat' split at h
  all_goals first
    | (simp at h; done)
    | (simp only [Option.some.injEq] at h; subst h; intro t ht
       simp only [Ty.refs, Ty.refsAll, List.not_mem_nil, List.mem_cons, or_false] at ht
       try (first
         | exact .inl ht
         | exact ht.imp id fun ht => ⟨_, rfl, ht⟩
         | exact .inr ⟨_, rfl, ht⟩))

theorem Refers.sub {x : Name} {e e' : Expr} (h : Refers x e') (hs : Sub e' e) : Refers x e :=
  let ⟨s, h1, h2⟩ := h
  ⟨s, h1.trans hs, h2⟩

theorem resolve_refs {sys : ModSys} {path : List Name} {args : PArgs} {r : Ty × Getter} (h : sys.resolve path args = some r) :
    ∀ t ∈ r.1.refs, (∃ x, path = [x] ∧ t = ([], x)) ∨ t.1 ≠ [] ∨ ∃ as, args = .call as ∧ t ∈ Ty.refsAll as := by
  intro t ht
  unfold ModSys.resolve at h
  split at h
  · simp at h
  · split at h
    · simp at h
    · rename_i hp
      rcases get_refs h t ht with rfl | h
      · match path, hp with
        | [x], _ => exact .inl ⟨x, rfl, rfl⟩
        | x :: y :: l, _ => exact .inr (.inl (by simp))
      · exact .inr (.inr h)

/-- The structs in the code of an expression are in other modules, or the expression refers to them. -/
theorem gen_refs {params : List Name} {sys : ModSys} {item st st'} (h : GenRel params sys item st st') :
    match item with
    | .one e r => ∀ t ∈ r.1.refs, t.1 ≠ [] ∨ t.1 = [] ∧ Refers t.2 e
    | .all l rs => ∀ r ∈ rs, ∀ t ∈ r.1.refs, t.1 ≠ [] ∨ t.1 = [] ∧ ∃ e ∈ l, Refers t.2 e := by
  have un : ∀ {t : List Name × Name} {e e' : Expr}, Sub e' e → t.1 ≠ [] ∨ t.1 = [] ∧ Refers t.2 e' →
      t.1 ≠ [] ∨ t.1 = [] ∧ Refers t.2 e :=
    fun hs h => h.imp id fun h => ⟨h.1, h.2.sub hs⟩
  induction h with
  | str | insens | range | param | paramSlice | paramCall => intro t ht; simp [Ty.refs] at ht
  | path _ hr =>
    intro t ht
    rcases resolve_refs hr t ht with ⟨x, rfl, rfl⟩ | h | ⟨as, h, _⟩
    · exact .inr ⟨rfl, _, .refl, .inl rfl⟩
    · exact .inl h
    · simp at h
  | slice _ hr =>
    intro t ht
    rcases resolve_refs hr t ht with ⟨x, rfl, rfl⟩ | h | ⟨as, h, _⟩
    · exact .inr ⟨rfl, _, .refl, .inr (.inr ⟨_, rfl⟩)⟩
    · exact .inl h
    · simp at h
  | call _ _ hr ih =>
    intro t ht
    rcases resolve_refs hr t ht with ⟨x, rfl, rfl⟩ | h | ⟨as, h, h'⟩
    · exact .inr ⟨rfl, _, .refl, .inr (.inl ⟨_, rfl⟩)⟩
    · exact .inl h
    · injection h with h
      subst h
      rw [refsAll_mem] at h'
      obtain ⟨ty, hty, hta⟩ := h'
      obtain ⟨r, hr, rfl⟩ := List.mem_map.mp hty
      rcases ih r hr t hta with h | ⟨h0, e, he, h⟩
      · exact .inl h
      · exact .inr ⟨h0, h.sub (.arg he .refl)⟩
  | pos _ ih => intro t ht; exact un (.pos .refl) (ih t ht)
  | neg _ ih => intro t ht; exact un (.neg .refl) (ih t ht)
  | opt _ ih => intro t ht; exact un (.opt .refl) (ih t ht)
  | separated _ ih => intro t ht; exact un (.separated .refl) (ih t ht)
  | @seq l r tr rs st st' _ ih =>
    intro t ht
    simp only [Ty.refs] at ht
    rw [refsAll_mem] at ht
    obtain ⟨ty, hty, hta⟩ := ht
    obtain ⟨x, hx, rfl⟩ := List.mem_map.mp hty
    rcases ih x hx t hta with h | ⟨h0, e, he, h⟩
    · exact .inl h
    · obtain ⟨a, ha, rfl⟩ := List.mem_map.mp he
      refine .inr ⟨h0, h.sub ?_⟩
      simp only [collectSequence, List.mem_cons] at ha
      rcases ha with rfl | ha
      · exact .seqL .refl
      · exact .seqR (seqTail_uses r tr a ha).2
  | @choice l r rs st st' _ ih =>
    intro t ht
    simp only [Ty.refs] at ht
    rw [refsAll_mem] at ht
    obtain ⟨ty, hty, hta⟩ := ht
    obtain ⟨x, hx, rfl⟩ := List.mem_map.mp hty
    rcases ih x hx t hta with h | ⟨h0, e, he, h⟩
    · exact .inl h
    · simp only [collectChoices, List.mem_cons] at he
      rcases he with rfl | he
      · exact .inr ⟨h0, h.sub (.choiceL .refl)⟩
      · exact .inr ⟨h0, h.sub (.choiceR (choiceTail_part r e he))⟩
  | rep _ ih => intro t ht; exact un (.rep .refl) (ih t ht)
  | repOnce _ ih => intro t ht; exact un (.repOnce .refl) (ih t ht)
  | @repRange e range r st st' _ ih =>
    intro t ht
    refine un (.repRange .refl) (ih t ?_)
    dsimp only at ht
    split at ht <;> simpa only [Ty.refs] using ht
  | nil => intro r hr; simp at hr
  | @cons e l r rs st st' st'' _ _ ih1 ih2 =>
    intro x hx t ht
    rcases List.mem_cons.mp hx with rfl | hx
    · exact (ih1 t ht).imp id fun h => ⟨h.1, e, List.mem_cons_self, h.2⟩
    · exact (ih2 x hx t ht).imp id fun ⟨h0, e', he', h⟩ => ⟨h0, e', List.mem_cons_of_mem _ he', h⟩

theorem lookupC_mem {x : Name} {t : CTy} {σ : List (Name × CTy)} (h : lookupC x σ = some t) : ∃ y, (y, t) ∈ σ := by
  induction σ with
  | nil => simp [lookupC] at h
  | cons a σ ih =>
    obtain ⟨y, u⟩ := a
    simp only [lookupC] at h
    split at h
    · simp only [Option.some.injEq] at h; subst h; exact ⟨y, List.mem_cons_self⟩
    · obtain ⟨z, hz⟩ := ih h; exact ⟨z, List.mem_cons_of_mem _ hz⟩

section
variable {out : Output} {W : List (Name × Text)}

theorem closeAll_mem {p : List Name} {σ : List (Name × CTy)} {l : List Ty} {c : CTy} (h : c ∈ closeAll W p σ l) :
    ∃ t ∈ l, c = close W p σ t := by
  induction l with
  | nil => simp [closeAll] at h
  | cons a l ih =>
    simp only [closeAll, List.mem_cons] at h
    rcases h with rfl | h
    · exact ⟨a, List.mem_cons_self, rfl⟩
    · obtain ⟨t, ht, e⟩ := ih h; exact ⟨t, List.mem_cons_of_mem _ ht, e⟩

/-- A generated type has a size if the structs it mentions and its parameters have. -/
theorem close_size {p : List Name} {σ : List (Name × CTy)} (hσ : ∀ a ∈ σ, HasSize out W a.2) (t : Ty) :
    (∀ q ∈ t.refs, ∀ ts : List CTy, (∀ c ∈ ts, HasSize out W c) → HasSize out W (.rule (p ++ q.1) q.2 ts)) →
    HasSize out W (close W p σ t) := by
  refine Ty.rec
    (motive_1 := fun t => (∀ q ∈ t.refs, ∀ ts : List CTy, (∀ c ∈ ts, HasSize out W c) → HasSize out W (.rule (p ++ q.1) q.2 ts)) →
      HasSize out W (close W p σ t))
    (motive_2 := fun l => (∀ q ∈ Ty.refsAll l, ∀ ts : List CTy, (∀ c ∈ ts, HasSize out W c) →
      HasSize out W (.rule (p ++ q.1) q.2 ts)) → ∀ c ∈ closeAll W p σ l, HasSize out W c)
    ?_ ?_ ?_ ?_ ?_ ?_ ?_ ?_ ?_ ?_ ?_ ?_ ?_ ?_ ?_ ?_ ?_ ?_ ?_ ?_ ?_ t
  · intros; simp only [close]; exact .leaf
  · intros; simp only [close]; exact .leaf
  · intros; simp only [close]; exact .leaf
  · intro x _
    simp only [close]
    cases h : lookupC x σ with
    | none => exact .choice (by simp)
    | some c => obtain ⟨y, hy⟩ := lookupC_mem h; exact hσ _ hy
  · intro mods x args ih h
    simp only [Ty.refs, List.mem_cons, forall_eq_or_imp] at h
    simp only [close]
    exact h.1 _ (ih h.2)
  · intro x args ih h
    simp only [close]
    have := ih h
    split
    · rename_i t e
      split
      · exact .push (this t (by rw [e]; exact List.mem_cons_self))
      · exact .leaf
    · exact .leaf
  · intros; simp only [close]; exact .leaf
  · intros; simp only [close]; exact .leaf
  · intros; simp only [close]; exact .leaf
  · intro t ih h; simp only [close]; exact .positive (ih h)
  · intro t ih h; simp only [close]; exact .negative
  · intro t ih h; simp only [close]; exact .option (ih h)
  · intro ts l ih h
    simp only [close]
    exact .seq fun f hf => ih h _ (List.of_mem_zip hf).2
  · intro l ih h; simp only [close]; exact .choice (ih h)
  · intros; simp only [close]; exact .rep
  · intros; simp only [close]; exact .rep
  · intros; simp only [close]; exact .rep
  · intros; simp only [close]; exact .rep
  · intros; simp only [close]; exact .rep
  · intro _ c hc; simp [closeAll] at hc
  · intro t l ih1 ih2 h c hc
    simp only [Ty.refsAll, List.mem_append] at h
    simp only [closeAll, List.mem_cons] at hc
    rcases hc with rfl | hc
    · exact ih1 fun q hq => h q (.inl hq)
    · exact ih2 (fun q hq => h q (.inr hq)) c hc

end

/-- Every generated struct is that of a rule. -/
theorem genRules_from {cfg : Config} {reach : RefMap} {sys : ModSys} {rules o o' st st'}
    (h : GenRules cfg reach sys rules o o' st st') :
    ∀ s ∈ o'.1, s ∈ o.1 ∨ ∃ r ∈ rules, s.name = r.name ∧ s.boxed = ruleBoxed cfg.boxOnlyIfNeeded reach r ∧
      ∃ g st1 st2, GenRel r.args sys (.one r.node (s.inner, g)) st1 st2 := by
  induction h with
  | nil => exact fun s hs => .inl hs
  | opt _ _ _ ih | man _ _ _ ih =>
    intro s hs
    exact (ih s hs).imp id fun ⟨r, hr, h⟩ => ⟨r, List.mem_cons_of_mem _ hr, h⟩
  | rule _ _ hg _ ih =>
    intro s hs
    rcases ih s hs with h | ⟨r, hr, h⟩
    · rcases List.mem_append.mp h with h | h
      · exact .inl h
      · have := List.mem_singleton.mp h
        subst this
        exact .inr ⟨_, List.mem_cons_self, rfl, rfl, _, _, _, hg⟩
    · exact .inr ⟨r, List.mem_cons_of_mem _ hr, h⟩

theorem outChild_sizeOf {x : Name} {l : List (Name × Output)} {o : Output} (h : outChild x l = some o) :
    sizeOf o < sizeOf l := by
  induction l with
  | nil => simp [outChild] at h
  | cons a l ih =>
    obtain ⟨y, o'⟩ := a
    simp only [outChild] at h
    split at h
    · simp only [Option.some.injEq] at h; subst h; simp; omega
    · have := ih h; simp; omega

theorem outAt_sizeOf (q : List Name) : ∀ {o o' : Output}, outAt o q = some o' → sizeOf o' ≤ sizeOf o ∧
    (q ≠ [] → sizeOf o' < sizeOf o) := by
  induction q with
  | nil => intro o o' h; cases o; simp only [outAt, Option.some.injEq] at h; subst h; simp
  | cons x q ih =>
    intro o o' h
    cases o with
    | mk c a b mods rm =>
      simp only [outAt] at h
      split at h
      · rename_i o1 h1
        have h2 := outChild_sizeOf h1
        have h3 := (ih h).1
        simp; omega
      · simp at h

theorem outAt_append (p q : List Name) : ∀ o, outAt o (p ++ q) = (outAt o p).bind fun o => outAt o q := by
  induction p with
  | nil => intro o; cases o; simp [outAt]
  | cons x p ih =>
    intro o
    cases o with
    | mk c a b mods rm =>
      simp only [List.cons_append, outAt]
      cases outChild x mods with
      | none => rfl
      | some o => exact ih o

end Pest3.Gen
