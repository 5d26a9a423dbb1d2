import Verif.LeftSpec
import Verif.MeaningInv
import Verif.GenLink
import Verif.InlineCorrect

namespace Pest3.Gen
open Pest3

/-! ## Matches take characters from the text -/

theorem Meaning.suf_le {u : Unicode} {root : Module} {it : SItem} {c : Cfg} {o : Option Cfg} (h : Meaning u root it c o) :
    ∀ c', o = some c' → c'.suf.length ≤ c.suf.length := by
  induction h with
  | literalOk _ _ h => rintro _ ⟨⟩; simp [h]
  | builtinOk _ _ _ _ _ h => rintro _ ⟨⟩; simp [h]
  | sliceOk _ _ _ _ h => rintro _ ⟨⟩; simp [h]
  | pushOk _ _ _ ih => rintro _ ⟨⟩; simpa using ih _ rfl
  | param _ _ ih => exact ih
  | rule _ _ _ _ ih => exact ih
  | call _ _ _ _ ih => exact ih
  | posOk _ _ => rintro _ ⟨⟩; exact Nat.le_refl _
  | negOk _ _ => rintro _ ⟨⟩; exact Nat.le_refl _
  | seq _ _ _ ih1 ih2 ih3 => exact fun c' h => Nat.le_trans (Nat.le_trans (ih3 c' h) (ih2 _ rfl)) (ih1 _ rfl)
  | choiceL _ ih => exact ih
  | choiceR _ _ _ ih => exact ih
  | optSome _ ih => exact ih
  | optNone _ _ => rintro _ ⟨⟩; exact Nat.le_refl _
  | rep _ _ ih => exact ih
  | separated _ ih => exact ih
  | triviaNone => rintro _ ⟨⟩; exact Nat.le_refl _
  | triviaRule _ _ _ ih => exact ih
  | unitFirst _ ih => exact ih
  | unitNext _ _ ih1 ih2 => exact fun c' h => Nat.le_trans (ih2 c' h) (ih1 _ rfl)
  | repsMax _ => rintro _ ⟨⟩; exact Nat.le_refl _
  | repsMore _ _ _ ih1 ih2 => exact fun c' h => Nat.le_trans (ih2 c' h) (ih1 _ rfl)
  | repsStop _ _ _ _ => rintro _ ⟨⟩; exact Nat.le_refl _
  | _ => rintro _ ⟨⟩

theorem Meaning.pre_ext {u : Unicode} {root : Module} {it : SItem} {c : Cfg} {o : Option Cfg} (h : Meaning u root it c o) :
    ∀ c', o = some c' → ∃ w, c'.pre = c.pre ++ w := by
  have tr : ∀ {a b c : Cfg}, (∃ w, b.pre = a.pre ++ w) → (∃ w, c.pre = b.pre ++ w) → ∃ w, c.pre = a.pre ++ w := by
    rintro a b c ⟨w, h⟩ ⟨w', h'⟩; exact ⟨w ++ w', by rw [h', h, List.append_assoc]⟩
  induction h with
  | literalOk _ _ h => rintro _ ⟨⟩; exact ⟨_, rfl⟩
  | builtinOk _ _ _ _ _ h => rintro _ ⟨⟩; exact ⟨_, rfl⟩
  | sliceOk _ _ _ _ h => rintro _ ⟨⟩; exact ⟨_, rfl⟩
  | pushOk _ _ _ ih => rintro _ ⟨⟩; exact ⟨_, rfl⟩
  | param _ _ ih => exact ih
  | rule _ _ _ _ ih => exact ih
  | call _ _ _ _ ih => exact ih
  | posOk _ _ => rintro _ ⟨⟩; exact ⟨[], by simp⟩
  | negOk _ _ => rintro _ ⟨⟩; exact ⟨[], by simp⟩
  | seq _ _ _ ih1 ih2 ih3 => exact fun c' h => tr (tr (ih1 _ rfl) (ih2 _ rfl)) (ih3 c' h)
  | choiceL _ ih => exact ih
  | choiceR _ _ _ ih => exact ih
  | optSome _ ih => exact ih
  | optNone _ _ => rintro _ ⟨⟩; exact ⟨[], by simp⟩
  | rep _ _ ih => exact ih
  | separated _ ih => exact ih
  | triviaNone => rintro _ ⟨⟩; exact ⟨[], by simp⟩
  | triviaRule _ _ _ ih => exact ih
  | unitFirst _ ih => exact ih
  | unitNext _ _ ih1 ih2 => exact fun c' h => tr (ih1 _ rfl) (ih2 c' h)
  | repsMax _ => rintro _ ⟨⟩; exact ⟨[], by simp⟩
  | repsMore _ _ _ ih1 ih2 => exact fun c' h => tr (ih1 _ rfl) (ih2 c' h)
  | repsStop _ _ _ _ => rintro _ ⟨⟩; exact ⟨[], by simp⟩
  | _ => rintro _ ⟨⟩

/-! ## Closures that occur -/

section
variable (u : Unicode) (root : Module) (g : Assumed)

/-- The closure may match the empty text, being written in rule `r`. -/
def EmptyIn : Clo → Rule → Prop
  | .mk p _ e, r => CanBeEmpty u root g p r e

/-- Closures of expressions written in rule `r`, such that the parameters stand for closures of expressions written in rules `ctx`. -/
inductive WfClo : Clo → Rule → Prop
  | mk {p m r ρ e} (ctx : Name × Clo → Rule) : modAt root p = some m → r ∈ m.rules → Sub e r.node → ρ.map Prod.fst = r.args →
      (∀ x a, (x, a) ∈ ρ → WfClo a (ctx (x, a))) → (∀ x a, (x, a) ∈ ρ → EmptyIn u root g a (ctx (x, a)) → g.emptyArg p r.name x) → WfClo (.mk p ρ e) r

end

section
variable {u : Unicode} {root : Module} {g : Assumed}

theorem WfClo.sub {p : List Name} {ρ : List (Name × Clo)} {e e' : Expr} {r : Rule} (h : WfClo u root g (.mk p ρ e) r) (hs : Sub e' e) : WfClo u root g (.mk p ρ e') r := by
  cases h with
  | mk ctx h1 h2 h3 h4 h5 h6 => exact .mk ctx h1 h2 (hs.trans h3) h4 h5 h6

theorem WfClo.rule {p m r} (hm : modAt root p = some m) (hr : r ∈ m.rules) (ha : r.args = []) : WfClo u root g (.mk p [] r.node) r :=
  .mk (fun _ => r) hm hr .refl (by rw [ha]; rfl) (by intro x a h; cases h) (by intro x a h; cases h)

theorem lookupClo_mem {x : Name} {a : Clo} : ∀ {ρ : List (Name × Clo)}, lookupClo x ρ = some a → (x, a) ∈ ρ
  | (y, b) :: ρ, h => by
    by_cases hy : y = x
    · simp only [lookupClo, if_pos hy, Option.some.injEq] at h
      subst hy h
      exact List.mem_cons_self
    · simp only [lookupClo, if_neg hy] at h
      exact List.mem_cons_of_mem _ (lookupClo_mem h)

theorem lookupClo_keys {x : Name} : ∀ {ρ : List (Name × Clo)}, x ∈ ρ.map Prod.fst → ∃ a, lookupClo x ρ = some a
  | (y, b) :: ρ, h => by
    by_cases hy : y = x
    · exact ⟨b, by simp [lookupClo, hy]⟩
    · obtain ⟨a, ha⟩ := lookupClo_keys (x := x) (ρ := ρ) (by simpa [Ne.symm hy] using h)
      exact ⟨a, by simp [lookupClo, hy, ha]⟩

theorem lookupClo_none {x : Name} : ∀ {ρ : List (Name × Clo)}, x ∉ ρ.map Prod.fst → lookupClo x ρ = none
  | [], _ => rfl
  | (y, b) :: ρ, h => by
    rw [List.map_cons, List.mem_cons, not_or] at h
    simp [lookupClo, Ne.symm h.1, lookupClo_none h.2]

theorem mem_zip_clo {p : List Name} {ρ : List (Name × Clo)} {x : Name} {b : Clo} : ∀ {names : List Name} {args : List Expr}, (x, b) ∈ names.zip (args.map (Clo.mk p ρ)) →
    ∃ a, b = .mk p ρ a ∧ (x, a) ∈ names.zip args
  | [], _, h => by cases h
  | _ :: _, [], h => by cases h
  | n :: names, a :: args, h => by
    rw [List.map_cons, List.zip_cons_cons, List.mem_cons] at h
    rcases h with h | h
    · cases h; exact ⟨a, rfl, List.mem_cons_self⟩
    · obtain ⟨a', h1, h2⟩ := mem_zip_clo h
      exact ⟨a', h1, List.mem_cons_of_mem _ h2⟩

theorem zip_keys {p : List Name} {ρ : List (Name × Clo)} : ∀ {names : List Name} {args : List Expr}, names.length = args.length →
    (names.zip (args.map (Clo.mk p ρ))).map Prod.fst = names
  | [], [], _ => rfl
  | n :: names, a :: args, h => by
    rw [List.map_cons, List.zip_cons_cons, List.map_cons, zip_keys (by simpa using h)]

theorem findRule_in {rules : List Rule} {x : Name} {r : Rule} (h : findRule rules x = some r) : r ∈ rules := (findRule_mem h).1

/-- The body of a rule that is called. -/
theorem WfClo.call (hg : NotLeftRecursive u root g) {p : List Name} {ρ : List (Name × Clo)} {q : List Name} {args : List Expr} {r : Rule}
    (h : WfClo u root g (.mk p ρ (.call q args)) r) {p' : List Name} {r' : Rule} (ht : target u root p q = some (.rule p' r')) (hl : r'.args.length = args.length) :
    WfClo u root g (.mk p' (r'.args.zip (args.map (Clo.mk p ρ))) r'.node) r' := by
  obtain ⟨m', k1, k2, -⟩ := target_rule ht
  refine .mk (fun _ => r) k1 (findRule_in k2) .refl (zip_keys hl) ?_ ?_
  · intro x b hb
    obtain ⟨a, rfl, ha⟩ := mem_zip_clo hb
    exact h.sub (.arg (List.of_mem_zip ha).2 .refl)
  · intro x b hb he
    obtain ⟨a, rfl, ha⟩ := mem_zip_clo hb
    cases h with
    | mk ctx h1 h2 h3 => exact hg.args _ _ _ h1 h2 q args p' r' h3 ht x a ha he

/-! ## Matches of the empty text -/

/-- What a match without taking a character shows. -/
def EmptyItem (u : Unicode) (root : Module) (g : Assumed) : SItem → Prop
  | .expr a => ∀ r, WfClo u root g a r → EmptyIn u root g a r
  | .trivia _ _ => True
  | .unit a _ _ _ => ∀ r, WfClo u root g a r → EmptyIn u root g a r
  | .reps a _ _ min max i => ∀ r, WfClo u root g a r → EmptyIn u root g a r ∨ max ≤ i ∨ min ≤ i

theorem leaf_noTake {l : Leaf} {c : Cfg} {m rest : Text} {stk : List Text} (h : leafSpec l c = some (m, stk)) (hs : c.suf = m ++ rest)
    (hl : rest.length = c.suf.length) : l.mayEmpty := by
  have : m = [] := by
    rw [hs, List.length_append] at hl
    exact List.length_eq_zero_iff.mp (by omega)
  subst this
  exact leaf_empty h

theorem Meaning.empty (hg : NotLeftRecursive u root g) {it : SItem} {c : Cfg} {o : Option Cfg} (h : Meaning u root it c o) :
    ∀ c', o = some c' → c'.suf.length = c.suf.length → EmptyItem u root g it := by
  induction h with
  | literalOk h1 h2 h3 => rintro _ ⟨⟩ hl r hw; exact .literal h1 (leaf_noTake h2 h3 hl)
  | builtinOk h1 h2 h3 h4 h5 h6 => rintro _ ⟨⟩ hl r hw; exact .builtin h1 h3 h4 (leaf_noTake h5 h6 hl)
  | sliceOk h1 h2 h3 h4 h5 => rintro _ ⟨⟩ hl r hw; exact .slice
  | pushOk h1 h2 _ ih => rintro _ ⟨⟩ hl r hw; exact .push h2 (ih _ rfl hl r (hw.sub (.arg List.mem_cons_self .refl)))
  | @param p ρ x e c o h1 h2 ih =>
    intro c' hc hl r hw
    cases hw with
    | mk ctx k1 k2 k3 k4 k5 k6 =>
      have hm := lookupClo_mem h1
      refine .param ?_ (k6 x e hm (ih c' hc hl _ (k5 x e hm)))
      rw [← k4]
      exact List.mem_map_of_mem (f := Prod.fst) hm
  | rule h1 h2 h3 _ ih =>
    intro c' hc hl r hw
    obtain ⟨m', k1, k2, -⟩ := target_rule h2
    exact .rule h2 (hg.empty _ _ _ k1 (findRule_in k2) (ih c' hc hl _ (.rule k1 (findRule_in k2) h3)))
  | call h1 h2 h3 _ ih =>
    intro c' hc hl r hw
    obtain ⟨m', k1, k2, -⟩ := target_rule h2
    exact .call h2 (hg.empty _ _ _ k1 (findRule_in k2) (ih c' hc hl _ (hw.call hg h2 h3)))
  | posOk _ _ => intro c' hc hl r hw; exact .pos
  | negOk _ _ => intro c' hc hl r hw; exact .neg
  | seq h1 h2 h3 ih1 ih2 ih3 =>
    intro c' hc hl r hw
    subst hc
    have l1 := h1.suf_le _ rfl
    have l2 := h2.suf_le _ rfl
    have l3 := h3.suf_le _ rfl
    exact .seq (ih1 _ rfl (by omega) r (hw.sub (.seqL .refl))) (ih3 _ rfl (by omega) r (hw.sub (.seqR .refl)))
  | choiceL _ ih => intro c' hc hl r hw; exact .choiceL (ih c' hc hl r (hw.sub (.choiceL .refl)))
  | choiceR _ _ _ ih => intro c' hc hl r hw; exact .choiceR (ih c' hc hl r (hw.sub (.choiceR .refl)))
  | optSome _ _ => intro c' hc hl r hw; exact .opt
  | optNone _ _ => intro c' hc hl r hw; exact .opt
  | rep h1 _ ih =>
    intro c' hc hl r hw
    have hs := repetition_sub h1
    rcases ih c' hc hl r (hw.sub hs) with h | h | h
    · exact .rep h1 h
    · exact .repZero h1 (.inr (by omega))
    · exact .repZero h1 (.inl (by omega))
  | separated _ ih => intro c' hc hl r hw; exact .separated (ih c' hc hl r (hw.sub (.separated .refl)))
  | triviaNone => intros; trivial
  | triviaRule => intros; trivial
  | unitFirst _ ih => exact ih
  | unitNext h1 h2 _ ih =>
    intro c' hc hl
    subst hc
    have l1 := h1.suf_le _ rfl
    have l2 := h2.suf_le _ rfl
    exact ih _ rfl (by omega)
  | repsMax h => intro c' hc hl r hw; exact .inr (.inl h)
  | repsMore h1 h2 h3 ih1 ih2 =>
    intro c' hc hl r hw
    subst hc
    have l1 := h2.suf_le _ rfl
    have l2 := h3.suf_le _ rfl
    exact .inl (ih1 _ rfl (by omega) r hw)
  | repsStop h1 h2 h3 _ => intro c' hc hl r hw; exact .inr (.inr h3)
  | _ => rintro _ ⟨⟩

/-! ## References resolve -/

theorem lookupIn_builtin {q full : List Name} : ∀ {m : Module} {b : List Name}, lookupIn u m b q = some (.builtin full) → IsBuiltin u full := by
  induction q with
  | nil => intro m b h; cases h
  | cons x q ih =>
    intro m b h
    rw [lookupIn] at h
    split at h
    · split at h
      · rename_i hb; cases h; exact hb
      · cases h
    · exact ih h
    · split at h
      · cases hf : findRule m.rules x <;> rw [hf] at h <;> cases h
      · cases h

theorem target_builtin {p q full : List Name} (h : target u root p q = some (.builtin full)) : IsBuiltin u full := by
  rw [target] at h
  split at h
  · rename_i hb; cases h; exact hb
  · split at h
    · cases h
    · exact lookupIn_builtin h

/-- The same, seen from further up. -/
def Target.under (a : List Name) : Target → Target
  | .builtin q => .builtin q
  | .rule p r => .rule (a ++ p) r

theorem lookupIn_under (a : List Name) (q : List Name) : ∀ (m : Module) (b : List Name), lookupIn u m (a ++ b) q = (lookupIn u m b q).map (Target.under a) := by
  induction q with
  | nil => intro m b; simp [lookupIn]
  | cons x q ih =>
    intro m b
    rw [lookupIn, lookupIn]
    cases m.imports.find? (fun i => i.name = x) with
    | none =>
      dsimp only
      by_cases hx : q = [] ∧ x ≠ optName ∧ x ≠ manName
      · simp only [if_pos hx]
        cases findRule m.rules x <;> rfl
      · simp only [if_neg hx]; rfl
    | some i => cases i with
      | builtin y src =>
        dsimp only
        by_cases hx : IsBuiltin u (src ++ q)
        · simp only [if_pos hx]; rfl
        · simp only [if_neg hx]; rfl
      | file y m' =>
        dsimp only
        rw [List.append_assoc, ih]

theorem target_under {p q : List Name} {m : Module} (hm : modAt root p = some m) {t : Target} (h : target u m [] q = some t) : target u root p q = some (t.under p) := by
  unfold target at h ⊢
  by_cases hb : IsBuiltin u q
  · rw [if_pos hb] at h ⊢
    cases h
    rfl
  · rw [if_neg hb] at h ⊢
    simp only [modAt] at h
    rw [hm]
    have := lookupIn_under (u := u) p q m []
    rw [List.append_nil] at this
    dsimp only
    rw [this, h]
    rfl

/-! ## Totality -/

/-- There is a result wherever `n` characters are left. -/
def Tot (u : Unicode) (root : Module) (n : Nat) (a : Clo) : Prop := ∀ c : Cfg, c.suf.length = n → ∃ o, Meaning u root (.expr a) c o

/-- … for rules, if there is one for the parameters that may be tried first. -/
def RuleTot (u : Unicode) (root : Module) (g : Assumed) (n : Nat) (p : List Name) (x : Name) : Prop := ∀ m r, modAt root p = some m → r ∈ m.rules → r.name = x → ∀ ρ,
  WfClo u root g (.mk p ρ r.node) r → (∀ y b, MayStart u root g p r r.node (.param y) → lookupClo y ρ = some b → Tot u root n b) → Tot u root n (.mk p ρ r.node)

theorem leafOut_total (l : Leaf) (c : Cfg) : ∃ o, leafOut l c o := by
  cases h : leafSpec l c with
  | none => exact ⟨none, .inr ⟨h, rfl⟩⟩
  | some x =>
    obtain ⟨m, stk⟩ := x
    obtain ⟨rest, hr⟩ := leafSpec_prefix h
    exact ⟨_, .inl ⟨m, stk, rest, h, hr, rfl⟩⟩

section
variable {n : Nat} (hn : AllNamed u root) (hsc : AllScoped u root) (hlt : ∀ k, k < n → ∀ a r, WfClo u root g a r → Tot u root k a)
include hn hsc hlt

theorem trivia_total {p : List Name} {m : Module} {r : Rule} (hm : modAt root p = some m) (hr : r ∈ m.rules) {t : Trivia} (ht : t = .none ∨ UsesTrivia t r.node) (c : Cfg)
    (hc : c.suf.length ≤ n) (hR : c.suf.length = n → ∀ x, triviaName t = some x → RuleTot u root g n p x) : ∃ o, Meaning u root (.trivia p t) c o := by
  have main : ∀ x, triviaName t = some x → Defined m.rules x → x = optName ∨ x = manName → (∀ f, triviaRule m t = some f ↔ findRule m.rules x = some f) →
      ∃ o, Meaning u root (.trivia p t) c o := by
    intro x hx hd hor hf
    obtain ⟨f0, hf0, hfx⟩ := hd
    obtain ⟨f, hfind⟩ : ∃ f, findRule m.rules x = some f := by
      cases h : findRule m.rules x with
      | some f => exact ⟨f, rfl⟩
      | none =>
        exfalso
        have := List.find?_eq_none.mp h f0 hf0
        simp [hfx] at this
    have hfm := findRule_mem hfind
    have hargs : f.args = [] := (hn m (modAt_in p hm)).trivia f hfm.1 (hfm.2 ▸ hor)
    have hw : WfClo u root g (.mk p [] f.node) f := .rule hm hfm.1 hargs
    have : ∃ o, Meaning u root (.expr (.mk p [] f.node)) c o := by
      rcases Nat.lt_or_ge c.suf.length n with h | h
      · exact hlt _ h _ _ hw c rfl
      · have hcn : c.suf.length = n := by omega
        exact hR hcn x hx m f hm hfm.1 hfm.2 [] hw (by intro y b _ h; cases h) c hcn
    obtain ⟨o, ho⟩ := this
    exact ⟨o, .triviaRule hm ((hf f).mpr hfind) ho⟩
  rcases ht with rfl | ht
  · exact ⟨_, .triviaNone⟩
  · have hd := (hsc m (modAt_in p hm)).trivia r hr
    cases t with
    | none => exact ⟨_, .triviaNone⟩
    | optional => exact main optName rfl (hd.1 ht) (.inl rfl) fun f => .rfl
    | mandatory => exact main manName rfl (hd.2 ht) (.inr rfl) fun f => .rfl

theorem reps_total (hg : NotLeftRecursive u root g) {p : List Name} {m : Module} {r : Rule} {ρ : List (Name × Clo)} {e : Expr} (hm : modAt root p = some m) (hr : r ∈ m.rules)
    (hw : WfClo u root g (.mk p ρ e) r) (he : Tot u root n (.mk p ρ e))
    (hR : CanBeEmpty u root g p r e → ∀ x, triviaName (sepTrivia e) = some x → RuleTot u root g n p x) (min max : Nat) :
    ∀ k i c, max ≤ i + k → c.suf.length ≤ n → (i ≠ 0 → c.suf.length = n → CanBeEmpty u root g p r e) →
      ∃ o, Meaning u root (.reps (.mk p ρ e) p (sepTrivia e) min max i) c o := by
  have hex : ∀ c : Cfg, c.suf.length ≤ n → ∃ o, Meaning u root (.expr (.mk p ρ e)) c o := by
    intro c hc
    rcases Nat.lt_or_ge c.suf.length n with h | h
    · exact hlt _ h _ _ hw c rfl
    · exact he c (by omega)
  have ht : sepTrivia e = .none ∨ UsesTrivia (sepTrivia e) r.node := by
    cases hw with
    | mk ctx h1 h2 h3 =>
      cases e <;> first | exact .inl rfl | exact .inr (.inr ⟨_, h3⟩)
  intro k
  induction k with
  | zero => intro i c hi _ _; exact ⟨_, .repsMax (by omega)⟩
  | succ k ih =>
    intro i c hi hc hcan
    rcases Nat.lt_or_ge i max with hlt' | hge
    · have hu : ∃ o, Meaning u root (.unit (.mk p ρ e) p (sepTrivia e) i) c o := by
        cases i with
        | zero =>
          obtain ⟨o, h⟩ := hex c hc
          exact ⟨o, .unitFirst h⟩
        | succ i =>
          obtain ⟨o, h⟩ := trivia_total hn hsc hlt hm hr ht c hc fun hcn x hx => hR (hcan (by omega) hcn) x hx
          cases o with
          | none => exact ⟨none, .unitTriviaFail h⟩
          | some c1 =>
            obtain ⟨o, h'⟩ := hex c1 (Nat.le_trans (h.suf_le _ rfl) hc)
            exact ⟨o, .unitNext h h'⟩
      obtain ⟨o, hu⟩ := hu
      cases o with
      | none =>
        rcases Nat.lt_or_ge i min with h | h
        · exact ⟨_, .repsFew hlt' hu h⟩
        · exact ⟨_, .repsStop hlt' hu h⟩
      | some c1 =>
        have l1 := hu.suf_le _ rfl
        obtain ⟨o, h'⟩ := ih (i + 1) c1 (by omega) (by omega) fun _ hcn => hu.empty hg _ rfl (by omega) r hw
        exact ⟨o, .repsMore hlt' hu h'⟩
    · exact ⟨_, .repsMax hge⟩

theorem expr_total (hg : NotLeftRecursive u root g) {p : List Name} {r : Rule} {ρ : List (Name × Clo)} : ∀ (e : Expr), WfClo u root g (.mk p ρ e) r →
    (∀ p' x, MayStart u root g p r e (.rule p' x) → RuleTot u root g n p' x) → (∀ y b, MayStart u root g p r e (.param y) → lookupClo y ρ = some b → Tot u root n b) →
    Tot u root n (.mk p ρ e) := by
  have lit : ∀ e l, literal e = some l → Tot u root n (.mk p ρ e) := by
    intro e l hl c hc
    obtain ⟨o, h⟩ := leafOut_total l c
    exact ⟨o, (m_literal hl).mpr h⟩
  have hrep : ∀ e e' min max, repetition e = some (e', min, max) → WfClo u root g (.mk p ρ e) r →
      (∀ p' x, MayStart u root g p r e (.rule p' x) → RuleTot u root g n p' x) → Tot u root n (.mk p ρ e') → Tot u root n (.mk p ρ e) := by
    intro e e' min max hrep hw hR he c hc
    have hw' := hw.sub (repetition_sub hrep)
    cases hw with
    | mk ctx h1 h2 h3 =>
      obtain ⟨o, h⟩ := reps_total hn hsc hlt hg h1 h2 hw' he (fun hcan x hx => hR _ _ (.repTrivia hrep hcan hx)) min max max 0 c (by omega) (by omega) (fun h => absurd rfl h)
      exact ⟨o, .rep hrep h⟩
  have wf : ∀ {e : Expr}, WfClo u root g (.mk p ρ e) r → ∃ m, modAt root p = some m ∧ r ∈ m.rules ∧ Sub e r.node ∧ ρ.map Prod.fst = r.args := by
    intro e hw
    cases hw with
    | mk ctx h1 h2 h3 h4 => exact ⟨_, h1, h2, h3, h4⟩
  intro e
  induction e using Expr.ind with
  | str s => intro hw hR hP; exact lit _ _ rfl
  | insens s => intro hw hR hP; exact lit _ _ rfl
  | range lo hi => intro hw hR hP; exact lit _ _ rfl
  | path q =>
    intro hw hR hP c hc
    obtain ⟨m, h1, h2, h3, h4⟩ := wf hw
    by_cases hpar : ∃ x ∈ r.args, q = [x]
    · obtain ⟨x, hx, rfl⟩ := hpar
      obtain ⟨b, hb⟩ := lookupClo_keys (h4.symm ▸ hx)
      obtain ⟨o, h⟩ := hP x b (.param hx) hb c hc
      exact ⟨o, .param hb h⟩
    · have hnp : NotParam ρ q := fun x hx => lookupClo_none fun h => hpar ⟨x, h4 ▸ h, hx⟩
      rcases ((hsc m (modAt_in p h1)).refs r h2).path q h3 with h | ⟨-, ⟨full, l, ht, hl⟩ | ⟨p', r', ht, ha⟩⟩
      · exact absurd h hpar
      · have ht := target_under h1 ht
        obtain ⟨o, h⟩ := leafOut_total l c
        exact ⟨o, m_path.mpr (.inr ⟨hnp, .inl ⟨full, l, ht, hl, h⟩⟩)⟩
      · have ht := target_under h1 ht
        obtain ⟨m', k1, k2, -⟩ := target_rule ht
        obtain ⟨o, h⟩ := hR _ _ (.rule ht) m' r' k1 (findRule_in k2) rfl [] (.rule k1 (findRule_in k2) ha) (by intro y b _ h; cases h) c hc
        exact ⟨o, .rule hnp ht ha h⟩
  | call q args ih =>
    intro hw hR hP c hc
    obtain ⟨m, h1, h2, h3, h4⟩ := wf hw
    have hnp : NotParam ρ q := by
      intro x hx
      subst hx
      refine lookupClo_none fun h => ?_
      rw [h4] at h
      exact ((hn m (modAt_in p h1)).plain r h2 x h).1 args h3
    rcases ((hsc m (modAt_in p h1)).refs r h2).call q args h3 with ⟨-, ⟨ht, hlen⟩ | ⟨x, ht, hlen⟩ | ⟨p', r', ht, hlen⟩⟩
    · have ht := target_under h1 ht
      obtain ⟨a, rfl⟩ : ∃ a, args = [a] := List.length_eq_one_iff.mp hlen
      obtain ⟨o, h⟩ := ih a List.mem_cons_self (hw.sub (.arg List.mem_cons_self .refl)) (fun p' x h => hR p' x (.push ht h)) (fun y b h => hP y b (.push ht h)) c hc
      cases o with
      | none => exact ⟨none, .pushFail hnp ht h⟩
      | some c' =>
        obtain ⟨w, e1⟩ := h.pre_ext _ rfl
        obtain ⟨pre, suf, stk⟩ := c'
        dsimp only at e1
        subst e1
        exact ⟨_, .pushOk hnp ht h⟩
    · have ht := target_under h1 ht
      obtain rfl : args = [] := List.length_eq_zero_iff.mp hlen
      have hb : (builtinLeaf u ["pest".toList, "unicode".toList, x]).isSome := by
        rcases target_builtin ht with h | h
        · exact h
        · revert h; simp [pushPath]
      obtain ⟨l, hl⟩ := Option.isSome_iff_exists.mp hb
      obtain ⟨o, h⟩ := leafOut_total l c
      exact ⟨o, m_call.mpr ⟨hnp, .inl ⟨_, l, rfl, ht, hl, h⟩⟩⟩
    · have ht := target_under h1 ht
      obtain ⟨m', k1, k2, -⟩ := target_rule ht
      obtain ⟨o, h⟩ := hR _ _ (.call ht) m' r' k1 (findRule_in k2) rfl _ (hw.call hg ht hlen) (by
        intro y b hy hb
        obtain ⟨a, rfl, ha⟩ := mem_zip_clo (lookupClo_mem hb)
        have hf := hg.first _ _ _ k1 (findRule_in k2) y hy
        exact ih a (List.of_mem_zip ha).2 (hw.sub (.arg (List.of_mem_zip ha).2 .refl)) (fun p' x h => hR p' x (.arg ht ha hf h))
          (fun z b h => hP z b (.arg ht ha hf h))) c hc
      exact ⟨o, .call hnp ht hlen h⟩
  | slice q range =>
    intro hw hR hP c hc
    obtain ⟨m, h1, h2, h3, h4⟩ := wf hw
    have hnp : NotParam ρ q := by
      intro x hx
      subst hx
      refine lookupClo_none fun h => ?_
      rw [h4] at h
      exact ((hn m (modAt_in p h1)).plain r h2 x h).2 range h3
    have ht := target_under h1 (((hsc m (modAt_in p h1)).refs r h2).slice q range h3).2
    obtain ⟨o, h⟩ := leafOut_total _ c
    exact ⟨o, m_slice.mpr ⟨hnp, ht, h⟩⟩
  | pos e ih =>
    intro hw hR hP c hc
    obtain ⟨o, h⟩ := ih (hw.sub (.pos .refl)) (fun p' x h => hR p' x (.pos h)) (fun y b h => hP y b (.pos h)) c hc
    cases o with
    | none => exact ⟨_, .posFail h⟩
    | some c' => exact ⟨_, .posOk h⟩
  | neg e ih =>
    intro hw hR hP c hc
    obtain ⟨o, h⟩ := ih (hw.sub (.neg .refl)) (fun p' x h => hR p' x (.neg h)) (fun y b h => hP y b (.neg h)) c hc
    cases o with
    | none => exact ⟨_, .negOk h⟩
    | some c' => exact ⟨_, .negFail h⟩
  | seq l r' t ihl ihr =>
    intro hw hR hP c hc
    obtain ⟨m, h1, h2, h3, h4⟩ := wf hw
    obtain ⟨o, h⟩ := ihl (hw.sub (.seqL .refl)) (fun p' x h => hR p' x (.seqL h)) (fun y b h => hP y b (.seqL h)) c hc
    cases o with
    | none => exact ⟨_, .seqFail h⟩
    | some c1 =>
      have l1 := h.suf_le _ rfl
      have hcan : c1.suf.length = n → CanBeEmpty u root g p r l := fun hl => h.empty hg _ rfl (by omega) r (hw.sub (.seqL .refl))
      obtain ⟨o, k⟩ := trivia_total hn hsc hlt h1 h2 (t := t) (.inr (.inl ⟨_, _, h3⟩)) c1 (by omega) (fun hl x hx => hR _ _ (.seqTrivia (hcan hl) hx))
      cases o with
      | none => exact ⟨_, .seqTriviaFail h k⟩
      | some c2 =>
        have l2 := k.suf_le _ rfl
        have : ∃ o, Meaning u root (.expr (.mk p ρ r')) c2 o := by
          rcases Nat.lt_or_ge c2.suf.length n with h | h
          · exact hlt _ h _ _ (hw.sub (.seqR .refl)) c2 rfl
          · have hl := hcan (by omega)
            exact ihr (hw.sub (.seqR .refl)) (fun p' x h => hR p' x (.seqR hl h)) (fun y b h => hP y b (.seqR hl h)) c2 (by omega)
        obtain ⟨o, k'⟩ := this
        exact ⟨o, .seq h k k'⟩
  | choice l r' ihl ihr =>
    intro hw hR hP c hc
    obtain ⟨o, h⟩ := ihl (hw.sub (.choiceL .refl)) (fun p' x h => hR p' x (.choiceL h)) (fun y b h => hP y b (.choiceL h)) c hc
    cases o with
    | some c' => exact ⟨_, .choiceL h⟩
    | none =>
      obtain ⟨o, h'⟩ := ihr (hw.sub (.choiceR .refl)) (fun p' x h => hR p' x (.choiceR h)) (fun y b h => hP y b (.choiceR h)) c hc
      exact ⟨o, .choiceR h h'⟩
  | opt e ih =>
    intro hw hR hP c hc
    obtain ⟨o, h⟩ := ih (hw.sub (.opt .refl)) (fun p' x h => hR p' x (.opt h)) (fun y b h => hP y b (.opt h)) c hc
    cases o with
    | none => exact ⟨_, .optNone h⟩
    | some c' => exact ⟨_, .optSome h⟩
  | rep e ih =>
    intro hw hR hP
    exact hrep _ e _ _ rfl hw hR (ih (hw.sub (.rep .refl)) (fun p' x h => hR p' x (.rep rfl h)) (fun y b h => hP y b (.rep rfl h)))
  | repOnce e ih =>
    intro hw hR hP
    exact hrep _ e _ _ rfl hw hR (ih (hw.sub (.repOnce .refl)) (fun p' x h => hR p' x (.rep rfl h)) (fun y b h => hP y b (.rep rfl h)))
  | repRange e b ih =>
    intro hw hR hP
    exact hrep _ e _ _ rfl hw hR (ih (hw.sub (.repRange .refl)) (fun p' x h => hR p' x (.rep rfl h)) (fun y b h => hP y b (.rep rfl h)))
  | separated e t ih =>
    intro hw hR hP c hc
    obtain ⟨o, h⟩ := ih (hw.sub (.separated .refl)) (fun p' x h => hR p' x (.separated h)) (fun y b h => hP y b (.separated h)) c hc
    exact ⟨o, .separated h⟩

theorem rule_total (hg : NotLeftRecursive u root g) : ∀ k p x, g.rank p x ≤ k → RuleTot u root g n p x := by
  intro k
  induction k with
  | zero =>
    intro p x hk m r hm hr hx ρ hw hP
    exact expr_total hn hsc hlt hg r.node hw (fun p' y h => by have := hg.rank p m r hm hr p' y h; rw [hx] at this; omega) hP
  | succ k ih =>
    intro p x hk m r hm hr hx ρ hw hP
    exact expr_total hn hsc hlt hg r.node hw (fun p' y h => ih p' y (by have := hg.rank p m r hm hr p' y h; rw [hx] at this; omega)) hP

theorem clo_total (hg : NotLeftRecursive u root g) {a : Clo} {r : Rule} (hw : WfClo u root g a r) : Tot u root n a := by
  induction hw with
  | @mk p m r ρ e ctx h1 h2 h3 h4 h5 h6 ih =>
    exact expr_total hn hsc hlt hg e (.mk ctx h1 h2 h3 h4 h5 h6) (fun p' x _ => rule_total hn hsc hlt hg _ p' x (Nat.le_refl _)) (fun y b _ hb => ih y b (lookupClo_mem hb))

end

/-- Without left recursion there always is a result. -/
theorem total (hn : AllNamed u root) (hsc : AllScoped u root) (hg : NotLeftRecursive u root g) : ∀ n a r, WfClo u root g a r → Tot u root n a := by
  intro n
  induction n using Nat.strongRecOn with
  | _ n ih => exact fun a r hw => clo_total hn hsc ih hg hw

/-! ## Left recursion -/

/-- The item first tries one of the rules. -/
def LoopsFirst (u : Unicode) (root : Module) (among : List Name → Name → Prop) : SItem → Prop
  | .expr (.mk p ρ e) => ∃ p' x, among p' x ∧ Leads u root p (ρ.map Prod.fst) e p' x
  | .reps (.mk p ρ e) _ _ _ max i => i = 0 ∧ max ≠ 0 ∧ ∃ p' x, among p' x ∧ Leads u root p (ρ.map Prod.fst) e p' x
  | .unit (.mk p ρ e) _ _ i => i = 0 ∧ ∃ p' x, among p' x ∧ Leads u root p (ρ.map Prod.fst) e p' x
  | .trivia _ _ => False

theorem lookupClo_key {x : Name} {a : Clo} {ρ : List (Name × Clo)} (h : lookupClo x ρ = some a) : x ∈ ρ.map Prod.fst :=
  List.mem_map_of_mem (f := Prod.fst) (lookupClo_mem h)

theorem LoopsFirst.none {among : List Name → Name → Prop} (hl : LeftRecursive u root among) {it : SItem} {c : Cfg} {o : Option Cfg} (h : Meaning u root it c o) :
    ¬ LoopsFirst u root among it := by
  have body : ∀ {p q p' r ρ}, target u root p q = some (.rule p' r) → among p' r.name → ρ.map Prod.fst = r.args → LoopsFirst u root among (.expr (.mk p' ρ r.node)) := by
    intro p q p' r ρ ht ha hk
    obtain ⟨m, h1, h2, -⟩ := target_rule ht
    rw [LoopsFirst, hk]
    exact hl p' m r.name r ha h1 h2
  have noLit : ∀ {p ps e l p' x}, literal e = some l → ¬ Leads u root p ps e p' x := by
    intro p ps e l p' x h hd
    cases e <;> first | (cases h; done) | (cases hd with | rep h' => cases h')
  have noRef : ∀ {p ps e q full p' x}, plainRef e = some q → target u root p q = some (.builtin full) → ¬ Leads u root p ps e p' x := by
    intro p ps e q full p' x h ht hd
    cases e with
    | path => cases h; cases hd with
      | rule _ h' => rw [h'] at ht; cases ht
      | rep h' => cases h'
    | call q' args =>
      cases args with
      | cons => cases h
      | nil => cases h; cases hd with
        | call h' => rw [h'] at ht; cases ht
        | rep h' => cases h'
    | _ => cases h
  have noSlice : ∀ {p ps q range p' x}, ¬ Leads u root p ps (.slice q range) p' x := by
    intro p ps q range p' x hd
    cases hd with | rep h' => cases h'
  have push : ∀ {p ps q e p' x}, target u root p q = some (.builtin pushPath) → Leads u root p ps (.call q [e]) p' x → Leads u root p ps e p' x := by
    intro p ps q e p' x ht hd
    cases hd with
    | call h' => rw [h'] at ht; cases ht
    | push _ h => exact h
    | rep h' => cases h'
  have pos : ∀ {p ps e p' x}, Leads u root p ps (.pos e) p' x → Leads u root p ps e p' x := by
    intro p ps e p' x hd
    cases hd with
    | pos h => exact h
    | rep h' => cases h'
  have neg : ∀ {p ps e p' x}, Leads u root p ps (.neg e) p' x → Leads u root p ps e p' x := by
    intro p ps e p' x hd
    cases hd with
    | neg h => exact h
    | rep h' => cases h'
  have opt : ∀ {p ps e p' x}, Leads u root p ps (.opt e) p' x → Leads u root p ps e p' x := by
    intro p ps e p' x hd
    cases hd with
    | opt h => exact h
    | rep h' => cases h'
  have seq : ∀ {p ps l r t p' x}, Leads u root p ps (.seq l r t) p' x → Leads u root p ps l p' x := by
    intro p ps l r t p' x hd
    cases hd with
    | seq h => exact h
    | rep h' => cases h'
  have choice : ∀ {p ps l r p' x}, Leads u root p ps (.choice l r) p' x → Leads u root p ps l p' x := by
    intro p ps l r p' x hd
    cases hd with
    | choice h => exact h
    | rep h' => cases h'
  have sep : ∀ {p ps e t p' x}, Leads u root p ps (.separated e t) p' x → Leads u root p ps e p' x := by
    intro p ps e t p' x hd
    cases hd with
    | separated h => exact h
    | rep h' => cases h'
  have rep : ∀ {p ps e e' min max p' x}, repetition e = some (e', min, max) → Leads u root p ps e p' x → max ≠ 0 ∧ Leads u root p ps e' p' x := by
    intro p ps e e' min max p' x h hd
    cases hd with
    | rep h' h1 h2 => rw [h'] at h; cases h; exact ⟨h1, h2⟩
    | _ => cases h
  induction h with
  | literalOk h1 => rintro ⟨p', x, ha, hd⟩; exact noLit h1 hd
  | literalFail h1 => rintro ⟨p', x, ha, hd⟩; exact noLit h1 hd
  | builtinOk h1 _ h2 => rintro ⟨p', x, ha, hd⟩; exact noRef h1 h2 hd
  | builtinFail h1 _ h2 => rintro ⟨p', x, ha, hd⟩; exact noRef h1 h2 hd
  | sliceOk => rintro ⟨p', x, ha, hd⟩; exact noSlice hd
  | sliceFail => rintro ⟨p', x, ha, hd⟩; exact noSlice hd
  | pushOk _ ht _ ih => rintro ⟨p', x, ha, hd⟩; exact ih ⟨p', x, ha, push ht hd⟩
  | pushFail _ ht _ ih => rintro ⟨p', x, ha, hd⟩; exact ih ⟨p', x, ha, push ht hd⟩
  | param h _ _ =>
    rintro ⟨p', x, ha, hd⟩
    cases hd with
    | rule h1 => exact h1 _ (lookupClo_key h) rfl
    | rep h' => cases h'
  | rule _ ht hr _ ih =>
    rintro ⟨p', x, ha, hd⟩
    cases hd with
    | rule _ h' => rw [h'] at ht; cases ht; exact ih (body h' ha hr.symm)
    | rep h' => cases h'
  | call _ ht hr _ ih =>
    rintro ⟨p', x, ha, hd⟩
    cases hd with
    | call h' => rw [h'] at ht; cases ht; exact ih (body h' ha (zip_keys hr))
    | push h' => rw [h'] at ht; cases ht
    | rep h' => cases h'
  | posOk _ ih => rintro ⟨p', x, ha, hd⟩; exact ih ⟨p', x, ha, pos hd⟩
  | posFail _ ih => rintro ⟨p', x, ha, hd⟩; exact ih ⟨p', x, ha, pos hd⟩
  | negOk _ ih => rintro ⟨p', x, ha, hd⟩; exact ih ⟨p', x, ha, neg hd⟩
  | negFail _ ih => rintro ⟨p', x, ha, hd⟩; exact ih ⟨p', x, ha, neg hd⟩
  | seq _ _ _ ih => rintro ⟨p', x, ha, hd⟩; exact ih ⟨p', x, ha, seq hd⟩
  | seqFail _ ih => rintro ⟨p', x, ha, hd⟩; exact ih ⟨p', x, ha, seq hd⟩
  | seqTriviaFail _ _ ih => rintro ⟨p', x, ha, hd⟩; exact ih ⟨p', x, ha, seq hd⟩
  | choiceL _ ih => rintro ⟨p', x, ha, hd⟩; exact ih ⟨p', x, ha, choice hd⟩
  | choiceR _ _ ih => rintro ⟨p', x, ha, hd⟩; exact ih ⟨p', x, ha, choice hd⟩
  | optSome _ ih => rintro ⟨p', x, ha, hd⟩; exact ih ⟨p', x, ha, opt hd⟩
  | optNone _ ih => rintro ⟨p', x, ha, hd⟩; exact ih ⟨p', x, ha, opt hd⟩
  | rep h1 _ ih => rintro ⟨p', x, ha, hd⟩; exact ih ⟨rfl, (rep h1 hd).1, p', x, ha, (rep h1 hd).2⟩
  | separated _ ih => rintro ⟨p', x, ha, hd⟩; exact ih ⟨p', x, ha, sep hd⟩
  | triviaNone => exact id
  | triviaRule _ _ _ _ => exact id
  | @unitFirst e p t c r _ ih => obtain ⟨p, ρ, e⟩ := e; rintro ⟨-, h⟩; exact ih h
  | @unitNext e p t i c c' r _ _ _ _ => obtain ⟨p, ρ, e⟩ := e; rintro ⟨h, -⟩; cases h
  | @unitTriviaFail e p t i c _ _ => obtain ⟨p, ρ, e⟩ := e; rintro ⟨h, -⟩; cases h
  | @repsMax e p t min max i c h => obtain ⟨p, ρ, e⟩ := e; rintro ⟨rfl, h', -⟩; omega
  | @repsMore e p t min max i c c' r _ _ _ ih _ => obtain ⟨p, ρ, e⟩ := e; rintro ⟨rfl, h', h⟩; exact ih ⟨rfl, h⟩
  | @repsFew e p t min max i c _ _ _ ih => obtain ⟨p, ρ, e⟩ := e; rintro ⟨rfl, h', h⟩; exact ih ⟨rfl, h⟩
  | @repsStop e p t min max i c _ _ _ ih => obtain ⟨p, ρ, e⟩ := e; rintro ⟨rfl, h', h⟩; exact ih ⟨rfl, h⟩

/-! ## Deciding whether a grammar is left recursive -/

section
variable {p : List Name} {r : Rule}

theorem empty_str {s : Text} : CanBeEmpty u root g p r (.str s) ↔ s = [] := by
  constructor
  · intro h
    cases h with
    | literal h h' => cases h; simpa [Leaf.mayEmpty] using h'
    | builtin h => cases h
    | repZero h => cases h
    | rep h => cases h
  · rintro rfl; exact .literal rfl (by simp [Leaf.mayEmpty])

theorem empty_seq {a b : Expr} {t : Trivia} : CanBeEmpty u root g p r (.seq a b t) ↔ CanBeEmpty u root g p r a ∧ CanBeEmpty u root g p r b := by
  constructor
  · intro h
    cases h with
    | literal h => cases h
    | builtin h => cases h
    | repZero h => cases h
    | rep h => cases h
    | seq h h' => exact ⟨h, h'⟩
  · rintro ⟨h, h'⟩; exact .seq h h'

theorem empty_choice {a b : Expr} : CanBeEmpty u root g p r (.choice a b) ↔ CanBeEmpty u root g p r a ∨ CanBeEmpty u root g p r b := by
  constructor
  · intro h
    cases h with
    | literal h => cases h
    | builtin h => cases h
    | repZero h => cases h
    | rep h => cases h
    | choiceL h => exact .inl h
    | choiceR h => exact .inr h
  · rintro (h | h)
    · exact .choiceL h
    · exact .choiceR h

theorem empty_separated {a : Expr} {t : Trivia} : CanBeEmpty u root g p r (.separated a t) ↔ CanBeEmpty u root g p r a := by
  constructor
  · intro h
    cases h with
    | literal h => cases h
    | builtin h => cases h
    | repZero h => cases h
    | rep h => cases h
    | separated h => exact h
  · exact .separated

theorem empty_path {q p' : List Name} {r' : Rule} (ht : target u root p q = some (.rule p' r')) (hq : ∀ x ∈ r.args, q ≠ [x]) :
    CanBeEmpty u root g p r (.path q) ↔ g.empty p' r'.name := by
  constructor
  · intro h
    cases h with
    | literal h => cases h
    | builtin h h' => cases h; rw [h'] at ht; cases ht
    | param h => exact absurd rfl (hq _ h)
    | rule h h' => rw [h] at ht; cases ht; exact h'
    | repZero h => cases h
    | rep h => cases h
  · exact .rule ht

theorem empty_param {x : Name} (ht : target u root p [x] = none) (hx : x ∈ r.args) : CanBeEmpty u root g p r (.path [x]) ↔ g.emptyArg p r.name x := by
  constructor
  · intro h
    cases h with
    | literal h => cases h
    | builtin h h' => cases h; rw [h'] at ht; cases ht
    | param _ h => exact h
    | rule h => rw [h] at ht; cases ht
    | repZero h => cases h
    | rep h => cases h
  · exact .param hx

theorem empty_call {q p' : List Name} {args : List Expr} {r' : Rule} (ht : target u root p q = some (.rule p' r')) :
    CanBeEmpty u root g p r (.call q args) ↔ g.empty p' r'.name := by
  constructor
  · intro h
    cases h with
    | literal h => cases h
    | builtin h h' =>
      cases args with
      | nil => cases h; rw [h'] at ht; cases ht
      | cons => cases h
    | push h => rw [h] at ht; cases ht
    | call h h' => rw [h] at ht; cases ht; exact h'
    | repZero h => cases h
    | rep h => cases h
  · exact .call ht

theorem start_str {s : Text} {h : Head} : ¬ MayStart u root g p r (.str s) h := by
  intro h
  cases h with
  | rep h => cases h
  | repTrivia h => cases h

theorem start_path {q p' : List Name} {r' : Rule} {h : Head} (ht : target u root p q = some (.rule p' r')) (hq : ∀ x ∈ r.args, q ≠ [x]) :
    MayStart u root g p r (.path q) h ↔ h = .rule p' r'.name := by
  constructor
  · intro h
    cases h with
    | param h => exact absurd rfl (hq _ h)
    | rule h => rw [h] at ht; cases ht; rfl
    | rep h => cases h
    | repTrivia h => cases h
  · rintro rfl; exact .rule ht

theorem start_param {x : Name} {h : Head} (ht : target u root p [x] = none) (hx : x ∈ r.args) : MayStart u root g p r (.path [x]) h ↔ h = .param x := by
  constructor
  · intro h
    cases h with
    | param h => rfl
    | rule h => rw [h] at ht; cases ht
    | rep h => cases h
    | repTrivia h => cases h
  · rintro rfl; exact .param hx

theorem start_call {q p' : List Name} {args : List Expr} {r' : Rule} {h : Head} (ht : target u root p q = some (.rule p' r')) :
    MayStart u root g p r (.call q args) h ↔ h = .rule p' r'.name ∨ ∃ x a, (x, a) ∈ r'.args.zip args ∧ g.first p' r'.name x ∧ MayStart u root g p r a h := by
  constructor
  · intro h
    cases h with
    | call h => rw [h] at ht; cases ht; exact .inl rfl
    | arg h h1 h2 h3 => rw [h] at ht; cases ht; exact .inr ⟨_, _, h1, h2, h3⟩
    | push h => rw [h] at ht; cases ht
    | rep h => cases h
    | repTrivia h => cases h
  · rintro (rfl | ⟨x, a, h1, h2, h3⟩)
    · exact .call ht
    · exact .arg ht h1 h2 h3

theorem start_seq {a b : Expr} {t : Trivia} {h : Head} : MayStart u root g p r (.seq a b t) h ↔
    MayStart u root g p r a h ∨ CanBeEmpty u root g p r a ∧ ((∃ x, triviaName t = some x ∧ h = .rule p x) ∨ MayStart u root g p r b h) := by
  constructor
  · intro h
    cases h with
    | rep h => cases h
    | repTrivia h => cases h
    | seqL h => exact .inl h
    | seqTrivia h h' => exact .inr ⟨h, .inl ⟨_, h', rfl⟩⟩
    | seqR h h' => exact .inr ⟨h, .inr h'⟩
  · rintro (h | ⟨h, ⟨x, h1, rfl⟩ | h'⟩)
    · exact .seqL h
    · exact .seqTrivia h h1
    · exact .seqR h h'

theorem start_choice {a b : Expr} {h : Head} : MayStart u root g p r (.choice a b) h ↔ MayStart u root g p r a h ∨ MayStart u root g p r b h := by
  constructor
  · intro h
    cases h with
    | rep h => cases h
    | repTrivia h => cases h
    | choiceL h => exact .inl h
    | choiceR h => exact .inr h
  · rintro (h | h)
    · exact .choiceL h
    · exact .choiceR h

theorem start_separated {a : Expr} {t : Trivia} {h : Head} : MayStart u root g p r (.separated a t) h ↔ MayStart u root g p r a h := by
  constructor
  · intro h
    cases h with
    | rep h => cases h
    | repTrivia h => cases h
    | separated h => exact h
  · exact .separated

theorem start_rep {e a : Expr} {min max : Nat} {h : Head} (he : repetition e = some (a, min, max)) : MayStart u root g p r e h ↔
    MayStart u root g p r a h ∨ CanBeEmpty u root g p r a ∧ ∃ x, triviaName (sepTrivia a) = some x ∧ h = .rule p x := by
  constructor
  · intro h
    cases h with
    | rep h h' => rw [h] at he; cases he; exact .inl h'
    | repTrivia h h' h2 => rw [h] at he; cases he; exact .inr ⟨h', _, h2, rfl⟩
    | _ => cases he
  · rintro (h | ⟨h, x, h1, rfl⟩)
    · exact .rep he h
    · exact .repTrivia he h h1

end

end
end Pest3.Gen
