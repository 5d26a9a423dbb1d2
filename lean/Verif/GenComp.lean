import Verif.Reflect
import Verif.ReachLemmas

namespace Pest3.Gen
open Pest3

theorem contentOf_mem {W : List (Name × Text)} (hn : (W.map Prod.fst).Nodup) {w s} (h : (w, s) ∈ W) : contentOf w W = s := by
  induction W with
  | nil => simp at h
  | cons a W ih =>
    obtain ⟨w', s'⟩ := a
    simp only [List.map_cons, List.nodup_cons] at hn
    simp only [List.mem_cons, Prod.mk.injEq] at h
    simp only [contentOf]
    rcases h with ⟨rfl, rfl⟩ | h
    · rw [if_pos rfl]
    · rw [if_neg, ih hn.2 h]
      rintro rfl
      exact hn.1 (List.mem_map.mpr ⟨_, h, rfl⟩)

theorem closeAll_map (W : List (Name × Text)) (p : List Name) (σ : List (Name × CTy)) (l : List Ty) :
    closeAll W p σ l = l.map (close W p σ) := by
  induction l with
  | nil => rfl
  | cons t l ih => rw [closeAll, ih]; rfl

/-- What is assumed about an expression: parameters are used without arguments, and the trivia used is defined. -/
structure ExprOk (root : Module) (p : List Name) (params : List Name) (e : Expr) : Prop where
  call : ∀ x ∈ params, ∀ args, ¬ Sub (.call [x] args) e
  slice : ∀ x ∈ params, ∀ range, ¬ Sub (.slice [x] range) e
  trivia : ∀ t, UsesTrivia t e → TriviaAt root p t

theorem ExprOk.sub {root p params e e'} (h : ExprOk root p params e) (hs : Sub e' e) : ExprOk root p params e' where
  call x hx args h' := h.call x hx args (h'.trans hs)
  slice x hx r h' := h.slice x hx r (h'.trans hs)
  trivia t h' := h.trivia t (h'.imp (fun ⟨l, r, h⟩ => ⟨l, r, h.trans hs⟩) fun ⟨e', h⟩ => ⟨e', h.trans hs⟩)

section
variable {u : Unicode} {root : Module} {p : List Name} {σ : List (Name × CTy)} {params : List Name}

theorem comp_tail (e : Expr) : ∀ t ts, ExprOk root p params e → TriviaAt root p t →
    Comp u root p σ (.args ((seqTail t e).map Prod.snd) ts) →
    Comp u root p σ (.tail t e ((((seqTail t e).map Prod.fst).map fun t => (p, t)).zip ts)) := by
  have base : ∀ (e : Expr) (t : Trivia) ts, seqTail t e = [(t, e)] → (∀ l r t', e ≠ .seq l r t') → TriviaAt root p t →
      Comp u root p σ (.args ((seqTail t e).map Prod.snd) ts) →
      Comp u root p σ (.tail t e ((((seqTail t e).map Prod.fst).map fun t => (p, t)).zip ts)) := fun e t ts hs hn ht h => by
    rw [hs] at h ⊢
    cases h with
    | argsCons h1 h2 =>
      cases h2
      exact .tailLast hn ht h1
  induction e using Expr.ind with
  | seq l r t' _ ih =>
    intro t ts ho ht h
    simp only [seqTail, List.map_cons] at h ⊢
    cases h with
    | argsCons h1 h2 =>
      exact .tailMore ht h1 (ih t' _ (ho.sub (.seqR .refl)) (ho.trivia t' (.inl ⟨l, r, .refl⟩)) h2)
  | _ => intro t ts _ ht h; exact base _ t ts rfl (by intros; simp) ht h

theorem comp_alts (e : Expr) : ∀ ts, Comp u root p σ (.args (choiceTail e) ts) → Comp u root p σ (.alts e ts) := by
  have base : ∀ (e : Expr) ts, choiceTail e = [e] → (∀ l r, e ≠ .choice l r) → Comp u root p σ (.args (choiceTail e) ts) →
      Comp u root p σ (.alts e ts) := fun e ts hs hn h => by
    rw [hs] at h
    cases h with
    | argsCons h1 h2 => cases h2; exact .altsLast hn h1
  induction e using Expr.ind with
  | choice l r _ ih =>
    intro ts h
    simp only [choiceTail] at h
    cases h with
    | argsCons h1 h2 => exact .altsMore h1 (ih _ h2)
  | _ => intro ts h; exact base _ ts rfl (by intros; simp) h

theorem sepTrivia_eq (e : Expr) : getTrivia e = sepTrivia e := by cases e <;> rfl

theorem triviaAt_sep {e : Expr} (h : ExprOk root p params e) : TriviaAt root p (sepTrivia e) := by
  cases e <;> try exact .inl rfl
  case separated e t => exact h.trivia t (.inr ⟨e, .refl⟩)

end

section
variable {names : List Name} {table : Name → Char → Bool} {root : Module} {p : List Name} {σ : List (Name × CTy)}
  {params : List Name} {sys : ModSys} {W : List (Name × Text)}

theorem comp_unicode {e q x} (he : plainRef e = some q) (hσ : ∀ x, q = [x] → lookupC x σ = none) (h1 : x ∈ names)
    (h2 : target (unicodeOf names table) root p q =
      some (.builtin ["pest".toList, "unicode".toList, x.map Char.toLower])) :
    Comp (unicodeOf names table) root p σ (.one e (.leaf (.unicode (x.map Char.toUpper)))) := by
  refine .builtin he hσ h2 (l := .prop (table (x.map Char.toLower))) ?_ (.inr ⟨_, rfl, ?_⟩)
  · simp only [builtinLeaf]
    rw [if_neg (by simp), if_pos ⟨trivial, trivial, List.mem_map.mpr ⟨_, h1, rfl⟩⟩]
    rfl
  · rw [lower_upper]; rfl

theorem comp_resolved {q es ts ty} (hσ : ∀ x, q = [x] → lookupC x σ = none)
    (hr : Resolved names (unicodeOf names table) root p q (.call ts) ty)
    (ha : Comp (unicodeOf names table) root p σ (.args es (closeAll W p σ ts))) :
    Comp (unicodeOf names table) root p σ (.one (.call q es) (close W p σ ty)) := by
  cases hr with
  | rule h1 h2 h3 =>
    rcases h3 with h3 | ⟨h3, _⟩
    · injection h3 with h3
      subst h3
      rw [close]
      refine .call hσ h1 ?_ ha
      rw [← h2, args_length ha, closeAll_map, List.length_map]
    · simp at h3
  | leaf _ _ _ h => simp at h
  | unicode h1 h2 h3 =>
    rcases h3 with h3 | h3
    · simp at h3
    · injection h3 with h3
      subst h3
      rw [closeAll] at ha
      cases ha
      rw [close]
      exact comp_unicode rfl hσ h1 h2
  | push h1 h2 =>
    injection h2 with h2
    subst h2
    rw [closeAll, closeAll] at ha
    cases ha with
    | argsCons h3 h4 =>
      cases h4
      rw [close, closeAll, closeAll]
      simp only [if_true]
      exact .push hσ h1 h3
  | slice _ h => simp at h

theorem comp_path {q ty} (hσ : ∀ x, q = [x] → lookupC x σ = none)
    (hr : Resolved names (unicodeOf names table) root p q .none ty) :
    Comp (unicodeOf names table) root p σ (.one (.path q) (close W p σ ty)) := by
  cases hr with
  | rule h1 h2 h3 =>
    rcases h3 with h3 | ⟨_, h3⟩
    · simp at h3
    · subst h3
      rw [close, closeAll]
      exact .rule hσ h1 (by cases h : (Rule.args _) with | nil => rfl | cons a l => rw [h] at h2; simp at h2)
  | leaf h1 h2 h3 _ =>
    rw [close, closeAll]
    exact .builtin rfl hσ h1 h2 (.inl ⟨_, rfl, h3⟩)
  | unicode h1 h2 _ =>
    rw [close]
    exact comp_unicode rfl hσ h1 h2
  | push _ h => simp at h
  | slice _ h => simp at h

theorem comp_sliced {q range ty} (hσ : ∀ x, q = [x] → lookupC x σ = none)
    (hr : Resolved names (unicodeOf names table) root p q (.slice range) ty) :
    Comp (unicodeOf names table) root p σ (.one (.slice q range) (close W p σ ty)) := by
  cases hr with
  | rule h1 h2 h3 => simp at h3
  | leaf h1 h2 h3 h => simp at h
  | unicode h1 h2 h => simp at h
  | push _ h => simp at h
  | slice h1 h2 =>
    injection h2 with h2
    subst h2
    have := @Comp.slice (unicodeOf names table) root p σ q range hσ h1
    unfold sliceC at this
    cases hs : range.stop with
    | none => rw [hs] at this; simpa only [close] using this
    | some b => rw [hs] at this; simpa only [close] using this

theorem gen_comp (hsys : ∀ q args ty g, sys.resolve q args = some (ty, g) →
      Resolved names (unicodeOf names table) root p q args ty)
    (hσ : ∀ x, x ∈ params ↔ (lookupC x σ).isSome) (hW : (W.map Prod.fst).Nodup) {item st st'}
    (h : GenRel params sys item st st') (hwf : WfSt st) (hsub : ∀ w ∈ st'.wrappers, w ∈ W)
    (hok : ∀ e ∈ item.exprs, ExprOk root p params e) :
    match item with
    | .one e r => Comp (unicodeOf names table) root p σ (.one e (close W p σ r.1))
    | .all l rs => Comp (unicodeOf names table) root p σ (.args l (closeAll W p σ (rs.map Prod.fst))) := by
  have notin : ∀ {q : List Name}, (∀ x ∈ params, q ≠ [x]) → ∀ x, q = [x] → lookupC x σ = none := fun h x hx => by
    cases hl : lookupC x σ with
    | none => rfl
    | some t => exact absurd hx (h x ((hσ x).mpr (by simp [hl])))
  have ok1 : ∀ {e' e : Expr} {r}, Sub e' e → (∀ a ∈ (GItem.one e r).exprs, ExprOk root p params a) →
      ∀ r', ∀ a ∈ (GItem.one e' r').exprs, ExprOk root p params a := fun hs h r' a ha => by
    simp only [GItem.exprs, List.mem_singleton] at ha
    subst ha
    exact (h _ (by simp [GItem.exprs])).sub hs
  induction h with
  | @str s st =>
    dsimp only
    rw [close, contentOf_mem hW (hsub _ (insertString_mem hwf s))]; exact .str
  | @insens s st =>
    dsimp only
    rw [close, contentOf_mem hW (hsub _ (insertString_mem hwf s))]; exact .insens
  | range => exact .range
  | @param x st hx =>
    dsimp only
    obtain ⟨t, ht⟩ := Option.isSome_iff_exists.mp ((hσ x).mp hx)
    rw [close, ht]; exact .param ht
  | paramSlice hx => exact absurd .refl ((hok _ (List.mem_singleton.mpr rfl)).slice _ hx _)
  | paramCall hx => exact absurd .refl ((hok _ (List.mem_singleton.mpr rfl)).call _ hx _)
  | path hp hr => exact comp_path (notin hp) (hsys _ _ _ _ hr)
  | slice hp hr => exact comp_sliced (notin hp) (hsys _ _ _ _ hr)
  | call hp _ hr ih =>
    refine comp_resolved (notin hp) (hsys _ _ _ _ hr) (ih hwf hsub fun a ha => ?_)
    exact (hok _ (List.mem_singleton.mpr rfl)).sub (.arg ha .refl)
  | pos _ ih => dsimp only at ih ⊢; rw [close]; exact .pos (ih hwf hsub (ok1 (.pos .refl) hok _))
  | neg _ ih => dsimp only at ih ⊢; rw [close]; exact .neg (ih hwf hsub (ok1 (.neg .refl) hok _))
  | @seq l r t rs st st' _ ih =>
    have hok' := hok _ (List.mem_singleton.mpr rfl)
    have ih := ih hwf hsub fun a ha => by
      simp only [GItem.exprs, collectSequence, List.map_cons, List.mem_cons] at ha
      rcases ha with rfl | ha
      · exact hok'.sub (.seqL .refl)
      · exact hok'.sub (.seqR (seqTail_sub r t a ha))
    dsimp only at ih ⊢
    simp only [collectSequence, List.map_cons] at ih ⊢
    rw [close]
    simp only [List.map_cons]
    cases hts : closeAll W p σ (rs.map Prod.fst) with
    | nil => rw [hts] at ih; cases ih
    | cons ty tys =>
      rw [hts] at ih
      cases ih with
      | argsCons h1 h2 =>
        exact .seq h1 (comp_tail r t _ (hok'.sub (.seqR .refl)) (hok'.trivia t (.inl ⟨l, r, .refl⟩)) h2)
  | @choice l r rs st st' _ ih =>
    have hok' := hok _ (List.mem_singleton.mpr rfl)
    have ih := ih hwf hsub fun a ha => by
      simp only [GItem.exprs, collectChoices, List.mem_cons] at ha
      rcases ha with rfl | ha
      · exact hok'.sub (.choiceL .refl)
      · exact hok'.sub (.choiceR (choiceTail_sub r a ha))
    dsimp only at ih ⊢
    simp only [collectChoices] at ih
    rw [close]
    cases hts : closeAll W p σ (rs.map Prod.fst) with
    | nil => rw [hts] at ih; cases ih
    | cons ty tys =>
      rw [hts] at ih
      cases ih with
      | argsCons h1 h2 => exact .choice h1 (comp_alts r _ h2)
  | opt _ ih => dsimp only at ih ⊢; rw [close]; exact .opt (ih hwf hsub (ok1 (.opt .refl) hok _))
  | rep _ ih =>
    have hok' := ok1 (.rep .refl) hok
    dsimp only at ih ⊢; rw [close, sepTrivia_eq]
    exact .rep rfl (triviaAt_sep (hok' (default, default) _ (List.mem_singleton.mpr rfl))) (ih hwf hsub (hok' _))
  | repOnce _ ih =>
    have hok' := ok1 (.repOnce .refl) hok
    dsimp only at ih ⊢; rw [close, sepTrivia_eq]
    exact .rep rfl (triviaAt_sep (hok' (default, default) _ (List.mem_singleton.mpr rfl))) (ih hwf hsub (hok' _))
  | @repRange e range r st st' _ ih =>
    have hok' := ok1 (.repRange .refl) hok
    have ht := triviaAt_sep (hok' (default, default) _ (List.mem_singleton.mpr rfl))
    have ih := ih hwf hsub (hok' _)
    obtain ⟨start, stop⟩ := range
    cases start <;> cases stop <;> dsimp only at ih ⊢ <;> rw [close, sepTrivia_eq] <;> exact .rep rfl ht ih
  | separated _ ih => exact .separated (ih hwf hsub (ok1 (.separated .refl) hok _))
  | nil => exact .argsNil
  | cons h1 h2 ih1 ih2 =>
    dsimp only at ih1 ih2 ⊢
    rw [List.map_cons, closeAll]
    refine .argsCons (ih1 hwf (fun w hw => hsub w ((gen_prefix h2).subset hw)) fun a ha => ?_)
      (ih2 (gen_wf h1 hwf) hsub fun a ha => ?_)
    · simp only [GItem.exprs, List.mem_singleton] at ha
      subst ha; exact hok _ (by simp [GItem.exprs])
    · exact hok _ (List.mem_cons_of_mem _ ha)

end
end Pest3.Gen
