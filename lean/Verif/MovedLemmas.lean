import Verif.MovedSpec
import Verif.ShowsInv

namespace Pest3.Gen
open Pest3

section
variable {u : Unicode} {root root' : Module} {B : List Name → Rule → List Name → Rule → Prop}

/-! ## The other way round -/

/-- The relation, the other way round. -/
def Back (B : List Name → Rule → List Name → Rule → Prop) : List Name → Rule → List Name → Rule → Prop := fun p r p' r' => B p' r' p r

theorem SameParam.back {ps ps' : List Name} {x x' : Name} (h : SameParam ps ps' x x') : SameParam ps' ps x' x := by
  induction h with
  | here => exact .here
  | there h1 h2 _ ih => exact .there h2 h1 ih

theorem TargetLike.back {t t' : Option Target} (h : TargetLike B t t') : TargetLike (Back B) t' t := by
  cases h with
  | none => exact .none
  | builtin => exact .builtin
  | rule h => exact .rule h

theorem RefLike.back {p p' ps ps' q q' : List Name} (h : RefLike u root root' B p p' ps ps' q q') : RefLike u root' root (Back B) p' p ps' ps q' q := by
  cases h with
  | param h => exact .param h.back
  | other h1 h2 h3 => exact .other h2 h1 h3.back

theorem TriviaLike.back {p p' : List Name} {t : Trivia} (h : TriviaLike root root' B p p' t) : TriviaLike root' root (Back B) p' p t := by
  cases h with
  | none => exact .none
  | absent h1 h2 => exact .absent h2 h1
  | rule h1 h2 h3 h4 h5 h6 h7 => exact .rule h2 h1 h4 h3 h6 h5 h7

theorem ExprLike.back {p p' ps ps' : List Name} {e e' : Expr} (h : ExprLike u root root' B p p' ps ps' e e') : ExprLike u root' root (Back B) p' p ps' ps e' e := by
  induction h with
  | literal h => exact .literal h
  | path h => exact .path h.back
  | call h h' _ ih => exact .call h.back h'.symm fun i a a' k k' => ih i a' a k' k
  | slice h => exact .slice h.back
  | pos _ ih => exact .pos ih
  | neg _ ih => exact .neg ih
  | opt _ ih => exact .opt ih
  | rep _ ih => exact .rep ih
  | repOnce _ ih => exact .repOnce ih
  | repRange _ ih => exact .repRange ih
  | separated _ h ih => exact .separated ih h.back
  | seq _ _ h ih1 ih2 => exact .seq ih1 ih2 h.back
  | choice _ _ ih1 ih2 => exact .choice ih1 ih2

theorem Corresponds.back (h : Corresponds u root root' B) : Corresponds u root' root (Back B) := fun p r p' r' hb =>
  have ⟨h1, h2, h3⟩ := h p' r' p r hb
  ⟨h1.symm, h2.symm, h3.back⟩

/-! ## Closures -/

variable (u root root' B)

/-- Closures that are the same up to references. -/
inductive CloLike : Clo → Clo → Prop
  | mk {p p' ρ ρ' e e'} : ρ.length = ρ'.length → (∀ (i : Nat) x c x' c', ρ[i]? = some (x, c) → ρ'[i]? = some (x', c') → CloLike c c') →
      ExprLike u root root' B p p' (ρ.map Prod.fst) (ρ'.map Prod.fst) e e' → CloLike (.mk p ρ e) (.mk p' ρ' e')

/-- What is matched. -/
inductive ItemLike : SItem → SItem → Prop
  | expr {e e'} : CloLike u root root' B e e' → ItemLike (.expr e) (.expr e')
  | trivia {p p' t} : TriviaLike root root' B p p' t → ItemLike (.trivia p t) (.trivia p' t)
  | unit {e e' p p' t i} : CloLike u root root' B e e' → TriviaLike root root' B p p' t → ItemLike (.unit e p t i) (.unit e' p' t i)
  | reps {e e' p p' t min max i} : CloLike u root root' B e e' → TriviaLike root root' B p p' t → ItemLike (.reps e p t min max i) (.reps e' p' t min max i)

variable {u root root' B}

theorem lookup_mem {ρ : List (Name × Clo)} {x : Name} : lookupClo x ρ = none ↔ x ∉ ρ.map Prod.fst := by
  induction ρ with
  | nil => simp [lookupClo]
  | cons a ρ ih =>
    obtain ⟨y, c⟩ := a
    simp only [lookupClo, List.map_cons, List.mem_cons, not_or]
    split
    · subst_vars; simp
    · rw [ih]; exact ⟨fun h => ⟨fun h' => ‹¬ _› h'.symm, h⟩, fun h => h.2⟩

theorem notParam_iff {ρ : List (Name × Clo)} {q : List Name} : NotParam ρ q ↔ ∀ x, q = [x] → x ∉ ρ.map Prod.fst :=
  ⟨fun h x hx => lookup_mem.mp (h x hx), fun h x hx => lookup_mem.mpr (h x hx)⟩

theorem SameParam.mem {ps ps' : List Name} {x x' : Name} (h : SameParam ps ps' x x') : x ∈ ps ∧ x' ∈ ps' := by
  induction h with
  | here => simp
  | there _ _ _ ih => exact ⟨List.mem_cons_of_mem _ ih.1, List.mem_cons_of_mem _ ih.2⟩

theorem lookup_like {C : Clo → Clo → Prop} {ps ps' : List Name} {x x' : Name} (h : SameParam ps ps' x x') : ∀ {ρ ρ' : List (Name × Clo)}, ρ.map Prod.fst = ps → ρ'.map Prod.fst = ps' →
    (∀ (i : Nat) x c x' c', ρ[i]? = some (x, c) → ρ'[i]? = some (x', c') → C c c') → ∀ {c}, lookupClo x ρ = some c → ∃ c', lookupClo x' ρ' = some c' ∧ C c c' := by
  induction h with
  | here =>
    intro ρ ρ' h1 h2 hc c hl
    obtain ⟨⟨_, c1⟩, r1, rfl, rfl, h1⟩ := List.map_eq_cons_iff.mp h1
    obtain ⟨⟨_, c2⟩, r2, rfl, rfl, h2⟩ := List.map_eq_cons_iff.mp h2
    simp only [lookupClo, if_true, Option.some.injEq] at hl ⊢
    exact ⟨c2, rfl, hl ▸ hc 0 _ _ _ _ rfl rfl⟩
  | there hn hn' _ ih =>
    intro ρ ρ' h1 h2 hc c hl
    obtain ⟨⟨_, c1⟩, r1, rfl, rfl, g1⟩ := List.map_eq_cons_iff.mp h1
    obtain ⟨⟨_, c2⟩, r2, rfl, rfl, g2⟩ := List.map_eq_cons_iff.mp h2
    simp only [lookupClo] at hl ⊢
    rw [if_neg hn] at hl
    rw [if_neg hn']
    exact ih g1 g2 (fun i x c x' c' k k' => hc (i + 1) x c x' c' (by simpa using k) (by simpa using k')) hl

theorem sepTrivia_like {p p' ps ps' : List Name} {e e' : Expr} (h : ExprLike u root root' B p p' ps ps' e e') :
    sepTrivia e' = sepTrivia e ∧ TriviaLike root root' B p p' (sepTrivia e) := by
  cases h with
  | literal h => cases e <;> first | exact ⟨rfl, .none⟩ | cases h
  | separated _ h => exact ⟨rfl, h⟩
  | _ => exact ⟨rfl, .none⟩

theorem zip_like {p p' : List Name} {ρ ρ' : List (Name × Clo)} (hlen : ρ.length = ρ'.length)
    (henv : ∀ (i : Nat) x c x' c', ρ[i]? = some (x, c) → ρ'[i]? = some (x', c') → CloLike u root root' B c c')
    {args args' : List Expr} (h : args.length = args'.length)
    (ha : ∀ (i : Nat) a a', args[i]? = some a → args'[i]? = some a' → ExprLike u root root' B p p' (ρ.map Prod.fst) (ρ'.map Prod.fst) a a')
    {xs xs' : List Name} (hx : xs.length = args.length) (hx' : xs'.length = args.length)
    {q q' : List Name} {e e' : Expr} (he : ExprLike u root root' B q q' xs xs' e e') :
    CloLike u root root' B (.mk q (xs.zip (args.map (Clo.mk p ρ))) e) (.mk q' (xs'.zip (args'.map (Clo.mk p' ρ'))) e') := by
  have f1 : (xs.zip (args.map (Clo.mk p ρ))).map Prod.fst = xs := List.map_fst_zip (by simp [hx])
  have f2 : (xs'.zip (args'.map (Clo.mk p' ρ'))).map Prod.fst = xs' := List.map_fst_zip (by simp [hx', h])
  refine .mk (by simp [hx, hx', h]) (fun i x c x' c' k k' => ?_) (by rw [f1, f2]; exact he)
  rw [List.getElem?_zip_eq_some] at k k'
  obtain ⟨a, h3, rfl⟩ := List.getElem?_map .. ▸ k.2 |> Option.map_eq_some_iff.mp
  obtain ⟨a', h4, rfl⟩ := List.getElem?_map .. ▸ k'.2 |> Option.map_eq_some_iff.mp
  exact .mk hlen henv (ha i a a' h3 h4)

/-- The references of closures: the parameters, or what they refer to. -/
theorem ref_like {p p' : List Name} {ρ ρ' : List (Name × Clo)} {q q' : List Name} (h : RefLike u root root' B p p' (ρ.map Prod.fst) (ρ'.map Prod.fst) q q') (hn : NotParam ρ q) :
    NotParam ρ' q' ∧ TargetLike B (target u root p q) (target u root' p' q') := by
  cases h with
  | param h => exact absurd h.mem.1 (notParam_iff.mp hn _ rfl)
  | other _ h2 h3 => exact ⟨notParam_iff.mpr h2, h3⟩

theorem ref_builtin {p p' : List Name} {ρ ρ' : List (Name × Clo)} {q q' full : List Name} (h : RefLike u root root' B p p' (ρ.map Prod.fst) (ρ'.map Prod.fst) q q')
    (hn : NotParam ρ q) (ht : target u root p q = some (.builtin full)) : NotParam ρ' q' ∧ target u root' p' q' = some (.builtin full) := by
  obtain ⟨h1, h2⟩ := ref_like h hn
  rw [ht] at h2
  generalize target u root' p' q' = t at h2
  cases h2
  exact ⟨h1, rfl⟩

theorem ref_rule {p p' : List Name} {ρ ρ' : List (Name × Clo)} {q q' pr : List Name} {r : Rule} (h : RefLike u root root' B p p' (ρ.map Prod.fst) (ρ'.map Prod.fst) q q')
    (hn : NotParam ρ q) (ht : target u root p q = some (.rule pr r)) : ∃ pr' r', NotParam ρ' q' ∧ target u root' p' q' = some (.rule pr' r') ∧ B pr r pr' r' := by
  obtain ⟨h1, h2⟩ := ref_like h hn
  rw [ht] at h2
  generalize target u root' p' q' = t at h2
  cases h2
  exact ⟨_, _, h1, rfl, ‹_›⟩

theorem plain_like {p p' ps ps' : List Name} {e e' : Expr} {q : List Name} (h : ExprLike u root root' B p p' ps ps' e e') (hq : plainRef e = some q) :
    ∃ q', plainRef e' = some q' ∧ RefLike u root root' B p p' ps ps' q q' := by
  cases h with
  | literal h => cases e <;> first | cases hq; done | cases h; done
  | path h => cases hq; exact ⟨_, rfl, h⟩
  | @call q1 q' args args' h h' _ =>
    cases args with
    | nil =>
      cases hq
      cases args' with
      | nil => exact ⟨_, rfl, h⟩
      | cons => cases h'
    | cons => cases hq
  | _ => cases hq

theorem literal_like {p p' ps ps' : List Name} {e e' : Expr} {l : Leaf} (h : ExprLike u root root' B p p' ps ps' e e') (hq : literal e = some l) : e' = e := by
  cases h with
  | literal => rfl
  | _ => cases hq

theorem rep_like {p p' ps ps' : List Name} {e e' e1 : Expr} {min max : Nat} (h : ExprLike u root root' B p p' ps ps' e e') (hq : repetition e = some (e1, min, max)) :
    ∃ e1', repetition e' = some (e1', min, max) ∧ ExprLike u root root' B p p' ps ps' e1 e1' := by
  cases h with
  | literal h => cases e <;> first | cases hq; done | cases h; done
  | rep h => cases hq; exact ⟨_, rfl, h⟩
  | repOnce h => cases hq; exact ⟨_, rfl, h⟩
  | repRange h => cases hq; exact ⟨_, rfl, h⟩
  | _ => cases hq

/-- A rule without parameters, as a closure. -/
theorem body_like (H : Corresponds u root root' B) {p p' : List Name} {r r' : Rule} (hb : B p r p' r') (h : r.args = []) :
    r'.args = [] ∧ CloLike u root root' B (.mk p [] r.node) (.mk p' [] r'.node) := by
  obtain ⟨h1, -, h3⟩ := H _ _ _ _ hb
  rw [h] at h1 h3
  have h4 : r'.args = [] := List.eq_nil_of_length_eq_zero h1.symm
  rw [h4] at h3
  exact ⟨h4, .mk rfl (fun i x c x' c' k => by simp at k) h3⟩

theorem trivia_like (H : Corresponds u root root' B) {p p' : List Name} {t : Trivia} {m : Module} {r : Rule} (h : TriviaLike root root' B p p' t) (hm : modAt root p = some m)
    (ht : triviaRule m t = some r) : ∃ m' r', modAt root' p' = some m' ∧ triviaRule m' t = some r' ∧ CloLike u root root' B (.mk p [] r.node) (.mk p' [] r'.node) := by
  cases h with
  | none => cases ht
  | absent h _ => rw [h m hm] at ht; cases ht
  | rule h1 h2 h3 h4 h5 h6 h7 =>
    rw [hm] at h1; cases h1
    rw [ht] at h3; cases h3
    exact ⟨_, _, h2, h4, (body_like H h7 h5).2⟩

/-! ## Meaning -/

theorem meaning_like (H : Corresponds u root root' B) {item : SItem} {c : Cfg} {o : Option Cfg} (h : Meaning u root item c o) :
    ∀ {item'}, ItemLike u root root' B item item' → Meaning u root' item' c o := by
  induction h with
  | literalOk h1 h2 h3 =>
    rintro _ (⟨⟨hl, hc, he⟩⟩ | _ | _ | _)
    cases literal_like he h1
    exact .literalOk h1 h2 h3
  | literalFail h1 h2 =>
    rintro _ (⟨⟨hl, hc, he⟩⟩ | _ | _ | _)
    cases literal_like he h1
    exact .literalFail h1 h2
  | builtinOk h1 h2 h3 h4 h5 h6 =>
    rintro _ (⟨⟨hl, hc, he⟩⟩ | _ | _ | _)
    obtain ⟨q', k1, k2⟩ := plain_like he h1
    obtain ⟨k3, k4⟩ := ref_builtin k2 h2 h3
    exact .builtinOk k1 k3 k4 h4 h5 h6
  | builtinFail h1 h2 h3 h4 h5 =>
    rintro _ (⟨⟨hl, hc, he⟩⟩ | _ | _ | _)
    obtain ⟨q', k1, k2⟩ := plain_like he h1
    obtain ⟨k3, k4⟩ := ref_builtin k2 h2 h3
    exact .builtinFail k1 k3 k4 h4 h5
  | sliceOk h2 h3 h4 h5 h6 =>
    rintro _ (⟨⟨hl, hc, he⟩⟩ | _ | _ | _)
    cases he with
    | literal h => cases h
    | slice k2 =>
      obtain ⟨k3, k4⟩ := ref_builtin k2 h2 h3
      exact .sliceOk k3 k4 h4 h5 h6
  | sliceFail h2 h3 h4 h5 =>
    rintro _ (⟨⟨hl, hc, he⟩⟩ | _ | _ | _)
    cases he with
    | literal h => cases h
    | slice k2 =>
      obtain ⟨k3, k4⟩ := ref_builtin k2 h2 h3
      exact .sliceFail k3 k4 h4 h5
  | pushOk h2 h3 _ ih =>
    rintro _ (⟨⟨hl, hc, he⟩⟩ | _ | _ | _)
    cases he with
    | literal h => cases h
    | @call _ _ _ args' k2 k5 k6 =>
      obtain ⟨k3, k4⟩ := ref_builtin k2 h2 h3
      match args', k5, k6 with
      | [e'], _, k6 => exact .pushOk k3 k4 (ih (.expr (.mk hl hc (k6 0 _ _ rfl rfl))))
  | pushFail h2 h3 _ ih =>
    rintro _ (⟨⟨hl, hc, he⟩⟩ | _ | _ | _)
    cases he with
    | literal h => cases h
    | @call _ _ _ args' k2 k5 k6 =>
      obtain ⟨k3, k4⟩ := ref_builtin k2 h2 h3
      match args', k5, k6 with
      | [e'], _, k6 => exact .pushFail k3 k4 (ih (.expr (.mk hl hc (k6 0 _ _ rfl rfl))))
  | param h1 _ ih =>
    rintro _ (⟨⟨hl, hc, he⟩⟩ | _ | _ | _)
    cases he with
    | literal h => cases h
    | path k =>
      cases k with
      | param k =>
        obtain ⟨c', k1, k2⟩ := lookup_like k rfl rfl hc h1
        exact .param k1 (ih (.expr k2))
      | other k => rw [lookup_mem.mpr (k _ rfl)] at h1; cases h1
  | rule h2 h3 h4 _ ih =>
    rintro _ (⟨⟨hl, hc, he⟩⟩ | _ | _ | _)
    cases he with
    | literal h => cases h
    | path k =>
      obtain ⟨pr', r', k1, k2, k3⟩ := ref_rule k h2 h3
      obtain ⟨k4, k5⟩ := body_like H k3 h4
      exact .rule k1 k2 k4 (ih (.expr k5))
  | call h2 h3 h4 _ ih =>
    rintro _ (⟨⟨hl, hc, he⟩⟩ | _ | _ | _)
    cases he with
    | literal h => cases h
    | call k k5 k6 =>
      obtain ⟨pr', r', k1, k2, k3⟩ := ref_rule k h2 h3
      obtain ⟨j1, -, j3⟩ := H _ _ _ _ k3
      exact .call k1 k2 (j1.symm.trans (h4.trans k5)) (ih (.expr (zip_like hl hc k5 k6 h4 (j1.symm.trans h4) j3)))
  | posOk _ ih =>
    rintro _ (⟨⟨hl, hc, he⟩⟩ | _ | _ | _)
    cases he with
    | literal h => cases h
    | pos k => exact .posOk (ih (.expr (.mk hl hc k)))
  | posFail _ ih =>
    rintro _ (⟨⟨hl, hc, he⟩⟩ | _ | _ | _)
    cases he with
    | literal h => cases h
    | pos k => exact .posFail (ih (.expr (.mk hl hc k)))
  | negOk _ ih =>
    rintro _ (⟨⟨hl, hc, he⟩⟩ | _ | _ | _)
    cases he with
    | literal h => cases h
    | neg k => exact .negOk (ih (.expr (.mk hl hc k)))
  | negFail _ ih =>
    rintro _ (⟨⟨hl, hc, he⟩⟩ | _ | _ | _)
    cases he with
    | literal h => cases h
    | neg k => exact .negFail (ih (.expr (.mk hl hc k)))
  | seq _ _ _ ih1 ih2 ih3 =>
    rintro _ (⟨⟨hl, hc, he⟩⟩ | _ | _ | _)
    cases he with
    | literal h => cases h
    | seq k1 k2 k3 => exact .seq (ih1 (.expr (.mk hl hc k1))) (ih2 (.trivia k3)) (ih3 (.expr (.mk hl hc k2)))
  | seqFail _ ih1 =>
    rintro _ (⟨⟨hl, hc, he⟩⟩ | _ | _ | _)
    cases he with
    | literal h => cases h
    | seq k1 k2 k3 => exact .seqFail (ih1 (.expr (.mk hl hc k1)))
  | seqTriviaFail _ _ ih1 ih2 =>
    rintro _ (⟨⟨hl, hc, he⟩⟩ | _ | _ | _)
    cases he with
    | literal h => cases h
    | seq k1 k2 k3 => exact .seqTriviaFail (ih1 (.expr (.mk hl hc k1))) (ih2 (.trivia k3))
  | choiceL _ ih1 =>
    rintro _ (⟨⟨hl, hc, he⟩⟩ | _ | _ | _)
    cases he with
    | literal h => cases h
    | choice k1 k2 => exact .choiceL (ih1 (.expr (.mk hl hc k1)))
  | choiceR _ _ ih1 ih2 =>
    rintro _ (⟨⟨hl, hc, he⟩⟩ | _ | _ | _)
    cases he with
    | literal h => cases h
    | choice k1 k2 => exact .choiceR (ih1 (.expr (.mk hl hc k1))) (ih2 (.expr (.mk hl hc k2)))
  | optSome _ ih =>
    rintro _ (⟨⟨hl, hc, he⟩⟩ | _ | _ | _)
    cases he with
    | literal h => cases h
    | opt k => exact .optSome (ih (.expr (.mk hl hc k)))
  | optNone _ ih =>
    rintro _ (⟨⟨hl, hc, he⟩⟩ | _ | _ | _)
    cases he with
    | literal h => cases h
    | opt k => exact .optNone (ih (.expr (.mk hl hc k)))
  | rep h1 _ ih =>
    rintro _ (⟨⟨hl, hc, he⟩⟩ | _ | _ | _)
    obtain ⟨e1, k1, k2⟩ := rep_like he h1
    obtain ⟨k3, k4⟩ := sepTrivia_like k2
    exact .rep k1 (k3 ▸ ih (.reps (.mk hl hc k2) k4))
  | separated _ ih =>
    rintro _ (⟨⟨hl, hc, he⟩⟩ | _ | _ | _)
    cases he with
    | literal h => cases h
    | separated k _ => exact .separated (ih (.expr (.mk hl hc k)))
  | triviaNone => rintro _ (_ | _ | _ | _); exact .triviaNone
  | triviaRule h1 h2 _ ih =>
    rintro _ (_ | k | _ | _)
    obtain ⟨m', r', k1, k2, k3⟩ := trivia_like H k h1 h2
    exact .triviaRule k1 k2 (ih (.expr k3))
  | unitFirst _ ih => rintro _ (_ | _ | ⟨k1, k2⟩ | _); exact .unitFirst (ih (.expr k1))
  | unitNext _ _ ih1 ih2 => rintro _ (_ | _ | ⟨k1, k2⟩ | _); exact .unitNext (ih1 (.trivia k2)) (ih2 (.expr k1))
  | unitTriviaFail _ ih => rintro _ (_ | _ | ⟨k1, k2⟩ | _); exact .unitTriviaFail (ih (.trivia k2))
  | repsMax h => rintro _ (_ | _ | _ | ⟨k1, k2⟩); exact .repsMax h
  | repsMore h _ _ ih1 ih2 => rintro _ (_ | _ | _ | ⟨k1, k2⟩); exact .repsMore h (ih1 (.unit k1 k2)) (ih2 (.reps k1 k2))
  | repsFew h _ h' ih => rintro _ (_ | _ | _ | ⟨k1, k2⟩); exact .repsFew h (ih (.unit k1 k2)) h'
  | repsStop h _ h' ih => rintro _ (_ | _ | _ | ⟨k1, k2⟩); exact .repsStop h (ih (.unit k1 k2)) h'

/-! ## Tokens -/

theorem TokensLike.append {F F' G G' : List (Pair RuleVal)} (h : TokensLike B F F') (h' : TokensLike B G G') : TokensLike B (F ++ G) (F' ++ G') :=
  match h with
  | .nil => h'
  | .cons h1 h2 => .cons h1 (TokensLike.append h2 h')

theorem tokens_like (H : Corresponds u root root' B) {p p' : List Name} {r r' : Rule} (hb : B p r p' r') {c c' : Cfg} {F F' : List (Pair RuleVal)} (h : TokensLike B F F') :
    TokensLike B (tokens p r c c' F) (tokens p' r' c c' F') := by
  unfold tokens
  rw [(H _ _ _ _ hb).2.1]
  split
  · exact .nil
  · exact .cons (.mk ⟨p, r, p', r', hb, rfl, rfl⟩ h) .nil

theorem shows_like (H : Corresponds u root root' B) {item : SItem} {c c' : Cfg} {F : List (Pair RuleVal)} (h : Shows u root item c c' F) :
    ∀ {item'}, ItemLike u root root' B item item' → ∃ F', Shows u root' item' c c' F' ∧ TokensLike B F F' := by
  induction h with
  | literal h1 h2 =>
    rintro _ (⟨⟨hl, hc, he⟩⟩ | _ | _ | _)
    have := meaning_like H h2 (.expr (.mk hl hc he))
    cases literal_like he h1
    exact ⟨_, .literal h1 this, .nil⟩
  | builtin h1 h2 h3 h4 h5 =>
    rintro _ (⟨⟨hl, hc, he⟩⟩ | _ | _ | _)
    obtain ⟨q', k1, k2⟩ := plain_like he h1
    obtain ⟨k3, k4⟩ := ref_builtin k2 h2 h3
    exact ⟨_, .builtin k1 k3 k4 h4 (meaning_like H h5 (.expr (.mk hl hc he))), .nil⟩
  | slice h1 =>
    rintro _ (⟨⟨hl, hc, he⟩⟩ | _ | _ | _)
    have := meaning_like H h1 (.expr (.mk hl hc he))
    cases he with
    | literal h => cases h
    | slice k2 => exact ⟨_, .slice this, .nil⟩
  | push h2 h3 _ ih =>
    rintro _ (⟨⟨hl, hc, he⟩⟩ | _ | _ | _)
    cases he with
    | literal h => cases h
    | @call _ _ _ args' k2 k5 k6 =>
      obtain ⟨k3, k4⟩ := ref_builtin k2 h2 h3
      match args', k5, k6 with
      | [e'], _, k6 =>
        obtain ⟨F', f1, f2⟩ := ih (.expr (.mk hl hc (k6 0 _ _ rfl rfl)))
        exact ⟨F', .push k3 k4 f1, f2⟩
  | param h1 _ ih =>
    rintro _ (⟨⟨hl, hc, he⟩⟩ | _ | _ | _)
    cases he with
    | literal h => cases h
    | path k =>
      cases k with
      | param k =>
        obtain ⟨c', k1, k2⟩ := lookup_like k rfl rfl hc h1
        obtain ⟨F', f1, f2⟩ := ih (.expr k2)
        exact ⟨F', .param k1 f1, f2⟩
      | other k => rw [lookup_mem.mpr (k _ rfl)] at h1; cases h1
  | rule h2 h3 h4 _ ih =>
    rintro _ (⟨⟨hl, hc, he⟩⟩ | _ | _ | _)
    cases he with
    | literal h => cases h
    | path k =>
      obtain ⟨pr', r', k1, k2, k3⟩ := ref_rule k h2 h3
      obtain ⟨k4, k5⟩ := body_like H k3 h4
      obtain ⟨F', f1, f2⟩ := ih (.expr k5)
      exact ⟨_, .rule k1 k2 k4 f1, tokens_like H k3 f2⟩
  | call h2 h3 h4 _ ih =>
    rintro _ (⟨⟨hl, hc, he⟩⟩ | _ | _ | _)
    cases he with
    | literal h => cases h
    | call k k5 k6 =>
      obtain ⟨pr', r', k1, k2, k3⟩ := ref_rule k h2 h3
      obtain ⟨j1, -, j3⟩ := H _ _ _ _ k3
      obtain ⟨F', f1, f2⟩ := ih (.expr (zip_like hl hc k5 k6 h4 (j1.symm.trans h4) j3))
      exact ⟨_, .call k1 k2 (j1.symm.trans (h4.trans k5)) f1, tokens_like H k3 f2⟩
  | pos h1 =>
    rintro _ (⟨⟨hl, hc, he⟩⟩ | _ | _ | _)
    have := meaning_like H h1 (.expr (.mk hl hc he))
    cases he with
    | literal h => cases h
    | pos k => exact ⟨_, .pos this, .nil⟩
  | neg h1 =>
    rintro _ (⟨⟨hl, hc, he⟩⟩ | _ | _ | _)
    have := meaning_like H h1 (.expr (.mk hl hc he))
    cases he with
    | literal h => cases h
    | neg k => exact ⟨_, .neg this, .nil⟩
  | seq _ h2 _ ih1 ih2 =>
    rintro _ (⟨⟨hl, hc, he⟩⟩ | _ | _ | _)
    cases he with
    | literal h => cases h
    | seq k1 k2 k3 =>
      obtain ⟨F', f1, f2⟩ := ih1 (.expr (.mk hl hc k1))
      obtain ⟨G', g1, g2⟩ := ih2 (.expr (.mk hl hc k2))
      exact ⟨_, .seq f1 (meaning_like H h2 (.trivia k3)) g1, f2.append g2⟩
  | choiceL _ ih1 =>
    rintro _ (⟨⟨hl, hc, he⟩⟩ | _ | _ | _)
    cases he with
    | literal h => cases h
    | choice k1 k2 =>
      obtain ⟨F', f1, f2⟩ := ih1 (.expr (.mk hl hc k1))
      exact ⟨F', .choiceL f1, f2⟩
  | choiceR h1 _ ih2 =>
    rintro _ (⟨⟨hl, hc, he⟩⟩ | _ | _ | _)
    cases he with
    | literal h => cases h
    | choice k1 k2 =>
      obtain ⟨F', f1, f2⟩ := ih2 (.expr (.mk hl hc k2))
      exact ⟨F', .choiceR (meaning_like H h1 (.expr (.mk hl hc k1))) f1, f2⟩
  | optSome _ ih =>
    rintro _ (⟨⟨hl, hc, he⟩⟩ | _ | _ | _)
    cases he with
    | literal h => cases h
    | opt k =>
      obtain ⟨F', f1, f2⟩ := ih (.expr (.mk hl hc k))
      exact ⟨F', .optSome f1, f2⟩
  | optNone h1 =>
    rintro _ (⟨⟨hl, hc, he⟩⟩ | _ | _ | _)
    cases he with
    | literal h => cases h
    | opt k => exact ⟨_, .optNone (meaning_like H h1 (.expr (.mk hl hc k))), .nil⟩
  | rep h1 _ ih =>
    rintro _ (⟨⟨hl, hc, he⟩⟩ | _ | _ | _)
    obtain ⟨e1, k1, k2⟩ := rep_like he h1
    obtain ⟨k3, k4⟩ := sepTrivia_like k2
    obtain ⟨F', f1, f2⟩ := ih (.reps (.mk hl hc k2) k4)
    exact ⟨F', .rep k1 (k3 ▸ f1), f2⟩
  | separated _ ih =>
    rintro _ (⟨⟨hl, hc, he⟩⟩ | _ | _ | _)
    cases he with
    | literal h => cases h
    | separated k _ =>
      obtain ⟨F', f1, f2⟩ := ih (.expr (.mk hl hc k))
      exact ⟨F', .separated f1, f2⟩
  | unitFirst _ ih =>
    rintro _ (_ | _ | ⟨k1, k2⟩ | _)
    obtain ⟨F', f1, f2⟩ := ih (.expr k1)
    exact ⟨F', .unitFirst f1, f2⟩
  | unitNext h1 _ ih2 =>
    rintro _ (_ | _ | ⟨k1, k2⟩ | _)
    obtain ⟨F', f1, f2⟩ := ih2 (.expr k1)
    exact ⟨F', .unitNext (meaning_like H h1 (.trivia k2)) f1, f2⟩
  | repsMax h => rintro _ (_ | _ | _ | ⟨k1, k2⟩); exact ⟨_, .repsMax h, .nil⟩
  | repsMore h _ _ ih1 ih2 =>
    rintro _ (_ | _ | _ | ⟨k1, k2⟩)
    obtain ⟨F', f1, f2⟩ := ih1 (.unit k1 k2)
    obtain ⟨G', g1, g2⟩ := ih2 (.reps k1 k2)
    exact ⟨_, .repsMore h f1 g1, f2.append g2⟩
  | repsStop h h1 h' => rintro _ (_ | _ | _ | ⟨k1, k2⟩); exact ⟨_, .repsStop h (meaning_like H h1 (.unit k1 k2)) h', .nil⟩

/-! ## Events -/

theorem tries_like (H : Corresponds u root root' B) {rank rank' : RuleVal → Label} (hrank : ∀ a a', LabelLike B a a' → rank a = rank' a')
    {f : Bool} {item : SItem} {c : Cfg} {o : Option Cfg} {es : List Ev} (h : Tries u root rank f item c o es) :
    ∀ {item'}, ItemLike u root root' B item item' → Tries u root' rank' f item' c o es := by
  have tr : ∀ {p r p' r'}, B p r p' r' → ∀ f c o es, tried rank' p' r' f c o es = tried rank p r f c o es := by
    intro p r p' r' hb f c o es
    unfold tried
    rw [hrank _ _ ⟨p, r, p', r', hb, rfl, rfl⟩]
  induction h with
  | literal h1 h2 =>
    rintro _ (⟨⟨hl, hc, he⟩⟩ | _ | _ | _)
    have := meaning_like H h2 (.expr (.mk hl hc he))
    cases literal_like he h1
    exact .literal h1 this
  | builtinOk h1 h2 h3 h4 h5 =>
    rintro _ (⟨⟨hl, hc, he⟩⟩ | _ | _ | _)
    obtain ⟨q', k1, k2⟩ := plain_like he h1
    obtain ⟨k3, k4⟩ := ref_builtin k2 h2 h3
    exact .builtinOk k1 k3 k4 h4 (meaning_like H h5 (.expr (.mk hl hc he)))
  | builtinFail h1 h2 h3 h4 h5 =>
    rintro _ (⟨⟨hl, hc, he⟩⟩ | _ | _ | _)
    obtain ⟨q', k1, k2⟩ := plain_like he h1
    obtain ⟨k3, k4⟩ := ref_builtin k2 h2 h3
    exact .builtinFail k1 k3 k4 h4 (meaning_like H h5 (.expr (.mk hl hc he)))
  | sliceOk h1 =>
    rintro _ (⟨⟨hl, hc, he⟩⟩ | _ | _ | _)
    have := meaning_like H h1 (.expr (.mk hl hc he))
    cases he with
    | literal h => cases h
    | slice k2 => exact .sliceOk this
  | sliceFail h0 h1 =>
    rintro _ (⟨⟨hl, hc, he⟩⟩ | _ | _ | _)
    have := meaning_like H h1 (.expr (.mk hl hc he))
    cases he with
    | literal h => cases h
    | slice k2 => exact .sliceFail h0 this
  | pushOk h2 h3 _ ih =>
    rintro _ (⟨⟨hl, hc, he⟩⟩ | _ | _ | _)
    cases he with
    | literal h => cases h
    | @call _ _ _ args' k2 k5 k6 =>
      obtain ⟨k3, k4⟩ := ref_builtin k2 h2 h3
      match args', k5, k6 with
      | [e'], _, k6 => exact .pushOk k3 k4 (ih (.expr (.mk hl hc (k6 0 _ _ rfl rfl))))
  | pushFail h2 h3 _ ih =>
    rintro _ (⟨⟨hl, hc, he⟩⟩ | _ | _ | _)
    cases he with
    | literal h => cases h
    | @call _ _ _ args' k2 k5 k6 =>
      obtain ⟨k3, k4⟩ := ref_builtin k2 h2 h3
      match args', k5, k6 with
      | [e'], _, k6 => exact .pushFail k3 k4 (ih (.expr (.mk hl hc (k6 0 _ _ rfl rfl))))
  | param h1 _ ih =>
    rintro _ (⟨⟨hl, hc, he⟩⟩ | _ | _ | _)
    cases he with
    | literal h => cases h
    | path k =>
      cases k with
      | param k =>
        obtain ⟨c', k1, k2⟩ := lookup_like k rfl rfl hc h1
        exact .param k1 (ih (.expr k2))
      | other k => rw [lookup_mem.mpr (k _ rfl)] at h1; cases h1
  | rule h2 h3 h4 _ ih =>
    rintro _ (⟨⟨hl, hc, he⟩⟩ | _ | _ | _)
    cases he with
    | literal h => cases h
    | path k =>
      obtain ⟨pr', r', k1, k2, k3⟩ := ref_rule k h2 h3
      obtain ⟨k4, k5⟩ := body_like H k3 h4
      rw [← tr k3]
      exact .rule k1 k2 k4 (ih (.expr k5))
  | call h2 h3 h4 _ ih =>
    rintro _ (⟨⟨hl, hc, he⟩⟩ | _ | _ | _)
    cases he with
    | literal h => cases h
    | call k k5 k6 =>
      obtain ⟨pr', r', k1, k2, k3⟩ := ref_rule k h2 h3
      obtain ⟨j1, -, j3⟩ := H _ _ _ _ k3
      rw [← tr k3]
      exact .call k1 k2 (j1.symm.trans (h4.trans k5)) (ih (.expr (zip_like hl hc k5 k6 h4 (j1.symm.trans h4) j3)))
  | posOk _ ih =>
    rintro _ (⟨⟨hl, hc, he⟩⟩ | _ | _ | _)
    cases he with
    | literal h => cases h
    | pos k => exact .posOk (ih (.expr (.mk hl hc k)))
  | posFail _ ih =>
    rintro _ (⟨⟨hl, hc, he⟩⟩ | _ | _ | _)
    cases he with
    | literal h => cases h
    | pos k => exact .posFail (ih (.expr (.mk hl hc k)))
  | negOk _ ih =>
    rintro _ (⟨⟨hl, hc, he⟩⟩ | _ | _ | _)
    cases he with
    | literal h => cases h
    | neg k => exact .negOk (ih (.expr (.mk hl hc k)))
  | negFail _ ih =>
    rintro _ (⟨⟨hl, hc, he⟩⟩ | _ | _ | _)
    cases he with
    | literal h => cases h
    | neg k => exact .negFail (ih (.expr (.mk hl hc k)))
  | seq _ _ _ ih1 ih2 ih3 =>
    rintro _ (⟨⟨hl, hc, he⟩⟩ | _ | _ | _)
    cases he with
    | literal h => cases h
    | seq k1 k2 k3 => exact .seq (ih1 (.expr (.mk hl hc k1))) (ih2 (.trivia k3)) (ih3 (.expr (.mk hl hc k2)))
  | seqFail _ ih1 =>
    rintro _ (⟨⟨hl, hc, he⟩⟩ | _ | _ | _)
    cases he with
    | literal h => cases h
    | seq k1 k2 k3 => exact .seqFail (ih1 (.expr (.mk hl hc k1)))
  | seqTriviaFail _ _ ih1 ih2 =>
    rintro _ (⟨⟨hl, hc, he⟩⟩ | _ | _ | _)
    cases he with
    | literal h => cases h
    | seq k1 k2 k3 => exact .seqTriviaFail (ih1 (.expr (.mk hl hc k1))) (ih2 (.trivia k3))
  | choiceL _ ih1 =>
    rintro _ (⟨⟨hl, hc, he⟩⟩ | _ | _ | _)
    cases he with
    | literal h => cases h
    | choice k1 k2 => exact .choiceL (ih1 (.expr (.mk hl hc k1)))
  | choiceR _ _ ih1 ih2 =>
    rintro _ (⟨⟨hl, hc, he⟩⟩ | _ | _ | _)
    cases he with
    | literal h => cases h
    | choice k1 k2 => exact .choiceR (ih1 (.expr (.mk hl hc k1))) (ih2 (.expr (.mk hl hc k2)))
  | optSome _ ih =>
    rintro _ (⟨⟨hl, hc, he⟩⟩ | _ | _ | _)
    cases he with
    | literal h => cases h
    | opt k => exact .optSome (ih (.expr (.mk hl hc k)))
  | optNone _ ih =>
    rintro _ (⟨⟨hl, hc, he⟩⟩ | _ | _ | _)
    cases he with
    | literal h => cases h
    | opt k => exact .optNone (ih (.expr (.mk hl hc k)))
  | rep h1 _ ih =>
    rintro _ (⟨⟨hl, hc, he⟩⟩ | _ | _ | _)
    obtain ⟨e1, k1, k2⟩ := rep_like he h1
    obtain ⟨k3, k4⟩ := sepTrivia_like k2
    exact .rep k1 (k3 ▸ ih (.reps (.mk hl hc k2) k4))
  | separated _ ih =>
    rintro _ (⟨⟨hl, hc, he⟩⟩ | _ | _ | _)
    cases he with
    | literal h => cases h
    | separated k _ => exact .separated (ih (.expr (.mk hl hc k)))
  | triviaNone => rintro _ (_ | _ | _ | _); exact .triviaNone
  | triviaRule h1 h2 _ ih =>
    rintro _ (_ | k | _ | _)
    obtain ⟨m', r', k1, k2, k3⟩ := trivia_like H k h1 h2
    exact .triviaRule k1 k2 (ih (.expr k3))
  | unitFirst _ ih => rintro _ (_ | _ | ⟨k1, k2⟩ | _); exact .unitFirst (ih (.expr k1))
  | unitNext _ _ ih1 ih2 => rintro _ (_ | _ | ⟨k1, k2⟩ | _); exact .unitNext (ih1 (.trivia k2)) (ih2 (.expr k1))
  | unitTriviaFail _ ih => rintro _ (_ | _ | ⟨k1, k2⟩ | _); exact .unitTriviaFail (ih (.trivia k2))
  | repsMax h => rintro _ (_ | _ | _ | ⟨k1, k2⟩); exact .repsMax h
  | repsMore h _ _ ih1 ih2 => rintro _ (_ | _ | _ | ⟨k1, k2⟩); exact .repsMore h (ih1 (.unit k1 k2)) (ih2 (.reps k1 k2))
  | repsFew h _ h' ih => rintro _ (_ | _ | _ | ⟨k1, k2⟩); exact .repsFew h (ih (.unit k1 k2)) h'
  | repsStop h _ h' ih => rintro _ (_ | _ | _ | ⟨k1, k2⟩); exact .repsStop h (ih (.unit k1 k2)) h'

end

end Pest3.Gen
