import Verif.AstSpec

namespace Pest3.Gen
open Pest3 Pest3.Meta

section
variable {P : Expr → Prop} (str : ∀ s, P (.str s)) (insens : ∀ s, P (.insens s))
  (range : ∀ a b, P (.range a b)) (path : ∀ p, P (.path p))
  (call : ∀ p args, (∀ a ∈ args, P a) → P (.call p args)) (slice : ∀ p r, P (.slice p r))
  (pos : ∀ e, P e → P (.pos e)) (neg : ∀ e, P e → P (.neg e))
  (seq : ∀ l r t, P l → P r → P (.seq l r t)) (choice : ∀ l r, P l → P r → P (.choice l r))
  (opt : ∀ e, P e → P (.opt e)) (rep : ∀ e, P e → P (.rep e)) (repOnce : ∀ e, P e → P (.repOnce e))
  (repRange : ∀ e b, P e → P (.repRange e b)) (separated : ∀ e t, P e → P (.separated e t))
include str insens range path call slice pos neg seq choice opt rep repOnce repRange separated

/-- Structural induction over expressions. -/
theorem Expr.ind (e : Expr) : P e :=
  Expr.rec (motive_1 := P) (motive_2 := fun l => ∀ a ∈ l, P a)
    str insens range path call slice pos neg
    (fun l r t hl hr => seq l r t hl hr) (fun l r hl hr => choice l r hl hr)
    opt rep repOnce (fun e b h => repRange e b h) (fun e t h => separated e t h)
    (fun _ h => nomatch h)
    (fun _ _ ha hl b hb => (List.mem_cons.mp hb).elim (fun h => h ▸ ha) (hl b)) e
end

theorem isName_iff {x : Name} {p : List Name} : isName x p = true ↔ p = [x] := by
  match p with
  | [] => simp [isName]
  | [y] => simp [isName]
  | _ :: _ :: _ => simp [isName]

theorem Sub.trans {a b c : Expr} (h1 : Sub a b) (h2 : Sub b c) : Sub a c := by
  induction h2 with
  | refl => exact h1
  | pos _ ih => exact .pos ih
  | neg _ ih => exact .neg ih
  | seqL _ ih => exact .seqL ih
  | seqR _ ih => exact .seqR ih
  | choiceL _ ih => exact .choiceL ih
  | choiceR _ ih => exact .choiceR ih
  | opt _ ih => exact .opt ih
  | rep _ ih => exact .rep ih
  | repOnce _ ih => exact .repOnce ih
  | repRange _ ih => exact .repRange ih
  | separated _ ih => exact .separated ih
  | arg hm _ ih => exact .arg hm ih

section
variable {x : Name}

@[simp] theorem occurs_str {s} : ¬ Occurs x (.str s) := fun h => by cases h
@[simp] theorem occurs_insens {s} : ¬ Occurs x (.insens s) := fun h => by cases h
@[simp] theorem occurs_range {a b} : ¬ Occurs x (.range a b) := fun h => by cases h
@[simp] theorem occurs_slice {p r} : ¬ Occurs x (.slice p r) := fun h => by cases h
theorem occurs_path {p} : Occurs x (.path p) ↔ p = [x] :=
  ⟨fun h => by cases h; rfl, fun h => h ▸ .refl⟩
theorem occurs_pos {e} : Occurs x (.pos e) ↔ Occurs x e := ⟨fun h => by cases h; assumption, .pos⟩
theorem occurs_neg {e} : Occurs x (.neg e) ↔ Occurs x e := ⟨fun h => by cases h; assumption, .neg⟩
theorem occurs_opt {e} : Occurs x (.opt e) ↔ Occurs x e := ⟨fun h => by cases h; assumption, .opt⟩
theorem occurs_rep {e} : Occurs x (.rep e) ↔ Occurs x e := ⟨fun h => by cases h; assumption, .rep⟩
theorem occurs_repOnce {e} : Occurs x (.repOnce e) ↔ Occurs x e :=
  ⟨fun h => by cases h; assumption, .repOnce⟩
theorem occurs_repRange {e b} : Occurs x (.repRange e b) ↔ Occurs x e :=
  ⟨fun h => by cases h; assumption, .repRange⟩
theorem occurs_separated {e t} : Occurs x (.separated e t) ↔ Occurs x e :=
  ⟨fun h => by cases h; assumption, .separated⟩
theorem occurs_seq {l r t} : Occurs x (.seq l r t) ↔ Occurs x l ∨ Occurs x r :=
  ⟨fun h => by cases h <;> simp [Occurs, *], fun h => h.elim .seqL .seqR⟩
theorem occurs_choice {l r} : Occurs x (.choice l r) ↔ Occurs x l ∨ Occurs x r :=
  ⟨fun h => by cases h <;> simp [Occurs, *], fun h => h.elim .choiceL .choiceR⟩
theorem occurs_call {p args} : Occurs x (.call p args) ↔ ∃ a ∈ args, Occurs x a :=
  ⟨fun h => by cases h with | arg hm h => exact ⟨_, hm, h⟩, fun ⟨_, hm, h⟩ => .arg hm h⟩

end

theorem replaceAny_reports {x : Name} {n : Expr} {l : List Expr}
    (ih : ∀ a ∈ l, ((Expr.replace x n a).2 = true ↔ Occurs x a)) :
    (replaceAny x n l).2 = true ↔ ∃ a ∈ l, Occurs x a := by
  induction l with
  | nil => simp [replaceAny]
  | cons a l ihl =>
    have ha := ih a (by simp)
    have hl := ihl fun b hb => ih b (by simp [hb])
    unfold replaceAny
    by_cases h : (Expr.replace x n a).2 = true
    · simp only [h, if_true]; simp [ha.mp h]
    · simp only [h]
      simp only [List.mem_cons]
      rw [if_neg (by simp), hl]
      constructor
      · rintro ⟨b, hb, ho⟩; exact ⟨b, .inr hb, ho⟩
      · rintro ⟨b, rfl | hb, ho⟩
        · exact absurd (ha.mpr ho) h
        · exact ⟨b, hb, ho⟩

/-- `replace` reports exactly whether the name occurs. -/
theorem replace_reports (x : Name) (n : Expr) (e : Expr) :
    (Expr.replace x n e).2 = true ↔ Occurs x e := by
  induction e using Expr.ind with
  | str | insens | range | slice => simp [Expr.replace]
  | path p =>
    unfold Expr.replace
    rw [occurs_path, ← isName_iff]
    by_cases h : isName x p = true <;> simp [h]
  | call p args ih => simp only [Expr.replace, occurs_call]; exact replaceAny_reports ih
  | pos e ih => simpa only [Expr.replace, occurs_pos] using ih
  | neg e ih => simpa only [Expr.replace, occurs_neg] using ih
  | opt e ih => simpa only [Expr.replace, occurs_opt] using ih
  | rep e ih => simpa only [Expr.replace, occurs_rep] using ih
  | repOnce e ih => simpa only [Expr.replace, occurs_repOnce] using ih
  | repRange e b ih => simpa only [Expr.replace, occurs_repRange] using ih
  | separated e t ih => simpa only [Expr.replace, occurs_separated] using ih
  | seq l r t ihl ihr => simp only [Expr.replace, occurs_seq, Bool.or_eq_true, ihl, ihr]
  | choice l r ihl ihr => simp only [Expr.replace, occurs_choice, Bool.or_eq_true, ihl, ihr]

/-- Substitution only looks at names that occur. -/
theorem subst_congr {σ τ : Name → Option Expr} (e : Expr) (h : ∀ x, Occurs x e → σ x = τ x) :
    e.subst σ = e.subst τ := by
  induction e using Expr.ind with
  | str | insens | range | slice => simp [Expr.subst]
  | path p =>
    match p with
    | [] => simp [Expr.subst]
    | [x] => simp only [Expr.subst]; rw [h x .refl]
    | _ :: _ :: _ => simp [Expr.subst]
  | call p args ih =>
    simp only [Expr.subst, substAll_eq_map]
    congr 1
    exact List.map_congr_left fun a ha => ih a ha fun x hx => h x (.arg ha hx)
  | pos e ih => simp only [Expr.subst]; rw [ih fun x hx => h x (.pos hx)]
  | neg e ih => simp only [Expr.subst]; rw [ih fun x hx => h x (.neg hx)]
  | opt e ih => simp only [Expr.subst]; rw [ih fun x hx => h x (.opt hx)]
  | rep e ih => simp only [Expr.subst]; rw [ih fun x hx => h x (.rep hx)]
  | repOnce e ih => simp only [Expr.subst]; rw [ih fun x hx => h x (.repOnce hx)]
  | repRange e b ih => simp only [Expr.subst]; rw [ih fun x hx => h x (.repRange hx)]
  | separated e t ih => simp only [Expr.subst]; rw [ih fun x hx => h x (.separated hx)]
  | seq l r t ihl ihr =>
    simp only [Expr.subst]; rw [ihl fun x hx => h x (.seqL hx), ihr fun x hx => h x (.seqR hx)]
  | choice l r ihl ihr =>
    simp only [Expr.subst]
    rw [ihl fun x hx => h x (.choiceL hx), ihr fun x hx => h x (.choiceR hx)]

/-- Substituting for no occurring name changes nothing. -/
theorem subst_none (e : Expr) : e.subst (fun _ => none) = e := by
  induction e using Expr.ind with
  | str | insens | range | slice => simp [Expr.subst]
  | path p =>
    match p with
    | [] => simp [Expr.subst]
    | [x] => simp [Expr.subst]
    | _ :: _ :: _ => simp [Expr.subst]
  | call p args ih =>
    simp only [Expr.subst, substAll_eq_map]
    congr 1
    exact (List.map_congr_left (g := id) ih).trans (List.map_id args)
  | pos e ih | neg e ih | opt e ih | rep e ih | repOnce e ih | repRange e _ ih | separated e _ ih =>
    simp only [Expr.subst, ih]
  | seq l r t ihl ihr => simp only [Expr.subst, ihl, ihr]
  | choice l r ihl ihr => simp only [Expr.subst, ihl, ihr]

theorem subst_id {σ : Name → Option Expr} {e : Expr} (h : ∀ x, Occurs x e → σ x = none) : e.subst σ = e :=
  (subst_congr e h).trans (subst_none e)

theorem subst_single_of_not_occurs {x : Name} {n e : Expr} (h : ¬ Occurs x e) :
    e.subst (single x n) = e :=
  subst_id fun y hy => by
    unfold single
    exact if_neg fun (hxy : y = x) => h (hxy ▸ hy)

theorem OncePerCall.sub {x : Name} {e e' : Expr} (h : OncePerCall x e) (hs : Sub e' e) :
    OncePerCall x e' := fun p pre a post hc => h p pre a post (hc.trans hs)

theorem replaceAny_subst {x : Name} {n : Expr} {l : List Expr}
    (ih : ∀ a ∈ l, (Expr.replace x n a).1 = a.subst (single x n))
    (hl : ∀ pre a post, l = pre ++ a :: post → Occurs x a → ∀ b ∈ post, ¬ Occurs x b) :
    (replaceAny x n l).1 = l.map (Expr.subst (single x n)) := by
  induction l with
  | nil => rfl
  | cons a l ihl =>
    unfold replaceAny
    have ha := ih a (by simp)
    by_cases h : (Expr.replace x n a).2 = true
    · have ho := (replace_reports x n a).mp h
      simp only [h, if_true, List.map_cons, ha]
      congr 1
      symm
      refine (List.map_congr_left (g := id) fun b hb => ?_).trans (List.map_id l)
      exact subst_single_of_not_occurs (hl [] a l rfl ho b hb)
    · simp only [h]
      rw [if_neg (by simp)]
      simp only [List.map_cons, ha]
      rw [ihl (fun b hb => ih b (by simp [hb])) fun pre b post hb => hl (a :: pre) b post (by simp [hb])]

/-- `replace` is substitution if no call uses the name in two arguments. -/
theorem replace_subst (x : Name) (n : Expr) (e : Expr) (h : OncePerCall x e) :
    (Expr.replace x n e).1 = e.subst (single x n) := by
  induction e using Expr.ind with
  | str | insens | range | slice => simp [Expr.replace, Expr.subst]
  | path p =>
    unfold Expr.replace
    by_cases hp : isName x p = true
    · rw [if_pos hp]; obtain rfl := isName_iff.mp hp; simp [Expr.subst, single]
    · rw [if_neg hp]
      exact (subst_single_of_not_occurs fun ho => hp (isName_iff.mpr (occurs_path.mp ho))).symm
  | call p args ih =>
    simp only [Expr.replace, Expr.subst, substAll_eq_map]
    congr 1
    refine replaceAny_subst (fun a ha => ih a ha (h.sub (.arg ha .refl))) fun pre a post heq => ?_
    exact h p pre a post (heq ▸ .refl)
  | pos e ih => simp only [Expr.replace, Expr.subst]; rw [ih (h.sub (.pos .refl))]
  | neg e ih => simp only [Expr.replace, Expr.subst]; rw [ih (h.sub (.neg .refl))]
  | opt e ih => simp only [Expr.replace, Expr.subst]; rw [ih (h.sub (.opt .refl))]
  | rep e ih => simp only [Expr.replace, Expr.subst]; rw [ih (h.sub (.rep .refl))]
  | repOnce e ih => simp only [Expr.replace, Expr.subst]; rw [ih (h.sub (.repOnce .refl))]
  | repRange e b ih => simp only [Expr.replace, Expr.subst]; rw [ih (h.sub (.repRange .refl))]
  | separated e t ih => simp only [Expr.replace, Expr.subst]; rw [ih (h.sub (.separated .refl))]
  | seq l r t ihl ihr =>
    simp only [Expr.replace, Expr.subst]; rw [ihl (h.sub (.seqL .refl)), ihr (h.sub (.seqR .refl))]
  | choice l r ihl ihr =>
    simp only [Expr.replace, Expr.subst]
    rw [ihl (h.sub (.choiceL .refl)), ihr (h.sub (.choiceR .refl))]

/-- Replacing a name that occurs by something else changes the expression. -/
theorem not_occurs_of_subst {x : Name} {n : Expr} (hn : n ≠ .path [x]) (e : Expr) (h : e.subst (single x n) = e) : ¬ Occurs x e := by
  induction e using Expr.ind with
  | str | insens | range | slice => simp
  | path p =>
    rw [occurs_path]
    rintro rfl
    exact hn (by simpa [Expr.subst, single] using h)
  | call p args ih =>
    rw [occurs_call]
    rintro ⟨a, ha, ho⟩
    simp only [Expr.subst, substAll_eq_map, Expr.call.injEq, true_and] at h
    have key : ∀ l : List Expr, l.map (Expr.subst (single x n)) = l → ∀ a ∈ l, a.subst (single x n) = a := by
      intro l
      induction l with
      | nil => simp
      | cons b l ihl =>
        intro h a ha
        simp only [List.map_cons, List.cons.injEq] at h
        rcases List.mem_cons.mp ha with rfl | ha
        · exact h.1
        · exact ihl h.2 a ha
    exact ih a ha (key args h a ha) ho
  | pos e ih => rw [occurs_pos]; exact ih (by simpa [Expr.subst] using h)
  | neg e ih => rw [occurs_neg]; exact ih (by simpa [Expr.subst] using h)
  | opt e ih => rw [occurs_opt]; exact ih (by simpa [Expr.subst] using h)
  | rep e ih => rw [occurs_rep]; exact ih (by simpa [Expr.subst] using h)
  | repOnce e ih => rw [occurs_repOnce]; exact ih (by simpa [Expr.subst] using h)
  | repRange e b ih => rw [occurs_repRange]; exact ih (by simpa [Expr.subst] using h)
  | separated e t ih => rw [occurs_separated]; exact ih (by simpa [Expr.subst] using h)
  | seq l r t ihl ihr =>
    rw [occurs_seq]
    simp only [Expr.subst, Expr.seq.injEq, and_true] at h
    exact fun k => k.elim (ihl h.1) (ihr h.2)
  | choice l r ihl ihr =>
    rw [occurs_choice]
    simp only [Expr.subst, Expr.choice.injEq] at h
    exact fun k => k.elim (ihl h.1) (ihr h.2)

theorem OncePerCall.of_not_occurs {x : Name} {e : Expr} (h : ¬ Occurs x e) : OncePerCall x e :=
  fun _ _ _ _ hs ho => absurd (Sub.trans (.arg (by simp) ho) hs) h

theorem once_args {x : Name} {n : Expr} (hn : n ≠ .path [x]) : ∀ (l : List Expr), (replaceAny x n l).1 = l.map (Expr.subst (single x n)) →
    (∀ a ∈ l, (Expr.replace x n a).1 = a.subst (single x n) → OncePerCall x a) →
    (∀ a ∈ l, OncePerCall x a) ∧ ∀ pre a post, l = pre ++ a :: post → Occurs x a → ∀ b ∈ post, ¬ Occurs x b
  | [], _, _ => ⟨by simp, by simp⟩
  | a :: l, h, ih => by
    unfold replaceAny at h
    by_cases hr : (Expr.replace x n a).2 = true
    · simp only [hr, if_true, List.map_cons, List.cons.injEq] at h
      have rest : ∀ b ∈ l, ¬ Occurs x b := by
        have : ∀ l : List Expr, l = l.map (Expr.subst (single x n)) → ∀ b ∈ l, ¬ Occurs x b := by
          intro l
          induction l with
          | nil => simp
          | cons c l ihl =>
            intro h b hb
            simp only [List.map_cons, List.cons.injEq] at h
            rcases List.mem_cons.mp hb with rfl | hb
            · exact not_occurs_of_subst hn _ h.1.symm
            · exact ihl h.2 b hb
        exact this l h.2
      constructor
      · intro b hb
        rcases List.mem_cons.mp hb with rfl | hb
        · exact ih _ List.mem_cons_self h.1
        · exact .of_not_occurs (rest b hb)
      · intro pre a' post e ho b hb
        cases pre with
        | nil =>
          simp only [List.nil_append, List.cons.injEq] at e
          exact rest b (e.2 ▸ hb)
        | cons c pre =>
          simp only [List.cons_append, List.cons.injEq] at e
          exact rest b (e.2 ▸ (by simp [hb]))
    · have no : ¬ Occurs x a := fun ho => hr ((replace_reports x n a).mpr ho)
      simp only [hr, Bool.false_eq_true, if_false, List.map_cons, List.cons.injEq] at h
      obtain ⟨k1, k2⟩ := once_args hn l h.2 fun b hb => ih b (List.mem_cons_of_mem _ hb)
      constructor
      · intro b hb
        rcases List.mem_cons.mp hb with rfl | hb
        · exact .of_not_occurs no
        · exact k1 b hb
      · intro pre a' post e ho b hb
        cases pre with
        | nil =>
          simp only [List.nil_append, List.cons.injEq] at e
          exact absurd (e.1 ▸ ho) no
        | cons c pre =>
          simp only [List.cons_append, List.cons.injEq] at e
          exact k2 pre a' post e.2 ho b hb

/-- Only if no call has the name in two arguments are all occurrences replaced. -/
theorem once_of_replace {x : Name} {n : Expr} (hn : n ≠ .path [x]) (e : Expr) (h : (Expr.replace x n e).1 = e.subst (single x n)) : OncePerCall x e := by
  induction e using Expr.ind with
  | str | insens | range | slice => exact .of_not_occurs (by simp)
  | path p =>
    intro p pre a post hs
    cases hs
  | call p args ih =>
    simp only [Expr.replace, Expr.subst, substAll_eq_map, Expr.call.injEq, true_and] at h
    obtain ⟨k1, k2⟩ := once_args hn args h ih
    intro q pre a post hs ho b hb
    cases hs with
    | refl => exact k2 pre a post rfl ho b hb
    | arg hm hs => exact k1 _ hm q pre a post hs ho b hb
  | pos e ih => intro q pre a post hs; cases hs with | pos hs => exact ih (by simpa [Expr.replace, Expr.subst] using h) q pre a post hs
  | neg e ih => intro q pre a post hs; cases hs with | neg hs => exact ih (by simpa [Expr.replace, Expr.subst] using h) q pre a post hs
  | opt e ih => intro q pre a post hs; cases hs with | opt hs => exact ih (by simpa [Expr.replace, Expr.subst] using h) q pre a post hs
  | rep e ih => intro q pre a post hs; cases hs with | rep hs => exact ih (by simpa [Expr.replace, Expr.subst] using h) q pre a post hs
  | repOnce e ih => intro q pre a post hs; cases hs with | repOnce hs => exact ih (by simpa [Expr.replace, Expr.subst] using h) q pre a post hs
  | repRange e b ih => intro q pre a post hs; cases hs with | repRange hs => exact ih (by simpa [Expr.replace, Expr.subst] using h) q pre a post hs
  | separated e t ih => intro q pre a post hs; cases hs with | separated hs => exact ih (by simpa [Expr.replace, Expr.subst] using h) q pre a post hs
  | seq l r t ihl ihr =>
    simp only [Expr.replace, Expr.subst, Expr.seq.injEq, and_true] at h
    intro q pre a post hs
    cases hs with
    | seqL hs => exact ihl h.1 q pre a post hs
    | seqR hs => exact ihr h.2 q pre a post hs
  | choice l r ihl ihr =>
    simp only [Expr.replace, Expr.subst, Expr.choice.injEq] at h
    intro q pre a post hs
    cases hs with
    | choiceL hs => exact ihl h.1 q pre a post hs
    | choiceR hs => exact ihr h.2 q pre a post hs

end Pest3.Gen
