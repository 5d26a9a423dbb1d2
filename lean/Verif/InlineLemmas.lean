import Verif.InlineSim
import Verif.AstLemmas
import Verif.CodegenLemmas
import Verif.ResolveLemmas

namespace Pest3.Gen
open Pest3

/-! ## Substitution -/

theorem sub_subst {s : Expr} {σ : Name → Option Expr} (e : Expr) : Sub s (e.subst σ) →
    (∃ x n, Occurs x e ∧ σ x = some n ∧ Sub s n) ∨
    (∃ s0, Sub s0 e ∧ s = s0.subst σ ∧ ∀ x, s0 = .path [x] → σ x = none) := by
  have one : ∀ {e e' : Expr}, (∀ {a}, Sub a e → Sub a e') →
      ((∃ x n, Occurs x e ∧ σ x = some n ∧ Sub s n) ∨ (∃ s0, Sub s0 e ∧ s = s0.subst σ ∧ ∀ x, s0 = .path [x] → σ x = none)) →
      ((∃ x n, Occurs x e' ∧ σ x = some n ∧ Sub s n) ∨ (∃ s0, Sub s0 e' ∧ s = s0.subst σ ∧ ∀ x, s0 = .path [x] → σ x = none)) := by
    rintro e e' hs (⟨x, n, h1, h2, h3⟩ | ⟨s0, h1, h2, h3⟩)
    · exact .inl ⟨x, n, hs h1, h2, h3⟩
    · exact .inr ⟨s0, hs h1, h2, h3⟩
  induction e using Expr.ind with
  | str | insens | range | slice =>
    intro h
    simp only [Expr.subst] at h
    cases h
    exact .inr ⟨_, .refl, by simp [Expr.subst], by simp⟩
  | path p =>
    intro h
    match p with
    | [] => simp only [Expr.subst] at h; cases h; exact .inr ⟨_, .refl, by simp [Expr.subst], by simp⟩
    | [x] =>
      simp only [Expr.subst] at h
      cases hx : σ x with
      | some n => rw [hx] at h; exact .inl ⟨x, n, .refl, hx, h⟩
      | none =>
        rw [hx] at h
        cases h
        refine .inr ⟨_, .refl, by simp [Expr.subst, hx], fun y hy => ?_⟩
        simp only [Expr.path.injEq, List.cons.injEq, and_true] at hy
        exact hy ▸ hx
    | _ :: _ :: _ => simp only [Expr.subst] at h; cases h; exact .inr ⟨_, .refl, by simp [Expr.subst], by simp⟩
  | call p args ih =>
    intro h
    simp only [Expr.subst, substAll_eq_map] at h
    cases h with
    | refl => exact .inr ⟨_, .refl, by simp [Expr.subst, substAll_eq_map], by simp⟩
    | arg hm h =>
      obtain ⟨a, ha, rfl⟩ := List.mem_map.mp hm
      exact one (.arg ha) (ih a ha h)
  | pos e ih =>
    intro h; simp only [Expr.subst] at h
    cases h with
    | refl => exact .inr ⟨_, .refl, by simp [Expr.subst], by simp⟩
    | pos h => exact one .pos (ih h)
  | neg e ih =>
    intro h; simp only [Expr.subst] at h
    cases h with
    | refl => exact .inr ⟨_, .refl, by simp [Expr.subst], by simp⟩
    | neg h => exact one .neg (ih h)
  | opt e ih =>
    intro h; simp only [Expr.subst] at h
    cases h with
    | refl => exact .inr ⟨_, .refl, by simp [Expr.subst], by simp⟩
    | opt h => exact one .opt (ih h)
  | rep e ih =>
    intro h; simp only [Expr.subst] at h
    cases h with
    | refl => exact .inr ⟨_, .refl, by simp [Expr.subst], by simp⟩
    | rep h => exact one .rep (ih h)
  | repOnce e ih =>
    intro h; simp only [Expr.subst] at h
    cases h with
    | refl => exact .inr ⟨_, .refl, by simp [Expr.subst], by simp⟩
    | repOnce h => exact one .repOnce (ih h)
  | repRange e b ih =>
    intro h; simp only [Expr.subst] at h
    cases h with
    | refl => exact .inr ⟨_, .refl, by simp [Expr.subst], by simp⟩
    | repRange h => exact one .repRange (ih h)
  | separated e t ih =>
    intro h; simp only [Expr.subst] at h
    cases h with
    | refl => exact .inr ⟨_, .refl, by simp [Expr.subst], by simp⟩
    | separated h => exact one .separated (ih h)
  | seq l r t ihl ihr =>
    intro h; simp only [Expr.subst] at h
    cases h with
    | refl => exact .inr ⟨_, .refl, by simp [Expr.subst], by simp⟩
    | seqL h => exact one .seqL (ihl h)
    | seqR h => exact one .seqR (ihr h)
  | choice l r ihl ihr =>
    intro h; simp only [Expr.subst] at h
    cases h with
    | refl => exact .inr ⟨_, .refl, by simp [Expr.subst], by simp⟩
    | choiceL h => exact one .choiceL (ihl h)
    | choiceR h => exact one .choiceR (ihr h)

/-- A result of substitution of the form of a path or call. -/
theorem subst_eq_path {σ : Name → Option Expr} {s0 : Expr} {q} (h : .path q = s0.subst σ)
    (hs : ∀ x, s0 = .path [x] → σ x = none) : s0 = .path q := by
  cases s0 with
  | path p =>
    match p with
    | [] => simpa [Expr.subst] using h.symm
    | [x] => simp only [Expr.subst, hs x rfl, Option.getD_none] at h; exact h.symm
    | _ :: _ :: _ => simpa [Expr.subst] using h.symm
  | _ => simp [Expr.subst] at h

theorem subst_eq_call {σ : Name → Option Expr} {s0 : Expr} {q args} (h : .call q args = s0.subst σ)
    (hs : ∀ x, s0 = .path [x] → σ x = none) : ∃ args0, s0 = .call q args0 ∧ args = args0.map (Expr.subst σ) := by
  cases s0 with
  | path p =>
    match p with
    | [] => simp [Expr.subst] at h
    | [x] => simp [Expr.subst, hs x rfl] at h
    | _ :: _ :: _ => simp [Expr.subst] at h
  | call q' args0 =>
    simp only [Expr.subst, Expr.call.injEq, substAll_eq_map] at h
    exact ⟨args0, by rw [h.1], h.2⟩
  | _ => simp [Expr.subst] at h

theorem subst_eq_slice {σ : Name → Option Expr} {s0 : Expr} {q r} (h : .slice q r = s0.subst σ)
    (hs : ∀ x, s0 = .path [x] → σ x = none) : s0 = .slice q r := by
  cases s0 with
  | path p =>
    match p with
    | [] => simp [Expr.subst] at h
    | [x] => simp [Expr.subst, hs x rfl] at h
    | _ :: _ :: _ => simp [Expr.subst] at h
  | slice q' r' => simpa [Expr.subst] using h.symm
  | _ => simp [Expr.subst] at h

theorem occurs_subst {y : Name} {σ : Name → Option Expr} {e : Expr} (h : Occurs y (e.subst σ)) :
    (∃ x n, Occurs x e ∧ σ x = some n ∧ Occurs y n) ∨ (Occurs y e ∧ σ y = none) := by
  rcases sub_subst e h with h | ⟨s0, h1, h2, h3⟩
  · exact .inl h
  · have := subst_eq_path h2 h3
    subst this
    exact .inr ⟨h1, h3 y rfl⟩

theorem subst_subst (σ τ : Name → Option Expr) (e : Expr) :
    (e.subst σ).subst τ = e.subst fun x => match σ x with
      | some n => some (n.subst τ)
      | none => τ x := by
  induction e using Expr.ind with
  | str | insens | range | slice => simp [Expr.subst]
  | path p =>
    match p with
    | [] => simp [Expr.subst]
    | [x] => cases h : σ x <;> simp [Expr.subst, h]
    | _ :: _ :: _ => simp [Expr.subst]
  | call p args ih =>
    simp only [Expr.subst, substAll_eq_map, List.map_map]
    congr 1
    exact List.map_congr_left fun a ha => ih a ha
  | pos e ih | neg e ih | opt e ih | rep e ih | repOnce e ih | repRange e _ ih | separated e _ ih =>
    simp only [Expr.subst, ih]
  | seq l r t ihl ihr => simp only [Expr.subst, ihl, ihr]
  | choice l r ihl ihr => simp only [Expr.subst, ihl, ihr]

theorem oncePerCall_subst {y : Name} {σ : Name → Option Expr} {e : Expr} (h : OncePerCall y e)
    (hn : ∀ x n, σ x = some n → ¬ Occurs y n) : OncePerCall y (e.subst σ) := by
  intro p pre a post hs ha b hb hob
  rcases sub_subst e hs with ⟨x, n, _, h2, h3⟩ | ⟨s0, h1, h2, h3⟩
  · exact hn x n h2 (Sub.trans (.arg (by simp) ha) h3)
  · obtain ⟨args0, rfl, e0⟩ := subst_eq_call h2 h3
    obtain ⟨pre0, rest0, rfl, _, e2⟩ := List.append_eq_map_iff.mp e0
    obtain ⟨a0, post0, rfl, rfl, rfl⟩ := List.map_eq_cons_iff.mp e2
    obtain ⟨b0, hb0, rfl⟩ := List.mem_map.mp hb
    have back : ∀ c : Expr, Occurs y (c.subst σ) → Occurs y c := fun c hc =>
      (occurs_subst hc).elim (fun ⟨x, n, _, h2, h3⟩ => absurd h3 (hn x n h2)) (·.1)
    exact h p pre0 a0 post0 h1 (back a0 ha) b0 hb0 (back b0 hob)

/-- The substitution of a list of bindings. -/
def sig : List (Name × Expr) → Name → Option Expr
  | [], _ => none
  | (y, a) :: rest, x => if y = x then some a else sig rest x

theorem sig_mem {l : List (Name × Expr)} {x a} (h : sig l x = some a) : (x, a) ∈ l := by
  induction l with
  | nil => simp [sig] at h
  | cons b l ih =>
    obtain ⟨y, c⟩ := b
    simp only [sig] at h
    split at h
    · rename_i e; injection h with h; rw [e, h]; exact List.mem_cons_self
    · exact List.mem_cons_of_mem _ (ih h)

theorem sig_none {l : List (Name × Expr)} {x} (h : sig l x = none) : x ∉ l.map Prod.fst := by
  induction l with
  | nil => simp
  | cons b l ih =>
    obtain ⟨y, c⟩ := b
    simp only [sig] at h
    split at h
    · simp at h
    · rename_i e
      simp only [List.map_cons, List.mem_cons, not_or]
      exact ⟨fun e' => e e'.symm, ih h⟩

/-- Replacing one parameter after the other is simultaneous substitution, if no argument contains a later parameter. -/
theorem replaceArgs_subst (l : List (Name × Expr)) : ∀ e : Expr, (∀ x ∈ l.map Prod.fst, OncePerCall x e) →
    (∀ pre x a post, l = pre ++ (x, a) :: post → ∀ y ∈ post.map Prod.fst, ¬ Occurs y a) →
    (replaceArgs l e).1 = e.subst (sig l) := by
  induction l with
  | nil => intro e _ _; simp only [replaceArgs]; exact (subst_id fun _ _ => rfl).symm
  | cons b l ih =>
    obtain ⟨x, a⟩ := b
    intro e h1 h2
    have hx := replace_subst x a e (h1 x (by simp))
    have hl : ∀ y ∈ l.map Prod.fst, ¬ Occurs y a := h2 [] x a l rfl
    simp only [replaceArgs]
    rw [hx, ih _ (fun y hy => ?_) fun pre z c post hp => h2 ((x, a) :: pre) z c post (by rw [hp]; rfl), subst_subst]
    · refine subst_congr e fun y _ => ?_
      simp only [single, sig]
      by_cases he : y = x
      · subst he
        rw [if_pos rfl, if_pos rfl]
        dsimp only
        rw [subst_id]
        intro z hz
        cases hs : sig l z with
        | none => rfl
        | some n => exact absurd hz (hl z (List.mem_map.mpr ⟨_, sig_mem hs, rfl⟩))
      · rw [if_neg he, if_neg fun h => he h.symm]
    · refine oncePerCall_subst (h1 y (by simp [hy])) fun z n hz => ?_
      simp only [single] at hz
      split at hz
      · injection hz with hz; subst hz; exact hl y hy
      · simp at hz

theorem sepTrivia_subst {σ : Name → Option Expr} (e : Expr) (h : ∀ x n, e = .path [x] → σ x = some n → sepTrivia n = .none) :
    sepTrivia (e.subst σ) = sepTrivia e := by
  cases e with
  | path p =>
    match p with
    | [] => simp [Expr.subst]
    | [x] =>
      simp only [Expr.subst]
      cases hx : σ x with
      | none => rfl
      | some n => exact h x n rfl hx
    | _ :: _ :: _ => simp [Expr.subst]
  | _ => simp [Expr.subst, sepTrivia]

/-! ## Where the parts of an expression come from -/

section
variable {u : Unicode} {m : Module} {r : Rule}

variable (m r) in
/-- All parts of the expression come from the rule `r` and silent rules with parameters, with their parameters replaced. -/
structure Made (e : Expr) : Prop where
  name : ∀ y, Occurs y e → Occurs y r.node ∨ ∃ f ∈ m.rules, f.inlined = true ∧ Occurs y f.node ∧ y ∉ f.args
  call : ∀ q as, Sub (.call q as) e → (∀ a ∈ as, sepTrivia a = .none) ∧
    ∃ as0, ∃ g ∈ m.rules, (g = r ∨ g.inlined = true) ∧ Sub (.call q as0) g.node ∧ as0.length = as.length
  slice : ∀ q b, Sub (.slice q b) e → ∃ g ∈ m.rules, (g = r ∨ g.inlined = true) ∧ Sub (.slice q b) g.node

theorem Made.sub {e e' : Expr} (h : Made m r e) (hs : Sub e' e) : Made m r e' :=
  ⟨fun y hy => h.name y (hy.trans hs), fun q as hc => h.call q as (hc.trans hs), fun q b hc => h.slice q b (hc.trans hs)⟩

theorem Made.start (hy : Hygienic u m) (hr : r ∈ m.rules) : Made m r r.node :=
  ⟨fun _ h => .inl h, fun q as hc => ⟨(hy.sep r hr).2 q as hc, as, r, hr, .inl rfl, hc, rfl⟩, fun _ _ hc => ⟨r, hr, .inl rfl, hc⟩⟩

theorem zip_fst {α β : Type} {xs : List α} {l : List β} (h : xs.length = l.length) : (xs.zip l).map Prod.fst = xs := by
  induction xs generalizing l with
  | nil => rfl
  | cons x xs ih =>
    cases l with
    | nil => simp at h
    | cons a l => simp only [List.zip_cons_cons, List.map_cons, ih (by simpa using h)]

theorem Made.step (hy : Hygienic u m) {f : Rule} (hf : f ∈ m.rules) (hi : f.inlined = true) {bs : List Expr}
    (hl : f.args.length = bs.length) (hb : ∀ b ∈ bs, Made m r b ∧ sepTrivia b = .none) :
    Made m r (f.node.subst (sig (f.args.zip bs))) := by
  have himg : ∀ x n, sig (f.args.zip bs) x = some n → n ∈ bs := fun x n h => (List.of_mem_zip (sig_mem h)).2
  refine ⟨fun y hyo => ?_, fun q as hs => ?_, fun q b hs => ?_⟩
  · rcases occurs_subst hyo with ⟨x, n, _, h2, h3⟩ | ⟨h1, h2⟩
    · exact (hb n (himg x n h2)).1.name y h3
    · exact .inr ⟨f, hf, hi, h1, by rw [← zip_fst hl]; exact sig_none h2⟩
  · rcases sub_subst _ hs with ⟨x, n, _, h2, h3⟩ | ⟨s0, h1, h2, h3⟩
    · exact (hb n (himg x n h2)).1.call q as h3
    · obtain ⟨as0, rfl, rfl⟩ := subst_eq_call h2 h3
      refine ⟨fun a ha => ?_, as0, f, hf, .inr hi, h1, by simp⟩
      obtain ⟨a0, ha0, rfl⟩ := List.mem_map.mp ha
      rw [sepTrivia_subst a0 fun x n _ hx => (hb n (himg x n hx)).2]
      exact (hy.sep f hf).2 q as0 h1 a0 ha0
  · rcases sub_subst _ hs with ⟨x, n, _, h2, h3⟩ | ⟨s0, h1, h2, h3⟩
    · exact (hb n (himg x n h2)).1.slice q b h3
    · have := subst_eq_slice h2 h3
      subst this
      exact ⟨f, hf, .inr hi, h1⟩

/-- The parameters of silent rules (except the first) do not occur in expressions made of rules. -/
theorem Made.fresh (hy : Hygienic u m) (hr : r ∈ m.rules) (hk : r.inlined = false) {e : Expr} (h : Made m r e) {f : Rule}
    (hf : f ∈ m.rules) (hi : f.inlined = true) {x : Name} (hx : x ∈ f.args.tail) : ¬ Occurs x e := by
  intro ho
  rcases h.name x ho with h1 | ⟨g, h1, h2, h3, h4⟩
  · have := (hy.fresh f hf hi x hx r hr h1).1
    rw [hk] at this; simp at this
  · exact h4 (hy.fresh f hf hi x hx g h1 h3).2

theorem zip_tail_fresh {P : Name → Expr → Prop} {xs : List Name} {bs : List Expr}
    (h : ∀ x ∈ xs.tail, ∀ b ∈ bs, P x b) :
    ∀ pre x a post, xs.zip bs = pre ++ (x, a) :: post → ∀ y ∈ post.map Prod.fst, P y a := by
  intro pre x a post hp y hy
  obtain ⟨⟨y', b⟩, hb, rfl⟩ := List.mem_map.mp hy
  have ha : a ∈ bs := (List.of_mem_zip (hp ▸ (by simp : (x, a) ∈ pre ++ (x, a) :: post))).2
  refine h _ ?_ a ha
  cases xs with
  | nil => simp at hp
  | cons x0 xs =>
    cases bs with
    | nil => simp at ha
    | cons b0 bs =>
      simp only [List.zip_cons_cons] at hp
      simp only [List.tail_cons]
      have : (y', b) ∈ xs.zip bs := by
        cases pre with
        | nil => simp only [List.nil_append, List.cons.injEq] at hp; rw [hp.2]; exact hb
        | cons c pre =>
          simp only [List.cons_append, List.cons.injEq] at hp
          rw [hp.2]; simp [hb]
      exact (List.of_mem_zip this).1

/-- What replacing the parameters of a silent rule yields. -/
theorem replaceArgs_eq (hy : Hygienic u m) (hr : r ∈ m.rules) (hk : r.inlined = false) {f : Rule} (hf : f ∈ m.rules)
    (hi : f.inlined = true) {bs : List Expr} (hl : f.args.length = bs.length) (hb : ∀ b ∈ bs, Made m r b) :
    (replaceArgs (f.args.zip bs) f.node).1 = f.node.subst (sig (f.args.zip bs)) :=
  replaceArgs_subst _ _ (fun x hx => hy.once f hf hi x (zip_fst hl ▸ hx))
    (zip_tail_fresh fun _ hx b hbs => (hb b hbs).fresh hy hr hk hf hi hx)

end

/-! ## Finding silent rules -/

theorem insert_head {v : List Rule} {k w} (rest : SilentMap) (hk : k ≠ none) :
    ∃ rest', SilentMap.insert k w ((none, v) :: rest) = (none, v) :: rest' := by
  unfold SilentMap.insert
  rw [if_neg hk]
  obtain ⟨k, rfl⟩ := Option.ne_none_iff_exists'.mp hk
  simp [keyLt]

theorem insert_keys {k : Option Name} {v : List Rule} {kv : Option Name × List Rule} (l : SilentMap) :
    kv ∈ SilentMap.insert k v l → kv = (k, v) ∨ kv ∈ l := by
  induction l with
  | nil => simp [SilentMap.insert]
  | cons a l ih =>
    unfold SilentMap.insert
    split
    · intro h; rcases List.mem_cons.mp h with h | h
      · exact .inl h
      · exact .inr (List.mem_cons_of_mem _ h)
    · split
      · intro h; exact List.mem_cons.mp h
      · intro h
        rcases List.mem_cons.mp h with h | h
        · exact .inr (h ▸ List.mem_cons_self)
        · exact (ih h).imp id (List.mem_cons_of_mem _)

theorem extend_mem {b : SilentMap} : ∀ {a : SilentMap} {kv}, kv ∈ a.extend b → kv ∈ a ∨ kv ∈ b := by
  induction b with
  | nil => intro a kv h; exact .inl h
  | cons x b ih =>
    intro a kv h
    have : SilentMap.extend a (x :: b) = SilentMap.extend (SilentMap.insert x.1 x.2 a) b := rfl
    rw [this] at h
    rcases ih h with h | h
    · rcases insert_keys _ h with h | h
      · exact .inr (h ▸ List.mem_cons_self)
      · exact .inl h
    · exact .inr (List.mem_cons_of_mem _ h)

theorem extend_head {v : List Rule} {b : SilentMap} : ∀ {rest}, (∀ kv ∈ b, kv.1 ≠ none) →
    ∃ rest', SilentMap.extend ((none, v) :: rest) b = (none, v) :: rest' := by
  induction b with
  | nil => intro rest _; exact ⟨rest, rfl⟩
  | cons x b ih =>
    intro rest h
    obtain ⟨rest', h'⟩ := insert_head (v := v) (w := x.2) rest (h x List.mem_cons_self)
    have : SilentMap.extend ((none, v) :: rest) (x :: b) = SilentMap.extend (SilentMap.insert x.1 x.2 ((none, v) :: rest)) b := rfl
    rw [this, h']
    exact ih fun kv hkv => h kv (List.mem_cons_of_mem _ hkv)

/-- What the collected map contains. -/
def FromMod (m : Module) (key : Option Name) (kv : Option Name × List Rule) : Prop :=
  ∃ m', ModIn m' m ∧ kv.2 = m'.rules.filter Rule.inlined ∧ (kv.1 = key ∨ kv.1 ≠ none)

theorem collectSilentImports_from {m : Module} {key} {imports : List Import} (hsub : ∀ i ∈ imports, i ∈ m.imports)
    (ih : ∀ x m1, Import.file x m1 ∈ imports → ∀ k, ∀ kv ∈ collectSilent k m1, FromMod m1 k kv) :
    ∀ acc : SilentMap, (∀ kv ∈ acc, FromMod m key kv) → ∀ kv ∈ collectSilentImports imports acc, FromMod m key kv := by
  induction imports with
  | nil => intro acc h kv hkv; exact h kv hkv
  | cons i imports ihl =>
    have ihl := ihl (fun j hj => hsub j (List.mem_cons_of_mem _ hj)) fun x m1 hx => ih x m1 (List.mem_cons_of_mem _ hx)
    intro acc h kv hkv
    cases i with
    | builtin x p => exact ihl acc h kv hkv
    | file x m1 =>
      refine ihl _ (fun kv hkv => ?_) kv hkv
      rcases extend_mem hkv with hkv | hkv
      · exact h kv hkv
      · obtain ⟨m', a1, a2, a3⟩ := ih x m1 List.mem_cons_self _ kv hkv
        exact ⟨m', .step (hsub _ List.mem_cons_self) a1, a2, .inr (a3.elim (fun e => by simp [e]) id)⟩

theorem collectSilentImports_head {v : List Rule} {imports : List Import}
    (ih : ∀ x m1, Import.file x m1 ∈ imports → ∀ kv ∈ collectSilent (some x) m1, kv.1 ≠ none) :
    ∀ rest, ∃ rest', collectSilentImports imports ((none, v) :: rest) = (none, v) :: rest' := by
  induction imports with
  | nil => intro rest; exact ⟨rest, rfl⟩
  | cons i imports ihl =>
    have ihl := ihl fun x m1 hx => ih x m1 (List.mem_cons_of_mem _ hx)
    intro rest
    cases i with
    | builtin x p => exact ihl rest
    | file x m1 =>
      obtain ⟨rest', h'⟩ := extend_head (v := v) (rest := rest) (ih x m1 List.mem_cons_self)
      simp only [collectSilentImports, h']
      exact ihl rest'

theorem collectSilent_from (m : Module) : ∀ key, ∀ kv ∈ collectSilent key m, FromMod m key kv := by
  refine Module.rec (motive_1 := fun m => ∀ key, ∀ kv ∈ collectSilent key m, FromMod m key kv)
    (motive_2 := fun i => ∀ x m1, i = .file x m1 → ∀ k, ∀ kv ∈ collectSilent k m1, FromMod m1 k kv)
    (motive_3 := fun l => ∀ x m1, Import.file x m1 ∈ l → ∀ k, ∀ kv ∈ collectSilent k m1, FromMod m1 k kv)
    ?_ ?_ ?_ ?_ ?_ m
  · intro rules imports ih key kv hkv
    simp only [collectSilent] at hkv
    refine collectSilentImports_from (m := .mk rules imports) (imports := imports) (fun _ h => h) ih _ (fun kv h => ?_) kv hkv
    simp only [SilentMap.insert, List.mem_singleton] at h
    subst h
    exact ⟨_, .refl, rfl, .inl rfl⟩
  · intro x p y m1 h; simp at h
  · intro x m1 ih y m2 h
    simp only [Import.file.injEq] at h
    obtain ⟨rfl, rfl⟩ := h
    exact ih
  · intro x m1 h; simp at h
  · intro i l ih1 ih2 x m1 h
    rcases List.mem_cons.mp h with h | h
    · exact ih1 x m1 h.symm
    · exact ih2 x m1 h

theorem collectSilent_head (m : Module) : ∃ rest, collectSilent none m = (none, m.rules.filter Rule.inlined) :: rest := by
  obtain ⟨rules, imports⟩ := m
  exact collectSilentImports_head (fun x m1 _ kv hkv => by
    obtain ⟨_, _, _, h⟩ := collectSilent_from m1 _ kv hkv
    exact h.elim (fun e => by simp [e]) id) []

theorem getRule_mem {rules : List Rule} {x f} (h : getRule rules x = some f) : f ∈ rules ∧ f.name = x := by
  have h1 := List.mem_of_find?_eq_some h
  have h2 := List.find?_some h
  exact ⟨by simpa using h1, by simpa using h2⟩

theorem findSilent_name {m : Module} {x f} (h : findSilent (collectSilent none m) x = some f) : SilentName m x := by
  obtain ⟨kv, h1, h2⟩ := List.exists_of_findSome?_eq_some h
  obtain ⟨m', a1, a2, _⟩ := collectSilent_from m _ kv h1
  obtain ⟨b1, b2⟩ := getRule_mem h2
  rw [a2] at b1
  obtain ⟨c1, c2⟩ := List.mem_filter.mp b1
  exact ⟨m', a1, f, c1, c2, b2⟩

theorem findSilent_root {m : Module} (hn : (m.rules.map Rule.name).Nodup) {f : Rule} (hf : f ∈ m.rules) (hi : f.inlined = true) :
    findSilent (collectSilent none m) f.name = some f := by
  obtain ⟨rest, h⟩ := collectSilent_head m
  rw [h]
  unfold findSilent
  rw [List.findSome?_cons]
  have h1 : getRule (m.rules.filter Rule.inlined) f.name = some f := by
    cases hg : getRule (m.rules.filter Rule.inlined) f.name with
    | none =>
      have := List.find?_eq_none.mp hg f (by simp [hf, hi])
      simp at this
    | some g =>
      obtain ⟨b1, b2⟩ := getRule_mem hg
      have hgm := (List.mem_filter.mp b1).1
      have e1 := findRule_eq hn hf
      have e2 := findRule_eq hn hgm
      rw [b2, e1] at e2
      exact e2.symm
  rw [h1]

/-- Of several rules of one name the last is found. -/
theorem findSilent_last {m : Module} {f : Rule} {pre post : List Rule} (hm : m.rules = pre ++ f :: post) (hi : f.inlined = true)
    (hl : ∀ g ∈ post, g.inlined = true → g.name ≠ f.name) : findSilent (collectSilent none m) f.name = some f := by
  obtain ⟨rest, h⟩ := collectSilent_head m
  rw [h]
  unfold findSilent
  rw [List.findSome?_cons]
  have h1 : getRule (m.rules.filter Rule.inlined) f.name = some f := by
    rw [hm, List.filter_append, List.filter_cons_of_pos hi]
    unfold getRule
    rw [List.reverse_append, List.reverse_cons, List.find?_append, List.find?_append, List.find?_eq_none.mpr]
    · simp
    · intro g hg
      rw [List.mem_reverse, List.mem_filter] at hg
      simpa using hl g hg.1 hg.2
  rw [h1]

end Pest3.Gen
