import Verif.AccessorTypeSpec
import Verif.AccessorLemmas

/-!
# Lemmas for the types of accessors
-/

namespace Pest3.Gen
open Pest3

theorem flattenable_of : ∀ (g : GNode) (a : ATy), g.declared = .opt a → g.flattenable = true
  | .rule _, _, h => by simp [GNode.declared] at h
  | .arg _, _, h => by simp [GNode.declared] at h
  | .contents _, _, h => by simp [GNode.declared] at h
  | .tuple _, _, h => by simp [GNode.declared] at h
  | .content g, a, h => by simp only [GNode.declared] at h; exact flattenable_of g a h
  | .seqI _ g, a, h => by simp only [GNode.declared] at h; exact flattenable_of g a h
  | .optional false g, _, _ => rfl
  | .choiceI _ false g, _, _ => rfl
  | .optional true g, a, h => by simp only [GNode.declared, if_true] at h; exact flattenable_of g a h
  | .choiceI _ true g, a, h => by simp only [GNode.declared, if_true] at h; exact flattenable_of g a h

/-- The shape of the type of an entry. -/
def GNode.shape (g : GNode) : Shape := g.declared.shape

theorem shape_opt (g : GNode) : (if g.flattenable then g.declared else .opt g.declared).shape = g.shape.optional := by
  unfold GNode.shape
  cases h : g.flattenable with
  | true => obtain ⟨a, e⟩ := declared_opt g h; rw [if_pos rfl, e]; rfl
  | false =>
    rw [if_neg (by simp)]
    cases e : g.declared with
    | opt a => rw [flattenable_of g a e] at h; cases h
    | _ => rfl

theorem shape_wrap (g : GNode) : (g.wrap .content).shape = g.shape ∧ (∀ i, (g.wrap (.contentI i)).shape = g.shape) ∧ (∀ i, (g.wrap (.choiceI i)).shape = g.shape.optional) ∧
    (g.wrap .optional).shape = g.shape.optional ∧ (g.wrap .contents).shape = .vec g.shape := by
  refine ⟨rfl, fun i => rfl, fun i => ?_, ?_, rfl⟩
  · exact shape_opt g
  · exact shape_opt g

theorem shapesOf_map (l : List ATy) : shapesOf l = l.map ATy.shape := by
  induction l with
  | nil => rfl
  | cons a l ih => simp [shapesOf, ih]

theorem declaredAll_map (l : List GNode) : declaredAll l = l.map GNode.declared := by
  induction l with
  | nil => rfl
  | cons a l ih => simp [declaredAll, ih]

theorem shape_packed (l : List GNode) : (packed l).map GNode.shape = together (l.map GNode.shape) := by
  match l with
  | [] => rfl
  | [n] => rfl
  | a :: b :: l =>
    simp only [packed, together, Option.map_some, GNode.shape, GNode.declared, ATy.shape, shapesOf_map, declaredAll_map, List.map_map, List.map_cons]
    rfl

section
variable {nm : List Name → Option Name}

variable (nm) in
/-- The entries have the shapes of the specification. -/
def ShapeOk (e : Expr) (r : Ty × Getter) : Prop :=
  (r.2.map Prod.fst).Nodup ∧ ∀ x, Accesses nm x (.one e ((r.2.find x).map GNode.shape))

variable (nm) in
/-- … for several expressions. -/
inductive ShapeOkAll : List Expr → List (Ty × Getter) → Prop
  | nil : ShapeOkAll [] []
  | cons {e l r rs} : ShapeOk nm e r → ShapeOkAll l rs → ShapeOkAll (e :: l) (r :: rs)

theorem ShapeOkAll.nodup {l rs} (h : ShapeOkAll nm l rs) : ∀ g ∈ rs.map Prod.snd, (g.map Prod.fst).Nodup := by
  induction h with
  | nil => simp
  | cons h1 _ ih =>
    intro g hg
    rcases List.mem_cons.mp hg with rfl | hg
    · exact h1.1
    · exact ih g hg

theorem items_ok (x : Name) (e : Expr) : ∀ (tr : Trivia) (i : Nat) rs, ShapeOkAll nm ((seqTail tr e).map Prod.snd) rs →
    Accesses nm x (.items e ((wrapped .contentI x i (rs.map Prod.snd)).map GNode.shape)) := by
  have step : ∀ (r : Ty × Getter) i, (((r.2.find x).map (·.wrap (.contentI i))).toList.map GNode.shape) = ((r.2.find x).map GNode.shape).toList := by
    intro r i
    cases r.2.find x with
    | none => rfl
    | some n => simp [(shape_wrap n).2.1]
  have base : ∀ (e : Expr) (tr : Trivia) i rs, seqTail tr e = [(tr, e)] → (∀ l r t, e ≠ .seq l r t) → ShapeOkAll nm ((seqTail tr e).map Prod.snd) rs →
      Accesses nm x (.items e ((wrapped .contentI x i (rs.map Prod.snd)).map GNode.shape)) := by
    intro e tr i rs hs hn h
    rw [hs] at h
    cases h with
    | cons h1 h2 =>
      cases h2
      simp only [List.map_cons, List.map_nil, wrapped, List.append_nil, step]
      exact .itemsLast hn (h1.2 x)
  induction e using Expr.ind with
  | seq l r t _ ih =>
    intro tr i rs h
    simp only [seqTail, List.map_cons] at h
    cases h with
    | cons h1 h2 =>
      simp only [List.map_cons, wrapped, List.map_append, step]
      exact .itemsMore (h1.2 x) (ih t (i + 1) _ h2)
  | _ => intro tr i rs h; exact base _ tr i rs rfl (by intros; simp) h

theorem alts_ok (x : Name) (e : Expr) : ∀ (i : Nat) rs, ShapeOkAll nm (choiceTail e) rs →
    Accesses nm x (.alts e ((wrapped .choiceI x i (rs.map Prod.snd)).map GNode.shape)) := by
  have step : ∀ (r : Ty × Getter) i, (((r.2.find x).map (·.wrap (.choiceI i))).toList.map GNode.shape) = (((r.2.find x).map GNode.shape).map Shape.optional).toList := by
    intro r i
    cases r.2.find x with
    | none => rfl
    | some n => simp [(shape_wrap n).2.2.1]
  have base : ∀ (e : Expr) i rs, choiceTail e = [e] → (∀ l r, e ≠ .choice l r) → ShapeOkAll nm (choiceTail e) rs →
      Accesses nm x (.alts e ((wrapped .choiceI x i (rs.map Prod.snd)).map GNode.shape)) := by
    intro e i rs hs hn h
    rw [hs] at h
    cases h with
    | cons h1 h2 =>
      cases h2
      simp only [List.map_cons, List.map_nil, wrapped, List.append_nil, step]
      exact .altsLast hn (h1.2 x)
  induction e using Expr.ind with
  | choice l r _ ih =>
    intro i rs h
    simp only [choiceTail] at h
    cases h with
    | cons h1 h2 =>
      simp only [List.map_cons, wrapped, List.map_append, step]
      exact .altsMore (h1.2 x) (ih (i + 1) _ h2)
  | _ => intro i rs h; exact base _ i rs rfl (by intros; simp) h

theorem shape_seq {l r tr rs} {ty : Ty} (h : ShapeOkAll nm ((collectSequence l r tr).map Prod.snd) rs) :
    ShapeOk nm (.seq l r tr) (ty, joinAll .contentI 0 [] (rs.map Prod.snd)) := by
  refine ⟨nodup_joinAll _ _ _ _ (by simp), fun x => ?_⟩
  have hfind := find_joinAll .contentI x _ h.nodup 0 [] [] rfl (by simp)
  simp only [List.nil_append] at hfind
  rw [hfind, shape_packed]
  have hi := items_ok x (.seq l r tr) .none 0 rs h
  cases h with
  | @cons _ _ r0 rs' h1 h2 =>
    have hi2 := items_ok x r tr 1 _ h2
    simp only [List.map_cons, wrapped, List.map_append]
    have : (((r0.2.find x).map (·.wrap (.contentI 0))).toList.map GNode.shape) = ((r0.2.find x).map GNode.shape).toList := by
      cases r0.2.find x with
      | none => rfl
      | some n => simp [(shape_wrap n).2.1]
    rw [this]
    exact .seq (h1.2 x) hi2

theorem shape_choice {l r rs} {ty : Ty} (h : ShapeOkAll nm (collectChoices l r) rs) :
    ShapeOk nm (.choice l r) (ty, joinAll .choiceI 0 [] (rs.map Prod.snd)) := by
  refine ⟨nodup_joinAll _ _ _ _ (by simp), fun x => ?_⟩
  have hfind := find_joinAll .choiceI x _ h.nodup 0 [] [] rfl (by simp)
  simp only [List.nil_append] at hfind
  rw [hfind, shape_packed]
  cases h with
  | @cons _ _ r0 rs' h1 h2 =>
    have hi2 := alts_ok x r 1 _ h2
    simp only [List.map_cons, wrapped, List.map_append]
    have : (((r0.2.find x).map (·.wrap (.choiceI 0))).toList.map GNode.shape) = (((r0.2.find x).map GNode.shape).map Shape.optional).toList := by
      cases r0.2.find x with
      | none => rfl
      | some n => simp [(shape_wrap n).2.2.1]
    rw [this]
    exact .choice (h1.2 x) hi2

theorem shape_prepend {e e' : Expr} {r : Ty × Getter} {ty : Ty} {edge : Edge} {f : Shape → Shape} (hf : ∀ n : GNode, (n.wrap edge).shape = f n.shape)
    (hs : ∀ x o, Accesses nm x (.one e o) → Accesses nm x (.one e' (o.map f))) (h : ShapeOk nm e r) : ShapeOk nm e' (ty, r.2.prepend edge) := by
  refine ⟨by rw [keys_prepend]; exact h.1, fun x => ?_⟩
  have := hs x _ (h.2 x)
  rw [find_prepend]
  cases hx : r.2.find x with
  | none => rw [hx] at this; exact this
  | some n => rw [hx] at this; simpa [hf] using this

theorem shape_one {e : Expr} {q : List Name} {y : Name} {ty : Ty} {n : GNode} (he : refPath e = some q) (hy : nm q = some y) (hn : n.shape = .ref) : ShapeOk nm e (ty, [(y, n)]) := by
  refine ⟨by simp, fun x => ?_⟩
  simp only [Getter.find]
  by_cases hx : y = x
  · subst hx; rw [if_pos rfl, Option.map_some, hn]; exact .hit he hy
  · rw [if_neg hx]; exact .miss he (by rw [hy]; simpa using hx)

/-- The types of the accessors the generator makes for an expression are those of the specification. -/
theorem gen_shape {params : List Name} {sys : ModSys} (hparam : ∀ x ∈ params, nm [x] = some x)
    (hres : ∀ q args r, (∀ x ∈ params, q ≠ [x]) → sys.resolve q args = some r →
      ∃ y, nm q = some y ∧ r.2 = [(y, .rule r.1)]) {item st st'} (h : GenRel params sys item st st') :
    match item with
    | .one e r => ShapeOk nm e r
    | .all l rs => ShapeOkAll nm l rs := by
  have lit : ∀ {e l ty}, literal e = some l → ShapeOk nm e (ty, []) := fun h => ⟨by simp, fun x => .literal h⟩
  have ref : ∀ {e q args r}, refPath e = some q → (∀ x ∈ params, q ≠ [x]) → sys.resolve q args = some r → ShapeOk nm e r := by
    intro e q args r he hq hr
    obtain ⟨y, h1, h2⟩ := hres _ _ _ hq hr
    have := shape_one (ty := r.1) (n := .rule r.1) he h1 rfl
    rw [← h2] at this
    exact this
  induction h with
  | str => exact lit rfl
  | insens => exact lit rfl
  | range => exact lit rfl
  | param hx => exact shape_one rfl (hparam _ hx) rfl
  | paramSlice hx => exact shape_one rfl (hparam _ hx) rfl
  | paramCall hx => exact shape_one rfl (hparam _ hx) rfl
  | path hq hr => exact ref rfl hq hr
  | slice hq hr => exact ref rfl hq hr
  | call hq _ hr => exact ref rfl hq hr
  | pos _ ih => exact shape_prepend (f := id) (fun n => (shape_wrap n).1) (fun x o h => by simpa using h.pos) ih
  | neg _ _ => exact ⟨by simp, fun x => .neg⟩
  | seq _ ih => exact shape_seq ih
  | choice _ ih => exact shape_choice ih
  | opt _ ih => exact shape_prepend (fun n => (shape_wrap n).2.2.2.1) (fun x o h => h.opt) ih
  | rep _ ih => exact shape_prepend (fun n => (shape_wrap n).2.2.2.2) (fun x o h => .rep rfl h) ih
  | repOnce _ ih => exact shape_prepend (fun n => (shape_wrap n).2.2.2.2) (fun x o h => .rep rfl h) ih
  | repRange _ ih => exact shape_prepend (fun n => (shape_wrap n).2.2.2.2) (fun x o h => .rep rfl h) ih
  | separated _ ih => exact ⟨ih.1, fun x => .separated (ih.2 x)⟩
  | nil => exact .nil
  | cons _ _ ih1 ih2 => exact .cons ih1 ih2

end

/-! ## Values -/

theorem flatten_ty {a b : ATy} (h : a.flatten = some b) : b = a ∧ ∃ c, a = .opt c := by
  cases a <;> simp [ATy.flatten] at h
  subst h; exact ⟨rfl, _, rfl⟩

mutual
/-- What a well-typed accessor returns has the shape of the type. -/
theorem eval_has : ∀ (n : GNode) (ty : Ty) (a : ATy) (t : Tree) (v : AVal), n.typed ty = some a → n.eval t = some v → v.Has a.shape
  | .rule _, ty, a, t, v, h, hv => by
    simp only [GNode.typed, GNode.eval, Option.some.injEq] at h hv; subst h hv; exact .ref
  | .arg _, ty, a, t, v, h, hv => by
    simp only [GNode.typed, GNode.eval, Option.some.injEq] at h hv; subst h hv; exact .ref
  | .content g, ty, a, t, v, h, hv => by
    cases ty <;> simp only [GNode.typed] at h <;> first | contradiction | skip
    cases t <;> simp only [GNode.eval] at hv <;> first | contradiction | skip
    exact eval_has g _ a _ v h hv
  | .seqI i g, ty, a, t, v, h, hv => by
    cases ty <;> simp only [GNode.typed] at h <;> first | contradiction | skip
    cases t <;> simp only [GNode.eval] at hv <;> first | contradiction | skip
    split at h
    · split at hv
      · exact eval_has g _ a _ v h hv
      · contradiction
    · contradiction
  | .optional flat g, ty, a, t, v, h, hv => by
    cases ty <;> simp only [GNode.typed] at h <;> first | contradiction | skip
    split at h
    · rename_i b hb
      have opt : ∃ c, a = .opt c := by
        split at h
        · obtain ⟨rfl, c, rfl⟩ := flatten_ty h; exact ⟨_, rfl⟩
        · injection h with h; exact ⟨_, h.symm⟩
      cases t <;> simp only [GNode.eval] at hv <;> first | contradiction | skip
      · injection hv with hv; subst hv; obtain ⟨c, rfl⟩ := opt; exact .none
      · split at hv
        · rename_i w hw
          have ih := eval_has g _ b _ w hb hw
          cases flat with
          | true =>
            rw [if_pos rfl] at h hv
            obtain ⟨rfl, -⟩ := flatten_ty h
            rw [(flatten_isOpt hv).2]; exact ih
          | false =>
            rw [if_neg (by simp)] at h hv
            injection h with h; injection hv with hv; subst h hv
            exact .some ih
        · contradiction
    · contradiction
  | .choiceI i flat g, ty, a, t, v, h, hv => by
    cases ty <;> simp only [GNode.typed] at h <;> first | contradiction | skip
    split at h
    · split at h
      · rename_i b hb
        have opt : ∃ c, a = .opt c := by
          split at h
          · obtain ⟨rfl, c, rfl⟩ := flatten_ty h; exact ⟨_, rfl⟩
          · injection h with h; exact ⟨_, h.symm⟩
        cases t <;> simp only [GNode.eval] at hv <;> first | contradiction | skip
        split at hv
        · split at hv
          · rename_i w hw
            have ih := eval_has g _ b _ w hb hw
            cases flat with
            | true =>
              rw [if_pos rfl] at h hv
              obtain ⟨rfl, -⟩ := flatten_ty h
              rw [(flatten_isOpt hv).2]; exact ih
            | false =>
              rw [if_neg (by simp)] at h hv
              injection h with h; injection hv with hv; subst h hv
              exact .some ih
          · contradiction
        · injection hv with hv; subst hv; obtain ⟨c, rfl⟩ := opt; exact .none
      · contradiction
    · contradiction
  | .contents g, ty, a, t, v, h, hv => by
    simp only [GNode.typed] at h
    split at h
    · rename_i t' _
      obtain ⟨b, hb, rfl⟩ := Option.map_eq_some_iff.mp h
      cases t <;> simp only [GNode.eval] at hv <;> first | contradiction | skip
      obtain ⟨vs, h1, rfl⟩ := Option.map_eq_some_iff.mp hv
      refine .vec fun w hw => ?_
      have : ∀ (ts : List Tree) (vs : List AVal), ts.mapM (fun t => g.eval t) = some vs → ∀ w ∈ vs, ∃ t, g.eval t = some w := by
        intro ts
        induction ts with
        | nil => intro vs h w hw; simp only [List.mapM_nil, Option.pure_def, Option.some.injEq] at h; subst h; cases hw
        | cons t ts ih =>
          intro vs h w hw
          simp only [List.mapM_cons, Option.bind_eq_bind, Option.pure_def] at h
          cases ht : g.eval t with
          | none => simp [ht] at h
          | some w0 =>
            cases hts : ts.mapM (fun t => g.eval t) with
            | none => simp [ht, hts] at h
            | some ws =>
              simp only [ht, hts, Option.bind_some, Option.some.injEq] at h
              subst h
              rcases List.mem_cons.mp hw with rfl | hw
              · exact ⟨t, ht⟩
              · exact ih ws hts w hw
      obtain ⟨t, ht⟩ := this _ _ h1 w hw
      exact eval_has g _ b t w hb ht
    · contradiction
  | .tuple l, ty, a, t, v, h, hv => by
    simp only [GNode.typed] at h
    obtain ⟨as, h1, rfl⟩ := Option.map_eq_some_iff.mp h
    simp only [GNode.eval] at hv
    obtain ⟨vs, h2, rfl⟩ := Option.map_eq_some_iff.mp hv
    exact .tuple (evalAll_has l ty as t vs h1 h2)
theorem evalAll_has : ∀ (l : List GNode) (ty : Ty) (as : List ATy) (t : Tree) (vs : List AVal), typedAll l ty = some as → evalAll l t = some vs → HasAll vs (shapesOf as)
  | [], ty, as, t, vs, h, hv => by
    simp only [typedAll, evalAll, Option.some.injEq] at h hv; subst h hv; exact .nil
  | n :: l, ty, as, t, vs, h, hv => by
    simp only [typedAll] at h
    simp only [evalAll] at hv
    split at h
    · rename_i a as' h1 h2
      injection h with h; subst h
      split at hv
      · rename_i v vs' h3 h4
        injection hv with hv; subst hv
        exact .cons (eval_has n ty a t v h1 h3) (evalAll_has l ty as' t vs' h2 h4)
      · contradiction
    · contradiction
end

mutual
theorem least_le : ∀ {v : AVal} {s : Shape}, v.Has s → s.least ≤ v.refs.length
  | _, _, .ref => by simp [Shape.least, AVal.refs]
  | _, _, .none => by simp [Shape.least]
  | _, _, .some _ => by simp [Shape.least]
  | _, _, .vec _ => by simp [Shape.least]
  | _, _, .tuple h => by simp only [Shape.least, AVal.refs]; exact leastAll_le h
theorem leastAll_le : ∀ {l : List AVal} {ss : List Shape}, HasAll l ss → leastAll ss ≤ (refsAll l).length
  | _, _, .nil => by simp [leastAll]
  | _, _, .cons h1 h2 => by
    simp only [leastAll, refsAll, List.length_append]
    have := least_le h1
    have := leastAll_le h2
    omega
end

mutual
theorem le_most : ∀ {v : AVal} {s : Shape}, v.Has s → ∀ k, s.most = some k → v.refs.length ≤ k
  | _, _, .ref, k, h => by simp only [Shape.most, Option.some.injEq] at h; subst h; simp [AVal.refs]
  | _, _, .none, k, h => by simp [AVal.refs]
  | _, _, .some h', k, h => by simp only [Shape.most] at h; simp only [AVal.refs]; exact le_most h' k h
  | _, _, .vec _, k, h => by simp [Shape.most] at h
  | _, _, .tuple h', k, h => by simp only [Shape.most] at h; simp only [AVal.refs]; exact le_mostAll h' k h
theorem le_mostAll : ∀ {l : List AVal} {ss : List Shape}, HasAll l ss → ∀ k, mostAll ss = some k → (refsAll l).length ≤ k
  | _, _, .nil, k, h => by simp [refsAll]
  | _, _, .cons h1 h2, k, h => by
    simp only [mostAll] at h
    split at h
    · rename_i a b ha hb
      injection h with h
      have := le_most h1 a ha
      have := le_mostAll h2 b hb
      simp only [refsAll, List.length_append]
      omega
    · contradiction
end

end Pest3.Gen
