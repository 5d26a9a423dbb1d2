import Verif.AccessorLemmas
import Verif.GenLink
import Verif.BuildLemmas

/-!
# The references in a built value are the ones that were matched
-/

namespace Pest3.Gen
open Pest3

theorem refName_param {u root p params x} (h : x ∈ params) : refName u root p params [x] = some x := by
  simp [refName, h]

theorem refName_target {u root p params q} (h : ∀ x ∈ params, q ≠ [x]) :
    refName u root p params q = targetName u root p q := by
  unfold refName
  split
  · rename_i x
    rw [if_neg fun hx => h x hx rfl]
  · rfl

/-! ## Names -/

/-- The name of the entry made by a node. -/
def ModNode.entry (q : List Name) : ModNode → Name
  | .absolute x _ => x
  | _ => q.getLastD []

theorem get_getter {n : ModNode} {q args ty g} (h : n.get q args = some (ty, g)) :
    g = [(n.entry q, .rule ty)] := by
  have fin : ∀ {t : Ty} {y : Name}, some (t, [(y, GNode.rule t)]) = some (ty, g) → g = [(y, .rule ty)] := by
    intro t y h
    simp only [Option.some.injEq, Prod.mk.injEq] at h
    obtain ⟨rfl, rfl⟩ := h; rfl
  cases n with
  | collection ch => simp [ModNode.get] at h
  | absolute x i =>
    simp only [ModNode.get] at h
    split at h
    · exact fin h
    · exact fin h
    · simp at h
  | rule argc =>
    simp only [ModNode.get] at h
    split at h
    · exact fin h
    · split at h
      · exact fin h
      · simp at h
    · simp at h
    · simp at h
    · split at h
      · exact fin h
      · simp at h
  | builtin d sl cl =>
    simp only [ModNode.get] at h
    split at h
    · split at h
      · exact fin h
      · simp at h
    · split at h
      · simp at h
      · split at h
        · exact fin h
        · exact fin h
    · split at h
      · simp at h
      · exact fin h
      · split at h
        · exact fin h
        · simp at h

theorem getLast?_getLastD {q : List Name} (h : q ≠ []) : q.getLast? = some (q.getLastD []) := by
  rw [List.getLastD_eq_getLast?, List.getLast?_eq_some_getLast h]; rfl

theorem builtin_getter {names : List Name} {full q : List Name} {n : ModNode} {args ty g} (hq : q ≠ [])
    (hb : BuiltinAt names full n) (hlast : full.getLast? = q.getLast? ∨ ∃ a b, n = .absolute a b)
    (h : n.get q args = some (ty, g)) : ∃ y, full.getLast? = some y ∧ g = [(y, .rule ty)] := by
  have hg := get_getter h
  cases hb with
  | leaf h1 h2 => exact ⟨_, by rw [hlast.resolve_right (by simp), getLast?_getLastD hq]; rfl, hg⟩
  | push => exact ⟨_, by rw [hlast.resolve_right (by simp), getLast?_getLastD hq]; rfl, hg⟩
  | unicode hx => exact ⟨_, rfl, hg⟩

theorem resolve_getter {names : List Name} {table : Name → Char → Bool} {root m : Module} {cur : List Name} {sys : ModSys}
    (hp : sys.pest = makeGlobal names) (hn : NodeOk names (unicodeOf names table) m sys.root)
    (hm : modAt root cur = some m) {q : List Name} {args : PArgs} {ty : Ty} {g : Getter}
    (h : sys.resolve q args = some (ty, g)) :
    ∃ y, targetName (unicodeOf names table) root cur q = some y ∧ g = [(y, .rule ty)] := by
  unfold ModSys.resolve at h
  cases hr : sys.resolveNode q with
  | none => rw [hr] at h; simp at h
  | some n =>
    rw [hr] at h
    dsimp only at h
    split at h
    · simp at h
    rename_i hq
    have hq : q ≠ [] := by simpa using hq
    have hcoll : ∀ ch, n ≠ .collection ch := fun ch e => by subst e; simp [ModNode.get] at h
    have hdesc : ∀ n : ModNode, n.resolveNode q = n.descend q := fun n => by
      cases q with
      | nil => exact absurd rfl hq
      | cons x q => rfl
    unfold ModSys.resolveNode at hr
    rw [hp, hdesc, hdesc] at hr
    cases hd : (makeGlobal names).descend q with
    | some n' =>
      rw [hd] at hr
      simp only [Option.some.injEq] at hr
      subst hr
      have hb := (pest_descend hq hd).resolve_left fun ⟨ch, e⟩ => hcoll ch e
      obtain ⟨y, h1, h2⟩ := builtin_getter hq hb (.inl rfl) h
      exact ⟨y, by rw [targetName, target, if_pos hb.isBuiltin]; exact h1, h2⟩
    | none =>
      rw [hd] at hr
      dsimp only at hr
      have hnb : ¬ IsBuiltin (unicodeOf names table) q := fun hb => by
        obtain ⟨n', hn'⟩ := pest_complete hb
        rw [hd] at hn'; simp at hn'
      have ht : target (unicodeOf names table) root cur q = lookupIn (unicodeOf names table) m cur q := by
        rw [target, if_neg hnb, hm]
      rcases hn.2 q n hq hr hcoll cur with ⟨r, h1, rfl, h3⟩ | ⟨full, h1, h2, h3⟩
      · rw [h1] at ht
        have hg := get_getter h
        exact ⟨r.name, by rw [targetName, ht], by rw [hg, ← getLastD_of h3]; rfl⟩
      · obtain ⟨y, h4, h5⟩ := builtin_getter hq h2 h3 h
        exact ⟨y, by rw [targetName, ht, h1]; exact h4, h5⟩

/-! ## Matched references -/

section
variable {u : Unicode} {root : Module} {R : Layout} {env : Env} {inp : Str} {p : List Name} {ρ : List (Name × Clo)}
  {σ : List (Name × CTy)} {x : Name}

/-- The value `t` was built by the code generated for the reference, where the reference was matched. -/
def Answers (u : Unicode) (root : Module) (R : Layout) (env : Env) (inp : Str) (p : List Name) (σ : List (Name × CTy))
    (o : Occ) (t : Tree) : Prop :=
  ∃ ty ss ss', Comp u root p σ (.one o.e ty) ∧ Builds env inp (.node (nodeOf u R ty)) o.start ss o.stop ss' [t]

theorem builds_one {n : Node} {c ss c' ss' ts} (h : Builds env inp (.node n) c ss c' ss' ts) : ∃ t, ts = [t] := by
  cases h <;> exact ⟨_, rfl⟩

theorem nodesOf_split {ts : List CTy} {pre a post} (h : nodesOf u R ts = pre ++ a :: post) :
    ∃ pre' t post', ts = pre' ++ t :: post' ∧ pre = nodesOf u R pre' ∧ a = nodeOf u R t := by
  induction ts generalizing pre with
  | nil => simp [nodesOf] at h
  | cons t ts ih =>
    cases pre with
    | nil =>
      simp only [nodesOf, List.nil_append, List.cons.injEq] at h
      exact ⟨[], t, ts, rfl, rfl, h.1.symm⟩
    | cons b pre =>
      simp only [nodesOf, List.cons_append, List.cons.injEq] at h
      obtain ⟨pre', t', post', rfl, rfl, rfl⟩ := ih h.2
      exact ⟨t :: pre', t', post', rfl, by rw [nodesOf, h.1], rfl⟩

variable (u root R env inp p ρ σ x) in
/-- What is shown about an expression and a type. -/
def Track (e : Expr) (ty : CTy) : Prop :=
  ∀ {c ss c' ss' t}, Builds env inp (.node (nodeOf u R ty)) c ss c' ss' [t] →
    ∃ L : List (Occ × Tree), Finds u root p ρ x (.expr e) c c' (L.map Prod.fst) ∧
      Occs (refName u root p (ρ.map Prod.fst)) x (.one e t) (L.map Prod.snd) ∧
      ∀ ot ∈ L, Answers u root R env inp p σ ot.1 ot.2

theorem track_ref (hc : Compiled u root R env) (hr : CRel u root (.env ρ σ)) {e q ty} (he : refPath e = some q)
    (hcomp : Comp u root p σ (.one e ty)) : Track u root R env inp p ρ σ x e ty := by
  intro c ss c' ss' t hb
  have hm := (meaning_iff_peg hc (.clo hr hcomp)).mpr hb.peg
  by_cases hx : refName u root p (ρ.map Prod.fst) q = some x
  · refine ⟨[(⟨e, c, c'⟩, t)], .hit he hx hm, .hit he hx, fun ot h => ?_⟩
    cases List.mem_singleton.mp h
    exact ⟨ty, ss, ss', hcomp, hb⟩
  · exact ⟨[], .miss he hx hm, .miss he hx, by simp⟩

theorem track_literal (hc : Compiled u root R env) (hr : CRel u root (.env ρ σ)) {e l ty} (he : literal e = some l)
    (hcomp : Comp u root p σ (.one e ty)) : Track u root R env inp p ρ σ x e ty := by
  intro c ss c' ss' t hb
  exact ⟨[], .literal he ((meaning_iff_peg hc (.clo hr hcomp)).mpr hb.peg), .literal he, by simp⟩

theorem trivia_peg (hc : Compiled u root R env) {t : Trivia} (ht : TriviaAt root p t) {c r}
    (h : Peg env (.node (R.triv (p, t))) c r) : Meaning u root (.trivia p t) c r :=
  NL.triv hc (peg_meaning hc h) h ht rfl

theorem track_reps (hc : Compiled u root R env) (hr : CRel u root (.env ρ σ)) {e ty tr min max}
    (ht : TriviaAt root p tr) (hcomp : Comp u root p σ (.one e ty)) (ih : Track u root R env inp p ρ σ x e ty)
    (ts : List Tree) : ∀ {i c ss c' ss'},
    Builds env inp (.reps (nodeOf u R ty) (R.triv (p, tr)) min max i) c ss c' ss' ts →
    ∃ L : List (Occ × Tree), Finds u root p ρ x (.reps e tr min max i) c c' (L.map Prod.fst) ∧
      Occs (refName u root p (ρ.map Prod.fst)) x (.all e ts) (L.map Prod.snd) ∧
      ∀ ot ∈ L, Answers u root R env inp p σ ot.1 ot.2 := by
  induction ts with
  | nil =>
    intro i c ss c' ss' h
    cases h with
    | repsMax h => exact ⟨[], .repsMax h, .allNil, by simp⟩
    | repsStop h1 h2 h3 => exact ⟨[], .repsStop h1 (peg_meaning hc h2 _ _ _ _ (.clo hr hcomp) ht rfl rfl) h3, .allNil, by simp⟩
  | cons t ts ihts =>
    intro i c ss c' ss' h
    cases h with
    | repsMore h1 h2 h3 =>
      obtain ⟨L2, f2, o2, a2⟩ := ihts h3
      cases h2 with
      | unitFirst h2 =>
        obtain ⟨L1, f1, o1, a1⟩ := ih h2
        refine ⟨L1 ++ L2, by rw [List.map_append]; exact .repsFirst h1 f1 f2, by rw [List.map_append]; exact .allCons o1 o2,
          fun ot h => (List.mem_append.mp h).elim (a1 ot) (a2 ot)⟩
      | unitNext h0 h2 =>
        obtain ⟨L1, f1, o1, a1⟩ := ih h2
        refine ⟨L1 ++ L2, by rw [List.map_append]; exact .repsNext h1 (trivia_peg hc ht h0.peg) f1 f2,
          by rw [List.map_append]; exact .allCons o1 o2, fun ot h => (List.mem_append.mp h).elim (a1 ot) (a2 ot)⟩

/-- The references in the value built for an expression are those matched, in the same order. -/
theorem comp_track (hc : Compiled u root R env) (hr : CRel u root (.env ρ σ)) {item} (h : Comp u root p σ item) :
    match item with
    | .one e ty => Track u root R env inp p ρ σ x e ty
    | .tail tr e fs => ∀ {c ss c' ss' ts}, Builds env inp (.fields false (fieldsOf u R fs)) c ss c' ss' ts →
        ∃ c1, ∃ L : List (Occ × Tree), Meaning u root (.trivia p tr) c (some c1) ∧
          Finds u root p ρ x (.expr e) c1 c' (L.map Prod.fst) ∧
          Occs (refName u root p (ρ.map Prod.fst)) x (.tail e ts) (L.map Prod.snd) ∧
          ∀ ot ∈ L, Answers u root R env inp p σ ot.1 ot.2
    | .alts e l => ∀ {pre a post c ss c' ss' t}, nodesOf u R l = pre ++ a :: post →
        (∀ b ∈ pre, Peg env (.node b) c none) → Builds env inp (.node a) c ss c' ss' [t] →
        ∃ L : List (Occ × Tree), Finds u root p ρ x (.expr e) c c' (L.map Prod.fst) ∧
          Occs (refName u root p (ρ.map Prod.fst)) x (.alts e pre.length t) (L.map Prod.snd) ∧
          ∀ ot ∈ L, Answers u root R env inp p σ ot.1 ot.2
    | .args _ _ => True := by
  induction h with
  | str => exact track_literal hc hr rfl .str
  | insens => exact track_literal hc hr rfl .insens
  | range => exact track_literal hc hr rfl .range
  | param h => exact track_ref hc hr rfl (.param h)
  | @builtin e q full l k h1 h2 h3 h4 h5 =>
    refine track_ref hc hr (q := q) ?_ (.builtin h1 h2 h3 h4 h5)
    unfold plainRef at h1
    split at h1 <;> first | exact h1 | simp at h1
  | slice h1 h2 => exact track_ref hc hr rfl (.slice h1 h2)
  | push h1 h2 h3 => exact track_ref hc hr rfl (.push h1 h2 h3)
  | rule h1 h2 h3 => exact track_ref hc hr rfl (.rule h1 h2 h3)
  | call h1 h2 h3 h4 => exact track_ref hc hr rfl (.call h1 h2 h3 h4)
  | pos h ih =>
    intro c ss c' ss' t hb
    rw [nodeOf] at hb
    cases hb with
    | positive hb => obtain ⟨L, f, o, a⟩ := ih hb; exact ⟨L, .pos f, .pos o, a⟩
  | neg h ih =>
    intro c ss c' ss' t hb
    rw [nodeOf] at hb
    cases hb with
    | negative hb => exact ⟨[], .neg ((meaning_iff_peg hc (.clo hr h)).mpr hb), .neg, by simp⟩
  | opt h ih =>
    intro c ss c' ss' t hb
    rw [nodeOf] at hb
    cases hb with
    | optSome hb => obtain ⟨L, f, o, a⟩ := ih hb; exact ⟨L, .optSome f, .optSome o, a⟩
    | optNone hb => exact ⟨[], .optNone ((meaning_iff_peg hc (.clo hr h)).mpr hb), .optNone, by simp⟩
  | seq h1 h2 ih1 ih2 =>
    intro c ss c' ss' t hb
    rw [nodeOf, fieldsOf] at hb
    cases hb with
    | seq hb =>
      cases hb with
      | fieldsFirst b1 b2 =>
        obtain ⟨L1, f1, o1, a1⟩ := ih1 b1
        obtain ⟨c1, L2, m2, f2, o2, a2⟩ := ih2 b2
        exact ⟨L1 ++ L2, by rw [List.map_append]; exact .seq f1 m2 f2, by rw [List.map_append]; exact .seq o1 o2,
          fun ot h => (List.mem_append.mp h).elim (a1 ot) (a2 ot)⟩
  | choice h1 h2 ih1 ih2 =>
    intro c ss c' ss' t hb
    rw [nodeOf] at hb
    generalize hN : Node.choice (nodesOf u R _) = N at hb
    cases hb with
    | choice hpre hb => ?_
    | _ => simp at hN
    rename_i tl ts pre a post t
    injection hN with hN
    rw [nodesOf] at hN
    cases pre with
    | nil =>
      simp only [List.nil_append, List.cons.injEq] at hN
      obtain ⟨L, f, o, a'⟩ := ih1 (hN.1 ▸ hb)
      exact ⟨L, .choiceL f, .choice0 o, a'⟩
    | cons b pre =>
      simp only [List.cons_append, List.cons.injEq] at hN
      obtain ⟨L, f, o, a'⟩ := ih2 hN.2 (fun b hb => hpre b (List.mem_cons_of_mem _ hb)) hb
      refine ⟨L, .choiceR ((meaning_iff_peg hc (.clo hr h1)).mpr ?_) f, .choiceS o, a'⟩
      rw [hN.1]; exact hpre b List.mem_cons_self
  | rep h1 h2 h3 ih =>
    intro c ss c' ss' t hb
    rw [nodeOf] at hb
    cases hb with
    | rep hb =>
      obtain ⟨L, f, o, a⟩ := track_reps hc hr h2 h3 ih _ hb
      exact ⟨L, .rep h1 f, .rep h1 o, a⟩
  | separated h ih =>
    intro c ss c' ss' t hb
    obtain ⟨L, f, o, a⟩ := ih hb
    exact ⟨L, .separated f, .separated o, a⟩
  | tailLast hn ht h ih =>
    intro c ss c' ss' ts hb
    rw [fieldsOf, fieldsOf] at hb
    cases hb with
    | fieldsNext b0 b1 b2 =>
      cases b2
      obtain ⟨L, f, o, a⟩ := ih b1
      exact ⟨_, L, trivia_peg hc ht b0.peg, f, .tailLast hn o, a⟩
  | tailMore ht h1 h2 ih1 ih2 =>
    intro c ss c' ss' ts hb
    rw [fieldsOf] at hb
    cases hb with
    | fieldsNext b0 b1 b2 =>
      obtain ⟨L1, f1, o1, a1⟩ := ih1 b1
      obtain ⟨c1, L2, m2, f2, o2, a2⟩ := ih2 b2
      exact ⟨_, L1 ++ L2, trivia_peg hc ht b0.peg, by rw [List.map_append]; exact .seq f1 m2 f2,
        by rw [List.map_append]; exact .tailMore o1 o2, fun ot h => (List.mem_append.mp h).elim (a1 ot) (a2 ot)⟩
  | altsLast hn h ih =>
    intro pre a post c ss c' ss' t hN hpre hb
    simp only [nodesOf] at hN
    cases pre with
    | nil =>
      simp only [List.nil_append, List.cons.injEq] at hN
      obtain ⟨L, f, o, a'⟩ := ih (hN.1 ▸ hb)
      exact ⟨L, f, .altsLast hn o, a'⟩
    | cons b pre => simp at hN
  | altsMore h1 h2 ih1 ih2 =>
    intro pre a post c ss c' ss' t hN hpre hb
    rw [nodesOf] at hN
    cases pre with
    | nil =>
      simp only [List.nil_append, List.cons.injEq] at hN
      obtain ⟨L, f, o, a'⟩ := ih1 (hN.1 ▸ hb)
      exact ⟨L, .choiceL f, .alts0 o, a'⟩
    | cons b pre =>
      simp only [List.cons_append, List.cons.injEq] at hN
      obtain ⟨L, f, o, a'⟩ := ih2 hN.2 (fun b hb => hpre b (List.mem_cons_of_mem _ hb)) hb
      refine ⟨L, .choiceR ((meaning_iff_peg hc (.clo hr h1)).mpr ?_) f, .altsS o, a'⟩
      rw [hN.1]; exact hpre b List.mem_cons_self
  | argsNil => trivial
  | argsCons => trivial

end

end Pest3.Gen
