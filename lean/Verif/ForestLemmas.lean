import Verif.ForestSpec
import Verif.Reflect
import Verif.PairLemmas
import Verif.LinkGen

namespace Pest3.Gen
open Pest3

/-! ## Every match has tokens -/

theorem meaning_shows {u : Unicode} {root : Module} {item : SItem} {c : Cfg} {r : Option Cfg}
    (h : Meaning u root item c r) : ∀ c', r = some c' → (∀ p t, item ≠ .trivia p t) → ∃ F, Shows u root item c c' F := by
  induction h with
  | literalOk h1 h2 h3 => rintro c' ⟨⟩ -; exact ⟨_, .literal h1 (.literalOk h1 h2 h3)⟩
  | builtinOk h1 h2 h3 h4 h5 h6 => rintro c' ⟨⟩ -; exact ⟨_, .builtin h1 h2 h3 h4 (.builtinOk h1 h2 h3 h4 h5 h6)⟩
  | sliceOk h1 h2 h3 h4 h5 => rintro c' ⟨⟩ -; exact ⟨_, .slice (.sliceOk h1 h2 h3 h4 h5)⟩
  | pushOk h1 h2 _ ih =>
    rintro c' ⟨⟩ -
    obtain ⟨F, hF⟩ := ih _ rfl (by simp)
    exact ⟨F, .push h1 h2 hF⟩
  | param h1 _ ih =>
    intro c' hr _
    obtain ⟨F, hF⟩ := ih _ hr (by simp)
    exact ⟨F, .param h1 hF⟩
  | rule h1 h2 h3 _ ih =>
    intro c' hr _
    obtain ⟨F, hF⟩ := ih _ hr (by simp)
    exact ⟨_, .rule h1 h2 h3 hF⟩
  | call h1 h2 h3 _ ih =>
    intro c' hr _
    obtain ⟨F, hF⟩ := ih _ hr (by simp)
    exact ⟨_, .call h1 h2 h3 hF⟩
  | posOk h ih => rintro c' ⟨⟩ -; exact ⟨_, .pos (.posOk h)⟩
  | negOk h ih => rintro c' ⟨⟩ -; exact ⟨_, .neg (.negOk h)⟩
  | seq _ h2 _ ih1 _ ih3 =>
    intro c' hr _
    obtain ⟨F, hF⟩ := ih1 _ rfl (by simp)
    obtain ⟨G, hG⟩ := ih3 _ hr (by simp)
    exact ⟨_, .seq hF h2 hG⟩
  | choiceL _ ih =>
    rintro c' ⟨⟩ -
    obtain ⟨F, hF⟩ := ih _ rfl (by simp)
    exact ⟨F, .choiceL hF⟩
  | choiceR h1 _ _ ih =>
    intro c' hr _
    obtain ⟨F, hF⟩ := ih _ hr (by simp)
    exact ⟨F, .choiceR h1 hF⟩
  | optSome _ ih =>
    rintro c' ⟨⟩ -
    obtain ⟨F, hF⟩ := ih _ rfl (by simp)
    exact ⟨F, .optSome hF⟩
  | optNone h _ => rintro c' ⟨⟩ -; exact ⟨_, .optNone h⟩
  | rep h1 _ ih =>
    intro c' hr _
    obtain ⟨F, hF⟩ := ih _ hr (by simp)
    exact ⟨F, .rep h1 hF⟩
  | separated _ ih =>
    intro c' hr _
    obtain ⟨F, hF⟩ := ih _ hr (by simp)
    exact ⟨F, .separated hF⟩
  | triviaNone => intro c' _ h; exact absurd rfl (h _ _)
  | triviaRule _ _ _ _ => intro c' _ h; exact absurd rfl (h _ _)
  | unitFirst _ ih =>
    intro c' hr _
    obtain ⟨F, hF⟩ := ih _ hr (by simp)
    exact ⟨F, .unitFirst hF⟩
  | unitNext h1 _ _ ih =>
    intro c' hr _
    obtain ⟨F, hF⟩ := ih _ hr (by simp)
    exact ⟨F, .unitNext h1 hF⟩
  | repsMax h => rintro c' ⟨⟩ -; exact ⟨_, .repsMax h⟩
  | repsMore h _ _ ih1 ih2 =>
    intro c' hr _
    obtain ⟨F, hF⟩ := ih1 _ rfl (by simp)
    obtain ⟨G, hG⟩ := ih2 _ hr (by simp)
    exact ⟨_, .repsMore h hF hG⟩
  | repsStop h1 h2 h3 _ => rintro c' ⟨⟩ -; exact ⟨_, .repsStop h1 h2 h3⟩
  | _ => intro c' hr; simp at hr

/-! ## Leaves have none -/

/-- Nodes made of leaves and choices. -/
inductive Flat : Node → Prop
  | leaf {l} : Flat (.leaf l)
  | choice {l} : (∀ n ∈ l, Flat n) → Flat (.choice l)

theorem flat_leafNode (u : Unicode) (k : CLeaf) : Flat (leafNode u k) := by
  have r : ∀ lo hi, Flat (rangeNode lo hi) := fun _ _ => .leaf
  have ite : ∀ (P : Prop) [Decidable P] (a b : Node), Flat a → Flat b → Flat (if P then a else b) := by
    intro P _ a b ha hb; split <;> assumption
  have one : ∀ n : Node, Flat n → ∀ l, (∀ n ∈ l, Flat n) → ∀ a ∈ n :: l, Flat a := by
    intro n hn l hl a ha
    rcases List.mem_cons.mp ha with rfl | ha
    · exact hn
    · exact hl a ha
  cases k with
  | builtin x =>
    simp only [leafNode, builtinNode]
    repeat' first
      | exact .leaf
      | exact r _ _
      | apply ite
      | apply Flat.choice
      | apply one
      | simp
  | slice1 name a => simp only [leafNode]; split <;> exact .leaf
  | slice2 name a b => simp only [leafNode]; split <;> exact .leaf
  | _ => exact .leaf

section
variable {env : Env} {lab : Label → RuleVal}

theorem alts_split {l : List Node} {c c' : Cfg} (h : Peg env (.alts l) c (some c')) :
    ∃ pre a post, l = pre ++ a :: post ∧ (∀ b ∈ pre, Peg env (.node b) c none) ∧ Peg env (.node a) c (some c') := by
  induction l with
  | nil => cases h
  | cons a l ih =>
    cases h with
    | altsHit h => exact ⟨[], a, l, rfl, by simp, h⟩
    | altsMiss h1 h2 =>
      obtain ⟨pre, b, post, rfl, h3, h4⟩ := ih h2
      refine ⟨a :: pre, b, post, rfl, fun x hx => ?_, h4⟩
      rcases List.mem_cons.mp hx with rfl | hx
      · exact h1
      · exact h3 x hx

theorem flat_emits {n : Node} (hf : Flat n) : ∀ {c c' : Cfg}, Peg env (.node n) c (some c') →
    Emits env lab (.node n) c c' [] := by
  induction hf with
  | leaf => exact fun h => .leaf h
  | choice _ ih =>
    intro c c' h
    obtain ⟨pre, a, post, rfl, h1, h2⟩ := alts_split (peg_choice.mp h)
    exact .choice h1 (ih a (by simp) h2)

end

/-! ## The tokens of the generated parser -/

section
variable {u : Unicode} {root : Module} {R : Layout} {env : Env} {lab : Label → RuleVal}

/-- Rules of the compiled program have the names and are as silent as in the grammar. -/
def Visible (u : Unicode) (root : Module) (R : Layout) (env : Env) (lab : Label → RuleVal) : Prop :=
  ∀ p q p' r ts, target u root p q = some (.rule p' r) → ts.length = r.args.length →
    lab (env (R.num p' r.name ts)).label = ruleAt p' r.name ∧ (env (R.num p' r.name ts)).silent = r.silent

structure ShowE (u : Unicode) (root : Module) (R : Layout) (env : Env) (lab : Label → RuleVal) (p : List Name)
    (σ : List (Name × CTy)) (e : Expr) (c c' : Cfg) (F : List (Pair RuleVal)) : Prop where
  one : ∀ t, Comp u root p σ (.one e t) → Emits env lab (.node (nodeOf u R t)) c c' F
  tail : ∀ tr fs c0, Comp u root p σ (.tail tr e fs) → Peg env (.node (R.triv (p, tr))) c0 (some c) →
    Emits env lab (.fields false (fieldsOf u R fs)) c0 c' F
  alts : ∀ l, Comp u root p σ (.alts e l) → ∃ pre a post, nodesOf u R l = pre ++ a :: post ∧
    (∀ b ∈ pre, Peg env (.node b) c none) ∧ Emits env lab (.node a) c c' F

theorem ShowE.mk' {p σ e c c' F} (h1 : ∀ t, Comp u root p σ (.one e t) → Emits env lab (.node (nodeOf u R t)) c c' F)
    (h2 : ∀ l r' t, e = .seq l r' t → ∀ tr tl fs c0, Comp u root p σ (.one l tl) → Comp u root p σ (.tail t r' fs) →
      Peg env (.node (R.triv (p, tr))) c0 (some c) →
      Emits env lab (.fields false ((R.triv (p, tr), nodeOf u R tl) :: fieldsOf u R fs)) c0 c' F)
    (h3 : ∀ l r', e = .choice l r' → ∀ tl ts, Comp u root p σ (.one l tl) → Comp u root p σ (.alts r' ts) →
      ∃ pre a post, nodeOf u R tl :: nodesOf u R ts = pre ++ a :: post ∧
        (∀ b ∈ pre, Peg env (.node b) c none) ∧ Emits env lab (.node a) c c' F) :
    ShowE u root R env lab p σ e c c' F where
  one := h1
  tail tr fs c0 h ht := by
    cases h with
    | tailLast _ _ h =>
      have := Emits.fieldsNext (lab := lab) ht (h1 _ h) .fieldsNil
      rw [List.append_nil] at this
      exact this
    | tailMore _ hl hr => exact h2 _ _ _ rfl tr _ _ c0 hl hr ht
  alts l h := by
    cases h with
    | altsLast _ h => exact ⟨[], _, [], rfl, by simp, h1 _ h⟩
    | altsMore hl hr => exact h3 _ _ rfl _ _ hl hr

theorem ShowE.plain {p σ e c c' F} (h1 : ∀ t, Comp u root p σ (.one e t) → Emits env lab (.node (nodeOf u R t)) c c' F)
    (h2 : ∀ l r' t, e ≠ .seq l r' t) (h3 : ∀ l r', e ≠ .choice l r') : ShowE u root R env lab p σ e c c' F :=
  .mk' h1 (fun l r' t e => absurd e (h2 l r' t)) fun l r' e => absurd e (h3 l r')

/-- What is shown about each item. -/
def ShowI (u : Unicode) (root : Module) (R : Layout) (env : Env) (lab : Label → RuleVal) :
    SItem → Cfg → Cfg → List (Pair RuleVal) → Prop
  | .expr (.mk p ρ e), c, c', F => ∀ σ, CRel u root (.env ρ σ) → ShowE u root R env lab p σ e c c' F
  | .trivia _ _, _, _, _ => True
  | .unit e p t i, c, c', F => ∀ ty, CRel u root (.clo e ty) →
      Emits env lab (.unit (nodeOf u R ty) (R.triv (p, t)) i) c c' F
  | .reps e p t min max i, c, c', F => ∀ ty, CRel u root (.clo e ty) →
      Emits env lab (.reps (nodeOf u R ty) (R.triv (p, t)) min max i) c c' F

theorem ShowI.clo {e c c' F} (h : ShowI u root R env lab (.expr e) c c' F) {ty} (hr : CRel u root (.clo e ty)) :
    Emits env lab (.node (nodeOf u R ty)) c c' F := by
  cases hr with
  | clo h1 h2 => exact (h _ h1).one _ h2

theorem emits_rule (hv : Visible u root R env lab) {p q p' r ts c c' F t}
    (ht : target u root p q = some (.rule p' r)) (hl : ts.length = r.args.length)
    (hb : (env (R.num p' r.name ts)).body = nodeOf u R t) (h : Emits env lab (.node (nodeOf u R t)) c c' F) :
    Emits env lab (.node (.rule (R.num p' r.name ts))) c c' (tokens p' r c c' F) := by
  obtain ⟨h1, h2⟩ := hv p q p' r ts ht hl
  rw [← hb] at h
  unfold tokens
  split
  · rename_i hs
    exact .silent (h2.trans hs) (.rule h.peg)
  · rename_i hs
    rw [← h1]
    exact .visible (by rw [h2]; simpa using hs) h

theorem shows_emits (hc : Compiled u root R env) (hv : Visible u root R env lab) {item : SItem} {c c' : Cfg}
    {F : List (Pair RuleVal)} (h : Shows u root item c c' F) : ShowI u root R env lab item c c' F := by
  induction h with
  | literal h1 h2 =>
    intro σ hr
    refine .plain (fun t ht => ?_)
      (by rintro _ _ _ rfl; simp [Gen.literal] at h1) (by rintro _ _ rfl; simp [Gen.literal] at h1)
    have hp := (meaning_peg hc h2).clo (.clo hr ht)
    rw [comp_literal h1 ht] at hp ⊢
    exact .leaf hp
  | builtin h1 h2 h3 h4 h5 =>
    intro σ hr
    refine .plain (fun t ht => ?_) (by rintro _ _ _ rfl; simp [plainRef] at h1) (by rintro _ _ rfl; simp [plainRef] at h1)
    have hp := (meaning_peg hc h5).clo (.clo hr ht)
    obtain ⟨k, rfl, hk⟩ := comp_builtin h1 ((crel_notParam hr).mp h2) h3 h4 ht
    rw [nodeOf] at hp ⊢
    exact flat_emits (flat_leafNode u k) hp
  | slice h =>
    intro σ hr
    refine .plain (fun t ht => ?_) (by simp) (by simp)
    have hp := (meaning_peg hc h).clo (.clo hr ht)
    rw [comp_slice ht, nodeOf] at hp ⊢
    exact flat_emits (flat_leafNode u _) hp
  | push h1 h2 _ ih =>
    intro σ hr
    refine .plain (fun t ht => ?_) (by simp) (by simp)
    obtain ⟨t', rfl, h⟩ := comp_push h2 ht
    rw [nodeOf]; exact .push ((ih σ hr).one _ h)
  | param h1 _ ih =>
    intro σ hr
    refine .plain (fun t ht => ?_) (by simp) (by simp)
    rcases crel_lookup hr _ with ⟨h, _⟩ | ⟨c', t', h3, h4, h5⟩
    · rw [h1] at h; simp at h
    · rw [h1] at h3; simp only [Option.some.injEq] at h3; subst h3
      rw [comp_param h4 ht]
      exact ih.clo h5
  | rule h1 h2 h3 _ ih =>
    intro σ hr
    refine .plain (fun t ht => ?_) (by simp) (by simp)
    rw [comp_rule ((crel_notParam hr).mp h1) h2 ht, nodeOf]
    obtain ⟨t', hb, hcomp⟩ := hc.rule _ _ _ _ [] h2 (by simp [h3])
    rw [h3] at hcomp
    exact emits_rule hv h2 (by simp [h3]) hb ((ih _ .nil).one _ hcomp)
  | call h1 h2 h3 _ ih =>
    intro σ hr
    refine .plain (fun t ht => ?_) (by simp) (by simp)
    obtain ⟨ts, rfl, ha, hlen⟩ := comp_call h2 ht
    rw [nodeOf]
    obtain ⟨t', hb, hcomp⟩ := hc.rule _ _ _ _ ts h2 (by rw [hlen, args_length ha])
    exact emits_rule hv h2 (by rw [hlen, args_length ha]) hb ((ih _ (crel_call hr ha _)).one _ hcomp)
  | pos h =>
    intro σ hr
    refine .plain (fun t ht => ?_) (by simp) (by simp)
    have hp := (meaning_peg hc h).clo (.clo hr ht)
    cases ht with
    | pos h =>
      rw [nodeOf] at hp ⊢
      cases hp with
      | positiveOk h1 => exact .positive (.positiveOk h1)
    | builtin h => simp [plainRef] at h
    | rep h => simp [repetition] at h
  | neg h =>
    intro σ hr
    refine .plain (fun t ht => ?_) (by simp) (by simp)
    have hp := (meaning_peg hc h).clo (.clo hr ht)
    cases ht with
    | neg h =>
      rw [nodeOf] at hp ⊢
      cases hp with
      | negativeOk h1 => exact .negative (.negativeOk h1)
    | builtin h => simp [plainRef] at h
    | rep h => simp [repetition] at h
  | seq _ h2 _ ih1 ih3 =>
    intro σ hr
    have htr := meaning_peg hc h2
    simp only [Fwd] at htr
    refine .mk' (fun t ht => ?_) (fun l r' t' e tr tl fs c0 hl htl htr' => ?_) (by simp)
    · cases ht with
      | seq hl htl =>
        rw [nodeOf, fieldsOf]
        exact .seq (.fieldsFirst ((ih1 σ hr).one _ hl) ((ih3 σ hr).tail _ _ _ htl htr))
      | builtin h => simp [plainRef] at h
      | rep h => simp [repetition] at h
    · cases e
      exact .fieldsNext htr' ((ih1 σ hr).one _ hl) ((ih3 σ hr).tail _ _ _ htl htr)
  | choiceL _ ih =>
    intro σ hr
    refine .mk' (fun t ht => ?_) (by simp) (fun l r' e tl ts hl hts => ?_)
    · cases ht with
      | choice hl hts => rw [nodeOf, nodesOf]; exact .choice (pre := []) (by simp) ((ih σ hr).one _ hl)
      | builtin h => simp [plainRef] at h
      | rep h => simp [repetition] at h
    · cases e; exact ⟨[], _, _, rfl, by simp, (ih σ hr).one _ hl⟩
  | @choiceR p ρ el er c c' F h1 _ ih2 =>
    intro σ hr
    have key : ∀ tl ts, Comp u root p σ (.one el tl) → Comp u root p σ (.alts er ts) →
        ∃ pre a post, nodeOf u R tl :: nodesOf u R ts = pre ++ a :: post ∧
          (∀ b ∈ pre, Peg env (.node b) c none) ∧ Emits env lab (.node a) c c' F := by
      intro tl ts hl hts
      obtain ⟨pre, a, post, e, h3, h4⟩ := (ih2 σ hr).alts _ hts
      refine ⟨nodeOf u R tl :: pre, a, post, by rw [e]; rfl, fun b hb => ?_, h4⟩
      rcases List.mem_cons.mp hb with rfl | hb
      · exact (meaning_peg hc h1).clo (.clo hr hl)
      · exact h3 b hb
    refine .mk' (fun t ht => ?_) (by simp) (fun l r' e tl ts hl hts => ?_)
    · cases ht with
      | choice hl hts =>
        obtain ⟨pre, a, post, e, h3, h4⟩ := key _ _ hl hts
        rw [nodeOf, nodesOf, e]
        exact .choice h3 h4
      | builtin h => simp [plainRef] at h
      | rep h => simp [repetition] at h
    · cases e; exact key _ _ hl hts
  | optSome _ ih =>
    intro σ hr
    refine .plain (fun t ht => ?_) (by simp) (by simp)
    cases ht with
    | opt h => rw [nodeOf]; exact .optSome ((ih σ hr).one _ h)
    | builtin h => simp [plainRef] at h
    | rep h => simp [repetition] at h
  | optNone hm =>
    intro σ hr
    refine .plain (fun t ht => ?_) (by simp) (by simp)
    cases ht with
    | opt h => rw [nodeOf]; exact .optNone ((meaning_peg hc hm).clo (.clo hr h))
    | builtin h => simp [plainRef] at h
    | rep h => simp [repetition] at h
  | rep h1 _ ih =>
    intro σ hr
    refine .plain (fun t ht => ?_) (by rintro _ _ _ rfl; simp [repetition] at h1)
      (by rintro _ _ rfl; simp [repetition] at h1)
    obtain ⟨t', rfl, h, _⟩ := comp_rep h1 ht
    rw [nodeOf]; exact .rep (ih _ (.clo hr h))
  | separated _ ih =>
    intro σ hr
    refine .plain (fun t ht => ?_) (by simp) (by simp)
    cases ht with
    | separated h => exact (ih σ hr).one _ h
    | builtin h => simp [plainRef] at h
    | rep h => simp [repetition] at h
  | unitFirst _ ih => exact fun ty hr => .unitFirst (ih.clo hr)
  | unitNext h1 _ ih2 => exact fun ty hr => .unitNext (meaning_peg hc h1) (ih2.clo hr)
  | repsMax h => exact fun ty hr => .repsMax h
  | repsMore h _ _ ih1 ih2 => exact fun ty hr => .repsMore h (ih1 _ hr) (ih2 _ hr)
  | repsStop h hm h2 => exact fun ty hr => .repsStop h (meaning_peg hc hm _ hr) h2

/-- The tokens a closure shows are those of the closed type it is compiled to. -/
theorem shows_iff_emits (hc : Compiled u root R env) (hv : Visible u root R env lab) {clo : Clo} {t : CTy}
    (h : CRel u root (.clo clo t)) {c c' : Cfg} {F : List (Pair RuleVal)} :
    Shows u root (.expr clo) c c' F ↔ Emits env lab (.node (nodeOf u R t)) c c' F := by
  constructor
  · exact fun hs => (shows_emits hc hv hs).clo h
  · intro he
    obtain ⟨G, hG⟩ := meaning_shows ((meaning_iff_peg hc h).mpr he.peg) _ rfl (by simp)
    obtain ⟨_, rfl⟩ := he.det ((shows_emits hc hv hG).clo h)
    exact hG

end

/-! ## Labels -/

theorem foldl_sub (l : List Name) (v : RuleVal) (x : Name) (p : List Name) :
    v = ruleAt p x → l.foldl (fun v x => cvtInto x v) v = ruleAt (l.reverse ++ p) x := by
  induction l generalizing v p with
  | nil => exact id
  | cons a l ih =>
    intro h
    rw [List.foldl_cons, ih (cvtInto a v) (a :: p) (by rw [h]; rfl)]
    simp

theorem ruleValue_eq (pfx : List Name) (n : Nat) (x : Name) : ruleValue pfx n x = ruleAt (pfx.drop (pfx.length - n)) x := by
  unfold ruleValue
  rw [foldl_sub _ (.rule x) x [] rfl, List.append_nil, List.reverse_take, List.reverse_reverse, List.length_reverse]

theorem ruleValue_full (pfx : List Name) (x : Name) : ruleValue pfx pfx.length x = ruleAt pfx x := by
  rw [ruleValue_eq, Nat.sub_self]; rfl

theorem visible_of {cfg : Config} {names : List Name} {table : Name → Char → Bool} {root : Module} {out : Output}
    {sys : ModSys} {st' : GenSt} (hg : GenMod cfg (makeGlobal names) (.mod root out sys) GenSt.new st') {R : Layout}
    {env : Env} {lab : Label → RuleVal} (hl : Linked (unicodeOf names table) out st'.wrappers R env)
    (hlab : Labelled out R env lab) {p : List Name} {m : Module} {r : Rule} {ts : List CTy}
    (hm : modAt root p = some m) (hf : findRule m.rules r.name = some r) (h1 : r.name ≠ optName) (h2 : r.name ≠ manName)
    (hlen : ts.length = r.args.length) :
    lab (env (R.num p r.name ts)).label = ruleAt p r.name ∧ (env (R.num p r.name ts)).silent = r.silent := by
  obtain ⟨o, sys1, st1, st2, ho, hgm, hpre, hw1, hin⟩ := genMod_at p hg WfSt.new hm
  have hr := (findRule_mem hf).1
  cases hgm with
  | @mk rules imports outs sys2 _ reach content opt man _ stx _ a1 a2 a3 a4 =>
    obtain ⟨_, i2, _⟩ := genRules_struct (processRuleList_gen _ _ _ _ _ a4) (genMod_wf a1 hw1)
    obtain ⟨s, hs, e1, e2, e3, _⟩ := i2 r hr h1 h2
    have hl' := (hl.rule p _ s ts ho hs (by rw [e2]; exact hlen)).2
    have hb' := hlab p _ s ts ho hs (by rw [e2]; exact hlen)
    rw [e1] at hl' hb'
    rw [ruleValue_full] at hb'
    exact ⟨hb', hl'.trans e3⟩

end Pest3.Gen
