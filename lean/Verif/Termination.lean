import Verif.CombLemmas

/-!
# Termination: vocabulary and lemmas

`Needs env (item, c) (item', c')`: evaluating `item` at `c` requires evaluating `item'` at `c'`.
`MayEmpty`, `Heads`: a static over-approximation on grammars, as in the usual PEG well-formedness check.
-/

namespace Pest3

/-- Direct sub-evaluations (in the order they are reached: a later one only if the earlier ones
allow it). -/
inductive Needs (env : Env) : Item × Cfg → Item × Cfg → Prop
  | positive {n c} : Needs env (.node (.positive n), c) (.node n, c)
  | negative {n c} : Needs env (.node (.negative n), c) (.node n, c)
  | push {n c} : Needs env (.node (.push n), c) (.node n, c)
  | opt {n c} : Needs env (.node (.opt n), c) (.node n, c)
  | rep {n tr min max c} : Needs env (.node (.rep n tr min max), c) (.reps n tr min max 0, c)
  | seq {fs c} : Needs env (.node (.seq fs), c) (.fields true fs, c)
  | choice {l c} : Needs env (.node (.choice l), c) (.alts l, c)
  | rule {id c} : Needs env (.node (.rule id), c) (.node (env id).body, c)
  | altsHead {a l c} : Needs env (.alts (a :: l), c) (.node a, c)
  | altsTail {a l c} : Peg env (.node a) c none → Needs env (.alts (a :: l), c) (.alts l, c)
  | firstField {tr n l c} : Needs env (.fields true ((tr, n) :: l), c) (.node n, c)
  | firstRest {tr n l c c'} : Peg env (.node n) c (some c') →
      Needs env (.fields true ((tr, n) :: l), c) (.fields false l, c')
  | fieldTrivia {tr n l c} : Needs env (.fields false ((tr, n) :: l), c) (.node tr, c)
  | field {tr n l c c'} : Peg env (.node tr) c (some c') →
      Needs env (.fields false ((tr, n) :: l), c) (.node n, c')
  | fieldRest {tr n l c c' c''} : Peg env (.node tr) c (some c') → Peg env (.node n) c' (some c'') →
      Needs env (.fields false ((tr, n) :: l), c) (.fields false l, c'')
  | unitFirst {n tr c} : Needs env (.unit n tr 0, c) (.node n, c)
  | unitTrivia {n tr i c} : Needs env (.unit n tr (i + 1), c) (.node tr, c)
  | unitNext {n tr i c c'} : Peg env (.node tr) c (some c') → Needs env (.unit n tr (i + 1), c) (.node n, c')
  | repsUnit {n tr min max i c} : i < max → Needs env (.reps n tr min max i, c) (.unit n tr i, c)
  | repsMore {n tr min max i c c'} : i < max → Peg env (.unit n tr i) c (some c') →
      Needs env (.reps n tr min max i, c) (.reps n tr min max (i + 1), c')

theorem Peg.acc {env : Env} {item : Item} {c : Cfg} {r : Option Cfg} (h : Peg env item c r) :
    Acc (fun y x => Needs env x y) (item, c) := by
  induction h with
  | leafOk _ _ => exact ⟨_, fun y hy => by cases hy⟩
  | leafFail _ => exact ⟨_, fun y hy => by cases hy⟩
  | positiveOk _ ih => exact ⟨_, fun y hy => by cases hy; exact ih⟩
  | positiveFail _ ih => exact ⟨_, fun y hy => by cases hy; exact ih⟩
  | negativeOk _ ih => exact ⟨_, fun y hy => by cases hy; exact ih⟩
  | negativeFail _ ih => exact ⟨_, fun y hy => by cases hy; exact ih⟩
  | pushOk _ ih => exact ⟨_, fun y hy => by cases hy; exact ih⟩
  | pushFail _ ih => exact ⟨_, fun y hy => by cases hy; exact ih⟩
  | optSome _ ih => exact ⟨_, fun y hy => by cases hy; exact ih⟩
  | optNone _ ih => exact ⟨_, fun y hy => by cases hy; exact ih⟩
  | rep _ ih => exact ⟨_, fun y hy => by cases hy; exact ih⟩
  | seq _ ih => exact ⟨_, fun y hy => by cases hy; exact ih⟩
  | choice _ ih => exact ⟨_, fun y hy => by cases hy; exact ih⟩
  | rule _ ih => exact ⟨_, fun y hy => by cases hy; exact ih⟩
  | altsNil => exact ⟨_, fun y hy => by cases hy⟩
  | altsHit h ih =>
    refine ⟨_, fun y hy => ?_⟩
    cases hy with
    | altsHead => exact ih
    | altsTail g => cases h.det g
  | altsMiss h _ ih1 ih2 =>
    refine ⟨_, fun y hy => ?_⟩
    cases hy with
    | altsHead => exact ih1
    | altsTail g => exact ih2
  | fieldsNil => exact ⟨_, fun y hy => by cases hy⟩
  | fieldsFirst h _ ih1 ih2 =>
    refine ⟨_, fun y hy => ?_⟩
    cases hy with
    | firstField => exact ih1
    | firstRest g => cases h.det g; exact ih2
  | fieldsFirstFail h ih1 =>
    refine ⟨_, fun y hy => ?_⟩
    cases hy with
    | firstField => exact ih1
    | firstRest g => cases h.det g
  | fieldsNext h1 h2 _ ih1 ih2 ih3 =>
    refine ⟨_, fun y hy => ?_⟩
    cases hy with
    | fieldTrivia => exact ih1
    | field g => cases h1.det g; exact ih2
    | fieldRest g1 g2 => cases h1.det g1; cases h2.det g2; exact ih3
  | fieldsTriviaFail h1 ih1 =>
    refine ⟨_, fun y hy => ?_⟩
    cases hy with
    | fieldTrivia => exact ih1
    | field g => cases h1.det g
    | fieldRest g1 g2 => cases h1.det g1
  | fieldsNextFail h1 h2 ih1 ih2 =>
    refine ⟨_, fun y hy => ?_⟩
    cases hy with
    | fieldTrivia => exact ih1
    | field g => cases h1.det g; exact ih2
    | fieldRest g1 g2 => cases h1.det g1; cases h2.det g2
  | unitFirst _ ih => exact ⟨_, fun y hy => by cases hy; exact ih⟩
  | unitNext h1 _ ih1 ih2 =>
    refine ⟨_, fun y hy => ?_⟩
    cases hy with
    | unitTrivia => exact ih1
    | unitNext g => cases h1.det g; exact ih2
  | unitTriviaFail h1 ih1 =>
    refine ⟨_, fun y hy => ?_⟩
    cases hy with
    | unitTrivia => exact ih1
    | unitNext g => cases h1.det g
  | repsMax hle =>
    refine ⟨_, fun y hy => ?_⟩
    cases hy with
    | repsUnit h => omega
    | repsMore h => omega
  | repsMore hlt h1 _ ih1 ih2 =>
    refine ⟨_, fun y hy => ?_⟩
    cases hy with
    | repsUnit _ => exact ih1
    | repsMore _ g => cases h1.det g; exact ih2
  | repsFew hlt h1 _ ih1 =>
    refine ⟨_, fun y hy => ?_⟩
    cases hy with
    | repsUnit _ => exact ih1
    | repsMore _ g => cases h1.det g
  | repsStop hlt h1 _ ih1 =>
    refine ⟨_, fun y hy => ?_⟩
    cases hy with
    | repsUnit _ => exact ih1
    | repsMore _ g => cases h1.det g

theorem leaf_total (env : Env) (l : Leaf) (c : Cfg) : ∃ r, Peg env (.node (.leaf l)) c r := by
  cases h : leafSpec l c with
  | none => exact ⟨_, .leafFail h⟩
  | some x =>
    obtain ⟨m, stk⟩ := x
    obtain ⟨rest, hr⟩ := leafSpec_prefix h
    exact ⟨_, .leafOk h hr⟩

theorem push_total {env : Env} {n : Node} {c : Cfg} (h : ∃ r, Peg env (.node n) c r) :
    ∃ r, Peg env (.node (.push n)) c r := by
  obtain ⟨r, h⟩ := h
  cases r with
  | none => exact ⟨_, .pushFail h⟩
  | some c' =>
    obtain ⟨m, h1, h2⟩ := h.consumes c' rfl
    obtain ⟨pre, suf, stk⟩ := c'
    simp only at h1
    subst h1
    exact ⟨_, .pushOk h⟩

theorem acc_peg {env : Env} : ∀ x : Item × Cfg, Acc (fun y x => Needs env x y) x → ∃ r, Peg env x.1 x.2 r := by
  intro x hx
  induction hx with
  | intro x _ ih =>
    obtain ⟨item, c⟩ := x
    cases item with
    | node n =>
      cases n with
      | leaf l => exact leaf_total env l c
      | positive n =>
        obtain ⟨r, h⟩ := ih _ .positive
        cases r with
        | none => exact ⟨_, .positiveFail h⟩
        | some c' => exact ⟨_, .positiveOk h⟩
      | negative n =>
        obtain ⟨r, h⟩ := ih _ .negative
        cases r with
        | none => exact ⟨_, .negativeOk h⟩
        | some c' => exact ⟨_, .negativeFail h⟩
      | push n => exact push_total (ih _ .push)
      | opt n =>
        obtain ⟨r, h⟩ := ih _ .opt
        cases r with
        | none => exact ⟨_, .optNone h⟩
        | some c' => exact ⟨_, .optSome h⟩
      | rep n tr min max => obtain ⟨r, h⟩ := ih _ .rep; exact ⟨r, .rep h⟩
      | seq fs => obtain ⟨r, h⟩ := ih _ .seq; exact ⟨r, .seq h⟩
      | choice l => obtain ⟨r, h⟩ := ih _ .choice; exact ⟨r, .choice h⟩
      | rule id => obtain ⟨r, h⟩ := ih _ .rule; exact ⟨r, .rule h⟩
    | alts l =>
      cases l with
      | nil => exact ⟨_, .altsNil⟩
      | cons a l =>
        obtain ⟨r, h⟩ := ih _ .altsHead
        cases r with
        | some c' => exact ⟨_, .altsHit h⟩
        | none =>
          obtain ⟨r, h'⟩ := ih _ (.altsTail h)
          exact ⟨r, .altsMiss h h'⟩
    | fields first l =>
      cases l with
      | nil => exact ⟨_, .fieldsNil⟩
      | cons f l =>
        obtain ⟨tr, n⟩ := f
        cases first with
        | true =>
          obtain ⟨r, h⟩ := ih _ .firstField
          cases r with
          | none => exact ⟨_, .fieldsFirstFail h⟩
          | some c' =>
            obtain ⟨r, h'⟩ := ih _ (.firstRest h)
            exact ⟨r, .fieldsFirst h h'⟩
        | false =>
          obtain ⟨r, h⟩ := ih _ .fieldTrivia
          cases r with
          | none => exact ⟨_, .fieldsTriviaFail h⟩
          | some c' =>
            obtain ⟨r, h'⟩ := ih _ (.field h)
            cases r with
            | none => exact ⟨_, .fieldsNextFail h h'⟩
            | some c'' =>
              obtain ⟨r, h''⟩ := ih _ (.fieldRest h h')
              exact ⟨r, .fieldsNext h h' h''⟩
    | unit n tr i =>
      cases i with
      | zero => obtain ⟨r, h⟩ := ih _ .unitFirst; exact ⟨r, .unitFirst h⟩
      | succ i =>
        obtain ⟨r, h⟩ := ih _ .unitTrivia
        cases r with
        | none => exact ⟨_, .unitTriviaFail h⟩
        | some c' =>
          obtain ⟨r, h'⟩ := ih _ (.unitNext h)
          exact ⟨r, .unitNext h h'⟩
    | reps n tr min max i =>
      by_cases hlt : i < max
      · obtain ⟨r, h⟩ := ih _ (.repsUnit hlt)
        cases r with
        | none =>
          by_cases hm : i < min
          · exact ⟨_, .repsFew hlt h hm⟩
          · exact ⟨_, .repsStop hlt h (by omega)⟩
        | some c' =>
          obtain ⟨r, h'⟩ := ih _ (.repsMore hlt h)
          exact ⟨r, .repsMore hlt h h'⟩
      · exact ⟨_, .repsMax (by omega)⟩

/-! ## A static condition for termination -/

/-- Leaves that may match the empty text. -/
def Leaf.mayEmpty : Leaf → Prop
  | .str s | .insens s => s = []
  | .skipChar n => n = 0
  | .range _ _ | .chr _ | .prop _ | .any | .none | .newline => False
  | .empty | .soi | .eoi | .peekAll | .peek | .drop | .pop | .popAll | .slice2 _ _ | .slice1 _ => True

/-- The node may match the empty text, given which rules may (`N`). -/
inductive MayEmpty (N : RuleId → Prop) : Node → Prop
  | leaf {l} : l.mayEmpty → MayEmpty N (.leaf l)
  | positive {n} : MayEmpty N (.positive n)
  | negative {n} : MayEmpty N (.negative n)
  | push {n} : MayEmpty N n → MayEmpty N (.push n)
  | opt {n} : MayEmpty N (.opt n)
  | repZero {n tr min max} : min = 0 ∨ max = 0 → MayEmpty N (.rep n tr min max)
  | rep {n tr min max} : MayEmpty N n → MayEmpty N (.rep n tr min max)
  | seq {fs} : (∀ f ∈ fs, MayEmpty N f.2) → MayEmpty N (.seq fs)
  | choice {l a} : a ∈ l → MayEmpty N a → MayEmpty N (.choice l)
  | rule {id} : N id → MayEmpty N (.rule id)

/-- `Heads N n id`: evaluating `n` may try rule `id` before consuming anything. -/
inductive Heads (N : RuleId → Prop) : Node → RuleId → Prop
  | positive {n id} : Heads N n id → Heads N (.positive n) id
  | negative {n id} : Heads N n id → Heads N (.negative n) id
  | push {n id} : Heads N n id → Heads N (.push n) id
  | opt {n id} : Heads N n id → Heads N (.opt n) id
  | rep {n tr min max id} : Heads N n id → Heads N (.rep n tr min max) id
  | repTrivia {n tr min max id} : MayEmpty N n → Heads N tr id → Heads N (.rep n tr min max) id
  | seqField {l₁ tr n l₂ id} : (∀ f ∈ l₁, MayEmpty N f.2) → Heads N n id →
      Heads N (.seq (l₁ ++ (tr, n) :: l₂)) id
  | seqTrivia {l₁ tr n l₂ id} : l₁ ≠ [] → (∀ f ∈ l₁, MayEmpty N f.2) → Heads N tr id →
      Heads N (.seq (l₁ ++ (tr, n) :: l₂)) id
  | choice {l a id} : a ∈ l → Heads N a id → Heads N (.choice l) id
  | rule {id} : Heads N (.rule id) id

/-- No left recursion: `N` covers the rules that may match the empty text, and the rules reachable
without consuming anything have smaller rank. -/
structure NoLeftRecursion (env : Env) (N : RuleId → Prop) (rank : RuleId → Nat) : Prop where
  empty : ∀ id, MayEmpty N (env id).body → N id
  heads : ∀ id id', Heads N (env id).body id' → rank id' < rank id

/-- What a match without consumption implies. -/
def ItemEmpty (N : RuleId → Prop) : Item → Prop
  | .node n => MayEmpty N n
  | .alts l => ∃ a ∈ l, MayEmpty N a
  | .fields _ l => ∀ f ∈ l, MayEmpty N f.2
  | .unit n _ _ => MayEmpty N n
  | .reps n _ min max i => MayEmpty N n ∨ max ≤ i ∨ min ≤ i

theorem leaf_empty {l : Leaf} {c : Cfg} {stk : List Text} (h : leafSpec l c = some ([], stk)) : l.mayEmpty := by
  cases l <;> simp only [Leaf.mayEmpty]
  case str s =>
    simp only [leafSpec, eatText] at h
    split at h
    · simpa using congrArg (fun x => (x.map Prod.fst)) h
    · cases h
  case insens s =>
    simp only [leafSpec] at h
    split at h
    · rename_i h'
      simp only [Option.some.injEq, Prod.mk.injEq] at h
      rw [h.1] at h'
      simpa using h'.symm
    · cases h
  case skipChar n =>
    simp only [leafSpec] at h
    split at h
    · rename_i h'
      simp only [Option.some.injEq, Prod.mk.injEq] at h
      have := congrArg List.length h.1
      simp at this
      rcases this with h0 | h0
      · exact h0
      · rw [h0] at h'; simp at h'; exact h'
    · cases h
  case newline =>
    simp only [leafSpec] at h
    split at h <;> cases h
  case none => cases h
  all_goals
    simp only [leafSpec, eatChar] at h
    cases hs : c.suf with
    | nil => rw [hs] at h; cases h
    | cons x xs =>
      rw [hs] at h
      simp only at h
      split at h <;> cases h

theorem Peg.mayEmpty {env : Env} {N : RuleId → Prop} (hN : ∀ id, MayEmpty N (env id).body → N id) {item : Item} {c : Cfg}
    {r : Option Cfg} (h : Peg env item c r) :
    ∀ c', r = some c' → c'.suf.length = c.suf.length → ItemEmpty N item := by
  have le : ∀ {item : Item} {a b : Cfg}, Peg env item a (some b) → b.suf.length ≤ a.suf.length := by
    intro item a b h
    obtain ⟨m, _, h2⟩ := h.consumes b rfl
    rw [h2]; simp
  induction h with
  | @leafOk l c m stk rest h1 h2 =>
    rintro _ ⟨⟩ hlen
    have : m = [] := by
      rw [h2] at hlen
      simp only [List.length_append] at hlen
      exact List.length_eq_zero_iff.1 (by omega)
    subst this
    exact .leaf (leaf_empty h1)
  | leafFail _ => rintro _ ⟨⟩
  | positiveOk _ _ => intro _ _ _; exact .positive
  | positiveFail _ _ => rintro _ ⟨⟩
  | negativeOk _ _ => intro _ _ _; exact .negative
  | negativeFail _ _ => rintro _ ⟨⟩
  | pushOk _ ih => rintro _ ⟨⟩ hlen; exact .push (ih _ rfl hlen)
  | pushFail _ _ => rintro _ ⟨⟩
  | optSome _ _ => intro _ _ _; exact .opt
  | optNone _ _ => intro _ _ _; exact .opt
  | rep _ ih =>
    intro c' hc hlen
    rcases ih c' hc hlen with h | h | h
    · exact .rep h
    · exact .repZero (.inr (by omega))
    · exact .repZero (.inl (by omega))
  | seq _ ih => intro c' hc hlen; exact .seq (ih c' hc hlen)
  | choice _ ih =>
    intro c' hc hlen
    obtain ⟨a, ha, h⟩ := ih c' hc hlen
    exact .choice ha h
  | rule _ ih => intro c' hc hlen; exact .rule (hN _ (ih c' hc hlen))
  | altsNil => rintro _ ⟨⟩
  | altsHit _ ih => intro c' hc hlen; exact ⟨_, by simp, ih c' hc hlen⟩
  | altsMiss _ _ _ ih =>
    intro c' hc hlen
    obtain ⟨a, ha, h⟩ := ih c' hc hlen
    exact ⟨a, by simp [ha], h⟩
  | fieldsNil => intro _ _ _ f hf; cases hf
  | fieldsFirst h1 h2 ih1 ih2 =>
    rintro c' rfl hlen f hf
    have := le h1
    have := le h2
    rcases List.mem_cons.1 hf with rfl | hf
    · exact ih1 _ rfl (by omega)
    · exact ih2 _ rfl (by omega) f hf
  | fieldsFirstFail _ _ => rintro _ ⟨⟩
  | fieldsNext h1 h2 h3 _ ih2 ih3 =>
    rintro c' rfl hlen f hf
    have := le h1
    have := le h2
    have := le h3
    rcases List.mem_cons.1 hf with rfl | hf
    · exact ih2 _ rfl (by omega)
    · exact ih3 _ rfl (by omega) f hf
  | fieldsTriviaFail _ _ => rintro _ ⟨⟩
  | fieldsNextFail _ _ _ _ => rintro _ ⟨⟩
  | unitFirst _ ih => intro c' hc hlen; exact ih c' hc hlen
  | unitNext h1 h2 _ ih2 =>
    rintro c' rfl hlen
    have := le h1
    have := le h2
    exact ih2 _ rfl (by omega)
  | unitTriviaFail _ _ => rintro _ ⟨⟩
  | repsMax h => intro _ _ _; exact .inr (.inl h)
  | repsMore _ h1 h2 ih1 _ =>
    rintro c' rfl hlen
    have := le h1
    have := le h2
    exact .inl (ih1 _ rfl (by omega))
  | repsFew _ _ _ _ => rintro _ ⟨⟩
  | repsStop _ _ h _ => intro _ _ _; exact .inr (.inr h)

theorem Peg.suf_le {env : Env} {item : Item} {a b : Cfg} (h : Peg env item a (some b)) :
    b.suf.length ≤ a.suf.length := by
  obtain ⟨m, _, h2⟩ := h.consumes b rfl
  rw [h2]; simp

section
variable {env : Env} {N : RuleId → Prop} {L : Nat}
  (hN : ∀ id, MayEmpty N (env id).body → N id)
  (hL : ∀ c : Cfg, c.suf.length < L → ∀ n, ∃ r, Peg env (.node n) c r)
include hL

/-- Later fields of a sequence, once something was consumed or everything before may be empty. -/
theorem fields_total (hN : ∀ id, MayEmpty N (env id).body → N id) (seq : List (Node × Node))
    (hf : ∀ l₁ tr n l₂, seq = l₁ ++ (tr, n) :: l₂ → (∀ f ∈ l₁, MayEmpty N f.2) →
      (l₁ ≠ [] → ∀ c : Cfg, c.suf.length ≤ L → ∃ r, Peg env (.node tr) c r) ∧
      ∀ c : Cfg, c.suf.length ≤ L → ∃ r, Peg env (.node n) c r) :
    ∀ (l l₁ : List (Node × Node)), seq = l₁ ++ l → l₁ ≠ [] → ∀ c : Cfg, c.suf.length ≤ L →
      (c.suf.length < L ∨ ∀ f ∈ l₁, MayEmpty N f.2) → ∃ r, Peg env (.fields false l) c r := by
  intro l
  induction l with
  | nil => intro l₁ _ _ c _ _; exact ⟨_, .fieldsNil⟩
  | cons f l ih =>
    intro l₁ hs hne c hc hor
    obtain ⟨tr, n⟩ := f
    have ht : ∃ r, Peg env (.node tr) c r := by
      rcases hor with h | h
      · exact hL c h tr
      · exact (hf l₁ tr n l hs h).1 hne c hc
    obtain ⟨r, ht⟩ := ht
    cases r with
    | none => exact ⟨_, .fieldsTriviaFail ht⟩
    | some c₁ =>
      have hle := ht.suf_le
      have hn : ∃ r, Peg env (.node n) c₁ r := by
        rcases hor with h | h
        · exact hL c₁ (by omega) n
        · exact (hf l₁ tr n l hs h).2 c₁ (by omega)
      obtain ⟨r, hn⟩ := hn
      cases r with
      | none => exact ⟨_, .fieldsNextFail ht hn⟩
      | some c₂ =>
        have hle2 := hn.suf_le
        obtain ⟨r, h⟩ := ih (l₁ ++ [(tr, n)]) (by rw [hs]; simp) (by simp) c₂ (by omega) (by
          rcases hor with h | h
          · exact .inl (by omega)
          · by_cases hlt : c₂.suf.length < L
            · exact .inl hlt
            · right
              intro f hf
              rcases List.mem_append.1 hf with hf | hf
              · exact h f hf
              · rw [List.mem_singleton.1 hf]
                exact hn.mayEmpty hN c₂ rfl (by omega))
        exact ⟨r, .fieldsNext ht hn h⟩

/-- The repetition loop. -/
theorem reps_total (hN : ∀ id, MayEmpty N (env id).body → N id) (n tr : Node) (min max : Nat)
    (hn : ∀ c : Cfg, c.suf.length ≤ L → ∃ r, Peg env (.node n) c r)
    (ht : MayEmpty N n → ∀ c : Cfg, c.suf.length ≤ L → ∃ r, Peg env (.node tr) c r) :
    ∀ (k i : Nat), max - i = k → ∀ c : Cfg, c.suf.length ≤ L → (i = 0 ∨ c.suf.length < L ∨ MayEmpty N n) →
      ∃ r, Peg env (.reps n tr min max i) c r := by
  intro k
  induction k with
  | zero => intro i hk c _ _; exact ⟨_, .repsMax (by omega)⟩
  | succ k ih =>
    intro i hk c hc hor
    have hu : ∃ r, Peg env (.unit n tr i) c r := by
      cases i with
      | zero => obtain ⟨r, h⟩ := hn c hc; exact ⟨r, .unitFirst h⟩
      | succ i =>
        have : ∃ r, Peg env (.node tr) c r := by
          rcases hor with h | h | h
          · omega
          · exact hL c h tr
          · exact ht h c hc
        obtain ⟨r, h1⟩ := this
        cases r with
        | none => exact ⟨_, .unitTriviaFail h1⟩
        | some c₁ =>
          have := h1.suf_le
          obtain ⟨r, h2⟩ := hn c₁ (by omega)
          exact ⟨r, .unitNext h1 h2⟩
    obtain ⟨r, hu⟩ := hu
    cases r with
    | none =>
      by_cases hm : i < min
      · exact ⟨_, .repsFew (by omega) hu hm⟩
      · exact ⟨_, .repsStop (by omega) hu (by omega)⟩
    | some c' =>
      have hle := hu.suf_le
      obtain ⟨r, h⟩ := ih (i + 1) (by omega) c' (by omega) (by
        right
        by_cases hlt : c'.suf.length < L
        · exact .inl hlt
        · exact .inr (hu.mayEmpty hN c' rfl (by omega)))
      exact ⟨r, .repsMore (by omega) hu h⟩

theorem node_total (hN : ∀ id, MayEmpty N (env id).body → N id) : ∀ n : Node,
    (∀ id, Heads N n id → ∀ c : Cfg, c.suf.length ≤ L → ∃ r, Peg env (.node (.rule id)) c r) →
    ∀ c : Cfg, c.suf.length ≤ L → ∃ r, Peg env (.node n) c r := by
  intro n
  induction n using Node.induct with
  | leaf l => intro _ c _; exact leaf_total env l c
  | positive n ih =>
    intro hh c hc
    obtain ⟨r, h⟩ := ih (fun id hi => hh id (.positive hi)) c hc
    cases r with
    | none => exact ⟨_, .positiveFail h⟩
    | some c' => exact ⟨_, .positiveOk h⟩
  | negative n ih =>
    intro hh c hc
    obtain ⟨r, h⟩ := ih (fun id hi => hh id (.negative hi)) c hc
    cases r with
    | none => exact ⟨_, .negativeOk h⟩
    | some c' => exact ⟨_, .negativeFail h⟩
  | push n ih => intro hh c hc; exact push_total (ih (fun id hi => hh id (.push hi)) c hc)
  | opt n ih =>
    intro hh c hc
    obtain ⟨r, h⟩ := ih (fun id hi => hh id (.opt hi)) c hc
    cases r with
    | none => exact ⟨_, .optNone h⟩
    | some c' => exact ⟨_, .optSome h⟩
  | rep n tr min max ihn iht =>
    intro hh c hc
    obtain ⟨r, h⟩ := reps_total hL hN n tr min max (ihn (fun id hi => hh id (.rep hi)))
      (fun hm => iht (fun id hi => hh id (.repTrivia hm hi))) (max - 0) 0 rfl c hc (.inl rfl)
    exact ⟨r, .rep h⟩
  | seq fs ih =>
    intro hh c hc
    have hf : ∀ l₁ tr n l₂, fs = l₁ ++ (tr, n) :: l₂ → (∀ f ∈ l₁, MayEmpty N f.2) →
        (l₁ ≠ [] → ∀ c : Cfg, c.suf.length ≤ L → ∃ r, Peg env (.node tr) c r) ∧
        ∀ c : Cfg, c.suf.length ≤ L → ∃ r, Peg env (.node n) c r := by
      intro l₁ tr n l₂ hs hm
      have hmem := ih (tr, n) (by rw [hs]; simp)
      refine ⟨fun hne => hmem.1 (fun id hi => hh id ?_), hmem.2 (fun id hi => hh id ?_)⟩
      · rw [hs]; exact .seqTrivia hne hm hi
      · rw [hs]; exact .seqField hm hi
    cases fs with
    | nil => exact ⟨_, .seq .fieldsNil⟩
    | cons f l =>
      obtain ⟨tr, n⟩ := f
      obtain ⟨r, h⟩ := (hf [] tr n l rfl (by simp)).2 c hc
      cases r with
      | none => exact ⟨_, .seq (.fieldsFirstFail h)⟩
      | some c' =>
        have hle := h.suf_le
        obtain ⟨r, h'⟩ := fields_total hL hN _ hf l [(tr, n)] rfl (by simp) c' (by omega) (by
          by_cases hlt : c'.suf.length < L
          · exact .inl hlt
          · right
            intro f hf
            rw [List.mem_singleton.1 hf]
            exact h.mayEmpty hN c' rfl (by omega))
        exact ⟨r, .seq (.fieldsFirst h h')⟩
  | choice l ih =>
    intro hh c hc
    have : ∀ l' : List Node, (∀ a ∈ l', a ∈ l) → ∃ r, Peg env (.alts l') c r := by
      intro l'
      induction l' with
      | nil => intro _; exact ⟨_, .altsNil⟩
      | cons a l' ih' =>
        intro hsub
        obtain ⟨r, h⟩ := ih a (hsub a (by simp)) (fun id hi => hh id (.choice (hsub a (by simp)) hi)) c hc
        cases r with
        | some c' => exact ⟨_, .altsHit h⟩
        | none =>
          obtain ⟨r, h'⟩ := ih' (fun b hb => hsub b (by simp [hb]))
          exact ⟨r, .altsMiss h h'⟩
    obtain ⟨r, h⟩ := this l (fun _ h => h)
    exact ⟨r, .choice h⟩
  | rule id => intro hh c hc; exact hh id .rule c hc

end

theorem NoLeftRecursion.total {env : Env} {N : RuleId → Prop} {rank : RuleId → Nat} (h : NoLeftRecursion env N rank) :
    ∀ (L : Nat) (c : Cfg), c.suf.length ≤ L → ∀ n, ∃ r, Peg env (.node n) c r := by
  intro L
  induction L using Nat.strongRecOn with
  | ind L ihL =>
    have hL : ∀ c : Cfg, c.suf.length < L → ∀ n, ∃ r, Peg env (.node n) c r :=
      fun c hc n => ihL _ hc c (Nat.le_refl _) n
    have hrules : ∀ (R : Nat) (id : RuleId), rank id = R → ∀ c : Cfg, c.suf.length ≤ L →
        ∃ r, Peg env (.node (.rule id)) c r := by
      intro R
      induction R using Nat.strongRecOn with
      | ind R ihR =>
        intro id hid c hc
        obtain ⟨r, hb⟩ := node_total hL h.empty (env id).body (fun id' hh =>
          ihR (rank id') (by have := h.heads id id' hh; omega) id' rfl) c hc
        exact ⟨r, .rule hb⟩
    intro c hc n
    exact node_total hL h.empty n (fun id _ => hrules _ id rfl) c hc

end Pest3
