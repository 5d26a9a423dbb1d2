import Verif.PegLemmas

/-!
# `try_parse_with_partial` against `check_with_partial`
-/

namespace Pest3

/-- Forget the tree. -/
def Out.erase {S T α : Type} : Out S T (Position × α) → Out S T Position
  | .ok (o, st) => .ok (o.map (·.1), st)
  | .panic => .panic
  | .oof => .oof

/-- A cursor on the input. -/
def Good (inp : Str) (p : Position) : Prop := p.Valid ∧ p.input = inp

theorem Good.rpos {inp p} (h : Good inp p) : RPos inp p p := ⟨rfl, h.1, h.2⟩

/-- What is known about the result of `check`: no panic; the invariant holds; the cursor moved forward. -/
inductive Facts {S T W α : Type} (inp : Str) (pos : α → Position) (G : W → St S T → Prop) (w : W) (p : Position) :
    Out S T α → Prop
  | oof : Facts inp pos G w p .oof
  | fail {s} : G w s → Facts inp pos G w p (.ok (none, s))
  | ok {a s} : G w s → Good inp (pos a) → p.pos ≤ (pos a).pos → Facts inp pos G w p (.ok (some a, s))

/-- An invariant of runs of `check` on input `inp`. -/
structure Closed {S T : Type} (so : StackOps S) (tk : TrackerOps T) (inp : Str) {W : Type}
    (G : W → St S T → Prop) : Prop where
  valid : ∀ w s, G w s → ∀ x ∈ so.elems s.stk, x.Valid
  chk : ∀ env fuel n w p s, Good inp p → G w s → Facts inp id G w p (check so tk env fuel n p s)
  snapshot : ∀ w s, G w s → ∃ w', G w' (s.snapshot so) ∧ (∀ s', G w' s' → G w (s'.clear so)) ∧
    (∀ s', G w' s' → G w (s'.restore so))
  during : ∀ w b s, G w s → ∃ w', G w' (s.setPositive tk b) ∧
    ∀ s', G w' s' → G w (s'.setPositive tk (tk.positive s.trk))
  rule : ∀ w r p s, Good inp p → G w s → ∃ w', G w' (s.enter tk r p) ∧
    ∀ b s', G w' s' → ∃ s'', s'.leave tk r p b = some s'' ∧ G w s''
  push : ∀ w p q s, Good inp p → Good inp q → G w s → p.pos ≤ q.pos →
    ∃ sp, p.span q = some sp ∧ G w (s.push so sp)

/-- Induction over nodes. -/
theorem Node.induct {P : Node → Prop} (leaf : ∀ l, P (.leaf l)) (positive : ∀ n, P n → P (.positive n))
    (negative : ∀ n, P n → P (.negative n)) (push : ∀ n, P n → P (.push n)) (opt : ∀ n, P n → P (.opt n))
    (rep : ∀ n tr min max, P n → P tr → P (.rep n tr min max))
    (seq : ∀ fs : List (Node × Node), (∀ f ∈ fs, P f.1 ∧ P f.2) → P (.seq fs))
    (choice : ∀ l : List Node, (∀ a ∈ l, P a) → P (.choice l))
    (rule : ∀ id, P (.rule id)) (n : Node) : P n := by
  refine Node.rec (motive_1 := P) (motive_2 := fun l => ∀ f ∈ l, P f.1 ∧ P f.2)
    (motive_3 := fun l => ∀ f ∈ l, P f) (motive_4 := fun f => P f.1 ∧ P f.2)
    leaf positive negative push opt rep seq choice rule ?_ ?_ ?_ ?_ ?_ n
  · rintro f ⟨⟩
  · intro a l h1 h2 f hf
    rcases List.mem_cons.1 hf with rfl | hf
    · exact h1
    · exact h2 f hf
  · rintro f ⟨⟩
  · intro a l h1 h2 f hf
    rcases List.mem_cons.1 hf with rfl | hf
    · exact h1
    · exact h2 f hf
  · exact fun a b h1 h2 => ⟨h1, h2⟩

theorem node_all_true (n : Node) : Node.All (fun _ => True) n := by
  induction n using Node.induct with
  | leaf l => exact .leaf trivial
  | positive n ih => exact .positive ih
  | negative n ih => exact .negative ih
  | push n ih => exact .push ih
  | opt n ih => exact .opt ih
  | rep n tr min max ih1 ih2 => exact .rep ih1 ih2
  | seq fs ih => exact .seq (fun f hf => (ih f hf).1) (fun f hf => (ih f hf).2)
  | choice l ih => exact .choice ih
  | rule id => exact .rule

section
variable {S : Type} {so : StackOps S} {saved : S → List (List Span)}

/-- The library's run keeps the invariant. -/
theorem closed_real (hl : Lawful so saved) (inp : Str) :
    Closed so realTracker inp (fun w s => ∃ i, RSt so saved inp w s i) where
  valid := by
    rintro w s ⟨i, h⟩ x hx
    rw [h.elems] at hx
    exact h.valid x hx
  chk := by
    rintro env fuel n w p s hp ⟨i, h⟩
    have := check_rel (compat_bare hl inp) env (fun _ => node_all_true _) fuel n (node_all_true n) w p p s i
      hp.rpos h
    revert this
    generalize check so realTracker env fuel n p s = x
    generalize check idealOps noTracker env fuel n p i = y
    intro this
    cases this with
    | oof => exact .oof
    | ok ho hs =>
      cases ho with
      | none => exact .fail ⟨_, hs⟩
      | some ha =>
        obtain ⟨⟨_, h1, h2⟩, h3, _⟩ := ha
        exact .ok ⟨_, hs⟩ ⟨h1, h2⟩ h3
  snapshot := by
    rintro w s ⟨i, h⟩
    obtain ⟨w', h1, h2, h3⟩ := (compat_bare hl inp).snapshot w s i h
    exact ⟨w', ⟨_, h1⟩, fun s' ⟨_, h⟩ => ⟨_, h2 _ _ h⟩, fun s' ⟨_, h⟩ => ⟨_, h3 _ _ h⟩⟩
  during := by
    rintro w b s ⟨i, h⟩
    obtain ⟨w', h1, h2⟩ := (compat_bare hl inp).during w b s i h
    exact ⟨w', ⟨_, h1⟩, fun s' ⟨_, h⟩ => ⟨_, h2 _ _ h⟩⟩
  rule := by
    rintro w r p s hp ⟨i, h⟩
    obtain ⟨w', h1, h2⟩ := (compat_bare hl inp).rule w r p p s i hp.rpos h
    refine ⟨w', ⟨_, h1⟩, fun b s' ⟨_, h⟩ => ?_⟩
    obtain ⟨_, _, e1, _, h3⟩ := h2 b _ _ h
    exact ⟨_, e1, _, h3⟩
  push := by
    rintro w p q s hp hq ⟨i, h⟩ hle
    obtain ⟨_, _, e1, e2, h1⟩ := (compat_bare hl inp).push w p p q q s i hp.rpos hq.rpos h hle hle
    exact ⟨_, e1, _, h1⟩

end

section Erase
variable {S T : Type} {so : StackOps S} {tk : TrackerOps T} {saved : S → List (List Span)}

/-- Parsing a leaf differs from checking it only in the value built. -/
theorem leafParse_erase (hl : Lawful so saved) {p : Position} {st : St S T} (hp : p.Valid)
    (hs : ∀ x ∈ so.elems st.stk, x.Valid) (l : Leaf) :
    (leafParse so tk l p st).erase = leafCheck so tk l p st := by
  obtain ⟨pre, suf, hat⟩ := Position.valid_iff_at.1 hp
  obtain ⟨stk, ht⟩ := texts_of_valid hs
  cases l with
  | str s => simp only [leafParse, leafCheck]; split <;> rfl
  | insens s =>
    simp only [leafParse, leafCheck, hat.matchInsensitive, insensPrefix, beq_iff_eq]
    by_cases h : (suf.take s.length).map Char.toLower = s.map Char.toLower
    · have e : utf8Len s = utf8Len (suf.take s.length) := by
        rw [← utf8Len_map_toLower s, ← h, utf8Len_map_toLower]
      have hat' : p.At pre (suf.take s.length ++ suf.drop s.length) := by simpa using hat
      have e1 := hat'.span
      have e2 : (Span.mk p.input p.pos (p.pos + utf8Len (suf.take s.length))).asStr = _ := hat'.span_is
      simp only [h, if_true, Out.lift_some, e, e1, e2]; rfl
    · simp only [h, if_false, Out.lift_some]; rfl
  | skipChar n =>
    simp only [leafParse, leafCheck, hat.skip]
    by_cases h : n ≤ suf.length
    · have hat' : p.At pre (suf.take n ++ suf.drop n) := by simpa using hat
      have e1 := hat'.span
      simp only [h, if_true, Out.lift_some, e1]; rfl
    · simp only [h, if_false, Out.lift_some]; rfl
  | range lo hi =>
    simp only [leafParse, leafCheck, hat.matchRange]
    cases suf with
    | nil => rfl
    | cons c cs =>
      by_cases h : lo ≤ c ∧ c ≤ hi
      · have hat' : p.At pre ([c] ++ cs) := hat
        have e1 := hat'.span
        have e2 : (Span.mk p.input p.pos (p.pos + utf8Len [c])).asStr = _ := hat'.span_is
        simp only [utf8Len_cons, utf8Len_nil, Nat.add_zero] at e1 e2
        have h' : (decide (lo ≤ c) && decide (c ≤ hi)) = true := by simpa using h
        simp only [h', if_true, Out.lift_some, e1, e2, List.head?_cons]; rfl
      · have h' : ¬ (decide (lo ≤ c) && decide (c ≤ hi)) = true := by simpa using h
        simp only [h']; rfl
  | chr c => simp only [leafParse, leafCheck]; split <;> rfl
  | prop f =>
    simp only [leafParse, leafCheck, matchCharByRes_eq hat]
    cases suf with
    | nil => rfl
    | cons c cs => by_cases h : f c <;> simp only [h, if_true, Bool.false_eq_true, if_false, Out.lift_some] <;> rfl
  | any =>
    simp only [leafParse, leafCheck, hat.matchCharBy, hat.nextChar]
    cases suf with
    | nil => rfl
    | cons c cs => rfl
  | none => rfl
  | empty => rfl
  | soi => simp only [leafParse, leafCheck]; split <;> rfl
  | eoi => simp only [leafParse, leafCheck]; split <;> rfl
  | newline =>
    simp only [leafParse, leafCheck]
    split
    · rfl
    · split
      · rfl
      · split <;> rfl
  | peekAll =>
    simp only [leafParse, leafCheck]
    cases peekAllSpan so p st with
    | ok r => rcases r with ⟨_ | _, _⟩ <;> rfl
    | panic => rfl
    | oof => rfl
  | peek =>
    simp only [leafParse, leafCheck, peekOr, hl.peek_val]
    rcases ht.getLast? with ⟨e1, e2⟩ | ⟨s, t, e1, e2, h⟩
    · simp only [e1]
      cases tk.special p SpecialError.emptyStack st.trk <;> rfl
    · unfold Span.Is at h
      simp only [e1, Out.andThen_some, h, Out.lift_some, hat.matchString]
      by_cases hh : t <+: suf
      · obtain ⟨suf', rfl⟩ := hh
        have e3 := hat.span
        simp only [List.prefix_append, if_true, e3, Out.lift_some]; rfl
      · simp only [hh, if_false]; rfl
  | drop =>
    simp only [leafParse, leafCheck]
    cases popOr so tk p st with
    | ok r => rcases r with ⟨_ | _, _⟩ <;> rfl
    | panic => rfl
    | oof => rfl
  | pop =>
    simp only [leafParse, leafCheck]
    cases popOr so tk p st with
    | ok r =>
      rcases r with ⟨_ | sp, _⟩
      · rfl
      · simp only [Out.andThen_some]
        cases sp.asStr with
        | none => rfl
        | some s => simp only [Out.lift_some]; split <;> rfl
    | panic => rfl
    | oof => rfl
  | popAll =>
    simp only [leafParse, leafCheck]
    cases peekAllSpan so p st with
    | ok r => rcases r with ⟨_ | _, _⟩ <;> rfl
    | panic => rfl
    | oof => rfl
  | slice2 a b =>
    simp only [leafParse, leafCheck]
    cases stackSlice so tk p a (some b) st with
    | ok r =>
      rcases r with ⟨_ | l, _⟩
      · rfl
      · simp only [Out.andThen_some]
        cases peekSpans p l with
        | none => rfl
        | some o => cases o <;> rfl
    | panic => rfl
    | oof => rfl
  | slice1 a =>
    simp only [leafParse, leafCheck]
    cases stackSlice so tk p a none st with
    | ok r =>
      rcases r with ⟨_ | l, _⟩
      · rfl
      · simp only [Out.andThen_some]
        cases peekSpans p l with
        | none => rfl
        | some o => cases o <;> rfl
    | panic => rfl
    | oof => rfl

end Erase

end Pest3
