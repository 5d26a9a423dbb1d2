import Verif.Interp

/-!
# Abstraction theorem for `check`

Two runs of `check` with different stack/tracker implementations and related inputs stay related, provided
the primitive operations preserve the relation.  Related results are never panics.  The relation on states is
indexed by a world `w` so that bracketed operations (`snapshot` … `restore`, `enter` … `leave`) can be
described.
-/

namespace Pest3

/-- Related options. -/
inductive OptRel {α β : Type} (R : α → β → Prop) : Option α → Option β → Prop
  | none : OptRel R none none
  | some {a b} : R a b → OptRel R (some a) (some b)

/-- Related results: both run out of fuel, or both return related values; never a panic. -/
inductive OutRel {S₁ T₁ S₂ T₂ α β : Type} (R : α → β → Prop) (RS : St S₁ T₁ → St S₂ T₂ → Prop) :
    Out S₁ T₁ α → Out S₂ T₂ β → Prop
  | oof : OutRel R RS .oof .oof
  | ok {o₁ o₂ s₁ s₂} : OptRel R o₁ o₂ → RS s₁ s₂ → OutRel R RS (.ok (o₁, s₁)) (.ok (o₂, s₂))

section
variable {S₁ T₁ S₂ T₂ : Type}

theorem OutRel.bind {α β α' β' : Type} {R : α → β → Prop} {R' : α' → β' → Prop}
    {RS RS' : St S₁ T₁ → St S₂ T₂ → Prop} {x : Out S₁ T₁ α} {y : Out S₂ T₂ β}
    {k₁ : Option α → St S₁ T₁ → Out S₁ T₁ α'} {k₂ : Option β → St S₂ T₂ → Out S₂ T₂ β'}
    (h : OutRel R RS x y)
    (hk : ∀ o₁ o₂ s₁ s₂, OptRel R o₁ o₂ → RS s₁ s₂ → OutRel R' RS' (k₁ o₁ s₁) (k₂ o₂ s₂)) :
    OutRel R' RS' (x.bind k₁) (y.bind k₂) := by
  cases h with
  | oof => exact .oof
  | ok ho hs => exact hk _ _ _ _ ho hs

theorem OutRel.andThen {α β α' β' : Type} {R : α → β → Prop} {R' : α' → β' → Prop}
    {RS : St S₁ T₁ → St S₂ T₂ → Prop} {x : Out S₁ T₁ α} {y : Out S₂ T₂ β}
    {k₁ : α → St S₁ T₁ → Out S₁ T₁ α'} {k₂ : β → St S₂ T₂ → Out S₂ T₂ β'}
    (h : OutRel R RS x y)
    (hk : ∀ a b s₁ s₂, R a b → RS s₁ s₂ → OutRel R' RS (k₁ a s₁) (k₂ b s₂)) :
    OutRel R' RS (x.andThen k₁) (y.andThen k₂) := by
  refine h.bind fun o₁ o₂ s₁ s₂ ho hs => ?_
  cases ho with
  | none => exact .ok .none hs
  | some hab => exact hk _ _ _ _ hab hs

/-- Related and further right than the given positions. -/
def Ahead (RP : Position → Position → Prop) (p₁ p₂ : Position) (q₁ q₂ : Position) : Prop :=
  RP q₁ q₂ ∧ p₁.pos ≤ q₁.pos ∧ p₂.pos ≤ q₂.pos

/-- What the primitive operations have to satisfy. -/
structure Compat (so₁ : StackOps S₁) (tk₁ : TrackerOps T₁) (so₂ : StackOps S₂) (tk₂ : TrackerOps T₂)
    (L : Leaf → Prop) {W : Type} (RP : Position → Position → Prop)
    (RS : W → St S₁ T₁ → St S₂ T₂ → Prop) : Prop where
  leaf : ∀ w l p₁ p₂ s₁ s₂, L l → RP p₁ p₂ → RS w s₁ s₂ →
    OutRel (Ahead RP p₁ p₂) (RS w) (leafCheck so₁ tk₁ l p₁ s₁) (leafCheck so₂ tk₂ l p₂ s₂)
  snapshot : ∀ w s₁ s₂, RS w s₁ s₂ → ∃ w', RS w' (s₁.snapshot so₁) (s₂.snapshot so₂) ∧
    (∀ s₁ s₂, RS w' s₁ s₂ → RS w (s₁.clear so₁) (s₂.clear so₂)) ∧
    (∀ s₁ s₂, RS w' s₁ s₂ → RS w (s₁.restore so₁) (s₂.restore so₂))
  during : ∀ w b s₁ s₂, RS w s₁ s₂ → ∃ w', RS w' (s₁.setPositive tk₁ b) (s₂.setPositive tk₂ b) ∧
    ∀ s₁' s₂', RS w' s₁' s₂' →
      RS w (s₁'.setPositive tk₁ (tk₁.positive s₁.trk)) (s₂'.setPositive tk₂ (tk₂.positive s₂.trk))
  rule : ∀ w r p₁ p₂ s₁ s₂, RP p₁ p₂ → RS w s₁ s₂ →
    ∃ w', RS w' (s₁.enter tk₁ r p₁) (s₂.enter tk₂ r p₂) ∧
      ∀ b s₁' s₂', RS w' s₁' s₂' → ∃ s₁'' s₂'', s₁'.leave tk₁ r p₁ b = some s₁'' ∧
        s₂'.leave tk₂ r p₂ b = some s₂'' ∧ RS w s₁'' s₂''
  push : ∀ w p₁ p₂ q₁ q₂ s₁ s₂, RP p₁ p₂ → RP q₁ q₂ → RS w s₁ s₂ → p₁.pos ≤ q₁.pos → p₂.pos ≤ q₂.pos →
    ∃ sp₁ sp₂, p₁.span q₁ = some sp₁ ∧ p₂.span q₂ = some sp₂ ∧
      RS w (s₁.push so₁ sp₁) (s₂.push so₂ sp₂)

variable {so₁ : StackOps S₁} {tk₁ : TrackerOps T₁} {so₂ : StackOps S₂} {tk₂ : TrackerOps T₂}
  {L : Leaf → Prop} {W : Type} {RP : Position → Position → Prop} {RS : W → St S₁ T₁ → St S₂ T₂ → Prop}

theorem Ahead.refl {p₁ p₂ : Position} (h : RP p₁ p₂) : Ahead RP p₁ p₂ p₁ p₂ :=
  ⟨h, Nat.le_refl _, Nat.le_refl _⟩

theorem Ahead.trans {p₁ p₂ q₁ q₂ r₁ r₂ : Position} (h : Ahead RP p₁ p₂ q₁ q₂)
    (h' : Ahead RP q₁ q₂ r₁ r₂) : Ahead RP p₁ p₂ r₁ r₂ :=
  ⟨h'.1, Nat.le_trans h.2.1 h'.2.1, Nat.le_trans h.2.2 h'.2.2⟩

theorem OutRel.weaken {α β : Type} {R R' : α → β → Prop} {RS : St S₁ T₁ → St S₂ T₂ → Prop}
    {x : Out S₁ T₁ α} {y : Out S₂ T₂ β} (h : OutRel R RS x y) (hR : ∀ a b, R a b → R' a b) :
    OutRel R' RS x y := by
  cases h with
  | oof => exact .oof
  | ok ho hs =>
    refine .ok ?_ hs
    cases ho with
    | none => exact .none
    | some h => exact .some (hR _ _ h)

/-- Two check functions related at every node satisfying `P`. -/
def CheckRel (P : Node → Prop) (RP : Position → Position → Prop) (RS : W → St S₁ T₁ → St S₂ T₂ → Prop)
    (c₁ : CheckFn S₁ T₁) (c₂ : CheckFn S₂ T₂) : Prop :=
  ∀ n, P n → ∀ w p₁ p₂ s₁ s₂, RP p₁ p₂ → RS w s₁ s₂ →
    OutRel (Ahead RP p₁ p₂) (RS w) (c₁ n p₁ s₁) (c₂ n p₂ s₂)

section
variable {rec₁ : CheckFn S₁ T₁} {rec₂ : CheckFn S₂ T₂}
  (hc : Compat so₁ tk₁ so₂ tk₂ L RP RS) (hr : CheckRel (Node.All L) RP RS rec₁ rec₂)
include hc hr

theorem checkAlts_rel : ∀ (alts : List Node), (∀ a ∈ alts, Node.All L a) → ∀ w p₁ p₂ s₁ s₂, RP p₁ p₂ →
    RS w s₁ s₂ →
    OutRel (Ahead RP p₁ p₂) (RS w) (checkAlts so₁ rec₁ p₁ alts s₁) (checkAlts so₂ rec₂ p₂ alts s₂)
  | [], _, _, _, _, _, _, _, hs => .ok .none hs
  | a :: rest, hall, w, p₁, p₂, s₁, s₂, hp, hs => by
    simp only [checkAlts]
    obtain ⟨w', h1, hcl, hre⟩ := hc.snapshot w s₁ s₂ hs
    refine (hr a (hall a (by simp)) w' p₁ p₂ _ _ hp h1).bind fun o₁ o₂ t₁ t₂ ho ht => ?_
    cases ho with
    | none => exact checkAlts_rel rest (fun b hb => hall b (by simp [hb])) w p₁ p₂ _ _ hp (hre _ _ ht)
    | some h => exact .ok (.some h) (hcl _ _ ht)

omit hc in
theorem checkFields_rel : ∀ (fs : List (Node × Node)), (∀ f ∈ fs, Node.All L f.1) →
    (∀ f ∈ fs, Node.All L f.2) → ∀ first w p₁ p₂ s₁ s₂, RP p₁ p₂ → RS w s₁ s₂ →
    OutRel (Ahead RP p₁ p₂) (RS w) (checkFields rec₁ first p₁ fs s₁) (checkFields rec₂ first p₂ fs s₂)
  | [], _, _, _, _, _, _, _, _, hp, hs => .ok (.some (.refl hp)) hs
  | (tr, n) :: rest, h1, h2, first, w, p₁, p₂, s₁, s₂, hp, hs => by
    simp only [checkFields]
    refine OutRel.andThen (R := Ahead RP p₁ p₂) ?_ ?_
    · cases first with
      | true => exact .ok (.some (.refl hp)) hs
      | false => exact hr tr (h1 (tr, n) (by simp)) w p₁ p₂ _ _ hp hs
    · intro a b t₁ t₂ hab ht
      refine OutRel.andThen (hr n (h2 (tr, n) (by simp)) w a b _ _ hab.1 ht) ?_
      intro a' b' u₁ u₂ hab' hu
      refine (checkFields_rel rest (fun f hf => h1 f (by simp [hf])) (fun f hf => h2 f (by simp [hf]))
        false w a' b' u₁ u₂ hab'.1 hu).weaken ?_
      intro x y hxy
      exact hab.trans (hab'.trans hxy)

omit hc in
theorem checkUnit_rel {n tr : Node} (hn : Node.All L n) (htr : Node.All L tr) (i : Nat)
    (w p₁ p₂ s₁ s₂) (hp : RP p₁ p₂) (hs : RS w s₁ s₂) :
    OutRel (Ahead RP p₁ p₂) (RS w) (checkUnit rec₁ n tr i p₁ s₁) (checkUnit rec₂ n tr i p₂ s₂) := by
  simp only [checkUnit]
  refine OutRel.andThen (R := Ahead RP p₁ p₂) ?_ ?_
  · split
    · exact hr tr htr w p₁ p₂ _ _ hp hs
    · exact .ok (.some (.refl hp)) hs
  · intro a b t₁ t₂ hab ht
    refine OutRel.andThen (hr n hn w a b _ _ hab.1 ht) ?_
    intro a' b' u₁ u₂ hab' hu
    exact .ok (.some (hab.trans hab')) hu

theorem checkRep_rel {n tr : Node} (hn : Node.All L n) (htr : Node.All L tr) (min : Nat) :
    ∀ (k i : Nat) (w p₁ p₂ s₁ s₂), RP p₁ p₂ → RS w s₁ s₂ →
    OutRel (Ahead RP p₁ p₂) (RS w) (checkRep so₁ rec₁ n tr min k i p₁ s₁)
      (checkRep so₂ rec₂ n tr min k i p₂ s₂)
  | 0, _, _, _, _, _, _, hp, hs => .ok (.some (.refl hp)) hs
  | k + 1, i, w, p₁, p₂, s₁, s₂, hp, hs => by
    simp only [checkRep, restoreOnNone]
    obtain ⟨w', h1, hcl, hre⟩ := hc.snapshot w s₁ s₂ hs
    refine OutRel.bind (R := Ahead RP p₁ p₂) (RS := RS w) ?_ ?_
    · refine (checkUnit_rel hr hn htr i w' p₁ p₂ _ _ hp h1).bind fun o₁ o₂ t₁ t₂ ho ht => ?_
      cases ho with
      | none => exact .ok .none (hre _ _ ht)
      | some h => exact .ok (.some h) (hcl _ _ ht)
    · intro o₁ o₂ t₁ t₂ ho ht
      cases ho with
      | none =>
        simp only
        split
        · exact .ok .none ht
        · exact .ok (.some (.refl hp)) ht
      | some h =>
        refine (checkRep_rel hn htr min k (i + 1) w _ _ _ _ h.1 ht).weaken ?_
        intro x y hxy
        exact h.trans hxy

theorem checkStep_rel (env : Env) (henv : ∀ id, Node.All L (env id).body) :
    CheckRel (Node.All L) RP RS (checkStep so₁ tk₁ rec₁ env) (checkStep so₂ tk₂ rec₂ env) := by
  intro n hn w p₁ p₂ s₁ s₂ hp hs
  cases hn with
  | @leaf l hl => exact hc.leaf w l p₁ p₂ s₁ s₂ hl hp hs
  | @positive n h =>
    simp only [checkStep]
    obtain ⟨w', h1, hback⟩ := hc.during w true s₁ s₂ hs
    obtain ⟨w'', h2, _, hre⟩ := hc.snapshot w' _ _ h1
    refine (hr n h w'' p₁ p₂ _ _ hp h2).bind fun o₁ o₂ t₁ t₂ ho ht => ?_
    refine .ok ?_ (hback _ _ (hre _ _ ht))
    cases ho with
    | none => exact .none
    | some _ => exact .some (.refl hp)
  | @negative n h =>
    simp only [checkStep]
    obtain ⟨w', h1, hback⟩ := hc.during w false s₁ s₂ hs
    obtain ⟨w'', h2, _, hre⟩ := hc.snapshot w' _ _ h1
    refine (hr n h w'' p₁ p₂ _ _ hp h2).bind fun o₁ o₂ t₁ t₂ ho ht => ?_
    refine .ok ?_ (hback _ _ (hre _ _ ht))
    cases ho with
    | none => exact .some (.refl hp)
    | some _ => exact .none
  | @push n h =>
    simp only [checkStep]
    refine (hr n h w p₁ p₂ _ _ hp hs).andThen fun a b t₁ t₂ hab ht => ?_
    obtain ⟨sp₁, sp₂, e1, e2, h3⟩ := hc.push w p₁ p₂ a b t₁ t₂ hp hab.1 ht hab.2.1 hab.2.2
    rw [e1, e2]
    exact .ok (.some hab) h3
  | @opt n h =>
    simp only [checkStep]
    obtain ⟨w', h1, hcl, hre⟩ := hc.snapshot w s₁ s₂ hs
    refine (hr n h w' p₁ p₂ _ _ hp h1).bind fun o₁ o₂ t₁ t₂ ho ht => ?_
    cases ho with
    | none => exact .ok (.some (.refl hp)) (hre _ _ ht)
    | some h => exact .ok (.some h) (hcl _ _ ht)
  | @rep n tr min max h1 h2 => exact checkRep_rel hc hr h1 h2 min max 0 w p₁ p₂ s₁ s₂ hp hs
  | @seq fs h1 h2 => exact checkFields_rel hr fs h1 h2 true w p₁ p₂ s₁ s₂ hp hs
  | @choice alts h => exact checkAlts_rel hc hr alts h w p₁ p₂ s₁ s₂ hp hs
  | @rule id =>
    simp only [checkStep]
    obtain ⟨w', h1, hleave⟩ := hc.rule w (env id).label p₁ p₂ s₁ s₂ hp hs
    refine (hr _ (henv id) w' p₁ p₂ _ _ hp h1).bind fun o₁ o₂ t₁ t₂ ho ht => ?_
    have hb : o₁.isSome = o₂.isSome := by cases ho <;> rfl
    obtain ⟨u₁, u₂, e1, e2, hu⟩ := hleave o₁.isSome t₁ t₂ ht
    rw [e1, ← hb, e2]
    exact .ok ho hu

end

/-- Runs of `check` with related primitives are related. -/
theorem check_rel (hc : Compat so₁ tk₁ so₂ tk₂ L RP RS) (env : Env)
    (henv : ∀ id, Node.All L (env id).body) :
    ∀ fuel, CheckRel (Node.All L) RP RS (check so₁ tk₁ env fuel) (check so₂ tk₂ env fuel)
  | 0 => fun _ _ _ _ _ _ _ _ _ => .oof
  | fuel + 1 => checkStep_rel hc (check_rel hc env henv fuel) env henv

end

end Pest3
