import Verif.ParseLemmas

/-!
# More fuel never changes a result
-/

namespace Pest3

/-- `y` is the same result, or `x` ran out of fuel. -/
def Res.Le {α : Type} (x y : Res α) : Prop := x = .oof ∨ x = y

theorem Res.Le.refl {α : Type} (x : Res α) : Res.Le x x := .inr rfl

theorem Res.Le.trans {α : Type} {x y z : Res α} (h : Res.Le x y) (h' : Res.Le y z) : Res.Le x z := by
  rcases h with rfl | rfl
  · exact .inl rfl
  · exact h'

section
variable {S T α β : Type}

theorem Out.bind_le {x y : Out S T α} {k k' : Option α → St S T → Out S T β} (h : Res.Le x y)
    (hk : ∀ o st, Res.Le (k o st) (k' o st)) : Res.Le (x.bind k) (y.bind k') := by
  rcases h with rfl | rfl
  · exact .inl rfl
  · rcases x with ⟨o, st⟩ | _ | _
    · exact hk o st
    · exact .inr rfl
    · exact .inl rfl

theorem Out.andThen_le {x y : Out S T α} {k k' : α → St S T → Out S T β} (h : Res.Le x y)
    (hk : ∀ o st, Res.Le (k o st) (k' o st)) : Res.Le (x.andThen k) (y.andThen k') := by
  refine Out.bind_le h fun o st => ?_
  cases o with
  | none => exact .refl _
  | some a => exact hk a st

theorem Out.lift_le {o : Option α} {k k' : α → Out S T β} (hk : ∀ a, Res.Le (k a) (k' a)) :
    Res.Le (Out.lift o k) (Out.lift o k') := by
  cases o with
  | none => exact .refl _
  | some a => exact hk a

end

section
variable {S T : Type} {so : StackOps S} {tk : TrackerOps T} {r r' : CheckFn S T} {q q' : ParseFn S T}
  (h : ∀ n p s, Res.Le (r n p s) (r' n p s)) (hq : ∀ n p s, Res.Le (q n p s) (q' n p s))

include h in
theorem checkAlts_le (p : Position) : ∀ l s, Res.Le (checkAlts so r p l s) (checkAlts so r' p l s)
  | [], _ => .refl _
  | a :: l, s => by
    refine Out.bind_le (h a p _) fun o st => ?_
    cases o with
    | none => exact checkAlts_le p l _
    | some _ => exact .refl _

include h in
theorem checkFields_le : ∀ l first p s, Res.Le (checkFields r first p l s) (checkFields r' first p l s)
  | [], _, _, _ => .refl _
  | (tr, n) :: l, first, p, s => by
    refine Out.andThen_le ?_ fun a st => Out.andThen_le (h n _ _) fun b st' => checkFields_le l _ _ _
    cases first
    · exact h tr p s
    · exact .refl _

include h in
theorem checkUnit_le (n tr : Node) (i : Nat) (p s) :
    Res.Le (checkUnit r n tr i p s) (checkUnit r' n tr i p s) := by
  refine Out.andThen_le ?_ fun a st => Out.andThen_le (h n _ _) fun b st' => .refl _
  split
  · exact h tr p s
  · exact .refl _

include h in
theorem checkRep_le (n tr : Node) (min : Nat) : ∀ k i p s,
    Res.Le (checkRep so r n tr min k i p s) (checkRep so r' n tr min k i p s)
  | 0, _, _, _ => .refl _
  | k + 1, i, p, s => by
    refine Out.bind_le (Out.bind_le (checkUnit_le h n tr i p _) fun _ _ => .refl _) fun o st => ?_
    cases o with
    | none => exact .refl _
    | some q => exact checkRep_le n tr min k (i + 1) q st

include h in
theorem checkStep_le (env : Env) (n p s) :
    Res.Le (checkStep so tk r env n p s) (checkStep so tk r' env n p s) := by
  cases n with
  | leaf l => exact .refl _
  | positive n => exact Out.bind_le (h n _ _) fun _ _ => .refl _
  | negative n => exact Out.bind_le (h n _ _) fun _ _ => .refl _
  | push n => exact Out.andThen_le (h n _ _) fun _ _ => .refl _
  | opt n => exact Out.bind_le (h n _ _) fun _ _ => .refl _
  | rep n tr min max => exact checkRep_le h n tr min max 0 p s
  | seq fs => exact checkFields_le h fs true p s
  | choice l => exact checkAlts_le h p l s
  | rule id => exact Out.bind_le (h _ _ _) fun _ _ => .refl _

include hq in
theorem parseAlts_le (p : Position) : ∀ l i s, Res.Le (parseAlts so q p i l s) (parseAlts so q' p i l s)
  | [], _, _ => .refl _
  | a :: l, i, s => by
    refine Out.bind_le (hq a p _) fun o st => ?_
    cases o with
    | none => exact parseAlts_le p l _ _
    | some _ => exact .refl _

include h hq in
theorem parseFields_le : ∀ l first p s,
    Res.Le (parseFields q r first p l s) (parseFields q' r' first p l s)
  | [], _, _, _ => .refl _
  | (tr, n) :: l, first, p, s => by
    refine Out.andThen_le ?_ fun a st => Out.andThen_le (hq n _ _) fun b st' =>
      Out.andThen_le (parseFields_le l _ _ _) fun _ _ => .refl _
    cases first
    · exact h tr p s
    · exact .refl _

include h hq in
theorem parseUnit_le (n tr : Node) (i : Nat) (p s) :
    Res.Le (parseUnit q r n tr i p s) (parseUnit q' r' n tr i p s) := by
  refine Out.andThen_le ?_ fun a st => Out.andThen_le (hq n _ _) fun b st' => .refl _
  split
  · exact h tr p s
  · exact .refl _

include h hq in
theorem parseRep_le (n tr : Node) (min : Nat) : ∀ k i p s,
    Res.Le (parseRep so q r n tr min k i p s) (parseRep so q' r' n tr min k i p s)
  | 0, _, _, _ => .refl _
  | k + 1, i, p, s => by
    refine Out.bind_le (Out.bind_le (parseUnit_le h hq n tr i p _) fun _ _ => .refl _) fun o st => ?_
    cases o with
    | none => exact .refl _
    | some x => exact Out.andThen_le (parseRep_le n tr min k (i + 1) x.1 st) fun _ _ => .refl _

include h hq in
theorem parseStep_le (env : Env) (n p s) :
    Res.Le (parseStep so tk q r env n p s) (parseStep so tk q' r' env n p s) := by
  cases n with
  | leaf l => exact .refl _
  | positive n => exact Out.bind_le (hq n _ _) fun _ _ => .refl _
  | negative n => exact Out.bind_le (h n _ _) fun _ _ => .refl _
  | push n => exact Out.andThen_le (hq n _ _) fun _ _ => .refl _
  | opt n => exact Out.bind_le (hq n _ _) fun _ _ => .refl _
  | rep n tr min max => exact Out.andThen_le (parseRep_le h hq n tr min max 0 p s) fun _ _ => .refl _
  | seq fs => exact Out.andThen_le (parseFields_le h hq fs true p s) fun _ _ => .refl _
  | choice l => exact parseAlts_le hq p l 0 s
  | rule id =>
    exact Out.bind_le (Out.andThen_le (hq _ _ _) fun _ _ => .refl _) fun _ _ => .refl _

end

section
variable {S T : Type} (so : StackOps S) (tk : TrackerOps T) (env : Env)

theorem check_succ : ∀ fuel n p s, Res.Le (check so tk env fuel n p s) (check so tk env (fuel + 1) n p s)
  | 0, _, _, _ => .inl rfl
  | fuel + 1, n, p, s => checkStep_le (check_succ fuel) env n p s

theorem check_mono {fuel fuel' : Nat} (hle : fuel ≤ fuel') (n p s) :
    Res.Le (check so tk env fuel n p s) (check so tk env fuel' n p s) := by
  induction hle with
  | refl => exact .refl _
  | step _ ih => exact ih.trans (check_succ so tk env _ n p s)

theorem parse_succ : ∀ fuel n p s, Res.Le (parse so tk env fuel n p s) (parse so tk env (fuel + 1) n p s)
  | 0, _, _, _ => .inl rfl
  | fuel + 1, n, p, s => parseStep_le (check_succ so tk env fuel) (parse_succ fuel) env n p s

theorem parse_mono {fuel fuel' : Nat} (hle : fuel ≤ fuel') (n p s) :
    Res.Le (parse so tk env fuel n p s) (parse so tk env fuel' n p s) := by
  induction hle with
  | refl => exact .refl _
  | step _ ih => exact ih.trans (parse_succ so tk env _ n p s)

end

end Pest3
