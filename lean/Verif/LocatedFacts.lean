import Verif.LocatedRel

/-!
# What follows from the places of expressions
-/

namespace Pest3.Load
open Pest3 Pest3.Gen
open Pest3.Meta (Denotes charText decimal MetaRange)

variable {inp : Text}

/-- A position between characters. -/
def Edge (inp : Text) (i : Nat) : Prop := ∃ a b, inp = a ++ b ∧ i = utf8Len a

theorem Stands.left {i j : Nat} {t : Text} (h : Stands inp i t j) : Edge inp i := by
  obtain ⟨a, b, h1, h2, -⟩ := h
  exact ⟨a, t ++ b, h1, h2⟩

theorem Stands.right {i j : Nat} {t : Text} (h : Stands inp i t j) : Edge inp j := by
  obtain ⟨a, b, h1, -, h2⟩ := h
  exact ⟨a ++ t, b, by rw [h1, List.append_assoc], by rw [h2, utf8Len_append]⟩

theorem Stands.le {i j : Nat} {t : Text} (h : Stands inp i t j) : i ≤ j := by
  obtain ⟨a, b, -, h1, h2⟩ := h
  omega

/-- Something stands between two positions. -/
theorem Edge.text {i j : Nat} (hi : Edge inp i) (hj : Edge inp j) (h : i ≤ j) : ∃ t, Stands inp i t j := by
  obtain ⟨a, b, h1, h2⟩ := hi
  obtain ⟨c, d, h3, h4⟩ := hj
  have : ∃ t, c = a ++ t := by
    have e : a ++ b = c ++ d := by rw [← h1, ← h3]
    rcases List.append_eq_append_iff.1 e with ⟨t, h5, -⟩ | ⟨t, h5, -⟩
    · exact ⟨t, h5⟩
    · have : utf8Len a = utf8Len c + utf8Len t := by rw [h5, utf8Len_append]
      cases t with
      | nil => exact ⟨[], by simpa using h5.symm⟩
      | cons x t =>
        have : 0 < x.utf8Size := Char.utf8Size_pos x
        simp only [utf8Len_cons] at *
        omega
  obtain ⟨t, rfl⟩ := this
  exact ⟨t, a, d, by rw [h3, List.append_assoc], h2, by rw [h4, utf8Len_append]⟩

theorem Stands.to {i j k : Nat} {t : Text} (h : Stands inp i t j) (he : Edge inp k) (hk : j ≤ k) : ∃ s, Stands inp i (t ++ s) k := by
  obtain ⟨s, hs⟩ := h.right.text he hk
  exact ⟨s, h.trans hs⟩

theorem Edge.ends {i j k : Nat} {t : Text} (he : Edge inp i) (h : Stands inp j t k) (hi : i ≤ j) : EndsWith inp i t k := by
  obtain ⟨s, hs⟩ := he.text h.left hi
  exact ⟨s, hs.trans h⟩

theorem Edge.holds {i j k l : Nat} {x : Char} (he : Edge inp i) (h : Stands inp j [x] k) (hi : i ≤ j) (hl : Edge inp l) (hk : k ≤ l) : Holds inp i x l := by
  obtain ⟨a, ha⟩ := he.text h.left hi
  obtain ⟨b, hb⟩ := h.right.text hl hk
  exact ⟨a, b, ha.trans (h.trans hb)⟩

theorem Blanks.stands {i j : Nat} (h : Blanks inp i j) : ∃ t, Stands inp i t j := by
  obtain ⟨g, h, -⟩ := h
  exact ⟨g, h⟩

theorem Blanks.le {i j : Nat} (h : Blanks inp i j) : i ≤ j := by obtain ⟨g, h, -⟩ := h; exact h.le

theorem LastBlanks.stands {i j : Nat} (h : LastBlanks inp i j) : ∃ t, Stands inp i t j := by
  rcases h with h | ⟨g, h, -⟩
  · exact h.stands
  · exact ⟨g, h⟩

theorem LastBlanks.le {i j : Nat} (h : LastBlanks inp i j) : i ≤ j := by obtain ⟨g, h⟩ := h.stands; exact h.le

theorem PathAt.edges {q : List Name} {i j : Nat} (h : PathAt inp q i j) : Edge inp i ∧ Edge inp j ∧ i ≤ j := by
  induction h with
  | one _ h => exact ⟨h.left, h.right, h.le⟩
  | cons _ h1 h2 h3 h4 _ ih =>
    have := h1.le; have := h2.le; have := h3.le; have := h4.le; have := ih.2.2
    exact ⟨h1.left, ih.2.1, by omega⟩

theorem MaybeAt.le {α : Type} {text : α → Text} {o : Option (α × Loc)} {i j : Nat} (h : MaybeAt inp text o i j) :
    i ≤ j ∧ ∀ x ∈ o, i ≤ x.2.start ∧ x.2.stop ≤ j ∧ Stands inp x.2.start (text x.1) x.2.stop := by
  cases h with
  | none h => exact ⟨h.le, by simp⟩
  | some h1 h2 h3 =>
    have := h1.le; have := h2.le; have := h3.le
    refine ⟨by omega, ?_⟩
    rintro _ ⟨⟩
    exact ⟨by assumption, by assumption, h2⟩

theorem BarAt.bar_in {i j : Nat} (h : BarAt inp i j) : Edge inp i ∧ Edge inp j ∧ ∃ k, i ≤ k ∧ Stands inp k ['|'] j := by
  cases h with
  | bar h => exact ⟨h.left, h.right, i, Nat.le_refl i, h⟩
  | trivia _ h1 h2 h3 =>
    have := h1.le; have := h2.le
    exact ⟨h1.left, h3.right, _, by omega, h3⟩

/-! ## Numbers -/

theorem maybe_ok {α β : Type} {f : α → Except LErr β} {o : Option α} {v : Option β} (h : maybe f o = .ok v) :
    (o = none ∧ v = none) ∨ ∃ a b, o = some a ∧ f a = .ok b ∧ v = some b := by
  cases o with
  | none => cases h; exact .inl ⟨rfl, rfl⟩
  | some a =>
    simp only [maybe] at h
    cases hf : f a with
    | error e => rw [hf] at h; cases h
    | ok b => rw [hf] at h; cases h; exact .inr ⟨a, b, rfl, hf, rfl⟩

theorem maybe_error {α β : Type} {f : α → Except LErr β} {o : Option α} {e : LErr} (h : maybe f o = .error e) : ∃ a, o = some a ∧ f a = .error e := by
  cases o with
  | none => cases h
  | some a =>
    simp only [maybe] at h
    cases hf : f a with
    | error e' => rw [hf] at h; cases h; exact ⟨a, rfl, hf⟩
    | ok b => rw [hf] at h; cases h

theorem both_ok {α β γ : Type} {f : α → β → γ} {x : Except LErr α} {y : Except LErr β} {v : γ} (h : both f x y = .ok v) :
    ∃ a b, x = .ok a ∧ y = .ok b ∧ v = f a b := by
  cases x <;> cases y <;> cases h
  exact ⟨_, _, rfl, rfl, rfl⟩

theorem both_error {α β γ : Type} {f : α → β → γ} {x : Except LErr α} {y : Except LErr β} {e : LErr} (h : both f x y = .error e) :
    x = .error e ∨ y = .error e := by
  cases x <;> cases y <;> cases h
  · exact .inl rfl
  · exact .inl rfl
  · exact .inr rfl

/-- An error within bounds. -/
def FaultIn (inp : Text) (i j : Nat) (e : LErr) : Prop := Fault inp e ∧ i ≤ e.loc.start ∧ e.loc.stop ≤ j

theorem FaultIn.mono {i j i' j' : Nat} {e : LErr} (h : FaultIn inp i j e) (hi : i' ≤ i) (hj : j ≤ j') : FaultIn inp i' j' e :=
  ⟨h.1, by have := h.2.1; omega, by have := h.2.2; omega⟩

theorem natAt_fault {x : Nat × Loc} {e : LErr} (h : natAt x = .error e) (hx : Stands inp x.2.start (decimal x.1) x.2.stop) :
    FaultIn inp x.2.start x.2.stop e := by
  unfold natAt at h
  split at h
  · cases h
  · rename_i hn
    cases h
    exact ⟨.nat hx (by omega), Nat.le_refl _, Nat.le_refl _⟩

theorem natAt_ok {x : Nat × Loc} {v : Nat} (h : natAt x = .ok v) : v = x.1 := by
  unfold natAt at h
  split at h <;> cases h
  rfl

theorem intAt_fault {x : IntLit × Loc} {e : LErr} (h : intAt x = .error e) (hx : Stands inp x.2.start x.1.text x.2.stop) :
    FaultIn inp x.2.start x.2.stop e := by
  unfold intAt at h
  split at h
  · cases h
  · rename_i hn
    cases h
    exact ⟨.int hx hn, Nat.le_refl _, Nat.le_refl _⟩

theorem decimal_zero : decimal 0 = ['0'] := by decide

theorem checkBounds_error {l : Loc} {r : MetaRange Nat} {e : LErr} (h : checkBounds l r = .error e) :
    (∃ a b, r = ⟨some a, some b⟩ ∧ b < a ∧ e = ⟨void a b, l⟩) ∨ (∃ o, r = ⟨o, some 0⟩ ∧ e = ⟨zeroTimes, l⟩) := by
  obtain ⟨a, b⟩ := r
  unfold checkBounds at h
  cases a with
  | none => cases b with
    | none => cases h
    | some b =>
      simp only at h
      split at h
      · cases h; subst b; exact .inr ⟨none, rfl, rfl⟩
      · cases h
  | some a => cases b with
    | none => cases h
    | some b =>
      simp only at h
      split at h
      · cases h; exact .inl ⟨a, b, rfl, ‹_›, rfl⟩
      · split at h
        · cases h; subst b; exact .inr ⟨some a, rfl, rfl⟩
        · cases h

theorem boundsAt_error {a b : Option (Nat × Loc)} {l : Loc} {e : LErr} (h : boundsAt a b l = .error e) :
    (∃ x, a = some x ∧ natAt x = .error e) ∨ (∃ x, b = some x ∧ natAt x = .error e) ∨
    (∃ x y, a = some x ∧ b = some y ∧ y.1 < x.1 ∧ e = ⟨void x.1 y.1, l⟩) ∨ (∃ y, b = some y ∧ y.1 = 0 ∧ e = ⟨zeroTimes, l⟩) := by
  unfold boundsAt at h
  cases hb : both MetaRange.mk (maybe natAt a) (maybe natAt b) with
  | error e' =>
    rw [hb] at h
    cases h
    rcases both_error hb with h | h
    · exact .inl (maybe_error h)
    · exact .inr (.inl (maybe_error h))
  | ok r =>
    rw [hb] at h
    obtain ⟨x, y, h1, h2, rfl⟩ := both_ok hb
    rcases checkBounds_error h with ⟨p, q, h3, h4, rfl⟩ | ⟨o, h3, rfl⟩
    · cases h3
      rcases maybe_ok h1 with ⟨-, h⟩ | ⟨x, p', rfl, k1, h⟩
      · cases h
      · cases h
        rcases maybe_ok h2 with ⟨-, h⟩ | ⟨y, q', rfl, k2, h⟩
        · cases h
        · cases h
          cases natAt_ok k1
          cases natAt_ok k2
          exact .inr (.inr (.inl ⟨x, y, rfl, rfl, h4, rfl⟩))
    · cases h3
      rcases maybe_ok h2 with ⟨-, h⟩ | ⟨y, q', rfl, k2, h⟩
      · cases h
      · cases h
        exact .inr (.inr (.inr ⟨y, rfl, (natAt_ok k2).symm, rfl⟩))

theorem map_error {α β : Type} {f : α → β} {x : Except LErr α} {e : LErr} (h : x.map f = .error e) : x = .error e := by
  cases x <;> cases h
  rfl

theorem map_ok {α β : Type} {f : α → β} {x : Except LErr α} {v : β} (h : x.map f = .ok v) : ∃ a, x = .ok a ∧ v = f a := by
  cases x <;> cases h
  exact ⟨_, rfl, rfl⟩

theorem RepeatAt.facts {i j : Nat} {o : Except LErr Repeat} (h : RepeatAt inp i j o) : Edge inp i ∧ Edge inp j ∧ i ≤ j ∧
    (∀ e, o = .error e → FaultIn inp i j e) ∧
    ∀ r, o = .ok r → ∃ k x, i ≤ k ∧ Stands inp k [x] j ∧
      match r with
      | .opt => x = '?'
      | .star => x = '*'
      | .plus => x = '+'
      | .range _ => x = '}' := by
  cases h with
  | opt h => exact ⟨h.left, h.right, h.le, by rintro e ⟨⟩, by rintro r ⟨⟩; exact ⟨i, _, Nat.le_refl _, h, rfl⟩⟩
  | star h => exact ⟨h.left, h.right, h.le, by rintro e ⟨⟩, by rintro r ⟨⟩; exact ⟨i, _, Nat.le_refl _, h, rfl⟩⟩
  | plus h => exact ⟨h.left, h.right, h.le, by rintro e ⟨⟩, by rintro r ⟨⟩; exact ⟨i, _, Nat.le_refl _, h, rfl⟩⟩
  | exact h1 h2 h3 h4 h5 =>
    have := h1.le; have := h2.le; have := h3.le; have := h4.le; have := h5.le
    refine ⟨h1.left, h5.right, by omega, ?_, ?_⟩
    · intro e he
      rcases boundsAt_error (map_error he) with ⟨x, ⟨⟩, h⟩ | ⟨x, ⟨⟩, h⟩ | ⟨x, y, ⟨⟩, ⟨⟩, h, -⟩ | ⟨y, ⟨⟩, h, rfl⟩
      · exact (natAt_fault h h3).mono (by simp only; omega) (by simp only; omega)
      · exact (natAt_fault h h3).mono (by simp only; omega) (by simp only; omega)
      · simp at h
      · simp only at h
        subst h
        exact ⟨.zero (s := []) h3, by simp only; omega, by simp only; omega⟩
    · intro r hr
      obtain ⟨x, -, rfl⟩ := map_ok hr
      exact ⟨_, '}', by omega, h5, rfl⟩
  | @bounds a b _ q k l m _ h1 h2 h3 h4 h5 =>
    have := h1.le; have := h2.le.1; have := h3.le; have := h4.le.1; have := h5.le
    refine ⟨h1.left, h5.right, by omega, ?_, ?_⟩
    · intro e he
      -- from the first number, or `..`
      have start : ∃ s, Stands inp ((a.map fun x => x.2.start).getD k) s l ∧ i ≤ (a.map fun x => x.2.start).getD k ∧
          ∀ x, a = some x → ∃ u, s = decimal x.1 ++ u := by
        cases a with
        | none => exact ⟨_, h3, by simp only [Option.map, Option.getD]; omega, by rintro x ⟨⟩⟩
        | some x =>
          obtain ⟨k1, k2, k3⟩ := h2.le.2 x rfl
          obtain ⟨u, hu⟩ := k3.to h3.right (by omega)
          exact ⟨_, hu, by simp only [Option.map, Option.getD]; omega, by rintro y ⟨⟩; exact ⟨u, rfl⟩⟩
      have number : ∀ y, b = some y → ∃ u, Stands inp l (u ++ decimal y.1) y.2.stop ∧ y.2.stop ≤ j := by
        rintro y rfl
        obtain ⟨k1, k2, k3⟩ := h4.le.2 y rfl
        obtain ⟨u, hu⟩ := h3.right.ends k3 k1
        exact ⟨u, hu, by omega⟩
      obtain ⟨s, hs, hi, hsx⟩ := start
      rcases boundsAt_error (map_error he) with ⟨x, rfl, h⟩ | ⟨x, rfl, h⟩ | ⟨x, y, rfl, rfl, h, rfl⟩ | ⟨y, rfl, h, rfl⟩
      · obtain ⟨k1, k2, k3⟩ := h2.le.2 x rfl
        exact (natAt_fault h k3).mono (by omega) (by omega)
      · obtain ⟨k1, k2, k3⟩ := h4.le.2 x rfl
        exact (natAt_fault h k3).mono (by omega) (by omega)
      · obtain ⟨u, hu, hj⟩ := number y rfl
        obtain ⟨v, rfl⟩ := hsx x rfl
        refine ⟨.void (s := v ++ u) ?_ h, hi, hj⟩
        have := hs.trans hu
        rw [List.append_assoc, ← List.append_assoc v] at this
        exact this
      · obtain ⟨u, hu, hj⟩ := number y rfl
        rw [h, decimal_zero] at hu
        refine ⟨.zero (s := s ++ u) ?_, hi, hj⟩
        rw [List.append_assoc]
        exact hs.trans hu
    · intro r hr
      obtain ⟨x, -, rfl⟩ := map_ok hr
      exact ⟨_, '}', by omega, h5, rfl⟩

/-! ## Expressions -/

/-- An expression whose parts all stand where their spans say, between `i` and `j`. -/
structure Placed (inp : Text) (i j : Nat) (e : SExpr) : Prop where
  all : ∀ x ∈ parts e, SpanOk inp x ∧ Edge inp x.span.start ∧ Edge inp x.span.stop ∧ x.span.start ≤ x.span.stop
  left : i ≤ e.span.start
  right : e.span.stop ≤ j

theorem mem_parts (e : SExpr) : e ∈ parts e := by cases e <;> simp [parts]

theorem Placed.own {i j : Nat} {e : SExpr} (h : Placed inp i j e) :
    Edge inp e.span.start ∧ Edge inp e.span.stop ∧ e.span.start ≤ e.span.stop := (h.all e (mem_parts e)).2

theorem Placed.mono {i j i' j' : Nat} {e : SExpr} (h : Placed inp i j e) (hi : i' ≤ i) (hj : j ≤ j') : Placed inp i' j' e :=
  ⟨h.all, by have := h.left; omega, by have := h.right; omega⟩

/-- Arguments one after the other. -/
def PlacedAll (inp : Text) (i j : Nat) (es : List SExpr) : Prop :=
  (∀ x ∈ partsAll es, SpanOk inp x ∧ Edge inp x.span.start ∧ Edge inp x.span.stop ∧ x.span.start ≤ x.span.stop) ∧ InOrder i j es

theorem InOrder.mono {es : List SExpr} : ∀ {i j i' j' : Nat}, InOrder i j es → i' ≤ i → j ≤ j' → InOrder i' j' es := by
  induction es with
  | nil => intros; trivial
  | cons e es ih =>
    intro i j i' j' h hi hj
    exact ⟨by have := h.1; omega, by have := h.2.1; omega, ih h.2.2 (Nat.le_refl _) hj⟩

/-- What a reading gives. -/
def Outcome.Placed (inp : Text) (i j : Nat) : Outcome → Prop
  | .expr _ (.ok e) => Load.Placed inp i j e
  | .expr _ (.error e) => FaultIn inp i j e
  | .args (.ok es) => PlacedAll inp i j es
  | .args (.error e) => FaultIn inp i j e

theorem Outcome.Placed.mono {i j i' j' : Nat} : ∀ {o : Outcome}, o.Placed inp i j → i' ≤ i → j ≤ j' → o.Placed inp i' j'
  | .expr _ (.ok _), h, hi, hj => Load.Placed.mono h hi hj
  | .expr _ (.error _), h, hi, hj => FaultIn.mono h hi hj
  | .args (.ok _), h, hi, hj => ⟨h.1, h.2.mono hi hj⟩
  | .args (.error _), h, hi, hj => FaultIn.mono h hi hj

theorem placed_leaf {i j : Nat} {e : SExpr} (he : parts e = [e]) (hs : e.span = ⟨i, j⟩) (h : SpanOk inp e) (hi : Edge inp i) (hj : Edge inp j) (hij : i ≤ j) :
    Placed inp i j e := by
  refine ⟨?_, by rw [hs]; exact Nat.le_refl _, by rw [hs]; exact Nat.le_refl _⟩
  intro x hx
  rw [he] at hx
  simp only [List.mem_singleton] at hx
  subst hx
  rw [hs]
  exact ⟨h, hi, hj, hij⟩

/-- One operand. -/
theorem placed_one {i j a b : Nat} {e x : SExpr} (he : parts e = e :: parts x) (hx : Placed inp a b x) (h : SpanOk inp e) (hi : Edge inp e.span.start)
    (hj : Edge inp e.span.stop) (hij : e.span.start ≤ e.span.stop) (hl : i ≤ e.span.start) (hr : e.span.stop ≤ j) : Placed inp i j e := by
  refine ⟨?_, hl, hr⟩
  intro y hy
  rw [he] at hy
  rcases List.mem_cons.1 hy with rfl | hy
  · exact ⟨h, hi, hj, hij⟩
  · exact hx.all y hy

/-- Two operands. -/
theorem placed_two {i j k l : Nat} {e x y : SExpr} (he : parts e = e :: (parts x ++ parts y)) (hs : e.span = ⟨x.span.start, y.span.stop⟩) (hx : Placed inp i k x)
    (hy : Placed inp l j y) (h : SpanOk inp e) (hkl : k ≤ l) : Placed inp i j e := by
  obtain ⟨a1, a2, a3⟩ := hx.own
  obtain ⟨b1, b2, b3⟩ := hy.own
  have := hx.right; have := hy.left
  refine ⟨?_, by rw [hs]; exact hx.left, by rw [hs]; exact hy.right⟩
  intro z hz
  rw [he] at hz
  rcases List.mem_cons.1 hz with rfl | hz
  · rw [hs]
    exact ⟨h, a1, b2, by simp only; omega⟩
  · rcases List.mem_append.1 hz with hz | hz
    · exact hx.all z hz
    · exact hy.all z hz

/-- Every reading has its parts in place. -/
theorem Reading.placed {i j : Nat} {o : Outcome} (h : Reading inp i j o) : (Edge inp i ∧ Edge inp j ∧ i ≤ j) ∧ o.Placed inp i j := by
  induction h with
  | @whole _ _ r _ ih => cases r <;> exact ih
  | @leading i j k l r h1 h2 _ ih =>
    obtain ⟨e1, e2, m, h3, h4⟩ := h1.bar_in
    have := h4.le; have := h2.le; have := ih.1.2.2
    refine ⟨⟨e1, ih.1.2.1, by omega⟩, ?_⟩
    have := ih.2.mono (i' := i) (by omega) (Nat.le_refl l)
    cases r <;> exact this
  | @alternative _ _ r _ ih => cases r <;> exact ih
  | @choice i j k l m n x y _ h1 h2 h3 _ ih1 ih2 =>
    obtain ⟨e1, e2, q, h4, h5⟩ := h2.bar_in
    have := h1.le; have := h5.le; have := h3.le; have := ih1.1.2.2; have := ih2.1.2.2
    refine ⟨⟨ih1.1.1, ih2.1.2.1, by omega⟩, ?_⟩
    cases x with
    | error e => exact FaultIn.mono ih1.2 (Nat.le_refl _) (by omega)
    | ok x => cases y with
      | error e => exact FaultIn.mono ih2.2 (by omega) (Nat.le_refl _)
      | ok y =>
        have hx : Placed inp i j x := ih1.2
        have hy : Placed inp m n y := ih2.2
        have := hx.right; have := hy.left
        exact placed_two rfl rfl hx hy ⟨rfl, rfl, hx.own.2.1.holds h5 (by omega) hy.own.1 (by omega)⟩ (by omega)
  | @single _ _ r _ ih => cases r <;> exact ih
  | @seq i j k l m n x y t o _ h1 h2 h3 h4 _ ih1 ih2 =>
    have := h1.le; have := h3.le; have := h4.le; have := ih1.1.2.2; have := ih2.1.2.2
    refine ⟨⟨ih1.1.1, ih2.1.2.1, by omega⟩, ?_⟩
    cases x with
    | error e => exact FaultIn.mono ih1.2 (Nat.le_refl _) (by omega)
    | ok x => cases y with
      | error e => exact FaultIn.mono ih2.2 (by omega) (Nat.le_refl _)
      | ok y =>
        have hx : Placed inp i j x := ih1.2
        have hy : Placed inp m n y := ih2.2
        have := hx.right; have := hy.left
        exact placed_two rfl rfl hx hy ⟨rfl, rfl, o, h2, hx.own.2.1.holds h3 (by omega) hy.own.1 (by omega)⟩ (by omega)
  | @unprefixed _ _ r _ ih => cases r <;> exact ih
  | @pos i j k l r h1 h2 _ ih =>
    have := h1.le; have := h2.le; have := ih.1.2.2
    refine ⟨⟨h1.left, ih.1.2.1, by omega⟩, ?_⟩
    cases r with
    | error e => exact FaultIn.mono ih.2 (by omega) (Nat.le_refl _)
    | ok x =>
      have hx : Placed inp k l x := ih.2
      obtain ⟨a1, a2, a3⟩ := hx.own
      have := hx.left
      exact placed_one (x := x) rfl hx ⟨h1.to a1 (by omega), rfl⟩ h1.left a2 (show i ≤ x.span.stop by omega) (Nat.le_refl _) hx.right
  | @neg i j k l r h1 h2 _ ih =>
    have := h1.le; have := h2.le; have := ih.1.2.2
    refine ⟨⟨h1.left, ih.1.2.1, by omega⟩, ?_⟩
    cases r with
    | error e => exact FaultIn.mono ih.2 (by omega) (Nat.le_refl _)
    | ok x =>
      have hx : Placed inp k l x := ih.2
      obtain ⟨a1, a2, a3⟩ := hx.own
      have := hx.left
      exact placed_one (x := x) rfl hx ⟨h1.to a1 (by omega), rfl⟩ h1.left a2 (show i ≤ x.span.stop by omega) (Nat.le_refl _) hx.right
  | @unpostfixed _ _ r _ ih => cases r <;> exact ih
  | @post i j k l r o _ h1 h2 ih =>
    obtain ⟨e1, e2, e3, e4, e5⟩ := h2.facts
    have := h1.le; have := ih.1.2.2
    refine ⟨⟨ih.1.1, e2, by omega⟩, ?_⟩
    cases r with
    | error e => exact FaultIn.mono ih.2 (Nat.le_refl _) (by omega)
    | ok x => cases o with
      | error e => exact (e4 e rfl).mono (by omega) (Nat.le_refl _)
      | ok o =>
        have hx : Placed inp i j x := ih.2
        obtain ⟨a1, a2, a3⟩ := hx.own
        obtain ⟨q, c, h3, h4, h5⟩ := e5 o rfl
        have := hx.left; have := hx.right
        have hends := a2.ends h4 (by omega)
        cases o <;> cases h5 <;>
          exact placed_one (x := x) rfl hx ⟨rfl, hends⟩ a1 e2 (show x.span.start ≤ l by omega) hx.left (Nat.le_refl _)
  | @sepPost i j k l m n r o t c _ h1 h2 h3 h4 h5 h6 ih =>
    obtain ⟨e1, e2, e3, e4, e5⟩ := h6.facts
    have := h1.le; have := h4.le; have := h5.le; have := ih.1.2.2
    refine ⟨⟨ih.1.1, e2, by omega⟩, ?_⟩
    cases r with
    | error e => exact FaultIn.mono ih.2 (Nat.le_refl _) (by omega)
    | ok x => cases o with
      | error e => exact (e4 e rfl).mono (by omega) (Nat.le_refl _)
      | ok o =>
        have hx : Placed inp i j x := ih.2
        obtain ⟨a1, a2, a3⟩ := hx.own
        obtain ⟨q, d, h7, h8, h9⟩ := e5 o rfl
        have := hx.left; have := hx.right
        have hs : Placed inp i l (.separated x t ⟨x.span.start, l⟩) :=
          placed_one (x := x) rfl hx ⟨rfl, c, h2, a2.ends h4 (by omega)⟩ a1 h4.right (show x.span.start ≤ l by omega) hx.left (Nat.le_refl _)
        have hends := h4.right.ends h8 (by omega)
        cases o <;> cases h9 <;>
          exact placed_one (x := .separated x t ⟨x.span.start, l⟩) rfl hs ⟨rfl, hends⟩ a1 e2 (show x.span.start ≤ n by omega) hx.left (Nat.le_refl _)
  | @paren i j k l m n r h1 h2 _ h3 h4 ih =>
    have := h1.le; have := h2.le; have := h3.le; have := h4.le; have := ih.1.2.2
    refine ⟨⟨h1.left, h4.right, by omega⟩, ?_⟩
    have := ih.2.mono (i' := i) (j' := n) (by omega) (by omega)
    cases r <;> exact this
  | @str i j s v h1 h2 =>
    refine ⟨⟨h1.left, h1.right, h1.le⟩, ?_⟩
    cases v with
    | none => exact ⟨.string h1 h2, Nat.le_refl _, Nat.le_refl _⟩
    | some v => exact placed_leaf rfl rfl (.inl ⟨s, h1, h2⟩) h1.left h1.right h1.le
  | @insens i j s v h1 h2 =>
    refine ⟨⟨h1.left, h1.right, h1.le⟩, ?_⟩
    cases v with
    | none => exact ⟨.insensitive h1 h2, Nat.le_refl _, Nat.le_refl _⟩
    | some v => exact placed_leaf rfl rfl ⟨s, h1, h2⟩ h1.left h1.right h1.le
  | @raw i j n s v h1 h2 => exact ⟨⟨h1.left, h1.right, h1.le⟩, placed_leaf rfl rfl (.inr ⟨n, s, h1, h2⟩) h1.left h1.right h1.le⟩
  | @range i j k l m n a b x y h1 h2 h3 h4 h5 h6 h7 =>
    have := h1.le; have := h3.le; have := h4.le; have := h5.le; have := h6.le
    refine ⟨⟨h1.left, h6.right, by omega⟩, placed_leaf rfl rfl ?_ h1.left h6.right (by omega)⟩
    obtain ⟨g, hg⟩ := h1.right.text h6.left (by omega)
    exact ⟨a, g, b, h1.trans (hg.trans h6), h2, h7⟩
  | @badFirst i j k l m n a b h1 h2 h3 h4 h5 h6 =>
    have := h1.le; have := h3.le; have := h4.le; have := h5.le; have := h6.le
    exact ⟨⟨h1.left, h6.right, by omega⟩, .char h1 h2, Nat.le_refl _, by simp only; omega⟩
  | @badSecond i j k l m n a b h1 h2 h3 h4 h5 h6 h7 =>
    have := h1.le; have := h3.le; have := h4.le; have := h5.le; have := h6.le
    exact ⟨⟨h1.left, h6.right, by omega⟩, .char h6 h7, by simp only; omega, Nat.le_refl _⟩
  | @path i j k q h1 h2 =>
    obtain ⟨e1, e2, e3⟩ := h1.edges
    obtain ⟨g, hg⟩ := h2.blanks.stands
    have := hg.le
    exact ⟨⟨e1, hg.right, by omega⟩, placed_leaf rfl rfl ⟨j, h1, h2⟩ e1 hg.right (by omega)⟩
  | @call i j k l m n q r h1 h2 h3 _ h4 ih =>
    obtain ⟨e1, e2, e3⟩ := h1.edges
    have := h2.le; have := h3.le; have := h4.le; have := ih.1.2.2
    refine ⟨⟨e1, h4.right, by omega⟩, ?_⟩
    cases r with
    | error e => exact FaultIn.mono ih.2 (by omega) (by omega)
    | ok es =>
      have hes : PlacedAll inp l m es := ih.2
      refine ⟨?_, Nat.le_refl _, Nat.le_refl _⟩
      intro x hx
      rcases List.mem_cons.1 (show x ∈ .call q es ⟨i, n⟩ :: partsAll es from hx) with rfl | hx
      · exact ⟨⟨j, h1, e2.ends h4 (by omega), hes.2.mono (by omega) (by simp only; omega)⟩, e1, h4.right, by simp only [SExpr.span]; omega⟩
      · exact hes.1 x hx
  | @slice i j k l m n o p q a b h1 h2 h3 h4 h5 h6 h7 =>
    obtain ⟨e1, e2, e3⟩ := h1.edges
    have := h2.le; have := h3.le; have := h4.le.1; have := h5.le; have := h6.le.1; have := h7.le
    refine ⟨⟨e1, h7.right, by omega⟩, ?_⟩
    cases hb : both MetaRange.mk (maybe intAt a) (maybe intAt b) with
    | ok r => exact placed_leaf rfl rfl ⟨j, h1, e2.ends h7 (by omega)⟩ e1 h7.right (by omega)
    | error e =>
      show FaultIn inp i p e
      rcases both_error hb with h | h
      · obtain ⟨x, rfl, hx⟩ := maybe_error h
        obtain ⟨k1, k2, k3⟩ := h4.le.2 x rfl
        exact (intAt_fault hx k3).mono (by omega) (by omega)
      · obtain ⟨x, rfl, hx⟩ := maybe_error h
        obtain ⟨k1, k2, k3⟩ := h6.le.2 x rfl
        exact (intAt_fault hx k3).mono (by omega) (by omega)
  | noArgs h => obtain ⟨g, h⟩ := h.stands; exact ⟨⟨h.left, h.right, h.le⟩, by simp [partsAll], trivial⟩
  | @lastArg i j k l r h1 _ h2 ih =>
    obtain ⟨g1, s1⟩ := h1.stands
    obtain ⟨g2, s2⟩ := h2.stands
    have := s1.le; have := s2.le; have := ih.1.2.2
    refine ⟨⟨s1.left, s2.right, by omega⟩, ?_⟩
    cases r with
    | error e => exact FaultIn.mono ih.2 (by omega) (by omega)
    | ok x =>
      have hx : Placed inp j k x := ih.2
      exact ⟨by simpa [partsAll] using hx.all, by have := hx.left; omega, by have := hx.right; omega, trivial⟩
  | @trailing i j k l m n r h1 _ h2 h3 h4 ih =>
    obtain ⟨g1, s1⟩ := h1.stands
    obtain ⟨g2, s2⟩ := h4.stands
    have := s1.le; have := s2.le; have := h2.le; have := h3.le; have := ih.1.2.2
    refine ⟨⟨s1.left, s2.right, by omega⟩, ?_⟩
    cases r with
    | error e => exact FaultIn.mono ih.2 (by omega) (by omega)
    | ok x =>
      have hx : Placed inp j k x := ih.2
      exact ⟨by simpa [partsAll] using hx.all, by have := hx.left; omega, by have := hx.right; omega, trivial⟩
  | @moreArgs i j k l m n x r h1 _ h2 h3 _ ih1 ih2 =>
    obtain ⟨g1, s1⟩ := h1.stands
    have := s1.le; have := h2.le; have := h3.le; have := ih1.1.2.2; have := ih2.1.2.2
    refine ⟨⟨s1.left, ih2.1.2.1, by omega⟩, ?_⟩
    cases r with
    | error e => exact FaultIn.mono ih2.2 (by omega) (Nat.le_refl _)
    | ok es =>
      have hx : Placed inp j k x := ih1.2
      have hes : PlacedAll inp m n es := ih2.2
      have := hx.left; have := hx.right
      refine ⟨?_, by omega, by omega, hes.2.mono (by omega) (Nat.le_refl _)⟩
      intro y hy
      rcases List.mem_append.1 (show y ∈ parts x ++ partsAll es from hy) with hy | hy
      · exact hx.all y hy
      · exact hes.1 y hy
  | @badArg i j k l m n e t h1 _ h2 h3 h4 ih =>
    obtain ⟨g1, s1⟩ := h1.stands
    have := s1.le; have := h2.le; have := h3.le; have := h4.le; have := ih.1.2.2
    exact ⟨⟨s1.left, h4.right, by omega⟩, FaultIn.mono ih.2 (by omega) (by omega)⟩

/-! ## Rules -/

theorem NamesAt.le {xs : List Name} {i j : Nat} (h : NamesAt inp xs i j) : i ≤ j := by
  induction h with
  | nil h => exact h.le
  | last h1 _ h2 h3 => have := h1.le; have := h2.le; have := h3.le; omega
  | trailing h1 _ h2 h3 h4 h5 => have := h1.le; have := h2.le; have := h3.le; have := h4.le; have := h5.le; omega
  | more h1 _ h2 h3 h4 _ ih => have := h1.le; have := h2.le; have := h3.le; have := h4.le; omega

theorem ParamsAt.le {xs : List Name} {i j : Nat} (h : ParamsAt inp xs i j) : i ≤ j := by
  cases h with
  | none h => exact h.le
  | some h1 h2 h3 h4 h5 => have := h1.le; have := h2.le; have := h3.le; have := h4.le; have := h5.le; omega

theorem SilentAt.le {s : Bool} {i j : Nat} (h : SilentAt inp s i j) : i ≤ j := by
  cases h with
  | loud => exact Nat.le_refl _
  | silent h1 h2 => have := h1.le; have := h2.le; omega

theorem BodyAt.placed {r : Except LErr SExpr} {i j : Nat} (h : BodyAt inp r i j) : Edge inp j ∧ i ≤ j ∧ (Outcome.expr .whole r).Placed inp i j := by
  cases h with
  | braced h1 h2 h3 h4 h5 =>
    have := h1.le; have := h2.le; have := h4.le; have := h5.le; have := h3.placed.1.2.2
    exact ⟨h5.right, by omega, h3.placed.2.mono (by omega) (by omega)⟩
  | plain h1 h2 =>
    obtain ⟨g, hg⟩ := h2.stands
    have := hg.le; have := h1.placed.1.2.2
    exact ⟨hg.right, by omega, h1.placed.2.mono (Nat.le_refl _) (by omega)⟩

theorem RuleAt.le {i j : Nat} {r : Except LErr SRule} (h : RuleAt inp i j r) : i ≤ j := by
  cases h with
  | mk h1 h2 h3 h4 h5 h6 h7 h8 h9 =>
    have := h1.le; have := h4.le; have := h5.le; have := h6.le; have := h7.le; have := h8.le; have := h9.placed.2.1
    omega

theorem RuleAt.ok {i j : Nat} {r : SRule} (h : RuleAt inp i j (.ok r)) : r.span = ⟨i, j⟩ ∧ Edge inp i ∧ Edge inp j ∧ i ≤ j ∧ Placed inp i j r.node := by
  generalize ho : (Except.ok r : Except LErr SRule) = o at h
  cases h with
  | mk h1 h2 h3 h4 h5 h6 h7 h8 h9 =>
    obtain ⟨e, rfl, rfl⟩ := map_ok ho.symm
    have hb := h9.placed
    have := h1.le; have := h4.le; have := h5.le; have := h6.le; have := h7.le; have := h8.le; have := hb.2.1
    exact ⟨rfl, h1.left, hb.1, by omega, (show Placed inp _ _ e from hb.2.2).mono (by omega) (Nat.le_refl _)⟩

theorem RuleAt.error {i j : Nat} {e : LErr} (h : RuleAt inp i j (.error e)) : FaultIn inp i j e := by
  generalize ho : (Except.error e : Except LErr SRule) = o at h
  cases h with
  | mk h1 h2 h3 h4 h5 h6 h7 h8 h9 =>
    cases map_error ho.symm
    have hb := h9.placed
    have := h1.le; have := h4.le; have := h5.le; have := h6.le; have := h7.le; have := h8.le; have := hb.2.1
    exact (show FaultIn inp _ _ e from hb.2.2).mono (by omega) (Nat.le_refl _)

end Pest3.Load
