import Verif.CalcLemmas
import Verif.CalcSpec

/-!
# The functions accept exactly the expressions of the examples
-/

namespace Pest3.Calc
open Pest3.Json (Blank Whole again one strip intF isSpace isDigit blank_iff dropB_eq dropB_blank dropB_cons one_some one_cons one_cons_none strip_some strip_cons strip_length one_length intF_sound intF_complete
  dropWhile_not space_not not_cons not_nil mem_takeWhile isDigit_iff isSpace_iff dropB_length dropB_blank')

/-! ## What is matched is an expression -/

theorem dropB_dropB (s : Text) : Json.dropB (Json.dropB s) = Json.dropB s := by
  unfold Json.dropB
  induction s with
  | nil => rfl
  | cons x s ih =>
    rw [List.dropWhile_cons]
    split
    · exact ih
    · rename_i h; rw [List.dropWhile_cons, if_neg h]

theorem signs_all {d w : Text} (h : ∀ x ∈ d, (x == '-') = true) (hd : d ≠ []) (hw : Blank w) : Signs sample (d ++ w) := by
  induction d with
  | nil => exact absurd rfl hd
  | cons x d ih =>
    obtain rfl := beq_iff_eq.mp (h x List.mem_cons_self)
    cases d with
    | nil =>
      have := Signs.cons (D := sample) (s := []) hw (fun h => absurd rfl h) .nil
      rwa [List.append_nil] at this
    | cons y d => exact .cons (w := []) .nil (fun _ _ => rfl) (ih (fun y hy => h y (List.mem_cons_of_mem _ hy)) (by simp))

theorem marks_all {d : Text} (h : ∀ x ∈ d, (x == '!') = true) : Marks sample false d := by
  induction d with
  | nil => exact .nil
  | cons x d ih =>
    obtain rfl := beq_iff_eq.mp (h x List.mem_cons_self)
    exact .cons (w := []) .nil (fun _ _ => rfl) (ih fun y hy => h y (List.mem_cons_of_mem _ hy))

theorem signsF_sound {s : Text} (hs : Json.dropB s = s) : ∃ g, Signs sample g ∧ s = g ++ Json.dropB (signsF s) := by
  obtain ⟨w, hw, h1⟩ := dropB_eq (signsF s)
  have h2 : s = s.takeWhile (· == '-') ++ signsF s := List.takeWhile_append_dropWhile.symm
  by_cases hd : s.takeWhile (· == '-') = []
  · have : signsF s = s := by rw [hd] at h2; exact h2.symm
    rw [this, hs]
    exact ⟨[], .nil, rfl⟩
  · exact ⟨_, signs_all (fun x hx => mem_takeWhile (f := (· == '-')) hx) hd hw, by rw [List.append_assoc, ← h1]; exact h2⟩

theorem marksF_sound (s : Text) : ∃ m w, Marks sample true m ∧ Blank w ∧ (m ≠ [] → w = []) ∧ s = m ++ w ++ marksF (Json.dropB s) := by
  obtain ⟨w, hw, h1⟩ := dropB_eq s
  have h2 : Json.dropB s = (Json.dropB s).takeWhile (· == '!') ++ marksF (Json.dropB s) := List.takeWhile_append_dropWhile.symm
  cases hd : (Json.dropB s).takeWhile (· == '!') with
  | nil =>
    rw [hd] at h2
    exact ⟨[], w, .nil, hw, fun h => absurd rfl h, by rw [show marksF (Json.dropB s) = Json.dropB s from h2.symm]; exact h1⟩
  | cons x d =>
    have ha : ∀ y ∈ x :: d, (y == '!') = true := fun y hy => mem_takeWhile (f := (· == '!')) (s := Json.dropB s) (hd ▸ hy)
    obtain rfl := beq_iff_eq.mp (ha x List.mem_cons_self)
    rw [hd] at h2
    refine ⟨w ++ '!' :: d, [], .cons hw (by simp) (marks_all fun y hy => ha y (List.mem_cons_of_mem _ hy)), .nil, fun _ => rfl, ?_⟩
    rw [List.append_nil, List.append_assoc, ← h2]
    exact h1

/-- All that is matched, with the blanks that follow. -/
def Sound (v : Text → Option Text) : Prop :=
  ∀ s s', Json.dropB s = s → v s = some s' → ∃ e w, s = e ++ w ++ s' ∧ Expression sample (.expression true) e ∧ Blank w

section
variable {v : Text → Option Text}

theorem primaryF_sound (hv : Sound v) {s s' : Text} (h : primaryF v s = some s') : ∃ p, Expression sample .primary p ∧ s = p ++ s' := by
  rcases Option.or_eq_some_iff.mp h with h | ⟨-, h⟩
  · obtain ⟨x, hx, rfl⟩ := intF_sound h
    exact ⟨x, .number hx, rfl⟩
  · obtain ⟨s1, h1, h⟩ := Option.bind_eq_some_iff.mp h
    obtain ⟨s2, h2, h3⟩ := Option.bind_eq_some_iff.mp h
    obtain rfl := strip_some.mp h1
    obtain ⟨w, hw, k1⟩ := dropB_eq s1
    obtain ⟨e, w', k2, he, hw'⟩ := hv _ _ (dropB_dropB _) h2
    obtain ⟨w'', hw'', k3⟩ := dropB_eq s2
    have k4 := strip_some.mp h3
    refine ⟨_, .group hw he (hw'.append hw''), ?_⟩
    rw [k1, k2, k3, k4]
    simp

theorem operandF_sound (hv : Sound v) {s s' : Text} (hs : Json.dropB s = s) (h : operandF v s = some s') :
    ∃ o marked w, s = o ++ w ++ s' ∧ Expression sample (.operand marked) o ∧ Blank w ∧ (marked = true → w = []) := by
  obtain ⟨s1, h1, h2⟩ := Option.bind_eq_some_iff.mp h
  cases h2
  obtain ⟨g, hg, k1⟩ := signsF_sound hs
  obtain ⟨p, hp, k2⟩ := primaryF_sound hv h1
  obtain ⟨m, w, hm, hw, hmw, k3⟩ := marksF_sound s1
  refine ⟨g ++ p ++ m, !m.isEmpty, w, ?_, .operand hg hp hm (by simp), hw, fun h => hmw (by simpa using h)⟩
  rw [k1, k2]
  conv => lhs; rw [k3]
  simp

theorem again_sound (hv : Sound v) : ∀ (n : Nat) (s o w : Text) (marked first : Bool), Expression sample (.operand marked) o → Blank w → (first = false → marked = true → w = []) →
    ∃ e w', o ++ w ++ s = e ++ w' ++ again (stepF v) n s ∧ Expression sample (.expression first) e ∧ Blank w' := by
  intro n
  induction n with
  | zero => exact fun s o w marked first ho hw _ => ⟨o, w, rfl, .last ho, hw⟩
  | succ n ih =>
    intro s o w marked first ho hw hc
    simp only [again]
    cases h : stepF v s with
    | none => exact ⟨o, w, rfl, .last ho, hw⟩
    | some s' =>
      obtain ⟨s1, h1, h2⟩ := Option.bind_eq_some_iff.mp h
      obtain ⟨x, hx, rfl⟩ := one_some h1
      obtain ⟨w1, hw1, k1⟩ := dropB_eq s1
      obtain ⟨o', marked', w', k2, ho', hw', hc'⟩ := operandF_sound hv (dropB_dropB _) h2
      obtain ⟨e, w'', k3, he, hw''⟩ := ih s' o' w' marked' false ho' hw' fun _ => hc'
      refine ⟨o ++ w ++ x :: (w1 ++ e), w'', ?_, .more ho hw (fun h1 h2 _ => hc h1 h2) ?_ hw1 he, hw''⟩
      · rw [k1, k2, k3]
        simp
      · simpa [Operator, isOp] using hx

end

theorem exprF_sound : ∀ n, Sound (exprF n) := by
  intro n
  induction n with
  | zero => intro s s' _ h; cases h
  | succ n ih =>
    intro s s' hs h
    obtain ⟨s1, h1, h2⟩ := Option.bind_eq_some_iff.mp h
    cases h2
    obtain ⟨o, marked, w, k1, ho, hw, -⟩ := operandF_sound ih hs h1
    obtain ⟨w1, hw1, k2⟩ := dropB_eq s1
    obtain ⟨e, w', k3, he, hw'⟩ := again_sound ih ((Json.dropB s1).length + 1) (Json.dropB s1) o (w ++ w1) marked true ho (hw.append hw1) (by simp)
    refine ⟨e, w', ?_, he, hw'⟩
    rw [k1]
    conv => lhs; rw [k2]
    rw [← List.append_assoc, List.append_assoc o]
    exact k3

theorem programF_sound {s : Text} (h : programF s = true) : Program sample s := by
  unfold programF at h
  split at h
  · rename_i s' h1
    obtain ⟨w, hw, k1⟩ := dropB_eq s
    obtain ⟨e, w', k2, he, hw'⟩ := exprF_sound _ _ _ (dropB_dropB _) h1
    obtain ⟨w'', hw'', k3⟩ := dropB_eq s'
    refine ⟨w, e, w' ++ w'', hw, he, hw'.append hw'', ?_⟩
    rw [List.isEmpty_iff.mp h, List.append_nil] at k3
    rw [k1, k2, k3]
    simp
  · cases h

/-! ## Expressions are matched -/

theorem dropB_not {r : Text} (h : Json.Not isSpace r) : Json.dropB r = r := dropWhile_not (d := []) (by simp) h

theorem signs_complete {g t : Text} (hg : Signs sample g) (h1 : Json.Not isSpace t) (h2 : Json.Not (· == '-') t) : Json.dropB (signsF (g ++ t)) = t := by
  induction hg with
  | nil =>
    have : signsF ([] ++ t) = t := dropWhile_not (d := []) (by simp) h2
    rw [this, dropB_not h1]
  | @cons w s hw hc hs ih =>
    have h3 : signsF ('-' :: (w ++ s) ++ t) = signsF (w ++ (s ++ t)) := by simp [signsF]
    rw [h3]
    by_cases hn : s = []
    · subst hn
      have : signsF (w ++ ([] ++ t)) = w ++ t := by
        refine dropWhile_not (d := []) (by simp) ?_
        cases w with
        | nil => exact h2
        | cons y w => exact not_cons (space_not (f := (· == '-')) rfl rfl rfl rfl y (blank_iff.mp hw _ List.mem_cons_self))
      rw [this, dropB_blank hw, dropB_not h1]
    · obtain rfl := hc hn rfl
      exact ih

theorem marks_false {m r : Text} (hm : Marks sample false m) (hr : Json.Not (· == '!') r) : marksF (m ++ r) = r := by
  refine dropWhile_not ?_ hr
  suffices ∀ b m, Marks sample b m → b = false → ∀ x ∈ m, (x == '!') = true from this _ _ hm rfl
  intro b m h
  induction h with
  | nil => exact fun _ _ h => by cases h
  | cons _ hc _ ih =>
    rintro rfl x hx
    obtain rfl := hc rfl rfl
    rcases List.mem_cons.mp hx with rfl | hx
    · rfl
    · exact ih rfl x hx

theorem marks_true {m r : Text} (hm : Marks sample true m) (hr : Json.Not (· == '!') r) (hr' : Json.Not (· == '!') (Json.dropB r)) :
    marksF (Json.dropB (m ++ r)) = if m = [] then Json.dropB r else r := by
  cases hm with
  | nil => rw [if_pos rfl]; exact dropWhile_not (d := []) (by simp) hr'
  | @cons _ w s hw _ hs =>
    rw [if_neg (by simp), List.append_assoc, dropB_blank hw, List.cons_append, dropB_cons rfl]
    have : marksF ('!' :: (s ++ r)) = marksF (s ++ r) := by simp [marksF]
    rw [this, marks_false hs hr]

/-- How expressions begin. -/
theorem expression_head {D : Dialect} {k : Kind} {t : Text} (h : Expression D k t) : ∃ x s, t = x :: s ∧ (isDigit x = true ∨ x = '(' ∨ (k ≠ .primary ∧ x = '-')) := by
  induction h with
  | number h =>
    cases h with
    | zero => exact ⟨_, _, rfl, .inl rfl⟩
    | other h _ => exact ⟨_, _, rfl, .inl (isDigit_iff.mpr ⟨Char.le_trans (by decide) h.1, h.2⟩)⟩
  | group => exact ⟨_, _, rfl, .inr (.inl rfl)⟩
  | operand hs _ _ _ ih =>
    cases hs with
    | nil =>
      obtain ⟨x, s, rfl, h⟩ := ih
      exact ⟨x, _, rfl, h.imp_right (.imp_right fun h => absurd rfl h.1)⟩
    | cons => exact ⟨'-', _, rfl, .inr (.inr ⟨by simp, rfl⟩)⟩
  | last _ ih =>
    obtain ⟨x, s, rfl, h⟩ := ih
    exact ⟨x, s, rfl, h.imp_right (.imp_right fun h => ⟨by simp, h.2⟩)⟩
  | more _ _ _ _ _ _ ih _ =>
    obtain ⟨x, s, rfl, h⟩ := ih
    exact ⟨x, _, rfl, h.imp_right (.imp_right fun h => ⟨by simp, h.2⟩)⟩

theorem digit_space {x : Char} (h : isDigit x = true) : isSpace x = false := by
  cases hs : isSpace x with
  | false => rfl
  | true => rw [space_not (f := isDigit) rfl rfl rfl rfl x hs] at h; cases h

theorem expression_space {D : Dialect} {k : Kind} {t : Text} (h : Expression D k t) (r : Text) : Json.Not isSpace (t ++ r) := by
  obtain ⟨x, s, rfl, hx⟩ := expression_head h
  refine not_cons ?_
  rcases hx with h | rfl | ⟨-, rfl⟩
  · exact digit_space h
  · rfl
  · rfl

theorem primary_sign {D : Dialect} {t : Text} (h : Expression D .primary t) (r : Text) : Json.Not (· == '-') (t ++ r) := by
  obtain ⟨x, s, rfl, hx⟩ := expression_head h
  refine not_cons ?_
  rcases hx with h | rfl | ⟨h, -⟩
  · rw [beq_eq_false_iff_ne]; rintro rfl; exact absurd h (by decide)
  · rfl
  · exact absurd rfl h

/-- What may follow an expression: blanks, then a parenthesis or the end. -/
def Follow (r : Text) : Prop := ∃ w r', r = w ++ r' ∧ Blank w ∧ (r' = [] ∨ ∃ s, r' = ')' :: s)

theorem blank_not {f : Char → Bool} {w r : Text} (hw : Blank w) (hf : ∀ x, isSpace x = true → f x = false) (hr : Json.Not f r) : Json.Not f (w ++ r) := by
  cases w with
  | nil => exact hr
  | cons y w => exact not_cons (hf y (blank_iff.mp hw _ List.mem_cons_self))

theorem Follow.not {f : Char → Bool} {r : Text} (h : Follow r) (hf : ∀ x, isSpace x = true → f x = false) (hp : f ')' = false) : Json.Not f r ∧ Json.Not f (Json.dropB r) := by
  obtain ⟨w, r', rfl, hw, h⟩ := h
  rw [dropB_blank hw]
  rcases h with rfl | ⟨s, rfl⟩
  · exact ⟨blank_not hw hf not_nil, not_nil⟩
  · rw [dropB_cons rfl]; exact ⟨blank_not hw hf (not_cons hp), not_cons hp⟩

theorem marks_digit {m r : Text} (hm : Marks sample true m) (hr : Json.Not isDigit r) : Json.Not isDigit (m ++ r) := by
  cases hm with
  | nil => exact hr
  | cons hw _ _ => rw [List.append_assoc]; exact blank_not hw (space_not rfl rfl rfl rfl) (not_cons rfl)

/-- What the functions do with the text of a kind. -/
def Complete (v : Text → Option Text) (t : Text) : Kind → Prop
  | .primary => ∀ r, Json.Not isDigit r → primaryF v (t ++ r) = some r
  | .operand marked => ∀ r, Json.Not isDigit r → Json.Not (· == '!') r → Json.Not (· == '!') (Json.dropB r) → operandF v (t ++ r) = some (if marked then r else Json.dropB r)
  | .expression first => ∀ r, Follow r → ∃ s', operandF v (t ++ r) = some s' ∧
      ∀ m, t.length ≤ m → Json.dropB (again (stepF v) m (if first then Json.dropB s' else s')) = Json.dropB r

theorem stepF_length {n : Nat} {s s' : Text} (h : stepF (exprF n) s = some s') : s'.length < s.length := by
  obtain ⟨s1, h1, h2⟩ := Option.bind_eq_some_iff.mp h
  obtain ⟨o, marked, w, k, -⟩ := operandF_sound (exprF_sound n) (dropB_dropB _) h2
  have h3 := one_length h1
  have h4 := dropB_length s1
  rw [k] at h4
  simp only [List.length_append] at h4
  omega

theorem again_more {f : Text → Option Text} (hf : ∀ s s', f s = some s' → s'.length < s.length) : ∀ (m : Nat) (s : Text), s.length ≤ m → ∀ k, again f (m + k) s = again f m s := by
  intro m
  induction m with
  | zero =>
    intro s hs k
    cases k with
    | zero => rfl
    | succ k =>
      rw [Nat.zero_add]
      simp only [again]
      cases h : f s with
      | none => rfl
      | some s' => have := hf _ _ h; omega
  | succ m ih =>
    intro s hs k
    rw [Nat.add_right_comm]
    simp only [again]
    cases h : f s with
    | none => rfl
    | some s' => have := hf _ _ h; exact ih s' (by omega) k

theorem complete {k : Kind} {t : Text} (h : Expression sample k t) : ∀ n, t.length ≤ n → Complete (exprF n) t k := by
  induction h with
  | @number x hx => exact fun n _ r hr => by rw [primaryF, intF_complete hx hr]; rfl
  | @group w e w' hw he hw' ih =>
    intro n hn r hr
    simp only [List.length_cons, List.length_append, List.length_nil] at hn
    obtain ⟨k, rfl⟩ : ∃ k, n = k + 1 := ⟨n - 1, by omega⟩
    obtain ⟨s', h1, h2⟩ := ih k (by omega) (w' ++ ')' :: r) ⟨w', _, rfl, hw', .inr ⟨r, rfl⟩⟩
    have h0 : '(' :: (w ++ e ++ w' ++ [')']) ++ r = '(' :: (w ++ (e ++ (w' ++ ')' :: r))) := by simp
    have h3 : intF ('(' :: (w ++ (e ++ (w' ++ ')' :: r)))) = none := rfl
    rw [h0, primaryF, h3, Option.none_or, strip_cons, Option.bind_some, dropB_blank hw, dropB_not (expression_space he _), exprF, h1, Option.bind_some, Option.bind_some, stepsF]
    have h4 := h2 ((Json.dropB s').length + 1 + e.length) (by omega)
    rw [if_pos rfl, again_more (fun _ _ => stepF_length) _ _ (by omega)] at h4
    rw [h4, dropB_blank hw', dropB_cons rfl, strip_cons]
  | @operand s p m marked hs hp hm hmk ih =>
    intro n hn r h1 h2 h3
    simp only [List.length_append] at hn
    have h4 := ih n (by omega) (m ++ r) (marks_digit hm h1)
    rw [operandF, List.append_assoc, List.append_assoc, signs_complete hs (expression_space hp _) (primary_sign hp _), h4, Option.bind_some, marks_true hm h2 h3]
    cases marked with
    | true => rw [if_neg (hmk.mp rfl), if_pos rfl]
    | false => rw [if_pos (Classical.byContradiction fun h => absurd (hmk.mpr h) (by simp)), if_neg (by simp)]
  | @last o marked first ho ih =>
    intro n hn r hr
    have h1 := hr.not (f := isDigit) (space_not rfl rfl rfl rfl) rfl
    have h2 := hr.not (f := (· == '!')) (space_not rfl rfl rfl rfl) rfl
    have h3 := hr.not (f := isOp) (space_not rfl rfl rfl rfl) rfl
    refine ⟨_, ih n hn r h1.1 h2.1 h2.2, fun m hm => ?_⟩
    have stop : ∀ s, Json.Not isOp s → ∀ m, again (stepF (exprF n)) m s = s := by
      intro s hs m
      cases m with
      | zero => rfl
      | succ m => simp only [again, stepF, hs.one, Option.bind_none]
    cases marked <;> cases first <;> simp only [Bool.false_eq_true, if_true, if_false, dropB_dropB, stop _ h3.1, stop _ h3.2]
  | @more o marked first w x w' e ho hw hc hx hw' he ih1 ih2 =>
    intro n hn r hr
    simp only [List.length_append, List.length_cons] at hn
    have hx' : isOp x = true := by simpa [Operator, isOp] using hx
    have hxs : isSpace x = false := by
      cases hs : isSpace x with
      | false => rfl
      | true => rw [space_not (f := isOp) rfl rfl rfl rfl x hs] at hx'; cases hx'
    have hxn : ∀ f : Char → Bool, f '+' = false → f '-' = false → f '*' = false → f '/' = false → f '^' = false → f x = false := by
      intro f h1 h2 h3 h4 h5
      simp only [Operator, List.mem_cons, List.not_mem_nil, or_false] at hx
      rcases hx with rfl | rfl | rfl | rfl | rfl <;> assumption
    have h0 : o ++ w ++ x :: (w' ++ e) ++ r = o ++ (w ++ x :: (w' ++ (e ++ r))) := by simp
    have hd : Json.dropB (w ++ x :: (w' ++ (e ++ r))) = x :: (w' ++ (e ++ r)) := by rw [dropB_blank hw, dropB_cons hxs]
    have h1 := ih1 n (by omega) (w ++ x :: (w' ++ (e ++ r))) (blank_not hw (space_not rfl rfl rfl rfl) (not_cons (hxn isDigit rfl rfl rfl rfl rfl)))
      (blank_not hw (space_not rfl rfl rfl rfl) (not_cons (hxn (· == '!') rfl rfl rfl rfl rfl))) (by rw [hd]; exact not_cons (hxn (· == '!') rfl rfl rfl rfl rfl))
    obtain ⟨s2, h2, h3⟩ := ih2 n (by omega) r hr
    rw [h0]
    refine ⟨_, h1, fun m hm => ?_⟩
    have h4 : (if first = true then Json.dropB (if marked = true then w ++ x :: (w' ++ (e ++ r)) else Json.dropB (w ++ x :: (w' ++ (e ++ r))))
        else if marked = true then w ++ x :: (w' ++ (e ++ r)) else Json.dropB (w ++ x :: (w' ++ (e ++ r)))) = x :: (w' ++ (e ++ r)) := by
      rw [hd]
      cases first with
      | true =>
        rw [if_pos rfl]
        cases marked with
        | true => rw [if_pos rfl, hd]
        | false => rw [if_neg (by simp), dropB_cons hxs]
      | false =>
        rw [if_neg (by simp)]
        cases marked with
        | true => rw [hc rfl rfl rfl]; rfl
        | false => rw [if_neg (by simp)]
    rw [h4]
    simp only [List.length_append, List.length_cons] at hm
    obtain ⟨k, rfl⟩ : ∃ k, m = k + 1 := ⟨m - 1, by omega⟩
    have h5 : stepF (exprF n) (x :: (w' ++ (e ++ r))) = some s2 := by
      rw [stepF, one_cons hx', Option.bind_some, dropB_blank hw', dropB_not (expression_space he _), h2]
    simp only [again, h5]
    exact h3 k (by omega)

theorem programF_iff {s : Text} : programF s = true ↔ Program sample s := by
  refine ⟨programF_sound, ?_⟩
  rintro ⟨w, e, w', hw, he, hw', rfl⟩
  have hl : (w ++ e ++ w').length = w.length + e.length + w'.length := by simp; omega
  obtain ⟨s', h1, h2⟩ := complete he ((w ++ e ++ w').length) (by omega) w' ⟨w', [], by simp, hw', .inl rfl⟩
  have h4 := h2 ((Json.dropB s').length + 1 + e.length) (by omega)
  rw [if_pos rfl, again_more (fun _ _ => stepF_length) _ _ (by omega), dropB_blank' hw'] at h4
  have h3 : exprF ((w ++ e ++ w').length + 1) (Json.dropB (w ++ e ++ w')) = some (stepsF (exprF (w ++ e ++ w').length) (Json.dropB s')) := by
    rw [List.append_assoc w e w', dropB_blank hw, dropB_not (expression_space he _), ← List.append_assoc w e w', exprF, h1, Option.bind_some]
  unfold programF
  rw [h3]
  show (Json.dropB (stepsF _ _)).isEmpty = true
  rw [stepsF, h4]
  rfl

end Pest3.Calc
