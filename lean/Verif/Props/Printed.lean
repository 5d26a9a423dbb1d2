import Verif.ShowPair
import Verif.WrapperLemmas
import Verif.ModuleLemmas
import Verif.IdentSpec

/-!
# C76: the text of a token tree determines the tree
-/

namespace Pest3.Props
open Pest3 Pest3.Gen
open Pest3.Load (IsIdent isAlpha)

/-- The names of the variants of the enumerations of `m` and of the modules in it can be told apart: they are words, and no rule has the name of
the variant that every enumeration has. -/
def VariantsFine (m : Module) : Prop :=
  ∀ m', ModIn m' m → (∀ r ∈ m'.rules, r.name ≠ optName → r.name ≠ manName → IsIdent r.name ∧ r.name ≠ "EOI".toList) ∧
    ∀ x ∈ m'.fileNames, IsIdent x

/-- A token tree whose rules are values of the enumeration of `m`. -/
inductive TokensOf (m : Module) : Pair RuleVal → Prop
  | mk {r a b cs} : IsValue m r → (∀ p ∈ cs, TokensOf m p) → TokensOf m (.mk r a b cs)

/-! ## Splitting texts -/

theorem isAlpha_start {x : Char} (h : x = '_' ∨ isAlpha x) : wordStart x = true := by
  unfold isAlpha at h
  unfold wordStart
  simp only [Bool.or_eq_true, Bool.and_eq_true, decide_eq_true_iff]
  rcases h with h | h | h
  · exact .inl (.inl h)
  · exact .inl (.inr h)
  · exact .inr h

theorem ident_parts {x : Name} (h : IsIdent x) : (∀ c ∈ x, wordPart c = true) ∧ ∃ c cs, x = c :: cs ∧ wordStart c = true := by
  cases h with
  | mk h1 h2 =>
    rename_i c cs
    have hs := isAlpha_start h1
    refine ⟨fun y hy => ?_, c, cs, rfl, hs⟩
    rcases List.mem_cons.mp hy with rfl | hy
    · unfold wordPart; rw [hs]; rfl
    · unfold wordPart
      rcases h2 y hy with h | h | h
      · rw [isAlpha_start (.inl h)]; rfl
      · rw [isAlpha_start (.inr h)]; rfl
      · simp [h]

/-- Two texts of characters of a class, each followed by something else. -/
theorem run_split {P : Char → Bool} : ∀ (x y : Text) {s t : Text}, (∀ c ∈ x, P c = true) → (∀ c ∈ y, P c = true) →
    (∀ c cs, s = c :: cs → P c = false) → (∀ c cs, t = c :: cs → P c = false) → x ++ s = y ++ t → x = y ∧ s = t := by
  intro x
  induction x with
  | nil =>
    intro y s t _ hy hs _ h
    cases y with
    | nil => exact ⟨rfl, h⟩
    | cons c y =>
      have h1 := hs c (y ++ t) h
      rw [hy c (List.mem_cons_self ..)] at h1
      exact nomatch h1
  | cons c x ih =>
    intro y s t hx hy hs ht h
    cases y with
    | nil =>
      have h1 := ht c (x ++ s) h.symm
      rw [hx c (List.mem_cons_self ..)] at h1
      exact nomatch h1
    | cons d y =>
      injection h with h1 h2
      subst h1
      obtain ⟨e1, e2⟩ := ih y (fun c' hc => hx c' (List.mem_cons_of_mem _ hc)) (fun c' hc => hy c' (List.mem_cons_of_mem _ hc))
        hs ht h2
      exact ⟨by rw [e1], e2⟩

theorem nat_split {a b : Nat} {s t : Text} (h : showNat a ++ (',' :: s) = showNat b ++ (',' :: t)) : a = b ∧ s = t := by
  have hd : ∀ n, ∀ c ∈ showNat n, c.isDigit = true := fun n c hc => by
    rw [showNat_eq] at hc
    exact Nat.isDigit_of_mem_toDigits (by decide) (by decide) hc
  have hc : ∀ s : Text, ∀ c cs, ',' :: s = c :: cs → c.isDigit = false := by
    intro s c cs h
    injection h with h _
    subst h
    decide
  obtain ⟨h1, h2⟩ := run_split _ _ (hd a) (hd b) (hc s) (hc t) h
  injection h2 with _ h2
  exact ⟨showNat_inj h1, h2⟩

/-! ## Rules -/

/-- What follows the name of a rule in the text of a token tree: a parenthesis, and a number or the end of a payload. -/
def Follows (s : Text) : Prop := (∃ d ds, s = '(' :: d :: ds ∧ wordStart d = false) ∨ ∃ ds, s = ')' :: ds

theorem Follows.stops {s : Text} (h : Follows s) : ∀ c cs, s = c :: cs → wordPart c = false := by
  intro c cs e
  rcases h with ⟨d, ds, h, _⟩ | ⟨ds, h⟩ <;> (rw [h] at e; injection e with e _; subst e; decide)

theorem eoi_word : IsIdent "EOI".toList := by
  refine .mk (.inr (by unfold isAlpha; decide)) ?_
  intro y hy
  rcases List.mem_cons.mp hy with rfl | hy
  · exact .inr (.inl (by unfold isAlpha; decide))
  · rcases List.mem_cons.mp hy with rfl | hy
    · exact .inr (.inl (by unfold isAlpha; decide))
    · exact nomatch hy

theorem fileName_mem {m m' : Module} {x : Name} (h : Import.file x m' ∈ m.imports) : x ∈ m.fileNames :=
  List.mem_filterMap.mpr ⟨_, h, rfl⟩

theorem VariantsFine.sub {m m' : Module} {x : Name} (h : VariantsFine m) (hi : Import.file x m' ∈ m.imports) : VariantsFine m' :=
  fun m1 hm => h m1 (.step hi hm)

theorem debug_begins {m : Module} {v : RuleVal} (hv : IsValue m v) (hm : VariantsFine m) :
    ∃ c cs, v.debug = c :: cs ∧ wordStart c = true := by
  cases hv with
  | eoi => exact ⟨'E', "OI".toList, rfl, by decide⟩
  | rule h1 h2 h3 =>
    obtain ⟨_, c, cs, h, hc⟩ := ident_parts ((hm m .refl).1 _ h1 h2 h3).1
    exact ⟨c, cs, h, hc⟩
  | sub h1 h2 =>
    rename_i x m' v
    obtain ⟨_, c, cs, h, hc⟩ := ident_parts ((hm m .refl).2 _ (fileName_mem h1))
    exact ⟨c, cs ++ (['('] ++ (v.debug ++ [')'])), by show x ++ _ = _; rw [h]; rfl, hc⟩

/-- The module that an import gives access to. -/
theorem debug_split {m : Module} {v : RuleVal} (hv : IsValue m v) : ∀ {m' : Module} {w : RuleVal} {s t : Text}, IsValue m' w → VariantsFine m →
    VariantsFine m' → Follows s → Follows t → v.debug ++ s = w.debug ++ t → v = w ∧ s = t := by
  -- a variant without payload against one with
  have clash : ∀ {x y : Name} {m1 : Module} {u : RuleVal} {s t : Text}, IsIdent x → IsIdent y → VariantsFine m1 → IsValue m1 u → Follows s →
      x ++ s = (RuleVal.sub y u).debug ++ t → False := by
    intro x y m1 u s t hx hy hm hu hs h
    unfold RuleVal.debug at h
    rw [List.append_assoc] at h
    obtain ⟨_, h2⟩ := run_split (P := wordPart) x y (ident_parts hx).1 (ident_parts hy).1 hs.stops
      (fun c cs e => by injection e with e _; subst e; decide) h
    obtain ⟨c, cs, hc, hw⟩ := debug_begins hu hm
    rw [hc] at h2
    rcases hs with ⟨d, ds, hs, hd⟩ | ⟨ds, hs⟩
    · rw [hs] at h2
      injection h2 with _ h2
      injection h2 with h2 _
      rw [h2, hw] at hd
      exact nomatch hd
    · rw [hs] at h2
      injection h2 with h2 _
      exact absurd h2 (by decide)
  induction hv with
  | eoi =>
    intro m' w s t hw hm hm' hs ht h
    cases hw with
    | eoi => exact ⟨rfl, List.append_cancel_left h⟩
    | rule h1 h2 h3 =>
      obtain ⟨hi, hne⟩ := (hm' m' .refl).1 _ h1 h2 h3
      obtain ⟨e, _⟩ := run_split (P := wordPart) _ _ (ident_parts eoi_word).1 (ident_parts hi).1 hs.stops ht.stops h
      exact absurd e.symm hne
    | sub h1 h2 =>
      exact (clash eoi_word ((hm' m' .refl).2 _ (fileName_mem h1)) (hm'.sub h1) h2 hs h).elim
  | rule g1 g2 g3 =>
    rename_i m r
    intro m' w s t hw hm hm' hs ht h
    obtain ⟨gi, gne⟩ := (hm m .refl).1 _ g1 g2 g3
    cases hw with
    | eoi =>
      obtain ⟨e, _⟩ := run_split (P := wordPart) _ _ (ident_parts gi).1 (ident_parts eoi_word).1 hs.stops ht.stops h
      exact absurd e gne
    | rule h1 h2 h3 =>
      obtain ⟨hi, hne⟩ := (hm' m' .refl).1 _ h1 h2 h3
      obtain ⟨e, e'⟩ := run_split (P := wordPart) _ _ (ident_parts gi).1 (ident_parts hi).1 hs.stops ht.stops h
      exact ⟨by rw [e], e'⟩
    | sub h1 h2 =>
      exact (clash gi ((hm' m' .refl).2 _ (fileName_mem h1)) (hm'.sub h1) h2 hs h).elim
  | sub g1 g2 ih =>
    rename_i m x m1 u
    intro m' w s t hw hm hm' hs ht h
    have gi := (hm m .refl).2 _ (fileName_mem g1)
    cases hw with
    | eoi => exact (clash eoi_word gi (hm.sub g1) g2 ht h.symm).elim
    | rule h1 h2 h3 => exact (clash ((hm' m' .refl).1 _ h1 h2 h3).1 gi (hm.sub g1) g2 ht h.symm).elim
    | sub h1 h2 =>
      rename_i y m2 z
      have hi := (hm' m' .refl).2 _ (fileName_mem h1)
      unfold RuleVal.debug at h
      simp only [List.append_assoc] at h
      have hpar : ∀ l : Text, ∀ c cs, ['('] ++ l = c :: cs → wordPart c = false := fun l c cs e => by
        injection e with e _
        subst e
        decide
      obtain ⟨e, e'⟩ := run_split (P := wordPart) _ _ (ident_parts gi).1 (ident_parts hi).1 (hpar _) (hpar _) h
      injection e' with _ e'
      obtain ⟨f, f'⟩ := ih h2 (hm.sub g1) (hm'.sub h1) (.inr ⟨s, rfl⟩) (.inr ⟨t, rfl⟩) e'
      injection f' with _ f'
      exact ⟨by rw [e, f], f'⟩

/-! ## Trees -/

theorem showNat_begins (n : Nat) : ∃ d ds, showNat n = d :: ds ∧ wordStart d = false := by
  cases h : showNat n with
  | nil => rw [showNat_eq] at h; exact absurd h Nat.toDigits_ne_nil
  | cons d ds =>
    refine ⟨d, ds, rfl, ?_⟩
    have hd : d ∈ showNat n := by rw [h]; simp
    rw [showNat_eq] at hd
    have := Nat.isDigit_of_mem_toDigits (by decide) (by decide) hd
    unfold Char.isDigit at this
    rw [Bool.and_eq_true, decide_eq_true_iff, decide_eq_true_iff] at this
    obtain ⟨h1, h2⟩ := this
    have h1' : d.val.toNat ≥ 48 := h1
    have h2' : d.val.toNat ≤ 57 := h2
    cases hw : wordStart d with
    | false => rfl
    | true =>
      unfold wordStart at hw
      simp only [Bool.or_eq_true, Bool.and_eq_true, decide_eq_true_iff] at hw
      rcases hw with (hw | hw) | hw
      · subst hw; exact absurd h2' (by decide)
      · have : (97 : Nat) ≤ d.val.toNat := hw.1
        omega
      · have : (65 : Nat) ≤ d.val.toNat := hw.1
        omega

mutual
theorem show_split {m : Module} (hm : VariantsFine m) : ∀ (p q : Pair RuleVal) {s t : Text}, TokensOf m p → TokensOf m q →
    p.show RuleVal.debug ++ s = q.show RuleVal.debug ++ t → p = q ∧ s = t
  | .mk r a b cs, .mk r' a' b' cs', s, t, hp, hq, h => by
    obtain ⟨hr, hcs⟩ : IsValue m r ∧ ∀ p ∈ cs, TokensOf m p := by cases hp with | mk h1 h2 => exact ⟨h1, h2⟩
    obtain ⟨hr', hcs'⟩ : IsValue m r' ∧ ∀ p ∈ cs', TokensOf m p := by cases hq with | mk h1 h2 => exact ⟨h1, h2⟩
    unfold Pair.show at h
    simp only [List.append_assoc] at h
    have hf : ∀ (n : Nat) (x : Text), Follows (['('] ++ (showNat n ++ x)) := fun n x => by
      obtain ⟨d, ds, e, hd⟩ := showNat_begins n
      exact .inl ⟨d, ds ++ x, by rw [e]; rfl, hd⟩
    obtain ⟨e1, h⟩ := debug_split hr hr' hm hm (hf _ _) (hf _ _) h
    injection h with _ h
    obtain ⟨e2, h⟩ := nat_split h
    injection h with _ h
    obtain ⟨e3, h⟩ := nat_split h
    injection h with _ h
    injection h with _ h
    obtain ⟨e4, h⟩ := showFirst_split hm cs cs' hcs hcs' h
    exact ⟨by rw [e1, e2, e3, e4], h⟩
theorem showFirst_split {m : Module} (hm : VariantsFine m) : ∀ (ps qs : List (Pair RuleVal)) {s t : Text}, (∀ p ∈ ps, TokensOf m p) →
    (∀ q ∈ qs, TokensOf m q) →
    Pair.showFirst RuleVal.debug ps ++ ([']', ')'] ++ s) = Pair.showFirst RuleVal.debug qs ++ ([']', ')'] ++ t) → ps = qs ∧ s = t
  | [], [], s, t, _, _, h => ⟨rfl, List.append_cancel_left (List.append_cancel_left h)⟩
  | [], q :: qs, s, t, _, hq, h => by
    exfalso
    have hq := hq q (List.mem_cons_self ..)
    cases hq with
    | mk h1 h2 =>
      obtain ⟨c, cs, e, hc⟩ := debug_begins h1 hm
      unfold Pair.showFirst Pair.show at h
      rw [e] at h
      injection h with h _
      rw [← h] at hc
      exact absurd hc (by decide)
  | p :: ps, [], s, t, hp, _, h => by
    exfalso
    have hp := hp p (List.mem_cons_self ..)
    cases hp with
    | mk h1 h2 =>
      obtain ⟨c, cs, e, hc⟩ := debug_begins h1 hm
      unfold Pair.showFirst Pair.show at h
      rw [e] at h
      injection h with h _
      rw [h] at hc
      exact absurd hc (by decide)
  | p :: ps, q :: qs, s, t, hp, hq, h => by
    unfold Pair.showFirst at h
    rw [List.append_assoc, List.append_assoc] at h
    obtain ⟨e1, h⟩ := show_split hm p q (hp p (List.mem_cons_self ..)) (hq q (List.mem_cons_self ..)) h
    obtain ⟨e2, h⟩ := showRest_split hm ps qs (fun x hx => hp x (List.mem_cons_of_mem _ hx)) (fun x hx => hq x (List.mem_cons_of_mem _ hx)) h
    exact ⟨by rw [e1, e2], h⟩
theorem showRest_split {m : Module} (hm : VariantsFine m) : ∀ (ps qs : List (Pair RuleVal)) {s t : Text}, (∀ p ∈ ps, TokensOf m p) →
    (∀ q ∈ qs, TokensOf m q) →
    Pair.showRest RuleVal.debug ps ++ ([']', ')'] ++ s) = Pair.showRest RuleVal.debug qs ++ ([']', ')'] ++ t) → ps = qs ∧ s = t
  | [], [], s, t, _, _, h => ⟨rfl, List.append_cancel_left (List.append_cancel_left h)⟩
  | [], q :: qs, s, t, _, _, h => by
    exfalso
    unfold Pair.showRest at h
    injection h with h _
    exact absurd h (by decide)
  | p :: ps, [], s, t, _, _, h => by
    exfalso
    unfold Pair.showRest at h
    injection h with h _
    exact absurd h (by decide)
  | p :: ps, q :: qs, s, t, hp, hq, h => by
    unfold Pair.showRest at h
    rw [List.append_assoc, List.append_assoc, List.append_assoc, List.append_assoc] at h
    obtain ⟨e1, h⟩ := show_split hm p q (hp p (List.mem_cons_self ..)) (hq q (List.mem_cons_self ..)) (List.append_cancel_left h)
    obtain ⟨e2, h⟩ := showRest_split hm ps qs (fun x hx => hp x (List.mem_cons_of_mem _ hx)) (fun x hx => hq x (List.mem_cons_of_mem _ hx)) h
    exact ⟨by rw [e1, e2], h⟩
end

/-- Two token trees of the same parser that are displayed alike are the same: the same rules over the same spans, nested in the same way. -/
theorem C76_determines {m : Module} (hm : VariantsFine m) {p q : Pair RuleVal} (hp : TokensOf m p) (hq : TokensOf m q)
    (h : p.show RuleVal.debug = q.show RuleVal.debug) : p = q :=
  (show_split hm p q (s := []) (t := []) hp hq (by rw [h])).1

/-- No display of a token tree is the beginning of another one. -/
theorem C76_prefix {m : Module} (hm : VariantsFine m) {p q : Pair RuleVal} (hp : TokensOf m p) (hq : TokensOf m q) {s : Text}
    (h : p.show RuleVal.debug ++ s = q.show RuleVal.debug) : p = q ∧ s = [] :=
  show_split hm p q (s := s) (t := []) hp hq (by rw [h, List.append_nil])

section
variable {m : Module} (env : Env) (lab : Label → RuleVal)

mutual
/-- The token trees of a parse tree are such trees, if the rules of the program are labelled with values of the enumeration. -/
theorem C76_parsed (hv : ∀ id, (env id).silent = false → IsValue m (lab (env id).label)) : ∀ t : Tree, ∀ p ∈ t.selfPairs env lab, TokensOf m p
  | .leaf _, p, h => nomatch h
  | .positive _, p, h => nomatch h
  | .negative, p, h => nomatch h
  | .push t, p, h => C76_parsed hv t p h
  | .optNone, p, h => nomatch h
  | .optSome t, p, h => C76_parsed hv t p h
  | .rep ts, p, h => parseds hv ts p h
  | .seq ts, p, h => parseds hv ts p h
  | .choice _ t, p, h => C76_parsed hv t p h
  | .rule id t s, p, h => by
    unfold Tree.selfPairs at h
    cases hs : (env id).silent with
    | true => rw [hs] at h; exact nomatch h
    | false =>
      rw [hs] at h
      rw [List.mem_singleton.mp h]
      exact .mk (hv id hs) (C76_parsed hv t)
theorem parseds (hv : ∀ id, (env id).silent = false → IsValue m (lab (env id).label)) : ∀ ts : List Tree,
    ∀ p ∈ Tree.selfPairsList env lab ts, TokensOf m p
  | [], p, h => nomatch h
  | t :: ts, p, h => by
    unfold Tree.selfPairsList at h
    rcases List.mem_append.mp h with h | h
    · exact C76_parsed hv t p h
    · exact parseds hv ts p h
end
end

/-! ## Cases -/

/-- A grammar with a rule `x` that imports another one, with a rule `y`, as `m`. -/
def printedModule : Module := .mk [⟨"x".toList, [], .range 'a' 'b', false⟩]
  [.file "m".toList (.mk [⟨"y".toList, [], .range 'a' 'b', false⟩] [])]

theorem printed_fine : VariantsFine printedModule := by
  have hx : ∀ c : Char, isAlpha c → IsIdent [c] := fun c hc => .mk (.inr hc) (fun y hy => nomatch hy)
  intro m' h
  cases h with
  | refl =>
    refine ⟨fun r hr _ _ => ?_, fun x hx' => ?_⟩
    · rw [List.mem_singleton.mp hr]
      exact ⟨hx 'x' (by unfold isAlpha; decide), by show ("x".toList : Name) ≠ _; decide⟩
    · rw [List.mem_singleton.mp (show x ∈ ["m".toList] from hx')]
      exact hx 'm' (by unfold isAlpha; decide)
  | step hi h =>
    have hi := List.mem_singleton.mp hi
    injection hi with _ e
    subst e
    cases h with
    | refl =>
      refine ⟨fun r hr _ _ => ?_, fun x hx' => nomatch hx'⟩
      rw [List.mem_singleton.mp hr]
      exact ⟨hx 'y' (by unfold isAlpha; decide), by show ("y".toList : Name) ≠ _; decide⟩
    | step hi h => exact nomatch hi

/-- The rule `x` from 0 to 12 around the rule `y` of the imported module and an end of input. -/
def printedPair : Pair RuleVal := .mk (.rule "x".toList) 0 12
  [.mk (.sub "m".toList (.rule "y".toList)) 3 4 [], .mk .eoi 12 12 []]

example : TokensOf printedModule printedPair := by
  refine .mk (IsValue.rule (m := printedModule) (r := ⟨"x".toList, [], .range 'a' 'b', false⟩) (List.mem_singleton.mpr rfl)
    (by decide) (by decide)) fun p hp => ?_
  rcases List.mem_cons.mp hp with rfl | hp
  · exact .mk (.sub (List.mem_singleton.mpr rfl) (IsValue.rule (r := ⟨"y".toList, [], .range 'a' 'b', false⟩)
      (List.mem_singleton.mpr rfl) (by decide) (by decide))) (fun p hp => nomatch hp)
  · rw [List.mem_singleton.mp hp]
    exact .mk .eoi (fun p hp => nomatch hp)

example : printedPair.show RuleVal.debug = "x(0, 12, [m(y)(3, 4, []), EOI(12, 12, [])])".toList := by
  decide +kernel

end Pest3.Props
