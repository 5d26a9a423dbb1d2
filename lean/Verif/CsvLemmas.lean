import Verif.CsvExample
import Verif.CsvSpec
import Verif.JsonLanguage
import Verif.JsonWell
import Verif.ForestLemmas
import Verif.ShowsInv

/-!
# What the rules of the grammar of tables match
-/

namespace Pest3.Csv
open Pest3 Pest3.Gen
open Pest3.Json (Leaves leaves_seq leaves_rep leaves_unit leaves_many leaves_many1 leaves_or leaves_choice leaves_char leaves_str again one many1 strip strip_some strip_length one_length one_some plainExpr plain_sub
  dropWhile_not not_cons not_nil mem_takeWhile strip_cons)

/-! ## Things separated by things -/

/-- One more. -/
def stepG (item sep : Text → Option Text) (s : Text) : Option Text := (sep s).bind item
/-- One or more. -/
def sepByF (item sep : Text → Option Text) (s : Text) : Option Text := (item s).bind fun s' => some (again (stepG item sep) (s'.length + 1) s')

/-- What the parameters stand for. -/
abbrev params (ci cs : Clo) : List (Name × Clo) := [(['i'], ci), (['s', 'e', 'p'], cs)]

/-- What is repeated. -/
abbrev tStep : Expr := .seq (.path [['s', 'e', 'p']]) (.path [['i']]) .none

section
variable {u : Unicode} {root : Module} {stk : List Text} {ci cs : Clo} {item sep : Text → Option Text} {n : Nat}
  (hi : ∀ pre s, s.length ≤ n → Leaves u root (.expr ci) pre s stk (item s)) (hs : ∀ pre s, s.length ≤ n → Leaves u root (.expr cs) pre s stk (sep s))
include hi hs

theorem leaves_step {p : List Name} {pre s : Text} (h : s.length ≤ n) : Leaves u root (.expr (.mk p (params ci cs) tStep)) pre s stk (stepG item sep s) :=
  leaves_seq ((hs pre s h).imp fun _ k => .param rfl k) fun pre' s' _ h' => (hi pre' s' (by omega)).imp fun _ k => .param rfl k

theorem leaves_separated {p : List Name} (hl : ∀ s s', s.length ≤ n → item s = some s' → s'.length < s.length) {pre s : Text} (h : s.length ≤ n) (hn : n + 1 < usizeMax) :
    Leaves u root (.expr (.mk p (params ci cs) tSeparated)) pre s stk (sepByF item sep s) := by
  refine leaves_seq ((hi pre s h).imp fun _ k => .param rfl k) fun pre' s' _ h' => ?_
  have := leaves_rep (u := u) (root := root) (p := p) (ρ := params ci cs) (pre := pre') (stk := stk) (e := .rep tStep) (min := 0) (f := stepG item sep) (o := stepG item sep s') rfl (by omega) (by omega)
    (leaves_step hi hs (by omega)) (fun i pre s h => leaves_unit (leaves_step hi hs (by omega)))
    (fun s1 s2 h1 h2 => by
      obtain ⟨s3, h3, h4⟩ := Option.bind_eq_some_iff.mp h2
      have k := hs [] s1 (by omega)
      rw [h3] at k
      have := k.length
      have := hl s3 s2 (by omega) h4
      omega)
  simp only [again]
  cases h : stepG item sep s' with
  | none => rw [h] at this; exact this
  | some s2 => rw [h] at this; exact this

end

/-- Things separated by things. -/
inductive Joined {α : Type} (I : α → Text → Prop) (S : Text → Prop) : List α → Text → Prop where
  | one {a t} : I a t → Joined I S [a] t
  | more {a t w l t'} : I a t → S w → Joined I S l t' → Joined I S (a :: l) (t ++ (w ++ t'))

theorem joined_again {α : Type} {I : α → Text → Prop} {S : Text → Prop} {item sep : Text → Option Text} (hi : ∀ s s', item s = some s' → ∃ a t, I a t ∧ s = t ++ s')
    (hs : ∀ s s', sep s = some s' → ∃ w, S w ∧ s = w ++ s') : ∀ (n : Nat) (a : α) (t s : Text), I a t → ∃ l t', Joined I S l t' ∧ t ++ s = t' ++ again (stepG item sep) n s := by
  intro n
  induction n with
  | zero => exact fun a t s h => ⟨[a], t, .one h, rfl⟩
  | succ n ih =>
    intro a t s h
    simp only [again]
    cases h1 : stepG item sep s with
    | none => exact ⟨[a], t, .one h, rfl⟩
    | some s1 =>
      obtain ⟨s2, h2, h3⟩ := Option.bind_eq_some_iff.mp h1
      obtain ⟨w, hw, rfl⟩ := hs _ _ h2
      obtain ⟨b, t1, hb, rfl⟩ := hi _ _ h3
      obtain ⟨l, t2, hj, k⟩ := ih b t1 s1 hb
      refine ⟨a :: l, _, .more h hw hj, ?_⟩
      simp only [List.append_assoc, k]

theorem joined_sound {α : Type} {I : α → Text → Prop} {S : Text → Prop} {item sep : Text → Option Text} (hi : ∀ s s', item s = some s' → ∃ a t, I a t ∧ s = t ++ s')
    (hs : ∀ s s', sep s = some s' → ∃ w, S w ∧ s = w ++ s') {s s' : Text} (h : sepByF item sep s = some s') : ∃ l t, Joined I S l t ∧ s = t ++ s' := by
  obtain ⟨s1, h1, h2⟩ := Option.bind_eq_some_iff.mp h
  cases h2
  obtain ⟨a, t, ha, rfl⟩ := hi _ _ h1
  exact joined_again hi hs _ a t s1 ha

/-! ## Their tokens -/

section
variable {u : Unicode} {root : Module} {ci cs : Clo} {α : Type} {I : α → Text → Prop} {S Follow Stop : Text → Prop} {Tok : Text → α → Pair RuleVal → Prop}
  (hI : ∀ a t pre r, I a t → Follow r → (t ++ r).length + 1 < usizeMax → ∃ P, Tok (pre ++ t ++ r) a P ∧ Shows u root (.expr ci) ⟨pre, t ++ r, []⟩ ⟨pre ++ t, r, []⟩ [P])
  (hS : ∀ w a t pre r, S w → I a t → (w ++ (t ++ r)).length + 1 < usizeMax → Shows u root (.expr cs) ⟨pre, w ++ (t ++ r), []⟩ ⟨pre ++ w, t ++ r, []⟩ []) (hne : ∀ w, S w → w ≠ [])
  (hF : ∀ w r, S w → Follow (w ++ r)) (hStop : ∀ r, Stop r → Follow r) (hE : ∀ pre r, Stop r → Meaning u root (.expr (.mk [] (params ci cs) tStep)) ⟨pre, r, []⟩ none)
include hI hS hne hF hStop hE

omit hI hS hne hF hStop in
theorem shows_stop {pre r : Text} {i : Nat} (hr : Stop r) (hi : i < usizeMax) : Shows u root (.reps (.mk [] (params ci cs) tStep) [] .none 0 usizeMax i) ⟨pre, r, []⟩ ⟨pre, r, []⟩ [] := by
  refine .repsStop hi ?_ (by omega)
  cases i with
  | zero => exact .unitFirst (hE pre r hr)
  | succ i => exact .unitNext .triviaNone (hE pre r hr)

omit hne hF hStop hE in
theorem shows_unit {w t r pre : Text} {a : α} {i : Nat} (hw : S w) (ha : I a t) (hr : Follow r) (hl : (w ++ (t ++ r)).length + 1 < usizeMax) :
    ∃ P, Tok (pre ++ w ++ t ++ r) a P ∧ Shows u root (.unit (.mk [] (params ci cs) tStep) [] .none i) ⟨pre, w ++ (t ++ r), []⟩ ⟨pre ++ w ++ t, r, []⟩ [P] := by
  obtain ⟨P, h1, h2⟩ := hI a t (pre ++ w) r ha hr (by simp only [List.length_append] at hl ⊢; omega)
  have h3 : Shows u root (.expr (.mk [] (params ci cs) tStep)) ⟨pre, w ++ (t ++ r), []⟩ ⟨pre ++ w ++ t, r, []⟩ ([] ++ [P]) :=
    .seq (.param rfl (hS w a t pre r hw ha hl)) .triviaNone (.param rfl h2)
  refine ⟨P, h1, ?_⟩
  cases i with
  | zero => exact .unitFirst h3
  | succ i => exact .unitNext .triviaNone h3

theorem shows_tail {l : List α} {t : Text} (hj : Joined I S l t) : ∀ (i : Nat) (pre w r : Text), S w → Stop r → i + (w ++ (t ++ r)).length + 1 < usizeMax →
    ∃ F, Each (Tok (pre ++ w ++ t ++ r)) l F ∧ Shows u root (.reps (.mk [] (params ci cs) tStep) [] .none 0 usizeMax i) ⟨pre, w ++ (t ++ r), []⟩ ⟨pre ++ w ++ t, r, []⟩ F := by
  induction hj with
  | @one a t ha =>
    intro i pre w r hw hr hl
    obtain ⟨P, h1, h2⟩ := shows_unit hI hS (i := i) (pre := pre) hw ha (hStop r hr) (by omega)
    have := List.length_pos_iff.mpr (hne w hw)
    simp only [List.length_append] at hl
    exact ⟨[P], .cons h1 .nil, .repsMore (F := [P]) (G := []) (by omega) h2 (shows_stop hE hr (by omega))⟩
  | @more a t w' l t' ha hw' _ ih =>
    intro i pre w r hw hr hl
    have hpos := List.length_pos_iff.mpr (hne w hw)
    have hl' : i + 1 + (w' ++ (t' ++ r)).length + 1 < usizeMax := by simp only [List.length_append] at hl ⊢; omega
    obtain ⟨P, h1, h2⟩ := shows_unit hI hS (i := i) (pre := pre) (r := w' ++ (t' ++ r)) hw ha (hF w' _ hw') (by simp only [List.length_append] at hl ⊢; omega)
    obtain ⟨F, h3, h4⟩ := ih (i + 1) (pre ++ w ++ t) w' r hw' hr hl'
    have e1 : pre ++ w ++ (t ++ (w' ++ t')) ++ r = pre ++ w ++ t ++ (w' ++ (t' ++ r)) := by simp
    have e2 : pre ++ w ++ t ++ w' ++ t' ++ r = pre ++ w ++ t ++ (w' ++ (t' ++ r)) := by simp
    have e3 : t ++ (w' ++ t') ++ r = t ++ (w' ++ (t' ++ r)) := by simp
    have e4 : pre ++ w ++ (t ++ (w' ++ t')) = pre ++ w ++ t ++ w' ++ t' := by simp
    rw [e1, e3, e4]
    rw [e2] at h3
    refine ⟨P :: F, .cons h1 h3, ?_⟩
    simp only [List.length_append] at hl
    exact .repsMore (F := [P]) (G := F) (by omega) h2 h4

theorem shows_separated {l : List α} {t : Text} (hj : Joined I S l t) {pre r : Text} (hr : Stop r) (hl : (t ++ r).length + 1 < usizeMax) :
    ∃ F, Each (Tok (pre ++ t ++ r)) l F ∧ Shows u root (.expr (.mk [] (params ci cs) tSeparated)) ⟨pre, t ++ r, []⟩ ⟨pre ++ t, r, []⟩ F := by
  cases hj with
  | @one a _ ha =>
    obtain ⟨P, h1, h2⟩ := hI a t pre r ha (hStop r hr) hl
    exact ⟨[P], .cons h1 .nil, .seq (F := [P]) (G := []) (.param rfl h2) .triviaNone (.rep rfl (shows_stop hE hr (by simp only [List.length_append] at hl; omega)))⟩
  | @more a t w l t' ha hw hj' =>
    obtain ⟨P, h1, h2⟩ := hI a t pre (w ++ (t' ++ r)) ha (hF w _ hw) (by simp only [List.length_append] at hl ⊢; omega)
    obtain ⟨F, h3, h4⟩ := shows_tail hI hS hne hF hStop hE hj' 0 (pre ++ t) w r hw hr (by simp only [List.length_append] at hl ⊢; omega)
    have e1 : pre ++ (t ++ (w ++ t')) ++ r = pre ++ t ++ (w ++ (t' ++ r)) := by simp
    have e2 : pre ++ t ++ w ++ t' ++ r = pre ++ t ++ (w ++ (t' ++ r)) := by simp
    have e3 : t ++ (w ++ t') ++ r = t ++ (w ++ (t' ++ r)) := by simp
    have e4 : pre ++ (t ++ (w ++ t')) = pre ++ t ++ w ++ t' := by simp
    rw [e1, e3, e4]
    rw [e2] at h3
    exact ⟨P :: F, .cons h1 h3, .seq (F := [P]) (G := F) (.param rfl h2) .triviaNone (.rep rfl h4)⟩

end

/-- Expressions without references have no tokens in them. -/
theorem no_tokens {u : Unicode} {root : Module} {ts : List Trivia} {it : SItem} {c c' : Cfg} {F : List (Pair RuleVal)} (h : Shows u root it c c' F) :
    (match it with
      | .expr (.mk _ _ e) => plainExpr [] ts e = true
      | .unit (.mk _ _ e) _ _ _ => plainExpr [] ts e = true
      | .reps (.mk _ _ e) _ _ _ _ _ => plainExpr [] ts e = true
      | .trivia _ _ => False) → F = [] := by
  induction h with
  | push | call | slice => exact fun k => by cases k
  | param _ _ _ => exact fun k => by simp [plainExpr] at k
  | rule _ _ _ _ _ => exact fun k => by simp [plainExpr] at k
  | seq _ _ _ ih1 ih2 =>
    intro k
    simp only [plainExpr, Bool.and_eq_true] at k
    rw [ih1 k.1.1, ih2 k.1.2]; rfl
  | choiceL _ ih => exact fun k => ih (by simp only [plainExpr, Bool.and_eq_true] at k; exact k.1)
  | choiceR _ _ ih => exact fun k => ih (by simp only [plainExpr, Bool.and_eq_true] at k; exact k.2)
  | optSome _ ih => exact fun k => ih k
  | separated _ ih => exact fun k => ih (by simp only [plainExpr, Bool.and_eq_true] at k; exact k.1)
  | @rep _ _ e _ _ _ _ _ _ hr _ ih =>
    intro k
    refine ih ?_
    cases e <;> first | cases hr; exact k | cases hr
  | @unitFirst e _ _ _ _ _ _ ih => exact fun k => ih (by cases e; exact k)
  | @unitNext e _ _ _ _ _ _ _ _ _ ih => exact fun k => ih (by cases e; exact k)
  | @repsMore e _ _ _ _ _ _ _ _ _ _ _ _ _ ih1 ih2 =>
    intro k
    rw [ih1 (by cases e; exact k), ih2 (by cases e; exact k)]; rfl
  | _ => exact fun _ => rfl

theorem shows_plain {u : Unicode} {root : Module} {ts : List Trivia} {p : List Name} {ρ : List (Name × Clo)} {e : Expr} {c c' : Cfg} (he : plainExpr [] ts e = true)
    (h : Meaning u root (.expr (.mk p ρ e)) c (some c')) : Shows u root (.expr (.mk p ρ e)) c c' [] := by
  obtain ⟨F, hF⟩ := meaning_shows h c' rfl (by simp)
  have := no_tokens (ts := ts) hF he
  rwa [this] at hF

end Pest3.Csv
