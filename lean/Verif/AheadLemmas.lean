import Verif.AttemptLemmas
import Verif.AheadSpec
import Verif.LeftLemmas
import Verif.FirstLemmas

namespace Pest3.Gen
open Pest3

theorem movePairs_append (f : Nat → Nat) : ∀ l l', movePairs f (l ++ l') = movePairs f l ++ movePairs f l'
  | [], _ => rfl
  | x :: l, l' => by simp only [List.cons_append, movePairs, movePairs_append f l l']

theorem moveEvs_append (f : Nat → Nat) : ∀ l l', moveEvs f (l ++ l') = moveEvs f l ++ moveEvs f l'
  | [], _ => rfl
  | x :: l, l' => by simp only [List.cons_append, moveEvs, moveEvs_append f l l']

/-- A relation between places that built-ins not in `K` do not tell apart; `f` relates their offsets. -/
structure Blind (K : Option Leaf → Prop) (f : Nat → Nat) (V : Cfg → Cfg → Prop) : Prop where
  suf : ∀ {c d}, V c d → c.suf = d.suf
  place : ∀ {c d}, V c d → utf8Len d.pre = f (utf8Len c.pre)
  ok : ∀ {c d l m stk rest}, V c d → ¬ K (some l) → leafSpec l c = some (m, stk) → c.suf = m ++ rest →
    ∃ stk', leafSpec l d = some (m, stk') ∧ V ⟨c.pre ++ m, rest, stk⟩ ⟨d.pre ++ m, rest, stk'⟩
  fail : ∀ {c d l}, V c d → ¬ K (some l) → leafSpec l c = none → leafSpec l d = none ∧ leafEvents l d = moveEvs f (leafEvents l c)
  push : ∀ {pre pre' rest stk stk' m}, ¬ K none → V ⟨pre, rest, stk⟩ ⟨pre', rest, stk'⟩ → V ⟨pre, rest, stk ++ [m]⟩ ⟨pre', rest, stk' ++ [m]⟩

/-- Both fail, or both match up to related places. -/
def BothAt (V : Cfg → Cfg → Prop) : Option Cfg → Option Cfg → Prop
  | none, none => True
  | some c, some d => V c d
  | _, _ => False

theorem Meaning.taken {u : Unicode} {root : Module} {it : SItem} {c c' : Cfg} (h : Meaning u root it c (some c')) : ∃ m, c'.pre = c.pre ++ m ∧ c.suf = m ++ c'.suf := by
  have tr : ∀ {a b c : Cfg}, (∃ m, b.pre = a.pre ++ m ∧ a.suf = m ++ b.suf) → (∃ m, c.pre = b.pre ++ m ∧ b.suf = m ++ c.suf) → ∃ m, c.pre = a.pre ++ m ∧ a.suf = m ++ c.suf := by
    rintro a b c ⟨m, h1, h2⟩ ⟨m', h1', h2'⟩; exact ⟨m ++ m', by rw [h1', h1, List.append_assoc], by rw [h2, h2', List.append_assoc]⟩
  generalize ho : some c' = o at h
  induction h generalizing c' with
  | literalOk _ _ h => cases ho; exact ⟨_, rfl, h⟩
  | builtinOk _ _ _ _ _ h => cases ho; exact ⟨_, rfl, h⟩
  | sliceOk _ _ _ _ h => cases ho; exact ⟨_, rfl, h⟩
  | pushOk _ _ _ ih =>
    cases ho
    obtain ⟨m, h1, h2⟩ := ih rfl
    exact ⟨m, h1, h2⟩
  | param _ _ ih => exact ih ho
  | rule _ _ _ _ ih => exact ih ho
  | call _ _ _ _ ih => exact ih ho
  | posOk _ _ => cases ho; exact ⟨[], by simp⟩
  | negOk _ _ => cases ho; exact ⟨[], by simp⟩
  | seq _ _ _ ih1 ih2 ih3 => exact tr (tr (ih1 rfl) (ih2 rfl)) (ih3 ho)
  | choiceL _ ih => exact ih ho
  | choiceR _ _ _ ih => exact ih ho
  | optSome _ ih => exact ih ho
  | optNone _ _ => cases ho; exact ⟨[], by simp⟩
  | rep _ _ ih => exact ih ho
  | separated _ ih => exact ih ho
  | triviaNone => cases ho; exact ⟨[], by simp⟩
  | triviaRule _ _ _ ih => exact ih ho
  | unitFirst _ ih => exact ih ho
  | unitNext _ _ ih1 ih2 => exact tr (ih1 rfl) (ih2 ho)
  | repsMax _ => cases ho; exact ⟨[], by simp⟩
  | repsMore _ _ _ ih1 ih2 => exact tr (ih1 rfl) (ih2 ho)
  | repsStop _ _ _ _ => cases ho; exact ⟨[], by simp⟩
  | _ => cases ho

section
variable {u : Unicode} {root : Module} {K : Option Leaf → Prop} {f : Nat → Nat} {V : Cfg → Cfg → Prop} (hV : Blind K f V)
include hV

theorem Meaning.blind {it : SItem} {c : Cfg} {o : Option Cfg} (h : Meaning u root it c o) :
    ¬ Uses u root K it → ∀ d, V c d → ∃ o', Meaning u root it d o' ∧ BothAt V o o' := by
  induction h with
  | literalOk h1 h2 h3 =>
    intro hu d hd
    obtain ⟨stk', k1, k2⟩ := hV.ok hd (fun k => hu (.literal h1 k)) h2 h3
    exact ⟨_, .literalOk h1 k1 ((hV.suf hd).symm.trans h3), k2⟩
  | literalFail h1 h2 =>
    intro hu d hd
    exact ⟨none, .literalFail h1 (hV.fail hd (fun k => hu (.literal h1 k)) h2).1, trivial⟩
  | builtinOk h1 h2 h3 h4 h5 h6 =>
    intro hu d hd
    obtain ⟨stk', k1, k2⟩ := hV.ok hd (fun k => hu (.builtin h1 h2 h3 h4 k)) h5 h6
    exact ⟨_, .builtinOk h1 h2 h3 h4 k1 ((hV.suf hd).symm.trans h6), k2⟩
  | builtinFail h1 h2 h3 h4 h5 =>
    intro hu d hd
    exact ⟨none, .builtinFail h1 h2 h3 h4 (hV.fail hd (fun k => hu (.builtin h1 h2 h3 h4 k)) h5).1, trivial⟩
  | sliceOk h1 h2 h3 h4 h5 =>
    intro hu d hd
    obtain ⟨stk', k1, k2⟩ := hV.ok hd (fun k => hu (.slice h3 k)) h4 h5
    exact ⟨_, .sliceOk h1 h2 h3 k1 ((hV.suf hd).symm.trans h5), k2⟩
  | sliceFail h1 h2 h3 h4 =>
    intro hu d hd
    exact ⟨none, .sliceFail h1 h2 h3 (hV.fail hd (fun k => hu (.slice h3 k)) h4).1, trivial⟩
  | pushOk h1 h2 h3 ih =>
    intro hu d hd
    obtain ⟨o', k1, k2⟩ := ih (fun k => hu (.pushed h1 h2 k)) d hd
    cases o' with
    | none => exact k2.elim
    | some d' =>
      obtain ⟨m', j1, j2⟩ := h3.taken
      obtain ⟨m'', i1, i2⟩ := k1.taken
      have e := List.append_cancel_left j1
      subst e
      have e := hV.suf k2
      simp only at e j2
      rw [hV.suf hd, i2, e] at j2
      have e' := List.append_cancel_right j2
      subst e'
      obtain ⟨dp, ds, dk⟩ := d'
      simp only at i1 e
      subst i1 e
      exact ⟨_, .pushOk h1 h2 k1, hV.push (fun k => hu (.push h1 h2 k)) k2⟩
  | pushFail h1 h2 _ ih =>
    intro hu d hd
    obtain ⟨o', k1, k2⟩ := ih (fun k => hu (.pushed h1 h2 k)) d hd
    cases o' with
    | none => exact ⟨none, .pushFail h1 h2 k1, trivial⟩
    | some => exact k2.elim
  | param h1 _ ih =>
    intro hu d hd
    obtain ⟨o', k1, k2⟩ := ih (fun k => hu (.param h1 k)) d hd
    exact ⟨o', .param h1 k1, k2⟩
  | rule h1 h2 h3 _ ih =>
    intro hu d hd
    obtain ⟨o', k1, k2⟩ := ih (fun k => hu (.rule h1 h2 k)) d hd
    exact ⟨o', .rule h1 h2 h3 k1, k2⟩
  | call h1 h2 h3 _ ih =>
    intro hu d hd
    obtain ⟨o', k1, k2⟩ := ih (fun k => hu (.call h1 h2 h3 k)) d hd
    exact ⟨o', .call h1 h2 h3 k1, k2⟩
  | posOk _ ih =>
    intro hu d hd
    obtain ⟨o', k1, k2⟩ := ih (fun k => hu (.pos k)) d hd
    cases o' with
    | none => exact k2.elim
    | some d' => exact ⟨_, .posOk k1, hd⟩
  | posFail _ ih =>
    intro hu d hd
    obtain ⟨o', k1, k2⟩ := ih (fun k => hu (.pos k)) d hd
    cases o' with
    | none => exact ⟨none, .posFail k1, trivial⟩
    | some => exact k2.elim
  | negOk _ ih =>
    intro hu d hd
    obtain ⟨o', k1, k2⟩ := ih (fun k => hu (.neg k)) d hd
    cases o' with
    | none => exact ⟨_, .negOk k1, hd⟩
    | some => exact k2.elim
  | negFail _ ih =>
    intro hu d hd
    obtain ⟨o', k1, k2⟩ := ih (fun k => hu (.neg k)) d hd
    cases o' with
    | none => exact k2.elim
    | some d' => exact ⟨none, .negFail k1, trivial⟩
  | seq _ _ _ ih1 ih2 ih3 =>
    intro hu d hd
    obtain ⟨o1, k1, j1⟩ := ih1 (fun k => hu (.seqL k)) d hd
    cases o1 with
    | none => exact j1.elim
    | some d1 =>
      obtain ⟨o2, k2, j2⟩ := ih2 (fun k => hu (.seqTrivia k)) d1 j1
      cases o2 with
      | none => exact j2.elim
      | some d2 =>
        obtain ⟨o3, k3, j3⟩ := ih3 (fun k => hu (.seqR k)) d2 j2
        exact ⟨o3, .seq k1 k2 k3, j3⟩
  | seqFail _ ih =>
    intro hu d hd
    obtain ⟨o', k1, k2⟩ := ih (fun k => hu (.seqL k)) d hd
    cases o' with
    | none => exact ⟨none, .seqFail k1, trivial⟩
    | some => exact k2.elim
  | seqTriviaFail _ _ ih1 ih2 =>
    intro hu d hd
    obtain ⟨o1, k1, j1⟩ := ih1 (fun k => hu (.seqL k)) d hd
    cases o1 with
    | none => exact j1.elim
    | some d1 =>
      obtain ⟨o2, k2, j2⟩ := ih2 (fun k => hu (.seqTrivia k)) d1 j1
      cases o2 with
      | none => exact ⟨none, .seqTriviaFail k1 k2, trivial⟩
      | some => exact j2.elim
  | choiceL _ ih =>
    intro hu d hd
    obtain ⟨o', k1, k2⟩ := ih (fun k => hu (.choiceL k)) d hd
    cases o' with
    | none => exact k2.elim
    | some d' => exact ⟨_, .choiceL k1, k2⟩
  | choiceR _ _ ih1 ih2 =>
    intro hu d hd
    obtain ⟨o1, k1, j1⟩ := ih1 (fun k => hu (.choiceL k)) d hd
    cases o1 with
    | some => exact j1.elim
    | none =>
      obtain ⟨o2, k2, j2⟩ := ih2 (fun k => hu (.choiceR k)) d hd
      exact ⟨o2, .choiceR k1 k2, j2⟩
  | optSome _ ih =>
    intro hu d hd
    obtain ⟨o', k1, k2⟩ := ih (fun k => hu (.opt k)) d hd
    cases o' with
    | none => exact k2.elim
    | some d' => exact ⟨_, .optSome k1, k2⟩
  | optNone _ ih =>
    intro hu d hd
    obtain ⟨o', k1, k2⟩ := ih (fun k => hu (.opt k)) d hd
    cases o' with
    | none => exact ⟨_, .optNone k1, hd⟩
    | some => exact k2.elim
  | rep h1 _ ih =>
    intro hu d hd
    obtain ⟨o', k1, k2⟩ := ih (fun k => hu (.rep h1 k)) d hd
    exact ⟨o', .rep h1 k1, k2⟩
  | separated _ ih =>
    intro hu d hd
    obtain ⟨o', k1, k2⟩ := ih (fun k => hu (.separated k)) d hd
    exact ⟨o', .separated k1, k2⟩
  | triviaNone => intro hu d hd; exact ⟨_, .triviaNone, hd⟩
  | triviaRule h1 h2 _ ih =>
    intro hu d hd
    obtain ⟨o', k1, k2⟩ := ih (fun k => hu (.triviaRule h1 h2 k)) d hd
    exact ⟨o', .triviaRule h1 h2 k1, k2⟩
  | unitFirst _ ih =>
    intro hu d hd
    obtain ⟨o', k1, k2⟩ := ih (fun k => hu (.unit k)) d hd
    exact ⟨o', .unitFirst k1, k2⟩
  | unitNext _ _ ih1 ih2 =>
    intro hu d hd
    obtain ⟨o1, k1, j1⟩ := ih1 (fun k => hu (.unitTrivia k)) d hd
    cases o1 with
    | none => exact j1.elim
    | some d1 =>
      obtain ⟨o2, k2, j2⟩ := ih2 (fun k => hu (.unit k)) d1 j1
      exact ⟨o2, .unitNext k1 k2, j2⟩
  | unitTriviaFail _ ih =>
    intro hu d hd
    obtain ⟨o', k1, k2⟩ := ih (fun k => hu (.unitTrivia k)) d hd
    cases o' with
    | none => exact ⟨none, .unitTriviaFail k1, trivial⟩
    | some => exact k2.elim
  | repsMax h => intro hu d hd; exact ⟨_, .repsMax h, hd⟩
  | repsMore h _ _ ih1 ih2 =>
    intro hu d hd
    obtain ⟨o1, k1, j1⟩ := ih1 (fun k => hu (.reps k)) d hd
    cases o1 with
    | none => exact j1.elim
    | some d1 =>
      obtain ⟨o2, k2, j2⟩ := ih2 (fun k => by cases k with | reps k => exact hu (.reps k)) d1 j1
      exact ⟨o2, .repsMore h k1 k2, j2⟩
  | repsFew h1 _ h2 ih =>
    intro hu d hd
    obtain ⟨o', k1, k2⟩ := ih (fun k => hu (.reps k)) d hd
    cases o' with
    | none => exact ⟨none, .repsFew h1 k1 h2, trivial⟩
    | some => exact k2.elim
  | repsStop h1 _ h2 ih =>
    intro hu d hd
    obtain ⟨o', k1, k2⟩ := ih (fun k => hu (.reps k)) d hd
    cases o' with
    | none => exact ⟨_, .repsStop h1 k1 h2, hd⟩
    | some => exact k2.elim

theorem Meaning.blind_some {it : SItem} {c c' : Cfg} (h : Meaning u root it c (some c')) (hu : ¬ Uses u root K it) {d : Cfg} (hd : V c d) :
    ∃ d', Meaning u root it d (some d') ∧ V c' d' := by
  obtain ⟨o', k1, k2⟩ := h.blind hV hu d hd
  cases o' with
  | none => exact k2.elim
  | some d' => exact ⟨d', k1, k2⟩

theorem Meaning.blind_none {it : SItem} {c : Cfg} (h : Meaning u root it c none) (hu : ¬ Uses u root K it) {d : Cfg} (hd : V c d) : Meaning u root it d none := by
  obtain ⟨o', k1, k2⟩ := h.blind hV hu d hd
  cases o' with
  | none => exact k1
  | some d' => exact k2.elim

/-- The place after a match, from that of another match. -/
theorem pushed_at {it : SItem} {c d : Cfg} {m rest : Text} {stk : List Text} {d' : Cfg} (h : Meaning u root it c (some ⟨c.pre ++ m, rest, stk⟩)) (hd : V c d)
    (k : Meaning u root it d (some d')) (hv : V ⟨c.pre ++ m, rest, stk⟩ d') : d' = ⟨d.pre ++ m, rest, d'.stk⟩ := by
  obtain ⟨m', j1, j2⟩ := h.taken
  obtain ⟨m'', i1, i2⟩ := k.taken
  have e := List.append_cancel_left j1
  subst e
  have e := hV.suf hv
  simp only at e j2
  rw [hV.suf hd, i2, e] at j2
  have e' := List.append_cancel_right j2
  subst e'
  obtain ⟨dp, ds, dk⟩ := d'
  simp only at i1 e
  subst i1 e
  rfl

omit hV in
theorem tokens_move (hV : Blind K f V) {p : List Name} {r : Rule} {c c' d d' : Cfg} {F : List (Pair RuleVal)} (h : V c d) (h' : V c' d') :
    movePairs f (tokens p r c c' F) = tokens p r d d' (movePairs f F) := by
  unfold tokens
  rw [hV.place h, hV.place h']
  split <;> rfl

theorem Shows.blind {it : SItem} {c c' : Cfg} {F : List (Pair RuleVal)} (h : Shows u root it c c' F) :
    ¬ Uses u root K it → ∀ d, V c d → ∃ d', Shows u root it d d' (movePairs f F) ∧ V c' d' := by
  induction h with
  | literal h1 h2 => intro hu d hd; obtain ⟨d', k1, k2⟩ := h2.blind_some hV hu hd; exact ⟨d', .literal h1 k1, k2⟩
  | builtin h1 h2 h3 h4 h5 => intro hu d hd; obtain ⟨d', k1, k2⟩ := h5.blind_some hV hu hd; exact ⟨d', .builtin h1 h2 h3 h4 k1, k2⟩
  | slice h => intro hu d hd; obtain ⟨d', k1, k2⟩ := h.blind_some hV hu hd; exact ⟨d', .slice k1, k2⟩
  | push h1 h2 h3 ih =>
    intro hu d hd
    obtain ⟨d', k1, k2⟩ := ih (fun k => hu (.pushed h1 h2 k)) d hd
    have e := pushed_at hV h3.meaning hd k1.meaning k2
    rw [e] at k1 k2
    exact ⟨_, .push h1 h2 k1, hV.push (fun k => hu (.push h1 h2 k)) k2⟩
  | param h1 _ ih => intro hu d hd; obtain ⟨d', k1, k2⟩ := ih (fun k => hu (.param h1 k)) d hd; exact ⟨d', .param h1 k1, k2⟩
  | rule h1 h2 h3 _ ih =>
    intro hu d hd
    obtain ⟨d', k1, k2⟩ := ih (fun k => hu (.rule h1 h2 k)) d hd
    rw [tokens_move hV hd k2]
    exact ⟨d', .rule h1 h2 h3 k1, k2⟩
  | call h1 h2 h3 _ ih =>
    intro hu d hd
    obtain ⟨d', k1, k2⟩ := ih (fun k => hu (.call h1 h2 h3 k)) d hd
    rw [tokens_move hV hd k2]
    exact ⟨d', .call h1 h2 h3 k1, k2⟩
  | pos h => intro hu d hd; obtain ⟨d', k1, k2⟩ := h.blind_some hV hu hd; exact ⟨d', .pos k1, k2⟩
  | neg h => intro hu d hd; obtain ⟨d', k1, k2⟩ := h.blind_some hV hu hd; exact ⟨d', .neg k1, k2⟩
  | seq _ h2 _ ih1 ih3 =>
    intro hu d hd
    obtain ⟨d1, k1, j1⟩ := ih1 (fun k => hu (.seqL k)) d hd
    obtain ⟨d2, k2, j2⟩ := h2.blind_some hV (fun k => hu (.seqTrivia k)) j1
    obtain ⟨d3, k3, j3⟩ := ih3 (fun k => hu (.seqR k)) d2 j2
    rw [movePairs_append]
    exact ⟨d3, .seq k1 k2 k3, j3⟩
  | choiceL _ ih => intro hu d hd; obtain ⟨d', k1, k2⟩ := ih (fun k => hu (.choiceL k)) d hd; exact ⟨d', .choiceL k1, k2⟩
  | choiceR h1 _ ih =>
    intro hu d hd
    obtain ⟨d', k1, k2⟩ := ih (fun k => hu (.choiceR k)) d hd
    exact ⟨d', .choiceR (h1.blind_none hV (fun k => hu (.choiceL k)) hd) k1, k2⟩
  | optSome _ ih => intro hu d hd; obtain ⟨d', k1, k2⟩ := ih (fun k => hu (.opt k)) d hd; exact ⟨d', .optSome k1, k2⟩
  | optNone h => intro hu d hd; exact ⟨d, .optNone (h.blind_none hV (fun k => hu (.opt k)) hd), hd⟩
  | rep h1 _ ih => intro hu d hd; obtain ⟨d', k1, k2⟩ := ih (fun k => hu (.rep h1 k)) d hd; exact ⟨d', .rep h1 k1, k2⟩
  | separated _ ih => intro hu d hd; obtain ⟨d', k1, k2⟩ := ih (fun k => hu (.separated k)) d hd; exact ⟨d', .separated k1, k2⟩
  | unitFirst _ ih => intro hu d hd; obtain ⟨d', k1, k2⟩ := ih (fun k => hu (.unit k)) d hd; exact ⟨d', .unitFirst k1, k2⟩
  | unitNext h1 _ ih =>
    intro hu d hd
    obtain ⟨d1, k1, j1⟩ := h1.blind_some hV (fun k => hu (.unitTrivia k)) hd
    obtain ⟨d2, k2, j2⟩ := ih (fun k => hu (.unit k)) d1 j1
    exact ⟨d2, .unitNext k1 k2, j2⟩
  | repsMax h => intro hu d hd; exact ⟨d, .repsMax h, hd⟩
  | repsMore h _ _ ih1 ih2 =>
    intro hu d hd
    obtain ⟨d1, k1, j1⟩ := ih1 (fun k => hu (.reps k)) d hd
    obtain ⟨d2, k2, j2⟩ := ih2 (fun k => by cases k with | reps k => exact hu (.reps k)) d1 j1
    rw [movePairs_append]
    exact ⟨d2, .repsMore h k1 k2, j2⟩
  | repsStop h1 h2 h3 => intro hu d hd; exact ⟨d, .repsStop h1 (h2.blind_none hV (fun k => hu (.reps k)) hd) h3, hd⟩

theorem Tries.blind {rank : RuleVal → Label} {b : Bool} {it : SItem} {c : Cfg} {o : Option Cfg} {es : List Ev} (h : Tries u root rank b it c o es) :
    ¬ Uses u root K it → ∀ d, V c d → ∃ o', Tries u root rank b it d o' (moveEvs f es) ∧ BothAt V o o' := by
  have tr : ∀ {p r b c d o o' es}, V c d → BothAt V o o' → moveEvs f (tried rank p r b c o es) = tried rank p r b d o' (moveEvs f es) := by
    intro p r b c d o o' es h h'
    unfold tried
    rw [hV.place h]
    cases o <;> cases o' <;> first | exact h'.elim | rfl
  induction h with
  | literal h1 h2 =>
    intro hu d hd
    obtain ⟨o', k1, k2⟩ := h2.blind hV hu d hd
    exact ⟨o', .literal h1 k1, k2⟩
  | builtinOk h1 h2 h3 h4 h5 => intro hu d hd; obtain ⟨d', k1, k2⟩ := h5.blind_some hV hu hd; exact ⟨some d', .builtinOk h1 h2 h3 h4 k1, k2⟩
  | @builtinFail b p ρ e q full l c h1 h2 h3 h4 h5 =>
    intro hu d hd
    have k := h5.blind_none hV hu hd
    have hk : leafOut l c none := by
      cases e with
      | path q' =>
        cases h1
        rcases m_path.mp h5 with ⟨x, e, rfl, h, -⟩ | ⟨-, ⟨full', l', k1, k2, k3⟩ | ⟨p', r, k1, -⟩⟩
        · rw [h2 x rfl] at h; cases h
        · rw [h3] at k1; cases k1; rw [h4] at k2; cases k2; exact k3
        · rw [h3] at k1; cases k1
      | call q' args =>
        cases args with
        | nil =>
          cases h1
          rcases m_call.mp h5 with ⟨-, ⟨full', l', -, k1, k2, k3⟩ | ⟨e, o', k, -⟩ | ⟨p', r, k1, -⟩⟩
          · rw [h3] at k1; cases k1; rw [h4] at k2; cases k2; exact k3
          · cases k
          · rw [h3] at k1; cases k1
        | cons => cases h1
      | _ => cases h1
    rcases hk with ⟨_, _, _, -, -, h⟩ | ⟨hk, -⟩
    · cases h
    · rw [← (hV.fail hd (fun k => hu (.builtin h1 h2 h3 h4 k)) hk).2]
      exact ⟨none, .builtinFail h1 h2 h3 h4 k, trivial⟩
  | sliceOk h => intro hu d hd; obtain ⟨d', k1, k2⟩ := h.blind_some hV hu hd; exact ⟨some d', .sliceOk k1, k2⟩
  | sliceFail h1 h2 =>
    intro hu d hd
    have k := h2.blind_none hV hu hd
    rcases (m_slice.mp h2).2.2 with ⟨_, _, _, -, -, h⟩ | ⟨hk, -⟩
    · cases h
    · have hk := (congrArg (leafSpec · _) h1).trans hk
      rw [← (hV.fail hd (fun k => hu (.slice h1 k)) hk).2]
      exact ⟨none, .sliceFail h1 k, trivial⟩
  | pushOk h1 h2 h3 ih =>
    intro hu d hd
    obtain ⟨o', k1, k2⟩ := ih (fun k => hu (.pushed h1 h2 k)) d hd
    cases o' with
    | none => exact k2.elim
    | some d' =>
      have e := pushed_at hV h3.meaning hd k1.meaning k2
      rw [e] at k1 k2
      exact ⟨_, .pushOk h1 h2 k1, hV.push (fun k => hu (.push h1 h2 k)) k2⟩
  | pushFail h1 h2 _ ih =>
    intro hu d hd
    obtain ⟨o', k1, k2⟩ := ih (fun k => hu (.pushed h1 h2 k)) d hd
    cases o' with
    | none => exact ⟨none, .pushFail h1 h2 k1, trivial⟩
    | some => exact k2.elim
  | param h1 _ ih =>
    intro hu d hd
    obtain ⟨o', k1, k2⟩ := ih (fun k => hu (.param h1 k)) d hd
    exact ⟨o', .param h1 k1, k2⟩
  | rule h1 h2 h3 _ ih =>
    intro hu d hd
    obtain ⟨o', k1, k2⟩ := ih (fun k => hu (.rule h1 h2 k)) d hd
    rw [tr hd k2]
    exact ⟨o', .rule h1 h2 h3 k1, k2⟩
  | call h1 h2 h3 _ ih =>
    intro hu d hd
    obtain ⟨o', k1, k2⟩ := ih (fun k => hu (.call h1 h2 h3 k)) d hd
    rw [tr hd k2]
    exact ⟨o', .call h1 h2 h3 k1, k2⟩
  | posOk _ ih =>
    intro hu d hd
    obtain ⟨o', k1, k2⟩ := ih (fun k => hu (.pos k)) d hd
    cases o' with
    | none => exact k2.elim
    | some d' => exact ⟨_, .posOk k1, hd⟩
  | posFail _ ih =>
    intro hu d hd
    obtain ⟨o', k1, k2⟩ := ih (fun k => hu (.pos k)) d hd
    cases o' with
    | none => exact ⟨none, .posFail k1, trivial⟩
    | some => exact k2.elim
  | negOk _ ih =>
    intro hu d hd
    obtain ⟨o', k1, k2⟩ := ih (fun k => hu (.neg k)) d hd
    cases o' with
    | none => exact ⟨_, .negOk k1, hd⟩
    | some => exact k2.elim
  | negFail _ ih =>
    intro hu d hd
    obtain ⟨o', k1, k2⟩ := ih (fun k => hu (.neg k)) d hd
    cases o' with
    | none => exact k2.elim
    | some d' => exact ⟨none, .negFail k1, trivial⟩
  | seq _ _ _ ih1 ih2 ih3 =>
    intro hu d hd
    obtain ⟨o1, k1, j1⟩ := ih1 (fun k => hu (.seqL k)) d hd
    cases o1 with
    | none => exact j1.elim
    | some d1 =>
      obtain ⟨o2, k2, j2⟩ := ih2 (fun k => hu (.seqTrivia k)) d1 j1
      cases o2 with
      | none => exact j2.elim
      | some d2 =>
        obtain ⟨o3, k3, j3⟩ := ih3 (fun k => hu (.seqR k)) d2 j2
        rw [moveEvs_append, moveEvs_append]
        exact ⟨o3, .seq k1 k2 k3, j3⟩
  | seqFail _ ih =>
    intro hu d hd
    obtain ⟨o', k1, k2⟩ := ih (fun k => hu (.seqL k)) d hd
    cases o' with
    | none => exact ⟨none, .seqFail k1, trivial⟩
    | some => exact k2.elim
  | seqTriviaFail _ _ ih1 ih2 =>
    intro hu d hd
    obtain ⟨o1, k1, j1⟩ := ih1 (fun k => hu (.seqL k)) d hd
    cases o1 with
    | none => exact j1.elim
    | some d1 =>
      obtain ⟨o2, k2, j2⟩ := ih2 (fun k => hu (.seqTrivia k)) d1 j1
      cases o2 with
      | none => rw [moveEvs_append]; exact ⟨none, .seqTriviaFail k1 k2, trivial⟩
      | some => exact j2.elim
  | choiceL _ ih =>
    intro hu d hd
    obtain ⟨o', k1, k2⟩ := ih (fun k => hu (.choiceL k)) d hd
    cases o' with
    | none => exact k2.elim
    | some d' => exact ⟨_, .choiceL k1, k2⟩
  | choiceR _ _ ih1 ih2 =>
    intro hu d hd
    obtain ⟨o1, k1, j1⟩ := ih1 (fun k => hu (.choiceL k)) d hd
    cases o1 with
    | some => exact j1.elim
    | none =>
      obtain ⟨o2, k2, j2⟩ := ih2 (fun k => hu (.choiceR k)) d hd
      rw [moveEvs_append]
      exact ⟨o2, .choiceR k1 k2, j2⟩
  | optSome _ ih =>
    intro hu d hd
    obtain ⟨o', k1, k2⟩ := ih (fun k => hu (.opt k)) d hd
    cases o' with
    | none => exact k2.elim
    | some d' => exact ⟨_, .optSome k1, k2⟩
  | optNone _ ih =>
    intro hu d hd
    obtain ⟨o', k1, k2⟩ := ih (fun k => hu (.opt k)) d hd
    cases o' with
    | none => exact ⟨_, .optNone k1, hd⟩
    | some => exact k2.elim
  | rep h1 _ ih =>
    intro hu d hd
    obtain ⟨o', k1, k2⟩ := ih (fun k => hu (.rep h1 k)) d hd
    exact ⟨o', .rep h1 k1, k2⟩
  | separated _ ih =>
    intro hu d hd
    obtain ⟨o', k1, k2⟩ := ih (fun k => hu (.separated k)) d hd
    exact ⟨o', .separated k1, k2⟩
  | triviaNone => intro hu d hd; exact ⟨_, .triviaNone, hd⟩
  | triviaRule h1 h2 _ ih =>
    intro hu d hd
    obtain ⟨o', k1, k2⟩ := ih (fun k => hu (.triviaRule h1 h2 k)) d hd
    exact ⟨o', .triviaRule h1 h2 k1, k2⟩
  | unitFirst _ ih =>
    intro hu d hd
    obtain ⟨o', k1, k2⟩ := ih (fun k => hu (.unit k)) d hd
    exact ⟨o', .unitFirst k1, k2⟩
  | unitNext _ _ ih1 ih2 =>
    intro hu d hd
    obtain ⟨o1, k1, j1⟩ := ih1 (fun k => hu (.unitTrivia k)) d hd
    cases o1 with
    | none => exact j1.elim
    | some d1 =>
      obtain ⟨o2, k2, j2⟩ := ih2 (fun k => hu (.unit k)) d1 j1
      rw [moveEvs_append]
      exact ⟨o2, .unitNext k1 k2, j2⟩
  | unitTriviaFail _ ih =>
    intro hu d hd
    obtain ⟨o', k1, k2⟩ := ih (fun k => hu (.unitTrivia k)) d hd
    cases o' with
    | none => exact ⟨none, .unitTriviaFail k1, trivial⟩
    | some => exact k2.elim
  | repsMax h => intro hu d hd; exact ⟨_, .repsMax h, hd⟩
  | repsMore h _ _ ih1 ih2 =>
    intro hu d hd
    obtain ⟨o1, k1, j1⟩ := ih1 (fun k => hu (.reps k)) d hd
    cases o1 with
    | none => exact j1.elim
    | some d1 =>
      obtain ⟨o2, k2, j2⟩ := ih2 (fun k => by cases k with | reps k => exact hu (.reps k)) d1 j1
      rw [moveEvs_append]
      exact ⟨o2, .repsMore h k1 k2, j2⟩
  | repsFew h1 _ h2 ih =>
    intro hu d hd
    obtain ⟨o', k1, k2⟩ := ih (fun k => hu (.reps k)) d hd
    cases o' with
    | none => exact ⟨none, .repsFew h1 k1 h2, trivial⟩
    | some => exact k2.elim
  | repsStop h1 _ h2 ih =>
    intro hu d hd
    obtain ⟨o', k1, k2⟩ := ih (fun k => hu (.reps k)) d hd
    cases o' with
    | none => exact ⟨_, .repsStop h1 k1 h2, hd⟩
    | some => exact k2.elim

end

/-! ## What the built-ins depend on -/

theorem leafSpec_place {l : Leaf} {c d : Cfg} (h : l = .soi → (c.pre = [] ↔ d.pre = [])) (hs : c.suf = d.suf) (hk : c.stk = d.stk) : leafSpec l c = leafSpec l d := by
  cases l <;> simp only [leafSpec, hs, hk]
  simp only [h rfl]

theorem leafSpec_stack {l : Leaf} {c d : Cfg} (h : ¬ onStack (some l)) (hp : c.pre = d.pre) (hs : c.suf = d.suf) :
    leafSpec l d = (leafSpec l c).map fun x => (x.1, d.stk) := by
  cases l <;> first | exact (h trivial).elim | (simp only [leafSpec, hs, hp, Option.map_map]; first | rfl | skip)
  all_goals (repeat' split) <;> first | rfl | contradiction | simp_all

theorem leafSpec_keeps {l : Leaf} {c : Cfg} {m : Text} {stk : List Text} (h : ¬ onStack (some l)) (hl : leafSpec l c = some (m, stk)) : stk = c.stk := by
  have := leafSpec_stack (d := c) h rfl rfl
  rw [hl] at this
  simp only [Option.map_some, Option.some.injEq, Prod.mk.injEq, true_and] at this
  exact this

theorem stackError_quiet {l : Leaf} (h : ¬ onStack (some l)) (n : Nat) : stackError l n = none := by
  cases l <;> first | exact (h trivial).elim | rfl

/-- Places in two texts with the same text ahead, after `P` and after `Q`. -/
def Shifted (P Q : Text) (c d : Cfg) : Prop := ∃ x, c.pre = P ++ x ∧ d.pre = Q ++ x ∧ c.suf = d.suf ∧ c.stk = d.stk

theorem blind_place (P Q : Text) : Blind (fun l => isSoi l ∧ ¬ (P = [] ↔ Q = [])) (fun n => n - utf8Len P + utf8Len Q) (Shifted P Q) where
  suf := fun ⟨_, _, _, h, _⟩ => h
  place := by
    rintro c d ⟨x, h1, h2, -⟩
    simp only [h1, h2, utf8Len_append]
    omega
  ok := by
    rintro c d l m stk rest ⟨x, h1, h2, h3, h4⟩ hk hl hc
    refine ⟨stk, ?_, x ++ m, by simp [h1], by simp [h2], rfl, rfl⟩
    rw [← leafSpec_place _ h3 h4]
    · exact hl
    · rintro rfl
      have : (P = [] ↔ Q = []) := Classical.not_not.mp fun k => hk ⟨trivial, k⟩
      simp only [h1, h2, List.append_eq_nil_iff, this]
  fail := by
    rintro c d l ⟨x, h1, h2, h3, h4⟩ hk hl
    constructor
    · rw [← leafSpec_place _ h3 h4]
      · exact hl
      · rintro rfl
        have : (P = [] ↔ Q = []) := Classical.not_not.mp fun k => hk ⟨trivial, k⟩
        simp only [h1, h2, List.append_eq_nil_iff, this]
    · unfold leafEvents
      rw [h4]
      have e : utf8Len d.pre = utf8Len c.pre - utf8Len P + utf8Len Q := by simp only [h1, h2, utf8Len_append]; omega
      cases stackError l d.stk.length with
      | none => rfl
      | some => simp only [moveEvs, moveEv, e]
  push := by
    rintro pre pre' rest stk stk' m - ⟨x, h1, h2, -, h4⟩
    simp only at h4
    exact ⟨x, h1, h2, rfl, by simp [h4]⟩

/-- The same place with different stacks. -/
def Stacked (k k' : List Text) (c d : Cfg) : Prop := c.pre = d.pre ∧ c.suf = d.suf ∧ c.stk = k ∧ d.stk = k'

theorem blind_stack (k k' : List Text) : Blind onStack id (Stacked k k') where
  suf := fun ⟨_, h, _⟩ => h
  place := fun ⟨h, _⟩ => by rw [h]; rfl
  ok := by
    rintro c d l m stk rest ⟨h1, h2, h3, h4⟩ hk hl hc
    refine ⟨k', ?_, by simp [h1], rfl, (leafSpec_keeps hk hl).trans h3, rfl⟩
    rw [leafSpec_stack hk h1 h2, hl, h4]
    rfl
  fail := by
    rintro c d l ⟨h1, h2, h3, h4⟩ hk hl
    refine ⟨by rw [leafSpec_stack hk h1 h2, hl]; rfl, ?_⟩
    simp only [leafEvents, stackError_quiet hk]
    rfl
  push := fun h => (h trivial).elim

/-! ## Every token is a match of its rule -/

theorem within_append {x : Pair RuleVal} {F G : List (Pair RuleVal)} (h : TokenIn x (F ++ G)) : TokenIn x F ∨ TokenIn x G := by
  cases h with
  | here h => exact (List.mem_append.mp h).elim (fun h => .inl (.here h)) fun h => .inr (.here h)
  | inside h k => exact (List.mem_append.mp h).elim (fun h => .inl (.inside h k)) fun h => .inr (.inside h k)

theorem not_within_nil {x : Pair RuleVal} (h : TokenIn x []) : False := by
  cases h with
  | here h => cases h
  | inside h => cases h

theorem Meaning.whole {u : Unicode} {root : Module} {it : SItem} {c c' : Cfg} (h : Meaning u root it c (some c')) : c'.pre ++ c'.suf = c.pre ++ c.suf := by
  obtain ⟨m, h1, h2⟩ := h.taken
  rw [h1, h2, List.append_assoc]

theorem tokenIn_tokens {u : Unicode} {root : Module} {p : List Name} {m : Module} {r : Rule} {ρ : List (Name × Clo)} {c c' : Cfg} {F : List (Pair RuleVal)} {x : Pair RuleVal}
    (hm : modAt root p = some m) (hf : findRule m.rules r.name = some r) (ho : r.name ≠ optName) (hman : r.name ≠ manName) (hρ : ρ.map Prod.fst = r.args)
    (h : Shows u root (.expr (.mk p ρ r.node)) c c' F) (ih : TokenIn x F → OfMatch u root (c.pre ++ c.suf) x) (hx : TokenIn x (tokens p r c c' F)) : OfMatch u root (c.pre ++ c.suf) x := by
  unfold tokens at hx
  cases hs : r.silent with
  | true => rw [hs] at hx; exact (not_within_nil hx).elim
  | false =>
    rw [hs] at hx
    cases hx with
    | here hx =>
      cases List.mem_singleton.mp hx
      exact ⟨p, m, r, ρ, c, c', hm, hf, ho, hman, hs, hρ, h, rfl, rfl, rfl, rfl⟩
    | inside hx k =>
      cases List.mem_singleton.mp hx
      exact ih k

theorem map_fst_zip {β : Type} : ∀ (l : List Name) (l' : List β), l.length = l'.length → (l.zip l').map Prod.fst = l
  | [], _, _ => rfl
  | a :: l, [], h => by cases h
  | a :: l, b :: l', h => by simp only [List.zip_cons_cons, List.map_cons, map_fst_zip l l' (by simpa using h)]

theorem Shows.within {u : Unicode} {root : Module} {it : SItem} {c c' : Cfg} {F : List (Pair RuleVal)} (h : Shows u root it c c' F) (x : Pair RuleVal) :
    TokenIn x F → OfMatch u root (c.pre ++ c.suf) x := by
  induction h with
  | literal => exact fun h => (not_within_nil h).elim
  | builtin => exact fun h => (not_within_nil h).elim
  | slice => exact fun h => (not_within_nil h).elim
  | pos => exact fun h => (not_within_nil h).elim
  | neg => exact fun h => (not_within_nil h).elim
  | optNone => exact fun h => (not_within_nil h).elim
  | repsMax => exact fun h => (not_within_nil h).elim
  | repsStop => exact fun h => (not_within_nil h).elim
  | push _ _ _ ih => exact ih
  | param _ _ ih => exact ih
  | rule h1 h2 h3 h4 ih =>
    obtain ⟨m, k1, k2, k3, k4⟩ := target_rule h2
    exact tokenIn_tokens k1 k2 k3 k4 (by simp [h3]) h4 ih
  | call h1 h2 h3 h4 ih =>
    obtain ⟨m, k1, k2, k3, k4⟩ := target_rule h2
    exact tokenIn_tokens k1 k2 k3 k4 (map_fst_zip _ _ (by simpa using h3)) h4 ih
  | seq h1 h2 _ ih1 ih2 =>
    intro h
    rcases within_append h with h | h
    · exact ih1 h
    · rw [← h1.meaning.whole, ← h2.whole]
      exact ih2 h
  | choiceL _ ih => exact ih
  | choiceR _ _ ih => exact ih
  | optSome _ ih => exact ih
  | rep _ _ ih => exact ih
  | separated _ ih => exact ih
  | unitFirst _ ih => exact ih
  | unitNext h1 _ ih =>
    rw [← h1.whole]
    exact ih
  | repsMore _ h1 _ ih1 ih2 =>
    intro h
    rcases within_append h with h | h
    · exact ih1 h
    · rw [← h1.meaning.whole]
      exact ih2 h

theorem ruleAt_inj : ∀ {p p' : List Name} {x x' : Name}, ruleAt p x = ruleAt p' x' → p = p' ∧ x = x'
  | [], [], _, _, h => by cases h; exact ⟨rfl, rfl⟩
  | [], _ :: _, _, _, h => by cases h
  | _ :: _, [], _, _, h => by cases h
  | m :: p, m' :: p', _, _, h => by
    simp only [ruleAt, RuleVal.sub.injEq] at h
    obtain ⟨rfl, rfl⟩ := ruleAt_inj h.2
    exact ⟨by rw [h.1], rfl⟩

/-- Kinds of built-ins that are used can be widened. -/
theorem Uses.mono {u : Unicode} {root : Module} {K L : Option Leaf → Prop} (hK : ∀ l, K l → L l) {it : SItem} (h : Uses u root K it) : Uses u root L it := by
  induction h with
  | literal h1 h2 => exact .literal h1 (hK _ h2)
  | builtin h1 h2 h3 h4 h5 => exact .builtin h1 h2 h3 h4 (hK _ h5)
  | slice h1 h2 => exact .slice h1 (hK _ h2)
  | push h1 h2 h3 => exact .push h1 h2 (hK _ h3)
  | pushed h1 h2 _ ih => exact .pushed h1 h2 ih
  | param h1 _ ih => exact .param h1 ih
  | rule h1 h2 _ ih => exact .rule h1 h2 ih
  | call h1 h2 h3 _ ih => exact .call h1 h2 h3 ih
  | pos _ ih => exact .pos ih
  | neg _ ih => exact .neg ih
  | seqL _ ih => exact .seqL ih
  | seqTrivia _ ih => exact .seqTrivia ih
  | seqR _ ih => exact .seqR ih
  | choiceL _ ih => exact .choiceL ih
  | choiceR _ ih => exact .choiceR ih
  | opt _ ih => exact .opt ih
  | rep h1 _ ih => exact .rep h1 ih
  | separated _ ih => exact .separated ih
  | triviaRule h1 h2 _ ih => exact .triviaRule h1 h2 ih
  | unit _ ih => exact .unit ih
  | unitTrivia _ ih => exact .unitTrivia ih
  | reps _ ih => exact .reps ih

/-- Nothing in the expression or in what its parameters stand for mentions a kind of built-in. -/
inductive CleanClo (u : Unicode) (root : Module) (K : Option Leaf → Prop) : Clo → Prop
  | mk {p ρ e} : ¬ WritesDown u root K p e → (∀ x a, (x, a) ∈ ρ → CleanClo u root K a) → CleanClo u root K (.mk p ρ e)

theorem WritesDown.sub {u : Unicode} {root : Module} {K : Option Leaf → Prop} {p : List Name} {e e' : Expr} (h : WritesDown u root K p e') (hs : Sub e' e) : WritesDown u root K p e := by
  cases h with
  | literal h1 h2 h3 => exact .literal (h1.trans hs) h2 h3
  | builtin h1 h2 h3 h4 h5 => exact .builtin (h1.trans hs) h2 h3 h4 h5
  | slice h1 h2 h3 => exact .slice (h1.trans hs) h2 h3
  | push h1 h2 h3 => exact .push (h1.trans hs) h2 h3

theorem CleanClo.sub {u : Unicode} {root : Module} {K : Option Leaf → Prop} {p : List Name} {ρ : List (Name × Clo)} {e e' : Expr} (h : CleanClo u root K (.mk p ρ e)) (hs : Sub e' e) : CleanClo u root K (.mk p ρ e') := by
  cases h with
  | mk h1 h2 => exact .mk (fun k => h1 (k.sub hs)) h2

def CleanItem (u : Unicode) (root : Module) (K : Option Leaf → Prop) : SItem → Prop
  | .expr a => CleanClo u root K a
  | .trivia _ _ => True
  | .unit a _ _ _ => CleanClo u root K a
  | .reps a _ _ _ _ _ => CleanClo u root K a

theorem unused_of {u : Unicode} {root : Module} {K : Option Leaf → Prop} (hall : ∀ p m r, modAt root p = some m → r ∈ m.rules → ¬ WritesDown u root K p r.node) {it : SItem}
    (h : Uses u root K it) : ¬ CleanItem u root K it := by
  induction h with
  | literal h1 h2 => rintro ⟨h, -⟩; exact h (.literal .refl h1 h2)
  | builtin h1 h2 h3 h4 h5 => rintro ⟨h, -⟩; exact h (.builtin .refl h1 h3 h4 h5)
  | slice h1 h2 => rintro ⟨h, -⟩; exact h (.slice .refl h1 h2)
  | push h1 h2 h3 => rintro ⟨h, -⟩; exact h (.push .refl h2 h3)
  | pushed h1 h2 _ ih => exact fun h => ih (CleanClo.sub h (.arg List.mem_cons_self .refl))
  | param h1 _ ih => rintro ⟨-, h⟩; exact ih (h _ _ (lookupClo_mem h1))
  | rule h1 h2 _ ih =>
    obtain ⟨m, k1, k2, -⟩ := target_rule h2
    exact fun _ => ih (.mk (hall _ m _ k1 (findRule_mem k2).1) (fun _ _ h => by cases h))
  | call h1 h2 h3 _ ih =>
    obtain ⟨m, k1, k2, -⟩ := target_rule h2
    refine fun h => ih (.mk (hall _ m _ k1 (findRule_mem k2).1) (fun x a hx => ?_))
    obtain ⟨b, hb, rfl⟩ := List.mem_map.mp (List.of_mem_zip hx).2
    exact CleanClo.sub h (.arg hb .refl)
  | pos _ ih => exact fun h => ih (CleanClo.sub h (.pos .refl))
  | neg _ ih => exact fun h => ih (CleanClo.sub h (.neg .refl))
  | seqL _ ih => exact fun h => ih (CleanClo.sub h (.seqL .refl))
  | seqTrivia _ ih => exact fun _ => ih trivial
  | seqR _ ih => exact fun h => ih (CleanClo.sub h (.seqR .refl))
  | choiceL _ ih => exact fun h => ih (CleanClo.sub h (.choiceL .refl))
  | choiceR _ ih => exact fun h => ih (CleanClo.sub h (.choiceR .refl))
  | opt _ ih => exact fun h => ih (CleanClo.sub h (.opt .refl))
  | @rep p ρ e e' min max h1 _ ih =>
    refine fun h => ih (CleanClo.sub h ?_)
    cases e <;> cases h1
    · exact .rep .refl
    · exact .repOnce .refl
    · exact .repRange .refl
  | separated _ ih => exact fun h => ih (CleanClo.sub h (.separated .refl))
  | @triviaRule p m t r h1 h2 _ ih =>
    refine fun _ => ih (.mk (hall _ _ _ h1 ?_) (fun _ _ h => by cases h))
    cases t <;> first | (cases h2; done) | exact (findRule_mem h2).1
  | unit _ ih => exact ih
  | unitTrivia _ ih => exact fun _ => ih trivial
  | reps _ ih => exact ih

theorem unused_of_false {u : Unicode} {root : Module} {it : SItem} (h : Uses u root (fun _ => False) it) : False := by
  induction h <;> assumption

mutual
theorem movePair_id : ∀ x, movePair id x = x
  | .mk v s e l => by simp only [movePair, id, movePairs_id l]
theorem movePairs_id : ∀ l, movePairs id l = l
  | [] => rfl
  | x :: l => by simp only [movePairs, movePair_id x, movePairs_id l]
end

mutual
theorem moveEv_id : ∀ x, moveEv id x = x
  | .rule r pos flag ok l => by simp only [moveEv, id, moveEvs_id l]
  | .special pos e => rfl
theorem moveEvs_id : ∀ l, moveEvs id l = l
  | [] => rfl
  | x :: l => by simp only [moveEvs, moveEv_id x, moveEvs_id l]
end

end Pest3.Gen
