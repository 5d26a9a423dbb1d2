import Verif.LeafParse
import Verif.Fuel

/-!
# The tree returned by `try_parse_with_partial` is the tree of the specification
-/

namespace Pest3

theorem pegAlts_hit {env : Env} {a : Node} {c c' : Cfg} (post : List Node)
    (h : Peg env (.node a) c (some c')) : ∀ pre : List Node, (∀ b ∈ pre, Peg env (.node b) c none) →
    Peg env (.alts (pre ++ a :: post)) c (some c')
  | [], _ => .altsHit h
  | b :: pre, hpre => .altsMiss (hpre b (by simp)) (pegAlts_hit post h pre fun x hx => hpre x (by simp [hx]))

theorem pegAlts_none {env : Env} {c : Cfg} : ∀ pre : List Node, (∀ b ∈ pre, Peg env (.node b) c none) →
    Peg env (.alts pre) c none
  | [], _ => .altsNil
  | b :: pre, hpre => .altsMiss (hpre b (by simp)) (pegAlts_none pre fun x hx => hpre x (by simp [hx]))

/-- A match with a tree is a match. -/
theorem Builds.peg {env : Env} {inp : Str} {item : Item} {c c' : Cfg} {ss ss' : List Span} {ts : List Tree}
    (h : Builds env inp item c ss c' ss' ts) : Peg env item c (some c') := by
  induction h with
  | leaf h1 h2 _ => exact .leafOk h1 h2
  | positive _ ih => exact .positiveOk ih
  | negative h => exact .negativeOk h
  | push _ ih => exact .pushOk ih
  | optSome _ ih => exact .optSome ih
  | optNone h => exact .optNone h
  | rep _ ih => exact .rep ih
  | seq _ ih => exact .seq ih
  | @choice pre a post c ss c' ss' t hpre _ ih =>
    exact .choice (pegAlts_hit post ih pre hpre)
  | rule _ ih => exact .rule ih
  | fieldsNil => exact .fieldsNil
  | fieldsFirst _ _ ih1 ih2 => exact .fieldsFirst ih1 ih2
  | fieldsNext _ _ _ ih1 ih2 ih3 => exact .fieldsNext ih1 ih2 ih3
  | unitFirst _ ih => exact .unitFirst ih
  | unitNext _ _ ih1 ih2 => exact .unitNext ih1 ih2
  | repsMax h => exact .repsMax h
  | repsMore h _ _ ih1 ih2 => exact .repsMore h ih1 ih2
  | repsStop h1 h2 h3 => exact .repsStop h1 h2 h3

/-- What is known about a parse and the check it erases to. -/
inductive Run {S T W α : Type} (so : StackOps S) (saved : S → List (List Span)) (env : Env) (inp : Str)
    (G : W → St S T → Prop) (trees : α → List Tree) (item : Item) (w : W) (p : Position) (sv : List (List Span))
    (c : Cfg) (ss : List Span) : Out S T (Position × α) → Out S T Position → Prop
  | oof : Run so saved env inp G trees item w p sv c ss .oof .oof
  | fail {s} : G w s → saved s.stk = sv → Peg env item c none →
      Run so saved env inp G trees item w p sv c ss (.ok (none, s)) (.ok (none, s))
  | ok {q a s c'} : G w s → Good inp q → p.pos ≤ q.pos → saved s.stk = sv →
      Builds env inp item c ss c' (so.elems s.stk) (trees a) → Corr so q s c' →
      Run so saved env inp G trees item w p sv c ss (.ok (some (q, a), s)) (.ok (some q, s))

section
variable {S T W : Type} {so : StackOps S} {tk : TrackerOps T} {saved : S → List (List Span)}
  {env : Env} {inp : Str} {G : W → St S T → Prop} {recP : ParseFn S T} {recC : CheckFn S T}
  (hl : Lawful so saved) (hc : Closed so tk inp G)
  (hP : ∀ n w p s c, Good inp p → G w s → Corr so p s c →
    Run so saved env inp G (fun t => [t]) (.node n) w p (saved s.stk) c (so.elems s.stk) (recP n p s) (recC n p s))
include hP

include hl hc in
theorem parseAlts_run : ∀ (l : List Node) (pre : List Node) (w : W) (p : Position) (s : St S T) (c : Cfg),
    Good inp p → G w s → Corr so p s c → (∀ b ∈ pre, Peg env (.node b) c none) →
    Run so saved env inp G (fun t => [t]) (.node (.choice (pre ++ l))) w p (saved s.stk) c (so.elems s.stk)
      (parseAlts so recP p pre.length l s) (checkAlts so recC p l s)
  | [], pre, w, p, s, c, hp, hg, hco, hpre => by
    refine .fail hg rfl (.choice ?_)
    simp only [List.append_nil]
    exact pegAlts_none pre hpre
  | a :: l, pre, w, p, s, c, hp, hg, hco, hpre => by
    obtain ⟨w', h1, hcl, hre⟩ := hc.snapshot w s hg
    simp only [parseAlts, checkAlts]
    have := hP a w' p _ c hp h1 (hco.snapshot hl)
    revert this
    generalize recP a p (s.snapshot so) = x
    generalize recC a p (s.snapshot so) = y
    intro this
    cases this with
    | oof => exact .oof
    | fail h1 h2 h3 =>
      have := parseAlts_run l (pre ++ [a]) w p _ c hp (hre _ h1) (hco.of_elems (restore_elems hl h2)) (by
        intro b hb
        rcases List.mem_append.1 hb with hb | hb
        · exact hpre b hb
        · rw [List.mem_singleton] at hb; subst hb; exact h3)
      simp only [List.append_assoc, List.singleton_append, List.length_append, List.length_singleton] at this
      rw [restore_elems hl h2, restore_saved hl h2] at this
      exact this
    | ok h1 h2 h3 h4 h5 h6 =>
      refine .ok (hcl _ h1) h2 h3 (clear_saved hl h4) (.choice hpre ?_) (h6.clear hl)
      simp only [St.snapshot, hl.elems_snapshot] at h5
      simp only [St.clear, hl.elems_clear]
      exact h5

theorem parseFields_run : ∀ (l : List (Node × Node)) (first : Bool) (w : W) (p : Position) (s : St S T) (c : Cfg),
    Good inp p → G w s → Corr so p s c →
    Run so saved env inp G id (.fields first l) w p (saved s.stk) c (so.elems s.stk)
      (parseFields recP recC first p l s) (checkFields recC first p l s)
  | [], _, _, _, _, _, hp, hg, hco => .ok hg hp (Nat.le_refl _) rfl .fieldsNil hco
  | (tr, n) :: l, true, w, p, s, c, hp, hg, hco => by
    simp only [parseFields, checkFields, if_true, Out.andThen_some]
    have := hP n w p s c hp hg hco
    revert this
    generalize recP n p s = x
    generalize recC n p s = y
    intro this
    cases this with
    | oof => exact .oof
    | fail h1 h2 h3 => exact .fail h1 h2 (.fieldsFirstFail h3)
    | @ok q t s2 c2 g1 g2 g3 g4 g5 g6 =>
      simp only [Out.andThen_some]
      have := parseFields_run l false w q s2 c2 g2 g1 g6
      revert this
      generalize parseFields recP recC false q l s2 = x
      generalize checkFields recC false q l s2 = y
      intro this
      cases this with
      | oof => exact .oof
      | fail h1 h2 h3 => exact .fail h1 (h2.trans g4) (.fieldsFirst g5.peg h3)
      | ok k1 k2 k3 k4 k5 k6 =>
        exact .ok k1 k2 (Nat.le_trans g3 k3) (k4.trans g4) (.fieldsFirst g5 k5) k6
  | (tr, n) :: l, false, w, p, s, c, hp, hg, hco => by
    simp only [parseFields, checkFields, Bool.false_eq_true, if_false]
    have := hP tr w p s c hp hg hco
    revert this
    generalize recP tr p s = x
    generalize recC tr p s = y
    intro this
    cases this with
    | oof => exact .oof
    | fail h1 h2 h3 => exact .fail h1 h2 (.fieldsTriviaFail h3)
    | @ok q1 t1 s1 c1 f1 f2 f3 f4 f5 f6 =>
      simp only [Out.andThen_some]
      have := hP n w q1 s1 c1 f2 f1 f6
      revert this
      generalize recP n q1 s1 = x
      generalize recC n q1 s1 = y
      intro this
      cases this with
      | oof => exact .oof
      | fail h1 h2 h3 => exact .fail h1 (h2.trans f4) (.fieldsNextFail f5.peg h3)
      | @ok q t s2 c2 g1 g2 g3 g4 g5 g6 =>
        simp only [Out.andThen_some]
        have := parseFields_run l false w q s2 c2 g2 g1 g6
        revert this
        generalize parseFields recP recC false q l s2 = x
        generalize checkFields recC false q l s2 = y
        intro this
        cases this with
        | oof => exact .oof
        | fail h1 h2 h3 => exact .fail h1 (h2.trans (g4.trans f4)) (.fieldsNext f5.peg g5.peg h3)
        | ok k1 k2 k3 k4 k5 k6 =>
          exact .ok k1 k2 (Nat.le_trans f3 (Nat.le_trans g3 k3)) (k4.trans (g4.trans f4))
            (.fieldsNext f5 g5 k5) k6

theorem parseUnit_run (n tr : Node) (i : Nat) (w : W) (p : Position) (s : St S T) (c : Cfg)
    (hp : Good inp p) (hg : G w s) (hco : Corr so p s c) :
    Run so saved env inp G (fun t => [t]) (.unit n tr i) w p (saved s.stk) c (so.elems s.stk)
      (parseUnit recP recC n tr i p s) (checkUnit recC n tr i p s) := by
  cases i with
  | zero =>
    simp only [parseUnit, checkUnit, gt_iff_lt, Nat.lt_irrefl, if_false, Out.andThen_some]
    have := hP n w p s c hp hg hco
    revert this
    generalize recP n p s = x
    generalize recC n p s = y
    intro this
    cases this with
    | oof => exact .oof
    | fail h1 h2 h3 => exact .fail h1 h2 (.unitFirst h3)
    | ok g1 g2 g3 g4 g5 g6 => exact .ok g1 g2 g3 g4 (.unitFirst g5) g6
  | succ i =>
    simp only [parseUnit, checkUnit, gt_iff_lt, Nat.zero_lt_succ, if_true]
    have := hP tr w p s c hp hg hco
    revert this
    generalize recP tr p s = x
    generalize recC tr p s = y
    intro this
    cases this with
    | oof => exact .oof
    | fail h1 h2 h3 => exact .fail h1 h2 (.unitTriviaFail h3)
    | @ok q1 t1 s1 c1 f1 f2 f3 f4 f5 f6 =>
      simp only [Out.andThen_some]
      have := hP n w q1 s1 c1 f2 f1 f6
      revert this
      generalize recP n q1 s1 = x
      generalize recC n q1 s1 = y
      intro this
      cases this with
      | oof => exact .oof
      | fail h1 h2 h3 => exact .fail h1 (h2.trans f4) (.unitNext f5.peg h3)
      | ok g1 g2 g3 g4 g5 g6 =>
        exact .ok g1 g2 (Nat.le_trans f3 g3) (g4.trans f4) (.unitNext f5 g5) g6

include hl hc in
theorem parseRep_run (n tr : Node) (min max : Nat) : ∀ (k i : Nat) (w : W) (p : Position) (s : St S T) (c : Cfg),
    k = max - i → Good inp p → G w s → Corr so p s c →
    Run so saved env inp G id (.reps n tr min max i) w p (saved s.stk) c (so.elems s.stk)
      (parseRep so recP recC n tr min k i p s) (checkRep so recC n tr min k i p s)
  | 0, _, _, _, _, _, hk, hp, hg, hco => .ok hg hp (Nat.le_refl _) rfl (.repsMax (by omega)) hco
  | k + 1, i, w, p, s, c, hk, hp, hg, hco => by
    simp only [parseRep, checkRep, restoreOnNone]
    obtain ⟨w', h1, hcl, hre⟩ := hc.snapshot w s hg
    have hlt : i < max := by omega
    have := parseUnit_run hP n tr i w' p _ c hp h1 (hco.snapshot hl)
    revert this
    generalize parseUnit recP recC n tr i p (s.snapshot so) = x
    generalize checkUnit recC n tr i p (s.snapshot so) = y
    intro this
    cases this with
    | oof => exact .oof
    | fail h1 h2 h3 =>
      simp only [Out.bind_ok]
      split
      · next hi => exact .fail (hre _ h1) (restore_saved hl h2) (.repsFew hlt h3 hi)
      · next hi =>
        refine .ok (hre _ h1) hp (Nat.le_refl _) (restore_saved hl h2) ?_ (hco.of_elems (restore_elems hl h2))
        rw [restore_elems hl h2]
        exact .repsStop hlt h3 (by omega)
    | @ok q t s2 c2 g1 g2 g3 g4 g5 g6 =>
      simp only [Out.bind_ok]
      simp only [St.snapshot, hl.elems_snapshot] at g5
      have := parseRep_run n tr min max k (i + 1) w q (s2.clear so) c2 (by omega) g2 (hcl _ g1) (g6.clear hl)
      revert this
      generalize parseRep so recP recC n tr min k (i + 1) q (s2.clear so) = x
      generalize checkRep so recC n tr min k (i + 1) q (s2.clear so) = y
      intro this
      simp only [St.clear, hl.elems_clear] at this
      cases this with
      | oof => exact .oof
      | fail h1 h2 h3 => exact .fail h1 (h2.trans (clear_saved hl g4)) (.repsMore hlt g5.peg h3)
      | ok k1 k2 k3 k4 k5 k6 =>
        exact .ok k1 k2 (Nat.le_trans g3 k3) (k4.trans (clear_saved hl g4)) (.repsMore hlt g5 k5) k6

include hl hc in
theorem parseStep_run (n : Node) (w : W) (p : Position) (s : St S T) (c : Cfg)
    (hp : Good inp p) (hg : G w s) (hco : Corr so p s c)
    (hf : Facts inp id G w p (checkStep so tk recC env n p s)) :
    Run so saved env inp G (fun t => [t]) (.node n) w p (saved s.stk) c (so.elems s.stk)
      (parseStep so tk recP recC env n p s) (checkStep so tk recC env n p s) := by
  cases n with
  | leaf l =>
    simp only [parseStep, checkStep] at hf ⊢
    have he := leafParse_erase hl (tk := tk) hp.1 (hc.valid w s hg) l
    have heq := leafCheck_eq hl tk hco.at_ hco.texts l
    cases hls : leafSpec l c with
    | none =>
      have : ∃ t, leafCheck so tk l p s = .ok (none, ⟨leafStk so l false s.stk, t⟩) := by
        rw [heq] at hf ⊢
        cases hsp : leafSpecial l c.stk.length with
        | none => simp only [hls]; exact ⟨_, rfl⟩
        | some e =>
          rw [hsp] at hf
          simp only at hf ⊢
          cases hsp' : tk.special p e s.trk with
          | none => rw [hsp'] at hf; cases hf
          | some t => exact ⟨t, rfl⟩
      obtain ⟨t, ht⟩ := this
      have hpar : leafParse so tk l p s = .ok (none, ⟨leafStk so l false s.stk, t⟩) := by
        rw [ht] at he
        revert he
        rcases leafParse so tk l p s with ⟨_ | _, _⟩ | _ | _ <;> simp [Out.erase]
      rw [ht] at hf
      rw [ht, hpar]
      cases hf with
      | fail hg' => exact .fail hg' (leafStk_saved hl _ _ _) (.leafFail hls)
    | some m =>
      obtain ⟨m, stk'⟩ := m
      obtain ⟨v, hv, hpar⟩ := leafParse_eq hl tk hco.at_ hco.texts hls
      have ht : leafCheck so tk l p s = .ok (some (p.after m), ⟨leafStk so l true s.stk, s.trk⟩) := by
        rw [← he, hpar]; rfl
      rw [ht] at hf
      rw [ht, hpar]
      obtain ⟨rest, hrest⟩ := leafSpec_prefix hls
      cases hf with
      | ok g1 g2 g3 =>
        simp only [Out.andThen_some]
        refine .ok (c' := ⟨c.pre ++ m, rest, stk'⟩) g1 g2 g3 (leafStk_saved hl _ _ _) ?_ ?_
        · simp only
          rw [leafStk_elems hl, ← leafSpans_eq]
          rw [hp.2] at hv
          exact .leaf hls hrest hv
        · have hp' : p.At c.pre (m ++ rest) := by rw [← hrest]; exact hco.at_
          refine ⟨hp'.advance, ?_⟩
          simp only
          rw [leafStk_elems hl, leafSpec_stk hls]
          exact hco.texts.leafElems l true
  | positive n =>
    obtain ⟨w', h1, hback⟩ := hc.during w true s hg
    obtain ⟨w'', h2, _, hre⟩ := hc.snapshot w' _ h1
    simp only [parseStep, checkStep]
    have := hP n w'' p _ c hp h2 (hco.setPositive.snapshot hl)
    revert this
    generalize recP n p ((s.setPositive tk true).snapshot so) = x
    generalize recC n p ((s.setPositive tk true).snapshot so) = y
    intro this
    cases this with
    | oof => exact .oof
    | fail k1 k2 k3 =>
      exact .fail (hback _ (hre _ k1)) (restore_saved hl k2) (.positiveFail k3)
    | ok k1 k2 k3 k4 k5 k6 =>
      refine .ok (hback _ (hre _ k1)) hp (Nat.le_refl _) (restore_saved hl k4) ?_
        (hco.of_elems (restore_elems hl k4))
      have e : so.elems (St.setPositive tk (tk.positive s.trk) (St.restore so _)).stk = so.elems s.stk :=
        restore_elems hl k4
      rw [e]
      simp only [St.snapshot, hl.elems_snapshot] at k5
      exact .positive k5
  | negative n =>
    obtain ⟨w', h1, hback⟩ := hc.during w false s hg
    obtain ⟨w'', h2, _, hre⟩ := hc.snapshot w' _ h1
    simp only [parseStep, checkStep]
    have := hP n w'' p _ c hp h2 (hco.setPositive.snapshot hl)
    revert this
    generalize recP n p ((s.setPositive tk false).snapshot so) = x
    generalize recC n p ((s.setPositive tk false).snapshot so) = y
    intro this
    cases this with
    | oof => exact .oof
    | fail k1 k2 k3 =>
      refine .ok (hback _ (hre _ k1)) hp (Nat.le_refl _) (restore_saved hl k2) ?_
        (hco.of_elems (restore_elems hl k2))
      have e : so.elems (St.setPositive tk (tk.positive s.trk) (St.restore so _)).stk = so.elems s.stk :=
        restore_elems hl k2
      rw [e]
      exact .negative k3
    | ok k1 k2 k3 k4 k5 k6 =>
      exact .fail (hback _ (hre _ k1)) (restore_saved hl k4) (.negativeFail k5.peg)
  | push n =>
    simp only [parseStep, checkStep]
    have := hP n w p _ c hp hg hco
    revert this
    generalize recP n p s = x
    generalize recC n p s = y
    intro this
    cases this with
    | oof => exact .oof
    | fail k1 k2 k3 => exact .fail k1 k2 (.pushFail k3)
    | @ok q t s2 c2 k1 k2 k3 k4 k5 k6 =>
      obtain ⟨sp, e, hg'⟩ := hc.push w p q s2 hp k2 k1 k3
      obtain ⟨m, hm1, hm2⟩ := k5.peg.consumes _ rfl
      obtain ⟨pre', suf', stk'⟩ := c2
      simp only at hm1 hm2
      subst hm1
      obtain ⟨hs, hc'⟩ := Corr.push hl hco.at_ hm2 k6 (k2.2.trans hp.2.symm)
      rw [e] at hs
      cases hs
      simp only [Out.andThen_some, e, Out.lift_some]
      refine .ok hg' k2 k3 ((hl.saved_push _ _).trans k4) ?_ hc'
      simp only [St.push, hl.elems_push]
      rw [hp.2]
      exact .push k5
  | opt n =>
    obtain ⟨w', h1, hcl, hre⟩ := hc.snapshot w s hg
    simp only [parseStep, checkStep]
    have := hP n w' p _ c hp h1 (hco.snapshot hl)
    revert this
    generalize recP n p (s.snapshot so) = x
    generalize recC n p (s.snapshot so) = y
    intro this
    cases this with
    | oof => exact .oof
    | fail k1 k2 k3 =>
      refine .ok (hre _ k1) hp (Nat.le_refl _) (restore_saved hl k2) ?_ (hco.of_elems (restore_elems hl k2))
      rw [restore_elems hl k2]
      exact .optNone k3
    | ok k1 k2 k3 k4 k5 k6 =>
      refine .ok (hcl _ k1) k2 k3 (clear_saved hl k4) ?_ (k6.clear hl)
      simp only [St.snapshot, hl.elems_snapshot] at k5
      simp only [St.clear, hl.elems_clear]
      exact .optSome k5
  | rep n tr min max =>
    simp only [parseStep, checkStep]
    have := parseRep_run hl hc hP n tr min max max 0 w p s c rfl hp hg hco
    revert this
    generalize parseRep so recP recC n tr min max 0 p s = x
    generalize checkRep so recC n tr min max 0 p s = y
    intro this
    cases this with
    | oof => exact .oof
    | fail k1 k2 k3 => exact .fail k1 k2 (.rep k3)
    | ok k1 k2 k3 k4 k5 k6 => exact .ok k1 k2 k3 k4 (.rep k5) k6
  | seq fs =>
    simp only [parseStep, checkStep]
    have := parseFields_run hP fs true w p s c hp hg hco
    revert this
    generalize parseFields recP recC true p fs s = x
    generalize checkFields recC true p fs s = y
    intro this
    cases this with
    | oof => exact .oof
    | fail k1 k2 k3 => exact .fail k1 k2 (.seq k3)
    | ok k1 k2 k3 k4 k5 k6 => exact .ok k1 k2 k3 k4 (.seq k5) k6
  | choice l => exact parseAlts_run hl hc hP l [] w p s c hp hg hco (by rintro b ⟨⟩)
  | rule id =>
    obtain ⟨w', h1, hlv⟩ := hc.rule w (env id).label p s hp hg
    simp only [parseStep, checkStep]
    have := hP (env id).body w' p (s.enter tk (env id).label p) c hp h1 ⟨hco.at_, hco.texts⟩
    revert this
    generalize recP (env id).body p (s.enter tk (env id).label p) = x
    generalize recC (env id).body p (s.enter tk (env id).label p) = y
    intro this
    cases this with
    | oof => exact .oof
    | @fail s2 k1 k2 k3 =>
      obtain ⟨s3, e, h3⟩ := hlv false s2 k1
      simp only [Out.andThen_none, Out.bind_ok, Option.isSome_none, e, Out.lift_some]
      have e' : s3.stk = s2.stk := by
        simp only [St.leave, Option.map_eq_some_iff] at e
        obtain ⟨_, _, rfl⟩ := e; rfl
      exact .fail h3 (by rw [e']; exact k2) (.rule k3)
    | @ok q t s2 c2 k1 k2 k3 k4 k5 k6 =>
      obtain ⟨s3, e, h3⟩ := hlv true s2 k1
      have es := Position.span_eq_some (hp.2.trans k2.2.symm) hp.1 k2.1 k3
      simp only [Out.andThen_some, es, Out.lift_some, Out.bind_ok, Option.isSome_some, e]
      have e' : s3.stk = s2.stk := by
        simp only [St.leave, Option.map_eq_some_iff] at e
        obtain ⟨_, _, rfl⟩ := e; rfl
      have esp : (⟨p.input, p.pos, q.pos⟩ : Span) = spanOf inp c.pre c2.pre := by
        rw [hco.at_.2, k6.at_.2, hp.2]; rfl
      refine .ok h3 k2 k3 (by rw [e']; exact k4) ?_ ⟨k6.at_, by rw [e']; exact k6.texts⟩
      rw [esp, e']
      exact .rule k5

end

/-- Every parse keeps the invariant, agrees with `check`, and returns the tree of the specification. -/
theorem parse_run {S T W : Type} {so : StackOps S} {tk : TrackerOps T} {saved : S → List (List Span)}
    (hl : Lawful so saved) {inp : Str} {G : W → St S T → Prop} (hc : Closed so tk inp G) (env : Env) :
    ∀ fuel n w p s c, Good inp p → G w s → Corr so p s c →
      Run so saved env inp G (fun t => [t]) (.node n) w p (saved s.stk) c (so.elems s.stk)
        (parse so tk env fuel n p s) (check so tk env fuel n p s)
  | 0, _, _, _, _, _, _, _, _ => .oof
  | fuel + 1, n, w, p, s, c, hp, hg, hco =>
    parseStep_run hl hc (parse_run hl hc env fuel) n w p s c hp hg hco
      (hc.chk env (fuel + 1) n w p s hp hg)

end Pest3
