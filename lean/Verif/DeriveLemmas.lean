import Verif.DeriveSpec
import Verif.LoaderLemmas
import Verif.InlineTerm

namespace Pest3.Load
open Pest3 Pest3.Gen

/-! ## Attributes -/

theorem lastArg_cons (x : Name) (a : Attr) (l : List Attr) :
    lastArg x (a :: l) = (lastArg x l).or (if a.name = some x then some a.arg else none) := by
  simp only [lastArg, List.reverse_cons, List.find?_append, Option.map_or]
  congr 1
  by_cases h : a.name = some x <;> simp [h]

/-- The flag that an attribute sets. -/
def flagOf : AttrMeta → Bool
  | .path => true
  | .bool b => b
  | _ => false

theorem getBool_ok {m : AttrMeta} {b : Bool} : getBool m = .ok b ↔ IsFlag m b := by
  constructor
  · intro h; cases m <;> simp [getBool] at h <;> subst h <;> constructor
  · rintro (_ | _) <;> rfl

theorem IsFlag.flagOf {m : AttrMeta} {b : Bool} (h : IsFlag m b) : flagOf m = b := by cases h <;> rfl

theorem getString_ok {m : AttrMeta} {s : Text} : getString m = .ok s ↔ m = .str s := by
  cases m <;> simp [getString]

/-- What an attribute does. -/
def effect (a : Attr) (acc : List Source × Options) : List Source × Options :=
  (acc.1 ++ (sourceOf a).toList,
    { noPair := if a.name = some "no_pair".toList then flagOf a.arg else acc.2.noPair
      noSpan := if a.name = some "no_span".toList then flagOf a.arg else acc.2.noSpan
      noWarnings := if a.name = some "no_warnings".toList then flagOf a.arg else acc.2.noWarnings
      boxOnlyIfNeeded := if a.name = some "box_all_rules".toList then flagOf a.arg else acc.2.boxOnlyIfNeeded
      noGetter := acc.2.noGetter
      rulesMod := if a.name = some "rules_mod".toList then (match a.arg with | .str s => some s | _ => none) else acc.2.rulesMod })

private theorem sourceOf_none {a : Attr} (h1 : a.name ≠ some "grammar".toList) (h2 : a.name ≠ some "grammar_inline".toList) :
    sourceOf a = none := by
  unfold sourceOf
  split
  · rw [if_neg h1, if_neg h2]
  · rfl

theorem parseAttr_ok {ident : Text → Bool} {a : Attr} {acc acc' : List Source × Options} :
    parseAttr ident a acc = .ok acc' ↔ Understood ident a ∧ acc' = effect a acc := by
  obtain ⟨name, arg⟩ := a
  obtain ⟨srcs, opts⟩ := acc
  unfold parseAttr
  dsimp only
  split
  · rename_i h; subst h
    constructor
    · intro h
      obtain ⟨s, hs, h⟩ := andThen_ok.mp h
      rw [getString_ok] at hs; subst hs; cases h
      exact ⟨⟨fun _ _ _ => ⟨s, rfl⟩, fun x hx e => by cases e; simp at hx, fun e => by simp at e⟩, rfl⟩
    · rintro ⟨hu, rfl⟩
      obtain ⟨s, rfl⟩ := hu.text _ (by simp) rfl
      rfl
  split
  · rename_i h; subst h
    constructor
    · intro h
      obtain ⟨s, hs, h⟩ := andThen_ok.mp h
      rw [getString_ok] at hs; subst hs; cases h
      exact ⟨⟨fun _ _ _ => ⟨s, rfl⟩, fun x hx e => by cases e; simp at hx, fun e => by simp at e⟩, rfl⟩
    · rintro ⟨hu, rfl⟩
      obtain ⟨s, rfl⟩ := hu.text _ (by simp) rfl
      rfl
  rename_i g1 g2
  have hn : ∀ arg, sourceOf ⟨name, arg⟩ = none := fun arg => sourceOf_none g1 g2
  split
  · rename_i h; subst h
    constructor
    · intro h
      obtain ⟨b, hs, h⟩ := andThen_ok.mp h
      rw [getBool_ok] at hs; cases h
      refine ⟨⟨fun x hx e => by cases e; simp at hx, fun _ _ _ => ⟨b, hs⟩, fun e => by simp at e⟩, ?_⟩
      simp [effect, hs.flagOf]; exact hn _
    · rintro ⟨hu, rfl⟩
      obtain ⟨b, hs⟩ := hu.flag _ (by simp) rfl
      rw [getBool_ok.mpr hs]
      simp [andThen, effect, hs.flagOf]; exact hn _
  split
  · rename_i h; subst h
    constructor
    · intro h
      obtain ⟨b, hs, h⟩ := andThen_ok.mp h
      rw [getBool_ok] at hs; cases h
      refine ⟨⟨fun x hx e => by cases e; simp at hx, fun _ _ _ => ⟨b, hs⟩, fun e => by simp at e⟩, ?_⟩
      simp [effect, hs.flagOf]; exact hn _
    · rintro ⟨hu, rfl⟩
      obtain ⟨b, hs⟩ := hu.flag _ (by simp) rfl
      rw [getBool_ok.mpr hs]
      simp [andThen, effect, hs.flagOf]; exact hn _
  split
  · rename_i h; subst h
    constructor
    · intro h
      obtain ⟨b, hs, h⟩ := andThen_ok.mp h
      rw [getBool_ok] at hs; cases h
      refine ⟨⟨fun x hx e => by cases e; simp at hx, fun _ _ _ => ⟨b, hs⟩, fun e => by simp at e⟩, ?_⟩
      simp [effect, hs.flagOf]; exact hn _
    · rintro ⟨hu, rfl⟩
      obtain ⟨b, hs⟩ := hu.flag _ (by simp) rfl
      rw [getBool_ok.mpr hs]
      simp [andThen, effect, hs.flagOf]; exact hn _
  split
  · rename_i h; subst h
    constructor
    · intro h
      obtain ⟨b, hs, h⟩ := andThen_ok.mp h
      rw [getBool_ok] at hs; cases h
      refine ⟨⟨fun x hx e => by cases e; simp at hx, fun _ _ _ => ⟨b, hs⟩, fun e => by simp at e⟩, ?_⟩
      simp [effect, hs.flagOf]; exact hn _
    · rintro ⟨hu, rfl⟩
      obtain ⟨b, hs⟩ := hu.flag _ (by simp) rfl
      rw [getBool_ok.mpr hs]
      simp [andThen, effect, hs.flagOf]; exact hn _
  split
  · rename_i h; subst h
    constructor
    · intro h
      obtain ⟨s, hs, h'⟩ := andThen_ok.mp h
      clear h
      rw [getString_ok] at hs; subst hs
      split at h'
      · simp at h'
      split at h'
      · simp at h'
      rename_i h1 h2
      cases h'
      refine ⟨⟨fun x hx e => by cases e; simp at hx, fun x hx e => by cases e; simp at hx, fun _ => ⟨s, rfl, h1, by simpa using h2⟩⟩, ?_⟩
      simp [effect]; exact hn _
    · rintro ⟨hu, rfl⟩
      obtain ⟨s, rfl, h1, h2⟩ := hu.rulesMod rfl
      simp [andThen, getString, effect, h1, h2]; exact hn _
  rename_i g3 g4 g5 g6 g7
  constructor
  · intro h
    cases h
    refine ⟨⟨fun x hx e => ?_, fun x hx e => ?_, fun e => absurd e g7⟩, ?_⟩
    · simp only [List.mem_cons, List.not_mem_nil, or_false] at hx
      rcases hx with rfl | rfl
      · exact absurd e g1
      · exact absurd e g2
    · simp only [List.mem_cons, List.not_mem_nil, or_false] at hx
      rcases hx with rfl | rfl | rfl | rfl
      · exact absurd e g3
      · exact absurd e g4
      · exact absurd e g5
      · exact absurd e g6
    · simp only [effect, hn, if_neg g3, if_neg g4, if_neg g5, if_neg g6, if_neg g7]
      simp
  · rintro ⟨_, rfl⟩
    simp only [effect, hn, if_neg g3, if_neg g4, if_neg g5, if_neg g6, if_neg g7]
    simp

theorem parseAttr_ne_oof {ident : Text → Bool} {a : Attr} {acc : List Source × Options} : parseAttr ident a acc ≠ .oof := by
  have hs : ∀ {m} {k : Text → Res (List Source × Options)}, (∀ s, k s ≠ .oof) → andThen (getString m) k ≠ .oof := by
    intro m k h; cases m <;> simp [getString, andThen, h]
  have hb : ∀ {m} {k : Bool → Res (List Source × Options)}, (∀ s, k s ≠ .oof) → andThen (getBool m) k ≠ .oof := by
    intro m k h; cases m <;> simp [getBool, andThen, h]
  unfold parseAttr
  split
  · exact hs fun _ => by simp
  split
  · exact hs fun _ => by simp
  split
  · exact hb fun _ => by simp
  split
  · exact hb fun _ => by simp
  split
  · exact hb fun _ => by simp
  split
  · exact hb fun _ => by simp
  split
  · refine hs fun _ => ?_
    split
    · simp
    split <;> simp
  · simp

theorem parseAttrs_ok {ident : Text → Bool} : ∀ {l : List Attr} {acc acc' : List Source × Options},
    parseAttrs ident l acc = .ok acc' ↔ (∀ a ∈ l, Understood ident a) ∧ acc' = l.foldl (fun acc a => effect a acc) acc := by
  intro l
  induction l with
  | nil => intro acc acc'; simp [parseAttrs, eq_comm]
  | cons a l ih =>
    intro acc acc'
    rw [parseAttrs, andThen_ok, List.forall_mem_cons, List.foldl_cons]
    constructor
    · rintro ⟨b, h1, h2⟩
      obtain ⟨hu, rfl⟩ := parseAttr_ok.mp h1
      obtain ⟨h3, h4⟩ := ih.mp h2
      exact ⟨⟨hu, h3⟩, h4⟩
    · rintro ⟨⟨hu, h3⟩, h4⟩
      exact ⟨_, parseAttr_ok.mpr ⟨hu, rfl⟩, ih.mpr ⟨h3, h4⟩⟩

theorem parseAttrs_ne_oof {ident : Text → Bool} : ∀ {l : List Attr} {acc : List Source × Options}, parseAttrs ident l acc ≠ .oof := by
  intro l
  induction l with
  | nil => intro acc; simp [parseAttrs]
  | cons a l ih =>
    intro acc h
    rcases andThen_oof.mp h with h | ⟨_, _, h⟩
    · exact parseAttr_ne_oof h
    · exact ih h

theorem effects_sources : ∀ (l : List Attr) (acc : List Source × Options),
    (l.foldl (fun acc a => effect a acc) acc).1 = acc.1 ++ l.filterMap sourceOf := by
  intro l
  induction l with
  | nil => intro acc; simp
  | cons a l ih =>
    intro acc
    rw [List.foldl_cons, ih, List.filterMap_cons]
    show (acc.1 ++ (sourceOf a).toList) ++ _ = _
    cases h : sourceOf a <;> simp

/-- The value of an option that starts as `d`. -/
private theorem last_fold {β : Type} (x : Name) (f : AttrMeta → β) (get : List Source × Options → β)
    (hget : ∀ a acc, get (effect a acc) = if a.name = some x then f a.arg else get acc) : ∀ (l : List Attr) (acc : List Source × Options),
    get (l.foldl (fun acc a => effect a acc) acc) = match lastArg x l with | some m => f m | none => get acc := by
  intro l
  induction l with
  | nil => intro acc; rfl
  | cons a l ih =>
    intro acc
    rw [List.foldl_cons, ih, lastArg_cons]
    cases lastArg x l with
    | some m => rfl
    | none =>
      rw [hget, Option.none_or]
      by_cases h : a.name = some x
      · simp only [if_pos h]
      · simp only [if_neg h]

theorem effects_noPair (l acc) : (l.foldl (fun acc a => effect a acc) acc).2.noPair =
    match lastArg "no_pair".toList l with | some m => flagOf m | none => acc.2.noPair :=
  last_fold _ flagOf (fun acc => acc.2.noPair) (fun _ _ => rfl) l acc
theorem effects_noSpan (l acc) : (l.foldl (fun acc a => effect a acc) acc).2.noSpan =
    match lastArg "no_span".toList l with | some m => flagOf m | none => acc.2.noSpan :=
  last_fold _ flagOf (fun acc => acc.2.noSpan) (fun _ _ => rfl) l acc
theorem effects_noWarnings (l acc) : (l.foldl (fun acc a => effect a acc) acc).2.noWarnings =
    match lastArg "no_warnings".toList l with | some m => flagOf m | none => acc.2.noWarnings :=
  last_fold _ flagOf (fun acc => acc.2.noWarnings) (fun _ _ => rfl) l acc
theorem effects_box (l acc) : (l.foldl (fun acc a => effect a acc) acc).2.boxOnlyIfNeeded =
    match lastArg "box_all_rules".toList l with | some m => flagOf m | none => acc.2.boxOnlyIfNeeded :=
  last_fold _ flagOf (fun acc => acc.2.boxOnlyIfNeeded) (fun _ _ => rfl) l acc
theorem effects_rulesMod (l acc) : (l.foldl (fun acc a => effect a acc) acc).2.rulesMod =
    match lastArg "rules_mod".toList l with | some m => (match m with | .str s => some s | _ => none) | none => acc.2.rulesMod :=
  last_fold _ (fun m => match m with | .str s => some s | _ => none) (fun acc => acc.2.rulesMod) (fun _ _ => rfl) l acc
theorem effects_noGetter (l : List Attr) : ∀ acc, (l.foldl (fun acc a => effect a acc) acc).2.noGetter = acc.2.noGetter := by
  induction l with
  | nil => intro acc; rfl
  | cons a l ih => intro acc; rw [List.foldl_cons, ih]; rfl

theorem lastArg_mem {x : Name} {l : List Attr} {m : AttrMeta} (h : lastArg x l = some m) : ⟨some x, m⟩ ∈ l := by
  unfold lastArg at h
  obtain ⟨a, ha, rfl⟩ := Option.map_eq_some_iff.mp h
  have h1 := List.mem_of_find?_eq_some ha
  have h2 := of_decide_eq_true (List.find?_some (p := fun a : Attr => decide (a.name = some x)) ha)
  obtain ⟨n, arg⟩ := a
  dsimp only at h2
  subst h2
  simpa using h1

/-! ## Sources -/

theorem readSource_ok {env : Setting} {s : Source} {d : Text × Option FPath} (h : readSource env s = .ok d) :
    Given env s (env.rootOf d.2) d.1 ∧ ∀ p, d.2 = some p ↔ ∃ q, s = .file q ∧ p = env.locate q := by
  cases s with
  | file q =>
    simp only [readSource] at h
    split at h
    · cases h
    rename_i x hx
    split at h
    · cases h
    rename_i t ht
    cases h
    exact ⟨.file (by rw [hx]; simp) ht, fun p => ⟨fun e => ⟨q, rfl, (Option.some.inj e).symm⟩, fun ⟨q', e, e'⟩ => by cases e; rw [e']⟩⟩
  | inline t =>
    cases h
    exact ⟨.inline, fun p => ⟨fun e => (by cases e), fun ⟨q', e, e'⟩ => by cases e⟩⟩

theorem given_read {env : Setting} {s : Source} {root : FPath} {t : Text} (h : Given env s root t) :
    ∃ p, readSource env s = .ok (t, p) ∧ root = env.rootOf p := by
  cases h with
  | @file q t h1 h2 =>
    refine ⟨some (env.locate q), ?_, rfl⟩
    simp only [readSource]
    split
    · rename_i h; exact absurd h h1
    · rw [h2]
  | inline => exact ⟨none, rfl, rfl⟩

theorem given_det {env : Setting} {s : Source} {root root' : FPath} {t t' : Text} (h : Given env s root t) (h' : Given env s root' t') :
    root' = root ∧ t' = t := by
  obtain ⟨p, h1, rfl⟩ := given_read h
  obtain ⟨p', h2, rfl⟩ := given_read h'
  rw [h1] at h2; cases h2; exact ⟨rfl, rfl⟩

/-- More fuel does not change a result. -/
theorem inlineModule_more {fuel fuel' : Nat} (hle : fuel ≤ fuel') {m : Module} (h : inlineModule fuel m ≠ .oof) :
    inlineModule fuel' m = inlineModule fuel m := by
  have rules : ∀ l, inlineRules (collectSilent none m) fuel l ≠ .oof →
      inlineRules (collectSilent none m) fuel' l = inlineRules (collectSilent none m) fuel l := by
    intro l
    induction l with
    | nil => intro _; rfl
    | cons r l ih =>
      intro h
      simp only [inlineRules] at h ⊢
      exact andThen_mono (inlineNode_mono _ _ hle) (fun _ _ h => andThen_mono ih (fun _ _ _ => rfl) h) h
  exact andThen_mono (rules _) (fun _ _ _ => rfl) h

theorem generateTyped_more {fuel fuel' : Nat} (hle : fuel ≤ fuel') {cfg : Config} {names : List Name} {m : Module} {r : Output × GenSt}
    (h : generateTyped cfg names fuel m = .ok r) : generateTyped cfg names fuel' m = .ok r := by
  rw [← h]
  refine andThen_mono (inlineModule_more hle) (fun _ _ _ => rfl) ?_
  show generateTyped cfg names fuel m ≠ .oof
  rw [h]; simp

end Pest3.Load
