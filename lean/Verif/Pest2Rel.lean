import Verif.MetaGrammar
import Verif.CodegenLemmas

/-!
# Recognition as a relation

`Rec g m e c r`: in mode `m` the expression `e` at `c` gives `r`.  It is what `recog` computes (`recog_iff`), without fuel.
-/

namespace Pest3.Gen
open Pest3
open Pest3.Meta (MetaRule)

abbrev Hit := Option (Cfg × List PTree)

inductive Rec (g : Gram) : Mode → PE → Cfg → Hit → Prop where
  | str {m s c} : Rec g m (.str s) c ((eat s c).map (·, []))
  | range {m a b c} : Rec g m (.range a b) c ((eatIf (fun x => a ≤ x && x ≤ b) c).map (·, []))
  | any {m c} : Rec g m .any c ((eatIf (fun _ => true) c).map (·, []))
  | soi {m c} : Rec g m .soi c (if c.pre = [] then some (c, []) else none)
  | eoi {m c} : Rec g m .eoi c (if c.suf = [] then some (c, []) else none)
  | ref {m r c c' ts} : Rec g ((g r).1.inside m) (g r).2 c (some (c', ts)) →
      Rec g m (.ref r) c (some (c', wrap (g r).1 m r c c' ts))
  | refFail {m r c} : Rec g ((g r).1.inside m) (g r).2 c none → Rec g m (.ref r) c none
  | seq {m e f c c1 c2 c3 ts sk us} : Rec g m e c (some (c1, ts)) → Rec g m .skip c1 (some (c2, sk)) →
      Rec g m f c2 (some (c3, us)) → Rec g m (.seq e f) c (some (c3, ts ++ us))
  | seqFail {m e f c} : Rec g m e c none → Rec g m (.seq e f) c none
  | seqSkipFail {m e f c c1 ts} : Rec g m e c (some (c1, ts)) → Rec g m .skip c1 none → Rec g m (.seq e f) c none
  | seqFail2 {m e f c c1 c2 ts sk} : Rec g m e c (some (c1, ts)) → Rec g m .skip c1 (some (c2, sk)) →
      Rec g m f c2 none → Rec g m (.seq e f) c none
  | choice1 {m e f c x} : Rec g m e c (some x) → Rec g m (.choice e f) c (some x)
  | choice2 {m e f c r} : Rec g m e c none → Rec g m f c r → Rec g m (.choice e f) c r
  | optSome {m e c x} : Rec g m e c (some x) → Rec g m (.opt e) c (some x)
  | optNone {m e c} : Rec g m e c none → Rec g m (.opt e) c (some (c, []))
  | repNone {m e c} : Rec g m e c none → Rec g m (.rep e) c (some (c, []))
  | rep {m e c c1 c2 ts us} : Rec g m e c (some (c1, ts)) → Rec g m (.more e) c1 (some (c2, us)) →
      Rec g m (.rep e) c (some (c2, ts ++ us))
  | repFail {m e c c1 ts} : Rec g m e c (some (c1, ts)) → Rec g m (.more e) c1 none → Rec g m (.rep e) c none
  | moreNone {m e c c1 sk} : Rec g m .skip c (some (c1, sk)) → Rec g m e c1 none → Rec g m (.more e) c (some (c, []))
  | more {m e c c1 c2 c3 sk ts us} : Rec g m .skip c (some (c1, sk)) → Rec g m e c1 (some (c2, ts)) →
      Rec g m (.more e) c2 (some (c3, us)) → Rec g m (.more e) c (some (c3, ts ++ us))
  | moreSkipFail {m e c} : Rec g m .skip c none → Rec g m (.more e) c none
  | moreFail {m e c c1 c2 sk ts} : Rec g m .skip c (some (c1, sk)) → Rec g m e c1 (some (c2, ts)) →
      Rec g m (.more e) c2 none → Rec g m (.more e) c none
  | pos {m e c x} : Rec g m e c (some x) → Rec g m (.pos e) c (some (c, []))
  | posFail {m e c} : Rec g m e c none → Rec g m (.pos e) c none
  | neg {m e c} : Rec g m e c none → Rec g m (.neg e) c (some (c, []))
  | negFail {m e c x} : Rec g m e c (some x) → Rec g m (.neg e) c none
  | push {m e c c1 ts} : Rec g m e c (some (c1, ts)) →
      Rec g m (.push e) c (some ({ c1 with stk := c1.stk ++ [between c c1] }, ts))
  | pushFail {m e c} : Rec g m e c none → Rec g m (.push e) c none
  | peek {m c s} : c.stk.getLast? = some s → Rec g m .peek c ((eat s c).map (·, []))
  | peekEmpty {m c} : c.stk.getLast? = none → Rec g m .peek c none
  | pop {m c s} : c.stk.getLast? = some s →
      Rec g m .pop c ((eat s c).map fun c' => ({ c' with stk := c'.stk.dropLast }, []))
  | popEmpty {m c} : c.stk.getLast? = none → Rec g m .pop c none
  | skip {c c1 ts} : Rec g .atomic skipBody c (some (c1, ts)) → Rec g .nonAtomic .skip c (some (c1, []))
  | skipFail {c} : Rec g .atomic skipBody c none → Rec g .nonAtomic .skip c none
  | noSkip {m c} : m ≠ .nonAtomic → Rec g m .skip c (some (c, []))

theorem andThen_inv {α β : Type} {r : Res α} {k : α → Res β} {b : β} (h : andThen r k = .ok b) : ∃ a, r = .ok a ∧ k a = .ok b := by
  cases r with
  | ok a => exact ⟨a, rfl, h⟩
  | panic => cases h
  | oof => cases h

theorem recog_rec {g : Gram} : ∀ {fuel m e c r}, recog g fuel m e c = .ok r → Rec g m e c r := by
  intro fuel
  induction fuel with
  | zero => intro m e c r h; cases h
  | succ n ih =>
    intro m e c r h
    cases e with
    | str s => cases h; exact .str
    | range a b => cases h; exact .range
    | any => cases h; exact .any
    | soi => cases h; exact .soi
    | eoi => cases h; exact .eoi
    | ref q =>
      obtain ⟨x, k1, l1⟩ := andThen_inv h
      have h1 := ih k1
      cases x with
      | none => cases l1; exact .refFail h1
      | some x => cases l1; exact .ref h1
    | seq e f =>
      obtain ⟨x, k1, l1⟩ := andThen_inv h
      have h1 := ih k1
      cases x with
      | none => cases l1; exact .seqFail h1
      | some x =>
        obtain ⟨y, k2, l2⟩ := andThen_inv l1
        have h2 := ih k2
        cases y with
        | none => cases l2; exact .seqSkipFail h1 h2
        | some y =>
          obtain ⟨z, k3, l3⟩ := andThen_inv l2
          have h3 := ih k3
          cases z with
          | none => cases l3; exact .seqFail2 h1 h2 h3
          | some z => cases l3; exact .seq h1 h2 h3
    | choice e f =>
      obtain ⟨x, k1, l1⟩ := andThen_inv h
      have h1 := ih k1
      cases x with
      | none => exact .choice2 h1 (ih l1)
      | some x => cases l1; exact .choice1 h1
    | opt e =>
      obtain ⟨x, k1, l1⟩ := andThen_inv h
      have h1 := ih k1
      cases x with
      | none => cases l1; exact .optNone h1
      | some x => cases l1; exact .optSome h1
    | rep e =>
      obtain ⟨x, k1, l1⟩ := andThen_inv h
      have h1 := ih k1
      cases x with
      | none => cases l1; exact .repNone h1
      | some x =>
        obtain ⟨y, k2, l2⟩ := andThen_inv l1
        have h2 := ih k2
        cases y with
        | none => cases l2; exact .repFail h1 h2
        | some y => cases l2; exact .rep h1 h2
    | more e =>
      obtain ⟨x, k1, l1⟩ := andThen_inv h
      have h1 := ih k1
      cases x with
      | none => cases l1; exact .moreSkipFail h1
      | some x =>
        obtain ⟨y, k2, l2⟩ := andThen_inv l1
        have h2 := ih k2
        cases y with
        | none => cases l2; exact .moreNone h1 h2
        | some y =>
          obtain ⟨z, k3, l3⟩ := andThen_inv l2
          have h3 := ih k3
          cases z with
          | none => cases l3; exact .moreFail h1 h2 h3
          | some z => cases l3; exact .more h1 h2 h3
    | pos e =>
      obtain ⟨x, k1, l1⟩ := andThen_inv h
      have h1 := ih k1
      cases x with
      | none => cases l1; exact .posFail h1
      | some x => cases l1; exact .pos h1
    | neg e =>
      obtain ⟨x, k1, l1⟩ := andThen_inv h
      have h1 := ih k1
      cases x with
      | none => cases l1; exact .neg h1
      | some x => cases l1; exact .negFail h1
    | push e =>
      obtain ⟨x, k1, l1⟩ := andThen_inv h
      have h1 := ih k1
      cases x with
      | none => cases l1; exact .pushFail h1
      | some x => cases l1; exact .push h1
    | peek =>
      simp only [recog] at h
      split at h
      · cases h; exact .peek ‹_›
      · cases h; exact .peekEmpty ‹_›
    | pop =>
      simp only [recog] at h
      split at h
      · cases h; exact .pop ‹_›
      · cases h; exact .popEmpty ‹_›
    | skip =>
      cases m with
      | nonAtomic =>
        obtain ⟨x, k1, l1⟩ := andThen_inv h
        have h1 := ih k1
        cases x with
        | none => cases l1; exact .skipFail h1
        | some x => cases l1; exact .skip h1
      | compoundAtomic => cases h; exact .noSkip (by simp)
      | atomic => cases h; exact .noSkip (by simp)

theorem rec_recog {g : Gram} {m e c r} (h : Rec g m e c r) : ∃ N, ∀ fuel, N ≤ fuel → recog g fuel m e c = .ok r := by
  have step : ∀ {m e c r} (N : Nat), (∀ n, N ≤ n → recog g (n + 1) m e c = .ok r) →
      ∃ N, ∀ fuel, N ≤ fuel → recog g fuel m e c = .ok r := by
    intro m e c r N h
    refine ⟨N + 1, fun fuel hf => ?_⟩
    obtain ⟨n, rfl⟩ : ∃ n, fuel = n + 1 := ⟨fuel - 1, by omega⟩
    exact h n (by omega)
  induction h with
  | str => exact step 0 fun n _ => rfl
  | range => exact step 0 fun n _ => rfl
  | any => exact step 0 fun n _ => rfl
  | soi => exact step 0 fun n _ => rfl
  | eoi => exact step 0 fun n _ => rfl
  | ref _ ih | refFail _ ih | seqFail _ ih | choice1 _ ih | optSome _ ih | optNone _ ih | repNone _ ih | moreSkipFail _ ih
  | pos _ ih | posFail _ ih | neg _ ih | negFail _ ih | push _ ih | pushFail _ ih | skip _ ih | skipFail _ ih =>
    obtain ⟨N, hN⟩ := ih
    exact step N fun n hn => by simp only [recog, hN n hn, andThen, tryThen]
  | seqSkipFail _ _ ih1 ih2 | choice2 _ _ ih1 ih2 | rep _ _ ih1 ih2 | repFail _ _ ih1 ih2 | moreNone _ _ ih1 ih2 =>
    obtain ⟨N, hN⟩ := ih1
    obtain ⟨M, hM⟩ := ih2
    exact step (N + M) fun n hn => by simp only [recog, hN n (by omega), hM n (by omega), andThen, tryThen]
  | seq _ _ _ ih1 ih2 ih3 | seqFail2 _ _ _ ih1 ih2 ih3 | more _ _ _ ih1 ih2 ih3 | moreFail _ _ _ ih1 ih2 ih3 =>
    obtain ⟨N, hN⟩ := ih1
    obtain ⟨M, hM⟩ := ih2
    obtain ⟨K, hK⟩ := ih3
    exact step (N + M + K) fun n hn => by simp only [recog, hN n (by omega), hM n (by omega), hK n (by omega), andThen, tryThen]
  | peek h => exact step 0 fun n _ => by simp only [recog, h]
  | peekEmpty h => exact step 0 fun n _ => by simp only [recog, h]
  | pop h => exact step 0 fun n _ => by simp only [recog, h]
  | popEmpty h => exact step 0 fun n _ => by simp only [recog, h]
  | noSkip h =>
    rename_i m c
    refine step 0 fun n _ => ?_
    cases m
    · exact absurd rfl h
    · rfl
    · rfl

theorem recog_iff {g : Gram} {m e c r} : (∃ fuel, recog g fuel m e c = .ok r) ↔ Rec g m e c r :=
  ⟨fun ⟨_, h⟩ => recog_rec h, fun h => let ⟨N, hN⟩ := rec_recog h; ⟨N, hN N (Nat.le_refl _)⟩⟩

theorem Rec.det {g : Gram} {m e c r r'} (h : Rec g m e c r) (h' : Rec g m e c r') : r = r' := by
  obtain ⟨N, hN⟩ := rec_recog h
  obtain ⟨M, hM⟩ := rec_recog h'
  have h1 := hN (N + M) (by omega)
  rw [hM (N + M) (by omega)] at h1
  cases h1; rfl

/-! ## What is consumed -/

theorem eat_some {s : Text} {c c' : Cfg} (h : eat s c = some c') :
    c.suf = s ++ c'.suf ∧ c'.pre = c.pre ++ s ∧ c'.stk = c.stk := by
  unfold eat at h
  split at h
  · rename_i hp
    cases h
    obtain ⟨t, ht⟩ := List.isPrefixOf_iff_prefix.mp hp
    exact ⟨by simp [← ht], rfl, rfl⟩
  · cases h

theorem eatIf_some {p : Char → Bool} {c c' : Cfg} (h : eatIf p c = some c') :
    ∃ x, p x = true ∧ c.suf = x :: c'.suf ∧ c'.pre = c.pre ++ [x] ∧ c'.stk = c.stk := by
  unfold eatIf at h
  split at h
  · rename_i x rest hs
    split at h
    · cases h; exact ⟨x, ‹_›, hs, rfl, rfl⟩
    · cases h
  · cases h

theorem Rec.consumes {g : Gram} {m e c r} (h : Rec g m e c r) :
    ∀ x ts, r = some (x, ts) → ∃ t, c.suf = t ++ x.suf ∧ x.pre = c.pre ++ t := by
  have trans : ∀ {a b d : Cfg}, (∃ t, a.suf = t ++ b.suf ∧ b.pre = a.pre ++ t) → (∃ t, b.suf = t ++ d.suf ∧ d.pre = b.pre ++ t) →
      ∃ t, a.suf = t ++ d.suf ∧ d.pre = a.pre ++ t := by
    rintro a b d ⟨t, h1, h2⟩ ⟨u, h3, h4⟩
    exact ⟨t ++ u, by simp [h1, h3], by simp [h2, h4]⟩
  have self : ∀ a : Cfg, ∃ t, a.suf = t ++ a.suf ∧ a.pre = a.pre ++ t := fun a => ⟨[], by simp, by simp⟩
  induction h with
  | str =>
    rintro x ts hx
    obtain ⟨c', h, hx⟩ := Option.map_eq_some_iff.mp hx; cases hx
    obtain ⟨h1, h2, _⟩ := eat_some h
    exact ⟨_, h1, h2⟩
  | peek =>
    rintro x ts hx
    obtain ⟨c', h, hx⟩ := Option.map_eq_some_iff.mp hx; cases hx
    obtain ⟨h1, h2, _⟩ := eat_some h
    exact ⟨_, h1, h2⟩
  | pop =>
    rintro x ts hx
    obtain ⟨c', h, hx⟩ := Option.map_eq_some_iff.mp hx; cases hx
    obtain ⟨h1, h2, _⟩ := eat_some h
    exact ⟨_, h1, h2⟩
  | range =>
    rintro x ts hx
    obtain ⟨c', h, hx⟩ := Option.map_eq_some_iff.mp hx; cases hx
    obtain ⟨y, _, h1, h2, _⟩ := eatIf_some h
    exact ⟨[y], by simpa using h1, h2⟩
  | any =>
    rintro x ts hx
    obtain ⟨c', h, hx⟩ := Option.map_eq_some_iff.mp hx; cases hx
    obtain ⟨y, _, h1, h2, _⟩ := eatIf_some h
    exact ⟨[y], by simpa using h1, h2⟩
  | soi => rintro x ts hx; split at hx <;> cases hx; exact self _
  | eoi => rintro x ts hx; split at hx <;> cases hx; exact self _
  | ref _ ih => rintro x ts hx; cases hx; exact ih _ _ rfl
  | push _ ih => rintro x ts hx; cases hx; obtain ⟨t, h⟩ := ih _ _ rfl; exact ⟨t, h⟩
  | skip _ ih => rintro x ts hx; cases hx; exact ih _ _ rfl
  | choice1 _ ih => rintro x ts hx; cases hx; exact ih _ _ rfl
  | choice2 _ _ _ ih => exact ih
  | optSome _ ih => rintro x ts hx; cases hx; exact ih _ _ rfl
  | seq _ _ _ ih1 ih2 ih3 => rintro x ts hx; cases hx; exact trans (ih1 _ _ rfl) (trans (ih2 _ _ rfl) (ih3 _ _ rfl))
  | more _ _ _ ih1 ih2 ih3 => rintro x ts hx; cases hx; exact trans (ih1 _ _ rfl) (trans (ih2 _ _ rfl) (ih3 _ _ rfl))
  | rep _ _ ih1 ih2 => rintro x ts hx; cases hx; exact trans (ih1 _ _ rfl) (ih2 _ _ rfl)
  | optNone | repNone | moreNone | pos | neg | noSkip => rintro x ts hx; cases hx; exact self _
  | refFail | seqFail | seqSkipFail | seqFail2 | repFail | moreSkipFail | moreFail | posFail | negFail | pushFail | peekEmpty
  | popEmpty | skipFail => rintro x ts hx; cases hx

end Pest3.Gen
