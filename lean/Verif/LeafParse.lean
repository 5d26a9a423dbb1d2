import Verif.PegTree
import Verif.ParseLemmas

/-!
# `try_parse_with_partial` of leaves, computed
-/

namespace Pest3

section
variable {S T : Type} {so : StackOps S} {saved : S → List (List Span)} (hl : Lawful so saved)
  (tk : TrackerOps T)

theorem leafSpans_eq (l : Leaf) (ss : List Span) : leafSpans l ss = leafElems l true ss := by
  cases l <;> rfl

include hl in
/-- The value built by a leaf that matches. -/
theorem leafParse_eq {p : Position} {pre suf : Text} {st : St S T} {stk : List Text} {m : Text}
    {stk' : List Text} {l : Leaf}
    (hp : p.At pre suf) (ht : Texts (so.elems st.stk) stk) (hm : leafSpec l ⟨pre, suf, stk⟩ = some (m, stk')) :
    ∃ v, leafVal p.input l pre m (so.elems st.stk) = some v ∧
      leafParse so tk l p st = .ok (some (p.after m, v), ⟨leafStk so l true st.stk, st.trk⟩) := by
  obtain ⟨rest, hrest⟩ := leafSpec_prefix hm
  simp only at hrest
  subst hrest
  have hsp := hp.span
  have his : (Span.mk p.input p.pos (p.pos + utf8Len m)).asStr = some m := hp.span_is
  have hpos := hp.2
  have hspan : spanOf p.input pre (pre ++ m) = ⟨p.input, p.pos, p.pos + utf8Len m⟩ := by
    simp [spanOf, hpos]
  have hpm : ∀ f : Char → Bool, eatChar f (m ++ rest) = some m → ∃ c, m = [c] ∧ f c = true := by
    intro f h
    cases hmr : m ++ rest with
    | nil => rw [hmr] at h; cases h
    | cons c cs =>
      rw [hmr] at h
      simp only [eatChar] at h
      split at h
      · next hf => cases h; exact ⟨c, rfl, hf⟩
      · cases h
  cases l with
  | str s =>
    simp only [leafSpec, Option.map_eq_some_iff, Prod.mk.injEq] at hm
    obtain ⟨a, h1, rfl, _⟩ := hm
    obtain ⟨rfl, _⟩ := eatText_some h1
    refine ⟨_, rfl, ?_⟩
    simp only [leafParse, hp.matchString, List.prefix_append, if_true]; rfl
  | insens s =>
    simp only [leafSpec] at hm
    split at hm
    · next h =>
      simp only [Option.some.injEq, Prod.mk.injEq] at hm
      obtain ⟨hm, _⟩ := hm
      refine ⟨_, rfl, ?_⟩
      have e : utf8Len s = utf8Len m := by
        rw [← utf8Len_map_toLower s, ← h, utf8Len_map_toLower, hm]
      simp only [leafParse, hp.matchInsensitive, insensPrefix, beq_iff_eq, h, if_true, Out.lift_some, e,
        hsp, his]; rfl
    · cases hm
  | skipChar n =>
    simp only [leafSpec] at hm
    split at hm
    · next h =>
      simp only [Option.some.injEq, Prod.mk.injEq] at hm
      obtain ⟨hm, _⟩ := hm
      refine ⟨_, rfl, ?_⟩
      simp only [leafParse, hp.skip, h, if_true, Out.lift_some, hm, hsp, hspan]; rfl
    · cases hm
  | range lo hi =>
    simp only [leafSpec, Option.map_eq_some_iff, Prod.mk.injEq] at hm
    obtain ⟨a, h1, rfl, _⟩ := hm
    obtain ⟨c, rfl, hc⟩ := hpm _ h1
    refine ⟨.chr c, rfl, ?_⟩
    simp only [List.singleton_append] at hp
    simp only [utf8Len_cons, utf8Len_nil, Nat.add_zero] at hsp his
    have h' : (decide (lo ≤ c) && decide (c ≤ hi)) = true := by simpa using hc
    simp only [leafParse, hp.matchRange, h', if_true, Out.lift_some, hsp, his, List.head?_cons]
    simp [Position.after, leafStk]
  | chr c =>
    simp only [leafSpec, Option.map_eq_some_iff, Prod.mk.injEq] at hm
    obtain ⟨a, h1, rfl, _⟩ := hm
    obtain ⟨d, rfl, hc⟩ := hpm _ h1
    simp only [beq_iff_eq] at hc
    subst hc
    refine ⟨_, rfl, ?_⟩
    simp only [leafParse, hp.matchString, List.prefix_append, if_true]; rfl
  | prop f =>
    simp only [leafSpec, Option.map_eq_some_iff, Prod.mk.injEq] at hm
    obtain ⟨a, h1, rfl, _⟩ := hm
    obtain ⟨c, rfl, hc⟩ := hpm _ h1
    refine ⟨.chr c, rfl, ?_⟩
    simp only [List.singleton_append] at hp
    simp only [leafParse, matchCharByRes_eq hp, hc, if_true, Out.lift_some]
    simp [Position.after, leafStk]
  | any =>
    simp only [leafSpec, Option.map_eq_some_iff, Prod.mk.injEq] at hm
    obtain ⟨a, h1, rfl, _⟩ := hm
    obtain ⟨c, rfl, hc⟩ := hpm _ h1
    refine ⟨.chr c, rfl, ?_⟩
    simp only [List.singleton_append] at hp
    simp only [leafParse, hp.nextChar, Out.lift_some]
    simp [Position.after, leafStk]
  | none => cases hm
  | empty => cases hm; exact ⟨_, rfl, rfl⟩
  | soi =>
    simp only [leafSpec] at hm
    split at hm
    · next h =>
      cases hm
      refine ⟨_, rfl, ?_⟩
      subst h
      simp [leafParse, hp.atStart, Position.after, leafStk]
    · cases hm
  | eoi =>
    simp only [leafSpec] at hm
    split at hm
    · next h =>
      cases hm
      refine ⟨_, rfl, ?_⟩
      simp only [List.nil_append] at h
      subst h
      simp [leafParse, hp.atEnd, Position.after, leafStk]
    · cases hm
  | newline =>
    refine ⟨_, rfl, ?_⟩
    simp only [leafParse, leafSpec] at hm ⊢
    split at hm
    · next e => cases hm; rw [hp.matchString, if_pos (by simp)]; rfl
    · next e =>
      cases hm
      rw [hp.matchString, if_neg (by simp [List.prefix_cons_iff])]
      simp only
      rw [hp.matchString, if_pos (by simp)]; rfl
    · next h1 e =>
      cases hm
      have h2 : ¬ ['\r', '\n'] <+: ['\r'] ++ rest := by
        rintro ⟨r, hr⟩
        exact h1 r (by have := e.symm.trans hr.symm; simpa using this)
      rw [hp.matchString, if_neg h2]
      simp only
      rw [hp.matchString, if_neg (by simp [List.prefix_cons_iff])]
      simp only
      rw [hp.matchString, if_pos (by simp)]; rfl
    · cases hm
  | peekAll =>
    simp only [leafSpec, Option.map_eq_some_iff, Prod.mk.injEq] at hm
    obtain ⟨a, h1, rfl, _⟩ := hm
    refine ⟨_, rfl, ?_⟩
    simp only [leafParse, peekAllSpan_eq hl hp ht, h1, Option.map_some, Out.andThen_some, hspan]; rfl
  | peek =>
    simp only [leafSpec] at hm
    rcases ht.getLast? with ⟨e1, e2⟩ | ⟨s, t, e1, e2, h⟩
    · rw [e2] at hm; cases hm
    · rw [e2] at hm
      simp only [Option.map_eq_some_iff, Prod.mk.injEq] at hm
      obtain ⟨a, h1, rfl, _⟩ := hm
      obtain ⟨rfl, _⟩ := eatText_some h1
      refine ⟨_, rfl, ?_⟩
      unfold Span.Is at h
      simp only [leafParse, peekOr, hl.peek_val, e1, Out.andThen_some, h, Out.lift_some, hp.matchString,
        List.prefix_append, if_true, hsp, hspan]; rfl
  | drop =>
    simp only [leafSpec] at hm
    split at hm
    · cases hm
    · next hne =>
      cases hm
      refine ⟨_, rfl, ?_⟩
      have hv := hl.pop_val st.stk
      rcases ht.getLast? with ⟨e1, e2⟩ | ⟨s, t, e1, e2, h⟩
      · exact absurd (by simpa using e2) hne
      · obtain ⟨v, s', hs⟩ : ∃ v s', so.pop st.stk = (v, s') := ⟨_, _, rfl⟩
        rw [hs, e1] at hv
        simp only at hv
        subst hv
        simp [leafParse, popOr, hs, Position.after, leafStk]
  | pop =>
    simp only [leafSpec] at hm
    rcases ht.getLast? with ⟨e1, e2⟩ | ⟨s, t, e1, e2, h⟩
    · rw [e2] at hm; cases hm
    · rw [e2] at hm
      simp only [Option.map_eq_some_iff, Prod.mk.injEq] at hm
      obtain ⟨a, h1, rfl, _⟩ := hm
      obtain ⟨rfl, _⟩ := eatText_some h1
      refine ⟨.span s, by simp [leafVal, e1], ?_⟩
      unfold Span.Is at h
      have hv := hl.pop_val st.stk
      obtain ⟨v, s', hs⟩ : ∃ v s', so.pop st.stk = (v, s') := ⟨_, _, rfl⟩
      rw [hs, e1] at hv
      simp only at hv
      subst hv
      simp only [leafParse, popOr, hs, Out.andThen_some, h, Out.lift_some, hp.matchString,
        List.prefix_append, if_true, leafStk]; rfl
  | popAll =>
    simp only [leafSpec, Option.map_eq_some_iff, Prod.mk.injEq] at hm
    obtain ⟨a, h1, rfl, _⟩ := hm
    refine ⟨_, rfl, ?_⟩
    simp only [leafParse, peekAllSpan_eq hl hp ht, h1, Option.map_some, Out.andThen_some, hspan]; rfl
  | slice2 a b =>
    refine ⟨_, rfl, ?_⟩
    simp only [leafSpec] at hm
    simp only [leafParse]
    rw [sliceSpec_eq] at hm
    rw [stackSlice_eq tk ht]
    cases h : constrainIdxs a (some b) stk.length with
    | none => rw [h] at hm; cases hm
    | some r =>
      rw [h] at hm
      simp only [Option.map_some, Option.map_eq_some_iff, Prod.mk.injEq] at hm
      obtain ⟨a, h1, rfl, _⟩ := hm
      simp only [Out.andThen_some]
      rw [peekSpans_eq ((ht.take r.2).drop r.1) hp, h1]; rfl
  | slice1 a =>
    refine ⟨_, rfl, ?_⟩
    simp only [leafSpec] at hm
    simp only [leafParse]
    rw [sliceSpec_eq] at hm
    rw [stackSlice_eq tk ht]
    cases h : constrainIdxs a none stk.length with
    | none => rw [h] at hm; cases hm
    | some r =>
      rw [h] at hm
      simp only [Option.map_some, Option.map_eq_some_iff, Prod.mk.injEq] at hm
      obtain ⟨a, h1, rfl, _⟩ := hm
      simp only [Out.andThen_some]
      rw [peekSpans_eq ((ht.take r.2).drop r.1) hp, h1]; rfl

end

end Pest3
