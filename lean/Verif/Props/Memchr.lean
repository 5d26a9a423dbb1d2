import Verif.MemchrLemmas

/-!
# C91: the two variants of `skip_until`
-/

namespace Pest3.Props
open Pest3

/-- In front of the text `suf`, the variants of `skip_until` give different results: a single empty string is looked for at the end; or an empty string is the last of three, the other two are not
empty, and the text begins with the first byte of neither. -/
def Deviates (suf : Text) (ss : List Text) : Prop :=
  (ss = [[]] ∧ suf = []) ∨ ∃ s1 s2, ss = [s1, s2, []] ∧ s1 ≠ [] ∧ s2 ≠ [] ∧ suf ≠ [] ∧ (bytes suf)[0]? ≠ (bytes s1)[0]? ∧ (bytes suf)[0]? ≠ (bytes s2)[0]?

private def done (p : Position) : Option Nat → Bool × Position
  | some i => (true, { p with pos := i })
  | none => (false, { p with pos := p.input.len })

private theorem done_inj {p : Position} {a b : Option Nat} (h : done p a = done p b) : a = b := by
  cases a <;> cases b <;> simp [done] at h <;> simp [h]

private theorem plain_eq {p : Position} {pre suf : Text} (h : p.At pre suf) (ss : List Text) :
    p.skipUntil ss = done p (((List.range (utf8Len suf)).find? fun i => hit p.input.text ss (p.pos + i)).map (p.pos + ·)) := by
  have hl : p.input.len - p.pos = utf8Len suf := by rw [Str.len, h.1, h.2, utf8Len_append]; omega
  unfold Position.skipUntil
  rw [skipUntilLoop_find, hl, List.range'_eq_map_range, List.find?_map]
  simp only [Function.comp_def]
  cases Option.map _ _ <;> rfl

private theorem hay_eq {p : Position} {pre suf : Text} (h : p.At pre suf) : (bytes p.input.text).drop p.pos = bytes suf := by
  rw [h.1, h.2, bytes_append, ← length_bytes pre, List.drop_left]

private theorem head_at {p : Position} {pre suf : Text} (h : p.At pre suf) (i : Nat) : (bytes suf)[i]? = (bytes p.input.text)[p.pos + i]? := by
  rw [← hay_eq h, List.getElem?_drop]

private theorem head_some {s : Text} (h : s ≠ []) : ∃ b, (bytes s)[0]? = some b := by
  cases hb : bytes s with
  | nil => exact (h (utf8Len_eq_zero.mp (by rw [← length_bytes, hb]; rfl))).elim
  | cons b bs => exact ⟨b, rfl⟩

/-- Scanning for the first bytes of two strings that are not empty. -/
private theorem scan {p : Position} {pre suf s1 s2 : Text} (h : p.At pre suf) {b1 b2 : UInt8} (hb1 : (bytes s1)[0]? = some b1) (hb2 : (bytes s2)[0]? = some b2) (ss : List Text) (bs : List UInt8)
    (hbs : ∀ b, b ∈ bs ↔ b = b1 ∨ b = b2) :
    Position.fastLoop p.input.text p.pos ss (memchrIter bs (bytes suf)) =
      some (((List.range (utf8Len suf)).find? fun i => (bytes suf)[i]?.any bs.contains && hit p.input.text ss (p.pos + i)).map (p.pos + ·)) := by
  rw [fastLoop_find, find_iter, length_bytes]
  intro i hi
  obtain ⟨-, hi⟩ := List.mem_filter.mp hi
  rw [head_at h i] at hi
  cases hb : (bytes p.input.text)[p.pos + i]? with
  | none => rw [hb] at hi; cases hi
  | some b =>
    rw [hb] at hi
    have hi : b ∈ bs := List.contains_iff_mem.mp hi
    refine boundary_of_lead hb ?_
    rcases (hbs b).mp hi with rfl | rfl
    · exact lead_of_head hb1
    · exact lead_of_head hb2

/-- The variant for `memchr` does not panic, and its result is the same as that of the variant that is compiled, except where it is said to deviate. -/
theorem C91_same_partial (p : Position) (pre suf : Text) (ss : List Text) (h : p.At pre suf) : ∃ r, p.skipUntilFast ss = some r ∧ (r = p.skipUntil ss ↔ ¬ Deviates suf ss) := by
  have hle : p.pos ≤ p.input.len := h.le_len
  have text : p.input.text = pre ++ suf := h.1
  match ss with
  | [] =>
    refine ⟨_, rfl, iff_of_true ?_ ?_⟩
    · rw [plain_eq h]
      have : ((List.range (utf8Len suf)).find? fun i => hit p.input.text [] (p.pos + i)) = none := by
        rw [List.find?_eq_none]
        intro i _ hh
        obtain ⟨_, _, _, _, s, hs, _⟩ := hit_iff.mp hh
        cases hs
      rw [this]
      rfl
    · rintro (⟨h, -⟩ | ⟨_, _, h, -⟩) <;> cases h
  | [s1] =>
    refine ⟨done p ((memmemFind (bytes suf) (bytes s1)).map (p.pos + ·)), ?_, ?_⟩
    · simp only [Position.skipUntilFast, if_pos hle, Option.map_some, hay_eq h]
      cases memmemFind (bytes suf) (bytes s1) <;> rfl
    · rw [plain_eq h]
      by_cases hs : s1 = []
      · subst hs
        have : memmemFind (bytes suf) (bytes []) = some 0 := by
          rw [memmemFind, List.range_succ_eq_map, List.find?_cons]
          rfl
        rw [this]
        by_cases he : suf = []
        · subst he
          refine iff_of_false (fun hh => ?_) fun hh => hh (.inl ⟨rfl, rfl⟩)
          have := done_inj hh
          simp at this
        · refine iff_of_true ?_ ?_
          · have hn : 0 < utf8Len suf := Nat.pos_of_ne_zero fun h0 => he (utf8Len_eq_zero.mp h0)
            obtain ⟨n, hn⟩ : ∃ n, utf8Len suf = n + 1 := ⟨utf8Len suf - 1, by omega⟩
            have : hit p.input.text [[]] (p.pos + 0) = true := hit_iff.mpr ⟨pre, suf, text, h.2.symm, [], by simp, List.nil_prefix⟩
            rw [hn, List.range_succ_eq_map, List.find?_cons, this]
          · rintro (⟨-, h⟩ | ⟨_, _, h, -⟩)
            · exact he h
            · cases h
      · refine iff_of_true (congrArg (fun o => done p (Option.map (p.pos + ·) o)) ?_) ?_
        · rw [memmemFind, length_bytes, List.range_succ, List.find?_append]
          have same : ∀ i, ((bytes s1).isPrefixOf ((bytes suf).drop i)) = hit p.input.text [s1] (p.pos + i) := by
            intro i
            rw [Bool.eq_iff_iff, hit_iff, List.isPrefixOf_iff_prefix, ← hay_eq h, List.drop_drop]
            constructor
            · rintro ⟨r, hr⟩
              obtain ⟨b, hb⟩ := head_some hs
              have hi : (bytes p.input.text)[p.pos + i]? = some b := by
                have := congrArg (fun l => l[0]?) hr
                simp only [List.getElem?_drop, Nat.add_zero] at this
                rw [← this, List.getElem?_append_left, hb]
                exact List.length_pos_iff.mpr fun h0 => by rw [h0] at hb; cases hb
              obtain ⟨pre', suf', e1, e2⟩ := boundary_of_lead hi (lead_of_head hb)
              refine ⟨pre', suf', e1, e2, s1, by simp, bytes_prefix_iff.mp ⟨r, ?_⟩⟩
              rw [hr, e1, ← e2, bytes_append, ← length_bytes pre', List.drop_left]
            · rintro ⟨pre', suf', e1, e2, s, hs', hp⟩
              cases List.mem_singleton.mp hs'
              rw [e1, ← e2, bytes_append, ← length_bytes pre', List.drop_left]
              exact bytes_prefix_iff.mpr hp
          have last : [utf8Len suf].find? (fun i => (bytes s1).isPrefixOf ((bytes suf).drop i)) = none := by
            rw [List.find?_eq_none]
            intro i hi hh
            cases List.mem_singleton.mp hi
            rw [List.isPrefixOf_iff_prefix, ← length_bytes, List.drop_length] at hh
            have := List.prefix_nil.mp hh
            exact hs (utf8Len_eq_zero.mp (by rw [← length_bytes, this]; rfl))
          rw [last, Option.or_none]
          exact find_congr fun i _ => same i
        · rintro (⟨h, -⟩ | ⟨_, _, h, -⟩)
          · cases h; exact hs rfl
          · cases h
  | [s1, s2] =>
    have never : ¬ Deviates suf [s1, s2] := by rintro (⟨h, -⟩ | ⟨_, _, h, -⟩) <;> cases h
    by_cases hs : s1 ≠ [] ∧ s2 ≠ []
    · obtain ⟨b1, hb1⟩ := head_some hs.1
      obtain ⟨b2, hb2⟩ := head_some hs.2
      have hc : (!s1.isEmpty && !s2.isEmpty) = true := by simp [hs.1, hs.2]
      refine ⟨_, ?_, iff_of_true ((plain_eq h _).symm) never⟩
      simp only [Position.skipUntilFast, if_pos hc, if_pos hle, hay_eq h, hb1, hb2]
      rw [scan h hb1 hb2 _ _ (by simp), Option.map_some, Option.some.injEq]
      have : ((List.range (utf8Len suf)).find? fun i => (bytes suf)[i]?.any [b1, b2].contains && hit p.input.text [s1, s2] (p.pos + i)) =
          (List.range (utf8Len suf)).find? fun i => hit p.input.text [s1, s2] (p.pos + i) := by
        refine find_congr fun i _ => ?_
        rw [Bool.eq_iff_iff, Bool.and_eq_true, and_iff_right_iff_imp]
        intro hh
        obtain ⟨pre', suf', e1, e2, s, hs', hp⟩ := hit_iff.mp hh
        rw [head_at h, e1, ← e2]
        rcases List.mem_cons.mp hs' with rfl | hs'
        · rw [head_of_prefix hp hs.1, hb1]; simp
        · cases List.mem_singleton.mp hs'
          rw [head_of_prefix hp hs.2, hb2]; simp
      rw [this]
      cases List.find? _ _ <;> rfl
    · have hc : (!s1.isEmpty && !s2.isEmpty) = false := by
        rw [Bool.eq_false_iff]
        intro hh
        exact hs (by simpa using hh)
      refine ⟨p.skipUntil [s1, s2], ?_, iff_of_true rfl never⟩
      simp [Position.skipUntilFast, hc]
  | [s1, s2, s3] =>
    by_cases hs : s1 ≠ [] ∧ s2 ≠ [] ∧ s3 = []
    · obtain ⟨hs1, hs2, rfl⟩ := hs
      obtain ⟨b1, hb1⟩ := head_some hs1
      obtain ⟨b2, hb2⟩ := head_some hs2
      have hc : (!s1.isEmpty && !s2.isEmpty && List.isEmpty (α := Char) []) = true := by simp [hs1, hs2]
      refine ⟨done p (((List.range (utf8Len suf)).find? fun i => (bytes suf)[i]?.any [b1, b2, b2].contains && hit p.input.text [s1, s2, []] (p.pos + i)).map (p.pos + ·)), ?_, ?_⟩
      · simp only [Position.skipUntilFast, if_pos hc, if_pos hle, hay_eq h, hb1, hb2]
        rw [scan h hb1 hb2 _ _ (by simp), Option.map_some, Option.some.injEq]
        cases List.find? _ _ <;> rfl
      · rw [plain_eq h]
        by_cases he : suf = []
        · subst he
          refine iff_of_true rfl ?_
          rintro (⟨h, -⟩ | ⟨_, _, -, -, -, h, -⟩)
          · cases h
          · exact h rfl
        obtain ⟨n, hn⟩ : ∃ n, utf8Len suf = n + 1 := ⟨utf8Len suf - 1, by have : utf8Len suf ≠ 0 := fun h0 => he (utf8Len_eq_zero.mp h0); omega⟩
        have now : hit p.input.text [s1, s2, []] (p.pos + 0) = true := hit_iff.mpr ⟨pre, suf, text, h.2.symm, [], by simp, List.nil_prefix⟩
        obtain ⟨b, hb⟩ := head_some he
        rw [hn, List.range_succ_eq_map, List.find?_cons, List.find?_cons, now, hb, Option.any_some, Bool.and_true]
        by_cases hm : b = b1 ∨ b = b2
        · have : [b1, b2, b2].contains b = true := by simpa using hm
          rw [this]
          refine iff_of_true rfl ?_
          rintro (⟨h, -⟩ | ⟨_, _, h, -, -, -, k1, k2⟩)
          · cases h
          · cases h
            rw [hb, hb1] at k1
            rw [hb, hb2] at k2
            rcases hm with rfl | rfl
            · exact k1 rfl
            · exact k2 rfl
        · have : [b1, b2, b2].contains b = false := by
            rw [Bool.eq_false_iff]
            intro hh
            exact hm (by simpa using hh)
          rw [this]
          refine iff_of_false (fun hh => ?_) fun hh => hh (.inr ⟨s1, s2, rfl, hs1, hs2, he, ?_, ?_⟩)
          · have := done_inj hh
            simp only [List.find?_map] at this
            revert this
            cases List.find? _ _ with
            | none => intro h; cases h
            | some j => intro h; simp at h
          · rw [hb, hb1]; exact fun h => hm (.inl (Option.some.inj h))
          · rw [hb, hb2]; exact fun h => hm (.inr (Option.some.inj h))
    · have hc : (!s1.isEmpty && !s2.isEmpty && s3.isEmpty) = false := by
        rw [Bool.eq_false_iff]
        intro hh
        exact hs (by simpa [and_assoc] using hh)
      refine ⟨p.skipUntil [s1, s2, s3], ?_, iff_of_true rfl ?_⟩
      · simp [Position.skipUntilFast, hc]
      · rintro (⟨h, -⟩ | ⟨_, _, h, k1, k2, -⟩)
        · cases h
        · cases h; exact hs ⟨k1, k2, rfl⟩
  | s1 :: s2 :: s3 :: s4 :: ss =>
    refine ⟨_, rfl, iff_of_true rfl ?_⟩
    rintro (⟨h, -⟩ | ⟨_, _, h, -⟩) <;> cases h

/-- With `["a", "b", ""]` in front of `xa`, the variant for `memchr` skips to the `a`, although the empty string occurs at once. -/
theorem C91_three_witness : (Position.mk ⟨0, ['x', 'a']⟩ 0).skipUntilFast [['a'], ['b'], []] = some (true, ⟨⟨0, ['x', 'a']⟩, 1⟩) ∧
    (Position.mk ⟨0, ['x', 'a']⟩ 0).skipUntil [['a'], ['b'], []] = (true, ⟨⟨0, ['x', 'a']⟩, 0⟩) := by decide

/-- At the end, the variant for `memchr` finds an empty string, the other one does not. -/
theorem C91_end_witness (inp : Str) : (Position.mk inp inp.len).skipUntilFast [[]] = some (true, ⟨inp, inp.len⟩) ∧ (Position.mk inp inp.len).skipUntil [[]] = (false, ⟨inp, inp.len⟩) := by
  constructor
  · simp only [Position.skipUntilFast, Nat.le_refl, if_true, Option.map_some]
    rw [memmemFind, List.range_succ_eq_map, List.find?_cons]
    rfl
  · simp [Position.skipUntil, Position.skipUntilLoop]

example : ¬ Deviates ['x', 'ä', 'b'] [['ä', 'b'], ['c']] := by rintro (⟨h, -⟩ | ⟨_, _, h, -⟩) <;> cases h

example : (Position.mk ⟨0, ['x', 'ä', 'b']⟩ 0).skipUntilFast [['ä', 'b'], ['c']] = some (true, ⟨⟨0, ['x', 'ä', 'b']⟩, 1⟩) := by decide

end Pest3.Props
