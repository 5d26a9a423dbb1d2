import Verif.Peg
import Verif.Interp
import Verif.PositionLemmas

/-!
# `check_with_partial` of leaves, computed
-/

namespace Pest3

theorem constrainIdx_eq (i : Int) (n : Nat) : constrainIdx i n = resolveIdx i n := by
  unfold constrainIdx resolveIdx
  by_cases h1 : i > (n : Int)
  · rw [if_pos h1, if_pos (by omega), if_neg (by omega)]
  · rw [if_neg h1]
    by_cases h2 : i ≥ 0
    · rw [if_pos h2, if_pos (by omega), if_pos (by omega)]
    · rw [if_neg h2, if_neg (c := 0 ≤ i) (by omega)]
      by_cases h3 : i ≥ -(n : Int)
      · rw [if_pos h3, if_pos (by omega)]
      · rw [if_neg h3, if_neg (by omega)]

theorem resolveIdx_le {i : Int} {n k : Nat} (h : resolveIdx i n = some k) : k ≤ n := by
  unfold resolveIdx at h
  split at h
  · split at h
    · cases h; omega
    · cases h
  · split at h
    · cases h; omega
    · cases h

/-- The span refers to the text `t`. -/
def Span.Is (s : Span) (t : Text) : Prop := s.asStr = some t

/-- The texts of the spans on a stack. -/
inductive Texts : List Span → List Text → Prop
  | nil : Texts [] []
  | cons {s t ss ts} : s.Is t → Texts ss ts → Texts (s :: ss) (t :: ts)

namespace Texts

theorem length {ss ts} (h : Texts ss ts) : ss.length = ts.length := by
  induction h with
  | nil => rfl
  | cons _ _ ih => simp [ih]

theorem append {ss ts ss' ts'} (h : Texts ss ts) (h' : Texts ss' ts') :
    Texts (ss ++ ss') (ts ++ ts') := by
  induction h with
  | nil => exact h'
  | cons h1 _ ih => exact .cons h1 ih

theorem reverse {ss ts} (h : Texts ss ts) : Texts ss.reverse ts.reverse := by
  induction h with
  | nil => exact .nil
  | cons h1 _ ih => simpa using ih.append (.cons h1 .nil)

theorem take {ss ts} (h : Texts ss ts) (n : Nat) : Texts (ss.take n) (ts.take n) := by
  induction h generalizing n with
  | nil => simpa using Texts.nil
  | cons h1 _ ih => cases n with
    | zero => exact .nil
    | succ n => exact .cons h1 (ih n)

theorem drop {ss ts} (h : Texts ss ts) (n : Nat) : Texts (ss.drop n) (ts.drop n) := by
  induction h generalizing n with
  | nil => simpa using Texts.nil
  | cons h1 h2 ih => cases n with
    | zero => exact .cons h1 h2
    | succ n => exact ih n

theorem dropLast {ss ts} (h : Texts ss ts) : Texts ss.dropLast ts.dropLast := by
  rw [List.dropLast_eq_take, List.dropLast_eq_take, h.length]; exact h.take _

theorem getLast? {ss ts} (h : Texts ss ts) :
    (ss.getLast? = none ∧ ts.getLast? = none) ∨
      ∃ s t, ss.getLast? = some s ∧ ts.getLast? = some t ∧ s.Is t := by
  have h' := h.reverse
  rw [← List.head?_reverse, ← List.head?_reverse]
  revert h'
  generalize ss.reverse = a
  generalize ts.reverse = b
  intro h'
  cases h' with
  | nil => exact .inl ⟨rfl, rfl⟩
  | cons h1 _ => exact .inr ⟨_, _, rfl, rfl, h1⟩

end Texts

theorem peekSpansLoop_eq {ss : List Span} {ts : List Text} (h : Texts ss ts) :
    ∀ {p : Position} {pre suf : Text}, p.At pre suf →
    peekSpansLoop p ss =
      some ((eatText ts.flatten suf).map fun m => ⟨p.input, p.pos + utf8Len m⟩) := by
  induction h with
  | nil =>
    intro p pre suf hp
    simp [peekSpansLoop, eatText]
  | @cons s t ss ts h1 h2 ih =>
    intro p pre suf hp
    unfold Span.Is at h1
    simp only [peekSpansLoop, h1]
    rw [hp.matchString]
    by_cases ht : t <+: suf
    · rw [if_pos ht]
      obtain ⟨suf', rfl⟩ := ht
      simp only
      rw [ih hp.advance]
      unfold eatText
      simp only [List.flatten_cons, List.prefix_append_right_inj]
      split
      · simp [Nat.add_assoc]
      · simp
    · rw [if_neg ht]
      unfold eatText
      rw [if_neg]
      · simp
      · intro hh
        exact ht ((List.prefix_append t _).trans (by simpa using hh))

theorem eatText_some {m suf r : Text} (h : eatText m suf = some r) : r = m ∧ ∃ rest, suf = m ++ rest := by
  unfold eatText at h
  split at h
  · next hp =>
    obtain ⟨rest, rfl⟩ := hp
    cases h
    exact ⟨rfl, rest, rfl⟩
  · cases h

theorem Position.At.span {p : Position} {pre m suf : Text} (h : p.At pre (m ++ suf)) :
    p.span ⟨p.input, p.pos + utf8Len m⟩ = some ⟨p.input, p.pos, p.pos + utf8Len m⟩ :=
  Position.span_eq_some rfl h.valid h.advance.valid (by simp)

theorem Position.At.span_is {p : Position} {pre m suf : Text} (h : p.At pre (m ++ suf)) :
    (Span.mk p.input p.pos (p.pos + utf8Len m)).Is m := by
  unfold Span.Is Span.asStr
  simp only [h.1, h.2]
  rw [← List.append_assoc]
  exact getRange_append pre m suf

theorem peekSpans_eq {ss : List Span} {ts : List Text} (h : Texts ss ts)
    {p : Position} {pre suf : Text} (hp : p.At pre suf) :
    peekSpans p ss =
      some ((eatText ts.flatten suf).map fun m =>
        (⟨p.input, p.pos + utf8Len m⟩, ⟨p.input, p.pos, p.pos + utf8Len m⟩)) := by
  unfold peekSpans
  rw [peekSpansLoop_eq h hp]
  cases he : eatText ts.flatten suf with
  | none => rfl
  | some m =>
    obtain ⟨rfl, rest, rfl⟩ := eatText_some he
    simp only [Option.map_some, hp.span]

/-- The error reported by a leaf that cannot even be tried. -/
def leafSpecial (l : Leaf) (n : Nat) : Option SpecialError :=
  match l with
  | .peek | .drop | .pop => if n = 0 then some .emptyStack else none
  | .slice2 a b => if (constrainIdxs a (some b) n).isSome then none else some (.sliceOutOfBound a (some b))
  | .slice1 a => if (constrainIdxs a none n).isSome then none else some (.sliceOutOfBound a none)
  | _ => none

/-- The stack after a leaf. -/
def leafStk {S : Type} (so : StackOps S) (l : Leaf) (success : Bool) (s : S) : S :=
  match l with
  | .drop | .pop => (so.pop s).2
  | .popAll => if success then popLoop so ((so.elems s).length + 1) s else s
  | _ => s

/-- The position after consuming `m`. -/
def Position.after (p : Position) (m : Text) : Position := ⟨p.input, p.pos + utf8Len m⟩

theorem matchCharByRes_eq {p : Position} {pre suf : Text} (h : p.At pre suf) (f : Char → Bool) :
    matchCharByRes p f = match suf with
      | [] => some (none, p)
      | c :: _ => if f c then some (some c, ⟨p.input, p.pos + c.utf8Size⟩) else some (none, p) := by
  unfold matchCharByRes
  rw [h.getFrom]
  cases suf <;> rfl

theorem ite_bool_match {α : Type} (c : Prop) [Decidable c] (q p : Position) (x : Position → α) (y : α) :
    (match (if c then (true, q) else (false, p) : Bool × Position) with
      | (true, p) => x p
      | (false, _) => y) = if c then x q else y := by
  by_cases h : c <;> simp [h]

section
variable {S T : Type} {so : StackOps S} {saved : S → List (List Span)} (hl : Lawful so saved)
  (tk : TrackerOps T)

include hl in
theorem peekAllSpan_eq {p : Position} {pre suf : Text} {st : St S T} {stk : List Text}
    (hp : p.At pre suf) (ht : Texts (so.elems st.stk) stk) :
    peekAllSpan so p st =
      .ok ((eatText stk.reverse.flatten suf).map fun m =>
        (⟨p.input, p.pos + utf8Len m⟩, ⟨p.input, p.pos, p.pos + utf8Len m⟩), st) := by
  have _ := hl
  unfold peekAllSpan sliceRange
  rw [if_pos ⟨Nat.zero_le _, Nat.le_refl _⟩]
  simp only [List.take_length, List.drop_zero, Out.lift_some]
  rw [peekSpans_eq ht.reverse hp]
  rfl


theorem constrainIdxs_le {a : Int} {b : Option Int} {n : Nat} {r : Nat × Nat}
    (h : constrainIdxs a b n = some r) : r.2 ≤ n := by
  unfold constrainIdxs at h
  simp only [constrainIdx_eq] at h
  split at h
  · next e1 e2 =>
    cases h
    split at e2
    · exact resolveIdx_le e2
    · cases e2; exact Nat.le_refl _
  · cases h

theorem sliceSpec_eq (stk : List Text) (a : Int) (b : Option Int) :
    sliceSpec stk a b =
      (constrainIdxs a b stk.length).map fun r => (stk.take r.2).drop r.1 := by
  unfold sliceSpec constrainIdxs
  simp only [constrainIdx_eq]
  cases b with
  | none => cases resolveIdx a stk.length <;> rfl
  | some b =>
    simp only
    cases resolveIdx a stk.length <;> cases resolveIdx b stk.length <;> rfl

theorem stackSlice_eq {p : Position} {st : St S T} {stk : List Text}
    (ht : Texts (so.elems st.stk) stk) (a : Int) (b : Option Int) :
    stackSlice so tk p a b st = match constrainIdxs a b stk.length with
      | none => Out.lift (tk.special p (.sliceOutOfBound a b) st.trk) fun t => .ok (none, { st with trk := t })
      | some r => .ok (some (((so.elems st.stk).take r.2).drop r.1), st) := by
  unfold stackSlice
  rw [ht.length]
  cases h : constrainIdxs a b stk.length with
  | none => rfl
  | some r =>
    have hle := constrainIdxs_le h
    obtain ⟨i, j⟩ := r
    simp only at hle ⊢
    by_cases hij : j ≤ i
    · rw [if_pos hij]
      congr
      symm
      simp
      omega
    · rw [if_neg hij]
      unfold sliceRange
      rw [if_pos ⟨by omega, by rw [ht.length]; exact hle⟩]
      rfl

include hl in
theorem leafCheck_eq {p : Position} {pre suf : Text} {st : St S T} {stk : List Text}
    (hp : p.At pre suf) (ht : Texts (so.elems st.stk) stk) (l : Leaf) :
    leafCheck so tk l p st =
      match leafSpecial l stk.length with
      | some e => Out.lift (tk.special p e st.trk) fun t =>
          .ok (none, ⟨leafStk so l false st.stk, t⟩)
      | none =>
        .ok ((leafSpec l ⟨pre, suf, stk⟩).map fun m => p.after m.1,
          ⟨leafStk so l (leafSpec l ⟨pre, suf, stk⟩).isSome st.stk, st.trk⟩) := by
  cases l with
  | str s =>
    by_cases h : s <+: suf <;>
      simp [leafCheck, leafSpecial, leafSpec, leafStk, hp.matchString, eatText, h, Position.after]
  | insens s =>
    simp only [leafCheck, leafSpecial, leafSpec, leafStk, hp.matchInsensitive, insensPrefix, beq_iff_eq]
    by_cases h : (suf.take s.length).map Char.toLower = s.map Char.toLower
    · have : utf8Len s = utf8Len (suf.take s.length) := by
        rw [← utf8Len_map_toLower s, ← h, utf8Len_map_toLower]
      simp [h, Position.after, this]
    · rw [if_neg h, if_neg h]; rfl
  | skipChar n =>
    by_cases h : n ≤ suf.length <;>
      simp [leafCheck, leafSpecial, leafSpec, leafStk, hp.skip, h, Position.after]
  | range lo hi =>
    simp only [leafCheck, leafSpecial, leafSpec, leafStk, hp.matchRange]
    cases suf with
    | nil => simp [eatChar]
    | cons c cs =>
      by_cases h : lo ≤ c ∧ c ≤ hi <;> simp [eatChar, h, Position.after]
  | chr c =>
    simp only [leafCheck, leafSpecial, leafSpec, leafStk, hp.matchString]
    cases suf with
    | nil => simp [eatChar]
    | cons d ds =>
      by_cases h : c = d <;> simp [eatChar, h, Position.after, List.prefix_cons_iff]
  | prop f =>
    simp only [leafCheck, leafSpecial, leafSpec, leafStk, matchCharByRes_eq hp]
    cases suf with
    | nil => simp [eatChar]
    | cons d ds =>
      by_cases h : f d <;> simp [eatChar, h, Position.after]
  | any =>
    simp only [leafCheck, leafSpecial, leafSpec, leafStk, hp.matchCharBy]
    cases suf with
    | nil => simp [eatChar]
    | cons d ds => simp [eatChar, Position.after]
  | none => rfl
  | empty => rfl
  | soi =>
    simp only [leafCheck, leafSpecial, leafSpec, leafStk, hp.atStart]
    cases pre <;> simp [Position.after]
  | eoi =>
    simp only [leafCheck, leafSpecial, leafSpec, leafStk, hp.atEnd]
    cases suf <;> simp [Position.after]
  | newline =>
    simp only [leafCheck, leafSpecial, leafSpec, leafStk]
    rw [hp.matchString]
    by_cases h1 : ['\r', '\n'] <+: suf
    · obtain ⟨r, rfl⟩ := h1
      simp [Position.after]
    · rw [if_neg h1]
      simp only
      rw [hp.matchString]
      by_cases h2 : ['\n'] <+: suf
      · obtain ⟨r, rfl⟩ := h2
        simp [Position.after]
      · rw [if_neg h2]
        simp only
        rw [hp.matchString]
        by_cases h3 : ['\r'] <+: suf
        · obtain ⟨r, rfl⟩ := h3
          simp only [List.cons_append, List.nil_append]
          cases r with
          | nil => simp [Position.after]
          | cons d r =>
            by_cases h4 : d = '\n'
            · subst h4; simp at h1
            · simp [h4, Position.after]
        · rw [if_neg h3]
          cases suf with
          | nil => rfl
          | cons d r =>
            have h2' : ¬ d = '\n' := fun e => h2 (by simp [e])
            have h3' : ¬ d = '\r' := fun e => h3 (by simp [e])
            simp [h2', h3']
  | peekAll =>
    simp only [leafCheck, leafSpecial, leafSpec, leafStk, peekAllSpan_eq hl hp ht]
    cases eatText stk.reverse.flatten suf <;> simp [Position.after]
  | peek =>
    simp only [leafCheck, leafSpecial, leafSpec, leafStk, peekOr, hl.peek_val]
    rcases ht.getLast? with ⟨e1, e2⟩ | ⟨s, t, e1, e2, h⟩
    · have : stk.length = 0 := by simpa using e2
      simp only [e1, this, if_pos]
      cases tk.special p SpecialError.emptyStack st.trk <;> rfl
    · have h0 : stk.length ≠ 0 := by intro h0; simp_all
      unfold Span.Is at h
      simp only [e1, e2, h0, if_false, Out.andThen_some, h, Out.lift_some, hp.matchString]
      by_cases hh : t <+: suf <;> simp [eatText, hh, Position.after]
  | drop =>
    simp only [leafCheck, leafSpecial, leafSpec, leafStk, popOr]
    have hv := hl.pop_val st.stk
    obtain ⟨v, s', hs⟩ : ∃ v s', so.pop st.stk = (v, s') := ⟨_, _, rfl⟩
    rw [hs] at hv ⊢
    simp only at hv
    subst hv
    rcases ht.getLast? with ⟨e1, e2⟩ | ⟨s, t, e1, e2, h⟩
    · have : stk.length = 0 := by simpa using e2
      simp only [e1, this, if_pos]
      cases tk.special p SpecialError.emptyStack st.trk <;> rfl
    · have h0 : stk.length ≠ 0 := by intro h0; simp_all
      have h1 : stk ≠ [] := by intro h0; simp_all
      simp [e1, h1, Position.after]
  | pop =>
    simp only [leafCheck, leafSpecial, leafSpec, leafStk, popOr]
    have hv := hl.pop_val st.stk
    obtain ⟨v, s', hs⟩ : ∃ v s', so.pop st.stk = (v, s') := ⟨_, _, rfl⟩
    rw [hs] at hv ⊢
    simp only at hv
    subst hv
    rcases ht.getLast? with ⟨e1, e2⟩ | ⟨s, t, e1, e2, h⟩
    · have : stk.length = 0 := by simpa using e2
      simp only [e1, this, if_pos]
      cases tk.special p SpecialError.emptyStack st.trk <;> rfl
    · have h0 : stk.length ≠ 0 := by intro h0; simp_all
      unfold Span.Is at h
      simp only [e1, e2, h0, if_false, Out.andThen_some, h, Out.lift_some, hp.matchString]
      by_cases hh : t <+: suf <;> simp [eatText, hh, Position.after]
  | popAll =>
    simp only [leafCheck, leafSpecial, leafSpec, leafStk, peekAllSpan_eq hl hp ht]
    by_cases h : stk.reverse.flatten <+: suf <;> simp [eatText, h, Position.after]
  | slice2 a b =>
    simp only [leafCheck, leafSpecial, leafSpec, leafStk]
    rw [stackSlice_eq tk ht, sliceSpec_eq]
    cases h : constrainIdxs a (some b) stk.length with
    | none =>
      simp only [Option.isSome_none, Bool.false_eq_true, if_false]
      cases tk.special p (SpecialError.sliceOutOfBound a (some b)) st.trk <;> rfl
    | some r =>
      simp only [Option.isSome_some, if_true, Out.andThen_some]
      rw [peekSpans_eq ((ht.take r.2).drop r.1) hp]
      by_cases hh : ((stk.take r.2).drop r.1).flatten <+: suf <;> simp [eatText, hh, Position.after]
  | slice1 a =>
    simp only [leafCheck, leafSpecial, leafSpec, leafStk]
    rw [stackSlice_eq tk ht, sliceSpec_eq]
    cases h : constrainIdxs a none stk.length with
    | none =>
      simp only [Option.isSome_none, Bool.false_eq_true, if_false]
      cases tk.special p (SpecialError.sliceOutOfBound a none) st.trk <;> rfl
    | some r =>
      simp only [Option.isSome_some, if_true, Out.andThen_some]
      rw [peekSpans_eq ((ht.take r.2).drop r.1) hp]
      by_cases hh : ((stk.take r.2).drop r.1).flatten <+: suf <;> simp [eatText, hh, Position.after]


include hl in
theorem popLoop_facts : ∀ (n : Nat) (s : S), (so.elems s).length < n →
    so.elems (popLoop so n s) = [] ∧ saved (popLoop so n s) = saved s
  | 0, _, h => absurd h (by omega)
  | n + 1, s, h => by
    have hv := hl.pop_val s
    have he := hl.elems_pop s
    have hs := hl.saved_pop s
    obtain ⟨v, s', hp⟩ : ∃ v s', so.pop s = (v, s') := ⟨_, _, rfl⟩
    simp only [popLoop, hp] at hv he hs ⊢
    cases v with
    | none =>
      have : so.elems s = [] := by simpa using hv.symm
      simp [he, hs, this]
    | some x =>
      have hlen : (so.elems s').length < n := by
        rw [he, List.length_dropLast]
        have : so.elems s ≠ [] := by intro h0; simp [h0] at hv
        have := List.length_pos_iff.2 this
        omega
      obtain ⟨h1, h2⟩ := popLoop_facts n s' hlen
      exact ⟨h1, h2.trans hs⟩

include hl in
theorem leafStk_saved (l : Leaf) (b : Bool) (s : S) : saved (leafStk so l b s) = saved s := by
  cases l <;> simp only [leafStk, hl.saved_pop]
  split
  · exact (popLoop_facts hl _ s (by omega)).2
  · rfl

/-- How a leaf changes the elements of the stack. -/
def leafElems {α : Type} (l : Leaf) (success : Bool) (e : List α) : List α :=
  match l with
  | .drop | .pop => e.dropLast
  | .popAll => if success then [] else e
  | _ => e

include hl in
theorem leafStk_elems (l : Leaf) (b : Bool) (s : S) :
    so.elems (leafStk so l b s) = leafElems l b (so.elems s) := by
  cases l <;> simp only [leafStk, leafElems, hl.elems_pop]
  split
  · exact (popLoop_facts hl _ s (by omega)).1
  · rfl

theorem leafElems_subset {α : Type} (l : Leaf) (b : Bool) (e : List α) :
    ∀ x ∈ leafElems l b e, x ∈ e := by
  intro x hx
  cases l <;> simp only [leafElems] at hx <;> try exact hx
  · exact List.dropLast_subset _ hx
  · exact List.dropLast_subset _ hx
  · split at hx
    · cases hx
    · exact hx

theorem leafSpec_stk {l : Leaf} {c : Cfg} {m : Text} {stk : List Text}
    (h : leafSpec l c = some (m, stk)) : stk = leafElems l true c.stk := by
  cases l <;> simp only [leafSpec, leafElems] at h ⊢
  all_goals first
    | (split at h <;> simp_all <;> (obtain ⟨_, _, _, h⟩ := h; exact h.symm))
    | (split at h <;> simp_all)
    | (simp at h; obtain ⟨_, _, _, h⟩ := h; exact h.symm)
    | (simp at h; obtain ⟨_, _, _, h⟩ := h; exact h)
    | simp_all

theorem leafSpec_prefix {l : Leaf} {c : Cfg} {m : Text} {stk : List Text}
    (h : leafSpec l c = some (m, stk)) : ∃ rest, c.suf = m ++ rest := by
  have hc : ∀ {f : Char → Bool} {suf : Text} {m : Text}, eatChar f suf = some m →
      ∃ rest, suf = m ++ rest := by
    intro f suf m h
    cases suf with
    | nil => cases h
    | cons d ds =>
      simp only [eatChar] at h
      split at h
      · cases h; exact ⟨ds, rfl⟩
      · cases h
  have ht : ∀ {a : Text} {suf : Text} {m : Text}, eatText a suf = some m → ∃ rest, suf = m ++ rest := by
    intro a suf m h
    obtain ⟨rfl, r, hr⟩ := eatText_some h
    exact ⟨r, hr⟩
  cases l <;> simp only [leafSpec, Option.map_eq_some_iff, Prod.mk.injEq] at h
  case str => obtain ⟨a, h1, rfl, _⟩ := h; exact ht h1
  case insens s =>
    split at h
    · cases h; exact ⟨c.suf.drop s.length, by simp⟩
    · cases h
  case skipChar n =>
    split at h
    · cases h; exact ⟨c.suf.drop n, by simp⟩
    · cases h
  case range => obtain ⟨a, h1, rfl, _⟩ := h; exact hc h1
  case chr => obtain ⟨a, h1, rfl, _⟩ := h; exact hc h1
  case prop => obtain ⟨a, h1, rfl, _⟩ := h; exact hc h1
  case any => obtain ⟨a, h1, rfl, _⟩ := h; exact hc h1
  case none => cases h
  case empty => cases h; exact ⟨c.suf, rfl⟩
  case soi =>
    split at h
    · cases h; exact ⟨c.suf, rfl⟩
    · cases h
  case eoi =>
    split at h
    · cases h; exact ⟨c.suf, rfl⟩
    · cases h
  case newline =>
    split at h
    · next e => cases h; exact ⟨_, e⟩
    · next e => cases h; exact ⟨_, e⟩
    · next e => cases h; exact ⟨_, e⟩
    · cases h
  case peekAll => obtain ⟨a, h1, rfl, _⟩ := h; exact ht h1
  case peek =>
    split at h
    · simp only [Option.map_eq_some_iff, Prod.mk.injEq] at h
      obtain ⟨a, h1, rfl, _⟩ := h; exact ht h1
    · cases h
  case drop =>
    split at h
    · cases h
    · cases h; exact ⟨c.suf, rfl⟩
  case pop =>
    split at h
    · simp only [Option.map_eq_some_iff, Prod.mk.injEq] at h
      obtain ⟨a, h1, rfl, _⟩ := h; exact ht h1
    · cases h
  case popAll => obtain ⟨a, h1, rfl, _⟩ := h; exact ht h1
  case slice2 =>
    split at h
    · simp only [Option.map_eq_some_iff, Prod.mk.injEq] at h
      obtain ⟨a, h1, rfl, _⟩ := h; exact ht h1
    · cases h
  case slice1 =>
    split at h
    · simp only [Option.map_eq_some_iff, Prod.mk.injEq] at h
      obtain ⟨a, h1, rfl, _⟩ := h; exact ht h1
    · cases h

theorem leafSpecial_spec {l : Leaf} {c : Cfg} {e : SpecialError}
    (h : leafSpecial l c.stk.length = some e) : leafSpec l c = none := by
  cases l <;> simp only [leafSpecial, leafSpec] at h ⊢ <;> try cases h
  case peek =>
    split at h
    · next h0 => have : c.stk = [] := by simpa using h0
                 simp [this]
    · cases h
  case drop =>
    split at h
    · next h0 => have : c.stk = [] := by simpa using h0
                 simp [this]
    · cases h
  case pop =>
    split at h
    · next h0 => have : c.stk = [] := by simpa using h0
                 simp [this]
    · cases h
  case slice2 =>
    split at h
    · cases h
    · next h0 => rw [sliceSpec_eq]; simp at h0; simp [h0]
  case slice1 =>
    split at h
    · cases h
    · next h0 => rw [sliceSpec_eq]; simp at h0; simp [h0]

theorem Texts.leafElems {ss : List Span} {ts : List Text} (h : Texts ss ts) (l : Leaf) (b : Bool) :
    Texts (leafElems l b ss) (leafElems l b ts) := by
  cases l <;> simp only [Pest3.leafElems] <;> try exact h
  · exact h.dropLast
  · exact h.dropLast
  · split
    · exact .nil
    · exact h

/-- A list of valid spans has texts. -/
theorem texts_of_valid {ss : List Span} (h : ∀ s ∈ ss, s.Valid) : ∃ ts, Texts ss ts := by
  induction ss with
  | nil => exact ⟨[], .nil⟩
  | cons s ss ih =>
    obtain ⟨ts, hts⟩ := ih fun x hx => h x (by simp [hx])
    have hv := h s (by simp)
    have : (getRange s.input.text s.start s.stop).isSome := getRange_isSome.2 hv
    obtain ⟨t, ht⟩ := Option.isSome_iff_exists.1 this
    exact ⟨t :: ts, .cons ht hts⟩

theorem Texts.valid {ss : List Span} {ts : List Text} (h : Texts ss ts) : ∀ s ∈ ss, s.Valid := by
  induction h with
  | nil => intro s hs; cases hs
  | @cons s t ss ts h1 h2 ih =>
    intro x hx
    rcases List.mem_cons.1 hx with rfl | hx
    · have : (getRange x.input.text x.start x.stop).isSome := by
        unfold Span.Is Span.asStr at h1; rw [h1]; rfl
      exact getRange_isSome.1 this
    · exact ih x hx

end

end Pest3
