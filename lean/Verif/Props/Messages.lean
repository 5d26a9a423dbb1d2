import Verif.MessageSpec
import Verif.Props.Errors

/-!
# Property C60: the text of error messages
-/

namespace Pest3.Props
open Pest3

theorem joined_intersperse (l : List Text) : Joined l (l.intersperse [',', ' ']).flatten := by
  induction l with
  | nil => exact .nil
  | cons x l ih =>
    cases l with
    | nil => simpa using Joined.one x
    | cons y l =>
      have : ((x :: y :: l).intersperse [',', ' ']).flatten = x ++ ", ".toList ++ ((y :: l).intersperse [',', ' ']).flatten := by
        simp [List.intersperse]
      rw [this]
      exact .cons ih

theorem showsSet_collect (sh : Label → Text) (l : List Label) : ShowsSet sh (· ∈ l) (collectRules sh (sortDedup l)) :=
  ⟨sortDedup l, _, (sortDedup_spec l).1, (sortDedup_spec l).2, joined_intersperse _, rfl⟩

theorem sortDedup_isEmpty (l : List Label) : (sortDedup l).isEmpty = true ↔ ∀ x, ¬ x ∈ l := by
  rw [List.isEmpty_iff]
  constructor
  · intro h x hx
    have := ((sortDedup_spec l).2 x).2 hx
    rw [h] at this; simp at this
  · intro h
    apply List.eq_nil_iff_forall_not_mem.2
    exact fun x hx => h x (((sortDedup_spec l).2 x).1 hx)

theorem sortDedup_not_isEmpty (l : List Label) : (sortDedup l).isEmpty = false ↔ ∃ x, x ∈ l := by
  rw [← Bool.not_eq_true, sortDedup_isEmpty]
  exact ⟨fun h => Classical.byContradiction fun hn => h fun x hx => hn ⟨x, hx⟩, fun ⟨x, hx⟩ h => h x hx⟩

theorem digits_ascii (n : Nat) : utf8Len (showNat n) = (Nat.toDigits 10 n).length := by
  have key : ∀ l : Text, (∀ c ∈ l, c.isDigit = true) → utf8Len l = l.length := by
    intro l h
    induction l with
    | nil => rfl
    | cons c l ih =>
      have hc := h c List.mem_cons_self
      have : c.utf8Size = 1 := by
        rw [Char.utf8Size_eq_one_iff]
        simp only [Char.isDigit, Bool.and_eq_true, decide_eq_true_eq] at hc
        have := hc.2
        exact UInt32.le_trans this (by decide)
      simp only [utf8Len, List.length_cons, this, ih fun x hx => h x (List.mem_cons_of_mem _ hx)]
      omega
  have e : showNat n = Nat.toDigits 10 n := by
    unfold showNat
    simp [toString, Nat.repr]
  rw [e]
  exact key _ fun c hc => Nat.isDigit_of_mem_toDigits (by decide) (by decide) hc

theorem showInt_decimal (i : Int) : showInt i = decimal i := by
  unfold showInt decimal
  cases i with
  | ofNat n => simp [toString, Int.repr, Nat.repr]
  | negSucc n => simp [toString, Int.repr, Nat.repr]

theorem illegal_message (e : SpecialError) : Illegal e e.message := by
  match e with
  | .sliceOutOfBound a none =>
    have := @Illegal.slice a
    rwa [← showInt_decimal] at this
  | .sliceOutOfBound a (some b) =>
    have := @Illegal.slice2 a b
    rwa [← showInt_decimal, ← showInt_decimal] at this
  | .repeatTooManyTimes => exact .repeated
  | .emptyStack => exact .empty

theorem illegals_messages (suffix : Text) (l : List SpecialError) : Illegals suffix l (l.map fun e => e.message ++ suffix) := by
  induction l with
  | nil => exact .nil
  | cons e l ih => exact .cons (illegal_message e) ih

theorem group_lines (sh : Label → Text) (sp : Text) (g : Option Label × Tracked) :
    ∃ ls, GroupLines sh g.1 g.2 ls ∧ writeMessage sh sp g = (ls.map fun l => sp ++ l).flatten := by
  obtain ⟨up, tr⟩ := g
  have hs : ∃ s, Sentence sh (· ∈ tr.positives) (· ∈ tr.negatives) s ∧ (up = none → writeMessage sh sp (up, tr) =
        sp ++ s ++ ['.'] ++ (tr.specials.map fun e => sp ++ e.message).flatten) ∧
      (∀ r, up = some r → writeMessage sh sp (up, tr) = sp ++ s ++ ", by ".toList ++ sh r ++ ['.'] ++
        (tr.specials.map fun e => sp ++ e.message ++ " (By ".toList ++ sh r ++ [')']).flatten) := by
    cases hp : (sortDedup tr.positives).isEmpty <;> cases hn : (sortDedup tr.negatives).isEmpty
    · refine ⟨_, .both ((sortDedup_not_isEmpty _).1 hp) ((sortDedup_not_isEmpty _).1 hn) (showsSet_collect _ _) (showsSet_collect _ _),
        fun h => ?_, fun r h => ?_⟩ <;> subst h <;> simp [writeMessage, hp, hn]
    · refine ⟨_, .expected ((sortDedup_not_isEmpty _).1 hp) ((sortDedup_isEmpty _).1 hn) (showsSet_collect _ _),
        fun h => ?_, fun r h => ?_⟩ <;> subst h <;> simp [writeMessage, hp, hn]
    · refine ⟨_, .unexpected ((sortDedup_isEmpty _).1 hp) ((sortDedup_not_isEmpty _).1 hn) (showsSet_collect _ _),
        fun h => ?_, fun r h => ?_⟩ <;> subst h <;> simp [writeMessage, hp, hn]
    · refine ⟨_, .unknown ((sortDedup_isEmpty _).1 hp) ((sortDedup_isEmpty _).1 hn),
        fun h => ?_, fun r h => ?_⟩ <;> subst h <;> simp [writeMessage, hp, hn]
  obtain ⟨s, h1, h2, h3⟩ := hs
  cases up with
  | none =>
    refine ⟨_, .byNone rfl h1 (illegals_messages _ _), ?_⟩
    rw [h2 rfl]
    simp [List.map_map, Function.comp_def]
  | some r =>
    refine ⟨_, .byRule rfl h1 (illegals_messages _ _), ?_⟩
    rw [h3 r rfl]
    simp [List.map_map, Function.comp_def]

theorem reads_at (sh : Label → Text) {t : Tracker} {pre suf : Text} (h : t.position.At pre suf) :
    ∃ msg, t.collect sh = some ⟨t.position, msg⟩ ∧ Reads sh (1 + pre.count '\n') (sinceNewline pre) t.attempts msg := by
  refine ⟨_, collect_valid sh h, ?_⟩
  rw [digits_ascii]
  refine ⟨fun g => Classical.choose (group_lines sh
    ('\n' :: List.replicate ((Nat.toDigits 10 (1 + pre.count '\n')).length + 3) ' ') g), fun g _ => ?_, ?_⟩
  · exact (Classical.choose_spec (group_lines sh _ g)).1
  · congr 1
    generalize t.attempts = l
    induction l with
    | nil => rfl
    | cons g l ih =>
      rw [List.map_cons, List.flatten_cons, ih, List.flatMap_cons, List.map_append, List.flatten_append]
      congr 1
      exact (Classical.choose_spec (group_lines sh _ g)).2

/-- The message of a tracker: the text of the line up to the position, a marker, and one indented line per group of attempts and
per illegal stack access, saying exactly what was tracked. -/
theorem C60_message (sh : Label → Text) (t : Tracker) (hv : t.position.Valid) :
    ∃ before current after, t.position.input.text = before ++ current ++ after ∧
      utf8Len (before ++ current) = t.position.pos ∧ '\n' ∉ current ∧ (before = [] ∨ ∃ b, before = b ++ ['\n']) ∧
      ∃ msg, t.collect sh = some ⟨t.position, msg⟩ ∧ Reads sh (1 + before.count '\n') current t.attempts msg := by
  obtain ⟨pre, suf, hat⟩ := Position.valid_iff_at.1 hv
  refine ⟨uptoNewline pre, sinceNewline pre, suf, ?_, ?_, sinceNewline_not_mem pre, ?_, ?_⟩
  · rw [uptoNewline_append_sinceNewline]; exact hat.1
  · rw [uptoNewline_append_sinceNewline]; exact hat.2.symm
  · by_cases hm : '\n' ∈ pre
    · exact Or.inr (uptoNewline_ends hm)
    · exact Or.inl (uptoNewline_eq_nil hm)
  · have : (uptoNewline pre).count '\n' = pre.count '\n' := by
      conv => rhs; rw [← uptoNewline_append_sinceNewline pre]
      rw [List.count_append, List.count_eq_zero.2 (sinceNewline_not_mem pre), Nat.add_zero]
    rw [this]
    exact reads_at sh hat

theorem fullTraces_det {env : Env} {n : Node} {inp : Str} {b b' : Bool} {es es' : List Ev} (h : FullTraces env n inp b es)
    (h' : FullTraces env n inp b' es') : b = b' ∧ es = es' := by
  cases h with
  | fail h =>
    cases h' with
    | fail h' => exact ⟨rfl, (h.det h').2⟩
    | ok h' => cases (h.det h').1
  | ok h =>
    cases h' with
    | fail h' => cases (h.det h').1
    | ok h' =>
      obtain ⟨e1, e2⟩ := h.det h'
      cases e1
      exact ⟨rfl, by rw [e2]⟩

/-- The error of `try_parse`: the groups of the message are those of the events of the parse. -/
theorem C60_try_parse {S : Type} {so : StackOps S} {saved : S → List (List Span)} (hl : Lawful so saved) (env : Env) {inp : Str}
    (sh : Label → Text) (fuel : Nat) (n : Node) (t : Tracker) (h : tryParse so env fuel n inp = .ok (.error t)) :
    ∃ es, FullTraces env n inp false es ∧ Furthest inp 0 [] es t ∧ Listed [] es t ∧
      ∃ before current after, inp.text = before ++ current ++ after ∧ utf8Len (before ++ current) = t.position.pos ∧
        '\n' ∉ current ∧ (before = [] ∨ ∃ b, before = b ++ ['\n']) ∧
        ∃ msg, t.collect sh = some ⟨t.position, msg⟩ ∧ Reads sh (1 + before.count '\n') current t.attempts msg := by
  obtain ⟨es, h1, h2⟩ := C33_try_parse hl env fuel n t h
  obtain ⟨es', h1', h3⟩ := C34_try_parse hl env fuel n t h
  obtain rfl := (fullTraces_det h1 h1').2
  have := C60_message sh t h2.valid
  rw [h2.input] at this
  exact ⟨es, h1, h2, h3, this⟩

/-- Two rules expected and one unexpected, within rule 1, on the second line. -/
example : ∃ msg, (Tracker.mk ⟨⟨7, "a\nbc".toList⟩, 3⟩ true [(some 1, ⟨[3, 2, 3], [4], [.emptyStack]⟩)] []).collect
    (fun r => ['R'] ++ showNat r) = some ⟨⟨⟨7, "a\nbc".toList⟩, 3⟩, msg⟩ ∧
    msg = "b^---\n    Unexpected [R4], expected [R2, R3], by R1.\n    Nothing to pop or drop. (By R1)".toList ∧
    Reads (fun r => ['R'] ++ showNat r) 2 ['b'] [(some 1, ⟨[3, 2, 3], [4], [.emptyStack]⟩)] msg := by
  have h := reads_at (fun r => ['R'] ++ showNat r)
    (t := Tracker.mk ⟨⟨7, "a\nbc".toList⟩, 3⟩ true [(some 1, ⟨[3, 2, 3], [4], [.emptyStack]⟩)] [])
    (pre := "a\nb".toList) (suf := ['c']) ⟨by decide, by decide⟩
  obtain ⟨msg, h1, h2⟩ := h
  refine ⟨msg, h1, ?_, h2⟩
  have := collect_valid (fun r => ['R'] ++ showNat r)
    (t := Tracker.mk ⟨⟨7, "a\nbc".toList⟩, 3⟩ true [(some 1, ⟨[3, 2, 3], [4], [.emptyStack]⟩)] [])
    (pre := "a\nb".toList) (suf := ['c']) ⟨by decide, by decide⟩
  rw [this] at h1
  simp only [Option.some.injEq, ErrorAt.mk.injEq, true_and] at h1
  rw [← h1]
  decide

end Pest3.Props
