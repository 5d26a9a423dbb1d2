import Verif.MessageLemmas
import Verif.Props.Engine

/-!
# Properties C33, C34, C36: the error report

The events of a parse (`Traces`, `FullTraces`) are part of the specification: rules tried, with their
outcome and the rules tried during them, and illegal stack accesses.  `Furthest` and `Listed` say which of
them a tracker reports.
-/

namespace Pest3.Props

open Pest3

section
variable {S : Type} {so : StackOps S} {saved : S → List (List Span)} (hl : Lawful so saved) (env : Env)
  {inp : Str} {p : Position} {st : St S Tracker} {c : Cfg}
include hl

/-! ## C33 -/

/-- A parse has exactly one list of events. -/
theorem C33_events_exist (hp : Good inp p) (hr : Ready so saved inp st) (hco : Corr so p st c) (fuel : Nat)
    (n : Node) (o) (st' : St S Tracker) (h : parse so realTracker env fuel n p st = .ok (o, st')) :
    ∃ r es, Traces env st.trk.positive (.node n) c r es ∧ (r.isSome = o.isSome) ∧
      ∀ r' es', Traces env st.trk.positive (.node n) c r' es' → r' = r ∧ es' = es := by
  rcases run_cases hl env hp hr fuel n with ⟨h1, _⟩ | ⟨s, h1, h2⟩ | ⟨q, t, s, h1, h2, _⟩
  · rw [h] at h1; cases h1
  · rw [h] at h1
    cases h1
    obtain ⟨_, _, _, _, hn⟩ := parse_none hl hp hr hco h
    obtain ⟨es, hes⟩ := hn.traces st.trk.positive
    exact ⟨none, es, hes, rfl, fun r' es' h' => by obtain ⟨rfl, rfl⟩ := h'.det hes; exact ⟨rfl, rfl⟩⟩
  · rw [h] at h1
    cases h1
    obtain ⟨_, _, _, _, _, _, c', _, hb⟩ := parse_ok hl hp hr hco h
    obtain ⟨es, hes⟩ := hb.peg.traces st.trk.positive
    exact ⟨some c', es, hes, rfl, fun r' es' h' => by obtain ⟨rfl, rfl⟩ := h'.det hes; exact ⟨rfl, rfl⟩⟩

/-- After any parse the tracker's position is the furthest at which something happened. -/
theorem C33_furthest (hp : Good inp p) (hr : Ready so saved inp st) (hco : Corr so p st c)
    (hpos : Good inp st.trk.position) (hst : ∀ f ∈ st.trk.stack, f.2.1.input = inp) (fuel : Nat) (n : Node)
    (o) (st' : St S Tracker) (h : parse so realTracker env fuel n p st = .ok (o, st'))
    (r) (es : List Ev) (htr : Traces env st.trk.positive (.node n) c r es) :
    Furthest inp st.trk.position.pos st.trk.ups es st'.trk := by
  obtain ⟨r', es', htr', _, e⟩ := parse_trace hl hp hr hco ⟨by rw [hpos.2], hst⟩ h
  obtain ⟨rfl, rfl⟩ := htr.det htr'
  rw [e]
  exact furthest_of hpos (by rw [← hp.2]; exact hco.at_.1) htr.beyond htr.covered

/-- The same for the recogniser. -/
theorem C33_furthest_check (hp : Good inp p) (hco : Corr so p st c)
    (hpos : Good inp st.trk.position) (hst : ∀ f ∈ st.trk.stack, f.2.1.input = inp) (fuel : Nat) (n : Node)
    (o) (st' : St S Tracker) (h : check so realTracker env fuel n p st = .ok (o, st'))
    (r) (es : List Ev) (htr : Traces env st.trk.positive (.node n) c r es) :
    Furthest inp st.trk.position.pos st.trk.ups es st'.trk := by
  obtain ⟨r', es', htr', _, e⟩ := check_trace hl env inp fuel n p st c hco hp.2 ⟨by rw [hpos.2], hst⟩ _ _ h
  obtain ⟨rfl, rfl⟩ := htr.det htr'
  rw [e]
  exact furthest_of hpos (by rw [← hp.2]; exact hco.at_.1) htr.beyond htr.covered

theorem fullTraces_bounds {n : Node} {b : Bool} {es : List Ev} (h : FullTraces env n inp b es) :
    AllBeyond [] inp.text es ∧ Covered es := by
  have _ := hl
  cases h with
  | fail h => exact ⟨h.beyond, h.covered⟩
  | @ok c' es h =>
    have hc : Covered [Ev.rule eoiLabel (utf8Len c'.pre) true (decide (c'.suf = [])) []] :=
      .rule .nil fun _ _ _ hw => by
        cases hw with
        | here hm => cases hm
        | inner hm _ => cases hm
    have hb : AllBeyond c'.pre c'.suf [Ev.rule eoiLabel (utf8Len c'.pre) true (decide (c'.suf = [])) []] := by
      intro ups ups' e hw
      cases hw with
      | here hm => rw [List.mem_singleton] at hm; subst hm; exact .self _ _
      | inner hm hw =>
        rw [List.mem_singleton] at hm
        cases hm
        cases hw with
        | here hm => cases hm
        | inner hm _ => cases hm
    have hlater : AllBeyond (startCfg inp).pre (startCfg inp).suf _ := hb.later h.peg
    exact ⟨h.beyond.append hlater, h.covered.append hc⟩

/-- The error of `try_parse`: events of the parse, and of the end-of-input test as rule `EOI`. -/
theorem C33_try_parse (fuel : Nat) (n : Node) (t : Tracker)
    (h : tryParse so env fuel n inp = .ok (.error t)) :
    ∃ es, FullTraces env n inp false es ∧ Furthest inp 0 [] es t := by
  unfold tryParse finishRun at h
  split at h
  · cases h
  · next st' hs =>
    cases h
    obtain ⟨es, hes, e⟩ := full_trace hl hs
    obtain ⟨hb, hc⟩ := fullTraces_bounds hl env hes
    refine ⟨es, hes, ?_⟩
    rw [e]
    exact furthest_of (t0 := (initSt so inp).trk) (good_start inp) (pre := []) (suf := inp.text) rfl hb hc
  · cases h
  · cases h

/-! ## C34 -/

/-- After a parse with a tracker that has recorded nothing yet, the entries of the tracker are exactly the
rules that failed where they were wanted, or matched where they were unwanted, at its position. -/
theorem C34_listed (hp : Good inp p) (hr : Ready so saved inp st) (hco : Corr so p st c)
    (hpos : st.trk.position.input = inp) (hst : ∀ f ∈ st.trk.stack, f.2.1.input = inp)
    (hnew : st.trk.attempts = []) (fuel : Nat) (n : Node)
    (o) (st' : St S Tracker) (h : parse so realTracker env fuel n p st = .ok (o, st'))
    (r) (es : List Ev) (htr : Traces env st.trk.positive (.node n) c r es) :
    Listed st.trk.ups es st'.trk := by
  obtain ⟨r', es', htr', _, e⟩ := parse_trace hl hp hr hco ⟨by rw [hpos], hst⟩ h
  obtain ⟨rfl, rfl⟩ := htr.det htr'
  rw [e]
  exact listed_of hpos hnew

/-- The error of `try_parse`. -/
theorem C34_try_parse (fuel : Nat) (n : Node) (t : Tracker)
    (h : tryParse so env fuel n inp = .ok (.error t)) :
    ∃ es, FullTraces env n inp false es ∧ Listed [] es t := by
  unfold tryParse finishRun at h
  split at h
  · cases h
  · next st' hs =>
    cases h
    obtain ⟨es, hes, e⟩ := full_trace hl hs
    refine ⟨es, hes, ?_⟩
    rw [e]
    exact listed_of (t0 := (initSt so inp).trk) rfl rfl
  · cases h
  · cases h

/-! ## C36 -/

omit hl in
/-- Collecting a tracker with a valid position: no panic, the error is located at the tracker's position, and
its message starts with the text of the line before that position. -/
theorem C36_collect (sh : Label → Text) (t : Tracker) (hv : t.position.Valid) :
    ∃ msg, t.collect sh = some ⟨t.position, msg⟩ ∧
      ∃ before current after, t.position.input.text = before ++ current ++ after ∧
        utf8Len (before ++ current) = t.position.pos ∧ '\n' ∉ current ∧
        (before = [] ∨ ∃ b, before = b ++ ['\n']) ∧ current ++ "^---".toList <+: msg := by
  obtain ⟨pre, suf, hat⟩ := Position.valid_iff_at.1 hv
  refine ⟨_, collect_valid sh hat, uptoNewline pre, sinceNewline pre, suf, ?_, ?_, sinceNewline_not_mem pre, ?_, ?_⟩
  · rw [uptoNewline_append_sinceNewline]; exact hat.1
  · rw [uptoNewline_append_sinceNewline]; exact hat.2.symm
  · by_cases hm : '\n' ∈ pre
    · exact Or.inr (uptoNewline_ends hm)
    · exact Or.inl (uptoNewline_eq_nil hm)
  · exact List.prefix_append _ _

/-- After any parse, whatever its outcome, collecting the tracker does not panic. -/
theorem C36_after_parse (sh : Label → Text) (hp : Good inp p) (hr : Ready so saved inp st)
    (hpos : Good inp st.trk.position) (hst : ∀ f ∈ st.trk.stack, f.2.1.input = inp) (fuel : Nat) (n : Node)
    (o) (st' : St S Tracker) (h : parse so realTracker env fuel n p st = .ok (o, st')) :
    st'.trk.position.input = inp ∧ ∃ msg, st'.trk.collect sh = some ⟨st'.trk.position, msg⟩ := by
  obtain ⟨c, hco⟩ := corr_exists hp hr
  obtain ⟨r, es, htr, _⟩ := C33_events_exist hl env hp hr hco fuel n o st' h
  have hf := C33_furthest hl env hp hr hco hpos hst fuel n o st' h r es htr
  obtain ⟨msg, hm, _⟩ := C36_collect sh st'.trk hf.valid
  exact ⟨hf.input, msg, hm⟩

/-- The error returned by `try_parse`. -/
theorem C36_try_parse (sh : Label → Text) (fuel : Nat) (n : Node) (t : Tracker)
    (h : tryParse so env fuel n inp = .ok (.error t)) :
    ∃ msg, t.collect sh = some ⟨t.position, msg⟩ := by
  obtain ⟨es, _, hf⟩ := C33_try_parse hl env fuel n t h
  obtain ⟨msg, hm, _⟩ := C36_collect sh t hf.valid
  exact ⟨msg, hm⟩

omit hl in
/-- The rules shown in one line of the message are those of the entry, each once, in order. -/
theorem C36_shown (l : List Label) :
    (sortDedup l).Pairwise (· < ·) ∧ ∀ x, x ∈ sortDedup l ↔ x ∈ l := sortDedup_spec l

end

/-! ### Concrete cases -/

/-- `tag` on `ab ?`: `name` matched, then nothing was tried by name. -/
example : ∃ t, tryParse idealOps exEnv 20 (.rule 1) ⟨7, ['a', 'b', ' ', '?']⟩ = .ok (.error t) ∧
    t.position.pos = 0 ∧ t.attempts = [] := ⟨_, rfl, rfl, rfl⟩

/-- `tag` on `?`: `name` is expected at 0. -/
example : ∃ t, tryParse idealOps exEnv 20 (.rule 1) ⟨7, ['?']⟩ = .ok (.error t) ∧
    t.position.pos = 0 ∧ t.attempts = [(none, ⟨[2], [], []⟩)] := ⟨_, rfl, rfl, rfl⟩

/-- `tag` on `ab,ab!`: the end of the input is expected at 5. -/
example : ∃ t, tryParse idealOps exEnv 20 (.rule 1) ⟨7, ['a', 'b', ',', 'a', 'b', '!']⟩ = .ok (.error t) ∧
    t.position.pos = 5 ∧ t.attempts = [(none, ⟨[eoiLabel], [], []⟩)] := ⟨_, rfl, rfl, rfl⟩

/-- `x = { "a" ~ !name }` on `ab`: `name` is unexpected at 1, by `x`. -/
example : ∃ t, tryParse idealOps
    (fun id => if id = 1 then ⟨1, false, .seq [(.leaf .empty, .leaf (.str ['a'])), (.leaf .empty, .negative (.rule 2))]⟩ else exEnv 2)
    20 (.rule 1) ⟨7, ['a', 'b']⟩ = .ok (.error t) ∧ t.position.pos = 1 ∧
    t.attempts = [(some 1, ⟨[], [2], []⟩)] := ⟨_, rfl, rfl, rfl⟩

/-- `x = { "a" ~ POP }` on `ab`: an illegal access at 1, by `x`. -/
example : ∃ t, tryParse idealOps
    (fun _ => ⟨1, false, .seq [(.leaf .empty, .leaf (.str ['a'])), (.leaf .empty, .leaf .pop)]⟩)
    20 (.rule 1) ⟨7, ['a', 'b']⟩ = .ok (.error t) ∧ t.position.pos = 1 ∧
    t.attempts = [(some 1, ⟨[], [], [.emptyStack]⟩)] := ⟨_, rfl, rfl, rfl⟩

/-- The message for `x` on the second line. -/
example : (Tracker.mk ⟨⟨7, "a\nbc".toList⟩, 3⟩ true [(some 1, ⟨[3, 2, 3], [], [.emptyStack]⟩)] []).collect
    (fun r => ['R'] ++ showNat r) =
    some ⟨⟨⟨7, "a\nbc".toList⟩, 3⟩, "b^---\n    Expected [R2, R3], by R1.\n    Nothing to pop or drop. (By R1)".toList⟩ :=
  collect_valid _ (pre := "a\nb".toList) (suf := ['c']) ⟨by decide, by decide⟩

end Pest3.Props
