import Verif.StatesLemmas

/-!
# C92: the state builder
-/

namespace Pest3.Props

open Pest3.States

/-- `build` returns `None` exactly if there is no such rule, and panics exactly if the rule uses something else than ranges, sequences, choices and repetitions. -/
theorem C92_build (rules : Text → Option Form) (rule : Text) :
    (build rules rule = some none ↔ rules rule = none) ∧ (build rules rule = none ↔ ∃ e, rules rule = some e ∧ ¬ e.Supported) := by
  unfold build
  dsimp only
  cases hr : rules rule with
  | none => simp
  | some e =>
    have := @genExpr_supported e 0 1 ⟨[(0, .stop), (1, .fail)], 3⟩
    dsimp only
    cases hg : genExpr e 0 1 ⟨[(0, .stop), (1, .fail)], 3⟩ with
    | none => simp [hg] at this; simp [this]
    | some x => simp [hg] at this; simp [this]

/-- The generated methods have different names, numbered without gaps, and whatever is called exists. -/
theorem C92_methods {rules : Text → Option Form} {rule : Text} {P : Program} (h : build rules rule = some (some P)) :
    (P.states.map (·.1)).Nodup ∧ (∀ id, id ∈ P.states.map (·.1) ↔ id < P.states.length) ∧ P.enter ∈ P.states.map (·.1) ∧
      ∀ s ∈ P.states, ∀ t ∈ s.2.calls, t ∈ P.states.map (·.1) := by
  obtain ⟨e, body, b, new, _, _, A, hen, hs⟩ := build_some h
  have hN := build_ids A
  have hle : 3 ≤ b.count := A.le
  have hids : ∀ id, id ∈ P.states.map (·.1) ↔ id < b.count := by
    intro id
    have := A.ids id
    dsimp only at this
    rw [hs]
    simp only [List.map_cons, List.map_append, List.map_nil, List.mem_cons, List.mem_append, this, List.not_mem_nil, or_false]
    omega
  rw [← hs] at hN
  have hlen : P.states.length = b.count := by
    have p : (P.states.map (·.1)).Perm (List.range b.count) := (List.perm_ext_iff_of_nodup hN List.nodup_range).2 fun a => by rw [hids, List.mem_range]
    have := p.length_eq
    rwa [List.length_map, List.length_range] at this
  refine ⟨hN, fun id => by rw [hids, hlen], by rw [hids, hen]; omega, fun s hm t ht => ?_⟩
  rw [hids]
  rw [hs] at hm
  simp only [List.mem_cons, List.mem_append, List.not_mem_nil, or_false] at hm
  rcases hm with rfl | rfl | hm | rfl
  · cases ht
  · cases ht
  · have := A.calls s hm t ht
    dsimp only at this
    omega
  · have := A.enters t ht
    dsimp only at this
    omega

/-- With ranges below U+0080, `parse` does exactly what the expression says without going back: it moves the index over what was taken and clears the result if it fails. -/
theorem C92_parse {rules : Text → Option Form} {rule : Text} {P : Program} {e : Form} (h : build rules rule = some (some P)) (he : rules rule = some e) (hA : e.Ascii)
    (pre s : Text) (q : Bool) (m : Machine) :
    (∃ fuel, P.parse fuel ⟨bytes (pre ++ s), utf8Len pre, q⟩ = some m) ↔
      ∃ ok u s', s = u ++ s' ∧ Onward e s ok s' ∧ m = ⟨bytes (pre ++ s), utf8Len (pre ++ u), q && ok⟩ := by
  have := @parse_iff rules rule P e (fun _ => True) (fun _ _ _ => trivial) h he (.inl hA) pre s trivial q m
  rwa [e.narrow_ascii hA] at this

/-- If moreover no alternative that is followed by another, and no item of a repetition, fails after having taken something, `parse` returns whether the expression matches, and has then moved the
index behind the match; it returns exactly if the expression has a result.  (Missing: other expressions, see the witnesses below.) -/
theorem C92_grammar_partial {rules : Text → Option Form} {rule : Text} {P : Program} {e : Form} (h : build rules rule = some (some P)) (he : rules rule = some e) (hA : e.Ascii) (hS : e.Steady)
    (pre s : Text) :
    (∀ u s', s = u ++ s' → (Matches e s (some s') ↔ ∃ fuel, P.parse fuel ⟨bytes (pre ++ s), utf8Len pre, true⟩ = some ⟨bytes (pre ++ s), utf8Len (pre ++ u), true⟩)) ∧
      (Matches e s none ↔ ∃ fuel m, P.parse fuel ⟨bytes (pre ++ s), utf8Len pre, true⟩ = some m ∧ m.result = false) := by
  constructor
  · rintro u s' rfl
    rw [C92_parse h he hA]
    constructor
    · intro hm
      obtain ⟨t, o, e1⟩ := onward_of_matches hm hS
      cases e1 _ rfl
      exact ⟨true, u, s', rfl, o, rfl⟩
    · rintro ⟨ok, v, t, e1, o, e2⟩
      have e3 : utf8Len (pre ++ u) = utf8Len (pre ++ v) := congrArg Machine.index e2
      have e4 : true = (true && ok) := congrArg Machine.result e2
      cases ok with
      | false => cases e4
      | true =>
        have e5 : utf8Len u = utf8Len v := by simpa using e3
        have e6 : bytes u ++ bytes s' = bytes v ++ bytes t := by rw [← bytes_append, ← bytes_append, e1]
        obtain ⟨e7, e8⟩ := List.append_inj e6 (by simp [e5])
        cases bytes_injective e8
        exact (matches_of_onward o hS).1
  · constructor
    · intro hm
      obtain ⟨t, o, _⟩ := onward_of_matches hm hS
      obtain ⟨u, rfl⟩ := onward_part o
      obtain ⟨n, hn⟩ := (C92_parse h he hA pre (u ++ t) true ⟨bytes (pre ++ (u ++ t)), utf8Len (pre ++ u), false⟩).2 ⟨false, u, t, rfl, o, rfl⟩
      exact ⟨n, _, hn, rfl⟩
    · rintro ⟨n, m, hn, hr⟩
      obtain ⟨ok, u, t, rfl, o, rfl⟩ := (C92_parse h he hA pre s true m).1 ⟨n, hn⟩
      cases ok with
      | true => cases hr
      | false => exact (matches_of_onward o hS).1

/-- `parse` returns, whatever the text, if the items of repetitions take something. -/
theorem C92_halts {rules : Text → Option Form} {rule : Text} {P : Program} {e : Form} (h : build rules rule = some (some P)) (he : rules rule = some e) (hA : e.Ascii) (hE : e.Ends)
    (pre s : Text) (q : Bool) : ∃ fuel m, P.parse fuel ⟨bytes (pre ++ s), utf8Len pre, q⟩ = some m ∧ m.input = bytes (pre ++ s) ∧ utf8Len pre ≤ m.index ∧ m.index ≤ utf8Len (pre ++ s) := by
  obtain ⟨ok, s', o⟩ := onward_ends hE s
  obtain ⟨u, rfl⟩ := onward_part o
  obtain ⟨n, hn⟩ := (C92_parse h he hA pre (u ++ s') q _).2 ⟨ok, u, s', rfl, o, rfl⟩
  exact ⟨n, _, hn, rfl, by simp, by simp⟩

/-- Ranges that name a character above U+007F do not work: in a text without characters below U+0008 they match nothing. -/
theorem C92_wide {rules : Text → Option Form} {rule : Text} {P : Program} {e : Form} (h : build rules rule = some (some P)) (he : rules rule = some e)
    (pre s : Text) (hs : ∀ c ∈ s, 8 ≤ c.toNat) (q : Bool) (m : Machine) :
    (∃ fuel, P.parse fuel ⟨bytes (pre ++ s), utf8Len pre, q⟩ = some m) ↔
      ∃ ok u s', s = u ++ s' ∧ Onward e.narrow s ok s' ∧ m = ⟨bytes (pre ++ s), utf8Len (pre ++ u), q && ok⟩ :=
  parse_iff (K := fun s => ∀ c ∈ s, 8 ≤ c.toNat) (fun _ _ h c hc => h c (List.mem_append_right _ hc)) h he (.inr fun _ h => h) hs

/-- So such a range rejects every character it names, unless a control character is near. -/
theorem C92_range_witness {rules : Text → Option Form} {rule : Text} {P : Program} {lo hi : Char} (h : build rules rule = some (some P)) (he : rules rule = some (.range lo hi))
    (hw : ¬ (lo.toNat < 128 ∧ hi.toNat < 128)) {c : Char} (hc : lo ≤ c ∧ c ≤ hi) (pre s : Text) (hs : ∀ d ∈ c :: s, 8 ≤ d.toNat) :
    Matches (.range lo hi) (c :: s) (some s) ∧
      ∃ fuel, P.parse fuel ⟨bytes (pre ++ c :: s), utf8Len pre, true⟩ = some ⟨bytes (pre ++ c :: s), utf8Len pre, false⟩ := by
  refine ⟨.rangeOk hc.1 hc.2, ?_⟩
  refine (C92_wide h he pre (c :: s) hs true _).2 ⟨false, [], c :: s, rfl, ?_, by simp⟩
  rw [Form.narrow, if_neg hw]
  refine .rangeFail fun x s' _ h1 h2 => ?_
  rw [char_le] at h1 h2
  exact absurd (Nat.le_trans h1 h2) (by decide)

/-- The number that is read from characters below U+0080, one byte each, the first one counting least. -/
def asNumber : Text → Nat
  | [] => 0
  | c :: s => c.toNat + 256 * asNumber s

/-- Near a control character a wide range takes what it does not name: as many characters below U+0080 as the bounds need bytes, if they make up a number between the bounds;
the index is moved behind all of them. -/
theorem C92_control_witness {rules : Text → Option Form} {rule : Text} {P : Program} {lo hi : Char} (h : build rules rule = some (some P)) (he : rules rule = some (.range lo hi))
    (hw : ¬ (lo.toNat < 128 ∧ hi.toNat < 128)) {w : Text} (hA : ∀ c ∈ w, c.toNat < 128) (hl : w.length = max lo.utf8Size hi.utf8Size) (h1 : lo.toNat ≤ asNumber w) (h2 : asNumber w ≤ hi.toNat)
    (pre s : Text) :
    (128 ≤ lo.toNat → Matches (.range lo hi) (w ++ s) none) ∧
      ∃ fuel, P.parse fuel ⟨bytes (pre ++ w ++ s), utf8Len pre, true⟩ = some ⟨bytes (pre ++ w ++ s), utf8Len (pre ++ w), true⟩ := by
  have hne : w ≠ [] := by
    rintro rfl
    have := lo.utf8Size_pos
    simp at hl
    omega
  refine ⟨fun hlo => .rangeFail fun x s' e h3 => ?_, 4, ?_⟩
  · cases w with
    | nil => exact absurd rfl hne
    | cons y w =>
      cases e
      have := hA x (.head _)
      rw [char_le] at h3
      omega
  · have hlen : ∀ w : Text, (∀ c ∈ w, c.toNat < 128) → utf8Len w = w.length ∧ littleEndian (bytes w) = asNumber w := by
      intro w
      induction w with
      | nil => exact fun _ => ⟨rfl, rfl⟩
      | cons c w ih =>
        intro hA
        obtain ⟨i1, i2⟩ := ih fun d hd => hA d (.tail _ hd)
        have hc := hA c (.head _)
        refine ⟨by simp [i1, size_one.2 hc, Nat.add_comm], ?_⟩
        rw [bytes, encode_ascii hc, List.singleton_append, littleEndian_cons, toUInt8_toNat hc, i2, asNumber]
    obtain ⟨e1, e2⟩ := hlen w hA
    have hw' : ¬ (lo.utf8Size = 1 ∧ hi.utf8Size = 1) := by rwa [size_one, size_one]
    simp only [build, he, genExpr, if_neg hw', Option.some.injEq] at h
    subst h
    have hb := byteRange_append (a := pre) (b := w) (c := s)
    rw [e1, hl] at hb
    have step : ∀ (Q : List (Nat × Body)), run Q 3 (.wide (max lo.utf8Size hi.utf8Size) lo.toNat hi.toNat 0 1) ⟨bytes (pre ++ w ++ s), utf8Len pre, true⟩ =
        run Q 2 (.go 0) ⟨bytes (pre ++ w ++ s), utf8Len pre + max lo.utf8Size hi.utf8Size, true⟩ := by
      intro Q
      show (match byteRange (bytes (pre ++ w ++ s)) (utf8Len pre) (utf8Len pre + max lo.utf8Size hi.utf8Size) with
        | some slice => if lo.toNat ≤ littleEndian slice && littleEndian slice ≤ hi.toNat then _ else _
        | none => _) = _
      rw [hb]
      dsimp only
      rw [e2, if_pos (by simp [h1, h2])]
    refine (step _).trans ?_
    rw [utf8Len_append, e1, hl]
    rfl

/-- Alternatives that begin alike: the second one is tried where the first one failed, so that it is not found. -/
theorem C92_choice_witness {rules : Text → Option Form} {rule : Text} {P : Program} {x y z : Char} (hx : x.toNat < 128) (hy : y.toNat < 128) (hz : z.toNat < 128) (hyz : y ≠ z) (hxz : x ≠ z)
    (h : build rules rule = some (some P)) (he : rules rule = some (.choice (.seq (.range x x) (.range y y)) (.seq (.range x x) (.range z z)))) :
    Matches (.choice (.seq (.range x x) (.range y y)) (.seq (.range x x) (.range z z))) [x, z] (some []) ∧
      ∃ fuel, P.parse fuel ⟨bytes [x, z], 0, true⟩ = some ⟨bytes [x, z], 1, false⟩ := by
  have rf : ∀ c : Char, c ≤ c := fun c => char_le.2 (Nat.le_refl _)
  have ne : ∀ {a b : Char}, a ≠ b → a ≤ b → ¬ b ≤ a := fun h h1 h2 => h (Char.le_antisymm h1 h2)
  have fail : ∀ {a b : Char} {t : Text}, a ≠ b → ∀ c s', b :: t = c :: s' → a ≤ c → ¬ c ≤ a := fun h c s' e h1 => by cases e; exact ne h h1
  refine ⟨.choiceR (.seq (.rangeOk (rf x) (rf x)) (.rangeFail (fail hyz))) (.seq (.rangeOk (rf x) (rf x)) (.rangeOk (rf z) (rf z))), ?_⟩
  have := (C92_parse h he ⟨⟨⟨hx, hx⟩, ⟨hy, hy⟩⟩, ⟨⟨hx, hx⟩, ⟨hz, hz⟩⟩⟩ [] [x, z] true ⟨bytes [x, z], 1, false⟩).2 ⟨false, [x], [z], rfl,
    .choiceR (.seq (.rangeOk (rf x) (rf x)) (.rangeFail (fail hyz))) (.seqFail (.rangeFail (fail hxz))), by simp [size_one.2 hx]⟩
  exact this

/-- An item of a repetition that fails in the middle: what it has taken stays taken. -/
theorem C92_item_witness {rules : Text → Option Form} {rule : Text} {P : Program} {x y : Char} (hx : x.toNat < 128) (hy : y.toNat < 128)
    (h : build rules rule = some (some P)) (he : rules rule = some (.rep (.seq (.range x x) (.range y y)))) :
    Matches (.rep (.seq (.range x x) (.range y y))) [x] (some [x]) ∧ ∃ fuel, P.parse fuel ⟨bytes [x], 0, true⟩ = some ⟨bytes [x], 1, true⟩ := by
  have rf : x ≤ x := char_le.2 (Nat.le_refl _)
  refine ⟨.repStop (.seq (.rangeOk rf rf) (.rangeFail nofun)), ?_⟩
  have := (C92_parse h he ⟨⟨hx, hx⟩, ⟨hy, hy⟩⟩ [] [x] true ⟨bytes [x], 1, true⟩).2 ⟨true, [x], [], rfl, .repStop (.seq (.rangeOk rf rf) (.rangeFail nofun)), by simp [size_one.2 hx]⟩
  exact this

/-- A repetition of something that cannot fail is never left. -/
theorem C92_loop {rules : Text → Option Form} {rule : Text} {P : Program} {e : Form} (h : build rules rule = some (some P)) (he : rules rule = some (.rep e)) (hA : e.Ascii) (hS : e.Sure)
    (pre s : Text) (q : Bool) (fuel : Nat) : P.parse fuel ⟨bytes (pre ++ s), utf8Len pre, q⟩ = none := by
  cases hr : P.parse fuel ⟨bytes (pre ++ s), utf8Len pre, q⟩ with
  | none => rfl
  | some m =>
    obtain ⟨ok, u, s', _, o, _⟩ := (C92_parse h he (show (Form.rep e).Ascii from hA) pre s q m).1 ⟨fuel, hr⟩
    exact absurd o (loop_never hS)

/-! ## A case: `('0'..'9' ~ ('0'..'9')*) | 'a'..'z'` -/

namespace StatesCase

def digit : Form := .range '0' '9'
def e : Form := .choice (.seq digit (.rep digit)) (.range 'a' 'z')
def rules : Text → Option Form := fun r => if r = ['r'] then some e else none

example : e.Supported ∧ e.Ascii ∧ e.Steady ∧ e.Ends := by
  simp [e, digit, Form.Supported, Form.Ascii, Form.Steady, Form.Prompt, Form.Sure, Form.Ends, Form.Takes]

example : ∃ P, build rules ['r'] = some (some P) ∧ P.states.map (·.1) = [0, 1, 7, 5, 6, 3, 4, 2] ∧ (P.parse 20 ⟨bytes ['4', '2', 'x'], 0, true⟩).map (fun m => (m.index, m.result)) = some (2, true) ∧
    (P.parse 20 ⟨bytes ['?'], 0, true⟩).map (fun m => (m.index, m.result)) = some (0, false) := ⟨_, rfl, by decide +kernel, by decide +kernel, by decide +kernel⟩

example : build rules ['s'] = some none ∧ build (fun _ => some (.seq .any digit)) ['r'] = none := ⟨rfl, rfl⟩

/-- The wide range `'é'..'é'` on `é`. -/
example : ∃ P, build (fun _ => some (.range 'é' 'é')) ['r'] = some (some P) ∧ (P.parse 20 ⟨bytes ['é', 'x'], 0, true⟩).map (fun m => (m.index, m.result)) = some (0, false) := ⟨_, rfl, by decide +kernel⟩

/-- The range of the letter `ѐ` (U+0450) takes the letter `P` (U+0050) with U+0004 behind it. -/
example : ∃ P, build (fun _ => some (.range 'ѐ' 'ѐ')) ['r'] = some (some P) ∧ asNumber ['P', '\x04'] = 'ѐ'.toNat ∧
    (P.parse 20 ⟨bytes ['P', '\x04', 'x'], 0, true⟩).map (fun m => (m.index, m.result)) = some (2, true) := ⟨_, rfl, by decide, by decide +kernel⟩

end StatesCase

end Pest3.Props
