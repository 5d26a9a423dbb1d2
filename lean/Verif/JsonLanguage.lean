import Verif.JsonLemmas
import Verif.JsonSpec

/-!
# The functions accept exactly the JSON texts of the examples
-/

namespace Pest3.Json
open Pest3

/-! ## Parts of texts -/

theorem mem_takeWhile {f : Char → Bool} {s : Text} {x : Char} (h : x ∈ s.takeWhile f) : f x = true := by
  induction s with
  | nil => cases h
  | cons y s ih =>
    rw [List.takeWhile_cons] at h
    split at h
    · rcases List.mem_cons.mp h with rfl | h
      · assumption
      · exact ih h
    · cases h

theorem isSpace_iff {x : Char} : isSpace x = true ↔ x = ' ' ∨ x = '\t' ∨ x = '\r' ∨ x = '\n' := by
  simp only [isSpace, Bool.or_eq_true, beq_iff_eq, or_assoc]

theorem Blank.nil : Blank [] := fun _ h => by cases h

theorem blank_iff {w : Text} : Blank w ↔ ∀ x ∈ w, isSpace x = true := by simp only [Blank, isSpace_iff]

theorem Blank.append {w w' : Text} (h : Blank w) (h' : Blank w') : Blank (w ++ w') := fun x hx => (List.mem_append.mp hx).elim (h x) (h' x)

theorem dropB_eq (s : Text) : ∃ w, Blank w ∧ s = w ++ dropB s :=
  ⟨s.takeWhile isSpace, blank_iff.mpr fun _ h => mem_takeWhile h, List.takeWhile_append_dropWhile.symm⟩

theorem dropB_blank {w : Text} (h : Blank w) (s : Text) : dropB (w ++ s) = dropB s := by
  induction w with
  | nil => rfl
  | cons x w ih =>
    have := blank_iff.mp h x List.mem_cons_self
    rw [List.cons_append, dropB, List.dropWhile_cons, if_pos this]
    exact ih fun y hy => h y (List.mem_cons_of_mem _ hy)

theorem dropB_cons {x : Char} (h : isSpace x = false) (s : Text) : dropB (x :: s) = x :: s := by
  rw [dropB, List.dropWhile_cons, h]; rfl

theorem dropB_blank' {w : Text} (h : Blank w) : dropB w = [] := by
  have := dropB_blank h []
  rwa [List.append_nil] at this

theorem strip_cons (x : Char) (s : Text) : strip [x] (x :: s) = some s := by simp [strip]

theorem one_some {f : Char → Bool} {s s' : Text} (h : one f s = some s') : ∃ x, f x = true ∧ s = x :: s' := by
  cases s with
  | nil => cases h
  | cons x s =>
    simp only [one] at h
    split at h
    · cases h; exact ⟨x, by assumption, rfl⟩
    · cases h

theorem one_cons {f : Char → Bool} {x : Char} (h : f x = true) (s : Text) : one f (x :: s) = some s := by simp [one, h]
theorem one_cons_none {f : Char → Bool} {x : Char} (h : f x = false) (s : Text) : one f (x :: s) = none := by simp [one, h]

theorem isDigit_iff {x : Char} : isDigit x = true ↔ '0' ≤ x ∧ x ≤ '9' := by simp only [isDigit, decide_eq_true_eq]
theorem isNonzero_iff {x : Char} : isNonzero x = true ↔ '1' ≤ x ∧ x ≤ '9' := by simp only [isNonzero, decide_eq_true_eq]
theorem isHex_iff {x : Char} : isHex x = true ↔ Hex sample x := by
  simp only [isHex, Bool.or_eq_true, decide_eq_true_eq, Hex, sample, Bool.false_eq_true, false_and, or_false]

theorem many1_some {s s' : Text} (h : many1 isDigit s = some s') : ∃ d, Digits d ∧ s = d ++ s' := by
  obtain ⟨s1, h1, rfl⟩ := Option.map_eq_some_iff.mp h
  obtain ⟨x, hx, rfl⟩ := one_some h1
  refine ⟨x :: s1.takeWhile isDigit, ⟨by simp, ?_⟩, by rw [List.cons_append, List.takeWhile_append_dropWhile]⟩
  intro y hy
  rcases List.mem_cons.mp hy with rfl | hy
  · exact isDigit_iff.mp hx
  · exact isDigit_iff.mp (mem_takeWhile hy)

/-- The text does not begin with such a character. -/
def Not (f : Char → Bool) (r : Text) : Prop := ∀ x s, r = x :: s → f x = false

theorem dropWhile_not {f : Char → Bool} {d r : Text} (hd : ∀ x ∈ d, f x = true) (hr : Not f r) : (d ++ r).dropWhile f = r := by
  induction d with
  | nil =>
    cases r with
    | nil => rfl
    | cons x s => rw [List.nil_append, List.dropWhile_cons, hr x s rfl]; rfl
  | cons x d ih =>
    rw [List.cons_append, List.dropWhile_cons, if_pos (hd x List.mem_cons_self)]
    exact ih fun y hy => hd y (List.mem_cons_of_mem _ hy)

theorem many1_digits {d r : Text} (hd : Digits d) (hr : Not isDigit r) : many1 isDigit (d ++ r) = some r := by
  obtain ⟨h0, h1⟩ := hd
  cases d with
  | nil => exact absurd rfl h0
  | cons x d =>
    have h2 := fun y hy => isDigit_iff.mpr (h1 y hy)
    rw [many1, List.cons_append, one_cons (h2 x List.mem_cons_self)]
    simp only [Option.map_some]
    rw [dropWhile_not (fun y hy => h2 y (List.mem_cons_of_mem _ hy)) hr]

/-! ## What is matched is JSON -/

theorem expF_sound {s s' : Text} (h : expF s = some s') : ∃ x, Exponent x ∧ s = x ++ s' := by
  obtain ⟨s1, h1, h2⟩ := Option.bind_eq_some_iff.mp h
  obtain ⟨e, he, rfl⟩ := one_some h1
  simp only [Bool.or_eq_true, beq_iff_eq] at he
  obtain ⟨d, hd, h3⟩ := many1_some h2
  rcases h4 : one (fun x => x == '+' || x == '-') s1 with _ | s2
  · rw [h4] at h3
    exact ⟨e :: ([] ++ d), .mk he.symm (.inl rfl) hd, by rw [Option.getD_none] at h3; rw [h3]; rfl⟩
  · obtain ⟨y, hy, rfl⟩ := one_some h4
    simp only [Bool.or_eq_true, beq_iff_eq] at hy
    rw [h4, Option.getD_some] at h3
    exact ⟨e :: ([y] ++ d), .mk he.symm (by rcases hy with rfl | rfl <;> simp) hd, by rw [h3]; rfl⟩

theorem intF_sound {s s' : Text} (h : intF s = some s') : ∃ x, Whole x ∧ s = x ++ s' := by
  rcases Option.or_eq_some_iff.mp h with h | ⟨-, h⟩
  · exact ⟨_, .zero, strip_some.mp h⟩
  · obtain ⟨s1, h1, h2⟩ := Option.bind_eq_some_iff.mp h
    cases h2
    obtain ⟨x, hx, rfl⟩ := one_some h1
    exact ⟨x :: s1.takeWhile isDigit, .other (isNonzero_iff.mp hx) fun y hy => isDigit_iff.mp (mem_takeWhile hy), by rw [List.cons_append, List.takeWhile_append_dropWhile]⟩

theorem fracF_sound {s s' : Text} (h : fracF s = some s') : ∃ x, Fraction sample x ∧ s = x ++ s' := by
  obtain ⟨s1, h1, h2⟩ := Option.bind_eq_some_iff.mp h
  obtain ⟨s2, h3, h4⟩ := Option.bind_eq_some_iff.mp h2
  obtain rfl := strip_some.mp h1
  obtain ⟨w, hw, h5⟩ := dropB_eq s1
  obtain ⟨d, hd, h6⟩ := many1_some h3
  obtain ⟨w', hw', h7⟩ := dropB_eq s2
  cases h4
  rcases h8 : expF (dropB s2) with _ | s3
  · refine ⟨'.' :: (w ++ d ++ w' ++ []), .dot hw hd hw' (by simp [sample]) (.inl rfl), ?_⟩
    rw [Option.getD_none]
    conv => lhs; rw [h5, h6, h7]
    simp
  · obtain ⟨x, hx, h9⟩ := expF_sound h8
    refine ⟨'.' :: (w ++ d ++ w' ++ x), .dot hw hd hw' (by simp [sample]) (.inr hx), ?_⟩
    rw [Option.getD_some]
    conv => lhs; rw [h5, h6, h7, h9]
    simp

theorem numberF_sound {s s' : Text} (h : numberF s = some s') : ∃ x, Number sample x ∧ s = x ++ s' := by
  obtain ⟨s1, h1, h2⟩ := Option.bind_eq_some_iff.mp h
  obtain ⟨n, hn, h3⟩ := intF_sound h1
  cases h2
  obtain ⟨g, hg, h4⟩ : ∃ g, (g = [] ∨ g = ['-']) ∧ s = g ++ (n ++ s1) := by
    rcases h5 : strip ['-'] s with _ | s2
    · rw [h5, Option.getD_none] at h3; exact ⟨[], .inl rfl, h3⟩
    · rw [h5, Option.getD_some] at h3; exact ⟨['-'], .inr rfl, by rw [strip_some.mp h5, h3]⟩
  obtain ⟨x, hx, h5⟩ : ∃ x, Fraction sample x ∧ s1 = x ++ ((fracF s1).or (expF s1)).getD s1 := by
    rcases h6 : fracF s1 with _ | s2
    · rcases h7 : expF s1 with _ | s3
      · exact ⟨[], .none, rfl⟩
      · obtain ⟨x, hx, h8⟩ := expF_sound h7; exact ⟨x, .exp hx, h8⟩
    · obtain ⟨x, hx, h8⟩ := fracF_sound h6; exact ⟨x, hx, h8⟩
  exact ⟨g ++ n ++ x, .mk hg hn hx, by rw [List.append_assoc, ← h5, List.append_assoc]; exact h4⟩

theorem Chars.append {D : Dialect} {c c' : Text} (h : Chars D c) (h' : Chars D c') : Chars D (c ++ c') := by
  induction h with
  | nil => exact h'
  | plain h1 h2 h3 _ ih => exact .plain h1 h2 h3 ih
  | escape h1 _ ih => exact .escape h1 ih
  | unicode h1 h2 _ ih => rw [List.cons_append, List.cons_append, List.append_assoc]; exact .unicode h1 h2 ih

theorem chars_plain {c : Text} (h : ∀ x ∈ c, isPlain x = true) : Chars sample c := by
  induction c with
  | nil => exact .nil
  | cons x c ih =>
    have := h x List.mem_cons_self
    simp only [isPlain, Bool.and_eq_true, bne_iff_ne] at this
    exact .plain this.1 this.2 (fun _ => rfl) (ih fun y hy => h y (List.mem_cons_of_mem _ hy))

theorem plain_of_space {x : Char} (h : isSpace x = true) : isPlain x = true := by
  rcases isSpace_iff.mp h with rfl | rfl | rfl | rfl <;> decide

theorem isEsc_iff {x : Char} : isEsc x = true ↔ x ∈ ['"', '\\', '/', 'b', 'f', 'n', 'r', 't'] := by
  simp only [isEsc, Bool.or_eq_true, beq_iff_eq, List.mem_cons, List.not_mem_nil, or_false]

theorem escF_sound {s s' c : Text} (h : escF s = some s') (hc : Chars sample c) : ∃ x, (Chars sample (x ++ c)) ∧ s = x ++ s' := by
  obtain ⟨s1, h1, h2⟩ := Option.bind_eq_some_iff.mp h
  obtain rfl := strip_some.mp h1
  rcases Option.or_eq_some_iff.mp h2 with h3 | ⟨-, h3⟩
  · obtain ⟨x, hx, rfl⟩ := one_some h3
    exact ⟨['\\', x], .escape (isEsc_iff.mp hx) hc, rfl⟩
  · obtain ⟨s2, h4, h5⟩ := Option.bind_eq_some_iff.mp h3
    obtain rfl := strip_some.mp h4
    simp only [four, Option.bind_eq_some_iff] at h5
    obtain ⟨t1, k1, t2, k2, t3, k3, k4⟩ := h5
    obtain ⟨x1, g1, rfl⟩ := one_some k1
    obtain ⟨x2, g2, rfl⟩ := one_some k2
    obtain ⟨x3, g3, rfl⟩ := one_some k3
    obtain ⟨x4, g4, rfl⟩ := one_some k4
    refine ⟨'\\' :: 'u' :: [x1, x2, x3, x4], .unicode (h := [x1, x2, x3, x4]) rfl ?_ hc, rfl⟩
    intro x hx
    simp only [List.mem_cons, List.not_mem_nil, or_false] at hx
    rcases hx with rfl | rfl | rfl | rfl <;> exact isHex_iff.mp (by assumption)

theorem innerF_sound (n : Nat) : ∀ s, ∃ c, Chars sample c ∧ s = c ++ innerF n s := by
  induction n with
  | zero => exact fun s => ⟨s.takeWhile isPlain, chars_plain fun _ h => mem_takeWhile h, List.takeWhile_append_dropWhile.symm⟩
  | succ n ih =>
    intro s
    have hp : Chars sample (s.takeWhile isPlain) := chars_plain fun _ h => mem_takeWhile h
    have hs : s = s.takeWhile isPlain ++ s.dropWhile isPlain := List.takeWhile_append_dropWhile.symm
    simp only [innerF]
    rcases h : escF (s.dropWhile isPlain) with _ | s'
    · exact ⟨_, hp, hs⟩
    · obtain ⟨w, hw, h1⟩ := dropB_eq s'
      obtain ⟨c, hc, h2⟩ := ih (dropB s')
      have hw' : Chars sample (w ++ c) := (chars_plain fun x hx => plain_of_space (blank_iff.mp hw x hx)).append hc
      obtain ⟨x, hx, h3⟩ := escF_sound h hw'
      refine ⟨s.takeWhile isPlain ++ (x ++ (w ++ c)), hp.append hx, ?_⟩
      conv => lhs; rw [hs, h3, h1, h2]
      simp

theorem stringF_sound {s s' : Text} (h : stringF s = some s') : ∃ c, Chars sample c ∧ s = '"' :: (c ++ '"' :: s') := by
  obtain ⟨s1, h1, h2⟩ := Option.bind_eq_some_iff.mp h
  obtain ⟨c, hc, h3⟩ := innerF_sound s1.length s1
  rw [strip_some.mp h2] at h3
  exact ⟨c, hc, by rw [strip_some.mp h1, h3]; rfl⟩

theorem sepF_sound {s s' : Text} (h : sepF s = some s') : ∃ w w', Blank w ∧ Blank w' ∧ s = w ++ ',' :: (w' ++ s') := by
  obtain ⟨s1, h1, h2⟩ := Option.bind_eq_some_iff.mp h
  cases h2
  obtain ⟨w, hw, h5⟩ := dropB_eq s
  obtain ⟨w', hw', h6⟩ := dropB_eq s1
  refine ⟨w, w', hw, hw', ?_⟩
  conv => lhs; rw [h5, strip_some.mp h1, h6]
  simp

/-- What `f` matches is a value. -/
def Sound (f : Text → Option Text) : Prop := ∀ s s', f s = some s' → ∃ v, Json sample .value v ∧ s = v ++ s'

section
variable {f : Text → Option Text} (hf : Sound f)
include hf

theorem pairF_sound {s s' : Text} (h : pairF f s = some s') : ∃ m, Json sample .member m ∧ s = m ++ s' := by
  obtain ⟨s1, h1, h2⟩ := Option.bind_eq_some_iff.mp h
  obtain ⟨s2, h3, h4⟩ := Option.bind_eq_some_iff.mp h2
  obtain ⟨c, hc, rfl⟩ := stringF_sound h1
  obtain ⟨w, hw, h5⟩ := dropB_eq s1
  obtain ⟨w', hw', h6⟩ := dropB_eq s2
  obtain ⟨v, hv, h7⟩ := hf _ _ h4
  refine ⟨_, .member hc hw hw' hv, ?_⟩
  conv => lhs; rw [h5, strip_some.mp h3, h6, h7]
  simp

theorem pairs_again (n : Nat) : ∀ s m, Json sample .member m → ∃ t, Json sample .members (m ++ t) ∧ s = t ++ again (fun s => (sepF s).bind (pairF f)) n s := by
  induction n with
  | zero => exact fun s m hm => ⟨[], by rw [List.append_nil]; exact .last hm, rfl⟩
  | succ n ih =>
    intro s m hm
    simp only [again]
    rcases h : (sepF s).bind (pairF f) with _ | s'
    · exact ⟨[], by rw [List.append_nil]; exact .last hm, rfl⟩
    · obtain ⟨s1, h1, h2⟩ := Option.bind_eq_some_iff.mp h
      obtain ⟨w, w', hw, hw', rfl⟩ := sepF_sound h1
      obtain ⟨m', hm', rfl⟩ := pairF_sound hf h2
      obtain ⟨t, ht, h3⟩ := ih s' m' hm'
      refine ⟨w ++ ',' :: (w' ++ (m' ++ t)), by rw [← List.append_assoc]; exact .members hm hw hw' ht, ?_⟩
      conv => lhs; rw [h3]
      simp

theorem objectF_sound {s s' : Text} (h : objectF f s = some s') : ∃ v, Json sample .value v ∧ s = v ++ s' := by
  obtain ⟨s1, h1, h2⟩ := Option.bind_eq_some_iff.mp h
  obtain ⟨w, hw, h3⟩ := dropB_eq s1
  obtain ⟨w', hw', h4⟩ := dropB_eq (pairsF f (dropB s1))
  rw [strip_some.mp h2] at h4
  rcases h5 : pairF f (dropB s1) with _ | s2
  · have : pairsF f (dropB s1) = dropB s1 := by simp [pairsF, h5]
    rw [this] at h4
    refine ⟨_, .objectEmpty (hw.append hw'), ?_⟩
    conv => lhs; rw [strip_some.mp h1, h3, h4]
    simp
  · obtain ⟨m, hm, h6⟩ := pairF_sound hf h5
    obtain ⟨t, ht, h7⟩ := pairs_again hf (dropB s1).length s2 m hm
    have : pairsF f (dropB s1) = again (fun s => (sepF s).bind (pairF f)) (dropB s1).length s2 := by simp [pairsF, h5]
    rw [this] at h4
    refine ⟨_, .object hw ht hw', ?_⟩
    rw [h4] at h7
    conv => lhs; rw [strip_some.mp h1, h3, h6, h7]
    simp

theorem itemF_sound {s s' : Text} (h : itemF f s = some s') : ∃ w' v, Blank w' ∧ Json sample .value v ∧ s = ',' :: (w' ++ v ++ s') := by
  obtain ⟨s1, h1, h2⟩ := Option.bind_eq_some_iff.mp h
  obtain ⟨w', hw', h6⟩ := dropB_eq s1
  obtain ⟨v, hv, h7⟩ := hf _ _ h2
  refine ⟨w', v, hw', hv, ?_⟩
  conv => lhs; rw [strip_some.mp h1, h6, h7]
  simp

theorem items_again (n : Nat) : ∀ s v, Json sample .value v → ∃ t, Json sample (.elements false) (v ++ t) ∧ s = t ++ again (itemF f) n s := by
  induction n with
  | zero => exact fun s m hm => ⟨[], by rw [List.append_nil]; exact .element hm, rfl⟩
  | succ n ih =>
    intro s v hv
    simp only [again]
    rcases h : itemF f s with _ | s'
    · exact ⟨[], by rw [List.append_nil]; exact .element hv, rfl⟩
    · obtain ⟨w', v', hw', hv', rfl⟩ := itemF_sound hf h
      obtain ⟨t, ht, h3⟩ := ih s' v' hv'
      refine ⟨',' :: (w' ++ (v' ++ t)), ?_, ?_⟩
      · have := Json.elements (b := false) hv Blank.nil (fun _ _ => rfl) hw' ht
        rwa [List.append_nil] at this
      · conv => lhs; rw [h3]
        simp

theorem arrayF_sound {s s' : Text} (h : arrayF f s = some s') : ∃ v, Json sample .value v ∧ s = v ++ s' := by
  rcases Option.or_eq_some_iff.mp h with h | ⟨-, h⟩
  · obtain ⟨s1, h1, h2⟩ := Option.bind_eq_some_iff.mp h
    obtain ⟨s2, h3, h4⟩ := Option.bind_eq_some_iff.mp h2
    obtain ⟨w, hw, h5⟩ := dropB_eq s1
    obtain ⟨v, hv, h6⟩ := hf _ _ h3
    obtain ⟨w1, hw1, h7⟩ := dropB_eq s2
    obtain ⟨w2, hw2, h8⟩ := dropB_eq (itemsF f (dropB s2))
    rw [strip_some.mp h4] at h8
    rcases h9 : itemF f (dropB s2) with _ | s3
    · have : itemsF f (dropB s2) = dropB s2 := by simp [itemsF, h9]
      rw [this] at h8
      refine ⟨_, .array hw (.element hv) (hw1.append hw2), ?_⟩
      conv => lhs; rw [strip_some.mp h1, h5, h6, h7, h8]
      simp
    · obtain ⟨w', v', hw', hv', h10⟩ := itemF_sound hf h9
      obtain ⟨t, ht, h11⟩ := items_again hf (dropB s2).length s3 v' hv'
      have : itemsF f (dropB s2) = again (itemF f) (dropB s2).length s3 := by simp [itemsF, h9]
      rw [this] at h8
      rw [h8] at h11
      refine ⟨_, .array hw (.elements hv hw1 (by simp) hw' ht) hw2, ?_⟩
      conv => lhs; rw [strip_some.mp h1, h5, h6, h7, h10, h11]
      simp
  · obtain ⟨s1, h1, h2⟩ := Option.bind_eq_some_iff.mp h
    obtain ⟨w, hw, h5⟩ := dropB_eq s1
    rw [strip_some.mp h2] at h5
    refine ⟨_, .arrayEmpty hw, ?_⟩
    conv => lhs; rw [strip_some.mp h1, h5]
    simp

end

theorem valueF_sound (n : Nat) : Sound (valueF n) := by
  induction n with
  | zero => intro s s' h; cases h
  | succ n ih =>
    intro s s' h
    rcases Option.or_eq_some_iff.mp h with h | ⟨-, h⟩
    · obtain ⟨c, hc, rfl⟩ := stringF_sound h
      exact ⟨_, .string hc, by simp⟩
    rcases Option.or_eq_some_iff.mp h with h | ⟨-, h⟩
    · obtain ⟨x, hx, h⟩ := numberF_sound h
      exact ⟨x, .number hx, h⟩
    rcases Option.or_eq_some_iff.mp h with h | ⟨-, h⟩
    · exact objectF_sound ih h
    rcases Option.or_eq_some_iff.mp h with h | ⟨-, h⟩
    · exact arrayF_sound ih h
    rcases Option.or_eq_some_iff.mp h with h | ⟨-, h⟩
    · rcases Option.or_eq_some_iff.mp h with h | ⟨-, h⟩
      · exact ⟨_, .true, strip_some.mp h⟩
      · exact ⟨_, .false, strip_some.mp h⟩
    · exact ⟨_, .null, strip_some.mp h⟩

theorem jsonF_sound {s : Text} (h : jsonF s = true) : JsonText sample s := by
  unfold jsonF at h
  split at h
  · rename_i s' h1
    obtain ⟨v, hv, h2⟩ := valueF_sound _ _ _ h1
    obtain ⟨w, hw, h3⟩ := dropB_eq s
    obtain ⟨w', hw', h4⟩ := dropB_eq s'
    rw [List.isEmpty_iff.mp h, List.append_nil] at h4
    exact ⟨w, v, w', hw, hv, hw', by rw [h2, h4, ← List.append_assoc] at h3; exact h3⟩
  · cases h

/-! ## JSON is matched -/

/-- What may follow a value. -/
def Follow (r : Text) : Prop := ∃ w r', r = w ++ r' ∧ Blank w ∧ (r' = [] ∨ ∃ x r'', r' = x :: r'' ∧ (x = ',' ∨ x = ']' ∨ x = '}'))

theorem Follow.head {r : Text} (h : Follow r) {x : Char} {s : Text} (hr : r = x :: s) : isSpace x = true ∨ x = ',' ∨ x = ']' ∨ x = '}' := by
  obtain ⟨w, r', rfl, hw, h⟩ := h
  cases w with
  | cons y w => cases hr; exact .inl (blank_iff.mp hw _ List.mem_cons_self)
  | nil =>
    rcases h with rfl | ⟨y, r'', rfl, h⟩
    · cases hr
    · cases hr; exact .inr h

theorem Follow.dropB {r : Text} (h : Follow r) : dropB r = [] ∨ ∃ x r'', dropB r = x :: r'' ∧ (x = ',' ∨ x = ']' ∨ x = '}') := by
  obtain ⟨w, r', rfl, hw, h⟩ := h
  rw [dropB_blank hw]
  rcases h with rfl | ⟨x, r'', rfl, h⟩
  · exact .inl rfl
  · refine .inr ⟨x, r'', dropB_cons ?_ _, h⟩
    rcases h with rfl | rfl | rfl <;> rfl

theorem Follow.not {r : Text} (h : Follow r) {f : Char → Bool} (h1 : ∀ x, isSpace x = true → f x = false) (h2 : f ',' = false) (h3 : f ']' = false) (h4 : f '}' = false) : Not f r := by
  intro x s hr
  rcases h.head hr with h | rfl | rfl | rfl
  · exact h1 x h
  all_goals assumption

theorem space_not {f : Char → Bool} (h1 : f ' ' = false) (h2 : f '\t' = false) (h3 : f '\r' = false) (h4 : f '\n' = false) : ∀ x, isSpace x = true → f x = false := by
  intro x hx
  rcases isSpace_iff.mp hx with rfl | rfl | rfl | rfl <;> assumption

theorem Not.one {f : Char → Bool} {r : Text} (h : Not f r) : one f r = none := by
  cases r with
  | nil => rfl
  | cons x s => exact one_cons_none (h x s rfl) s

theorem Not.strip {x : Char} {r : Text} (h : Not (· == x) r) : strip [x] r = none := by rw [strip_one]; exact h.one

theorem not_cons {f : Char → Bool} {x : Char} {s : Text} (h : f x = false) : Not f (x :: s) := fun y t ht => by cases ht; exact h

theorem not_nil {f : Char → Bool} : Not f [] := fun y t ht => by cases ht

theorem Not.expF {r : Text} (h : Not (fun x => x == 'E' || x == 'e') r) : expF r = none := by rw [Json.expF, h.one]; rfl

theorem Not.fracF {r : Text} (h : Not (· == '.') r) : fracF r = none := by rw [Json.fracF, h.strip]; rfl

theorem digit_not {x : Char} (h : '0' ≤ x ∧ x ≤ '9') {y : Char} (hy : ¬ ('0' ≤ y ∧ y ≤ '9')) : (x == y) = false := by
  rw [beq_eq_false_iff_ne]
  rintro rfl
  exact hy h

theorem expF_complete {x r : Text} (h : Exponent x) (hr : Not isDigit r) : expF (x ++ r) = some r := by
  obtain ⟨he, hs, hd⟩ := h
  rename_i e s d
  have h1 : (e == 'E' || e == 'e') = true := by rcases he with rfl | rfl <;> rfl
  rw [expF, List.cons_append, one_cons h1, Option.bind_some, List.append_assoc]
  have h2 : (one (fun x => x == '+' || x == '-') (s ++ (d ++ r))).getD (s ++ (d ++ r)) = d ++ r := by
    rcases hs with rfl | rfl | rfl
    · obtain ⟨hd0, hd1⟩ := hd
      cases d with
      | nil => exact absurd rfl hd0
      | cons y d =>
        have := hd1 y List.mem_cons_self
        rw [List.nil_append, List.cons_append, one_cons_none]
        · rfl
        · rw [digit_not this (by decide), digit_not this (by decide)]; rfl
    · rfl
    · rfl
  rw [h2]
  exact many1_digits hd hr

theorem exponent_head {x : Text} (h : Exponent x) : ∃ e s, x = e :: s ∧ (e = 'e' ∨ e = 'E') := by
  cases h with
  | mk he _ _ => exact ⟨_, _, rfl, he⟩

theorem intF_complete {n r : Text} (h : Whole n) (hr : Not isDigit r) : intF (n ++ r) = some r := by
  cases h with
  | zero => rfl
  | other hx hd =>
    rename_i x d
    have hz : Not (· == '0') (x :: (d ++ r)) := not_cons (by
      rw [beq_eq_false_iff_ne]
      rintro rfl
      exact absurd hx.1 (by decide))
    rw [List.cons_append, intF, hz.strip, Option.none_or, one_cons (isNonzero_iff.mpr hx), Option.bind_some,
      dropWhile_not (fun y hy => isDigit_iff.mpr (hd y hy)) hr]

theorem numberF_complete {n r : Text} (h : Number sample n) (hr : Follow r) : ∃ w r', r = w ++ r' ∧ Blank w ∧ numberF (n ++ r) = some r' := by
  obtain ⟨hs, hn, hx⟩ := h
  rename_i s n x
  have rd : Not isDigit r := hr.not (space_not rfl rfl rfl rfl) rfl rfl rfl
  have re : Not (fun x => x == 'E' || x == 'e') r := hr.not (space_not rfl rfl rfl rfl) rfl rfl rfl
  have rp : Not (· == '.') r := hr.not (space_not rfl rfl rfl rfl) rfl rfl rfl
  have h1 : (strip ['-'] (s ++ n ++ x ++ r)).getD (s ++ n ++ x ++ r) = n ++ (x ++ r) := by
    rcases hs with rfl | rfl
    · have : Not (· == '-') (n ++ (x ++ r)) := by
        cases hn with
        | zero => exact not_cons rfl
        | other h1 _ => exact not_cons (digit_not ⟨by rw [char_le] at *; simp only [Char.reduceToNat] at *; omega, h1.2⟩ (by decide))
      simp only [List.nil_append, List.append_assoc]
      rw [this.strip]
      rfl
    · simp [strip]
  have h2 : Not isDigit (x ++ r) := by
    cases hx with
    | none => exact rd
    | exp h =>
      obtain ⟨e, s, rfl, h⟩ := exponent_head h
      exact not_cons (by rcases h with rfl | rfl <;> rfl)
    | dot => exact not_cons rfl
  have h3 : numberF (s ++ n ++ x ++ r) = some (((fracF (x ++ r)).or (expF (x ++ r))).getD (x ++ r)) := by
    rw [numberF, h1, intF_complete hn h2]; rfl
  rw [h3]
  cases hx with
  | none => exact ⟨[], r, rfl, .nil, by rw [List.nil_append, rp.fracF, re.expF]; rfl⟩
  | exp h =>
    refine ⟨[], r, rfl, .nil, ?_⟩
    have k : Not (· == '.') (x ++ r) := by
      obtain ⟨e, s, rfl, h⟩ := exponent_head h
      rcases h with rfl | rfl <;> exact not_cons rfl
    rw [expF_complete h rd, k.fracF]
    rfl
  | dot hw hd hw' hgap hx =>
    clear hgap
    rename_i w d w' x
    have k1 : Not isDigit (w' ++ (x ++ r)) := by
      cases w' with
      | cons y w' => exact not_cons (space_not rfl rfl rfl rfl y (blank_iff.mp hw' _ List.mem_cons_self))
      | nil =>
        rcases hx with rfl | h
        · exact rd
        · obtain ⟨e, s, rfl, h⟩ := exponent_head h
          exact not_cons (by rcases h with rfl | rfl <;> rfl)
    have k2 : dropB (w ++ (d ++ (w' ++ (x ++ r)))) = d ++ (w' ++ (x ++ r)) := by
      rw [dropB_blank hw]
      cases d with
      | nil => exact absurd rfl hd.1
      | cons y d =>
        have := hd.2 y List.mem_cons_self
        refine dropB_cons ?_ _
        simp only [isSpace, digit_not this (y := ' ') (by decide), digit_not this (y := '\t') (by decide), digit_not this (y := '\r') (by decide), digit_not this (y := '\n') (by decide), Bool.or_false]
    have k3 : fracF ('.' :: (w ++ d ++ w' ++ x) ++ r) = some ((expF (dropB (x ++ r))).getD (dropB (x ++ r))) := by
      have : '.' :: (w ++ d ++ w' ++ x) ++ r = '.' :: (w ++ (d ++ (w' ++ (x ++ r)))) := by simp
      rw [this, fracF, strip_cons, Option.bind_some, k2, many1_digits hd k1, Option.bind_some, dropB_blank hw']
    rw [k3]
    rcases hx with rfl | hx
    · obtain ⟨w2, hw2, k4⟩ := dropB_eq r
      refine ⟨w2, dropB r, k4, hw2, ?_⟩
      rw [List.nil_append, Not.expF]
      · rfl
      · rcases hr.dropB with h | ⟨y, r'', h, h'⟩
        · rw [h]; exact not_nil
        · rw [h]; exact not_cons (by rcases h' with rfl | rfl | rfl <;> rfl)
    · refine ⟨[], r, rfl, .nil, ?_⟩
      have k5 : dropB (x ++ r) = x ++ r := by
        obtain ⟨e, s, rfl, h⟩ := exponent_head hx
        exact dropB_cons (by rcases h with rfl | rfl <;> rfl) _
      rw [k5, expF_complete hx rd]
      rfl

theorem innerF_dropB (n : Nat) (s : Text) : innerF n (dropB s) = innerF n s := by
  have : (dropB s).dropWhile isPlain = s.dropWhile isPlain := by
    induction s with
    | nil => rfl
    | cons x s ih =>
      by_cases h : isSpace x = true
      · rw [dropB, List.dropWhile_cons, if_pos h, List.dropWhile_cons, if_pos (plain_of_space h)]; exact ih
      · rw [dropB_cons (by simpa using h)]
  cases n <;> simp only [innerF, this]

theorem innerF_plain {x : Char} (h : isPlain x = true) (n : Nat) (s : Text) : innerF n (x :: s) = innerF n s := by
  have : (x :: s).dropWhile isPlain = s.dropWhile isPlain := by rw [List.dropWhile_cons, if_pos h]
  cases n <;> simp only [innerF, this]

theorem innerF_esc {s s' : Text} (h0 : Not isPlain s) (h : escF s = some s') (n : Nat) : innerF (n + 1) s = innerF n s' := by
  have : s.dropWhile isPlain = s := dropWhile_not (d := []) (fun _ h => by cases h) h0
  simp only [innerF, this, h]
  exact innerF_dropB n s'

theorem innerF_complete {c : Text} (h : Chars sample c) (r : Text) : ∀ n, (c ++ '"' :: r).length ≤ n → innerF n (c ++ '"' :: r) = '"' :: r := by
  induction h with
  | nil => intro n _; cases n <;> rfl
  | plain h1 h2 _ _ ih =>
    intro n hn
    rw [List.cons_append, innerF_plain (by simp [isPlain, h1, h2])]
    exact ih n (by simp at hn ⊢; omega)
  | escape h1 _ ih =>
    rename_i x s _
    intro n hn
    cases n with
    | zero => simp at hn
    | succ n =>
      rw [List.cons_append, List.cons_append, innerF_esc (s' := s ++ '"' :: r) (not_cons rfl)]
      · exact ih n (by simp at hn ⊢; omega)
      · rw [escF, strip_cons, Option.bind_some, one_cons (isEsc_iff.mpr h1)]; rfl
  | unicode h1 h2 _ ih =>
    rename_i h s _
    intro n hn
    cases n with
    | zero => simp at hn
    | succ n =>
      rw [List.cons_append, List.cons_append, List.append_assoc, innerF_esc (s' := s ++ '"' :: r) (not_cons rfl)]
      · exact ih n (by simp at hn ⊢; omega)
      · match h, h1, h2 with
        | [a, b, c, d], _, h2 =>
          have k := fun x hx => isHex_iff.mpr (h2 x hx)
          simp only [List.mem_cons, List.not_mem_nil, or_false, forall_eq_or_imp, forall_eq] at k
          obtain ⟨k1, k2, k3, k4⟩ := k
          rw [escF, strip_cons, Option.bind_some, one_cons_none rfl, Option.none_or,
            strip_cons, Option.bind_some]
          simp only [four, List.cons_append, one_cons k1, one_cons k2, one_cons k3, one_cons k4, Option.bind_some, List.nil_append]

theorem stringF_complete {c : Text} (h : Chars sample c) (r : Text) : stringF ('"' :: (c ++ '"' :: r)) = some r := by
  rw [stringF, strip_cons, Option.bind_some, innerF_complete h r _ (Nat.le_refl _)]
  rfl

/-- The first character of what is described. -/
theorem Json.head {D : Dialect} {k : Kind} {t : Text} (h : Json D k t) : ∃ x t', t = x :: t' ∧ isSpace x = Bool.false := by
  induction h with
  | number hn =>
    obtain ⟨hs, hw, -⟩ := hn
    rcases hs with rfl | rfl
    · cases hw with
      | zero => exact ⟨_, _, rfl, rfl⟩
      | other hx _ =>
        rename_i x d _
        refine ⟨x, _, rfl, ?_⟩
        have : ∀ y : Char, ¬ ('1' ≤ y ∧ y ≤ '9') → (x == y) = Bool.false := fun y hy => by rw [beq_eq_false_iff_ne]; rintro rfl; exact hy hx
        simp only [isSpace, this ' ' (by decide), this '\t' (by decide), this '\r' (by decide), this '\n' (by decide), Bool.or_false]
    · exact ⟨_, _, rfl, rfl⟩
  | last _ ih => exact ih
  | members _ _ _ _ ih _ => obtain ⟨x, t', rfl, h⟩ := ih; exact ⟨x, _, rfl, h⟩
  | element _ ih => exact ih
  | elements _ _ _ _ _ ih _ => obtain ⟨x, t', rfl, h⟩ := ih; exact ⟨x, _, rfl, h⟩
  | _ => exact ⟨_, _, rfl, rfl⟩

theorem Json.dropB {D : Dialect} {k : Kind} {t : Text} (h : Json D k t) {w : Text} (hw : Blank w) (r : Text) : dropB (w ++ (t ++ r)) = t ++ r := by
  obtain ⟨x, t', rfl, hx⟩ := h.head
  rw [dropB_blank hw]
  exact dropB_cons hx _

theorem stringF_none {x : Char} {s : Text} (h : x ≠ '"') : stringF (x :: s) = none := by
  rw [stringF, (not_cons (by simpa using h) : Not (· == '"') (x :: s)).strip]; rfl

theorem objectF_none {f} {x : Char} {s : Text} (h : x ≠ '{') : objectF f (x :: s) = none := by
  rw [objectF, (not_cons (by simpa using h) : Not (· == '{') (x :: s)).strip]; rfl

theorem arrayF_none {f} {x : Char} {s : Text} (h : x ≠ '[') : arrayF f (x :: s) = none := by
  rw [arrayF, (not_cons (by simpa using h) : Not (· == '[') (x :: s)).strip]; rfl

theorem numberF_none {x : Char} {s : Text} (h : x ≠ '-') (hd : isDigit x = false) : numberF (x :: s) = none := by
  have h1 : Not (· == '0') (x :: s) := not_cons (by rw [beq_eq_false_iff_ne]; rintro rfl; cases hd)
  have h2 : isNonzero x = false := by
    cases h3 : isNonzero x with
    | false => rfl
    | true =>
      obtain ⟨h4, h5⟩ := isNonzero_iff.mp h3
      have : isDigit x = true := isDigit_iff.mpr ⟨by rw [char_le] at *; simp only [Char.reduceToNat] at *; omega, h5⟩
      rw [hd] at this; cases this
  rw [numberF, (not_cons (by simpa using h) : Not (· == '-') (x :: s)).strip, Option.getD_none, intF, h1.strip, Option.none_or, one_cons_none h2]
  rfl

theorem pairF_none {f} {x : Char} {s : Text} (h : x ≠ '"') : pairF f (x :: s) = none := by rw [pairF, stringF_none h]; rfl

/-- The rest that is left, up to blanks. -/
def Rest (o : Option Text) (r : Text) : Prop := ∃ w r', r = w ++ r' ∧ Blank w ∧ o = some r'

theorem Rest.self (r : Text) : Rest (some r) r := ⟨[], r, rfl, .nil, rfl⟩

theorem Rest.dropB {o : Option Text} {r : Text} (h : Rest o r) : ∃ r', o = some r' ∧ dropB r' = dropB r ∧ (∀ x s, r = x :: s → isSpace x = false → r' = r) := by
  obtain ⟨w, r', rfl, hw, rfl⟩ := h
  refine ⟨r', rfl, (dropB_blank hw r').symm, fun x s h hx => ?_⟩
  cases w with
  | nil => rfl
  | cons y w =>
    cases h
    rw [blank_iff.mp hw _ List.mem_cons_self] at hx
    cases hx

/-- What the functions do with what is described. -/
def Good : Kind → Text → Prop
  | .value, v => ∀ n r, (v ++ r).length < n → Follow r → Rest (valueF n (v ++ r)) r
  | .member, m => ∀ n r, (m ++ r).length < n → Follow r → Rest (pairF (valueF n) (m ++ r)) r
  | .members, l => ∀ n w r, (l ++ (w ++ '}' :: r)).length < n → Blank w → ∃ s', pairF (valueF n) (l ++ (w ++ '}' :: r)) = some s' ∧
      ∀ k, (l ++ (w ++ '}' :: r)).length ≤ k → dropB (again (fun s => (sepF s).bind (pairF (valueF n))) k s') = '}' :: r
  | .elements first, l => ∀ n w r, (l ++ (w ++ ']' :: r)).length < n → Blank w → ∃ s', valueF n (l ++ (w ++ ']' :: r)) = some s' ∧
      (first = true → dropB (itemsF (valueF n) (dropB s')) = ']' :: r) ∧
      (first = false → ∀ k, (l ++ (w ++ ']' :: r)).length ≤ k → dropB (again (itemF (valueF n)) k s') = ']' :: r)

theorem follow_of {w : Text} (hw : Blank w) {x : Char} {r : Text} (hx : x = ',' ∨ x = ']' ∨ x = '}') : Follow (w ++ x :: r) :=
  ⟨w, x :: r, rfl, hw, .inr ⟨x, r, rfl, hx⟩⟩

theorem again_none {f : Text → Option Text} {s : Text} (h : f s = none) (k : Nat) : again f k s = s := by
  cases k with
  | zero => rfl
  | succ k => simp only [again, h]

theorem again_some {f : Text → Option Text} {s s' : Text} (h : f s = some s') (k : Nat) : again f (k + 1) s = again f k s' := by
  simp only [again, h]

theorem strip_ne {x y : Char} {s : Text} (h : y ≠ x) : strip [x] (y :: s) = none := by simp [strip, h]

theorem good {k : Kind} {t : Text} (h : Json sample k t) : Good k t := by
  induction h with
  | true =>
    intro n r hn _
    cases n with
    | zero => exact absurd hn (Nat.not_lt_zero _)
    | succ n =>
      simp only [List.cons_append, List.nil_append, valueF, stringF_none (show 't' ≠ '"' by decide), numberF_none (show 't' ≠ '-' by decide) rfl, objectF_none (show 't' ≠ '{' by decide),
        arrayF_none (show 't' ≠ '[' by decide), Option.none_or]
      exact .self r
  | false =>
    intro n r hn _
    cases n with
    | zero => exact absurd hn (Nat.not_lt_zero _)
    | succ n =>
      simp only [List.cons_append, List.nil_append, valueF, stringF_none (show 'f' ≠ '"' by decide), numberF_none (show 'f' ≠ '-' by decide) rfl, objectF_none (show 'f' ≠ '{' by decide),
        arrayF_none (show 'f' ≠ '[' by decide), Option.none_or]
      exact .self r
  | null =>
    intro n r hn _
    cases n with
    | zero => exact absurd hn (Nat.not_lt_zero _)
    | succ n =>
      simp only [List.cons_append, List.nil_append, valueF, stringF_none (show 'n' ≠ '"' by decide), numberF_none (show 'n' ≠ '-' by decide) rfl, objectF_none (show 'n' ≠ '{' by decide),
        arrayF_none (show 'n' ≠ '[' by decide), Option.none_or]
      exact .self r
  | string hc =>
    rename_i c
    intro n r hn _
    cases n with
    | zero => exact absurd hn (Nat.not_lt_zero _)
    | succ n =>
      have : '"' :: (c ++ ['"']) ++ r = '"' :: (c ++ '"' :: r) := by simp
      rw [this, valueF, stringF_complete hc r]
      exact .self r
  | number hn =>
    rename_i x
    intro n r hlt hr
    cases n with
    | zero => exact absurd hlt (Nat.not_lt_zero _)
    | succ n =>
      obtain ⟨w, r', h1, h2, h3⟩ := numberF_complete hn hr
      refine ⟨w, r', h1, h2, ?_⟩
      have : stringF (x ++ r) = none := by
        obtain ⟨hs, hw, -⟩ := hn
        rcases hs with rfl | rfl
        · cases hw with
          | zero => exact stringF_none (by decide)
          | other hx _ => exact stringF_none (by rintro rfl; exact absurd hx (by decide))
        · exact stringF_none (by decide)
      rw [valueF, this, Option.none_or, h3]
      rfl
  | object hw hl hw' ih =>
    rename_i w w' l
    intro n r hn _
    cases n with
    | zero => exact absurd hn (Nat.not_lt_zero _)
    | succ n =>
      have e1 : '{' :: (w ++ l ++ w' ++ ['}']) ++ r = '{' :: (w ++ (l ++ (w' ++ '}' :: r))) := by simp
      rw [e1] at hn ⊢
      obtain ⟨s', h1, h2⟩ := ih n w' r (by simp at hn ⊢; omega) hw'
      have h3 : pairsF (valueF n) (l ++ (w' ++ '}' :: r)) = again (fun s => (sepF s).bind (pairF (valueF n))) (l ++ (w' ++ '}' :: r)).length s' := by simp only [pairsF, h1]
      have h4 : objectF (valueF n) ('{' :: (w ++ (l ++ (w' ++ '}' :: r)))) = some r := by
        rw [objectF, strip_cons, Option.bind_some, hl.dropB hw, h3, h2 _ (Nat.le_refl _), strip_cons]
      rw [valueF, stringF_none (by decide), numberF_none (by decide) rfl, h4]
      exact .self r
  | objectEmpty hw =>
    rename_i w
    intro n r hn _
    cases n with
    | zero => exact absurd hn (Nat.not_lt_zero _)
    | succ n =>
      have e1 : '{' :: (w ++ ['}']) ++ r = '{' :: (w ++ '}' :: r) := by simp
      have h3 : pairsF (valueF n) ('}' :: r) = '}' :: r := by simp only [pairsF, pairF_none (show '}' ≠ '"' by decide)]
      have h4 : objectF (valueF n) ('{' :: (w ++ '}' :: r)) = some r := by
        rw [objectF, strip_cons, Option.bind_some, dropB_blank hw, dropB_cons rfl, h3, dropB_cons rfl, strip_cons]
      rw [e1, valueF, stringF_none (by decide), numberF_none (by decide) rfl, h4]
      exact .self r
  | array hw hl hw' ih =>
    rename_i w w' l
    intro n r hn _
    cases n with
    | zero => exact absurd hn (Nat.not_lt_zero _)
    | succ n =>
      have e1 : '[' :: (w ++ l ++ w' ++ [']']) ++ r = '[' :: (w ++ (l ++ (w' ++ ']' :: r))) := by simp
      rw [e1] at hn ⊢
      obtain ⟨s', h1, h2, -⟩ := ih n w' r (by simp at hn ⊢; omega) hw'
      have h4 : arrayF (valueF n) ('[' :: (w ++ (l ++ (w' ++ ']' :: r)))) = some r := by
        rw [arrayF, strip_cons, Option.bind_some, hl.dropB hw, h1, Option.bind_some, h2 rfl, strip_cons]
        rfl
      rw [valueF, stringF_none (by decide), numberF_none (by decide) rfl, objectF_none (by decide), h4]
      exact .self r
  | arrayEmpty hw =>
    rename_i w
    intro n r hn _
    cases n with
    | zero => exact absurd hn (Nat.not_lt_zero _)
    | succ n =>
      have e1 : '[' :: (w ++ [']']) ++ r = '[' :: (w ++ ']' :: r) := by simp
      have h3 : valueF n (']' :: r) = none := by
        cases n with
        | zero => rfl
        | succ n => rw [valueF, stringF_none (by decide), numberF_none (by decide) rfl, objectF_none (by decide), arrayF_none (by decide)]; rfl
      have h4 : arrayF (valueF n) ('[' :: (w ++ ']' :: r)) = some r := by
        rw [arrayF, strip_cons, Option.bind_some, Option.bind_some, dropB_blank hw, dropB_cons rfl, h3, strip_cons]
        rfl
      rw [e1, valueF, stringF_none (by decide), numberF_none (by decide) rfl, objectF_none (by decide), h4]
      exact .self r
  | member hc hw hw' hv ih =>
    rename_i c w w' v
    intro n r hn hr
    have e1 : '"' :: (c ++ '"' :: (w ++ ':' :: (w' ++ v))) ++ r = '"' :: (c ++ '"' :: (w ++ ':' :: (w' ++ (v ++ r)))) := by simp
    rw [e1] at hn ⊢
    rw [pairF, stringF_complete hc, Option.bind_some, dropB_blank hw, dropB_cons rfl, strip_cons, Option.bind_some, hv.dropB hw']
    exact ih n r (by simp at hn ⊢; omega) hr
  | last hm ih =>
    intro n w r hn hw
    obtain ⟨r', h1, h2, -⟩ := (ih n (w ++ '}' :: r) hn (follow_of hw (by simp))).dropB
    refine ⟨r', h1, fun k _ => ?_⟩
    have h3 : dropB r' = '}' :: r := by rw [h2, dropB_blank hw, dropB_cons rfl]
    rw [again_none, h3]
    rw [sepF, h3, strip_ne (by decide)]
    rfl
  | members hm hw hw' hl ihm ihl =>
    rename_i m w w' l
    intro n w1 r hn hw1
    have e1 : m ++ w ++ ',' :: (w' ++ l) ++ (w1 ++ '}' :: r) = m ++ (w ++ ',' :: (w' ++ (l ++ (w1 ++ '}' :: r)))) := by simp
    rw [e1] at hn ⊢
    obtain ⟨r', h1, h2, -⟩ := (ihm n _ hn (follow_of hw (by simp))).dropB
    obtain ⟨s', h3, h4⟩ := ihl n w1 r (by simp at hn ⊢; omega) hw1
    refine ⟨r', h1, fun k hk => ?_⟩
    have h5 : dropB r' = ',' :: (w' ++ (l ++ (w1 ++ '}' :: r))) := by rw [h2, dropB_blank hw, dropB_cons rfl]
    cases k with
    | zero => simp at hk
    | succ k =>
      rw [again_some (s' := s')]
      · exact h4 k (by simp at hk ⊢; omega)
      · rw [sepF, h5, strip_cons, Option.bind_some, hl.dropB hw', Option.bind_some, h3]
  | element hv ih =>
    intro n w r hn hw
    have h0 := ih n (w ++ ']' :: r) hn (follow_of hw (by simp))
    obtain ⟨r', h1, h2, -⟩ := h0.dropB
    have h3 : dropB r' = ']' :: r := by rw [h2, dropB_blank hw, dropB_cons rfl]
    refine ⟨r', h1, fun _ => ?_, fun _ k _ => ?_⟩
    · rw [h3, itemsF]
      simp only [itemF, strip_ne (show ']' ≠ ',' by decide), Option.bind_none]
      exact dropB_cons rfl _
    · rw [again_none, h3]
      have : Not (· == ',') r' := by
        intro x s hx
        rw [beq_eq_false_iff_ne]
        rintro rfl
        rw [hx, dropB_cons rfl] at h3
        cases h3
      rw [itemF, this.strip]
      rfl
  | elements hv hw hroom hw' hl ihv ihl =>
    rename_i b v w w' l
    intro n w1 r hn hw1
    have e1 : v ++ w ++ ',' :: (w' ++ l) ++ (w1 ++ ']' :: r) = v ++ (w ++ ',' :: (w' ++ (l ++ (w1 ++ ']' :: r)))) := by simp
    rw [e1] at hn ⊢
    obtain ⟨r', h1, h2, h2'⟩ := (ihv n _ hn (follow_of hw (by simp))).dropB
    obtain ⟨s', h3, -, h4⟩ := ihl n w1 r (by simp at hn ⊢; omega) hw1
    have h5 : dropB r' = ',' :: (w' ++ (l ++ (w1 ++ ']' :: r))) := by rw [h2, dropB_blank hw, dropB_cons rfl]
    have h6 : itemF (valueF n) (',' :: (w' ++ (l ++ (w1 ++ ']' :: r)))) = some s' := by
      rw [itemF, strip_cons, Option.bind_some, hl.dropB hw', h3]
    refine ⟨r', h1, fun _ => ?_, fun hb k hk => ?_⟩
    · rw [h5, itemsF]
      simp only [h6]
      exact h4 rfl _ (by simp; omega)
    · obtain rfl := hroom hb rfl
      have h7 := h2' ',' _ rfl rfl
      rw [List.nil_append] at h7
      cases k with
      | zero => simp at hk
      | succ k =>
        rw [h7, again_some h6]
        exact h4 rfl k (by simp at hk ⊢; omega)

theorem jsonF_complete {s : Text} (h : JsonText sample s) : jsonF s = true := by
  obtain ⟨w, v, w', hw, hv, hw', rfl⟩ := h
  have h1 : dropB (w ++ v ++ w') = v ++ w' := by rw [List.append_assoc]; exact hv.dropB hw w'
  obtain ⟨r', h2, h3, -⟩ := (good hv ((w ++ v ++ w').length + 1) w' (by simp; omega) ⟨w', [], by simp, hw', .inl rfl⟩).dropB
  rw [jsonF, h1, h2]
  simp only
  rw [h3, dropB_blank' hw']
  rfl

theorem jsonF_iff {s : Text} : jsonF s = true ↔ JsonText sample s := ⟨jsonF_sound, jsonF_complete⟩

end Pest3.Json
