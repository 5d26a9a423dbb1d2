import Verif.StatesSpec

/-!
# Lemmas about the state builder
-/

namespace Pest3.States

/-! ## Bytes and characters -/

theorem size_one {c : Char} : c.utf8Size = 1 ↔ c.toNat < 128 := by
  rw [Char.utf8Size_eq_one_iff, UInt32.le_iff_toNat_le]
  show c.toNat ≤ 127 ↔ _
  omega

set_option maxRecDepth 10000 in
theorem high_or (b : UInt8) : 128 ≤ (b ||| 128).toNat ∧ 128 ≤ (b ||| 192).toNat ∧ 128 ≤ (b ||| 224).toNat ∧ 128 ≤ (b ||| 240).toNat := by
  refine forall_uint8 (P := fun b => 128 ≤ (b ||| 128).toNat ∧ 128 ≤ (b ||| 192).toNat ∧ 128 ≤ (b ||| 224).toNat ∧ 128 ≤ (b ||| 240).toNat) ?_ b
  decide

theorem encode_ascii {c : Char} (h : c.toNat < 128) : String.utf8EncodeChar c = [c.val.toUInt8] := String.utf8EncodeChar_eq_singleton (size_one.2 h)

theorem encode_high {c : Char} (h : ¬ c.toNat < 128) : ∀ b ∈ String.utf8EncodeChar c, 128 ≤ b.toNat := by
  have h1 : c.utf8Size ≠ 1 := fun h1 => h (size_one.1 h1)
  have h0 := Char.utf8Size_pos c
  have h4 := Char.utf8Size_le_four c
  intro b hb
  match hs : c.utf8Size with
  | 2 =>
    rw [String.utf8EncodeChar_eq_cons_cons hs] at hb
    simp only [List.mem_cons, List.not_mem_nil, or_false] at hb
    rcases hb with rfl | rfl <;> simp only [high_or]
  | 3 =>
    rw [String.utf8EncodeChar_eq_cons_cons_cons hs] at hb
    simp only [List.mem_cons, List.not_mem_nil, or_false] at hb
    rcases hb with rfl | rfl | rfl <;> simp only [high_or]
  | 4 =>
    rw [String.utf8EncodeChar_eq_cons_cons_cons_cons hs] at hb
    simp only [List.mem_cons, List.not_mem_nil, or_false] at hb
    rcases hb with rfl | rfl | rfl | rfl <;> simp only [high_or]
  | 0 => omega
  | 1 => omega
  | n + 5 => omega

theorem toUInt8_toNat {c : Char} (h : c.toNat < 128) : c.val.toUInt8.toNat = c.toNat := by
  rw [UInt32.toNat_toUInt8]
  exact Nat.mod_eq_of_lt (by show c.toNat < 256; omega)

/-- A byte below 128 is a character. -/
theorem byte_char {s : Text} {b : UInt8} (hb : b ∈ bytes s) (h : b.toNat < 128) : ∃ c ∈ s, c.toNat = b.toNat := by
  induction s with
  | nil => cases hb
  | cons c s ih =>
    rw [bytes_cons, List.mem_append] at hb
    rcases hb with hb | hb
    · by_cases hc : c.toNat < 128
      · rw [encode_ascii hc] at hb
        cases List.mem_singleton.1 hb
        exact ⟨c, List.mem_cons_self, (toUInt8_toNat hc).symm⟩
      · exact absurd (encode_high hc b hb) (by omega)
    · obtain ⟨d, hd, e⟩ := ih hb
      exact ⟨d, List.mem_cons_of_mem _ hd, e⟩

theorem char_le {a b : Char} : a ≤ b ↔ a.toNat ≤ b.toNat := by
  rw [Char.le_def, UInt32.le_iff_toNat_le]
  rfl

/-- The test of one byte is the test of the character. -/
theorem byte_test {lo hi c : Char} (hlo : lo.toNat < 128) (hhi : hi.toNat < 128) {x : UInt8} {s : Text} (hx : (bytes (c :: s))[0]? = some x) :
    (lo.val.toUInt8 ≤ x ∧ x ≤ hi.val.toUInt8) ↔ lo ≤ c ∧ c ≤ hi := by
  rw [bytes_cons, List.getElem?_append_left (List.length_pos_iff.2 (utf8EncodeChar_ne_nil c))] at hx
  rw [char_le, char_le, UInt8.le_iff_toNat_le, UInt8.le_iff_toNat_le, toUInt8_toNat hlo, toUInt8_toNat hhi]
  by_cases hc : c.toNat < 128
  · rw [encode_ascii hc] at hx
    cases hx
    rw [toUInt8_toNat hc]
  · have := encode_high hc x (List.mem_of_getElem? hx)
    omega

theorem head_byte (pre : Text) (s : Text) : (bytes (pre ++ s))[utf8Len pre]? = (bytes s)[0]? := by
  rw [bytes_append, List.getElem?_append_right (by simp), length_bytes, Nat.sub_self]

theorem some_byte (c : Char) (s : Text) : ∃ x, (bytes (c :: s))[0]? = some x := by
  rw [bytes_cons]
  cases h : String.utf8EncodeChar c with
  | nil => exact absurd h (utf8EncodeChar_ne_nil c)
  | cons x l => exact ⟨x, rfl⟩

/-! ## What the builder adds -/

/-- The methods added, their numbers and what they call. -/
structure Adds (b b' : Builder) (accept reject : Nat) (body : Body) (new : List (Nat × Body)) : Prop where
  states : b'.states = b.states ++ new
  le : b.count ≤ b'.count
  ids : ∀ id, id ∈ new.map (·.1) ↔ b.count ≤ id ∧ id < b'.count
  nodup : (new.map (·.1)).Nodup
  calls : ∀ s ∈ new, ∀ t ∈ s.2.calls, t = accept ∨ t = reject ∨ b.count ≤ t ∧ t < b'.count
  enters : ∀ t ∈ body.calls, t = accept ∨ t = reject ∨ b.count ≤ t ∧ t < b'.count

theorem genExpr_adds {e : Form} : ∀ {a r : Nat} {b : Builder} {body : Body} {b' : Builder}, genExpr e a r b = some (body, b') → ∃ new, Adds b b' a r body new := by
  induction e with
  | range lo hi =>
    intro a r b body b' h
    refine ⟨[], ?_⟩
    rw [genExpr] at h
    split at h <;> cases h <;>
    exact { states := (List.append_nil _).symm, le := Nat.le_refl _, ids := fun id => ⟨nofun, fun h => absurd h.1 (by omega)⟩, nodup := .nil, calls := nofun
            enters := fun t ht => by rcases List.mem_cons.1 ht with h | h
                                     · exact .inl h
                                     · exact .inr (.inl (List.mem_singleton.1 h)) }
  | seq l r ihl ihr =>
    intro a r' b body b' h
    rw [genExpr] at h
    split at h
    · cases h
    next bl b1 h1 =>
    split at h
    · cases h
    next br b2 h2 =>
    cases h
    obtain ⟨n1, A1⟩ := ihl h1
    obtain ⟨n2, A2⟩ := ihr h2
    have l1 := A1.le
    have l2 := A2.le
    dsimp only at l1
    refine ⟨n1 ++ n2 ++ [(b.count, bl), (b.count + 1, br)], ?_, ?_, ?_, ?_, ?_, ?_⟩
    · simp [Builder.push, A2.states, A1.states]
    · simp only [Builder.push]; omega
    · intro id
      have i1 := A1.ids id
      have i2 := A2.ids id
      dsimp only at i1
      simp only [List.map_append, List.mem_append, i1, i2, List.map_cons, List.map_nil, List.mem_cons, List.not_mem_nil, or_false, Builder.push]
      omega
    · simp only [List.map_append, List.map_cons, List.map_nil]
      refine List.nodup_append.2 ⟨List.nodup_append.2 ⟨A1.nodup, A2.nodup, ?_⟩, by simp, ?_⟩
      · intro x hx y hy e
        have i1 := (A1.ids x).1 hx
        have i2 := (A2.ids y).1 hy
        omega
      · intro x hx y hy e
        have hx : b.count + 2 ≤ x := by
          rcases List.mem_append.1 hx with hx | hx
          · exact ((A1.ids x).1 hx).1
          · have := ((A2.ids x).1 hx).1
            omega
        simp only [List.mem_cons, List.not_mem_nil, or_false] at hy
        omega
    · intro s hs t ht
      simp only [List.mem_append, List.mem_cons, List.not_mem_nil, or_false] at hs
      simp only [Builder.push]
      rcases hs with (hs | hs) | rfl | rfl
      · have := A1.calls s hs t ht
        dsimp only at this
        omega
      · have := A2.calls s hs t ht
        omega
      · have := A1.enters t ht
        dsimp only at this
        omega
      · have := A2.enters t ht
        omega
    · intro t ht
      cases List.mem_singleton.1 ht
      simp only [Builder.push]
      omega
  | choice l r ihl ihr =>
    intro a r' b body b' h
    rw [genExpr] at h
    split at h
    · cases h
    next bl b1 h1 =>
    split at h
    · cases h
    next br b2 h2 =>
    cases h
    obtain ⟨n1, A1⟩ := ihl h1
    obtain ⟨n2, A2⟩ := ihr h2
    have l1 := A1.le
    have l2 := A2.le
    dsimp only at l1
    refine ⟨n1 ++ n2 ++ [(b.count, bl), (b.count + 1, br)], ?_, ?_, ?_, ?_, ?_, ?_⟩
    · simp [Builder.push, A2.states, A1.states]
    · simp only [Builder.push]; omega
    · intro id
      have i1 := A1.ids id
      have i2 := A2.ids id
      dsimp only at i1
      simp only [List.map_append, List.mem_append, i1, i2, List.map_cons, List.map_nil, List.mem_cons, List.not_mem_nil, or_false, Builder.push]
      omega
    · simp only [List.map_append, List.map_cons, List.map_nil]
      refine List.nodup_append.2 ⟨List.nodup_append.2 ⟨A1.nodup, A2.nodup, ?_⟩, by simp, ?_⟩
      · intro x hx y hy e
        have i1 := (A1.ids x).1 hx
        have i2 := (A2.ids y).1 hy
        omega
      · intro x hx y hy e
        have hx : b.count + 2 ≤ x := by
          rcases List.mem_append.1 hx with hx | hx
          · exact ((A1.ids x).1 hx).1
          · have := ((A2.ids x).1 hx).1
            omega
        simp only [List.mem_cons, List.not_mem_nil, or_false] at hy
        omega
    · intro s hs t ht
      simp only [List.mem_append, List.mem_cons, List.not_mem_nil, or_false] at hs
      simp only [Builder.push]
      rcases hs with (hs | hs) | rfl | rfl
      · have := A1.calls s hs t ht
        dsimp only at this
        omega
      · have := A2.calls s hs t ht
        omega
      · have := A1.enters t ht
        dsimp only at this
        omega
      · have := A2.enters t ht
        omega
    · intro t ht
      cases List.mem_singleton.1 ht
      simp only [Builder.push]
      omega
  | rep e ih =>
    intro a r b body b' h
    rw [genExpr] at h
    split at h
    · cases h
    next bl b1 h1 =>
    cases h
    obtain ⟨n1, A1⟩ := ih h1
    have l1 := A1.le
    dsimp only at l1
    refine ⟨n1 ++ [(b.count, bl)], ?_, ?_, ?_, ?_, ?_, ?_⟩
    · simp [Builder.push, A1.states]
    · simp only [Builder.push]; omega
    · intro id
      have i1 := A1.ids id
      dsimp only at i1
      simp only [List.map_append, List.mem_append, i1, List.map_cons, List.map_nil, List.mem_cons, List.not_mem_nil, or_false, Builder.push]
      omega
    · simp only [List.map_append, List.map_cons, List.map_nil]
      refine List.nodup_append.2 ⟨A1.nodup, by simp, ?_⟩
      intro x hx y hy e
      have i1 := ((A1.ids x).1 hx).1
      simp only [List.mem_cons, List.not_mem_nil, or_false] at hy
      dsimp only at i1
      omega
    · intro s hs t ht
      simp only [List.mem_append, List.mem_cons, List.not_mem_nil, or_false] at hs
      simp only [Builder.push]
      rcases hs with hs | rfl
      · have := A1.calls s hs t ht
        dsimp only at this
        omega
      · have := A1.enters t ht
        dsimp only at this
        omega
    · intro t ht
      cases List.mem_singleton.1 ht
      simp only [Builder.push]
      omega
  | _ =>
    intro a r b body b' h
    cases h

theorem genExpr_supported {e : Form} : ∀ {a r : Nat} {b : Builder}, (genExpr e a r b).isSome ↔ e.Supported := by
  induction e with
  | range lo hi =>
    intro a r b
    rw [genExpr]
    split <;> simp [Form.Supported]
  | seq l r ihl ihr =>
    intro a r' b
    rw [genExpr]
    split
    next h => simp only [Option.isSome_none, Form.Supported, ← @ihl (b.count + 1) r' { b with count := b.count + 2 }, h]; simp
    next bl b1 h =>
    split
    next h2 => simp only [Option.isSome_none, Form.Supported, ← @ihr a r' b1, h2]; simp
    next h2 => simp only [Form.Supported, ← @ihl (b.count + 1) r' { b with count := b.count + 2 }, h, ← @ihr a r' b1, h2]; simp
  | choice l r ihl ihr =>
    intro a r' b
    rw [genExpr]
    split
    next h => simp only [Option.isSome_none, Form.Supported, ← @ihl a (b.count + 1) { b with count := b.count + 2 }, h]; simp
    next bl b1 h =>
    split
    next h2 => simp only [Option.isSome_none, Form.Supported, ← @ihr a r' b1, h2]; simp
    next h2 => simp only [Form.Supported, ← @ihl a (b.count + 1) { b with count := b.count + 2 }, h, ← @ihr a r' b1, h2]; simp
  | rep e ih =>
    intro a r b
    rw [genExpr]
    split
    next h => simp only [Option.isSome_none, Form.Supported, ← @ih b.count a { b with count := b.count + 1 }, h]
    next h => simp only [Form.Supported, ← @ih b.count a { b with count := b.count + 1 }, h]; simp
  | _ => intro a r b; simp [genExpr, Form.Supported]

/-! ## Looking methods up -/

/-- The method of that number has that body. -/
def Calls (P : List (Nat × Body)) (id : Nat) (body : Body) : Prop := P.find? (fun s => s.1 == id) = some (id, body)

theorem calls_of {P : List (Nat × Body)} (hP : (P.map (·.1)).Nodup) {id : Nat} {body : Body} (h : (id, body) ∈ P) : Calls P id body := by
  unfold Calls
  induction P with
  | nil => cases h
  | cons s P ih =>
    rw [List.map_cons, List.nodup_cons] at hP
    rcases List.mem_cons.1 h with rfl | h
    · simp
    · rw [List.find?_cons_of_neg, ih hP.2 h]
      intro e
      have e : s.1 = id := by simpa using e
      exact hP.1 (e ▸ List.mem_map.2 ⟨_, h, rfl⟩)

/-! ## Running -/

theorem run_mono {P : List (Nat × Body)} : ∀ {n : Nat} {body : Body} {m m' : Machine}, run P n body m = some m' → ∀ k, run P (n + k) body m = some m' := by
  intro n
  induction n with
  | zero => intro body m m' h; cases h
  | succ n ih =>
    intro body m m' h k
    rw [Nat.succ_add]
    cases body with
    | stop => exact h
    | fail => exact h
    | go id =>
      rw [run] at h ⊢
      split at h
      · cases h
      · exact ih h k
    | byte lo hi a r =>
      rw [run] at h ⊢
      split at h
      · split at h
        next c => rw [if_pos c]; exact ih h k
        next c => rw [if_neg c]; exact ih h k
      · exact ih h k
    | wide len lo hi a r =>
      rw [run] at h ⊢
      split at h
      · split at h
        next c => rw [if_pos c]; exact ih h k
        next c => rw [if_neg c]; exact ih h k
      · exact ih h k

theorem run_go {P : List (Nat × Body)} {id : Nat} {body : Body} (h : Calls P id body) (n : Nat) (m : Machine) : run P (n + 1) (.go id) m = run P n body m := by
  rw [run, h]

/-- The machine behind `pre`, before `s`. -/
def at_ (pre s : Text) (result : Bool) : Machine := ⟨bytes (pre ++ s), utf8Len pre, result⟩

/-- Does what a test of the range should do, before the texts that are meant. -/
def Tests (P : List (Nat × Body)) (K : Text → Prop) (lo hi : Char) (a r : Nat) (body : Body) : Prop :=
  ∀ (n : Nat) (pre s : Text) (q : Bool), K s →
    (∃ c s', s = c :: s' ∧ lo ≤ c ∧ c ≤ hi ∧ run P (n + 1) body (at_ pre s q) = run P n (.go a) (at_ (pre ++ [c]) s' q)) ∨
    ((∀ c s', s = c :: s' → lo ≤ c → ¬ c ≤ hi) ∧ run P (n + 1) body (at_ pre s q) = run P n (.go r) (at_ pre s q))

theorem tests_byte {P : List (Nat × Body)} {K : Text → Prop} {lo hi : Char} {a r : Nat} (hlo : lo.toNat < 128) (hhi : hi.toNat < 128) :
    Tests P K lo hi a r (.byte lo.val.toUInt8 hi.val.toUInt8 a r) := by
  intro n pre s q _
  rw [run]
  simp only [at_]
  rw [head_byte]
  cases s with
  | nil => exact .inr ⟨nofun, rfl⟩
  | cons c s =>
    obtain ⟨x, hx⟩ := some_byte c s
    have ht := byte_test hlo hhi hx
    rw [hx]
    dsimp only
    by_cases hc : lo ≤ c ∧ c ≤ hi
    · refine .inl ⟨c, s, rfl, hc.1, hc.2, ?_⟩
      have hx' := ht.2 hc
      rw [if_pos (by rw [decide_eq_true hx'.1, decide_eq_true hx'.2]; rfl)]
      congr 2
      · simp
      · have hc' : c.toNat < 128 := by
          have := char_le.1 hc.2
          omega
        simp [size_one.2 hc']
    · refine .inr ⟨fun c' s' e h1 h2 => by cases e; exact hc ⟨h1, h2⟩, ?_⟩
      rw [if_neg]
      intro h
      simp only [Bool.and_eq_true, decide_eq_true_eq] at h
      exact hc (ht.1 h)

/-! ## Ranges of several bytes -/

theorem littleEndian_cons (b : UInt8) (bs : List UInt8) : littleEndian (b :: bs) = b.toNat + 256 * littleEndian bs := rfl

theorem littleEndian_ge {bs : List UInt8} {i : Nat} {b : UInt8} (h : bs[i]? = some b) : b.toNat * 256 ^ i ≤ littleEndian bs := by
  induction bs generalizing i with
  | nil => cases h
  | cons x bs ih =>
    rw [littleEndian_cons]
    cases i with
    | zero => cases h; simp
    | succ i =>
      have := ih (by simpa using h)
      rw [Nat.pow_succ, ← Nat.mul_assoc, Nat.mul_comm _ 256]
      omega

theorem toNat_size {c : Char} {len : Nat} (h2 : 2 ≤ len) (h : c.utf8Size ≤ len) : c.toNat < 8 * 256 ^ (len - 1) := by
  have h4 := Char.utf8Size_le_four c
  have h0 := Char.utf8Size_pos c
  have key : c.toNat < 8 * 256 ^ (max 2 c.utf8Size - 1) := by
    match hs : c.utf8Size with
    | 1 =>
      have := size_one.1 hs
      show c.toNat < 8 * 256 ^ 1
      omega
    | 2 =>
      have := (Char.utf8Size_eq_two_iff.1 hs).2
      rw [UInt32.le_iff_toNat_le] at this
      have this : c.toNat ≤ 0x7ff := this
      show c.toNat < 8 * 256 ^ 1
      omega
    | 3 =>
      have := (Char.utf8Size_eq_three_iff.1 hs).2
      rw [UInt32.le_iff_toNat_le] at this
      have this : c.toNat ≤ 0xffff := this
      show c.toNat < 8 * 256 ^ 2
      omega
    | 4 =>
      have := c.val.toNat_lt
      have : c.toNat < 0x110000 := by
        rcases c.valid with h | h
        · have : c.toNat < 0xd800 := h
          omega
        · exact h.2
      show c.toNat < 8 * 256 ^ 3
      omega
    | 0 => omega
    | n + 5 => omega
  refine Nat.lt_of_lt_of_le key (Nat.mul_le_mul_left 8 (Nat.pow_le_pow_right (by omega) (by omega)))

/-- A range with a character above U+007F accepts only where a byte below 8 is near. -/
theorem wide_small {bs : List UInt8} {i len lo hi : Nat} {slice : List UInt8} (hr : byteRange bs i (i + len) = some slice) (hl : 2 ≤ len) (hh : hi < 8 * 256 ^ (len - 1))
    (h : lo ≤ littleEndian slice ∧ littleEndian slice ≤ hi) : ∃ b ∈ bs.drop i, b.toNat < 8 := by
  unfold byteRange at hr
  split at hr
  next hc =>
    cases hr
    have hc : i ≤ i + len ∧ i + len ≤ bs.length := by simpa using hc
    have hlt : len - 1 < (bs.drop i).length := by simp; omega
    have hlt2 : len - 1 < ((bs.drop i).take (i + len - i)).length := by simp; omega
    have hg := List.getElem?_eq_getElem hlt2
    have := littleEndian_ge hg
    rw [List.getElem_take] at this
    refine ⟨(bs.drop i)[len - 1], List.getElem_mem _, ?_⟩
    have h3 : ((bs.drop i)[len - 1]).toNat * 256 ^ (len - 1) < 8 * 256 ^ (len - 1) := Nat.lt_of_le_of_lt (Nat.le_trans this h.2) hh
    exact Nat.lt_of_mul_lt_mul_right h3
  · cases hr

theorem tests_wide {P : List (Nat × Body)} {K : Text → Prop} {lo hi : Char} {a r : Nat} (hw : ¬ (lo.utf8Size = 1 ∧ hi.utf8Size = 1)) (hK : ∀ s, K s → ∀ c ∈ s, 8 ≤ c.toNat) :
    Tests P K 'b' 'a' a r (.wide (max lo.utf8Size hi.utf8Size) lo.toNat hi.toNat a r) := by
  intro n pre s q hs
  refine .inr ⟨fun c s' _ h1 h2 => ?_, ?_⟩
  · rw [char_le] at h1 h2
    exact absurd (Nat.le_trans h1 h2) (by decide)
  have hl0 := Char.utf8Size_pos lo
  have hh0 := Char.utf8Size_pos hi
  rw [run]
  split
  next slice hr =>
    split
    next hc =>
      exfalso
      simp only [Bool.and_eq_true, decide_eq_true_eq] at hc
      have hl : 2 ≤ max lo.utf8Size hi.utf8Size := by omega
      obtain ⟨b, hb, hb8⟩ := wide_small hr hl (toNat_size hl (Nat.le_max_right ..)) hc
      have e : (at_ pre s q).input.drop (at_ pre s q).index = bytes s := by
        simp only [at_, bytes_append]
        rw [← length_bytes, List.drop_left]
      rw [e] at hb
      obtain ⟨c, hc, e⟩ := byte_char hb (by omega)
      have := hK s hs c hc
      omega
    · rfl
  · rfl

/-! ## Programs and expressions -/

/-- The body does what the expression says, in that program. -/
def Linked (P : List (Nat × Body)) (K : Text → Prop) : Form → Nat → Nat → Body → Prop
  | .range lo hi, a, r, body => Tests P K lo hi a r body
  | .seq x y, a, r, body => ∃ i j bx ky, body = .go i ∧ Calls P i bx ∧ Calls P j ky ∧ Linked P K x j r bx ∧ Linked P K y a r ky
  | .choice x y, a, r, body => ∃ i j bx ky, body = .go i ∧ Calls P i bx ∧ Calls P j ky ∧ Linked P K x a j bx ∧ Linked P K y a r ky
  | .rep e, a, _, body => ∃ i be, body = .go i ∧ Calls P i be ∧ Linked P K e i a be
  | _, _, _, _ => False

theorem Form.narrow_ascii {e : Form} : e.Ascii → e.narrow = e := by
  induction e with
  | range lo hi => exact fun h => if_pos h
  | seq l r i1 i2 => intro h; rw [Form.narrow, i1 h.1, i2 h.2]
  | choice l r i1 i2 => intro h; rw [Form.narrow, i1 h.1, i2 h.2]
  | rep e i => intro h; rw [Form.narrow, i h]
  | _ => intro h; cases h

theorem linked_of {P : List (Nat × Body)} (hP : (P.map (·.1)).Nodup) {K : Text → Prop} {e : Form} (hK : e.Ascii ∨ ∀ s, K s → ∀ c ∈ s, 8 ≤ c.toNat) : ∀ {a r : Nat} {b : Builder} {body : Body} {b' : Builder},
    genExpr e a r b = some (body, b') → (∀ s ∈ b'.states, s ∈ P) → Linked P K e.narrow a r body := by
  induction e with
  | range lo hi =>
    intro a r b body b' h _
    rw [genExpr] at h
    unfold Form.narrow
    split at h
    next hc =>
      cases h
      have hc : lo.toNat < 128 ∧ hi.toNat < 128 := ⟨size_one.1 hc.1, size_one.1 hc.2⟩
      rw [if_pos hc]
      exact tests_byte hc.1 hc.2
    next hc =>
      cases h
      have hc' : ¬ (lo.toNat < 128 ∧ hi.toNat < 128) := fun h => hc ⟨size_one.2 h.1, size_one.2 h.2⟩
      rw [if_neg hc']
      exact tests_wide hc (hK.resolve_left hc')
  | seq l r ihl ihr =>
    intro a r' b body b' h hs
    rw [genExpr] at h
    split at h
    · cases h
    next bl b1 h1 =>
    split at h
    · cases h
    next br b2 h2 =>
    cases h
    obtain ⟨n2, A2⟩ := genExpr_adds h2
    refine ⟨_, _, bl, br, rfl, calls_of hP (hs _ (by simp [Builder.push])), calls_of hP (hs _ (by simp [Builder.push])), ihl (hK.imp_left And.left) h1 ?_, ihr (hK.imp_left And.right) h2 ?_⟩
    · intro s h; exact hs s (by simp [Builder.push, A2.states, h])
    · intro s h; exact hs s (by simp [Builder.push, h])
  | choice l r ihl ihr =>
    intro a r' b body b' h hs
    rw [genExpr] at h
    split at h
    · cases h
    next bl b1 h1 =>
    split at h
    · cases h
    next br b2 h2 =>
    cases h
    obtain ⟨n2, A2⟩ := genExpr_adds h2
    refine ⟨_, _, bl, br, rfl, calls_of hP (hs _ (by simp [Builder.push])), calls_of hP (hs _ (by simp [Builder.push])), ihl (hK.imp_left And.left) h1 ?_, ihr (hK.imp_left And.right) h2 ?_⟩
    · intro s h; exact hs s (by simp [Builder.push, A2.states, h])
    · intro s h; exact hs s (by simp [Builder.push, h])
  | rep e ih =>
    intro a r b body b' h hs
    rw [genExpr] at h
    split at h
    · cases h
    next bl b1 h1 =>
    cases h
    refine ⟨_, bl, rfl, calls_of hP (hs _ (by simp [Builder.push])), ih hK h1 ?_⟩
    intro s h; exact hs s (by simp [Builder.push, h])
  | _ =>
    intro a r b body b' h
    cases h

theorem onward_part {e : Form} {s s' : Text} {ok : Bool} (h : Onward e s ok s') : ∃ u, s = u ++ s' := by
  induction h with
  | rangeOk _ _ => exact ⟨[_], rfl⟩
  | rangeFail _ => exact ⟨[], rfl⟩
  | seq _ _ i1 i2 | choiceR _ _ i1 i2 | repMore _ _ i1 i2 =>
    obtain ⟨u, rfl⟩ := i1
    obtain ⟨v, rfl⟩ := i2
    exact ⟨u ++ v, (List.append_assoc ..).symm⟩
  | seqFail _ i | choiceL _ i | repStop _ i => exact i

/-- What is said of an expression is done. -/
theorem run_of {P : List (Nat × Body)} {K : Text → Prop} (hK : ∀ u s, K (u ++ s) → K s) {e : Form} {s s' : Text} {ok : Bool} (h : Onward e s ok s') :
    ∀ {a r : Nat} {body : Body}, Linked P K e a r body → K s → ∀ (pre u : Text) (q : Bool) (n : Nat) (m : Machine), s = u ++ s' →
      run P n (.go (if ok then a else r)) (at_ (pre ++ u) s' q) = some m → ∃ n', run P n' body (at_ pre s q) = some m := by
  induction h with
  | @rangeOk lo hi x s h1 h2 =>
    intro a r body hL hA pre u q n m hu hm
    refine ⟨n + 1, ?_⟩
    rcases hL n pre (x :: s) q hA with ⟨c, s', e, _, _, hr⟩ | ⟨h, _⟩
    · cases e
      have : u = [x] := List.append_cancel_right (bs := s) (by rw [← hu]; rfl)
      subst this
      rw [hr]
      exact hm
    · exact absurd h2 (h x s rfl h1)
  | @rangeFail lo hi s h =>
    intro a r body hL hA pre u q n m hu hm
    refine ⟨n + 1, ?_⟩
    rcases hL n pre s q hA with ⟨c, s', e, h1, h2, _⟩ | ⟨_, hr⟩
    · exact absurd h2 (h c s' e h1)
    · have : u = [] := List.append_cancel_right (bs := s) (by rw [← hu]; rfl)
      subst this
      rw [hr]
      simpa using hm
  | @seq l r s s' b s'' h1 h2 i1 i2 =>
    rintro a r' _ ⟨i, j, bx, ky, rfl, ci, cj, L1, L2⟩ hA pre u q n m hu hm
    obtain ⟨u1, e1⟩ := onward_part h1
    obtain ⟨u2, e2⟩ := onward_part h2
    have : u = u1 ++ u2 := List.append_cancel_right (bs := s'') (by rw [← hu, e1, e2, List.append_assoc])
    subst this
    obtain ⟨n2, k2⟩ := i2 L2 (hK u1 _ (e1 ▸ hA)) (pre ++ u1) u2 q n m e2 (by simpa [List.append_assoc] using hm)
    obtain ⟨n1, k1⟩ := i1 L1 hA pre u1 q (n2 + 1) m e1 (by rw [if_pos rfl, run_go cj]; exact k2)
    exact ⟨n1 + 1, by rw [run_go ci]; exact k1⟩
  | @seqFail l r s s' h1 i1 =>
    rintro a r' _ ⟨i, j, bx, ky, rfl, ci, cj, L1, L2⟩ hA pre u q n m hu hm
    obtain ⟨n1, k1⟩ := i1 L1 hA pre u q n m hu hm
    exact ⟨n1 + 1, by rw [run_go ci]; exact k1⟩
  | @choiceL l r s s' h1 i1 =>
    rintro a r' _ ⟨i, j, bx, ky, rfl, ci, cj, L1, L2⟩ hA pre u q n m hu hm
    obtain ⟨n1, k1⟩ := i1 L1 hA pre u q n m hu hm
    exact ⟨n1 + 1, by rw [run_go ci]; exact k1⟩
  | @choiceR l r s s' b s'' h1 h2 i1 i2 =>
    rintro a r' _ ⟨i, j, bx, ky, rfl, ci, cj, L1, L2⟩ hA pre u q n m hu hm
    obtain ⟨u1, e1⟩ := onward_part h1
    obtain ⟨u2, e2⟩ := onward_part h2
    have : u = u1 ++ u2 := List.append_cancel_right (bs := s'') (by rw [← hu, e1, e2, List.append_assoc])
    subst this
    obtain ⟨n2, k2⟩ := i2 L2 (hK u1 _ (e1 ▸ hA)) (pre ++ u1) u2 q n m e2 (by simpa [List.append_assoc] using hm)
    obtain ⟨n1, k1⟩ := i1 L1 hA pre u1 q (n2 + 1) m e1 (by rw [if_neg (by simp), run_go cj]; exact k2)
    exact ⟨n1 + 1, by rw [run_go ci]; exact k1⟩
  | @repMore e s s' b s'' h1 h2 i1 i2 =>
    rintro a r' _ ⟨i, be, rfl, ci, L1⟩ hA pre u q n m hu hm
    obtain ⟨u1, e1⟩ := onward_part h1
    obtain ⟨u2, e2⟩ := onward_part h2
    have : u = u1 ++ u2 := List.append_cancel_right (bs := s'') (by rw [← hu, e1, e2, List.append_assoc])
    subst this
    obtain ⟨n2, k2⟩ := i2 ⟨i, be, rfl, ci, L1⟩ (hK u1 _ (e1 ▸ hA)) (pre ++ u1) u2 q n m e2 (by simpa [List.append_assoc] using hm)
    obtain ⟨n1, k1⟩ := i1 L1 hA pre u1 q n2 m e1 (by rw [if_pos rfl]; exact k2)
    exact ⟨n1 + 1, by rw [run_go ci]; exact k1⟩
  | @repStop e s s' h1 i1 =>
    rintro a r' _ ⟨i, be, rfl, ci, L1⟩ hA pre u q n m hu hm
    obtain ⟨n1, k1⟩ := i1 L1 hA pre u q n m hu hm
    exact ⟨n1 + 1, by rw [run_go ci]; exact k1⟩

/-- What is done is what is said of the expression. -/
theorem of_run {P : List (Nat × Body)} {K : Text → Prop} (hK : ∀ u s, K (u ++ s) → K s) {e : Form} : ∀ {a r : Nat} {body : Body}, Linked P K e a r body → ∀ (n : Nat) (pre s : Text) (q : Bool) (m : Machine), K s →
    run P n body (at_ pre s q) = some m → ∃ ok u s' n', s = u ++ s' ∧ Onward e s ok s' ∧ n' < n ∧ run P n' (.go (if ok then a else r)) (at_ (pre ++ u) s' q) = some m := by
  induction e with
  | range lo hi =>
    intro a r body hL n pre s q m hA h
    cases n with
    | zero => cases h
    | succ n =>
      rcases hL n pre s q hA with ⟨c, s', rfl, h1, h2, hr⟩ | ⟨h1, hr⟩
      · exact ⟨true, [c], s', n, rfl, .rangeOk h1 h2, Nat.lt_succ_self _, hr ▸ h⟩
      · refine ⟨false, [], s, n, rfl, .rangeFail h1, Nat.lt_succ_self _, ?_⟩
        rw [List.append_nil]
        exact hr ▸ h
  | seq l r ihl ihr =>
    rintro a r' _ ⟨i, j, bx, ky, rfl, ci, cj, L1, L2⟩ n pre s q m hA h
    cases n with
    | zero => cases h
    | succ n =>
      rw [run_go ci] at h
      obtain ⟨ok, u, s', n1, rfl, o1, l1, k1⟩ := ihl L1 n pre s q m hA h
      cases ok with
      | false => exact ⟨false, u, s', n1, rfl, .seqFail o1, by omega, k1⟩
      | true =>
        rw [if_pos rfl] at k1
        cases n1 with
        | zero => cases k1
        | succ n1 =>
          rw [run_go cj] at k1
          obtain ⟨ok, v, s'', n2, rfl, o2, l2, k2⟩ := ihr L2 n1 (pre ++ u) s' q m (hK u s' hA) k1
          exact ⟨ok, u ++ v, s'', n2, (List.append_assoc ..).symm, .seq o1 o2, by omega, by simpa [List.append_assoc] using k2⟩
  | choice l r ihl ihr =>
    rintro a r' _ ⟨i, j, bx, ky, rfl, ci, cj, L1, L2⟩ n pre s q m hA h
    cases n with
    | zero => cases h
    | succ n =>
      rw [run_go ci] at h
      obtain ⟨ok, u, s', n1, rfl, o1, l1, k1⟩ := ihl L1 n pre s q m hA h
      cases ok with
      | true => exact ⟨true, u, s', n1, rfl, .choiceL o1, by omega, k1⟩
      | false =>
        rw [if_neg (by simp)] at k1
        cases n1 with
        | zero => cases k1
        | succ n1 =>
          rw [run_go cj] at k1
          obtain ⟨ok, v, s'', n2, rfl, o2, l2, k2⟩ := ihr L2 n1 (pre ++ u) s' q m (hK u s' hA) k1
          exact ⟨ok, u ++ v, s'', n2, (List.append_assoc ..).symm, .choiceR o1 o2, by omega, by simpa [List.append_assoc] using k2⟩
  | rep e ih =>
    rintro a r _ ⟨i, be, rfl, ci, L1⟩ n
    induction n using Nat.strongRecOn with
    | ind n IH =>
      intro pre s q m hA h
      cases n with
      | zero => cases h
      | succ n =>
        rw [run_go ci] at h
        obtain ⟨ok, u, s', n1, rfl, o1, l1, k1⟩ := ih L1 n pre s q m hA h
        cases ok with
        | false => exact ⟨true, u, s', n1, rfl, .repStop o1, by omega, k1⟩
        | true =>
          rw [if_pos rfl] at k1
          obtain ⟨ok, v, s'', n2, rfl, o2, l2, k2⟩ := IH n1 (by omega) (pre ++ u) s' q m (hK u s' hA) k1
          exact ⟨ok, u ++ v, s'', n2, (List.append_assoc ..).symm, .repMore o1 o2, by omega, by simpa [List.append_assoc] using k2⟩
  | _ => intro a r body hL; cases hL

/-! ## The whole program -/

theorem build_some {rules : Text → Option Form} {rule : Text} {P : Program} (h : build rules rule = some (some P)) :
    ∃ e body b new, rules rule = some e ∧ genExpr e 0 1 ⟨[(0, .stop), (1, .fail)], 3⟩ = some (body, b) ∧ Adds ⟨[(0, .stop), (1, .fail)], 3⟩ b 0 1 body new ∧
      P.enter = 2 ∧ P.states = (0, .stop) :: (1, .fail) :: (new ++ [(2, body)]) := by
  unfold build at h
  dsimp only at h
  split at h
  · cases h
  next e he =>
  split at h
  · cases h
  next body b hb =>
  cases h
  obtain ⟨new, A⟩ := genExpr_adds hb
  exact ⟨e, body, b, new, he, hb, A, rfl, by simp [Builder.push, A.states]⟩

theorem build_ids {b : Builder} {body : Body} {new : List (Nat × Body)} (A : Adds ⟨[(0, .stop), (1, .fail)], 3⟩ b 0 1 body new) :
    (((0, Body.stop) :: (1, Body.fail) :: (new ++ [(2, body)])).map (·.1)).Nodup := by
  have ge : ∀ x ∈ new.map (·.1), 3 ≤ x := fun x hx => ((A.ids x).1 hx).1
  simp only [List.map_cons, List.map_append, List.map_nil, List.nodup_cons, List.mem_cons, List.mem_append, List.not_mem_nil, or_false]
  refine ⟨?_, ?_, List.nodup_append.2 ⟨A.nodup, by simp, ?_⟩⟩
  · rintro (h | h | h)
    · cases h
    · exact absurd (ge _ h) (by omega)
    · cases h
  · rintro (h | h)
    · exact absurd (ge _ h) (by omega)
    · cases h
  · intro x hx y hy e
    have := ge x hx
    cases List.mem_singleton.1 hy
    omega

theorem build_linked {rules : Text → Option Form} {rule : Text} {P : Program} {e : Form} {K : Text → Prop} (h : build rules rule = some (some P)) (he : rules rule = some e)
    (hK : e.Ascii ∨ ∀ s, K s → ∀ c ∈ s, 8 ≤ c.toNat) :
    P.enter = 2 ∧ Calls P.states 0 .stop ∧ Calls P.states 1 .fail ∧ ∃ body, Calls P.states 2 body ∧ Linked P.states K e.narrow 0 1 body := by
  obtain ⟨e', body, b, new, he', hg, A, hen, hs⟩ := build_some h
  cases he.symm.trans he'
  have hN := build_ids A
  rw [← hs] at hN
  refine ⟨hen, calls_of hN (by simp [hs]), calls_of hN (by simp [hs]), body, calls_of hN (by simp [hs]), linked_of hN hK hg fun s h => ?_⟩
  rw [A.states] at h
  rw [hs]
  simp only [List.mem_append, List.mem_cons, List.not_mem_nil, or_false] at h ⊢
  rcases h with (h | h) | h
  · exact .inl h
  · exact .inr (.inl h)
  · exact .inr (.inr (.inl h))

/-! ## With and without going back -/

theorem sure_onward {e : Form} {s s' : Text} {ok : Bool} (h : Onward e s ok s') : e.Sure → ok = true := by
  induction h with
  | rangeOk _ _ | rangeFail _ => intro h; cases h
  | seq _ _ _ i => exact fun h => i h.2
  | seqFail _ i => exact fun h => absurd (i h.1) (by simp)
  | choiceL _ _ => intro _; rfl
  | choiceR _ _ i1 i2 =>
    rintro (h | h)
    · exact absurd (i1 h) (by simp)
    · exact i2 h
  | repMore _ _ _ i => exact i
  | repStop _ _ => intro _; rfl

theorem loop_never {e : Form} (hS : e.Sure) {s s' : Text} {ok : Bool} : ¬ Onward (.rep e) s ok s' := by
  intro o
  generalize hf : Form.rep e = f at o
  induction o with
  | repMore _ _ _ i => exact i hf
  | repStop o _ => cases hf; exact absurd (sure_onward o hS) (by simp)
  | _ => cases hf

theorem matches_of_onward {e : Form} {s s' : Text} {ok : Bool} (h : Onward e s ok s') : e.Steady →
    (Matches e s (if ok then some s' else none)) ∧ (e.Prompt → ok = false → s' = s) := by
  induction h with
  | rangeOk h1 h2 => exact fun _ => ⟨.rangeOk h1 h2, nofun⟩
  | rangeFail h => exact fun _ => ⟨.rangeFail h, fun _ _ => rfl⟩
  | seq h1 h2 i1 i2 =>
    intro hS
    refine ⟨.seq (i1 hS.1).1 (i2 hS.2).1, fun hP hk => ?_⟩
    rw [sure_onward h2 hP.2] at hk
    cases hk
  | seqFail h1 i1 => exact fun hS => ⟨.seqFail (i1 hS.1).1, fun hP hk => (i1 hS.1).2 hP.1 hk⟩
  | choiceL h1 i1 => exact fun hS => ⟨.choiceL (i1 hS.2.1).1, nofun⟩
  | choiceR h1 h2 i1 i2 =>
    intro hS
    have e := (i1 hS.2.1).2 hS.1 rfl
    subst e
    exact ⟨.choiceR (i1 hS.2.1).1 (i2 hS.2.2).1, fun hP hk => (i2 hS.2.2).2 hP.2 hk⟩
  | repMore h1 h2 i1 i2 =>
    intro hS
    refine ⟨.repMore (i1 hS.2).1 (i2 hS).1, fun hP hk => ?_⟩
    rw [sure_onward h2 trivial] at hk
    cases hk
  | repStop h1 i1 =>
    intro hS
    have e := (i1 hS.2).2 hS.1 rfl
    subst e
    exact ⟨.repStop (i1 hS.2).1, nofun⟩

theorem onward_of_matches {e : Form} {s : Text} {o : Option Text} (h : Matches e s o) : e.Steady → ∃ s', Onward e s o.isSome s' ∧ ∀ t, o = some t → s' = t := by
  induction h with
  | rangeOk h1 h2 => exact fun _ => ⟨_, .rangeOk h1 h2, fun _ e => Option.some.inj e⟩
  | rangeFail h => exact fun _ => ⟨_, .rangeFail h, nofun⟩
  | seq h1 h2 i1 i2 =>
    intro hS
    obtain ⟨s1, o1, e1⟩ := i1 hS.1
    cases e1 _ rfl
    obtain ⟨s2, o2, e2⟩ := i2 hS.2
    exact ⟨s2, .seq o1 o2, e2⟩
  | seqFail h1 i1 =>
    intro hS
    obtain ⟨s1, o1, _⟩ := i1 hS.1
    exact ⟨s1, .seqFail o1, nofun⟩
  | choiceL h1 i1 =>
    intro hS
    obtain ⟨s1, o1, e1⟩ := i1 hS.2.1
    exact ⟨s1, .choiceL o1, e1⟩
  | choiceR h1 h2 i1 i2 =>
    intro hS
    obtain ⟨s1, o1, _⟩ := i1 hS.2.1
    have e := (matches_of_onward o1 hS.2.1).2 hS.1 rfl
    subst e
    obtain ⟨s2, o2, e2⟩ := i2 hS.2.2
    exact ⟨s2, .choiceR o1 o2, e2⟩
  | repMore h1 h2 i1 i2 =>
    intro hS
    obtain ⟨s1, o1, e1⟩ := i1 hS.2
    cases e1 _ rfl
    obtain ⟨s2, o2, e2⟩ := i2 hS
    exact ⟨s2, .repMore o1 o2, e2⟩
  | repStop h1 i1 =>
    intro hS
    obtain ⟨s1, o1, _⟩ := i1 hS.2
    have e := (matches_of_onward o1 hS.2).2 hS.1 rfl
    subst e
    exact ⟨_, .repStop o1, fun _ e => Option.some.inj e⟩

/-! ## It ends -/

theorem onward_length {e : Form} {s s' : Text} {ok : Bool} (h : Onward e s ok s') : s'.length ≤ s.length := by
  obtain ⟨u, rfl⟩ := onward_part h
  simp

theorem takes_onward {e : Form} {s s' : Text} {ok : Bool} (h : Onward e s ok s') : e.Takes → ok = true → s'.length < s.length := by
  induction h with
  | rangeOk _ _ => exact fun _ _ => Nat.lt_succ_self _
  | rangeFail _ => exact fun _ h => absurd h (by simp)
  | seq h1 h2 i1 i2 =>
    rintro (h | h) hk
    · exact Nat.lt_of_le_of_lt (onward_length h2) (i1 h rfl)
    · exact Nat.lt_of_lt_of_le (i2 h hk) (onward_length h1)
  | seqFail _ _ => exact fun _ h => absurd h (by simp)
  | choiceL _ i => exact fun h _ => i h.1 rfl
  | choiceR h1 _ _ i2 => exact fun h hk => Nat.lt_of_lt_of_le (i2 h.2 hk) (onward_length h1)
  | repMore _ _ _ _ | repStop _ _ => exact fun h => absurd h id

theorem onward_ends {e : Form} : e.Ends → ∀ s, ∃ ok s', Onward e s ok s' := by
  induction e with
  | range lo hi =>
    intro _ s
    by_cases h : ∃ x s', s = x :: s' ∧ lo ≤ x ∧ x ≤ hi
    · obtain ⟨x, s', rfl, h1, h2⟩ := h
      exact ⟨true, s', .rangeOk h1 h2⟩
    · exact ⟨false, s, .rangeFail fun x s' e h1 h2 => h ⟨x, s', e, h1, h2⟩⟩
  | seq l r ihl ihr =>
    intro h s
    obtain ⟨ok, s1, o1⟩ := ihl h.1 s
    cases ok with
    | false => exact ⟨false, s1, .seqFail o1⟩
    | true =>
      obtain ⟨ok, s2, o2⟩ := ihr h.2 s1
      exact ⟨ok, s2, .seq o1 o2⟩
  | choice l r ihl ihr =>
    intro h s
    obtain ⟨ok, s1, o1⟩ := ihl h.1 s
    cases ok with
    | true => exact ⟨true, s1, .choiceL o1⟩
    | false =>
      obtain ⟨ok, s2, o2⟩ := ihr h.2 s1
      exact ⟨ok, s2, .choiceR o1 o2⟩
  | rep e ih =>
    intro h s
    induction hn : s.length using Nat.strongRecOn generalizing s with
    | ind n IH =>
      obtain ⟨ok, s1, o1⟩ := ih h.2 s
      cases ok with
      | false => exact ⟨true, s1, .repStop o1⟩
      | true =>
        obtain ⟨ok, s2, o2⟩ := IH s1.length (hn ▸ takes_onward o1 h.1 rfl) s1 rfl
        exact ⟨ok, s2, .repMore o1 o2⟩
  | _ => intro h; cases h

/-- What `parse` does. -/
theorem parse_iff {rules : Text → Option Form} {rule : Text} {P : Program} {e : Form} {K : Text → Prop} (hKs : ∀ u s, K (u ++ s) → K s) (h : build rules rule = some (some P))
    (he : rules rule = some e) (hK : e.Ascii ∨ ∀ s, K s → ∀ c ∈ s, 8 ≤ c.toNat) {pre s : Text} (hs : K s) {q : Bool} {m : Machine} :
    (∃ fuel, P.parse fuel ⟨bytes (pre ++ s), utf8Len pre, q⟩ = some m) ↔
      ∃ ok u s', s = u ++ s' ∧ Onward e.narrow s ok s' ∧ m = ⟨bytes (pre ++ s), utf8Len (pre ++ u), q && ok⟩ := by
  obtain ⟨hen, c0, c1, body, c2, hL⟩ := build_linked h he hK
  unfold Program.parse
  rw [hen]
  constructor
  · rintro ⟨fuel, hr⟩
    cases fuel with
    | zero => cases hr
    | succ n =>
      rw [run_go c2] at hr
      obtain ⟨ok, u, s', n', rfl, o, _, k⟩ := of_run hKs hL n pre s q m hs hr
      refine ⟨ok, u, s', rfl, o, ?_⟩
      cases n' with
      | zero => cases k
      | succ n' =>
        cases ok with
        | true =>
          rw [if_pos rfl, run_go c0] at k
          cases n' with
          | zero => cases k
          | succ n' => cases k; simp [at_, List.append_assoc]
        | false =>
          rw [if_neg (by simp), run_go c1] at k
          cases n' with
          | zero => cases k
          | succ n' => cases k; simp [at_, List.append_assoc]
  · rintro ⟨ok, u, s', rfl, o, rfl⟩
    obtain ⟨n, hn⟩ := run_of hKs o hL hs pre u q 2 ⟨bytes (pre ++ (u ++ s')), utf8Len (pre ++ u), q && ok⟩ rfl (by
      cases ok with
      | true => rw [if_pos rfl, run_go c0]; simp [run, at_, List.append_assoc]
      | false => rw [if_neg (by simp), run_go c1]; simp [run, at_, List.append_assoc])
    exact ⟨n + 1, by rw [run_go c2]; exact hn⟩

end Pest3.States
