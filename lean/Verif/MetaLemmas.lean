import Verif.MetaSpec
import Verif.SnippetLemmas

namespace Pest3.Meta

/-! ## Numbers -/

theorem digitVal_digitChar {radix n : Nat} (hr : radix = 10 ∨ radix = 16) (h : n < radix) :
    digitVal radix (Nat.digitChar n) = some n := by
  have h16 : ∀ n : Fin 16, digitVal 16 (Nat.digitChar n) = some n.val := by decide
  have h10 : ∀ n : Fin 10, digitVal 10 (Nat.digitChar n) = some n.val := by decide
  rcases hr with rfl | rfl
  · exact h10 ⟨n, h⟩
  · exact h16 ⟨n, h⟩

theorem digitsVal_append (radix acc : Nat) (a b : Text) :
    digitsVal radix acc (a ++ b) = (digitsVal radix acc a).bind fun v => digitsVal radix v b := by
  induction a generalizing acc with
  | nil => rfl
  | cons c cs ih =>
    simp only [List.cons_append, digitsVal]
    cases digitVal radix c with
    | none => rfl
    | some v => exact ih _

theorem digitsVal_toDigits {radix : Nat} (hr : radix = 10 ∨ radix = 16) (n : Nat) :
    digitsVal radix 0 (Nat.toDigits radix n) = some n := by
  have h1 : 1 < radix := by rcases hr with rfl | rfl <;> decide
  induction n using Nat.strongRecOn with
  | _ n ih =>
    by_cases h : n < radix
    · rw [Nat.toDigits_of_lt_base h]
      simp [digitsVal, digitVal_digitChar hr h]
    · rw [Nat.toDigits_of_base_le h1 (by omega), digitsVal_append,
        ih (n / radix) (Nat.div_lt_self (by omega) h1)]
      simp only [Option.bind_some, digitsVal]
      rw [digitVal_digitChar hr (Nat.mod_lt _ (by omega))]
      simp only [Option.some.injEq]
      rw [Nat.mul_comm]; exact Nat.div_add_mod n radix

theorem digitVal_toDigits_isSome {radix : Nat} (hr : radix = 10 ∨ radix = 16) {n : Nat} {c : Char}
    (h : c ∈ Nat.toDigits radix n) : (digitVal radix c).isSome := by
  have h1 : 1 < radix := by rcases hr with rfl | rfl <;> decide
  induction n using Nat.strongRecOn with
  | _ n ih =>
    by_cases hn : n < radix
    · rw [Nat.toDigits_of_lt_base hn] at h
      simp only [List.mem_singleton] at h
      rw [h, digitVal_digitChar hr hn]; rfl
    · rw [Nat.toDigits_of_base_le h1 (by omega)] at h
      rcases List.mem_append.1 h with h | h
      · exact ih _ (Nat.div_lt_self (by omega) h1) h
      · simp only [List.mem_singleton] at h
        rw [h, digitVal_digitChar hr (Nat.mod_lt _ (by omega))]; rfl

theorem digitVal_plus (radix : Nat) : digitVal radix '+' = none := by
  simp [digitVal, show ¬ ('0' ≤ '+') by decide, show ¬ ('a' ≤ '+') by decide, show ¬ ('A' ≤ '+') by decide]

theorem unsigned_no_plus {radix max : Nat} {s : Text} (h : ∀ c ∈ s, (digitVal radix c).isSome) (hne : s ≠ []) :
    unsignedFromStr radix max s = match digitsVal radix 0 s with
      | some v => if v ≤ max then some v else none
      | none => none := by
  have hp : ∀ rest, s ≠ '+' :: rest := by
    rintro rest rfl
    have := h '+' (by simp)
    rw [digitVal_plus] at this; cases this
  unfold unsignedFromStr
  split
  · exact absurd rfl (hp _)
  · rw [if_neg hne]
    cases digitsVal radix 0 s <;> rfl

theorem usizeFromStr_decimal (n : Nat) :
    usizeFromStr (decimal n) = if n < 2 ^ 64 then some n else none := by
  unfold usizeFromStr decimal
  rw [unsigned_no_plus (fun c hc => digitVal_toDigits_isSome (Or.inl rfl) hc) Nat.toDigits_ne_nil,
    digitsVal_toDigits (Or.inl rfl)]
  by_cases h : n < 2 ^ 64
  · simp only; rw [if_pos (by omega), if_pos h]
  · simp only; rw [if_neg (by omega), if_neg h]

theorem digitsVal_hex (ds : Text) (h : ∀ d ∈ ds, isHex d) (acc : Nat) :
    digitsVal 16 acc ds = some (ds.foldl (fun a c => a * 16 + (digitVal 16 c).getD 0) acc) := by
  induction ds generalizing acc with
  | nil => rfl
  | cons d ds ih =>
    have h1 := h d (by simp)
    unfold isHex at h1
    obtain ⟨v, hv⟩ := Option.isSome_iff_exists.1 h1
    simp only [digitsVal, hv, List.foldl_cons, Option.getD_some]
    exact ih (fun x hx => h x (by simp [hx])) _

theorem digitVal_lt {radix : Nat} {c : Char} {v : Nat} (h : digitVal radix c = some v) : v < radix := by
  unfold digitVal at h
  simp only [Option.bind_eq_some_iff] at h
  obtain ⟨w, _, h2⟩ := h
  split at h2
  · simp at h2; omega
  · cases h2

theorem hexFold_lt (ds : Text) (acc : Nat) :
    ds.foldl (fun a c => a * 16 + (digitVal 16 c).getD 0) acc < (acc + 1) * 16 ^ ds.length := by
  induction ds generalizing acc with
  | nil => simp
  | cons d ds ih =>
    have hd : (digitVal 16 d).getD 0 < 16 := by
      cases h : digitVal 16 d with
      | none => simp
      | some v => exact digitVal_lt h
    simp only [List.foldl_cons, List.length_cons]
    refine Nat.lt_of_lt_of_le (ih _) ?_
    rw [Nat.pow_succ, Nat.mul_comm (16 ^ ds.length), ← Nat.mul_assoc]
    exact Nat.mul_le_mul_right _ (by omega)

theorem hexValue_lt (ds : Text) : hexValue ds < 16 ^ ds.length := by
  have := hexFold_lt ds 0
  simpa [hexValue] using this

theorem isHex_ascii {c : Char} (h : isHex c) : c.toNat < 128 := by
  unfold isHex digitVal at h
  have f : ∀ {a b : Char}, a ≤ b → a.toNat ≤ b.toNat := by
    intro a b hab; exact hab
  have h9 : '9'.toNat = 57 := by decide
  have hf : 'f'.toNat = 102 := by decide
  have hF : 'F'.toNat = 70 := by decide
  split at h
  · next g => have := f g.2; omega
  · split at h
    · next g => have := f g.2; omega
    · split at h
      · next g => have := f g.2; omega
      · simp at h

theorem utf8Size_ascii {c : Char} (h : c.toNat < 128) : c.utf8Size = 1 := by
  rw [Char.utf8Size_eq_one_iff]
  show c.val ≤ 127
  rw [UInt32.le_iff_toNat_le]
  have : c.val.toNat = c.toNat := rfl
  simp; omega

theorem utf8Len_hex {ds : Text} (h : ∀ d ∈ ds, isHex d) : utf8Len ds = ds.length := by
  induction ds with
  | nil => rfl
  | cons d ds ih =>
    simp only [utf8Len_cons, List.length_cons]
    rw [ih (fun x hx => h x (by simp [hx])), utf8Size_ascii (isHex_ascii (h d (by simp)))]
    omega

theorem isHex_ne {d : Char} (h : isHex d) : d ≠ '}' ∧ d ≠ '"' ∧ d ≠ '\\' ∧ d ≠ '+' := by
  refine ⟨?_, ?_, ?_, ?_⟩ <;> (rintro rfl; exact absurd h (by decide))

/-! ## The loop -/

theorem takeWhile_all' {α : Type} {p : α → Bool} {a : List α} {x : α} {b : List α}
    (h : ∀ y ∈ a, p y = true) (hx : p x = false) : (a ++ x :: b).takeWhile p = a := by
  induction a with
  | nil => simp [hx]
  | cons y a ih => simp [h y (by simp), ih (fun z hz => h z (by simp [hz]))]

theorem unescapeStep_length {c : Char} {cs p r : Text} (h : unescapeStep c cs = some (p, r)) :
    r.length ≤ cs.length := by
  unfold unescapeStep at h
  split at h
  · cases h
  · next e chars =>
    have key : ∀ {x y : Text}, some (x, y) = some (p, r) → y.length ≤ (e :: chars).length →
        r.length ≤ (e :: chars).length := by
      rintro x y ⟨⟩ h; exact h
    have key' : ∀ {x : Text} {n : Nat} {l : Text}, some (x, l.drop n) = some (p, r) →
        l.length ≤ (e :: chars).length → r.length ≤ (e :: chars).length := by
      rintro x n l ⟨⟩ h; simp only [List.length_drop]; omega
    dsimp only at h
    by_cases h0 : e = '"'
    · rw [if_pos h0] at h; exact key h (by simp)
    rw [if_neg h0] at h
    by_cases h1 : e = '\\'
    · rw [if_pos h1] at h; exact key h (by simp)
    rw [if_neg h1] at h
    by_cases h2 : e = 'r'
    · rw [if_pos h2] at h; exact key h (by simp)
    rw [if_neg h2] at h
    by_cases h3 : e = 'n'
    · rw [if_pos h3] at h; exact key h (by simp)
    rw [if_neg h3] at h
    by_cases h4 : e = 't'
    · rw [if_pos h4] at h; exact key h (by simp)
    rw [if_neg h4] at h
    by_cases h5 : e = '0'
    · rw [if_pos h5] at h; exact key h (by simp)
    rw [if_neg h5] at h
    by_cases h6 : e = '\''
    · rw [if_pos h6] at h; exact key h (by simp)
    rw [if_neg h6] at h
    by_cases he : e = 'x'
    · rw [if_pos he] at h
      split at h
      · cases h
      · split at h
        · cases h
        · split at h
          · cases h
          · split at h
            · cases h
            · exact key' h (by simp)
    · rw [if_neg he] at h
      split at h
      · split at h
        · cases h
        · split at h
          · cases h
          · split at h
            · cases h
            · split at h
              · cases h
              · split at h
                · cases h
                · split at h
                  · cases h
                  · split at h
                    · cases h
                    · exact key' h (by simp; omega)
      · cases h
  · simp at h; rw [← h.2]; exact Nat.le_refl _
  · simp at h; rw [← h.2]; exact Nat.le_refl _

theorem unescapeLoop_fuel (n : Nat) (s : Text) (h : s.length ≤ n) : unescapeLoop n s = unescape s := by
  suffices key : ∀ (n m : Nat) (s : Text), s.length ≤ n → s.length ≤ m → unescapeLoop n s = unescapeLoop m s by
    exact key _ _ _ h (Nat.le_refl _)
  intro n
  induction n with
  | zero =>
    intro m s h1 h2
    cases s with
    | nil => cases m <;> rfl
    | cons c cs => simp at h1
  | succ n ih =>
    intro m s h1 h2
    cases s with
    | nil => cases m <;> rfl
    | cons c cs =>
      cases m with
      | zero => simp at h2
      | succ m =>
        simp only [unescapeLoop]
        cases hs : unescapeStep c cs with
        | none => rfl
        | some x =>
          obtain ⟨p, r⟩ := x
          have := unescapeStep_length hs
          simp only [List.length_cons] at h1 h2
          simp only
          rw [ih m r (by omega) (by omega)]

theorem unescape_nil : unescape [] = some [] := rfl

theorem unescape_cons (c : Char) (cs : Text) :
    unescape (c :: cs) = match unescapeStep c cs with
      | none => none
      | some (pushed, rest) => (unescape rest).map (pushed ++ ·) := by
  unfold unescape
  simp only [List.length_cons, unescapeLoop]
  cases hs : unescapeStep c cs with
  | none => rfl
  | some x =>
    obtain ⟨p, r⟩ := x
    simp only
    rw [unescapeLoop_fuel _ _ (unescapeStep_length hs)]
    rfl

theorem unescapeStep_plain {c : Char} (h1 : c ≠ '"') (h2 : c ≠ '\\') (cs : Text) :
    unescapeStep c cs = some ([c], cs) := by
  unfold unescapeStep
  split
  · exact absurd rfl h2
  · exact absurd rfl h2
  · exact absurd rfl h1
  · rfl

theorem ofNat_small {n : Nat} (h : n ≤ 0x7f) : n.isValidChar := Or.inl (by omega)

theorem charFromU32_eq (n : Nat) :
    charFromU32 n = if n.isValidChar then some (Char.ofNat n) else none := by
  unfold charFromU32 Char.ofNat
  split <;> rfl

/-- An escape read by the loop. -/
theorem unescape_escape {e : Text} {v : Char ⊕ (Nat × Nat)} (he : Escape e v) (s : Text) :
    unescape (e ++ s) = (escaped v).bind fun c => (unescape s).map (c :: ·) := by
  cases he with
  | letter hl =>
    simp only [List.cons_append, List.nil_append, unescape_cons]
    cases hl <;> simp [unescapeStep, escaped]
  | @code a b ha hb =>
    have hal := utf8Len_hex (ds := [a, b]) (by simp [ha, hb])
    have hv : unsignedFromStr 16 255 [a, b] = some (hexValue [a, b]) := by
      rw [unsigned_no_plus (by intro c hc; simp at hc; rcases hc with rfl | rfl <;> assumption) (by simp),
        digitsVal_hex _ (by simp [ha, hb])]
      have := hexValue_lt [a, b]
      simp only
      rw [if_pos (by unfold hexValue at this; simp at this ⊢; omega)]
      rfl
    simp only [List.cons_append, List.nil_append, unescape_cons]
    have hstep : unescapeStep '\\' ('x' :: a :: b :: s) =
        if hexValue [a, b] > 0x7f then none else some ([Char.ofNat (hexValue [a, b])], s) := by
      simp only [unescapeStep]
      simp only [List.take_succ_cons, List.take_zero, hal, hv]
      simp
      omega
    rw [hstep]
    simp only [escaped]
    by_cases h : hexValue [a, b] ≤ 0x7f
    · rw [if_neg (by omega), if_pos ⟨h, ofNat_small h⟩]; rfl
    · rw [if_pos (by omega), if_neg (fun hh => h hh.1)]; rfl
  | @unicode ds hd h0 h6 =>
    have hlen := utf8Len_hex hd
    have hne : ds ≠ [] := by rintro rfl; simp at h0
    have hv : unsignedFromStr 16 (2 ^ 32 - 1) ds = some (hexValue ds) := by
      rw [unsigned_no_plus hd hne, digitsVal_hex _ hd]
      have := hexValue_lt ds
      have : 16 ^ ds.length ≤ 16 ^ 6 := Nat.pow_le_pow_right (by omega) h6
      simp only
      rw [if_pos (by unfold hexValue at *; omega)]
      rfl
    have htw : (ds ++ '}' :: s).takeWhile (fun c => c != '}') = ds :=
      takeWhile_all' (fun d hdm => by simpa using (isHex_ne (hd d hdm)).1) (by simp)
    have hdrop : (ds ++ '}' :: s).drop (ds.length + 1) = s := by
      rw [show ds ++ '}' :: s = (ds ++ ['}']) ++ s by simp, List.drop_left' (by simp)]
    have hstep : unescapeStep '\\' ('u' :: '{' :: (ds ++ '}' :: s)) =
        match escaped (.inr (hexValue ds, 0x10ffff)) with
        | none => none
        | some c => some ([c], s) := by
      simp only [unescapeStep, htw, hlen, hv]
      rw [if_neg (show ¬ (ds = [] ∨ 6 < ds.length) by rintro (h | h); exact hne h; omega),
        if_neg (show ¬ (ds ++ '}' :: s).length < ds.length + 1 by simp)]
      simp only [escaped, charFromU32_eq, hdrop]
      by_cases h1 : hexValue ds ≤ 0x10ffff
      · by_cases h2 : (hexValue ds).isValidChar
        · simp [h1, h2, show ¬ hexValue ds > 1114111 by omega]
        · simp [h2]
      · simp [h1, show hexValue ds > 1114111 by omega]
    have e1 : '\\' :: 'u' :: '{' :: (ds ++ ['}']) ++ s = '\\' :: 'u' :: '{' :: (ds ++ '}' :: s) := by simp
    rw [e1, unescape_cons, hstep]
    cases escaped (.inr (hexValue ds, 0x10ffff)) with
    | none => rfl
    | some c => rfl

theorem unescape_plain {c : Char} (h1 : c ≠ '"') (h2 : c ≠ '\\') (s : Text) :
    unescape (c :: s) = (unescape s).map (c :: ·) := by
  rw [unescape_cons, unescapeStep_plain h1 h2]; rfl

theorem Denotes.unescape {s : Text} {t : Option Text} (h : Denotes s t) : unescape s = t := by
  induction h with
  | nil => rfl
  | plain h1 h2 _ ih => rw [unescape_plain h1 h2, ih]
  | escape he _ ih => rw [unescape_escape he, ih]

theorem slice_mid (a b c : Text) : slice (a ++ b ++ c) (utf8Len a) (utf8Len c) = some b := by
  unfold slice
  have : ¬ utf8Len (a ++ b ++ c) < utf8Len c := by simp; omega
  rw [if_neg this, show utf8Len (a ++ b ++ c) - utf8Len c = utf8Len a + utf8Len b by simp; omega]
  exact getRange_append a b c

end Pest3.Meta
