import Verif.Memchr
import Verif.LineLemmas

/-!
# Lemmas on the variant of `skip_until` for `memchr`
-/

namespace Pest3

/-- One of the strings occurs at the offset. -/
def hit (t : Text) (ss : List Text) (i : Nat) : Bool := (getFrom t i).any fun string => ss.any fun s => (bytes s).isPrefixOf (bytes string)

theorem find_congr {α : Type} {l : List α} {p q : α → Bool} (h : ∀ x ∈ l, p x = q x) : l.find? p = l.find? q := by
  induction l with
  | nil => rfl
  | cons x l ih =>
    rw [List.find?_cons, List.find?_cons, h x List.mem_cons_self, ih fun y hy => h y (List.mem_cons_of_mem _ hy)]

theorem prefix_range (s string : Text) : (some (bytes s) == byteRange (bytes string) 0 (utf8Len s)) = (bytes s).isPrefixOf (bytes string) := by
  have h := @byteRange_eq_some_iff [] string s
  simp only [List.nil_append, utf8Len_nil, Nat.zero_add] at h
  rw [Bool.eq_iff_iff, beq_iff_eq, eq_comm, h, List.isPrefixOf_iff_prefix, bytes_prefix_iff]

theorem hit_iff {t : Text} {ss : List Text} {i : Nat} : hit t ss i = true ↔ ∃ pre suf, t = pre ++ suf ∧ utf8Len pre = i ∧ ∃ s ∈ ss, s <+: suf := by
  constructor
  · intro h
    unfold hit at h
    cases hg : getFrom t i with
    | none => rw [hg] at h; cases h
    | some string =>
      rw [hg] at h
      obtain ⟨pre, suf, rfl, rfl⟩ := getFrom_isSome.1 (by rw [hg]; rfl : (getFrom t i).isSome)
      simp at hg
      subst hg
      obtain ⟨s, h1, h2⟩ := List.any_eq_true.1 h
      exact ⟨pre, suf, rfl, rfl, s, h1, bytes_prefix_iff.mp (List.isPrefixOf_iff_prefix.mp h2)⟩
  · rintro ⟨pre, suf, rfl, rfl, s, h1, h2⟩
    have : getFrom (pre ++ suf) (utf8Len pre) = some suf := by simp
    unfold hit
    rw [this]
    exact List.any_eq_true.2 ⟨s, h1, List.isPrefixOf_iff_prefix.mpr (bytes_prefix_iff.mpr h2)⟩

theorem skipUntilLoop_find (t : Text) (ss : List Text) (l : List Nat) : Position.skipUntilLoop t ss l = l.find? (hit t ss) := by
  induction l with
  | nil => rfl
  | cons i l ih =>
    rw [List.find?_cons]
    simp only [Position.skipUntilLoop, hit]
    cases getFrom t i with
    | none => exact ih
    | some string =>
      simp only [prefix_range, Option.any_some]
      cases ss.any fun s => (bytes s).isPrefixOf (bytes string) with
      | true => rfl
      | false => exact ih

theorem fastLoop_find {t : Text} {pos : Nat} {ss : List Text} {l : List Nat} (h : ∀ i ∈ l, Boundary t (pos + i)) :
    Position.fastLoop t pos ss l = some ((l.find? fun i => hit t ss (pos + i)).map (pos + ·)) := by
  induction l with
  | nil => rfl
  | cons i l ih =>
    have ih := ih fun j hj => h j (List.mem_cons_of_mem _ hj)
    rw [List.find?_cons]
    obtain ⟨string, hs⟩ := Option.isSome_iff_exists.mp (getFrom_isSome.2 (h i List.mem_cons_self))
    simp only [Position.fastLoop, hit, hs, Option.any_some]
    cases ss.any fun s => (bytes s).isPrefixOf (bytes string) with
    | true => rfl
    | false => exact ih

theorem lead_of_head {s : Text} {b : UInt8} (h : (bytes s)[0]? = some b) : isLeadByte b = true := by
  cases s with
  | nil => cases h
  | cons c s =>
    rw [bytes_cons, List.getElem?_append_left (List.length_pos_iff.mpr (utf8EncodeChar_ne_nil c))] at h
    exact (isLeadByte_encode h).mpr rfl

theorem boundary_of_lead {t : Text} {i : Nat} {b : UInt8} (h : (bytes t)[i]? = some b) (hb : isLeadByte b = true) : Boundary t i := by
  rw [← isCharBoundary_iff]
  unfold isCharBoundary
  split
  · rfl
  · rw [h]; exact hb

/-- Where a text that is not empty occurs, its first byte does. -/
theorem head_of_prefix {s pre suf : Text} (h : s <+: suf) (hs : s ≠ []) : (bytes (pre ++ suf))[utf8Len pre]? = (bytes s)[0]? := by
  obtain ⟨r, rfl⟩ := h
  rw [bytes_append, List.getElem?_append_right (by simp), length_bytes, Nat.sub_self, bytes_append]
  exact List.getElem?_append_left (List.length_pos_iff.mpr fun h => hs (utf8Len_eq_zero.mp (by rw [← length_bytes, h]; rfl)))

theorem find_iter (bs hay : List UInt8) (q : Nat → Bool) : (memchrIter bs hay).find? q = (List.range hay.length).find? fun i => hay[i]?.any bs.contains && q i := by
  rw [memchrIter, List.find?_filter]
  exact find_congr fun x _ => by simp

end Pest3
