import Verif.IdentSpec
import Verif.ItemLemmas
import Verif.SnippetLemmas

/-!
# Lemmas about identifiers
-/

namespace Pest3.Gen
open Pest3
open Pest3.Load (IsIdent isAlpha)

/-- The text is accepted and gives an identifier. -/
def Fine (t : Text) : Prop := ∃ i, formatIdent t = .ok i ∧ i.Legal

theorem isWord_iff {x : Name} : isWord x = true ↔ IsIdent x := by
  have hs : ∀ c, wordStart c = true ↔ c = '_' ∨ isAlpha c := fun c => by
    unfold wordStart isAlpha
    simp only [Bool.or_eq_true, decide_eq_true_eq, Bool.and_eq_true, or_assoc]
  have hp : ∀ c, wordPart c = true ↔ c = '_' ∨ isAlpha c ∨ ('0' ≤ c ∧ c ≤ '9') := fun c => by
    unfold wordPart
    rw [Bool.or_eq_true, hs, or_assoc]
    simp only [decide_eq_true_eq, Bool.and_eq_true]
  cases x with
  | nil => exact ⟨fun h => by simp [isWord] at h, fun h => by cases h⟩
  | cons c x =>
    unfold isWord
    rw [Bool.and_eq_true, hs, List.all_eq_true]
    constructor
    · intro h
      exact .mk h.1 fun y hy => (hp y).mp (h.2 y hy)
    · intro h
      cases h with
      | mk h1 h2 => exact ⟨h1, fun y hy => (hp y).mpr (h2 y hy)⟩

theorem PlainName.raw {x : Name} (h : PlainName x) : RawName x := by
  refine ⟨h.word, fun hx => ?_⟩
  have key : ∀ y ∈ ["_", "self", "Self", "super", "crate"].map String.toList, y = "_".toList ∨ y ∈ keywords := by decide
  exact (key x hx).elim h.wild h.free

theorem formatIdent_raw (x : Name) : formatIdent (rawText x) = if isWord x && !noRaw.contains x then .ok (.raw x) else .panic := by
  unfold rawText formatIdent; rfl

theorem formatIdent_plain {x : Name} (h : IsIdent x) : formatIdent x = .ok (.plain x) := by
  unfold formatIdent
  split
  · cases h with
    | mk _ h2 =>
      have := h2 '#' (by simp)
      exfalso
      revert this
      unfold isAlpha
      decide
  · rw [if_pos (isWord_iff.mpr h)]

theorem fine_raw {x : Name} : Fine (rawText x) ↔ RawName x := by
  unfold Fine
  rw [formatIdent_raw]
  constructor
  · rintro ⟨i, h, hi⟩
    split at h
    · simp only [Res.ok.injEq] at h
      subst h; exact hi
    · simp at h
  · intro h
    refine ⟨_, if_pos ?_, h⟩
    rw [Bool.and_eq_true, isWord_iff, Bool.not_eq_true', List.contains_eq_mem, decide_eq_false_iff_not]
    exact ⟨h.word, h.free⟩

theorem fine_plain {x : Name} (h : PlainName x) : Fine x := ⟨_, formatIdent_plain h.word, h⟩

theorem fine_plain_iff {x : Name} (hx : IsIdent x) : Fine x ↔ PlainName x := by
  refine ⟨fun ⟨i, h, hi⟩ => ?_, fine_plain⟩
  rw [formatIdent_plain hx] at h
  simp only [Res.ok.injEq] at h
  subst h; exact hi

theorem formatAll_ok {l : List Text} : (∃ is, formatAll l = .ok is ∧ ∀ i ∈ is, i.Legal) ↔ ∀ t ∈ l, Fine t := by
  induction l with
  | nil => exact ⟨fun _ t h => (by simp at h), fun _ => ⟨[], rfl, fun i h => by simp at h⟩⟩
  | cons t l ih =>
    rw [formatAll]
    constructor
    · rintro ⟨is, h, hi⟩
      obtain ⟨i, h1, h2⟩ := andThen_ok.mp h
      obtain ⟨is', h3, h4⟩ := andThen_ok.mp h2
      simp only [Res.ok.injEq] at h4
      subst h4
      intro u hu
      rcases List.mem_cons.mp hu with rfl | hu
      · exact ⟨i, h1, hi i List.mem_cons_self⟩
      · exact ih.mp ⟨is', h3, fun j hj => hi j (List.mem_cons_of_mem _ hj)⟩ u hu
    · intro h
      obtain ⟨i, h1, hi⟩ := h t List.mem_cons_self
      obtain ⟨is, h2, his⟩ := ih.mpr fun u hu => h u (List.mem_cons_of_mem _ hu)
      refine ⟨i :: is, ?_, fun j hj => ?_⟩
      · rw [h1, h2]; rfl
      · rcases List.mem_cons.mp hj with rfl | hj
        · exact hi
        · exact his j hj

theorem formatIdent_oof (t : Text) : formatIdent t ≠ .oof := by
  unfold formatIdent
  split <;> split <;> simp

theorem formatAll_panic {l : List Text} : formatAll l = .panic ↔ ∃ t ∈ l, formatIdent t = .panic := by
  have ne : ∀ l, formatAll l ≠ .oof := by
    intro l
    induction l with
    | nil => simp [formatAll]
    | cons t l ih =>
      rw [formatAll]
      cases h : formatIdent t with
      | ok i => cases h2 : formatAll l with
        | ok is => simp [andThen]
        | panic => simp [andThen]
        | oof => exact absurd h2 ih
      | panic => simp [andThen]
      | oof => exact absurd h (formatIdent_oof t)
  induction l with
  | nil => simp [formatAll]
  | cons t l ih =>
    rw [formatAll]
    simp only [List.mem_cons, exists_eq_or_imp]
    refine Iff.trans ?_ (or_congr Iff.rfl ih)
    cases h : formatIdent t with
    | ok i => cases h2 : formatAll l with
      | ok is => simp [andThen]
      | panic => simp [andThen]
      | oof => exact absurd h2 (ne l)
    | panic => simp [andThen]
    | oof => exact absurd h (formatIdent_oof t)

/-! ## Numbered names -/

theorem numbered {p : Name} (hp : IsIdent p) (n : Nat) : PlainName (p ++ showNat n) := by
  have hd : ∀ c ∈ showNat n, '0' ≤ c ∧ c ≤ '9' := fun c hc => by
    rw [showNat_eq] at hc
    have := Nat.isDigit_of_mem_toDigits (by decide) (by decide) hc
    unfold Char.isDigit at this
    rw [Bool.and_eq_true, decide_eq_true_iff, decide_eq_true_iff] at this
    exact this
  obtain ⟨d, ds, hds⟩ : ∃ d ds, showNat n = d :: ds := by
    cases h : showNat n with
    | nil => rw [showNat_eq] at h; exact absurd h Nat.toDigits_ne_nil
    | cons d ds => exact ⟨d, ds, rfl⟩
  have hmem : d ∈ p ++ showNat n := by rw [hds]; simp
  have hdig := hd d (by rw [hds]; simp)
  refine ⟨?_, fun h => ?_, fun h => ?_⟩
  · cases hp with
    | mk h1 h2 =>
      refine .mk h1 fun y hy => ?_
      rcases List.mem_append.mp hy with hy | hy
      · exact h2 y hy
      · exact .inr (.inr (hd y hy))
  · rw [h] at hmem
    rw [List.mem_singleton.mp hmem] at hdig
    revert hdig
    decide
  · have key : ∀ k ∈ keywords, ∀ c ∈ k, ¬ ('0' ≤ c ∧ c ≤ '9') := by decide
    exact key _ h d hmem hdig

theorem plain_lit {x : String} (h : isWord x.toList = true) (hw : x.toList ≠ "_".toList) (hk : x.toList ∉ keywords) : PlainName x.toList :=
  ⟨isWord_iff.mp h, hw, hk⟩

/-! ## Types -/

/-- The identifiers made for a reference. -/
structure RefFine (r : Ref) : Prop where
  raw : Fine (rawText r.name)
  plain : r.ups ≠ 0 → Fine r.name
  path : r.ups = 0 → ∀ x ∈ r.path, Fine x

theorem rootUps_ne (d : Nat) : rootUps d ≠ 0 := by rw [rootUps_eq]; omega

theorem mem_modsPath {mods : List Name} {x : Name} (h : x ∈ mods) : x ∈ modsPath mods := by
  induction mods with
  | nil => simp at h
  | cons y l ih =>
    rw [modsPath]
    rcases List.mem_cons.mp h with rfl | h
    · simp
    · simp [ih h]

mutual
theorem ty_fine (d : Nat) : ∀ ty : Ty, (∀ r ∈ ty.paths d, RefFine r) → (∀ x ∈ ty.params, RawName x) → ∀ t ∈ ty.idents, Fine t
  | .str w, hr, _, t, ht => by
    simp only [Ty.idents, List.mem_singleton] at ht
    subst ht
    exact (hr ⟨rootUps d, ["wrapper".toList], t, 0⟩ (by simp [Ty.paths])).plain (rootUps_ne d)
  | .insens w, hr, _, t, ht => by
    simp only [Ty.idents, List.mem_singleton] at ht
    subst ht
    exact (hr ⟨rootUps d, ["wrapper".toList], t, 0⟩ (by simp [Ty.paths])).plain (rootUps_ne d)
  | .charRange _ _, _, _, t, ht => by simp [Ty.idents] at ht
  | .param x, _, hp, t, ht => by
    simp only [Ty.idents, List.mem_singleton] at ht
    subst ht
    exact fine_raw.mpr (hp x (by simp [Ty.params]))
  | .rule mods name args, hr, hp, t, ht => by
    simp only [Ty.idents, List.mem_cons, List.mem_append] at ht
    have h0 := hr ⟨0, modsPath mods, name, args.length⟩ (by simp [Ty.paths])
    rcases ht with rfl | ht | ht
    · exact h0.raw
    · exact h0.path rfl t (mem_modsPath ht)
    · exact tys_fine d args (fun r h => hr r (by simp [Ty.paths, h])) (fun x h => hp x (by simpa [Ty.params] using h)) t ht
  | .builtin name args, hr, hp, t, ht => by
    simp only [Ty.idents, List.mem_cons] at ht
    rcases ht with rfl | ht
    · exact (hr (genericRef d name args.length) (by simp [Ty.paths])).raw
    · exact tys_fine d args (fun r h => hr r (by simp [Ty.paths, h])) (fun x h => hp x (by simpa [Ty.params] using h)) t ht
  | .slice1 name _, hr, _, t, ht => by
    simp only [Ty.idents, List.mem_singleton] at ht
    subst ht
    exact (hr (genericRef d t 1) (by simp [Ty.paths])).plain (rootUps_ne d)
  | .slice2 name _ _, hr, _, t, ht => by
    simp only [Ty.idents, List.mem_singleton] at ht
    subst ht
    exact (hr (genericRef d t 2) (by simp [Ty.paths])).plain (rootUps_ne d)
  | .unicode x, hr, _, t, ht => by
    simp only [Ty.idents, List.mem_singleton] at ht
    subst ht
    exact (hr ⟨rootUps d, ["unicode".toList], t, 0⟩ (by simp [Ty.paths])).plain (rootUps_ne d)
  | .positive ty, hr, hp, t, ht => ty_fine d ty (fun r h => hr r (by simp [Ty.paths, h])) (fun x h => hp x (by simpa [Ty.params] using h)) t
      (by simpa [Ty.idents] using ht)
  | .negative ty, hr, hp, t, ht => ty_fine d ty (fun r h => hr r (by simp [Ty.paths, h])) (fun x h => hp x (by simpa [Ty.params] using h)) t
      (by simpa [Ty.idents] using ht)
  | .option ty, hr, hp, t, ht => ty_fine d ty (fun r h => hr r (by simp [Ty.paths, h])) (fun x h => hp x (by simpa [Ty.params] using h)) t
      (by simpa [Ty.idents] using ht)
  | .seq trivia fields, hr, hp, t, ht => by
    simp only [Ty.idents, List.mem_cons] at ht
    rcases ht with rfl | ht
    · exact fine_plain (numbered (isWord_iff.mp (by decide)) _)
    · exact tys_fine d fields (fun r h => hr r (by simp [Ty.paths, h])) (fun x h => hp x (by simpa [Ty.params] using h)) t ht
  | .choice alts, hr, hp, t, ht => by
    simp only [Ty.idents, List.mem_cons] at ht
    rcases ht with rfl | ht
    · exact fine_plain (numbered (isWord_iff.mp (by decide)) _)
    · exact tys_fine d alts (fun r h => hr r (by simp [Ty.paths, h])) (fun x h => hp x (by simpa [Ty.params] using h)) t ht
  | .rep ty _, hr, hp, t, ht => ty_fine d ty (fun r h => hr r (by simp [Ty.paths, h])) (fun x h => hp x (by simpa [Ty.params] using h)) t
      (by simpa [Ty.idents] using ht)
  | .repOnce ty _, hr, hp, t, ht => ty_fine d ty (fun r h => hr r (by simp [Ty.paths, h])) (fun x h => hp x (by simpa [Ty.params] using h)) t
      (by simpa [Ty.idents] using ht)
  | .repMin ty _ _, hr, hp, t, ht => ty_fine d ty (fun r h => hr r (by simp [Ty.paths, h])) (fun x h => hp x (by simpa [Ty.params] using h)) t
      (by simpa [Ty.idents] using ht)
  | .repMax ty _ _, hr, hp, t, ht => ty_fine d ty (fun r h => hr r (by simp [Ty.paths, h])) (fun x h => hp x (by simpa [Ty.params] using h)) t
      (by simpa [Ty.idents] using ht)
  | .repMinMax ty _ _ _, hr, hp, t, ht => ty_fine d ty (fun r h => hr r (by simp [Ty.paths, h])) (fun x h => hp x (by simpa [Ty.params] using h)) t
      (by simpa [Ty.idents] using ht)
theorem tys_fine (d : Nat) : ∀ l : List Ty, (∀ r ∈ Ty.pathsAll d l, RefFine r) → (∀ x ∈ Ty.paramsAll l, RawName x) →
    ∀ t ∈ Ty.identsAll l, Fine t
  | [], _, _, t, ht => by simp [Ty.identsAll] at ht
  | ty :: l, hr, hp, t, ht => by
    simp only [Ty.identsAll, List.mem_append] at ht
    rcases ht with ht | ht
    · exact ty_fine d ty (fun r h => hr r (by simp [Ty.pathsAll, h])) (fun x h => hp x (by simp [Ty.paramsAll, h])) t ht
    · exact tys_fine d l (fun r h => hr r (by simp [Ty.pathsAll, h])) (fun x h => hp x (by simp [Ty.paramsAll, h])) t ht
end

end Pest3.Gen
