import Verif.DocInv
import Verif.MetaFileLemmas

/-!
# Lemmas about documentation comments
-/

namespace Pest3.Load
open Pest3 Pest3.Gen
open Pest3.Meta (MetaRule)

/-! ## White space -/

theorem isWhite_iff {x : Char} : isWhite x = true ↔ White x := by
  unfold isWhite White
  simp only [Bool.or_eq_true, Bool.and_eq_true, decide_eq_true_eq, beq_iff_eq, List.mem_cons, List.not_mem_nil, or_false]
  omega

theorem trim_trimmed (s : Text) : Trimmed s (trim s) := by
  have split : ∀ l : Text, ∃ a, l = a ++ l.dropWhile isWhite ∧ (∀ x ∈ a, White x) ∧ ∀ x ∈ (l.dropWhile isWhite).head?, ¬ White x := by
    intro l
    refine ⟨l.takeWhile isWhite, (List.takeWhile_append_dropWhile).symm, fun x hx => ?_, fun x hx => ?_⟩
    · exact isWhite_iff.mp (List.all_eq_true.mp List.all_takeWhile x hx)
    · rw [← isWhite_iff]
      have := List.head?_dropWhile_not (p := isWhite) l
      rw [hx] at this
      simpa using this
  obtain ⟨a, h1, h2, h3⟩ := split s
  obtain ⟨b, h4, h5, h6⟩ := split (s.dropWhile isWhite).reverse
  unfold trim
  generalize (s.dropWhile isWhite) = u at *
  generalize (u.reverse.dropWhile isWhite) = v at *
  have hu : u = v.reverse ++ b.reverse := by
    have := congrArg List.reverse h4
    simpa using this
  refine ⟨⟨a, b.reverse, by rw [h1, hu], h2, fun x hx => h5 x (by simpa using hx)⟩, fun x hx => ?_, fun x hx => ?_⟩
  · refine h3 x ?_
    rw [hu]
    cases hv : v.reverse with
    | nil => rw [hv] at hx; cases hx
    | cons y w => rw [hv] at hx; exact hx
  · rw [List.getLast?_reverse] at hx
    exact h6 x hx

/-- Nothing else is the text without the white space around it. -/
theorem trimmed_unique {s t u : Text} (h : Trimmed s t) (k : Trimmed s u) : t = u := by
  have cut : ∀ {a t a' t' : Text}, a ++ t = a' ++ t' → (∀ x ∈ a, White x) → (∀ x ∈ a', White x) → (∀ x ∈ t.head?, ¬ White x) →
      (∀ x ∈ t'.head?, ¬ White x) → t = t' := by
    intro a
    induction a with
    | nil =>
      intro t a' t' h _ h2 h3 _
      cases a' with
      | nil => exact h
      | cons y a' =>
        have h' : t = y :: (a' ++ t') := h
        rw [h'] at h3
        exact absurd (h2 y (by simp)) (h3 y rfl)
    | cons x a ih =>
      intro t a' t' h h1 h2 h3 h4
      cases a' with
      | nil =>
        have h' : x :: (a ++ t) = t' := h
        rw [← h'] at h4
        exact absurd (h1 x (by simp)) (h4 x rfl)
      | cons y a' =>
        rw [List.cons_append, List.cons_append, List.cons.injEq] at h
        exact ih h.2 (fun z hz => h1 z (by simp [hz])) (fun z hz => h2 z (by simp [hz])) h3 h4
  have empty : ∀ {u : Text}, Trimmed s [] → Trimmed s u → u = [] := by
    intro u h k
    obtain ⟨⟨a, b, h1, h2, h3⟩, -, -⟩ := h
    obtain ⟨⟨a', b', k1, -, -⟩, k4, -⟩ := k
    cases u with
    | nil => rfl
    | cons x u =>
      refine absurd ?_ (k4 x rfl)
      have hx : x ∈ a ++ ([] ++ b) := by rw [← h1, k1]; simp
      rcases List.mem_append.mp hx with hx | hx
      · exact h2 x hx
      · exact h3 x hx
  by_cases ht : t = []
  · subst ht; exact (empty h k).symm
  by_cases hu : u = []
  · subst hu; exact empty k h
  obtain ⟨⟨a, b, h1, h2, h3⟩, h4, h5⟩ := h
  obtain ⟨⟨a', b', k1, k2, k3⟩, k4, k5⟩ := k
  have head : ∀ {t b : Text}, t ≠ [] → (∀ x ∈ t.head?, ¬ White x) → ∀ x ∈ (t ++ b).head?, ¬ White x := by
    intro t b ht h x hx
    cases t with
    | nil => exact absurd rfl ht
    | cons y t => exact h x hx
  have e1 := cut (h1.symm.trans k1) h2 k2 (head ht h4) (head hu k4)
  have e2 : b.reverse ++ t.reverse = b'.reverse ++ u.reverse := by
    have := congrArg List.reverse e1
    simpa using this
  have e3 := cut e2 (fun x hx => h3 x (by simpa using hx)) (fun x hx => k3 x (by simpa using hx))
    (fun x hx => h5 x (by rwa [List.head?_reverse] at hx)) (fun x hx => k5 x (by rwa [List.head?_reverse] at hx))
  have := congrArg List.reverse e3
  simpa using this

theorem trimmedLines_iff {l l' : List Text} : TrimmedLines l l' ↔ l' = l.map trim := by
  constructor
  · intro h
    induction h with
    | nil => rfl
    | cons h _ ih => rw [ih, trimmed_unique h (trim_trimmed _)]; rfl
  · rintro rfl
    induction l with
    | nil => exact .nil
    | cons s l ih => exact .cons (trim_trimmed s) ih

theorem trimmedRules_iff {d d' : List (Name × List Text)} : TrimmedRules d d' ↔ d' = trimDocs d := by
  constructor
  · intro h
    induction h with
    | nil => rfl
    | cons h _ ih => rw [ih, trimmedLines_iff.1 h]; rfl
  · rintro rfl
    induction d with
    | nil => exact .nil
    | cons r d ih => exact .cons (trimmedLines_iff.2 rfl) ih

/-! ## Files -/

theorem readDocs_some {text : Text} {ts : List PTree} {m : ModDocs} (h : Recognised text (some ts)) (h' : collectDocs ts ⟨[], []⟩ = .ok m) :
    Settled (fun n => readDocs n text) (.ok (some m)) := by
  obtain ⟨N, hN⟩ := h
  refine ⟨N, fun n hn => ?_⟩
  have h1 := hN n hn
  simp only at h1
  simp only [readDocs, h1, tryThen, andThen, h']

theorem readDocs_none {text : Text} (h : Recognised text none) : Settled (fun n => readDocs n text) (.ok none) := by
  obtain ⟨N, hN⟩ := h
  refine ⟨N, fun n hn => ?_⟩
  have h1 := hN n hn
  simp only at h1
  simp only [readDocs, h1, tryThen, andThen]

theorem collect_file {top : List Text} {docs : List (Name × List Text)} {us vs : List PTree} (h : DocTrees .grammarDoc ['/', '/', '!'] top us)
    (k : RuleTrees docs vs) : collectDocs (us ++ (vs ++ [.node .eoi [] []])) ⟨[], []⟩ = .ok ⟨top.map trim, trimDocs docs⟩ := by
  rw [collect_top (by decide) h, collect_rules k]
  rfl

/-- The name of a rule is the same whether its documentation is read or not. -/
theorem rule_name {fuel : Nat} {t : PTree} {r : Rule} {n : Name} {ls : List Text} (h : parseRule fuel t = .ok (some r)) (k : ruleDocs t = .ok (n, ls)) :
    r.name = n := by
  unfold ruleDocs at k
  unfold parseRule at h
  cases hd : takeDocs t.inner with
  | panic => rw [hd] at k; cases k
  | oof => rw [hd] at k; cases k
  | ok l =>
    rw [hd] at k
    simp only [andThen] at k
    generalize dropDocs t.inner = u at h k
    match u with
    | [] => cases k
    | [x] => cases h
    | x :: y :: u =>
      cases k
      simp only at h
      split at h
      · cases h
      · split at h
        · cases hp : parseNode ruleOps fuel ‹_› with
          | panic => rw [hp] at h; cases h
          | oof => rw [hp] at h; cases h
          | ok o =>
            rw [hp] at h
            cases o with
            | none => cases h
            | some e => cases h; rfl
        · cases h

theorem names_aligned {docs : List (Name × List Text)} {vs : List PTree} (h : RuleTrees docs vs) : ∀ {items : List FileItem}, AllRead (vs ++ [.node .eoi [] []]) items →
    .invalid ∉ items → .panics ∉ items → docs.map Prod.fst = ruleNames items := by
  induction h with
  | nil =>
    intro items h _ _
    cases h with
    | cons h1 h2 =>
      obtain ⟨N, hN⟩ := h1
      cases hN N (Nat.le_refl _)
    | skip _ h2 => cases h2; rfl
  | @cons x d ds ts hx _ ih =>
    intro items h hi hp
    rcases hx with ⟨n, ls, rfl, h1, h2⟩ | ⟨rfl, h1, h2⟩
    · cases h with
      | skip h =>
        obtain ⟨N, hN⟩ := h
        have := hN N (Nat.le_refl _)
        simp [readItem, h1] at this
      | @cons _ i _ items h h' =>
        have := ih h' (fun k => hi (List.mem_cons_of_mem _ k)) fun k => hp (List.mem_cons_of_mem _ k)
        obtain ⟨N, hN⟩ := h
        have hN := hN N (Nat.le_refl _)
        simp only [readItem, h1, Option.map_some, Option.some.injEq] at hN
        cases hr : parseRule N x with
        | oof => rw [hr] at hN; cases hN
        | panic => rw [hr] at hN; cases hN; exact absurd List.mem_cons_self hp
        | ok o =>
          rw [hr] at hN
          cases o with
          | none => cases hN; exact absurd List.mem_cons_self hi
          | some r =>
            cases hN
            show n :: ds.map Prod.fst = r.name :: ruleNames items
            rw [this, rule_name hr h2]
    · cases h with
      | skip h h' => exact ih h' hi hp
      | @cons _ i _ items h h' =>
        have := ih h' (fun k => hi (List.mem_cons_of_mem _ k)) fun k => hp (List.mem_cons_of_mem _ k)
        obtain ⟨N, hN⟩ := h
        have hN := hN N (Nat.le_refl _)
        have : ruleNames (i :: items) = ruleNames items := by
          unfold readItem at hN
          split at hN
          · cases hr : parseImport N x with
            | oof => rw [hr] at hN; cases hN
            | panic => rw [hr] at hN; cases hN; rfl
            | ok o => rw [hr] at hN; cases o <;> cases hN <;> rfl
          · exact absurd ‹_› h1
          · exact absurd ‹_› h2
          · cases hN
        rw [this]
        assumption

end Pest3.Load
