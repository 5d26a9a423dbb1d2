import Verif.DocComments

/-!
# Pairs with documentation
-/

namespace Pest3.Load
open Pest3 Pest3.Gen
open Pest3.Meta (MetaRule)

/-- The pairs of lines of documentation. -/
inductive DocTrees (k : MetaRule) (sign : Text) : List Text → List PTree → Prop where
  | nil : DocTrees k sign [] []
  | cons {t us ls ts} : DocTrees k sign ls ts → DocTrees k sign (t :: ls) (.node k (sign ++ t) us :: ts)

theorem DocTrees.rules {k : MetaRule} {sign : Text} {ls : List Text} {ts : List PTree} (h : DocTrees k sign ls ts) : ∀ t ∈ ts, PTree.rule t = k := by
  induction h with
  | nil => simp
  | cons _ ih => simpa [PTree.rule] using ih

theorem parseDoc_eq {k : MetaRule} {sign t : Text} {us : List PTree} (hs : utf8Len sign = 3) : parseDoc (.node k (sign ++ t) us) = .ok (trim t) := by
  unfold parseDoc
  have : getFrom (PTree.node k (sign ++ t) us).text 3 = some t := by
    rw [← hs]
    exact getFrom_append sign t
  rw [this]

theorem takeDocs_eq {sign : Text} {ls : List Text} {ts rest : List PTree} (hs : utf8Len sign = 3) (h : DocTrees .ruleDoc sign ls ts)
    (hr : ∀ t ∈ rest.head?, PTree.rule t ≠ .ruleDoc) : takeDocs (ts ++ rest) = .ok (ls.map trim) ∧ dropDocs (ts ++ rest) = rest := by
  induction h with
  | nil =>
    cases rest with
    | nil => exact ⟨rfl, rfl⟩
    | cons t rest =>
      have := hr t rfl
      simp [takeDocs, dropDocs, this]
  | cons h ih =>
    obtain ⟨h1, h2⟩ := ih
    constructor
    · rw [List.cons_append, takeDocs, if_pos (by rfl), parseDoc_eq hs, h1]
      rfl
    · rw [List.cons_append, dropDocs, if_pos (by rfl), h2]

/-- The documentation of a pair: that of a rule, or none. -/
def HasDocs (x : PTree) (d : List (Name × List Text)) : Prop :=
  (∃ n ls, d = [(n, ls)] ∧ x.rule = .grammarRule ∧ ruleDocs x = .ok (n, ls.map trim)) ∨ d = [] ∧ x.rule ≠ .grammarRule ∧ x.rule ≠ .grammarDoc

/-- The documentation of the pairs of imports and rules. -/
inductive RuleTrees : List (Name × List Text) → List PTree → Prop where
  | nil : RuleTrees [] []
  | cons {x d ds ts} : HasDocs x d → RuleTrees ds ts → RuleTrees (d ++ ds) (x :: ts)

theorem RuleTrees.append {d e : List (Name × List Text)} {ts us : List PTree} (h : RuleTrees d ts) (k : RuleTrees e us) :
    RuleTrees (d ++ e) (ts ++ us) := by
  induction h with
  | nil => exact k
  | cons h _ ih => rw [List.append_assoc]; exact .cons h ih

/-- What the lines of documentation become. -/
def trimDocs (d : List (Name × List Text)) : List (Name × List Text) := d.map fun r => (r.1, r.2.map trim)

theorem collect_rules {d : List (Name × List Text)} {ts rest : List PTree} (h : RuleTrees d ts) (m : ModDocs) :
    collectDocs (ts ++ rest) m = collectDocs rest { m with rules := m.rules ++ trimDocs d } := by
  induction h generalizing m with
  | nil => simp [trimDocs]
  | cons hx _ ih =>
    rw [List.cons_append, collectDocs.eq_def]
    rcases hx with ⟨n, ls, rfl, h1, h2⟩ | ⟨rfl, h1, h2⟩
    · simp only [h1, h2, andThen, ih, trimDocs, List.map_append, List.map_cons, List.map_nil, List.append_assoc]
    · simp only [ih, List.nil_append]

theorem collect_top {sign : Text} {ls : List Text} {ts rest : List PTree} (hs : utf8Len sign = 3) (h : DocTrees .grammarDoc sign ls ts) (m : ModDocs) :
    collectDocs (ts ++ rest) m = collectDocs rest { m with top := m.top ++ ls.map trim } := by
  induction h generalizing m with
  | nil => simp
  | cons _ ih =>
    rw [List.cons_append, collectDocs.eq_def]
    simp only [PTree.rule, parseDoc_eq hs, andThen, ih, List.map_cons, List.append_assoc, List.singleton_append]

end Pest3.Load
