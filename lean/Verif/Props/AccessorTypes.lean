import Verif.AccessorTypeLemmas
import Verif.Props.Accessors

/-!
# Property C83: the types of accessors follow from the expression

`Accesses` (`Verif/AccessorTypeSpec.lean`) says which type the accessor for a name has.
-/

namespace Pest3.Props
open Pest3 Pest3.Gen

section
variable (nm : List Name → Option Name) (x : Name)

/-- The three parts for an expression that is neither a sequence nor a choice. -/
private def alone (o : Option Shape) : Option Shape × List Shape × List Shape := (o, o.toList, (o.map Shape.optional).toList)

/-- The shapes of `Accesses`, computed: of the expression, of its items as the rest of a sequence, and of its alternatives as the rest of a choice. -/
private def computed : Expr → Option Shape × List Shape × List Shape
  | .str _ | .insens _ | .range .. | .neg _ => alone none
  | .path q | .slice q _ | .call q _ => alone (if nm q = some x then some .ref else none)
  | .pos e | .separated e _ => alone (computed e).1
  | .opt e => alone ((computed e).1.map Shape.optional)
  | .rep e | .repOnce e | .repRange e _ => alone ((computed e).1.map .vec)
  | .seq l r _ =>
    let L := (computed l).1.toList ++ (computed r).2.1
    (together L, L, ((together L).map Shape.optional).toList)
  | .choice l r =>
    let L := ((computed l).1.map Shape.optional).toList ++ (computed r).2.2
    (together L, (together L).toList, L)

private theorem computed_items {e : Expr} (h : ∀ l r t, e ≠ .seq l r t) : (computed nm x e).2.1 = (computed nm x e).1.toList := by
  cases e <;> first | rfl | exact absurd rfl (h _ _ _)

private theorem computed_alts {e : Expr} (h : ∀ l r, e ≠ .choice l r) : (computed nm x e).2.2 = ((computed nm x e).1.map Shape.optional).toList := by
  cases e <;> first | rfl | exact absurd rfl (h _ _)

variable {nm x}

private theorem computed_of {item : ShapeItem} (h : Accesses nm x item) : match item with
    | .one e o => (computed nm x e).1 = o
    | .items e l => (computed nm x e).2.1 = l
    | .alts e l => (computed nm x e).2.2 = l := by
  induction h with
  | @literal e l h => cases e <;> first | rfl | simp [Pest3.Gen.literal] at h
  | @hit e q h1 h2 => cases e <;> simp [refPath] at h1 <;> subst h1 <;> simp [computed, alone, h2]
  | @miss e q h1 h2 => cases e <;> simp [refPath] at h1 <;> subst h1 <;> simp [computed, alone, h2]
  | pos _ ih => exact ih
  | neg => rfl
  | opt _ ih => simp only at ih; simp only [computed, alone, ih]
  | @rep e e' _ _ _ h _ ih => simp only at ih; cases e <;> simp [repetition] at h <;> obtain ⟨rfl, _⟩ := h <;> simp only [computed, alone, ih]
  | separated _ ih => exact ih
  | seq _ _ ih1 ih2 => simp only at ih1 ih2; simp only [computed, ih1, ih2]
  | itemsLast hn _ ih => simp only at ih; simp only [computed_items nm x hn, ih]
  | itemsMore _ _ ih1 ih2 => simp only at ih1 ih2; simp only [computed, ih1, ih2]
  | choice _ _ ih1 ih2 => simp only at ih1 ih2; simp only [computed, ih1, ih2]
  | altsLast hn _ ih => simp only at ih; simp only [computed_alts nm x hn, ih]
  | altsMore _ _ ih1 ih2 => simp only at ih1 ih2; simp only [computed, ih1, ih2]

/-- The type of an accessor is determined by the expression of the rule. -/
theorem C83_unique {e : Expr} {o o' : Option Shape} (h : Accesses nm x (.one e o)) (h' : Accesses nm x (.one e o')) : o = o' := by
  have h1 := computed_of h
  have h2 := computed_of h'
  exact h1.symm.trans h2

private theorem computed_ok (e : Expr) : Accesses nm x (.one e (computed nm x e).1) ∧ Accesses nm x (.items e (computed nm x e).2.1) ∧ Accesses nm x (.alts e (computed nm x e).2.2) := by
  have rest : ∀ e : Expr, Accesses nm x (.one e (computed nm x e).1) → ((∀ l r t, e ≠ .seq l r t) → Accesses nm x (.items e (computed nm x e).2.1)) ∧
      ((∀ l r, e ≠ .choice l r) → Accesses nm x (.alts e (computed nm x e).2.2)) := fun e h =>
    ⟨fun hn => by rw [computed_items nm x hn]; exact .itemsLast hn h, fun hn => by rw [computed_alts nm x hn]; exact .altsLast hn h⟩
  have both : ∀ e : Expr, Accesses nm x (.one e (computed nm x e).1) → (∀ l r t, e ≠ .seq l r t) → (∀ l r, e ≠ .choice l r) →
      Accesses nm x (.one e (computed nm x e).1) ∧ Accesses nm x (.items e (computed nm x e).2.1) ∧ Accesses nm x (.alts e (computed nm x e).2.2) :=
    fun e h h1 h2 => ⟨h, (rest e h).1 h1, (rest e h).2 h2⟩
  have ref : ∀ (e : Expr) q, refPath e = some q → (computed nm x e).1 = (if nm q = some x then some .ref else none) → Accesses nm x (.one e (computed nm x e).1) := by
    intro e q h1 h2
    rw [h2]
    split
    · exact .hit h1 ‹_›
    · exact .miss h1 ‹_›
  induction e using Expr.ind with
  | seq l r t ih1 ih2 =>
    have h : Accesses nm x (.one (.seq l r t) (computed nm x (.seq l r t)).1) := .seq ih1.1 ih2.2.1
    exact ⟨h, .itemsMore ih1.1 ih2.2.1, (rest _ h).2 (by intros; simp)⟩
  | choice l r ih1 ih2 =>
    have h : Accesses nm x (.one (.choice l r) (computed nm x (.choice l r)).1) := .choice ih1.1 ih2.2.2
    exact ⟨h, (rest _ h).1 (by intros; simp), .altsMore ih1.1 ih2.2.2⟩
  | str | insens | range => exact both _ (.literal rfl) (by intros; simp) (by intros; simp)
  | path | slice | call => exact both _ (ref _ _ rfl rfl) (by intros; simp) (by intros; simp)
  | pos e ih => exact both _ (.pos ih.1) (by intros; simp) (by intros; simp)
  | neg e ih => exact both _ .neg (by intros; simp) (by intros; simp)
  | opt e ih => exact both _ (.opt ih.1) (by intros; simp) (by intros; simp)
  | rep e ih => exact both _ (.rep rfl ih.1) (by intros; simp) (by intros; simp)
  | repOnce e ih => exact both _ (.rep rfl ih.1) (by intros; simp) (by intros; simp)
  | repRange e b ih => exact both _ (.rep rfl ih.1) (by intros; simp) (by intros; simp)
  | separated e t ih => exact both _ (.separated ih.1) (by intros; simp) (by intros; simp)

/-- There is a type, or no accessor, for every expression. -/
theorem C83_total (nm : List Name → Option Name) (x : Name) (e : Expr) : ∃ o, Accesses nm x (.one e o) := ⟨_, (computed_ok e).1⟩

private theorem alone_nil {o : Option Shape} : ((alone o).2.1 = [] ↔ o = none) ∧ ((alone o).2.2 = [] ↔ o = none) := by
  cases o <;> simp [alone]

private theorem together_none {l : List Shape} : together l = none ↔ l = [] := by
  match l with
  | [] => simp [together]
  | [_] => simp [together]
  | _ :: _ :: _ => simp [together]

private theorem together_ref {l : List Shape} : together l = some .ref ↔ l = [.ref] := by
  match l with
  | [] => simp [together]
  | [_] => simp [together]
  | _ :: _ :: _ => simp [together]

private theorem computed_none (e : Expr) : ((computed nm x e).1 = none ↔ ¬ Mentions nm x e) ∧ ((computed nm x e).2.1 = [] ↔ ¬ Mentions nm x e) ∧ ((computed nm x e).2.2 = [] ↔ ¬ Mentions nm x e) := by
  have rest : ∀ (e : Expr), ((computed nm x e).1 = none ↔ ¬ Mentions nm x e) → computed nm x e = alone (computed nm x e).1 →
      ((computed nm x e).1 = none ↔ ¬ Mentions nm x e) ∧ ((computed nm x e).2.1 = [] ↔ ¬ Mentions nm x e) ∧ ((computed nm x e).2.2 = [] ↔ ¬ Mentions nm x e) := by
    intro e h h'
    exact ⟨h, by rw [h', alone_nil.1]; exact h, by rw [h', alone_nil.2]; exact h⟩
  have ref : ∀ (e : Expr) q, refPath e = some q → (computed nm x e).1 = (if nm q = some x then some .ref else none) → ((computed nm x e).1 = none ↔ ¬ Mentions nm x e) := by
    intro e q h1 h2
    rw [h2]
    split
    · exact ⟨fun h => by simp at h, fun h => absurd (.ref h1 ‹_›) h⟩
    · refine ⟨fun _ hm => ?_, fun _ => rfl⟩
      cases hm with
      | ref h3 h4 => rw [h1] at h3; injection h3 with h3; subst h3; exact absurd h4 ‹_›
      | rep h => cases e <;> simp [refPath, repetition] at h1 h
      | _ => simp [refPath] at h1
  have same : ∀ {e e' : Expr}, (Mentions nm x e ↔ Mentions nm x e') → ((computed nm x e).1 = none ↔ (computed nm x e').1 = none) → ((computed nm x e').1 = none ↔ ¬ Mentions nm x e') →
      ((computed nm x e).1 = none ↔ ¬ Mentions nm x e) := fun h1 h2 h3 => h2.trans (h3.trans (not_congr h1.symm))
  have rep : ∀ {e e' : Expr} {a b}, repetition e = some (e', a, b) → (Mentions nm x e ↔ Mentions nm x e') := by
    intro e e' a b he
    refine ⟨fun hm => ?_, .rep he⟩
    cases hm with
    | ref h => cases e <;> simp [refPath, repetition] at he h
    | rep h h' =>
      rw [he] at h
      simp only [Option.some.injEq, Prod.mk.injEq] at h
      exact h.1 ▸ h'
    | _ => simp [repetition] at he
  have lit : ∀ {e : Expr} {l}, Pest3.Gen.literal e = some l → ¬ Mentions nm x e := by
    intro e l h hm
    cases hm with
    | ref h' => cases e <;> simp [refPath, Pest3.Gen.literal] at h h'
    | rep h' => cases e <;> simp [repetition, Pest3.Gen.literal] at h h'
    | _ => simp [Pest3.Gen.literal] at h
  induction e using Expr.ind with
  | str | insens | range => exact rest _ ⟨fun _ => lit rfl, fun _ => rfl⟩ rfl
  | path | slice | call => exact rest _ (ref _ _ rfl rfl) rfl
  | pos e ih =>
    refine rest _ (same ⟨fun h => ?_, .pos⟩ Iff.rfl ih.1) rfl
    cases h with
    | ref h => simp [refPath] at h
    | rep h => simp [repetition] at h
    | pos h => exact h
  | separated e t ih =>
    refine rest _ (same ⟨fun h => ?_, .separated⟩ Iff.rfl ih.1) rfl
    cases h with
    | ref h => simp [refPath] at h
    | rep h => simp [repetition] at h
    | separated h => exact h
  | neg e ih =>
    refine rest _ ⟨fun _ h => ?_, fun _ => rfl⟩ rfl
    cases h with
    | ref h => simp [refPath] at h
    | rep h => simp [repetition] at h
  | opt e ih =>
    refine rest _ (same ⟨fun h => ?_, .opt⟩ (by simp [computed, alone]) ih.1) rfl
    cases h with
    | ref h => simp [refPath] at h
    | rep h => simp [repetition] at h
    | opt h => exact h
  | rep e ih => exact rest _ (same (rep rfl) (by simp [computed, alone]) ih.1) rfl
  | repOnce e ih => exact rest _ (same (rep rfl) (by simp [computed, alone]) ih.1) rfl
  | repRange e b ih => exact rest _ (same (rep rfl) (by simp [computed, alone]) ih.1) rfl
  | seq l r t ih1 ih2 =>
    have hm : ¬ Mentions nm x (.seq l r t) ↔ ¬ Mentions nm x l ∧ ¬ Mentions nm x r := by
      rw [← not_or]
      refine not_congr ⟨fun h => ?_, fun h => h.elim .seqL .seqR⟩
      cases h with
      | ref h => simp [refPath] at h
      | rep h => simp [repetition] at h
      | seqL h => exact .inl h
      | seqR h => exact .inr h
    have hL : ((computed nm x l).1.toList ++ (computed nm x r).2.1 = []) ↔ ¬ Mentions nm x (.seq l r t) := by
      rw [List.append_eq_nil_iff, hm, ← ih1.1, ← ih2.2.1]
      cases (computed nm x l).1 <;> simp
    simp only [computed, together_none, hL, true_and]
    rw [← hL]
    cases hc : together ((computed nm x l).1.toList ++ (computed nm x r).2.1) with
    | none => simp [together_none.mp hc]
    | some s =>
      refine ⟨fun h => by simp at h, fun h => ?_⟩
      rw [together_none.mpr h] at hc; cases hc
  | choice l r ih1 ih2 =>
    have hm : ¬ Mentions nm x (.choice l r) ↔ ¬ Mentions nm x l ∧ ¬ Mentions nm x r := by
      rw [← not_or]
      refine not_congr ⟨fun h => ?_, fun h => h.elim .choiceL .choiceR⟩
      cases h with
      | ref h => simp [refPath] at h
      | rep h => simp [repetition] at h
      | choiceL h => exact .inl h
      | choiceR h => exact .inr h
    have hL : (((computed nm x l).1.map Shape.optional).toList ++ (computed nm x r).2.2 = []) ↔ ¬ Mentions nm x (.choice l r) := by
      rw [List.append_eq_nil_iff, hm, ← ih1.1, ← ih2.2.2]
      cases (computed nm x l).1 <;> simp
    simp only [computed, together_none, hL, true_and, and_true]
    rw [← hL]
    cases hc : together (((computed nm x l).1.map Shape.optional).toList ++ (computed nm x r).2.2) with
    | none => simp [together_none.mp hc]
    | some s =>
      refine ⟨fun h => by simp at h, fun h => ?_⟩
      rw [together_none.mpr h] at hc; cases hc

/-- There is no accessor exactly if there is no reference. -/
theorem C83_none {e : Expr} : Accesses nm x (.one e none) ↔ ¬ Mentions nm x e := by
  rw [← (computed_none e).1]
  exact ⟨fun h => computed_of h, fun h => h ▸ (computed_ok e).1⟩

private theorem optional_opt (s : Shape) : ∃ s', s.optional = .opt s' := by cases s <;> exact ⟨_, rfl⟩

private theorem alts_opt (e : Expr) : ∀ s ∈ (computed nm x e).2.2, ∃ s', s = .opt s' := by
  have toL : ∀ (o : Option Shape), ∀ s ∈ (o.map Shape.optional).toList, ∃ s', s = .opt s' := by
    intro o s hs
    cases o with
    | none => simp at hs
    | some a => simp at hs; subst hs; exact optional_opt a
  induction e using Expr.ind with
  | choice l r _ ih =>
    intro s hs
    simp only [computed, List.mem_append] at hs
    exact hs.elim (toL _ s) (ih s)
  | str | insens | range | neg => exact toL none
  | _ => exact toL _

private theorem computed_ref (e : Expr) : ((computed nm x e).1 = some .ref ↔ Always nm x e) ∧ ((computed nm x e).2.1 = [.ref] ↔ Always nm x e) := by
  have rest : ∀ (e : Expr), ((computed nm x e).1 = some .ref ↔ Always nm x e) → (computed nm x e).2.1 = (computed nm x e).1.toList →
      ((computed nm x e).1 = some .ref ↔ Always nm x e) ∧ ((computed nm x e).2.1 = [.ref] ↔ Always nm x e) := by
    intro e h h'
    refine ⟨h, ?_⟩
    rw [h', ← h]
    cases (computed nm x e).1 <;> simp
  have ref : ∀ (e : Expr) q, refPath e = some q → (computed nm x e).1 = (if nm q = some x then some .ref else none) → ((computed nm x e).1 = some .ref ↔ Always nm x e) := by
    intro e q h1 h2
    rw [h2]
    split
    · exact ⟨fun _ => .ref h1 ‹_›, fun _ => rfl⟩
    · refine ⟨fun h => by simp at h, fun hm => ?_⟩
      cases hm with
      | ref h3 h4 => rw [h1] at h3; injection h3 with h3; subst h3; exact absurd h4 ‹_›
      | _ => simp [refPath] at h1
  have never : ∀ (e : Expr), (computed nm x e).1 ≠ some .ref → ¬ Always nm x e → ((computed nm x e).1 = some .ref ↔ Always nm x e) := fun e h1 h2 =>
    ⟨fun h => absurd h h1, fun h => absurd h h2⟩
  have vec : ∀ o : Option Shape, o.map Shape.vec ≠ some .ref := by intro o; cases o <;> simp
  have opt : ∀ o : Option Shape, o.map Shape.optional ≠ some .ref := by
    intro o
    cases o with
    | none => simp
    | some s => obtain ⟨s', h⟩ := optional_opt s; simp [h]
  induction e using Expr.ind with
  | str | insens | range => exact rest _ (never _ (by simp [computed, alone]) (fun h => by cases h; simp [refPath] at *)) rfl
  | path | slice | call => exact rest _ (ref _ _ rfl rfl) rfl
  | pos e ih =>
    refine rest _ ⟨fun h => .pos (ih.1.mp h), fun h => ?_⟩ rfl
    cases h with
    | ref h => simp [refPath] at h
    | pos h => exact ih.1.mpr h
  | separated e t ih =>
    refine rest _ ⟨fun h => .separated (ih.1.mp h), fun h => ?_⟩ rfl
    cases h with
    | ref h => simp [refPath] at h
    | separated h => exact ih.1.mpr h
  | neg e ih => exact rest _ (never _ (by simp [computed, alone]) (fun h => by cases h; simp [refPath] at *)) rfl
  | opt e ih => exact rest _ (never _ (opt _) (fun h => by cases h; simp [refPath] at *)) rfl
  | rep e ih => exact rest _ (never _ (vec _) (fun h => by cases h; simp [refPath] at *)) rfl
  | repOnce e ih => exact rest _ (never _ (vec _) (fun h => by cases h; simp [refPath] at *)) rfl
  | repRange e b ih => exact rest _ (never _ (vec _) (fun h => by cases h; simp [refPath] at *)) rfl
  | choice l r _ _ =>
    refine rest _ (never _ (fun h => ?_) (fun h => by cases h; simp [refPath] at *)) rfl
    simp only [computed, together_ref] at h
    have h2 := alts_opt (nm := nm) (x := x) (.choice l r) .ref (by simp only [computed]; rw [h]; simp)
    obtain ⟨s', h2⟩ := h2
    cases h2
  | seq l r t ih1 ih2 =>
    have n1 := computed_none (nm := nm) (x := x) l
    have n2 := computed_none (nm := nm) (x := x) r
    have key : ((computed nm x l).1.toList ++ (computed nm x r).2.1 = [.ref]) ↔ Always nm x (.seq l r t) := by
      constructor
      · intro h
        cases ho : (computed nm x l).1 with
        | none =>
          rw [ho] at h
          exact .seqR (n1.1.mp ho) (ih2.2.mp h)
        | some s =>
          rw [ho] at h
          simp only [Option.toList, List.cons_append, List.nil_append, List.cons.injEq] at h
          exact .seqL (ih1.1.mp (by rw [ho, h.1])) (n2.2.1.mp h.2)
      · intro h
        cases h with
        | ref h => simp [refPath] at h
        | seqL h1 h2 => rw [ih1.1.mpr h1, n2.2.1.mpr h2]; rfl
        | seqR h1 h2 => rw [n1.1.mpr h1, ih2.2.mpr h2]; rfl
    exact ⟨by simp only [computed, together_ref]; exact key, key⟩

/-- An accessor returns a plain reference exactly if the reference is written once and is not optional. -/
theorem C83_plain {e : Expr} : Accesses nm x (.one e (some .ref)) ↔ Always nm x e := by
  rw [← (computed_ref e).1]
  exact ⟨fun h => computed_of h, fun h => h ▸ (computed_ok e).1⟩

private theorem neatAll_append {l l' : List Shape} : NeatAll (l ++ l') ↔ NeatAll l ∧ NeatAll l' := by
  induction l with
  | nil => simp [NeatAll]
  | cons s l ih => simp [NeatAll, ih, and_assoc]

private theorem neat_together {l : List Shape} (h : NeatAll l) {s : Shape} (hs : together l = some s) : s.Neat := by
  match l with
  | [] => simp [together] at hs
  | [a] => simp only [together, Option.some.injEq] at hs; subst hs; exact h.1
  | a :: b :: l => simp only [together, Option.some.injEq] at hs; subst hs; exact ⟨by simp, h⟩

private theorem neat_optional {s : Shape} (h : s.Neat) : s.optional.Neat := by
  cases s with
  | opt s => exact h
  | _ => exact ⟨by intro _; simp, h⟩

/-- In the type of an accessor no option is directly in an option, and all tuples have at least two components. -/
theorem C83_neat {e : Expr} {s : Shape} (h : Accesses nm x (.one e (some s))) : s.Neat := by
  have toL : ∀ {o : Option Shape}, (∀ s, o = some s → s.Neat) → NeatAll o.toList := by
    intro o h
    cases o with
    | none => trivial
    | some s => exact ⟨h s rfl, trivial⟩
  have optL : ∀ {o : Option Shape}, (∀ s, o = some s → s.Neat) → ∀ s, o.map Shape.optional = some s → s.Neat := by
    intro o h s hs
    obtain ⟨a, ha, rfl⟩ := Option.map_eq_some_iff.mp hs
    exact neat_optional (h a ha)
  have main : ∀ {item}, Accesses nm x item → match item with
      | .one _ o => ∀ s, o = some s → s.Neat
      | .items _ l => NeatAll l
      | .alts _ l => NeatAll l := by
    intro item h
    induction h with
    | literal => exact fun s h => by cases h
    | hit => exact fun s h => by cases h; trivial
    | miss => exact fun s h => by cases h
    | pos _ ih => exact ih
    | neg => exact fun s h => by cases h
    | opt _ ih => exact optL ih
    | rep _ _ ih =>
      intro s hs
      obtain ⟨a, ha, rfl⟩ := Option.map_eq_some_iff.mp hs
      exact ih a ha
    | separated _ ih => exact ih
    | seq _ _ ih1 ih2 => exact fun s hs => neat_together (neatAll_append.mpr ⟨toL ih1, ih2⟩) hs
    | itemsLast _ _ ih => exact toL ih
    | itemsMore _ _ ih1 ih2 => exact neatAll_append.mpr ⟨toL ih1, ih2⟩
    | choice _ _ ih1 ih2 => exact fun s hs => neat_together (neatAll_append.mpr ⟨toL (optL ih1), ih2⟩) hs
    | altsLast _ _ ih => exact toL (optL ih)
    | altsMore _ _ ih1 ih2 => exact neatAll_append.mpr ⟨toL (optL ih1), ih2⟩
  exact main h s rfl

end

section
variable {cfg : Config} {names : List Name} {table : Name → Char → Bool} {m m' : Module} {out : Output} {st : GenSt}
  {R : Layout} {env : Env}

/-- The struct generated for a rule, with what is shown about its accessors here and for C53. -/
private theorem struct_both (h : generateModule cfg names m = .ok (out, st)) (hn : AllNamed (unicodeOf names table) m)
    (hg : cfg.noGetter = false) {p : List Name} (hm : modAt m p = some m') {r : Rule} (hr : r ∈ m'.rules)
    (ho : r.name ≠ optName) (hm' : r.name ≠ manName) :
    ∃ o s, outAt out p = some o ∧ s ∈ o.content ∧ s.name = r.name ∧ s.args = r.args ∧
      Gen.Good (refName (unicodeOf names table) m p r.args) r.node (s.inner, s.getter) ∧
      ShapeOk (refName (unicodeOf names table) m p r.args) r.node (s.inner, s.getter) := by
  unfold generateModule at h
  obtain ⟨⟨⟨out', sys⟩, st'⟩, h1, h⟩ := andThen_ok.mp h
  simp only [Res.ok.injEq, Prod.mk.injEq] at h
  obtain ⟨rfl, rfl⟩ := h
  obtain ⟨o, sys1, st1, st2, ho', hgm, hpre, hw1, hin⟩ := genMod_at p (processModule_gen m _ _ _ _ h1) WfSt.new hm
  have hnamed : AllNamed (unicodeOf names table) m' := fun m'' h => hn m'' (h.mono hin)
  obtain ⟨hp, hnode⟩ := resolve_ok (table := table) hgm hnamed
  cases hgm with
  | @mk rules imports outs sys2 _ reach content opt man _ stx _ a1 a2 a3 a4 =>
    obtain ⟨_, i2, _⟩ := genRules_struct (processRuleList_gen _ _ _ _ _ a4) (genMod_wf a1 hw1)
    obtain ⟨s, hs, e1, e2, e3, g, sta, stb, hgen, _, _, e4⟩ := i2 r hr ho hm'
    refine ⟨_, s, ho', hs, e1, e2, ?_⟩
    rw [hg, if_neg (by simp)] at e4
    rw [e4]
    refine ⟨gen_good (item := .one r.node (s.inner, g)) (fun x hx => refName_param hx) (fun q args res hq hres => ?_) hgen,
      gen_shape (item := .one r.node (s.inner, g)) (fun x hx => refName_param hx) (fun q args res hq hres => ?_) hgen⟩ <;>
    · rw [refName_target hq]
      exact resolve_getter hp hnode hm hres

/-- The types of the accessors of a struct are those that follow from the expression of the rule: an accessor has the type, and what has a type has an accessor. -/
theorem C83_type (h : generateModule cfg names m = .ok (out, st)) (hn : AllNamed (unicodeOf names table) m)
    (hg : cfg.noGetter = false) {p : List Name} (hm : modAt m p = some m') {r : Rule} (hr : r ∈ m'.rules)
    (ho : r.name ≠ optName) (hm' : r.name ≠ manName) :
    ∃ o s, outAt out p = some o ∧ s ∈ o.content ∧ s.name = r.name ∧ s.args = r.args ∧
      (∀ x n, (x, n) ∈ s.getter → Accesses (refName (unicodeOf names table) m p r.args) x (.one r.node (some n.declared.shape))) ∧
      ∀ x sh, Accesses (refName (unicodeOf names table) m p r.args) x (.one r.node (some sh)) → ∃ n, (x, n) ∈ s.getter ∧ n.declared.shape = sh := by
  obtain ⟨o, s, h1, h2, h3, h4, -, hnd, hsh⟩ := struct_both h hn hg hm hr ho hm'
  refine ⟨o, s, h1, h2, h3, h4, fun x n hx => ?_, fun x sh hx => ?_⟩
  · have := hsh x
    rw [(find_mem hnd).mpr hx] at this
    exact this
  · have h2 := C83_unique (hsh x) hx
    obtain ⟨n, h3, h4⟩ := Option.map_eq_some_iff.mp h2
    exact ⟨n, (find_mem hnd).mp h3, h4⟩

/-- What an accessor returns for a match has the shape of the type; so the type bounds the number of references that were matched. -/
theorem C83_value (h : generateModule cfg names m = .ok (out, st)) (hn : AllNamed (unicodeOf names table) m)
    (hl : Linked (unicodeOf names table) out st.wrappers R env)
    (hg : cfg.noGetter = false) {p : List Name} (hm : modAt m p = some m') {r : Rule}
    (hr : findRule m'.rules r.name = some r) (ho : r.name ≠ optName) (hm' : r.name ≠ manName)
    {clos : List Clo} {ts : List CTy} (hts : ts.length = r.args.length) (hrel : CRel (unicodeOf names table) m (.env (r.args.zip clos) (r.args.zip ts)))
    {inp : Str} {c : Cfg} {ss : List Span} {c' : Cfg} {ss' : List Span} {id : RuleId} {t : Tree} {span : Span}
    (hb : Builds env inp (.node (.rule (R.num p r.name ts))) c ss c' ss' [.rule id t span]) {x : Name} {sh : Shape}
    (hx : Accesses (refName (unicodeOf names table) m p r.args) x (.one r.node (some sh))) :
    ∃ o s n v L, outAt out p = some o ∧ s ∈ o.content ∧ s.name = r.name ∧ (x, n) ∈ s.getter ∧ n.eval t = some v ∧ v.Has sh ∧
      Finds (unicodeOf names table) m p (r.args.zip clos) x (.expr r.node) c c' L ∧ v.refs.length = L.length ∧ sh.least ≤ L.length ∧ ∀ k, sh.most = some k → L.length ≤ k := by
  obtain ⟨hc, hrule⟩ := compiled_of h hn hl
  obtain ⟨o, s, h1, h2, h3, h4, ⟨h5, h6⟩, -, hsh⟩ := struct_both h hn hg hm (findRule_mem hr).1 ho hm'
  obtain ⟨n, hf, hd⟩ := Option.map_eq_some_iff.mp (C83_unique (hsh x) hx)
  obtain ⟨_, ty, hbody, hcomp⟩ := hrule p m' r ts hm hr ho hm' hts
  cases hb with
  | rule hb =>
    rw [hbody] at hb
    obtain ⟨L, f, oc, a⟩ := comp_track (x := x) hc hrel hcomp hb
    have hfst : (r.args.zip clos).map Prod.fst = r.args := by
      have hl2 : (r.args.zip clos).length = (r.args.zip ts).length := by
        clear f oc a hcomp hbody hb
        generalize r.args.zip clos = A at hrel
        generalize r.args.zip ts = B at hrel
        induction A generalizing B with
        | nil => cases hrel; rfl
        | cons a A ih => cases hrel with | cons _ h => simp [ih _ h]
      rw [List.map_fst_zip]
      simp only [List.length_zip] at hl2
      omega
    rw [hfst] at oc
    have hfit := h6 x
    rw [hf] at hfit
    obtain ⟨v, hv, hrefs⟩ := hfit.2.2 _ _ oc
    have hhas : v.Has sh := hd ▸ eval_has _ _ _ _ _ hfit.2.1 hv
    have hlen : v.refs.length = (L.map Prod.fst).length := by rw [hrefs]; simp
    exact ⟨o, s, n, v, L.map Prod.fst, h1, h2, h3, (find_mem h5).mp hf, hv, hhas, f, hlen, hlen ▸ least_le hhas, fun k hk => hlen ▸ le_most hhas k hk⟩

end

/-! ### Examples -/

/-- `x = "b" - y`. -/
def plainRule : Rule := ⟨['x'], [], .seq (.str ['b']) (.path [['y']]) .none, false⟩
/-- With `y = "c"`. -/
def plainMod : Module := .mk [plainRule, ⟨['y'], [], .str ['c'], false⟩] []

theorem plainMod_named (u : Unicode) : AllNamed u plainMod := by
  intro m' h
  cases h with
  | refl =>
    refine ⟨by decide, by decide, by simp [plainMod, Module.imports], by simp [plainMod, Module.imports], ?_, ?_⟩ <;>
      simp only [plainMod, plainRule, Module.rules, List.mem_cons, List.not_mem_nil, or_false, forall_eq_or_imp, forall_eq]
    · decide
    · simp [ParamsPlain]
  | step h1 _ => simp [plainMod, Module.imports] at h1

-- `x = (y - z?)* - (y | z)`: `y()` returns `(Vec<&y>, Option<&y>)`, `z()` returns `(Vec<Option<&z>>, Option<&z>)`
example (nm : List Name → Option Name) (hy : nm [['y']] = some ['y']) (hz : nm [['z']] = some ['z']) :
    Accesses nm ['y'] (.one accRule.node (some (.tuple [.vec .ref, .opt .ref]))) ∧
    Accesses nm ['z'] (.one accRule.node (some (.tuple [.vec (.opt .ref), .opt .ref]))) := by
  constructor
  · exact .seq (o := some (.vec .ref)) (L := [.opt .ref])
      (.rep (o := some .ref) rfl (.seq (o := some .ref) (L := []) (.hit rfl hy) (.itemsLast (o := none) (by simp) (.opt (o := none) (.miss rfl (by rw [hz]; decide))))))
      (.itemsLast (o := some (.opt .ref)) (by simp)
        (.choice (o := some .ref) (L := []) (.hit rfl hy) (.altsLast (o := none) (by simp) (.miss rfl (by rw [hz]; decide)))))
  · exact .seq (o := some (.vec (.opt .ref))) (L := [.opt .ref])
      (.rep (o := some (.opt .ref)) rfl (.seq (o := none) (L := [.opt .ref]) (.miss rfl (by rw [hy]; decide)) (.itemsLast (o := some (.opt .ref)) (by simp) (.opt (o := some .ref) (.hit rfl hz)))))
      (.itemsLast (o := some (.opt .ref)) (by simp)
        (.choice (o := none) (L := [.opt .ref]) (.miss rfl (by rw [hy]; decide)) (.altsLast (o := some .ref) (by simp) (.hit rfl hz))))

-- the generated struct has these types
example : ∃ (s : RuleStruct) (n : GNode), s.name = ['x'] ∧ (['z'], n) ∈ s.getter ∧ n.declared.shape = .tuple [.vec (.opt .ref), .opt .ref] := by
  obtain ⟨out, st, hgen⟩ : ∃ out st, generateModule ⟨true, false, none⟩ [] accMod = .ok (out, st) := ⟨_, _, rfl⟩
  obtain ⟨o, s, _, _, h3, _, _, h6⟩ := C83_type (table := fun _ _ => false) hgen (accMod_named _) rfl (p := []) rfl
    (r := accRule) List.mem_cons_self (by decide) (by decide)
  obtain ⟨n, h7, h8⟩ := h6 ['z'] (.tuple [.vec (.opt .ref), .opt .ref])
    (.seq (o := some (.vec (.opt .ref))) (L := [.opt .ref])
      (.rep (o := some (.opt .ref)) rfl (.seq (o := none) (L := [.opt .ref]) (.miss (q := [['y']]) rfl (by decide)) (.itemsLast (o := some (.opt .ref)) (by simp) (.opt (o := some .ref) (.hit (q := [['z']]) rfl rfl)))))
      (.itemsLast (o := some (.opt .ref)) (by simp)
        (.choice (o := none) (L := [.opt .ref]) (.miss (q := [['y']]) rfl (by decide)) (.altsLast (o := some .ref) (by simp) (.hit (q := [['z']]) rfl rfl)))))
  exact ⟨s, n, h3, h7, h8⟩

-- for all matches of `"b" - y` the accessor `y()` returns one reference
example : ∃ out st R env, generateModule ⟨true, false, none⟩ [] plainMod = .ok (out, st) ∧ Linked (unicodeOf [] fun _ _ => false) out st.wrappers R env ∧
    ∀ inp c ss c' ss' id t span, Builds env inp (.node (.rule (R.num [] ['x'] []))) c ss c' ss' [.rule id t span] →
      ∃ (o : Output) (s : RuleStruct) (n : GNode) (v : AVal), outAt out [] = some o ∧ s ∈ o.content ∧ s.name = ['x'] ∧ (['y'], n) ∈ s.getter ∧ n.eval t = some v ∧ v.refs.length = 1 := by
  obtain ⟨out, st, hgen⟩ : ∃ out st, generateModule ⟨true, false, none⟩ [] plainMod = .ok (out, st) := ⟨_, _, rfl⟩
  obtain ⟨R, env, hl⟩ := C52_exists (unicodeOf [] fun _ _ => false) hgen
    (fun m' h => (plainMod_named (unicodeOf [] fun _ _ => false) m' h).rules) fun m' h => by
      cases h with
      | step h1 _ => simp [plainMod, Module.imports] at h1
      | refl =>
        refine ⟨?_, ?_, .inl ?_⟩ <;>
          simp only [plainMod, plainRule, Module.rules, List.mem_cons, List.not_mem_nil, or_false, forall_eq_or_imp, forall_eq] <;>
          exact ⟨fun h => absurd h (by decide), fun h => absurd h (by decide)⟩
  refine ⟨out, st, R, env, hgen, hl, fun inp c ss c' ss' id t span hb => ?_⟩
  have hx : Accesses (refName (unicodeOf [] fun _ _ => false) plainMod [] []) ['y'] (.one plainRule.node (some .ref)) := by
    refine C83_plain.mpr (.seqR (fun h => ?_) (.ref (q := [['y']]) rfl rfl))
    cases h with
    | ref h => simp [refPath] at h
    | rep h => simp [repetition] at h
  obtain ⟨o, s, n, v, L, h1, h2, h3, h4, h5, h6, _, h7, h8, h9⟩ := C83_value (table := fun _ _ => false) (clos := []) hgen (plainMod_named _) hl rfl (p := []) rfl (r := plainRule) rfl (by decide) (by decide) rfl .nil hb hx
  have := h9 1 rfl
  have h8' : 1 ≤ L.length := h8
  exact ⟨o, s, n, v, h1, h2, h3, h4, h5, by omega⟩

-- an option of an option is one option: `(y?)?`, `y? | z`
example (nm : List Name → Option Name) (hy : nm [['y']] = some ['y']) :
    Accesses nm ['y'] (.one (.opt (.opt (.path [['y']]))) (some (.opt .ref))) :=
  .opt (o := some (.opt .ref)) (.opt (o := some .ref) (.hit rfl hy))

-- `&T`: exactly one reference was matched; `Option<&T>`: at most one
example : Shape.ref.least = 1 ∧ Shape.ref.most = some 1 ∧ (Shape.opt .ref).least = 0 ∧ (Shape.opt .ref).most = some 1 := ⟨rfl, rfl, rfl, rfl⟩

-- `"b" - y - z*`: `y` is plain
example (nm : List Name → Option Name) (hy : nm [['y']] = some ['y']) (hz : nm [['z']] = some ['z']) :
    Accesses nm ['y'] (.one (.seq (.str ['b']) (.seq (.path [['y']]) (.rep (.path [['z']])) .none) .none) (some .ref)) := by
  refine C83_plain.mpr (.seqR (fun h => ?_) (.seqL (.ref rfl hy) (fun h => ?_)))
  · cases h with
    | ref h => simp [refPath] at h
    | rep h => simp [repetition] at h
  · cases h with
    | ref h => simp [refPath] at h
    | rep h h' =>
      simp only [repetition, Option.some.injEq, Prod.mk.injEq] at h
      rw [← h.1] at h'
      cases h' with
      | ref h1 h2 =>
        simp only [refPath, Option.some.injEq] at h1
        subst h1
        rw [hz] at h2
        exact absurd h2 (by decide)
      | rep h => simp [repetition] at h

end Pest3.Props
