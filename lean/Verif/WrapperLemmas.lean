import Verif.CodegenLemmas
import Verif.SnippetLemmas

namespace Pest3.Gen
open Pest3

theorem showNat_inj {a b : Nat} (h : showNat a = showNat b) : a = b := by
  rw [showNat_eq, showNat_eq] at h
  have := congrArg (fun l => Nat.ofDigitChars 10 l 0) h
  simpa [Nat.ofDigitChars_toDigits] using this

theorem wrapperName_inj {a b : Nat} (h : wrapperName a = wrapperName b) : a = b := by
  simp only [wrapperName, List.cons.injEq, true_and] at h; exact showNat_inj h

/-- The two tables of the tracker agree. -/
structure WfSt (st : GenSt) : Prop where
  index : st.counter.map Prod.snd = (List.range st.counter.length).reverse
  keys : (st.counter.map Prod.fst).Nodup
  emitted : st.wrappers = (st.counter.map fun c => (wrapperName c.2, c.1)).reverse

theorem WfSt.new : WfSt GenSt.new := ⟨rfl, List.nodup_nil, rfl⟩

theorem lookupWrapper_none {s : Text} {l : List (Text × Nat)} : lookupWrapper s l = none ↔ s ∉ l.map Prod.fst := by
  induction l with
  | nil => simp [lookupWrapper]
  | cons a l ih =>
    obtain ⟨t, i⟩ := a
    simp only [lookupWrapper, List.map_cons, List.mem_cons, not_or]
    by_cases h : t = s
    · simp [h]
    · rw [if_neg h, ih]; exact ⟨fun h' => ⟨fun e => h e.symm, h'⟩, fun h' => h'.2⟩

theorem lookupWrapper_mem {s : Text} {i : Nat} {l : List (Text × Nat)} (h : lookupWrapper s l = some i) :
    (s, i) ∈ l := by
  induction l with
  | nil => simp [lookupWrapper] at h
  | cons a l ih =>
    obtain ⟨t, j⟩ := a
    simp only [lookupWrapper] at h
    split at h
    · rename_i e; simp only [Option.some.injEq] at h; subst e h; exact List.mem_cons_self
    · exact List.mem_cons_of_mem _ (ih h)

theorem WfSt.insertString {st : GenSt} (h : WfSt st) (s : Text) : WfSt (st.insertString s).2 := by
  unfold GenSt.insertString
  cases hl : lookupWrapper s st.counter with
  | some i => exact h
  | none =>
    refine ⟨?_, ?_, ?_⟩
    · simp only [List.map_cons, List.length_cons, List.range_succ, List.reverse_append, List.reverse_cons,
        List.reverse_nil, List.nil_append, List.cons_append, h.index]
    · simp only [List.map_cons, List.nodup_cons]
      exact ⟨lookupWrapper_none.mp hl, h.keys⟩
    · simp only [List.map_cons, List.reverse_cons, h.emitted]

theorem insertString_mem {st : GenSt} (h : WfSt st) (s : Text) :
    ((st.insertString s).1, s) ∈ (st.insertString s).2.wrappers := by
  unfold GenSt.insertString
  cases hl : lookupWrapper s st.counter with
  | some i =>
    dsimp only
    rw [h.emitted, List.mem_reverse]
    exact List.mem_map.mpr ⟨(s, i), lookupWrapper_mem hl, rfl⟩
  | none => dsimp only; simp

theorem insertString_prefix (st : GenSt) (s : Text) : st.wrappers <+: (st.insertString s).2.wrappers := by
  unfold GenSt.insertString
  cases hl : lookupWrapper s st.counter with
  | some i => exact List.prefix_refl _
  | none => exact List.prefix_append _ _

theorem insertString_only (st : GenSt) (s : Text) : ∀ w ∈ (st.insertString s).2.wrappers, w ∈ st.wrappers ∨ w.2 = s := by
  unfold GenSt.insertString
  cases hl : lookupWrapper s st.counter with
  | some i => exact fun w hw => .inl hw
  | none =>
    intro w hw
    simp only [List.mem_append, List.mem_singleton] at hw
    exact hw.imp id (fun e => by rw [e])

theorem nodup_rev {α : Type} {l : List α} : l.reverse.Nodup ↔ l.Nodup := by
  rw [List.nodup_iff_pairwise_ne, List.nodup_iff_pairwise_ne, List.pairwise_reverse]
  exact ⟨fun h => h.imp fun h e => h e.symm, fun h => h.imp fun h e => h e.symm⟩

theorem WfSt.index_nodup {st : GenSt} (h : WfSt st) : (st.counter.map Prod.snd).Nodup := by
  rw [h.index, nodup_rev]; exact List.nodup_range

theorem WfSt.names_nodup {st : GenSt} (h : WfSt st) : (st.wrappers.map Prod.fst).Nodup := by
  rw [h.emitted, List.map_reverse, nodup_rev, List.map_map]
  have := h.index_nodup
  rw [List.nodup_iff_pairwise_ne, List.pairwise_map] at this ⊢
  exact this.imp fun hne e => hne (wrapperName_inj e)

theorem WfSt.contents_nodup {st : GenSt} (h : WfSt st) : (st.wrappers.map Prod.snd).Nodup := by
  rw [h.emitted, List.map_reverse, nodup_rev, List.map_map]
  exact h.keys

theorem eq_of_nodup_map {α β : Type} {f : α → β} {l : List α} (h : (l.map f).Nodup) {a b : α} (ha : a ∈ l)
    (hb : b ∈ l) (e : f a = f b) : a = b := by
  induction l with
  | nil => simp at ha
  | cons c l ih =>
    simp only [List.map_cons, List.nodup_cons] at h
    rcases List.mem_cons.mp ha with h1 | h1 <;> rcases List.mem_cons.mp hb with h2 | h2
    · rw [h1, h2]
    · exact absurd (List.mem_map.mpr ⟨b, h2, by rw [← e, h1]⟩) h.1
    · exact absurd (List.mem_map.mpr ⟨a, h1, by rw [e, h2]⟩) h.1
    · exact ih h.2 h1 h2

/-- A wrapper name stands for one text. -/
theorem WfSt.content_unique {st : GenSt} (h : WfSt st) {w : Name} {s s' : Text} (h1 : (w, s) ∈ st.wrappers)
    (h2 : (w, s') ∈ st.wrappers) : s = s' := by
  have := eq_of_nodup_map h.names_nodup h1 h2 rfl
  simp only [Prod.mk.injEq, true_and] at this; exact this

theorem WfSt.name_unique {st : GenSt} (h : WfSt st) {w w' : Name} {s : Text} (h1 : (w, s) ∈ st.wrappers)
    (h2 : (w', s) ∈ st.wrappers) : w = w' := by
  have := eq_of_nodup_map h.contents_nodup h1 h2 rfl
  simp only [Prod.mk.injEq, and_true] at this; exact this

/-- `s` occurs as a literal in `e`. -/
def Lit (s : Text) (e : Expr) : Prop := Sub (.str s) e ∨ Sub (.insens s) e

/-- The expressions an item is about. -/
def GItem.exprs : GItem → List Expr
  | .one e _ => [e]
  | .all l _ => l

theorem seqTail_sub (e : Expr) : ∀ t, ∀ a ∈ (seqTail t e).map Prod.snd, Sub a e := by
  induction e using Expr.ind with
  | seq l r t _ ih =>
    intro t' a ha
    simp only [seqTail, List.map_cons, List.mem_cons] at ha
    rcases ha with rfl | ha
    · exact .seqL .refl
    · exact .seqR (ih t a ha)
  | _ => intro t a ha; simp only [seqTail, List.map_cons, List.map_nil, List.mem_singleton] at ha; subst ha; exact .refl

theorem choiceTail_sub (e : Expr) : ∀ a ∈ choiceTail e, Sub a e := by
  induction e using Expr.ind with
  | choice l r _ ih =>
    intro a ha
    simp only [choiceTail, List.mem_cons] at ha
    rcases ha with rfl | ha
    · exact .choiceL .refl
    · exact .choiceR (ih a ha)
  | _ => intro a ha; simp only [choiceTail, List.mem_singleton] at ha; subst ha; exact .refl

section
variable {params : List Name} {sys : ModSys}

theorem gen_wf {item st st'} (h : GenRel params sys item st st') (hw : WfSt st) : WfSt st' := by
  induction h with
  | str => exact hw.insertString _
  | insens => exact hw.insertString _
  | range | param _ | paramSlice _ | paramCall _ | path _ _ | slice _ _ | nil => exact hw
  | call _ _ _ ih => exact ih hw
  | pos _ ih | neg _ ih | opt _ ih | rep _ ih | repOnce _ ih | repRange _ ih | separated _ ih => exact ih hw
  | seq _ ih => have := ih hw; exact ⟨this.1, this.2, this.3⟩
  | choice _ ih => have := ih hw; exact ⟨this.1, this.2, this.3⟩
  | cons _ _ ih1 ih2 => exact ih2 (ih1 hw)

theorem gen_prefix {item st st'} (h : GenRel params sys item st st') : st.wrappers <+: st'.wrappers := by
  induction h with
  | str => exact insertString_prefix _ _
  | insens => exact insertString_prefix _ _
  | range | param _ | paramSlice _ | paramCall _ | path _ _ | slice _ _ | nil => exact List.prefix_refl _
  | call _ _ _ ih => exact ih
  | pos _ ih | neg _ ih | opt _ ih | rep _ ih | repOnce _ ih | repRange _ ih | separated _ ih => exact ih
  | seq _ ih => exact ih
  | choice _ ih => exact ih
  | cons _ _ ih1 ih2 => exact ih1.trans ih2

theorem gen_lits {item st st'} (h : GenRel params sys item st st') :
    ∀ w ∈ st'.wrappers, w ∈ st.wrappers ∨ ∃ e ∈ item.exprs, Lit w.2 e := by
  have sub : ∀ {w : Name × Text} {l : List Expr} {e : Expr}, (∀ a ∈ l, Sub a e) →
      (w ∈ GenSt.wrappers ⟨[], [], [], []⟩ ∨ ∃ a ∈ l, Lit w.2 a) → Lit w.2 e := fun hl hw => by
    rcases hw with hw | ⟨a, ha, hw⟩
    · simp at hw
    · exact hw.imp (fun h => h.trans (hl a ha)) (fun h => h.trans (hl a ha))
  have lift : ∀ {w : Name × Text} {l : List Expr} {e : Expr}, (∀ a ∈ l, Sub a e) →
      (∃ a ∈ l, Lit w.2 a) → ∃ a ∈ [e], Lit w.2 a := fun hl hw =>
    ⟨_, List.mem_singleton.mpr rfl, sub hl (.inr hw)⟩
  induction h with
  | str => exact fun w hw => (insertString_only _ _ w hw).imp id fun e => ⟨_, List.mem_singleton.mpr rfl, .inl (by rw [e]; exact .refl)⟩
  | insens => exact fun w hw => (insertString_only _ _ w hw).imp id fun e => ⟨_, List.mem_singleton.mpr rfl, .inr (by rw [e]; exact .refl)⟩
  | range | param _ | paramSlice _ | paramCall _ | path _ _ | slice _ _ | nil => exact fun w hw => .inl hw
  | call _ _ _ ih => exact fun w hw => (ih w hw).imp id (lift fun a ha => .arg ha .refl)
  | pos _ ih => exact fun w hw => (ih w hw).imp id (lift fun a ha => by simp only [GItem.exprs, List.mem_singleton] at ha; subst ha; exact .pos .refl)
  | neg _ ih => exact fun w hw => (ih w hw).imp id (lift fun a ha => by simp only [GItem.exprs, List.mem_singleton] at ha; subst ha; exact .neg .refl)
  | opt _ ih => exact fun w hw => (ih w hw).imp id (lift fun a ha => by simp only [GItem.exprs, List.mem_singleton] at ha; subst ha; exact .opt .refl)
  | rep _ ih => exact fun w hw => (ih w hw).imp id (lift fun a ha => by simp only [GItem.exprs, List.mem_singleton] at ha; subst ha; exact .rep .refl)
  | repOnce _ ih => exact fun w hw => (ih w hw).imp id (lift fun a ha => by simp only [GItem.exprs, List.mem_singleton] at ha; subst ha; exact .repOnce .refl)
  | repRange _ ih => exact fun w hw => (ih w hw).imp id (lift fun a ha => by simp only [GItem.exprs, List.mem_singleton] at ha; subst ha; exact .repRange .refl)
  | separated _ ih => exact fun w hw => (ih w hw).imp id (lift fun a ha => by simp only [GItem.exprs, List.mem_singleton] at ha; subst ha; exact .separated .refl)
  | seq _ ih =>
    refine fun w hw => (ih w hw).imp id (lift fun a ha => ?_)
    simp only [GItem.exprs, collectSequence, List.map_cons, List.mem_cons] at ha
    rcases ha with rfl | ha
    · exact .seqL .refl
    · exact .seqR (seqTail_sub _ _ a ha)
  | choice _ ih =>
    refine fun w hw => (ih w hw).imp id (lift fun a ha => ?_)
    simp only [GItem.exprs, collectChoices, List.mem_cons] at ha
    rcases ha with rfl | ha
    · exact .choiceL .refl
    · exact .choiceR (choiceTail_sub _ a ha)
  | cons _ _ ih1 ih2 =>
    intro w hw
    rcases ih2 w hw with hw | ⟨e, he, hl⟩
    · rcases ih1 w hw with hw | ⟨e, he, hl⟩
      · exact .inl hw
      · exact .inr ⟨e, by simp only [GItem.exprs, List.mem_singleton] at he; subst he; exact List.mem_cons_self, hl⟩
    · exact .inr ⟨e, List.mem_cons_of_mem _ he, hl⟩

end

/-- Literals are registered one after another: the names they get and the final state. -/
def insertStrings : List Text → GenSt → List Name × GenSt
  | [], st => ([], st)
  | s :: rest, st =>
    let r := st.insertString s
    let rs := insertStrings rest r.2
    (r.1 :: rs.1, rs.2)

theorem insertStrings_length (l : List Text) (st : GenSt) : (insertStrings l st).1.length = l.length := by
  induction l generalizing st with
  | nil => rfl
  | cons s l ih => simp [insertStrings, ih]

theorem insertStrings_wf (l : List Text) {st : GenSt} (h : WfSt st) : WfSt (insertStrings l st).2 := by
  induction l generalizing st with
  | nil => exact h
  | cons s l ih => exact ih (h.insertString s)

theorem insertStrings_prefix (l : List Text) (st : GenSt) : st.wrappers <+: (insertStrings l st).2.wrappers := by
  induction l generalizing st with
  | nil => exact List.prefix_refl _
  | cons s l ih => exact (insertString_prefix st s).trans (ih _)

theorem insertStrings_mem (l : List Text) {st : GenSt} (h : WfSt st) :
    ∀ i (hi : i < l.length), ((insertStrings l st).1[i]'(by rw [insertStrings_length]; exact hi), l[i]) ∈
      (insertStrings l st).2.wrappers := by
  induction l generalizing st with
  | nil => intro i hi; simp at hi
  | cons s l ih =>
    intro i hi
    cases i with
    | zero => exact (insertStrings_prefix l _).subset (insertString_mem h s)
    | succ i => exact ih (h.insertString s) i (by simpa using hi)

theorem insertStrings_only (l : List Text) (st : GenSt) :
    ∀ w ∈ (insertStrings l st).2.wrappers, w ∈ st.wrappers ∨ w.2 ∈ l := by
  induction l generalizing st with
  | nil => exact fun w hw => .inl hw
  | cons s l ih =>
    intro w hw
    rcases ih _ w hw with hw | hw
    · exact (insertString_only st s w hw).imp id fun e => by rw [e]; exact List.mem_cons_self
    · exact .inr (List.mem_cons_of_mem _ hw)

end Pest3.Gen
