import Verif.LocatedMono
import Verif.LocatedFile
import Verif.LocatedErase
import Verif.LocatedEq
import Verif.Props.Files

/-!
# C77: where the parts of rules stand, and C78: where errors are reported
-/

namespace Pest3.Props
open Pest3 Pest3.Gen Pest3.Load
open Pest3.Meta (charText decimal Denotes)

/-- Reading the text gives these items, with positions. -/
def ReadsAt (text : Text) (items : List LItem) : Prop := ∃ fuel, readTextL fuel text = .ok (some items)

/-! ## Spans -/

/-- Whatever a text is read as, it is so with positions. -/
theorem C77_items {text : Text} {items : List FileItem} (h : Reads text items) : ∃ l, ReadsAt text l ∧ l.map LItem.erase = items := by
  obtain ⟨N, hN⟩ := h
  have := hN N (Nat.le_refl N)
  rw [readText_erase] at this
  obtain ⟨o, h1, h2⟩ := andThen_inv this
  cases o with
  | none => cases h2
  | some l =>
    cases h2
    exact ⟨l, ⟨N, h1⟩, rfl⟩

/-- … and positions do not change what it is read as. -/
theorem C77_erase {text : Text} {l : List LItem} (h : ReadsAt text l) : Reads text (l.map LItem.erase) := by
  obtain ⟨N, hN⟩ := h
  refine reads_run (n := N) ?_
  rw [readText_erase, hN]
  rfl

/-- There is one such reading. -/
theorem C77_unique {text : Text} {l l' : List LItem} (h : ReadsAt text l) (h' : ReadsAt text l') : l = l' := by
  obtain ⟨n, hn⟩ := h
  obtain ⟨m, hm⟩ := h'
  have a := readText_le (Nat.le_max_left n m) text
  have b := readText_le (Nat.le_max_right n m) text
  rw [hn] at a
  rw [hm] at b
  rcases a with a | a
  · cases a
  · rcases b with b | b
    · cases b
    · rw [← a] at b
      cases b
      rfl

/-- The items of a file stand one after the other, with nothing but blanks and comments around them. -/
theorem C77_file {text : Text} {l : List LItem} (h : ReadsAt text l) : FileAt text 0 l := by
  obtain ⟨N, hN⟩ := h
  exact file_at hN

theorem _root_.Pest3.Load.FileAt.mem {text : Text} {i : Nat} {l : List LItem} {x : LItem} (h : FileAt text i l) (hx : x ∈ l) : ∃ j k, i ≤ j ∧ ItemAt text j k x := by
  induction h with
  | done => cases hx
  | @item i j k y rest h1 h2 _ ih =>
    rcases List.mem_cons.1 hx with rfl | hx
    · exact ⟨j, k, h1.le, h2⟩
    · obtain ⟨j', k', h4, h5⟩ := ih hx
      have : j ≤ k := by
        cases h2 with
        | rule h => exact h.ok.2.2.2.1
        | badRule h => exact h.le
        | imp h => exact h.le
        | badImp h => exact h.le
        | doc h => exact h.le
        | panics h => exact h.le
      have := h1.le
      exact ⟨j', k', by omega, h5⟩

/-- At the span of a rule stand its documentation, its name, its parameters, and its expression with the spans of all parts. -/
theorem C77_rule {text : Text} {l : List LItem} {r : SRule} (h : ReadsAt text l) (hr : .rule r ∈ l) : RuleAt text r.span.start r.span.stop (.ok r) := by
  obtain ⟨j, k, -, hi⟩ := (C77_file h).mem hr
  cases hi with
  | rule hi => rw [hi.ok.1]; exact hi

/-- The spans of rules do not overlap and are in the order of the text. -/
theorem C77_order {text : Text} {a b d : List LItem} {r s : SRule} (h : ReadsAt text (a ++ .rule r :: (b ++ .rule s :: d))) : r.span.stop ≤ s.span.start := by
  have hf := C77_file h
  generalize hi : 0 = i at hf
  clear h hi
  induction a generalizing i with
  | nil =>
    cases hf with
    | item h1 h2 h3 =>
      cases h2 with
      | rule h2 =>
        obtain ⟨j, k, h4, h5⟩ := FileAt.mem h3 (x := .rule s) (by simp)
        cases h5 with
        | rule h5 =>
          rw [h2.ok.1, h5.ok.1]
          exact h4
  | cons x a ih =>
    cases hf with
    | item h1 h2 h3 => exact ih _ h3

mutual
theorem within_parts {text : Text} : ∀ {e : SExpr}, (∀ x ∈ parts e, SpanOk text x ∧ Edge text x.span.start ∧ Edge text x.span.stop ∧ x.span.start ≤ x.span.stop) →
    ∀ x ∈ parts e, Within x.span e.span
  | .str _ _, _, x, hx | .insens _ _, _, x, hx | .range _ _ _, _, x, hx | .path _ _, _, x, hx | .slice _ _ _, _, x, hx => by
    simp only [parts, List.mem_singleton] at hx
    subst hx
    exact ⟨Nat.le_refl _, Nat.le_refl _⟩
  | .call q es l, h, x, hx => by
    simp only [parts, List.mem_cons] at hx h
    rcases hx with rfl | hx
    · exact ⟨Nat.le_refl _, Nat.le_refl _⟩
    · obtain ⟨j, h1, -, h2⟩ := (h _ (.inl rfl)).1
      have := within_all (fun x hx => h x (.inr hx)) h2 x hx
      have h3 := h1.edges.2.2
      exact ⟨show l.start ≤ _ by omega, this.2⟩
  | .pos e l, h, x, hx => by
    simp only [parts, List.mem_cons] at hx h
    rcases hx with rfl | hx
    · exact ⟨Nat.le_refl _, Nat.le_refl _⟩
    · obtain ⟨⟨s, hs⟩, h1⟩ := (h _ (.inl rfl)).1
      have := within_parts (fun x hx => h x (.inr hx)) x hx
      have h2 := hs.le
      exact ⟨Nat.le_trans h2 this.1, by simp only [SExpr.span, h1]; exact this.2⟩
  | .neg e l, h, x, hx => by
    simp only [parts, List.mem_cons] at hx h
    rcases hx with rfl | hx
    · exact ⟨Nat.le_refl _, Nat.le_refl _⟩
    · obtain ⟨⟨s, hs⟩, h1⟩ := (h _ (.inl rfl)).1
      have := within_parts (fun x hx => h x (.inr hx)) x hx
      have h2 := hs.le
      exact ⟨Nat.le_trans h2 this.1, by simp only [SExpr.span, h1]; exact this.2⟩
  | .opt e l, h, x, hx | .rep e l, h, x, hx | .repOnce e l, h, x, hx | .repRange e _ l, h, x, hx => by
    simp only [parts, List.mem_cons] at hx h
    rcases hx with rfl | hx
    · exact ⟨Nat.le_refl _, Nat.le_refl _⟩
    · obtain ⟨h1, s, h2⟩ := (h _ (.inl rfl)).1
      have := within_parts (fun x hx => h x (.inr hx)) x hx
      exact ⟨by simp only [SExpr.span, h1]; exact this.1, Nat.le_trans this.2 h2.le⟩
  | .separated e t l, h, x, hx => by
    simp only [parts, List.mem_cons] at hx h
    rcases hx with rfl | hx
    · exact ⟨Nat.le_refl _, Nat.le_refl _⟩
    · obtain ⟨h1, _, _, s, h2⟩ := (h _ (.inl rfl)).1
      have := within_parts (fun x hx => h x (.inr hx)) x hx
      exact ⟨by simp only [SExpr.span, h1]; exact this.1, Nat.le_trans this.2 h2.le⟩
  | .seq a b t l, h, x, hx => by
    simp only [parts, List.mem_cons, List.mem_append] at hx h
    rcases hx with rfl | hx
    · exact ⟨Nat.le_refl _, Nat.le_refl _⟩
    · obtain ⟨h1, h2, _, _, _, _, h3⟩ := (h _ (.inl rfl)).1
      have ha := (h a (.inr (.inl (mem_parts a)))).2.2.2
      have hb := (h b (.inr (.inr (mem_parts b)))).2.2.2
      have h4 := h3.le
      rcases hx with hx | hx
      · have := within_parts (fun x hx => h x (.inr (.inl hx))) x hx
        exact ⟨by simp only [SExpr.span, h1]; exact this.1, by simp only [SExpr.span, h2]; exact Nat.le_trans this.2 (Nat.le_trans h4 hb)⟩
      · have := within_parts (fun x hx => h x (.inr (.inr hx))) x hx
        exact ⟨by simp only [SExpr.span, h1]; exact Nat.le_trans (Nat.le_trans ha h4) this.1, by simp only [SExpr.span, h2]; exact this.2⟩
  | .choice a b l, h, x, hx => by
    simp only [parts, List.mem_cons, List.mem_append] at hx h
    rcases hx with rfl | hx
    · exact ⟨Nat.le_refl _, Nat.le_refl _⟩
    · obtain ⟨h1, h2, _, _, h3⟩ := (h _ (.inl rfl)).1
      have ha := (h a (.inr (.inl (mem_parts a)))).2.2.2
      have hb := (h b (.inr (.inr (mem_parts b)))).2.2.2
      have h4 := h3.le
      rcases hx with hx | hx
      · have := within_parts (fun x hx => h x (.inr (.inl hx))) x hx
        exact ⟨by simp only [SExpr.span, h1]; exact this.1, by simp only [SExpr.span, h2]; exact Nat.le_trans this.2 (Nat.le_trans h4 hb)⟩
      · have := within_parts (fun x hx => h x (.inr (.inr hx))) x hx
        exact ⟨by simp only [SExpr.span, h1]; exact Nat.le_trans (Nat.le_trans ha h4) this.1, by simp only [SExpr.span, h2]; exact this.2⟩
theorem within_all {text : Text} : ∀ {es : List SExpr} {i j : Nat},
    (∀ x ∈ partsAll es, SpanOk text x ∧ Edge text x.span.start ∧ Edge text x.span.stop ∧ x.span.start ≤ x.span.stop) → InOrder i j es →
    ∀ x ∈ partsAll es, i ≤ x.span.start ∧ x.span.stop ≤ j
  | [], _, _, _, _, x, hx => by cases hx
  | e :: es, i, j, h, ho, x, hx => by
    simp only [partsAll, List.mem_append] at hx h
    obtain ⟨h1, h2, h3⟩ := ho
    rcases hx with hx | hx
    · have := within_parts (fun x hx => h x (.inl hx)) x hx
      exact ⟨Nat.le_trans h1 this.1, Nat.le_trans this.2 h2⟩
    · have := within_all (fun x hx => h x (.inr hx)) h3 x hx
      have he := (h e (.inl (mem_parts e))).2.2.2
      exact ⟨Nat.le_trans (Nat.le_trans h1 he) this.1, this.2⟩
end

/-- Every part of a rule: its span has to do with what stands there as `SpanOk` says, lies within the span of the rule, and begins and ends between
characters, so that the text there can be taken out. -/
theorem C77_parts {text : Text} {l : List LItem} {r : SRule} (h : ReadsAt text l) (hr : .rule r ∈ l) (x : SExpr) (hx : x ∈ parts r.node) :
    SpanOk text x ∧ Within x.span r.span ∧ ∃ t, Stands text x.span.start t x.span.stop := by
  obtain ⟨h1, h2, h3, h4, h5⟩ := (C77_rule h hr).ok
  obtain ⟨k1, k2, k3, k4⟩ := h5.all x hx
  have := within_parts h5.all x hx
  exact ⟨k1, ⟨Nat.le_trans h5.left this.1, Nat.le_trans this.2 h5.right⟩, k2.text k3 k4⟩

/-! ## Errors -/

/-- At the place of an error stands what the error is about, and the place is in the file. -/
theorem C78_fault {text : Text} {l : List LItem} {e : LErr} (h : ReadsAt text l) (he : .invalid e ∈ l) : Fault text e := by
  obtain ⟨j, k, -, hi⟩ := (C77_file h).mem he
  cases hi with
  | badRule h => exact h.error.1
  | badImp _ h => exact h

theorem fault_stands {text : Text} {e : LErr} (h : Fault text e) : ∃ t, t ≠ [] ∧ Stands text e.loc.start t e.loc.stop := by
  cases h with
  | string h => exact ⟨_, by simp, h⟩
  | insensitive h => exact ⟨_, by simp, h⟩
  | char h => exact ⟨_, by simp [charText], h⟩
  | nat h => exact ⟨_, decimal_ne _, h⟩
  | int h => exact ⟨_, int_ne _, h⟩
  | zero h => exact ⟨_, by simp, h⟩
  | void h => exact ⟨_, by simp [decimal_ne], h⟩
  | «import» h => exact ⟨_, by simp, h⟩

/-- … so the span of an error is never empty, and the text there can be taken out. -/
theorem C78_shown {text : Text} {l : List LItem} {e : LErr} (h : ReadsAt text l) (he : .invalid e ∈ l) :
    ∃ t, t ≠ [] ∧ Stands text e.loc.start t e.loc.stop := fault_stands (C78_fault h he)

/-- The item with the error stands around it, and whatever stands before the error in its item is as it should be: the error is the one that the notation
gives for the rule. -/
theorem C78_item {text : Text} {l : List LItem} {e : LErr} (h : ReadsAt text l) (he : .invalid e ∈ l) : ∃ i j, i ≤ e.loc.start ∧ e.loc.stop ≤ j ∧
    (RuleAt text i j (.error e) ∨ ∃ s, Stands text i ('u' :: 's' :: 'e' :: ' ' :: s) j) := by
  obtain ⟨j, k, -, hi⟩ := (C77_file h).mem he
  cases hi with
  | badRule h => exact ⟨j, k, h.error.2.1, h.error.2.2, .inl h⟩
  | badImp h _ h1 h2 => exact ⟨j, k, h1, h2, .inr ⟨_, h⟩⟩

/-! ## Examples -/

private def spanText : Text := "/// Doc.
a = (b - c)* | d /* x */~{2..3} | !\"é\" - 'a' .. 'z' ^ p::q ( r [ 1.. ] , i\"x\", )
e(f) = _{ f }".toList

private def spanRule : SRule := ⟨['a'], [], ⟨0, 91⟩,
  .choice (.rep (.seq (.path [['b']] ⟨14, 16⟩) (.path [['c']] ⟨18, 19⟩) .none ⟨14, 19⟩) ⟨14, 21⟩)
    (.choice (.repRange (.separated (.path [['d']] ⟨24, 33⟩) .optional ⟨24, 34⟩) ⟨some 2, some 3⟩ ⟨24, 40⟩)
      (.seq (.neg (.str ['é'] ⟨44, 48⟩) ⟨43, 48⟩)
        (.seq (.range 'a' 'z' ⟨51, 61⟩)
          (.call [['p'], ['q']] [.slice [['r']] ⟨some 1, none⟩ ⟨71, 80⟩, .insens ['x'] ⟨83, 87⟩] ⟨64, 90⟩) .mandatory ⟨51, 90⟩) .none ⟨43, 90⟩) ⟨24, 90⟩)
    ⟨14, 90⟩, false⟩

private theorem span_reads : ReadsAt spanText [.rule spanRule, .rule ⟨['e'], [['f']], ⟨91, 104⟩, .path [['f']] ⟨101, 103⟩, true⟩] :=
  ⟨1000, by decide +kernel⟩

example : RuleAt spanText 0 91 (.ok spanRule) := C77_rule span_reads (r := spanRule) (by simp)

/-- For `C77_parts`: the literal `"é"` of four bytes. -/
example : SpanOk spanText (.str ['é'] ⟨44, 48⟩) := (C77_parts span_reads (r := spanRule) (by simp) _ (by simp [spanRule, parts])).1

example : spanRule.span.stop ≤ 91 := C77_order (a := []) (b := []) (d := []) span_reads

/-- Parentheses do not count: the span of a repetition begins within the parentheses and ends after them, and what stands there is no expression. -/
theorem C77_paren_witness : ReadsAt "x = (a)*".toList [.rule ⟨['x'], [], ⟨0, 8⟩, .rep (.path [['a']] ⟨5, 6⟩) ⟨5, 8⟩, false⟩] ∧
    Stands "x = (a)*".toList 5 "a)*".toList 8 ∧ Rejected "x = a)*".toList :=
  ⟨⟨1000, by decide +kernel⟩, ⟨"x = (".toList, [], by decide +kernel, by decide +kernel, by decide +kernel⟩, rejected_run (n := 1000) (by decide +kernel)⟩

/-- The span of a name reaches over the blanks and comments after it, even up to the next rule. -/
theorem C77_trailing_witness : ReadsAt "x = a // c\n\ny = b".toList
    [.rule ⟨['x'], [], ⟨0, 12⟩, .path [['a']] ⟨4, 12⟩, false⟩, .rule ⟨['y'], [], ⟨12, 17⟩, .path [['b']] ⟨16, 17⟩, false⟩] := ⟨1000, by decide +kernel⟩

private def faultText : Text := "a = b - \"\\u{110000}\" - c{3..1}\nd = e{ 3 .. 1 }\nf = g{0} | h{2..1}".toList

private theorem fault_reads : ReadsAt faultText
    [.invalid ⟨badString, ⟨8, 20⟩⟩, .invalid ⟨void 3 1, ⟨38, 44⟩⟩, .invalid ⟨zeroTimes, ⟨53, 54⟩⟩] := ⟨1000, by decide +kernel⟩

example : Fault faultText ⟨void 3 1, ⟨38, 44⟩⟩ := C78_fault fault_reads (by simp)

example : ∃ t, t ≠ [] ∧ Stands faultText 8 t 20 := C78_shown fault_reads (e := ⟨badString, ⟨8, 20⟩⟩) (by simp)

end Pest3.Props
