import Verif.ShowExpr
import Verif.Props.Notation

/-!
# Property C69: expressions as they are displayed
-/

namespace Pest3.Props
open Pest3 Pest3.Gen Pest3.Load

/-- Expressions that are displayed in the notation of grammars.  Left out are strings without regard to case and bounded repetitions,
which are displayed in another notation; repetitions of predicates, for which parentheses would be needed; and ranges with a double quote. -/
inductive Faithfully : Expr → Prop where
  | str (s) : Faithfully (.str s)
  | range {a b} : a ≠ '"' → b ≠ '"' → Faithfully (.range a b)
  | path (q) : Faithfully (.path q)
  | call {q args} : (∀ a ∈ args, Faithfully a) → Faithfully (.call q args)
  | slice (q r) : Faithfully (.slice q r)
  | pos {e} : Faithfully e → Faithfully (.pos e)
  | neg {e} : Faithfully e → Faithfully (.neg e)
  | seq {l r t} : Faithfully l → Faithfully r → Faithfully (.seq l r t)
  | choice {l r} : Faithfully l → Faithfully r → Faithfully (.choice l r)
  | opt {e} : Faithfully e → (∀ x, e ≠ .pos x ∧ e ≠ .neg x) → Faithfully (.opt e)
  | rep {e} : Faithfully e → (∀ x, e ≠ .pos x ∧ e ≠ .neg x) → Faithfully (.rep e)
  | repOnce {e} : Faithfully e → (∀ x, e ≠ .pos x ∧ e ≠ .neg x) → Faithfully (.repOnce e)
  | separated {e t} : Faithfully e → (∀ x, e ≠ .pos x ∧ e ≠ .neg x) → Faithfully (.separated e t)

theorem escapeDebug_spec (plain : Char → Bool) (quote c : Char) (hq : quote = '"' ∨ quote = '\'') :
    (escapeDebug plain quote c = [c] ∧ c ≠ quote ∧ c ≠ '\\') ∨ ∃ v, Meta.Escape (escapeDebug plain quote c) v ∧ Meta.escaped v = some c := by
  unfold escapeDebug
  by_cases h0 : c = '\x00'
  · subst h0; exact .inr ⟨_, .letter .zero, rfl⟩
  rw [if_neg h0]
  by_cases h1 : c = '\t'
  · subst h1; exact .inr ⟨_, .letter .t, rfl⟩
  rw [if_neg h1]
  by_cases h2 : c = '\r'
  · subst h2; exact .inr ⟨_, .letter .r, rfl⟩
  rw [if_neg h2]
  by_cases h3 : c = '\n'
  · subst h3; exact .inr ⟨_, .letter .n, rfl⟩
  rw [if_neg h3]
  by_cases h4 : c = '\\'
  · subst h4; exact .inr ⟨_, .letter .backslash, rfl⟩
  rw [if_neg h4]
  by_cases h5 : c = quote
  · subst h5
    rw [if_pos rfl]
    rcases hq with rfl | rfl
    · exact .inr ⟨_, .letter .quote, rfl⟩
    · exact .inr ⟨_, .letter .apostrophe, rfl⟩
  rw [if_neg h5]
  split
  · exact .inl ⟨rfl, h5, h4⟩
  · exact .inr ⟨_, unicodeEscape_spec c⟩

theorem show_denotes (plain : Char → Bool) (s : Text) : Meta.Denotes (s.flatMap (escapeDebug plain '"')) (some s) := by
  induction s with
  | nil => exact .nil
  | cons c s ih =>
    rw [List.flatMap_cons]
    rcases escapeDebug_spec plain '"' c (.inl rfl) with ⟨h, h1, h2⟩ | ⟨v, h1, h2⟩
    · rw [h]
      exact .plain h1 h2 ih
    · have := Meta.Denotes.escape h1 ih
      rw [h2] at this
      exact this

theorem show_char (plain : Char → Bool) {c : Char} (h : c ≠ '"') : CharLit (escapeDebug plain '\'' c) (some c) := by
  rcases escapeDebug_spec plain '\'' c (.inr rfl) with ⟨h0, h1, h2⟩ | ⟨v, h1, h2⟩
  · rw [h0]; exact .plain h h2
  · rw [← h2]; exact .escape h1

theorem show_path {q : List Name} (hq : q ≠ []) (h : ∀ x ∈ q, IsIdent x) : PathText q (showSep [':', ':'] q) := by
  induction q with
  | nil => exact absurd rfl hq
  | cons x q ih =>
    cases q with
    | nil => simpa [showSep] using PathText.one (h x (by simp))
    | cons y q =>
      have := PathText.cons (h x (by simp)) .nil .nil (ih (by simp) fun z hz => h z (List.mem_cons_of_mem _ hz))
      simpa [showSep] using this

theorem show_int (o : Option Int) : Perhaps ((o.map intLit).map IntLit.text) ((o.map showIsize).getD []) := by
  cases o with
  | none => exact .none .nil
  | some i =>
    have h : (intLit i).text = showIsize i := by
      unfold intLit showIsize
      split <;> rfl
    have := Perhaps.some (x := (intLit i).text) .nil .nil
    rw [h] at this
    simpa [h] using this

/-- The level at which an expression is displayed. -/
def shownLevel : Expr → Level
  | .pos _ | .neg _ => .prefixed
  | .opt _ | .rep _ | .repOnce _ | .repRange _ _ => .postfixed
  | _ => .primary

theorem note_prefixed {e : Expr} {t : Text} (h : Note (.expr (shownLevel e) e) t) : Note (.expr .prefixed e) t := by
  cases e <;> first | exact h | exact .unprefixed h | exact note_up h

theorem note_postfixed {e : Expr} {t : Text} (h : Note (.expr (shownLevel e) e) t) (hp : ∀ x, e ≠ .pos x ∧ e ≠ .neg x) :
    Note (.expr .postfixed e) t := by
  cases e <;> first | exact h | exact .unpostfixed h | exact absurd rfl (hp _).1 | exact absurd rfl (hp _).2

theorem show_sep {t : Trivia} (h : t ≠ .none) : SepText (some t) [showTrivia t] := by
  cases t with
  | none => exact absurd rfl h
  | optional => exact .tilde .nil
  | mandatory => exact .caret .nil

theorem faithful_sep {e : Expr} {t : Trivia} (h : Faithfully (.separated e t)) : Faithfully e ∧ ∀ x, e ≠ .pos x ∧ e ≠ .neg x := by
  cases h; constructor <;> assumption

theorem show_note (plain : Char → Bool) {e : Expr} (hw : Writable e) (hn : Named e) (hf : Faithfully e) :
    Note (.expr (shownLevel e) e) (showExpr plain e) := by
  induction hw with
  | str s => exact .str (show_denotes plain s)
  | insens => cases hf
  | range a b =>
    cases hf with
    | range h1 h2 =>
      simpa [showExpr, shownLevel, showChar, Meta.charText] using Note.range (show_char plain h1) .nil .nil (show_char plain h2)
  | path hq => cases hn with | path hn => exact .path (show_path hq hn)
  | call hq hargs ih =>
    rename_i q args
    cases hn with
    | call hn ha =>
      cases hf with
      | call hf =>
        have : ∀ g, Gap g → Note (.args args) (g ++ showSep [',', ' '] (showExprs plain args)) := by
          clear hargs
          induction args with
          | nil => intro g hg; simpa [showExprs, showSep] using Note.noArgs hg
          | cons a args ih2 =>
            intro g hg
            have h1 := note_whole (note_prefixed (ih a (by simp) (ha a (by simp)) (hf a (by simp))))
            have h2 := ih2 (fun x hx => ih x (List.mem_cons_of_mem _ hx)) (fun x hx => ha x (List.mem_cons_of_mem _ hx))
              (fun x hx => hf x (List.mem_cons_of_mem _ hx)) _ space_gap
            cases args with
            | nil => simpa [showExprs, showSep] using Note.lastArg hg h1 .nil
            | cons b args => simpa [showExprs, showSep] using Note.moreArgs hg h1 .nil h2
        have := this [] .nil
        simpa [showExpr, shownLevel] using Note.call (show_path hq hn) .nil this
  | slice hq h1 h2 =>
    rename_i q r
    cases hn with
    | slice hn =>
      have hf : ∀ o : Option Int, (∀ x ∈ o, -2 ^ 63 ≤ x ∧ x < 2 ^ 63) → fits (o.map intLit) := by
        intro o ho x hx
        obtain ⟨y, hy, rfl⟩ := Option.map_eq_some_iff.mp hx
        rw [intLit_value]; exact ho y hy
      have hv : ∀ o : Option Int, (o.map intLit).map IntLit.value = o := by
        intro o; cases o <;> simp [intLit_value]
      have hs : Gen.sliceSpec (r.start.map intLit) (r.stop.map intLit) = some r := by
        unfold Gen.sliceSpec
        rw [if_pos ⟨hf _ h1, hf _ h2⟩, hv, hv]
      simpa [showExpr, shownLevel, showRange] using Note.slice (show_path hq hn) .nil (show_int r.start) (show_int r.stop) hs
  | pos _ ih => cases hn with | pos hn => cases hf with | pos hf => exact .pos .nil (note_prefixed (ih hn hf))
  | neg _ ih => cases hn with | neg hn => cases hf with | neg hf => exact .neg .nil (note_prefixed (ih hn hf))
  | seq _ _ ih1 ih2 =>
    rename_i l r tr _ _
    cases hn with
    | seq hn1 hn2 =>
      cases hf with
      | seq hf1 hf2 =>
        have hj : JoinText tr (showTrivia tr) := by cases tr <;> constructor
        have := Note.paren .nil (.whole (.alternative (.seq (note_prefixed (ih1 hn1 hf1)) space_gap hj space_gap
          (.single (note_prefixed (ih2 hn2 hf2)))))) .nil
        simpa [showExpr, shownLevel] using this
  | choice _ _ ih1 ih2 =>
    cases hn with
    | choice hn1 hn2 =>
      cases hf with
      | choice hf1 hf2 =>
        have := Note.paren .nil (.whole (.choice (.single (note_prefixed (ih1 hn1 hf1))) space_gap space_gap
          (.alternative (.single (note_prefixed (ih2 hn2 hf2)))))) .nil
        simpa [showExpr, shownLevel] using this
  | opt _ ih =>
    cases hn with
    | opt hn =>
      cases hf with
      | opt hf hp => exact .post (p := ⟨none, .opt⟩) (note_postfixed (ih hn hf) hp) .nil .none .opt rfl
  | optSep _ ht ih =>
    cases hn with
    | opt hn =>
      cases hf with
      | opt hf _ =>
        obtain ⟨hf, hp⟩ := faithful_sep hf
        have := Note.post (p := ⟨some _, .opt⟩) (note_postfixed (ih (named_sep hn) hf) hp) .nil (show_sep ht) .opt rfl
        simpa [showExpr, shownLevel, Post.sepApply] using this
  | rep _ ih =>
    cases hn with
    | rep hn =>
      cases hf with
      | rep hf hp => exact .post (p := ⟨none, .star⟩) (note_postfixed (ih hn hf) hp) .nil .none .star rfl
  | repSep _ ht ih =>
    cases hn with
    | rep hn =>
      cases hf with
      | rep hf _ =>
        obtain ⟨hf, hp⟩ := faithful_sep hf
        have := Note.post (p := ⟨some _, .star⟩) (note_postfixed (ih (named_sep hn) hf) hp) .nil (show_sep ht) .star rfl
        simpa [showExpr, shownLevel, Post.sepApply] using this
  | repOnce _ ih =>
    cases hn with
    | repOnce hn =>
      cases hf with
      | repOnce hf hp => exact .post (p := ⟨none, .plus⟩) (note_postfixed (ih hn hf) hp) .nil .none .plus rfl
  | repOnceSep _ ht ih =>
    cases hn with
    | repOnce hn =>
      cases hf with
      | repOnce hf _ =>
        obtain ⟨hf, hp⟩ := faithful_sep hf
        have := Note.post (p := ⟨some _, .plus⟩) (note_postfixed (ih (named_sep hn) hf) hp) .nil (show_sep ht) .plus rfl
        simpa [showExpr, shownLevel, Post.sepApply] using this
  | repRange => cases hf
  | repRangeSep => cases hf

/-! ## C69: expressions are displayed in the notation of grammars -/

/-- The text displayed for an expression is an expression in the notation of grammars, with that meaning. -/
theorem C69_notation_partial (plain : Char → Bool) {e : Expr} (hw : Writable e) (hn : Named e) (hf : Faithfully e) :
    Note (.expr .whole e) (showExpr plain e) :=
  note_whole (note_prefixed (show_note plain hw hn hf))

/-- As a rule of a grammar file, it is read as the expression it was displayed for. -/
theorem C69_reads_partial (plain : Char → Bool) {x : Name} {e : Expr} (hx : IsIdent x) (hw : Writable e) (hn : Named e) (hf : Faithfully e) :
    Reads (ruleFile x (showExpr plain e)) [.rule ⟨x, [], e, false⟩] :=
  C68_expression hx (C69_notation_partial plain hw hn hf)

/-- Different expressions are displayed differently. -/
theorem C69_different_partial (plain : Char → Bool) {e f : Expr} (he : Writable e) (hf : Writable f) (hne : Named e) (hnf : Named f)
    (ke : Faithfully e) (kf : Faithfully f) (h : showExpr plain e = showExpr plain f) : e = f := by
  have hx : IsIdent ['a'] := .mk (.inr (.inl (by decide))) (by intro _ h; cases h)
  have h1 := C69_reads_partial plain hx he hne ke
  rw [h] at h1
  have h2 := (C67_unique h1).2 _ (C69_reads_partial plain hx hf hnf kf)
  injection h2 with h2
  injection h2 with h2
  injection h2 with _ _ h2
  exact h2.symm

theorem ident_no_backtick {x : Name} (h : IsIdent x) : '`' ∉ x := by
  cases h with
  | mk h1 h2 =>
    intro hm
    rcases List.mem_cons.mp hm with h | h
    · subst h
      rcases h1 with h | h
      · exact absurd h (by decide)
      · revert h; unfold isAlpha; decide
    · rcases h2 _ h with h | h | h
      · exact absurd h (by decide)
      · revert h; unfold isAlpha; decide
      · revert h; decide

theorem split_at {c : Char} {a b a' b' : Text} (h : c ∉ a) (h' : c ∉ a') (he : a ++ c :: b = a' ++ c :: b') : a = a' ∧ b = b' := by
  induction a generalizing a' with
  | nil =>
    cases a' with
    | nil => simp at he; exact ⟨rfl, he⟩
    | cons y a' => simp at he; exact absurd (by rw [he.1]; simp) h'
  | cons x a ih =>
    cases a' with
    | nil => simp at he; exact absurd (by rw [he.1]; simp) h
    | cons y a' =>
      simp only [List.cons_append, List.cons.injEq] at he
      obtain ⟨h1, h2⟩ := ih (fun hm => h (List.mem_cons_of_mem _ hm)) (fun hm => h' (List.mem_cons_of_mem _ hm)) he.2
      exact ⟨by rw [he.1, h1], h2⟩

/-- The documentation of a generated struct tells the name and the expression of its rule. -/
theorem C69_documentation_partial (plain : Char → Bool) {r s : Rule} (hr : IsIdent r.name) (hs : IsIdent s.name) (h1 : Writable r.node)
    (h2 : Writable s.node) (h3 : Named r.node) (h4 : Named s.node) (h5 : Faithfully r.node) (h6 : Faithfully s.node)
    (h : ruleDoc plain r = ruleDoc plain s) : r.name = s.name ∧ r.node = s.node := by
  unfold ruleDoc at h
  have h := List.append_cancel_left h
  have e : "`. Grammar: `".toList = '`' :: ". Grammar: `".toList := by decide
  rw [e] at h
  simp only [List.cons_append] at h
  obtain ⟨ha, hb⟩ := split_at (ident_no_backtick hr) (ident_no_backtick hs) h
  have hb := List.append_cancel_right (List.append_cancel_left hb)
  exact ⟨ha, C69_different_partial plain h1 h2 h3 h4 h5 h6 hb⟩

/-! ## What is missing -/

/-- Strings without regard to case are displayed with a sign that the notation does not have. -/
theorem C69_insensitive_witness (plain : Char → Bool) : Rejected (ruleFile ['a'] (showExpr plain (.insens ['\n']))) :=
  rejected_run (n := 1000) (by
    have : showExpr plain (.insens ['\n']) = "^\"\\n\"".toList := rfl
    rw [this]; decide +kernel)

/-- A bounded repetition of a rule is displayed as a slice, and so it is read. -/
theorem C69_bounded_witness (plain : Char → Bool) (q : List Name) (a b : Option Nat) :
    showExpr plain (.repRange (.path q) ⟨a, b⟩) = showExpr plain (.slice q ⟨a.map Int.ofNat, b.map Int.ofNat⟩) := by
  have h : ∀ o : Option Nat, (o.map showUsize).getD [] = ((o.map Int.ofNat).map showIsize).getD [] := by
    intro o
    cases o with
    | none => rfl
    | some n => simp [showIsize, Int.natAbs]
  simp only [showExpr, showRange, h]

/-- A repetition of anything but a rule is displayed as no expression. -/
theorem C69_bounded_string_witness (plain : Char → Bool) :
    Rejected (ruleFile ['a'] (showExpr plain (.repRange (.str ['\n']) ⟨some 1, some 2⟩))) :=
  rejected_run (n := 1000) (by
    have : showExpr plain (.repRange (.str ['\n']) ⟨some 1, some 2⟩) = "\"\\n\"[1..2]".toList := rfl
    rw [this]; decide +kernel)

/-- An optional predicate is displayed as the predicate of an optional expression. -/
theorem C69_predicate_witness (plain : Char → Bool) (e : Expr) :
    showExpr plain (.opt (.pos e)) = showExpr plain (.pos (.opt e)) ∧ showExpr plain (.rep (.neg e)) = showExpr plain (.neg (.rep e)) := by
  simp [showExpr]

/-- A range from a double quote, displayed with the quote as it is, makes the reader panic (C43). -/
theorem C69_quote_witness (plain : Char → Bool) (h : plain '"' = true) :
    Reads (ruleFile ['a'] (showExpr plain (.range '"' '\\'))) [.panics] :=
  reads_run (n := 1000) (by
    have h1 : escapeDebug plain '\'' '"' = ['"'] := by
      unfold escapeDebug
      rw [if_neg (by decide), if_neg (by decide), if_neg (by decide), if_neg (by decide), if_neg (by decide), if_neg (by decide), if_pos h]
    have : showExpr plain (.range '"' '\\') = "'\"'..'\\\\'".toList := by
      show ('\'' :: (escapeDebug plain '\'' '"' ++ ['\''])) ++ _ = _
      rw [h1]; rfl
    rw [this]; decide +kernel)

/-! ## Examples -/

private def exShown : Expr :=
  .choice (.seq (.rep (.separated (.call [['m'], ['f']] [.str ['"', 'x'], .range 'a' '\'']) .optional)) (.neg (.opt (.path [['b']]))) .mandatory)
    (.slice [['P', 'E', 'E', 'K']] ⟨some (-1), none⟩)

example : showExpr (fun _ => true) exShown = "((m::f(\"\\\"x\", 'a'..'\\'')~* ^ !b?) | PEEK[-1..])".toList := by decide +kernel

example : Writable exShown ∧ Named exShown ∧ Faithfully exShown := by
  have i : ∀ x : Char, identStart x → IsIdent [x] := fun x h => .mk h (by intro _ h; cases h)
  refine ⟨?_, ?_, ?_⟩
  · refine .choice (.seq (.repSep (.call (by simp) ?_) (by simp)) (.neg (.opt (.path (by simp))))) (.slice (by simp) ?_ ?_)
    · intro a ha
      simp only [List.mem_cons, List.not_mem_nil, or_false] at ha
      rcases ha with rfl | rfl
      · exact .str _
      · exact .range _ _
    · intro x hx; cases hx; decide
    · intro x hx; cases hx
  · refine .choice (.seq (.rep (.separated (.call ?_ ?_))) (.neg (.opt (.path ?_)))) (.slice ?_)
    · intro x hx
      simp only [List.mem_cons, List.not_mem_nil, or_false] at hx
      rcases hx with rfl | rfl
      · exact i 'm' (.inr (.inl (by decide)))
      · exact i 'f' (.inr (.inl (by decide)))
    · intro a ha
      simp only [List.mem_cons, List.not_mem_nil, or_false] at ha
      rcases ha with rfl | rfl <;> constructor
    · intro x hx
      rw [List.mem_singleton.1 hx]
      exact i 'b' (.inr (.inl (by decide)))
    · intro x hx
      rw [List.mem_singleton.1 hx]
      exact .mk (.inr (.inr (by decide))) (by
        intro y hy
        simp only [List.mem_cons, List.not_mem_nil, or_false] at hy
        rcases hy with rfl | rfl | rfl <;> exact .inr (.inl (.inr (by decide))))
  · refine .choice (.seq (.rep (.separated (.call ?_) (by simp)) (by simp)) (.neg (.opt (.path _) (by simp)))) (.slice _ _)
    intro a ha
    simp only [List.mem_cons, List.not_mem_nil, or_false] at ha
    rcases ha with rfl | rfl
    · exact .str _
    · exact .range (by decide) (by decide)

end Pest3.Props
