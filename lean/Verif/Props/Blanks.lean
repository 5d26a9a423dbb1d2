import Verif.BlankLemmas
import Verif.Props.Unordered

/-!
# C90: grammars with blanks, read without order
-/

namespace Pest3.Props
open Pest3 Pest3.Gen Pest3.Load

section
variable {u : Unicode} {root : Module} {W : Char → Bool}

/-- Where trivia are blanks and the next character that is not blank decides: if something can be matched without order such that what follows may go on, with or without blanks in front, then this
is matched, up to some of the blanks behind it. -/
theorem C90_blanks {sh : Clo → Prop} {fol : Bool → Clo → View → Prop} (hG : BlankDecidesGrammar u root W sh fol) {b : Bool} {F : View → Prop} {a : Clo}
    (ha : BlankDecides u root W sh fol b F a) (hF : ∀ v, F v → F ⟨false, v.next⟩) {c c' : Cfg} (h : May u root (.expr a) c c') (hc : F (view W c'.suf))
    (hl : c.suf.length ≤ usizeMax) {o : Option Cfg} (hm : Meaning u root (.expr a) c o) :
    ∃ w rest, (∀ x ∈ w, W x = true) ∧ c'.suf = w ++ rest ∧ o = some ⟨c'.pre ++ w, rest, c'.stk⟩ ∧ (b = true → w = []) := by
  obtain ⟨d, rfl, ⟨w, k1, k2, k3, k4⟩, -, k5⟩ := hm.finds hG hl b (fun c => F (view W c.suf)) F c' ha (fun _ h => h) (fun _ c d h _ hd => by
    rcases hd.view with e | e
    · rw [e]; exact h
    · rw [e]; exact hF _ h) h hc
  obtain ⟨pre, suf, stk⟩ := d
  simp only at k2 k3 k4
  subst k3 k4
  refine ⟨w, suf, k1, k2, rfl, fun hb => ?_⟩
  have := k5 hb
  obtain ⟨pre', suf', stk'⟩ := c'
  injection this with e
  exact List.append_right_eq_self.mp e

/-- So what can be matched up to the end is matched up to the end. -/
theorem C90_blanks_end {sh : Clo → Prop} {fol : Bool → Clo → View → Prop} (hG : BlankDecidesGrammar u root W sh fol) {b : Bool} {F : View → Prop} {a : Clo}
    (ha : BlankDecides u root W sh fol b F a) (hF : F ⟨false, none⟩) {c c' : Cfg} (h : May u root (.expr a) c c') (hc : c'.suf = [])
    (hl : c.suf.length ≤ usizeMax) {o : Option Cfg} (hm : Meaning u root (.expr a) c o) : o = some c' := by
  obtain ⟨d, rfl, k, -⟩ := hm.finds hG hl b (fun c => c.suf = []) F c' ha (fun c h => by rw [h]; exact hF) (fun _ c d h _ hd => by
    obtain ⟨w, -, k, -⟩ := hd
    rw [h] at k
    exact (List.append_eq_nil_iff.mp k.symm).2) h hc
  rw [k.same fun x hx => by rw [hc] at hx; cases hx]

end

section
variable {S : Type} {so : StackOps S} {saved : S → List (List Span)} (hls : Lawful so saved) {env : Setting} {attrs : List Attr} {ms : List Module}
  {table : Name → Char → Bool} {d : Derived} {R : Layout} {e : Env} {rank : RuleVal → Label} {lab : Label → RuleVal}
  (D : Derives env attrs ms table d R e rank lab)
include hls D

/-- The parser of a grammar that is not left-recursive, in which trivia are blanks and the next character that is not blank decides, accepts the texts that can be matched without order. -/
theorem C90_blanks_parser {g : Assumed} (hg : NotLeftRecursive (unicodeOf env.unicodeNames table) (united ms) g) {W : Char → Bool} {sh : Clo → Prop} {fol : Bool → Clo → View → Prop}
    (hG : BlankDecidesGrammar (unicodeOf env.unicodeNames table) (united ms) W sh fol) {p : List Name} {m : Module} {r : Rule} (hp : modAt (united ms) p = some m) (hr : r ∈ m.rules)
    (ho : r.name ≠ optName) (hman : r.name ≠ manName) (ha : r.args = []) {b : Bool} (hend : fol b (.mk p [] r.node) ⟨false, none⟩) (inp : Str) (hl : inp.text.length ≤ usizeMax) :
    (∃ n t, tryParse so e n (.rule (R.num p r.name [])) inp = .ok (.ok t)) ↔
      ∃ stk, May (unicodeOf env.unicodeNames table) (united ms) (.expr (.mk p [] r.node)) (startCfg inp) ⟨inp.text, [], stk⟩ := by
  obtain ⟨fuel, hd⟩ := D.derive
  rw [((C75_parser hls hd D.modules D.silent D.named).2 R e lab D.linked D.labelled p m r hp hr ho hman ha inp).1]
  constructor
  · rintro ⟨stk, h⟩; exact ⟨stk, C90_sound h⟩
  · rintro ⟨stk, h⟩
    obtain ⟨o, hm⟩ := C80_total D.named D.scoped hg hp hr ha (startCfg inp)
    have := C90_blanks_end hG (hG.rules b p m r [] hp hr ha.symm) hend h rfl hl hm
    exact ⟨stk, this ▸ hm⟩

/-- If moreover there are no predicates, stack, `soi`, `eoi` and `newline`, it accepts exactly what the grammar, trivia included, generates as a context-free grammar. -/
theorem C90_blanks_language {g : Assumed} (hg : NotLeftRecursive (unicodeOf env.unicodeNames table) (united ms) g) (hf : FreeGrammar (unicodeOf env.unicodeNames table) (united ms))
    {W : Char → Bool} {sh : Clo → Prop} {fol : Bool → Clo → View → Prop}
    (hG : BlankDecidesGrammar (unicodeOf env.unicodeNames table) (united ms) W sh fol) {p : List Name} {m : Module} {r : Rule} (hp : modAt (united ms) p = some m) (hr : r ∈ m.rules)
    (ho : r.name ≠ optName) (hman : r.name ≠ manName) (ha : r.args = []) {b : Bool} (hend : fol b (.mk p [] r.node) ⟨false, none⟩) (inp : Str) (hl : inp.text.length ≤ usizeMax) :
    (∃ n t, tryParse so e n (.rule (R.num p r.name [])) inp = .ok (.ok t)) ↔
      Generates (unicodeOf env.unicodeNames table) (united ms) (.expr (.mk p [] r.node)) inp.text := by
  constructor
  · rintro ⟨n, t, h⟩; exact C90_only hls D hf hp hr ho hman ha h
  · intro h
    refine (C90_blanks_parser hls D hg hG hp hr ho hman ha hend inp hl).mpr ⟨[], ?_⟩
    have := h.may [] [] []
    simpa [startCfg] using this

end

/-! ## Example -/

private def nu : Unicode := unicodeOf [] fun _ _ => false

/-- `x = "[" ~ (x ~ ("," ~ x)~*)? ~ "]" | "0"`. -/
def listRule : Rule := ⟨['x'], [], .choice (.seq (.seq (.str ['[']) (.opt (.seq (.path [['x']]) (.rep (.separated (.seq (.str [',']) (.path [['x']]) .optional) .optional)) .optional)) .optional)
  (.str [']']) .optional) (.str ['0']), false⟩

/-- `~ = " "*`. -/
def listTrivia : Rule := ⟨optName, [], .rep (.str [' ']), false⟩

private def listRoot : Module := .mk [listRule, listTrivia] []

private theorem list_at {p : List Name} {m : Module} (h : modAt listRoot p = some m) : p = [] ∧ m = listRoot := by
  cases p with
  | nil => cases h; exact ⟨rfl, rfl⟩
  | cons x p => cases h

private theorem list_in {r : Rule} (h : r ∈ listRoot.rules) : r = listRule ∨ r = listTrivia := by
  rcases List.mem_cons.mp (show r ∈ [listRule, listTrivia] from h) with h | h
  · exact .inl h
  · exact .inr (List.mem_singleton.mp h)

private theorem list_ready {rank : RuleVal → Label} (hr : Ranks rank) : ∃ d R e lab,
    Derives (sampleSetting [listRule, listTrivia]) [⟨some "grammar_inline".toList, .str []⟩] [listRoot] (fun _ _ => false) d R e rank lab := by
  have no : ∀ t, ¬ UsesTrivia t listTrivia.node := by
    intro t h
    rcases h with ⟨l, r, h⟩ | ⟨e, h⟩ <;>
    · rw [listTrivia] at h
      dsimp only at h
      repeat' cases ‹Gen.Sub _ _›
  refine sample_ready (by simp [listRule, listTrivia]) ?_ ⟨_, rfl⟩ ?_ hr
  · intro m' h
    cases h with
    | step h1 _ => simp [Module.imports] at h1
    | refl =>
      refine ⟨by decide, by decide, by simp [Module.imports], by simp [Module.imports], ?_, ?_⟩ <;> simp [Module.rules, listRule, listTrivia, ParamsPlain]
  · have all : ∀ t, ∀ r ∈ (Module.mk [listRule, listTrivia] []).rules, r.name = optName → ¬ UsesTrivia t r.node := by
      intro t r h hn
      rcases list_in h with rfl | rfl
      · exact absurd (show ['x'] = optName from hn) (by decide)
      · exact no t
    refine ⟨all _, ?_, .inl (all _)⟩
    intro r h hn
    rcases list_in h with rfl | rfl
    · exact absurd (show ['x'] = manName from hn) (by decide)
    · exact absurd (show optName = manName from hn) (by decide)

private def listAssumed : Assumed := ⟨fun _ _ => True, fun _ _ _ => False, fun _ _ _ => False, fun _ _ => 0⟩

private theorem list_not : NotLeftRecursive nu listRoot listAssumed := by
  have starts : ∀ {hd}, ¬ MayStart nu listRoot listAssumed [] listRule listRule.node hd := by
    intro hd hs
    rw [listRule] at hs
    dsimp only at hs
    rw [start_choice, start_seq, start_seq, empty_seq, empty_str] at hs
    rcases hs with ((h | ⟨h, -⟩) | ⟨⟨h, -⟩, -⟩) | h
    · exact (start_str h).elim
    · cases h
    · cases h
    · exact (start_str h).elim
  have starts' : ∀ {hd}, ¬ MayStart nu listRoot listAssumed [] listTrivia listTrivia.node hd := by
    intro hd hs
    rw [show listTrivia.node = .rep (.str [' ']) from rfl, start_rep (e := .rep (.str [' '])) (a := .str [' ']) rfl, empty_str] at hs
    rcases hs with h | ⟨h, -⟩
    · exact (start_str h).elim
    · cases h
  refine ⟨fun _ _ _ _ _ _ => trivial, ?_, ?_, ?_⟩
  · intro p m r hm h q args p' r' hc
    obtain ⟨rfl, rfl⟩ := list_at hm
    rcases list_in h with rfl | rfl
    · rw [listRule] at hc
      dsimp only at hc
      repeat' cases ‹Sub _ _›
    · rw [listTrivia] at hc
      dsimp only at hc
      repeat' cases ‹Sub _ _›
  · intro p m r hm h x hs
    obtain ⟨rfl, rfl⟩ := list_at hm
    rcases list_in h with rfl | rfl
    · exact (starts hs).elim
    · exact (starts' hs).elim
  · intro p m r hm h p' x hs
    obtain ⟨rfl, rfl⟩ := list_at hm
    rcases list_in h with rfl | rfl
    · exact (starts hs).elim
    · exact (starts' hs).elim

private theorem list_free : FreeGrammar nu listRoot := by
  intro p m r hm hr
  obtain ⟨rfl, rfl⟩ := list_at hm
  have path : Free nu listRoot [] (.path [['x']]) := .path fun full l h _ => by cases h
  rcases list_in hr with rfl | rfl
  · exact .choice (.seq (.seq (.literal rfl) (.opt (.seq path (.rep rfl (.separated (.seq (.literal rfl) path)))))) (.literal rfl)) (.literal rfl)
  · exact .rep rfl (.literal rfl)

private def blank (x : Char) : Bool := x == ' '

/-- Behind lists there are commas, closing brackets and the end, perhaps behind blanks. -/
private def listFollow : Bool → Clo → View → Prop
  | _, .mk _ _ (.rep _), _ => False
  | _, _, v => v.next = none ∨ v.next = some ',' ∨ v.next = some ']'

private theorem heads_char {v : View} {a : Char} (ha : blank a = false) (h : v.heads blank (some a)) : v = ⟨false, some a⟩ := by
  obtain ⟨g, n⟩ := v
  cases g with
  | false =>
    have h : some a = n := by simpa [View.heads] using h
    rw [h]
  | true =>
    obtain ⟨x, k1, k2⟩ : ∃ x, some a = some x ∧ blank x = true := by simpa [View.heads] using h
    cases k1
    rw [ha] at k2
    cases k2

private theorem list_decides : BlankDecidesGrammar nu listRoot blank (fun _ => False) listFollow := by
  refine ⟨fun _ h => h.elim, ?_⟩
  intro b p m r ρ hm hr hρ
  obtain ⟨rfl, rfl⟩ := list_at hm
  have : ρ = [] := by rcases list_in hr with rfl | rfl <;> exact List.map_eq_nil_iff.mp hρ
  subst this
  have lit : ∀ a f, Begins nu listRoot (.expr (.mk [] [] (.str [a]))) f ↔ f = .takes a := fun a f => begins_literal (e := .str [a]) (l := .str [a]) rfl
  have seqFirst : ∀ l r t f, (∀ o, ¬ Begins nu listRoot (.expr (.mk [] [] l)) (.skips o)) → Begins nu listRoot (.expr (.mk [] [] (.seq l r t))) f →
      Begins nu listRoot (.expr (.mk [] [] l)) f := by
    intro l r t f hl h
    rcases begins_seq.mp h with ⟨x, -, h⟩ | ⟨x, -, h, -⟩ | ⟨h, -⟩
    · exact h
    · exact (hl _ h).elim
    · exact (hl _ h).elim
  have seqLit : ∀ a r t f, Begins nu listRoot (.expr (.mk [] [] (.seq (.str [a]) r t))) f → f = .takes a := fun a r t f h =>
    (lit _ _).mp (seqFirst _ _ _ _ (fun o h => by cases (lit _ _).mp h) h)
  have seqLit2 : ∀ a r t r' t' f, Begins nu listRoot (.expr (.mk [] [] (.seq (.seq (.str [a]) r t) r' t'))) f → f = .takes a := fun a r t r' t' f h =>
    seqLit _ _ _ _ (seqFirst _ _ _ _ (fun o h => by cases seqLit _ _ _ _ h) h)
  have node : ∀ f, Begins nu listRoot (.expr (.mk [] [] listRule.node)) f → f = .takes '[' ∨ f = .takes '0' := by
    intro f h
    rcases begins_choice.mp h with h | h
    · exact .inl (seqLit2 _ _ _ _ _ _ h)
    · exact .inr ((lit _ _).mp h)
  have path : ∀ f, Begins nu listRoot (.expr (.mk [] [] (.path [['x']]))) f → f = .takes '[' ∨ f = .takes '0' := fun f h =>
    node f ((begins_rule (p' := []) (r := listRule) (fun _ _ => rfl) rfl).mp h)
  -- what takes one of some characters that are not blank
  have firm : ∀ {a : Clo} {S : List Char}, (∀ f, Begins nu listRoot (.expr a) f → ∃ x ∈ S, f = .takes x) → (∀ x ∈ S, blank x = false) → Firm nu listRoot blank a := by
    intro a S h1 h2 f h x hx
    obtain ⟨y, hy, rfl⟩ := h1 f h
    cases hx
    exact h2 _ hy
  have starts : ∀ {a : Clo} {S : List Char}, (∀ f, Begins nu listRoot (.expr a) f → ∃ x ∈ S, f = .takes x) → (∀ x ∈ S, blank x = false) → ∀ {v}, StartsAt nu listRoot blank a v →
      ∃ x ∈ S, v = ⟨false, some x⟩ := by
    rintro a S h1 h2 v ⟨f, k1, k2⟩
    obtain ⟨x, hx, rfl⟩ := h1 f k1
    exact ⟨x, hx, heads_char (h2 x hx) k2⟩
  have heading : ∀ {a : Clo} {S : List Char}, (∀ f, Begins nu listRoot (.expr a) f → ∃ x ∈ S, f = .takes x) → (∀ x ∈ S, blank x = false) → ∀ {F v}, Heading nu listRoot blank F a v →
      ∃ x ∈ S, v = ⟨false, some x⟩ := by
    rintro a S h1 h2 F v (⟨y, k1, k2⟩ | ⟨o, -, k2, -⟩)
    · obtain ⟨x, hx, h⟩ := h1 _ k2
      cases h
      exact ⟨y, hx, heads_char (h2 y hx) k1⟩
    · obtain ⟨x, hx, h⟩ := h1 _ k2
      cases h
  have bLit : ∀ a f, Begins nu listRoot (.expr (.mk [] [] (.str [a]))) f → ∃ x ∈ [a], f = .takes x := fun a f h => ⟨a, by simp, (lit _ _).mp h⟩
  have bPath : ∀ f, Begins nu listRoot (.expr (.mk [] [] (.path [['x']]))) f → ∃ x ∈ ['[', '0'], f = .takes x := by
    intro f h
    rcases path f h with rfl | rfl <;> simp
  have bPathSeq : ∀ r t f, Begins nu listRoot (.expr (.mk [] [] (.seq (.path [['x']]) r t))) f → ∃ x ∈ ['[', '0'], f = .takes x := fun r t f h =>
    bPath f (seqFirst _ _ _ _ (fun o h => by rcases path _ h with h | h <;> cases h) h)
  have bItem : ∀ f, Begins nu listRoot (.expr (.mk [] [] (.separated (.seq (.str [',']) (.path [['x']]) .optional) .optional))) f → ∃ x ∈ [','], f = .takes x := by
    intro f h
    cases h with
    | literal h => cases h
    | builtin h => cases h
    | rep h => cases h
    | repTrivia h => cases h
    | repNone h => cases h
    | separated h => exact ⟨',', by simp, seqLit _ _ _ _ h⟩
  have trivia : BlankTrivia nu listRoot blank [] .optional := by
    refine ⟨by simp, ?_⟩
    intro m r h1 h2
    obtain ⟨-, rfl⟩ := list_at h1
    cases h2
    refine ⟨.str [' '], rfl, rfl, .str (by simp) (by simp [blank]), fun x hx => ?_⟩
    rw [show x = ' ' from by simpa [blank] using hx]
    exact .literal rfl (by simp [leafSurely])
  rcases list_in hr with rfl | rfl
  · have ref : ∀ {b : Bool} {F : View → Prop}, (∀ v, F v → v.next = none ∨ v.next = some ',' ∨ v.next = some ']') →
        BlankDecides nu listRoot blank (fun _ => False) listFollow b F (.mk [] [] (.path [['x']])) := by
      intro b F hF
      refine .path (fun x a _ h => by cases h) fun p' r _ h v hv => ?_
      cases h
      exact hF v hv
    have close : ∀ {F v}, Spaced (Heading nu listRoot blank F (.mk [] [] (.str [']']))) v → v.next = some ']' := by
      rintro F v ⟨v', h1, h2, -⟩
      obtain ⟨x, hx, rfl⟩ := heading (bLit ']') (by decide) h1
      rw [← h2, List.mem_singleton.mp hx]
    have item : ∀ {v}, Spaced (StartsAt nu listRoot blank (.mk [] [] (.separated (.seq (.str [',']) (.path [['x']]) .optional) .optional))) v → v.next = some ',' := by
      rintro v ⟨v', h1, h2, -⟩
      obtain ⟨x, hx, rfl⟩ := starts bItem (by decide) h1
      rw [← h2, List.mem_singleton.mp hx]
    have jFirm : ∀ {b : Bool} {a : Clo}, Firm nu listRoot blank a → Joins nu listRoot blank (fun _ => False) b a := by
      intro b a h
      cases b with
      | true => exact h
      | false => exact .firm h
    refine .choice ?_ (.seq trivia (jFirm (firm (bLit ']') (by decide))) (b' := false)
      (.seq trivia (.opt (.firm (firm (bPathSeq _ _) (by decide)))) (b' := false) (.literal rfl)
        (.opt ?_ (.seq trivia (.rep rfl (.inr trivia) (.firm (firm bItem (by decide)))) (b' := false) (ref ?_)
          (.rep rfl trivia (b' := false) (fun h => by cases h) (.firm (firm bItem (by decide))) ?_
            (.separated (.seq trivia (.firm (firm bPath (by decide))) (b' := false) (.literal rfl) (ref ?_)))))))
      (.literal rfl)) (.literal rfl)
    · intro v h k
      obtain ⟨x, hx, rfl⟩ := starts (S := ['[']) (fun f h => ⟨'[', by simp, seqLit2 _ _ _ _ _ _ h⟩) (by decide) h
      obtain ⟨y, hy, h⟩ := heading (bLit '0') (by decide) k
      cases h
      rw [List.mem_singleton.mp hx] at hy
      exact absurd hy (by decide)
    · intro v h k
      obtain ⟨x, hx, rfl⟩ := starts (bPathSeq _ _) (by decide) h
      cases close k
      exact absurd hx (by decide)
    · rintro v ⟨v', ⟨y, k1, k2⟩ | ⟨o, k1, k2, k3⟩, h2, -⟩
      · cases k2 with
        | literal h => cases h
        | builtin h => cases h
        | rep h _ h' =>
          cases h
          obtain ⟨x, hx, h⟩ := bItem _ h'
          cases h
          rw [List.mem_singleton.mp hx] at k1
          rw [← h2, heads_char (by decide) k1]
          exact .inr (.inl rfl)
        | repTrivia h h' =>
          cases h
          obtain ⟨x, hx, h⟩ := bItem _ h'
          cases h
      · exact .inr (.inr (h2 ▸ close k3))
    · intro _ v h k
      have := (item h).symm.trans (close k)
      cases this
    · rintro v (h | h)
      · exact .inr (.inr (close h))
      · exact .inr (.inl (item h))
  · exact .never fun v h => h

/-- Nested lists with blanks: the parser accepts exactly what the context-free grammar generates, though blanks in front of a closing bracket may be generated in two ways. -/
theorem C90_list {rank : RuleVal → Label} (hr : Ranks rank) : ∃ d R e lab,
    Derives (sampleSetting [listRule, listTrivia]) [⟨some "grammar_inline".toList, .str []⟩] [listRoot] (fun _ _ => false) d R e rank lab ∧
    ∀ inp : Str, inp.text.length ≤ usizeMax → ((∃ n t, tryParse idealOps e n (.rule (R.num [] ['x'] [])) inp = .ok (.ok t)) ↔
      Generates nu listRoot (.expr (.mk [] [] listRule.node)) inp.text) := by
  obtain ⟨d, R, e, lab, D⟩ := list_ready hr
  have hun : united [listRoot] = listRoot := by simp [united, listRoot, Module.rules, Module.imports]
  refine ⟨d, R, e, lab, D, fun inp hl => ?_⟩
  have := C90_blanks_language ideal_lawful D (p := []) (r := listRule) (m := listRoot) (by rw [hun]; exact list_not) (by rw [hun]; exact list_free) (W := blank) (sh := fun _ => False)
    (fol := listFollow) (by rw [hun]; exact list_decides) (by rw [hun]; rfl) List.mem_cons_self (by decide) (by decide) rfl (b := true) (.inl rfl) inp hl
  rw [hun] at this
  exact this

/-- `[ ]` can be matched in two ways, with the blank in front of what is left out or behind it. -/
example : Generates nu listRoot (.expr (.mk [] [] listRule.node)) ['[', ' ', ']'] := by
  have blanks : Generates nu listRoot (.trivia [] .optional) [' '] := .triviaRule (m := listRoot) (r := listTrivia) rfl rfl
    (.rep rfl (.repsMore (w1 := [' ']) (w2 := []) (by decide) (.unitFirst (.literal rfl rfl rfl)) (.repsStop (.inl (by decide)))))
  have none : Generates nu listRoot (.trivia [] .optional) [] := .triviaRule (m := listRoot) (r := listTrivia) rfl rfl (.rep rfl (.repsStop (.inl (by decide))))
  exact .choiceL (.seq (w1 := ['[', ' ']) (w2 := []) (w3 := [']']) (.seq (w1 := ['[']) (w2 := [' ']) (w3 := []) (.literal rfl rfl rfl) blanks .optNone) none (.literal rfl rfl rfl))

end Pest3.Props
