import Verif.DocTrees
import Verif.ForwardExpr

/-!
# Deriving that the recogniser accepts: rules, imports and files
-/

namespace Pest3.Gen
open Pest3 Pest3.Load
open Pest3.Meta (MetaRule Denotes)

/-! ## Documentation -/

/-- A line of documentation. -/
theorem doc_at {k : MetaRule} {sign : String} (hk : metaGrammar k = (.compound, seqs [lit sign, .opt (lit " "), .ref .docContent])) {t e s r : Text}
    (ht : Line t) (he : Newline e) (hs : Skips (e ++ s) r) : At (.ref k) (sign.toList ++ (t ++ (e ++ s))) r (fun ts => ∃ us, ts = [.node k (sign.toList ++ t) us]) := by
  intro c hc
  obtain ⟨c1, h1, e1, s1⟩ := eats_str (m := .compoundAtomic) hc
  have content : ∀ {t : Text} {c : Cfg}, Line t → c.suf = t ++ (e ++ s) → ∃ c' ts, MRec .compoundAtomic (.ref .docContent) c (some (c', ts)) ∧ c'.suf = e ++ s ∧ Eats c t c' := by
    intro t c ht hc
    obtain ⟨c', k1, k2, k3⟩ := eats_line (m := .compoundAtomic) (by simp) ht (fun c hc => line_ends he hc) hc
    exact ⟨c', _, ref_compound rfl k1, k3, k2⟩
  have : ∃ c' ts, MRec .compoundAtomic (.seq (.opt (lit " ")) (.ref .docContent)) c1 (some (c', ts)) ∧ c'.suf = e ++ s ∧ Eats c1 t c' := by
    by_cases hb : t.head? = some ' '
    · cases t with
      | nil => cases hb
      | cons x t =>
        cases hb
        obtain ⟨c2, h2, e2, s2⟩ := eats_str (m := .compoundAtomic) (s := [' ']) (r := t ++ (e ++ s)) s1
        obtain ⟨c3, ts, h3, s3, k3⟩ := content (fun x hx => ht x (List.mem_cons_of_mem _ hx)) s2
        exact ⟨c3, _, seq_tight (by simp) (.optSome h2) h3, s3, e2.trans k3⟩
    · have hn : MRec .compoundAtomic (lit " ") c1 none := by
        refine fails 1 ?_
        rw [s1]
        cases t with
        | nil => cases he <;> rfl
        | cons x t =>
          have : x ≠ ' ' := by rintro rfl; exact hb rfl
          simp [mayStart, lit, this]
      obtain ⟨c3, ts, h3, s3, k3⟩ := content ht s1
      exact ⟨c3, _, seq_tight (by simp) (.optNone hn) h3, s3, k3⟩
  obtain ⟨c2, ts, h2, s2, k2⟩ := this
  exact ⟨c2, _, ref_compound hk (seq_tight (by simp) h1 h2), by rw [s2]; exact hs, by rw [k2.stk, e1.stk], _, by rw [(e1.trans k2).between]⟩

theorem docs_skip {sign : Text} {x : Char} (hs : sign = ['/', '/', x]) (hx : x = '/' ∨ x = '!') {d u : Text} {ls : List Text} (hd : Docs sign d ls) (hu : Skips u u) :
    Skips (d ++ u) (d ++ u) := by
  cases hd with
  | nil => exact hu
  | cons => subst hs; exact skips_doc hx

theorem docs_at {k : MetaRule} {sign : String} {x : Char} (hs : sign.toList = ['/', '/', x]) (hx : x = '/' ∨ x = '!')
    (hk : metaGrammar k = (.compound, seqs [lit sign, .opt (lit " "), .ref .docContent])) {d u : Text} {ls : List Text} (hd : Docs sign.toList d ls)
    (hu : Skips u u) (hn : No (.ref k) u) : Loops (.ref k) (d ++ u) u (DocTrees k sign.toList ls) := by
  induction hd with
  | nil => exact (Loops.nil hu hn).mono (by rintro _ rfl; exact .nil)
  | @cons t e g d ls ht he hg hd ih =>
    have h1 := doc_at hk (s := g ++ (d ++ u)) ht he (by
      have := gap_skips (Gap.blank (.line he) hg) (docs_skip hs hx hd hu)
      simpa using this)
    have := (Loops.cons h1 ih).mono (R := DocTrees k sign.toList (t :: ls)) (by
      rintro _ ⟨_, us, rfl, ⟨x, rfl⟩, hu⟩
      exact .cons hu)
    simpa using this

/-- The pair of an item. -/
def ItemTree (i : FileItem) (d : List (Name × List Text)) (ts : List PTree) : Prop := ∃ x, ts = [x] ∧ ItemMeans RawPlain x i ∧ HasDocs x d

/-! ## Rules -/

def commaName : PE := .seq (.ref .comma) (.ref .identifier)

def identTree (p : Name) : PTree := .node .identifier p []

def NamesRest (l : List Name) (ts : List PTree) : Prop := ts = (l.map identTree).flatMap (fun a => [tok .comma ",", a])

def NamesP (u : Text) (l : List Name) : Prop := ∀ s, match l with
  | [] => Skips (u ++ ')' :: s) (')' :: s)
  | x :: l => ∃ r0 r1 r2, Skips (u ++ ')' :: s) r0 ∧ At (.ref .identifier) r0 r1 (· = [identTree x]) ∧ Loops commaName r1 r2 (NamesRest l) ∧
      At (.opt (.ref .comma)) r2 (')' :: s) IsTrailing

theorem names_at {u : Text} {l : List Name} (h : Names l u) : NamesP u l := by
  induction h with
  | none hg => exact fun s => gap_skips hg (skips_solid rfl)
  | @last x g h hx hg hh =>
    intro s
    have hsk : Skips (')' :: s) (')' :: s) := skips_solid rfl
    refine ⟨x ++ (h ++ ')' :: s), ')' :: s, ')' :: s, by simpa using gap_skips hg ((ident_starts hx).append (h ++ ')' :: s)).ident,
      At.ident hx (wordEnd_gap hh (wordEnd_cons (by decide))).ident (gap_skips hh hsk), (Loops.nil hsk (No.head 9 rfl)).mono ?_,
      (At.optNone (No.head 9 rfl) hsk).mono fun _ h => .inl h⟩
    rintro _ rfl
    rfl
  | @trailing x g h k hx hg hh hk =>
    intro s
    have hsk : Skips (')' :: s) (')' :: s) := skips_solid rfl
    have hc : Skips (',' :: (k ++ ')' :: s)) (',' :: (k ++ ')' :: s)) := skips_solid rfl
    have hcomma : At (.ref .comma) (',' :: (k ++ ')' :: s)) (')' :: s) (· = [tok .comma ","]) := At.tok "," rfl (gap_skips hk hsk)
    refine ⟨x ++ (h ++ ',' :: (k ++ ')' :: s)), ',' :: (k ++ ')' :: s), ',' :: (k ++ ')' :: s),
      by simpa using gap_skips hg ((ident_starts hx).append (h ++ ',' :: (k ++ ')' :: s))).ident,
      At.ident hx (wordEnd_gap hh (wordEnd_cons (by decide))).ident (gap_skips hh hc), (Loops.nil hc (No.seq2 hcomma (No.head 9 rfl))).mono ?_,
      (At.opt hcomma).mono fun _ h => .inr h⟩
    rintro _ rfl
    rfl
  | @more x y l g h t hx hg hh _ ih =>
    intro s
    obtain ⟨r0, r1, r2, h1, h2, h3, h4⟩ := ih s
    have hc : Skips (',' :: (t ++ ')' :: s)) (',' :: (t ++ ')' :: s)) := skips_solid rfl
    refine ⟨x ++ (h ++ ',' :: (t ++ ')' :: s)), ',' :: (t ++ ')' :: s), r2, by simpa using gap_skips hg ((ident_starts hx).append (h ++ ',' :: (t ++ ')' :: s))).ident,
      At.ident hx (wordEnd_gap hh (wordEnd_cons (by decide))).ident (gap_skips hh hc), (Loops.cons (At.seq (At.tok (k := .comma) "," rfl h1) h2) h3).mono ?_, h4⟩
    rintro _ ⟨_, _, rfl, ⟨_, _, rfl, rfl, rfl⟩, rfl⟩
    rfl

/-- The pairs of a list of parameters. -/
def ParamTrees (l : List Name) (ts : List PTree) : Prop := ∃ (y : Text) (ps : Option (List Name)) (tr : Bool), ps.getD [] = l ∧ ts = match ps with
  | none => []
  | some l => [.node .arguments y (tok .openingParen "(" :: (commaTrees tr (l.map fun p => .node .identifier p []) ++ [tok .closingParen ")"]))]

theorem params_at {l : List Name} {ps s : Text} (h : Params l ps) : At (.opt (.ref .arguments)) (ps ++ '=' :: s) ('=' :: s) (ParamTrees l) := by
  have heq : Skips ('=' :: s) ('=' :: s) := skips_solid rfl
  cases h with
  | none => exact (At.optNone (No.head 9 rfl) heq).mono (by rintro _ rfl; exact ⟨[], none, false, rfl, rfl⟩)
  | @list l t g hl hg =>
    have hclose : At (.ref .closingParen) (')' :: (g ++ '=' :: s)) ('=' :: s) (· = [tok .closingParen ")"]) := At.tok ")" rfl (gap_skips hg heq)
    have hn := names_at hl (g ++ '=' :: s)
    have : At (.ref .arguments) ('(' :: (t ++ ')' :: (g ++ '=' :: s))) ('=' :: s) (ParamTrees l) := by
      cases l with
      | nil =>
        refine (At.normal rfl (At.seq (At.tok (k := .openingParen) "(" rfl hn) (At.seq (At.optNone (No.seq1 (No.head 9 rfl)) (skips_solid rfl)) hclose))).mono ?_
        rintro _ ⟨y, _, rfl, _, _, rfl, rfl, _, _, rfl, rfl, rfl⟩
        exact ⟨y, some [], false, rfl, rfl⟩
      | cons x l =>
        obtain ⟨r0, r1, r2, h1, h2, h3, h4⟩ := hn
        refine (At.normal rfl (At.seq (At.tok (k := .openingParen) "(" rfl h1) (At.seq (At.opt (At.seq h2 (At.seq h3.1 h4))) hclose))).mono ?_
        rintro _ ⟨y, _, rfl, _, _, rfl, rfl, _, _, rfl, ⟨_, _, rfl, rfl, _, _, rfl, rfl, ht⟩, rfl⟩
        obtain ⟨tr, htr⟩ := commaTrees_flat (identTree x) (l.map identTree) _ ht
        refine ⟨y, some (x :: l), tr, rfl, ?_⟩
        have : (x :: l).map (fun p => PTree.node .identifier p []) = identTree x :: l.map identTree := rfl
        simp [this, ← htr]
    simpa using At.opt this

theorem no_silent {t : Text} (h : ∀ r, t = '_' :: r → StartsIdent r) : No (.ref .silentModifier) t := by
  intro c hc
  by_cases hu : t.head? = some '_'
  · cases t with
    | nil => cases hu
    | cons x r =>
      cases hu
      obtain ⟨c1, h1, _, s1⟩ := eats_str (m := .atomic) (s := ['_']) (r := r) hc
      refine ref_fail rfl (.seqFail2 h1 (.noSkip (by simp [RKind.inside])) ?_)
      obtain ⟨x, r', rfl, hx⟩ := h r rfl
      -- the longest identifier
      have key : ∀ l : Text, ∃ a b, l = a ++ b ∧ (∀ y ∈ a, identPart y) ∧ IdentEnd b := by
        intro l
        induction l with
        | nil => exact ⟨[], [], rfl, by simp, by intro _ h; cases h⟩
        | cons y l ih =>
          by_cases hy : identPart y
          · obtain ⟨a, b, rfl, ha, hb⟩ := ih
            exact ⟨y :: a, b, rfl, by simpa [hy] using ha, hb⟩
          · exact ⟨[], y :: l, rfl, by simp, by intro z hz; cases hz; exact hy⟩
      obtain ⟨a, b, rfl, ha, hb⟩ := key r'
      obtain ⟨c2, h2, _⟩ := eats_ident (m := .atomic) (n := x :: a) (r := b) (.mk hx ha) (by rw [s1]; rfl) hb
      exact .negFail h2
  · refine fails 3 ?_
    rw [hc]
    simp [mayStart, metaGrammar, lit, hu]

theorem silent_at {t r : Text} (h : ¬ StartsIdent t) (hs : Skips t r) : At (.ref .silentModifier) ('_' :: t) r (· = [tok .silentModifier "_"]) := by
  intro c hc
  obtain ⟨c1, h1, e1, s1⟩ := eats_str (m := .atomic) (s := ['_']) (r := t) hc
  have := ref_atomic (m := .nonAtomic) (r := .silentModifier) rfl (seq_tight (by simp) h1 (.neg (no_ident s1 h)))
  exact ⟨c1, _, this, by rw [s1]; exact hs, e1.stk, by simp [e1.between, tok]⟩

theorem starts_append {f t : Text} (h : ¬ StartsIdent (f ++ t)) (ht : t ≠ []) (s : Text) : ¬ StartsIdent (f ++ (t ++ s)) := by
  rintro ⟨x, r, hxr, hx⟩
  apply h
  cases hft : f ++ t with
  | nil => simp at hft; exact absurd hft.2 ht
  | cons y u =>
    rw [← List.append_assoc, hft] at hxr
    cases hxr
    exact ⟨x, u, rfl, hx⟩

/-- The pairs after the sign `=`. -/
def BodyTrees (e : Expr) (silent : Bool) (ts : List PTree) : Prop := ∃ t body, Written (.expr t) (some e) ∧ t.rule = .expression ∧
  (body = [t] ∨ body = [tok .openingBrace "{", t, tok .closingBrace "}"]) ∧ ts = (if silent then [tok .silentModifier "_"] else []) ++ body

/-- `{ expression }` or `expression`. -/
def bodyPart : PE := .choice (seqs [.ref .openingBrace, .ref .expression, .ref .closingBrace]) (.ref .expression)

def IsBody (e : Expr) (ts : List PTree) : Prop := ∃ t, Written (.expr t) (some e) ∧ t.rule = .expression ∧
  (ts = [t] ∨ ts = [tok .openingBrace "{", t, tok .closingBrace "}"])

theorem braced_at {e : Expr} {g h t s r : Text} (hg : Gap g) (ht : Note (.expr .whole e) t) (hh : Gap h) (hs : Skips s r) :
    At bodyPart ('{' :: (g ++ (t ++ (h ++ '}' :: s)))) r (IsBody e) := by
  have hst := note_head ht
  have hsk : Skips ('}' :: s) ('}' :: s) := skips_solid rfl
  have h1 := note_at ht (h ++ '}' :: s) _ (wordEnd_gap hh (wordEnd_cons (by decide))) (gap_skips hh hsk) stop_brace
  refine (At.choice1 (At.seq (At.tok (k := .openingBrace) "{" rfl (gap_skips hg (whole_solid hst _))) (At.seq h1 (At.tok (k := .closingBrace) "}" rfl hs)))).mono ?_
  rintro _ ⟨_, _, rfl, rfl, _, _, rfl, ⟨x, us, rfl, hx⟩, rfl⟩
  exact ⟨_, hx, rfl, .inr rfl⟩

theorem plain_at {e : Expr} {t s r : Text} (ht : Note (.expr .whole e) t) (hw : WordEnd s) (hs : Skips s r) (hr : ChainStop r) :
    At bodyPart (t ++ s) r (IsBody e) := by
  have hst : Starts (fun x => x = '|' ∨ TermHead x) t := note_head ht
  have p1 := (hst.append s).ne (y := '{') (by decide)
  refine (At.choice2 (No.seq1 (No.head 3 ?_)) (note_at ht s r hw hs hr)).mono ?_
  · generalize (t ++ s).head? = o at p1
    simp [mayStart, metaGrammar, lit, p1]
  · rintro _ ⟨x, us, rfl, hx⟩
    exact ⟨_, hx, rfl, .inl rfl⟩

theorem body_at {e : Expr} {silent opened : Bool} {b s r : Text} (h : BodyText e silent opened b) (hw : WordEnd s) (hs : Skips s r)
    (hr : opened = true → ChainStop r) : Skips (b ++ s) (b ++ s) ∧ At (.seq (.opt (.ref .silentModifier)) bodyPart) (b ++ s) r (BodyTrees e silent) := by
  cases h with
  | @braced g h t hg ht hh =>
    refine ⟨skips_solid rfl, ?_⟩
    have := (At.seq (At.optNone (no_silent (t := '{' :: (g ++ (t ++ (h ++ '}' :: s)))) (by intro r hr; cases hr)) (skips_solid rfl)) (braced_at hg ht hh hs)).mono
      (R := BodyTrees e false) (by rintro _ ⟨_, body, rfl, rfl, t, h1, h2, h3⟩; exact ⟨t, body, h1, h2, h3, by simp⟩)
    simpa using this
  | @silentBraced f g h t hf hg ht hh =>
    refine ⟨skips_solid rfl, ?_⟩
    have := (At.seq (At.opt (silent_at (t := f ++ '{' :: (g ++ (t ++ (h ++ '}' :: s)))) (by
        rintro ⟨x, r, hxr, hx⟩
        exact (wordEnd_gap hf (wordEnd_cons (x := '{') (r := g ++ (t ++ (h ++ '}' :: s))) (by decide)) x (by rw [hxr]; rfl)).1
          (hx.elim .inl fun h => .inr (.inl h)))
      (gap_skips hf (skips_solid rfl)))) (braced_at hg ht hh hs)).mono (R := BodyTrees e true)
      (by rintro _ ⟨_, body, rfl, rfl, t, h1, h2, h3⟩; exact ⟨t, body, h1, h2, h3, by simp⟩)
    simpa using this
  | plain ht hu =>
    have hst : Starts (fun x => x = '|' ∨ TermHead x) b := note_head ht
    refine ⟨whole_solid hst _, ?_⟩
    have hns : No (.ref .silentModifier) (b ++ s) := no_silent (by
      intro r hr
      cases b with
      | nil => obtain ⟨_, _, h, _⟩ := hst; cases h
      | cons x b =>
        cases hr
        obtain ⟨y, v, rfl, hy⟩ := hu b rfl
        exact ⟨y, v ++ s, rfl, hy⟩)
    exact (At.seq (At.optNone hns (whole_solid hst _)) (plain_at ht hw hs (hr rfl))).mono
      (by rintro _ ⟨_, body, rfl, rfl, t, h1, h2, h3⟩; exact ⟨t, body, h1, h2, h3, by simp⟩)
  | @silentPlain f t hf ht hu =>
    have hst : Starts (fun x => x = '|' ∨ TermHead x) t := note_head ht
    refine ⟨skips_solid rfl, ?_⟩
    have hne : t ≠ [] := by rintro rfl; obtain ⟨_, _, h, _⟩ := hst; cases h
    have := (At.seq (At.opt (silent_at (starts_append hu hne s) (gap_skips hf (whole_solid hst _)))) (plain_at ht hw hs (hr rfl))).mono (R := BodyTrees e true)
      (by rintro _ ⟨_, body, rfl, rfl, t, h1, h2, h3⟩; exact ⟨t, body, h1, h2, h3, by simp⟩)
    simpa using this

/-- How a rule goes on after its name. -/
theorem params_head {l : List Name} {ps s : Text} (h : Params l ps) : ∃ x r, ps ++ '=' :: s = x :: r ∧ (x = '(' ∨ x = '=') := by
  cases h with
  | none => exact ⟨_, _, rfl, .inr rfl⟩
  | list => exact ⟨_, _, rfl, .inl rfl⟩

/-- The pair of the name of a rule. -/
def NameTree (n : Name) (ts : List PTree) : Prop := ∃ k, ts = [.node k n []] ∧ (k = .identifier ∨ k = .tildeOperator ∨ k = .caretOperator)

theorem name_at {n f u : Text} {x : Char} (hn : IsRuleName n) (hf : Gap f) (hx : x = '(' ∨ x = '=') :
    At (.choice (.ref .identifier) (.ref .overridableOperator)) (n ++ (f ++ x :: u)) (x :: u) (NameTree n) ∧ Skips (n ++ (f ++ x :: u)) (n ++ (f ++ x :: u)) ∧
      No (.ref .ruleDoc) (n ++ (f ++ x :: u)) := by
  have hsk : Skips (f ++ x :: u) (x :: u) := gap_skips hf (by rcases hx with rfl | rfl <;> exact skips_solid rfl)
  rcases hn with hn | rfl | rfl
  · have hst := (ident_starts hn).append (f ++ x :: u)
    refine ⟨At.choice1 ((At.ident hn (wordEnd_gap hf (wordEnd_cons (by rcases hx with rfl | rfl <;> decide))).ident hsk).mono ?_), hst.ident, No.head 3 ?_⟩
    · rintro _ rfl
      exact ⟨_, rfl, .inl rfl⟩
    · have p := hst.ne (y := '/') (by decide)
      generalize (n ++ (f ++ x :: u)).head? = o at p
      simp [mayStart, metaGrammar, lit, seqs, p]
  · refine ⟨At.choice2 (No.head 9 rfl) ((At.silent rfl (At.choice1 (At.tok (k := .tildeOperator) "~" rfl hsk))).mono ?_), skips_solid rfl, No.head 9 rfl⟩
    rintro _ rfl
    exact ⟨_, rfl, .inr (.inl rfl)⟩
  · refine ⟨At.choice2 (No.head 9 rfl) ((At.silent rfl (At.choice2 (No.head 9 rfl) (At.tok (k := .caretOperator) "^" rfl hsk))).mono ?_), skips_solid rfl, No.head 9 rfl⟩
    rintro _ rfl
    exact ⟨_, rfl, .inr (.inr rfl)⟩

theorem rule_at {z : Rule} {ls : List Text} {opened : Bool} {t s r : Text} (h : RuleText z ls opened t) (hw : WordEnd s) (hs : Skips s r) (hr : opened = true → ChainStop r) :
    At (.ref .grammarRule) (t ++ s) r (ItemTree (.rule z) [(z.name, ls)]) := by
  cases h with
  | @mk _ d _ f ps g b hd hn hf hp hg hb =>
    obtain ⟨b1, b2⟩ := body_at hb hw hs hr
    have heq : At (.ref .assignmentOperator) ('=' :: (g ++ (b ++ s))) (b ++ s) (· = [tok .assignmentOperator "="]) := At.tok "=" rfl (gap_skips hg b1)
    obtain ⟨x, u, hxu, hx⟩ := params_head (s := g ++ (b ++ s)) hp
    have hpar := params_at (s := g ++ (b ++ s)) hp
    obtain ⟨n1, n2, n3⟩ := name_at (u := u) hn hf hx
    rw [← hxu] at n1 n2 n3
    have hdocs := docs_at (k := .ruleDoc) (sign := "///") (x := '/') rfl (.inl rfl) rfl hd n2 n3
    have := (At.normal (k := .grammarRule) rfl (At.seq hdocs.1 (At.seq n1 (At.seq hpar (At.seq heq b2))))).mono
      (R := ItemTree (.rule z) [(z.name, ls)]) ?_
    · simpa using this
    · rintro _ ⟨x, _, rfl, docs, _, rfl, hdocs, _, _, rfl, ⟨k, rfl, hk⟩, _, _, rfl, ⟨y, pl, tr, hpl, rfl⟩, _, _, rfl, rfl, e, body, he, her, hbody, rfl⟩
      have := RuleShaped.mk (x := x) (y := y) (name := z.name) (silent := z.silent) (ps := pl) (tr := tr) hdocs.rules hk rfl her hbody
      rw [hpl] at this
      refine ⟨_, rfl, ItemMeans.rule this he, .inl ⟨_, _, rfl, rfl, ?_⟩⟩
      obtain ⟨q1, q2⟩ := takeDocs_eq (rest := PTree.node k z.name [] :: _) (by decide) hdocs (by
        rintro t ⟨⟩
        rcases hk with rfl | rfl | rfl <;> simp [PTree.rule])
      unfold ruleDocs
      simp only [PTree.inner]
      erw [q1, q2]
      rfl

/-! ## Imports -/

def inString : PE := .seq (lit "in") (.ref .string)

def asName : PE := .seq (lit "as") (.ref .identifier)

theorem stop_ident {u : Text} (h : Starts identStart u) : ChainStop u := by
  have hs : solidHead u.head? = true := solid_of_ne ⟨h.ne (by decide), h.ne (by decide), h.ne (by decide), h.ne (by decide), h.ne (by decide)⟩
  have h1 := h.ne (y := '?') (by decide)
  have h2 := h.ne (y := '*') (by decide)
  have h3 := h.ne (y := '+') (by decide)
  have h4 := h.ne (y := '{') (by decide)
  have h5 := h.ne (y := '|') (by decide)
  have h6 := h.ne (y := '~') (by decide)
  have h7 := h.ne (y := '^') (by decide)
  have h8 := h.ne (y := '-') (by decide)
  have h9 := h.ne (y := ':') (by decide)
  have h10 := h.ne (y := '(') (by decide)
  have h11 := h.ne (y := '[') (by decide)
  refine ⟨⟨⟨h.ident, No.head 15 ?_, No.head 15 ?_⟩, No.head 15 ?_⟩, No.head 15 ?_, No.head 15 ?_⟩ <;>
    simp [mayStart, metaGrammar, lit, seqs, alts, colonName, infixTerm, *]

theorem import_at {i : ImportStmt} {t s r : Text} (h : Load.ImportText i t) (hw : WordEnd s) (hs : Skips s r) (hr : Skips r r)
    (hf : i.alias = none → PrimStop r ∧ No inString r ∧ No asName r) :
    At (.ref .import) (t ++ s) r (ItemTree (.imp i) []) := by
  cases h with
  | @mk q file alias f t u v hg ht hu hv =>
    -- the other name
    have hA : ∃ r1, WordEnd (v ++ s) ∧ Skips (v ++ s) r1 ∧ PrimStop r1 ∧ No inString r1 ∧
        At (.opt asName) r1 r (· = (alias.map fun a => PTree.node .identifier a []).toList) := by
      cases hv with
      | none =>
        obtain ⟨h1, h2, h3⟩ := hf rfl
        exact ⟨r, hw, hs, h1, h2, At.optNone h3 hr⟩
      | @some x g h hg hgn hh hhn hx =>
        have hst : Starts identStart ('a' :: 's' :: (h ++ (x ++ s))) := ⟨_, _, rfl, by decide⟩
        refine ⟨'a' :: 's' :: (h ++ (x ++ s)), ?_, ?_, (stop_ident hst).toPrimStop, No.head 3 rfl, At.opt ?_⟩
        · simpa using gap_wordEnd (r := 'a' :: 's' :: (h ++ (x ++ s))) hg hgn
        · simpa using gap_skips hg hst.ident
        · exact (At.seq (At.lit "as" (gap_skips hh ((ident_starts hx).append s).ident)) (At.ident hx hw.ident hs)).mono
            (by rintro _ ⟨_, _, rfl, rfl, rfl⟩; rfl)
    obtain ⟨r1, a1, a2, a3, a4, a5⟩ := hA
    -- the file
    have hI : ∃ r2, WordEnd (u ++ (v ++ s)) ∧ Skips (u ++ (v ++ s)) r2 ∧ PrimStop r2 ∧
        At (.opt inString) r2 r1 (fun ts => ∃ o : Option (PTree × Text), ts = (o.map Prod.fst).toList ∧ (∀ f ∈ o, f.1.pair = Meta.stringPair f.2) ∧
          (o = none ∧ file = none ∨ ∃ p y, o = some p ∧ Denotes p.2 (some y) ∧ file = some (pathOf y))) := by
      cases hu with
      | none => exact ⟨r1, a1, a2, a3, (At.optNone a4 a3.skips).mono (by rintro _ rfl; exact ⟨none, rfl, by simp, .inl ⟨rfl, rfl⟩⟩)⟩
      | @some x y g h hg hgn hh hx =>
        have hst : Starts identStart ('i' :: 'n' :: (h ++ '"' :: (x ++ '"' :: (v ++ s)))) := ⟨_, _, rfl, by decide⟩
        refine ⟨'i' :: 'n' :: (h ++ '"' :: (x ++ '"' :: (v ++ s))), ?_, ?_, (stop_ident hst).toPrimStop, At.opt ?_⟩
        · simpa using gap_wordEnd (r := 'i' :: 'n' :: (h ++ '"' :: (x ++ '"' :: (v ++ s)))) hg hgn
        · simpa using gap_skips hg hst.ident
        · refine (At.seq (At.lit "in" (gap_skips hh (skips_solid rfl))) (At.string hx a2)).mono ?_
          rintro _ ⟨_, _, rfl, rfl, z, rfl, hz⟩
          exact ⟨some (z, x), rfl, by rintro _ ⟨⟩; exact hz, .inr ⟨_, y, rfl, hx, rfl⟩⟩
    obtain ⟨r2, b1, b2, b3, b4⟩ := hI
    obtain ⟨x, r0, p1, p2⟩ := path_parts ht b1.ident b2 b3.skips b3.colons
    have hp := (At.normal (k := .path) rfl (At.seq p1 (At.seq p2.1 (At.optNone b3.args b3.skips)))).mono
      (R := fun ts => ∃ y, ts = [.node .path y (pathTrees q)]) (by
        rintro _ ⟨y, _, rfl, _, _, rfl, rfl, us, _, rfl, hu, rfl⟩
        exact ⟨y, by rw [← hu]; simp⟩)
    have := (At.normal (k := .import) rfl (At.seq (At.lit "use " (gap_skips hg ((path_starts ht).append (u ++ (v ++ s))).ident)) (At.seq hp (At.seq b4 a5)))).mono
      (R := ItemTree (.imp ⟨q, file, alias⟩) []) ?_
    · simpa using this
    · rintro _ ⟨x, _, rfl, _, _, rfl, rfl, _, _, rfl, ⟨y, rfl⟩, _, _, rfl, ⟨o, rfl, ho, hcase⟩, rfl⟩
      have := ImportShaped.mk (x := x) (y := y) (alias := alias) (path_ne ht) ho
      refine ⟨_, rfl, ?_, .inr ⟨rfl, by simp [PTree.rule], by simp [PTree.rule]⟩⟩
      rcases hcase with ⟨rfl, rfl⟩ | ⟨p, y, rfl, hy, rfl⟩
      · exact ItemMeans.imp this
      · exact ItemMeans.impFile this hy

/-! ## What items begin with -/

/-- The beginning of an item. -/
inductive Begin : Text → Prop where
  | doc {r} : Begin ('/' :: '/' :: '/' :: r)
  | rule {n f x r} : IsIdent n → Gap f → x = '(' ∨ x = '=' → Begin (n ++ (f ++ x :: r))
  | sign {c f x r} : c = '~' ∨ c = '^' → Gap f → x = '(' ∨ x = '=' → Begin (c :: (f ++ x :: r))
  | use {r} : Begin ('u' :: 's' :: 'e' :: ' ' :: r)

/-- What may follow an item, by the way it ends. -/
def FollowP : Ending → Text → Prop
  | .closed, r => Skips r r
  | .expr, r => ChainStop r
  | .path, r => PrimStop r ∧ No inString r ∧ No asName r

theorem begin_skips {u : Text} (h : Begin u) : Skips u u := by
  cases h with
  | doc => exact skips_doc (.inl rfl)
  | rule hn => exact ((ident_starts hn).append _).ident
  | sign hc => rcases hc with rfl | rfl <;> exact skips_solid rfl
  | use => exact skips_solid rfl

theorem follow_empty (k : Ending) : FollowP k [] := by
  cases k with
  | closed => exact skips_solid rfl
  | expr => exact ⟨⟨⟨skips_solid rfl, No.head 15 rfl, No.head 15 rfl⟩, No.head 15 rfl⟩, No.head 15 rfl, No.head 15 rfl⟩
  | path => exact ⟨⟨skips_solid rfl, No.head 15 rfl, No.head 15 rfl⟩, No.head 15 rfl, No.head 15 rfl⟩

theorem no_str {s : String} {t : Text} (h : ¬ s.toList <+: t) : No (lit s) t := fun _ hc => fail_str (by rw [hc]; exact h)

/-- A word of two letters and what follows it in a rule. -/
theorem word_rule {n f u : Text} {x : Char} (hn : IsIdent n) (hf : Gap f) (hx : x = '(' ∨ x = '=') (w : String) {a b : Char} (hw : w.toList = [a, b]) (hb : identPart b) :
    No (lit w) (n ++ (f ++ x :: u)) ∨ (n = [a, b]) ∨ ∃ y r, n = a :: b :: y :: r ∧ identPart y := by
  by_cases h : w.toList <+: n ++ (f ++ x :: u)
  · right
    rw [hw] at h
    obtain ⟨v, hv⟩ := h
    have hword : WordEnd (f ++ x :: u) := wordEnd_gap hf (wordEnd_cons (by rcases hx with rfl | rfl <;> decide))
    cases hn with
    | @mk c cs hc hcs =>
      simp only [List.cons_append, List.nil_append, List.cons.injEq] at hv
      obtain ⟨rfl, hv⟩ := hv
      cases cs with
      | nil => exact absurd hb (hword b (by rw [List.nil_append] at hv; rw [← hv]; rfl)).1
      | cons d cs =>
        simp only [List.cons_append, List.cons.injEq] at hv
        obtain ⟨rfl, hv⟩ := hv
        cases cs with
        | nil => exact .inl rfl
        | cons y r => exact .inr ⟨y, r, rfl, hcs y (by simp)⟩
  · exact .inl (no_str h)

/-- The text of a rule is no import, even if it is called `use`. -/
theorem no_import_name {n f u : Text} {x : Char} (hn : IsIdent n) (hf : Gap f) (hx : x = '(' ∨ x = '=') : No (.ref .import) (n ++ (f ++ x :: u)) := by
  refine No.ref (.inl rfl) ?_
  by_cases h : "use ".toList <+: n ++ (f ++ x :: u)
  · have hword : WordEnd (f ++ x :: u) := wordEnd_gap hf (wordEnd_cons (by rcases hx with rfl | rfl <;> decide))
    have hparts : ∀ y ∈ n, identPart y := by
      cases hn with
      | mk h1 h2 =>
        intro y hy
        rcases List.mem_cons.1 hy with rfl | hy
        · exact h1.elim .inl fun h => .inr (.inl h)
        · exact h2 y hy
    obtain ⟨v, hv⟩ := h
    have hv : 'u' :: 's' :: 'e' :: ' ' :: v = n ++ (f ++ x :: u) := hv
    have hn3 : n = ['u', 's', 'e'] := by
      match n, hparts, hv with
      | [], _, _ => cases hn
      | [_], _, hv => injection hv with _ hv; exact absurd (by decide) (hword 's' (by have hv : _ = f ++ x :: u := hv; rw [← hv]; rfl)).1
      | [_, _], _, hv =>
        injection hv with _ hv; injection hv with _ hv
        exact absurd (by decide) (hword 'e' (by have hv : _ = f ++ x :: u := hv; rw [← hv]; rfl)).1
      | [_, _, _], _, hv => injection hv with h1 hv; injection hv with h2 hv; injection hv with h3 hv; rw [← h1, ← h2, ← h3]
      | _ :: _ :: _ :: y :: _, hp, hv =>
        injection hv with _ hv; injection hv with _ hv; injection hv with _ hv; injection hv with hv _
        have := hp y (by simp)
        rw [← hv] at this
        exact absurd this (by decide)
    subst hn3
    have hv : ' ' :: v = f ++ x :: u := by simpa using hv
    cases f with
    | nil => cases hv; simp at hx
    | cons y f =>
      cases hv
      have hf' : Gap f := by
        generalize hz : ' ' :: f = z at hf
        cases hf with
        | nil => cases hz
        | @blank b g hb hg =>
          cases hb with
          | space => cases hz; exact hg
          | tab => cases hz
          | line he => cases he <;> cases hz
        | line => cases hz
        | block => cases hz
      have hsk : Skips (f ++ x :: u) (x :: u) := gap_skips hf' (by rcases hx with rfl | rfl <;> exact skips_solid rfl)
      exact No.seq2 (At.lit "use " hsk) (No.seq1 (by rcases hx with rfl | rfl <;> exact No.head 9 rfl))
  · exact No.seq1 (no_str h)

theorem begin_stop {u : Text} (h : Begin u) : PrimStop u := by
  cases h with
  | doc => exact ⟨skips_doc (.inl rfl), No.head 15 rfl, No.head 15 rfl⟩
  | rule hn => exact (stop_ident ((ident_starts hn).append _)).toPrimStop
  | sign hc => rcases hc with rfl | rfl <;> exact ⟨skips_solid rfl, No.head 15 rfl, No.head 15 rfl⟩
  | use => exact (stop_ident ⟨_, _, rfl, by decide⟩).toPrimStop

theorem begin_in {u : Text} (h : Begin u) : No inString u := by
  cases h with
  | doc => exact No.head 15 rfl
  | @rule n f x r hn hf hx =>
    have hsk : Skips (f ++ x :: r) (x :: r) := gap_skips hf (by rcases hx with rfl | rfl <;> exact skips_solid rfl)
    rcases word_rule hn hf hx (u := r) "in" rfl (by decide) with h | rfl | ⟨y, v, rfl, hy⟩
    · exact No.seq1 h
    · exact No.seq2 (At.lit "in" hsk) (by rcases hx with rfl | rfl <;> exact No.head 9 rfl)
    · have hst : Starts identPart (y :: (v ++ (f ++ x :: r))) := ⟨_, _, rfl, hy⟩
      refine No.seq2 (At.lit "in" (hst.solid (by decide))) (No.head 9 ?_)
      have : y ≠ '"' := by rintro rfl; revert hy; decide
      simp [mayStart, metaGrammar, seqs, lit, this]
  | sign hc => rcases hc with rfl | rfl <;> exact No.head 15 rfl
  | use => exact No.head 15 rfl

theorem begin_as {u : Text} (h : Begin u) (hu : Fits .path u) : No asName u := by
  cases h with
  | doc => exact No.head 15 rfl
  | @rule n f x r hn hf hx =>
    have hsk : Skips (f ++ x :: r) (x :: r) := gap_skips hf (by rcases hx with rfl | rfl <;> exact skips_solid rfl)
    rcases word_rule hn hf hx (u := r) "as" rfl (by decide) with h | rfl | ⟨y, v, rfl, hy⟩
    · exact No.seq1 h
    · exact No.seq2 (At.lit "as" hsk) (by rcases hx with rfl | rfl <;> exact No.head 9 rfl)
    · exact absurd ⟨y, _, rfl, hy⟩ hu
  | sign hc => rcases hc with rfl | rfl <;> exact No.head 15 rfl
  | use => exact No.head 15 rfl

theorem begin_chain {u : Text} (h : Begin u) (hu : Fits .expr u) : ChainStop u := by
  cases h with
  | doc =>
    have hsk := skips_doc (r := ‹Text›) (x := '/') (.inl rfl)
    have hov : No (.ref .overridableOperator) ('/' :: '/' :: '/' :: ‹Text›) := No.head 15 rfl
    refine ⟨⟨begin_stop .doc, No.ref (.inr rfl) (No.seq2 (At.optNone hov hsk) (No.head 15 rfl))⟩, No.seq1 ?_, ?_⟩
    · exact No.ref (.inr rfl) (No.choice (No.head 15 rfl) (No.choice (No.head 15 rfl) (No.choice (No.head 15 rfl)
        (No.ref (.inl rfl) (No.seq2 (At.optNone hov hsk) (No.head 15 rfl))))))
    · exact No.ref (.inl rfl) (No.seq2 (At.optNone hov hsk) (No.head 15 rfl))
  | rule hn => exact stop_ident ((ident_starts hn).append _)
  | @sign c f x r hc hf hx =>
    have hx : x = '=' := by
      rcases hx with rfl | rfl
      · exact absurd ⟨c, f, r, hc, hf, rfl⟩ hu
      · rfl
    subst hx
    have hsk : Skips (f ++ '=' :: r) ('=' :: r) := gap_skips hf (skips_solid rfl)
    have ov : At (.ref .overridableOperator) (c :: (f ++ '=' :: r)) ('=' :: r) (fun _ => True) := by
      rcases hc with rfl | rfl
      · exact (At.silent rfl (At.choice1 (At.tok (k := .tildeOperator) "~" rfl hsk))).mono fun _ _ => trivial
      · exact (At.silent rfl (At.choice2 (No.head 9 rfl) (At.tok (k := .caretOperator) "^" rfl hsk))).mono fun _ _ => trivial
    refine ⟨⟨begin_stop (.sign hc hf (.inr rfl)), No.ref (.inr rfl) (No.seq2 (At.opt ov) (No.head 15 rfl))⟩, ?_, No.ref (.inl rfl) (No.seq2 (At.opt ov) (No.head 15 rfl))⟩
    have inf : At (.ref .infixOperator) (c :: (f ++ '=' :: r)) ('=' :: r) (fun _ => True) := by
      rcases hc with rfl | rfl
      · exact (At.silent rfl (At.choice2 (No.head 9 rfl) (At.choice1 (At.tok (k := .tildeOperator) "~" rfl hsk)))).mono fun _ _ => trivial
      · exact (At.silent rfl (At.choice2 (No.head 9 rfl) (At.choice2 (No.head 9 rfl) (At.choice1 (At.tok (k := .caretOperator) "^" rfl hsk))))).mono fun _ _ => trivial
    exact No.seq2 inf (No.head 30 rfl)
  | use => exact stop_ident ⟨_, _, rfl, by decide⟩

theorem begin_follow {u : Text} (h : Begin u) {k : Ending} (hu : Fits k u) : FollowP k u := by
  cases k with
  | closed => exact begin_skips h
  | expr => exact begin_chain h hu
  | path => exact ⟨begin_stop h, begin_in h, begin_as h hu⟩

/-- The beginning of a rule. -/
theorem rule_begin {z : Rule} {ls : List Text} {o : Bool} {t s : Text} (h : RuleText z ls o t) : Begin (t ++ s) ∧ No (.ref .import) (t ++ s) := by
  cases h with
  | @mk _ d _ f ps g b hd hn hf hp hg hb =>
    cases hd with
    | cons => exact ⟨.doc, No.head 15 rfl⟩
    | nil =>
      obtain ⟨x, u, hxu, hx⟩ := params_head (s := g ++ (b ++ s)) hp
      have : [] ++ (z.name ++ (f ++ (ps ++ '=' :: (g ++ b)))) ++ s = z.name ++ (f ++ x :: u) := by
        rw [← hxu]; simp
      rw [this]
      rcases hn with hn | hn | hn
      · exact ⟨.rule hn hf hx, no_import_name hn hf hx⟩
      · rw [hn]; exact ⟨.sign (.inl rfl) hf hx, No.head 15 rfl⟩
      · rw [hn]; exact ⟨.sign (.inr rfl) hf hx, No.head 15 rfl⟩

/-! ## Files -/

/-- The pairs of items. -/
inductive ItemTrees : List FileItem → List (Name × List Text) → List PTree → Prop where
  | nil : ItemTrees [] [] []
  | cons {i d x l ds ts} : ItemMeans RawPlain x i → HasDocs x d → ItemTrees l ds ts → ItemTrees (i :: l) (d ++ ds) (x :: ts)

theorem ItemTrees.append {l m : List FileItem} {d e : List (Name × List Text)} {ts us : List PTree} (h : ItemTrees l d ts) (k : ItemTrees m e us) :
    ItemTrees (l ++ m) (d ++ e) (ts ++ us) := by
  induction h with
  | nil => exact k
  | cons h hd _ ih => rw [List.append_assoc]; exact .cons h hd ih

theorem ItemTrees.docs {l : List FileItem} {d : List (Name × List Text)} {ts : List PTree} (h : ItemTrees l d ts) : RuleTrees d ts := by
  induction h with
  | nil => exact .nil
  | cons _ hd _ ih => exact .cons hd ih

/-- An item is an import or a rule. -/
theorem item_at {i : FileItem} {d : List (Name × List Text)} {k : Ending} {t s r : Text} (h : ItemText i d k t) (hw : WordEnd s) (hs : Skips s r) (hr : Skips r r) (hf : FollowP k r) :
    Begin (t ++ s) ∧ ((∃ z, i = .rule z) ∧ At (.ref .grammarRule) (t ++ s) r (ItemTree i d) ∧ No (.ref .import) (t ++ s) ∨
      (∀ z, i ≠ .rule z) ∧ At (.ref .import) (t ++ s) r (ItemTree i d)) := by
  cases h with
  | closedRule h => exact ⟨(rule_begin h).1, .inl ⟨⟨_, rfl⟩, rule_at h hw hs (by simp), (rule_begin h).2⟩⟩
  | openRule h => exact ⟨(rule_begin h).1, .inl ⟨⟨_, rfl⟩, rule_at h hw hs fun _ => hf, (rule_begin h).2⟩⟩
  | @«import» i t h =>
    refine ⟨?_, .inr ⟨by simp, import_at h hw hs hr fun ha => ?_⟩⟩
    · cases h; exact .use
    · rw [if_pos ha] at hf; exact hf

theorem tail_wordEnd {g : Text} (h : Tail g) : WordEnd g := by
  cases h with
  | gap h => simpa using wordEnd_gap (r := []) h (by intro _ h; cases h)
  | line h => exact wordEnd_gap h (wordEnd_cons (by decide))

def itemPart : PE := .choice (.ref .import) (.ref .grammarRule)

/-- Items as the meta-grammar takes them: imports, a rule, and the others. -/
def FirstRule (l : List FileItem) (ds : List (Name × List Text)) (u : Text) : Prop :=
  ∃ l1 i l2 d1 d d2 u1 u2, l = l1 ++ i :: l2 ∧ ds = d1 ++ (d ++ d2) ∧ Loops (.ref .import) u u1 (ItemTrees l1 d1) ∧
    At (.ref .grammarRule) u1 u2 (ItemTree i d) ∧ Loops itemPart u2 [] (ItemTrees l2 d2)

theorem items_at {l : List FileItem} {ds : List (Name × List Text)} {u : Text} (h : ItemsText l ds u) : Begin u ∧ Loops itemPart u [] (ItemTrees l ds) ∧
    ((∃ z, .rule z ∈ l) → FirstRule l ds u) := by
  have hnil : Loops itemPart [] [] (ItemTrees [] []) := (Loops.nil (skips_solid rfl) (No.head 15 rfl)).mono (by rintro _ rfl; exact .nil)
  have step : ∀ {i : FileItem} {d : List (Name × List Text)} {k : Ending} {l : List FileItem} {ds : List (Name × List Text)} {t s r : Text}, ItemText i d k t → WordEnd s → Skips s r → Skips r r → FollowP k r →
      Loops itemPart r [] (ItemTrees l ds) → ((∃ z, .rule z ∈ l) → FirstRule l ds r) →
      Begin (t ++ s) ∧ Loops itemPart (t ++ s) [] (ItemTrees (i :: l) (d ++ ds)) ∧ ((∃ z, .rule z ∈ i :: l) → FirstRule (i :: l) (d ++ ds) (t ++ s)) := by
    intro i d k l ds t s r hi hw hs hr hf hl hrec
    have fin : ∀ {l : List FileItem} {ds} ts, App (ItemTree i d) (ItemTrees l ds) ts → ItemTrees (i :: l) (d ++ ds) ts := by
      rintro l ds _ ⟨_, us, rfl, ⟨x, rfl, hx, hd⟩, hu⟩
      exact .cons hx hd hu
    obtain ⟨hb, ⟨_, h1, h2⟩ | ⟨h0, h1⟩⟩ := item_at hi hw hs hr hf
    · refine ⟨hb, (Loops.cons (At.choice2 h2 h1) hl).mono fin, fun _ => ⟨[], i, l, [], d, ds, t ++ s, r, rfl, rfl, ?_, h1, hl⟩⟩
      exact (Loops.nil (begin_skips hb) h2).mono (by rintro _ rfl; exact .nil)
    · refine ⟨hb, (Loops.cons (At.choice1 h1) hl).mono fin, fun ⟨z, hz⟩ => ?_⟩
      rcases List.mem_cons.1 hz with hz | hz
      · exact absurd hz.symm (h0 z)
      · obtain ⟨l1, j, l2, d1, e, d2, u1, u2, rfl, rfl, k1, k2, k3⟩ := hrec ⟨z, hz⟩
        exact ⟨i :: l1, j, l2, d ++ d1, e, d2, u1, u2, rfl, by rw [List.append_assoc], (Loops.cons h1 k1).mono fin, k2, k3⟩
  induction h with
  | last hi ht =>
    have := step hi (tail_wordEnd ht) (skips_tail ht) (skips_solid rfl) (follow_empty _) hnil (by simp)
    rwa [List.append_nil] at this
  | cons hi hg hgn _ hfit ih =>
    obtain ⟨i1, i2, i3⟩ := ih
    have hsk := begin_skips i1
    exact step hi (gap_wordEnd hg hgn) (gap_skips hg hsk) hsk (begin_follow i1 hfit) i2 i3

theorem eoi_at : At (.ref .eoi) [] [] (· = [.node .eoi [] []]) := by
  intro c hc
  have h := Rec.eoi (g := metaGrammar) (m := .nonAtomic) (c := c)
  rw [if_pos hc] at h
  have := ref_normal (r := .eoi) rfl (by simp) h
  exact ⟨c, _, this, by rw [hc]; exact skips_solid rfl, rfl, by simp [between]⟩

/-- What is written according to `Documented` is accepted, and its pairs mean the items. -/
theorem file_rec {items : List FileItem} {top : List Text} {docs : List (Name × List Text)} {text : Text} (h : Documented items top docs text) :
    ∃ c us ts l, MRec .nonAtomic (.ref .grammarRules) ⟨[], text, []⟩ (some (c, us ++ (ts ++ [.node .eoi [] []]))) ∧
      items = List.replicate top.length .doc ++ l ∧ DocTrees .grammarDoc ['/', '/', '!'] top us ∧ ItemTrees l docs ts := by
  cases h with
  | @mk g d _ items _ t hg hd ht hr =>
    obtain ⟨hb, _, h2⟩ := items_at ht
    obtain ⟨l1, i, l2, d1, e, d2, u1, u2, rfl, rfl, k1, k2, k3⟩ := h2 hr
    have hnd : No (.ref .grammarDoc) t := by
      have hh : t.head? ≠ some '/' ∨ ∃ r, t = '/' :: '/' :: '/' :: r := by
        cases hb with
        | doc => exact .inr ⟨_, rfl⟩
        | rule hn => exact .inl (((ident_starts hn).append _).ne (by decide))
        | sign hc => left; rcases hc with rfl | rfl <;> simp
        | use => left; simp
      rcases hh with hh | ⟨r, rfl⟩
      · exact No.head 3 (by simp [mayStart, metaGrammar, seqs, lit, hh])
      · exact fun c hc => ref_fail rfl (.seqFail (fail_str (by
          rw [hc]
          rintro ⟨v, hv⟩
          simp at hv)))
    have hdocs := docs_at (k := .grammarDoc) (sign := "//!") (x := '!') rfl (.inr rfl) rfl hd (begin_skips hb) hnd
    have hall := At.seq hdocs.1 (At.seq k1.1 (At.seq k2 (At.seq k3.1 eoi_at)))
    have hsk := gap_skips hg (docs_skip (x := '!') rfl (.inr rfl) hd (begin_skips hb))
    have hsoi := Rec.soi (g := metaGrammar) (m := .nonAtomic) (c := ⟨[], g ++ (d ++ t), []⟩)
    rw [if_pos rfl] at hsoi
    obtain ⟨c1, s1, s2, s3⟩ := hsk.skip (c := ⟨[], g ++ (d ++ t), []⟩) rfl
    obtain ⟨c2, ts, t1, t2, t3, us, _, rfl, hu, vs, _, rfl, hv, ws, _, rfl, ⟨x, rfl, hx, hxd⟩, ys, _, rfl, hy, rfl⟩ := hall c1 s2
    refine ⟨c2, us, vs ++ (x :: ys), _, ?_, rfl, hu, hv.append (.cons hx hxd hy)⟩
    have := ref_silent (r := .grammarRules) rfl (Rec.seq hsoi s1 t1)
    simpa using this

end Pest3.Gen
