import Verif.Props.Files
import Verif.ForwardFile

/-!
# Property C68: the notation of grammars
-/

namespace Pest3.Props
open Pest3 Pest3.Gen Pest3.Load
open Pest3.Meta (MetaRule)

theorem means_read {t : PTree} {i : FileItem} (h : ItemMeans RawPlain t i) : ReadAs t (some i) := by
  cases h with
  | rule h ho =>
    have hr : t.rule = .grammarRule := by cases h; rfl
    obtain ⟨N, hN⟩ := rule_read rawPlain_read h ho
    exact ⟨N, fun n hn => by simp only [readItem, hr, hN n hn, tryThen_some, settle, Option.map_some]⟩
  | badRule h ho =>
    have hr : t.rule = .grammarRule := by cases h; rfl
    obtain ⟨N, hN⟩ := rule_read rawPlain_read h ho
    exact ⟨N, fun n hn => by simp only [readItem, hr, hN n hn, tryThen_none, settle, Option.map_none, Option.map_some]⟩
  | imp h =>
    have hr := importShaped_rule h
    have h1 := C64_import (content := some) h (by intro _ h; cases h)
    exact ⟨0, fun n _ => by simp only [readItem, hr, h1, tryThen_some, settle]; rfl⟩
  | impFile h ho =>
    have hr := importShaped_rule h
    rename_i q s f alias
    have h1 := C64_import (content := fun _ => some f) h (by intro _ h; cases h; exact ho)
    exact ⟨0, fun n _ => by simp only [readItem, hr, h1, tryThen_some, settle, Option.map_some]⟩
  | badFile h ho =>
    have hr := importShaped_rule h
    have h1 := C64_import (content := fun _ => none) h (by intro _ h; cases h; exact ho)
    exact ⟨0, fun n _ => by simp only [readItem, hr, h1, tryThen_none, settle, Option.map_none, Option.map_some]⟩
  | doc h => exact ⟨0, fun n _ => by simp only [readItem, h]; rfl⟩

theorem trees_read {items : List FileItem} {docs : List (Name × List Text)} {ts : List PTree} (h : ItemTrees items docs ts) :
    AllRead (ts ++ [.node .eoi [] []]) items := by
  induction h with
  | nil => exact .skip ⟨0, fun _ _ => rfl⟩ .nil
  | cons h _ _ ih => exact .cons (means_read h) ih

theorem docs_read {sign : Text} {ls : List Text} {us ts : List PTree} {items : List FileItem} (h : DocTrees .grammarDoc sign ls us) (k : AllRead ts items) :
    AllRead (us ++ ts) (List.replicate ls.length .doc ++ items) := by
  induction h with
  | nil => exact k
  | cons _ ih => exact .cons (means_read (.doc rfl)) ih

/-- A text written according to the notation is read as what the notation says. -/
theorem C68_notation {items : List FileItem} {text : Text} (h : FileText items text) : Reads text items := by
  obtain ⟨top, docs, h⟩ := h
  obtain ⟨c, us, ts, l, h1, rfl, h2, h3⟩ := file_rec h
  exact readText_some (recognised_iff.2 ⟨c, h1⟩) (docs_read h2 (trees_read h3))

/-- The notation is unambiguous. -/
theorem C68_unambiguous {items items' : List FileItem} {text : Text} (h : FileText items text) (h' : FileText items' text) : items = items' :=
  (C67_unique (C68_notation h')).2 _ (C68_notation h)

/-! ## Everything can be written -/

/-- What files contain: documentation, then imports and rules that can be written, at least one rule. -/
def Proper (items : List FileItem) : Prop :=
  ∃ n rest, items = List.replicate n .doc ++ rest ∧ (∀ i ∈ rest, (∃ r, i = .rule r ∧ RuleOk r) ∨ ∃ m, i = .imp m ∧ ImportOk m) ∧
    ∃ r, .rule r ∈ rest

theorem path_text {q : List Name} (hq : q ≠ []) (h : ∀ x ∈ q, IsIdent x) : ∃ t, PathText q t := by
  induction q with
  | nil => exact absurd rfl hq
  | cons x q ih =>
    cases q with
    | nil => exact ⟨_, .one (h x (by simp))⟩
    | cons y q =>
      obtain ⟨t, ht⟩ := ih (by simp) fun z hz => h z (List.mem_cons_of_mem _ hz)
      exact ⟨_, .cons (h x (by simp)) .nil .nil ht⟩

theorem perhaps_text (o : Option Text) : ∃ t, Perhaps o t := by
  cases o with
  | none => exact ⟨_, .none .nil⟩
  | some x => exact ⟨_, .some .nil .nil⟩

theorem op_text (op : PostOp) : ∃ t, OpText op t := by
  cases op with
  | opt => exact ⟨_, .opt⟩
  | star => exact ⟨_, .star⟩
  | plus => exact ⟨_, .plus⟩
  | bounds a b =>
    obtain ⟨t, ht⟩ := perhaps_text (a.map Meta.decimal)
    obtain ⟨u, hu⟩ := perhaps_text (b.map Meta.decimal)
    exact ⟨_, .bounds ht hu⟩
  | exact n =>
    obtain ⟨t, ht⟩ := perhaps_text (some (Meta.decimal n))
    exact ⟨_, .exact ht⟩

theorem sep_text {s : Option Trivia} (h : s ≠ some .none) : ∃ t, SepText s t := by
  rcases s with _ | _ | _ | _
  · exact ⟨_, .none⟩
  · exact absurd rfl h
  · exact ⟨_, .tilde .nil⟩
  · exact ⟨_, .caret .nil⟩

theorem note_up {e : Expr} {t : Text} (h : Note (.expr .primary e) t) : Note (.expr .prefixed e) t := .unprefixed (.unpostfixed h)

theorem note_whole {e : Expr} {t : Text} (h : Note (.expr .prefixed e) t) : Note (.expr .whole e) t := .whole (.alternative (.single h))

theorem note_paren {e : Expr} (h : ∃ t, Note (.expr .whole e) t) : ∃ t, Note (.expr .primary e) t := by
  obtain ⟨t, h⟩ := h
  exact ⟨_, .paren .nil h .nil⟩

theorem note_alone {e : Expr} {t : Text} (h : Note (.expr .primary e) t) : ∃ t, Note (.expr .whole e) t := ⟨t, note_whole (note_up h)⟩

theorem note_post {e e' : Expr} (h : ∃ t, Note (.expr .whole e) t) (p : Post) (hs : p.sep ≠ some .none) (ha : p.apply e = some e') :
    ∃ t, Note (.expr .whole e') t := by
  obtain ⟨t, h⟩ := note_paren h
  obtain ⟨s, hs⟩ := sep_text hs
  obtain ⟨o, ho⟩ := op_text p.op
  exact ⟨_, note_whole (.unprefixed (.post (.unpostfixed h) .nil hs ho ha))⟩

theorem named_sep {e : Expr} {t : Trivia} (h : Named (.separated e t)) : Named e := by cases h; assumption

/-- Every expression that can be written at all can be written as text. -/
theorem note_exists {e : Expr} (h : Writable e) (hn : Named e) : ∃ t, Note (.expr .whole e) t := by
  induction h with
  | str s => exact note_alone (.str (denotes_unicode s))
  | insens s => exact note_alone (.insens (denotes_unicode s))
  | range a b => exact note_alone (.range (charLit_unicode a) .nil .nil (charLit_unicode b))
  | path hq =>
    cases hn with
    | path hn =>
      obtain ⟨t, ht⟩ := path_text hq hn
      exact note_alone (.path ht)
  | call hq _ ih =>
    rename_i q args hw
    cases hn with
    | call hn ha =>
      obtain ⟨t, ht⟩ := path_text hq hn
      have : ∃ u, Note (.args args) u := by
        clear hw
        induction args with
        | nil => exact ⟨_, .noArgs .nil⟩
        | cons a args ih2 =>
          obtain ⟨v, hv⟩ := ih a (by simp) (ha a (by simp))
          obtain ⟨u, hu⟩ := ih2 (fun x hx => ih x (List.mem_cons_of_mem _ hx)) fun x hx => ha x (List.mem_cons_of_mem _ hx)
          cases args with
          | nil => exact ⟨_, .lastArg .nil hv .nil⟩
          | cons b args => exact ⟨_, .moreArgs .nil hv .nil hu⟩
      obtain ⟨u, hu⟩ := this
      exact note_alone (.call ht .nil hu)
  | slice hq h1 h2 =>
    rename_i q r
    cases hn with
    | slice hn =>
      obtain ⟨t, ht⟩ := path_text hq hn
      have hf : ∀ o : Option Int, (∀ x ∈ o, -2 ^ 63 ≤ x ∧ x < 2 ^ 63) → fits (o.map intLit) := by
        intro o ho x hx
        obtain ⟨y, hy, rfl⟩ := Option.map_eq_some_iff.mp hx
        rw [intLit_value]; exact ho y hy
      have hv : ∀ o : Option Int, (o.map intLit).map IntLit.value = o := by
        intro o; cases o <;> simp [intLit_value]
      have hs : Gen.sliceSpec (r.start.map intLit) (r.stop.map intLit) = some r := by
        unfold Gen.sliceSpec
        rw [if_pos ⟨hf _ h1, hf _ h2⟩, hv, hv]
      obtain ⟨u, hu⟩ := perhaps_text ((r.start.map intLit).map IntLit.text)
      obtain ⟨v, hv⟩ := perhaps_text ((r.stop.map intLit).map IntLit.text)
      exact note_alone (.slice ht .nil hu hv hs)
  | pos _ ih =>
    cases hn with
    | pos hn => obtain ⟨t, ht⟩ := note_paren (ih hn); exact ⟨_, note_whole (.pos .nil (note_up ht))⟩
  | neg _ ih =>
    cases hn with
    | neg hn => obtain ⟨t, ht⟩ := note_paren (ih hn); exact ⟨_, note_whole (.neg .nil (note_up ht))⟩
  | seq _ _ ih1 ih2 =>
    rename_i l r tr _ _
    cases hn with
    | seq hn1 hn2 =>
      obtain ⟨a, ha⟩ := note_paren (ih1 hn1)
      obtain ⟨b, hb⟩ := note_paren (ih2 hn2)
      have : ∃ o, JoinText tr o := by
        cases tr
        · exact ⟨_, .none⟩
        · exact ⟨_, .optional⟩
        · exact ⟨_, .mandatory⟩
      obtain ⟨o, ho⟩ := this
      exact ⟨_, .whole (.alternative (.seq (note_up ha) .nil ho .nil (.single (note_up hb))))⟩
  | choice _ _ ih1 ih2 =>
    cases hn with
    | choice hn1 hn2 =>
      obtain ⟨a, ha⟩ := note_paren (ih1 hn1)
      obtain ⟨b, hb⟩ := note_paren (ih2 hn2)
      exact ⟨_, .whole (.choice (.single (note_up ha)) .nil .nil (.alternative (.single (note_up hb))))⟩
  | opt _ ih => cases hn with | opt hn => exact note_post (ih hn) ⟨none, .opt⟩ (by simp) rfl
  | optSep _ ht ih => cases hn with | opt hn => exact note_post (ih (named_sep hn)) ⟨some _, .opt⟩ (by simpa using ht) rfl
  | rep _ ih => cases hn with | rep hn => exact note_post (ih hn) ⟨none, .star⟩ (by simp) rfl
  | repSep _ ht ih => cases hn with | rep hn => exact note_post (ih (named_sep hn)) ⟨some _, .star⟩ (by simpa using ht) rfl
  | repOnce _ ih => cases hn with | repOnce hn => exact note_post (ih hn) ⟨none, .plus⟩ (by simp) rfl
  | repOnceSep _ ht ih => cases hn with | repOnce hn => exact note_post (ih (named_sep hn)) ⟨some _, .plus⟩ (by simpa using ht) rfl
  | repRange _ hb ih =>
    rename_i r _
    cases hn with
    | repRange hn => exact note_post (ih hn) ⟨none, .bounds r.start r.stop⟩ (by simp) (by simp only [Post.apply, hb]; rfl)
  | repRangeSep _ ht hb ih =>
    rename_i r _
    cases hn with
    | repRange hn =>
      exact note_post (ih (named_sep hn)) ⟨some _, .bounds r.start r.stop⟩ (by simpa using ht) (by simp only [Post.apply, hb]; rfl)

theorem names_text (l : List Name) (h : ∀ x ∈ l, IsIdent x) : ∃ t, Names l t := by
  induction l with
  | nil => exact ⟨_, .none .nil⟩
  | cons x l ih =>
    obtain ⟨t, ht⟩ := ih fun y hy => h y (List.mem_cons_of_mem _ hy)
    cases l with
    | nil => exact ⟨_, .last (h x (by simp)) .nil .nil⟩
    | cons y l => exact ⟨_, .more (h x (by simp)) .nil .nil ht⟩

/-- Rules are written with documentation, which separates them from all that may be before. -/
theorem rule_text {r : Rule} (h : RuleOk r) : ∃ t, RuleText r [[]] false ('/' :: t) := by
  obtain ⟨a, ha⟩ := names_text r.args h.params
  obtain ⟨b, hb⟩ := note_exists h.expr h.names
  have hd : Docs ['/', '/', '/'] _ [[]] := .cons (t := []) (by intro _ h; cases h) .lf .nil .nil
  have hbody : ∃ t, BodyText r.node r.silent false t := by
    cases r.silent with
    | false => exact ⟨_, .braced .nil hb .nil⟩
    | true => exact ⟨_, .silentBraced .nil .nil hb .nil⟩
  obtain ⟨c, hc⟩ := hbody
  exact ⟨_, .mk hd h.name .nil (.list ha .nil) .nil hc⟩

theorem space_gap : Gap [' '] := .blank .space .nil

theorem import_text {m : ImportStmt} (h : ImportOk m) : ∃ t, Load.ImportText m ('u' :: t) := by
  obtain ⟨q, file, alias⟩ := m
  obtain ⟨t, ht⟩ := path_text h.path h.names
  have h1 : ∃ u, InText file u := by
    cases file with
    | none => exact ⟨_, .none⟩
    | some f =>
      obtain ⟨s, hs⟩ := h.file f rfl
      subst hs
      exact ⟨_, .some space_gap (by simp) .nil (denotes_unicode s)⟩
  have h2 : ∃ u, AsText alias u := by
    cases alias with
    | none => exact ⟨_, .none⟩
    | some x => exact ⟨_, .some space_gap (by simp) space_gap (by simp) (h.alias x rfl)⟩
  obtain ⟨u, hu⟩ := h1
  obtain ⟨v, hv⟩ := h2
  exact ⟨_, .mk .nil ht hu hv⟩

/-- Every list of items that a file may contain is what some text says. -/
theorem proper_text {items : List FileItem} (h : Proper items) : ∃ text, FileText items text := by
  obtain ⟨n, rest, rfl, hr, hx⟩ := h
  have hd : ∀ n, ∃ d, Docs ['/', '/', '!'] d (List.replicate n []) := by
    intro n
    induction n with
    | zero => exact ⟨_, .nil⟩
    | succ n ih =>
      obtain ⟨d, hd⟩ := ih
      exact ⟨_, .cons (t := []) (by intro _ h; cases h) .lf .nil hd⟩
  have ht : rest ≠ [] → ∃ ds c t, (c = '/' ∨ c = 'u') ∧ ItemsText rest ds (c :: t) := by
    clear hx
    induction rest with
    | nil => exact fun h => absurd rfl h
    | cons i rest ih =>
      intro _
      have hi : ∃ d k c t, (c = '/' ∨ c = 'u') ∧ ItemText i d k (c :: t) := by
        rcases hr i (by simp) with ⟨r, rfl, hk⟩ | ⟨m, rfl, hm⟩
        · obtain ⟨t, ht⟩ := rule_text hk
          exact ⟨_, _, _, _, .inl rfl, .closedRule ht⟩
        · obtain ⟨t, ht⟩ := import_text hm
          exact ⟨_, _, _, _, .inr rfl, .import ht⟩
      obtain ⟨e, k, c, t, hc, hi⟩ := hi
      cases rest with
      | nil => exact ⟨_, c, _, hc, .last hi (.gap .nil)⟩
      | cons j rest =>
        obtain ⟨ds, c', u, hc', hu⟩ := ih (fun x hx => hr x (List.mem_cons_of_mem _ hx)) (by simp)
        refine ⟨_, c, _, hc, .cons hi space_gap (by simp) hu ?_⟩
        cases k with
        | closed => trivial
        | expr =>
          rintro ⟨x, g, r, hx, _, he⟩
          cases he
          rcases hx with rfl | rfl <;> revert hc' <;> decide
        | path =>
          rintro ⟨x, r, he, _⟩
          cases he
          revert hc'
          decide
  obtain ⟨d, hd⟩ := hd n
  obtain ⟨r, hm⟩ := hx
  obtain ⟨ds, c, t, _, ht⟩ := ht (by rintro rfl; cases hm)
  have := Documented.mk .nil hd ht ⟨r, hm⟩
  rw [List.length_replicate] at this
  exact ⟨_, _, _, this⟩

/-! ## … and nothing else -/

theorem path_names {q : List Name} {t : Text} (h : PathText q t) : q ≠ [] ∧ ∀ x ∈ q, IsIdent x := by
  induction h with
  | one h => exact ⟨by simp, by simpa using h⟩
  | cons h _ _ _ ih => exact ⟨by simp, by simpa using ⟨h, ih.2⟩⟩

theorem post_named {p : Post} {e e' : Expr} (he : Named e) (h : p.apply e = some e') : Named e' := by
  obtain ⟨s, op⟩ := p
  have key : Named (Post.sepApply ⟨s, op⟩ e) := by
    cases s with
    | none => exact he
    | some t => exact .separated he
  cases op <;> simp only [Post.apply] at h
  · cases h; exact .opt key
  · cases h; exact .rep key
  · cases h; exact .repOnce key
  · obtain ⟨r, _, rfl⟩ := Option.map_eq_some_iff.mp h; exact .repRange key
  · obtain ⟨r, _, rfl⟩ := Option.map_eq_some_iff.mp h; exact .repRange key

/-- What is written can be written. -/
theorem note_ok {i : NItem} {t : Text} (h : Note i t) :
    match i with
    | .expr _ e => Writable e ∧ Named e
    | .args es => ∀ e ∈ es, Writable e ∧ Named e := by
  induction h with
  | whole _ ih => exact ih
  | leading _ _ _ _ _ ih1 ih2 => exact ⟨.choice ih1.1 ih2.1, .choice ih1.2 ih2.2⟩
  | alternative _ ih => exact ih
  | choice _ _ _ _ ih1 ih2 => exact ⟨.choice ih1.1 ih2.1, .choice ih1.2 ih2.2⟩
  | single _ ih => exact ih
  | seq _ _ _ _ _ ih1 ih2 => exact ⟨.seq ih1.1 ih2.1, .seq ih1.2 ih2.2⟩
  | unprefixed _ ih => exact ih
  | pos _ _ ih => exact ⟨.pos ih.1, .pos ih.2⟩
  | neg _ _ ih => exact ⟨.neg ih.1, .neg ih.2⟩
  | unpostfixed _ ih => exact ih
  | @post e e' p g s o t _ _ hs _ ha ih =>
    refine ⟨Post.writable ?_ ih.1 ha, post_named ih.2 ha⟩
    intro he
    rw [he] at hs
    cases hs
  | paren _ _ _ ih => exact ih
  | str => exact ⟨.str _, .str _⟩
  | insens => exact ⟨.insens _, .insens _⟩
  | raw => exact ⟨.str _, .str _⟩
  | range => exact ⟨.range _ _, .range _ _⟩
  | path h => exact ⟨.path (path_names h).1, .path (path_names h).2⟩
  | call h _ _ ih => exact ⟨.call (path_names h).1 fun a ha => (ih a ha).1, .call (path_names h).2 fun a ha => (ih a ha).2⟩
  | @slice q r g t u v a b h _ _ _ hs =>
    refine ⟨.slice (path_names h).1 ?_ ?_, .slice (path_names h).2⟩ <;>
    · unfold Gen.sliceSpec at hs
      split at hs
      · rename_i hf
        cases hs
        intro x hx
        obtain ⟨y, hy, rfl⟩ := Option.map_eq_some_iff.mp hx
        first | exact hf.1 y hy | exact hf.2 y hy
      · cases hs
  | noArgs => intro e he; cases he
  | lastArg _ _ _ ih => simpa using ih
  | trailing _ _ _ _ ih => simpa using ih
  | moreArgs _ _ _ _ ih1 ih2 =>
    intro e he
    rcases List.mem_cons.1 he with rfl | he
    · exact ih1
    · exact ih2 e he

theorem names_idents {l : List Name} {t : Text} (h : Names l t) : ∀ x ∈ l, IsIdent x := by
  induction h with
  | none => intro x hx; cases hx
  | last h => simpa using h
  | trailing h => simpa using h
  | more h _ _ _ ih =>
    intro z hz
    rcases List.mem_cons.1 hz with rfl | hz
    · exact h
    · exact ih z hz

theorem item_ok {i : FileItem} {d : List (Name × List Text)} {k : Ending} {t : Text} (h : ItemText i d k t) :
    (∃ r, i = .rule r ∧ RuleOk r) ∨ ∃ m, i = .imp m ∧ ImportOk m := by
  have rule : ∀ {r ls o t}, RuleText r ls o t → RuleOk r := by
    intro r ls o t h
    cases h with
    | mk _ hn _ hp _ hb =>
      have hp' : ∀ x ∈ r.args, IsIdent x := by
        generalize r.args = l at hp
        cases hp with
        | none => intro x hx; cases hx
        | list h => exact names_idents h
      have he : Writable r.node ∧ Named r.node := by
        generalize r.node = e at hb
        generalize r.silent = s at hb
        cases hb with
        | braced _ h => exact note_ok h
        | silentBraced _ _ h => exact note_ok h
        | plain h => exact note_ok h
        | silentPlain _ h => exact note_ok h
      exact ⟨hn, hp', he.1, he.2⟩
  cases h with
  | closedRule h => exact .inl ⟨_, rfl, rule h⟩
  | openRule h => exact .inl ⟨_, rfl, rule h⟩
  | «import» h =>
    refine .inr ⟨_, rfl, ?_⟩
    cases h with
    | mk _ hq hi ha =>
      refine ⟨(path_names hq).1, (path_names hq).2, ?_, ?_⟩
      · intro x hx
        cases ha with
        | none => cases hx
        | some _ _ _ _ h => cases hx; exact h
      · intro f hf
        cases hi with
        | none => cases hf
        | some => cases hf; exact ⟨_, rfl⟩

theorem text_proper {items : List FileItem} {text : Text} (h : FileText items text) : Proper items := by
  obtain ⟨top, docs, h⟩ := h
  cases h with
  | @mk g d _ items _ t _ _ ht hr =>
    refine ⟨_, items, rfl, ?_, hr⟩
    clear hr
    induction ht with
    | last h => simpa using item_ok h
    | cons h _ _ _ _ ih =>
      intro j hj
      rcases List.mem_cons.1 hj with rfl | hj
      · exact item_ok h
      · exact ih j hj

theorem zip_split {α β : Type} {p q : α → Prop} {f : α → β → Prop} {g : β → Prop} {y : β} (hy : ∀ a b, f a b → (p a → b = y) ∧ (q a → g b))
    {k : List β} : ∀ {docs rest : List α}, (docs ++ rest).length = k.length → (∀ a ∈ docs, p a) → (∀ a ∈ rest, q a) →
      (∀ x ∈ (docs ++ rest).zip k, f x.1 x.2) → ∃ r, k = List.replicate docs.length y ++ r ∧ ∀ b ∈ r, g b := by
  induction k with
  | nil =>
    intro docs rest hl _ _ _
    cases docs with
    | nil => exact ⟨[], rfl, by simp⟩
    | cons => simp at hl
  | cons b k ih =>
    intro docs rest hl hp hq hf
    cases docs with
    | nil =>
      refine ⟨b :: k, rfl, ?_⟩
      intro c hc
      obtain ⟨a, ha, hm⟩ := zip_item hl hc
      exact (hy _ _ (hf _ hm)).2 (hq a ha)
    | cons a docs =>
      have h1 := (hy _ _ (hf (a, b) (by simp))).1 (hp a (by simp))
      obtain ⟨r, h2, h3⟩ := ih (docs := docs) (rest := rest) (by simpa using hl) (fun x hx => hp x (List.mem_cons_of_mem _ hx)) hq
        fun x hx => hf x (by rw [List.cons_append, List.zip_cons_cons]; exact List.mem_cons_of_mem _ hx)
      dsimp only at h1
      exact ⟨r, by rw [h1, h2]; rfl, h3⟩

/-- Whatever a text is read as, if all of it is valid, is a grammar that can be written. -/
theorem reads_proper {items : List FileItem} {text : Text} (hq : ¬ quoteChar <:+: text) (h : Reads text items) (hi : .invalid ∉ items)
    (hp : .panics ∉ items) : Proper items := by
  obtain ⟨ts, h1, h2, h3, h4, ⟨docs, rest, rfl, hd, hr⟩, h6⟩ := reads_pairs (fun _ _ _ h => h) (rawRead_plain hq) h
  obtain ⟨r, hr'⟩ := C67_has_rule hq h hi
  obtain ⟨l, rfl, hl⟩ := zip_split (p := fun t : PTree => t.rule = .grammarDoc) (q := fun t => t.rule ≠ .grammarDoc)
    (f := fun t i => ItemMeans RawRead t i ∨ ImportArgs t ∧ (i = .panics ∨ i = .invalid)) (g := fun i => i ≠ .doc) (y := FileItem.doc) (by
      rintro t i (h | ⟨h, rfl | rfl⟩)
      · cases h with
        | rule h => cases h; simp
        | badRule h => cases h; simp
        | imp h => simp [importShaped_rule h]
        | impFile h => simp [importShaped_rule h]
        | badFile h => simp [importShaped_rule h]
        | doc h => simp [h]
      · cases h; simp
      · cases h; simp) h2 hd hr h6
  refine ⟨docs.length, l, rfl, ?_, r, ?_⟩
  · intro i hm
    have hm' : i ∈ List.replicate docs.length FileItem.doc ++ l := List.mem_append_right _ hm
    have hok := h3 i hm'
    have hne := hl i hm
    cases i with
    | doc => exact absurd rfl hne
    | invalid => exact absurd hm' hi
    | panics => exact absurd hm' hp
    | rule r => exact .inl ⟨r, rfl, hok⟩
    | imp m => exact .inr ⟨m, rfl, hok⟩
  · rcases List.mem_append.1 hr' with h | h
    · cases (List.mem_replicate.1 h).2
    · exact h

/-- `Proper` says what grammars are: those are read from texts, and all of them can be written and are read back as they are. -/
theorem C68_every_grammar {items : List FileItem} :
    (Proper items → ∃ text, FileText items text ∧ Reads text items) ∧
    ∀ text, ¬ quoteChar <:+: text → Reads text items → .invalid ∉ items → .panics ∉ items → Proper items := by
  constructor
  · intro h
    obtain ⟨text, ht⟩ := proper_text h
    exact ⟨text, ht, C68_notation ht⟩
  · exact fun text => reads_proper

/-! ## Consequences -/

theorem gap_append {g h : Text} (hg : Gap g) (hh : Gap h) : Gap (g ++ h) := by
  induction hg with
  | nil => exact hh
  | blank hb _ ih => rw [List.append_assoc]; exact .blank hb ih
  | line ht he _ ih =>
    simp only [List.cons_append, List.append_assoc]
    exact .line ht he ih
  | block hb _ ih =>
    simp only [List.cons_append, List.append_assoc]
    exact .block hb ih

/-- Blanks and comments at the beginning of a file do not matter. -/
theorem C68_leading_gap {items : List FileItem} {text g : Text} (h : FileText items text) (hg : Gap g) : Reads (g ++ text) items := by
  obtain ⟨top, docs, h⟩ := h
  cases h with
  | mk h1 h2 h3 h4 =>
    rw [← List.append_assoc]
    exact C68_notation ⟨_, _, .mk (gap_append hg h1) h2 h3 h4⟩

/-- A file with a single rule in braces. -/
def ruleFile (x : Name) (t : Text) : Text := x ++ ('=' :: '{' :: (t ++ ['}']))

/-- The text of an expression is read as this expression. -/
theorem C68_expression {x : Name} {e : Expr} {t : Text} (hx : IsIdent x) (h : Note (.expr .whole e) t) :
    Reads (ruleFile x t) [.rule ⟨x, [], e, false⟩] := by
  have h1 : RuleText ⟨x, [], e, false⟩ [] false _ := .mk .nil (.inl hx) .nil .none .nil (.braced .nil h .nil)
  have h2 := C68_notation ⟨_, _, .mk .nil .nil (.last (.closedRule h1) (.gap .nil)) ⟨_, List.mem_singleton.2 rfl⟩⟩
  simpa [ruleFile] using h2

/-- Sequences bind tighter than choices, prefix operators tighter than sequences, and postfix operators tighter than prefix operators. -/
theorem C68_precedence {x : Name} {a b c d : Expr} {s t u v : Text} (hx : IsIdent x) (ha : Note (.expr .primary a) s)
    (hb : Note (.expr .primary b) t) (hc : Note (.expr .primary c) u) (hd : Note (.expr .primary d) v) :
    Reads (ruleFile x (s ++ '|' :: (t ++ '~' :: '!' :: (u ++ '*' :: '|' :: v))))
      [.rule ⟨x, [], .choice a (.choice (.seq b (.neg (.rep c)) .optional) d), false⟩] := by
  refine C68_expression hx ?_
  have h1 : Note (.expr .postfixed (.rep c)) _ := .post (p := ⟨none, .star⟩) (.unpostfixed hc) .nil .none .star rfl
  have h2 : Note (.expr .sequence (.seq b (.neg (.rep c)) .optional)) _ :=
    .seq (note_up hb) .nil .optional .nil (.single (.neg .nil (.unprefixed h1)))
  have h3 := Note.whole (.choice (.single (note_up ha)) .nil .nil (.choice h2 .nil .nil (.alternative (.single (note_up hd)))))
  simpa using h3

/-! ## Texts -/

private theorem ident1 (x : Char) (h : identStart x) : IsIdent [x] := .mk h (by intro _ h; cases h)

private theorem ident_a : IsIdent ['a'] := ident1 'a' (.inr (.inl (by decide)))
private theorem ident_b : IsIdent ['b'] := ident1 'b' (.inr (.inl (by decide)))
private theorem ident_r : IsIdent ['r'] := ident1 'r' (.inr (.inl (by decide)))

def exItems : List FileItem :=
  [.doc, .imp ⟨[['a'], ['b']], some (pathOf ['f']), none⟩,
   .rule ⟨['r'], [['a']], .choice (.path [['a']]) (.choice (.seq (.path [['b']]) (.str ['x']) .optional) (.rep (.path [['b']]))), true⟩,
   .rule ⟨['~'], [], .str ['b'], false⟩]

def exText : Text := "//! d
use a::b in \"f\"
/// e
r(a) = _{ |a | b ~ r\"x\" /* /**/ */|(b)* }
~ = \"b\" // end".toList

theorem exText_documented : Documented exItems [" d".toList] [(['r'], [" e".toList]), (['~'], [])] exText := by
  have gap : ∀ {g}, Gap g → Gap (' ' :: g) := fun h => .blank .space h
  have str : ∀ x : Char, x ≠ '"' → x ≠ '\\' → Meta.Denotes [x] (some [x]) := fun x h1 h2 => .plain h1 h2 .nil
  have line : ∀ x : Char, x ≠ '\n' → x ≠ '\r' → Line [' ', x] := by
    intro x h1 h2 y hy
    simp only [List.mem_cons, List.not_mem_nil, or_false] at hy
    rcases hy with rfl | rfl
    · decide
    · exact ⟨h1, h2⟩
  have body : Body " /**/ ".toList :=
    .char (by decide) (by decide) (.nest .nil (.char (by decide) (by decide) .nil))
  have star : Note (.expr .postfixed (.rep (.path [['b']]))) _ :=
    .post (p := ⟨none, .star⟩) (.unpostfixed (.paren .nil (note_whole (note_up (.path (.one ident_b)))) .nil)) .nil .none .star rfl
  have expr := Note.leading .nil (note_up (.path (.one ident_a))) (gap .nil) (gap .nil)
    (.choice (.seq (note_up (.path (.one ident_b))) (gap .nil) .optional (gap .nil) (.single (note_up (.raw (s := ['x']) (by decide)))))
      (gap (.block body .nil)) .nil (.alternative (.single (.unprefixed star))))
  have rule1 : RuleText ⟨['r'], [['a']], _, true⟩ [" e".toList] false _ :=
    .mk (.cons (line 'e' (by decide) (by decide)) .lf .nil .nil) (.inl ident_r) .nil (.list (.last ident_a .nil .nil) (gap .nil)) (gap .nil)
      (.silentBraced .nil (gap .nil) expr (gap .nil))
  have rule2 : RuleText ⟨['~'], [], _, false⟩ [] true _ :=
    .mk .nil (.inr (.inl rfl)) (gap .nil) .none (gap .nil)
      (.plain (note_whole (note_up (.str (str 'b' (by decide) (by decide))))) (by intro r h; cases h))
  have imp : Load.ImportText ⟨[['a'], ['b']], some (pathOf ['f']), none⟩ _ :=
    .mk .nil (.cons ident_a .nil .nil (.one ident_b)) (.some (gap .nil) (by simp) (gap .nil) (str 'f' (by decide) (by decide))) .none
  have nl : Gap ['\n'] := .blank (.line .lf) .nil
  have tail : Tail " // end".toList := .line (g := [' ']) (t := " end".toList) (gap .nil) ⟨by unfold Line; decide, by decide, by decide⟩
  have file : Documented exItems [" d".toList] [(['r'], [" e".toList]), (['~'], [])] _ := .mk .nil (.cons (line 'd' (by decide) (by decide)) .lf .nil .nil)
    (.cons (.import imp) nl (by simp) (.cons (.closedRule rule1) nl (by simp) (.last (.openRule rule2) tail) trivial)
      (by rintro ⟨x, r, h, _⟩; cases h)) ⟨_, List.mem_cons_of_mem _ List.mem_cons_self⟩
  have he : ∀ {t : Text}, Documented exItems [" d".toList] [(['r'], [" e".toList]), (['~'], [])] t → t = exText →
      Documented exItems [" d".toList] [(['r'], [" e".toList]), (['~'], [])] exText := by rintro _ h rfl; exact h
  exact he file (by decide +kernel)

example : FileText exItems exText := ⟨_, _, exText_documented⟩

example : Proper exItems := by
  refine ⟨1, _, rfl, ?_, _, List.mem_cons_of_mem _ List.mem_cons_self⟩
  simp only [List.mem_cons, List.not_mem_nil, or_false]
  rintro i (rfl | rfl | rfl)
  · exact .inr ⟨_, rfl, by simp, by simp [ident_a, ident_b], by simp, by rintro f hf; cases hf; exact ⟨_, rfl⟩⟩
  · exact .inl ⟨_, rfl, .inl ident_r, by simp [ident_a], .choice (.path (by simp)) (.choice (.seq (.path (by simp)) (.str _)) (.rep (.path (by simp)))),
      .choice (.path (by simp [ident_a])) (.choice (.seq (.path (by simp [ident_b])) (.str _)) (.rep (.path (by simp [ident_b]))))⟩
  · exact .inl ⟨_, rfl, .inr (.inl rfl), by simp, .str _, .str _⟩

/-- A bar at the beginning is not possible before a sequence. -/
theorem C68_bar_witness : Rejected "a = | b - c | d".toList ∧
    Reads "a = | b | c - d".toList [.rule ⟨['a'], [], .choice (.path [['b']]) (.seq (.path [['c']]) (.path [['d']]) .none), false⟩] :=
  ⟨rejected_run (n := 1000) (by decide +kernel), reads_run (n := 1000) (by decide +kernel)⟩

/-- The underscore of silent rules is taken from names that are just an underscore followed by no name: `_ = …` is a rule, but it cannot be
called where the expression of a rule begins. -/
theorem C68_underscore_witness : Rejected "_ = \"x\" a = _".toList ∧
    Reads "_ = \"x\" a = {_}".toList [.rule ⟨['_'], [], .str ['x'], false⟩, .rule ⟨['a'], [], .path [['_']], false⟩] :=
  ⟨rejected_run (n := 1000) (by decide +kernel), reads_run (n := 1000) (by decide +kernel)⟩

end Pest3.Props
