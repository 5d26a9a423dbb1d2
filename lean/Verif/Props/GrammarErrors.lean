import Verif.AttemptLemmas
import Verif.Props.EndToEnd
import Verif.Props.Messages

/-!
# C81: the errors of generated parsers, in terms of the grammar

C33, C34 and C60 say what the error of a parser reports about the structs that were tried; here the structs are those generated
for a grammar, and what is reported is said in terms of the rules as they are written (`Verif/AttemptSpec.lean`).
-/

namespace Pest3.Props
open Pest3 Pest3.Gen Pest3.Load

/-- Every label in the events is the number of a value of the enumeration of the module. -/
def OnlyValues (root : Module) (rank : RuleVal → Label) (ups : List (Label × Nat)) (es : List Ev) : Prop :=
  ∀ ups' e, Within ups es ups' e → (∀ x pos f ok cs, e = .rule x pos f ok cs → ∃ v, IsValue root v ∧ x = rank v) ∧
    ∀ x ∈ ups', x ∈ ups ∨ ∃ v, IsValue root v ∧ x.1 = rank v

theorem onlyValues_nil {root rank ups} : OnlyValues root rank ups [] := by
  intro ups' e h
  cases h with
  | here h => cases h
  | inner h _ => cases h

theorem onlyValues_special {root rank ups pos e} : OnlyValues root rank ups [.special pos e] := by
  intro ups' e h
  cases h with
  | here h => cases List.mem_singleton.mp h; exact ⟨(by intro _ _ _ _ _ h; cases h), fun x hx => .inl hx⟩
  | inner h _ => cases List.mem_singleton.mp h

theorem onlyValues_leaf {root rank ups l c} : OnlyValues root rank ups (leafEvents l c) := by
  unfold leafEvents
  split
  · exact onlyValues_special
  · exact onlyValues_nil

theorem onlyValues_append {root rank ups es es'} (h : OnlyValues root rank ups es) (h' : OnlyValues root rank ups es') :
    OnlyValues root rank ups (es ++ es') := by
  intro ups' e hw
  cases hw with
  | here hm =>
    rcases List.mem_append.mp hm with hm | hm
    · exact h _ _ (.here hm)
    · exact h' _ _ (.here hm)
  | inner hm hw =>
    rcases List.mem_append.mp hm with hm | hm
    · exact h _ _ (.inner hm hw)
    · exact h' _ _ (.inner hm hw)

theorem onlyValues_rule {root : Module} {rank : RuleVal → Label} {ups : List (Label × Nat)} {v : RuleVal} {pos : Nat} {f ok : Bool} {es : List Ev} (hv : IsValue root v)
    (h : OnlyValues root rank ((rank v, pos) :: ups) es) : OnlyValues root rank ups [.rule (rank v) pos f ok es] := by
  intro ups' e hw
  cases hw with
  | here hm => cases List.mem_singleton.mp hm; exact ⟨(by rintro _ _ _ _ _ h; cases h; exact ⟨v, hv, rfl⟩), fun x hx => .inl hx⟩
  | inner hm hw =>
    cases List.mem_singleton.mp hm
    obtain ⟨h1, h2⟩ := h _ _ hw
    refine ⟨h1, fun x hx => ?_⟩
    rcases h2 x hx with h3 | h3
    · rcases List.mem_cons.mp h3 with rfl | h3
      · exact .inr ⟨v, hv, rfl⟩
      · exact .inl h3
    · exact .inr h3

theorem tries_values {u : Unicode} {root : Module} {rank : RuleVal → Label} {f : Bool} {item : SItem} {c : Cfg} {r : Option Cfg} {es : List Ev}
    (h : Tries u root rank f item c r es) : ∀ ups, OnlyValues root rank ups es := by
  have value : ∀ {p q p' r}, target u root p q = some (.rule p' r) → IsValue root (ruleAt p' r.name) := by
    intro p q p' r ht
    obtain ⟨m', h1, h2, h3, h4⟩ := target_rule ht
    exact C66_value h1 (findRule_mem h2).1 h3 h4
  induction h with
  | literal => exact fun _ => onlyValues_nil
  | builtinOk => exact fun _ => onlyValues_nil
  | builtinFail => exact fun _ => onlyValues_leaf
  | sliceOk => exact fun _ => onlyValues_nil
  | sliceFail => exact fun _ => onlyValues_leaf
  | rule _ h2 _ _ ih => exact fun _ => onlyValues_rule (value h2) (ih _)
  | call _ h2 _ _ ih => exact fun _ => onlyValues_rule (value h2) (ih _)
  | seq _ _ _ ih1 ih2 ih3 => exact fun _ => onlyValues_append (ih1 _) (onlyValues_append (ih2 _) (ih3 _))
  | seqTriviaFail _ _ ih1 ih2 => exact fun _ => onlyValues_append (ih1 _) (ih2 _)
  | choiceR _ _ ih1 ih2 => exact fun _ => onlyValues_append (ih1 _) (ih2 _)
  | unitNext _ _ ih1 ih2 => exact fun _ => onlyValues_append (ih1 _) (ih2 _)
  | repsMore _ _ _ ih1 ih2 => exact fun _ => onlyValues_append (ih1 _) (ih2 _)
  | triviaNone => exact fun _ => onlyValues_nil
  | repsMax => exact fun _ => onlyValues_nil
  | pushOk _ _ _ ih => exact ih
  | pushFail _ _ _ ih => exact ih
  | param _ _ ih => exact ih
  | posOk _ ih => exact ih
  | posFail _ ih => exact ih
  | negOk _ ih => exact ih
  | negFail _ ih => exact ih
  | seqFail _ ih => exact ih
  | choiceL _ ih => exact ih
  | optSome _ ih => exact ih
  | optNone _ ih => exact ih
  | rep _ _ ih => exact ih
  | separated _ ih => exact ih
  | triviaRule _ _ _ ih => exact ih
  | unitFirst _ ih => exact ih
  | unitTriviaFail _ ih => exact ih
  | repsFew _ _ _ ih => exact ih
  | repsStop _ _ _ ih => exact ih

/-- There is a numbering of the values of the enumeration. -/
theorem C81_ranks : ∃ rank : RuleVal → Label, Ranks rank := ranks_exist

/-- Whatever has a result has events, and the other way round. -/
theorem C81_total {u : Unicode} {root : Module} {rank : RuleVal → Label} {f : Bool} {e : Clo} {c : Cfg} {res : Option Cfg} :
    (∃ es, Tries u root rank f (.expr e) c res es) ↔ Meaning u root (.expr e) c res :=
  ⟨fun ⟨_, h⟩ => h.meaning, fun h => meaning_tries rank h f⟩

section
variable {cfg : Config} {names : List Name} {table : Name → Char → Bool} {m m' : Module} {out : Output} {st : GenSt}
  {R : Layout} {env : Env} {rank : RuleVal → Label}

theorem number_of (h : generateModule cfg names m = .ok (out, st)) (hlab : Numbered out R env rank) {p : List Name} {r : Rule}
    {ts : List CTy} (hm : modAt m p = some m') (hr : findRule m'.rules r.name = some r) (ho : r.name ≠ optName)
    (hm' : r.name ≠ manName) (hlen : ts.length = r.args.length) :
    (env (R.num p r.name ts)).label = rank (ruleAt p r.name) := by
  unfold generateModule at h
  obtain ⟨⟨⟨out', sys⟩, st'⟩, h1, h⟩ := andThen_ok.mp h
  simp only [Res.ok.injEq, Prod.mk.injEq] at h
  obtain ⟨rfl, rfl⟩ := h
  exact numbered_of (processModule_gen m _ _ _ _ h1) hlab hm hr ho hm' hlen

theorem rankedBy_gen (h : generateModule cfg names m = .ok (out, st)) (hlab : Numbered out R env rank) :
    RankedBy (unicodeOf names table) m R env rank := by
  intro p q p' r ts ht hlen
  obtain ⟨m', hm, hf, h1, h2⟩ := target_rule ht
  exact number_of h hlab hm hf h1 h2 hlen

/-- A generated grammar whose trivia rules do not use themselves is a program in which every struct is labelled with the number of its rule,
whatever the numbering. -/
theorem C81_exists (u : Unicode) (h : generateModule cfg names m = .ok (out, st))
    (hn : ∀ m', ModIn m' m → (m'.rules.map Rule.name).Nodup) (ha : ∀ m', ModIn m' m → TriviaAcyclic m') (rank : RuleVal → Label) :
    ∃ R env, Linked u out st.wrappers R env ∧ Numbered out R env rank := by
  classical
  unfold generateModule at h
  obtain ⟨⟨⟨out', sys⟩, st'⟩, h1, h⟩ := andThen_ok.mp h
  simp only [Res.ok.injEq, Prod.mk.injEq] at h
  obtain ⟨rfl, rfl⟩ := h
  have hl := genMod_linked (processModule_gen m _ _ _ _ h1) u st'.wrappers hn ha
  refine ⟨layoutOf u out' st'.wrappers, fun n => { envOf u out' st'.wrappers n with
      label := if h : ∃ v p x ts, ruleNum p x ts = n ∧ v = ruleAt p x then rank h.choose else 0 },
    ⟨hl.rule, hl.noTrivia, hl.trivia⟩, ?_⟩
  intro p o s ts _ _ _
  rw [ruleValue_full]
  have hex : ∃ v p' x' ts', ruleNum p' x' ts' = ruleNum p s.name ts ∧ v = ruleAt p' x' := ⟨_, p, s.name, ts, rfl, rfl⟩
  show (if h : ∃ v p' x' ts', ruleNum p' x' ts' = ruleNum p s.name ts ∧ v = ruleAt p' x' then rank h.choose else 0) = _
  rw [dif_pos hex]
  obtain ⟨p', x', ts', e, hv⟩ := hex.choose_spec
  obtain ⟨rfl, rfl, _⟩ := ruleNum_inj e
  rw [hv]

/-- What the struct of a rule tries are the rules that the expression of the rule tries, in the same order, at the same places, with the same outcomes, inside
of the rule itself; whether the rule matches or not, wherever it is applied and whatever the parameters stand for. -/
theorem C81_rule (h : generateModule cfg names m = .ok (out, st)) (hn : AllNamed (unicodeOf names table) m)
    (hl : Linked (unicodeOf names table) out st.wrappers R env) (hlab : Numbered out R env rank) {p : List Name}
    (hm : modAt m p = some m') {r : Rule} (hr : findRule m'.rules r.name = some r) (ho : r.name ≠ optName)
    (hm' : r.name ≠ manName) {clos : List Clo} {ts : List CTy} (hlen : ts.length = r.args.length)
    (hts : CRel (unicodeOf names table) m (.env (r.args.zip clos) (r.args.zip ts))) (f : Bool) (c : Cfg) (res : Option Cfg) (es : List Ev) :
    Traces env f (.node (.rule (R.num p r.name ts))) c res es ↔
      ∃ es', Tries (unicodeOf names table) m rank f (.expr (.mk p (r.args.zip clos) r.node)) c res es' ∧ es = tried rank p r f c res es' := by
  obtain ⟨hc, hrule⟩ := compiled_of h hn hl
  obtain ⟨_, t, hb, hcomp⟩ := hrule p m' r ts hm hr ho hm' hlen
  have hlb := number_of h hlab hm hr ho hm' hlen
  have key := fun es' => tries_iff_traces hc (rankedBy_gen h hlab) (.clo hts hcomp) (f := f) (c := c) (r := res) (es := es')
  constructor
  · intro ht
    cases ht with
    | rule ht =>
      rw [hb] at ht
      exact ⟨_, (key _).mpr ht, by rw [hlb]; rfl⟩
  · rintro ⟨es', ht, rfl⟩
    have ht := (key _).mp ht
    rw [← hb] at ht
    have := Traces.rule ht
    rw [hlb] at this
    exact this

/-- The events are determined by where the rule is applied. -/
theorem C81_deterministic (h : generateModule cfg names m = .ok (out, st)) (hn : AllNamed (unicodeOf names table) m)
    (hl : Linked (unicodeOf names table) out st.wrappers R env) (hlab : Numbered out R env rank) {p : List Name}
    (hm : modAt m p = some m') {r : Rule} (hr : findRule m'.rules r.name = some r) (ho : r.name ≠ optName)
    (hm' : r.name ≠ manName) (ha : r.args = []) {f : Bool} {c : Cfg} {r1 r2 : Option Cfg} {es1 es2 : List Ev}
    (h1 : Tries (unicodeOf names table) m rank f (.expr (.mk p [] r.node)) c r1 es1)
    (h2 : Tries (unicodeOf names table) m rank f (.expr (.mk p [] r.node)) c r2 es2) : r1 = r2 ∧ es1 = es2 := by
  obtain ⟨hc, hrule⟩ := compiled_of h hn hl
  obtain ⟨_, t, hb, hcomp⟩ := hrule p m' r [] hm hr ho hm' (by simp [ha])
  have hcl : CRel (unicodeOf names table) m (.clo (.mk p [] r.node) t) := .clo .nil (by simpa [ha] using hcomp)
  have hv := rankedBy_gen (table := table) h hlab
  exact ((tries_iff_traces hc hv hcl).mp h1).det ((tries_iff_traces hc hv hcl).mp h2)

theorem fullTries_iff (h : generateModule cfg names m = .ok (out, st)) (hn : AllNamed (unicodeOf names table) m)
    (hl : Linked (unicodeOf names table) out st.wrappers R env) (hlab : Numbered out R env rank) (hrank : rank .eoi = eoiLabel) {p : List Name}
    (hm : modAt m p = some m') {r : Rule} (hr : findRule m'.rules r.name = some r) (ho : r.name ≠ optName)
    (hm' : r.name ≠ manName) (ha : r.args = []) (inp : Str) (b : Bool) (es : List Ev) :
    FullTraces env (.rule (R.num p r.name [])) inp b es ↔ FullTries (unicodeOf names table) m rank p r inp b es := by
  have key := C81_rule h hn hl hlab hm hr ho hm' (clos := []) (ts := []) (by simp [ha]) (by simpa [ha] using CRel.nil) true (startCfg inp)
  simp only [ha, List.zip_nil_left] at key
  constructor
  · intro hf
    cases hf with
    | fail hf =>
      obtain ⟨es', h1, rfl⟩ := (key _ _).mp hf
      exact .fail h1
    | ok hf =>
      obtain ⟨es', h1, rfl⟩ := (key _ _).mp hf
      rw [← hrank]
      exact .ok h1
  · intro hf
    cases hf with
    | fail hf => exact .fail ((key _ _).mpr ⟨_, hf, rfl⟩)
    | ok hf =>
      rw [hrank]
      exact .ok ((key _ _).mpr ⟨_, hf, rfl⟩)

theorem fullTries_values (hm : modAt m p = some m') {r : Rule} (hr : r ∈ m'.rules) (ho : r.name ≠ optName) (hm' : r.name ≠ manName) {u : Unicode} {inp : Str} {b : Bool} {es : List Ev}
    (h : FullTries u m rank p r inp b es) : OnlyValues m rank [] es := by
  cases h with
  | fail h => exact onlyValues_rule (C66_value hm hr ho hm') (tries_values h _)
  | ok h => exact onlyValues_append (onlyValues_rule (C66_value hm hr ho hm') (tries_values h _)) (onlyValues_rule .eoi onlyValues_nil)

/-- The error of a generated parser: it is about the furthest place where a rule of the grammar was tried, and it lists exactly the rules that
were tried there and have no part that is a rule, under the rules that tried them; all of them are rules of the grammar, or the end of the input.  The message shows the line up to that place and says
exactly that. -/
theorem C81_try_parse {S : Type} {so : StackOps S} {saved : S → List (List Span)} (hls : Lawful so saved)
    (h : generateModule cfg names m = .ok (out, st)) (hn : AllNamed (unicodeOf names table) m)
    (hl : Linked (unicodeOf names table) out st.wrappers R env) (hlab : Numbered out R env rank) (hrank : rank .eoi = eoiLabel) {p : List Name}
    (hm : modAt m p = some m') {r : Rule} (hr : findRule m'.rules r.name = some r) (ho : r.name ≠ optName)
    (hm' : r.name ≠ manName) (ha : r.args = []) (inp : Str) (sh : Label → Text) {fuel : Nat} {t : Tracker}
    (he : tryParse so env fuel (.rule (R.num p r.name [])) inp = .ok (.error t)) :
    ∃ es, FullTries (unicodeOf names table) m rank p r inp false es ∧ Furthest inp 0 [] es t ∧ Listed [] es t ∧
      (∀ k v, (k, v) ∈ t.attempts → (∀ x, k = some x ∨ x ∈ v.positives ∨ x ∈ v.negatives → ∃ w, IsValue m w ∧ x = rank w)) ∧
      ∃ before current after, inp.text = before ++ current ++ after ∧ utf8Len (before ++ current) = t.position.pos ∧
        '\n' ∉ current ∧ (before = [] ∨ ∃ b, before = b ++ ['\n']) ∧
        ∃ msg, t.collect sh = some ⟨t.position, msg⟩ ∧ _root_.Pest3.Reads sh (1 + before.count '\n') current t.attempts msg := by
  obtain ⟨es, h1, h2, h3, h4⟩ := C60_try_parse hls env sh fuel _ t he
  have hf := (fullTries_iff h hn hl hlab hrank hm hr ho hm' ha inp _ _).mp h1
  have hv := fullTries_values hm (findRule_mem hr).1 ho hm' hf
  have up : ∀ {ups' e k x}, Within [] es ups' e → upperOf ups' t.position.pos = k → k = some x → ∃ w, IsValue m w ∧ x = rank w := by
    intro ups' e k x hw hk hx
    rw [hx, upperOf, Option.map_eq_some_iff] at hk
    obtain ⟨y, hy, rfl⟩ := hk
    rcases (hv _ _ hw).2 y (List.mem_of_find?_eq_some hy) with h | h
    · cases h
    · exact h
  refine ⟨es, hf, h2, h3, ?_, h4⟩
  rintro k v hkv x (hx | hx | hx)
  · rcases h3.nonempty k v hkv with hne | hne | hne <;> obtain ⟨y, hy⟩ := List.exists_mem_of_ne_nil _ hne
    · obtain ⟨ups', cs, hw, -, hk⟩ := (h3.expected k y).mp ⟨v, hkv, hy⟩
      exact up hw hk hx
    · obtain ⟨ups', cs, hw, -, hk⟩ := (h3.unexpected k y).mp ⟨v, hkv, hy⟩
      exact up hw hk hx
    · obtain ⟨ups', hw, hk⟩ := (h3.special k y).mp ⟨v, hkv, hy⟩
      exact up hw hk hx
  · obtain ⟨ups', cs, hw, -, hk⟩ := (h3.expected k x).mp ⟨v, hkv, hx⟩
    exact (hv _ _ hw).1 _ _ _ _ _ rfl
  · obtain ⟨ups', cs, hw, -, hk⟩ := (h3.unexpected k x).mp ⟨v, hkv, hx⟩
    exact (hv _ _ hw).1 _ _ _ _ _ rfl

/-- There is an error exactly if the grammar says that the rule does not match all of the text. -/
theorem C81_rejects {S : Type} {so : StackOps S} {saved : S → List (List Span)} (hls : Lawful so saved)
    (h : generateModule cfg names m = .ok (out, st)) (hn : AllNamed (unicodeOf names table) m)
    (hl : Linked (unicodeOf names table) out st.wrappers R env) (hlab : Numbered out R env rank) (hrank : rank .eoi = eoiLabel) {p : List Name}
    (hm : modAt m p = some m') {r : Rule} (hr : findRule m'.rules r.name = some r) (ho : r.name ≠ optName)
    (hm' : r.name ≠ manName) (ha : r.args = []) (inp : Str) :
    (∃ fuel t, tryParse so env fuel (.rule (R.num p r.name [])) inp = .ok (.error t)) ↔ ∃ es, FullTries (unicodeOf names table) m rank p r inp false es := by
  constructor
  · rintro ⟨n, t, he⟩
    obtain ⟨es, h1, -⟩ := C81_try_parse hls h hn hl hlab hrank hm hr ho hm' ha inp (fun _ => []) he
    exact ⟨es, h1⟩
  · rintro ⟨es, h1⟩
    have peg := C52_rule h hn hl hm hr ho hm' ha (startCfg inp)
    generalize hb : false = b at h1
    cases h1 with
    | fail h1 =>
      obtain ⟨n, st, h2⟩ := (C16_failure_iff hls env (good_start inp) (ready_init hls inp) (corr_start hls inp) (.rule (R.num p r.name []))).mpr ((peg _).mpr h1.meaning)
      obtain ⟨trk, h3⟩ := (C19_error_iff hls env inp n _).mpr (.inl (tryParsePartial_error.mpr ⟨st, h2⟩))
      exact ⟨n, trk, h3⟩
    | @ok c _ h1 =>
      have hne : c.suf ≠ [] := fun h0 => by simp [h0] at hb
      obtain ⟨n, t, h2⟩ := ((C52_try_parse hls h hn hl hm hr ho hm' ha inp).2 _).mpr ⟨c, rfl, h1.meaning⟩
      obtain ⟨w, h3, h4⟩ := ((peg _).mpr h1.meaning).consumes c rfl
      simp only [startCfg, List.nil_append] at h3 h4
      obtain ⟨trk, h⟩ := (C19_error_iff hls env inp n _).mpr (.inr ⟨_, t, h2, by
        have : utf8Len c.suf ≠ 0 := fun h => hne (utf8Len_eq_zero.mp h)
        dsimp only
        rw [h3, h4, utf8Len_append]; omega⟩)
      exact ⟨n, trk, h⟩

/-- The errors of the struct of a rule without parameters, in terms of the grammar it was generated from. -/
theorem generated_errors {S : Type} {so : StackOps S} {saved : S → List (List Span)} (hls : Lawful so saved)
    (hgen : generateModule cfg names m = .ok (out, st)) (hn : AllNamed (unicodeOf names table) m)
    (hl : Linked (unicodeOf names table) out st.wrappers R env) (hrank : Ranks rank) (hlab : Numbered out R env rank) {p : List Name}
    (hp : modAt m p = some m') {r : Rule} (hf : findRule m'.rules r.name = some r) (ho : r.name ≠ optName)
    (hman : r.name ≠ manName) (ha : r.args = []) (inp : Str) (sh : Label → Text) :
      ((∃ n t, tryParse so env n (.rule (R.num p r.name [])) inp = .ok (.error t)) ↔ ∃ es, FullTries (unicodeOf names table) m rank p r inp false es) ∧
      ∀ n t es, tryParse so env n (.rule (R.num p r.name [])) inp = .ok (.error t) → FullTries (unicodeOf names table) m rank p r inp false es →
        Furthest inp 0 [] es t ∧ Listed [] es t ∧
        (∀ k v, (k, v) ∈ t.attempts → ∀ x, k = some x ∨ x ∈ v.positives ∨ x ∈ v.negatives → ∃ w, IsValue m w ∧ x = rank w) ∧
        ∃ before current after, inp.text = before ++ current ++ after ∧ utf8Len (before ++ current) = t.position.pos ∧
          '\n' ∉ current ∧ (before = [] ∨ ∃ b, before = b ++ ['\n']) ∧
          ∃ msg, t.collect sh = some ⟨t.position, msg⟩ ∧ _root_.Pest3.Reads sh (1 + before.count '\n') current t.attempts msg := by
  have full := fun b es => fullTries_iff hgen hn hl hlab hrank.eoi hp hf ho hman ha inp b es
  refine ⟨C81_rejects hls hgen hn hl hlab hrank.eoi hp hf ho hman ha inp, ?_⟩
  intro n t es he hes
  obtain ⟨es', h1, h2⟩ := C81_try_parse hls hgen hn hl hlab hrank.eoi hp hf ho hman ha inp sh he
  obtain rfl := (fullTraces_det ((full _ _).mpr h1) ((full _ _).mpr hes)).2
  exact h2

/-- Structs that are labelled with numbers are labelled with what the numbers stand for. -/
theorem labelled_of (hrank : Ranks rank) (hlab : Numbered out R env rank) : ∃ lab, Labelled out R env lab ∧ ∀ v, lab (rank v) = v := by
  classical
  have inv : ∀ v, (if h : ∃ w, rank w = rank v then h.choose else .eoi) = v := by
    intro v
    have hex : ∃ w, rank w = rank v := ⟨v, rfl⟩
    rw [dif_pos hex]
    exact hrank.inj _ _ hex.choose_spec
  refine ⟨fun x => if h : ∃ w, rank w = x then h.choose else .eoi, ?_, inv⟩
  intro p o s ts h1 h2 h3
  rw [hlab p o s ts h1 h2 h3]
  exact inv _

end

section
variable {env : Setting} {attrs : List Attr} {ms : List Module} {table : Name → Char → Bool}

/-- From the declaration to the error: whenever the macro generates a parser, the generated definitions are a program in which the structs are labelled with the
rules, if trivia rules do not use themselves; and in every such program the error for a text says which rules of the grammar that was given were tried at the furthest place. -/
theorem C81_parser {S : Type} {so : StackOps S} {saved : S → List (List Span)} (hls : Lawful so saved) {fuel : Nat} {d : Derived} (h : derive env fuel attrs = .ok d)
    (hm : Modules env (attrs.filterMap sourceOf) ms) (hs : ∀ x, ¬ SilentName (united ms) x) (hn : AllNamed (unicodeOf env.unicodeNames table) (united ms))
    {rank : RuleVal → Label} (hrank : Ranks rank) :
    ((∀ m', ModIn m' (united ms) → TriviaAcyclic m') →
      ∃ R e, Linked (unicodeOf env.unicodeNames table) d.code.1 d.code.2.wrappers R e ∧ Numbered d.code.1 R e rank) ∧
    ∀ R e, Linked (unicodeOf env.unicodeNames table) d.code.1 d.code.2.wrappers R e → Numbered d.code.1 R e rank →
    ∀ p m' r, modAt (united ms) p = some m' → r ∈ m'.rules → r.name ≠ optName → r.name ≠ manName → r.args = [] → ∀ (inp : Str) (sh : Label → Text),
      ((∃ n t, tryParse so e n (.rule (R.num p r.name [])) inp = .ok (.error t)) ↔ ∃ es, FullTries (unicodeOf env.unicodeNames table) (united ms) rank p r inp false es) ∧
      ∀ n t es, tryParse so e n (.rule (R.num p r.name [])) inp = .ok (.error t) → FullTries (unicodeOf env.unicodeNames table) (united ms) rank p r inp false es →
        Furthest inp 0 [] es t ∧ Listed [] es t ∧
        (∀ k v, (k, v) ∈ t.attempts → ∀ x, k = some x ∨ x ∈ v.positives ∨ x ∈ v.negatives → ∃ w, IsValue (united ms) w ∧ x = rank w) ∧
        ∃ before current after, inp.text = before ++ current ++ after ∧ utf8Len (before ++ current) = t.position.pos ∧
          '\n' ∉ current ∧ (before = [] ∨ ∃ b, before = b ++ ['\n']) ∧
          ∃ msg, t.collect sh = some ⟨t.position, msg⟩ ∧ _root_.Pest3.Reads sh (1 + before.count '\n') current t.attempts msg := by
  obtain ⟨ms', cfg, hm', hg, -⟩ := C71_result_partial _ _ _ _ h
  cases modules_unique hm hm'
  have hgen := (generateTyped_none hs).mp ⟨_, hg⟩
  refine ⟨fun ha => C81_exists _ hgen (fun m' h => (hn m' h).rules) ha rank, ?_⟩
  intro R e hl hlab p m' r hp hr ho hman ha inp sh
  have hf := findRule_eq (hn m' (modAt_in p hp)).rules hr
  exact generated_errors hls hgen hn hl hrank hlab hp hf ho hman ha inp sh

end

/-! ### Example

`x = "a" ~ (y | !z ~ "d")`, `y = "b"`, `z = "c"`, `~ = " "*`: the error for `a c` says that, by `x`, `y` was expected after the blank, and `z` was not. -/

private def errRules : List Rule :=
  [⟨['x'], [], .seq (.str ['a']) (.choice (.path [['y']]) (.seq (.neg (.path [['z']])) (.str ['d']) .optional)) .optional, false⟩,
    ⟨['y'], [], .str ['b'], false⟩, ⟨['z'], [], .str ['c'], false⟩, ⟨['~'], [], .rep (.str [' ']), false⟩]

private def errModule : Module := .mk errRules []

private theorem err_named (u : Unicode) : AllNamed u errModule := by
  intro m' h
  cases h with
  | refl =>
    refine ⟨by decide, by decide, by decide, by simp [errModule, Module.imports], ?_, ?_⟩
    · simp only [errModule, errRules, Module.rules, List.mem_cons, List.not_mem_nil, or_false, forall_eq_or_imp, forall_eq]
      decide
    · simp [errModule, errRules, Module.rules, ParamsPlain]
  | step h1 _ => simp [errModule, Module.imports] at h1

private theorem err_acyclic {m' : Module} (h : ModIn m' errModule) : TriviaAcyclic m' := by
  have no : ∀ t, ¬ UsesTrivia t (.rep (.str [' '])) := by
    rintro t (⟨l, r, h⟩ | ⟨e, h⟩) <;> cases h with | rep h => cases h
  cases h with
  | refl =>
    refine ⟨?_, ?_, .inl ?_⟩ <;>
      simp only [errModule, errRules, Module.rules, List.mem_cons, List.not_mem_nil, or_false, forall_eq_or_imp, forall_eq, no,
        not_false_eq_true, implies_true, and_true] <;>
      exact ⟨fun h => absurd h (by decide), fun h => absurd h (by decide), fun h => absurd h (by decide)⟩
  | step h1 _ => simp [errModule, Module.imports] at h1

private theorem err_tries (rank : RuleVal → Label) :
    FullTries (unicodeOf [] fun _ _ => false) errModule rank [] ⟨['x'], [], .seq (.str ['a']) (.choice (.path [['y']]) (.seq (.neg (.path [['z']])) (.str ['d']) .optional)) .optional, false⟩
      ⟨0, "a c".toList⟩ false
      [.rule (rank (.rule ['x'])) 0 true false [.rule (rank (.rule ['y'])) 2 true false [], .rule (rank (.rule ['z'])) 2 false true []]] := by
  refine .fail (es := [] ++ ([] ++ (tried rank [] ⟨['y'], [], .str ['b'], false⟩ true ⟨"a ".toList, ['c'], []⟩ none [] ++
    tried rank [] ⟨['z'], [], .str ['c'], false⟩ false ⟨"a ".toList, ['c'], []⟩ (some ⟨"a c".toList, [], []⟩) []))) ?_
  refine .seq (.literal rfl (.literalOk (m := ['a']) (rest := " c".toList) rfl rfl rfl)) (c2 := ⟨"a ".toList, "c".toList, []⟩)
    (.triviaRule (m := errModule) (r := ⟨['~'], [], .rep (.str [' ']), false⟩) rfl rfl (.rep rfl ?_)) (.choiceR ?_ (.seqFail (.negFail (c' := ⟨"a c".toList, [], []⟩) ?_)))
  · exact .repsMore (es := []) (es' := []) (by decide) (.unitFirst (.literal rfl (.literalOk (m := [' ']) (rest := "c".toList) rfl rfl rfl)))
      (.repsStop (es := [] ++ []) (by decide) (.unitNext .triviaNone (.literal rfl (.literalFail rfl rfl))) (by decide))
  · exact .rule (p' := []) (r := ⟨['y'], [], .str ['b'], false⟩) (fun x hx => rfl) rfl rfl (.literal rfl (.literalFail rfl rfl))
  · exact .rule (p' := []) (r := ⟨['z'], [], .str ['c'], false⟩) (fun x hx => rfl) rfl rfl (.literal rfl (.literalOk (m := ['c']) (rest := []) rfl rfl rfl))

example : ∃ out st, generateModule ⟨true, false, none⟩ [] errModule = .ok (out, st) ∧
    ∃ rank R env, Ranks rank ∧ Linked (unicodeOf [] fun _ _ => false) out st.wrappers R env ∧ Numbered out R env rank ∧
      (∃ fuel t, tryParse idealOps env fuel (.rule (R.num [] ['x'] [])) ⟨0, "a c".toList⟩ = .ok (.error t)) ∧
      ∀ fuel t, tryParse idealOps env fuel (.rule (R.num [] ['x'] [])) ⟨0, "a c".toList⟩ = .ok (.error t) →
        t.position.pos = 2 ∧ (some (rank (.rule ['x'])), ⟨[rank (.rule ['y'])], [rank (.rule ['z'])], []⟩) ∈ t.attempts := by
  obtain ⟨out, st, hgen⟩ : ∃ out st, generateModule ⟨true, false, none⟩ [] errModule = .ok (out, st) := ⟨_, _, rfl⟩
  obtain ⟨rank, hrank⟩ := C81_ranks
  obtain ⟨R, env, hl, hlab⟩ := C81_exists (unicodeOf [] fun _ _ => false) hgen
    (fun m' h => (err_named (unicodeOf [] fun _ _ => false) m' h).rules) (fun m' h => err_acyclic h) rank
  refine ⟨out, st, hgen, rank, R, env, hrank, hl, hlab, ?_, ?_⟩
  · exact (C81_rejects (p := []) (r := ⟨['x'], [], .seq (.str ['a']) (.choice (.path [['y']]) (.seq (.neg (.path [['z']])) (.str ['d']) .optional)) .optional, false⟩)
      ideal_lawful hgen (err_named _) hl hlab hrank.eoi rfl rfl (by decide) (by decide) rfl _).mpr ⟨_, err_tries rank⟩
  · intro fuel t he
    obtain ⟨es, h1, h2, h3, -⟩ := C81_try_parse (p := []) (r := ⟨['x'], [], .seq (.str ['a']) (.choice (.path [['y']]) (.seq (.neg (.path [['z']])) (.str ['d']) .optional)) .optional, false⟩)
      ideal_lawful hgen (err_named _) hl hlab hrank.eoi rfl rfl (by decide) (by decide) rfl _ (fun _ => []) he
    obtain rfl : es = _ := by
      have full := fun b es => fullTries_iff (p := []) (r := ⟨['x'], [], .seq (.str ['a']) (.choice (.path [['y']]) (.seq (.neg (.path [['z']])) (.str ['d']) .optional)) .optional, false⟩)
        hgen (err_named _) hl hlab hrank.eoi rfl rfl (by decide) (by decide) rfl ⟨0, "a c".toList⟩ b es
      exact (fullTraces_det ((full _ _).mpr h1) ((full _ _).mpr (err_tries rank))).2
    have hpos : t.position.pos = 2 := by
      have h4 := h2.upper _ _ (.inner List.mem_cons_self (.here List.mem_cons_self))
      rcases h2.attained with h5 | ⟨ups', e, hw, hr, h5⟩
      · rw [h5] at h4; exact absurd (show 2 ≤ 0 from h4) (by decide)
      · rw [← h5]
        cases hw with
        | here hm => cases List.mem_singleton.mp hm; rw [← h5] at h4; exact absurd (show 2 ≤ 0 from h4) (by decide)
        | inner hm hw =>
          cases List.mem_singleton.mp hm
          cases hw with
          | here hm => rcases List.mem_cons.mp hm with rfl | hm; rfl; cases List.mem_singleton.mp hm; rfl
          | inner hm hw =>
            rcases List.mem_cons.mp hm with hm | hm
            · cases hm; cases hw with
              | here h => cases h
              | inner h _ => cases h
            · cases List.mem_singleton.mp hm; cases hw with
              | here h => cases h
              | inner h _ => cases h
    refine ⟨hpos, (h3.order _ _).mpr ?_⟩
    rw [hpos]
    simp [entryFor, filed, Ev.reportsList, Ev.reports, Ev.isRule, upperOf, outcome, expectedOf, unexpectedOf, specialsOf, squash]

end Pest3.Props
