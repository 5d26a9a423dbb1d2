import Verif.LinkExists

/-!
# Generated programs have a meaning
-/

namespace Pest3.Gen
open Pest3

theorem aliasesAll_mem {t : Trivia} {l : List Ty} : t ∈ Ty.aliasesAll l ↔ ∃ ty ∈ l, t ∈ ty.aliases := by
  induction l with
  | nil => simp [Ty.aliasesAll]
  | cons a l ih => simp [Ty.aliasesAll, ih]

theorem get_aliases {n : ModNode} {path : List Name} {args : PArgs} {r : Ty × Getter} (h : n.get path args = some r) :
    ∀ t ∈ r.1.aliases, ∃ as, args = .call as ∧ t ∈ Ty.aliasesAll as := by
  unfold ModNode.get at h
  dsimp only at h
  repeat' split at h
  all_goals first
    | (simp at h; done)
    | (simp only [Option.some.injEq] at h; subst h; intro t ht; simp only [Ty.aliases, Ty.aliasesAll, List.not_mem_nil] at ht; done)
    | (simp only [Option.some.injEq] at h; subst h; intro t ht; exact ⟨_, rfl, ht⟩)

theorem UsesTrivia.sub {t : Trivia} {e e' : Expr} (h : UsesTrivia t e') (hs : Sub e' e) : UsesTrivia t e :=
  h.imp (fun ⟨l, r, h⟩ => ⟨l, r, h.trans hs⟩) fun ⟨e', h⟩ => ⟨e', h.trans hs⟩

theorem seqTail_uses (e : Expr) : ∀ t, ∀ a ∈ seqTail t e, (a.1 = t ∨ UsesTrivia a.1 e) ∧ Sub a.2 e := by
  induction e using Expr.ind with
  | seq l r t' _ ih =>
    intro t a ha
    simp only [seqTail, List.mem_cons] at ha
    rcases ha with rfl | ha
    · exact ⟨.inl rfl, .seqL .refl⟩
    · obtain ⟨h1, h2⟩ := ih t' a ha
      refine ⟨.inr ?_, .seqR h2⟩
      rcases h1 with h1 | h1
      · rw [h1]; exact .inl ⟨l, r, .refl⟩
      · exact h1.sub (.seqR .refl)
  | _ =>
    intro t a ha
    simp only [seqTail, List.mem_singleton] at ha
    subst ha
    exact ⟨.inl rfl, .refl⟩

theorem choiceTail_part (e : Expr) : ∀ a ∈ choiceTail e, Sub a e := by
  induction e using Expr.ind with
  | choice l r _ ih =>
    intro a ha
    simp only [choiceTail, List.mem_cons] at ha
    rcases ha with rfl | ha
    · exact .choiceL .refl
    · exact .choiceR (ih a ha)
  | _ =>
    intro a ha
    simp only [choiceTail, List.mem_singleton] at ha
    subst ha
    exact .refl

theorem getTrivia_uses (e : Expr) : getTrivia e = .none ∨ UsesTrivia (getTrivia e) e := by
  cases e <;> try exact .inl rfl
  case separated e t => exact .inr (.inr ⟨e, .refl⟩)

/-- The aliases in the code of an expression are written in the expression. -/
theorem gen_aliases {params : List Name} {sys : ModSys} {item st st'} (h : GenRel params sys item st st') :
    match item with
    | .one e r => ∀ t ∈ r.1.aliases, t = .none ∨ UsesTrivia t e
    | .all l rs => ∀ r ∈ rs, ∀ t ∈ r.1.aliases, t = .none ∨ ∃ e ∈ l, UsesTrivia t e := by
  have un : ∀ {t : Trivia} {e e' : Expr}, Sub e' e → t = .none ∨ UsesTrivia t e' → t = .none ∨ UsesTrivia t e :=
    fun hs h => h.imp id fun h => h.sub hs
  induction h with
  | str | insens | range | param | paramSlice | paramCall => intro t ht; simp [Ty.aliases] at ht
  | path _ hr =>
    rename_i p r st hp
    intro t ht
    unfold ModSys.resolve at hr
    split at hr
    · simp at hr
    · split at hr
      · simp at hr
      · obtain ⟨as, h, _⟩ := get_aliases hr t ht; simp at h
  | slice _ hr =>
    intro t ht
    unfold ModSys.resolve at hr
    split at hr
    · simp at hr
    · split at hr
      · simp at hr
      · obtain ⟨as, h, _⟩ := get_aliases hr t ht; simp at h
  | call _ _ hr ih =>
    intro t ht
    unfold ModSys.resolve at hr
    split at hr
    · simp at hr
    · split at hr
      · simp at hr
      · obtain ⟨as, h, h'⟩ := get_aliases hr t ht
        injection h with h
        subst h
        rw [aliasesAll_mem] at h'
        obtain ⟨ty, hty, hta⟩ := h'
        obtain ⟨r, hr, rfl⟩ := List.mem_map.mp hty
        rcases ih r hr t hta with h | ⟨e, he, h⟩
        · exact .inl h
        · exact .inr (h.sub (.arg he .refl))
  | pos _ ih => intro t ht; exact un (.pos .refl) (ih t ht)
  | neg _ ih => intro t ht; exact un (.neg .refl) (ih t ht)
  | opt _ ih => intro t ht; exact un (.opt .refl) (ih t ht)
  | separated _ ih => intro t ht; exact un (.separated .refl) (ih t ht)
  | @seq l r tr rs st st' _ ih =>
    intro t ht
    have key : ∀ a ∈ collectSequence l r tr, (a.1 = .none ∨ UsesTrivia a.1 (.seq l r tr)) ∧ Sub a.2 (.seq l r tr) := by
      intro a ha
      simp only [collectSequence, List.mem_cons] at ha
      rcases ha with rfl | ha
      · exact ⟨.inl rfl, .seqL .refl⟩
      · obtain ⟨h1, h2⟩ := seqTail_uses r tr a ha
        refine ⟨.inr ?_, .seqR h2⟩
        rcases h1 with h1 | h1
        · rw [h1]; exact .inl ⟨l, r, .refl⟩
        · exact h1.sub (.seqR .refl)
    simp only [Ty.aliases, List.mem_append] at ht
    rcases ht with ht | ht
    · obtain ⟨a, ha, rfl⟩ := List.mem_map.mp ht
      exact (key a ha).1
    · rw [aliasesAll_mem] at ht
      obtain ⟨ty, hty, hta⟩ := ht
      obtain ⟨x, hx, rfl⟩ := List.mem_map.mp hty
      rcases ih x hx t hta with h | ⟨e, he, h⟩
      · exact .inl h
      · obtain ⟨a, ha, rfl⟩ := List.mem_map.mp he
        exact .inr (h.sub (key a ha).2)
  | @choice l r rs st st' _ ih =>
    intro t ht
    simp only [Ty.aliases] at ht
    rw [aliasesAll_mem] at ht
    obtain ⟨ty, hty, hta⟩ := ht
    obtain ⟨x, hx, rfl⟩ := List.mem_map.mp hty
    rcases ih x hx t hta with h | ⟨e, he, h⟩
    · exact .inl h
    · simp only [collectChoices, List.mem_cons] at he
      rcases he with rfl | he
      · exact .inr (h.sub (.choiceL .refl))
      · exact .inr (h.sub (.choiceR (choiceTail_part r e he)))
  | @rep e r st st' _ ih =>
    intro t ht
    simp only [Ty.aliases, List.mem_cons] at ht
    rcases ht with rfl | ht
    · exact un (.rep .refl) (getTrivia_uses e)
    · exact un (.rep .refl) (ih t ht)
  | @repOnce e r st st' _ ih =>
    intro t ht
    simp only [Ty.aliases, List.mem_cons] at ht
    rcases ht with rfl | ht
    · exact un (.repOnce .refl) (getTrivia_uses e)
    · exact un (.repOnce .refl) (ih t ht)
  | @repRange e range r st st' _ ih =>
    intro t ht
    have ht' : t = getTrivia e ∨ t ∈ r.1.aliases := by
      dsimp only at ht
      split at ht <;> simpa only [Ty.aliases, List.mem_cons] using ht
    rcases ht' with rfl | ht
    · exact un (.repRange .refl) (getTrivia_uses e)
    · exact un (.repRange .refl) (ih t ht)
  | nil => intro r hr; simp at hr
  | @cons e l r rs st st' st'' _ _ ih1 ih2 =>
    intro x hx t ht
    rcases List.mem_cons.mp hx with rfl | hx
    · exact (ih1 t ht).imp id fun h => ⟨e, List.mem_cons_self, h⟩
    · exact (ih2 x hx t ht).imp id fun ⟨e', he', h⟩ => ⟨e', List.mem_cons_of_mem _ he', h⟩

/-- Every generated module comes from a module of the grammar. -/
theorem genMod_out {cfg : Config} {pest : ModNode} (p : List Name) : ∀ {root out sys st st'},
    GenMod cfg pest (.mod root out sys) st st' → ∀ {o}, outAt out p = some o →
    ∃ m sys1 st1 st2, GenMod cfg pest (.mod m o sys1) st1 st2 ∧ ModIn m root := by
  have child : ∀ {l sys sys' outs st st'}, GenMod cfg pest (.imports l sys sys' outs) st st' → ∀ {x o}, outChild x outs = some o →
      ∃ y m sys1 st1 st2, GenMod cfg pest (.mod m o sys1) st1 st2 ∧ Import.file y m ∈ l := by
    intro l
    induction l with
    | nil => intro sys sys' outs st st' h x o ho; cases h; simp [outChild] at ho
    | cons i l ih =>
      intro sys sys' outs st st' h x o ho
      cases h with
      | builtin _ h2 =>
        obtain ⟨y, m, s, a, b, h3, h4⟩ := ih h2 ho
        exact ⟨y, m, s, a, b, h3, List.mem_cons_of_mem _ h4⟩
      | file h1 h2 =>
        simp only [outChild] at ho
        split at ho
        · simp only [Option.some.injEq] at ho
          subst ho
          exact ⟨_, _, _, _, _, h1, List.mem_cons_self⟩
        · obtain ⟨y, m, s, a, b, h3, h4⟩ := ih h2 ho
          exact ⟨y, m, s, a, b, h3, List.mem_cons_of_mem _ h4⟩
  induction p with
  | nil =>
    intro root out sys st st' h o ho
    have : out = o := by cases out; simpa [outAt] using ho
    subst this
    exact ⟨root, _, _, _, h, .refl⟩
  | cons x p ih =>
    intro root out sys st st' h o ho
    cases h with
    | mk h1 _ _ _ =>
      simp only [outAt] at ho
      split at ho
      · rename_i o' hc
        obtain ⟨y, m, s, a, b, h3, h4⟩ := child h1 hc
        obtain ⟨m', s', a', b', h5, h6⟩ := ih h3 ho
        exact ⟨m', s', a', b', h5, .step h4 h6⟩
      · simp at ho

/-- The trivia rules of a module do not use themselves. -/
structure TriviaAcyclic (m : Module) : Prop where
  opt : ∀ r ∈ m.rules, r.name = optName → ¬ UsesTrivia .optional r.node
  man : ∀ r ∈ m.rules, r.name = manName → ¬ UsesTrivia .mandatory r.node
  both : (∀ r ∈ m.rules, r.name = optName → ¬ UsesTrivia .mandatory r.node) ∨
    (∀ r ∈ m.rules, r.name = manName → ¬ UsesTrivia .optional r.node)

theorem genRules_out {cfg : Config} {reach : RefMap} {sys : ModSys} {rules o o' st st'}
    (h : GenRules cfg reach sys rules o o' st st') :
    (∃ l : List Rule, l.Sublist rules ∧ o'.1.map RuleStruct.name = o.1.map RuleStruct.name ++ l.map Rule.name) ∧
    (∀ ty, o'.2.1 = some ty → o.2.1 = some ty ∨
      ∃ r ∈ rules, r.name = optName ∧ ∃ g sta stb, GenRel r.args sys (.one r.node (ty, g)) sta stb) ∧
    (∀ ty, o'.2.2 = some ty → o.2.2 = some ty ∨
      ∃ r ∈ rules, r.name = manName ∧ ∃ g sta stb, GenRel r.args sys (.one r.node (ty, g)) sta stb) := by
  induction h with
  | nil => exact ⟨⟨[], .slnil, by simp⟩, fun ty h => .inl h, fun ty h => .inl h⟩
  | opt hn hg _ ih =>
    obtain ⟨⟨l, i1, i2⟩, i3, i4⟩ := ih
    refine ⟨⟨l, i1.cons _, i2⟩, fun ty h => ?_, fun ty h => ?_⟩
    · rcases i3 ty h with h | ⟨r, hr, h⟩
      · simp only [Option.some.injEq] at h
        subst h
        exact .inr ⟨_, List.mem_cons_self, hn, _, _, _, hg⟩
      · exact .inr ⟨r, List.mem_cons_of_mem _ hr, h⟩
    · exact (i4 ty h).imp id fun ⟨r, hr, h⟩ => ⟨r, List.mem_cons_of_mem _ hr, h⟩
  | man hn hg _ ih =>
    obtain ⟨⟨l, i1, i2⟩, i3, i4⟩ := ih
    refine ⟨⟨l, i1.cons _, i2⟩, fun ty h => ?_, fun ty h => ?_⟩
    · exact (i3 ty h).imp id fun ⟨r, hr, h⟩ => ⟨r, List.mem_cons_of_mem _ hr, h⟩
    · rcases i4 ty h with h | ⟨r, hr, h⟩
      · simp only [Option.some.injEq] at h
        subst h
        exact .inr ⟨_, List.mem_cons_self, hn, _, _, _, hg⟩
      · exact .inr ⟨r, List.mem_cons_of_mem _ hr, h⟩
  | @rule r _ _ _ _ _ _ _ _ _ _ _ _ _ _ ih =>
    obtain ⟨⟨l, i1, i2⟩, i3, i4⟩ := ih
    refine ⟨⟨r :: l, i1.cons_cons _, ?_⟩, fun ty h => ?_, fun ty h => ?_⟩
    · simp only [i2, List.map_append, List.map_cons, List.map_nil, List.append_assoc, List.singleton_append]
    · exact (i3 ty h).imp id fun ⟨r, hr, h⟩ => ⟨r, List.mem_cons_of_mem _ hr, h⟩
    · exact (i4 ty h).imp id fun ⟨r, hr, h⟩ => ⟨r, List.mem_cons_of_mem _ hr, h⟩

theorem genMod_linked {cfg : Config} {pest : ModNode} {root : Module} {out : Output} {sys : ModSys} {st st' : GenSt}
    (hg : GenMod cfg pest (.mod root out sys) st st') (u : Unicode) (W : List (Name × Text))
    (hn : ∀ m, ModIn m root → (m.rules.map Rule.name).Nodup) (ha : ∀ m, ModIn m root → TriviaAcyclic m) :
    Linked u out W (layoutOf u out W) (envOf u out W) := by
  refine exists_linked u out W (fun p o ho => ?_) fun p o ho => ?_
  · obtain ⟨m, sys1, st1, st2, h, hin⟩ := genMod_out p hg ho
    cases h with
    | mk _ _ _ h4 =>
      obtain ⟨⟨l, h1, h2⟩, _⟩ := genRules_out (processRuleList_gen _ _ _ _ _ h4)
      simp only [List.map_nil, List.nil_append] at h2
      show List.Nodup (List.map RuleStruct.name _)
      simp only [Output.content]
      rw [h2]
      exact (h1.map Rule.name).nodup (hn _ hin)
  · obtain ⟨m, sys1, st1, st2, h, hin⟩ := genMod_out p hg ho
    have hac := ha m hin
    cases h with
    | @mk rules imports outs sys sys' reach content opt man _ _ _ _ _ _ h4 =>
      obtain ⟨_, h2, h3⟩ := genRules_out (processRuleList_gen _ _ _ _ _ h4)
      have ho : ∀ ty, opt = some ty → ∀ t ∈ ty.aliases, t = .none ∨ t = .mandatory ∧
          ∃ r ∈ rules, r.name = optName ∧ UsesTrivia .mandatory r.node := by
        intro ty hty t ht
        rcases h2 ty hty with h | ⟨r, hr, hn, g, sta, stb, hgen⟩
        · simp at h
        · rcases gen_aliases hgen t ht with h | h
          · exact .inl h
          · cases t with
            | none => exact .inl rfl
            | optional => exact absurd h (hac.opt r hr hn)
            | mandatory => exact .inr ⟨rfl, r, hr, hn, h⟩
      have hm : ∀ ty, man = some ty → ∀ t ∈ ty.aliases, t = .none ∨ t = .optional ∧
          ∃ r ∈ rules, r.name = manName ∧ UsesTrivia .optional r.node := by
        intro ty hty t ht
        rcases h3 ty hty with h | ⟨r, hr, hn, g, sta, stb, hgen⟩
        · simp at h
        · rcases gen_aliases hgen t ht with h | h
          · exact .inl h
          · cases t with
            | none => exact .inl rfl
            | mandatory => exact absurd h (hac.man r hr hn)
            | optional => exact .inr ⟨rfl, r, hr, hn, h⟩
      rcases hac.both with hb | hb
      · refine ⟨.optional, .mandatory, fun t ht => ?_, fun ty hty t ht => ?_, fun ty hty t ht => ?_⟩
        · cases t <;> simp at ht ⊢
        · rcases ho ty hty t ht with h | ⟨_, r, hr, hn, h⟩
          · exact h
          · exact absurd h (hb r hr hn)
        · exact (hm ty hty t ht).imp id fun h => h.1
      · refine ⟨.mandatory, .optional, fun t ht => ?_, fun ty hty t ht => ?_, fun ty hty t ht => ?_⟩
        · cases t <;> simp at ht ⊢
        · rcases hm ty hty t ht with h | ⟨_, r, hr, hn, h⟩
          · exact h
          · exact absurd h (hb r hr hn)
        · exact (ho ty hty t ht).imp id fun h => h.1

end Pest3.Gen
