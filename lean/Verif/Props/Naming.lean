import Verif.TargetLemmas

/-!
# C54, C55: names of literals and of rules
-/

namespace Pest3.Props
open Pest3 Pest3.Gen

/-! ## C54 -/

/-- C54: literals registered one after another get the same wrapper if and only if they are the same, and the
wrapper's content is the literal. -/
theorem C54_same_iff (l : List Text) (i j : Nat) (hi : i < l.length) (hj : j < l.length) :
    ((insertStrings l GenSt.new).1[i]? = (insertStrings l GenSt.new).1[j]? ↔ l[i] = l[j]) ∧
    ∃ w, (insertStrings l GenSt.new).1[i]? = some w ∧
      ∀ s, (w, s) ∈ (insertStrings l GenSt.new).2.wrappers ↔ s = l[i] := by
  have hw := insertStrings_wf l WfSt.new
  have hl := insertStrings_length l GenSt.new
  have mi := insertStrings_mem l WfSt.new i hi
  have mj := insertStrings_mem l WfSt.new j hj
  have gi : (insertStrings l GenSt.new).1[i]? = some ((insertStrings l GenSt.new).1[i]'(by omega)) :=
    List.getElem?_eq_getElem _
  have gj : (insertStrings l GenSt.new).1[j]? = some ((insertStrings l GenSt.new).1[j]'(by omega)) :=
    List.getElem?_eq_getElem _
  refine ⟨?_, _, gi, fun s => ⟨fun h => hw.content_unique h mi, fun h => h ▸ mi⟩⟩
  rw [gi, gj, Option.some.injEq]
  constructor
  · intro e
    rw [e] at mi
    exact hw.content_unique mi mj
  · intro e
    rw [e] at mi
    exact hw.name_unique mi mj

/-- C54: the wrappers are defined once each, and only for the literals registered. -/
theorem C54_definitions (l : List Text) :
    ((insertStrings l GenSt.new).2.wrappers.map Prod.fst).Nodup ∧
    ((insertStrings l GenSt.new).2.wrappers.map Prod.snd).Nodup ∧
    ∀ s, (∃ w, (w, s) ∈ (insertStrings l GenSt.new).2.wrappers) ↔ s ∈ l := by
  have hw := insertStrings_wf l WfSt.new
  refine ⟨hw.names_nodup, hw.contents_nodup, fun s => ⟨fun ⟨w, h⟩ => ?_, fun h => ?_⟩⟩
  · exact (insertStrings_only l GenSt.new _ h).resolve_left (by simp [GenSt.new])
  · obtain ⟨i, hi, rfl⟩ := List.getElem_of_mem h
    exact ⟨_, insertStrings_mem l WfSt.new i hi⟩

/-- C54: for a whole grammar with all its modules: every wrapper type is defined once, no two have the same
content, and the content is a literal written in some rule. -/
theorem C54_grammar (cfg : Config) (names : List Name) (m : Module) (out : Output) (st : GenSt)
    (h : generateModule cfg names m = .ok (out, st)) :
    (st.wrappers.map Prod.fst).Nodup ∧ (st.wrappers.map Prod.snd).Nodup ∧
    ∀ w ∈ st.wrappers, ∃ m', ModIn m' m ∧ ∃ r ∈ m'.rules, Sub (.str w.2) r.node ∨ Sub (.insens w.2) r.node := by
  obtain ⟨⟨⟨o, sys⟩, st1⟩, h1, h⟩ := andThen_ok.mp h
  simp only [Res.ok.injEq, Prod.mk.injEq] at h
  obtain ⟨rfl, rfl⟩ := h
  have hg := processModule_gen m _ _ _ _ h1
  have hw := genMod_wf hg WfSt.new
  exact ⟨hw.names_nodup, hw.contents_nodup, fun w hm => (genMod_lits hg w hm).resolve_left (by simp [GenSt.new])⟩

-- the literals `a`, `b`, `a`: the first and the last get the same wrapper
example : (insertStrings [['a'], ['b'], ['a']] GenSt.new).1 = [['W', '0'], ['W', '1'], ['W', '0']] := by
  simp [insertStrings, GenSt.insertString, GenSt.new, lookupWrapper, wrapperName, showNat_eq, Nat.toDigits, Nat.toDigitsCore]

-- a grammar with a rule `x = "a" | "b" | "a"` can be generated
example : ∃ out st, generateModule ⟨true, false, none⟩ []
    (.mk [⟨['x'], [], .choice (.str ['a']) (.choice (.str ['b']) (.str ['a'])), false⟩] []) = .ok (out, st) ∧
    st.wrappers.length = 2 :=
  ⟨_, _, rfl, rfl⟩

/-! ## C55 -/

/-- What is done to a module system. -/
inductive Op where
  /-- a rule is defined -/
  | rule (r : Rule)
  /-- an imported module is added -/
  | mount (n : ModNode) (x : Name)
  /-- another name for a path is introduced -/
  | alias (source : List Name) (x : Name)

/-- The name introduced. -/
def Op.name : Op → Name
  | .rule r => r.name
  | .mount _ x => x
  | .alias _ x => x

/-- The operation is carried out; whether it is accepted. -/
def Op.run : Op → ModSys → ModSys × Bool
  | .rule r, s => s.insertRule r
  | .mount n x, s => s.insert n x
  | .alias p x, s => s.alias p x

/-- The operations in the order last to first, all accepted. -/
def History (pest : ModNode) : List Op → ModSys → Prop
  | [], s => s = ModSys.new pest
  | op :: earlier, s => ∃ s', History pest earlier s' ∧ op.run s' = (s, true)

/-- What a path stands for: a built-in; or else what the operation introducing its first name says. -/
def meaningOf (pest : ModNode) : List Op → List Name → Option ModNode
  | [], q => pest.resolveNode q
  | _ :: _, [] => none
  | op :: earlier, x :: rest =>
    match pest.resolveNode (x :: rest) with
    | some n => some n
    | none =>
      if op.name = x then
        match op with
        | .rule r => if rest = [] then some (.rule r.args.length) else none
        | .mount n _ => n.descend rest
        | .alias source _ => meaningOf pest earlier (source ++ rest)
      else meaningOf pest earlier (x :: rest)

theorem insert_spec {s : ModSys} {ch : List (Name × ModNode)} (hr : s.root = .collection ch) (n : ModNode) (x : Name) :
    (s.insert n x).1.pest = s.pest ∧ (∃ ch', (s.insert n x).1.root = .collection ch') ∧
    ((s.insert n x).2 = true ↔ s.root.descend [x] = none) ∧
    (∀ rest, (s.insert n x).1.root.descend (x :: rest) = n.descend rest) ∧
    ∀ y, y ≠ x → ∀ rest, (s.insert n x).1.root.descend (y :: rest) = s.root.descend (y :: rest) := by
  simp only [ModSys.insert, hr, ModNode.alias]
  refine ⟨trivial, ⟨_, rfl⟩, ?_, fun rest => ?_, fun y hy rest => ?_⟩
  · simp only [insertChild, ModNode.descend, ModNode.child]
    cases lookupChild x ch <;> simp
  · simp only [ModNode.descend, ModNode.child, lookupChild_insert_self]
  · simp only [ModNode.descend, ModNode.child, lookupChild_insert_ne hy]

theorem resolveNode_cons (n : ModNode) (x : Name) (rest : List Name) : n.resolveNode (x :: rest) = n.descend (x :: rest) := rfl

theorem resolveNode_ne {n : ModNode} {q : List Name} (h : q ≠ []) : n.resolveNode q = n.descend q := by
  cases q with
  | nil => exact absurd rfl h
  | cons x q => rfl

theorem history_root {pest : ModNode} {ops : List Op} {s : ModSys} (h : History pest ops s) :
    s.pest = pest ∧ ∃ ch, s.root = .collection ch := by
  induction ops generalizing s with
  | nil => cases h; exact ⟨rfl, _, rfl⟩
  | cons op ops ih =>
    obtain ⟨s', h', hop⟩ := h
    obtain ⟨hp, ch, hr⟩ := ih h'
    have ins : ∀ n x, s'.insert n x = (s, true) → s.pest = pest ∧ ∃ ch, s.root = .collection ch := fun n x e => by
      have := insert_spec hr n x
      rw [e] at this
      exact ⟨this.1.trans hp, this.2.1⟩
    cases op with
    | rule r => exact ins _ _ hop
    | mount n x => exact ins _ _ hop
    | alias p x =>
      simp only [Op.run, ModSys.alias] at hop
      split at hop
      · simp at hop
      · exact ins _ _ hop

theorem sys_descend_append {s : ModSys} {p q : List Name} (hp : p ≠ []) :
    s.resolveNode (p ++ q) = (s.resolveNode p).bind (·.descend q) ∨
      s.pest.resolveNode (p ++ q) = none ∧ (s.pest.resolveNode p).isSome := by
  have hpq : p ++ q ≠ [] := by simp [hp]
  simp only [ModSys.resolveNode, resolveNode_ne hp, resolveNode_ne hpq, descend_append]
  cases h1 : s.pest.descend p with
  | none => exact .inl rfl
  | some n =>
    cases h2 : n.descend q with
    | none => exact .inr (by simp [h2])
    | some n' => exact .inl (by simp [h2])

/-- C55: after any sequence of accepted operations a path resolves to what it stands for.  (`root` names may not
hide the first name of a built-in path.) -/
theorem C55_resolve_history (names : List Name) (ops : List Op) (s : ModSys) (h : History (makeGlobal names) ops s)
    (hn : ∀ op ∈ ops, op.name ≠ "pest".toList) (hsrc : ∀ p x, Op.alias p x ∈ ops → p ≠ []) (q : List Name) :
    s.resolveNode q = meaningOf (makeGlobal names) ops q := by
  -- below `pest` only the built-in tree is used
  have nopest : ∀ {ops : List Op} {s : ModSys}, History (makeGlobal names) ops s →
      (∀ op ∈ ops, op.name ≠ "pest".toList) → ∀ rest, s.root.descend ("pest".toList :: rest) = none := by
    intro ops
    induction ops with
    | nil => intro s h _ rest; cases h; rfl
    | cons op ops ih =>
      intro s ⟨s', h', hop⟩ hn rest
      obtain ⟨_, ch, hr⟩ := history_root h'
      have hne := hn op List.mem_cons_self
      have ih := ih h' (fun o ho => hn o (List.mem_cons_of_mem _ ho)) rest
      have ins : ∀ n x, x ≠ "pest".toList → s'.insert n x = (s, true) →
          s.root.descend ("pest".toList :: rest) = none := fun n x hx e => by
        have := (insert_spec hr n x).2.2.2.2 _ hx.symm rest
        rw [e] at this
        exact this.trans ih
      cases op with
      | rule r => exact ins _ _ hne hop
      | mount n x => exact ins _ _ hne hop
      | alias p x =>
        simp only [Op.run, ModSys.alias] at hop
        split at hop
        · simp at hop
        · exact ins _ _ hne hop
  have pestFirst : ∀ {p : List Name}, p ≠ [] → ((makeGlobal names).resolveNode p).isSome → ∃ r, p = "pest".toList :: r := by
    intro p hp h
    rw [resolveNode_ne hp] at h
    match p, hp with
    | x :: r, _ =>
      refine ⟨r, ?_⟩
      simp only [ModNode.descend, makeGlobal, ModNode.child, lookupChild] at h
      by_cases hx : "pest".toList = x
      · rw [hx]
      · rw [if_neg hx] at h; simp at h
  induction ops generalizing s q with
  | nil =>
    cases h
    simp only [ModSys.resolveNode, ModSys.new, meaningOf]
    cases hq : (makeGlobal names).resolveNode q with
    | some n => rfl
    | none =>
      cases q with
      | nil => rfl
      | cons x q => rfl
  | cons op ops ih =>
    have hhist := h
    obtain ⟨s', h', hop⟩ := h
    have hn' : ∀ o ∈ ops, o.name ≠ "pest".toList := fun o ho => hn o (List.mem_cons_of_mem _ ho)
    have hsrc' : ∀ p x, Op.alias p x ∈ ops → p ≠ [] := fun p x ho => hsrc p x (List.mem_cons_of_mem _ ho)
    have ih := fun q => ih s' h' hn' hsrc' q
    obtain ⟨hp, ch, hr⟩ := history_root h'
    obtain ⟨hps, -⟩ := history_root hhist
    cases q with
    | nil =>
      simp only [ModSys.resolveNode, meaningOf]; rfl
    | cons x rest =>
      simp only [meaningOf]
      cases hq : (makeGlobal names).resolveNode (x :: rest) with
      | some n => simp only [ModSys.resolveNode, hps, hq]
      | none =>
        have base : s.resolveNode (x :: rest) = s.root.descend (x :: rest) := by
          simp only [ModSys.resolveNode, hps, hq]; rfl
        have base' : s'.resolveNode (x :: rest) = s'.root.descend (x :: rest) := by
          simp only [ModSys.resolveNode, hp, hq]; rfl
        have ins : ∀ n y, s'.insert n y = (s, true) →
            s.resolveNode (x :: rest) = if y = x then n.descend rest else meaningOf (makeGlobal names) ops (x :: rest) :=
          fun n y e => by
            have hs := insert_spec hr n y
            rw [e] at hs
            by_cases hy : y = x
            · subst hy
              rw [if_pos rfl, base]; exact hs.2.2.2.1 rest
            · rw [if_neg hy, base, hs.2.2.2.2 x (fun e => hy e.symm) rest, ← base']; exact ih _
        cases op with
        | rule r =>
          rw [ins _ _ hop]
          simp only [Op.name]
          congr 1
          cases rest <;> rfl
        | mount n y => rw [ins _ _ hop]; rfl
        | alias p y =>
          simp only [Op.run, ModSys.alias] at hop
          cases hpn : s'.resolveNode p with
          | none => rw [hpn] at hop; simp at hop
          | some n =>
            rw [hpn] at hop
            rw [ins _ _ hop]
            simp only [Op.name]
            congr 1
            have hpne := hsrc p y List.mem_cons_self
            rw [← ih (p ++ rest)]
            rcases @sys_descend_append s' p rest hpne with e | ⟨e1, e2⟩
            · rw [e, hpn]; rfl
            · have hpq : p ++ rest ≠ [] := by simp [hpne]
              rw [hp] at e1 e2
              obtain ⟨r, rfl⟩ := pestFirst hpne e2
              simp only [ModSys.resolveNode, hp, e1]
              rw [resolveNode_ne hpq]
              rw [List.cons_append, nopest h' hn']
              obtain ⟨n', hn'⟩ := Option.isSome_iff_exists.mp e2
              have : n' = n := by
                simp only [ModSys.resolveNode, hp, hn', Option.some.injEq] at hpn; exact hpn
              subst this
              rw [resolveNode_ne hpq, descend_append, ← resolveNode_ne hpne, hn'] at e1
              exact e1

/-- C55: introducing a name is reported as an error if and only if the name is taken already (or a source
does not exist), and in any case paths starting with other names keep their meaning. -/
theorem C55_insert (pest : ModNode) (ops : List Op) (s : ModSys) (h : History pest ops s) (op : Op) :
    ((op.run s).2 = true ↔ s.root.resolveNode [op.name] = none ∧
      ∀ p x, op = .alias p x → (s.resolveNode p).isSome) ∧
    ∀ y, y ≠ op.name → ∀ rest, (op.run s).1.resolveNode (y :: rest) = s.resolveNode (y :: rest) := by
  obtain ⟨hp, ch, hr⟩ := history_root h
  have frame : ∀ n x y, y ≠ x → ∀ rest, (s.insert n x).1.resolveNode (y :: rest) = s.resolveNode (y :: rest) :=
    fun n x y hy rest => by
      have hs := insert_spec hr n x
      simp only [ModSys.resolveNode, hs.1, resolveNode_cons, hs.2.2.2.2 y hy rest]
  cases op with
  | rule r => exact ⟨by simp [Op.run, ModSys.insertRule, (insert_spec hr _ _).2.2.1, Op.name]; rfl, frame _ _⟩
  | mount n x => exact ⟨by simp [Op.run, (insert_spec hr _ _).2.2.1, Op.name]; rfl, frame _ _⟩
  | alias p x =>
    simp only [Op.run, ModSys.alias]
    cases hpn : s.resolveNode p with
    | none => exact ⟨by simp [hpn], fun y _ rest => rfl⟩
    | some n =>
      refine ⟨?_, frame _ _⟩
      rw [(insert_spec hr _ _).2.2.1]
      simp [Op.name, resolveNode_cons, hpn]

/-- C55: a reference is accepted exactly if what is found fits the way it is used: a rule with as many arguments as
it has parameters, a Unicode property without arguments, another built-in as it says. -/
theorem C55_accepts (s : ModSys) (q : List Name) (args : PArgs) (hq : q ≠ []) :
    (s.resolve q args).isSome ↔ ∃ n, s.resolveNode q = some n ∧
      ((∃ k, n = .rule k ∧ (args = .none ∧ k = 0 ∨ ∃ as, args = .call as ∧ as.length = k)) ∨
       (∃ a b, n = .absolute a b ∧ (args = .none ∨ args = .call [])) ∨
       (∃ direct slice callable, n = .builtin direct slice callable ∧
         (args = .none ∧ direct = true ∨ (∃ r, args = .slice r) ∧ slice.isSome ∨
          ∃ as, args = .call as ∧ (callable = some none ∨ callable = some (some as.length))))) := by
  have hq' : q.isEmpty = false := by simpa using hq
  unfold ModSys.resolve
  cases s.resolveNode q with
  | none => simp
  | some n =>
    simp only [hq', Option.some.injEq, exists_eq_left', Bool.false_eq_true, if_false]
    cases n with
    | collection ch => simp [ModNode.get]
    | rule k =>
      cases args with
      | none => cases k <;> simp [ModNode.get]
      | slice r => cases k <;> simp [ModNode.get]
      | call as =>
        cases k with
        | zero => cases as <;> simp [ModNode.get]
        | succ k =>
          simp only [ModNode.get]
          split
          · rename_i e; simp [← e]
          · rename_i e; simp; omega
    | absolute a b =>
      cases args with
      | none => simp [ModNode.get]
      | slice r => simp [ModNode.get]
      | call as => cases as <;> simp [ModNode.get]
    | builtin d sl c =>
      cases args with
      | none => cases d <;> simp [ModNode.get]
      | slice r =>
        cases sl with
        | none => simp [ModNode.get]
        | some p =>
          refine ⟨fun _ => .inr (.inr ⟨d, some p, c, rfl, .inr (.inl ⟨⟨r, rfl⟩, rfl⟩)⟩), fun _ => ?_⟩
          cases hs : r.stop <;> simp [ModNode.get, hs]
      | call as =>
        match c with
        | none => simp [ModNode.get]
        | some none =>
          exact ⟨fun _ => .inr (.inr ⟨d, sl, _, rfl, .inr (.inr ⟨as, rfl, .inl rfl⟩)⟩), fun _ => by simp [ModNode.get]⟩
        | some (some k) =>
          simp only [ModNode.get]
          split
          · rename_i e
            exact ⟨fun _ => .inr (.inr ⟨d, sl, _, rfl, .inr (.inr ⟨as, rfl, .inr (by rw [e])⟩)⟩), fun _ => by simp⟩
          · rename_i e; simp [e]

/-- C55: after generating the code for a grammar with unambiguous names, a path found in the module's name table
refers to what the grammar says. -/
theorem C55_grammar (cfg : Config) (names : List Name) (table : Name → Char → Bool) (root m : Module) (cur : List Name)
    (hm : modAt root cur = some m) (hw : AllNamed (unicodeOf names table) m) (st st' : GenSt) (out : Output) (sys : ModSys)
    (h : processModule cfg (makeGlobal names) m st = .ok ((out, sys), st')) (q : List Name) (args : PArgs) (ty : Ty)
    (g : Getter) (hr : sys.resolve q args = some (ty, g)) :
    (∃ r as, target (unicodeOf names table) root cur q = some (.rule (cur ++ q.dropLast) r) ∧
      as.length = r.args.length ∧ ty = .rule q.dropLast r.name as ∧ (args = .call as ∨ args = .none ∧ as = [])) ∨
    ∃ full, target (unicodeOf names table) root cur q = some (.builtin full) := by
  have hg := processModule_gen m _ _ _ _ h
  obtain ⟨hp, hn⟩ := resolve_ok (table := table) hg hw
  cases sys_resolve hp hn hm hr with
  | rule h1 h2 h3 => exact .inl ⟨_, _, h1, h2, rfl, h3⟩
  | leaf h1 => exact .inr ⟨_, h1⟩
  | unicode _ h1 => exact .inr ⟨_, h1⟩
  | push h1 => exact .inr ⟨_, h1⟩
  | slice h1 => exact .inr ⟨_, h1⟩

-- a rule `a`, and `use pest::stack as s`
example : ∃ s, History (makeGlobal []) [.alias ["pest".toList, "stack".toList] ['s'], .rule ⟨['a'], [['p']], .str [], false⟩] s ∧
    meaningOf (makeGlobal []) [.alias ["pest".toList, "stack".toList] ['s'], .rule ⟨['a'], [['p']], .str [], false⟩]
      [['s'], "pop".toList] = some (.builtin true none none) ∧
    (s.resolve [['s'], "pop".toList] .none).isSome ∧ (s.resolve [['a']] (.call [.charRange 'a' 'b'])).isSome ∧
    ¬ (s.resolve [['a']] .none).isSome :=
  ⟨_, ⟨_, ⟨_, rfl, rfl⟩, rfl⟩, rfl, rfl, rfl, by simp; rfl⟩

end Pest3.Props
