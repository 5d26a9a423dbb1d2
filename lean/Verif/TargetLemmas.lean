import Verif.ResolveLemmas

namespace Pest3.Gen
open Pest3

theorem lookupChild_of_mem {l : List (Name × ModNode)} {x : Name} (h : x ∈ l.map Prod.fst) :
    ∃ n, lookupChild x l = some n := by
  induction l with
  | nil => simp at h
  | cons a l ih =>
    obtain ⟨y, n⟩ := a
    simp only [lookupChild]
    by_cases e : y = x
    · exact ⟨n, by rw [if_pos e]⟩
    · rw [if_neg e]
      simp only [List.map_cons, List.mem_cons] at h
      exact ih (h.resolve_left fun h => e h.symm)

theorem mem_of_lookup {β : Type} {l : List (Name × β)} {x : Name} {b : β} (h : l.lookup x = some b) : (x, b) ∈ l := by
  induction l with
  | nil => simp at h
  | cons a l ih =>
    obtain ⟨y, c⟩ := a
    simp only [List.lookup_cons] at h
    split at h
    · rename_i e
      simp only [Option.some.injEq] at h
      have := LawfulBEq.eq_of_beq e
      subst this h; exact List.mem_cons_self
    · exact List.mem_cons_of_mem _ (ih h)

theorem pest_child (names : List Name) : ∃ ch, (makeGlobal names).descend ["pest".toList] = some (.collection ch) ∧
    ch.map Prod.fst = ["soi", "eoi", "any", "ascii_digit", "ascii_nonzero_digit", "ascii_bin_digit", "ascii_oct_digit",
      "ascii_hex_digit", "ascii_alpha_lower", "ascii_alpha_upper", "ascii_alpha", "ascii_alphanumeric", "ascii",
      "newline", "stack", "unicode"].map String.toList := ⟨_, rfl, rfl⟩

theorem stack_child (names : List Name) : ∃ ch,
    (makeGlobal names).descend ["pest".toList, "stack".toList] = some (.collection ch) ∧
    ch.map Prod.fst = ["peek", "peek_all", "drop", "push", "pop", "pop_all"].map String.toList := ⟨_, rfl, rfl⟩

theorem unicode_child (names : List Name) : ∃ ch,
    (makeGlobal names).descend ["pest".toList, "unicode".toList] = some (.collection ch) ∧
    ch.map Prod.fst = names.map (·.map Char.toLower) := ⟨_, rfl, by simp⟩

theorem pest_complete {names table q} (h : IsBuiltin (unicodeOf names table) q) :
    ∃ n, (makeGlobal names).descend q = some n := by
  have step : ∀ {p x ch}, (makeGlobal names).descend p = some (.collection ch) → x ∈ ch.map Prod.fst →
      ∃ n, (makeGlobal names).descend (p ++ [x]) = some n := fun hp hx => by
    obtain ⟨n, hn⟩ := lookupChild_of_mem hx
    exact ⟨n, by rw [descend_append, hp]; simp [ModNode.descend, ModNode.child, hn]⟩
  rcases h with h | rfl
  · unfold builtinLeaf at h
    split at h
    · rename_i a x
      split at h
      · rename_i ha; subst ha
        obtain ⟨l, hl⟩ := Option.isSome_iff_exists.mp h
        obtain ⟨ch, h1, h2⟩ := pest_child names
        refine step h1 ?_
        rw [h2]
        have := mem_of_lookup hl
        simp only [pestLeaves, List.mem_cons, Prod.mk.injEq, List.not_mem_nil, or_false] at this
        rcases this with ⟨rfl, _⟩ | ⟨rfl, _⟩ | ⟨rfl, _⟩ | ⟨rfl, _⟩ | ⟨rfl, _⟩ | ⟨rfl, _⟩ | ⟨rfl, _⟩ | ⟨rfl, _⟩ | ⟨rfl, _⟩ |
          ⟨rfl, _⟩ | ⟨rfl, _⟩ | ⟨rfl, _⟩ | ⟨rfl, _⟩ | ⟨rfl, _⟩ <;> simp
      · simp at h
    · rename_i a b x
      split at h
      · rename_i ha
        obtain ⟨rfl, rfl⟩ := ha
        obtain ⟨l, hl⟩ := Option.isSome_iff_exists.mp h
        obtain ⟨ch, h1, h2⟩ := stack_child names
        refine step h1 ?_
        rw [h2]
        have := mem_of_lookup hl
        simp only [stackLeaves, List.mem_cons, Prod.mk.injEq, List.not_mem_nil, or_false] at this
        rcases this with ⟨rfl, _⟩ | ⟨rfl, _⟩ | ⟨rfl, _⟩ | ⟨rfl, _⟩ | ⟨rfl, _⟩ <;> simp
      · split at h
        · rename_i ha
          obtain ⟨rfl, rfl, hx⟩ := ha
          obtain ⟨ch, h1, h2⟩ := unicode_child names
          exact step h1 (by rw [h2]; exact hx)
        · simp at h
    · simp at h
  · exact ⟨_, rfl⟩

/-- What a reference is resolved to: its type. -/
inductive Resolved (names : List Name) (u : Unicode) (root : Module) (cur q : List Name) (args : PArgs) : Ty → Prop
  | rule {r as} : target u root cur q = some (.rule (cur ++ q.dropLast) r) → as.length = r.args.length →
      (args = .call as ∨ args = .none ∧ as = []) → Resolved names u root cur q args (.rule q.dropLast r.name as)
  | leaf {full x l} : target u root cur q = some (.builtin full) → builtinLeaf u full = some l →
      (pestLeaves.lookup x = some l ∨ stackLeaves.lookup x = some l) → args = .none →
      Resolved names u root cur q args (.builtin x [])
  | unicode {x} : x ∈ names → target u root cur q =
        some (.builtin ["pest".toList, "unicode".toList, x.map Char.toLower]) →
      (args = .none ∨ args = .call []) → Resolved names u root cur q args (.unicode (x.map Char.toUpper))
  | push {t} : target u root cur q = some (.builtin pushPath) → args = .call [t] →
      Resolved names u root cur q args (.builtin "push".toList [t])
  | slice {range} : target u root cur q = some (.builtin peekPath) → args = .slice range →
      Resolved names u root cur q args (match range.stop with
        | some b => .slice2 "PeekSlice2".toList (range.start.getD 0) b
        | none => .slice1 "PeekSlice1".toList (range.start.getD 0))

theorem getLastD_of {l : List Name} {x : Name} (h : l.getLast? = some x) : l.getLastD [] = x := by
  rw [List.getLastD_eq_getLast?, h]; rfl

section
variable {names : List Name} {table : Name → Char → Bool} {root m : Module} {cur : List Name}

theorem get_builtin {full q : List Name} {n : ModNode} {args : PArgs} {ty : Ty} {g : Getter}
    (hb : BuiltinAt names full n) (hlast : full.getLast? = q.getLast? ∨ ∃ a b, n = .absolute a b)
    (ht : target (unicodeOf names table) root cur q = some (.builtin full)) (h : n.get q args = some (ty, g)) :
    Resolved names (unicodeOf names table) root cur q args ty := by
  cases hb with
  | @leaf _ l sl hx hsl =>
    have hlast : full.getLast? = q.getLast? := hlast.resolve_right (by simp)
    obtain ⟨x, hfx, hlx, hbl⟩ : ∃ x, full.getLast? = some x ∧
        (pestLeaves.lookup x = some l ∨ stackLeaves.lookup x = some l) ∧
        builtinLeaf (unicodeOf names table) full = some l := by
      rcases hx with ⟨x, rfl, hx⟩ | ⟨x, rfl, hx⟩
      · exact ⟨x, rfl, .inl hx, by simp [builtinLeaf, hx]⟩
      · exact ⟨x, rfl, .inr hx, by simp [builtinLeaf, hx]⟩
    have hq : q.getLastD [] = x := getLastD_of (hlast ▸ hfx)
    cases args with
    | none =>
      simp only [ModNode.get, if_true, Option.some.injEq, Prod.mk.injEq] at h
      rw [← h.1, hq]
      exact .leaf ht hbl hlx rfl
    | call as => simp [ModNode.get] at h
    | slice range =>
      rcases hsl with ⟨rfl, _⟩ | ⟨rfl, rfl⟩
      · simp [ModNode.get] at h
      · have := @Resolved.slice names (unicodeOf names table) root cur q (.slice range) range ht rfl
        simp only [ModNode.get] at h
        cases hs : range.stop with
        | none =>
          rw [hs] at h this
          simp only [Option.some.injEq, Prod.mk.injEq] at h
          rw [← h.1]; exact this
        | some b =>
          rw [hs] at h this
          simp only [Option.some.injEq, Prod.mk.injEq] at h
          rw [← h.1]; exact this
  | push =>
    have hlast : pushPath.getLast? = q.getLast? := hlast.resolve_right (by simp)
    have hq : q.getLastD [] = "push".toList := getLastD_of hlast.symm
    cases args with
    | none => simp [ModNode.get] at h
    | slice range => simp [ModNode.get] at h
    | call as =>
      simp only [ModNode.get] at h
      split at h
      · rename_i hl
        simp only [Option.some.injEq, Prod.mk.injEq] at h
        rw [← h.1, hq]
        match as, hl with
        | [t], _ => exact .push ht rfl
      · simp at h
  | unicode hx =>
    cases args with
    | none =>
      simp only [ModNode.get, Option.some.injEq, Prod.mk.injEq] at h
      rw [← h.1]; exact .unicode hx ht (.inl rfl)
    | call as =>
      cases as with
      | nil =>
        simp only [ModNode.get, Option.some.injEq, Prod.mk.injEq] at h
        rw [← h.1]; exact .unicode hx ht (.inr rfl)
      | cons a as => simp [ModNode.get] at h
    | slice range => simp [ModNode.get] at h

theorem sys_resolve {sys : ModSys} (hp : sys.pest = makeGlobal names)
    (hn : NodeOk names (unicodeOf names table) m sys.root) (hm : modAt root cur = some m) {q : List Name} {args : PArgs}
    {ty : Ty} {g : Getter} (h : sys.resolve q args = some (ty, g)) :
    Resolved names (unicodeOf names table) root cur q args ty := by
  unfold ModSys.resolve at h
  cases hr : sys.resolveNode q with
  | none => rw [hr] at h; simp at h
  | some n =>
    rw [hr] at h
    dsimp only at h
    split at h
    · simp at h
    rename_i hq
    have hq : q ≠ [] := by simpa using hq
    have hcoll : ∀ ch, n ≠ .collection ch := fun ch e => by subst e; simp [ModNode.get] at h
    have hdesc : ∀ n : ModNode, n.resolveNode q = n.descend q := fun n => by
      cases q with
      | nil => exact absurd rfl hq
      | cons x q => rfl
    unfold ModSys.resolveNode at hr
    rw [hp, hdesc, hdesc] at hr
    cases hd : (makeGlobal names).descend q with
    | some n' =>
      rw [hd] at hr
      simp only [Option.some.injEq] at hr
      subst hr
      have hb := (pest_descend hq hd).resolve_left fun ⟨ch, e⟩ => hcoll ch e
      exact get_builtin hb (.inl rfl) (by rw [target, if_pos hb.isBuiltin]) h
    | none =>
      rw [hd] at hr
      dsimp only at hr
      have hnb : ¬ IsBuiltin (unicodeOf names table) q := fun hb => by
        obtain ⟨n', hn'⟩ := pest_complete hb
        rw [hd] at hn'; simp at hn'
      have ht : target (unicodeOf names table) root cur q = lookupIn (unicodeOf names table) m cur q := by
        rw [target, if_neg hnb, hm]
      rcases hn.2 q n hq hr hcoll cur with ⟨r, h1, rfl, h3⟩ | ⟨full, h1, h2, h3⟩
      · rw [h1] at ht
        have hlast := getLastD_of h3
        cases args with
        | none =>
          simp only [ModNode.get] at h
          cases ha : r.args with
          | nil =>
            rw [ha] at h
            simp only [List.length_nil, Option.some.injEq, Prod.mk.injEq] at h
            rw [← h.1, hlast]
            exact .rule ht (by simp [ha]) (.inr ⟨rfl, rfl⟩)
          | cons a as => rw [ha] at h; simp at h
        | slice range =>
          simp [ModNode.get] at h
        | call as =>
          simp only [ModNode.get] at h
          cases ha : r.args with
          | nil =>
            rw [ha] at h
            simp only [List.length_nil] at h
            split at h
            · rename_i he
              simp only [Option.some.injEq, Prod.mk.injEq] at h
              have : as = [] := by simpa using he
              subst this
              rw [← h.1, hlast]
              exact .rule ht (by simp [ha]) (.inl rfl)
            · simp at h
          | cons a as' =>
            rw [ha] at h
            simp only [List.length_cons] at h
            split at h
            · rename_i he
              simp only [Option.some.injEq, Prod.mk.injEq] at h
              rw [← h.1, hlast]
              exact .rule ht (by rw [ha]; simpa using he.symm) (.inl rfl)
            · simp at h
      · exact get_builtin h2 h3 (by rw [ht, h1]) h

end
end Pest3.Gen
