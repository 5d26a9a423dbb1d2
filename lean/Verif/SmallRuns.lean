import Verif.SmallExample
import Verif.JsonLanguage
import Verif.JsonWell

/-!
# What the rules of these grammars match; the grammars are in order
-/

namespace Pest3.Small
open Pest3 Pest3.Gen
open Pest3.Json (Leaves leaves_seq leaves_seqT leaves_many leaves_many1 leaves_choice leaves_char leaves_str leaves_rule again one many1 strip strip_some strip_one dropWhile_not mem_takeWhile not_nil
  plainExpr plain_sub plain_trivia plain_scoped usable_rule one_some)

section
variable {u : Unicode} {stk : List Text}

theorem leaves_pos {root : Module} {p : List Name} {ρ : List (Name × Clo)} {e : Expr} {pre s stk o} (h : Leaves u root (.expr (.mk p ρ e)) pre s stk o) :
    Leaves u root (.expr (.mk p ρ (.pos e))) pre s stk (if o.isSome then some s else none) := by
  cases o with
  | none => exact .posFail h
  | some s' => obtain ⟨w, h1, h2⟩ := h; exact ⟨[], rfl, by rw [List.append_nil]; exact .posOk h2⟩

/-! ## `derive/tests/issue27.pest` -/

/-- A failing trivia rule makes the sequence fail. -/
theorem leaves_seqF {root : Module} {p : List Name} {ρ : List (Name × Clo)} {l r : Expr} {t : Trivia} {pre s stk o} {f g : Text → Option Text}
    (h : Leaves u root (.expr (.mk p ρ l)) pre s stk o) (hT : ∀ pre' s', o = some s' → s'.length ≤ s.length → Leaves u root (.trivia p t) pre' s' stk (f s'))
    (h' : ∀ pre' s', s'.length ≤ s.length → Leaves u root (.expr (.mk p ρ r)) pre' s' stk (g s')) :
    Leaves u root (.expr (.mk p ρ (.seq l r t))) pre s stk ((o.bind f).bind g) := by
  cases o with
  | none => exact .seqFail h
  | some s1 =>
    obtain ⟨w, rfl, h2⟩ := h
    have h3 := hT (pre ++ w) s1 rfl (by simp)
    simp only [Option.bind_some]
    cases h4 : f s1 with
    | none => rw [h4] at h3; exact .seqTriviaFail h2 h3
    | some s2 =>
      rw [h4] at h3
      obtain ⟨v, rfl, h5⟩ := h3
      have h6 := h' (pre ++ w ++ v) s2 (by simp only [List.length_append]; omega)
      simp only [Option.bind_some]
      cases h7 : g s2 with
      | none => rw [h7] at h6; exact .seq h2 h5 h6
      | some s3 =>
        rw [h7] at h6
        obtain ⟨x, rfl, h8⟩ := h6
        refine ⟨w ++ (v ++ x), by simp, ?_⟩
        have h9 : Meaning u root (.expr (.mk p ρ (.seq l r t))) ⟨pre, w ++ (v ++ (x ++ s3)), stk⟩ (some ⟨pre ++ w ++ v ++ x, s3, stk⟩) := .seq h2 h5 h8
        rwa [show pre ++ w ++ v ++ x = pre ++ (w ++ (v ++ x)) by simp] at h9

def useF (s : Text) : Option Text := ((strip ['a'] s).bind (strip [','])).bind fun s => some (s.dropWhile (· == 'b'))
def bF : Text → Option Text := many1 (· == 'b')
def xF : Text → Option Text
  | [] => none
  | x :: s => if x = 'a' then (if (xF s).isSome then some s else strip ['b'] s) else none

theorem leaves_use {pre s : Text} (hs : s.length + 1 < usizeMax) : Leaves u issueModule (.expr (.mk [] [] tUse)) pre s stk (useF s) :=
  leaves_seqF leaves_str (fun _ _ _ _ => leaves_str.imp fun _ k => .triviaRule (m := issueModule) (r := ⟨['~'], [], .str [','], false⟩) rfl rfl k)
    fun _ _ h => leaves_many rfl (by omega) fun _ _ => leaves_char

theorem leaves_b {pre s : Text} (hs : s.length + 1 < usizeMax) : Leaves u issueModule (.expr (.mk [] [] tB)) pre s stk (bF s) :=
  leaves_many1 rfl hs fun _ _ => leaves_char

theorem leaves_a {pre s : Text} (hs : s.length + 1 < usizeMax) : Leaves u issueModule (.expr (.mk [] [] tA)) pre s stk (bF s) :=
  leaves_rule (p' := []) (r := ⟨['_', 'b'], [], tB, false⟩) rfl rfl (leaves_b hs)

theorem leaves_x (s : Text) : ∀ pre, Leaves u issueModule (.expr (.mk [] [] tX)) pre s stk (xF s) := by
  induction s with
  | nil => exact fun pre => leaves_seq (o := none) (g := fun s => some s) leaves_str fun _ _ h => by cases h
  | cons x s ih =>
    intro pre
    have h := leaves_seq (u := u) (root := issueModule) (p := []) (ρ := []) (stk := stk) (pre := pre) (l := .str ['a']) (r := .choice (.pos (.path [['x']])) (.str ['b']))
      (o := strip ['a'] (x :: s)) (g := fun _ => (if (xF s).isSome then some s else none).or (strip ['b'] s)) leaves_str (fun pre' s' h _ => by
        have := strip_some.mp h
        cases this
        exact leaves_choice (leaves_pos (leaves_rule (p' := []) (r := ⟨['x'], [], tX, false⟩) rfl rfl (ih pre'))) fun _ => leaves_str)
    have e : ((strip ['a'] (x :: s)).bind fun _ => (if (xF s).isSome then some s else none).or (strip ['b'] s)) = xF (x :: s) := by
      by_cases hx : x = 'a' <;> by_cases h2 : (xF s).isSome <;> simp [strip, xF, hx, h2]
    rw [← e]
    exact h

/-! ## `derive/tests/sequence.rs` -/

theorem strip_two (x : Char) (t s : Text) : (strip [x] s).bind (strip t) = strip (x :: t) s := by
  cases s with
  | nil => rfl
  | cons y s => by_cases h : y = x <;> simp [strip, h]

theorem leaves_seqOf {root : Module} : ∀ (t pre s : Text), Leaves u root (.expr (.mk [] [] (seqOf t))) pre s stk (strip t s)
  | [], _, _ => leaves_str
  | [_], _, _ => leaves_str
  | x :: y :: t, pre, s => by
    rw [← strip_two]
    exact leaves_seq leaves_str fun _ _ _ _ => leaves_seqOf (y :: t) _ _

/-! ## The grammars are in order -/

theorem issue_self {m' : Module} {rules : List Rule} (h : ModIn m' (.mk rules [])) : m' = .mk rules [] := by
  cases h with
  | refl => rfl
  | step h1 _ => simp [Module.imports] at h1

/-- A grammar of rules without parameters and imports. -/
structure Simple (u : Unicode) (rules : List Rule) (paths : List (List Name)) (ts : List Trivia) : Prop where
  usable : ∀ q ∈ paths, Usable u (.mk rules []) q .plain
  exprs : ∀ r ∈ rules, plainExpr paths ts r.node = true
  args : ∀ r ∈ rules, r.args = []
  loud : ∀ r ∈ rules, r.silent = false
  opt : .optional ∈ ts → ∃ r ∈ rules, r.name = ['~']
  man : .mandatory ∉ ts
  inner : ∀ r ∈ rules, r.name = optName → plainExpr paths [.none] r.node = true
  names : (rules.map Rule.name).Nodup

section
variable {rules : List Rule} {paths : List (List Name)} {ts : List Trivia} (h : Simple u rules paths ts)
include h

theorem Simple.scoped : AllScoped u (.mk rules []) := by
  intro a ha
  cases issue_self ha
  refine ⟨by simp [Module.imports], by simp [Module.imports], fun r hr => ⟨fun k => ?_, fun k => absurd k (plain_trivia (h.exprs r hr) h.man)⟩, fun r hr => plain_scoped (h.exprs r hr) h.usable⟩
  by_cases hm : Trivia.optional ∈ ts
  · exact h.opt hm
  · exact absurd k (plain_trivia (h.exprs r hr) hm)

theorem Simple.silent (x : Name) : ¬ SilentName (.mk rules []) x := by
  rintro ⟨a, ha, f, hf, h1, -⟩
  cases issue_self ha
  simp [Rule.inlined, h.loud f hf] at h1

theorem Simple.acyclic {a : Module} (ha : ModIn a (.mk rules [])) : TriviaAcyclic a := by
  cases issue_self ha
  exact ⟨fun r hr k => plain_trivia (h.inner r hr k) (by decide), fun r hr _ => plain_trivia (h.exprs r hr) h.man, .inl fun r hr k => plain_trivia (h.inner r hr k) (by decide)⟩

theorem Simple.named : AllNamed u (.mk rules []) := by
  intro a ha
  cases issue_self ha
  exact ⟨h.names, by simp [Module.imports], by simp [Module.imports], by simp [Module.imports], fun r hr _ => h.args r hr, fun r hr x hx => by rw [h.args r hr] at hx; cases hx⟩

end

theorem issue_simple : Simple u issueRules [[['_', 'b']], [['x']]] [.none, .optional] where
  usable := by
    simp only [List.mem_cons, List.not_mem_nil, or_false, forall_eq_or_imp, forall_eq]
    exact ⟨usable_rule (by decide) rfl rfl, usable_rule (by decide) rfl rfl⟩
  exprs := by decide +kernel
  args := by decide +kernel
  loud := by decide +kernel
  opt := fun _ => by decide +kernel
  man := by decide
  inner := by decide +kernel
  names := by decide +kernel

theorem seq_simple : Simple u seqRules [] [.none] where
  usable := fun q hq => by cases hq
  exprs := by decide +kernel
  args := by decide +kernel
  loud := by decide +kernel
  opt := fun h => absurd h (by decide)
  man := by decide
  inner := by decide +kernel
  names := by decide +kernel

end

/-! ## The texts -/

theorem useF_iff (s : Text) : useF s = some [] ↔ ∃ n, s = 'a' :: ',' :: List.replicate n 'b' := by
  unfold useF
  constructor
  · intro h
    obtain ⟨s1, h1, h2⟩ := Option.bind_eq_some_iff.mp h
    obtain ⟨s2, h3, h4⟩ := Option.bind_eq_some_iff.mp h1
    obtain rfl := strip_some.mp h3
    obtain rfl := strip_some.mp h4
    refine ⟨s1.length, ?_⟩
    have h5 : s1 = s1.takeWhile (· == 'b') := by
      have := List.takeWhile_append_dropWhile (p := (· == 'b')) (l := s1)
      rw [Option.some.inj h2, List.append_nil] at this
      exact this.symm
    have h6 : s1 = List.replicate s1.length 'b' := List.eq_replicate_iff.mpr ⟨rfl, fun x hx => by rw [h5] at hx; simpa using mem_takeWhile hx⟩
    rw [← h6]; rfl
  · rintro ⟨n, rfl⟩
    have h := dropWhile_not (f := (· == 'b')) (d := List.replicate n 'b') (r := []) (fun x hx => by simp [(List.mem_replicate.mp hx).2]) not_nil
    rw [List.append_nil] at h
    simp [strip, h]

theorem bF_iff (s : Text) : bF s = some [] ↔ ∃ n, s = List.replicate (n + 1) 'b' := by
  unfold bF many1
  constructor
  · intro h
    obtain ⟨s1, h1, h2⟩ := Option.map_eq_some_iff.mp h
    obtain ⟨x, hx, rfl⟩ := one_some h1
    have h5 : s1 = s1.takeWhile (· == 'b') := by
      have := List.takeWhile_append_dropWhile (p := (· == 'b')) (l := s1)
      rw [h2, List.append_nil] at this
      exact this.symm
    have h6 : s1 = List.replicate s1.length 'b' := List.eq_replicate_iff.mpr ⟨rfl, fun x hx => by rw [h5] at hx; simpa using mem_takeWhile hx⟩
    refine ⟨s1.length, ?_⟩
    rw [List.replicate_succ, ← h6]
    simp only [beq_iff_eq] at hx
    rw [hx]
  · rintro ⟨n, rfl⟩
    have h := dropWhile_not (f := (· == 'b')) (d := List.replicate n 'b') (r := []) (fun x hx => by simp [(List.mem_replicate.mp hx).2]) not_nil
    rw [List.append_nil] at h
    simp [List.replicate_succ, one, h]

theorem xF_some (s : Text) : (xF s).isSome = true ↔ ∃ n r, s = List.replicate (n + 1) 'a' ++ 'b' :: r := by
  induction s with
  | nil => exact ⟨fun h => (by cases h), fun ⟨n, r, h⟩ => by simp [List.replicate_succ] at h⟩
  | cons x s ih =>
    by_cases hx : x = 'a'
    · subst hx
      by_cases h : (xF s).isSome = true
      · simp only [xF, if_true, h]
        obtain ⟨n, r, e⟩ := ih.mp h
        exact ⟨fun _ => ⟨n + 1, r, by rw [e, List.replicate_succ (n := n + 1), List.cons_append]⟩, fun _ => rfl⟩
      · simp only [xF, if_true, h]
        constructor
        · intro k
          obtain ⟨r, k⟩ := Option.isSome_iff_exists.mp k
          have := strip_some.mp k
          exact ⟨0, r, by rw [this]; rfl⟩
        · rintro ⟨n, r, e⟩
          cases n with
          | zero => cases e; rfl
          | succ n =>
            rw [List.replicate_succ, List.cons_append] at e
            exact absurd (ih.mpr ⟨n, r, (List.cons.inj e).2⟩) h
    · simp only [xF, hx, if_false]
      refine ⟨fun h => (by cases h), fun ⟨n, r, e⟩ => ?_⟩
      rw [List.replicate_succ, List.cons_append] at e
      exact absurd (List.cons.inj e).1 hx

theorem xF_iff (s r : Text) : xF s = some r ↔ s = 'a' :: 'b' :: r ∨ ∃ n r', s = 'a' :: r ∧ r = List.replicate (n + 1) 'a' ++ 'b' :: r' := by
  cases s with
  | nil => exact ⟨fun h => (by cases h), fun h => by rcases h with h | ⟨_, _, h, _⟩ <;> cases h⟩
  | cons x s =>
    by_cases hx : x = 'a'
    · subst hx
      by_cases h : (xF s).isSome = true
      · simp only [xF, if_true, h]
        constructor
        · intro e
          cases e
          obtain ⟨n, r', e⟩ := (xF_some _).mp h
          exact .inr ⟨n, r', rfl, e⟩
        · rintro (e | ⟨n, r', e, -⟩)
          · cases e
            exact absurd h (by simp [xF])
          · cases e; rfl
      · simp only [xF, if_true, h]
        constructor
        · intro e
          have := strip_some.mp e
          exact .inl (by rw [this]; rfl)
        · rintro (e | ⟨n, r', e, e'⟩)
          · cases e; rfl
          · cases e
            exact absurd ((xF_some _).mpr ⟨n, r', e'⟩) h
    · simp only [xF, hx, if_false]
      refine ⟨fun h => (by cases h), ?_⟩
      rintro (e | ⟨n, r', e, -⟩)
      · exact absurd (List.cons.inj e).1 hx
      · exact absurd (List.cons.inj e).1 hx

end Pest3.Small
