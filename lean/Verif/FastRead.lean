import Verif.Pest2Rel
import Verif.MetaFile

/-!
# Reading a text with less to remember

The recogniser of `Pest2` keeps all that was consumed.  This one only counts it, which is cheaper for the kernel to run; it is proved to find the same.
-/

namespace Pest3.Gen
open Pest3
open Pest3.Meta (MetaRule)

/-- How much was consumed, what is ahead, and the stack. -/
structure PCfg where
  pos : Nat
  suf : Text
  stk : List Text

/-- A configuration with the count of what was consumed. -/
def flat (c : Cfg) : PCfg := ⟨c.pre.length, c.suf, c.stk⟩

/-- `eat` -/
def PCfg.eat (s : Text) (c : PCfg) : Option PCfg :=
  if s.isPrefixOf c.suf then some ⟨c.pos + s.length, c.suf.drop s.length, c.stk⟩ else none

/-- `eatIf` -/
def PCfg.eatIf (p : Char → Bool) (c : PCfg) : Option PCfg :=
  match c.suf with
  | x :: rest => if p x then some ⟨c.pos + 1, rest, c.stk⟩ else none
  | [] => none

/-- `between` -/
def PCfg.between (c c' : PCfg) : Text := c.suf.take (c'.pos - c.pos)

/-- `wrap` -/
def wrapP (k : RKind) (m : Mode) (r : MetaRule) (c c' : PCfg) (ts : List PTree) : List PTree :=
  if k.token m then [.node r (PCfg.between c c') ts] else ts

/-- `recog` -/
def recogP (g : Gram) : Nat → Mode → PE → PCfg → Res (Option (PCfg × List PTree))
  | 0, _, _, _ => .oof
  | fuel + 1, m, e, c => match e with
    | .str s => .ok ((PCfg.eat s c).map (·, []))
    | .range a b => .ok ((PCfg.eatIf (fun x => a ≤ x && x ≤ b) c).map (·, []))
    | .any => .ok ((PCfg.eatIf (fun _ => true) c).map (·, []))
    | .soi => .ok (if c.pos = 0 then some (c, []) else none)
    | .eoi => .ok (if c.suf = [] then some (c, []) else none)
    | .ref r =>
      tryThen (recogP g fuel ((g r).1.inside m) (g r).2 c) fun x => .ok (some (x.1, wrapP (g r).1 m r c x.1 x.2))
    | .seq e f =>
      tryThen (recogP g fuel m e c) fun x => tryThen (recogP g fuel m .skip x.1) fun y =>
        tryThen (recogP g fuel m f y.1) fun z => .ok (some (z.1, x.2 ++ z.2))
    | .choice e f =>
      andThen (recogP g fuel m e c) fun
        | some x => .ok (some x)
        | none => recogP g fuel m f c
    | .opt e =>
      andThen (recogP g fuel m e c) fun
        | some x => .ok (some x)
        | none => .ok (some (c, []))
    | .rep e =>
      andThen (recogP g fuel m e c) fun
        | some x => tryThen (recogP g fuel m (.more e) x.1) fun y => .ok (some (y.1, x.2 ++ y.2))
        | none => .ok (some (c, []))
    | .more e =>
      tryThen (recogP g fuel m .skip c) fun s =>
        andThen (recogP g fuel m e s.1) fun
          | some x => tryThen (recogP g fuel m (.more e) x.1) fun y => .ok (some (y.1, x.2 ++ y.2))
          | none => .ok (some (c, []))
    | .pos e => tryThen (recogP g fuel m e c) fun _ => .ok (some (c, []))
    | .neg e =>
      andThen (recogP g fuel m e c) fun
        | some _ => .ok none
        | none => .ok (some (c, []))
    | .push e =>
      tryThen (recogP g fuel m e c) fun x => .ok (some ({ x.1 with stk := x.1.stk ++ [PCfg.between c x.1] }, x.2))
    | .peek => match c.stk.getLast? with
      | some s => .ok ((PCfg.eat s c).map (·, []))
      | none => .ok none
    | .pop => match c.stk.getLast? with
      | some s => .ok ((PCfg.eat s c).map fun c' => ({ c' with stk := c'.stk.dropLast }, []))
      | none => .ok none
    | .skip => match m with
      | .nonAtomic => tryThen (recogP g fuel .atomic skipBody c) fun x => .ok (some (x.1, []))
      | _ => .ok (some (c, []))

/-- With the count only. -/
def flatRes (r : Res (Option (Cfg × List PTree))) : Res (Option (PCfg × List PTree)) := andThen r fun x => .ok (x.map fun x => (flat x.1, x.2))

theorem eat_flat (s : Text) (c : Cfg) : PCfg.eat s (flat c) = (eat s c).map flat := by
  unfold PCfg.eat eat
  show (if s.isPrefixOf c.suf then _ else _) = _
  split
  · simp [flat]
  · rfl

theorem eatIf_flat (p : Char → Bool) (c : Cfg) : PCfg.eatIf p (flat c) = (eatIf p c).map flat := by
  obtain ⟨pre, suf, stk⟩ := c
  unfold PCfg.eatIf eatIf
  cases suf with
  | nil => rfl
  | cons x rest =>
    show (if p x then _ else _) = Option.map flat (if p x then _ else _)
    split
    · simp [flat]
    · rfl

theorem flat_none {o : Option Cfg} : flatRes (.ok (o.map (·, []))) = .ok ((o.map flat).map (·, [])) := by cases o <;> rfl

theorem flat_try {r : Res (Option (Cfg × List PTree))} {k : Cfg × List PTree → Res (Option (Cfg × List PTree))} {k' : PCfg × List PTree → Res (Option (PCfg × List PTree))}
    (h : ∀ x, r = .ok (some x) → flatRes (k x) = k' (flat x.1, x.2)) : flatRes (tryThen r k) = tryThen (flatRes r) k' := by
  match r with
  | .panic => rfl
  | .oof => rfl
  | .ok none => rfl
  | .ok (some x) => exact h x rfl

theorem flat_or {r : Res (Option (Cfg × List PTree))} {k : Option (Cfg × List PTree) → Res (Option (Cfg × List PTree))} {k' : Option (PCfg × List PTree) → Res (Option (PCfg × List PTree))}
    (h : ∀ x, flatRes (k x) = k' (x.map fun x => (flat x.1, x.2))) : flatRes (andThen r k) = andThen (flatRes r) k' := by
  match r with
  | .panic => rfl
  | .oof => rfl
  | .ok x => exact h x

theorem between_flat {g : Gram} {n : Nat} {m : Mode} {e : PE} {c : Cfg} {x : Cfg × List PTree} (h : recog g n m e c = .ok (some x)) : PCfg.between (flat c) (flat x.1) = between c x.1 := by
  obtain ⟨t, h1, h2⟩ := (recog_rec h).consumes x.1 x.2 rfl
  unfold PCfg.between between flat
  simp [h1, h2]

/-- It finds the same. -/
theorem recog_flat (g : Gram) (fuel : Nat) : ∀ m e c, recogP g fuel m e (flat c) = flatRes (recog g fuel m e c) := by
  induction fuel with
  | zero => intro m e c; rfl
  | succ n ih =>
    intro m e c
    cases e with
    | str s => simp only [recog, recogP, eat_flat]; exact flat_none.symm
    | range a b => simp only [recog, recogP, eatIf_flat]; exact flat_none.symm
    | any => simp only [recog, recogP, eatIf_flat]; exact flat_none.symm
    | soi =>
      obtain ⟨pre, suf, stk⟩ := c
      cases pre <;> rfl
    | eoi =>
      obtain ⟨pre, suf, stk⟩ := c
      cases suf <;> rfl
    | ref r =>
      simp only [recog, recogP, ih]
      refine (flat_try fun x hx => ?_).symm
      have : wrapP (g r).1 m r (flat c) (flat x.1) x.2 = wrap (g r).1 m r c x.1 x.2 := by
        unfold wrapP wrap
        rw [between_flat hx]
      rw [this]; rfl
    | seq e f =>
      simp only [recog, recogP, ih]
      refine (flat_try fun x _ => ?_).symm
      simp only [ih]
      refine flat_try fun y _ => ?_
      simp only [ih]
      exact flat_try fun z _ => rfl
    | choice e f =>
      simp only [recog, recogP, ih]
      refine (flat_or fun x => ?_).symm
      cases x <;> rfl
    | opt e =>
      simp only [recog, recogP, ih]
      refine (flat_or fun x => ?_).symm
      cases x <;> rfl
    | rep e =>
      simp only [recog, recogP, ih]
      refine (flat_or fun x => ?_).symm
      cases x with
      | none => rfl
      | some x =>
        simp only [Option.map_some, ih]
        exact flat_try fun y _ => rfl
    | more e =>
      simp only [recog, recogP, ih]
      refine (flat_try fun s _ => ?_).symm
      simp only [ih]
      refine flat_or fun x => ?_
      cases x with
      | none => rfl
      | some x =>
        simp only [Option.map_some, ih]
        exact flat_try fun y _ => rfl
    | pos e =>
      simp only [recog, recogP, ih]
      exact (flat_try fun x _ => rfl).symm
    | neg e =>
      simp only [recog, recogP, ih]
      refine (flat_or fun x => ?_).symm
      cases x <;> rfl
    | push e =>
      simp only [recog, recogP, ih]
      refine (flat_try fun x hx => ?_).symm
      rw [between_flat hx]; rfl
    | peek =>
      unfold recog recogP
      simp only
      show (match c.stk.getLast? with | some s => _ | none => _) = _
      cases c.stk.getLast? with
      | none => rfl
      | some s => simp only [eat_flat]; exact flat_none.symm
    | pop =>
      unfold recog recogP
      simp only
      show (match c.stk.getLast? with | some s => _ | none => _) = _
      cases c.stk.getLast? with
      | none => rfl
      | some s =>
        simp only [eat_flat]
        cases eat s c <;> rfl
    | skip =>
      cases m with
      | nonAtomic =>
        simp only [recog, recogP, ih]
        exact (flat_try fun x _ => rfl).symm
      | compoundAtomic => rfl
      | atomic => rfl

end Pest3.Gen

namespace Pest3.Load
open Pest3 Pest3.Gen

/-- `readText` -/
def readTextP (fuel : Nat) (text : Text) : Res (Option (List FileItem)) :=
  tryThen (recogP metaGrammar fuel .nonAtomic (.ref .grammarRules) ⟨0, text, []⟩) fun x => andThen (readItems fuel x.2) fun l => .ok (some l)

theorem readText_flat (fuel : Nat) (text : Text) : readText fuel text = readTextP fuel text := by
  unfold readText readTextP recogFile
  rw [show (⟨0, text, []⟩ : PCfg) = flat ⟨[], text, []⟩ from rfl, recog_flat]
  match recog metaGrammar fuel .nonAtomic (.ref .grammarRules) ⟨[], text, []⟩ with
  | .panic => rfl
  | .oof => rfl
  | .ok none => rfl
  | .ok (some x) => rfl

end Pest3.Load
