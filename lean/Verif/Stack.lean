import Verif.Position

/-!
# The span stack

`core` uses `pest2::Stack<Span>` (re-exported, `core/src/lib.rs:16`).  The crate `pest 2.8` is not
part of `/repo`; only its interface is visible.  The interpreters are therefore generic over the
record `StackOps`.  `Lawful` says what "snapshot / clear_snapshot / restore" are documented to do.
-/

namespace Pest3

/-- The operations of `pest2::Stack<Span>` called from `core/src`:
`Stack::new` (`traits.rs:40`), `push` (`template/mod.rs:927`), `pop` (`:784`), `peek` (`:735`),
`len` / indexing with a range (`:692`, `:307`) through `elems` (bottom to top), `snapshot`,
`clear_snapshot`, `restore` (`choice.rs:39-47`, `traits.rs:229-237`, `template/mod.rs:362-370`,
`:1084-1089`). -/
structure StackOps (S : Type) where
  empty : S
  elems : S → List Span
  push : Span → S → S
  pop : S → Option Span × S
  peek : S → Option Span
  snapshot : S → S
  clear : S → S
  restore : S → S

/-- What the operations are documented to do.  `saved` lists the stacks remembered by the open
snapshots, innermost first. -/
structure Lawful {S : Type} (so : StackOps S) (saved : S → List (List Span)) : Prop where
  elems_empty : so.elems so.empty = []
  saved_empty : saved so.empty = []
  elems_push : ∀ x s, so.elems (so.push x s) = so.elems s ++ [x]
  saved_push : ∀ x s, saved (so.push x s) = saved s
  pop_val : ∀ s, (so.pop s).1 = (so.elems s).getLast?
  elems_pop : ∀ s, so.elems (so.pop s).2 = (so.elems s).dropLast
  saved_pop : ∀ s, saved (so.pop s).2 = saved s
  peek_val : ∀ s, so.peek s = (so.elems s).getLast?
  elems_snapshot : ∀ s, so.elems (so.snapshot s) = so.elems s
  saved_snapshot : ∀ s, saved (so.snapshot s) = so.elems s :: saved s
  elems_clear : ∀ s, so.elems (so.clear s) = so.elems s
  saved_clear : ∀ s, saved (so.clear s) = (saved s).tail
  elems_restore : ∀ s c cs, saved s = c :: cs → so.elems (so.restore s) = c
  saved_restore : ∀ s, saved (so.restore s) = (saved s).tail

/-- The obvious implementation: the elements together with the list of saved copies. -/
structure IdealStack where
  cache : List Span
  saved : List (List Span)
deriving DecidableEq, Repr

/-- Stack operations on `IdealStack`. -/
def idealOps : StackOps IdealStack where
  empty := ⟨[], []⟩
  elems s := s.cache
  push x s := { s with cache := s.cache ++ [x] }
  pop s := (s.cache.getLast?, { s with cache := s.cache.dropLast })
  peek s := s.cache.getLast?
  snapshot s := { s with saved := s.cache :: s.saved }
  clear s := { s with saved := s.saved.tail }
  restore s := match s.saved with
    | [] => ⟨[], []⟩
    | c :: cs => ⟨c, cs⟩

theorem ideal_lawful : Lawful idealOps IdealStack.saved := by
  constructor <;> simp [idealOps]
  · intro s c cs h; simp [h]
  · intro s; cases h : s.saved <;> simp

end Pest3
