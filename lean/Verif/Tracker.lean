import Verif.Position

/-!
# Model of `core/src/typed/tracker.rs`
-/

namespace Pest3

/-- Rule labels: the generated `enum Rule` with derived `Ord`
(`generator/src/common.rs:91-102`); a label is the index of its variant. -/
abbrev Label := Nat

/-- `EOI` is the first variant of the generated enum (`generator/src/common.rs:96`); only the
fact that it is one fixed label is used. -/
def eoiLabel : Label := 0

/-- `SpecialError` (`core/src/typed/tracker.rs:23-30`). -/
inductive SpecialError where
  | sliceOutOfBound (start : Int) (stop : Option Int)
  | repeatTooManyTimes
  | emptyStack
deriving DecidableEq, Repr

/-- `Tracked` (`core/src/typed/tracker.rs:45`). -/
structure Tracked where
  positives : List Label
  negatives : List Label
  specials : List SpecialError
deriving DecidableEq, Repr

/-- `Tracked::default()`. -/
def Tracked.empty : Tracked := ⟨[], [], []⟩

/-- `Tracker` (`core/src/typed/tracker.rs:48-54`).  `attempts` is a `BTreeMap`: an association list
sorted by key (`None` first).  `stack` has its top at the head. -/
structure Tracker where
  position : Position
  positive : Bool
  attempts : List (Option Label × Tracked)
  stack : List (Label × Position × Bool)
deriving DecidableEq, Repr

/-- Order on `Option<R>`: `None` is smallest. -/
def keyLt : Option Label → Option Label → Bool
  | none, some _ => true
  | some a, some b => decide (a < b)
  | _, none => false

/-- `BTreeMap::entry(k).or_default()` followed by an update of the value. -/
def upsert (k : Option Label) (f : Tracked → Tracked) :
    List (Option Label × Tracked) → List (Option Label × Tracked)
  | [] => [(k, f .empty)]
  | (k', v) :: rest =>
    if keyLt k k' then (k, f .empty) :: (k', v) :: rest
    else if k = k' then (k', f v) :: rest
    else (k', v) :: upsert k f rest

namespace Tracker

/-- `Tracker::new` (`core/src/typed/tracker.rs:57-64`). -/
def new (pos : Position) : Tracker := ⟨pos, true, [], []⟩

/-- `Tracker::prepare` (`core/src/typed/tracker.rs:68-78`); `none`: the comparison panics. -/
def prepare (t : Tracker) (pos : Position) : Option (Bool × Tracker) :=
  match pos.cmp t.position with
  | none => none
  | some .lt => some (false, t)
  | some .eq => some (true, t)
  | some .gt => some (true, { t with attempts := [], position := pos })

/-- The key computed by `Tracker::get_entry` (`core/src/typed/tracker.rs:94-107`): the lowest rule
on the stack that started elsewhere. -/
def upperRule (stack : List (Label × Position × Bool)) (pos : Position) : Option Label :=
  match stack with
  | [] => none
  | (r, p, _) :: rest => if p.eq pos then upperRule rest pos else some r

/-- Update of the entry returned by `Tracker::get_entry`. -/
def updateEntry (t : Tracker) (pos : Position) (f : Tracked → Tracked) : Tracker :=
  { t with attempts := upsert (upperRule t.stack pos) f t.attempts }

/-- `repeat_too_many_times`, `out_of_bound`, `empty_stack`
(`core/src/typed/tracker.rs:109-129`). -/
def special (t : Tracker) (pos : Position) (e : SpecialError) : Option Tracker :=
  match t.prepare pos with
  | none => none
  | some (false, t) => some t
  | some (true, t) => some (t.updateEntry pos fun v => { v with specials := v.specials ++ [e] })

/-- `vec.push(rule)` guarded by `same_with_last` (`core/src/typed/tracker.rs:130-135`, `:142-144`). -/
def pushNew (v : List Label) (rule : Label) : List Label :=
  if v.getLast? = some rule then v else v ++ [rule]

/-- `Tracker::record` (`core/src/typed/tracker.rs:137-146`). -/
def record (t : Tracker) (rule : Label) (pos : Position) (succeeded : Bool) : Option Tracker :=
  match t.prepare pos with
  | none => none
  | some (false, t) => some t
  | some (true, t) =>
    if succeeded != t.positive then
      some (t.updateEntry pos fun v =>
        if t.positive then { v with positives := pushNew v.positives rule }
        else { v with negatives := pushNew v.negatives rule })
    else some t

/-- First half of `record_option_during_with` (`core/src/typed/tracker.rs:184-187`). -/
def enter (t : Tracker) (rule : Label) (pos : Position) : Tracker :=
  { t with
    stack := (rule, pos, false) :: match t.stack with
      | [] => []
      | (r, p, _) :: rest => (r, p, true) :: rest }

/-- Second half of `record_option_during_with` (`core/src/typed/tracker.rs:189-194`); `none`: the
`unwrap` of the popped entry fails, or `record` panics. -/
def leave (t : Tracker) (rule : Label) (pos : Position) (succeeded : Bool) : Option Tracker :=
  match t.stack with
  | [] => none
  | (_, _, hasChildren) :: rest =>
    let t := { t with stack := rest }
    if hasChildren then some t else t.record rule pos succeeded

/-- `Tracker::finish` (`core/src/typed/tracker.rs:305-307`). -/
def finish (t : Tracker) : Position × List (Option Label × Tracked) := (t.position, t.attempts)

end Tracker

/-- The operations of a tracker that the node types call (`positive_during`/`negative_during` save
`positive`, set it, and put it back: `core/src/typed/tracker.rs:79-93`). -/
structure TrackerOps (T : Type) where
  positive : T → Bool
  setPositive : Bool → T → T
  enter : Label → Position → T → T
  leave : Label → Position → Bool → T → Option T
  special : Position → SpecialError → T → Option T

/-- The tracker of the library. -/
def realTracker : TrackerOps Tracker where
  positive t := t.positive
  setPositive b t := { t with positive := b }
  enter r p t := t.enter r p
  leave r p b t := t.leave r p b
  special p e t := t.special p e

/-- A tracker that does nothing (used to state that the tracker does not influence parsing). -/
def noTracker : TrackerOps Unit where
  positive _ := true
  setPositive _ t := t
  enter _ _ t := t
  leave _ _ _ t := some t
  special _ _ t := some t

end Pest3
