import Verif.Linkage

/-!
# Specification: generated types of finite size
-/

namespace Pest3.Gen
open Pest3

/-- The closed type has a finite size: all it contains by value has.  A repetition is a vector
(`core/src/typed/template/repetition.rs:41-45`); a negative predicate contains nothing
(`core/src/typed/template/mod.rs:402-404`), and so do the trivia between the fields of a sequence
(`core/src/sequence.rs:21-27`).  The content of a boxed struct is behind a pointer; what an unboxed struct contains is
its inner type, with its parameters replaced. -/
inductive HasSize (out : Output) (wrappers : List (Name × Text)) : CTy → Prop
  | leaf {k} : HasSize out wrappers (.leaf k)
  | push {t} : HasSize out wrappers t → HasSize out wrappers (.push t)
  | positive {t} : HasSize out wrappers t → HasSize out wrappers (.positive t)
  | negative {t} : HasSize out wrappers (.negative t)
  | option {t} : HasSize out wrappers t → HasSize out wrappers (.option t)
  | seq {fields} : (∀ f ∈ fields, HasSize out wrappers f.2) → HasSize out wrappers (.seq fields)
  | choice {alts} : (∀ t ∈ alts, HasSize out wrappers t) → HasSize out wrappers (.choice alts)
  | rep {t tr min max} : HasSize out wrappers (.rep t tr min max)
  | rule {p x ts} : (∀ o s, outAt out p = some o → s ∈ o.content → s.name = x → s.boxed = false →
      HasSize out wrappers (close wrappers p (s.args.zip ts) s.inner)) → HasSize out wrappers (.rule p x ts)

end Pest3.Gen
