import Verif.Codegen
import Verif.PegTree

/-!
# Model of the accessor functions (`generator/src/typed/getter.rs:104-170`, `:238-272`)

An accessor `fn name(&self) -> types { let res = &self.content; paths }` is modelled by its value on the content of the
rule struct (`GNode.eval`), the type the Rust compiler gives to its body (`GNode.typed`) and the declared type
(`GNode.declared`).  The content of a boxed struct is dereferenced (`getter.rs:247-251`), so that `res` is the content
itself in both cases.  Lifetimes are left out.
-/

namespace Pest3.Gen
open Pest3

/-- Rust values returned by accessors: references, options, vectors and tuples. -/
inductive AVal where
  | ref (t : Tree)
  | none
  | some (v : AVal)
  | vec (l : List AVal)
  | tuple (l : List AVal)

/-- Types of these values. -/
inductive ATy where
  | ref (t : Ty)
  | opt (a : ATy)
  | vec (a : ATy)
  | tuple (l : List ATy)

/-- `Option::flatten` (Rust std) after `map`: only an option can be flattened. -/
def AVal.flatten : AVal → Option AVal
  | .none => Option.some .none
  | .some v => Option.some (.some v)
  | _ => Option.none

mutual
/-- The value of the expression built by `Node::expand` (`getter.rs:130-169`) when `res` is a reference to the given
value; `none`: the field or method does not exist on that value. -/
def GNode.eval : GNode → Tree → Option AVal
  | .rule _, t => some (.ref t)
  | .arg _, t => some (.ref t)
  | .content g, t => match t with
    | .positive t => g.eval t
    | _ => none
  | .seqI i g, t => match t with
    | .seq ts => match ts[i]? with
      | some t => g.eval t
      | none => none
    | _ => none
  | .optional flat g, t => match t with
    | .optNone => some .none
    | .optSome t => match g.eval t with
      | some v => if flat then v.flatten else some (.some v)
      | none => none
    | _ => none
  -- `choice_i` is `Some` for the variant `i` only (`core/src/choice.rs:79-87`)
  | .choiceI i flat g, t => match t with
    | .choice j t =>
      if i = j then
        match g.eval t with
        | some v => if flat then v.flatten else some (.some v)
        | none => none
      else some .none
    | _ => none
  | .contents g, t => match t with
    | .rep ts => (ts.mapM fun t => g.eval t).map .vec
    | _ => none
  | .tuple l, t => (evalAll l t).map .tuple
/-- The components of a tuple. -/
def evalAll : List GNode → Tree → Option (List AVal)
  | [], _ => some []
  | g :: rest, t => match g.eval t, evalAll rest t with
    | some v, some vs => some (v :: vs)
    | _, _ => none
end

mutual
/-- The second component of `Node::expand` (`getter.rs:130-169`). -/
def GNode.declared : GNode → ATy
  | .rule t => .ref t
  | .arg x => .ref (.param x)
  | .content g => g.declared
  | .seqI _ g => g.declared
  | .optional flat g => if flat then g.declared else .opt g.declared
  | .choiceI _ flat g => if flat then g.declared else .opt g.declared
  | .contents g => .vec g.declared
  | .tuple l => .tuple (declaredAll l)
/-- The components of a tuple. -/
def declaredAll : List GNode → List ATy
  | [] => []
  | g :: rest => g.declared :: declaredAll rest
end

/-- The type of `Option::flatten`. -/
def ATy.flatten : ATy → Option ATy
  | .opt a => some (.opt a)
  | _ => none

/-- The item type of a repetition. -/
def Ty.item : Ty → Option Ty
  | .rep t _ | .repOnce t _ | .repMin t _ _ | .repMax t _ _ | .repMinMax t _ _ _ => some t
  | _ => none

mutual
/-- The type the Rust compiler gives to the expression built by `Node::expand` when `res` is a reference to a value of the
given type; `none`: it is rejected. -/
def GNode.typed : GNode → Ty → Option ATy
  | .rule _, ty => some (.ref ty)
  | .arg _, ty => some (.ref ty)
  | .content g, ty => match ty with
    | .positive t => g.typed t
    | _ => none
  | .seqI i g, ty => match ty with
    | .seq _ fields => match fields[i]? with
      | some t => g.typed t
      | none => none
    | _ => none
  | .optional flat g, ty => match ty with
    | .option t => match g.typed t with
      | some a => if flat then a.flatten else some (.opt a)
      | none => none
    | _ => none
  | .choiceI i flat g, ty => match ty with
    | .choice alts => match alts[i]? with
      | some t => match g.typed t with
        | some a => if flat then a.flatten else some (.opt a)
        | none => none
      | none => none
    | _ => none
  | .contents g, ty => match ty.item with
    | some t => (g.typed t).map .vec
    | none => none
  | .tuple l, ty => (typedAll l ty).map .tuple
/-- The components of a tuple. -/
def typedAll : List GNode → Ty → Option (List ATy)
  | [], _ => some []
  | g :: rest, ty => match g.typed ty, typedAll rest ty with
    | some a, some as => some (a :: as)
    | _, _ => none
end

/-- The accessor of that name. -/
def Getter.find : Getter → Name → Option GNode
  | [], _ => none
  | (y, n) :: rest, x => if y = x then some n else Getter.find rest x

end Pest3.Gen
