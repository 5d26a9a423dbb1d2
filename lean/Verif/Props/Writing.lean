import Verif.Props.Display

/-!
# Property C62: snippets and the writer they are written to
-/

namespace Pest3.Props
open Pest3

/-- The text of a piece. -/
def pieceText : Piece → Text
  | .plain t | .span t | .marker t | .number t => t

/-- All the pieces are written, each one by the function for its kind, from `w` to `w'`. -/
inductive Written {W : Type} (opt : FormatOption W) : List Piece → W → W → Prop
  | nil {w} : Written opt [] w w
  | plain {t l w w1 w'} : opt.plain t w = some w1 → Written opt l w1 w' → Written opt (.plain t :: l) w w'
  | span {t l w w1 w'} : opt.span t w = some w1 → Written opt l w1 w' → Written opt (.span t :: l) w w'
  | marker {t l w w1 w'} : opt.marker t w = some w1 → Written opt l w1 w' → Written opt (.marker t :: l) w w'
  | number {t l w w1 w'} : opt.number t w = some w1 → Written opt l w1 w' → Written opt (.number t :: l) w w'

/-- The function for its kind fails for the piece. -/
def Fails {W : Type} (opt : FormatOption W) (w : W) : Piece → Prop
  | .plain t => opt.plain t w = none
  | .span t => opt.span t w = none
  | .marker t => opt.marker t w = none
  | .number t => opt.number t w = none

section
variable {W : Type} (opt : FormatOption W)

/-- Displaying succeeds exactly if every piece is written, in order, and leaves the writer as the last one left it. -/
theorem C62_written (out : List Piece) (w w' : W) : opt.render out w = some w' ↔ Written opt out w w' := by
  constructor
  · intro h
    induction out generalizing w with
    | nil => simp only [FormatOption.render, Option.some.injEq] at h; subst h; exact .nil
    | cons x l ih =>
      simp only [FormatOption.render] at h
      cases hw : opt.write x w with
      | none => rw [hw] at h; simp at h
      | some w1 =>
        rw [hw] at h
        have := ih w1 h
        cases x with
        | plain t => exact .plain hw this
        | span t => exact .span hw this
        | marker t => exact .marker hw this
        | number t => exact .number hw this
  · intro h
    induction h with
    | nil => rfl
    | plain h _ ih | span h _ ih | marker h _ ih | number h _ ih => simp only [FormatOption.render, FormatOption.write, h]; exact ih

/-- It fails exactly if writing some piece fails after all those before it were written. -/
theorem C62_error (out : List Piece) (w : W) : opt.render out w = none ↔
    ∃ done x rest w', out = done ++ x :: rest ∧ Written opt done w w' ∧ Fails opt w' x := by
  constructor
  · intro h
    induction out generalizing w with
    | nil => simp [FormatOption.render] at h
    | cons x l ih =>
      simp only [FormatOption.render] at h
      cases hw : opt.write x w with
      | none =>
        refine ⟨[], x, l, w, rfl, .nil, ?_⟩
        cases x <;> exact hw
      | some w1 =>
        rw [hw] at h
        obtain ⟨done, y, rest, w', rfl, h1, h2⟩ := ih w1 h
        refine ⟨x :: done, y, rest, w', rfl, ?_, h2⟩
        cases x with
        | plain t => exact .plain hw h1
        | span t => exact .span hw h1
        | marker t => exact .marker hw h1
        | number t => exact .number hw h1
  · rintro ⟨done, x, rest, w', rfl, h1, h2⟩
    induction h1 with
    | @nil w0 =>
      rw [List.nil_append, FormatOption.render]
      have : opt.write x w0 = none := by cases x <;> exact h2
      rw [this]
    | plain h _ ih | span h _ ih | marker h _ ih | number h _ ih =>
      simp only [List.cons_append, FormatOption.render, FormatOption.write, h]; exact ih h2

end

theorem render_default (out : List Piece) (w : Text) :
    FormatOption.default.render out w = some (w ++ (out.map pieceText).flatten) := by
  induction out generalizing w with
  | nil => simp [FormatOption.render]
  | cons x l ih =>
    have : FormatOption.default.write x w = some (w ++ pieceText x) := by cases x <;> rfl
    simp only [FormatOption.render, this, ih, List.map_cons, List.flatten_cons, List.append_assoc]

/-- `to_string` of a span is the concatenation of the pieces. -/
theorem C62_span_text (width : Text → Nat) (sp : Span) :
    sp.toText width = (displaySpan width sp).map fun out => (out.map pieceText).flatten := by
  unfold Span.toText
  cases displaySpan width sp with
  | none => rfl
  | some out => exact render_default out []

/-- `to_string` of a position is the concatenation of the pieces. -/
theorem C62_position_text (width : Text → Nat) (p : Position) :
    p.toText width = (displayPosition width p).map fun out => (out.map pieceText).flatten := by
  unfold Position.toText
  cases displayPosition width p with
  | none => rfl
  | some out => exact render_default out []

/-- A writer with room for 10 bytes. -/
def smallWriter : FormatOption Text :=
  let put (t w : Text) : Option Text := if (w ++ t).length ≤ 10 then some (w ++ t) else none
  ⟨put, put, put, put⟩

-- C62_error: it is full after the number
example : ∃ w', Written smallWriter [.plain " --> ".toList, .number "12".toList] [] w' ∧ Fails smallWriter w' (.span "abcdef".toList) ∧
    smallWriter.render [.plain " --> ".toList, .number "12".toList, .span "abcdef".toList, .plain ['\n']] [] = none :=
  ⟨" --> 12".toList, .plain rfl (.number rfl .nil), rfl, rfl⟩

end Pest3.Props
