import Verif.Codegen
import Verif.AstLemmas

namespace Pest3.Gen
open Pest3
open Pest3.Meta (MetaRange)

/-- What a derivation of the generator is about: one expression and its result, or several. -/
inductive GItem where
  | one (e : Expr) (r : Ty × Getter)
  | all (l : List Expr) (rs : List (Ty × Getter))

/-- `process_expr` as a relation, without fuel and without panics. -/
inductive GenRel (params : List Name) (sys : ModSys) : GItem → GenSt → GenSt → Prop
  | str {s st} : GenRel params sys (.one (.str s) (.str (st.insertString s).1, [])) st (st.insertString s).2
  | insens {s st} : GenRel params sys (.one (.insens s) (.insens (st.insertString s).1, [])) st (st.insertString s).2
  | range {lo hi st} : GenRel params sys (.one (.range lo hi) (.charRange lo hi, [])) st st
  | param {x st} : x ∈ params → GenRel params sys (.one (.path [x]) (.param x, [(x, .arg x)])) st st
  | paramSlice {x r st} : x ∈ params → GenRel params sys (.one (.slice [x] r) (.param x, [(x, .arg x)])) st st
  | paramCall {x args st} : x ∈ params → GenRel params sys (.one (.call [x] args) (.param x, [(x, .arg x)])) st st
  | path {p r st} : (∀ x ∈ params, p ≠ [x]) → sys.resolve p .none = some r → GenRel params sys (.one (.path p) r) st st
  | slice {p range r st} : (∀ x ∈ params, p ≠ [x]) → sys.resolve p (.slice range) = some r →
      GenRel params sys (.one (.slice p range) r) st st
  | call {p args rs r st st'} : (∀ x ∈ params, p ≠ [x]) → GenRel params sys (.all args rs) st st' →
      sys.resolve p (.call (rs.map Prod.fst)) = some r → GenRel params sys (.one (.call p args) r) st st'
  | pos {e r st st'} : GenRel params sys (.one e r) st st' →
      GenRel params sys (.one (.pos e) (.positive r.1, r.2.prepend .content)) st st'
  | neg {e r st st'} : GenRel params sys (.one e r) st st' →
      GenRel params sys (.one (.neg e) (.negative r.1, [])) st st'
  | seq {l r t rs st st'} : GenRel params sys (.all ((collectSequence l r t).map Prod.snd) rs) st st' →
      GenRel params sys (.one (.seq l r t) (.seq ((collectSequence l r t).map Prod.fst) (rs.map Prod.fst),
        joinAll .contentI 0 [] (rs.map Prod.snd))) st (st'.recordSeq rs.length)
  | choice {l r rs st st'} : GenRel params sys (.all (collectChoices l r) rs) st st' →
      GenRel params sys (.one (.choice l r) (.choice (rs.map Prod.fst),
        joinAll .choiceI 0 [] (rs.map Prod.snd))) st (st'.recordChoice rs.length)
  | opt {e r st st'} : GenRel params sys (.one e r) st st' →
      GenRel params sys (.one (.opt e) (.option r.1, r.2.prepend .optional)) st st'
  | rep {e r st st'} : GenRel params sys (.one e r) st st' →
      GenRel params sys (.one (.rep e) (.rep r.1 (getTrivia e), r.2.prepend .contents)) st st'
  | repOnce {e r st st'} : GenRel params sys (.one e r) st st' →
      GenRel params sys (.one (.repOnce e) (.repOnce r.1 (getTrivia e), r.2.prepend .contents)) st st'
  | repRange {e range r st st'} : GenRel params sys (.one e r) st st' →
      GenRel params sys (.one (.repRange e range) (match range.start, range.stop with
        | some a, some b => .repMinMax r.1 (getTrivia e) a b
        | some a, none => .repMin r.1 (getTrivia e) a
        | none, some b => .repMax r.1 (getTrivia e) b
        | none, none => .rep r.1 (getTrivia e), r.2.prepend .contents)) st st'
  | separated {e t r st st'} : GenRel params sys (.one e r) st st' →
      GenRel params sys (.one (.separated e t) r) st st'
  | nil {st} : GenRel params sys (.all [] []) st st
  | cons {e l r rs st st' st''} : GenRel params sys (.one e r) st st' → GenRel params sys (.all l rs) st' st'' →
      GenRel params sys (.all (e :: l) (r :: rs)) st st''

theorem andThen_ok {α β : Type} {r : Res α} {k : α → Res β} {b : β} :
    andThen r k = .ok b ↔ ∃ a, r = .ok a ∧ k a = .ok b := by
  cases r <;> simp [andThen]

theorem andThen_oof {α β : Type} {r : Res α} {k : α → Res β} :
    andThen r k = .oof ↔ r = .oof ∨ ∃ a, r = .ok a ∧ k a = .oof := by
  cases r <;> simp [andThen]

theorem unwrap_ok {α : Type} {o : Option α} {a : α} : unwrap o = .ok a ↔ o = some a := by
  cases o <;> simp [unwrap]

theorem unwrap_oof {α : Type} {o : Option α} : unwrap o ≠ .oof := by
  cases o <;> simp [unwrap]

section
variable {params : List Name} {sys : ModSys}

theorem process_gen (fuel : Nat) :
    (∀ e st r st', processExpr params sys fuel e st = .ok (r, st') → GenRel params sys (.one e r) st st') ∧
    (∀ l st rs st', processAll params sys fuel l st = .ok (rs, st') → GenRel params sys (.all l rs) st st') := by
  induction fuel with
  | zero => exact ⟨fun e st r st' h => by simp [processExpr] at h, fun l st r st' h => by simp [processAll] at h⟩
  | succ fuel ih =>
    obtain ⟨ih1, ih2⟩ := ih
    refine ⟨fun e st r st' h => ?_, fun l st rs st' h => ?_⟩
    · cases e with
      | str s => simp only [processExpr, Res.ok.injEq, Prod.mk.injEq] at h; obtain ⟨rfl, rfl⟩ := h; exact .str
      | insens s => simp only [processExpr, Res.ok.injEq, Prod.mk.injEq] at h; obtain ⟨rfl, rfl⟩ := h; exact .insens
      | range a b => simp only [processExpr, Res.ok.injEq, Prod.mk.injEq] at h; obtain ⟨rfl, rfl⟩ := h; exact .range
      | path p =>
        have gen : (∀ x ∈ params, p ≠ [x]) →
            andThen (unwrap (sys.resolve p .none)) (fun r => Res.ok (r, st)) = .ok (r, st') →
            GenRel params sys (.one (.path p) r) st st' := fun hp h => by
          obtain ⟨a, ha, hb⟩ := andThen_ok.mp h
          simp only [Res.ok.injEq, Prod.mk.injEq] at hb; obtain ⟨rfl, rfl⟩ := hb
          exact .path hp (unwrap_ok.mp ha)
        match p, gen, h with
        | [], gen, h => exact gen (by simp) (by simpa [processExpr] using h)
        | [x], gen, h =>
          simp only [processExpr] at h
          split at h
          · rename_i hx
            simp only [Res.ok.injEq, Prod.mk.injEq] at h; obtain ⟨rfl, rfl⟩ := h
            exact .param (by simpa using hx)
          · rename_i hx
            exact gen (fun y hy he => hx (by simp only [List.cons.injEq, and_true] at he; subst he; simpa using hy)) h
        | _ :: _ :: _, gen, h => exact gen (by simp) (by simpa [processExpr] using h)
      | slice p range =>
        have gen : (∀ x ∈ params, p ≠ [x]) →
            andThen (unwrap (sys.resolve p (.slice range))) (fun r => Res.ok (r, st)) = .ok (r, st') →
            GenRel params sys (.one (.slice p range) r) st st' := fun hp h => by
          obtain ⟨a, ha, hb⟩ := andThen_ok.mp h
          simp only [Res.ok.injEq, Prod.mk.injEq] at hb; obtain ⟨rfl, rfl⟩ := hb
          exact .slice hp (unwrap_ok.mp ha)
        match p, gen, h with
        | [], gen, h => exact gen (by simp) (by simpa [processExpr] using h)
        | [x], gen, h =>
          simp only [processExpr] at h
          split at h
          · rename_i hx
            simp only [Res.ok.injEq, Prod.mk.injEq] at h; obtain ⟨rfl, rfl⟩ := h
            exact .paramSlice (by simpa using hx)
          · rename_i hx
            exact gen (fun y hy he => hx (by simp only [List.cons.injEq, and_true] at he; subst he; simpa using hy)) h
        | _ :: _ :: _, gen, h => exact gen (by simp) (by simpa [processExpr] using h)
      | call p args =>
        have gen : (∀ x ∈ params, p ≠ [x]) →
            (andThen (processAll params sys fuel args st) fun (rs, st) =>
              andThen (unwrap (sys.resolve p (.call (rs.map Prod.fst)))) fun r => .ok (r, st)) = .ok (r, st') →
            GenRel params sys (.one (.call p args) r) st st' := fun hp h => by
          obtain ⟨⟨rs, st1⟩, ha, hb⟩ := andThen_ok.mp h
          obtain ⟨r1, hc, hd⟩ := andThen_ok.mp hb
          simp only [Res.ok.injEq, Prod.mk.injEq] at hd; obtain ⟨rfl, rfl⟩ := hd
          exact .call hp (ih2 _ _ _ _ ha) (unwrap_ok.mp hc)
        match p, gen, h with
        | [], gen, h => exact gen (by simp) (by simpa [processExpr] using h)
        | [x], gen, h =>
          simp only [processExpr] at h
          split at h
          · rename_i hx
            simp only [Res.ok.injEq, Prod.mk.injEq] at h; obtain ⟨rfl, rfl⟩ := h
            exact .paramCall (by simpa using hx)
          · rename_i hx
            exact gen (fun y hy he => hx (by simp only [List.cons.injEq, and_true] at he; subst he; simpa using hy)) h
        | _ :: _ :: _, gen, h => exact gen (by simp) (by simpa [processExpr] using h)
      | pos e =>
        simp only [processExpr] at h
        obtain ⟨⟨r1, st1⟩, ha, hb⟩ := andThen_ok.mp h
        simp only [Res.ok.injEq, Prod.mk.injEq] at hb; obtain ⟨rfl, rfl⟩ := hb
        exact .pos (ih1 _ _ _ _ ha)
      | neg e =>
        simp only [processExpr] at h
        obtain ⟨⟨r1, st1⟩, ha, hb⟩ := andThen_ok.mp h
        simp only [Res.ok.injEq, Prod.mk.injEq] at hb; obtain ⟨rfl, rfl⟩ := hb
        exact .neg (ih1 _ _ _ _ ha)
      | seq l r t =>
        simp only [processExpr] at h
        obtain ⟨⟨r1, st1⟩, ha, hb⟩ := andThen_ok.mp h
        simp only [Res.ok.injEq, Prod.mk.injEq] at hb; obtain ⟨rfl, rfl⟩ := hb
        exact .seq (ih2 _ _ _ _ ha)
      | choice l r =>
        simp only [processExpr] at h
        obtain ⟨⟨r1, st1⟩, ha, hb⟩ := andThen_ok.mp h
        simp only [Res.ok.injEq, Prod.mk.injEq] at hb; obtain ⟨rfl, rfl⟩ := hb
        exact .choice (ih2 _ _ _ _ ha)
      | opt e =>
        simp only [processExpr] at h
        obtain ⟨⟨r1, st1⟩, ha, hb⟩ := andThen_ok.mp h
        simp only [Res.ok.injEq, Prod.mk.injEq] at hb; obtain ⟨rfl, rfl⟩ := hb
        exact .opt (ih1 _ _ _ _ ha)
      | rep e =>
        simp only [processExpr] at h
        obtain ⟨⟨r1, st1⟩, ha, hb⟩ := andThen_ok.mp h
        simp only [Res.ok.injEq, Prod.mk.injEq] at hb; obtain ⟨rfl, rfl⟩ := hb
        exact .rep (ih1 _ _ _ _ ha)
      | repOnce e =>
        simp only [processExpr] at h
        obtain ⟨⟨r1, st1⟩, ha, hb⟩ := andThen_ok.mp h
        simp only [Res.ok.injEq, Prod.mk.injEq] at hb; obtain ⟨rfl, rfl⟩ := hb
        exact .repOnce (ih1 _ _ _ _ ha)
      | repRange e range =>
        simp only [processExpr] at h
        obtain ⟨⟨r1, st1⟩, ha, hb⟩ := andThen_ok.mp h
        simp only [Res.ok.injEq, Prod.mk.injEq] at hb; obtain ⟨rfl, rfl⟩ := hb
        exact .repRange (ih1 _ _ _ _ ha)
      | separated e t => simp only [processExpr] at h; exact .separated (ih1 _ _ _ _ h)
    · cases l with
      | nil => simp only [processAll, Res.ok.injEq, Prod.mk.injEq] at h; obtain ⟨rfl, rfl⟩ := h; exact .nil
      | cons e l =>
        simp only [processAll] at h
        obtain ⟨⟨r1, st1⟩, ha, hb⟩ := andThen_ok.mp h
        obtain ⟨⟨r2, st2⟩, hc, hd⟩ := andThen_ok.mp hb
        simp only [Res.ok.injEq, Prod.mk.injEq] at hd; obtain ⟨rfl, rfl⟩ := hd
        exact .cons (ih1 _ _ _ _ ha) (ih2 _ _ _ _ hc)

theorem processExpr_gen {fuel e st r st'} (h : processExpr params sys fuel e st = .ok (r, st')) :
    GenRel params sys (.one e r) st st' := (process_gen fuel).1 _ _ _ _ h

/-- The sizes of several expressions. -/
def sizes (l : List Expr) : Nat := (l.map Expr.size).sum

theorem sizes_cons {e l} : sizes (e :: l) = e.size + sizes l := by simp [sizes]

theorem size_pos (e : Expr) : 0 < e.size := by cases e <;> simp [Expr.size] <;> omega

theorem sizes_seqTail (e : Expr) : ∀ t, sizes ((seqTail t e).map Prod.snd) ≤ e.size := by
  induction e using Expr.ind with
  | seq l r t _ ih => intro t'; have := ih t; simp only [seqTail, List.map_cons, sizes_cons, Expr.size]; omega
  | _ => intro t; simp [seqTail, sizes]

theorem sizes_choiceTail (e : Expr) : sizes (choiceTail e) ≤ e.size := by
  induction e using Expr.ind with
  | choice l r _ ih => simp only [choiceTail, sizes_cons, Expr.size]; omega
  | _ => simp [choiceTail, sizes]

theorem sizes_args (args : List Expr) : sizes args = sizeAll args := by
  induction args with
  | nil => rfl
  | cons a l ih => simp [sizes_cons, sizeAll, ih]

theorem process_fuel (fuel : Nat) :
    (∀ e st, 2 * e.size ≤ fuel → processExpr params sys fuel e st ≠ .oof) ∧
    (∀ l st, 2 * sizes l + 1 ≤ fuel → processAll params sys fuel l st ≠ .oof) := by
  induction fuel with
  | zero => exact ⟨fun e st h => absurd (size_pos e) (by omega), fun l st h => by omega⟩
  | succ fuel ih =>
    obtain ⟨ih1, ih2⟩ := ih
    have un : ∀ e st (k : (Ty × Getter) × GenSt → (Ty × Getter) × GenSt), 2 * e.size ≤ fuel →
        (andThen (processExpr params sys fuel e st) fun x => Res.ok (k x)) ≠ .oof := fun e st k h ho => by
      rcases andThen_oof.mp ho with h' | ⟨a, _, h'⟩
      · exact ih1 _ _ h h'
      · simp at h'
    refine ⟨fun e st h => ?_, fun l st h => ?_⟩
    · cases e with
      | str s => simp [processExpr]
      | insens s => simp [processExpr]
      | range a b => simp [processExpr]
      | path p =>
        have gen : (andThen (unwrap (sys.resolve p .none)) fun r => Res.ok (r, st)) ≠ .oof := fun ho => by
          rcases andThen_oof.mp ho with h' | ⟨a, _, h'⟩
          · exact unwrap_oof h'
          · simp at h'
        match p, gen with
        | [], gen => simpa [processExpr] using gen
        | [x], gen => simp only [processExpr]; split <;> simp [gen]
        | _ :: _ :: _, gen => simpa [processExpr] using gen
      | slice p range =>
        have gen : (andThen (unwrap (sys.resolve p (.slice range))) fun r => Res.ok (r, st)) ≠ .oof := fun ho => by
          rcases andThen_oof.mp ho with h' | ⟨a, _, h'⟩
          · exact unwrap_oof h'
          · simp at h'
        match p, gen with
        | [], gen => simpa [processExpr] using gen
        | [x], gen => simp only [processExpr]; split <;> simp [gen]
        | _ :: _ :: _, gen => simpa [processExpr] using gen
      | call p args =>
        have gen : (andThen (processAll params sys fuel args st) fun (rs, st) =>
            andThen (unwrap (sys.resolve p (.call (rs.map Prod.fst)))) fun r => Res.ok (r, st)) ≠ .oof := fun ho => by
          simp only [Expr.size, ← sizes_args] at h
          rcases andThen_oof.mp ho with h' | ⟨a, _, h'⟩
          · exact ih2 _ _ (by omega) h'
          · rcases andThen_oof.mp h' with h' | ⟨a, _, h'⟩
            · exact unwrap_oof h'
            · simp at h'
        match p, gen with
        | [], gen => simpa [processExpr] using gen
        | [x], gen => simp only [processExpr]; split; · simp
                      · exact gen
        | _ :: _ :: _, gen => simpa [processExpr] using gen
      | pos e => simp only [processExpr]; exact un e st (fun _ => _) (by simp only [Expr.size] at h; omega)
      | neg e => simp only [processExpr]; exact un e st (fun _ => _) (by simp only [Expr.size] at h; omega)
      | opt e => simp only [processExpr]; exact un e st (fun _ => _) (by simp only [Expr.size] at h; omega)
      | rep e => simp only [processExpr]; exact un e st (fun _ => _) (by simp only [Expr.size] at h; omega)
      | repOnce e => simp only [processExpr]; exact un e st (fun _ => _) (by simp only [Expr.size] at h; omega)
      | repRange e range => simp only [processExpr]; exact un e st (fun _ => _) (by simp only [Expr.size] at h; omega)
      | separated e t => simp only [processExpr]; exact ih1 _ _ (by simp only [Expr.size] at h; omega)
      | seq l r t =>
        simp only [processExpr]
        intro ho
        rcases andThen_oof.mp ho with h' | ⟨a, _, h'⟩
        · refine ih2 _ _ ?_ h'
          have := sizes_seqTail r t
          simp only [collectSequence, List.map_cons, sizes_cons, Expr.size] at h ⊢
          omega
        · simp at h'
      | choice l r =>
        simp only [processExpr]
        intro ho
        rcases andThen_oof.mp ho with h' | ⟨a, _, h'⟩
        · refine ih2 _ _ ?_ h'
          have := sizes_choiceTail r
          simp only [collectChoices, sizes_cons, Expr.size] at h ⊢
          omega
        · simp at h'
    · cases l with
      | nil => simp [processAll]
      | cons e l =>
        simp only [processAll]
        have := size_pos e
        rw [sizes_cons] at h
        intro ho
        rcases andThen_oof.mp ho with h' | ⟨a, _, h'⟩
        · exact ih1 _ _ (by omega) h'
        · rcases andThen_oof.mp h' with h' | ⟨a, _, h'⟩
          · exact ih2 _ _ (by omega) h'
          · simp at h'

theorem processExpr_ne_oof (e st) : processExpr params sys e.fuel e st ≠ .oof :=
  (process_fuel _).1 _ _ (Nat.le_refl _)

end
end Pest3.Gen
