import Verif.MetaFileShape
import Verif.MetaExprFuel

/-!
# Reading a file: from some fuel on there is one outcome
-/

namespace Pest3.Load
open Pest3 Pest3.Gen
open Pest3.Meta (MetaRule)

/-- From some fuel on the outcome is `r`. -/
def Settled {α : Type} (f : Nat → Res α) (r : Res α) : Prop := ∃ N, ∀ n, N ≤ n → f n = r

theorem Settled.unique {α : Type} {f : Nat → Res α} {r r' : Res α} (h : Settled f r) (h' : Settled f r') : r = r' := by
  obtain ⟨N, hN⟩ := h
  obtain ⟨M, hM⟩ := h'
  rw [← hN (N + M) (by omega), hM (N + M) (by omega)]

theorem Settled.const {α : Type} (r : Res α) : Settled (fun _ => r) r := ⟨0, fun _ _ => rfl⟩

theorem Settled.andThen {α β : Type} {f : Nat → Res α} {k : Nat → α → Res β} {r : Res α} (hf : Settled f r) (hr : r ≠ .oof)
    (hk : ∀ a, ∃ s, s ≠ .oof ∧ Settled (fun n => k n a) s) : ∃ s, s ≠ .oof ∧ Settled (fun n => Gen.andThen (f n) (k n)) s := by
  obtain ⟨N, hN⟩ := hf
  cases r with
  | oof => exact absurd rfl hr
  | panic => exact ⟨.panic, by simp, N, fun n hn => by simp only [hN n hn]; rfl⟩
  | ok a =>
    obtain ⟨s, hs, M, hM⟩ := hk a
    exact ⟨s, hs, N + M, fun n hn => by simp only [hN n (by omega)]; exact hM n (by omega)⟩

theorem Settled.tryThen {α β : Type} {f : Nat → Res (Option α)} {k : Nat → α → Res (Option β)} {r : Res (Option α)} (hf : Settled f r)
    (hr : r ≠ .oof) (hk : ∀ a, ∃ s, s ≠ .oof ∧ Settled (fun n => k n a) s) :
    ∃ s, s ≠ .oof ∧ Settled (fun n => Gen.tryThen (f n) (k n)) s := by
  refine Settled.andThen hf hr fun a => ?_
  cases a with
  | none => exact ⟨_, by simp, .const _⟩
  | some a => exact hk a

theorem parseNode_settled (ops : Ops) (t : PTree) : ∃ r, r ≠ .oof ∧ Settled (fun n => parseNode ops n t) r := by
  obtain ⟨r, h, h'⟩ := parseNode_settles ops t
  exact ⟨r, h, _, h'⟩

theorem callArgs_settled (ops : Ops) (l : List PTree) : ∃ r, r ≠ .oof ∧ Settled (fun n => callArgs (parseNode ops n) l) r := by
  fun_induction callArgs (fun _ => .oof) l with
  | case1 p q rest hp hq ih =>
    simp only [callArgs, if_pos hp, if_pos hq]
    obtain ⟨r, h1, h2⟩ := parseNode_settled ops p
    obtain ⟨r', h3, h4⟩ := ih
    exact h2.tryThen h1 fun _ => h4.tryThen h3 fun _ => ⟨_, by simp, .const _⟩
  | case2 p q rest hp hq ih =>
    simp only [callArgs, if_pos hp, if_neg hq]
    obtain ⟨r, h1, h2⟩ := parseNode_settled ops p
    obtain ⟨r', h3, h4⟩ := ih
    exact h2.tryThen h1 fun _ => h4.tryThen h3 fun _ => ⟨_, by simp, .const _⟩
  | case3 p q rest hp => simp only [callArgs, if_neg hp]; exact ⟨_, by simp, .const _⟩
  | case4 p hp =>
    simp only [callArgs, if_pos hp]
    obtain ⟨r, h1, h2⟩ := parseNode_settled ops p
    exact h2.tryThen h1 fun _ => ⟨_, by simp, .const _⟩
  | case5 p hp => simp only [callArgs, if_neg hp]; exact ⟨_, by simp, .const _⟩
  | case6 => simp only [callArgs]; exact ⟨_, by simp, .const _⟩

theorem parsePath_settled (ops : Ops) (p : PTree) : ∃ r, r ≠ .oof ∧ Settled (fun n => parsePath (parseNode ops n) p) r := by
  unfold parsePath
  split
  · exact ⟨_, by simp, .const _⟩
  · split
    · split
      · exact ⟨_, by simp, .const _⟩
      · obtain ⟨r, h1, h2⟩ := callArgs_settled ops _
        exact h2.tryThen h1 fun _ => ⟨_, by simp, .const _⟩
    · exact ⟨_, tryThen_ends (ofMeta_ends _) fun _ => by simp, .const _⟩
    · exact ⟨_, by simp, .const _⟩

theorem importLoop_ends (l : List PTree) (f : Option Text) (a : Option Name) : importLoop l f a ≠ .oof := by
  induction l generalizing f a with
  | nil => simp [importLoop]
  | cons p l ih =>
    unfold importLoop
    split
    · exact tryThen_ends (ofMeta_ends _) fun _ => ih _ _
    · exact ih _ _
    · simp

theorem parseImport_settled (t : PTree) : ∃ r, r ≠ .oof ∧ Settled (fun n => parseImport n t) r := by
  unfold parseImport
  split
  · exact ⟨_, by simp, .const _⟩
  · obtain ⟨r, h1, h2⟩ := parsePath_settled noOps _
    refine h2.tryThen h1 fun e => ?_
    split
    · exact ⟨_, tryThen_ends (importLoop_ends _ _ _) fun _ => by simp, .const _⟩
    · exact ⟨_, by simp, .const _⟩

theorem parseRule_settled (t : PTree) : ∃ r, r ≠ .oof ∧ Settled (fun n => parseRule n t) r := by
  unfold parseRule
  split
  · dsimp only
    split
    · exact ⟨_, by simp, .const _⟩
    · split
      · obtain ⟨r, h1, h2⟩ := parseNode_settled ruleOps _
        exact h2.tryThen h1 fun _ => ⟨_, by simp, .const _⟩
      · exact ⟨_, by simp, .const _⟩
  · exact ⟨_, by simp, .const _⟩

theorem settle_settled {f : Nat → Res (Option FileItem)} {r : Res (Option FileItem)} (hr : r ≠ .oof) (h : Settled f r) :
    ∃ i, Settled (fun n => settle (f n)) (.ok i) := by
  obtain ⟨N, hN⟩ := h
  cases r with
  | oof => exact absurd rfl hr
  | panic => exact ⟨_, N, fun n hn => by simp only [hN n hn]; rfl⟩
  | ok o =>
    cases o with
    | none => exact ⟨_, N, fun n hn => by simp only [hN n hn]; rfl⟩
    | some i => exact ⟨_, N, fun n hn => by simp only [hN n hn]; rfl⟩

/-- What is read of an item. -/
def ReadAs (t : PTree) (o : Option FileItem) : Prop := ∃ N, ∀ n, N ≤ n → readItem n t = o.map .ok

theorem readItem_settled (t : PTree) : ∃ o, ReadAs t o := by
  have hsome : ∀ {f : Nat → Res FileItem} {i : FileItem}, Settled f (.ok i) → (∀ n, readItem n t = some (f n)) → ∃ o, ReadAs t o := by
    intro f i ⟨N, hN⟩ h
    exact ⟨some i, N, fun n hn => by rw [h, hN n hn]; rfl⟩
  unfold ReadAs readItem at *
  split at hsome
  · obtain ⟨r, h1, h2⟩ := parseImport_settled t
    obtain ⟨s, h3, h4⟩ := h2.tryThen h1 (k := fun _ i => .ok (some (FileItem.imp ⟨i.modPath, i.file.map pathOf, i.alias⟩)))
      fun _ => ⟨_, by simp, .const _⟩
    obtain ⟨i, h5⟩ := settle_settled h3 h4
    exact hsome h5 fun _ => rfl
  · obtain ⟨r, h1, h2⟩ := parseRule_settled t
    obtain ⟨s, h3, h4⟩ := h2.tryThen h1 (k := fun _ r => .ok (some (FileItem.rule r))) fun _ => ⟨_, by simp, .const _⟩
    obtain ⟨i, h5⟩ := settle_settled h3 h4
    exact hsome h5 fun _ => rfl
  · exact ⟨some .doc, 0, fun _ _ => rfl⟩
  · exact ⟨none, 0, fun _ _ => rfl⟩

/-- The pairs `ts` are read as the items `items`. -/
inductive AllRead : List PTree → List FileItem → Prop where
  | nil : AllRead [] []
  | cons {t i ts items} : ReadAs t (some i) → AllRead ts items → AllRead (t :: ts) (i :: items)
  | skip {t ts items} : ReadAs t none → AllRead ts items → AllRead (t :: ts) items

theorem allRead_total (ts : List PTree) : ∃ items, AllRead ts items := by
  induction ts with
  | nil => exact ⟨[], .nil⟩
  | cons t ts ih =>
    obtain ⟨items, h⟩ := ih
    obtain ⟨o, ho⟩ := readItem_settled t
    cases o with
    | none => exact ⟨items, .skip ho h⟩
    | some i => exact ⟨i :: items, .cons ho h⟩

theorem AllRead.settled {ts : List PTree} {items : List FileItem} (h : AllRead ts items) : Settled (fun n => readItems n ts) (.ok items) := by
  induction h with
  | nil => exact .const _
  | cons h1 _ ih =>
    obtain ⟨N, hN⟩ := h1
    obtain ⟨M, hM⟩ := ih
    refine ⟨N + M, fun n hn => ?_⟩
    have h2 := hM n (by omega)
    simp only at h2
    simp only [readItems, hN n (by omega), Option.map_some, andThen, h2]
  | skip h1 _ ih =>
    obtain ⟨N, hN⟩ := h1
    obtain ⟨M, hM⟩ := ih
    refine ⟨N + M, fun n hn => ?_⟩
    have h2 := hM n (by omega)
    simp only at h2
    simp only [readItems, hN n (by omega), Option.map_none, h2]

/-- The pairs of a text. -/
def Recognised (text : Text) (o : Option (List PTree)) : Prop := Settled (fun n => recogFile n text) (.ok o)

theorem recognised_iff {text : Text} {ts : List PTree} :
    Recognised text (some ts) ↔ ∃ c, MRec .nonAtomic (.ref .grammarRules) ⟨[], text, []⟩ (some (c, ts)) := by
  constructor
  · rintro ⟨N, hN⟩
    have h := hN N (Nat.le_refl _)
    simp only [recogFile, tryThen] at h
    obtain ⟨o, h1, h2⟩ := andThen_inv h
    cases o with
    | none => cases h2
    | some x =>
      obtain ⟨c, us⟩ := x
      cases h2
      exact ⟨c, recog_rec h1⟩
  · rintro ⟨c, h⟩
    obtain ⟨N, hN⟩ := rec_recog h
    exact ⟨N, fun n hn => by simp only [recogFile, hN n hn]; rfl⟩

theorem recognised_total (text : Text) : ∃ o, Recognised text o := by
  obtain ⟨r, h⟩ := meta_total .nonAtomic (.ref .grammarRules) (by decide) ⟨[], text, []⟩
  obtain ⟨N, hN⟩ := rec_recog h
  cases r with
  | none => exact ⟨none, N, fun n hn => by simp only [recogFile, hN n hn]; rfl⟩
  | some x => exact ⟨some x.2, N, fun n hn => by simp only [recogFile, hN n hn]; rfl⟩

theorem readText_some {text : Text} {ts : List PTree} {items : List FileItem} (h : Recognised text (some ts)) (h' : AllRead ts items) :
    Settled (fun n => readText n text) (.ok (some items)) := by
  obtain ⟨N, hN⟩ := h
  obtain ⟨M, hM⟩ := h'.settled
  refine ⟨N + M, fun n hn => ?_⟩
  have h1 := hN n (by omega)
  have h2 := hM n (by omega)
  simp only at h1 h2
  simp only [readText, h1, tryThen, andThen, h2]

theorem readText_none {text : Text} (h : Recognised text none) : Settled (fun n => readText n text) (.ok none) := by
  obtain ⟨N, hN⟩ := h
  refine ⟨N, fun n hn => ?_⟩
  have h1 := hN n hn
  simp only at h1
  simp only [readText, h1, tryThen, andThen]

/-! ## One run is enough -/

theorem Settled.of_le {α : Type} {f : Nat → Res α} (hf : ∀ n m, n ≤ m → Res.Le (f n) (f m)) {n : Nat} {a : α} (h : f n = .ok a) :
    Settled f (.ok a) := by
  refine ⟨n, fun m hm => ?_⟩
  have h1 := hf n m hm
  rw [h] at h1
  rcases h1 with h1 | h1
  · cases h1
  · exact h1.symm

theorem parseImport_le {n m : Nat} (h : n ≤ m) (t : PTree) : Res.Le (parseImport n t) (parseImport m t) := by
  unfold parseImport
  split
  · exact .refl _
  · exact tryThen_le (parsePath_le (parseNode_le _ n m h) _) fun _ => .refl _

theorem parseRule_le {n m : Nat} (h : n ≤ m) (t : PTree) : Res.Le (parseRule n t) (parseRule m t) := by
  unfold parseRule
  split
  · dsimp only
    split
    · exact .refl _
    · split
      · exact tryThen_le (parseNode_le _ n m h _) fun _ => .refl _
      · exact .refl _
  · exact .refl _

theorem settle_le {x y : Res (Option FileItem)} (h : Res.Le x y) : Res.Le (settle x) (settle y) := by
  rcases h with rfl | rfl
  · exact .inl rfl
  · exact .refl _

theorem readItem_one {n : Nat} {t : PTree} {i : FileItem} (h : readItem n t = some (.ok i)) : ReadAs t (some i) := by
  have key : ∀ f : Nat → Res FileItem, (∀ n m, n ≤ m → Res.Le (f n) (f m)) → (∀ n, readItem n t = some (f n)) → ReadAs t (some i) := by
    intro f hf he
    rw [he] at h
    injection h with h
    obtain ⟨N, hN⟩ := Settled.of_le hf h
    exact ⟨N, fun m hm => by rw [he, hN m hm]; rfl⟩
  unfold readItem at h key
  split at h
  · rename_i hr
    simp only [hr] at key
    exact key _ (fun n m h => settle_le (tryThen_le (parseImport_le h t) fun _ => .refl _)) fun _ => rfl
  · rename_i hr
    simp only [hr] at key
    exact key _ (fun n m h => settle_le (tryThen_le (parseRule_le h t) fun _ => .refl _)) fun _ => rfl
  · rename_i hr
    simp only [hr] at key
    exact key _ (fun _ _ _ => .refl _) fun _ => rfl
  · cases h

theorem readItem_never {n : Nat} {t : PTree} (h : readItem n t = none) : ReadAs t none := by
  refine ⟨0, fun m _ => ?_⟩
  unfold readItem at h ⊢
  split at h <;> first | cases h | skip
  rfl

theorem readItems_one {n : Nat} {ts : List PTree} {items : List FileItem} (h : readItems n ts = .ok items) : AllRead ts items := by
  induction ts generalizing items with
  | nil => cases h; exact .nil
  | cons t ts ih =>
    unfold readItems at h
    split at h
    · rename_i r hr
      obtain ⟨i, rfl, h1⟩ := Gen.andThen_inv h
      obtain ⟨l, hl, h2⟩ := Gen.andThen_inv (r := readItems n ts) (k := fun l => .ok (i :: l)) h1
      cases h2
      exact .cons (readItem_one hr) (ih hl)
    · exact .skip (readItem_never ‹_›) (ih h)

theorem readText_one {n : Nat} {text : Text} {o : Option (List FileItem)} (h : readText n text = .ok o) :
    Settled (fun n => readText n text) (.ok o) := by
  obtain ⟨r, h1, h2⟩ := Gen.andThen_inv h
  obtain ⟨x, h3, h4⟩ := Gen.andThen_inv h1
  obtain ⟨N, hN⟩ := rec_recog (recog_rec h3)
  cases x with
  | none =>
    cases h4
    cases h2
    exact readText_none ⟨N, fun n hn => by simp only [recogFile, hN n hn]; rfl⟩
  | some x =>
    cases h4
    obtain ⟨l, h5, h6⟩ := Gen.andThen_inv h2
    cases h6
    exact readText_some ⟨N, fun n hn => by simp only [recogFile, hN n hn]; rfl⟩ (readItems_one h5)

end Pest3.Load
