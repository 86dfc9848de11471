import Verif.Lemmas.FrameOwn

/-!
# Frames do not look at the identities of their cards
-/

set_option linter.unusedSimpArgs false
set_option linter.unusedVariables false

namespace Ygo
open Ygo.Spec

/-- A layout with other cards at the same places. -/
def Layout.map (ρ : CardId → CardId) (l : Layout) : Layout :=
  ⟨fun k => (l.pile k).map ρ, fun k => { card := (l.zone k).card.map ρ, materials := (l.zone k).materials.map ρ }⟩

/-- A frame with other cards at the same places. -/
def Frame.map (ρ : CardId → CardId) (f : Frame) : Frame := ⟨f.layout.map ρ, f.owned.map ρ, ρ f.next⟩

attribute [-simp] Layout.pile_setPile Layout.zone_setPile Layout.pile_setZone Layout.zone_setZone Layout.pile_setCard Layout.pile_setMats
  Layout.card_setCard Layout.mats_setCard Layout.card_setMats Layout.mats_setMats

namespace Rename
variable {α β γ : Type}

/-- Apply a function to a result. -/
def mapRes (g : α → β) : Res α → Res β
  | .ok a => .ok (g a)
  | .error e => .error e

@[simp] theorem mapRes_ok (g : α → β) (a : α) : mapRes g (.ok a) = .ok (g a) := rfl
@[simp] theorem mapRes_error (g : α → β) (e : Err) : mapRes g (.error e) = .error e := rfl
@[simp] theorem mapRes_bind (g : β → γ) (x : Res α) (h : α → Res β) : mapRes g (x >>= h) = x >>= fun a => mapRes g (h a) := by
  cases x <;> rfl
@[simp] theorem bind_mapRes (g : α → β) (x : Res α) (h : β → Res γ) : (mapRes g x >>= h) = x >>= fun a => h (g a) := by
  cases x <;> rfl
@[simp] theorem mapRes_pure (g : α → β) (a : α) : mapRes g (pure a) = .ok (g a) := rfl
@[simp] theorem mapRes_ub (g : α → β) : mapRes g ub = ub := rfl
@[simp] theorem mapRes_ite (g : α → β) (p : Prop) [Decidable p] (x y : Res α) : mapRes g (if p then x else y) = if p then mapRes g x else mapRes g y := by
  split <;> rfl
@[simp] theorem orUb_map (g : α → β) (x : Option α) : orUb (x.map g) = mapRes g (orUb x) := by cases x <;> rfl
@[simp] theorem orAssert_map (g : α → β) (x : Option α) : orAssert (x.map g) = mapRes g (orAssert x) := by cases x <;> rfl

theorem eraseIdx_map (g : α → β) (xs : List α) (i : Nat) : (xs.map g).eraseIdx i = (xs.eraseIdx i).map g := by
  induction xs generalizing i with
  | nil => rfl
  | cons x xs ih => cases i <;> simp [ih]

theorem insertIdx_map (g : α → β) (xs : List α) (i : Nat) (a : α) : (xs.map g).insertIdx i (g a) = (xs.insertIdx i a).map g := by
  induction xs generalizing i with
  | nil => cases i <;> simp
  | cons x xs ih => cases i <;> simp [ih]

theorem erase_map {g : Nat → Nat} (hg : ∀ x y, g x = g y → x = y) (xs : List Nat) (a : Nat) : (xs.map g).erase (g a) = (xs.erase a).map g := by
  induction xs with
  | nil => rfl
  | cons x xs ih =>
    by_cases h : x = a
    · simp [h]
    · have : g x ≠ g a := fun e => h (hg _ _ e)
      simp [List.erase_cons, h, this, ih]

variable (ρ : CardId → CardId) (l : Layout)

@[simp] theorem pile_map (k : PileKey) : (l.map ρ).pile k = (l.pile k).map ρ := rfl
@[simp] theorem card_map (k : ZoneKey) : ((l.map ρ).zone k).card = (l.zone k).card.map ρ := rfl
@[simp] theorem mats_map (k : ZoneKey) : ((l.map ρ).zone k).materials = (l.zone k).materials.map ρ := rfl

@[simp] theorem setPile_map (k : PileKey) (v : List CardId) : (l.map ρ).setPile k (v.map ρ) = (l.setPile k v).map ρ := by
  simp only [Layout.setPile, Layout.map, Layout.mk.injEq, and_true]
  funext k'
  split <;> rfl

theorem setZone_map (k : ZoneKey) (c : Option CardId) (v : List CardId) :
    (l.map ρ).setZone k ⟨c.map ρ, v.map ρ⟩ = (l.setZone k ⟨c, v⟩).map ρ := by
  simp only [Layout.setZone, Layout.map, Layout.mk.injEq, true_and]
  funext k'
  split <;> rfl

@[simp] theorem setCard_map (k : ZoneKey) (c : Option CardId) : (l.map ρ).setCard k (c.map ρ) = (l.setCard k c).map ρ := setZone_map ρ l k c _
@[simp] theorem setCard_none (k : ZoneKey) : (l.map ρ).setCard k none = (l.setCard k none).map ρ := setZone_map ρ l k none _
@[simp] theorem setCard_some (k : ZoneKey) (c : CardId) : (l.map ρ).setCard k (some (ρ c)) = (l.setCard k (some c)).map ρ := setZone_map ρ l k (some c) _
@[simp] theorem setMats_map (k : ZoneKey) (v : List CardId) : (l.map ρ).setMats k (v.map ρ) = (l.setMats k v).map ρ := setZone_map ρ l k _ v
@[simp] theorem setMats_nil (k : ZoneKey) : (l.map ρ).setMats k [] = (l.setMats k []).map ρ := setZone_map ρ l k _ []
@[simp] theorem setPile_nil (k : PileKey) : (l.map ρ).setPile k [] = (l.setPile k []).map ρ := setPile_map ρ l k []

@[simp] theorem swapZones_map (k1 k2 : ZoneKey) : (l.map ρ).swapZones k1 k2 = (l.swapZones k1 k2).map ρ := by
  unfold Layout.swapZones
  dsimp only
  rw [← setZone_map, ← setZone_map]
  rfl

@[simp] theorem hasCard_map (p : Place) : (l.map ρ).hasCard p = l.hasCard p := by
  simp [Layout.hasCard]

@[simp] theorem takeAt_map (v : List CardId) (i : Nat) : takeAt (v.map ρ) i = mapRes (fun x => (ρ x.1, x.2.map ρ)) (takeAt v i) := by
  simp [takeAt, eraseIdx_map]

@[simp] theorem insertAt_map (v : List CardId) (i : Nat) (c : CardId) : insertAt (v.map ρ) i (ρ c) = mapRes (List.map ρ) (insertAt v i c) := by
  simp [insertAt, insertIdx_map]

theorem layout_card (p : Place) : (l.map ρ).card p = mapRes ρ (l.card p) := by
  simp [Layout.card]

theorem cardInsert (p : Place) (c : CardId) : (l.map ρ).cardInsert p (ρ c) = mapRes (Layout.map ρ) (l.cardInsert p c) := by
  simp [Layout.cardInsert]

theorem cardErase (p : Place) : (l.map ρ).cardErase p = mapRes (fun x => (ρ x.1, x.2.map ρ)) (l.cardErase p) := by
  simp [Layout.cardErase, eraseIdx_map]

theorem cardMove (a b : Place) : (l.map ρ).cardMove a b = mapRes (fun x => (x.1.map ρ, ρ x.2)) (l.cardMove a b) := by
  simp [Layout.cardMove]

theorem shuffleSeqs (n : Nat) (ps : List Place) : (l.map ρ).shuffleSeqs n ps = l.shuffleSeqs n ps := by
  induction n generalizing ps with
  | zero => simp [Layout.shuffleSeqs]
  | succ n ih => cases ps <;> simp [Layout.shuffleSeqs, ih]

theorem shuffleLoop (n i : Nat) (ps : List Place) (seqs : List Nat) :
    Layout.shuffleLoop n i ps seqs (l.map ρ) = mapRes (Layout.map ρ) (Layout.shuffleLoop n i ps seqs l) := by
  induction n generalizing i ps seqs l with
  | zero => simp [Layout.shuffleLoop]
  | succ n ih => cases ps <;> simp [Layout.shuffleLoop, ih]

theorem cardShuffle (a b : List Place) (n : Nat) : (l.map ρ).cardShuffle a b n = mapRes (Layout.map ρ) (l.cardShuffle a b n) := by
  simp [Layout.cardShuffle, shuffleSeqs, shuffleLoop]

theorem read (r : Layout.Ref) : (l.map ρ).read r = mapRes ρ (l.read r) := by cases r <;> simp [Layout.read]

theorem write (r : Layout.Ref) (c : CardId) : (l.map ρ).write (ρ c) r = (l.write c r).map ρ := by
  cases r with
  | pile k i => simp only [Layout.write, pile_map, ← List.map_set, setPile_map]
  | card k => simp only [Layout.write, setCard_some]
  | mat k i => simp only [Layout.write, mats_map, ← List.map_set, setMats_map]

@[simp] theorem swapRefs (a b : Layout.Ref) : (l.map ρ).swapRefs a b = mapRes (Layout.map ρ) (l.swapRefs a b) := by
  simp [Layout.swapRefs, read, write]

theorem cardSwap (a b : Place) : (l.map ρ).cardSwap a b = mapRes (Layout.map ρ) (l.cardSwap a b) := by
  simp [Layout.cardSwap]

theorem pileSplice (a : Place) (n : Nat) (b : Place) (r : Bool) : (l.map ρ).pileSplice a n b r = mapRes (Layout.map ρ) (l.pileSplice a n b r) := by
  cases r <;> simp [Layout.pileSplice, ← List.map_drop, ← List.map_take, ← List.map_append, ← List.map_reverse]

theorem pileSwap (a b : Place) : (l.map ρ).pileSwap a b = mapRes (Layout.map ρ) (l.pileSwap a b) := by
  simp [Layout.pileSwap]

/-! ## The owning list -/

/-- Different cards get different names, and cards to come get names to come in the same order. -/
structure Renames (ρ : CardId → CardId) (n : CardId) : Prop where
  inj : ∀ x y, ρ x = ρ y → x = y
  shift : ∀ i, ρ (n + i) = ρ n + i

variable {ρ : CardId → CardId} {f : Frame}

theorem destruct (h : ∀ x y, ρ x = ρ y → x = y) (c : CardId) : (f.map ρ).destruct (ρ c) = mapRes (Frame.map ρ) (f.destruct c) := by
  have : ρ c ∈ f.owned.map ρ ↔ c ∈ f.owned := by
    simp only [List.mem_map]
    exact ⟨fun ⟨x, hx, e⟩ => h _ _ e ▸ hx, fun hx => ⟨c, hx, rfl⟩⟩
  simp only [Frame.destruct, Frame.map, this, erase_map h, mapRes_bind, mapRes_ok, pure_eq_ok]

theorem destructCards (h : ∀ x y, ρ x = ρ y → x = y) (cs : List CardId) :
    Frame.destructCards (cs.map ρ) (f.map ρ) = mapRes (Frame.map ρ) (Frame.destructCards cs f) := by
  induction cs generalizing f with
  | nil => rfl
  | cons c cs ih =>
    simp only [List.map_cons, Frame.destructCards, destruct h, bind_mapRes, mapRes_bind, ih]

theorem clearPiles (h : ∀ x y, ρ x = ρ y → x = y) (ks : List PileKey) :
    Frame.clearPiles ks (f.map ρ) = mapRes (Frame.map ρ) (Frame.clearPiles ks f) := by
  induction ks generalizing f with
  | nil => rfl
  | cons k ks ih =>
    simp only [Frame.clearPiles, mapRes_bind, ← ih]
    rw [show (f.map ρ).layout.pile k = (f.layout.pile k).map ρ from rfl, destructCards h, bind_mapRes]
    congr
    funext g
    rw [show (g.map ρ).layout = g.layout.map ρ from rfl, setPile_nil]
    rfl

theorem clearZones (h : ∀ x y, ρ x = ρ y → x = y) (ks : List ZoneKey) :
    Frame.clearZones ks (f.map ρ) = mapRes (Frame.map ρ) (Frame.clearZones ks f) := by
  induction ks generalizing f with
  | nil => rfl
  | cons k ks ih =>
    simp only [Frame.clearZones, mapRes_bind, ← ih]
    rw [show ((f.map ρ).layout.zone k).card.toList = (f.layout.zone k).card.toList.map ρ by
      show ((f.layout.zone k).card.map ρ).toList = _
      cases (f.layout.zone k).card <;> rfl, destructCards h, bind_mapRes]
    congr
    funext g
    rw [show (g.map ρ).layout = g.layout.map ρ from rfl, setCard_none]
    show Frame.destructCards (((g.layout.setCard k none).zone k).materials.map ρ) (Frame.map ρ ⟨g.layout.setCard k none, g.owned, g.next⟩) >>= _ = _
    rw [destructCards h, bind_mapRes]
    congr
    funext g
    rw [show (g.map ρ).layout = g.layout.map ρ from rfl, setMats_nil]
    rfl

theorem clear (h : ∀ x y, ρ x = ρ y → x = y) : (f.map ρ).clear = mapRes (Frame.map ρ) f.clear := by
  simp only [Frame.clear, clearPiles h, bind_mapRes, mapRes_bind, clearZones h]

theorem growPile (k : PileKey) (n : Nat) (h : Renames ρ f.next) : Frame.growPile k n (f.map ρ) = (Frame.growPile k n f).map ρ := by
  induction n generalizing f with
  | zero => rfl
  | succ n ih =>
    have h1 : ρ (f.next + 1) = ρ f.next + 1 := h.shift 1
    have h2 : Renames ρ (f.next + 1) := ⟨h.inj, fun i => by
      rw [show f.next + 1 + i = f.next + (1 + i) by omega, h.shift, h.shift]; omega⟩
    simp only [Frame.growPile, Frame.construct]
    rw [← ih (f := { layout := f.layout.setPile k (f.layout.pile k ++ [f.next]), owned := f.next :: f.owned, next := f.next + 1 }) h2]
    simp only [Frame.map, h1, pile_map, ← setPile_map, List.map_append, List.map_cons, List.map_nil]

theorem shrinkPile (k : PileKey) (n : Nat) (h : ∀ x y, ρ x = ρ y → x = y) :
    Frame.shrinkPile k n (f.map ρ) = mapRes (Frame.map ρ) (Frame.shrinkPile k n f) := by
  induction n generalizing f with
  | zero => rfl
  | succ n ih =>
    simp only [Frame.shrinkPile, mapRes_bind, ← ih]
    rw [show (f.map ρ).layout.pile k = (f.layout.pile k).map ρ from rfl, List.getLast?_map, orUb_map, bind_mapRes]
    congr
    funext c
    rw [destruct h, bind_mapRes]
    congr
    funext g
    rw [show (g.map ρ).layout = g.layout.map ρ from rfl, pile_map, ← List.map_dropLast, setPile_map]
    rfl

/-- **Frames do not look at the identities of their cards.** -/
theorem step (h : Renames ρ f.next) (op : FrameOp) : (f.map ρ).step op = mapRes (Frame.map ρ) (f.step op) := by
  have hl : (f.map ρ).layout = f.layout.map ρ := rfl
  have h1 : ρ (f.next + 1) = ρ f.next + 1 := h.shift 1
  cases op with
  | add p =>
    simp only [Frame.step, Frame.cardAdd, Frame.construct, bind_assoc, mapRes_bind, pure_bind, mapRes_pure]
    rw [hl, show (f.map ρ).next = ρ f.next from rfl, cardInsert, bind_mapRes]
    simp [Frame.map, h1]
  | remove p =>
    simp only [Frame.step, Frame.cardRemove, mapRes_bind, hl, hasCard_map, cardErase, bind_mapRes]
    congr; funext _; congr; funext _; congr; funext x
    exact destruct (f := ⟨x.2, f.owned, f.next⟩) h.inj x.1
  | move a b =>
    simp only [Frame.step, Frame.cardMove, bind_assoc, mapRes_bind, pure_bind, mapRes_pure, hl, cardMove, bind_mapRes]
    rfl
  | shuffle a b n =>
    simp only [Frame.step, Frame.cardShuffle, mapRes_bind, mapRes_pure, hl, cardShuffle, bind_mapRes]
    rfl
  | swap a b =>
    simp only [Frame.step, Frame.cardSwap, mapRes_bind, mapRes_pure, hl, cardSwap, bind_mapRes]
    rfl
  | resize p n =>
    simp only [Frame.step, Frame.pileResize, mapRes_bind, hl, pile_map, List.length_map, mapRes_ite, mapRes_pure, growPile _ _ h, shrinkPile _ _ h.inj,
      pure_eq_ok, mapRes_ok]
  | splice a n b r =>
    simp only [Frame.step, Frame.pileSplice, mapRes_bind, mapRes_pure, hl, pileSplice, bind_mapRes]
    rfl
  | pswap a b =>
    simp only [Frame.step, Frame.pileSwap, mapRes_bind, mapRes_pure, hl, pileSwap, bind_mapRes]
    rfl
  | clear => exact clear h.inj

end Rename
end Ygo
