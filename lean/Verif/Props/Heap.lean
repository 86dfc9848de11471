import Verif.Lemmas.Heap

/-!
# Which addresses cards get does not matter (C130)
-/

namespace Ygo.Props
open Ygo Ygo.Spec Ygo.Rename

variable {pick : Allocator}

theorem table_of {f : Frame} {st : CardId → Card Plain} {g : HeapFrame pick} {ρ : CardId → CardId} (h : HeapOf f st g ρ) :
    SameTable f.layout f.owned g.layout g.owned ρ :=
  ⟨h.apart, h.owns, fun C => h.lay ▸ view_map ρ _ C⟩

/-- **C130.** Whatever addresses the allocator hands out, those of destroyed cards among them, as long as it hands out none that is in use, and
whatever earlier calls left in the scratch vector: all calls on a frame end as they do when no name is ever used twice, with the same
cards at the same places. -/
theorem C130_frames (pick : Allocator) (hp : ∀ n l, pick n l ∉ l) (ops : List FrameOp) :
    SameOutcome (fun f g => ∃ ρ, SameTable f.layout f.owned g.layout g.owned ρ) (Frame.init.run ops) ((HeapFrame.init pick).run ops) := by
  have h := (HeapOf.init pick).steps Inv.init hp ops
  rw [runOps_heap, runOps_frame] at h
  generalize Frame.init.run ops = x at h ⊢
  generalize (HeapFrame.init pick).run ops = y at h ⊢
  match x, y, h with
  | .ok f, .ok g, h => exact h.2.elim fun σ hσ => ⟨σ, table_of hσ⟩
  | .error e, .error _, h => exact h

/-- **C130.** The scratch vector: `pile_splice` does the same whatever is in it. -/
theorem C130_scratch (l : Layout) (s : List (Option CardId)) (src : Place) (n : Nat) (dst : Place) (r : Bool) :
    SameOutcome (fun l1 x => x.1 = l1) (l.pileSplice src n dst r) (l.spliceThrough s src n dst r) :=
  spliceThrough_eq l s src n dst r

/-- **C130.** No pointer on a board leads to a card that is gone, no card is at two addresses or lost, and no address is used twice. -/
theorem C130_no_dangling (pick : Allocator) (hp : ∀ n l, pick n l ∉ l) (ops : List FrameOp) {g : HeapFrame pick}
    (h : (HeapFrame.init pick).run ops = .ok g) :
    (placed (view g.layout)).Perm g.owned ∧ g.owned.Nodup ∧ ∀ c ∈ g.owned, g.contents c = some BasicContext.newCard := by
  have hs := (HeapOf.init pick).steps Inv.init hp ops
  rw [runOps_heap, runOps_frame, h] at hs
  generalize Frame.init.run ops = x at hs
  match x, hs with
  | .ok f, ⟨hi, σ, hσ⟩ =>
    have hv : placed (view g.layout) = (placed (view f.layout)).map σ := by
      rw [hσ.lay]
      simp only [placed, List.map_flatMap]
      congr 1
      funext C
      exact view_map σ _ C
    refine ⟨?_, ?_, fun c hc => ?_⟩
    · rw [hv, hσ.owns]; exact hi.owns.perm.map σ
    · rw [hσ.owns]
      exact List.pairwise_map.mpr (hi.nodup.imp_of_mem fun hx hy hne e => hne (hσ.apart _ hx _ hy e))
    · rw [hσ.owns] at hc
      obtain ⟨x, hx, rfl⟩ := List.mem_map.mp hc
      exact hσ.cards x hx

/-- **C130.** Clients: whatever messages come, what a client does and what it ends up with is what it does and ends up with when no name is
ever used twice. -/
theorem C130_clients (pick : Allocator) (hp : ∀ n l, pick n l ∉ l) (cache : Bool) (ms : List Msg) :
    SameOutcome (fun s b => ∃ ρ, SameClient s b ρ) (Client.follow cache Client.init ms) ((HeapClient.init pick).follow cache ms) := by
  have h := HeapBoard.follow (s := Client.init) (b := HeapClient.init pick) ⟨Inv.init, id, HeapOf.init pick, rfl⟩ hp cache ms
  generalize Client.follow cache Client.init ms = x at h ⊢
  generalize (HeapClient.init pick).follow cache ms = y at h ⊢
  match x, y, h with
  | .ok s, .ok b, ⟨_, ρ, h3, h4⟩ =>
    refine ⟨ρ, table_of h3, h3.cards, ?_, ?_, ?_, ?_, ?_, ?_⟩ <;> rw [h4]
  | .error e, .error _, h => exact h

/-- **C130.** What such a client shows at every place is the same, and it reads no card that is gone. -/
theorem C130_shown (pick : Allocator) (hp : ∀ n l, pick n l ∉ l) (cache : Bool) (ms : List Msg) {s : Client} {b : HeapClient pick}
    (hs : Client.follow cache Client.init ms = .ok s) (hb : (HeapClient.init pick).follow cache ms = .ok b) (p : Place) :
    b.frame.layout.hasCard p = s.board.frame.layout.hasCard p ∧ b.frame.read p = s.read p := by
  have h := HeapBoard.follow (s := Client.init) (b := HeapClient.init pick) ⟨Inv.init, id, HeapOf.init pick, rfl⟩ hp cache ms
  rw [hs, hb] at h
  obtain ⟨_, ρ, h3, _⟩ := h
  refine ⟨h3.hasCard p, ?_⟩
  simp only [HeapFrame.read, Client.read, h3.lay, layout_card]
  cases hc : s.board.frame.layout.card p with
  | error => rfl
  | ok c =>
    obtain ⟨C, i, _, hi⟩ := Layout.card_eq_ok.mp hc
    simp only [mapRes_ok, bind_ok, h3.cards c (h3.held C c (List.mem_of_getElem? hi)), orUb, pure_eq_ok]

/-- **C130.** Two allocators: the same outcome, and the same shown at every place. -/
theorem C130_two (pick pick' : Allocator) (hp : ∀ n l, pick n l ∉ l) (hp' : ∀ n l, pick' n l ∉ l) (cache : Bool) (ms : List Msg) :
    SameOutcome (fun b b' => (∀ p, b'.frame.layout.hasCard p = b.frame.layout.hasCard p ∧ b'.frame.read p = b.frame.read p) ∧
        b'.chainStack = b.chainStack ∧ b'.turn = b.turn ∧ b'.turnController = b.turnController ∧ b'.lp = b.lp ∧ b'.phase = b.phase ∧
        b'.blockedZones = b.blockedZones)
      ((HeapClient.init pick).follow cache ms) ((HeapClient.init pick').follow cache ms) := by
  have h := C130_clients pick hp cache ms
  have h' := C130_clients pick' hp' cache ms
  have r := @C130_shown pick hp cache ms
  have r' := @C130_shown pick' hp' cache ms
  cases hs : Client.follow cache Client.init ms <;> cases hb : (HeapClient.init pick).follow cache ms <;>
    cases hb' : (HeapClient.init pick').follow cache ms <;> simp only [hs, hb, hb', SameOutcome] at h h' ⊢
  · exact h.symm.trans h'
  · obtain ⟨_, h⟩ := h
    obtain ⟨_, h'⟩ := h'
    refine ⟨fun p => ⟨(r' hs hb' p).1.trans (r hs hb p).1.symm, (r' hs hb' p).2.trans (r hs hb p).2.symm⟩, ?_, ?_, ?_, ?_, ?_, ?_⟩
    · rw [h.chainStack, h'.chainStack]
    · rw [h.turn, h'.turn]
    · rw [h.turnController, h'.turnController]
    · rw [h.lp, h'.lp]
    · rw [h.phase, h'.phase]
    · rw [h.blockedZones, h'.blockedZones]

/-! ## Examples -/

/-- An allocator that hands out the address behind the highest one in use, again and again if it is given back. -/
def again : Allocator := fun _ l => l.foldr max 0 + 1

theorem again_fresh (n : Nat) (l : List CardId) : again n l ∉ l := by
  have : ∀ (l : List CardId), ∀ x ∈ l, x ≤ l.foldr max 0 := by
    intro l
    induction l with
    | nil => simp
    | cons y ys ih =>
      intro x hx
      rcases List.mem_cons.mp hx with rfl | hx
      · exact Nat.le_max_left _ _
      · exact Nat.le_trans (ih x hx) (Nat.le_max_right _ _)
  intro h
  have := this l _ h
  simp [again] at this
  omega

def inHand (i : Nat) : Place := ⟨0, Loc.hand, i, -1⟩
def inDeck (i : Nat) : Place := ⟨0, Loc.mainDeck, i, -1⟩

/-- Three cards come, two go, two come: they get the addresses of those that are gone, where names are not used again. -/
example : (((HeapFrame.init again).run [.resize (inHand 0) 3, .remove (inHand 1), .remove (inHand 1), .resize (inHand 0) 3]).toOption.map
      fun g => (view g.layout (.pile ⟨0, .hand⟩), g.owned)) = some ([1, 2, 3], [3, 2, 1]) ∧
    ((Frame.init.run [.resize (inHand 0) 3, .remove (inHand 1), .remove (inHand 1), .resize (inHand 0) 3]).toOption.map
      fun f => (view f.layout (.pile ⟨0, .hand⟩), f.owned)) = some ([0, 3, 4], [4, 3, 0]) := by decide +kernel

/-- A splice leaves the addresses of three cards in the scratch vector; the cards go; the next splice moves one card that has one of those
addresses, and nothing else. -/
example : (((HeapFrame.init again).run [.resize (inDeck 0) 4, .splice (inDeck 0) 3 (inHand 0) true, .resize (inHand 0) 0,
      .resize (inDeck 0) 3, .splice (inDeck 0) 1 (inHand 0) false, .splice (inDeck 0) 2 (inHand 1) false]).toOption.map
      fun g => (view g.layout (.pile ⟨0, .hand⟩), view g.layout (.pile ⟨0, .mainDeck⟩), g.scratch)) =
    some ([4, 5, 6], [], [some 5, some 6]) := by decide +kernel

/-- A client is told which card came. -/
def cameAndTold : List Msg :=
  [{ body := .event (.card 0 (.add [inHand 0])), queries := [⟨inHand 0, QueryData.empty.setSingle .code (89631139 : Nat)⟩] }]

/-- It goes and another one comes. -/
def anotherCame : List Msg := [{ body := .event (.card 0 (.remove [inHand 0])) }, { body := .event (.card 0 (.add [inHand 0])) }]

/-- The number of the card in hand and its address. -/
def codeInHand (ms : List Msg) : Option (Nat × List CardId) :=
  ((HeapClient.init again).follow true ms).toOption.bind fun b => (b.frame.read (inHand 0)).toOption.map fun c => ((c.single .code).val, b.frame.owned)

/-- What was known about a card is not known about the one that gets its address. -/
example : codeInHand cameAndTold = some (89631139, [1]) ∧ codeInHand (cameAndTold ++ anotherCame) = some (0, [1]) := by decide +kernel

/-- An allocator that hands out an address in use breaks everything: two cards are one. -/
example : (((HeapFrame.init fun _ _ => 7).run [.resize (inHand 0) 2, .remove (inHand 0)]).toOption.map
      fun g => (view g.layout (.pile ⟨0, .hand⟩), g.owned)) = some ([7], [7]) ∧
    (((HeapFrame.init fun _ _ => 7).run [.resize (inHand 0) 2]).toOption.map fun g => g.owned) = some [7, 7] := by decide +kernel

end Ygo.Props
