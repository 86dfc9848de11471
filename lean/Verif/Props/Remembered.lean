import Verif.Spec.Remembered
import Verif.Props.Notes
import Verif.Props.Pace
import Verif.Lemmas.Rearrange

/-!
# What a server remembers (C133)
-/

namespace Ygo.Props
open Ygo Ygo.Spec

theorem at_placesFor {p : Place} {C : Container} {i n : Nat} (h : At p C i) (hi : i < n) (ho : -1 ≤ p.oseq) (hp : InPile p.loc → p.oseq < 0) :
    p ∈ placesFor n := by
  cases h with
  | pile k s o =>
    have : o < 0 := hp (inPile_code _)
    have ho : -1 ≤ o := ho
    have : o = -1 := by omega
    subst this
    exact List.mem_append_left _ (List.mem_append_left _ (List.mem_flatMap.mpr ⟨k, mem_allPiles k, List.mem_map.mpr ⟨i, List.mem_range.mpr hi, rfl⟩⟩))
  | slot k o h =>
    have ho : -1 ≤ o := ho
    have : o = -1 := by omega
    subst this
    exact List.mem_append_left _ (List.mem_append_right _ (List.mem_map.mpr ⟨k, mem_allZones k, rfl⟩))
  | mats k m => exact List.mem_append_right _ (List.mem_flatMap.mpr ⟨k, mem_allZones k, List.mem_map.mpr ⟨i, List.mem_range.mpr hi, rfl⟩⟩)

/-- What is written down is written down about a place where a card was or is by then. -/
theorem noted_place {c d : BasicContext} {m : CoreMsg} {rs : List Encoded} (h : feed c [m.bytes] = .ok (rs, d)) {l s : Place} (hn : Notes c m l s) {n : Nat}
    (hc : cardsInPlay c ≤ n) (hd : cardsInPlay d ≤ n) (hm : Counted [m]) : l ∈ placesFor n := by
  cases m <;> try exact hn.elim
  case move code a b r =>
    obtain ⟨hz, -, ⟨hk, rfl, -⟩ | ⟨hk, hp, rfl, -⟩⟩ := hn
    all_goals
      obtain ⟨r', c1, c2, rs', e1, sm, e2, e3, -⟩ := feed_cons h
      cases e3
    · have e0 := C39_removed c code a b r [] hk
      rw [List.append_nil, e1] at e0
      have er : r' = reported (CoreMsg.move code a b r).bytes.length r.toNat (.remove [a.place]) := by
        have e0 := e0.symm
        dsimp only at e0
        split at e0 <;> simp only [bind_eq_ok, pure_eq_ok, Except.ok.injEq, Prod.mk.injEq] at e0
        · obtain ⟨_, _, h, _⟩ := e0
          exact h.symm
        · obtain ⟨_, _, _, _, h, _⟩ := e0
          exact h.symm
      subst er
      have e2 : c1.parse ⟨.event (.card r.toNat (.remove [a.place])), []⟩ = .ok d := e2
      obtain ⟨B, st, hB, -, rfl⟩ := parse_parts e2
      have hB : c1.board.parseEvent (.card r.toNat (.remove [a.place])) = .ok B := hB
      have hr := parse_frame hB
      have hr : runOps c1.board.frame [.remove a.place] = .ok B.frame := hr
      rw [sm.board] at hr
      simp only [runOps, bind_eq_ok] at hr
      obtain ⟨f, hf, -⟩ := hr
      obtain ⟨C, i, x, hC, hx, -⟩ := Frame.cardRemove_eq_ok.mp hf
      refine at_placesFor hC ?_ (hm code a b r (by simp)).1 fun h => absurd h hz
      have h1 := (List.getElem?_eq_some_iff.mp hx).1
      have h2 := length_le_placed (Spec.boardOf c) C
      have h1 : i < (Spec.boardOf c C).length := h1
      simp only [cardsInPlay] at hc
      omega
    · have e0 := C39_plain c code a b r [] hk
      rw [List.append_nil, e1] at e0
      have er : r' = reported (CoreMsg.move code a b r).bytes.length r.toNat (.move [⟨a.place, b.place⟩]) := by
        have e0 := e0.symm
        dsimp only at e0
        split at e0 <;> simp only [bind_eq_ok, pure_eq_ok, Except.ok.injEq, Prod.mk.injEq] at e0
        · obtain ⟨_, _, _, _, h, _⟩ := e0
          exact h.symm
        · obtain ⟨_, _, h, _⟩ := e0
          exact h.symm
      subst er
      have e2 : c1.parse ⟨.event (.card r.toNat (.move [⟨a.place, b.place⟩])), []⟩ = .ok d := e2
      obtain ⟨B, st, hB, -, rfl⟩ := parse_parts e2
      have hB : c1.board.parseEvent (.card r.toNat (.move [⟨a.place, b.place⟩])) = .ok B := hB
      have hr := parse_frame hB
      have hr : runOps c1.board.frame (DuelBoard.cardOps (.move [⟨a.place, b.place⟩])) = .ok B.frame := hr
      rw [runOps_move, sm.board] at hr
      simp only [bind_eq_ok] at hr
      obtain ⟨⟨f, y⟩, hmv, hf⟩ := hr
      cases hf
      obtain ⟨C, i, hC, hx⟩ := Layout.card_eq_ok.mp (C09_same_card _ _ _ _ _ hmv).2
      refine at_placesFor hC ?_ (hm code a b r (by simp)).2 fun h => ?_
      · have h1 : i < (view B.frame.layout C).length := (List.getElem?_eq_some_iff.mp hx).1
        have h2 := length_le_placed (view B.frame.layout) C
        have hd : (placed (view B.frame.layout)).length ≤ n := hd
        omega
      · exact ((C39_kinds _ _).2.2.2.2.2.2.mp hk).2.2.1.mp hp

/-- **C133.** What a server writes down about cards that left is bounded by the number of cards: there are never notes about more places than there
are, in all piles and zones, for so many cards, however long the duel goes on. -/
theorem C133_notes_partial (ms : List CoreMsg) (hf : ∀ m ∈ ms, m.Fits) (hc : Counted ms) (n : Nat) (hn : AtMost n ms) (c : BasicContext) (rs : List Encoded)
    (h : feed BasicContext.init (ms.map (·.bytes)) = .ok (rs, c)) : ∀ l s, c.left l = some s → l ∈ placesFor n := by
  intro l s hl
  obtain ⟨i, ⟨m, d, hm, hd, hno⟩, -⟩ := (C122_history ms hf c rs h l s).mp hl
  have hall : After ms ms.length c := ⟨rs, by rw [List.take_length]; exact h⟩
  obtain ⟨d', hd'⟩ := hall.before (Nat.succ_le_of_lt (List.getElem?_eq_some_iff.mp hm).1)
  obtain ⟨rs', h1⟩ := hd.succ hm hd'
  exact noted_place h1 hno (hn _ _ hd) (hn _ _ hd') fun code a b r hx => hc code a b r (by
    rw [List.mem_singleton.mp hx]; exact List.mem_of_getElem? hm)

/-- **C133.** How many places that is. -/
theorem C133_places (n : Nat) : (placesFor n).length = 42 * n + 32 := by
  have h1 : allPiles.length = 10 := by decide
  have h2 : allZones.length = 32 := by decide
  have e : ∀ {α β : Type} (l : List α) (f : α → Nat → β), (l.flatMap fun k => (List.range n).map (f k)).length = l.length * n := by
    intro α β l f
    induction l with
    | nil => simp
    | cons x xs ih => simp only [List.flatMap_cons, List.length_append, List.length_map, List.length_range, ih, List.length_cons, Nat.succ_mul]; omega
  simp only [placesFor, List.length_append, e, List.length_map, h1, h2]
  omega

/-- **C133.** So the map never has more entries than that. -/
theorem C133_entries_partial (ms : List CoreMsg) (hf : ∀ m ∈ ms, m.Fits) (hc : Counted ms) (n : Nat) (hn : AtMost n ms) (c : BasicContext)
    (rs : List Encoded) (h : feed BasicContext.init (ms.map (·.bytes)) = .ok (rs, c)) (ls : List Place) (hd : ls.Nodup) (hl : ∀ l ∈ ls, c.left l ≠ none) :
    ls.length ≤ 42 * n + 32 := by
  rw [← C133_places]
  refine List.Nodup.length_le_of_subset hd fun l hx => ?_
  obtain ⟨s, hs⟩ := Option.ne_none_iff_exists'.mp (hl l hx)
  exact C133_notes_partial ms hf hc n hn c rs h l s hs

/-! ## What is put off -/

/-- **C133.** A message that a card becomes material of a monster in a pile is put off as often as it comes, and nothing else happens. -/
theorem C133_again (c : BasicContext) (code : UInt32) (a b : LocInfo) (r : UInt32) (hk : moveKind a.place b.place = .deferred) (n : Nat) :
    feed c (List.replicate n (CoreMsg.move code a b r).bytes) =
      .ok (List.replicate n ⟨.swallowed, (CoreMsg.move code a b r).bytes.length, none⟩, { c with deferred := c.deferred ++ List.replicate n a.place }) := by
  induction n generalizing c with
  | zero => simp [feed]
  | succ n ih =>
    have h := C40_defer c code a b r [] hk
    rw [List.append_nil] at h
    rw [List.replicate_succ, feed_cons_ok h rfl (ih _)]
    simp [List.replicate_succ]

/-- A card from nowhere on the field becomes material of a monster in the extra deck. -/
def putOff : CoreMsg := .move 0 ⟨0, 4, 1, 1⟩ ⟨0, 0xC0, 3, 0⟩ 0

/-- **C133.** The code violates the property: what is put off has no bound, not even when there are no cards at all. -/
theorem C133_violated (n : Nat) : ∃ (ms : List CoreMsg) (rs : List Encoded) (c : BasicContext), (∀ m ∈ ms, m.Fits) ∧ AtMost 0 ms ∧ Counted ms ∧
    feed BasicContext.init (ms.map (·.bytes)) = .ok (rs, c) ∧ c.deferred.length = n := by
  have hk : moveKind (LocInfo.mk 0 4 1 1).place (LocInfo.mk 0 0xC0 3 0).place = .deferred := by
    refine (C39_kinds _ _).2.2.2.1.mpr ?_
    rw [show (LocInfo.mk 0 4 1 1).place = ⟨0, 4, 1, -1⟩ by decide +kernel, show (LocInfo.mk 0 0xC0 3 0).place = ⟨0, 0x40, 3, 0⟩ by decide +kernel]
    simp [InPile]
    decide
  have hf := fun n => C133_again BasicContext.init 0 ⟨0, 4, 1, 1⟩ ⟨0, 0xC0, 3, 0⟩ 0 hk n
  refine ⟨List.replicate n putOff, _, _, fun m hm => ?_, ?_, ?_, by rw [List.map_replicate]; exact hf n, by simp [BasicContext.init]⟩
  · rw [List.eq_of_mem_replicate hm]; trivial
  · rintro i c ⟨rs, h⟩
    rw [List.take_replicate, List.map_replicate, show putOff.bytes = (CoreMsg.move 0 ⟨0, 4, 1, 1⟩ ⟨0, 0xC0, 3, 0⟩ 0).bytes from rfl, hf] at h
    cases h
    show (placed (Spec.boardOf BasicContext.init)).length ≤ 0
    decide +kernel
  · intro code a b r hm
    cases List.eq_of_mem_replicate hm
    decide +kernel

theorem feed_deferred (ms : List CoreMsg) (hf : ∀ m ∈ ms, m.Fits) (c c' : BasicContext) (rs : List Encoded) (h : feed c (ms.map (·.bytes)) = .ok (rs, c')) :
    c'.deferred = ms.foldl deferredAfter c.deferred := by
  induction ms generalizing c rs with
  | nil => cases h; rfl
  | cons m ms ih =>
    obtain ⟨r, c1, c2, rs', e1, -, e2, e3, -⟩ := feed_cons h
    have h1 := encodeOne_ctx c m (hf m (by simp)) [] r c1 (by rw [List.append_nil]; exact e1)
    have h2 : c2.deferred = c1.deferred := by
      split at e2
      · obtain ⟨_, _, _, _, rfl⟩ := parse_parts e2; rfl
      · cases e2; rfl
    rw [ih (fun m hm => hf m (by simp [hm])) _ _ e3, h2, h1.2.2]
    rfl

/-- A message that a card comes to a zone. -/
def Arrives : CoreMsg → Prop
  | .move _ a b _ => moveKind a.place b.place = .arrival
  | _ => False

/-- **C133.** Exactly: put off are the cards about which a message came since the last one that a card came to a zone. -/
theorem C133_exactly (before after : List CoreMsg) (hf : ∀ m ∈ before ++ after, m.Fits) (hb : before = [] ∨ ∃ m, before.getLast? = some m ∧ Arrives m)
    (ha : ∀ m ∈ after, ¬ Arrives m) (c : BasicContext) (rs : List Encoded) (h : feed BasicContext.init ((before ++ after).map (·.bytes)) = .ok (rs, c)) :
    c.deferred = waiting after := by
  rw [feed_deferred _ hf _ _ _ h, List.foldl_append]
  have hn : ∀ code a b r, CoreMsg.move code a b r ∈ after → moveKind a.place b.place ≠ .arrival := fun code a b r hm => ha _ hm
  rw [foldl_deferredAfter after hn]
  have : before.foldl deferredAfter BasicContext.init.deferred = [] := by
    rcases hb with rfl | ⟨m, hm, hk⟩
    · rfl
    · obtain ⟨xs, rfl⟩ := List.getLast?_eq_some_iff.mp hm
      rw [List.foldl_append]
      cases m <;> try exact hk.elim
      case move code a b r =>
        have hk : moveKind a.place b.place = .arrival := hk
        simp [deferredAfter, hk]
  rw [this, List.nil_append]

/-! ## Examples -/

/-- A monster with a material leaves, comes back and leaves for another place: two notes, with two cards. -/
def toAndFro : List CoreMsg :=
  [.move 0 ⟨0, 0, 0, 0⟩ ⟨0, 4, 0, 1⟩ 0, .move 0 ⟨0, 0, 0, 0⟩ ⟨0, 0x84, 0, 0⟩ 0, .move 0 ⟨0, 4, 0, 1⟩ ⟨0, 0x40, 0, 1⟩ 0, .move 0 ⟨0, 0x40, 0, 1⟩ ⟨0, 4, 0, 1⟩ 0,
   .move 0 ⟨0, 4, 0, 1⟩ ⟨0, 0x20, 0, 1⟩ 0]

example : ((feed BasicContext.init (toAndFro.map (·.bytes))).toOption.map fun x => (x.2.left ⟨0, 0x40, 0, -1⟩, x.2.left ⟨0, 0x20, 0, -1⟩, cardsInPlay x.2)) =
    some (some ⟨0, 4, 0, -1⟩, some ⟨0, 4, 0, -1⟩, 2) := by
  decide +kernel

example : AtMost 2 toAndFro := by
  have h : ∀ i : Fin 6, ((feed BasicContext.init ((toAndFro.take i).map (·.bytes))).toOption.map fun x => decide (cardsInPlay x.2 ≤ 2)) = some true := by decide +kernel
  rintro i c ⟨rs, hc⟩
  have h' := h ⟨min i 5, by omega⟩
  have e : toAndFro.take (min i 5) = toAndFro.take i := (List.take_eq_take_min (l := toAndFro)).symm
  dsimp only at h'
  rw [e, hc] at h'
  exact of_decide_eq_true (Option.some.inj h')

example : Counted toAndFro := by
  intro code a b r hm
  simp only [toAndFro, List.mem_cons, CoreMsg.move.injEq, List.not_mem_nil, or_false] at hm
  rcases hm with h | h | h | h | h <;> obtain ⟨rfl, rfl, rfl, rfl⟩ := h <;> decide +kernel

/-- The same with a negative number of material: two notes about one place in a pile, which is why materials have to be numbered from 0. -/
def oddNumbers : List CoreMsg :=
  [.move 0 ⟨0, 0, 0, 0⟩ ⟨0, 4, 0, 1⟩ 0, .move 0 ⟨0, 0, 0, 0⟩ ⟨0, 0x84, 0, 0⟩ 0, .move 0 ⟨0, 4, 0, 1⟩ ⟨0, 0x40, 0, 1⟩ 0, .move 0 ⟨0, 0x40, 0, 1⟩ ⟨0, 4, 0, 1⟩ 0,
   .move 0 ⟨0, 4, 0, 1⟩ ⟨0, 0xC0, 0, 0xFFFFFFFE⟩ 0]

example : ((feed BasicContext.init (oddNumbers.map (·.bytes))).toOption.map fun x => (x.2.left ⟨0, 0x40, 0, -1⟩, x.2.left ⟨0, 0x40, 0, -2⟩)) =
    some (some ⟨0, 4, 0, -1⟩, some ⟨0, 4, 0, -1⟩) := by
  decide +kernel

/-- A card comes to a zone after one was put off and before two more are: two are put off. -/
def putOffTwice : List CoreMsg := [.move 0 ⟨0, 0, 0, 0⟩ ⟨0, 4, 2, 1⟩ 0, putOff, putOff]

example : ((feed BasicContext.init (putOffTwice.map (·.bytes))).toOption.map fun x => x.2.deferred) = some [⟨0, 4, 1, -1⟩, ⟨0, 4, 1, -1⟩] := by
  decide +kernel

end Ygo.Props
