import Mathlib.Data.List.Perm.Basic
import Verif.Spec.Stale
import Verif.Props.System
import Verif.Props.Setup
import Verif.Props.Single

/-!
# Shuffled piles and piles of other players (C125)
-/

namespace Ygo.Props
open Ygo Ygo.Spec

theorem shuffled_fits {m : CoreMsg} (h : Shuffled m) : m.Fits := by
  rcases h with ⟨p, rfl⟩ | ⟨p, cs, hl, rfl | rfl⟩
  · trivial
  · exact hl
  · exact hl

/-- **C125.** A server makes nothing of a message that a pile was shuffled, not even of the codes in it. -/
theorem C125_shuffle (c : BasicContext) (m : CoreMsg) (h : Shuffled m) (more : List UInt8) : track c (m.bytes ++ more) = .ok c := by
  have hf := shuffled_fits h
  rcases h with ⟨p, rfl⟩ | ⟨p, cs, -, rfl | rfl⟩
  all_goals
    unfold track
    rw [C34_translation c _ hf _ rfl more]
    rfl

theorem forall₂_get {α β : Type} {R : α → β → Prop} {as : List α} {bs : List β} :
    List.Forall₂ R as bs ↔ as.length = bs.length ∧ ∀ (i : Nat) a b, as[i]? = some a → bs[i]? = some b → R a b := by
  constructor
  · intro h
    refine ⟨h.length_eq, ?_⟩
    induction h with
    | nil => intro i a b h; simp at h
    | cons h _ ih =>
      intro i a b h1 h2
      cases i with
      | zero => cases h1; cases h2; exact h
      | succ i => exact ih i a b (by simpa using h1) (by simpa using h2)
  · rintro ⟨hl, h⟩
    induction as generalizing bs with
    | nil => cases bs with
      | nil => exact .nil
      | cons b bs => simp at hl
    | cons a as ih => cases bs with
      | nil => simp at hl
      | cons b bs =>
        exact .cons (h 0 a b rfl rfl) (ih (by simpa using hl) fun i x y h1 h2 => h (i + 1) x y (by simpa using h1) (by simpa using h2))

/-- Any element of a list can come to any position by rearranging it. -/
theorem brought {α : Type} (l : List α) (t : α) (ht : t ∈ l) (i : Nat) (hi : i < l.length) : ∃ l' : List α, l'.Perm l ∧ l'[i]? = some t := by
  obtain ⟨j, hj, rfl⟩ := List.getElem_of_mem ht
  have hlen : (l.eraseIdx j).length = l.length - 1 := List.length_eraseIdx_of_lt hj
  refine ⟨(l.eraseIdx j).insertIdx i l[j], ?_, ?_⟩
  · exact (List.perm_insertIdx _ _ (by omega)).trans (List.getElem_cons_eraseIdx_perm hj)
  · rw [List.getElem?_insertIdx_self, if_pos (by omega)]

/-- What is shown is true of all rearrangements exactly if each code that is shown is that of all cards. -/
theorem faithful_perm {shown truth : List Nat} (ht : List.Forall₂ (fun shown code => shown = 0 ∨ shown = code) shown truth) :
    (∀ truth', truth'.Perm truth → List.Forall₂ (fun shown code => shown = 0 ∨ shown = code) shown truth') ↔
      ∀ code ∈ shown, code ≠ 0 → ∀ t ∈ truth, t = code := by
  obtain ⟨hl, hr⟩ := forall₂_get.mp ht
  constructor
  · intro hall code hc h0 t htm
    obtain ⟨i, hi⟩ := List.getElem?_of_mem hc
    obtain ⟨truth', hp, hti⟩ := brought truth t htm i (by rw [← hl]; exact (List.getElem?_eq_some_iff.mp hi).1)
    rcases (forall₂_get.mp (hall truth' hp)).2 i code t hi hti with h | h
    · exact absurd h h0
    · exact h.symm
  · intro hall truth' hp
    refine forall₂_get.mpr ⟨hl.trans hp.length_eq.symm, fun i a b ha hb => ?_⟩
    by_cases h0 : a = 0
    · exact .inl h0
    · exact .inr (hall a (List.mem_of_getElem? ha) h0 b (hp.subset (List.mem_of_getElem? hb))).symm

/-- **C125.** Exactly: what a server shows of a pile is true however the core shuffled it if and only if each code that it shows is the code of
all cards of the pile, so that the order does not matter. -/
theorem C125_shuffle_exactly (c : BasicContext) (m : CoreMsg) (h : Shuffled m) (more : List UInt8) (k : PileKey) (truth : List Nat)
    (ht : Faithful c k truth) :
    ∃ c', track c (m.bytes ++ more) = .ok c' ∧
      ((∀ truth', truth'.Perm truth → Faithful c' k truth') ↔ ∀ code ∈ codesShown c k, code ≠ 0 → ∀ t ∈ truth, t = code) :=
  ⟨c, C125_shuffle c m h more, faithful_perm ht⟩

theorem shuffleLoop_empty : ∀ (n i : Nat) (ps : List Place) (seqs : List Nat) (l l' : Layout), (∀ p ∈ ps, p.isEmpty = true) →
    Layout.shuffleLoop n i ps seqs l = .ok l' → l' = l := by
  intro n
  induction n with
  | zero => intro i ps seqs l l' _ h; cases ps <;> (cases h; rfl)
  | succ n ih =>
    intro i ps seqs l l' hp h
    cases ps with
    | nil => cases h
    | cons p ps =>
      rw [Layout.shuffleLoop, if_pos (hp p (List.mem_cons_self ..))] at h
      exact ih _ _ _ _ _ (fun q hq => hp q (List.mem_cons_of_mem _ hq)) h

theorem unspecified {i : LocInfo} (h : i.loc = 0) : i.place.loc = 0 := by
  simp [LocInfo.place, LocInfo.base, h, slot]

/-- **C125.** Set cards can be shuffled in secret: the core says which ones, but not where they are now. Then nothing changes for a server. -/
theorem C125_set_cards (c : BasicContext) (loc : UInt8) (cs : List (LocInfo × LocInfo)) (con : Fin 2) (row : ZoneLoc) (hne : cs ≠ [])
    (hn : cs.length ≤ 7) (ks : List ZoneKey) (hfrom : cs.map (·.1.place) = ks.map zonePlace) (hto : ∀ x ∈ cs, x.2.loc = 0)
    (hcards : ∀ k ∈ ks, k.con = con ∧ k.loc = row ∧ Spec.boardOf c (.slot k) ≠ []) (hd : ks.Nodup) :
    track c (CoreMsg.shuffleSetCard loc cs).bytes = .ok c := by
  have none_only : ∀ {i : Nat} {k : ZoneKey}, (cs.map fun _ => (none : Option ZoneKey))[i]? = some (some k) → False := by
    intro i k h
    rw [List.getElem?_map] at h
    cases cs[i]? <;> simp at h
  obtain ⟨l, h1, -⟩ := C71_shuffle c loc cs con row hne hn ks (cs.map fun _ => none) (List.length_map _) hfrom
    (fun i x t hx ht => by
      rw [List.getElem?_map, hx] at ht
      cases ht
      exact unspecified (hto x (List.mem_of_getElem? hx)))
    hcards (fun k hk => by simp at hk) hd (fun i j k h _ => (none_only h).elim)
  have h2 := track_event c (.shuffleSetCard loc cs) (by show cs.length < 2 ^ 8; omega) _ rfl []
  rw [List.append_nil, h1] at h2
  have key : ∀ f', c.board.frame.cardShuffle (cs.map (·.1.place)) (cs.map (·.2.place)) (cs.map (·.1.place)).length = .ok f' → f' = c.board.frame := by
    intro f' hf
    simp only [Frame.cardShuffle, Layout.cardShuffle, bind_eq_ok, pure_eq_ok, Except.ok.injEq] at hf
    obtain ⟨l', ⟨p0, -, -, -, -, -, -, -, seqs, -, h⟩, rfl⟩ := hf
    rw [shuffleLoop_empty _ _ _ _ _ _ (by
      intro p hp
      obtain ⟨x, hx, rfl⟩ := List.mem_map.mp hp
      simp [Place.isEmpty, unspecified (hto x hx)]; rfl) h]
  have h3 : FrameLike.step c.board.frame (.shuffle (cs.map (·.1.place)) (cs.map (·.2.place)) (cs.map (·.1.place)).length) =
      c.board.frame.cardShuffle (cs.map (·.1.place)) (cs.map (·.2.place)) (cs.map (·.1.place)).length := rfl
  simp only [DuelBoard.parseEvent, DuelBoard.onFrame, DuelBoard.cardOps, runOps, h3] at h2
  rw [h1, h2]
  cases hs : c.board.frame.cardShuffle (cs.map (·.1.place)) (cs.map (·.2.place)) (cs.map (·.1.place)).length with
  | error e => rw [hs] at h2; cases h2
  | ok f' =>
    rw [key f' hs]
    rfl

/-- **C125.** Exactly: what a server then shows of these cards is true however the core shuffled them if and only if each code that it shows is the code
of all of them. -/
theorem C125_set_cards_exactly (c : BasicContext) (loc : UInt8) (cs : List (LocInfo × LocInfo)) (con : Fin 2) (row : ZoneLoc) (hne : cs ≠ [])
    (hn : cs.length ≤ 7) (ks : List ZoneKey) (hfrom : cs.map (·.1.place) = ks.map zonePlace) (hto : ∀ x ∈ cs, x.2.loc = 0)
    (hcards : ∀ k ∈ ks, k.con = con ∧ k.loc = row ∧ Spec.boardOf c (.slot k) ≠ []) (hd : ks.Nodup) (truth : List Nat)
    (ht : FaithfulZones c ks truth) :
    ∃ c', track c (CoreMsg.shuffleSetCard loc cs).bytes = .ok c' ∧
      ((∀ truth', truth'.Perm truth → FaithfulZones c' ks truth') ↔ ∀ code ∈ codesInZones c ks, code ≠ 0 → ∀ t ∈ truth, t = code) :=
  ⟨c, C125_set_cards c loc cs con row hne hn ks hfrom hto hcards hd, faithful_perm ht⟩

/-- **C125.** The core says in which order the cards of a hand are after it was shuffled; the server shows that order only if it showed it before. -/
theorem C125_hand_exactly (c : BasicContext) (p : Fin 2) (cs : List UInt32) (hl : cs.length < 2 ^ 32) (more : List UInt8) :
    ∃ c', track c ((CoreMsg.shuffleHand (playerByte p) cs).bytes ++ more) = .ok c' ∧
      (codesShown c' ⟨p, .hand⟩ = cs.map (·.toNat) ↔ codesShown c ⟨p, .hand⟩ = cs.map (·.toNat)) :=
  ⟨c, C125_shuffle c _ (.inr ⟨_, _, hl, .inl rfl⟩) more, Iff.rfl⟩

theorem blank_init : ∀ x, BasicContext.init.board.frame.next ≤ x → BasicContext.init.store x = BasicContext.newCard := fun _ _ => rfl

theorem codesShown_resized {c c' : BasicContext} (hb : ∀ x, NotMade c x → c.store x = BasicContext.newCard) (hs : c'.store = c.store) (k : PileKey) (n : Nat)
    (h : Resized (NotMade c) (Spec.boardOf c (.pile k)) n (Spec.boardOf c' (.pile k))) :
    codesShown c' k = (codesShown c k).take n ++ List.replicate (n - (codesShown c k).length) 0 := by
  obtain ⟨others, h1, h2, h3⟩ := h
  unfold codesShown
  rw [h1, hs, List.map_append, List.map_take, List.length_map, ← h2]
  congr 1
  rw [List.eq_replicate_iff]
  refine ⟨List.length_map _, ?_⟩
  intro v hv
  obtain ⟨x, hx, rfl⟩ := List.mem_map.mp hv
  rw [hb x (h3 x hx)]
  rfl

/-- **C125.** Exactly: when another player takes over, the codes that were shown for the first player's cards are shown for the other's, as far as
these have as many; nothing is shown for the others. The codes that the core tells are not used. -/
theorem C125_tag_swap_exactly (ds : List (List UInt8)) (rs : List Encoded) (c : BasicContext) (h : feed BasicContext.init ds = .ok (rs, c)) (p : Fin 2)
    (main extraP top : UInt32) (extra hand : List (UInt32 × UInt32)) (hf : extra.length + hand.length < 2 ^ 32) (more : List UInt8) :
    ∃ c', track c ((CoreMsg.tagSwap (playerByte p) main extraP top extra hand).bytes ++ more) = .ok c' ∧
      ∀ l n, (l, n) ∈ [(PileLoc.mainDeck, main.toNat), (.extraDeck, extra.length), (.hand, hand.length)] →
        codesShown c' ⟨p, l⟩ = (codesShown c ⟨p, l⟩).take n ++ List.replicate (n - (codesShown c ⟨p, l⟩).length) 0 := by
  obtain ⟨hr, -⟩ := C65_always_consistent ds rs c h
  have hb := feed_blank c ds _ rs ⟨[], rfl⟩ blank_init h
  obtain ⟨f, h1, -, h2, h3, h4, -⟩ := C64_tag_swap c hr p main extraP top extra hand hf more
  refine ⟨_, h1, fun l n hm => ?_⟩
  simp only [List.mem_cons, Prod.mk.injEq, List.not_mem_nil, or_false] at hm
  rcases hm with ⟨rfl, rfl⟩ | ⟨rfl, rfl⟩ | ⟨rfl, rfl⟩
  · exact codesShown_resized (c' := { c with board := { c.board with frame := f } }) hb rfl _ _ h2
  · exact codesShown_resized (c' := { c with board := { c.board with frame := f } }) hb rfl _ _ h3
  · exact codesShown_resized (c' := { c with board := { c.board with frame := f } }) hb rfl _ _ h4

/-- **C125.** So a hand that another player holds is shown as the core tells it only if the cards that it tells of have the codes of those that
were shown before. -/
theorem C125_tag_swap_hand (ds : List (List UInt8)) (rs : List Encoded) (c : BasicContext) (h : feed BasicContext.init ds = .ok (rs, c)) (p : Fin 2)
    (main extraP top : UInt32) (extra hand : List (UInt32 × UInt32)) (hf : extra.length + hand.length < 2 ^ 32) (more : List UInt8) (c' : BasicContext)
    (ht : track c ((CoreMsg.tagSwap (playerByte p) main extraP top extra hand).bytes ++ more) = .ok c') :
    Faithful c' ⟨p, .hand⟩ (hand.map (·.1.toNat)) ↔
      ∀ (i : Nat) code card, (codesShown c ⟨p, .hand⟩)[i]? = some code → hand[i]? = some card → code = 0 ∨ code = card.1.toNat := by
  obtain ⟨c1, h1, h2⟩ := C125_tag_swap_exactly ds rs c h p main extraP top extra hand hf more
  rw [ht] at h1
  cases h1
  have e := h2 .hand hand.length (by simp)
  unfold Faithful
  rw [forall₂_get, e]
  constructor
  · rintro ⟨-, hall⟩ i code card h3 h4
    have hi := (List.getElem?_eq_some_iff.mp h4).1
    have hi' := (List.getElem?_eq_some_iff.mp h3).1
    refine hall i code card.1.toNat ?_ (by rw [List.getElem?_map, h4]; rfl)
    rw [List.getElem?_append_left (by rw [List.length_take]; omega), List.getElem?_take_of_lt hi, h3]
  · intro hall
    refine ⟨by simp only [List.length_append, List.length_take, List.length_replicate, List.length_map]; omega, fun i a b ha hb => ?_⟩
    rw [List.getElem?_map] at hb
    cases h4 : hand[i]? with
    | none => rw [h4] at hb; cases hb
    | some card =>
      rw [h4] at hb
      cases hb
      have hi := (List.getElem?_eq_some_iff.mp h4).1
      by_cases hi' : i < (codesShown c ⟨p, .hand⟩).length
      · rw [List.getElem?_append_left (by rw [List.length_take]; omega), List.getElem?_take_of_lt hi] at ha
        exact hall i a card ha h4
      · rw [List.getElem?_append_right (by rw [List.length_take]; omega), List.getElem?_replicate] at ha
        split at ha
        · cases ha; exact .inl rfl
        · cases ha

/-- **C125.** After a start, nothing is shown of any card in a pile; so what is shown is true, whatever the cards are. -/
theorem C125_start_partial (ds : List (List UInt8)) (rs : List Encoded) (c : BasicContext) (h : feed BasicContext.init ds = .ok (rs, c)) (rule : UInt8)
    (lp0 lp1 : UInt32) (m0 e0 m1 e1 : UInt16) (more : List UInt8) :
    ∃ c', track c ((CoreMsg.start rule lp0 lp1 m0 e0 m1 e1).bytes ++ more) = .ok c' ∧
      ∀ k truth, truth.length = (Spec.boardOf c' (.pile k)).length → Faithful c' k truth := by
  obtain ⟨hr, -⟩ := C65_always_consistent ds rs c h
  have hb := feed_blank c ds _ rs ⟨[], rfl⟩ blank_init h
  obtain ⟨f, h1, -, h2, -⟩ := C64_start c hr rule lp0 lp1 m0 e0 m1 e1 more
  refine ⟨_, h1, fun k truth hl => forall₂_get.mpr ⟨by rw [hl]; exact List.length_map _, fun i a b ha _ => .inl ?_⟩⟩
  obtain ⟨x, hx, rfl⟩ := List.mem_map.mp (List.mem_of_getElem? ha)
  have := hb x (h2 _ x hx)
  show ((c.store x).single .code).val = 0
  rw [this]
  rfl

/-! ## A hand that is shuffled, and one that changes its owner -/

/-- Two cards are drawn, and the core tells which ones they are. -/
def knownHand : List CoreMsg := [.start 0 8000 8000 5 0 0 0, .draw 0 [(11, 1), (12, 1)], .updateData 0 2 [some [.code 11], some [.code 12]]]

/-- The codes shown for the hand and for the first monster zone. -/
def handAndZone (ms : List CoreMsg) : Option (List Nat × List Nat) :=
  (trackAll BasicContext.init ms).toOption.map fun c => (codesShown c ⟨0, .hand⟩,
    (Spec.boardOf c (.slot ⟨0, .monster, 0, by decide⟩)).map fun x => ((c.store x).single .code).val)

/-- **C125.** A hand is shown in the old order after it was shuffled, so that the wrong card is seen to be summoned; and a player is seen to hold
the cards of the one whose turn it was. -/
theorem C125_violated :
    handAndZone knownHand = some ([11, 12], []) ∧
    handAndZone (knownHand ++ [.shuffleHand 0 [12, 11]]) = some ([11, 12], []) ∧
    handAndZone (knownHand ++ [.shuffleHand 0 [12, 11], .move 12 ⟨0, 2, 0, 1⟩ ⟨0, 4, 0, 1⟩ 0]) = some ([12], [11]) ∧
    handAndZone (knownHand ++ [.tagSwap 0 3 0 0 [] [(21, 1), (22, 1), (23, 1)]]) = some ([11, 12, 0], []) := by
  refine ⟨?_, ?_, ?_, ?_⟩ <;> decide +kernel

/-- Two monsters are set, and the core tells which ones they are. -/
def setCards : List CoreMsg :=
  [.move 0 ⟨0, 0, 0, 0⟩ ⟨0, 4, 1, 8⟩ 0, .move 0 ⟨0, 0, 0, 0⟩ ⟨0, 4, 2, 8⟩ 0, .updateData 0 4 [none, some [.code 11], some [.code 12]]]

/-- **C125.** Two set monsters are shown with the codes that were told before they were shuffled. -/
theorem C125_set_cards_violated :
    (trackAll BasicContext.init setCards).toOption.map (codesInZones · [⟨0, .monster, 1, by decide⟩, ⟨0, .monster, 2, by decide⟩]) = some [11, 12] ∧
    (trackAll BasicContext.init (setCards ++ [.shuffleSetCard 4 [(⟨0, 4, 1, 8⟩, ⟨0, 0, 0, 0⟩), (⟨0, 4, 2, 8⟩, ⟨0, 0, 0, 0⟩)]])).toOption.map
      (codesInZones · [⟨0, .monster, 1, by decide⟩, ⟨0, .monster, 2, by decide⟩]) = some [11, 12] := by
  refine ⟨?_, ?_⟩ <;> decide +kernel

/-- The server of the witness shows the truth before the hand is shuffled, and not after it. -/
example : ∃ c c', trackAll BasicContext.init knownHand = .ok c ∧ Faithful c ⟨0, .hand⟩ [11, 12] ∧
    track c (CoreMsg.shuffleHand 0 [12, 11]).bytes = .ok c' ∧ ¬ Faithful c' ⟨0, .hand⟩ [12, 11] := by
  have h := C125_violated.1
  cases hc : trackAll BasicContext.init knownHand with
  | error e => rw [handAndZone, hc] at h; cases h
  | ok c =>
    rw [handAndZone, hc] at h
    have h1 : codesShown c ⟨0, .hand⟩ = [11, 12] := (Prod.mk.inj (Option.some.inj h)).1
    refine ⟨c, c, rfl, ?_, ?_, ?_⟩
    · rw [Faithful, h1]
      exact .cons (.inr rfl) (.cons (.inr rfl) .nil)
    · simpa using C125_shuffle c (.shuffleHand 0 [12, 11]) (.inr ⟨0, _, by decide, .inl rfl⟩) []
    · rw [Faithful, h1]
      intro h
      cases h with
      | cons h _ => rcases h with h | h <;> cases h

/-- There are histories to speak of: these buffers are taken, and two codes are shown afterwards. -/
example : (feed BasicContext.init (knownHand.map CoreMsg.bytes)).toOption.map (fun r => codesShown r.2 ⟨0, .hand⟩) = some [11, 12] := by
  decide +kernel

end Ygo.Props
