import Verif.Lemmas.Notes
import Verif.Props.AnyContext
import Verif.Props.Mirror

/-!
# Where a server looks for materials that were left behind (C122)
-/

namespace Ygo.Props
open Ygo Ygo.Spec

set_option linter.unusedSimpArgs false

/-- **C122.** What a server knows about a place after a message: what it writes down about it, or else what it knew before. -/
theorem C122_note (c c' : BasicContext) (m : CoreMsg) (hf : m.Fits) (more : List UInt8) (r : Encoded)
    (h : encodeOne c (m.bytes ++ more) = .ok (r, c')) (l s : Place) :
    c'.left l = some s ↔ Notes c m l s ∨ (c.left l = some s ∧ ∀ s', ¬ Notes c m l s') :=
  (encodeOne_left c m hf more r c' h).iff l s

theorem left_history (ms : List CoreMsg) (hf : ∀ m ∈ ms, m.Fits) (l s : Place) (n : Nat) (hn : n ≤ ms.length) :
    ∀ c, After ms n c → (c.left l = some s ↔ ∃ i, i < n ∧ (∃ m d, ms[i]? = some m ∧ After ms i d ∧ Notes d m l s) ∧
      ∀ j m d s', i < j → j < n → ms[j]? = some m → After ms j d → ¬ Notes d m l s') := by
  induction n with
  | zero =>
    rintro c ⟨rs, h⟩
    cases h
    simp [BasicContext.init]
  | succ n ih =>
    intro c hc
    obtain ⟨d, hd⟩ := hc.before (Nat.le_succ n)
    have hm : ms[n]? = some ms[n] := List.getElem?_eq_getElem hn
    obtain ⟨rs, h1⟩ := hd.succ hm hc
    rw [(feed_single (hf _ (List.getElem_mem hn)) h1).iff l s, ih (Nat.le_of_succ_le hn) d hd]
    constructor
    · rintro (h | ⟨⟨i, hi, h, h'⟩, hno⟩)
      · exact ⟨n, Nat.lt_succ_self n, ⟨_, _, hm, hd, h⟩, fun j m d s' h1 h2 => by omega⟩
      · refine ⟨i, Nat.lt_succ_of_lt hi, h, fun j m d' s' h1 h2 h3 h4 => ?_⟩
        rcases Nat.lt_succ_iff_lt_or_eq.mp h2 with h2 | rfl
        · exact h' j m d' s' h1 h2 h3 h4
        · rw [hm] at h3
          cases h3
          rw [h4.unique hd]
          exact hno s'
    · rintro ⟨i, hi, ⟨m, d', h0, h2, h3⟩, h'⟩
      rcases Nat.lt_succ_iff_lt_or_eq.mp hi with hi | rfl
      · exact .inr ⟨⟨i, hi, ⟨m, d', h0, h2, h3⟩, fun j m d s' a b => h' j m d s' a (Nat.lt_succ_of_lt b)⟩,
          fun s' => h' n _ d s' hi (Nat.lt_succ_self n) hm hd⟩
      · rw [hm] at h0
        cases h0
        rw [h2.unique hd] at h3
        exact .inl h3

/-- **C122.** What a server knows about a place after any messages is what the last message made it write down that made it write
anything about that place. Nothing is ever forgotten. -/
theorem C122_history (ms : List CoreMsg) (hf : ∀ m ∈ ms, m.Fits) (c : BasicContext) (rs : List Encoded)
    (h : feed BasicContext.init (ms.map (·.bytes)) = .ok (rs, c)) (l s : Place) : c.left l = some s ↔ ∃ i, LastNoted ms i l s := by
  rw [left_history ms hf l s ms.length (Nat.le_refl _) c ⟨rs, by rw [List.take_length]; exact h⟩]
  constructor
  · rintro ⟨i, -, h1, h2⟩
    exact ⟨i, h1, fun j m d s' a b c => h2 j m d s' a (List.getElem?_eq_some_iff.mp b).1 b c⟩
  · rintro ⟨i, h1, h2⟩
    obtain ⟨m, d, hm, -⟩ := id h1
    exact ⟨i, (List.getElem?_eq_some_iff.mp hm).1, h1, fun j m d s' a _ b c => h2 j m d s' a b c⟩

/-- **C122.** Exactly: a material beneath a card in a pile can be reported after some messages if and only if one of them made the server
write something down about the place of that card, and is then taken from the place written down last, wherever the card came from. -/
theorem C122_exactly (ms : List CoreMsg) (hf : ∀ m ∈ ms, m.Fits) (c : BasicContext) (rs : List Encoded)
    (h : feed BasicContext.init (ms.map (·.bytes)) = .ok (rs, c)) (code : UInt32) (a b : LocInfo) (n : UInt32) (more : List UInt8)
    (hk : moveKind a.place b.place = .leftBehind) (r : Encoded) (c' : BasicContext) :
    encodeOne c ((CoreMsg.move code a b n).bytes ++ more) = .ok (r, c') ↔ c' = c ∧ ∃ i s, LastNoted ms i { a.place with oseq := -1 } s ∧
      r = reported (CoreMsg.move code a b n).bytes.length n.toNat (.move [⟨{ s with oseq := a.place.oseq }, b.place⟩]) := by
  rw [C39_left_behind c code a b n more hk]
  show (orUb (c.left _) >>= _) = _ ↔ _
  cases hl : c.left { a.place with oseq := -1 } with
  | none =>
    refine ⟨fun h => (by cases h), ?_⟩
    rintro ⟨-, i, s, h1, -⟩
    rw [(C122_history ms hf c rs h _ s).mpr ⟨i, h1⟩] at hl
    cases hl
  | some s =>
    obtain ⟨i, hi⟩ := (C122_history ms hf c rs h _ s).mp hl
    constructor
    · intro h
      cases h
      exact ⟨rfl, i, s, hi, rfl⟩
    · rintro ⟨rfl, i', s', h1, rfl⟩
      rw [(C122_history ms hf c' rs h _ s').mpr ⟨i', h1⟩] at hl
      cases hl
      rfl

/-- Nothing is written about a place in a pile while the card there stays. -/
theorem quiet_of_stays {ms : List CoreMsg} {j : Nat} {m : CoreMsg} {k : PileKey} {n : Nat} {x : CardId} {c d : BasicContext}
    (hm : ms[j]? = some m) (hc : After ms j c) (hd : After ms (j + 1) d)
    (h1 : (Spec.boardOf c (.pile k))[n]? = some x) (h2 : (Spec.boardOf d (.pile k))[n]? = some x) (s : Place) : ¬ Notes c m (pilePlace k n) s := by
  intro hn
  obtain ⟨rs, hs⟩ := hc.succ hm hd
  have hi : Inv c.board.frame := feed_inv Inv.init hc.choose_spec
  cases m <;> try exact hn
  case move code a b r =>
    obtain ⟨hz, -, ⟨-, h, -⟩ | ⟨hk, hp, h, -⟩⟩ := hn
    · rw [← h] at hz
      exact hz (inPile_code _)
    · obtain ⟨r', c1, c2, rs', e1, sm, e2, e3, -⟩ := feed_cons hs
      cases e3
      have e0 := C39_plain c code a b r [] hk
      rw [List.append_nil, e1] at e0
      have er : r' = reported (CoreMsg.move code a b r).bytes.length r.toNat (.move [⟨a.place, b.place⟩]) := by
        have e0 := e0.symm
        dsimp only at e0
        split at e0 <;> simp only [bind_eq_ok, pure_eq_ok, Except.ok.injEq, Prod.mk.injEq] at e0
        · obtain ⟨_, _, _, _, h, _⟩ := e0
          exact h.symm
        · obtain ⟨_, _, h, _⟩ := e0
          exact h.symm
      subst er
      have e2 : c1.parse ⟨.event (.card r.toNat (.move [⟨a.place, b.place⟩])), []⟩ = .ok d := e2
      obtain ⟨B, st, hB, -, rfl⟩ := parse_parts e2
      have hB : c1.board.parseEvent (.card r.toNat (.move [⟨a.place, b.place⟩])) = .ok B := hB
      have hr := parse_frame hB
      have hr : runOps c1.board.frame (DuelBoard.cardOps (.move [⟨a.place, b.place⟩])) = .ok B.frame := hr
      rw [runOps_move, sm.board] at hr
      simp only [bind_eq_ok] at hr
      obtain ⟨⟨f, y⟩, hmv, hf⟩ := hr
      cases hf
      obtain ⟨ha, hb⟩ := C09_same_card _ _ _ _ _ hmv
      obtain ⟨C, i, hC, hy⟩ := Layout.card_eq_ok.mp ha
      obtain ⟨D, j', hD, hy'⟩ := Layout.card_eq_ok.mp hb
      rw [← h] at hD
      obtain ⟨rfl, rfl⟩ := At.unique hD (.pile k n (-1))
      have : y = x := by
        have h2 : (view B.frame.layout (.pile k))[j']? = some x := h2
        rw [hy'] at h2
        exact Option.some.inj h2
      subst this
      obtain ⟨rfl, -⟩ := position_unique hi hy h1
      refine hz ?_
      generalize a.place = p at hC
      cases hC
      exact inPile_code _

/-- **C122.** A material is taken from the zone that its monster left, as long as the monster is still where it went: after a card left a
zone with materials for a place in a pile, and if that place has had the same card ever since, a material beneath that card is taken from
that zone. -/
theorem C122_stays_partial (ms : List CoreMsg) (hf : ∀ m ∈ ms, m.Fits) (c : BasicContext) (rs : List Encoded)
    (h : feed BasicContext.init (ms.map (·.bytes)) = .ok (rs, c)) (i : Nat) (code : UInt32) (a b : LocInfo) (r : UInt32)
    (hm : ms[i]? = some (.move code a b r)) (k : PileKey) (n : Nat) (hb : b.place = pilePlace k n) (z : ZoneKey) (ha : a.place = zonePlace z)
    (hz : ∀ d, After ms i d → Spec.boardOf d (.mats z) ≠ []) (x : CardId)
    (hx : ∀ j d, i < j → After ms j d → (Spec.boardOf d (.pile k))[n]? = some x)
    (code' : UInt32) (a' b' : LocInfo) (r' : UInt32) (t : Nat) (ha' : a'.place = { pilePlace k n with oseq := (t : Int) })
    (hk' : moveKind a'.place b'.place = .leftBehind) (more : List UInt8) :
    encodeOne c ((CoreMsg.move code' a' b' r').bytes ++ more) = .ok (reported (CoreMsg.move code' a' b' r').bytes.length r'.toNat
      (.move [⟨{ zonePlace z with oseq := (t : Int) }, b'.place⟩]), c) := by
  have hlen := (List.getElem?_eq_some_iff.mp hm).1
  have hall : After ms ms.length c := ⟨rs, by rw [List.take_length]; exact h⟩
  obtain ⟨ci, hci⟩ := hall.before (Nat.le_of_lt hlen)
  rw [C122_exactly ms hf c rs h code' a' b' r' more hk']
  refine ⟨rfl, i, zonePlace z, ⟨⟨_, ci, hm, hci, ?_⟩, ?_⟩, by rw [ha']⟩
  · have hzl : ¬ InPile (zonePlace z).loc := not_inPile_code _
    refine ⟨ha ▸ hzl, ⟨z, by rw [ha]; rfl, by rw [ha]; rfl, by rw [ha]; rfl, hz ci hci⟩, .inr ⟨?_, hb ▸ inPile_code _, by rw [ha', hb]; rfl, ha.symm⟩⟩
    rw [ha, hb]
    exact (C39_kinds _ _).2.2.2.2.2.2.mpr ⟨zone_ne_zero _, inPile_ne_zero (inPile_code _),
      ⟨fun _ => by show (-1 : Int) < 0; decide, fun _ => inPile_code _⟩, fun h => hzl h.1⟩
  · intro j m d s' hj hmj hd
    have hjl := (List.getElem?_eq_some_iff.mp hmj).1
    obtain ⟨d', hd'⟩ := hall.before (Nat.succ_le_of_lt hjl)
    have : ({ a'.place with oseq := -1 } : Place) = pilePlace k n := by rw [ha']; rfl
    rw [this]
    exact quiet_of_stays hmj hd hd' (hx j d hj hd) (hx (j + 1) d' (by omega) hd') s'

/-- **C122.** A material that is detached to a pile is written down as if it were a monster that leaves its materials. -/
theorem C122_detached (c : BasicContext) (k : ZoneKey) (n : Nat) (hk : Spec.boardOf c (.mats k) ≠ []) (p : PileKey) (i : Nat) (code : UInt32)
    (a b : LocInfo) (r : UInt32) (ha : a.place = { zonePlace k with oseq := (n : Int) }) (hb : b.place = pilePlace p i) :
    Notes c (.move code a b r) (pilePlace p i) { zonePlace k with oseq := (n : Int) } := by
  have hz : ¬ InPile (zonePlace k).loc := not_inPile_code _
  refine ⟨by rw [ha]; exact hz, ⟨k, by rw [ha]; rfl, by rw [ha]; rfl, by rw [ha]; rfl, hk⟩, .inr ⟨?_, hb ▸ inPile_code _, hb.symm, ha.symm⟩⟩
  rw [ha, hb]
  exact (C39_kinds _ _).2.2.2.2.2.2.mpr ⟨zone_ne_zero _, inPile_ne_zero (inPile_code _),
    ⟨fun _ => by show (-1 : Int) < 0; decide, fun _ => inPile_code _⟩, fun h => hz h.1⟩

/-! ## Notes that are never read -/

/-- Two servers that differ at most in what they have written down about places that are not in piles. -/
structure SameInPiles (c d : BasicContext) : Prop where
  board : c.board = d.board
  store : c.store = d.store
  deferred : c.deferred = d.deferred
  reason : c.matchWinReason = d.matchWinReason
  left : ∀ p, InPile p.loc → c.left p = d.left p

theorem sameInPiles_alike : AnswerAlike SameInPiles where
  pileSize c d h con loc _ := by obtain ⟨h, -, -, -, -⟩ := h; cases c; cases d; cases h; rfl
  getMatchWinReason c d h := by show orUb _ = orUb _; rw [h.reason]
  hasXyzMat c d h p _ := by obtain ⟨h, -, -, -, -⟩ := h; cases c; cases d; cases h; rfl
  getXyzLeft c d h p hp _ := by show orUb _ = orUb _; rw [h.left p ((pileLoc_iff p).mp hp)]
  matchWinReason c d h n := ⟨h.board, h.store, h.deferred, rfl, h.left⟩
  xyzMatDefer c d h p := ⟨h.board, h.store, by show c.deferred ++ _ = d.deferred ++ _; rw [h.deferred], h.reason, h.left⟩
  deferred c d h := h.deferred
  takeDeferred c d h := ⟨h.board, h.store, rfl, h.reason, h.left⟩
  xyzLeft c d h p q := ⟨h.board, h.store, h.deferred, h.reason, fun x hx => by
    show (if x = p then some q else c.left x) = if x = p then some q else d.left x
    rw [h.left x hx]⟩

theorem feed_feedWith (c : BasicContext) (ds : List (List UInt8)) : feed c ds = feedWith BasicContext.parse c ds := by
  induction ds generalizing c with
  | nil => rfl
  | cons d ds ih =>
    simp only [feed, feedWith, ih]
    rfl

theorem parse_withLeft (d : BasicContext) (l : Place → Option Place) (m : Msg) :
    BasicContext.parse { d with left := l } m = (d.parse m).map fun x => { x with left := l } := by
  unfold BasicContext.parse
  cases m.body with
  | event e =>
    dsimp only
    cases d.board.parseEvent e with
    | error e => rfl
    | ok b =>
      simp only [bind_ok]
      cases BasicContext.parseQueries b.frame.layout m.queries d.store <;> rfl
  | _ =>
    dsimp only
    simp only [pure_bind]
    cases BasicContext.parseQueries d.board.frame.layout m.queries d.store <;> rfl

/-- **C122.** What is written down about a monster that is removed for good is never read: whatever buffers follow, servers that differ only
in what they have written down about places that are not in piles report the same or fail in the same way. -/
theorem C122_unread (c d : BasicContext) (h : SameInPiles c d) (ds : List (List UInt8)) :
    Together (fun x y => x.1 = y.1 ∧ SameInPiles x.2 y.2) (feed c ds) (feed d ds) := by
  rw [feed_feedWith, feed_feedWith]
  refine C108_histories SameInPiles sameInPiles_alike _ _ (fun c d h m => ?_) c d h ds
  have hc : c = { d with left := c.left } := by
    obtain ⟨hb, hs, hd, hr, -⟩ := h
    cases c; cases d
    simp only at hb hs hd hr
    subst hb hs hd hr
    rfl
  rw [hc, parse_withLeft]
  cases hp : d.parse m with
  | error e => rfl
  | ok d' => exact ⟨rfl, rfl, rfl, rfl, fun p hp' => by rw [parse_left hp]; exact h.left p hp'⟩

/-! ## Monsters that do not stay -/

/-- Two monsters in the first two monster zones, each with one material. -/
def pairOfMonsters : List CoreMsg :=
  [.move 0 ⟨0, 0, 0, 0⟩ ⟨0, 4, 0, 1⟩ 0, .move 0 ⟨0, 0, 0, 0⟩ ⟨0, 0x84, 0, 0⟩ 0,
   .move 0 ⟨0, 0, 0, 0⟩ ⟨0, 4, 1, 1⟩ 0, .move 0 ⟨0, 0, 0, 0⟩ ⟨0, 0x84, 1, 0⟩ 0]

/-- Both return to the extra deck, the second beneath the first. -/
def bothReturn : List CoreMsg := pairOfMonsters ++ [CoreMsg.move 0 ⟨0, 4, 0, 1⟩ ⟨0, 0x40, 0, 1⟩ 0, .move 0 ⟨0, 4, 1, 1⟩ ⟨0, 0x40, 0, 8⟩ 0]

/-- Both return to the extra deck, the second on top of the first, which then leaves the extra deck. -/
def oneLeaves : List CoreMsg := pairOfMonsters ++
  [CoreMsg.move 0 ⟨0, 4, 0, 1⟩ ⟨0, 0x40, 0, 8⟩ 0, .move 0 ⟨0, 4, 1, 1⟩ ⟨0, 0x40, 1, 8⟩ 0, .move 0 ⟨0, 0x40, 0, 8⟩ ⟨0, 0x20, 0, 1⟩ 0]

theorem eq_ub {α : Type} {r : Res α} (h : (match r with | .error .ub => true | _ => false) = true) : r = .error .ub := by
  cases r with
  | ok a => cases h
  | error e => cases e <;> first | rfl | cases h

/-- The cards in a zone, beneath it, and in the extra deck. -/
def zoneOneTwo (c : BasicContext) : List (List CardId) :=
  [Spec.boardOf c (.slot ⟨0, .monster, 0, by decide⟩), Spec.boardOf c (.mats ⟨0, .monster, 0, by decide⟩),
   Spec.boardOf c (.slot ⟨0, .monster, 1, by decide⟩), Spec.boardOf c (.mats ⟨0, .monster, 1, by decide⟩), Spec.boardOf c (.pile ⟨0, .extraDeck⟩)]

/-- The two monsters are 0 and 2, their materials 1 and 3. -/
example : ((feed BasicContext.init (pairOfMonsters.map (·.bytes))).toOption.map fun x => zoneOneTwo x.2) = some [[0], [1], [2], [3], []] := by
  decide +kernel

/-- **C122.** A monster that was pushed up by another one: its materials cannot be reported any more, the server looks for something that it
never wrote down. -/
theorem C122_lost : (feed BasicContext.init (bothReturn.map (·.bytes))).toOption.map (fun x => zoneOneTwo x.2) = some [[], [1], [], [3], [2, 0]] ∧
    feed BasicContext.init ((bothReturn ++ [CoreMsg.move 0 ⟨0, 0xC0, 1, 0⟩ ⟨0, 0x10, 0, 1⟩ 0]).map (·.bytes)) = .error .ub := by
  constructor
  · decide +kernel
  · exact eq_ub (by decide +kernel)

/-- **C122.** A monster that moved down: the material reported beneath it, 3, is looked for in the zone that the other monster left; 1 is taken
instead. -/
theorem C122_mistaken : (feed BasicContext.init (oneLeaves.map (·.bytes))).toOption.map (fun x => zoneOneTwo x.2) = some [[], [1], [], [3], [2]] ∧
    (feed BasicContext.init ((oneLeaves ++ [CoreMsg.move 0 ⟨0, 0xC0, 0, 0⟩ ⟨0, 0x10, 0, 1⟩ 0]).map (·.bytes))).toOption.map
      (fun x => (zoneOneTwo x.2, Spec.boardOf x.2 (.pile ⟨0, .graveyard⟩))) = some ([[], [], [], [3], [2]], [1]) := by
  constructor <;> decide +kernel

/-- One of them returns, and its material is found. -/
example : ∃ rs c, feed BasicContext.init ((pairOfMonsters ++ [CoreMsg.move 0 ⟨0, 4, 0, 1⟩ ⟨0, 0x40, 0, 1⟩ 0]).map (·.bytes)) = .ok (rs, c) ∧
    encodeOne c ((CoreMsg.move 0 ⟨0, 0xC0, 0, 0⟩ ⟨0, 0x10, 0, 1⟩ 7).bytes ++ []) =
      .ok (reported 29 7 (.move [⟨⟨0, 4, 0, 0⟩, ⟨0, 0x10, 0, -1⟩⟩]), c) := by
  have hs : ((feed BasicContext.init ((pairOfMonsters ++ [CoreMsg.move 0 ⟨0, 4, 0, 1⟩ ⟨0, 0x40, 0, 1⟩ 0]).map (·.bytes))).toOption.map
    fun x => Spec.boardOf x.2 (.pile ⟨0, .extraDeck⟩)) = some [0] := by decide +kernel
  have hs4 : ((feed BasicContext.init (pairOfMonsters.map (·.bytes))).toOption.map
    fun x => Spec.boardOf x.2 (.mats ⟨0, .monster, 0, by decide⟩)) = some [1] := by decide +kernel
  cases h : feed BasicContext.init ((pairOfMonsters ++ [CoreMsg.move 0 ⟨0, 4, 0, 1⟩ ⟨0, 0x40, 0, 1⟩ 0]).map (·.bytes)) with
  | error e => rw [h] at hs; cases hs
  | ok y =>
    obtain ⟨rs, c⟩ := y
    rw [h] at hs
    refine ⟨rs, c, rfl, C122_stays_partial _ (by simp [pairOfMonsters, CoreMsg.Fits]) c rs h 4 0 ⟨0, 4, 0, 1⟩ ⟨0, 0x40, 0, 1⟩ 0 rfl ⟨0, .extraDeck⟩ 0 rfl
      ⟨0, .monster, 0, by decide⟩ rfl ?_ 0 ?_ 0 ⟨0, 0xC0, 0, 0⟩ ⟨0, 0x10, 0, 1⟩ 7 0 (by decide +kernel) ?_ []⟩
    · rintro d ⟨rs', hd⟩
      have hd : feed BasicContext.init (pairOfMonsters.map (·.bytes)) = .ok (rs', d) := hd
      rw [hd] at hs4
      have hs4 : Spec.boardOf d (.mats ⟨0, .monster, 0, by decide⟩) = [1] := Option.some.inj hs4
      rw [hs4]
      simp
    · rintro j d hj ⟨rs', hd⟩
      rw [List.take_of_length_le (by simp [pairOfMonsters]; omega), h] at hd
      cases hd
      have hs : Spec.boardOf c (.pile ⟨0, .extraDeck⟩) = [0] := Option.some.inj hs
      rw [hs]
      rfl
    · rw [show (LocInfo.mk 0 0xC0 0 0).place = ⟨0, 0x40, 0, 0⟩ by decide +kernel, show (LocInfo.mk 0 0x10 0 1).place = ⟨0, 0x10, 0, -1⟩ by decide +kernel]
      exact (C39_kinds _ _).2.2.2.2.2.1.mpr (by simp [InPile]; decide)

end Ygo.Props
