import Verif.Lemmas.TrackableRead
import Verif.Props.Score
import Verif.Props.Single
import Verif.Props.Setup
import Verif.Props.Inert
import Verif.Props.Conserve

/-!
# C117: exactly which tables a server can track
-/

set_option linter.unusedSimpArgs false

namespace Ygo.Props
open Ygo Ygo.Spec

/-! ## What is tracked fits -/

theorem near_trackAll : ∀ (ms : List CoreMsg) (c c' : BasicContext), ServerNear c → trackAll c ms = .ok c' → ServerNear c'
  | [], c, c', hc, h => by simp only [trackAll, Except.ok.injEq] at h; exact h ▸ hc
  | m :: ms, c, c', hc, h => by
    simp only [trackAll, bind_eq_ok] at h
    obtain ⟨c1, h1, h2⟩ := h
    exact near_trackAll ms c1 c' (near_track hc h1) h2

theorem scoreFits_init : ScoreFits (scoreOf BasicContext.init) :=
  ⟨by simp [scoreOf, BasicContext.init, PlainBoard.init], ⟨0, rfl⟩, ⟨0, rfl⟩, fun i => by simp [scoreOf, BasicContext.init, PlainBoard.init], ⟨[], rfl⟩⟩

theorem _root_.Ygo.Spec.ScoreFits.setLp {s : Score} (h : ScoreFits s) (p : UInt8) {f : Nat → Nat} (hf : ∀ l, l < 2 ^ 32 → f l < 2 ^ 32) :
    ScoreFits (s.setLp p f) :=
  ⟨h.turn, h.player, h.phase, fun i => by
    simp only [Score.setLp]
    split
    · exact hf _ (h.lp i)
    · exact h.lp i, h.chain⟩

theorem _root_.Ygo.Spec.ScoreFits.after {s : Score} (h : ScoreFits s) (m : CoreMsg) : ScoreFits (s.after m) := by
  have u : ∀ n : UInt32, n.toNat < 2 ^ 32 := fun n => n.toNat_lt
  cases m <;> try exact h
  case start r l0 l1 _ _ _ _ =>
    refine ⟨by simp [Score.after], h.player, h.phase, fun i => ?_, ⟨[], rfl⟩⟩
    simp only [Score.after]
    split <;> exact u _
  case reloadField f a b ls =>
    refine ⟨h.turn, h.player, h.phase, fun i => ?_, ⟨ls, rfl⟩⟩
    simp only [Score.after]
    split <;> exact u _
  case newTurn p => exact ⟨Nat.mod_lt _ (by decide), ⟨p, rfl⟩, h.phase, h.lp, h.chain⟩
  case newPhase p => exact ⟨h.turn, h.player, ⟨p, rfl⟩, h.lp, h.chain⟩
  case damage p n => exact h.setLp p (f := (· - n.toNat)) fun l hl => Nat.lt_of_le_of_lt (Nat.sub_le ..) hl
  case payLpcost p n => exact h.setLp p (f := (· - n.toNat)) fun l hl => Nat.lt_of_le_of_lt (Nat.sub_le ..) hl
  case recover p n => exact h.setLp p (f := fun l => (l + n.toNat) % 2 ^ 32) fun l hl => Nat.mod_lt _ (by decide)
  case lpupdate p n => exact h.setLp p fun l hl => u n
  case chaining l x =>
    obtain ⟨ls, hl⟩ := h.chain
    exact ⟨h.turn, h.player, h.phase, h.lp, ls ++ [l], by simp [Score.after, hl]⟩
  case chainSolved x =>
    obtain ⟨ls, hl⟩ := h.chain
    exact ⟨h.turn, h.player, h.phase, h.lp, ls.dropLast, by simp [Score.after, hl, List.map_dropLast]⟩

theorem scoreFits_trackAll : ∀ (ms : List CoreMsg) (c c' : BasicContext), (∀ m ∈ ms, m.Fits) → ScoreFits (scoreOf c) → trackAll c ms = .ok c' →
    ScoreFits (scoreOf c')
  | [], c, c', _, hc, h => by simp only [trackAll, Except.ok.injEq] at h; exact h ▸ hc
  | m :: ms, c, c', hf, hc, h => by
    simp only [trackAll, bind_eq_ok] at h
    obtain ⟨c1, h1, h2⟩ := h
    refine scoreFits_trackAll ms c1 c' (fun x hx => hf x (by simp [hx])) ?_ h2
    rw [C69_score c m (hf m (by simp)) [] c1 (by rwa [List.append_nil])]
    exact hc.after m

theorem track_fieldDisabled (c : BasicContext) (mask : UInt32) :
    track c (CoreMsg.fieldDisabled mask).bytes = .ok { c with board := { c.board with blockedZones := ⟨clearBits mask 0⟩ } } := by
  have h := C34_translation c (.fieldDisabled mask) trivial _ rfl []
  rw [List.append_nil] at h
  unfold track
  rw [h]
  rfl

theorem blockedFits_trackAll : ∀ (ms : List CoreMsg) (c c' : BasicContext), (∀ m ∈ ms, m.Fits) → BlockedFits c.board.blockedZones.val →
    trackAll c ms = .ok c' → BlockedFits c'.board.blockedZones.val
  | [], c, c', _, hc, h => by simp only [trackAll, Except.ok.injEq] at h; exact h ▸ hc
  | m :: ms, c, c', hf, hc, h => by
    simp only [trackAll, bind_eq_ok] at h
    obtain ⟨c1, h1, h2⟩ := h
    refine blockedFits_trackAll ms c1 c' (fun x hx => hf x (by simp [hx])) ?_ h2
    by_cases hz : TellsZones m
    · cases m <;> simp only [TellsZones] at hz
      rename_i mask
      rw [track_fieldDisabled] at h1
      simp only [Except.ok.injEq] at h1
      subst h1
      exact ⟨mask, rfl⟩
    · rw [C70_zones c m (hf m (by simp)) hz [] c1 (by rwa [List.append_nil])]
      exact hc

/-! ## Whatever fits can be tracked -/

/-- From the first state to the second by some messages. -/
def Leads (c c' : BasicContext) : Prop := ∃ ms : List CoreMsg, (∀ m ∈ ms, m.Fits) ∧ trackAll c ms = .ok c'

theorem Leads.refl (c : BasicContext) : Leads c c := ⟨[], by simp, rfl⟩

theorem Leads.trans {a b c : BasicContext} (h : Leads a b) (h' : Leads b c) : Leads a c := by
  obtain ⟨ms, f, t⟩ := h
  obtain ⟨ms', f', t'⟩ := h'
  refine ⟨ms ++ ms', fun m hm => ?_, by rw [trackAll_append, t]; exact t'⟩
  rcases List.mem_append.mp hm with hm | hm
  · exact f m hm
  · exact f' m hm

theorem Leads.one {c c' : BasicContext} {m : CoreMsg} (hf : m.Fits) (h : track c m.bytes = .ok c') : Leads c c' :=
  ⟨[m], fun x hx => by rw [List.mem_singleton.mp hx]; exact hf, by simp only [trackAll, h, bind_ok]⟩

/-- A message about the score. -/
theorem leads_score (c : BasicContext) (m : CoreMsg) (ha : (scoreOf c).Allows m) (hf : m.Fits) :
    ∃ c', Leads c c' ∧ Spec.boardOf c' = Spec.boardOf c ∧ c'.board.blockedZones = c.board.blockedZones ∧ scoreOf c' = (scoreOf c).after m := by
  obtain ⟨c', h, hb, _, hz⟩ := C69_score_returns c m ha hf []
  have hs := C69_score c m hf [] c' h
  rw [List.append_nil] at h
  exact ⟨c', .one hf h, hb, hz, hs⟩

theorem leads_turns (p : UInt8) : ∀ (t : Nat) (c : BasicContext), (scoreOf c).turn + t < 2 ^ 32 → (scoreOf c).player = p.toNat →
    ∃ c', Leads c c' ∧ Spec.boardOf c' = Spec.boardOf c ∧ c'.board.blockedZones = c.board.blockedZones ∧
      scoreOf c' = { scoreOf c with turn := (scoreOf c).turn + t }
  | 0, c, _, _ => ⟨c, .refl c, rfl, rfl, rfl⟩
  | t + 1, c, ht, hp => by
    obtain ⟨c1, h1, b1, z1, s1⟩ := leads_score c (.newTurn p) trivial trivial
    have e : scoreOf c1 = { scoreOf c with turn := (scoreOf c).turn + 1 } := by
      rw [s1]
      simp only [Score.after]
      rw [Nat.mod_eq_of_lt (by omega), ← hp]
    obtain ⟨c2, h2, b2, z2, s2⟩ := leads_turns p t c1 (by rw [e]; simp only; omega) (by rw [e]; exact hp)
    refine ⟨c2, h1.trans h2, by rw [b2, b1], by rw [z2, z1], ?_⟩
    rw [s2, e]
    simp only [Score.mk.injEq, true_and, and_true]
    omega

theorem leads_chain : ∀ (ls : List Link) (c : BasicContext),
    ∃ c', Leads c c' ∧ Spec.boardOf c' = Spec.boardOf c ∧ c'.board.blockedZones = c.board.blockedZones ∧
      scoreOf c' = { scoreOf c with chain := (scoreOf c).chain ++ ls.map (·.chain) }
  | [], c => ⟨c, .refl c, rfl, rfl, by simp⟩
  | l :: ls, c => by
    obtain ⟨c1, h1, b1, z1, s1⟩ := leads_score c (.chaining l 0) trivial trivial
    obtain ⟨c2, h2, b2, z2, s2⟩ := leads_chain ls c1
    refine ⟨c2, h1.trans h2, by rw [b2, b1], by rw [z2, z1], ?_⟩
    rw [s2, s1]
    simp [Score.after]

/-- What the core calls the front of a pile, a zone, or the first material below a zone. -/
def frontOf : Container → LocInfo
  | .pile k => ⟨UInt8.ofNat k.con, UInt8.ofNat k.loc.code, 0, 0⟩
  | .slot k => zoneInfo k 0
  | .mats k => zoneInfo k 128
where
  /-- With the overlay bit or without. -/
  zoneInfo (k : ZoneKey) (overlay : Nat) : LocInfo :=
    match k.loc with
    | .monster => ⟨UInt8.ofNat k.con, UInt8.ofNat (4 + overlay), UInt32.ofNat k.seq, 0⟩
    | .spell => ⟨UInt8.ofNat k.con, UInt8.ofNat (8 + overlay), UInt32.ofNat k.seq, 0⟩
    | .field => ⟨UInt8.ofNat k.con, UInt8.ofNat (8 + overlay), 5, 0⟩
    | _ => ⟨UInt8.ofNat k.con, UInt8.ofNat (8 + overlay), UInt32.ofNat (k.seq + 6), 0⟩

theorem frontOf_at : ∀ C ∈ containers, ¬ InSkillZone C → At (frontOf C).place C 0 := by
  have piles : ∀ k ∈ allPiles, (frontOf (.pile k)).place = ⟨k.con.val, k.loc.code, 0, -1⟩ := by decide
  have slots : ∀ k ∈ allZones, k.loc ≠ .skill → (frontOf (.slot k)).place = ⟨k.con.val, k.loc.code, k.seq, -1⟩ := by decide
  have mats : ∀ k ∈ allZones, k.loc ≠ .skill → (frontOf (.mats k)).place = ⟨k.con.val, k.loc.code, k.seq, 0⟩ := by decide
  intro C hC hs
  simp only [containers, List.mem_append, List.mem_map] at hC
  rcases hC with (⟨k, hk, rfl⟩ | ⟨k, hk, rfl⟩) | ⟨k, hk, rfl⟩
  · rw [piles k hk]; exact .pile k 0 (-1)
  · rw [slots k hk hs]; exact .slot k (-1) (by decide)
  · rw [mats k hk hs]; exact .mats k 0

/-- A card appears at the front of a pile, in an empty zone or below a zone. -/
theorem leads_card (c : BasicContext) (C : Container) (hs : ¬ InSkillZone C) (he : ∀ k, C = .slot k → Spec.boardOf c C = []) :
    ∃ c', Leads c c' ∧ (Spec.boardOf c' C).length = (Spec.boardOf c C).length + 1 ∧ (∀ D, D ≠ C → Spec.boardOf c' D = Spec.boardOf c D) ∧
      c'.board.blockedZones = c.board.blockedZones ∧ scoreOf c' = scoreOf c := by
  obtain ⟨l, h, hv⟩ := C71_appears c ⟨0, ⟨0, 0, 0, 0⟩, frontOf C, 0⟩ C 0 (show (⟨0, 0, 0, 0⟩ : LocInfo).place.loc = 0 by decide) (frontOf_at C (mem_containers C) hs) ⟨Nat.zero_le _, he⟩
  refine ⟨_, .one (m := .move ..) trivial h, ?_, fun D hD => ?_, rfl, rfl⟩
  · show (view l C).length = _
    rw [hv]
    simp [Board.put, upd_apply]
  · show view l D = _
    rw [hv]
    simp [Board.put, upd_apply, hD]

theorem leads_cards (C : Container) (hs : ¬ InSkillZone C) : ∀ (n : Nat) (c : BasicContext), (∀ k, C = .slot k → (Spec.boardOf c C).length + n ≤ 1) →
    ∃ c', Leads c c' ∧ (Spec.boardOf c' C).length = (Spec.boardOf c C).length + n ∧ (∀ D, D ≠ C → Spec.boardOf c' D = Spec.boardOf c D) ∧
      c'.board.blockedZones = c.board.blockedZones ∧ scoreOf c' = scoreOf c
  | 0, c, _ => ⟨c, .refl c, rfl, fun _ _ => rfl, rfl, rfl⟩
  | n + 1, c, hn => by
    obtain ⟨c1, h1, l1, o1, z1, s1⟩ := leads_card c C hs fun k hk => by
      have := hn k hk
      exact List.length_eq_zero_iff.mp (by omega)
    obtain ⟨c2, h2, l2, o2, z2, s2⟩ := leads_cards C hs n c1 fun k hk => by have := hn k hk; omega
    exact ⟨c2, h1.trans h2, by omega, fun D hD => by rw [o2 D hD, o1 D hD], by rw [z2, z1], by rw [s2, s1]⟩

theorem leads_all {n : Container → Nat} (hn : TableFits n) : ∀ (Cs : List Container) (c : BasicContext), Cs.Nodup → (∀ C ∈ Cs, Spec.boardOf c C = []) →
    ∃ c', Leads c c' ∧ (∀ C ∈ Cs, (Spec.boardOf c' C).length = n C) ∧ (∀ D, D ∉ Cs → Spec.boardOf c' D = Spec.boardOf c D) ∧
      c'.board.blockedZones = c.board.blockedZones ∧ scoreOf c' = scoreOf c
  | [], c, _, _ => ⟨c, .refl c, by simp, fun _ _ => rfl, rfl, rfl⟩
  | C :: Cs, c, hd, he => by
    obtain ⟨hC, hd⟩ := List.nodup_cons.mp hd
    have h0 : Spec.boardOf c C = [] := he C (by simp)
    obtain ⟨c1, h1, l1, o1, z1, s1⟩ : ∃ c', Leads c c' ∧ (Spec.boardOf c' C).length = n C ∧ (∀ D, D ≠ C → Spec.boardOf c' D = Spec.boardOf c D) ∧
        c'.board.blockedZones = c.board.blockedZones ∧ scoreOf c' = scoreOf c := by
      by_cases hs : InSkillZone C
      · exact ⟨c, .refl c, by rw [h0, hn.skill C hs]; rfl, fun _ _ => rfl, rfl, rfl⟩
      · obtain ⟨c', a, b, d⟩ := leads_cards C hs (n C) c (by
          rintro k rfl
          rw [h0]
          have := hn.slots k
          simpa using this)
        exact ⟨c', a, by rw [b, h0]; simp, d⟩
    obtain ⟨c2, h2, l2, o2, z2, s2⟩ := leads_all hn Cs c1 hd fun D hD => by
      rw [o1 D (by rintro rfl; contradiction)]
      exact he D (by simp [hD])
    refine ⟨c2, h1.trans h2, fun D hD => ?_, fun D hD => ?_, by rw [z2, z1], by rw [s2, s1]⟩
    · rcases List.mem_cons.mp hD with rfl | hD
      · rw [o2 _ hC, l1]
      · exact l2 D hD
    · simp only [List.mem_cons, not_or] at hD
      rw [o2 D hD.2, o1 D hD.1]

theorem Leads.reachable {c c' : BasicContext} (h : Leads c c') (hr : Reachable c.board.frame) : Reachable c'.board.frame := by
  obtain ⟨ms, hf, h⟩ := h
  clear hf
  induction ms generalizing c with
  | nil => simp only [trackAll, Except.ok.injEq] at h; exact h ▸ hr
  | cons m ms ih =>
    simp only [trackAll, bind_eq_ok] at h
    obtain ⟨d, hd, h⟩ := h
    exact ih (track_reachable hr hd) h

/-- Whatever the server tracked before, messages clear the table and set score and blocked zones. -/
theorem leads_bare (c : BasicContext) (hr : Reachable c.board.frame) (s : Score) (blocked : List Place)
    (hs : ScoreFits s) (hb : BlockedFits blocked) :
    ∃ c', Leads c c' ∧ (∀ C, Spec.boardOf c' C = []) ∧ scoreOf c' = s ∧ c'.board.blockedZones.val = blocked := by
  obtain ⟨p, hp⟩ := hs.player
  obtain ⟨ph, hph⟩ := hs.phase
  obtain ⟨ls, hls⟩ := hs.chain
  obtain ⟨mask, hmask⟩ := hb
  have u : ∀ x, x < 2 ^ 32 → (UInt32.ofNat x).toNat = x := fun x hx => by rw [UInt32.toNat_ofNat']; exact Nat.mod_eq_of_lt hx
  obtain ⟨c1, ⟨m1, f1, t1⟩, _, _, s1⟩ := leads_score c (.newTurn p) trivial trivial
  have hr1 : Reachable c1.board.frame := Leads.reachable ⟨m1, f1, t1⟩ hr
  obtain ⟨f, h2, _, _, v2⟩ := C64_start c1 hr1 0 (UInt32.ofNat (s.lp 0)) (UInt32.ofNat (s.lp 1)) 0 0 0 0 []
  rw [List.append_nil] at h2
  have e2 : ∀ C, view f.layout C = [] := by
    intro C
    have := congrFun v2 C
    refine List.length_eq_zero_iff.mp (this.trans ?_)
    rcases C with ⟨k⟩ | k | k
    · rcases k with ⟨q, l⟩
      cases l <;> simp [startSizes]
    · rfl
    · rfl
  generalize hc2 : ({ c1 with board := ⟨f, ⟨[]⟩, ⟨0⟩, c1.board.turnController,
    fun i => ⟨if i = 0 then (UInt32.ofNat (s.lp 0)).toNat else (UInt32.ofNat (s.lp 1)).toNat⟩, c1.board.phase, c1.board.blockedZones⟩ } : BasicContext) = c2 at h2
  have hs2 : (scoreOf c2).turn = 0 ∧ (scoreOf c2).player = p.toNat ∧ (scoreOf c2).lp = s.lp ∧ (scoreOf c2).chain = [] := by
    subst hc2
    refine ⟨rfl, ?_, ?_, rfl⟩
    · exact congrArg Score.player s1
    · funext i
      show (if i = 0 then _ else _) = _
      rw [u _ (hs.lp 0), u _ (hs.lp 1)]
      match i with
      | 0 => rfl
      | 1 => rfl
  have b2 : ∀ C, Spec.boardOf c2 C = [] := by subst hc2; exact e2
  obtain ⟨c3, h3, b3, _, s3⟩ := leads_turns p s.turn c2 (by rw [hs2.1]; simpa using hs.turn) hs2.2.1
  obtain ⟨c4, h4, b4, _, s4⟩ := leads_score c3 (.newPhase ph) trivial trivial
  have h5 := track_fieldDisabled c4 mask
  generalize hc5 : ({ c4 with board := { c4.board with blockedZones := ⟨clearBits mask 0⟩ } } : BasicContext) = c5 at h5
  have z5 : c5.board.blockedZones.val = clearBits mask 0 := by subst hc5; rfl
  have s5 : scoreOf c5 = scoreOf c4 := by subst hc5; rfl
  have b5 : Spec.boardOf c5 = Spec.boardOf c4 := by subst hc5; rfl
  obtain ⟨c6, h6, b6, z6, s6⟩ := leads_chain ls c5
  refine ⟨c6, (Leads.trans ⟨m1, f1, t1⟩ (.one (m := .start ..) trivial h2)).trans (h3.trans (h4.trans ((Leads.one (m := .fieldDisabled _) trivial h5).trans h6))), ?_, ?_, ?_⟩
  · intro C
    rw [b6, b5, b4, b3, b2]
  · rw [s6, s5, s4, s3]
    obtain ⟨a1, a2, a3, a4⟩ := hs2
    rcases s with ⟨turn, player, phase, lp, chain⟩
    simp only [Score.after, a1, a2, a3, a4, Nat.zero_add, List.nil_append] at *
    subst hp hph hls
    rfl
  · rw [z6, z5, hmask]

/-- The server is brought there by messages whatever it tracked before. -/
theorem leads_any (c : BasicContext) (hr : Reachable c.board.frame) (n : Container → Nat) (s : Score) (blocked : List Place) (hn : TableFits n)
    (hs : ScoreFits s) (hb : BlockedFits blocked) : ∃ c', Leads c c' ∧ Tracks c' n s blocked := by
  obtain ⟨c1, h1, b1, s1, z1⟩ := leads_bare c hr s blocked hs hb
  obtain ⟨c2, h2, l2, _, z2, s2⟩ := leads_all hn containers c1 nodup_containers fun C _ => b1 C
  exact ⟨c2, h1.trans h2, fun C => l2 C (mem_containers C), by rw [s2, s1], by rw [z2, z1]⟩

/-! ## The theorems -/

/-- **C117.** What a server can come to track: as many cards as one likes in each pile and below each zone, at most one card in each zone, but none
in the skill zones; and any score and any blocked zones that the core has words for. -/
theorem C117_tracked (n : Container → Nat) (s : Score) (blocked : List Place) :
    (∃ (ms : List CoreMsg) (c : BasicContext), (∀ m ∈ ms, m.Fits) ∧ trackAll BasicContext.init ms = .ok c ∧ Tracks c n s blocked) ↔
      TableFits n ∧ ScoreFits s ∧ BlockedFits blocked := by
  constructor
  · rintro ⟨ms, c, hf, h, ht⟩
    refine ⟨⟨fun k => ?_, fun C hC => ?_⟩, ?_, ?_⟩
    · rw [← ht.table]
      exact slot_length _ _
    · rw [← ht.table, show Spec.boardOf c C = [] from (near_trackAll ms _ _ near_init h).board C hC]
      rfl
    · rw [← ht.score]
      exact scoreFits_trackAll ms _ _ hf scoreFits_init h
    · rw [← ht.blocked]
      exact blockedFits_trackAll ms _ _ hf ⟨0xFFFFFFFF, by decide⟩ h
  · rintro ⟨hn, hs, hb⟩
    obtain ⟨c, ⟨ms, hf, h⟩, ht⟩ := leads_any BasicContext.init ⟨[], rfl⟩ n s blocked hn hs hb
    exact ⟨ms, c, hf, h, ht⟩

/-- **C117.** And all of this it can come to track whatever it was fed with before. -/
theorem C117_from_anywhere (ds : List (List UInt8)) (rs : List Encoded) (c : BasicContext) (h : feed BasicContext.init ds = .ok (rs, c))
    (n : Container → Nat) (s : Score) (blocked : List Place) (hn : TableFits n) (hs : ScoreFits s) (hb : BlockedFits blocked) :
    ∃ (ms : List CoreMsg) (c' : BasicContext), (∀ m ∈ ms, m.Fits) ∧ trackAll c ms = .ok c' ∧ Tracks c' n s blocked := by
  obtain ⟨c', ⟨ms, hf, h⟩, ht⟩ := leads_any c (feed_reachable ⟨[], rfl⟩ h) n s blocked hn hs hb
  exact ⟨ms, c', hf, h, ht⟩

/-- **C117.** Whatever bytes the server is fed with, there is never a card in the skill zones. -/
theorem C117_no_skill (ds : List (List UInt8)) (rs : List Encoded) (c : BasicContext) (h : feed BasicContext.init ds = .ok (rs, c)) (C : Container)
    (hC : InSkillZone C) : Spec.boardOf c C = [] := (near_feed ds _ _ rs near_init h).1.board C hC

/-- **C117.** Clients that follow only messages of servers, whichever and in whatever order, have no card there either. -/
theorem C117_no_skill_client (cache : Bool) (ms : List Msg)
    (hm : ∀ m ∈ ms, ∃ ds rs c, feed BasicContext.init ds = .ok (rs, c) ∧ m ∈ messages rs) (s : Client)
    (h : Client.follow cache Client.init ms = .ok s) (C : Container) (hC : InSkillZone C) : view s.board.frame.layout C = [] := by
  refine near_follow cache ms _ _ h (fun m h => ?_) Inv.init near_init.board C hC
  obtain ⟨ds, rs, c, hf, hm⟩ := hm m h
  exact (near_feed ds _ _ rs near_init hf).2 m hm

/-- **C117.** Though clients can show cards there. -/
theorem C117_clients_can (cache : Bool) : ∃ m s, Client.follow cache Client.init [m] = .ok s ∧
    view s.board.frame.layout (.slot ⟨0, .skill, 0, by decide⟩) ≠ [] := by
  have h : ∀ cache, ((Client.follow cache Client.init [⟨.event (.card 0 (.add [⟨0, Loc.skillZone, 0, -1⟩])), []⟩]).toOption.map fun s =>
      (view s.board.frame.layout (.slot ⟨0, .skill, 0, by decide⟩)).length) = some 1 := by decide +kernel
  have h := h cache
  cases hf : Client.follow cache Client.init [⟨.event (.card 0 (.add [⟨0, Loc.skillZone, 0, -1⟩])), []⟩] with
  | error e => rw [hf] at h; simp [Except.toOption] at h
  | ok s =>
    rw [hf] at h
    refine ⟨_, s, hf, fun e => ?_⟩
    simp only [Except.toOption, Option.map_some, Option.some.injEq] at h
    rw [e] at h
    simp at h

/-- Two cards in a hand, a monster with three materials, materials without a monster, a link, the third turn. -/
example : ∃ n s blocked, TableFits n ∧ ScoreFits s ∧ BlockedFits blocked ∧ n (.pile ⟨0, .hand⟩) = 2 ∧ n (.mats ⟨1, .monster, 0, by decide⟩) = 3 ∧
    n (.mats ⟨1, .pendulum, 1, by decide⟩) = 1 ∧ n (.slot ⟨1, .pendulum, 1, by decide⟩) = 0 ∧ s.turn = 3 ∧ s.chain.length = 1 ∧ blocked.length = 29 := by
  refine ⟨fun C => if C = .pile ⟨0, .hand⟩ then 2 else if C = .slot ⟨1, .monster, 0, by decide⟩ then 1 else
    if C = .mats ⟨1, .monster, 0, by decide⟩ then 3 else if C = .mats ⟨1, .pendulum, 1, by decide⟩ then 1 else 0,
    ⟨3, 1, 4, fun _ => 8000, [(⟨5, ⟨0, 4, 2, 0⟩, ⟨0, 4, 2⟩, 7⟩ : Link).chain]⟩, clearBits 1 0, ⟨fun k => ?_, fun C hC => ?_⟩,
    ⟨by decide, ⟨1, rfl⟩, ⟨4, rfl⟩, fun _ => show (8000 : Nat) < 2 ^ 32 by decide, [_], rfl⟩, ⟨1, rfl⟩, by decide, by decide, by decide, by decide, rfl, rfl, by decide⟩
  · simp only [reduceCtorEq, if_false]
    split <;> omega
  · rcases C with k | k | k
    · exact hC.elim
    · have hk : k.loc = .skill := hC
      have : k ≠ ⟨1, .monster, 0, by decide⟩ := by rintro rfl; simp at hk
      simp [this]
    · have hk : k.loc = .skill := hC
      have h1 : k ≠ ⟨1, .monster, 0, by decide⟩ := by rintro rfl; simp at hk
      have h2 : k ≠ ⟨1, .pendulum, 1, by decide⟩ := by rintro rfl; simp at hk
      simp [h1, h2]

/-- Not every table: two cards in one zone, a card in a skill zone. -/
example : ¬ TableFits (fun _ => 2) ∧ ¬ TableFits (fun _ => 1) :=
  ⟨fun h => by have := h.slots ⟨0, .monster, 0, by decide⟩; omega, fun h => by have := h.skill (.slot ⟨0, .skill, 0, by decide⟩) rfl; omega⟩

/-- Not every phase, nor every chain: the core numbers phases with two bytes and names locations with one. -/
example : ¬ ScoreFits ⟨0, 0, 65536, fun _ => 0, []⟩ ∧ ¬ ScoreFits ⟨0, 0, 0, fun _ => 0, [⟨⟨0, Loc.skillZone, 0, -1⟩, {}, ⟨0, 0⟩⟩]⟩ := by
  refine ⟨fun h => ?_, fun h => ?_⟩
  · obtain ⟨p, hp⟩ := h.phase
    have := p.toNat_lt
    simp only at hp
    omega
  · obtain ⟨ls, hl⟩ := h.chain
    match ls with
    | [] => simp at hl
    | [l] =>
      simp only [List.map_cons, List.map_nil, List.cons.injEq, and_true, Link.chain, Chain.mk.injEq] at hl
      have := congrArg Place.loc hl.1
      simp only [LocInfo.place, slot] at this
      have hb : l.card.base < 128 := Nat.mod_lt _ (by decide)
      split at this
      · split at this
        · simp at this; omega
        · split at this <;> simp at this
      · simp at this; omega
    | _ :: _ :: _ => simp at hl

end Ygo.Props
