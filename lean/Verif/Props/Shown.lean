import Verif.Lemmas.Shown
import Verif.Props.Trackable
import Verif.Props.Telling
import Verif.Props.Handover
import Verif.Props.Update
import Verif.Props.Duel
import Verif.Spec.CatchUp

/-!
# What a server or client can come to show (C120)
-/

set_option linter.unusedSimpArgs false

namespace Ygo.Props
open Ygo Spec P

/-! ## Only what the core has words for -/

theorem fits_told {c : Card Plain} {d : QueryData} (hc : CardFits c) (hd : DataFits d) : CardFits (c.told d) where
  single f := by
    simp only [Card.told]
    cases h : d.single f with
    | none => exact hc.single f
    | some v => exact hd.single f v h
  targets := by
    simp only [Card.told]
    cases h : d.targets with
    | none => exact hc.targets
    | some v => exact hd.targets v h
  counters := by
    simp only [Card.told]
    cases h : d.counters with
    | none => exact hc.counters
    | some v => exact hd.counters v h

theorem fits_tell {l : Layout} : ∀ (qs : List Query) (st : CardId → Card Plain), (∀ q ∈ qs, DataFits q.data) → (∀ x, CardFits (st x)) →
    ∀ x, CardFits (qs.foldl (tell l) st x)
  | [], _, _, h => h
  | q :: qs, st, hq, h => by
    refine fits_tell qs _ (fun x hx => hq x (by simp [hx])) fun x => ?_
    rw [tell]
    cases hl : l.card q.place with
    | ok y =>
      simp only
      split
      · exact fits_told (h _) (hq q (by simp))
      · exact h x
    | error e => exact h x

structure ClientFits (s : Client) : Prop where
  board : BoardFits s.board
  store : ∀ x, CardFits (s.store x)

theorem fits_follow (cache : Bool) : ∀ (ms : List Msg) (s s' : Client), Client.follow cache s ms = .ok s' → (∀ m ∈ ms, MsgFits m) → ClientFits s → ClientFits s'
  | [], s, s', h, _, hs => by simp only [Client.follow, Except.ok.injEq] at h; exact h ▸ hs
  | m :: ms, s, s', h, hm, hs => by
    have hms : ∀ x ∈ ms, MsgFits x := fun x hx => hm x (by simp [hx])
    unfold Client.follow at h
    cases he : m.body with
    | event e =>
      simp only [Msg.event?, he, bind_eq_ok] at h
      obtain ⟨b, h1, st, h2, h3⟩ := h
      refine fits_follow cache ms _ _ h3 hms ⟨fits_event h1 hs.board ((hm m (by simp)).event e he), ?_⟩
      rw [(answer_iff.mp h2).2]
      exact fits_tell _ _ (hm m (by simp)).queries hs.store
    | _ =>
      simp only [Msg.event?, he, bind_eq_ok, pure_eq_ok, Except.ok.injEq] at h
      obtain ⟨b, rfl, st, h2, h3⟩ := h
      refine fits_follow cache ms _ _ h3 hms ⟨hs.board, ?_⟩
      rw [(answer_iff.mp h2).2]
      exact fits_tell _ _ (hm m (by simp)).queries hs.store

theorem cardFits_new : CardFits BasicContext.newCard := by
  refine ⟨fun f => ?_, fun p hp => by simp [BasicContext.newCard] at hp, fun c hc => by simp [BasicContext.newCard] at hc⟩
  cases f
  case equippedTo => exact ⟨⟨0, 0x80, 0, 0⟩, by decide⟩
  all_goals simp [BasicContext.newCard, FieldFits, QField.zero]

theorem clientFits_init : ClientFits Client.init := ⟨boardFits_init, fun _ => cardFits_new⟩

/-- A client shows nothing but what the core has words for. -/
theorem follow_fits (cache : Bool) (ms : List Msg) (hm : ∀ m ∈ ms, OfServer m) (s : Client) (h : Client.follow cache Client.init ms = .ok s) :
    PictureFits (picture s) := by
  have k := fits_follow cache ms _ _ h (fun m h => (hm m h).fits) clientFits_init
  have b := near_follow cache ms _ _ h (fun m h => (hm m h).near) Inv.init near_init.board
  refine ⟨⟨fun z => ?_, fun C hC => ?_⟩, fun C d hd => ?_, k.board.score, k.board.blocked⟩
  · simp only [picture, List.length_map]
    exact slot_length _ _
  · simp only [picture, List.length_map, b C hC, List.length_nil]
  · simp only [picture, List.mem_map] at hd
    obtain ⟨x, _, rfl⟩ := hd
    exact k.store x

/-! ## All that the core has words for -/

/-- Items that say all there is to say of a card. -/
def itemsOf (d : Card Plain) (e : LocInfo) (ts : List LocInfo) (cs : List (UInt16 × UInt16)) : List QueryItem :=
  [.code (.ofNat (d.single .code).val), .position (.ofNat (d.single .position).val), .alias_ (.ofNat (d.single .alias).val),
   .type (.ofNat (d.single .type).val), .level (.ofNat ((d.single .level).val % 4294967296).toNat), .rank (.ofNat (d.single .xyzRank).val),
   .attribute_ (.ofNat (d.single .attribute).val), .race (.ofNat (d.single .race).val), .attack (.ofNat ((d.single .atk).val % 4294967296).toNat),
   .defense (.ofNat ((d.single .def_).val % 4294967296).toNat), .baseAttack (.ofNat ((d.single .baseAtk).val % 4294967296).toNat), .baseDefense (.ofNat ((d.single .baseDef).val % 4294967296).toNat),
   .equipCard e, .owner (.ofNat ((d.single .owner).val % 4294967296).toNat), .status (.ofNat (d.single .status).val),
   .isPublic (if (d.single .isPublic).val then 1 else 0), .lscale (.ofNat (d.single .pendLScale).val),
   .rscale (.ofNat (d.single .pendRScale).val), .link (.ofNat (d.single .linkRate).val) (.ofNat (d.single .linkArrow).val),
   .isHidden (if (d.single .isHidden).val then 1 else 0), .cover (.ofNat (d.single .cover).val), .targetCard [], .counters []] ++
  ts.map (fun l => .targetCard [l]) ++ cs.map (fun c => .counters [c])

theorem signed32_mod {v : Int} (h0 : -2147483648 ≤ v) (h1 : v < 2147483648) : signed32 (UInt32.ofNat (v % 4294967296).toNat) = v := by
  have e : ((v % 4294967296).toNat % 4294967296 : Nat) = (v % 4294967296).toNat := by omega
  have e' : (((v % 4294967296).toNat : Nat) : Int) = v % 4294967296 := by omega
  show ((UInt32.ofNat (v % 4294967296).toNat).toNat : Int).bmod 4294967296 = v
  rw [UInt32.toNat_ofNat', show (2 ^ 32 : Nat) = 4294967296 from rfl, e, e', Int.bmod_def]
  split <;> omega

theorem owner_mod {v : Int} (h0 : 0 ≤ v) (h1 : v < 256) : (((UInt8.ofNat (v % 4294967296).toNat).toNat : Nat) : Int) = v := by
  rw [UInt8.toNat_ofNat']
  omega

theorem no_values {α β : Type} (xs : List α) : xs.filterMap (fun _ => (none : Option β)) = [] := by induction xs <;> simp_all

theorem one_by_one {α β : Type} (f : α → β) (xs : List α) : (xs.map fun x => [f x]).flatten = xs.map f := by induction xs <;> simp_all

theorem last_append_none {α β : Type} {f : α → Option β} {xs ys : List α} (h : ∀ y ∈ ys, f y = none) : QueryItem.last f (xs ++ ys) = QueryItem.last f xs := by
  have : ys.reverse.findSome? f = none := by simpa using h
  simp only [QueryItem.last, List.reverse_append, List.findSome?_append, this, Option.none_or]

theorem itemsOf_says {d : Card Plain} (h : CardFits d) : ∃ is : List QueryItem,
    (∀ i ∈ is, i.Fits) ∧ QueryItem.materials is = [] ∧ QueryItem.data is = everything d := by
  obtain ⟨e, he⟩ := h.single .equippedTo
  obtain ⟨ts, hts⟩ : ∃ ts : List LocInfo, d.targets.val = ts.map (·.place) := by
    have := h.targets
    generalize d.targets.val = l at this
    induction l with
    | nil => exact ⟨[], rfl⟩
    | cons p ps ih =>
      obtain ⟨l, hl⟩ := this p (by simp)
      obtain ⟨ls, hls⟩ := ih fun x hx => this x (by simp [hx])
      exact ⟨l :: ls, by rw [hl, hls]; rfl⟩
  obtain ⟨cs, hcs⟩ : ∃ cs : List (UInt16 × UInt16), d.counters.val = cs.map fun c => ⟨c.1.toNat, c.2.toNat⟩ := by
    have := h.counters
    generalize d.counters.val = l at this
    induction l with
    | nil => exact ⟨[], rfl⟩
    | cons p ps ih =>
      obtain ⟨h1, h2⟩ := this p (by simp)
      obtain ⟨ls, hls⟩ := ih fun x hx => this x (by simp [hx])
      refine ⟨(.ofNat p.type, .ofNat p.count) :: ls, ?_⟩
      rw [hls]
      simp only [List.map_cons, UInt16.toNat_ofNat', Nat.mod_eq_of_lt h1, Nat.mod_eq_of_lt h2]
  refine ⟨itemsOf d e ts cs, ?_, ?_, ?_⟩
  · intro i hi
    simp only [itemsOf, List.mem_append, List.mem_cons, List.mem_map, List.not_mem_nil, or_false] at hi
    rcases hi with (hi | ⟨l, _, rfl⟩) | ⟨l, _, rfl⟩
    · rcases hi with rfl | rfl | rfl | rfl | rfl | rfl | rfl | rfl | rfl | rfl | rfl | rfl | rfl | rfl | rfl | rfl | rfl | rfl | rfl | rfl | rfl | rfl | rfl
      all_goals exact ⟨by simp [QueryItem.payload, b8, b16, b32, b64, list32, LocInfo.bytes, length_le], trivial⟩
    · exact ⟨by simp [QueryItem.payload, b8, b16, b32, b64, list32, LocInfo.bytes, length_le], trivial⟩
    · exact ⟨by simp [QueryItem.payload, b8, b16, b32, b64, list32, LocInfo.bytes, length_le], trivial⟩
  · simp only [QueryItem.materials, itemsOf]
    rw [last_append_none (by intro y hy; simp only [List.mem_map] at hy; obtain ⟨c, _, rfl⟩ := hy; rfl),
      last_append_none (by intro y hy; simp only [List.mem_map] at hy; obtain ⟨c, _, rfl⟩ := hy; rfl)]
    rfl
  · simp only [QueryItem.data, everything, QueryData.mk.injEq]
    refine ⟨funext fun f => ?_, ?_, ?_⟩
    · have hf := h.single f
      simp only [itemsOf]
      rw [last_append_none (by intro y hy; simp only [List.mem_map] at hy; obtain ⟨c, _, rfl⟩ := hy; cases f <;> rfl),
        last_append_none (by intro y hy; simp only [List.mem_map] at hy; obtain ⟨c, _, rfl⟩ := hy; cases f <;> rfl)]
      cases f
      case code | position | «alias» | type | xyzRank | «attribute» | status | pendLScale | pendRScale | cover | linkRate | linkArrow =>
        show some (UInt32.ofNat _).toNat = _
        rw [UInt32.toNat_ofNat', Nat.mod_eq_of_lt hf]
      case race =>
        show some (UInt64.ofNat _).toNat = _
        rw [UInt64.toNat_ofNat', Nat.mod_eq_of_lt hf]
      case level | atk | def_ | baseAtk | baseDef =>
        exact congrArg some (signed32_mod hf.1 hf.2)
      case owner =>
        exact congrArg some (owner_mod hf.1 hf.2)
      case equippedTo => exact congrArg some he.symm
      case isPublic | isHidden =>
        show some (decide ((if _ then (1 : UInt8) else 0) ≠ 0)) = _
        split <;> rename_i h <;> simp_all
    · have e0 : (itemsOf d e [] []).filterMap QueryItem.targets = [[]] := rfl
      have e1 : (itemsOf d e ts cs).filterMap QueryItem.targets = [[]] ++ ts.filterMap (fun l => QueryItem.targets (.targetCard [l])) ++
          cs.filterMap (fun c => QueryItem.targets (.counters [c])) := by
        rw [← e0]
        simp only [itemsOf, List.filterMap_append, List.filterMap_map, List.map_nil, List.append_nil, Function.comp_def]
      have e2 : (itemsOf d e ts cs).any (fun x => (QueryItem.targets x).isSome) = true := by simp [itemsOf, QueryItem.targets]
      rw [QueryItem.allOf, if_pos e2, e1, hts]
      simp [QueryItem.targets, no_values, one_by_one]
    · have e0 : (itemsOf d e [] []).filterMap QueryItem.counterList = [[]] := rfl
      have e1 : (itemsOf d e ts cs).filterMap QueryItem.counterList = [[]] ++ ts.filterMap (fun l => QueryItem.counterList (.targetCard [l])) ++
          cs.filterMap (fun c => QueryItem.counterList (.counters [c])) := by
        rw [← e0]
        simp only [itemsOf, List.filterMap_append, List.filterMap_map, List.map_nil, List.append_nil, Function.comp_def]
      have e2 : (itemsOf d e ts cs).any (fun x => (QueryItem.counterList x).isSome) = true := by simp [itemsOf, QueryItem.counterList]
      rw [QueryItem.allOf, if_pos e2, e1, hcs]
      simp [QueryItem.counterList, no_values, one_by_one]

/-- The row and number of a pile's front or of a zone. -/
def rowOf : Container → Row × UInt8
  | .pile k => (.pile k, 0)
  | .slot k | .mats k =>
    match k.loc with
    | .monster => (.monsters k.con, UInt8.ofNat k.seq)
    | .spell => (.spells k.con, UInt8.ofNat k.seq)
    | .field => (.spells k.con, 5)
    | _ => (.spells k.con, UInt8.ofNat (k.seq + 6))

theorem rowOf_card : ∀ C, ¬ InSkillZone C → (∀ k, C ≠ .mats k) → (rowOf C).1.card (rowOf C).2.toNat = some (C, 0) := by
  have slots : ∀ k ∈ allZones, k.loc ≠ .skill → (rowOf (.slot k)).1.card (rowOf (.slot k)).2.toNat = some (.slot k, 0) := by decide
  intro C hs hm
  have hC := mem_containers C
  simp only [containers, List.mem_append, List.mem_map] at hC
  rcases hC with (⟨k, hk, rfl⟩ | ⟨k, hk, rfl⟩) | ⟨k, hk, rfl⟩
  · rfl
  · exact slots k hk hs
  · exact absurd rfl (hm k)

/-- A card of which all is known is put at the front of a pile, into an empty zone or below a zone; nothing else changes. -/
structure Adds (c c' : BasicContext) (C : Container) (d : Card Plain) (x : CardId) : Prop where
  leads : Leads c c'
  board : Spec.boardOf c' = (Spec.boardOf c).put C 0 x
  new : ∀ D, x ∉ Spec.boardOf c D
  told : c'.store x = d
  others : ∀ y, y ≠ x → c'.store y = c.store y
  blocked : c'.board.blockedZones = c.board.blockedZones
  score : scoreOf c' = scoreOf c

theorem adds_here (c : BasicContext) (hr : Reachable c.board.frame) (C : Container) (d : Card Plain) (hd : CardFits d) (hs : ¬ InSkillZone C)
    (hm : ∀ k, C ≠ .mats k) (he : ∀ k, C = .slot k → Spec.boardOf c C = []) : ∃ c' x, Adds c c' C d x := by
  obtain ⟨l, h, hv⟩ := C71_appears c ⟨0, ⟨0, 0, 0, 0⟩, frontOf C, 0⟩ C 0 (show (⟨0, 0, 0, 0⟩ : LocInfo).place.loc = 0 by decide) (frontOf_at C (mem_containers C) hs) ⟨Nat.zero_le _, he⟩
  generalize hc1 : ({ c with board := { c.board with frame := ⟨l, c.board.frame.next :: c.board.frame.owned, c.board.frame.next + 1⟩ } } : BasicContext) = c1 at h
  have b1 : Spec.boardOf c1 = (Spec.boardOf c).put C 0 c.board.frame.next := by subst hc1; exact hv
  have st1 : c1.store = c.store := by subst hc1; rfl
  have front : Spec.boardOf c1 C = c.board.frame.next :: Spec.boardOf c C := by rw [b1]; simp [Board.put, upd_apply]
  have l1 : Leads c c1 := .one (m := .move ..) trivial h
  obtain ⟨is, hf, hmat, hdata⟩ := itemsOf_says hd
  have hrow := rowOf_card C hs hm
  obtain ⟨st, h2, h3, h4⟩ := C67_update_card c1 (l1.reachable hr) (rowOf C).1 (rowOf C).2 is hf
    ⟨⟨C, 0, hrow, by rw [front]; simp⟩, .inl hmat⟩ []
  rw [List.append_nil] at h2
  have only : ∀ x q, Told (Spec.boardOf c1) (rowOf C).1 (rowOf C).2.toNat is x q → x = c.board.frame.next := by
    intro x q h
    cases h with
    | card C' j _ hc hx =>
      rw [hrow] at hc
      simp only [Option.some.injEq, Prod.mk.injEq] at hc
      obtain ⟨rfl, rfl⟩ := hc
      rw [front] at hx
      simpa using hx.symm
    | material z n code _ hz hc hx => rw [hmat] at hc; simp at hc
  have ans := h3 c.board.frame.next _ (.card C 0 _ hrow (by rw [front]; rfl))
  rw [hdata] at ans
  refine ⟨{ c1 with store := st }, c.board.frame.next, l1.trans (.one (m := .updateCard ..) hf h2), b1, fun D => hr.inv.next_fresh D, ?_, fun y hy => ?_, ?_, ?_⟩
  · have e1 : (st c.board.frame.next).single = d.single := funext fun f => by
      have := ans.given f _ rfl
      simp only [Cell.get, Except.ok.injEq] at this
      exact congrArg Plain.mk this
    have e2 : (st c.board.frame.next).targets = d.targets := by
      have := ans.targetsGiven _ rfl
      simp only [Cell.get, Except.ok.injEq] at this
      exact congrArg Plain.mk this
    have e3 : (st c.board.frame.next).counters = d.counters := by
      have := ans.countersGiven _ rfl
      simp only [Cell.get, Except.ok.injEq] at this
      exact congrArg Plain.mk this
    show st c.board.frame.next = d
    rw [show st c.board.frame.next = ⟨_, _, _⟩ from rfl, e1, e2, e3]
  · show st y = _
    rw [h4 y fun q hq => hy (only y q hq), st1]
  · subst hc1; rfl
  · subst hc1; rfl

theorem adds (c : BasicContext) (hr : Reachable c.board.frame) (C : Container) (d : Card Plain) (hd : CardFits d) (hs : ¬ InSkillZone C)
    (he : ∀ k, C = .slot k → Spec.boardOf c C = []) : ∃ c' x, Adds c c' C d x := by
  by_cases hm : ∃ k, C = .mats k
  · obtain ⟨k, rfl⟩ := hm
    obtain ⟨c1, x, a⟩ := adds_here c hr (.pile ⟨0, .hand⟩) d hd (fun h => h) (by simp) (by simp)
    have front : Spec.boardOf c1 (.pile ⟨0, .hand⟩) = x :: Spec.boardOf c (.pile ⟨0, .hand⟩) := by rw [a.board]; simp [Board.put, upd_apply]
    obtain ⟨l, lf, h, hv, -, -⟩ := C71_moves c1 ⟨0, frontOf (.pile ⟨0, .hand⟩), frontOf (.mats k), 0⟩ (.pile ⟨0, .hand⟩) (.mats k) 0 0 x (by simp)
      (frontOf_at _ (mem_containers _) (fun h => h)) (frontOf_at _ (mem_containers _) hs) (fun _ _ => show (frontOf (.pile ⟨0, .hand⟩)).place.oseq < 0 by decide) (by simp [PlainPile])
      ⟨by rw [front]; rfl, by simp, Nat.zero_le _, trivial⟩
    refine ⟨_, x, a.leads.trans (.one (m := .move ..) trivial h), ?_, a.new, a.told, a.others, a.blocked, a.score⟩
    show view l = _
    rw [hv, a.board]
    funext D
    simp only [gone, Board.carry, Board.put, Board.take, upd_apply]
    split
    · simp
    · split
      · rename_i h
        subst h
        simp
      · rfl
  · exact adds_here c hr C d hd hs (fun k h => hm ⟨k, h⟩) he

/-- What a server shows at a place. -/
def shownAt (c : BasicContext) (C : Container) : List (Card Plain) := (Spec.boardOf c C).map c.store

theorem Adds.shown {c c' : BasicContext} {C : Container} {d : Card Plain} {x : CardId} (h : Adds c c' C d x) :
    shownAt c' C = d :: shownAt c C ∧ ∀ D, D ≠ C → shownAt c' D = shownAt c D := by
  have old : ∀ D, (Spec.boardOf c D).map c'.store = shownAt c D := fun D => List.map_congr_left fun y hy => h.others y fun e => h.new D (e ▸ hy)
  constructor
  · simp only [shownAt, h.board, Board.put, upd_apply, if_true, List.insertIdx_zero, List.map_cons, h.told, old]
  · intro D hD
    simp only [shownAt, h.board, Board.put, upd_apply, hD, if_false, old]

theorem adds_cards (C : Container) (hs : ¬ InSkillZone C) : ∀ (ds : List (Card Plain)) (c : BasicContext), Reachable c.board.frame → (∀ d ∈ ds, CardFits d) →
    Spec.boardOf c C = [] → (∀ k, C = .slot k → ds.length ≤ 1) →
    ∃ c', Leads c c' ∧ shownAt c' C = ds ∧ (∀ D, D ≠ C → shownAt c' D = shownAt c D) ∧
      c'.board.blockedZones = c.board.blockedZones ∧ scoreOf c' = scoreOf c
  | [], c, _, _, he, _ => ⟨c, .refl c, by simp [shownAt, he], fun _ _ => rfl, rfl, rfl⟩
  | d :: ds, c, hr, hd, he, hn => by
    obtain ⟨c1, h1, l1, o1, z1, s1⟩ := adds_cards C hs ds c hr (fun x hx => hd x (by simp [hx])) he fun k hk => by
      have := hn k hk; simp only [List.length_cons] at this; omega
    obtain ⟨c2, x, a⟩ := adds c1 (h1.reachable hr) C d (hd d (by simp)) hs fun k hk => by
      have := hn k hk
      have h0 : ds = [] := List.length_eq_zero_iff.mp (by simp only [List.length_cons] at this; omega)
      rw [h0] at l1
      exact List.map_eq_nil_iff.mp l1
    refine ⟨c2, h1.trans a.leads, by rw [a.shown.1, l1], fun D hD => by rw [a.shown.2 D hD, o1 D hD], by rw [a.blocked, z1], by rw [a.score, s1]⟩

theorem adds_all {P : Container → List (Card Plain)} (hn : TableFits fun C => (P C).length) (hP : ∀ C, ∀ d ∈ P C, CardFits d) :
    ∀ (Cs : List Container) (c : BasicContext), Reachable c.board.frame → Cs.Nodup → (∀ C ∈ Cs, Spec.boardOf c C = []) →
    ∃ c', Leads c c' ∧ (∀ C ∈ Cs, shownAt c' C = P C) ∧ (∀ D, D ∉ Cs → shownAt c' D = shownAt c D) ∧
      c'.board.blockedZones = c.board.blockedZones ∧ scoreOf c' = scoreOf c
  | [], c, _, _, _ => ⟨c, .refl c, by simp, fun _ _ => rfl, rfl, rfl⟩
  | C :: Cs, c, hr, hd, he => by
    obtain ⟨hC, hd⟩ := List.nodup_cons.mp hd
    have h0 : Spec.boardOf c C = [] := he C (by simp)
    obtain ⟨c1, h1, l1, o1, z1, s1⟩ : ∃ c', Leads c c' ∧ shownAt c' C = P C ∧ (∀ D, D ≠ C → shownAt c' D = shownAt c D) ∧
        c'.board.blockedZones = c.board.blockedZones ∧ scoreOf c' = scoreOf c := by
      by_cases hs : InSkillZone C
      · refine ⟨c, .refl c, ?_, fun _ _ => rfl, rfl, rfl⟩
        rw [List.length_eq_zero_iff.mp (hn.skill C hs), shownAt, h0]; rfl
      · exact adds_cards C hs (P C) c hr (hP C) h0 (by rintro k rfl; exact hn.slots k)
    obtain ⟨c2, h2, l2, o2, z2, s2⟩ := adds_all hn hP Cs c1 (h1.reachable hr) hd fun D hD => by
      have := o1 D (by rintro rfl; contradiction)
      rw [shownAt, shownAt, he D (by simp [hD])] at this
      exact List.map_eq_nil_iff.mp this
    refine ⟨c2, h1.trans h2, fun D hD => ?_, fun D hD => ?_, by rw [z2, z1], by rw [s2, s1]⟩
    · rcases List.mem_cons.mp hD with rfl | hD
      · rw [o2 _ hC, l1]
      · exact l2 D hD
    · simp only [List.mem_cons, not_or] at hD
      rw [o2 D hD.2, o1 D hD.1]

theorem leads_picture (c : BasicContext) (hr : Reachable c.board.frame) (P : Picture) (h : PictureFits P) : ∃ c', Leads c c' ∧ picture (clientOf c') = P := by
  obtain ⟨c1, h1, b1, s1, z1⟩ := leads_bare c hr P.score P.blocked h.score h.blocked
  obtain ⟨c2, h2, l2, _, z2, s2⟩ := adds_all h.table h.cards containers c1 (h1.reachable hr) nodup_containers fun C _ => b1 C
  refine ⟨c2, h1.trans h2, ?_⟩
  rcases P with ⟨cards, score, blocked⟩
  simp only [picture, Picture.mk.injEq]
  exact ⟨funext fun C => l2 C (mem_containers C), s2.trans s1, by show c2.board.blockedZones.val = _; rw [z2, z1]⟩

/-! ## The theorems -/

/-- **C120.** What a server can come to show, given any bytes: cards of which anything may be known that the core has words for, as many as one likes
in each pile and below each zone, at most one in each zone but none in the skill zones; and any score and any blocked zones that the core has words
for. -/
theorem C120_server (P : Picture) :
    (∃ ds rs c, feed BasicContext.init ds = .ok (rs, c) ∧ picture (clientOf c) = P) ↔ PictureFits P := by
  constructor
  · rintro ⟨ds, rs, c, h, rfl⟩
    exact follow_fits false (messages rs) (fun m hm => ⟨ds, rs, c, h, hm⟩) _ (follow_feed false h)
  · intro h
    obtain ⟨c, ⟨ms, _, hm⟩, hp⟩ := leads_picture BasicContext.init ⟨[], rfl⟩ P h
    obtain ⟨rs, hf⟩ := trackAll_feed hm
    exact ⟨_, rs, c, hf, hp⟩

/-- **C120.** Clients that follow messages of servers, whichever and in whatever order, can come to show just the same. -/
theorem C120_client (cache : Bool) (P : Picture) :
    (∃ ms s, (∀ m ∈ ms, OfServer m) ∧ Client.follow cache Client.init ms = .ok s ∧ picture s = P) ↔ PictureFits P := by
  constructor
  · rintro ⟨ms, s, hm, h, rfl⟩
    exact follow_fits cache ms hm s h
  · intro h
    obtain ⟨ds, rs, c, hf, hp⟩ := (C120_server P).mpr h
    exact ⟨messages rs, clientOf c, fun m hm => ⟨ds, rs, c, hf, hm⟩, follow_feed cache hf, hp⟩

/-- **C120.** A server can come to show it whatever it was fed with before, by messages as the core writes them. -/
theorem C120_from_anywhere (ds : List (List UInt8)) (rs : List Encoded) (c : BasicContext) (h : feed BasicContext.init ds = .ok (rs, c))
    (P : Picture) (hP : PictureFits P) :
    ∃ (ms : List CoreMsg) (c' : BasicContext), (∀ m ∈ ms, m.Fits) ∧ trackAll c ms = .ok c' ∧ picture (clientOf c') = P := by
  obtain ⟨c', ⟨ms, hf, hm⟩, hp⟩ := leads_picture c (feed_reachable ⟨[], rfl⟩ h) P hP
  exact ⟨ms, c', hf, hm, hp⟩

/-! ### Examples -/

/-- A card of which much is known. -/
def knownCard : Card Plain :=
  ⟨fun f => ⟨match f with
    | .code => 89631139
    | .atk => -2
    | .equippedTo => (⟨1, 4, 3, 0⟩ : LocInfo).place
    | .isPublic => true
    | .owner => 1
    | .race => 2 ^ 40
    | .level => 8
    | f => f.zero⟩, ⟨[(⟨0, 0x84, 2, 1⟩ : LocInfo).place, (⟨1, 2, 7, 0⟩ : LocInfo).place]⟩, ⟨[⟨3, 65535⟩]⟩⟩

theorem knownCard_fits : CardFits knownCard := by
  refine ⟨fun f => ?_, ?_, ?_⟩
  · cases f
    case equippedTo => exact ⟨_, rfl⟩
    all_goals simp [knownCard, FieldFits, QField.zero]
  · intro p hp
    simp only [knownCard, List.mem_cons, List.not_mem_nil, or_false] at hp
    rcases hp with rfl | rfl <;> exact ⟨_, rfl⟩
  · intro c hc
    simp only [knownCard, List.mem_cons, List.not_mem_nil, or_false] at hc
    subst hc
    decide

/-- Three such cards, one of them alone below a zone, in the third turn with a blocked zone. -/
def knownPicture : Picture :=
  ⟨fun C => if C = .pile ⟨0, .hand⟩ then [knownCard, BasicContext.newCard] else if C = .mats ⟨1, .pendulum, 1, by decide⟩ then [knownCard] else [],
    ⟨3, 1, 4, fun _ => 8000, [(⟨5, ⟨0, 4, 2, 0⟩, ⟨0, 4, 2⟩, 7⟩ : Link).chain]⟩, clearBits 0xFFFFFFFE 0⟩

example : PictureFits knownPicture := by
  refine ⟨⟨fun k => ?_, fun C hC => ?_⟩, fun C d hd => ?_,
    ⟨by decide, ⟨1, rfl⟩, ⟨4, rfl⟩, fun _ => show (8000 : Nat) < 2 ^ 32 by decide, [_], rfl⟩, ⟨0xFFFFFFFE, rfl⟩⟩
  · simp [knownPicture]
  · rcases C with k | k | k
    · exact hC.elim
    · simp [knownPicture]
    · have hk : k.loc = .skill := hC
      have : k ≠ ⟨1, .pendulum, 1, by decide⟩ := by rintro rfl; simp at hk
      simp [knownPicture, this]
  · simp only [knownPicture] at hd
    split at hd
    · simp only [List.mem_cons, List.not_mem_nil, or_false] at hd
      rcases hd with rfl | rfl
      · exact knownCard_fits
      · exact cardFits_new
    · split at hd
      · simp only [List.mem_cons, List.not_mem_nil, or_false] at hd
        exact hd ▸ knownCard_fits
      · simp at hd

/-- No card is owned by player -1 or has an attack of 2³¹; none is equipped to one in a skill zone. -/
example (d : Card Plain) (h : CardFits d) : (d.single .owner).val ≠ (-1 : Int) ∧ (d.single .atk).val ≠ (2 ^ 31 : Int) ∧
    ∀ p : Place, p.loc = Loc.skillZone → (d.single .equippedTo).val ≠ p := by
  refine ⟨fun e => ?_, fun e => ?_, fun p hp e => ?_⟩
  · have h1 : (0 : Int) ≤ (d.single .owner).val := (h.single .owner).1
    rw [e] at h1
    exact absurd h1 (by decide)
  · have h1 : (d.single .atk).val < (2 ^ 31 : Int) := (h.single .atk).2
    rw [e] at h1
    exact absurd h1 (by decide)
  · obtain ⟨l, hl⟩ := h.single .equippedTo
    have h1 : l.place = p := hl.symm.trans e
    have := congrArg Place.loc h1
    rw [hp] at this
    simp only [LocInfo.place, slot] at this
    have hb : l.base < 128 := Nat.mod_lt _ (by decide)
    split at this
    · split at this
      · simp at this; omega
      · split at this <;> simp at this
    · simp at this; omega

end Ygo.Props
