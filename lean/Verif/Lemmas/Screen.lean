import Verif.Spec.Screen
import Verif.Lemmas.CountsServer
import Verif.Props.Mirror

/-!
# What a client shows
-/

set_option linter.unusedSimpArgs false

namespace Ygo
open Ygo.Spec Ygo.Props

/-- The frame is in order and nothing is known about cards to come. -/
structure Sound (s : Client) : Prop where
  inv : Inv s.board.frame
  blank : ∀ x, s.board.frame.next ≤ x → s.store x = BasicContext.newCard

/-! ## Labels -/

theorem map_idxOf {xs : List CardId} (h : xs.Nodup) : xs.map (fun x => xs.idxOf x + 1) = (List.range xs.length).map (· + 1) := by
  refine List.ext_getElem (by simp) fun i h1 h2 => ?_
  simp only [List.getElem_map, List.getElem_range]
  rw [h.idxOf_getElem]

theorem flatMap_split {α β : Type} {cs : List α} {f g : α → List β} (hl : ∀ c ∈ cs, (f c).length = (g c).length) (h : cs.flatMap f = cs.flatMap g) :
    ∀ c ∈ cs, f c = g c := by
  induction cs with
  | nil => intro c hc; cases hc
  | cons c cs ih =>
    simp only [List.flatMap_cons] at h
    obtain ⟨h1, h2⟩ := List.append_inj h (hl c (List.mem_cons_self ..))
    intro d hd
    rcases List.mem_cons.mp hd with rfl | hd
    · exact h1
    · exact ih (fun e he => hl e (List.mem_cons_of_mem _ he)) h2 d hd

/-- The place of a card on the table; 0 if it is not there. -/
def Frame.labels (f : Frame) (x : CardId) : CardId := if x ∈ placed (view f.layout) then (placed (view f.layout)).idxOf x + 1 else 0

theorem placed_nodup {f : Frame} (h : Inv f) : (placed (view f.layout)).Nodup := h.owns.perm.nodup_iff.mpr h.nodup

theorem labels_fresh {f : Frame} (h : Inv f) (x : CardId) (hx : f.next ≤ x) : f.labels x = 0 := by
  refine if_neg fun hm => ?_
  obtain ⟨C, hC⟩ := mem_placed.mp hm
  have := h.fresh x (h.mem_owned hC)
  omega

theorem labels_placed {f : Frame} (h : Inv f) : (placed (view f.layout)).map f.labels = (List.range (placed (view f.layout)).length).map (· + 1) := by
  rw [← map_idxOf (placed_nodup h)]
  refine List.map_congr_left fun x hx => ?_
  simp only [Frame.labels, hx, if_true]

theorem labels_inj {f : Frame} {x y : CardId} (hx : x ∈ placed (view f.layout)) (hy : y ∈ placed (view f.layout)) (e : f.labels x = f.labels y) : x = y := by
  simp only [Frame.labels, hx, hy, if_true, Nat.add_right_cancel_iff] at e
  have h1 := List.getElem_idxOf (List.idxOf_lt_length_of_mem hx)
  have h2 := List.getElem_idxOf (List.idxOf_lt_length_of_mem hy)
  rw [← h1, ← h2]
  congr 1

theorem placed_length {l l' : Layout} (h : SameCounts l l') : (placed (view l)).length = (placed (view l')).length := by
  simp only [placed, List.length_flatMap]
  congr 1
  exact List.map_congr_left fun C _ => h C

theorem labels_same {f f' : Frame} (h : Inv f) (h' : Inv f') (hc : SameCounts f.layout f'.layout) : f.layout.map f.labels = f'.layout.map f'.labels := by
  refine view_inj (funext fun C => ?_)
  rw [Layout.map_view, Layout.map_view]
  refine flatMap_split (cs := containers) (f := fun C => (view f.layout C).map f.labels) (g := fun C => (view f'.layout C).map f'.labels) ?_ ?_ C (mem_containers C)
  · intro C _; simpa using hc C
  · have e : ∀ g : Frame, containers.flatMap (fun C => (view g.layout C).map g.labels) = (placed (view g.layout)).map g.labels := by
      intro g; simp only [placed, List.map_flatMap]
    rw [e, e, labels_placed h, labels_placed h', placed_length hc]

/-- What is known about the card with a label. -/
def Client.dataOf (s : Client) : CardId → Card Plain
  | 0 => BasicContext.newCard
  | n + 1 => ((placed (view s.board.frame.layout)).map s.store)[n]?.getD BasicContext.newCard

theorem dataOf_labels {s : Client} {x : CardId} (hx : x ∈ placed (view s.board.frame.layout)) :
    Client.dataOf s (s.board.frame.labels x) = s.store x := by
  simp only [Frame.labels, hx, if_true, Client.dataOf, List.getElem?_map]
  rw [List.getElem?_eq_getElem (List.idxOf_lt_length_of_mem hx), List.getElem_idxOf]
  rfl

theorem placed_screen (s : Client) : (placed (view s.board.frame.layout)).map s.store = containers.flatMap (Client.screen s) := by
  simp only [placed, List.map_flatMap]
  rfl

theorem dataOf_same {s s' : Client} (h : Client.screen s = Client.screen s') : Client.dataOf s = Client.dataOf s' := by
  funext n
  cases n with
  | zero => rfl
  | succ n => simp only [Client.dataOf, placed_screen, h]

theorem _root_.Ygo.Spec.LookSame.counts {s s' : Client} (h : LookSame s s') : SameCounts s.board.frame.layout s'.board.frame.layout := by
  intro C
  have := congrArg List.length (congrFun h.cards C)
  simpa [Client.screen] using this

/-! ## Events -/

theorem parseEvent_look {s s' : Client} (hs : Sound s) (hs' : Sound s') (h : LookSame s s') (e : Event) :
    Together (fun b b' => LookSame ⟨b, s.store⟩ ⟨b', s'.store⟩ ∧ Sound ⟨b, s.store⟩ ∧ Sound ⟨b', s'.store⟩) (s.board.parseEvent e) (s'.board.parseEvent e) := by
  have k := DuelBoard.parseEvent_with (m := Frame.labelled s.board.frame.labels) (b := s.board)
    (fun ops => runOps_labelled hs.inv (labels_fresh hs.inv)) e
  have k' := DuelBoard.parseEvent_with (m := Frame.labelled s'.board.frame.labels) (b := s'.board)
    (fun ops => runOps_labelled hs'.inv (labels_fresh hs'.inv)) e
  have eq : s.board.withFrame (Frame.labelled s.board.frame.labels) = s'.board.withFrame (Frame.labelled s'.board.frame.labels) := by
    have hf : Frame.labelled s.board.frame.labels s.board.frame = Frame.labelled s'.board.frame.labels s'.board.frame :=
      congrArg CountFrame.mk (labels_same hs.inv hs'.inv h.counts)
    simp only [DuelBoard.withFrame, hf, h.chain, h.turn, h.turnPlayer, h.lp, h.phase, h.blocked]
  rw [eq, k'] at k
  refine (Together.of_map k.symm).mono fun b b' hb hb' e2 => ?_
  have sound : ∀ {t : Client} {g : PlainBoard}, Sound t → t.board.parseEvent e = .ok g → Sound ⟨g, t.store⟩ := by
    intro t g ht hg
    refine ⟨events_inv ht.inv hg, fun x hx => ht.blank x (Nat.le_trans ?_ hx)⟩
    have key : ∀ (ops : List FrameOp) (f g : Frame), runOps f ops = .ok g → f.next ≤ g.next := by
      intro ops
      induction ops with
      | nil => intro f g h; cases h; exact Nat.le_refl _
      | cons o ops iho =>
        intro f g h
        simp only [runOps, FrameLike.step, bind_eq_ok] at h
        obtain ⟨f1, h1, h2⟩ := h
        exact Nat.le_trans (step_next h1) (iho f1 g h2)
    exact key _ _ _ (parse_frame hg)
  have data : ∀ {t : Client} {g : PlainBoard}, Sound t → t.board.parseEvent e = .ok g → ∀ C,
      (view g.frame.layout C).map t.store = (view (g.frame.layout.map t.board.frame.labels) C).map (Client.dataOf t) := by
    intro t g ht hg C
    rw [Layout.map_view, List.map_map]
    refine List.map_congr_left fun x hx => ?_
    show _ = Client.dataOf t (t.board.frame.labels x)
    rcases runOps_owned (parse_frame hg) ((events_inv ht.inv hg).mem_owned hx) with h1 | h1
    · exact (dataOf_labels (ht.inv.owns.perm.mem_iff.mpr h1)).symm
    · rw [labels_fresh ht.inv x h1, ht.blank x h1]
      rfl
  have ef : b.frame.layout.map s.board.frame.labels = b'.frame.layout.map s'.board.frame.labels :=
    congrArg (fun c : DuelBoard CountFrame Plain => c.frame.layout) e2
  refine ⟨⟨funext fun C => ?_, congrArg (·.chainStack) e2, congrArg (·.turn) e2, congrArg (·.turnController) e2, congrArg (·.lp) e2, congrArg (·.phase) e2,
    congrArg (·.blockedZones) e2⟩, sound hs hb, sound hs' hb'⟩
  show (view b.frame.layout C).map s.store = (view b'.frame.layout C).map s'.store
  rw [data hs hb, data hs' hb', ef, dataOf_same h.cards]

/-! ## Queries -/

/-- A card after something was told about it. -/
def _root_.Ygo.Card.told (d : QueryData) (c : Card Plain) : Card Plain :=
  ⟨fun f => ((d.single f).map Plain.mk).getD (c.single f), (d.targets.map Plain.mk).getD c.targets, (d.counters.map Plain.mk).getD c.counters⟩

theorem parseQuery_told {cache : Bool} {l : Layout} {st : CardId → Card Plain} {q : Query} {C : Container} {i : Nat} {x : CardId}
    (ha : At q.place C i) (hx : (view l C)[i]? = some x) :
    ∃ n, parseQuery cache l st q = .ok (n, fun y => if y = x then (st x).told q.data else st y) := by
  have hi : i < (view l C).length := (List.getElem?_eq_some_iff.mp hx).1
  obtain ⟨⟨n, st'⟩, hq⟩ := C30_returns cache l st q C i ha hi
  obtain ⟨y, hy, a, k⟩ := C30_parse_query cache l st st' q n hq
  rw [Layout.card_eq_ok.mpr ⟨C, i, ha, hx⟩] at hy
  cases hy
  refine ⟨n, ?_⟩
  rw [hq]
  congr 2
  funext z
  by_cases hz : z = x
  · subst hz
    simp only [if_true]
    have ext : ∀ {α : Type} {a : Plain α} {v : α}, Cell.get a = .ok v → a = ⟨v⟩ := by
      intro α a v h; cases a; cases h; rfl
    have h1 : (st' z).single = ((st z).told q.data).single := by
      funext f
      show _ = ((q.data.single f).map Plain.mk).getD ((st z).single f)
      cases hf : q.data.single f with
      | none => exact a.kept f hf
      | some v => exact ext (a.given f v hf)
    have h2 : (st' z).targets = ((st z).told q.data).targets := by
      show _ = (q.data.targets.map Plain.mk).getD _
      cases hf : q.data.targets with
      | none => exact a.targetsKept hf
      | some v => exact ext (a.targetsGiven v hf)
    have h3 : (st' z).counters = ((st z).told q.data).counters := by
      show _ = (q.data.counters.map Plain.mk).getD _
      cases hf : q.data.counters with
      | none => exact a.countersKept hf
      | some v => exact ext (a.countersGiven v hf)
    cases e : st' z
    rw [e] at h1 h2 h3
    simp only at h1 h2 h3
    subst h1 h2 h3
    rfl
  · simp only [hz, if_false, k z hz]

/-- The screen after something was told about the card in one place. -/
theorem screen_told {s : Client} {x : CardId} (hx : x ∈ placed (view s.board.frame.layout)) (c : Card Plain) (C : Container) :
    Client.screen ⟨s.board, fun y => if y = x then c else s.store y⟩ C =
      (view (s.board.frame.layout.map s.board.frame.labels) C).map fun n => if n = s.board.frame.labels x then c else Client.dataOf s n := by
  show (view s.board.frame.layout C).map _ = _
  rw [Layout.map_view, List.map_map]
  refine List.map_congr_left fun y hy => ?_
  have hy := mem_placed.mpr ⟨C, hy⟩
  show (if y = x then c else s.store y) = if s.board.frame.labels y = s.board.frame.labels x then c else Client.dataOf s (s.board.frame.labels y)
  rw [dataOf_labels hy]
  by_cases e : y = x
  · simp [e]
  · rw [if_neg e, if_neg fun h => e (labels_inj hy hx h)]

theorem query_look {s s' : Client} (hs : Sound s) (hs' : Sound s') (h : LookSame s s') (cache cache' : Bool) (q : Query) :
    Together (fun x y => LookSame ⟨s.board, x.2⟩ ⟨s'.board, y.2⟩ ∧ Sound ⟨s.board, x.2⟩ ∧ Sound ⟨s'.board, y.2⟩)
      (parseQuery cache s.board.frame.layout s.store q) (parseQuery cache' s'.board.frame.layout s'.store q) := by
  have hc := h.counts
  by_cases hok : ∃ x, s.board.frame.layout.card q.place = .ok x
  · obtain ⟨x, hx⟩ := hok
    obtain ⟨C, i, ha, hx⟩ := Layout.card_eq_ok.mp hx
    have hlt : i < (view s'.board.frame.layout C).length := by
      rw [← hc C]; exact (List.getElem?_eq_some_iff.mp hx).1
    obtain ⟨x', hx'⟩ : ∃ x', (view s'.board.frame.layout C)[i]? = some x' := ⟨_, List.getElem?_eq_getElem hlt⟩
    obtain ⟨n, e⟩ := parseQuery_told (cache := cache) (st := s.store) ha hx
    obtain ⟨n', e'⟩ := parseQuery_told (cache := cache') (st := s'.store) ha hx'
    rw [e, e']
    have hm := mem_placed.mpr ⟨C, List.mem_of_getElem? hx⟩
    have hm' := mem_placed.mpr ⟨C, List.mem_of_getElem? hx'⟩
    have hl := labels_same hs.inv hs'.inv hc
    have hxx : s.board.frame.labels x = s'.board.frame.labels x' := by
      have := congrArg (fun l => (view l C)[i]?) hl
      simp only [Layout.map_view, List.getElem?_map, hx, hx', Option.map_some, Option.some.injEq] at this
      exact this
    have hd : s.store x = s'.store x' := by
      rw [← dataOf_labels hm, ← dataOf_labels hm', hxx, dataOf_same h.cards]
    have sound : ∀ {t : Client} {y : CardId} (c : Card Plain), Sound t → y ∈ placed (view t.board.frame.layout) →
        Sound ⟨t.board, fun z => if z = y then c else t.store z⟩ := by
      intro t y c ht hy
      refine ⟨ht.inv, fun z hz => ?_⟩
      have : z ≠ y := by
        rintro rfl
        obtain ⟨D, hD⟩ := mem_placed.mp hy
        have hlt := ht.inv.fresh z (ht.inv.mem_owned hD)
        have hz : t.board.frame.next ≤ z := hz
        omega
      show (if z = y then c else t.store z) = _
      rw [if_neg this]
      exact ht.blank z hz
    refine ⟨⟨funext fun D => ?_, h.chain, h.turn, h.turnPlayer, h.lp, h.phase, h.blocked⟩, sound _ hs hm, sound _ hs' hm'⟩
    rw [screen_told hm, screen_told hm', hl, hxx, hd, dataOf_same h.cards]
  · have := parseQuery_together hc cache cache' s.store s'.store q
    revert this
    cases e : parseQuery cache s.board.frame.layout s.store q with
    | error x =>
      cases parseQuery cache' s'.board.frame.layout s'.store q with
      | error y => exact id
      | ok y => exact False.elim
    | ok y =>
      obtain ⟨n, st⟩ := y
      obtain ⟨c, hc, _⟩ := C30_parse_query cache _ _ _ q n e
      exact absurd ⟨c, hc⟩ hok

theorem answer_look {s s' : Client} (hs : Sound s) (hs' : Sound s') (h : LookSame s s') (cache cache' : Bool) (qs : List Query) :
    Together (fun x y => LookSame ⟨s.board, x⟩ ⟨s'.board, y⟩ ∧ Sound ⟨s.board, x⟩ ∧ Sound ⟨s'.board, y⟩)
      (Client.answer cache s.board.frame.layout qs s.store) (Client.answer cache' s'.board.frame.layout qs s'.store) := by
  obtain ⟨b, st⟩ := s
  obtain ⟨b', st'⟩ := s'
  induction qs generalizing st st' with
  | nil => exact ⟨h, hs, hs'⟩
  | cons q qs ih => exact (query_look hs hs' h cache cache' q).bind fun x y _ _ hxy => ih _ hxy.2.1 _ hxy.2.2 hxy.1

theorem follow_look {s s' : Client} (hs : Sound s) (hs' : Sound s') (h : LookSame s s') (cache cache' : Bool) (ms : List Msg) :
    Together (fun t t' => LookSame t t' ∧ Sound t ∧ Sound t') (Client.follow cache s ms) (Client.follow cache' s' ms) := by
  induction ms generalizing s s' with
  | nil => exact ⟨h, hs, hs'⟩
  | cons m ms ih =>
    have rest : ∀ b b' : PlainBoard, Sound ⟨b, s.store⟩ → Sound ⟨b', s'.store⟩ → LookSame ⟨b, s.store⟩ ⟨b', s'.store⟩ →
        Together (fun t t' => LookSame t t' ∧ Sound t ∧ Sound t')
          (Client.answer cache b.frame.layout m.queries s.store >>= fun st => Client.follow cache ⟨b, st⟩ ms)
          (Client.answer cache' b'.frame.layout m.queries s'.store >>= fun st => Client.follow cache' ⟨b', st⟩ ms) := by
      intro b b' h1 h2 h3
      exact (answer_look h1 h2 h3 cache cache' _).bind fun st st' _ _ hst => ih hst.2.1 hst.2.2 hst.1
    simp only [Client.follow]
    cases Msg.event? m with
    | none => exact rest _ _ hs hs' h
    | some e => exact (parseEvent_look hs hs' h e).bind fun b b' _ _ hb => rest b b' hb.2.1 hb.2.2 hb.1

theorem Sound.init : Sound Client.init := ⟨Inv.init, fun _ _ => rfl⟩

theorem _root_.Ygo.Spec.LookSame.refl (s : Client) : LookSame s s := ⟨rfl, rfl, rfl, rfl, rfl, rfl, rfl⟩

theorem follow_sound {cache : Bool} {ms : List Msg} {s t : Client} (hs : Sound s) (h : Client.follow cache s ms = .ok t) : Sound t := by
  have := follow_look hs hs (.refl s) cache cache ms
  rw [h] at this
  exact this.2.1

end Ygo
