import Verif.Model.NetworkRoom
import Verif.Lemmas.NetworkMsg
import Verif.Lemmas.RoomStep

/-!
# Lemmas about the messages of rooms and replays as objects
-/

namespace Ygo.Pb
open Ygo.Spec Obj Ygo.Room

set_option linter.unusedSimpArgs false

/-! ## Getters after setters -/

@[simp] theorem toText_text (s : String) : toText (text s) = s := by
  by_cases h : s = "" <;> simp [text, toText, h]
@[simp] theorem toBlob_blob (b : List Nat) : toBlob (blob b) = b := by
  by_cases h : b = [] <;> simp [blob, toBlob, h]

@[simp] theorem get_user (u : User) : getUser (setUser u) = u := by getset [getUser, setUser, Obj.text, Obj.blob]
@[simp] theorem get_deck (d : Deck) : getDeck (setDeck d) = d := by getset [getDeck, setDeck, Obj.text]
theorem get_opt {α : Type} {o : Obj} {n : Nat} {set : α → Obj} {get : Obj → α} {x : Option α} (h : o n = Pb.opt set x)
    (hg : ∀ y, x = some y → get (set y) = y) : o.opt n get = x := by
  unfold Obj.opt Obj.has Obj.sub
  rw [h]
  cases x with
  | none => rfl
  | some y => simp [Pb.opt, obj, toObj, hg y rfl]
@[simp] theorem get_reason (r : Int × Nat) : getReason (setReason r) = r := by getset [getReason, setReason]
theorem get_reasons (rs : List (Int × Nat)) : getReasons (setReasons rs) = rs :=
  get_subs (o := setReasons rs) (n := 1) rfl fun _ _ => get_reason _
theorem get_cards (cs : List Nat) : getCards (setCards cs) = cs := get_nats (o := setCards cs) (n := 1) rfl
theorem get_mixed (cs : List Nat × List Nat) : getMixed (setMixed cs) = cs := by getset [getMixed, setMixed]
theorem get_outOfLimit (e : (Int × Int) × (Nat × Nat)) : getOutOfLimit (setOutOfLimit e) = e := by getset [getOutOfLimit, setOutOfLimit]
@[simp] theorem get_deckError (e : DeckError) : getDeckError (setDeckError e) = e := by
  unfold getDeckError
  congr 1
  · exact get_opt (set := setReasons) rfl fun _ _ => get_reasons _
  · exact get_opt (set := setCards) rfl fun _ _ => get_cards _
  · exact get_opt (set := setCards) rfl fun _ _ => get_cards _
  · exact get_opt (set := setMixed) rfl fun _ _ => get_mixed _
  · exact get_opt (set := setOutOfLimit) rfl fun _ _ => get_outOfLimit _
theorem get_limit (l : DeckLimit) : getLimit (setLimit l) = l := by getset [getLimit, setLimit]
theorem get_limits (l : DeckLimits) : getLimits (setLimits l) = l := by
  unfold getLimits
  congr 1 <;> exact get_opt (set := setLimit) rfl fun _ _ => get_limit _
@[simp] theorem get_banlist (b : Banlist) : getBanlist (setBanlist b) = b := by getset [getBanlist, setBanlist, Obj.text]
@[simp] theorem get_options (p : Options) : getOptions (setOptions p) = p := by
  obtain ⟨ms, l, c, f⟩ := p
  unfold getOptions
  have h1 : (setOptions ⟨ms, l, c, f⟩).nats 1 = ms := get_nats (by cases c <;> rfl)
  have h2 : (setOptions ⟨ms, l, c, f⟩).opt 2 getLimits = l := get_opt (set := setLimits) (by cases c <;> rfl) fun _ _ => get_limits _
  have h3 : getChoice (setOptions ⟨ms, l, c, f⟩) = c := by
    cases c with
    | unset => rfl
    | id s => rfl
    | custom b => exact congrArg BanlistChoice.custom (get_banlist b)
  have h5 : (setOptions ⟨ms, l, c, f⟩).int 5 = f := get_int (by cases c <;> rfl)
  rw [h1, h2, h3, h5]
@[simp] theorem get_duelist (d : Duelist) : getDuelist (setDuelist d) = d := by getset [getDuelist, setDuelist]
@[simp] theorem toObjs_duelists (ds : List Duelist) : (toObjs (objs setDuelist ds)).map getDuelist = ds :=
  toObjs_objs _ fun _ _ => get_duelist _
@[simp] theorem get_dice (d : Nat × Nat) : getDice (setDice d) = d := by getset [getDice, setDice]
@[simp] theorem toObjs_dice (ds : List (Nat × Nat)) : (toObjs (objs setDice ds)).map getDice = ds := toObjs_objs _ fun _ _ => get_dice _
@[simp] theorem get_told (n : Nat) (t : Tool) : getTold (setTold n t) = some t := by
  cases t <;> getset [getTold, setTold, nat1]
@[simp] theorem get_told_first (n : Nat) (t : Tool) : (toInt (setTold n t 1)).toNat = n := by cases t <;> getset [setTold]
@[simp] theorem get_roomEvent (e : Room.Event) : getRoomEvent (setRoomEvent e) = some e := by
  cases e with
  | deckStatus e => cases e <;> getset [getRoomEvent, setRoomEvent, getConfiguring]
  | _ => getset [getRoomEvent, setRoomEvent, getConfiguring, getDeciding]
@[simp] theorem get_signal (s : Signal) : getSignal (setSignal s) = s := by
  cases s with
  | unset => getset [getSignal, setSignal]
  | configuring s => cases s <;> getset [getSignal, setSignal, getConfSignal]
  | deciding s => cases s <;> getset [getSignal, setSignal, getDecSignal]
theorem get_clientMsg (m : ClientMsg) : getClientMsg (setClientMsg m) = m := by
  cases m <;> getset [getClientMsg, setClientMsg, Obj.text]
theorem get_serverMsg (m : ServerMsg) : getServerMsg (setServerMsg m) = some m := by
  cases m <;> getset [getServerMsg, setServerMsg, Obj.blob]

theorem get_block {b : Block} (h : MsgHolds b.msg) : getBlock (setBlock b) = b := by
  have := get_msg h
  getset [getBlock, setBlock, this]
theorem get_replay {bs : List Block} (h : All (fun b => MsgHolds b.msg) bs) : getReplay (setReplay bs) = some bs := by
  have : (toObjs (objs setBlock bs)).map getBlock = bs := toObjs_objs _ fun b hb => get_block (h b hb)
  getset [getReplay, setReplay, this]

/-! ## Objects made with setters are as described -/

section
variable {n g : Nat}

theorem ok_text (s : String) : FieldOk ⟨n, .plain, .text⟩ (text s) := by
  by_cases h : s = ""
  · exact ⟨by simp [text, h], .inl (by simp [text, h])⟩
  · exact ⟨by simpa [text, h] using .text, .inr ⟨_, by simp only [text, h, if_false]; rfl, by simp [Val.isZero, h]⟩⟩
theorem ok_text1 (s : String) : FieldOk ⟨n, .oneof g, .text⟩ (text s) := by
  by_cases h : s = ""
  · exact ⟨by simp [text, h], .inl (by simp [text, h])⟩
  · exact ⟨by simpa [text, h] using .text, .inr ⟨_, by simp only [text, h, if_false]; rfl⟩⟩
theorem ok_text1' (s : String) : FieldOk ⟨n, .oneof g, .text⟩ (text1 s) := ⟨by simpa [text1] using .text, .inr ⟨_, rfl⟩⟩
theorem ok_opt {α : Type} {m : MsgType} {set : α → Obj} {x : Option α} (h : ∀ y, x = some y → HasType schema (.msg m) (.msg (set y))) :
    FieldOk ⟨n, .plain, .msg m⟩ (opt set x) := by
  cases x with
  | none => exact ⟨by simp [opt], .inl rfl⟩
  | some y => exact ok_obj (h y rfl)
theorem ok_blob {b : List Nat} (hb : All (· < 256) b) : FieldOk ⟨n, .plain, .blob⟩ (blob b) := by
  by_cases h : b = []
  · exact ⟨by simp [blob, h], .inl (by simp [blob, h])⟩
  · exact ⟨by simpa [blob, h] using .blob hb, .inr ⟨_, by simp only [blob, h, if_false]; rfl, by simp [Val.isZero, h]⟩⟩

end

macro_rules | `(tactic| okstep) => `(tactic| with_reducible first | exact ok_text _ | exact ok_text1 _ | refine ok_blob ?_)

theorem user_made {u : User} (h : UserHolds u) : HasType schema (.msg .user) (.msg (setUser u)) := by
  unfold UserHolds at h
  unfold setUser
  made

theorem deck_made {d : Deck} (h : DeckHolds d) : HasType schema (.msg .deck) (.msg (setDeck d)) := by
  obtain ⟨h1, h2, h3, h4⟩ := h
  unfold setDeck
  made
  made

theorem reason_made {r : Int × Nat} (h : I32 r.1 ∧ U32 r.2) :
    HasType schema (.msg .deckErrorBanlistedReasonAndCode) (.msg (setReason r)) := by
  obtain ⟨h1, h2⟩ := h
  unfold setReason
  made

theorem deckError_made {e : DeckError} (h : DeckErrorHolds e) : HasType schema (.msg .deckError) (.msg (setDeckError e)) := by
  obtain ⟨h1, h2, h3, h4, h5⟩ := h
  refine made_holds rfl (.cons rfl (ok_opt fun x hx => ?_) (.cons rfl (ok_opt fun x hx => ?_) (.cons rfl (ok_opt fun x hx => ?_)
    (.cons rfl (ok_opt fun x hx => ?_) (.cons rfl (ok_opt fun x hx => ?_) .nil)))))
  · exact made_holds rfl (.cons rfl (ok_objs (h1 x hx) fun _ => reason_made) .nil)
  · exact made_holds rfl (.cons rfl (ok_u32s (h2 x hx)) .nil)
  · exact made_holds rfl (.cons rfl (ok_u32s (h3 x hx)) .nil)
  · exact made_holds rfl (.cons rfl (ok_u32s (h4 x hx).1) (.cons rfl (ok_u32s (h4 x hx).2) .nil))
  · obtain ⟨⟨a, b⟩, c, d⟩ := h5 x hx
    exact made_holds rfl (.cons rfl (ok_enum a) (.cons rfl (ok_enum b) (.cons rfl (ok_u32 c) (.cons rfl (ok_u32 d) .nil))))

theorem limit_made {l : DeckLimit} (h : LimitHolds l) : HasType schema (.msg .deckLimitsLimit) (.msg (setLimit l)) :=
  made_holds rfl (.cons rfl (ok_u32 h.1) (.cons rfl (ok_i32 h.2) .nil))

theorem limits_made {l : DeckLimits} (h : LimitsHold l) : HasType schema (.msg .deckLimits) (.msg (setLimits l)) :=
  made_holds rfl (.cons rfl (ok_opt fun x hx => limit_made (h.1 x hx)) (.cons rfl (ok_opt fun x hx => limit_made (h.2.1 x hx))
    (.cons rfl (ok_opt fun x hx => limit_made (h.2.2 x hx)) .nil)))

theorem banlist_made {b : Banlist} (h : BanlistHolds b) : HasType schema (.msg .banlist) (.msg (setBanlist b)) := by
  obtain ⟨h1, h2, h3, h4⟩ := h
  unfold setBanlist
  made

theorem options_made {p : Options} (h : OptionsHold p) : HasType schema (.msg .roomOptions) (.msg (setOptions p)) := by
  obtain ⟨ms, l, c, f⟩ := p
  obtain ⟨h1, h2, h3, h4⟩ := h
  dsimp only at h1 h2 h3 h4
  cases c with
  | unset =>
    exact made_holds rfl (.cons rfl (ok_u32s h1) (.cons rfl (ok_opt fun x hx => limits_made (h3 x hx)) (.cons rfl (ok_enum h2) .nil)))
  | id s =>
    exact made_holds rfl (.cons rfl (ok_u32s h1) (.cons rfl (ok_opt fun x hx => limits_made (h3 x hx))
      (.cons rfl (ok_text1' s) (.cons rfl (ok_enum h2) .nil))))
  | custom b =>
    exact made_holds rfl (.cons rfl (ok_u32s h1) (.cons rfl (ok_opt fun x hx => limits_made (h3 x hx))
      (.cons rfl (ok_obj1 (banlist_made (h4 b rfl))) (.cons rfl (ok_enum h2) .nil))))

macro_rules | `(tactic| okstep) => `(tactic| with_reducible first
  | refine user_made ?_ | refine deck_made ?_ | refine deckError_made ?_
  | refine options_made ?_)

theorem duelist_made {d : Duelist} (h : DuelistHolds d) : HasType schema (.msg .roomDuelist) (.msg (setDuelist d)) := by
  obtain ⟨h1, h2, h3⟩ := h
  unfold setDuelist
  made

theorem dice_made {d : Nat × Nat} (h : U32 d.1 ∧ U32 d.2) :
    HasType schema (.msg .roomEventDecidingFirstTurnResultDiceResultPair) (.msg (setDice d)) := by
  obtain ⟨h1, h2⟩ := h
  unfold setDice
  made

macro_rules | `(tactic| okstep) => `(tactic| with_reducible first
  | refine duelist_made ?_ | refine ok_objs ?_ (fun _ => duelist_made)
  | refine ok_objs ?_ (fun _ => dice_made))

theorem told_made {n : Nat} {t : Tool} (h : RoomEventHolds (.result n t)) :
    HasType schema (.msg .roomEventDecidingFirstTurnResult) (.msg (setTold n t)) := by
  obtain ⟨h1, h2⟩ := h
  cases t with
  | unset => unfold setTold; made
  | dice rs => dsimp only at h2; unfold setTold; made; made
  | coin f =>
    dsimp only at h2
    have : I32 (f : Int) := by simp only [I32]; omega
    simp only [setTold, nat1]
    made

theorem roomEvent_made {e : Room.Event} (h : RoomEventHolds e) : HasType schema (.msg .roomEvent) (.msg (setRoomEvent e)) := by
  cases e with
  | entering p ds n =>
    obtain ⟨h1, h2, h3⟩ := h
    simp only [setRoomEvent]
    made; made; made
  | duelistEnters d => simp only [RoomEventHolds] at h; simp only [setRoomEvent]; made; made
  | updateDuelist d => simp only [RoomEventHolds] at h; simp only [setRoomEvent]; made; made
  | deckStatus e =>
    cases e with
    | none => simp only [setRoomEvent]; made; made; made
    | some e => simp only [RoomEventHolds] at h; simp only [setRoomEvent]; made; made; made
  | decidingEntering => simp only [setRoomEvent]; made; made; made
  | decideFirstTurn b => simp only [setRoomEvent]; made; made
  | result n t =>
    have := told_made h
    simp only [setRoomEvent]
    made; made
  | spectatorCount n => simp only [RoomEventHolds] at h; simp only [setRoomEvent]; made

theorem signal_made {s : Signal} (h : SignalHolds s) : HasType schema (.msg .roomSignal) (.msg (setSignal s)) := by
  cases s with
  | unset => exact made_holds rfl .nil
  | configuring s =>
    cases s <;> (try simp only [SignalHolds] at h) <;> simp only [setSignal] <;> made <;> made
  | deciding s =>
    cases s <;> (try simp only [SignalHolds] at h) <;> simp only [setSignal] <;> made <;> made

theorem clientMsg_made {m : ClientMsg} (h : ∀ s, m = .room s → SignalHolds s) :
    HasType schema (.msg .clientMsg) (.msg (setClientMsg m)) := by
  cases m with
  | unset => exact made_holds rfl .nil
  | identify s => simp only [setClientMsg]; made; made
  | room s =>
    have := signal_made (h s rfl)
    simp only [setClientMsg]; made

theorem serverMsg_made {m : ServerMsg} (h : ∀ e, m = .room e → RoomEventHolds e) (h' : ∀ b, m = .identified b → All (· < 256) b) :
    HasType schema (.msg .serverMsg) (.msg (setServerMsg m)) := by
  cases m with
  | unset => exact made_holds rfl .nil
  | identified b => have := h' b rfl; simp only [setServerMsg]; made; made
  | room e =>
    have := roomEvent_made (h e rfl)
    simp only [setServerMsg]; made

theorem block_made {b : Block} (h : U32 b.offset ∧ MsgHolds b.msg) : HasType schema (.msg .replayStreamBlock) (.msg (setBlock b)) := by
  obtain ⟨h1, h2⟩ := h
  have := msg_made h2
  unfold setBlock
  made

theorem replay_made {bs : List Block} (h : All (fun b => U32 b.offset ∧ MsgHolds b.msg) bs) :
    HasType schema (.msg .replay) (.msg (setReplay bs)) :=
  made_holds rfl (.cons rfl (ok_obj1 (made_holds rfl (.cons rfl (ok_objs h fun _ => block_made) .nil))) .nil)

/-! ## What getters say about objects as described -/

theorem got_blob {m : MsgType} {o : Obj} {n : Nat} {l : Label} (h : HasType schema (.msg m) (.msg o))
    (hf : (schema m).find? (fun f => f.num == n) = some ⟨n, l, .blob⟩) : All (· < 256) (o.blob n) := by
  unfold Obj.blob
  match e : o n with
  | [] => intro x hx; cases hx
  | v :: vs =>
    have := got_value h hf (v := v) (by rw [e]; simp)
    cases this with
    | blob hb => exact hb

theorem deck_got {o : Obj} (h : HasType schema (.msg .deck) (.msg o)) : DeckHolds (getDeck o) := by
  have hd := got_obj h (n := 1) rfl
  exact ⟨got_u32s hd rfl, got_u32s hd rfl, got_u32s hd rfl, got_u32s h rfl⟩

theorem signal_got {o : Obj} (h : HasType schema (.msg .roomSignal) (.msg o)) : SignalHolds (getSignal o) := by
  unfold getSignal
  split
  · have hc := got_obj h (n := 1) rfl
    unfold getConfSignal
    split
    · exact deck_got (got_obj hc rfl)
    · split
      · trivial
      · split <;> trivial
  · split
    · have hc := got_obj h (n := 2) rfl
      unfold getDecSignal
      split
      · exact got_u32 hc rfl
      · trivial
    · trivial

theorem duelist_got {o : Obj} (h : HasType schema (.msg .roomDuelist) (.msg o)) : DuelistHolds (getDuelist o) :=
  ⟨got_u32 h rfl, got_u32 h rfl, got_blob (got_obj h (n := 3) rfl) rfl⟩

theorem got_opt {α : Type} {m m' : MsgType} {o : Obj} {n : Nat} {l : Label} {get : Obj → α} {P : α → Prop}
    (h : HasType schema (.msg m) (.msg o)) (hf : (schema m).find? (fun f => f.num == n) = some ⟨n, l, .msg m'⟩)
    (hg : ∀ o, HasType schema (.msg m') (.msg o) → P (get o)) : ∀ x, o.opt n get = some x → P x := by
  intro x hx
  unfold Obj.opt at hx
  split at hx
  · cases hx; exact hg _ (got_obj h hf)
  · cases hx

theorem deckError_got {o : Obj} (h : HasType schema (.msg .deckError) (.msg o)) : DeckErrorHolds (getDeckError o) :=
  ⟨got_opt h rfl fun _ h => got_objs h rfl fun _ h => ⟨got_enum h rfl, got_u32 h rfl⟩, got_opt h rfl fun _ h => got_u32s h rfl,
    got_opt h rfl fun _ h => got_u32s h rfl, got_opt h rfl fun _ h => ⟨got_u32s h rfl, got_u32s h rfl⟩,
    got_opt h rfl fun _ h => ⟨⟨got_enum h rfl, got_enum h rfl⟩, got_u32 h rfl, got_u32 h rfl⟩⟩

theorem limit_got {o : Obj} (h : HasType schema (.msg .deckLimitsLimit) (.msg o)) : LimitHolds (getLimit o) :=
  ⟨got_u32 h rfl, got_i32 h rfl⟩

theorem limits_got {o : Obj} (h : HasType schema (.msg .deckLimits) (.msg o)) : LimitsHold (getLimits o) :=
  ⟨got_opt h rfl fun _ => limit_got, got_opt h rfl fun _ => limit_got, got_opt h rfl fun _ => limit_got⟩

theorem options_got {o : Obj} (h : HasType schema (.msg .roomOptions) (.msg o)) : OptionsHold (getOptions o) := by
  refine ⟨got_u32s h rfl, got_enum h rfl, got_opt h rfl fun _ => limits_got, ?_⟩
  intro b hb
  simp only [getOptions, getChoice] at hb
  split at hb
  · cases hb
  · split at hb
    · cases hb
      have hl := got_obj h (n := 4) rfl
      exact ⟨got_u32s hl rfl, got_u32s hl rfl, got_u32s hl rfl, got_u32s hl rfl⟩
    · cases hb

theorem told_got {o : Obj} (h : HasType schema (.msg .roomEventDecidingFirstTurnResult) (.msg o)) {t : Tool} (ht : getTold o = some t) :
    RoomEventHolds (.result (o.nat 1) t) := by
  refine ⟨got_u32 h rfl, ?_⟩
  unfold getTold at ht
  split at ht
  · cases ht
  · split at ht
    · cases ht
      exact got_objs (got_obj h (n := 3) rfl) rfl fun o h => ⟨got_u32 h rfl, got_u32 h rfl⟩
    · split at ht
      · split at ht
        · cases ht
        · cases ht
          have := got_enum h (n := 4) rfl
          simp only [I32, Obj.int, Obj.nat] at this ⊢
          omega
      · cases ht; trivial

theorem roomEvent_got {o : Obj} (h : HasType schema (.msg .roomEvent) (.msg o)) {e : Room.Event} (he : getRoomEvent o = some e) :
    RoomEventHolds e := by
  unfold getRoomEvent at he
  split at he
  · have hc := got_obj h (n := 1) rfl
    unfold getConfiguring at he
    split at he
    · cases he
      have hs := got_obj hc (n := 1) rfl
      have hp := got_obj hs (n := 1) rfl
      exact ⟨options_got hp, got_objs hs rfl fun _ => duelist_got, got_u32 hs rfl⟩
    · split at he
      · cases he; exact duelist_got (got_obj hc (n := 2) rfl)
      · split at he
        · cases he; exact duelist_got (got_obj hc (n := 3) rfl)
        · split at he
          · cases he
            have hs := got_obj hc (n := 4) rfl
            split
            · exact deckError_got (got_obj hs (n := 1) rfl)
            · trivial
          · cases he
  · split at he
    · have hc := got_obj h (n := 2) rfl
      unfold getDeciding at he
      split at he
      · cases he; trivial
      · split at he
        · cases he; trivial
        · split at he
          · obtain ⟨t, ht, rfl⟩ := Option.map_eq_some_iff.1 he
            exact told_got (got_obj hc (n := 3) rfl) ht
          · cases he
    · split at he
      · cases he; exact got_u32 h rfl
      · cases he

theorem clientMsg_got {o : Obj} (h : HasType schema (.msg .clientMsg) (.msg o)) {s : Signal} (hs : getClientMsg o = .room s) :
    SignalHolds s := by
  unfold getClientMsg at hs
  split at hs
  · cases hs
  · split at hs
    · cases hs; exact signal_got (got_obj h rfl)
    · cases hs

theorem serverMsg_got {o : Obj} (h : HasType schema (.msg .serverMsg) (.msg o)) {e : Room.Event} (he : getServerMsg o = some (.room e)) :
    RoomEventHolds e := by
  unfold getServerMsg at he
  split at he
  · cases he
  · split at he
    · obtain ⟨e', h', e''⟩ := Option.map_eq_some_iff.1 he
      cases e''
      exact roomEvent_got (got_obj h rfl) h'
    · cases he

theorem replay_got {o : Obj} (h : HasType schema (.msg .replay) (.msg o)) {bs : List Block} (hb : getReplay o = some bs) :
    All (fun b => U32 b.offset ∧ MsgHolds b.msg) bs := by
  unfold getReplay at hb
  split at hb
  · cases hb
    exact got_objs (got_obj h (n := 1) rfl) rfl fun o h => ⟨got_u32 h rfl, msg_got (got_obj h (n := 2) rfl)⟩
  · cases hb

end Ygo.Pb
