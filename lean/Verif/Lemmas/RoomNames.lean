import Verif.Spec.RoomNames
import Verif.Lemmas.RoomView

/-!
# Rooms whose clients have other addresses
-/

namespace Ygo
open Ygo.Spec Ygo.Room

variable {σ : ClientId → ClientId}

theorem opt_map_eq (hσ : Function.Injective σ) {o : Option ClientId} {c : ClientId} : o.map σ = some (σ c) ↔ o = some c := by
  cases o with
  | none => simp
  | some d => simp only [Option.map_some, Option.some.injEq]; exact ⟨fun h => hσ h, fun h => by rw [h]⟩

theorem teamClients_slotOf (t : List Slot) : teamClients (t.map (slotOf σ)) = (teamClients t).map σ := by
  induction t with
  | nil => rfl
  | cons s ss ih =>
    simp only [teamClients, List.map_cons, List.filterMap_cons, slotOf] at ih ⊢
    cases s.client <;> simp [ih]

theorem scanTeam_slotOf (m : Nat) (t : List Slot) (p n : Nat) (f : Option Nat) : scanTeam m (t.map (slotOf σ)) p n f = scanTeam m t p n f := by
  induction t generalizing p n f with
  | nil => rfl
  | cons s ss ih => simp only [List.map_cons, scanTeam, slotOf, Option.isSome_map]; split <;> split <;> simp [ih]

theorem teamDuelists_slotOf {env env' : Env} (he : SameEnv σ env env') (hσ : Function.Injective σ) (host : ClientId) (t : Fin 2) (p : Nat) (ss : List Slot) :
    teamDuelists env' (σ host) t p (ss.map (slotOf σ)) = teamDuelists env host t p ss := by
  induction ss generalizing p with
  | nil => rfl
  | cons s ss ih =>
    simp only [List.map_cons, teamDuelists, slotOf] at ih ⊢
    cases s.client with
    | none => simpa using ih (p + 1)
    | some c => simp only [Option.map_some, duelist, he.users, hσ.eq_iff, ih]

theorem findInTeam_slotOf (hσ : Function.Injective σ) (c : ClientId) (m : Nat) (t : List Slot) (p : Nat) :
    findInTeam (σ c) m (t.map (slotOf σ)) p = (findInTeam c m t p).map fun x => (x.1, slotOf σ x.2) := by
  induction t generalizing p with
  | nil => rfl
  | cons s ss ih =>
    simp only [List.map_cons, findInTeam, slotOf, opt_map_eq hσ] at ih ⊢
    by_cases h : s.client = some c
    · simp [h]
    · simp only [h, if_false, ih]; split <;> rfl

theorem teamCanStart_slotOf (t : List Slot) : teamCanStart (t.map (slotOf σ)) = teamCanStart t := by
  simp [teamCanStart, List.all_map, List.any_map, slotOf, Function.comp_def]

theorem setInsert_mem {c : ClientId} {l : List ClientId} (h : l.Pairwise (· < ·)) (hc : c ∈ l) : setInsert c l = l := by
  induction l with
  | nil => simp at hc
  | cons x xs ih =>
    have hx := List.pairwise_cons.mp h
    simp only [setInsert]
    rcases List.mem_cons.mp hc with rfl | hc
    · simp
    · have := hx.1 c hc
      rw [if_neg (Nat.lt_asymm this), if_pos this, ih hx.2 hc]

theorem setInsert_not_mem {c : ClientId} {l : List ClientId} (hc : c ∉ l) : (setInsert c l).Perm (c :: l) := by
  induction l with
  | nil => exact .refl _
  | cons x xs ih =>
    simp only [List.mem_cons, not_or] at hc
    simp only [setInsert]
    split
    · exact .refl _
    · rename_i hlt
      rw [if_pos (Nat.lt_of_le_of_ne (Nat.le_of_not_lt hlt) (Ne.symm hc.1))]
      exact ((ih hc.2).cons x).trans (.swap c x xs)

theorem setInsert_order (hm : KeepsOrder σ) (c : ClientId) (l : List ClientId) : setInsert (σ c) (l.map σ) = (setInsert c l).map σ := by
  induction l with
  | nil => rfl
  | cons x xs ih =>
    simp only [List.map_cons, setInsert]
    rcases Nat.lt_trichotomy c x with h | rfl | h
    · rw [if_pos h, if_pos (hm _ _ h)]; rfl
    · simp
    · have := hm _ _ h
      rw [if_neg (Nat.lt_asymm this), if_pos this, if_neg (Nat.lt_asymm h), if_pos h, ih]; rfl

theorem setInsert_names (hσ : Function.Injective σ) (c : ClientId) {l l' : List ClientId} (h : l.Pairwise (· < ·)) (h' : l'.Pairwise (· < ·))
    (hp : l'.Perm (l.map σ)) : (setInsert (σ c) l').Perm ((setInsert c l).map σ) := by
  by_cases hc : c ∈ l
  · rw [setInsert_mem h hc, setInsert_mem h' (hp.mem_iff.mpr (List.mem_map_of_mem hc))]; exact hp
  · have hc' : σ c ∉ l' := fun hx => by
      obtain ⟨d, hd, e⟩ := List.mem_map.mp (hp.mem_iff.mp hx)
      exact hc (hσ e ▸ hd)
    exact (setInsert_not_mem hc').trans ((hp.cons _).trans ((setInsert_not_mem hc).map σ).symm)

/-! ## Mail -/

theorem _root_.Ygo.Spec.SameMail.nil : SameMail σ [] [] := ⟨fun _ => rfl, by simp, fun _ => rfl⟩

theorem _root_.Ygo.Spec.SameMail.append {a a' b b' : List Sent} (h : SameMail σ a a') (g : SameMail σ b b') : SameMail σ (a ++ b) (a' ++ b') where
  inboxes c := by rw [inbox_append, inbox_append, h.inboxes, g.inboxes]
  nobodyElse m hm := (List.mem_append.mp hm).elim (h.nobodyElse m) (g.nobodyElse m)
  inOrder hm := by rw [h.inOrder hm, g.inOrder hm, List.map_append]

theorem _root_.Ygo.Spec.SameMail.one (hσ : Function.Injective σ) (c : ClientId) (e : Event) : SameMail σ [(c, e)] [(σ c, e)] where
  inboxes d := by rw [inbox_cons, inbox_cons]; simp only [hσ.eq_iff]; rfl
  nobodyElse m hm := ⟨c, by rw [List.mem_singleton.mp hm]⟩
  inOrder _ := rfl

theorem _root_.Ygo.Spec.SameMail.cons (hσ : Function.Injective σ) (c : ClientId) (e : Event) {b b' : List Sent} (g : SameMail σ b b') :
    SameMail σ ((c, e) :: b) ((σ c, e) :: b') := (SameMail.one hσ c e).append g

theorem count_map_inj (hσ : Function.Injective σ) (c : ClientId) (l : List ClientId) : (l.map σ).count (σ c) = l.count c := by
  induction l with
  | nil => rfl
  | cons x xs ih => simp [List.count_cons, ih, hσ.eq_iff]

theorem _root_.Ygo.Spec.SameRoom.sendAll (hσ : Function.Injective σ) {r r' : Room} (h : SameRoom σ r r') (e : Event) :
    SameMail σ (r.sendAll e) (r'.sendAll e) := by
  have hp : (recipients r').Perm ((recipients r).map σ) := by
    unfold recipients
    rw [h.teams, h.teams, teamClients_slotOf, teamClients_slotOf, List.map_append, List.map_append]
    exact h.spectators.append_left _
  refine ⟨fun c => ?_, fun m hm => ?_, fun hm => ?_⟩
  · rw [inbox_sendAll, inbox_sendAll, hp.count_eq, count_map_inj hσ]
  · obtain ⟨d, hd, rfl⟩ := List.mem_map.mp hm
    obtain ⟨c, _, e⟩ := List.mem_map.mp (hp.mem_iff.mp hd)
    exact ⟨c, e.symm⟩
  · unfold Room.sendAll
    rw [h.teams, h.teams, teamClients_slotOf, teamClients_slotOf, h.inOrder hm, List.map_map]
    simp only [← List.map_append, List.map_map]
    rfl

theorem _root_.Ygo.Spec.SameRoom.setSlot {r r' : Room} (h : SameRoom σ r r') (t : Fin 2) (p : Nat) (s : Slot) :
    SameRoom σ (r.setSlot t p s) (r'.setSlot t p (slotOf σ s)) where
  options := h.options
  host := h.host
  teams t' := by
    simp only [Room.setSlot]
    split
    · rw [h.teams, List.map_set]
    · exact h.teams t'
  spectators := h.spectators
  inOrder := h.inOrder
  state := h.state
  rng := h.rng
  used := h.used

/-! ## Calls -/

theorem _root_.Ygo.Spec.SameRoom.findEmpty {r r' : Room} (h : SameRoom σ r r') : r'.findEmpty = r.findEmpty := by
  unfold Room.findEmpty
  rw [h.options, h.teams, h.teams]
  simp only [scanTeam_slotOf]

theorem sameLife_same {r r' : Room} {out out' : List Sent} (h : SameRoom σ r r') (g : SameMail σ out out') :
    SameLife σ (.ok (r, out)) (.ok (r', out')) := ⟨h, g⟩

theorem sameLife_bind {α : Type} (x : Res α) {f g : α → Res (Room × List Sent)} (h : ∀ a, SameLife σ (f a) (g a)) : SameLife σ (x >>= f) (x >>= g) := by
  cases x with
  | error e => rfl
  | ok a => exact h a

theorem enterConfiguring_names {env env' : Env} (he : SameEnv σ env env') (hσ : Function.Injective σ) {r r' : Room} (h : SameRoom σ r r')
    (hs : r.spectators.Pairwise (· < ·)) (hs' : r'.spectators.Pairwise (· < ·)) (c : ClientId) :
    SameLife σ (r.enterConfiguring env c) (r'.enterConfiguring env' (σ c)) := by
  unfold Room.enterConfiguring
  rw [h.findEmpty, h.options, h.host, h.teams, h.teams, teamDuelists_slotOf he hσ, teamDuelists_slotOf he hσ, h.spectators.length_eq, List.length_map]
  refine sameLife_bind _ fun x => ?_
  match x with
  | some (t, p) =>
    dsimp only
    rw [h.teams, List.getElem?_map]
    cases (r.teams t)[p]? with
    | none => rfl
    | some s =>
      have hr := h.setSlot t p { s with client := some c }
      refine sameLife_same hr (.cons hσ _ _ ?_)
      have hh : (r'.setSlot t p { slotOf σ s with client := some (σ c) }).host = σ (r.setSlot t p { s with client := some c }).host := h.host
      rw [hh, show duelist env' (σ (r.setSlot t p { s with client := some c }).host) t p (σ c) false =
        duelist env (r.setSlot t p { s with client := some c }).host t p c false by simp only [duelist, he.users, hσ.eq_iff]]
      exact hr.sendAll hσ _
  | none =>
    dsimp only
    by_cases hc : r.host = c
    · rw [massert_false (by simp [hc]), massert_false (by simp [hc])]; rfl
    · rw [massert_true hc, massert_true (show σ r.host ≠ σ c from fun e => hc (hσ e))]
      have hr : SameRoom σ { r with spectators := setInsert c r.spectators }
          { r' with options := r.options, host := σ r.host, spectators := setInsert (σ c) r'.spectators } :=
        { options := rfl, host := rfl, teams := h.teams, spectators := setInsert_names hσ c hs hs' h.spectators,
          inOrder := fun hm => by dsimp only; rw [h.inOrder hm, setInsert_order hm], state := h.state, rng := h.rng, used := h.used }
      refine sameLife_same hr (.cons hσ _ _ ?_)
      rw [(setInsert_names hσ c hs hs' h.spectators).length_eq, List.length_map]
      exact hr.sendAll hσ _

theorem findPeer_names (hσ : Function.Injective σ) {r r' : Room} (h : SameRoom σ r r') (c : ClientId) :
    r'.findPeer (σ c) = (r.findPeer c).map fun o => o.map fun x => (x.1, x.2.1, slotOf σ x.2.2) := by
  unfold Room.findPeer
  rw [h.options, h.teams, h.teams]
  cases r.options.maxDuelists[0]? with
  | none => rfl
  | some m0 =>
    simp only [orUb, bind_ok]
    rw [findInTeam_slotOf hσ]
    cases findInTeam c m0 (r.teams 0) 0 with
    | some x => rfl
    | none =>
      cases r.options.maxDuelists[1]? with
      | none => rfl
      | some m1 =>
        simp only [Option.map_none, bind_ok]
        rw [findInTeam_slotOf hσ]
        cases findInTeam c m1 (r.teams 1) 0 <;> rfl

theorem updateDeck_names {env env' : Env} (he : SameEnv σ env env') (hσ : Function.Injective σ) {r r' : Room} (h : SameRoom σ r r') (c : ClientId) (d : Deck) :
    SameLife σ (r.updateDeck env c d) (r'.updateDeck env' (σ c) d) := by
  unfold Room.updateDeck
  rw [findPeer_names hσ h, h.options, he.checks]
  cases r.findPeer c with
  | error e => rfl
  | ok o =>
    match o with
    | none => exact sameLife_same h .nil
    | some (t, p, s) =>
      simp only [Except.map, Option.map_some, bind_ok]
      cases (env.check r.options.banlistId d).1
      · exact sameLife_same (h.setSlot t p { s with deck := {}, deckValid := false }) (.one hσ _ _)
      · exact sameLife_same (h.setSlot t p { s with deck := d, deckValid := true }) (.one hσ _ _)

theorem readyStatus_names {env env' : Env} (he : SameEnv σ env env') (hσ : Function.Injective σ) {r r' : Room} (h : SameRoom σ r r') (c : ClientId) (b : Bool) :
    SameLife σ (r.readyStatus env c b) (r'.readyStatus env' (σ c) b) := by
  unfold Room.readyStatus
  rw [findPeer_names hσ h]
  cases r.findPeer c with
  | error e => rfl
  | ok o =>
    match o with
    | none => exact sameLife_same h .nil
    | some (t, p, s) =>
      simp only [Except.map, Option.map_some, bind_ok]
      by_cases h1 : b = s.ready
      · rw [if_pos h1, if_pos (show b = (slotOf σ s).ready from h1)]; exact sameLife_same h .nil
      · by_cases h2 : b = true ∧ s.deckValid = false
        · rw [if_neg h1, if_neg (show ¬ b = (slotOf σ s).ready from h1), if_pos h2, if_pos (show b = true ∧ (slotOf σ s).deckValid = false from h2)]
          exact sameLife_same h .nil
        · rw [if_neg h1, if_neg (show ¬ b = (slotOf σ s).ready from h1), if_neg h2, if_neg (show ¬ (b = true ∧ (slotOf σ s).deckValid = false) from h2)]
          have hr := h.setSlot t p { s with ready := b }
          refine sameLife_same hr ?_
          have hh : (r'.setSlot t p { slotOf σ s with ready := b }).host =
            σ (r.setSlot t p { s with ready := b }).host := h.host
          rw [hh, show duelist env' (σ (r.setSlot t p { s with ready := b }).host) t p (σ c) b =
            duelist env (r.setSlot t p { s with ready := b }).host t p c b by simp only [duelist, he.users, hσ.eq_iff]]
          exact hr.sendAll hσ _

theorem teamLeader_names {r r' : Room} (h : SameRoom σ r r') (t : Fin 2) : r'.teamLeader t = (r.teamLeader t).map σ := by
  unfold Room.teamLeader
  rw [h.teams, teamClients_slotOf, List.head?_map]
  cases (teamClients (r.teams t)).head? <;> rfl

theorem _root_.Ygo.Spec.SameRoom.decides {r r' : Room} (h : SameRoom σ r r') (o : Option ClientId) (u : Nat) :
    SameRoom σ { r with state := .deciding o, used := u } { r' with state := .deciding (o.map σ), used := u } :=
  { options := h.options, host := h.host, teams := h.teams, spectators := h.spectators, inOrder := h.inOrder, state := rfl, rng := h.rng, used := rfl }

theorem enterDeciding_names (hσ : Function.Injective σ) {r r' : Room} (h : SameRoom σ r r') (fuel : Nat) :
    SameLife σ (r.enterDeciding fuel) (r'.enterDeciding fuel) := by
  obtain ⟨o, x, ts, ss, st, rng, u⟩ := r
  obtain ⟨o', x', ts', ss', st', rng', u'⟩ := r'
  obtain rfl : o' = o := h.options
  obtain rfl : x' = σ x := h.host
  obtain rfl : rng' = rng := h.rng
  obtain rfl : u' = u := h.used
  have hd := h.decides none u'
  have hsent := hd.sendAll hσ .decidingEntering
  unfold Room.enterDeciding
  dsimp only at hd hsent ⊢
  split
  · exact sameLife_same (h.decides (some x) u') (hsent.append (.one hσ _ _))
  split
  · exact sameLife_same hd hsent
  split
  · cases Room.rollDice rng' fuel u' with
    | none => rfl
    | some y =>
      obtain ⟨rolls, w, v⟩ := y
      have hu := h.decides none v
      have hl := teamLeader_names hu (if w = 0 then 0 else 1)
      dsimp only [Option.map_none] at hl hu ⊢
      rw [hl]
      generalize Room.teamLeader _ (if w = 0 then 0 else 1) = l
      cases l with
      | error e => rfl
      | ok l => exact sameLife_same (h.decides (some l) v) ((hsent.append (hu.sendAll hσ _)).append (.one hσ _ _))
  split
  · have hu := h.decides none (u' + 1)
    have hl := teamLeader_names hu (if rng' u' % 2 = 0 then 0 else 1)
    dsimp only [Option.map_none] at hl hu ⊢
    rw [hl]
    generalize Room.teamLeader _ (if rng' u' % 2 = 0 then 0 else 1) = l
    cases l with
    | error e => rfl
    | ok l => exact sameLife_same (h.decides (some l) _) ((hsent.append (hu.sendAll hσ _)).append (.one hσ _ _))
  split
  · rfl
  · exact sameLife_same hd hsent

theorem canStart_names {r r' : Room} (h : SameRoom σ r r') : r'.canStart = r.canStart := by
  unfold Room.canStart
  rw [h.teams, h.teams, teamCanStart_slotOf, teamCanStart_slotOf]

theorem step_names {env env' : Env} (he : SameEnv σ env env') (hσ : Function.Injective σ) {r r' : Room} (h : SameRoom σ r r')
    (hs : r.spectators.Pairwise (· < ·)) (hs' : r'.spectators.Pairwise (· < ·)) (fuel : Nat) (c : Room.Call) :
    SameLife σ (r.step env fuel c) (r'.step env' fuel (callBy σ c)) := by
  have hst := h.state
  match c with
  | .enter c =>
    simp only [Room.step, callBy, Room.enter]
    match hx : r.state with
    | .mono => rw [hx] at hst; rw [hst]; rfl
    | .configuring => rw [hx] at hst; rw [hst]; exact enterConfiguring_names he hσ h hs hs' c
    | .deciding o => rw [hx] at hst; rw [hst]; exact sameLife_same h .nil
  | .visit c s =>
    simp only [Room.step, callBy, Room.visit]
    match hx : r.state, s with
    | .mono, _ => rw [hx] at hst; rw [hst]; exact sameLife_same h .nil
    | .configuring, .unset => rw [hx] at hst; rw [hst]; exact sameLife_same h .nil
    | .configuring, .deciding _ => rw [hx] at hst; rw [hst]; exact sameLife_same h .nil
    | .deciding _, .unset => rw [hx] at hst; rw [hst]; exact sameLife_same h .nil
    | .deciding _, .configuring _ => rw [hx] at hst; rw [hst]; exact sameLife_same h .nil
    | .configuring, .configuring g =>
      rw [hx] at hst; rw [hst]
      simp only [stateOf]
      match g with
      | .unset => exact sameLife_same h .nil
      | .updateDeck d => exact updateDeck_names he hσ h c d
      | .readyStatus b => exact readyStatus_names he hσ h c b
      | .startDueling _ =>
        simp only [Room.signalConfiguring, Room.startDueling]
        rw [h.host, canStart_names h]
        by_cases hc : c = r.host
        · rw [if_neg (show ¬ c ≠ r.host from fun e => e hc), if_neg (show ¬ σ c ≠ σ r.host from fun e => e (by rw [hc]))]
          split
          · exact sameLife_same h .nil
          · exact enterDeciding_names hσ h fuel
        · rw [if_pos hc, if_pos (show σ c ≠ σ r.host from fun e => hc (hσ e))]
          exact sameLife_same h .nil
    | .deciding _, .deciding g =>
      rw [hx] at hst; rw [hst]
      simp only [stateOf]
      match g with
      | .unset => exact sameLife_same h .nil
      | .teamGoingFirst n =>
        simp only [Room.signalDeciding]
        rw [h.host, h.options]
        simp only [ne_eq, hσ.eq_iff]
        split
        · exact sameLife_same h .nil
        split
        · exact sameLife_same h .nil
        · exact sameLife_same h (h.sendAll hσ _)

theorem run_names {env env' : Env} (he : SameEnv σ env env') (hσ : Function.Injective σ) (fuel : Nat) (cs : List Room.Call) {r r' : Room} (h : SameRoom σ r r')
    (hok : RoomOk env r) (hok' : RoomOk env' r') : SameLife σ (r.run env fuel cs) (r'.run env' fuel (cs.map (callBy σ))) := by
  induction cs generalizing r r' with
  | nil => exact sameLife_same h .nil
  | cons c cs ih =>
    simp only [Room.run, List.map_cons]
    have hs := step_names he hσ h hok.sorted hok'.sorted fuel c
    generalize h1 : r.step env fuel c = x at hs ⊢
    generalize h2 : r'.step env' fuel (callBy σ c) = y at hs ⊢
    match x, y, hs with
    | .error _, .error _, hs => exact hs
    | .ok (q, o), .ok (q', o'), hs =>
      simp only [bind_ok]
      have hn := ih hs.1 (hok.of_move (hok.move h1)) (hok'.of_move (hok'.move h2))
      generalize q.run env fuel cs = x at hn ⊢
      generalize q'.run env' fuel (cs.map (callBy σ)) = y at hn ⊢
      match x, y, hn with
      | .error _, .error _, hn => exact hn
      | .ok (_, _), .ok (_, _), hn => exact sameLife_same hn.1 (hs.2.append hn.2)

theorem init_names {env env' : Env} (he : SameEnv σ env env') (hσ : Function.Injective σ) (rng : Nat → Nat) (host : ClientId) (o : Options) :
    SameLife σ (Room.init env rng host o) (Room.init env' rng (σ host) o) := by
  have h : SameRoom σ ⟨clampOptions o, host, fun _ => List.replicate 3 {}, [], .configuring, rng, 0⟩
      ⟨clampOptions o, σ host, fun _ => List.replicate 3 {}, [], .configuring, rng, 0⟩ :=
    { options := rfl, host := rfl, teams := fun _ => rfl, spectators := .refl _, inOrder := fun _ => rfl, state := rfl, rng := rfl, used := rfl }
  exact enterConfiguring_names he hσ h .nil .nil host

theorem life_names {env env' : Env} (he : SameEnv σ env env') (hσ : Function.Injective σ) (rng : Nat → Nat) (host : ClientId) (o : Options) (fuel : Nat)
    (cs : List Room.Call) : SameLife σ (roomLife env rng host o fuel cs) (roomLife env' rng (σ host) o fuel (cs.map (callBy σ))) := by
  unfold roomLife
  have hs := init_names he hσ rng host o
  generalize h1 : Room.init env rng host o = x at hs ⊢
  generalize h2 : Room.init env' rng (σ host) o = y at hs ⊢
  match x, y, hs with
  | .error _, .error _, hs => exact hs
  | .ok (q, a), .ok (q', a'), hs =>
    simp only [bind_ok]
    have hn := run_names he hσ fuel cs hs.1 (lived_ok (.start h1)) (lived_ok (.start h2))
    generalize q.run env fuel cs = x at hn ⊢
    generalize q'.run env' fuel (cs.map (callBy σ)) = y at hn ⊢
    match x, y, hn with
    | .error _, .error _, hn => exact hn
    | .ok (_, _), .ok (_, _), hn => exact sameLife_same hn.1 (hs.2.append hn.2)

end Ygo
