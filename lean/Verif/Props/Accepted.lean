import Verif.Lemmas.LooseOk
import Verif.Props.Encode

/-!
# What is accepted is a message (C75)

C34 says what the encoder makes of the core's messages. Here it is the other way round: whatever bytes the encoder makes something of,
they are a message of the core, apart from the exceptions that `Accepted` lists.
-/

set_option linter.unusedSimpArgs false

namespace Ygo.Props
open Ygo Ygo.Spec P

section
variable {C : Type} [EncodeContext C]

/-- Either the first byte was not known, or a case has moved to `rest`. -/
theorem accepted_split (c : C) (data : List UInt8) (r : Encoded) (c' : C) (h : encodeOne c data = .ok (r, c')) (hu : r.state ≠ .unknown) :
    ∃ b s k o rest, data = b :: s ∧ Kind.ofByte b.toNat = some k ∧ k ∉ [Kind.selectCounter, .selectSum, .announceCard, .announceCardFilter] ∧
      encodeCase c k s = .ok ((o, c'), rest) ∧ r.bytesRead = data.length - rest.length := by
  obtain ⟨o, rest, hb, rfl⟩ := encodeOne_eq h
  obtain ⟨b, s, rfl, e⟩ := Tight.body_split c _ _ _ hb
  by_cases hs : b.toNat ∈ supported
  · have hk : ∀ b : Fin 256, b.val ∈ supported → ∃ k, Kind.ofByte b.val = some k ∧
        k ∉ [Kind.selectCounter, .selectSum, .announceCard, .announceCardFilter] := by decide +kernel
    obtain ⟨k, h1, h2⟩ := hk b.toFin hs
    rw [show b.toFin.val = b.toNat from rfl] at h1
    rw [e, h1] at hb
    exact ⟨b, s, k, o, rest, rfl, h1, h2, hb, rfl⟩
  · rw [C34_unknown c b s hs] at h
    simp only [Except.ok.injEq, Prod.mk.injEq, Encoded.mk.injEq] at h
    exact absurd h.1.1.symm hu

/-- **C75.** What is accepted behind a message number other than those of updates, tag swaps, reloaded fields and AI names are exactly the
bytes of a message of the core. -/
theorem C75_message (c : C) (data : List UInt8) (r : Encoded) (c' : C) (h : encodeOne c data = .ok (r, c')) (hu : r.state ≠ .unknown)
    (hl : ∀ b ∈ data.head?, b ∉ [6, 7, 161, 162, 163]) : ∃ m : CoreMsg, m.Fits ∧ data.take r.bytesRead = m.bytes := by
  obtain ⟨b, s, k, o, rest, rfl, hk, hn, he, hr⟩ := accepted_split c data r c' h hu
  have hk' : k ∉ lenient := by
    intro hm
    apply hl b rfl
    have := Kind.mem_table hk
    simp only [lenient, List.mem_cons, List.not_mem_nil, or_false] at hm
    simp only [List.mem_cons, List.not_mem_nil, or_false]
    rcases hm with rfl | rfl | rfl | rfl | rfl <;>
      simp only [Kind.table, List.mem_cons, Prod.mk.injEq, reduceCtorEq, and_false, false_or, or_false, and_true, List.not_mem_nil] at this
    · exact .inl (UInt8.toNat_inj.mp this)
    · exact .inr (.inl (UInt8.toNat_inj.mp this))
    · exact .inr (.inr (.inl (UInt8.toNat_inj.mp this)))
    · exact .inr (.inr (.inr (.inl (UInt8.toNat_inj.mp this))))
    · exact .inr (.inr (.inr (.inr (UInt8.toNat_inj.mp this))))
  obtain ⟨m, hm, e⟩ := encodeCase_tells c b k hk hk' hn _ _ _ he
  refine ⟨m, hm, ?_⟩
  rw [hr, e, List.length_append, Nat.add_sub_cancel, List.take_left]

/-- **C75.** What is accepted at all. -/
theorem C75_accepted (c : C) (data : List UInt8) (hd : data.length ≤ 2 ^ 32) (r : Encoded) (c' : C) (h : encodeOne c data = .ok (r, c'))
    (hu : r.state ≠ .unknown) : Accepted (data.take r.bytesRead) := by
  obtain ⟨b, s, k, o, rest, rfl, hk, hn, he, hr⟩ := accepted_split c data r c' h hu
  obtain ⟨used, hm, e⟩ := encodeCase_takes c b k hk hn s (by rw [List.length_cons] at hd; omega) _ _ he
  rw [hr, e, List.length_append, Nat.add_sub_cancel, List.take_left]
  exact hm

theorem taken_of_body (c : C) {bs more : List UInt8} {o : Outcome} (hb : encodeBody c (bs ++ more) = .ok ((o, c), more))
    (ho : o.state ≠ .unknown) : ∃ r, encodeOne c (bs ++ more) = .ok (r, c) ∧ r.state ≠ .unknown ∧ r.bytesRead = bs.length := by
  unfold encodeOne
  rw [hb]
  exact ⟨_, rfl, ho, by simp⟩

/-- **C75.** The exceptions are all accepted, by any context. -/
theorem C75_taken (c : C) (bs : List UInt8) (h : Accepted bs) (hl : ∀ b ∈ bs.head?, b ∈ [6, 7, 161, 162, 163]) (hb : bs.length ≤ 2 ^ 32)
    (more : List UInt8) : ∃ r, encodeOne c (bs ++ more) = .ok (r, c) ∧ r.state ≠ .unknown ∧ r.bytesRead = bs.length := by
  cases h with
  | message m hf =>
    have hm : ∃ x, m.meaning = some x ∧ x.state ≠ .unknown := by
      cases m <;> simp [CoreMsg.bytes] at hl <;> exact ⟨_, rfl, by simp [CoreMsg.Meaning.state]⟩
    obtain ⟨x, hx, hs⟩ := hm
    exact taken_of_body c (body_meaning c m hf hx more) hs
  | aiName name last hn =>
    refine taken_of_body c (o := .swallowed) ?_ (by decide)
    simp only [List.append_assoc, List.cons_append, List.nil_append]
    refine body_swallowed c rfl rfl rfl rfl rfl ?_
    rw [bind_run_ok (read_cnt2 _ hn)]
    have := skip_append (bs := name ++ [last]) (n := name.length + 1) (s := more) (by simp)
    simpa using this
  | tagSwap p main extra extraP hand deckTop cards hc =>
    have e : ∃ o : Event, encodeBody c ([161] ++ b8 p ++ b32 main ++ b32 extra ++ b32 extraP ++ b32 hand ++ b32 deckTop ++
        cards.flatMap CoreMsg.pair32 ++ more) = .ok ((.event o, c), more) := by
      refine ⟨.board (.exchange { con := p.toNat, resize := [pileOp p.toNat Loc.mainDeck main.toNat,
        pileOp p.toNat Loc.extraDeck extra.toNat, pileOp p.toNat Loc.hand hand.toNat] }), ?_⟩
      simp only [List.append_assoc, List.cons_append, List.nil_append]
      refine body_event c rfl rfl ?_
      unfold tagSwapEvent
      rw [bind_run_ok (readCon_b8 _ _), bind_run_ok (read_b32 _ _), bind_run_ok (read_b32 _ _), bind_run_ok (skip_b32 _ _),
        bind_run_ok (read_b32 _ _), bind_run_ok (skip_b32 _ _), ← UInt32.toNat_add, ← hc]
      rw [bind_run_ok (skipMany_map cards more fun x _ s => by simp [CoreMsg.pair32, bind_run]), pure_run]
    obtain ⟨o, e⟩ := e
    exact taken_of_body c e (by simp [Outcome.event, Outcome.queries])
  | reloadField flags s0 s1 chains h0 h1 hc =>
    obtain ⟨⟨lp0, add0, resize0⟩, e0⟩ := reloadController_loose 0 s0 h0 (s1.bytes ++ (list32 Link.bytes chains ++ more))
    obtain ⟨⟨lp1, add1, resize1⟩, e1⟩ := reloadController_loose 1 s1 h1 (list32 Link.bytes chains ++ more)
    have e : ∃ o, reloadEvent (b32 flags ++ (s0.bytes ++ (s1.bytes ++ (list32 Link.bytes chains ++ more)))) = .ok (.event o, more) := by
      unfold reloadEvent
      have e2 := listOf_map hc more fun x _ s => readChain_bytes x s
      simp only [bind_run, read_b32, e0, e1, e2, pure_run]
      exact ⟨_, rfl⟩
    obtain ⟨o, e⟩ := e
    have e : encodeBody c ((CoreMsg.reloadField flags s0 s1 chains).bytes ++ more) = .ok ((.event o, c), more) := by
      simp only [CoreMsg.bytes, List.append_assoc, List.cons_append, List.nil_append]
      exact body_event c rfl rfl e
    exact taken_of_body c e (by simp [Outcome.event, Outcome.queries])
  | updateCard l q hq =>
    have e : ∃ o, encodeBody c ([7] ++ l.bytes ++ q.bytes ++ more) = .ok ((.queries o, c), more) := by
      refine ⟨withOverlays l.place ⟨QueryItem.data q.items, QueryItem.materials q.items⟩, ?_⟩
      simp only [List.append_assoc, List.cons_append, List.nil_append]
      refine body_query c rfl rfl rfl ?_
      rw [bind_run_ok (readLocSSeq_bytes l _), bind_run_ok (encodeOneQuery_loose q hq _)]
      rfl
    obtain ⟨o, e⟩ := e
    exact taken_of_body c e (by simp [Outcome.event, Outcome.queries])
  | updateData con loc total slots hq h1 h2 =>
    have hn : slots.length ≤ (slots.flatMap looseSlot).length := by
      clear hq h1 h2 hb hl
      induction slots with
      | nil => simp
      | cons o ss ih =>
        have := looseSlot_length o
        simp only [List.length_cons, List.flatMap_cons, List.length_append]; omega
    simp only [List.length_append, length_b32, length_b8, List.length_cons, List.length_nil] at hb
    obtain ⟨qs, h3⟩ := updateLoop_loose con.toNat loc.toNat total.toNat slots hq 0 0 ((slots.flatMap looseSlot ++ more).length + 1)
      (by simp only [List.length_append]; omega) (by omega) (fun xs x e => by have := h2 xs x e; omega) (by omega) more
    have h3 : updateAll con.toNat loc.toNat total.toNat (slots.flatMap looseSlot ++ more) = _ := h3
    have e : ∃ o, encodeBody c ([6] ++ b8 con ++ b8 loc ++ b32 total ++ slots.flatMap looseSlot ++ more) = .ok ((.queries o, c), more) := by
      refine ⟨qs, ?_⟩
      simp only [List.append_assoc, List.cons_append, List.nil_append]
      refine body_query c rfl rfl rfl ?_
      rw [bind_run_ok (readCon_b8 con _), bind_run_ok (read_b8 loc _), bind_run_ok (read_b32 _ _), bind_run_ok h3]
      rfl
    obtain ⟨o, e⟩ := e
    exact taken_of_body c e (by simp [Outcome.event, Outcome.queries])

/-- **C75.** The sizes in front of query fields that are known do not matter: the queries are those of the fields. -/
theorem C75_sizes_ignored (c : C) (l : CardLocS) (q : LooseQuery) (h : q.Fits) (hm : (QueryItem.materials (q.fields.map (·.2))).length < 2 ^ 31)
    (more : List UInt8) :
    encodeOne c ([7] ++ l.bytes ++ q.bytes ++ more) = .ok (⟨.ok, 1 + l.bytes.length + q.bytes.length,
      some { queries := QueryItem.queries l.place (q.fields.map (·.2)) }⟩, c) := by
  have e : encodeBody c ([7] ++ l.bytes ++ q.bytes ++ more) = .ok ((.queries (QueryItem.queries l.place (q.fields.map (·.2))), c), more) := by
    simp only [List.append_assoc, List.cons_append, List.nil_append]
    refine body_query c rfl rfl rfl ?_
    rw [bind_run_ok (readLocSSeq_bytes l _), bind_run_ok (encodeOneQuery_loose q h _), withOverlays_eq _ q.items hm]
    rfl
  unfold encodeOne
  rw [e]
  simp [Outcome.queries]
  omega

end

/-! ### The exceptions are no messages -/

/-- **C75.** An AI name that does not end with 0. -/
theorem C75_name_not_message (name : List UInt8) (last : UInt8) (hl : last ≠ 0) (m : CoreMsg) :
    m.bytes ≠ [163] ++ le 2 name.length ++ name ++ [last] := by
  intro h
  cases m <;> simp [CoreMsg.bytes] at h
  next n =>
    have := congrArg List.getLast? h
    simp [← List.append_assoc] at this
    exact hl this.symm

/-- **C75.** A code with 99 as its size. -/
theorem C75_size_not_message (l : CardLocS) (code : UInt32) (m : CoreMsg) :
    m.bytes ≠ [7] ++ l.bytes ++ (LooseQuery.mk [(99, .code code)] 4).bytes := by
  intro h
  cases m <;> simp [CoreMsg.bytes] at h
  next l' is =>
    have hlen := congrArg List.length h
    have h2 := (List.append_inj h (by simp [CardLocS.bytes])).2
    cases is with
    | nil =>
      have := congrArg List.length h2
      simp [QueryItem.blob, LooseQuery.bytes, looseField, QueryItem.payload] at this
    | cons i is =>
      have e : QueryItem.blob (i :: is) = le 2 (4 + i.payload.length) ++ (b32 i.flag ++ (i.payload ++ QueryItem.blob is)) := by
        simp [QueryItem.blob, QueryItem.bytes]
      have e' : (LooseQuery.mk [(99, .code code)] 4).bytes = le 2 99 ++ (b32 1 ++ (b32 code ++ (b16 4 ++ le 4 0x80000000))) := by
        simp [LooseQuery.bytes, looseField, QueryItem.payload, QueryItem.flag, b16]
      rw [e, e'] at h2
      have h3 := (List.append_inj h2 (by simp)).1
      have h4 := congrArg List.length h2
      simp only [List.length_append, length_le, length_b32, length_b16] at h4
      simp [le] at h3
      have h5 := congrArg UInt8.toNat h3.1
      have h6 := congrArg UInt8.toNat h3.2
      simp at h5 h6
      omega

/-- **C75.** A total size of 1 in front of an empty slot. -/
theorem C75_total_not_message (con loc : UInt8) (m : CoreMsg) : m.bytes ≠ [6] ++ b8 con ++ b8 loc ++ b32 1 ++ [0, 0] := by
  intro h
  cases m <;> simp [CoreMsg.bytes] at h
  next c l ss =>
    have h2 := (List.append_inj h rfl).2
    have h3 := (List.append_inj h2 rfl).2
    have h4 := List.append_inj h3 (by simp)
    have h5 := congrArg List.length h4.2
    rw [List.length_flatMap] at h5
    rw [h5] at h4
    simp [b32, le] at h4

/-- **C75.** A tag swap with 2^32 - 1 and 1 cards, none of which follow. -/
theorem C75_swap_not_message (p : UInt8) (main extraP deckTop : UInt32) (m : CoreMsg) :
    m.bytes ≠ [161] ++ b8 p ++ b32 main ++ b32 0xffffffff ++ b32 extraP ++ b32 1 ++ b32 deckTop := by
  intro h
  have hl := congrArg List.length h
  cases m <;> simp [CoreMsg.bytes] at h
  next p' m' ep dt ex ha =>
    have h2 := (List.append_inj h rfl).2
    have h3 := (List.append_inj h2 (by simp)).2
    have h4 := List.append_inj h3 (by simp)
    have h5 := (List.append_inj h4.2 (by simp)).2
    have h6 := List.append_inj h5 (by simp)
    simp only [CoreMsg.bytes, List.length_append, length_b32, length_b8, length_le, List.length_cons, List.length_nil] at hl
    have hx : ∀ xs : List (UInt32 × UInt32), (xs.flatMap CoreMsg.pair32).length = 8 * xs.length := by
      intro xs
      induction xs with
      | nil => rfl
      | cons x xs ih => simp only [List.flatMap_cons, List.length_append, CoreMsg.pair32, length_b32, ih, List.length_cons]; omega
    simp only [List.flatMap_append, List.length_append, hx] at hl
    have e : ha = [] := by
      rw [← List.length_eq_zero_iff]; omega
    rw [e] at h6
    simp [b32, le] at h6

/-! Each of these is accepted. -/
example : Accepted ([163] ++ le 2 1 ++ [65] ++ [66]) := .aiName [65] 66 (by decide)

example : (encodeOne BasicContext.init ([163] ++ le 2 1 ++ [65] ++ [66])).toOption.map (fun x => (x.1.state, x.1.bytesRead)) =
    some (.swallowed, 5) := by decide +kernel

example : Accepted ([7] ++ (CardLocS.mk 0 4 2).bytes ++ (LooseQuery.mk [(99, .code 1234)] 4).bytes) :=
  .updateCard _ _ (by intro x hx; simp at hx; subst hx; trivial)

example : Accepted ([6] ++ b8 0 ++ b8 4 ++ b32 1 ++ [0, 0]) :=
  .updateData 0 4 1 [none] (by simp [LooseSlotFits]) (by decide) (by
    intro xs x e
    obtain rfl : xs = [] := by
      have := congrArg List.length e
      simp at this
      exact this
    decide)

example : Accepted ([161] ++ b8 0 ++ b32 40 ++ b32 0xffffffff ++ b32 0 ++ b32 1 ++ b32 0) := by
  have := Accepted.tagSwap 0 40 0xffffffff 0 1 0 [] (by decide)
  simpa using this

/-! A damage message is accepted as such, with bytes behind it. -/
example : ∃ m : CoreMsg, m.Fits ∧ ((CoreMsg.damage 1 500).bytes ++ [9, 9]).take 6 = m.bytes :=
  C75_message BasicContext.init ((CoreMsg.damage 1 500).bytes ++ [9, 9]) _ _ rfl (by decide) (by decide)

end Ygo.Props
