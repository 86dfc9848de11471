import Verif.Lemmas.Accept
import Verif.Spec.Loose

/-!
# What is accepted behind the remaining message numbers
-/

set_option linter.unusedSimpArgs false

namespace Ygo
open P Spec Shape

/-- What is accepted behind the message number `b` is taken for a message. -/
def Takes {α : Type} (b : UInt8) (p : P α) : Prop := ∀ s a r, p s = .ok (a, r) → ∃ used, Accepted used ∧ b :: s = used ++ r

theorem Shape.takes {α X : Type} {b : UInt8} {n : Nat} {p : P α} {B : X → List UInt8} {F : X → Prop} (h : Shape p B F) (hb : b.toNat = n)
    (g : ∀ x, F x → Accepted (UInt8.ofNat n :: B x)) : Takes b p := by
  intro s a r e
  obtain ⟨x, hx, rfl⟩ := h _ _ _ e
  refine ⟨_, g x hx, ?_⟩
  rw [← hb, UInt8.ofNat_toNat, List.cons_append]

theorem Tells.takes {α : Type} {b : UInt8} {p : P α} (h : Tells b p) : Takes b p := by
  intro s a r e
  obtain ⟨m, hm, e⟩ := h s a r e
  exact ⟨m.bytes, .message m hm, e⟩

namespace Takes

theorem aiName {b : UInt8} (hb : b.toNat = 163) : Takes b (do P.skip ((← P.read 2) + 1) : P Unit) := by
  intro s a r h
  have e : b = 163 := UInt8.toNat_inj.mp hb
  obtain ⟨n, t, h1, h2⟩ := bind_eq_ok_iff.mp h
  clear h
  obtain ⟨hn, rfl⟩ := read_inv h1
  obtain ⟨bs, hl, rfl⟩ := skip_bytes h2
  obtain ⟨name, last, rfl⟩ : ∃ xs x, bs = xs ++ [x] := by
    have : bs ≠ [] := by intro h; rw [h] at hl; simp at hl
    exact ⟨bs.dropLast, bs.getLast this, (List.dropLast_concat_getLast this).symm⟩
  have hn' : name.length = n := by simpa using hl
  refine ⟨_, .aiName name last (by rw [hn']; omega), ?_⟩
  rw [hn', e]
  simp

theorem tagSwap {b : UInt8} (hb : b.toNat = 161) : Takes b tagSwapEvent := by
  intro s a r h0
  have e : b = 161 := UInt8.toNat_inj.mp hb
  have pairs : Shape' (do P.skip 4; P.skip 4 : P Unit) CoreMsg.pair32 := weaken (Shape.bind s32 fun _ => s32) fun x _ => ⟨x, trivial, rfl⟩
  unfold tagSwapEvent at h0
  obtain ⟨_, t1, h1, h2⟩ := bind_eq_ok_iff.mp h0
  clear h0
  obtain ⟨p, _, rfl⟩ := Shape.readCon _ _ _ h1
  clear h1
  obtain ⟨_, t2, h3, h4⟩ := bind_eq_ok_iff.mp h2
  clear h2
  obtain ⟨main, _, rfl⟩ := r32 _ _ _ h3
  clear h3
  obtain ⟨ex, t3, h5, h6⟩ := bind_eq_ok_iff.mp h4
  clear h4
  obtain ⟨hex, rfl⟩ := read_inv h5
  clear h5
  obtain ⟨_, t4, h7, h8⟩ := bind_eq_ok_iff.mp h6
  clear h6
  obtain ⟨ep, _, rfl⟩ := s32 _ _ _ h7
  clear h7
  obtain ⟨ha, t5, h9, h10⟩ := bind_eq_ok_iff.mp h8
  clear h8
  obtain ⟨hha, rfl⟩ := read_inv h9
  clear h9
  obtain ⟨_, t6, h11, h12⟩ := bind_eq_ok_iff.mp h10
  clear h10
  obtain ⟨dt, _, rfl⟩ := s32 _ _ _ h11
  clear h11
  obtain ⟨cards, ⟨hl, _⟩, rfl⟩ := Shape.map (Shape.skipMany pairs _) _ _ _ h12
  have h1 : (UInt32.ofNat ex).toNat = ex := by simp; omega
  have h2 : (UInt32.ofNat ha).toNat = ha := by simp; omega
  refine ⟨_, .tagSwap p main (UInt32.ofNat ex) ep (UInt32.ofNat ha) dt cards ?_, ?_⟩
  · rw [hl, UInt32.toNat_add, h1, h2]
  · rw [e]
    simp only [b32, h1, h2]
    simp

theorem reloadCell (con : Int) (loc seq : Nat) : Shape (reloadZone con loc seq) FieldCell.bytes Marked := by
  intro s a r h
  unfold reloadZone at h
  obtain ⟨v, t, h1, h2⟩ := bind_eq_ok_iff.mp h
  clear h
  obtain ⟨hv, rfl⟩ := read_inv h1
  dsimp only at h2
  by_cases h0 : v = 0
  · rw [if_pos h0] at h2
    simp only [pure_run, Except.ok.injEq, Prod.mk.injEq] at h2
    obtain ⟨_, rfl⟩ := h2
    exact ⟨.empty, trivial, by subst h0; rfl⟩
  · rw [if_neg h0] at h2
    obtain ⟨⟨pos, mats⟩, _, rfl⟩ := Shape.bind s8 (fun _ => Shape.map r32) _ _ _ h2
    refine ⟨.card (UInt8.ofNat v) pos mats, ?_, ?_⟩
    · intro e
      have := congrArg UInt8.toNat e
      simp at this
      omega
    · have : v % 256 = v := by omega
      simp [FieldCell.bytes, b8, le, this]

theorem cells (f : Nat → P (List Place)) (hf : ∀ i, Shape (f i) FieldCell.bytes Marked) (is : List Nat) :
    Shape (P.forEach f is) (List.flatMap FieldCell.bytes) (fun zs => zs.length = is.length ∧ ∀ z ∈ zs, Marked z) := by
  induction is with
  | nil =>
    intro s a r h
    obtain ⟨_, _, h⟩ := Shape.pure [] _ _ _ h
    exact ⟨[], ⟨rfl, by simp⟩, h⟩
  | cons i is ih =>
    refine weaken (Shape.bind (hf i) fun _ => Shape.map ih) ?_
    rintro ⟨z, zs⟩ ⟨hz, hl, hzs⟩
    refine ⟨z :: zs, ⟨by simp [hl], ?_⟩, by simp⟩
    intro y hy
    rcases List.mem_cons.mp hy with rfl | hy
    · exact hz
    · exact hzs y hy

theorem reloadSide (con : Int) : Shape (reloadController con) FieldSide.bytes LooseSide :=
  weaken (Shape.bind r32 fun _ => Shape.bind (cells _ (reloadCell con Loc.monsterZone) (List.range 7)) fun _ =>
    Shape.bind (cells _ (reloadCell con Loc.spellZone) (List.range 8)) fun _ => Shape.bind r32 fun _ => Shape.bind r32 fun _ =>
    Shape.bind r32 fun _ => Shape.bind r32 fun _ => Shape.bind r32 fun _ => Shape.map s32)
    fun ⟨lp, ms, ss, a, b, c, d, e, f⟩ ⟨_, ⟨h1, h2⟩, ⟨h3, h4⟩, _⟩ =>
      ⟨⟨lp, ms, ss, a, b, c, d, e, f⟩, ⟨by simpa using h1, by simpa using h3, h2, h4⟩, by simp [FieldSide.bytes]⟩

theorem reloadField {b : UInt8} (hb : b.toNat = 162) : Takes b reloadEvent :=
  (Shape.bind r32 fun _ => Shape.bind (reloadSide 0) fun _ => Shape.bind (reloadSide 1) fun _ => Shape.map (Shape.listOf Shape.readChain)).takes hb
    fun ⟨f, s0, s1, cs⟩ ⟨_, h0, h1, hc⟩ => by
      have := Accepted.reloadField f s0 s1 cs h0 h1 hc
      simpa [CoreMsg.bytes] using this

/-! ## Queries -/

theorem readField {n : Nat} {f : QField} (h : f.flag = n) (hn : n < 2 ^ 32) :
    Shape (readField f) QueryItem.payload (fun i => i.flag.toNat = n ∧ ∀ sz, LooseFits (sz, i)) := by
  subst h
  cases f
  case code => exact weaken r32 fun x _ => ⟨.code x, ⟨rfl, fun _ => trivial⟩, rfl⟩
  case position => exact weaken r32 fun x _ => ⟨.position x, ⟨rfl, fun _ => trivial⟩, rfl⟩
  case «alias» => exact weaken r32 fun x _ => ⟨.alias_ x, ⟨rfl, fun _ => trivial⟩, rfl⟩
  case type => exact weaken r32 fun x _ => ⟨.type x, ⟨rfl, fun _ => trivial⟩, rfl⟩
  case level => exact weaken (Shape.map r32) fun x _ => ⟨.level x, ⟨rfl, fun _ => trivial⟩, rfl⟩
  case xyzRank => exact weaken r32 fun x _ => ⟨.rank x, ⟨rfl, fun _ => trivial⟩, rfl⟩
  case «attribute» => exact weaken r32 fun x _ => ⟨.attribute_ x, ⟨rfl, fun _ => trivial⟩, rfl⟩
  case race => exact weaken r64 fun x _ => ⟨.race x, ⟨rfl, fun _ => trivial⟩, rfl⟩
  case atk => exact weaken (Shape.map r32) fun x _ => ⟨.attack x, ⟨rfl, fun _ => trivial⟩, rfl⟩
  case def_ => exact weaken (Shape.map r32) fun x _ => ⟨.defense x, ⟨rfl, fun _ => trivial⟩, rfl⟩
  case baseAtk => exact weaken (Shape.map r32) fun x _ => ⟨.baseAttack x, ⟨rfl, fun _ => trivial⟩, rfl⟩
  case baseDef => exact weaken (Shape.map r32) fun x _ => ⟨.baseDefense x, ⟨rfl, fun _ => trivial⟩, rfl⟩
  case equippedTo => exact weaken Shape.readLocInfo fun x _ => ⟨.equipCard x, ⟨rfl, fun _ => trivial⟩, rfl⟩
  case owner => exact weaken Shape.readCon fun x _ => ⟨.owner x, ⟨rfl, fun _ => trivial⟩, rfl⟩
  case status => exact weaken r32 fun x _ => ⟨.status x, ⟨rfl, fun _ => trivial⟩, rfl⟩
  case isPublic => exact weaken Shape.readBool fun x _ => ⟨.isPublic x, ⟨rfl, fun _ => trivial⟩, rfl⟩
  case pendLScale => exact weaken r32 fun x _ => ⟨.lscale x, ⟨rfl, fun _ => trivial⟩, rfl⟩
  case pendRScale => exact weaken r32 fun x _ => ⟨.rscale x, ⟨rfl, fun _ => trivial⟩, rfl⟩
  case isHidden => exact weaken Shape.readBool fun x _ => ⟨.isHidden x, ⟨rfl, fun _ => trivial⟩, rfl⟩
  case cover => exact weaken r32 fun x _ => ⟨.cover x, ⟨rfl, fun _ => trivial⟩, rfl⟩
  case linkRate => exact absurd hn (by decide)
  case linkArrow => exact absurd hn (by decide)

/-- Four bytes are two pairs. -/
theorem pair16 : Shape' (P.read 4) (fun c : UInt16 × UInt16 => b16 c.1 ++ b16 c.2) := by
  intro s v r h
  have h : P.skip (2 + 2) s = .ok ((), r) := by
    unfold P.read at h
    split at h
    · next h' =>
      simp only [Except.ok.injEq, Prod.mk.injEq] at h
      unfold P.skip
      rw [if_pos h', h.2]
    · cases h
  obtain ⟨x, _, rfl⟩ := skip_add s16 s16 _ _ _ h
  exact ⟨x, trivial, rfl⟩

theorem queryField {size n : Nat} (hs : size < 2 ^ 16) (hn : n < 2 ^ 32) (he : n ≠ 0x80000000) (v : QueryRead) :
    Shape (queryField size n v) QueryItem.payload (fun i => i.flag.toNat = n ∧ LooseFits (UInt16.ofNat size, i)) := by
  unfold Ygo.queryField
  split
  · next h =>
    subst h
    exact weaken (Shape.map (Shape.listOf Shape.readLocInfo)) fun x hx => ⟨.targetCard x, ⟨rfl, hx⟩, rfl⟩
  split
  · next h =>
    subst h
    have hc : Shape' readCounter (fun c : UInt16 × UInt16 => b16 c.1 ++ b16 c.2) :=
      Shape.map pair16
    exact weaken (Shape.map (Shape.listOf hc)) fun x hx => ⟨.counters x, ⟨rfl, hx⟩, rfl⟩
  split
  · next h =>
    subst h
    exact weaken (Shape.bind r32 fun _ => Shape.map r32) fun x _ => ⟨.link x.1 x.2, ⟨rfl, trivial⟩, rfl⟩
  split
  · next h =>
    subst h
    exact weaken (Shape.map (Shape.listOf r32)) fun x hx => ⟨.overlayCard x, ⟨rfl, hx⟩, rfl⟩
  next h1 h2 h3 h4 =>
  split
  · next f hf =>
    have e : f.flag = n := by simpa using List.find?_some hf
    exact weaken (Shape.map (readField e hn)) fun x hx => ⟨x, ⟨hx.1, hx.2 _⟩, rfl⟩
  · next hf =>
    intro s a r h0
    obtain ⟨_, t, h5, h6⟩ := bind_eq_ok_iff.mp h0
    clear h0
    obtain ⟨h5, rfl⟩ := lift_eq_ok.mp h5
    obtain ⟨_, t, h7, h8⟩ := bind_eq_ok_iff.mp h6
    clear h6
    simp only [pure_run, Except.ok.injEq, Prod.mk.injEq] at h8
    obtain ⟨_, rfl⟩ := h8
    obtain ⟨bs, hl, rfl⟩ := skip_bytes h7
    have h9 : 4 ≤ size := by
      unfold guardUb at h5
      split at h5
      · assumption
      · cases h5
    have e : (UInt32.ofNat n).toNat = n := by simp; omega
    refine ⟨.unknown (UInt32.ofNat n) bs, ⟨e, ?_, ?_⟩, rfl⟩
    · rw [e]
      rw [List.find?_eq_none] at hf
      have hall : ∀ f : QField, f.flag ≠ n := by
        intro f
        have := hf f (by cases f <;> decide)
        simpa using this
      intro hm
      simp only [QueryItem.flags, List.mem_cons, List.not_mem_nil, or_false] at hm
      have g := fun f => hall f
      have a1 := g .code
      have a2 := g .position
      have a3 := g .«alias»
      have a4 := g .type
      have a5 := g .level
      have a6 := g .xyzRank
      have a7 := g .«attribute»
      have a8 := g .race
      have a9 := g .atk
      have b1 := g .def_
      have b2 := g .baseAtk
      have b3 := g .baseDef
      have b4 := g .equippedTo
      have b5 := g .owner
      have b6 := g .status
      have b7 := g .isPublic
      have b8 := g .pendLScale
      have b9 := g .pendRScale
      have c1 := g .isHidden
      have c2 := g .cover
      simp only [QField.flag] at a1 a2 a3 a4 a5 a6 a7 a8 a9 b1 b2 b3 b4 b5 b6 b7 b8 b9 c1 c2
      omega
    · show (UInt16.ofNat size).toNat = 4 + bs.length
      rw [hl]
      simp
      omega

theorem queryLoop (fuel : Nat) (v : QueryRead) : Shape (queryLoop fuel v) LooseQuery.bytes LooseQuery.Fits := by
  induction fuel generalizing v with
  | zero => intro s a r h; cases h
  | succ n ih =>
    intro s a r h0
    unfold Ygo.queryLoop at h0
    obtain ⟨size, t, h1, h2⟩ := bind_eq_ok_iff.mp h0
    clear h0
    obtain ⟨hs, rfl⟩ := read_inv h1
    clear h1
    obtain ⟨flag, t, h3, h4⟩ := bind_eq_ok_iff.mp h2
    clear h2
    obtain ⟨hf, rfl⟩ := read_inv h3
    clear h3
    have e16 : b16 (UInt16.ofNat size) = le 2 size := by
      have : size % 65536 = size := by omega
      simp [b16, this]
    split at h4
    · next h =>
      subst h
      simp only [pure_run, Except.ok.injEq, Prod.mk.injEq] at h4
      obtain ⟨_, rfl⟩ := h4
      exact ⟨⟨[], UInt16.ofNat size⟩, (fun x hx => nomatch hx), by simp [LooseQuery.bytes, e16]⟩
    · next h =>
      obtain ⟨w, t, h5, h6⟩ := bind_eq_ok_iff.mp h4
      clear h4
      obtain ⟨i, ⟨e, hi⟩, rfl⟩ := queryField (by omega) (by omega) h v _ _ _ h5
      obtain ⟨q, hq, rfl⟩ := ih w _ _ _ h6
      refine ⟨⟨(UInt16.ofNat size, i) :: q.fields, q.size⟩, ?_, ?_⟩
      · intro x hx
        rcases List.mem_cons.mp hx with rfl | hx
        · exact hi
        · exact hq x hx
      · simp [LooseQuery.bytes, looseField, e16, b32, e]

theorem encodeOneQuery : Shape encodeOneQuery LooseQuery.bytes LooseQuery.Fits := fun s => queryLoop (s.length + 1) _ s

theorem updateCard {b : UInt8} (hb : b.toNat = 7) : Takes b (do
    let place ← readLocSSeq
    let v ← Ygo.encodeOneQuery
    return Outcome.queries (withOverlays place v)) :=
  (Shape.bind Shape.readLocSSeq fun _ => Shape.map encodeOneQuery).takes hb fun ⟨l, q⟩ ⟨_, h⟩ => by
    have := Accepted.updateCard l q h
    simpa using this

theorem first (q : LooseQuery) (s : List UInt8) : ∃ r, P.read 2 (q.bytes ++ s) = .ok (q.first.toNat, r) := by
  obtain ⟨fields, size⟩ := q
  cases fields with
  | nil => exact ⟨_, by simp only [LooseQuery.bytes, List.flatMap_nil, List.nil_append, List.append_assoc]; exact read_b16 size _⟩
  | cons x xs =>
    exact ⟨_, by simp only [LooseQuery.bytes, looseField, List.flatMap_cons, List.append_assoc]; exact read_b16 x.1 _⟩

theorem updateLoop (con : Int) (loc total fuel i readSize : Nat) (s : List UInt8) (a : List Query) (r : List UInt8)
    (h : updateLoop con loc total fuel i readSize s = .ok (a, r)) (hs : readSize + s.length < 2 ^ 32) :
    ∃ slots : List (Option LooseQuery), (∀ q ∈ slots, LooseSlotFits q) ∧ total ≤ readSize + (slots.flatMap looseSlot).length ∧
      (∀ xs x, slots = xs ++ [x] → readSize + (xs.flatMap looseSlot).length < total) ∧ s = slots.flatMap looseSlot ++ r := by
  induction fuel generalizing i readSize s a r with
  | zero => cases h
  | succ n ih =>
    unfold Ygo.updateLoop at h
    split at h
    · next hlt =>
      have key : ∀ (o : Option LooseQuery) (t : List UInt8) (a : List Query) (i : Nat), LooseSlotFits o → s = looseSlot o ++ t →
          Ygo.updateLoop con loc total n i ((readSize + (looseSlot o).length) % 2 ^ 32) t = .ok (a, r) →
          ∃ slots : List (Option LooseQuery), (∀ q ∈ slots, LooseSlotFits q) ∧ total ≤ readSize + (slots.flatMap looseSlot).length ∧
            (∀ xs x, slots = xs ++ [x] → readSize + (xs.flatMap looseSlot).length < total) ∧ s = slots.flatMap looseSlot ++ r := by
        rintro o t a i ho rfl h
        rw [List.length_append] at hs
        rw [Nat.mod_eq_of_lt (by omega)] at h
        obtain ⟨slots, h1, h2, h3, rfl⟩ := ih _ _ _ _ _ h (by omega)
        refine ⟨o :: slots, ?_, ?_, ?_, ?_⟩
        · intro q hq
          rcases List.mem_cons.mp hq with rfl | hq
          · exact ho
          · exact h1 q hq
        · rw [List.flatMap_cons, List.length_append]
          omega
        · intro xs x e
          cases xs with
          | nil => simpa using hlt
          | cons y ys =>
            simp only [List.cons_append, List.cons.injEq] at e
            obtain ⟨rfl, e⟩ := e
            have := h3 ys x e
            rw [List.flatMap_cons, List.length_append]
            omega
        · rw [List.flatMap_cons, List.append_assoc]
      obtain ⟨size, t, h1, h2⟩ := bind_eq_ok_iff.mp h
      clear h
      unfold P.peek at h1
      split at h1
      · next v u hv =>
        simp only [Except.ok.injEq, Prod.mk.injEq] at h1
        obtain ⟨rfl, rfl⟩ := h1
        split at h2
        · next h0 =>
          subst h0
          obtain ⟨_, rfl⟩ := read_inv hv
          obtain ⟨_, t, h3, h4⟩ := bind_eq_ok_iff.mp h2
          clear h2
          rw [skip_append (length_le 2 0)] at h3
          simp only [Except.ok.injEq, Prod.mk.injEq, true_and] at h3
          subst h3
          exact key none _ _ _ trivial rfl h4
        · next h0 =>
          obtain ⟨⟨w, used⟩, t, h3, h4⟩ := bind_eq_ok_iff.mp h2
          clear h2
          unfold P.counted at h3
          split at h3
          · next w' t' hq =>
            simp only [Except.ok.injEq, Prod.mk.injEq] at h3
            obtain ⟨⟨rfl, rfl⟩, rfl⟩ := h3
            obtain ⟨q, hf, rfl⟩ := encodeOneQuery _ _ _ hq
            obtain ⟨rest, t2, h5, h6⟩ := bind_eq_ok_iff.mp h4
            clear h4
            simp only [pure_run, Except.ok.injEq, Prod.mk.injEq] at h6
            obtain ⟨_, rfl⟩ := h6
            have hl : (q.bytes ++ t').length - t'.length = (looseSlot (some q)).length := by
              rw [List.length_append]; simp [looseSlot]
            rw [hl] at h5
            refine key (some q) t' rest _ ⟨hf, ?_⟩ rfl h5
            obtain ⟨r', hr⟩ := first q t'
            rw [hr] at hv
            simp only [Except.ok.injEq, Prod.mk.injEq] at hv
            intro e
            rw [e] at hv
            exact h0 hv.1.symm
          · cases h3
      · cases h1
    · next hlt =>
      simp only [pure_run, Except.ok.injEq, Prod.mk.injEq] at h
      obtain ⟨_, rfl⟩ := h
      exact ⟨[], by simp, by simp; omega, by intro xs x e; simp at e, by simp⟩

theorem updateData {b : UInt8} (hb : b.toNat = 6) (s : List UInt8) (hs : s.length < 2 ^ 32) (a : Outcome) (r : List UInt8)
    (h : (do
      let con ← readCon
      let loc ← P.read 1
      let total ← P.read 4
      let qs ← updateAll con loc total
      return Outcome.queries qs : P Outcome) s = .ok (a, r)) : ∃ used, Accepted used ∧ b :: s = used ++ r := by
  have e : b = 6 := UInt8.toNat_inj.mp hb
  obtain ⟨c, t1, h1, h2⟩ := bind_eq_ok_iff.mp h
  clear h
  obtain ⟨con, _, rfl⟩ := Shape.readCon _ _ _ h1
  clear h1
  obtain ⟨l, t2, h3, h4⟩ := bind_eq_ok_iff.mp h2
  clear h2
  obtain ⟨loc, _, rfl⟩ := r8 _ _ _ h3
  clear h3
  obtain ⟨total, t3, h5, h6⟩ := bind_eq_ok_iff.mp h4
  clear h4
  obtain ⟨ht, rfl⟩ := read_inv h5
  clear h5
  obtain ⟨qs, t4, h7, h8⟩ := bind_eq_ok_iff.mp h6
  clear h6
  simp only [pure_run, Except.ok.injEq, Prod.mk.injEq] at h8
  obtain ⟨_, rfl⟩ := h8
  simp only [List.length_append] at hs
  obtain ⟨slots, g1, g2, g3, rfl⟩ := updateLoop _ _ _ _ _ _ _ _ _ h7 (by omega)
  have et : (UInt32.ofNat total).toNat = total := by simp; omega
  refine ⟨_, .updateData con loc (UInt32.ofNat total) slots g1 (by rw [et]; omega) ?_, ?_⟩
  · intro xs x hx
    have := g3 xs x hx
    rw [et]
    omega
  · rw [e]
    simp [b32, et]

end Takes

/-- What any case accepts. -/
theorem encodeCase_takes {C : Type} [EncodeContext C] (c : C) (b : UInt8) (k : Kind) (h : Kind.ofByte b.toNat = some k)
    (hu : k ∉ [Kind.selectCounter, .selectSum, .announceCard, .announceCardFilter]) (s : List UInt8) (hs : s.length < 2 ^ 32) (a : Outcome × C)
    (r : List UInt8) (he : encodeCase c k s = .ok (a, r)) : ∃ used, Accepted used ∧ b :: s = used ++ r := by
  by_cases hk : k ∈ lenient
  · have hm := Kind.mem_table h
    simp only [lenient, List.mem_cons, List.not_mem_nil, or_false] at hk
    rcases hk with rfl | rfl | rfl | rfl | rfl <;>
      simp only [Kind.table, List.mem_cons, Prod.mk.injEq, reduceCtorEq, and_false, false_or, or_false, and_true, List.not_mem_nil] at hm
    · obtain ⟨x, t, h1, h2⟩ := bind_eq_ok_iff.mp (show ((do
        let con ← readCon
        let loc ← P.read 1
        let total ← P.read 4
        let qs ← updateAll con loc total
        return Outcome.queries qs : P Outcome) >>= fun x => Pure.pure (x, c)) s = _ from he)
      simp only [pure_run, Except.ok.injEq, Prod.mk.injEq] at h2
      obtain ⟨_, rfl⟩ := h2
      exact Takes.updateData hm s hs _ _ h1
    · obtain ⟨x, t, h1, h2⟩ := bind_eq_ok_iff.mp (show ((do
        let place ← readLocSSeq
        let v ← Ygo.encodeOneQuery
        return Outcome.queries (withOverlays place v) : P Outcome) >>= fun x => Pure.pure (x, c)) s = _ from he)
      simp only [pure_run, Except.ok.injEq, Prod.mk.injEq] at h2
      obtain ⟨_, rfl⟩ := h2
      exact Takes.updateCard hm _ _ _ h1
    · obtain ⟨x, t, h1, h2⟩ := bind_eq_ok_iff.mp (show (tagSwapEvent >>= fun x => Pure.pure (x, c)) s = _ from he)
      simp only [pure_run, Except.ok.injEq, Prod.mk.injEq] at h2
      obtain ⟨_, rfl⟩ := h2
      exact Takes.tagSwap hm _ _ _ h1
    · obtain ⟨x, t, h1, h2⟩ := bind_eq_ok_iff.mp (show (reloadEvent >>= fun x => Pure.pure (x, c)) s = _ from he)
      simp only [pure_run, Except.ok.injEq, Prod.mk.injEq] at h2
      obtain ⟨_, rfl⟩ := h2
      exact Takes.reloadField hm _ _ _ h1
    · obtain ⟨x, t, h1, h2⟩ := bind_eq_ok_iff.mp (show ((do P.skip ((← P.read 2) + 1) : P Unit) >>= fun _ => Pure.pure (Outcome.swallowed, c)) s = _ from he)
      simp only [pure_run, Except.ok.injEq, Prod.mk.injEq] at h2
      obtain ⟨_, rfl⟩ := h2
      exact Takes.aiName hm _ _ _ h1
  · exact (encodeCase_tells c b k h hk hu).takes _ _ _ he

end Ygo
