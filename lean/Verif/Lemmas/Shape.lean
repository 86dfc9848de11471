import Verif.Lemmas.Ext
import Verif.Spec.Core

/-!
# What accepted input looks like

`Shape p B F`: whenever `p` succeeds, what it has moved past are the bytes `B x` of some `x` with `F x`.
-/

set_option linter.unusedSimpArgs false

namespace Ygo
open P Spec

def Shape {α X : Type} (p : P α) (B : X → List UInt8) (F : X → Prop) : Prop := ∀ s a r, p s = .ok (a, r) → ∃ x, F x ∧ s = B x ++ r

/-- The bytes are those of some `x`, without a condition. -/
abbrev Shape' {α X : Type} (p : P α) (B : X → List UInt8) : Prop := Shape p B fun _ => True

/-- Little-endian bytes and their value. -/
theorem le_leVal : ∀ bs : List UInt8, le bs.length (leVal bs) = bs
  | [] => rfl
  | b :: bs => by
    have h1 : (b.toNat + 256 * leVal bs) % 256 = b.toNat := by have := b.toNat_lt; omega
    have h2 : (b.toNat + 256 * leVal bs) / 256 = leVal bs := by have := b.toNat_lt; omega
    show UInt8.ofNat ((b.toNat + 256 * leVal bs) % 256) :: le bs.length ((b.toNat + 256 * leVal bs) / 256) = _
    rw [h1, h2, le_leVal bs, UInt8.ofNat_toNat]

theorem leVal_lt : ∀ bs : List UInt8, leVal bs < 256 ^ bs.length
  | [] => by decide
  | b :: bs => by
    have := leVal_lt bs
    have := b.toNat_lt
    show b.toNat + 256 * leVal bs < 256 ^ (bs.length + 1)
    rw [Nat.pow_succ]
    omega

/-- What `read` has read. -/
theorem read_inv {n : Nat} {s r : List UInt8} {v : Nat} (h : P.read n s = .ok (v, r)) : v < 256 ^ n ∧ s = le n v ++ r := by
  unfold P.read at h
  split at h
  · next hn =>
    simp only [Except.ok.injEq, Prod.mk.injEq] at h
    obtain ⟨rfl, rfl⟩ := h
    have hl : (s.take n).length = n := by rw [List.length_take]; omega
    have h1 := le_leVal (s.take n)
    have h2 := leVal_lt (s.take n)
    rw [hl] at h1 h2
    exact ⟨h2, by rw [h1, List.take_append_drop]⟩
  · cases h

theorem skip_inv {n : Nat} {s r : List UInt8} {u : Unit} (h : P.skip n s = .ok (u, r)) : ∃ v, P.read n s = .ok (v, r) := by
  unfold P.skip at h
  unfold P.read
  split at h
  · next hn =>
    simp only [Except.ok.injEq, Prod.mk.injEq, true_and] at h
    exact ⟨_, by rw [if_pos hn, h]⟩
  · cases h

theorem skip_bytes {n : Nat} {s r : List UInt8} {u : Unit} (h : P.skip n s = .ok (u, r)) : ∃ bs : List UInt8, bs.length = n ∧ s = bs ++ r := by
  unfold P.skip at h
  split at h
  · next hn =>
    simp only [Except.ok.injEq, Prod.mk.injEq, true_and] at h
    exact ⟨s.take n, by rw [List.length_take]; omega, by rw [← h, List.take_append_drop]⟩
  · cases h

namespace Shape
variable {α β X Y : Type}

theorem pure (a : α) : Shape' (Pure.pure a : P α) (fun _ : Unit => []) := by
  intro s b r h
  simp only [pure_run, Except.ok.injEq, Prod.mk.injEq] at h
  exact ⟨(), trivial, by simp [h.2]⟩

theorem bind {p : P α} {f : α → P β} {B : X → List UInt8} {F : X → Prop} {B' : Y → List UInt8} {F' : Y → Prop} (hp : Shape p B F)
    (hf : ∀ a, Shape (f a) B' F') : Shape (p >>= f) (fun x : X × Y => B x.1 ++ B' x.2) (fun x => F x.1 ∧ F' x.2) := by
  intro s b r h
  obtain ⟨a, t, h1, h2⟩ := bind_eq_ok_iff.mp h
  obtain ⟨x, hx, rfl⟩ := hp _ _ _ h1
  obtain ⟨y, hy, rfl⟩ := hf a _ _ _ h2
  exact ⟨(x, y), ⟨hx, hy⟩, by simp⟩

/-- A reader whose result is only converted. -/
theorem map {p : P α} {g : α → β} {B : X → List UInt8} {F : X → Prop} (hp : Shape p B F) : Shape (p >>= fun a => Pure.pure (g a)) B F := by
  intro s b r h
  obtain ⟨a, t, h1, h2⟩ := bind_eq_ok_iff.mp h
  simp only [pure_run, Except.ok.injEq, Prod.mk.injEq] at h2
  obtain ⟨_, rfl⟩ := h2
  exact hp _ _ _ h1

theorem weaken {p : P α} {B : X → List UInt8} {F : X → Prop} {B' : Y → List UInt8} {F' : Y → Prop} (hp : Shape p B F)
    (h : ∀ x, F x → ∃ y, F' y ∧ B x = B' y) : Shape p B' F' := by
  intro s a r e
  obtain ⟨x, hx, rfl⟩ := hp _ _ _ e
  obtain ⟨y, hy, hb⟩ := h x hx
  exact ⟨y, hy, by rw [hb]⟩

theorem lift (x : Res α) : Shape' (P.lift x) (fun _ : Unit => []) := by
  intro s a r h
  obtain ⟨_, rfl⟩ := lift_eq_ok.mp h
  exact ⟨(), trivial, rfl⟩

theorem r8 : Shape' (P.read 1) b8 := by
  intro s v r h
  obtain ⟨hv, rfl⟩ := read_inv h
  refine ⟨UInt8.ofNat v, trivial, ?_⟩
  have : v % 256 = v := by omega
  simp [b8, le, this]

theorem r16 : Shape' (P.read 2) b16 := by
  intro s v r h
  obtain ⟨hv, rfl⟩ := read_inv h
  refine ⟨UInt16.ofNat v, trivial, ?_⟩
  have : v % 65536 = v := by omega
  simp [b16, this]

theorem r32 : Shape' (P.read 4) b32 := by
  intro s v r h
  obtain ⟨hv, rfl⟩ := read_inv h
  refine ⟨UInt32.ofNat v, trivial, ?_⟩
  have : v % 4294967296 = v := by omega
  simp [b32, this]

theorem r64 : Shape' (P.read 8) b64 := by
  intro s v r h
  obtain ⟨hv, rfl⟩ := read_inv h
  refine ⟨UInt64.ofNat v, trivial, ?_⟩
  have : v % 18446744073709551616 = v := by omega
  simp [b64, this]

theorem ofSkip {n : Nat} {B : X → List UInt8} (h : Shape' (P.read n) B) : Shape' (P.skip n) B := by
  intro s u r e
  obtain ⟨v, hv⟩ := skip_inv e
  exact h _ _ _ hv

theorem s8 : Shape' (P.skip 1) b8 := ofSkip r8
theorem s16 : Shape' (P.skip 2) b16 := ofSkip r16
theorem s32 : Shape' (P.skip 4) b32 := ofSkip r32
theorem s64 : Shape' (P.skip 8) b64 := ofSkip r64

theorem readBool : Shape' readBool b8 := map r8
theorem readCon : Shape' readCon b8 := map r8
theorem readEffect : Shape' readEffect b64 := map r64

theorem readLocInfo : Shape' readLocInfo LocInfo.bytes :=
  weaken (bind readCon fun _ => bind r8 fun _ => bind r32 fun _ => map r32)
    fun ⟨a, b, c, d⟩ _ => ⟨⟨a, b, c, d⟩, trivial, by simp [LocInfo.bytes]⟩
theorem readLocSeq : Shape' readLocSeq CardLoc.bytes :=
  weaken (bind readCon fun _ => bind r8 fun _ => map r32) fun ⟨a, b, c⟩ _ => ⟨⟨a, b, c⟩, trivial, by simp [CardLoc.bytes]⟩
theorem readLocSSeq : Shape' readLocSSeq CardLocS.bytes :=
  weaken (bind readCon fun _ => bind r8 fun _ => map r8) fun ⟨a, b, c⟩ _ => ⟨⟨a, b, c⟩, trivial, by simp [CardLocS.bytes]⟩
theorem readLocL : Shape' (readLoc 4 4 none) CardLocL.bytes :=
  weaken (bind readCon fun _ => bind r32 fun _ => map r32) fun ⟨a, b, c⟩ _ => ⟨⟨a, b, c⟩, trivial, by simp [CardLocL.bytes]⟩

theorem skipMore {m n : Nat} {s r : List UInt8} {u : Unit} (h : P.skip (m + n) s = .ok (u, r)) :
    (P.skip m >>= fun _ => P.skip n) s = .ok ((), r) := by
  unfold P.skip at h
  split at h
  · simp only [Except.ok.injEq, Prod.mk.injEq, true_and] at h
    have h1 : P.skip m s = .ok ((), s.drop m) := if_pos (by omega)
    rw [bind_run_ok h1]
    show (if n ≤ (s.drop m).length then _ else _) = _
    rw [if_pos (by rw [List.length_drop]; omega), List.drop_drop, h]
  · cases h

theorem skip_add {m n : Nat} {B : X → List UInt8} {F : X → Prop} {B' : Y → List UInt8} {F' : Y → Prop} (hm : Shape (P.skip m) B F)
    (hn : Shape (P.skip n) B' F') : Shape (P.skip (m + n)) (fun x : X × Y => B x.1 ++ B' x.2) (fun x => F x.1 ∧ F' x.2) := by
  intro s u r h
  exact bind hm (fun _ => hn) _ _ _ (skipMore h)

/-- A reader and then something that does not move. -/
theorem andStay {p : P α} {f : α → P β} {B : X → List UInt8} {F : X → Prop} (hp : Shape p B F)
    (hf : ∀ a, Shape' (f a) (fun _ : Unit => [])) : Shape (p >>= f) B F :=
  weaken (bind hp hf) fun x h => ⟨x.1, h.1, by simp⟩

/-- Moving past a `loc_info`. -/
theorem sLoc : Shape' (P.skip 10) LocInfo.bytes :=
  weaken (skip_add s8 (skip_add s8 (skip_add s32 s32)) : Shape (P.skip (1 + (1 + (4 + 4)))) _ _)
    fun ⟨a, b, c, d⟩ _ => ⟨⟨a, b, c, d⟩, trivial, by simp [LocInfo.bytes]⟩

theorem many {p : P α} {B : X → List UInt8} {F : X → Prop} (hp : Shape p B F) (n : Nat) :
    Shape (P.many p n) (List.flatMap B) (fun xs => xs.length = n ∧ ∀ x ∈ xs, F x) := by
  induction n with
  | zero =>
    intro s a r h
    obtain ⟨_, _, h⟩ := pure [] _ _ _ h
    exact ⟨[], ⟨rfl, by simp⟩, h⟩
  | succ n ih =>
    intro s a r h
    obtain ⟨⟨x, xs, _⟩, ⟨hx, ⟨hl, hxs⟩, _⟩, rfl⟩ := bind hp (fun _ => bind ih fun _ => pure _) _ _ _ h
    refine ⟨x :: xs, ⟨by simp [hl], ?_⟩, by simp⟩
    intro y hy
    rcases List.mem_cons.mp hy with rfl | hy
    · exact hx
    · exact hxs y hy

theorem skipMany {p : P Unit} {B : X → List UInt8} {F : X → Prop} (hp : Shape p B F) (n : Nat) :
    Shape (P.skipMany p n) (List.flatMap B) (fun xs => xs.length = n ∧ ∀ x ∈ xs, F x) := by
  induction n with
  | zero =>
    intro s a r h
    obtain ⟨_, _, h⟩ := pure () _ _ _ h
    exact ⟨[], ⟨rfl, by simp⟩, h⟩
  | succ n ih =>
    intro s a r h
    obtain ⟨⟨x, xs⟩, ⟨hx, hl, hxs⟩, rfl⟩ := bind hp (fun _ => ih) _ _ _ h
    refine ⟨x :: xs, ⟨by simp [hl], ?_⟩, by simp⟩
    intro y hy
    rcases List.mem_cons.mp hy with rfl | hy
    · exact hx
    · exact hxs y hy

/-- A count and then something that many elements of which follow. -/
theorem counted4 {f : Nat → P β} {B : X → List UInt8} {F : X → Prop} (hf : ∀ n, Shape (f n) (List.flatMap B) fun xs => xs.length = n ∧ ∀ x ∈ xs, F x) :
    Shape (P.read 4 >>= f) (list32 B) (fun xs => xs.length < 2 ^ 32 ∧ ∀ x ∈ xs, F x) := by
  intro s a r h
  obtain ⟨n, t, h1, h2⟩ := bind_eq_ok_iff.mp h
  obtain ⟨hn, rfl⟩ := read_inv h1
  obtain ⟨xs, ⟨hl, hx⟩, rfl⟩ := hf n _ _ _ h2
  exact ⟨xs, ⟨by rw [hl]; omega, hx⟩, by simp [list32, hl]⟩

theorem listOf {p : P α} {B : X → List UInt8} (hp : Shape' p B) : Shape (listOf p) (list32 B) (fun xs => xs.length < 2 ^ 32) :=
  weaken (counted4 fun n => many hp n) fun xs h => ⟨xs, h.1, rfl⟩

theorem skipList {p : P Unit} {B : X → List UInt8} (hp : Shape' p B) :
    Shape (P.read 4 >>= fun n => P.skipMany p n) (list32 B) (fun xs => xs.length < 2 ^ 32) :=
  weaken (counted4 fun n => skipMany hp n) fun xs h => ⟨xs, h.1, rfl⟩

theorem slistOf {p : P α} {B : X → List UInt8} (hp : Shape' p B) : Shape (slistOf p) (list8 B) (fun xs => xs.length < 2 ^ 8) := by
  intro s a r h
  obtain ⟨n, t, h1, h2⟩ := bind_eq_ok_iff.mp h
  obtain ⟨hn, rfl⟩ := read_inv h1
  obtain ⟨xs, ⟨hl, hx⟩, rfl⟩ := many hp n _ _ _ h2
  exact ⟨xs, by show xs.length < 2 ^ 8; omega, by simp [list8, hl]⟩

theorem coded {p : P α} {B : X → List UInt8} (hp : Shape' p B) : Shape' (coded p) (CoreMsg.withCode B) :=
  weaken (bind s32 fun _ => hp) fun x _ => ⟨x, trivial, rfl⟩

theorem readActCard {p : P Place} {B : X → List UInt8} (hp : Shape' p B) : Shape' (readActCard p) (Activable.bytes B) :=
  weaken (bind s32 fun _ => bind hp fun _ => bind readEffect fun _ => map s8)
    fun ⟨a, b, c, d⟩ _ => ⟨⟨a, b, c, d⟩, trivial, by simp [Activable.bytes]⟩

theorem readChain : Shape' readChain Link.bytes :=
  weaken (bind s32 fun _ => bind readLocInfo fun _ => bind readLocSeq fun _ => map readEffect)
    fun ⟨a, b, c, d⟩ _ => ⟨⟨a, b, c, d⟩, trivial, by simp [Link.bytes]⟩

theorem readSelectable : Shape' readSelectable (CoreMsg.withCode LocInfo.bytes) :=
  weaken (bind r32 fun _ => map readLocInfo) fun x _ => ⟨x, trivial, rfl⟩

end Shape

/-- What is accepted behind the message number `b` is a message. -/
def Tells {α : Type} (b : UInt8) (p : P α) : Prop := ∀ s a r, p s = .ok (a, r) → ∃ m : CoreMsg, m.Fits ∧ b :: s = m.bytes ++ r

theorem Shape.tells {α X : Type} {b : UInt8} {n : Nat} {p : P α} {B : X → List UInt8} {F : X → Prop} (h : Shape p B F) (hb : b.toNat = n)
    (g : ∀ x, F x → ∃ m : CoreMsg, m.Fits ∧ UInt8.ofNat n :: B x = m.bytes) : Tells b p := by
  intro s a r e
  obtain ⟨x, hx, rfl⟩ := h _ _ _ e
  obtain ⟨m, hm, hg⟩ := g x hx
  refine ⟨m, hm, ?_⟩
  rw [← hg, ← hb, UInt8.ofNat_toNat, List.cons_append]

theorem Kind.mem_table {n : Nat} {k : Kind} (h : Kind.ofByte n = some k) : (n, k) ∈ Kind.table := by
  unfold Kind.ofByte at h
  rw [Option.map_eq_some_iff] at h
  obtain ⟨e, he, rfl⟩ := h
  have h1 := List.find?_some he
  have h2 := List.mem_of_find?_eq_some he
  simp only [decide_eq_true_eq] at h1
  rw [← h1]
  exact h2

end Ygo
