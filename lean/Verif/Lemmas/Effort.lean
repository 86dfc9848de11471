import Verif.Lemmas.ProtobufRead
import Verif.Lemmas.Network
import Verif.Spec.Effort

/-!
# What is read is no more than its bytes

Every message within a message takes two bytes or more, every number one or more.
-/

set_option linter.unusedSimpArgs false

namespace Ygo.Pb
open Ygo Ygo.Spec

variable {M : Type} {S : M → List (Field M)}

/-- What a value that should be a message has. -/
def Val.obj : Val → Obj
  | .msg o => o
  | _ => Obj.empty

/-- Two for every message within a message and one for every number, down to a depth. -/
def nodes (S : M → List (Field M)) : Nat → M → Obj → Nat
  | 0, _, _ => 0
  | d + 1, m, o => ((S m).map fun f => ((o f.num).map fun v =>
      match f.ty with
      | .num _ => 1
      | .msg m' => 2 + nodes S d m' v.obj
      | _ => 0).sum).sum

/-- The same for one value. -/
def valNodes (S : M → List (Field M)) (d : Nat) (t : Ty M) (v : Val) : Nat :=
  match t with
  | .num _ => 1
  | .msg m' => 2 + nodes S d m' v.obj
  | _ => 0

/-- The same for one field. -/
def fieldNodes (S : M → List (Field M)) (d : Nat) (t : Ty M) (vs : List Val) : Nat := (vs.map (valNodes S d t)).sum

theorem nodes_succ (d : Nat) (m : M) (o : Obj) : nodes S (d + 1) m o = ((S m).map fun f => fieldNodes S d f.ty (o f.num)).sum := rfl

theorem fieldNodes_nil (d : Nat) (t : Ty M) : fieldNodes S d t [] = 0 := rfl

theorem fieldNodes_cons (d : Nat) (t : Ty M) (v : Val) (vs : List Val) :
    fieldNodes S d t (v :: vs) = valNodes S d t v + fieldNodes S d t vs := by simp [fieldNodes]

theorem fieldNodes_append (d : Nat) (t : Ty M) (vs ws : List Val) :
    fieldNodes S d t (vs ++ ws) = fieldNodes S d t vs + fieldNodes S d t ws := by simp [fieldNodes]

theorem nodes_empty : ∀ (d : Nat) (m : M), nodes S d m Obj.empty = 0
  | 0, _ => rfl
  | d + 1, m => by
    rw [nodes_succ]
    generalize S m = fs
    induction fs with
    | nil => rfl
    | cons f fs ih => rw [List.map_cons, List.sum_cons, ih]; rfl

/-- Changing one field. -/
theorem sum_changed {g h : Field M → Nat} {f : Field M} : ∀ {fs : List (Field M)}, fs.Pairwise (fun f f' => f.num < f'.num) → f ∈ fs →
    (∀ f' ∈ fs, f'.num ≠ f.num → g f' ≤ h f') → (fs.map g).sum + h f ≤ (fs.map h).sum + g f := by
  intro fs
  induction fs with
  | nil => intro _ hf; cases hf
  | cons f0 fs ih =>
    intro hp hf hg
    rw [List.pairwise_cons] at hp
    simp only [List.map_cons, List.sum_cons]
    rcases List.mem_cons.mp hf with rfl | hf
    · have : (fs.map g).sum ≤ (fs.map h).sum := by
        have hle : ∀ f' ∈ fs, g f' ≤ h f' := fun f' h' => hg f' (by simp [h']) (by have := hp.1 f' h'; omega)
        clear ih hg hp hf
        induction fs with
        | nil => exact Nat.le_refl _
        | cons f1 fs ih =>
          have h1 := hle f1 (by simp)
          have h2 := ih (fun f' h' => hle f' (by simp [h']))
          simp only [List.map_cons, List.sum_cons]
          omega
      omega
    · have h1 := ih hp.2 hf (fun f' h' => hg f' (by simp [h']))
      have h2 := hg f0 (by simp) (by have := hp.1 f hf; omega)
      omega

theorem nodes_put (hS : Described S) {d : Nat} {m : M} {f : Field M} (hf : f ∈ S m) (v : Val) (o : Obj) :
    nodes S (d + 1) m (o.put (S m) f v) + (if f.label = .rep then 0 else fieldNodes S d f.ty (o f.num)) ≤
      nodes S (d + 1) m o + valNodes S d f.ty v := by
  rw [nodes_succ, nodes_succ]
  have h := sum_changed (g := fun f' => fieldNodes S d f'.ty (o.put (S m) f v f'.num)) (h := fun f' => fieldNodes S d f'.ty (o f'.num))
    (hS m).1 hf (by
      intro f' hf' hne
      simp only [Obj.put]
      cases f.label <;> simp only [if_neg hne]
      · exact Nat.le_refl _
      · split
        · rw [fieldNodes_nil]; exact Nat.zero_le _
        · exact Nat.le_refl _
      · exact Nat.le_refl _)
  have hself : fieldNodes S d f.ty (o.put (S m) f v f.num) ≤ (if f.label = .rep then fieldNodes S d f.ty (o f.num) else 0) + valNodes S d f.ty v := by
    simp only [Obj.put]
    cases hl : f.label <;> simp only [if_true]
    · split
      · rw [fieldNodes_nil]; exact Nat.zero_le _
      · rw [fieldNodes_cons, fieldNodes_nil]; simp
    · rw [fieldNodes_cons, fieldNodes_nil]; simp
    · rw [fieldNodes_append, fieldNodes_cons, fieldNodes_nil]; simp
  split at hself <;> rename_i hl
  · rw [if_pos hl]; omega
  · rw [if_neg hl]; omega

theorem nodes_putAll (hS : Described S) {d : Nat} {m : M} {f : Field M} (hf : f ∈ S m) (vs : List Val) (o : Obj) :
    nodes S (d + 1) m (o.putAll f vs) ≤ nodes S (d + 1) m o + fieldNodes S d f.ty vs := by
  rw [nodes_succ, nodes_succ]
  have h := sum_changed (g := fun f' => fieldNodes S d f'.ty (o.putAll f vs f'.num)) (h := fun f' => fieldNodes S d f'.ty (o f'.num))
    (hS m).1 hf (by
      intro f' hf' hne
      simp only [Obj.putAll, if_neg hne]
      exact Nat.le_refl _)
  have hself : fieldNodes S d f.ty (o.putAll f vs f.num) = fieldNodes S d f.ty (o f.num) + fieldNodes S d f.ty vs := by
    simp only [Obj.putAll, if_true, fieldNodes_append]
  omega

theorem readPacked_length {s : Scalar} : ∀ {fuel : Nat} {bs : List Nat} {vs : List Val}, readPacked s fuel bs = some vs →
    vs.length ≤ bs.length := by
  intro fuel
  induction fuel with
  | zero =>
    intro bs vs h
    cases bs with
    | nil => simp [readPacked] at h; subst h; simp
    | cons b bs => simp [readPacked] at h
  | succ fuel ih =>
    intro bs vs h
    cases bs with
    | nil => simp [readPacked] at h; subst h; simp
    | cons b bs =>
      rw [readPacked] at h
      · cases hv : readU64 (b :: bs) with
        | none => simp [hv] at h
        | some x =>
          obtain ⟨n, r⟩ := x
          have hlen := (readU64_append [] hv).2.1
          simp only [hv, Option.bind_eq_bind, Option.bind_some] at h
          cases hr : readPacked s fuel r with
          | none => simp [hr] at h
          | some ws =>
            simp [hr] at h
            subst h
            have := ih hr
            simp only [List.length_cons] at *
            omega
      · simp

theorem fieldNodes_num (d : Nat) (s : Scalar) : ∀ vs : List Val, fieldNodes S d (.num s) vs = vs.length
  | [] => rfl
  | v :: vs => by rw [fieldNodes_cons, fieldNodes_num d s vs]; simp [valNodes]; omega

/-- A record adds no more than its bytes. -/
theorem record_nodes (hS : Described S) {k : Nat} {inner : M → List Nat → Obj → Option Obj} {m : M} {bs r : List Nat} {o o' : Obj}
    (h : record S k inner m bs o = some (r, o'))
    (hi : ∀ d m p o x, inner m p o = some x → nodes S d m x ≤ nodes S d m o + p.length) (d : Nat) :
    nodes S d m o' + r.length ≤ nodes S d m o + bs.length := by
  cases d with
  | zero =>
    have hr := (record_append (inner' := inner) [] h (fun _ _ _ _ _ _ hx => hx)).2.1
    simp only [nodes]; omega
  | succ d =>
  unfold record at h
  cases ht : readTag bs with
  | none => simp [ht] at h
  | some x =>
    obtain ⟨t, bs1⟩ := x
    obtain ⟨_, t2, _⟩ := readTag_append [] ht
    simp only [ht, Option.bind_eq_bind, Option.bind_some] at h
    have hskip : ∀ {w : Nat}, ((skip k (t / 8) w bs1).bind fun bs => some (bs, o)) = some (r, o') →
        nodes S (d + 1) m o' + r.length ≤ nodes S (d + 1) m o + bs.length := by
      intro w h
      cases hs : skip k (t / 8) w bs1 with
      | none => simp [hs] at h
      | some y =>
        have hl := (skip_append [] hs).2.1
        simp [hs] at h
        rw [← h.2, ← h.1]; omega
    split at h
    · simp at h
    cases hf : (S m).find? fun f => f.num == t / 8 with
    | none =>
      simp only [hf] at h
      exact hskip h
    | some f =>
      have hfm := List.mem_of_find?_eq_some hf
      simp only [hf] at h
      split at h
      · rename_i s hty hw
        cases hv : readU64 bs1 with
        | none => simp [hv] at h
        | some y =>
          obtain ⟨n, bs2⟩ := y
          have hl := (readU64_append [] hv).2.1
          simp [hv] at h
          obtain ⟨rfl, rfl⟩ := h
          have hp := nodes_put hS (d := d) hfm (.num (s.decode n)) o
          rw [show valNodes S d f.ty (.num (s.decode n)) = 1 by rw [hty]; rfl] at hp
          omega
      · rename_i s hty hw
        split at h
        · cases hv : readBlock bs1 with
          | none => simp [hv] at h
          | some y =>
            obtain ⟨n, bs2⟩ := y
            have hl := (readBlock_append [] hv).2.1
            simp only [hv, Option.bind_some] at h
            cases hp : readPacked s n.length n with
            | none => simp [hp] at h
            | some vs =>
              simp [hp] at h
              obtain ⟨rfl, rfl⟩ := h
              have h1 := nodes_putAll hS (d := d) hfm vs o
              rw [hty, fieldNodes_num] at h1
              have h2 := readPacked_length hp
              omega
        · exact hskip h
      · rename_i hty hw
        cases hv : readBlock bs1 with
        | none => simp [hv] at h
        | some y =>
          obtain ⟨n, bs2⟩ := y
          have hl := (readBlock_append [] hv).2.1
          simp only [hv, Option.bind_some] at h
          cases hp : readText n with
          | none => simp [hp] at h
          | some s =>
            simp [hp] at h
            obtain ⟨rfl, rfl⟩ := h
            have hp := nodes_put hS (d := d) hfm (.text s) o
            rw [show valNodes S d f.ty (.text s) = 0 by rw [hty]; rfl] at hp
            omega
      · rename_i hty hw
        cases hv : readBlock bs1 with
        | none => simp [hv] at h
        | some y =>
          obtain ⟨n, bs2⟩ := y
          have hl := (readBlock_append [] hv).2.1
          simp [hv] at h
          obtain ⟨rfl, rfl⟩ := h
          have hp := nodes_put hS (d := d) hfm (.blob n) o
          rw [show valNodes S d f.ty (.blob n) = 0 by rw [hty]; rfl] at hp
          omega
      · rename_i m' hty hw
        cases hv : readBlock bs1 with
        | none => simp [hv] at h
        | some y =>
          obtain ⟨n, bs2⟩ := y
          have hl := (readBlock_append [] hv).2.1
          simp only [hv, Option.bind_some] at h
          cases hp : inner m' n (o.within f) with
          | none => simp [hp] at h
          | some s =>
            simp [hp] at h
            obtain ⟨rfl, rfl⟩ := h
            have h1 := hi d m' n _ _ hp
            have h2 := nodes_put hS (d := d) hfm (.msg s) o
            have h3 : valNodes S d f.ty (.msg s) = 2 + nodes S d m' s := by rw [hty]; rfl
            have h4 : nodes S d m' (o.within f) ≤ if f.label = .rep then 0 else fieldNodes S d f.ty (o f.num) := by
              unfold Obj.within
              split
              · rw [nodes_empty]; exact Nat.zero_le _
              · rename_i o' he hlab
                rw [if_neg (fun e => hlab e), he, hty, fieldNodes_cons]
                show nodes S d m' o' ≤ 2 + nodes S d m' o' + _
                omega
              · rw [nodes_empty]; exact Nat.zero_le _
            rw [h3] at h2
            omega
      · exact hskip (by simpa using h)

theorem merge_nodes (hS : Described S) : ∀ {fuel k : Nat} {m : M} {bs : List Nat} {o x : Obj}, merge S fuel k m bs o = some x →
    ∀ d, nodes S d m x ≤ nodes S d m o + bs.length := by
  intro fuel
  induction fuel with
  | zero =>
    intro k m bs o x h d
    cases bs with
    | nil => rw [merge_nil] at h; cases h; simp
    | cons b bs => simp [merge] at h
  | succ fuel ih =>
    intro k m bs o x h d
    cases bs with
    | nil => rw [merge_nil] at h; cases h; simp
    | cons b bs =>
      rw [merge_cons] at h
      cases hr : record S k (deeper S fuel k) m (b :: bs) o with
      | none => simp [hr] at h
      | some y =>
        obtain ⟨r, o'⟩ := y
        simp only [hr, Option.bind_eq_bind, Option.bind_some] at h
        have h1 := record_nodes hS hr (fun d m p o x hx => deeper_holds (fun h => ih h d) hx) d
        have h2 := ih h d
        omega

/-- Whatever bytes are read as, it has no more messages and numbers than they have room for. -/
theorem read_nodes (hS : Described S) {m : M} {bs : List Nat} {o : Obj} (h : read S m bs = some o) (d : Nat) :
    nodes S d m o ≤ bs.length := by
  have := merge_nodes hS h d
  rw [nodes_empty] at this
  omega

/-! ## What getters find -/

variable {d : Nat} {m' : M}

theorem toObjs_nodes : ∀ vs : List Val, 2 * (toObjs vs).length + ((toObjs vs).map (nodes S d m')).sum ≤ fieldNodes S d (.msg m') vs
  | [] => Nat.le_refl _
  | v :: vs => by
    have ih := toObjs_nodes vs
    rw [fieldNodes_cons]
    cases v with
    | msg o =>
      simp only [toObjs, List.length_cons, List.map_cons, List.sum_cons]
      show _ ≤ 2 + nodes S d m' o + _
      omega
    | _ => simp only [toObjs]; omega

theorem subs_nodes {α : Type} (o : Obj) (n : Nat) (g : Obj → α) : 2 * (o.subs n g).length ≤ fieldNodes S d (.msg m') (o n) := by
  have := toObjs_nodes (S := S) (d := d) (m' := m') (o n)
  simp only [Obj.subs, List.length_map]
  omega

theorem has_nodes {o : Obj} {n : Nat} (h : o.has n = true) : 2 + nodes S d m' (o.sub n) ≤ fieldNodes S d (.msg m') (o n) := by
  unfold Obj.has at h
  unfold Obj.sub
  cases ho : o n with
  | nil => simp [ho] at h
  | cons v vs =>
    rw [fieldNodes_cons]
    cases v with
    | msg o =>
      show 2 + nodes S d m' o ≤ 2 + nodes S d m' o + _
      omega
    | _ =>
      simp only [toObj, nodes_empty]
      show 2 ≤ 2 + _ + _
      omega

theorem sub_nodes (o : Obj) (n : Nat) : nodes S d m' (o.sub n) ≤ fieldNodes S d (.msg m') (o n) := by
  by_cases h : o.has n = true
  · have := has_nodes (S := S) (d := d) (m' := m') h
    omega
  · have hn : o n = [] := by unfold Obj.has at h; simpa using h
    unfold Obj.sub
    rw [hn]
    simp only [toObj, nodes_empty]
    exact Nat.zero_le _

theorem le_sum_of_mem {a : Nat} : ∀ {l : List Nat}, a ∈ l → a ≤ l.sum
  | [], h => by cases h
  | b :: l, h => by
    rw [List.sum_cons]
    rcases List.mem_cons.mp h with rfl | h
    · omega
    · have := le_sum_of_mem h
      omega

theorem nodes_field {m : M} {f : Field M} (hf : f ∈ S m) (o : Obj) : fieldNodes S d f.ty (o f.num) ≤ nodes S (d + 1) m o := by
  rw [nodes_succ]
  exact le_sum_of_mem (List.mem_map.mpr ⟨f, hf, rfl⟩)

end Ygo.Pb

namespace Ygo.Pb
open Ygo Ygo.Spec

variable {d : Nat}

theorem nodes_subs {α : Type} {T T' : MsgType} {n : Nat} {l : Label} (h : ⟨n, l, .msg T'⟩ ∈ schema T) (o : Obj) (g : Obj → α) :
    2 * (o.subs n g).length ≤ nodes schema (d + 1) T o :=
  Nat.le_trans (subs_nodes (S := schema) (d := d) (m' := T') o n g) (nodes_field h o)

theorem nodes_has {T T' : MsgType} {n : Nat} {l : Label} (h : ⟨n, l, .msg T'⟩ ∈ schema T) {o : Obj} (ho : o.has n = true) :
    2 + nodes schema d T' (o.sub n) ≤ nodes schema (d + 1) T o :=
  Nat.le_trans (has_nodes (S := schema) (d := d) (m' := T') ho) (nodes_field h o)

theorem places_nodes {T : MsgType} (h : schema T = schema .evCardAdd) (o : Obj) : 2 * (getPlaces o).length ≤ nodes schema (d + 1) T o :=
  nodes_subs (T' := .place) (l := .rep) (by rw [h]; simp [schema]) o getPlace

theorem pairs_nodes {T T' : MsgType} (h : ⟨1, .rep, .msg T'⟩ ∈ schema T) (o : Obj) : 2 * (getPairs o).length ≤ nodes schema (d + 1) T o :=
  nodes_subs h o getPair

theorem resizes_nodes (o : Obj) : 2 * (getResizes o).length ≤ nodes schema (d + 1) .evPileResize o :=
  nodes_subs (T' := .evPileResizeOp) (l := .rep) (by simp [schema]) o getResize

/-- Calls other than shuffles count once. -/
theorem ops_once {α : Type} (g : α → FrameOp) (h : ∀ x, opParts (g x) = 1) : ∀ xs : List α, ((xs.map g).map opParts).sum = xs.length
  | [] => rfl
  | x :: xs => by
    simp only [List.map_cons, List.sum_cons, List.length_cons, h, ops_once g h xs]
    omega

/-- Arithmetic, with depths brought to one form. -/
local macro "depths" : tactic => `(tactic| ((try simp only [Nat.add_assoc, Nat.reduceAdd] at *); omega))

theorem exchange_nodes (o : Obj) :
    2 * ((DuelBoard.exchangeOps (getBoardExchange o)).map opParts).sum ≤ nodes schema (d + 2) .evBoardExchange o := by
  have h1 := Nat.le_trans (places_nodes (d := d) (T := .evCardRemove) rfl (o.sub 2)) (sub_nodes (S := schema) (m' := .evCardRemove) o 2)
  have h2 := Nat.le_trans (places_nodes (d := d) (T := .evCardAdd) rfl (o.sub 3)) (sub_nodes (S := schema) (m' := .evCardAdd) o 3)
  have h3 := Nat.le_trans (resizes_nodes (d := d) (o.sub 4)) (sub_nodes (S := schema) (m' := .evPileResize) o 4)
  have h4 : nodes schema (d + 2) .evBoardExchange o = fieldNodes schema (d + 1) (.num .int32) (o 1) +
      (fieldNodes schema (d + 1) (.msg .evCardRemove) (o 2) + (fieldNodes schema (d + 1) (.msg .evCardAdd) (o 3) +
        (fieldNodes schema (d + 1) (.msg .evPileResize) (o 4) + 0))) := rfl
  rw [h4]
  simp only [DuelBoard.exchangeOps, DuelBoard.resizeOps, getBoardExchange, List.map_append, List.sum_append,
    ops_once FrameOp.remove (fun _ => rfl), ops_once FrameOp.add (fun _ => rfl), ops_once (fun r : ResizeOp => FrameOp.resize r.place r.count) (fun _ => rfl)]
  depths

theorem state_nodes (o : Obj) : 2 * (((DuelBoard.stateOps (getBoardState o)).map opParts).sum + (getBoardState o).chains.length) ≤
    2 + nodes schema (d + 2) .evBoardState o := by
  have h1 := subs_nodes (S := schema) (d := d + 1) (m' := .chain) o 4 getChain
  have h2 := Nat.le_trans (places_nodes (d := d) (T := .evCardAdd) rfl (o.sub 5)) (sub_nodes (S := schema) (m' := .evCardAdd) o 5)
  have h3 := Nat.le_trans (resizes_nodes (d := d) (o.sub 6)) (sub_nodes (S := schema) (m' := .evPileResize) o 6)
  have h4 : nodes schema (d + 2) .evBoardState o = fieldNodes schema (d + 1) (.msg .fieldShape) (o 1) +
      (fieldNodes schema (d + 1) (.num .int32) (o 2) + (fieldNodes schema (d + 1) (.num .uint32) (o 3) +
        (fieldNodes schema (d + 1) (.msg .chain) (o 4) + (fieldNodes schema (d + 1) (.msg .evCardAdd) (o 5) +
          (fieldNodes schema (d + 1) (.msg .evPileResize) (o 6) + 0))))) := rfl
  rw [h4]
  simp only [DuelBoard.stateOps, DuelBoard.resizeOps, getBoardState, List.map_cons, List.sum_cons, List.map_append, List.sum_append, List.cons_append,
    ops_once FrameOp.add (fun _ => rfl), ops_once (fun r : ResizeOp => FrameOp.resize r.place r.count) (fun _ => rfl),
    show opParts .clear = 1 from rfl]
  depths

theorem card_nodes (o : Obj) : 2 * ((DuelBoard.cardOps (getCard o)).map opParts).sum ≤ nodes schema (d + 2) .evCard o := by
  unfold getCard
  split
  · rename_i h
    have h1 := nodes_has (d := d + 1) (T := .evCard) (T' := .evCardAdd) (n := 2) (l := .oneof 0) (by simp [schema]) h
    have h2 := places_nodes (d := d) (T := .evCardAdd) rfl (o.sub 2)
    simp only [DuelBoard.cardOps, ops_once FrameOp.add (fun _ => rfl)]
    depths
  split
  · rename_i h
    have h1 := nodes_has (d := d + 1) (T := .evCard) (T' := .evCardExchange) (n := 3) (l := .oneof 0) (by simp [schema]) h
    have h2 := pairs_nodes (d := d) (T := .evCardExchange) (T' := .evCardExchangeOp) (by simp [schema]) (o.sub 3)
    simp only [DuelBoard.cardOps, ops_once (fun o : PlacePair => FrameOp.swap o.fst o.snd) (fun _ => rfl)]
    depths
  split
  · rename_i h
    have h1 := nodes_has (d := d + 1) (T := .evCard) (T' := .evCardMove) (n := 4) (l := .oneof 0) (by simp [schema]) h
    have h2 := pairs_nodes (d := d) (T := .evCardMove) (T' := .evCardMoveOp) (by simp [schema]) (o.sub 4)
    simp only [DuelBoard.cardOps, ops_once (fun o : PlacePair => FrameOp.move o.fst o.snd) (fun _ => rfl)]
    depths
  split
  · rename_i h
    have h1 := nodes_has (d := d + 1) (T := .evCard) (T' := .evCardRemove) (n := 5) (l := .oneof 0) (by simp [schema]) h
    have h2 := places_nodes (d := d) (T := .evCardRemove) rfl (o.sub 5)
    simp only [DuelBoard.cardOps, ops_once FrameOp.remove (fun _ => rfl)]
    depths
  split
  · rename_i h
    have h1 := nodes_has (d := d + 1) (T := .evCard) (T' := .evCardShuffle) (n := 6) (l := .oneof 0) (by simp [schema]) h
    have h2 := subs_nodes (S := schema) (d := d) (m' := .place) (o.sub 6) 1 getPlace
    have h3 := subs_nodes (S := schema) (d := d) (m' := .place) (o.sub 6) 2 getPlace
    have h4 : nodes schema (d + 1) .evCardShuffle (o.sub 6) = fieldNodes schema d (.msg .place) (o.sub 6 1) +
      (fieldNodes schema d (.msg .place) (o.sub 6 2) + 0) := rfl
    simp only [DuelBoard.cardOps, List.map_cons, List.map_nil, List.sum_cons, List.sum_nil, opParts]
    depths
  · exact Nat.zero_le _

theorem pile_nodes (o : Obj) : 2 * ((DuelBoard.pileOps (getPile o)).map opParts).sum ≤ nodes schema (d + 2) .evPile o := by
  unfold getPile
  split
  · rename_i h
    have h1 := nodes_has (d := d + 1) (T := .evPile) (T' := .evPileExchange) (n := 2) (l := .oneof 0) (by simp [schema]) h
    have h2 := pairs_nodes (d := d) (T := .evPileExchange) (T' := .evPileExchangeOp) (by simp [schema]) (o.sub 2)
    simp only [DuelBoard.pileOps, ops_once (fun o : PlacePair => FrameOp.pswap o.fst o.snd) (fun _ => rfl)]
    depths
  split
  · exact Nat.zero_le _
  split
  · rename_i h
    have h1 := nodes_has (d := d + 1) (T := .evPile) (T' := .evPileSplice) (n := 4) (l := .oneof 0) (by simp [schema]) h
    have h2 := nodes_subs (d := d) (T := .evPileSplice) (T' := .evPileSpliceOp) (n := 1) (l := .rep) (by simp [schema]) (o.sub 4) getSplice
    simp only [DuelBoard.pileOps, ops_once (fun o : SpliceOp => FrameOp.splice o.src o.count o.dst o.reverse) (fun _ => rfl)]
    depths
  · exact Nat.zero_le _

theorem event_nodes (o : Obj) : 2 * eventParts (getEvent o) ≤ nodes schema (d + 4) .event o := by
  unfold getEvent
  split
  · rename_i h
    have h1 := nodes_has (d := d + 3) (T := .event) (T' := .evBoard) (n := 1) (l := .oneof 0) (by simp [schema]) h
    unfold getBoard
    split
    · rename_i h'
      have h2 := nodes_has (d := d + 2) (T := .evBoard) (T' := .evBoardExchange) (n := 1) (l := .oneof 0) (by simp [schema]) h'
      have h3 := exchange_nodes (d := d) ((o.sub 1).sub 1)
      simp only [eventParts, frameOps]
      depths
    split
    · rename_i h'
      have h2 := nodes_has (d := d + 2) (T := .evBoard) (T' := .evBoardState) (n := 2) (l := .oneof 0) (by simp [schema]) h'
      have h3 := state_nodes (d := d) ((o.sub 1).sub 2)
      simp only [eventParts, frameOps]
      depths
    · exact Nat.zero_le _
  split
  · rename_i h
    have h1 := nodes_has (d := d + 3) (T := .event) (T' := .evCard) (n := 2) (l := .oneof 0) (by simp [schema]) h
    have h2 := card_nodes (d := d + 1) (o.sub 2)
    simp only [eventParts, frameOps]
    depths
  split
  · rename_i h
    have h1 := nodes_has (d := d + 3) (T := .event) (T' := .evChainStack) (n := 3) (l := .oneof 0) (by simp [schema]) h
    unfold getChainStack
    split
    · simp only [eventParts, frameOps, List.map_nil, List.sum_nil]
      depths
    split <;> exact Nat.zero_le _
  split
  · exact Nat.zero_le _
  split
  · exact Nat.zero_le _
  split
  · exact Nat.zero_le _
  split
  · exact Nat.zero_le _
  split
  · exact Nat.zero_le _
  split
  · rename_i h
    have h1 := nodes_has (d := d + 3) (T := .event) (T' := .evPile) (n := 9) (l := .oneof 0) (by simp [schema]) h
    have h2 := pile_nodes (d := d + 1) (o.sub 9)
    simp only [eventParts, frameOps]
    depths
  split
  · exact Nat.zero_le _
  split
  · rename_i h
    have h1 := nodes_has (d := d + 3) (T := .event) (T' := .evZoneBlock) (n := 11) (l := .oneof 0) (by simp [schema]) h
    have h2 := places_nodes (d := d + 2) (T := .evZoneBlock) rfl (o.sub 11)
    simp only [eventParts, frameOps, List.map_nil, List.sum_nil]
    depths
  · exact Nat.zero_le _

theorem query_nodes (o : Obj) : 2 * queryParts (getQuery o) ≤ 2 + nodes schema (d + 4) .query o := by
  have h1 := sub_nodes (S := schema) (d := d + 3) (m' := .queryData) o 2
  have h2 := nodes_field (S := schema) (d := d + 3) (m := .query) (f := ⟨2, .plain, .msg .queryData⟩) (by simp [schema]) o
  have ht : 2 * ((getData (o.sub 2)).targets.getD []).length ≤ fieldNodes schema (d + 2) (.msg .qTargets) (o.sub 2 14) := by
    simp only [getData]
    split
    · rename_i h
      have h1 := has_nodes (S := schema) (d := d + 2) (m' := .qTargets) h
      have h2 := places_nodes (d := d + 1) (T := .qTargets) rfl ((o.sub 2).sub 14)
      simp only [Option.getD_some]
      depths
    · exact Nat.zero_le _
  have hc : 2 * ((getData (o.sub 2)).counters.getD []).length ≤ fieldNodes schema (d + 2) (.msg .qCounters) (o.sub 2 15) := by
    simp only [getData]
    split
    · rename_i h
      have h1 := has_nodes (S := schema) (d := d + 2) (m' := .qCounters) h
      have h2 := nodes_subs (d := d + 1) (T := .qCounters) (T' := .counter) (n := 1) (l := .rep) (by simp [schema]) ((o.sub 2).sub 15) getCounter
      simp only [Option.getD_some]
      depths
    · exact Nat.zero_le _
  have hs : fieldNodes schema (d + 2) (.msg .qTargets) (o.sub 2 14) + fieldNodes schema (d + 2) (.msg .qCounters) (o.sub 2 15) ≤
      nodes schema (d + 3) .queryData (o.sub 2) := by
    rw [nodes_succ]
    simp only [schema, List.map_cons, List.sum_cons]
    depths
  simp only [queryParts, getQuery]
  depths

theorem queries_nodes : ∀ os : List Obj, 2 * ((os.map getQuery).map queryParts).sum ≤ 2 * os.length + (os.map (nodes schema (d + 4) .query)).sum
  | [] => Nat.le_refl _
  | o :: os => by
    have h1 := query_nodes (d := d) o
    have h2 := queries_nodes os
    simp only [List.map_cons, List.sum_cons, List.length_cons]
    depths

theorem msg_nodes (o : Obj) : 2 * msgParts (getMsg o) ≤ nodes schema (d + 5) .msg o := by
  have h1 := toObjs_nodes (S := schema) (d := d + 4) (m' := .query) (o 3)
  have h2 := queries_nodes (d := d) (toObjs (o 3))
  have h3 : 2 * ((Msg.event? (getMsg o)).map eventParts).getD 0 ≤ fieldNodes schema (d + 4) (.msg .event) (o 1) := by
    by_cases h : o.has 1 = true
    · have h1 := has_nodes (S := schema) (d := d + 4) (m' := .event) h
      have h2 := event_nodes (d := d) (o.sub 1)
      simp only [getMsg, Msg.event?, h, if_true, Option.map_some, Option.getD_some]
      depths
    · have : Msg.event? (getMsg o) = none := by
        simp only [getMsg, Msg.event?, if_neg h]
        split
        · rename_i h; split at h <;> cases h
        · rfl
      rw [this]
      exact Nat.zero_le _
  have h4 : nodes schema (d + 5) .msg o = fieldNodes schema (d + 4) (.msg .event) (o 1) + (fieldNodes schema (d + 4) (.msg .request) (o 2) +
      (fieldNodes schema (d + 4) (.msg .query) (o 3) + 0)) := rfl
  have h5 : (getMsg o).queries = (toObjs (o 3)).map getQuery := rfl
  rw [h4]
  simp only [msgParts, h5]
  depths

end Ygo.Pb
