import Verif.Lemmas.NetworkRoom

/-!
# Lemmas about replays written one after the other
-/

namespace Ygo.Pb
open Ygo.Spec Obj

set_option linter.unusedSimpArgs false

/-- The blocks of a replay as an object. -/
def setStream (bs : List Block) : Obj := with_ [(1, objs setBlock bs)]

theorem saveReplay_eq (bs : List Block) :
    saveReplay bs = block 1 (writeVals schema 1 (.msg .replayStreamBlock) (objs setBlock bs)) := by
  simp only [saveReplay, write, schema, List.flatMap_cons, List.flatMap_nil, List.append_nil, writeField, setReplay]
  simp only [with_, if_true, obj, writeVals, List.append_nil, write_eq, Obj.empty, reduceIte, Nat.reduceEqDiff]
  simp only [write, schema, List.flatMap_cons, List.flatMap_nil, List.append_nil, writeField, with_, if_true]

theorem merge_replay {a b : List Block} (hb : All (fun b => U32 b.offset ∧ MsgHolds b.msg) b)
    (hl : (saveReplay b).length < 2 ^ 31 - 16) :
    merge schema (saveReplay b).length maxDepth .replay (saveReplay b) (setReplay a) = some (setReplay (a ++ b)) := by
  have hp1 := List.length_pos_iff.mpr (varint_ne_nil (8 * 1 + 2))
  rw [saveReplay_eq] at hl ⊢
  generalize hp : writeVals schema 1 (.msg .replayStreamBlock) (objs setBlock b) = p at hl ⊢
  have hlen : p.length + 1 ≤ (block 1 p).length := by simp only [block, List.length_append]; omega
  obtain ⟨k, hk⟩ : ∃ k, (block 1 p).length = k + 1 := ⟨(block 1 p).length - 1, by omega⟩
  rw [hk]
  have hv : ∀ v ∈ objs setBlock b, HasType schema (.msg .replayStreamBlock) v := by
    intro v hv
    simp only [objs, List.mem_map] at hv
    obtain ⟨x, hx, rfl⟩ := hv
    exact block_made (hb x hx)
  have inner : merge schema k (maxDepth - 1) .replayStream p (setStream a) = some (setStream (a ++ b)) := by
    obtain ⟨fuel', h1, h2⟩ := merge_rep (S := schema) (m := .replayStream) (d := maxDepth - 1) (nests_le (by decide) (nests _)) (f := ⟨1, .rep, .msg .replayStreamBlock⟩)
      (by simp [schema]) rfl (vs := objs setBlock b) hv (fun v h => readsBack described (hv v h)) k [] (setStream a)
      (by rw [List.append_nil]; show (writeVals schema 1 _ _).length < _; rw [hp]; omega)
      (by rw [List.append_nil]; show (writeVals schema 1 _ _).length ≤ _; rw [hp]; omega)
    rw [List.append_nil, merge_nil] at h2
    rw [hp] at h2
    rw [h2]
    congr 1
    funext n
    simp only [Obj.putAll, setStream, with_, objs, List.map_append]
    split
    · rfl
    · rfl
  have hr : record schema maxDepth (deeper schema k maxDepth) .replay (block 1 p ++ []) (setReplay a) = some ([], setReplay (a ++ b)) := by
    rw [record_block described (f := ⟨1, .oneof 0, .msg .replayStream⟩) (by simp [schema]) (by omega)]
    have hw : (setReplay a).within (⟨1, .oneof 0, .msg .replayStream⟩ : Field MsgType) = setStream a := rfl
    dsimp only
    rw [hw, show deeper schema k maxDepth .replayStream p (setStream a) = some (setStream (a ++ b)) from inner, Option.map_some]
    congr 2
    funext n
    simp only [Obj.put, setReplay, with_]
    split
    · rfl
    · split <;> rfl
  have := merge_step (S := schema) (fuel := k) (a := block 1 p) (rest := []) (m := .replay)
    (fun h => by rw [h] at hk; cases hk) hr
  rw [List.append_nil, merge_nil] at this
  exact this

end Ygo.Pb
