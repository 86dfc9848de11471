import Verif.Lemmas.FrameMove

namespace Ygo
open Ygo.Spec

theorem Place.isPile_cases {p : Place} (h : p.isPile = true) :
    (∃ k, At p (.pile k) p.seq ∧ p.pileKey = .ok k) ∨ ∃ e, p.pileKey = .error e := by
  rcases p.cases with ⟨k, s, o, rfl⟩ | ⟨k, o, rfl⟩ | ⟨h1, e, h2⟩ | ⟨h1, e, h2⟩
  · exact .inl ⟨k, .pile k s o, by simp⟩
  · simp at h
  · exact .inr ⟨e, h2⟩
  · simp [h1] at h

theorem Spec.At.isPile {p : Place} {k : PileKey} {i : Nat} (h : At p (.pile k) i) : p.isPile = true := by
  cases h; simp

theorem Spec.At.pileKey {p : Place} {k : PileKey} {i : Nat} (h : At p (.pile k) i) : p.pileKey = .ok k := by
  cases h; simp

theorem Spec.At.seq {p : Place} {k : PileKey} {i : Nat} (h : At p (.pile k) i) : p.seq = i := by
  cases h; rfl

theorem isPile_pileKey_iff {p : Place} {k : PileKey} :
    (p.isPile = true ∧ p.pileKey = .ok k) ↔ At p (.pile k) p.seq := by
  constructor
  · rintro ⟨h1, h2⟩
    rcases Place.isPile_cases h1 with ⟨k', h3, h4⟩ | ⟨e, h⟩
    · rw [h4] at h2; cases h2; exact h3
    · rw [h] at h2; cases h2
  · intro h; exact ⟨h.isPile, h.pileKey⟩

namespace Layout

theorem pileSplice_eq_ok {l l' : Layout} {src dst : Place} {n : Nat} {rev : Bool} :
    l.pileSplice src n dst rev = .ok l' ↔
      ∃ k1 i k2 j, At src (.pile k1) i ∧ At dst (.pile k2) j ∧ i + n ≤ (l.pile k1).length ∧
        j ≤ ((view l).cut (.pile k1) i n (.pile k2)).length ∧
        view l' = ((view l).cut (.pile k1) i n).paste (.pile k2) j ((view l).block (.pile k1) i n rev) := by
  constructor
  · intro h
    simp only [pileSplice, bind_eq_ok, massert_eq_ok, guardUb_eq_ok, pure_eq_ok, Except.ok.injEq] at h
    obtain ⟨_, h1, _, h2, k1, h3, _, h4, k2, h5, _, h6, rfl⟩ := h
    refine ⟨k1, src.seq, k2, dst.seq, isPile_pileKey_iff.mp ⟨h1, h3⟩, isPile_pileKey_iff.mp ⟨h2, h5⟩, by omega, ?_, ?_⟩
    · rw [← view_pile, view_setPile] at h6
      exact h6
    · simp [Board.paste, Board.cut, Board.block, view_setPile, upd_apply]
  · rintro ⟨k1, i, k2, j, ha, hb, h1, h2, hv⟩
    simp only [pileSplice, bind_eq_ok, massert_eq_ok, guardUb_eq_ok, pure_eq_ok, Except.ok.injEq]
    have hi := ha.seq
    have hj := hb.seq
    refine ⟨(), ha.isPile, (), hb.isPile, k1, ha.pileKey, (), by omega, k2, hb.pileKey, (), ?_, ?_⟩
    · rw [← view_pile, view_setPile, hi, hj]
      exact h2
    · apply view_inj
      rw [hv]
      simp [Board.paste, Board.cut, Board.block, view_setPile, upd_apply, hi, hj]

theorem pileSwap_eq_ok {l l' : Layout} {a b : Place} :
    l.pileSwap a b = .ok l' ↔
      ∃ k1 i k2 j, At a (.pile k1) i ∧ At b (.pile k2) j ∧ view l' = (view l).swapAll (.pile k1) (.pile k2) := by
  constructor
  · intro h
    simp only [pileSwap, bind_eq_ok, massert_eq_ok, pure_eq_ok, Except.ok.injEq] at h
    obtain ⟨_, h1, _, h2, k1, h3, k2, h4, rfl⟩ := h
    exact ⟨k1, _, k2, _, isPile_pileKey_iff.mp ⟨h1, h3⟩, isPile_pileKey_iff.mp ⟨h2, h4⟩,
      by simp [Board.swapAll, view_setPile]⟩
  · rintro ⟨k1, i, k2, j, ha, hb, hv⟩
    simp only [pileSwap, bind_eq_ok, massert_eq_ok, pure_eq_ok, Except.ok.injEq]
    refine ⟨(), ha.isPile, (), hb.isPile, k1, ha.pileKey, k2, hb.pileKey, ?_⟩
    apply view_inj; rw [hv]; simp [Board.swapAll, view_setPile]

end Layout

/-! ## Resizing -/

namespace Frame

theorem growPile_spec (k : PileKey) (n : Nat) (f : Frame) :
    view (growPile k n f).layout = (view f.layout).upd (.pile k) (f.layout.pile k ++ List.range' f.next n) ∧
    (growPile k n f).owned = (List.range' f.next n).reverse ++ f.owned ∧
    (growPile k n f).next = f.next + n := by
  induction n generalizing f with
  | zero => simp [growPile]; rw [← view_pile, upd_same]
  | succ n ih =>
    simp only [growPile, construct]
    obtain ⟨h1, h2, h3⟩ := ih { layout := f.layout.setPile k (f.layout.pile k ++ [f.next]), owned := f.next :: f.owned, next := f.next + 1 }
    refine ⟨?_, ?_, ?_⟩
    · rw [h1]; simp [view_setPile, List.range'_succ]
    · rw [h2]; simp [List.range'_succ]
    · rw [h3]; exact (Nat.add_right_comm _ _ _).trans (Nat.add_assoc _ _ _)

theorem destruct_eq_ok {f f' : Frame} {c : CardId} :
    f.destruct c = .ok f' ↔ c ∈ f.owned ∧ f' = { f with owned := f.owned.erase c } := by
  simp only [destruct, bind_eq_ok, massert_eq_ok, pure_eq_ok, Except.ok.injEq]
  exact ⟨fun ⟨_, a, b⟩ => ⟨a, b.symm⟩, fun ⟨a, b⟩ => ⟨(), a, b.symm⟩⟩

/-- Erase a list of cards, one after the other. -/
def eraseAll (cs owned : List CardId) : List CardId := cs.foldl List.erase owned

theorem shrinkPile_eq_ok {k : PileKey} {n : Nat} {f f' : Frame} (h : shrinkPile k n f = .ok f') :
    n ≤ (f.layout.pile k).length ∧
    view f'.layout = (view f.layout).upd (.pile k) ((f.layout.pile k).take ((f.layout.pile k).length - n)) ∧
    f'.owned = eraseAll ((f.layout.pile k).drop ((f.layout.pile k).length - n)).reverse f.owned ∧
    f'.next = f.next := by
  induction n generalizing f with
  | zero =>
    simp only [shrinkPile, Except.ok.injEq] at h
    subst h
    refine ⟨by omega, ?_, by simp [eraseAll], rfl⟩
    simp; rw [← view_pile, upd_same]
  | succ n ih =>
    simp only [shrinkPile, bind_eq_ok, orUb_eq_ok, destruct_eq_ok] at h
    obtain ⟨c, hc, g, ⟨hm, rfl⟩, h⟩ := h
    obtain ⟨h1, h2, h3, h4⟩ := ih h
    simp at h1 h2 h3 h4
    have hne : f.layout.pile k ≠ [] := by intro h0; simp [h0] at hc
    have hpos : 0 < (f.layout.pile k).length := List.length_pos_iff.mpr hne
    have happ : f.layout.pile k = (f.layout.pile k).dropLast ++ [c] := by
      rw [List.getLast?_eq_some_getLast hne] at hc
      cases hc; exact (List.dropLast_concat_getLast hne).symm
    generalize hd : (f.layout.pile k).dropLast = d at *
    have hl : (f.layout.pile k).length = d.length + 1 := by rw [happ]; simp
    refine ⟨by omega, ?_, ?_, h4⟩
    · rw [h2, view_setPile, hl, upd_upd]
      congr 1
      rw [happ, List.take_append_of_le_length (by omega)]
      congr 1; omega
    · rw [h3, hl, happ, List.drop_append_of_le_length (by omega)]
      have e : d.length + 1 - 1 - n = d.length + 1 - (n + 1) := by omega
      simp [eraseAll]

theorem pileResize_at {f f' : Frame} {p : Place} {n : Nat} {k : PileKey} {i : Nat} (hp : At p (.pile k) i)
    (h : f.pileResize p n = .ok f') :
    view f'.layout = (view f.layout).upd (.pile k)
      ((f.layout.pile k).take n ++ List.range' f.next (n - (f.layout.pile k).length)) ∧
    f'.owned = (List.range' f.next (n - (f.layout.pile k).length)).reverse ++
      eraseAll ((f.layout.pile k).drop n).reverse f.owned ∧
    f'.next = f.next + (n - (f.layout.pile k).length) := by
  simp only [pileResize, massert_true hp.isPile, hp.pileKey, bind_ok] at h
  split at h
  · rename_i hlt
    simp only [pure_eq_ok, Except.ok.injEq] at h
    subst h
    obtain ⟨h1, h2, h3⟩ := growPile_spec k (n - (f.layout.pile k).length) f
    refine ⟨?_, ?_, h3⟩
    · rw [h1, List.take_of_length_le (by omega)]
    · rw [h2, List.drop_of_length_le (by omega)]; simp [eraseAll]
  · split at h
    · rename_i h1 h2
      obtain ⟨h3, h4, h5, h6⟩ := shrinkPile_eq_ok h
      have e : (f.layout.pile k).length - ((f.layout.pile k).length - n) = n := by omega
      have e2 : n - (f.layout.pile k).length = 0 := by omega
      rw [e] at h4 h5
      refine ⟨by simpa [e2] using h4, by simpa [e2] using h5, by simpa [e2] using h6⟩
    · rename_i h1 h2
      simp only [pure_eq_ok, Except.ok.injEq] at h
      subst h
      have e : n = (f.layout.pile k).length := by omega
      subst e
      refine ⟨?_, by simp [eraseAll], by simp⟩
      simp; rw [← view_pile, upd_same]

theorem pileResize_place {f f' : Frame} {p : Place} {n : Nat} (h : f.pileResize p n = .ok f') :
    ∃ k, At p (.pile k) p.seq := by
  simp only [pileResize, bind_eq_ok, massert_eq_ok] at h
  obtain ⟨_, h1, k, h2, _⟩ := h
  exact ⟨k, isPile_pileKey_iff.mp ⟨h1, h2⟩⟩

end Frame
end Ygo
