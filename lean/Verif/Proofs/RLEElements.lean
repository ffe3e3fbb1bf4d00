import Verif.Proofs.RLEString
import Verif.Model.RLEElements
/-! # RLEString over other element types: what the constructor leaves -/
namespace Sri
set_option autoImplicit false
namespace RLEString

/-- whatever the members hold, operator[] returns one of the run heads -/
theorem access_mem {S : RLEString} {i c : Nat} (h : S.access i = some c) : c ∈ S.runHeads := by
  simp only [access, Option.bind_eq_bind, Option.bind_eq_some_iff] at h
  obtain ⟨-, -, run, -, h⟩ := h
  obtain ⟨hlt, h⟩ := List.getElem?_eq_some_iff.1 h
  rw [← h]; exact List.getElem_mem hlt

/-- bytes keep their run heads -/
theorem buildByte_eq {xs : List Nat} {b : Nat} (hx : ∀ c ∈ xs, c < 256) : buildByte xs b = build xs b := by
  rw [buildByte]
  by_cases hne : xs = []
  · subst hne; rfl
  by_cases hb : b = 0
  · subst hb
    cases xs with
    | nil => rfl
    | cons x xs => simp [build]
  obtain ⟨S, e, -, hrep, -⟩ := build_rep hne (show 0 < b by omega)
  rw [e]
  simp only [Option.bind_eq_bind, Option.bind_some, Option.pure_def]
  congr 1
  have : S.runHeads.map (· % 256) = S.runHeads := by
    rw [hrep.heads, List.map_map]
    apply List.map_congr_left
    intro q hq
    apply Nat.mod_eq_of_lt
    apply hx
    have : q.1 ∈ expand (rle xs) := List.mem_flatMap.2 ⟨q, hq, List.mem_replicate.2 ⟨by have := hrep.pos q hq; omega, rfl⟩⟩
    rwa [expand_rle] at this
  rw [this]

/-- what the loop over references maintains -/
structure RefInv (S : RefState) : Prop where
  pos : 0 < S.cells.length
  map : ∃ bits, S.map = [(0, bits)] ∨ S.map = []
  heads : ∀ k ∈ S.heads, k = 0

theorem mapPush_one {cells : List Nat} {bit : Bool} {m : List (Nat × List Bool)} (h : ∃ bits, m = [(0, bits)] ∨ m = []) :
    ∃ bits, mapPush cells bit m = [(0, bits)] := by
  obtain ⟨bits, rfl | rfl⟩ := h
  · exact ⟨bits ++ [bit], by simp [mapPush]⟩
  · exact ⟨[bit], rfl⟩

theorem refLoop_inv (b m i : Nat) (S : RefState) (h : RefInv S) : RefInv (refLoop b m i S) := by
  induction m generalizing i S with
  | zero => exact h
  | succ m ih =>
    rw [refLoop]
    split
    · apply ih
      obtain ⟨bits, e⟩ := mapPush_one (cells := S.cells) (bit := true) h.map
      refine ⟨by simpa using h.pos, ⟨bits, Or.inl e⟩, ?_⟩
      intro k hk
      rcases List.mem_append.1 hk with hk | hk
      · exact h.heads k hk
      · simpa using hk
    · apply ih
      obtain ⟨bits, e⟩ := mapPush_one (cells := S.cells) (bit := false) h.map
      exact ⟨h.pos, ⟨bits, Or.inl e⟩, h.heads⟩

/-- the other cells are left alone, and cell 0 ends with the integer of the last one -/
theorem refLoop_cells (b m i : Nat) (S : RefState) (hi : 1 ≤ i) (hm : i + m = S.cells.length) :
    (∀ j, 1 ≤ j → (refLoop b m i S).cells[j]? = S.cells[j]?) ∧
    (refLoop b m i S).cells.length = S.cells.length ∧
    (refLoop b m i S).cells.getD 0 0 = if m = 0 then S.cells.getD 0 0 else S.cells.getD (S.cells.length - 1) 0 := by
  induction m generalizing i S with
  | zero => exact ⟨fun _ _ => rfl, rfl, by simp [refLoop]⟩
  | succ m ih =>
    rw [refLoop]
    split
    · rename_i hne
      obtain ⟨h1, h2, h3⟩ := ih (i + 1) { cells := S.cells.set 0 (S.cells.getD i 0), map := mapPush S.cells true S.map, heads := S.heads ++ [0], runs := S.runs ++ [S.r % b == b - 1], r := S.r + 1 } (by omega) (by simp; omega)
      simp only [List.length_set] at h2 h3
      refine ⟨?_, h2, ?_⟩
      · intro j hj
        rw [h1 j hj]
        simp only
        rw [List.getElem?_set_ne (by omega)]
      · rw [h3]
        by_cases hm0 : m = 0
        · rw [if_pos hm0, if_neg (by omega)]
          rw [List.getD_eq_getElem?_getD, List.getElem?_set_self (by omega), Option.getD_some]
          congr 1; omega
        · rw [if_neg hm0, if_neg (by omega), List.getD_eq_getElem?_getD, List.getElem?_set_ne (by omega),
            ← List.getD_eq_getElem?_getD]
    · rename_i heq
      obtain ⟨h1, h2, h3⟩ := ih (i + 1) { S with map := mapPush S.cells false S.map, runs := S.runs ++ [false] } (by omega) (by simp; omega)
      refine ⟨h1, h2, ?_⟩
      rw [h3]
      by_cases hm0 : m = 0
      · rw [if_pos hm0, if_neg (by omega)]
        have : S.cells.getD 0 0 = S.cells.getD i 0 := by simpa using heq
        simp only
        rw [this]
        congr 1; omega
      · rw [if_neg hm0, if_neg (by omega)]

end RLEString
end Sri
