import Verif.Model.Sparse
import Verif.Proofs.RunSpec
/-! # Sparse bit vectors and their bits -/
namespace Sri
set_option autoImplicit false

/-- `s` is a complete vector of the bits `b` -/
structure Represents (s : SparseBV) (b : List Bool) : Prop where
  u : s.u = b.length
  bits : s.bits = b
  bound : s.bound = true

theorem represents_ofBools {b : List Bool} (h : b ≠ []) : Represents (SparseBV.ofBools b) b := by
  rw [SparseBV.ofBools, if_neg (by simpa using h)]; exact ⟨rfl, rfl, rfl⟩

theorem ofBools_bits (b : List Bool) : (SparseBV.ofBools b).bits = b := by
  unfold SparseBV.ofBools
  split
  · rename_i h; simp [SparseBV.empty, List.length_eq_zero_iff.1 h]
  · rfl

theorem represents_assign (s : SparseBV) : Represents s.assign s.bits := ⟨rfl, rfl, rfl⟩

theorem bvSelect_none {b : List Bool} {i : Nat} (h : b.count true ≤ i) : bvSelect b (i + 1) = none := by
  cases hs : bvSelect b (i + 1) with
  | none => rfl
  | some p =>
    rw [bvSelect, if_neg (by omega), Nat.add_sub_cancel, selectFrom_eq_some] at hs
    obtain ⟨h1, h2, h3⟩ := hs
    have h4 : b.countP id = (b.take (p + 1)).countP id + (b.drop (p + 1)).countP id := by
      rw [← List.countP_append, List.take_append_drop]
    rw [← List.take_append_getElem h1, List.countP_append] at h4
    have h5 : [b[p]].countP id = 1 := by simpa using h2
    have h6 : b.count true = b.countP id := by
      rw [List.count_eq_countP]; congr 1; funext x; cases x <;> rfl
    omega

namespace Represents
variable {s : SparseBV} {b : List Bool}

theorem rank1 (h : Represents s b) (i : Nat) : s.rank1 i = bvRank b i := by
  rw [SparseBV.rank1, h.bound, if_pos rfl, h.bits]

theorem numberOf1 (h : Represents s b) : s.numberOf1 = some (b.count true) := by
  rw [SparseBV.numberOf1, h.rank1, SparseBV.size, h.u, bvRank, if_pos (Nat.le_refl _), List.take_length]

theorem rank (h : Represents s b) {i : Nat} (hi : i ≤ b.length) : s.rank i = some ((b.take i).count true) := by
  simp only [SparseBV.rank, SparseBV.size, h.u, hi, decide_true, assertC, if_true, Option.bind_eq_bind, Option.bind_some, h.rank1, bvRank]

theorem select (h : Represents s b) (i : Nat) : s.select i = bvSelect b (i + 1) := by
  simp only [SparseBV.select, h.numberOf1, Option.bind_eq_bind, Option.bind_some, h.bits]
  by_cases hi : i < b.count true
  · simp [assertC, hi]
  · rw [bvSelect_none (by omega)]; simp [assertC, hi]

theorem gapAt (h : Represents s b) {i a e : Nat} (h1 : RLEString.afterSelect b i = some a)
    (h2 : RLEString.afterSelect b (i + 1) = some e) (hle : a ≤ e) : s.gapAt i = some (e - a) := by
  rw [RLEString.afterSelect, if_neg (by omega)] at h2
  have hi : i < b.count true := by
    by_contra hc
    rw [bvSelect_none (by omega)] at h2; simp at h2
  obtain ⟨p, hp, rfl⟩ := Option.map_eq_some_iff.1 h2
  simp only [SparseBV.gapAt, h.numberOf1, Option.bind_eq_bind, Option.bind_some, assertC, hi, decide_true, if_true, h.select]
  cases i with
  | zero =>
    rw [RLEString.afterSelect, if_pos rfl] at h1
    obtain rfl : 0 = a := by simpa using h1
    rw [if_pos rfl, hp]; rfl
  | succ i =>
    rw [RLEString.afterSelect, if_neg (by omega)] at h1
    obtain ⟨q, hq, rfl⟩ := Option.map_eq_some_iff.1 h1
    rw [if_neg (by omega), hp, Nat.add_sub_cancel, hq]
    simp only [Option.bind_some, csub]
    rw [if_pos (by omega)]; congr 1; omega

end Represents
end Sri
