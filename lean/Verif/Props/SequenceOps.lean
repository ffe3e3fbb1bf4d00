import Verif.Proofs.Sdsl
/-! # C28: circular predecessor and soft successor (sequence_ops.h) -/
namespace Sri
set_option autoImplicit false

/-- C28, predecessor. With at least one set bit, the answer `(order, value)` is a set position with its order among
    the set positions; it is the greatest one strictly below the query if there is one, and otherwise the last one. -/
theorem c28_circular_predecessor (bv : List Bool) (i : Nat) (hi : i ≤ bv.length) (h1 : true ∈ bv) :
    ∃ o v, circularPredecessor (bvRank bv) (bvSelect bv) bv.length i = some (o, v) ∧
      bv[v]? = some true ∧ (bv.take v).count true = o ∧
      ((∃ j, j < i ∧ bv[j]? = some true) → v < i ∧ ∀ j, v < j → j < i → bv[j]? ≠ some true) ∧
      ((¬ ∃ j, j < i ∧ bv[j]? = some true) → ∀ j, v < j → bv[j]? ≠ some true) := by
  have hgd : ∀ j, bv[j]? = some true ↔ (j < bv.length ∧ bv.getD j false = true) := by
    intro j
    by_cases hj : j < bv.length
    · simp [hj]
    · simp [hj]
  have hcnt := bvRank_eq (bv := bv) (Nat.le_refl _)
  have hri := bvRank_eq hi
  have hpos : 0 < Nat.count (fun j => bv.getD j false = true) bv.length := by
    obtain ⟨j, hj⟩ := List.getElem?_of_mem h1
    obtain ⟨h2, h3⟩ := (hgd j).1 hj
    have := count_le_of_le (fun j => bv.getD j false = true) (show j + 1 ≤ bv.length by omega)
    rw [Nat.count_succ, if_pos h3] at this; omega
  have hsel : ∀ k, k < Nat.count (fun j => bv.getD j false = true) bv.length → ∃ v, bvSelect bv (k+1) = some v := by
    intro k hk
    obtain ⟨v, -, hv, hv2, hv3⟩ := exists_of_count_between (fun j => bv.getD j false = true) (a := 0)
      (b := bv.length) (k := k) (by simp) hk
    exact ⟨v, bvSelect_eq_some.2 ⟨hv, hv2, hv3⟩⟩
  have hle := count_le_of_le (fun j => bv.getD j false = true) hi
  have hor : (Nat.count (fun j => bv.getD j false = true) i + Nat.count (fun j => bv.getD j false = true) bv.length - 1)
      % Nat.count (fun j => bv.getD j false = true) bv.length =
      if 0 < Nat.count (fun j => bv.getD j false = true) i then Nat.count (fun j => bv.getD j false = true) i - 1
      else Nat.count (fun j => bv.getD j false = true) bv.length - 1 := by
    split
    · rw [show ∀ a b : Nat, 0 < a → a + b - 1 = (a - 1) + b by omega, Nat.add_mod_right, Nat.mod_eq_of_lt] <;> omega
    · rw [Nat.mod_eq_of_lt] <;> omega
  obtain ⟨v, hv⟩ := hsel (if 0 < Nat.count (fun j => bv.getD j false = true) i
    then Nat.count (fun j => bv.getD j false = true) i - 1
    else Nat.count (fun j => bv.getD j false = true) bv.length - 1) (by split <;> omega)
  obtain ⟨v1, v2, v3⟩ := bvSelect_eq_some.1 hv
  refine ⟨Nat.count (fun j => bv.getD j false = true) v, v, ?_, (hgd v).2 ⟨v1, v2⟩, ?_, ?_, ?_⟩
  · unfold circularPredecessor
    rw [hcnt]
    simp only [Option.bind_eq_bind, Option.bind_some, hri, csub, cmod]
    rw [if_pos (by omega), Option.bind_some, if_neg (by omega), Option.bind_some, hor, hv, v3]
    rfl
  · have := take_countP_eq_count bv id false (Nat.le_of_lt v1)
    rw [List.count_eq_countP]
    have e : (fun x : Bool => x == true) = id := by funext x; simp
    rw [e, this]; rfl
  · rintro ⟨j, hj, hjt⟩
    have h3 := (hgd j).1 hjt
    have h4 := count_le_of_le (fun j => bv.getD j false = true) (show j + 1 ≤ i by omega)
    rw [Nat.count_succ, if_pos h3.2] at h4
    rw [if_pos (by omega)] at v3
    constructor
    · by_contra hc
      have := count_le_of_le (fun j => bv.getD j false = true) (show i ≤ v by omega); omega
    · intro j' ha hb hc
      have h5 := count_le_of_le (fun j => bv.getD j false = true) (show v + 1 ≤ j' by omega)
      have h6 := count_le_of_le (fun j => bv.getD j false = true) (show j' + 1 ≤ i by omega)
      rw [Nat.count_succ, if_pos v2] at h5
      rw [Nat.count_succ, if_pos ((hgd j').1 hc).2] at h6
      omega
  · intro hno j hj hc
    have h0 : Nat.count (fun j => bv.getD j false = true) i = 0 := by
      by_contra hne
      obtain ⟨j, -, a, b, -⟩ := exists_of_count_between (fun j => bv.getD j false = true) (a := 0) (b := i)
        (k := 0) (by simp) (by omega)
      exact hno ⟨j, a, (hgd j).2 ⟨by omega, b⟩⟩
    rw [if_neg (by omega)] at v3
    have h5 := count_le_of_le (fun j => bv.getD j false = true) (show v + 1 ≤ j by omega)
    have hjl := ((hgd j).1 hc).1
    have h6 := count_le_of_le (fun j => bv.getD j false = true) (show j + 1 ≤ bv.length by omega)
    rw [Nat.count_succ, if_pos v2] at h5
    rw [Nat.count_succ, if_pos ((hgd j).1 hc).2] at h6
    omega

example : circularPredecessor (bvRank [false,true,false,true]) (bvSelect [false,true,false,true]) 4 3 = some (0,1) ∧
    circularPredecessor (bvRank [false,true,false,true]) (bvSelect [false,true,false,true]) 4 1 = some (1,3) := by
  decide

/-- C28, soft successor: the smallest set position at or after the query, wrapping to the first one. -/
theorem c28_circular_soft_successor (bv : List Bool) (i : Nat) (hi : i ≤ bv.length) (h1 : true ∈ bv) :
    ∃ o v, circularSoftSuccessor (bvRank bv) (bvSelect bv) bv.length i = some (o, v) ∧
      bv[v]? = some true ∧ (bv.take v).count true = o ∧
      ((∃ j, i ≤ j ∧ bv[j]? = some true) → i ≤ v ∧ ∀ j, i ≤ j → j < v → bv[j]? ≠ some true) ∧
      ((¬ ∃ j, i ≤ j ∧ bv[j]? = some true) → ∀ j, j < v → bv[j]? ≠ some true) := by
  have hgd : ∀ j, bv[j]? = some true ↔ (j < bv.length ∧ bv.getD j false = true) := by
    intro j
    by_cases hj : j < bv.length
    · simp [hj]
    · simp [hj]
  have hcnt := bvRank_eq (bv := bv) (Nat.le_refl _)
  have hri := bvRank_eq hi
  have hpos : 0 < Nat.count (fun j => bv.getD j false = true) bv.length := by
    obtain ⟨j, hj⟩ := List.getElem?_of_mem h1
    obtain ⟨h2, h3⟩ := (hgd j).1 hj
    have := count_le_of_le (fun j => bv.getD j false = true) (show j + 1 ≤ bv.length by omega)
    rw [Nat.count_succ, if_pos h3] at this; omega
  have hle := count_le_of_le (fun j => bv.getD j false = true) hi
  have hlt : (if Nat.count (fun j => bv.getD j false = true) i < Nat.count (fun j => bv.getD j false = true) bv.length
      then Nat.count (fun j => bv.getD j false = true) i else 0) <
      Nat.count (fun j => bv.getD j false = true) bv.length := by split <;> omega
  have hor : Nat.count (fun j => bv.getD j false = true) i % Nat.count (fun j => bv.getD j false = true) bv.length =
      if Nat.count (fun j => bv.getD j false = true) i < Nat.count (fun j => bv.getD j false = true) bv.length
      then Nat.count (fun j => bv.getD j false = true) i else 0 := by
    split
    · rw [Nat.mod_eq_of_lt]; assumption
    · rw [show Nat.count (fun j => bv.getD j false = true) i = Nat.count (fun j => bv.getD j false = true) bv.length
        by omega, Nat.mod_self]
  obtain ⟨v, -, v1, v2, v3⟩ := exists_of_count_between (fun j => bv.getD j false = true) (a := 0)
      (b := bv.length) (by simp) hlt
  have hv := bvSelect_eq_some.2 ⟨v1, v2, v3⟩
  refine ⟨Nat.count (fun j => bv.getD j false = true) v, v, ?_, (hgd v).2 ⟨v1, v2⟩, ?_, ?_, ?_⟩
  · unfold circularSoftSuccessor
    rw [hcnt]
    simp only [Option.bind_eq_bind, Option.bind_some, hri, cmod]
    rw [if_neg (by omega), Option.bind_some, hor, hv, v3]
    rfl
  · have := take_countP_eq_count bv id false (Nat.le_of_lt v1)
    rw [List.count_eq_countP]
    have e : (fun x : Bool => x == true) = id := by funext x; simp
    rw [e, this]; rfl
  · rintro ⟨j, hj, hjt⟩
    have h3 := (hgd j).1 hjt
    have h4 := count_le_of_le (fun j => bv.getD j false = true) (show j + 1 ≤ bv.length by omega)
    have h5 := count_le_of_le (fun j => bv.getD j false = true) hj
    rw [Nat.count_succ, if_pos h3.2] at h4
    rw [if_pos (by omega)] at v3
    constructor
    · by_contra hc
      have := count_le_of_le (fun j => bv.getD j false = true) (show v + 1 ≤ i by omega)
      rw [Nat.count_succ, if_pos v2] at this; omega
    · intro j' ha hb hc
      have h5 := count_le_of_le (fun j => bv.getD j false = true) (show j' + 1 ≤ v by omega)
      have h6 := count_le_of_le (fun j => bv.getD j false = true) ha
      rw [Nat.count_succ, if_pos ((hgd j').1 hc).2] at h5
      omega
  · intro hno j hj hc
    have h0 : Nat.count (fun j => bv.getD j false = true) i = Nat.count (fun j => bv.getD j false = true) bv.length := by
      by_contra hne
      obtain ⟨j, a0, a, b, -⟩ := exists_of_count_between (fun j => bv.getD j false = true) (a := i) (b := bv.length)
        (k := Nat.count (fun j => bv.getD j false = true) i) (by omega) (by omega)
      exact hno ⟨j, a0, (hgd j).2 ⟨by omega, b⟩⟩
    rw [if_neg (by omega)] at v3
    have h5 := count_le_of_le (fun j => bv.getD j false = true) (show j + 1 ≤ v by omega)
    rw [Nat.count_succ, if_pos ((hgd j).1 hc).2] at h5
    omega

example : circularSoftSuccessor (bvRank [false,true,false,false]) (bvSelect [false,true,false,false]) 4 2 = some (0,1) ∧
    circularSoftSuccessor (bvRank [false,true,false,true]) (bvSelect [false,true,false,true]) 4 2 = some (1,3) := by
  decide

/-- C28: without a set bit both functors divide by zero (or wrap): a fault. -/
theorem c28_no_set_bit (bv : List Bool) (i : Nat) (hi : i ≤ bv.length) (h0 : true ∉ bv) :
    circularPredecessor (bvRank bv) (bvSelect bv) bv.length i = none ∧
    circularSoftSuccessor (bvRank bv) (bvSelect bv) bv.length i = none := by
  have h : ∀ k, (bv.take k).count true = 0 := by
    intro k; rw [List.count_eq_zero]; exact fun hm => h0 (List.mem_of_mem_take hm)
  have e1 : bvRank bv bv.length = some 0 := by rw [bvRank, if_pos (Nat.le_refl _), h]
  have e2 : bvRank bv i = some 0 := by rw [bvRank, if_pos hi, h]
  constructor
  · simp [circularPredecessor, e1, e2, csub]
  · simp [circularSoftSuccessor, e1, e2, cmod]

example : true ∉ [false, false] := by decide

end Sri
