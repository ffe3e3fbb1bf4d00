import Verif.Proofs.PsiSorted
/-! # PsiCoreRLE of 0101… with an odd sampling period -/
namespace Sri
set_option autoImplicit false

/-- the positions of 0 in 0101… -/
theorem positions_even (m : Nat) : positions ((List.range (2*m)).map (· % 2)) 0 = (List.range m).map (2 * ·) := by
  unfold positions
  rw [List.length_map, List.length_range, List.filter_congr (q := fun i => decide (i % 2 = 0))]
  · induction m with
    | zero => rfl
    | succ m ih =>
      rw [show 2 * (m + 1) = 2 * m + 1 + 1 by omega, List.range_succ, List.range_succ, List.filter_append, List.filter_append, ih, List.range_succ,
        List.map_append]
      have h1 : 2 * m % 2 = 0 := by omega
      have h2 : (2 * m + 1) % 2 ≠ 0 := by omega
      simp [h1]
  · intro i hi
    rw [List.getElem?_map, List.getElem?_range (List.mem_range.1 hi)]
    simp

/-- every value is a run of its own; a rank is kept when the number of ends so far is a multiple of the period -/
theorem runLoop_even (d : Nat) : ∀ (k i : Nat) (R : List Nat),
    PsiCoreRLE.runLoop d (List.range (2*i)) R (i+1) (2*i) (2*i+1) ((List.range' (i+1) k).map (2 * ·)) =
      (List.range (2*(i+k+1)), R ++ (List.range' (i+1) k).filter (fun q => decide (2 * q % d = 0)))
  | 0, i, R => by
    simp only [List.range'_zero, List.map_nil, List.filter_nil, List.append_nil, PsiCoreRLE.runLoop]
    rw [show 2*(i+0+1) = 2*i+1+1 by omega, List.range_succ, List.range_succ, List.append_assoc]; rfl
  | k+1, i, R => by
    have hr : List.range (2*i) ++ [2*i, 2*i+1] = List.range (2*(i+1)) := by
      rw [show 2*(i+1) = 2*i+1+1 by omega, List.range_succ, List.range_succ, List.append_assoc]; rfl
    rw [List.range'_succ, List.map_cons, PsiCoreRLE.runLoop, if_neg (by omega)]
    dsimp only
    rw [hr, List.length_range, show 2*(i+1)+1 = 2*(i+1)+1 from rfl, runLoop_even d k (i+1), show i+1+k+1 = i+(k+1)+1 by omega]
    congr 1
    rw [List.filter_cons]
    by_cases h : 2 * (i+1) % d = 0 <;> simp [h]

/-- for an odd period that is at the first multiple of the period -/
theorem odd_ranks (h : Nat) : (List.range' 1 (2*h+1)).filter (fun q => decide (2 * q % (2*h+1) = 0)) = [2*h+1] := by
  rw [show 2*h+1 = 2*h + 1 from rfl, List.range'_concat, List.filter_append, List.filter_eq_nil_iff.2]
  · simp [Nat.add_comm 1]
  · intro q hq
    rw [List.mem_range'_1] at hq
    intro e
    rw [decide_eq_true_iff] at e
    rcases Nat.lt_or_ge (2*q) (2*h+1) with h1 | h1
    · rw [Nat.mod_eq_of_lt h1] at e; omega
    · rw [Nat.mod_eq_sub_mod h1, Nat.mod_eq_of_lt (by omega)] at e; omega

end Sri
