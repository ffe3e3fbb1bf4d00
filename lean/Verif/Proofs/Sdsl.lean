import Verif.Model.SequenceOps
import Verif.Proofs.SATheory
/-! # Lemmas about the contracts -/
namespace Sri
set_option autoImplicit false

theorem selectFrom_eq_some {α} {p : α → Bool} {l : List α} {k i : Nat} :
    selectFrom p l k = some i ↔ ∃ h : i < l.length, p l[i] = true ∧ (l.take i).countP p = k := by
  induction l generalizing k i with
  | nil => simp [selectFrom]
  | cons a l ih =>
    unfold selectFrom
    by_cases ha : p a = true
    · rw [if_pos ha]
      cases k with
      | zero =>
        cases i with
        | zero => simp [ha]
        | succ i => simp [ha]
      | succ k =>
        cases i with
        | zero => simp
        | succ i => simp [ih, ha]
    · rw [if_neg ha]
      cases i with
      | zero => simp [ha]
      | succ i => simp [ih, ha]

theorem selectFrom_isSome {α} {p : α → Bool} {l : List α} {k : Nat} (h : k < l.countP p) :
    ∃ i, selectFrom p l k = some i := by
  induction l generalizing k with
  | nil => simp at h
  | cons a l ih =>
    unfold selectFrom
    by_cases ha : p a = true
    · rw [if_pos ha]
      rw [List.countP_cons_of_pos ha] at h
      cases k with
      | zero => exact ⟨0, rfl⟩
      | succ k => obtain ⟨i, hi⟩ := ih (k := k) (by omega); exact ⟨i+1, by simp [hi]⟩
    · rw [if_neg ha]
      rw [List.countP_cons_of_neg ha] at h
      obtain ⟨i, hi⟩ := ih h; exact ⟨i+1, by simp [hi]⟩

theorem take_countP_eq_count {α} (l : List α) (p : α → Bool) (d : α) {i : Nat} (h : i ≤ l.length) :
    (l.take i).countP p = Nat.count (fun j => p (l.getD j d) = true) i := by
  rw [countP_eq_count_range _ _ d, List.length_take_of_le h]
  apply count_congr
  intro k hk
  simp [hk]

theorem bvRank_eq {bv : List Bool} {i : Nat} (h : i ≤ bv.length) :
    bvRank bv i = some (Nat.count (fun j => bv.getD j false = true) i) := by
  rw [bvRank, if_pos h, List.count_eq_countP, take_countP_eq_count _ _ false h]
  congr 1
  apply count_congr
  intro k _; simp

theorem bvSelect_eq_some {bv : List Bool} {k i : Nat} :
    bvSelect bv (k+1) = some i ↔
      i < bv.length ∧ bv.getD i false = true ∧ Nat.count (fun j => bv.getD j false = true) i = k := by
  rw [bvSelect, if_neg (by omega), Nat.add_sub_cancel, selectFrom_eq_some]
  constructor
  · rintro ⟨h, h1, h2⟩
    refine ⟨h, by simpa [h] using h1, ?_⟩
    rw [take_countP_eq_count _ _ false (by omega)] at h2
    simpa using h2
  · rintro ⟨h, h1, h2⟩
    refine ⟨h, by simpa [h] using h1, ?_⟩
    rw [take_countP_eq_count _ _ false (by omega)]
    simpa using h2

theorem wtRank_eq {w : List Nat} {i c : Nat} (h : i ≤ w.length) :
    wtRank w i c = some ((w.take i).count c) := by rw [wtRank, if_pos h]

theorem wtSelect_eq_some {w : List Nat} {k c i : Nat} :
    wtSelect w (k+1) c = some i ↔ w[i]? = some c ∧ (w.take i).count c = k := by
  rw [wtSelect, if_neg (by omega), Nat.add_sub_cancel, selectFrom_eq_some]
  simp only [List.count_eq_countP, List.getElem?_eq_some_iff]
  constructor
  · rintro ⟨h, h1, h2⟩; exact ⟨⟨h, by simpa using h1⟩, h2⟩
  · rintro ⟨⟨h, h1⟩, h2⟩; exact ⟨h, by simpa using h1, h2⟩

end Sri
