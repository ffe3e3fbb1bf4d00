import Verif.Proofs.RLEString
/-! # Runs of the specification and runs of the encoding -/
namespace Sri
set_option autoImplicit false
open Rep

theorem filter_range_length (p : Nat → Bool) (n : Nat) :
    ((List.range n).filter p).length = Nat.count (fun i => p i = true) n := by
  rw [Nat.count_eq_card_filter_range, ← List.countP_eq_length_filter]
  induction n with
  | zero => simp
  | succ n ih =>
    rw [List.range_succ, List.countP_append, ih, Finset.range_add_one, Finset.filter_insert]
    by_cases h : p n = true <;> simp [h]

variable {R : List (Nat × Nat)}

theorem rstart_total_lt {i m : Nat} (hm : m < R.length) (h2 : i < rstart R (m+1)) : i < (expand R).length := by
  rw [length_expand]; have := rstart_mono R (show m + 1 ≤ R.length by omega); omega

theorem expand_isRun (hp : ∀ q ∈ R, 0 < q.2) (ha : Alternating R) {m : Nat} (hm : m < R.length) :
    IsRun (expand R) (rstart R m) (rstart R (m+1)) (R[m]).1 := by
  refine ⟨rstart_strict hp (by omega) (by omega), ?_, ?_, ?_, ?_⟩
  · rw [length_expand]; exact rstart_mono R (by omega)
  · intro i h1 h2; exact getElem_expand hm h1 h2
  · cases m with
    | zero => left; simp
    | succ k =>
      right
      have := rstart_strict hp (show k < k + 1 by omega) (by omega)
      rw [getElem_expand (k := k) (by omega) (by omega) (by omega)]
      have := ha.getElem hm
      simpa using this
  · by_cases h : m + 1 < R.length
    · rw [getElem_expand h (Nat.le_refl _) (rstart_strict hp (by omega) (by omega))]
      have := ha.getElem h
      simpa using Ne.symm this
    · rw [List.getElem?_eq_none]
      · simp
      · rw [length_expand]
        exact rstart_mono R (by omega)

theorem runStartsAt_iff (hp : ∀ q ∈ R, 0 < q.2) (ha : Alternating R) {i m : Nat} (hm : m < R.length)
    (h1 : rstart R m ≤ i) (h2 : i < rstart R (m+1)) :
    runStartsAt (expand R) i = true ↔ i = rstart R m := by
  have hi := getElem_expand hm h1 h2
  simp only [runStartsAt, Bool.or_eq_true, beq_iff_eq, bne_iff_ne, ne_eq]
  rcases Nat.lt_or_eq_of_le h1 with hlt | heq
  · rw [hi, getElem_expand (i := i-1) hm (by omega) (by omega)]
    simp; omega
  · have e : i = rstart R m := heq.symm
    simp only [e, iff_true]
    rcases (expand_isRun hp ha hm).2.2.2.1 with h | h
    · left; exact h
    · right; rw [← e, hi]; rw [← e] at h; exact fun hh => h hh.symm

theorem count_run {p : Nat → Prop} [DecidablePred p] {k : Nat} (_ : rstart R k < rstart R (k+1))
    (h : ∀ i, rstart R k < i → i < rstart R (k+1) → ¬ p i) {i : Nat} (h1 : rstart R k < i)
    (h2 : i ≤ rstart R (k+1)) :
    Nat.count p i = Nat.count p (rstart R k) + if p (rstart R k) then 1 else 0 := by
  induction i with
  | zero => omega
  | succ i ih =>
    rw [Nat.count_succ]
    rcases Nat.lt_or_eq_of_le (Nat.lt_succ_iff.1 h1) with hlt | heq
    · rw [ih hlt (by omega), if_neg (h i hlt (by omega))]; rfl
    · rw [← heq]

theorem runsBefore_rstart (hp : ∀ q ∈ R, 0 < q.2) (ha : Alternating R) {m : Nat} (hm : m ≤ R.length) :
    runsBefore (expand R) (rstart R m) = m := by
  rw [runsBefore, filter_range_length]
  induction m with
  | zero => simp
  | succ m ih =>
    have hs := rstart_strict hp (show m < m + 1 by omega) hm
    rw [count_run hs _ hs (Nat.le_refl _), ih (by omega), if_pos]
    · rw [runStartsAt_iff hp ha (by omega) (Nat.le_refl _) hs]
    · intro i h1 h2; rw [runStartsAt_iff hp ha (m := m) (by omega) (by omega) h2]; omega

theorem runsBefore_succ (hp : ∀ q ∈ R, 0 < q.2) (ha : Alternating R) {i m : Nat} (hm : m < R.length)
    (h1 : rstart R m ≤ i) (h2 : i < rstart R (m+1)) : runsBefore (expand R) (i+1) = m + 1 := by
  have hs := rstart_strict hp (show m < m + 1 by omega) (by omega : m + 1 ≤ R.length)
  have := runsBefore_rstart hp ha (show m ≤ R.length by omega)
  rw [runsBefore, filter_range_length] at this ⊢
  rw [count_run hs _ (by omega) (by omega), this, if_pos]
  · rw [runStartsAt_iff hp ha (by omega) (Nat.le_refl _) hs]
  · intro i h1 h2; rw [runStartsAt_iff hp ha (m := m) (by omega) (by omega) h2]; omega

theorem symStarts_iff (hp : ∀ q ∈ R, 0 < q.2) (ha : Alternating R) (c : Nat) {i m : Nat} (hm : m < R.length)
    (h1 : rstart R m ≤ i) (h2 : i < rstart R (m+1)) :
    (runStartsAt (expand R) i && (expand R)[i]? == some c) = true ↔ i = rstart R m ∧ (R[m]).1 = c := by
  rw [Bool.and_eq_true, runStartsAt_iff hp ha hm h1 h2, getElem_expand hm h1 h2]
  simp

theorem symRunsBefore_rstart (hp : ∀ q ∈ R, 0 < q.2) (ha : Alternating R) (c : Nat) {m : Nat} (hm : m ≤ R.length) :
    symbolRunsBefore (expand R) c (rstart R m) = crank R c m := by
  rw [symbolRunsBefore, filter_range_length]
  induction m with
  | zero => simp [crank]
  | succ m ih =>
    have hs := rstart_strict hp (show m < m + 1 by omega) hm
    rw [count_run hs _ hs (Nat.le_refl _), ih (by omega), crank_succ c (by omega)]
    · congr 1
      simp only [symStarts_iff hp ha c (show m < R.length by omega) (Nat.le_refl _) hs, true_and]
    · intro i h1 h2; rw [symStarts_iff hp ha c (m := m) (by omega) (by omega) h2]; omega

theorem symRunsBefore_succ (hp : ∀ q ∈ R, 0 < q.2) (ha : Alternating R) (c : Nat) {i m : Nat} (hm : m < R.length)
    (h1 : rstart R m ≤ i) (h2 : i < rstart R (m+1)) :
    symbolRunsBefore (expand R) c (i+1) = crank R c (m+1) := by
  have hs := rstart_strict hp (show m < m + 1 by omega) (by omega : m + 1 ≤ R.length)
  have := symRunsBefore_rstart hp ha c (show m ≤ R.length by omega)
  rw [symbolRunsBefore, filter_range_length] at this ⊢
  rw [count_run hs _ (by omega) (by omega), this, crank_succ c hm]
  · congr 1
    simp only [symStarts_iff hp ha c (show m < R.length by omega) (Nat.le_refl _) hs, true_and]
  · intro i h1 h2; rw [symStarts_iff hp ha c (m := m) (by omega) (by omega) h2]; omega

end Sri
