import Verif.Model.Text
import Verif.Proofs.SATheory
import Mathlib.Data.List.Lex
/-! # existence and uniqueness of the suffix array; the format of the prepared text -/
namespace Sri
set_option autoImplicit false

theorem drop_ne {T : List Nat} {p q : Nat} (hp : p < T.length) (hq : q < T.length) (h : p ≠ q) : T.drop p ≠ T.drop q := by
  intro e
  have := congrArg List.length e
  simp only [List.length_drop] at this
  omega

theorem insertSuffix_perm (T : List Nat) (p : Nat) (l : List Nat) : (insertSuffix T p l).Perm (p :: l) := by
  induction l with
  | nil => exact List.Perm.refl _
  | cons q l ih =>
    rw [insertSuffix]
    split
    · exact List.Perm.refl _
    · exact (List.Perm.cons q ih).trans (List.Perm.swap p q l)

theorem insertSuffix_sorted {T : List Nat} {p : Nat} (hp : p < T.length) {l : List Nat} (hl : ∀ q ∈ l, q < T.length ∧ q ≠ p)
    (hs : l.Pairwise (fun p q => T.drop p < T.drop q)) : (insertSuffix T p l).Pairwise (fun p q => T.drop p < T.drop q) := by
  induction l with
  | nil => simp [insertSuffix]
  | cons q l ih =>
    rw [insertSuffix]
    rw [List.pairwise_cons] at hs
    split
    · next h =>
      rw [List.pairwise_cons, List.pairwise_cons]
      refine ⟨fun x hx => ?_, hs⟩
      rcases List.mem_cons.1 hx with rfl | hx
      · exact h
      · exact lt_trans h (hs.1 x hx)
    · next h =>
      have hq := hl q (by simp)
      rw [List.pairwise_cons]
      refine ⟨fun x hx => ?_, ih (fun r hr => hl r (by simp [hr])) hs.2⟩
      rcases List.mem_cons.1 ((insertSuffix_perm T p l).mem_iff.1 hx) with rfl | hx
      · exact lt_of_le_of_ne (not_lt.1 h) (drop_ne hq.1 hp hq.2)
      · exact hs.1 x hx

theorem suffixArray_isSA (T : List Nat) : IsSA T (suffixArray T) := by
  have key : ∀ l : List Nat, (∀ p ∈ l, p < T.length) → l.Nodup →
      (l.foldr (insertSuffix T) []).Perm l ∧ (l.foldr (insertSuffix T) []).Pairwise (fun p q => T.drop p < T.drop q) := by
    intro l
    induction l with
    | nil => intro _ _; exact ⟨List.Perm.refl _, List.Pairwise.nil⟩
    | cons p l ih =>
      intro h hd
      rw [List.nodup_cons] at hd
      obtain ⟨i1, i2⟩ := ih (fun q hq => h q (by simp [hq])) hd.2
      rw [List.foldr_cons]
      refine ⟨(insertSuffix_perm T p _).trans (List.Perm.cons p i1), insertSuffix_sorted (h p (by simp)) (fun q hq => ?_) i2⟩
      have hq' := i1.mem_iff.1 hq
      exact ⟨h q (by simp [hq']), fun e => hd.1 (e ▸ hq')⟩
  exact key _ (fun p hp => List.mem_range.1 hp) List.nodup_range

theorem IsSA.unique {T sa sa' : List Nat} (h : IsSA T sa) (h' : IsSA T sa') : sa = sa' := by
  refine List.Perm.eq_of_pairwise (le := fun p q => T.drop p < T.drop q) ?_ h.2 h'.2 (h.1.trans h'.1.symm)
  intro a b _ _ h1 h2
  exact absurd (lt_trans h1 h2) (lt_irrefl _)

theorem findZero_le (l : List Nat) : findZero l ≤ l.length := by
  induction l with
  | nil => simp [findZero]
  | cons c l ih =>
    rw [findZero]
    split
    · simp
    · simpa using ih

theorem findZero_eq_length {l : List Nat} : findZero l = l.length ↔ 0 ∉ l := by
  induction l with
  | nil => simp [findZero]
  | cons c l ih =>
    rw [findZero]
    split
    · next h => simp [h]
    · next h =>
      have : ¬ 0 = c := fun e => h e.symm
      simp [ih, this]

theorem findZero_append {u : List Nat} (h : 0 ∉ u) (l : List Nat) : findZero (u ++ 0 :: l) = u.length := by
  induction u with
  | nil => simp [findZero]
  | cons c u ih =>
    have hc : c ≠ 0 := fun e => h (by simp [e])
    rw [List.cons_append, findZero, if_neg hc, ih (fun e => h (by simp [e]))]
    simp

theorem exists_first_zero {l : List Nat} (h : 0 ∈ l) : ∃ u v, l = u ++ 0 :: v ∧ 0 ∉ u := by
  induction l with
  | nil => simp at h
  | cons c l ih =>
    by_cases hc : c = 0
    · exact ⟨[], l, by simp [hc], by simp⟩
    · obtain ⟨u, v, e, hu⟩ := ih (by rcases List.mem_cons.1 h with h | h; exact absurd h.symm hc; exact h)
      refine ⟨c :: u, v, by simp [e], ?_⟩
      simp [hu, Ne.symm hc]

theorem constructText_noZero {b : List Nat} (h : 0 ∉ b) : constructText b = .stored (b ++ [0]) := by
  simp [constructText, findZero_eq_length.2 h]

theorem constructText_terminated {u : List Nat} (h : 0 ∉ u) : constructText (u ++ [0]) = .stored (u ++ [0]) := by
  simp [constructText, findZero_append h []]

theorem constructText_inner {u v : List Nat} (h : 0 ∉ u) (hv : v ≠ []) : constructText (u ++ 0 :: v) = .innerZero := by
  have : 0 < v.length := List.length_pos_iff.2 hv
  simp only [constructText, findZero_append h v, List.length_append, List.length_cons]
  rw [if_neg (by omega), if_pos (by omega)]

end Sri
