import Verif.Proofs.PsiText
import Verif.Proofs.Marks
/-! # Ranks, positions and sorted splits of the psi cores -/
namespace Sri
set_option autoImplicit false

section
variable {xs : List Nat} {s h : Nat}

/-- the k-th occurrence of a symbol -/
theorem positions_inv {c k : Nat} (hk : k < xs.count c) :
    ∃ v, (positions xs c)[k]? = some v ∧ xs[v]? = some c ∧ (xs.take v).count c = k := by
  have h1 : k < Nat.count (fun i => xs[i]? = some c) xs.length := by
    rw [← count_take_eq _ _ _ (Nat.le_refl _), List.take_length]; exact hk
  obtain ⟨v, -, hv, hp, hc⟩ := exists_of_count_between (fun i => xs[i]? = some c) (a := 0) (by simp) h1
  have h2 : (xs.take v).count c = k := by rw [count_take_eq _ _ _ (by omega), hc]
  refine ⟨v, ?_, hp, h2⟩
  rw [← h2]; exact positions_get hv hp

theorem symRuns_total (c : Nat) : (symRuns (rle xs) c).length = symbolRunsBefore xs c xs.length := by
  have h1 := symRunsBefore_rstart (rle_pos xs) (rle_alternating xs) c (Nat.le_refl (rle xs).length)
  rw [← length_expand, expand_rle] at h1
  rw [symRuns_length, h1]

theorem isRun_sym_unique {a b c a' b' c' i : Nat} (h : IsRun xs a b c) (h' : IsRun xs a' b' c') (h1 : a ≤ i) (h2 : i < b) (h3 : a' ≤ i)
    (h4 : i < b') : c = c' := by
  have e1 := h.2.2.1 i h1 h2
  have e2 := h'.2.2.1 i h3 h4
  exact Option.some_inj.1 (e1.symm.trans e2)

theorem split_first_sym {lo hi c : Nat} (hlh : lo < hi) {l : List PsiCoreRLE.Piece} (hl : SplitOf xs lo hi c l) {x : PsiCoreRLE.Piece} (hx : x ∈ l) :
    xs[x.first]? = some c ∧ x.first < x.last ∧ x.c = c := by
  obtain ⟨a, b, hr, h1, h2, rfl⟩ := (hl.1 x).1 hx
  refine ⟨hr.2.2.1 _ ?_ ?_, ?_, rfl⟩ <;> simp only [runPiece] <;> have := hr.1 <;> omega

theorem PsiOK.splitInSortedRuns {P : PsiCoreRLE} (hp : PsiOK P xs s h) (hd : ∀ x ∈ xs, x < s) {lo hi : Nat} (hlh : lo < hi) (hhi : hi ≤ xs.length) :
    ∃ l, P.splitInSortedRuns lo hi = some l ∧ SortedSplit xs lo hi l := by
  obtain ⟨f, h1, h2⟩ := hp.splitInRuns hlh hhi
  refine ⟨sortBy (fun x => x.first) ((List.range s).flatMap f), ?_, ?_, ?_⟩
  · unfold PsiCoreRLE.splitInSortedRuns; rw [h1]; rfl
  · intro x
    rw [(sortBy_perm _ _).mem_iff, List.mem_flatMap]
    constructor
    · rintro ⟨c, hc, hx⟩
      obtain ⟨a, b, h⟩ := ((h2 c (List.mem_range.1 hc)).1 x).1 hx
      exact ⟨a, b, c, h⟩
    · rintro ⟨a, b, c, hr, h⟩
      have hc : c < s := hd c (List.mem_of_getElem? (hr.2.2.1 a (Nat.le_refl _) hr.1))
      exact ⟨c, List.mem_range.2 hc, ((h2 c hc).1 x).2 ⟨a, b, hr, h⟩⟩
  · apply sortBy_strict
    rw [List.Nodup, List.pairwise_map, List.pairwise_flatMap]
    constructor
    · intro c hc
      have hc := List.mem_range.1 hc
      refine (List.Pairwise.imp_of_mem ?_ (h2 c hc).2)
      intro x y hx hy hxy
      have := (split_first_sym hlh (h2 c hc) hx).2.1
      omega
    · refine List.Pairwise.imp_of_mem ?_ (List.pairwise_lt_range (n := s))
      intro c d hc hd hcd x hx y hy he
      have e1 := (split_first_sym hlh (h2 c (List.mem_range.1 hc)) hx).1
      have e2 := (split_first_sym hlh (h2 d (List.mem_range.1 hd)) hy).1
      rw [he, e2] at e1
      have := Option.some_inj.1 e1
      omega

/-- ranks to runs: the values `positions[f-1] .. positions[l-2]` split in runs -/
theorem PsiOK.forwardRuns {P : PsiCoreRLE} (hp : PsiOK P xs s h) {c f l : Nat} (hc : c < s) (hf : 1 ≤ f) (hfl : f < l) (hl : l ≤ xs.count c + 1) :
    ∃ u v r, (positions xs c)[f-1]? = some u ∧ (positions xs c)[l-2]? = some v ∧ P.computeForwardRuns c f l = some r ∧ SplitOf xs u (v+1) c r := by
  obtain ⟨u, h1, h2, h3⟩ := positions_inv (xs := xs) (c := c) (k := f-1) (by omega)
  obtain ⟨v, h4, h5, h6⟩ := positions_inv (xs := xs) (c := c) (k := l-2) (by omega)
  have hv : v < xs.length := (List.getElem?_eq_some_iff.1 h5).1
  have huv : u ≤ v := by
    by_contra hlt
    have hu : u < xs.length := (List.getElem?_eq_some_iff.1 h2).1
    have := count_take_lt (xs := xs) (i := v) (j := u) (by omega) (by omega) c (by rw [List.getD_eq_getElem?_getD, h5]; rfl)
    omega
  obtain ⟨k1, k2, -, hk2, e1, e2, e3⟩ := hp.computeForwardRuns hc h2 h5 huv
  refine ⟨u, v, _, h1, h4, ?_, splitOf_range hk2 e1 e2⟩
  rw [h3, h6, show f - 1 + 1 = f by omega, show l - 2 + 2 = l by omega] at e3
  exact e3

end
end Sri
