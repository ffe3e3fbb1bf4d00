import Verif.Proofs.Sampling
/-! # Properties of the sampling of text positions (sampling.h) -/
namespace Sri
set_option autoImplicit false

/-- `d` lies between two consecutively kept samples whose text positions differ by at most `s`. -/
def BetweenKept (pos : List Nat) (s : Nat) (kept : List Nat) (d : Nat) : Prop :=
  ∃ (A : List Nat) (a b : Nat) (B : List Nat) (pa pb pd : Nat), kept = A ++ a :: b :: B ∧
    pos[a]? = some pa ∧ pos[b]? = some pb ∧ pos[d]? = some pd ∧ pa < pd ∧ pd < pb ∧ pb - pa ≤ s

/-- **C19**: `idxs` lists samples by increasing text position `pos[i]`; the sampling keeps the first, the last and every required one,
    keeps the order and drops only samples between two consecutively kept ones at most `s` apart. -/
theorem c19_sampling (s : Nat) (idxs pos req : List Nat) (hb : ∀ i ∈ idxs, i < pos.length)
    (hs : (idxs.map (fun i => pos.getD i 0)).Pairwise (· < ·)) :
    ∃ kept, computeSampling s idxs pos req = some kept ∧ List.Sublist kept idxs ∧ kept.head? = idxs.head? ∧
      kept.getLast? = idxs.getLast? ∧ (∀ i ∈ idxs, i ∈ req → i ∈ kept) ∧ (∀ d ∈ idxs, d ∉ kept → BetweenKept pos s kept d) := by
  obtain ⟨K, e1, e2, e3, e4, e5, e6⟩ := computeSampling_spec s idxs pos req hb (List.pairwise_map.1 hs)
  refine ⟨K, e1, e2, e3, e4, e5, fun d hd hn => ?_⟩
  obtain ⟨A, a, b, B, f1, f2, f3, f4⟩ := e6 d hd hn
  have hg : ∀ x ∈ idxs, pos[x]? = some (pos.getD x 0) := fun x hx => by
    rw [List.getD_eq_getElem?_getD, List.getElem?_eq_getElem (hb x hx)]; rfl
  exact ⟨A, a, b, B, _, _, _, f1, hg a (e2.subset (by rw [f1]; simp)), hg b (e2.subset (by rw [f1]; simp)), hg d hd, f2, f3, by
    dsimp only at f4; omega⟩

/-- **C19**, second half: a gap larger than `s` between consecutively kept samples contains no dropped sample. -/
theorem c19_sampling_gap (s : Nat) (idxs pos req : List Nat) (hb : ∀ i ∈ idxs, i < pos.length)
    (hs : (idxs.map (fun i => pos.getD i 0)).Pairwise (· < ·)) (kept : List Nat) (hk : computeSampling s idxs pos req = some kept)
    (A : List Nat) (a b : Nat) (B : List Nat) (hab : kept = A ++ a :: b :: B) (pa pb : Nat) (ha : pos[a]? = some pa)
    (hb' : pos[b]? = some pb) (hgap : s < pb - pa) :
    ∀ d ∈ idxs, ∀ pd, pos[d]? = some pd → ¬ (pa < pd ∧ pd < pb) := by
  obtain ⟨K, e1, e2, -, -, -, e6⟩ := c19_sampling s idxs pos req hb hs
  obtain rfl : K = kept := Option.some_inj.1 (e1.symm.trans hk)
  intro d hd pd hpd hlt
  have hsK : (K.map (fun i => pos.getD i 0)).Pairwise (· < ·) := hs.sublist (e2.map _)
  have hgD : ∀ x p, pos[x]? = some p → pos.getD x 0 = p := fun x p h => by rw [List.getD_eq_getElem?_getD, h]; rfl
  -- two positions of consecutive kept samples: nothing kept strictly between them
  have hbetween : ∀ (A : List Nat) (a b : Nat) (B : List Nat), K = A ++ a :: b :: B → ∀ x ∈ K,
      pos.getD x 0 ≤ pos.getD a 0 ∨ pos.getD b 0 ≤ pos.getD x 0 := by
    intro A a b B h x hx
    rw [h] at hsK hx
    simp only [List.map_append, List.map_cons, List.pairwise_append, List.pairwise_cons, List.mem_cons, List.mem_map] at hsK
    rcases List.mem_append.1 hx with hx | hx
    · exact Or.inl (Nat.le_of_lt (hsK.2.2 _ ⟨x, hx, rfl⟩ _ (Or.inl rfl)))
    · rcases List.mem_cons.1 hx with rfl | hx
      · exact Or.inl (Nat.le_refl _)
      · rcases List.mem_cons.1 hx with rfl | hx
        · exact Or.inr (Nat.le_refl _)
        · exact Or.inr (Nat.le_of_lt (hsK.2.1.2.1 _ ⟨x, hx, rfl⟩))
  have hda := hgD a pa ha
  have hdb := hgD b pb hb'
  have hdd := hgD d pd hpd
  by_cases hdk : d ∈ K
  · have := hbetween A a b B hab d hdk
    omega
  · obtain ⟨A', a', b', B', pa', pb', pd', f1, f2, f3, f4, f5, f6, f7⟩ := e6 d hd hdk
    have g1 := hgD _ _ f2
    have g2 := hgD _ _ f3
    obtain rfl : pd' = pd := Option.some_inj.1 (f4.symm.trans hpd)
    have k1 := hbetween A a b B hab a' (by rw [f1]; simp)
    have k2 := hbetween A a b B hab b' (by rw [f1]; simp)
    have k3 := hbetween A' a' b' B' f1 a (by rw [hab]; simp)
    have k4 := hbetween A' a' b' B' f1 b (by rw [hab]; simp)
    omega

-- positions 0 1 2 5 6 7 8 12 with s = 4: the sample at 6 is required; those at 1 2 and 7 are dropped
example : computeSampling 4 [0,1,2,3,4,5,6,7] [0,1,2,5,6,7,8,12] [4] = some [0,2,4,6,7] := by decide
example : ([0,1,2,3,4,5,6,7].map (fun i => [0,1,2,5,6,7,8,12].getD i 0)).Pairwise (· < ·) := by decide
example : computeSampling 2 [0,1,2] [0,10,11] [] = some [0,1,2] := by decide

/-- computeSortedSampling keeps the same samples, listed by increasing index. -/
theorem c19_sorted_sampling (s : Nat) (idxs pos req : List Nat) (hb : ∀ i ∈ idxs, i < pos.length)
    (hs : (idxs.map (fun i => pos.getD i 0)).Pairwise (· < ·)) :
    ∃ kept sorted, computeSampling s idxs pos req = some kept ∧ computeSortedSampling s idxs pos req = some sorted ∧
      sorted.Perm kept ∧ sorted.Pairwise (· < ·) := by
  obtain ⟨K, e1, e2, -⟩ := c19_sampling s idxs pos req hb hs
  have hnd : idxs.Nodup := by
    have := List.pairwise_map.1 hs
    exact this.imp (fun h e => by rw [e] at h; omega)
  refine ⟨K, _, e1, by unfold computeSortedSampling; rw [e1]; rfl, sortBy_perm _ _, ?_⟩
  exact sortBy_strict (by simpa using e2.nodup hnd)

example : computeSortedSampling 5 [5,1,2,0] [9,3,6,12,20,1] [] = some [0,2,5] := by decide

end Sri
