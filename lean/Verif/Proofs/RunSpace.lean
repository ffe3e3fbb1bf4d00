import Verif.Proofs.PsiSorted
import Verif.Proofs.Sizes
/-! # How many numbers and bits the representations of the BWT and of psi hold -/
namespace Sri
set_option autoImplicit false

/-! ## RLEString -/

theorem blk_ones {b : Nat} (hb : 0 < b) : ∀ (R : List (Nat × Nat)) (r : Nat), R ≠ [] → (blk b r R).countP (·.2) + r / b = (r + R.length - 1) / b
  | [], _, h => absurd rfl h
  | [q], r, _ => by simp [blk]
  | q :: q' :: R, r, _ => by
    have ih := blk_ones hb (q' :: R) (r + 1) (by simp)
    rw [blk, List.countP_cons]
    have hs := Nat.succ_div (a := r) (b := b)
    have hd : b ∣ r + 1 ↔ r % b = b - 1 := by
      have h1 := Nat.mod_lt r hb
      have h3 := Nat.div_add_mod r b
      constructor
      · rintro ⟨k, hk⟩
        have h4 : r / b < k := by
          rw [Nat.div_lt_iff_lt_mul hb, Nat.mul_comm]; omega
        have h5 : b * (r / b + 1) ≤ b * k := Nat.mul_le_mul_left _ h4
        rw [Nat.mul_add] at h5
        omega
      · intro h
        exact ⟨r / b + 1, by rw [Nat.mul_add]; omega⟩
    have e : r + 1 + (q' :: R).length - 1 = r + (q :: q' :: R).length - 1 := by simp only [List.length_cons]; omega
    rw [e] at ih
    rw [← ih]
    by_cases h : r % b = b - 1
    · rw [if_pos (hd.2 h)] at hs; simp [h]; omega
    · rw [if_neg (fun c => h (hd.1 c))] at hs; simp [h]; omega

/-- the runs of all symbols are the runs -/
theorem sum_symbol_runs (R : List (Nat × Nat)) (k : Nat) (h : ∀ q ∈ R, q.1 < k) :
    ((List.range k).map (fun c => R.countP (fun q => q.1 == c))).sum = R.length := by
  have := sum_crank R R.length k h (Nat.le_refl _)
  simpa only [Rep.crank, List.take_length] using this

theorem Rep.ones {S : RLEString} {R : List (Nat × Nat)} (h : Rep S R) : S.runs.count true = (R.length - 1) / S.b := by
  have := blk_ones h.b R 0 h.ne
  rw [h.runs, count_un]
  simpa using this

theorem Rep.symOnes {S : RLEString} {R : List (Nat × Nat)} (h : Rep S R) : (S.perSym.map (fun v => v.count true)).sum = R.length := by
  rw [← sum_symbol_runs R S.perSym.length h.dom]
  congr 1
  refine List.ext_getElem (by simp) (fun c h1 h2 => ?_)
  rw [List.length_map] at h1
  have hs := h.sym c h1
  rw [List.getElem?_eq_getElem h1] at hs
  rw [List.getElem_map, List.getElem_map, List.getElem_range, Option.some.inj hs, count_un, List.countP_map, List.countP_eq_length_filter,
    List.countP_eq_length_filter]
  congr 1
  exact List.filter_eq_self.2 (fun _ _ => rfl)

/-! ## PsiCoreRLE -/

/-- the number of bits of the Elias-delta code of `x` -/
def codeLength (x : Nat) : Nat := Nat.log2 x + 2 * Nat.log2 (Nat.log2 x + 1) + 1

theorem eliasEncode_length {x : Nat} (h : x ≠ 0) : (eliasEncode x).length = codeLength x := by
  unfold eliasEncode codeLength
  simp only [if_neg h, List.length_append, List.length_replicate, List.length_cons, List.length_nil, bitsOf, List.length_map, List.length_range]
  omega

theorem log2_mono {a b : Nat} (h : a ≤ b) : Nat.log2 a ≤ Nat.log2 b := by
  rcases Nat.eq_zero_or_pos a with h0 | h0
  · subst h0; simp
  · rw [Nat.le_log2 (by omega)]
    exact Nat.le_trans (Nat.log2_self_le (by omega)) h

theorem codeLength_mono {a b : Nat} (h : a ≤ b) : codeLength a ≤ codeLength b := by
  have h1 := log2_mono h
  have h2 : Nat.log2 (Nat.log2 a + 1) ≤ Nat.log2 (Nat.log2 b + 1) := log2_mono (by omega)
  unfold codeLength; omega

theorem eoff_le {dens L : Nat} {vs : List Nat} : ∀ (i : Nat), (∀ j, j < i → j % dens ≠ 0 → (eliasEncode (edelta vs j)).length ≤ L) →
    eoff dens vs i ≤ i * L
  | 0, _ => by simp [eoff]
  | i + 1, h => by
    have ih := eoff_le i (fun j hj => h j (by omega))
    rw [eoff, Nat.succ_mul]
    split
    · omega
    · rename_i hd; have := h i (by omega) hd; omega

/-- what the constructor of enc_vector allocates -/
theorem EncVector.build_space {dens : Nat} (hd : 2 ≤ dens) {vs : List Nat} (hne : vs ≠ []) :
    (EncVector.build dens vs).z.length = eoff dens vs vs.length ∧ (EncVector.build dens vs).sp.length = 2 * ((vs.length + dens - 1) / dens) + 2 := by
  rw [EncVector.build, if_neg hne]
  obtain ⟨sp', z', h1, h2⟩ := written_loop hd vs vs 0 0 (vs.headD 0) [] [] (by simp) (by omega) (by simp) (by omega) (by omega)
    ⟨rfl, fun j hj => by omega, by simp; omega, fun k hk => by omega⟩
  dsimp only
  rw [h1]
  exact ⟨h2.zlen, by rw [List.length_append, h2.splen]; rfl⟩

theorem flat_codes {rs : List (Nat × Nat)} {n : Nat} (hg : GoodRuns rs n) (hn : n < W64) {j : Nat} (hj : j < 2 * rs.length) (h0 : j ≠ 0) :
    (eliasEncode (edelta (flat rs) j)).length ≤ codeLength n := by
  have key : 0 < edelta (flat rs) j ∧ edelta (flat rs) j ≤ n := by
    rcases Nat.even_or_odd' j with ⟨k, rfl | rfl⟩
    · have hk : k < rs.length := by omega
      have h1 := hg.gap (k-1) (by omega)
      have h2 := hg.lt k hk
      rw [show k - 1 + 1 = k by omega] at h1
      have : edelta (flat rs) (2*k) = rS rs n k - rE rs n (k-1) := by
        rw [edelta, flat_even rs n hk, show 2 * k - 1 = 2 * (k-1) + 1 by omega, flat_odd rs n (by omega), wsub_of_le (by omega) (by omega)]
      omega
    · have hk : k < rs.length := by omega
      have h2 := hg.lt k hk
      have : edelta (flat rs) (2*k+1) = rE rs n k - rS rs n k := by
        rw [edelta, flat_odd rs n hk, show 2 * k + 1 - 1 = 2 * k by omega, flat_even rs n hk, wsub_of_le (by omega) (by omega)]
      omega
  rw [eliasEncode_length (by omega)]
  exact codeLength_mono key.2

/-- the sizes of a part that holds `r` runs of a sequence of length `n` -/
structure PartSpace (E : EncVector) (ranks : List Nat) (r n h : Nat) : Prop where
  size : E.size = 2 * r
  samples : E.sp.length = 2 * ((r + h - 1) / h) + 2
  ranks : ranks.length = (r - 1) / h
  bits : E.z.length ≤ 2 * r * codeLength n

theorem buildPart_flat {rs : List (Nat × Nat)} {n h : Nat} (hg : GoodRuns rs n) (hh : 0 < h) (hne : 0 < rs.length) :
    (PsiCoreRLE.buildPart (2*h) (runVals rs)).1 = EncVector.build (2*h) (flat rs) := by
  have hlt := hg.lt 0 hne
  have hq1 : (rs[0]).1 = rS rs n 0 := by simp [rS, hne]
  have hq2 : (rs[0]).2 = rE rs n 0 := by simp [rE, hne]
  obtain ⟨ranks, h1, -⟩ := PsiCoreRLE.runLoop_spec hg hh (rs.length - 1) 0 [] hne (by omega) ⟨by simp, by simp; omega⟩
  have hv : runVals rs = rS rs n 0 :: (List.range' (rS rs n 0 + 1) (rE rs n 0 - rS rs n 0 - 1) ++ runVals (rs.drop 1)) := by
    conv_lhs => rw [← List.drop_zero (l := rs), List.drop_eq_getElem_cons hne, runVals, List.flatMap_cons, hq1, hq2,
      show rE rs n 0 - rS rs n 0 = (rE rs n 0 - rS rs n 0 - 1) + 1 by omega, List.range'_succ, List.cons_append]
    rfl
  have hl : PsiCoreRLE.runLoop (2*h) [] [] 1 (rS rs n 0) (rS rs n 0 + 1)
      (List.range' (rS rs n 0 + 1) (rE rs n 0 - rS rs n 0 - 1) ++ runVals (rs.drop 1)) = (flat rs, ranks) := by
    rw [PsiCoreRLE.runLoop_run, ← h1, rk_succ rs n hne, rk_zero]
    congr 1 <;> omega
  rw [hv]
  simp only [PsiCoreRLE.buildPart, hl]

theorem buildPart_space {rs : List (Nat × Nat)} {n h : Nat} (hg : GoodRuns rs n) (hh : 0 < h) (hne : 0 < rs.length) (hn : n < W64) :
    PartSpace (PsiCoreRLE.buildPart (2*h) (runVals rs)).1 (PsiCoreRLE.buildPart (2*h) (runVals rs)).2 rs.length n h := by
  have hp := PsiCoreRLE.buildPart_ok hg hh hne hn
  have hf : flat rs ≠ [] := by rw [← List.length_pos_iff, flat_length]; omega
  obtain ⟨hz, hs⟩ := EncVector.build_space (dens := 2*h) (by omega) hf
  refine ⟨hp.size, ?_, ?_, ?_⟩
  · rw [buildPart_flat hg hh hne, hs, flat_length, ← Nat.div_div_eq_div_mul, show (2 * rs.length + 2 * h - 1) / 2 = rs.length + h - 1 by omega]
  · have := hp.rlen
    symm
    rw [Nat.div_eq_iff hh]
    generalize (PsiCoreRLE.buildPart (2*h) (runVals rs)).2.length = m at this ⊢
    rw [Nat.add_mul, Nat.one_mul] at this
    omega
  · rw [buildPart_flat hg hh hne, hz, flat_length]
    exact eoff_le _ (fun j hj h0 => flat_codes hg hn hj (by rintro rfl; simp at h0))

/-- the sizes of all parts -/
theorem psiCore_space {xs psi : List Nat} {s h : Nat} (hd : Dense xs s) (hp : IsPsi psi xs) (hh : 0 < h) (hn : xs.length < W64)
    {P : PsiCoreRLE} (hP : PsiCoreRLE.build (2*h) (cumOf xs s) psi = some P) :
    P.parts.length = s ∧
    ∀ c, c < s → ∃ E ranks, P.parts[c]? = some (E, ranks) ∧ PartSpace E ranks (symbolRunsBefore xs c xs.length) xs.length h := by
  obtain ⟨f, f1, -⟩ := rleBuildLoop hd hp (2*h) (List.range s) (by simp) 0 []
  simp only [PsiCoreRLE.build, cumOf_length, csub, Nat.le_add_left, if_true, Nat.add_sub_cancel, Option.bind_eq_bind, Option.bind_some,
      cumOf_get (Nat.le_refl s), below_all hd.1, f1, List.nil_append, Option.pure_def] at hP
  cases hP
  refine ⟨by simp, fun c hc => ⟨(PsiCoreRLE.buildPart (2*h) (positions xs c)).1, (PsiCoreRLE.buildPart (2*h) (positions xs c)).2, by simp [hc], ?_⟩⟩
  rw [← symRuns_vals', ← symRuns_total]
  exact buildPart_space (symRuns_good' xs c) hh (symRuns_ne (hd.2 c hc)) hn

theorem sum_symbolRuns {xs : List Nat} {s : Nat} (hd : ∀ x ∈ xs, x < s) :
    ((List.range s).map (fun c => symbolRunsBefore xs c xs.length)).sum = runsBefore xs xs.length := by
  have h1 := runsBefore_rstart (rle_pos xs) (rle_alternating xs) (Nat.le_refl (rle xs).length)
  rw [expand_rle, show rstart (rle xs) (rle xs).length = xs.length by rw [← length_expand, expand_rle]] at h1
  rw [h1, ← sum_symbol_runs (rle xs) s]
  · congr 1
    refine List.map_congr_left (fun c _ => ?_)
    rw [← symRuns_total, symRuns_length, Rep.crank, List.take_length]
  · intro q hq
    apply hd
    rw [← expand_rle xs]
    simp only [expand, List.mem_flatMap, List.mem_replicate]
    exact ⟨q, hq, by have := rle_pos xs q hq; omega, rfl⟩

end Sri
