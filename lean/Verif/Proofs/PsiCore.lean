import Verif.Proofs.PsiBuild
import Verif.Proofs.Sdsl
import Verif.Proofs.Marks
import Verif.Proofs.RLEString
/-! # The two psi cores represent a sequence (helper lemmas) -/
namespace Sri
set_option autoImplicit false

theorem Dense.pos_of {xs : List Nat} {s : Nat} (h : Dense xs s) {c : Nat} (hc : c < s) : 0 < xs.count c :=
  List.count_pos_iff.2 (h.2 c hc)

theorem positions_zero {xs : List Nat} {c : Nat} (hc : c ∈ xs) :
    ∃ v, (positions xs c)[0]? = some v ∧ (v = 0 ↔ xs[0]? = some c) := by
  have hl : 0 < (positions xs c).length := by rw [positions_length]; exact List.count_pos_iff.2 hc
  refine ⟨(positions xs c)[0], List.getElem?_eq_getElem hl, ?_⟩
  have hm := List.getElem_mem hl
  constructor
  · intro h0
    rw [h0] at hm
    unfold positions at hm
    simpa using (List.mem_filter.1 hm).2
  · intro h0
    have hx : 0 < xs.length := by
      by_contra h'
      rw [List.getElem?_eq_none (by omega)] at h0; simp at h0
    have := positions_get hx h0
    rw [List.take_zero, List.count_nil, List.getElem?_eq_getElem hl] at this
    exact Option.some.inj this

/-- psi of the sequence `xs`, as an array -/
structure IsPsi (psi xs : List Nat) : Prop where
  len : psi.length = xs.length
  get : ∀ j, j < xs.length → psi[lfPos xs j]? = some j

section
variable {xs psi : List Nat} {s : Nat}

theorem block_first (hd : Dense xs s) (hp : IsPsi psi xs) {c : Nat} (hc : c < s) :
    ∃ v, psi[below xs c]? = some v ∧ (v = 0 ↔ xs[0]? = some c) := by
  obtain ⟨v, h1, h2⟩ := positions_zero (hd.2 c hc)
  refine ⟨v, ?_, h2⟩
  have h0 := below_succ xs c
  have h3 := hd.pos_of hc
  rw [← psi_block hp.len hp.get c, List.getElem?_take_of_lt (by omega), List.getElem?_drop, Nat.add_zero] at h1
  exact h1

theorem below_le_psi (hp : IsPsi psi xs) (c : Nat) : below xs c ≤ psi.length := by rw [hp.len]; exact List.countP_le_length

theorem rleBuildLoop (hd : Dense xs s) (hp : IsPsi psi xs) (dens : Nat) (is : List Nat) (his : ∀ c ∈ is, c < s) (first : Nat)
    (parts : List (EncVector × List Nat)) :
    ∃ f, PsiCoreRLE.buildLoop dens (cumOf xs s) psi is first parts
        = some (f, parts ++ is.map (fun c => PsiCoreRLE.buildPart dens (positions xs c))) ∧
      ((∃ c ∈ is, xs[0]? = some c ∧ f = c) ∨ ((∀ c ∈ is, xs[0]? ≠ some c) ∧ f = first)) := by
  induction is generalizing first parts with
  | nil => exact ⟨first, by simp [PsiCoreRLE.buildLoop], Or.inr ⟨by simp, rfl⟩⟩
  | cons c is ih =>
    have hc := his c (by simp)
    obtain ⟨v, v1, v2⟩ := block_first hd hp hc
    obtain ⟨f, f1, f2⟩ := ih (fun d hd' => his d (by simp [hd'])) (if v = 0 then c else first)
      (parts ++ [PsiCoreRLE.buildPart dens (positions xs c)])
    refine ⟨f, ?_, ?_⟩
    · simp only [PsiCoreRLE.buildLoop, cumOf_get (show c ≤ s by omega), cumOf_get (show c + 1 ≤ s by omega), v1, Option.bind_eq_bind,
        Option.bind_some, assertC, below_le_psi hp (c+1), decide_true, if_true, psi_block hp.len hp.get c, f1]
      simp
    · rcases f2 with ⟨d, d1, d2, d3⟩ | ⟨d1, d2⟩
      · exact Or.inl ⟨d, by simp [d1], d2, d3⟩
      · by_cases h0 : xs[0]? = some c
        · exact Or.inl ⟨c, by simp, h0, by rw [d2, if_pos (v2.2 h0)]⟩
        · refine Or.inr ⟨?_, by rw [d2, if_neg (fun h' => h0 (v2.1 h'))]⟩
          intro d hd'
          rcases List.mem_cons.1 hd' with rfl | h'
          · exact h0
          · exact d1 d h'

/-- the run-length core holds the runs of every symbol -/
structure PsiOK (P : PsiCoreRLE) (xs : List Nat) (s h : Nat) : Prop where
  n : P.n = xs.length
  len : P.parts.length = s
  part : ∀ c, c < s → ∃ E ranks, P.parts[c]? = some (E, ranks) ∧ PartOK E ranks (symRuns (rle xs) c) xs.length h
  first : xs[0]? = some P.first

theorem symRuns_good' (xs : List Nat) (c : Nat) : GoodRuns (symRuns (rle xs) c) xs.length := by
  have := symRuns_good (c := c) (rle_pos xs) (rle_alternating xs)
  rwa [expand_rle] at this

theorem symRuns_covers' (xs : List Nat) (c : Nat) : Covers (fun j => xs[j]? = some c) (symRuns (rle xs) c) xs.length := by
  have := symRuns_covers (R := rle xs) c
  rwa [expand_rle] at this

theorem symRuns_vals' (xs : List Nat) (c : Nat) : runVals (symRuns (rle xs) c) = positions xs c := by
  have := symRuns_vals (R := rle xs) c
  rw [expand_rle] at this
  exact this

theorem symRuns_ne {c : Nat} (hc : c ∈ xs) : 0 < (symRuns (rle xs) c).length := by
  by_contra h
  have h0 : symRuns (rle xs) c = [] := List.length_eq_zero_iff.1 (by omega)
  have := symRuns_vals' xs c
  rw [h0] at this
  have h1 := positions_length xs c
  rw [← this] at h1
  have := List.count_pos_iff.2 hc
  simp [runVals] at h1
  omega

theorem rle_build {h : Nat} (hd : Dense xs s) (hp : IsPsi psi xs) (hs : 0 < s) (hh : 0 < h) (hn : xs.length < W64) :
    ∃ P, PsiCoreRLE.build (2*h) (cumOf xs s) psi = some P ∧ PsiOK P xs s h := by
  obtain ⟨f, f1, f2⟩ := rleBuildLoop hd hp (2*h) (List.range s) (by simp) 0 []
  refine ⟨{ n := xs.length, first := f, parts := (List.range s).map (fun c => PsiCoreRLE.buildPart (2*h) (positions xs c)) }, ?_,
    rfl, by simp, ?_, ?_⟩
  · simp only [PsiCoreRLE.build, cumOf_length, csub, Nat.le_add_left, if_true, Nat.add_sub_cancel, Option.bind_eq_bind, Option.bind_some,
      cumOf_get (Nat.le_refl s), below_all hd.1, f1, List.nil_append, Option.pure_def]
  · intro c hc
    refine ⟨(PsiCoreRLE.buildPart (2*h) (positions xs c)).1, (PsiCoreRLE.buildPart (2*h) (positions xs c)).2, ?_, ?_⟩
    · simp [hc]
    · rw [← symRuns_vals']
      exact PsiCoreRLE.buildPart_ok (symRuns_good' xs c) hh (symRuns_ne (hd.2 c hc)) hn
  · show xs[0]? = some f
    rcases f2 with ⟨d, _, d2, d3⟩ | ⟨d1, _⟩
    · rw [d3]; exact d2
    · exfalso
      have hx : 0 < xs.length := List.length_pos_of_mem (hd.2 0 hs)
      exact d1 xs[0] (List.mem_range.2 (hd.1 _ (List.getElem_mem hx))) (List.getElem?_eq_getElem hx)

/-! ## runs of a sequence -/

theorem isRun_iff (xs : List Nat) (a b c : Nat) :
    IsRun xs a b c ↔ ∃ k, ∃ hk : k < (rle xs).length, a = rstart (rle xs) k ∧ b = rstart (rle xs) (k+1) ∧ c = ((rle xs)[k]).1 := by
  have hx := expand_rle xs
  constructor
  · rintro ⟨h1, h2, h3, h4, h5⟩
    have hlen := length_expand (rle xs)
    rw [hx] at hlen
    obtain ⟨k, hk, k1, k2⟩ := rstart_find (rle xs) (i := a) (by omega)
    have hgk : ∀ i, rstart (rle xs) k ≤ i → i < rstart (rle xs) (k+1) → xs[i]? = some ((rle xs)[k]).1 := by
      intro i i1 i2
      have := getElem_expand hk i1 i2
      rwa [hx] at this
    have hc : c = ((rle xs)[k]).1 := by
      have e1 := h3 a (Nat.le_refl _) h1
      rw [hgk a k1 k2] at e1
      exact (Option.some.inj e1).symm
    have ha : a = rstart (rle xs) k := by
      rcases Nat.lt_or_eq_of_le k1 with hlt | heq
      · exfalso
        rcases h4 with h4 | h4
        · omega
        · exact h4 (by rw [hgk (a-1) (by omega) (by omega), hc])
      · exact heq.symm
    refine ⟨k, hk, ha, ?_, hc⟩
    rcases Nat.lt_trichotomy b (rstart (rle xs) (k+1)) with hlt | heq | hgt
    · exact absurd (by rw [hgk b (by omega) hlt, hc]) h5
    · exact heq
    · exfalso
      have hk1 : k + 1 < (rle xs).length := by
        by_contra hcon
        have := rstart_mono (rle xs) (show (rle xs).length ≤ k + 1 by omega)
        omega
      have e1 := h3 (rstart (rle xs) (k+1)) (by omega) hgt
      have e2 := getElem_expand hk1 (Nat.le_refl _) (rstart_strict (rle_pos xs) (show k + 1 < k + 1 + 1 by omega) (by omega))
      rw [hx, e1] at e2
      exact (rle_alternating xs).getElem hk1 (by rw [← hc]; exact Option.some.inj e2)
  · rintro ⟨k, hk, rfl, rfl, rfl⟩
    have := expand_isRun (rle_pos xs) (rle_alternating xs) hk
    rwa [hx] at this

theorem crank_eq_count (R : List (Nat × Nat)) (c k : Nat) (hk : k ≤ R.length) :
    Rep.crank R c k = ((List.range k).filter (fun k => (R.getD k (0,0)).1 == c)).length := by
  rw [Rep.crank, take_countP_eq_count R _ (0,0) hk, filter_range_length]

/-- run `k` of the sequence is run `crank` of its symbol -/
theorem symRuns_index {R : List (Nat × Nat)} {k : Nat} (hk : k < R.length) :
    Rep.crank R (R[k]).1 k < (symRuns R (R[k]).1).length ∧
      ∀ n, rS (symRuns R (R[k]).1) n (Rep.crank R (R[k]).1 k) = rstart R k ∧ rE (symRuns R (R[k]).1) n (Rep.crank R (R[k]).1 k) = rstart R (k+1) := by
  have h := filter_getElem (List.range R.length) (fun i => (R.getD i (0,0)).1 == (R[k]).1) (q := k) (by simpa using hk) (by simp [hk])
  rw [List.getElem_range, List.take_range, Nat.min_eq_left (by omega), List.countP_eq_length_filter, ← crank_eq_count R _ k (by omega)] at h
  have hg : (symRuns R (R[k]).1)[Rep.crank R (R[k]).1 k]? = some (rstart R k, rstart R (k+1)) := by
    rw [symRuns, List.getElem?_map, h]; rfl
  refine ⟨(List.getElem?_eq_some_iff.1 hg).1, fun n => ?_⟩
  simp only [rS, rE, List.getD_eq_getElem?_getD, hg, Option.getD_some]
  trivial

theorem symRuns_run {R : List (Nat × Nat)} {c j : Nat} (hj : j < (symRuns R c).length) :
    ∃ k, ∃ hk : k < R.length, (R[k]).1 = c ∧ Rep.crank R c k = j ∧
      ∀ n, rS (symRuns R c) n j = rstart R k ∧ rE (symRuns R c) n j = rstart R (k+1) := by
  obtain ⟨k, hk, g, hs, h⟩ := symRuns_get hj
  refine ⟨k, hk, hs, ?_, h⟩
  have h2 := filter_getElem (List.range R.length) (fun i => (R.getD i (0,0)).1 == c) (q := k) (by simpa using hk) (by simp [hk, hs])
  rw [List.getElem_range, List.take_range, Nat.min_eq_left (by omega), List.countP_eq_length_filter, ← crank_eq_count R _ k (by omega)] at h2
  obtain ⟨l1, e1⟩ := List.getElem?_eq_some_iff.1 g
  obtain ⟨l2, e2⟩ := List.getElem?_eq_some_iff.1 h2
  have hnd : ((List.range R.length).filter (fun k => (R.getD k (0,0)).1 == c)).Nodup := List.Nodup.filter _ List.nodup_range
  exact (List.Nodup.getElem_inj_iff hnd).1 (by rw [e1, e2])

theorem symRuns_length (R : List (Nat × Nat)) (c : Nat) : (symRuns R c).length = Rep.crank R c R.length := by
  rw [symRuns, List.length_map, ← crank_eq_count R c R.length (Nat.le_refl _)]

/-- the runs of `c`, seen from the sequence -/
theorem symRuns_isRun (xs : List Nat) (c : Nat) {j : Nat} (hj : j < (symRuns (rle xs) c).length) (n : Nat) :
    IsRun xs (rS (symRuns (rle xs) c) n j) (rE (symRuns (rle xs) c) n j) c ∧
      symbolRunsBefore xs c (rS (symRuns (rle xs) c) n j) = j := by
  obtain ⟨k, hk, hs, hc, h⟩ := symRuns_run hj
  refine ⟨(isRun_iff _ _ _ _).2 ⟨k, hk, (h n).1, (h n).2, hs.symm⟩, ?_⟩
  rw [(h n).1]
  have := symRunsBefore_rstart (rle_pos xs) (rle_alternating xs) c (show k ≤ (rle xs).length by omega)
  rw [expand_rle] at this
  rw [this, hc]

theorem isRun_symRuns {xs : List Nat} {a b c : Nat} (hr : IsRun xs a b c) :
    symbolRunsBefore xs c a < (symRuns (rle xs) c).length ∧
      ∀ n, rS (symRuns (rle xs) c) n (symbolRunsBefore xs c a) = a ∧ rE (symRuns (rle xs) c) n (symbolRunsBefore xs c a) = b := by
  obtain ⟨k, hk, rfl, rfl, rfl⟩ := (isRun_iff _ _ _ _).1 hr
  have h1 := symRunsBefore_rstart (rle_pos xs) (rle_alternating xs) ((rle xs)[k]).1 (show k ≤ (rle xs).length by omega)
  rw [expand_rle] at h1
  rw [h1]
  exact symRuns_index hk

/-! ## PsiCoreBV -/

/-- the bit-vector core marks the positions of every symbol -/
structure BVOK (P : PsiCoreBV) (xs : List Nat) (s : Nat) : Prop where
  n : P.n = xs.length
  len : P.parts.length = s
  part : ∀ c, c < s → P.parts[c]? = some ((List.range xs.length).map (fun i => decide (xs[i]? = some c)))
  first : xs[0]? = some P.first

theorem mem_positions {xs : List Nat} {c j : Nat} : j ∈ positions xs c ↔ xs[j]? = some c := by
  unfold positions
  rw [List.mem_filter, List.mem_range, decide_eq_true_eq]
  constructor
  · exact fun h => h.2
  · exact fun h => ⟨(List.getElem?_eq_some_iff.1 h).1, h⟩

theorem bvBuildLoop (hd : Dense xs s) (hp : IsPsi psi xs) (is : List Nat) (his : ∀ c ∈ is, c < s) (first : Nat)
    (parts : List (List Bool)) :
    ∃ f, PsiCoreBV.buildLoop xs.length (cumOf xs s) psi is first parts
        = some (f, parts ++ is.map (fun c => (List.range xs.length).map (fun i => decide (xs[i]? = some c)))) ∧
      ((∃ c ∈ is, xs[0]? = some c ∧ f = c) ∨ ((∀ c ∈ is, xs[0]? ≠ some c) ∧ f = first)) := by
  induction is generalizing first parts with
  | nil => exact ⟨first, by simp [PsiCoreBV.buildLoop], Or.inr ⟨by simp, rfl⟩⟩
  | cons c is ih =>
    have hc := his c (by simp)
    obtain ⟨v, v1, v2⟩ := block_first hd hp hc
    obtain ⟨f, f1, f2⟩ := ih (fun d hd' => his d (by simp [hd'])) (if v = 0 then c else first)
      (parts ++ [(List.range xs.length).map (fun i => decide (xs[i]? = some c))])
    have hbv : bitVectorFromInts (positions xs c) xs.length false = some ((List.range xs.length).map (fun i => decide (xs[i]? = some c))) := by
      rw [bitVector_eq (by intro v hv; exact (List.getElem?_eq_some_iff.1 (mem_positions.1 hv)).1)]
      simp only [mem_positions]
    refine ⟨f, ?_, ?_⟩
    · simp only [PsiCoreBV.buildLoop, cumOf_get (show c ≤ s by omega), cumOf_get (show c + 1 ≤ s by omega), v1, Option.bind_eq_bind,
        Option.bind_some, assertC, below_le_psi hp (c+1), decide_true, if_true, psi_block hp.len hp.get c, hbv, f1]
      simp
    · rcases f2 with ⟨d, d1, d2, d3⟩ | ⟨d1, d2⟩
      · exact Or.inl ⟨d, by simp [d1], d2, d3⟩
      · by_cases h0 : xs[0]? = some c
        · exact Or.inl ⟨c, by simp, h0, by rw [d2, if_pos (v2.2 h0)]⟩
        · refine Or.inr ⟨?_, by rw [d2, if_neg (fun h' => h0 (v2.1 h'))]⟩
          intro d hd'
          rcases List.mem_cons.1 hd' with rfl | h'
          · exact h0
          · exact d1 d h'

theorem bv_build (hd : Dense xs s) (hp : IsPsi psi xs) (hs : 0 < s) :
    ∃ P, PsiCoreBV.build (cumOf xs s) psi = some P ∧ BVOK P xs s := by
  obtain ⟨f, f1, f2⟩ := bvBuildLoop hd hp (List.range s) (by simp) 0 []
  refine ⟨{ n := xs.length, first := f, parts := (List.range s).map (fun c => (List.range xs.length).map (fun i => decide (xs[i]? = some c))) },
    ?_, rfl, by simp, ?_, ?_⟩
  · simp only [PsiCoreBV.build, cumOf_length, csub, Nat.le_add_left, if_true, Nat.add_sub_cancel, Option.bind_eq_bind, Option.bind_some,
      cumOf_get (Nat.le_refl s), below_all hd.1, f1, List.nil_append, Option.pure_def]
  · intro c hc; simp [hc]
  · show xs[0]? = some f
    rcases f2 with ⟨d, _, d2, d3⟩ | ⟨d1, _⟩
    · rw [d3]; exact d2
    · exfalso
      have hx : 0 < xs.length := List.length_pos_of_mem (hd.2 0 hs)
      exact d1 xs[0] (List.mem_range.2 (hd.1 _ (List.getElem_mem hx))) (List.getElem?_eq_getElem hx)

namespace BVOK
variable {P : PsiCoreBV}

theorem getD_bv {c i : Nat} : ((List.range xs.length).map (fun i => decide (xs[i]? = some c))).getD i false = decide (xs[i]? = some c) := by
  by_cases hi : i < xs.length
  · simp [hi]
  · simp [hi]

theorem rank (hb : BVOK P xs s) {c v : Nat} (hc : c < s) (hv : v ≤ xs.length) : P.rank c v = some ((xs.take v).count c) := by
  rw [PsiCoreBV.rank, hb.part c hc]
  simp only [Option.bind_eq_bind, Option.bind_some]
  rw [bvRank_eq (by simpa using hv), count_take_eq xs c v hv]
  congr 1
  apply count_congr
  intro k _
  rw [getD_bv, decide_eq_true_eq]

theorem select (hb : BVOK P xs s) {c v : Nat} (hc : c < s) (hv : xs[v]? = some c) : P.select c ((xs.take v).count c + 1) = some v := by
  have hvl := (List.getElem?_eq_some_iff.1 hv).1
  rw [PsiCoreBV.select, hb.part c hc]
  simp only [Option.bind_eq_bind, Option.bind_some]
  rw [bvSelect_eq_some]
  refine ⟨by simpa using hvl, by rw [getD_bv]; simpa using hv, ?_⟩
  rw [count_take_eq xs c v (by omega)]
  apply count_congr
  intro k _
  rw [getD_bv, decide_eq_true_eq]

theorem exist (hb : BVOK P xs s) {c v : Nat} (hc : c < s) (hv : v < xs.length) : P.exist c v = some (decide (xs[v]? = some c)) := by
  rw [PsiCoreBV.exist, hb.part c hc]
  simp [hv]

end BVOK

/-! ## PsiCoreRLE -/

namespace PsiOK
variable {P : PsiCoreRLE} {h : Nat}

theorem rank (hp : PsiOK P xs s h) {c v : Nat} (hc : c < s) (hv : v ≤ xs.length) : P.rank c v = some ((xs.take v).count c) := by
  obtain ⟨E, ranks, h1, h2⟩ := hp.part c hc
  rw [h2.rank_spec h1 hp.n (symRuns_covers' xs c) hv, count_take_eq xs c v hv]

theorem select (hp : PsiOK P xs s h) {c v : Nat} (hc : c < s) (hv : xs[v]? = some c) : P.select c ((xs.take v).count c + 1) = some v := by
  obtain ⟨E, ranks, h1, h2⟩ := hp.part c hc
  have hvl := (List.getElem?_eq_some_iff.1 hv).1
  rw [count_take_eq xs c v (by omega)]
  exact h2.select_spec h1 hp.n (symRuns_covers' xs c) hvl hv

theorem selectReport (hp : PsiOK P xs s h) {a b c v : Nat} (hc : c < s) (hr : IsRun xs a b c) (h1 : a ≤ v) (h2 : v < b) :
    P.selectReport c ((xs.take v).count c + 1) = some (v, a, b, symbolRunsBefore xs c a) := by
  obtain ⟨E, ranks, p1, p2⟩ := hp.part c hc
  obtain ⟨r1, r2⟩ := isRun_symRuns hr
  have hb := hr.2.1
  have := p2.selectReport_spec p1 hp.n (symRuns_covers' xs c) r1 (v := v) (by rw [(r2 _).1]; exact h1) (by rw [(r2 _).2]; exact h2)
  rw [(r2 _).1, (r2 _).2] at this
  rw [count_take_eq xs c v (by omega)]
  exact this

/-- the run that rank reports: the one containing `w`, or the next one of the symbol, or the end -/
theorem rankReport (hp : PsiOK P xs s h) {c v w : Nat} (hc : c < s) (hv : v ≤ xs.length) (hw : w = if v = xs.length then xs.length - 1 else v) :
    ∃ k, k ≤ (symRuns (rle xs) c).length ∧ w < rE (symRuns (rle xs) c) xs.length k ∧ (∀ j, j < k → rE (symRuns (rle xs) c) xs.length j ≤ w) ∧
      P.rankReport c v = some ((xs.take v).count c, rS (symRuns (rle xs) c) xs.length k, rE (symRuns (rle xs) c) xs.length k, k) := by
  obtain ⟨E, ranks, p1, p2⟩ := hp.part c hc
  have hn0 : 0 < xs.length := by have := p2.good.lt 0 p2.ne; omega
  obtain ⟨k, k1, k2, k3⟩ := p2.good.find (v := w) (by rw [hw]; split <;> omega)
  exact ⟨k, k1, k2, k3, by rw [p2.rankReport_spec p1 hp.n (symRuns_covers' xs c) hv hw k1 k2 k3, count_take_eq xs c v hv]⟩

end PsiOK

end
end Sri
