import Verif.Proofs.PsiSorted
import Verif.Proofs.PsiOdd
/-! # C23-C26: psi and its representations (psi.h)

C23-C25 are stated for every sequence `xs` over the symbols `0..s-1` in which each symbol occurs (`Dense`; the compact BWT of a text is
one, `c23_text`), with its array `C` (`cumOf`). A psi value of the symbol `c` is a position of `c` in the sequence, so `positions xs c`
lists the psi values of `c` and `(xs.take v).count c` counts those below `v`. -/
namespace Sri
set_option autoImplicit false

/-- C23. Built from psi with any even sampling period `2*h`, PsiCoreRLE answers `rank` for every symbol and every position up to the size
    and `select` for every rank: exactly the number of psi values below the position and the k-th psi value. The reporting versions
    deliver in addition the maximal run of the value, respectively of the position or else of the first later value (`n,n` after the
    last run), and its number among the runs of the symbol. -/
theorem c23_psiCoreRLE (xs : List Nat) (s h : Nat) (hd : Dense xs s) (hs : 0 < s) (hh : 0 < h) (hn : xs.length < 2^64) :
    ∃ psi P, constructPsi xs (cumOf xs s) = some psi ∧ PsiCoreRLE.build (2*h) (cumOf xs s) psi = some P ∧
      (∀ c v, c < s → v ≤ xs.length → P.rank c v = some ((xs.take v).count c)) ∧
      (∀ c k, c < s → k < xs.count c → ∃ v, (positions xs c)[k]? = some v ∧ P.select c (k+1) = some v) ∧
      (∀ c k v a b : Nat, c < s → (positions xs c)[k]? = some v → IsRun xs a b c → a ≤ v → v < b →
        P.selectReport c (k+1) = some (v, a, b, symbolRunsBefore xs c a)) ∧
      (∀ c v, c < s → v ≤ xs.length → ∃ a b, P.rankReport c v = some ((xs.take v).count c, a, b, symbolRunsBefore xs c a) ∧
        min v (xs.length - 1) < b ∧
        (IsRun xs a b c ∧ (∀ i, min v (xs.length - 1) ≤ i → i < a → xs[i]? ≠ some c) ∨
          a = xs.length ∧ b = xs.length ∧ ∀ i, min v (xs.length - 1) ≤ i → xs[i]? ≠ some c)) := by
  have hn' : xs.length < W64 := by rw [W64_eq]; exact hn
  obtain ⟨psi, h1, h2, h3⟩ := constructPsi_spec hd.1
  obtain ⟨P, h4, hp⟩ := rle_build hd ⟨h2, h3⟩ hs hh hn'
  refine ⟨psi, P, h1, h4, fun c v hc hv => hp.rank hc hv, ?_, ?_, ?_⟩
  · intro c k hc hk
    obtain ⟨v, e1, e2, e3⟩ := positions_inv hk
    have := hp.select hc e2
    rw [e3] at this
    exact ⟨v, e1, this⟩
  · intro c k v a b hc hv hr ha hb
    have hk : k < xs.count c := by rw [← positions_length]; exact (List.getElem?_eq_some_iff.1 hv).1
    obtain ⟨v', e1, e2, e3⟩ := positions_inv hk
    obtain rfl := Option.some_inj.1 (hv.symm.trans e1)
    have := hp.selectReport hc hr ha hb
    rwa [e3] at this
  · intro c v hc hv
    have hpos : 0 < xs.length := by
      have := hd.pos_of hc
      have := List.count_le_length (a := c) (l := xs); omega
    have hw : (if v = xs.length then xs.length - 1 else v) = min v (xs.length - 1) := by split <;> omega
    obtain ⟨k, hk, e1, e2, e3⟩ := hp.rankReport hc hv rfl
    rw [hw] at e1 e2
    have hg := symRuns_good' xs c
    have hcov := symRuns_covers' xs c
    refine ⟨rS (symRuns (rle xs) c) xs.length k, rE (symRuns (rle xs) c) xs.length k, ?_, e1, ?_⟩
    · rw [e3]
      rcases Nat.lt_or_eq_of_le hk with hlt | heq
      · rw [(symRuns_isRun xs c hlt xs.length).2]
      · subst heq; rw [rS_ge (Nat.le_refl _), ← symRuns_total]
    · rcases Nat.lt_or_eq_of_le hk with hlt | heq
      · left
        refine ⟨(symRuns_isRun xs c hlt xs.length).1, ?_⟩
        intro i hi1 hi2
        exact hcov.outside hg (k := k) (fun j hj => Nat.le_trans (e2 j hj) hi1) hi2
      · right
        have hS := rS_ge (rs := symRuns (rle xs) c) (n := xs.length) (k := k) (by omega)
        refine ⟨hS, rE_ge (by omega), ?_⟩
        intro i hi1
        by_cases hi : i < xs.length
        · exact hcov.outside hg (k := k) (fun j hj => Nat.le_trans (e2 j hj) hi1) (by omega)
        · rw [List.getElem?_eq_none (by omega)]; simp

/-- a sequence that meets the hypotheses: the compact BWT of "abcabcababc$" -/
def exBwt : List Nat := [3,3,2,3,0,1,1,1,1,2,2,2]

example : Dense exBwt 4 := ⟨by decide, by decide⟩

example : ((constructPsi exBwt (cumOf exBwt 4)).bind (PsiCoreRLE.build 2 (cumOf exBwt 4))).bind (·.rankReport 3 2) = some (2, 3, 4, 1) ∧
    ((constructPsi exBwt (cumOf exBwt 4)).bind (PsiCoreRLE.build 2 (cumOf exBwt 4))).bind (·.select 2 3) = some 10 := by decide +kernel

/-- C23, the excluded periods: with every odd sampling period the representation is wrong for a sequence (runs are stored as pairs, and an odd
    period samples an end of run where a start is expected). With the period `2h+1 ≥ 3`, in 0101… the value of rank `2h+2` of the symbol 0 is
    `2(2h+1)`, and `2h+1` is answered, which is no value of 0 at all; with the period 1 no select returns. -/
theorem c23_odd_period_violation (h : Nat) : ∃ (xs : List Nat) (psi : List Nat) (P : PsiCoreRLE), Dense xs 2 ∧
    constructPsi xs (cumOf xs 2) = some psi ∧ PsiCoreRLE.build (2*h+1) (cumOf xs 2) psi = some P ∧
    (positions xs 0)[2*h+1]? = some (2*(2*h+1)) ∧ (0 < h → P.select 0 (2*h+2) = some (2*h+1) ∧ xs[2*h+1]? = some 1) ∧
    (h = 0 → P.select 0 2 = none) := by
  obtain ⟨xs, hxs⟩ : ∃ xs, xs = (List.range (2*(2*h+2))).map (· % 2) := ⟨_, rfl⟩
  have hl : xs.length = 2*(2*h+2) := by rw [hxs, List.length_map, List.length_range]
  have hd : Dense xs 2 := by
    constructor
    · intro x hx
      rw [hxs] at hx
      obtain ⟨i, -, rfl⟩ := List.mem_map.1 hx
      omega
    · intro c hc
      rw [hxs]
      exact List.mem_map.2 ⟨c, List.mem_range.2 (by omega), by omega⟩
  have hpos : positions xs 0 = (List.range (2*h+2)).map (2 * ·) := by rw [hxs, positions_even]
  obtain ⟨psi, h1, h2, h3⟩ := constructPsi_spec hd.1
  obtain ⟨f, f1, -⟩ := rleBuildLoop hd ⟨h2, h3⟩ (2*h+1) (List.range 2) (by simp) 0 []
  obtain ⟨P, hP⟩ : ∃ P : PsiCoreRLE, P = { n := xs.length, first := f, parts := [] ++ (List.range 2).map (fun c => PsiCoreRLE.buildPart (2*h+1) (positions xs c)) } := ⟨_, rfl⟩
  have hb : PsiCoreRLE.buildPart (2*h+1) (positions xs 0) = (EncVector.build (2*h+1) (List.range (2*(2*h+2))), [2*h+1]) := by
    rw [hpos, show 2*h+2 = (2*h+1)+1 from rfl, List.range_succ_eq_map, List.map_cons, PsiCoreRLE.buildPart]
    have e := runLoop_even (2*h+1) (2*h+1) 0 []
    have hr : List.range' (0+1) (2*h+1) = (List.range (2*h+1)).map Nat.succ := by
      rw [List.range_eq_range', show (Nat.succ : Nat → Nat) = (1 + ·) from funext (fun x => by omega), List.map_add_range']
    rw [show List.range' (0+1) (2*h+1) = List.range' 1 (2*h+1) from rfl, odd_ranks, show List.range' 1 (2*h+1) = List.range' (0+1) (2*h+1) from rfl, hr] at e
    rw [show (List.range (2*0)) = [] from rfl] at e
    rw [e]
    simp [Nat.add_comm]
  have hpart : P.parts[0]? = some (EncVector.build (2*h+1) (List.range (2*(2*h+2))), [2*h+1]) := by
    rw [hP, ← hb]; rfl
  refine ⟨xs, psi, P, hd, h1, ?_, ?_, ?_, ?_⟩
  · simp only [PsiCoreRLE.build, cumOf_length, csub, Nat.le_add_left, if_true, Nat.add_sub_cancel, Option.bind_eq_bind, Option.bind_some,
      cumOf_get (Nat.le_refl 2), below_all hd.1, f1, List.nil_append, Option.pure_def]
    rw [hP]; rfl
  · rw [hpos]; simp
  · intro hh
    refine ⟨?_, ?_⟩
    · have R := EncVector.build_rep (dens := 2*h+1) (by omega) (List.range (2*(2*h+2)))
      have hdens : (EncVector.build (2*h+1) (List.range (2*(2*h+2)))).dens = 2*h+1 := by unfold EncVector.build; split <;> rfl
      have hsz := R.size
      rw [List.length_range] at hsz
      have hs := R.sample 1 (by rw [hdens, List.length_range]; omega)
      have hc := R.cell (2*h+2) (by rw [List.length_range]; omega) (by
        rw [hdens, Nat.mod_eq_sub_mod (by omega), Nat.mod_eq_of_lt (by omega)]; omega)
      have hn : P.n = 2*(2*h+2) := by rw [hP]; exact hl
      rw [hdens, Nat.one_mul] at hs
      rw [hdens] at hc
      have hdelta : edelta (List.range (2*(2*h+2))) (2*h+2) = 1 := by
        unfold edelta wsub
        rw [List.getD_eq_getElem?_getD, List.getD_eq_getElem?_getD, List.getElem?_range (by omega), List.getElem?_range (by omega), Option.getD_some,
          Option.getD_some, show 2*h+2 + W64 - (2*h+2-1) = 1 + W64 by omega, Nat.add_mod_right, W64_eq]
        decide +kernel
      have heoff : eoff (2*h+1) (List.range (2*(2*h+2))) (2*h+1) = eoff (2*h+1) (List.range (2*(2*h+2))) (2*h+2) := by
        rw [show 2*h+2 = (2*h+1)+1 from rfl, eoff.eq_2 _ _ (2*h+1), Nat.mod_self, if_pos rfl]; rfl
      have hv : (List.range (2*(2*h+2))).getD (2*h+1) 0 = 2*h+1 := by
        rw [List.getD_eq_getElem?_getD, List.getElem?_range (by omega)]; rfl
      have hub : upperBound [2*h+1] (2*h+1) = 1 := by simp [upperBound]
      have hm : nSamples (EncVector.build (2*h+1) (List.range (2*(2*h+2)))) = some 3 := by
        unfold nSamples
        rw [hsz, hdens]
        have : (2*(2*h+2) - 1) / (2*h+1) = 2 := by
          rw [show 2*(2*h+2) - 1 = 1 + (2*h+1) * 2 by omega, Nat.add_mul_div_left _ _ (by omega), Nat.div_eq_of_lt (by omega)]
        rw [show csub (2*(2*h+2)) 1 = some (2*(2*h+2) - 1) from if_pos (by omega)]
        simp [assertC, this]
      have hmin : min (2*h+1) (2*(2*h+2) - (2*h+1)) / 2 = h := by omega
      unfold PsiCoreRLE.select
      rw [hpart, Option.bind_eq_bind, Option.bind_some]
      dsimp only
      have hcore : PsiCoreRLE.selectCore (EncVector.build (2*h+1) (List.range (2*(2*h+2)))) [2*h+1] P.n (2*h+2) =
          some (⟨2*h+1, 2*h+2, 2*h+2⟩, ⟨h-1, 2, eoff (2*h+1) (List.range (2*(2*h+2))) (2*h+2+1), (2*h+1)/2⟩) := by
        unfold PsiCoreRLE.selectCore
        have c1 : csub (2*h+2) 1 = some (2*h+1) := by simp [csub]
        rw [c1]
        have c2 : csub (2*(2*h+2)) (2*h+1) = some (2*(2*h+2) - (2*h+1)) := if_pos (by omega)
        have c3 : csub h 1 = some (h - 1) := if_pos hh
        have c4 : csub (2*h+1+1) (2*h+1) = some 1 := by unfold csub; rw [if_pos (by omega)]; congr 1; omega
        have n1 : ¬ (2*h+1 = 2*(2*h+2)) := by omega
        simp only [Option.bind_eq_bind, Option.bind_some, hub, RunOps.init, hs.1, hs.2, hv, PsiCoreRLE.selectLoop, RunOps.nextStart, RunOps.nextEnd, hm, hsz,
          hdens, c2, hmin, c3, hn, heoff, hc, hdelta, c4, ne_eq, not_true_eq_false, if_false, if_true, one_ne_zero, not_false_eq_true, Nat.one_lt_ofNat,
          Option.pure_def, n1, Nat.sub_self, List.getD_cons_zero, Nat.one_mul]
        rw [if_neg (by omega)]
      rw [hcore]
      simp [PsiCoreRLE.selValue, csub]
    · rw [hxs, List.getElem?_map, List.getElem?_range (by omega)]
      simp
  · rintro rfl
    unfold PsiCoreRLE.select
    rw [hpart, show P.n = 4 by rw [hP]; exact hl]
    decide +kernel

-- with the period 3 the value of rank 4 is 6, and 3 is answered
example : (positions [0,1,0,1,0,1,0,1] 0)[3]? = some 6 ∧ ((constructPsi [0,1,0,1,0,1,0,1] (cumOf [0,1,0,1,0,1,0,1] 2)).bind
    (PsiCoreRLE.build 3 (cumOf [0,1,0,1,0,1,0,1] 2))).bind (·.select 0 4) = some 3 := by decide +kernel

/-- C23 for a text: the psi core in the cache (sampling period 64) answers for the compact BWT of the text. -/
theorem c23_text (T sa : List Nat) (hT : IsText T) (hsa : IsSA T sa) (hn : T.length < 2^64) :
    ∃ b p, constructBase T sa = some b ∧ constructPsiItems b = some p ∧
      Dense ((constructBWT T sa).map b.alphabet.char2comp) b.alphabet.sigma ∧
      b.alphabet.C = cumOf ((constructBWT T sa).map b.alphabet.char2comp) b.alphabet.sigma ∧
      (∀ c v, c < b.alphabet.sigma → v ≤ T.length →
        p.core.rank c v = some ((((constructBWT T sa).map b.alphabet.char2comp).take v).count c)) ∧
      (∀ c k, c < b.alphabet.sigma → k < ((constructBWT T sa).map b.alphabet.char2comp).count c →
        ∃ v, (positions ((constructBWT T sa).map b.alphabet.char2comp) c)[k]? = some v ∧ p.core.select c (k+1) = some v) := by
  obtain ⟨b, T', hb, hok⟩ := base_build hT hsa
  have hc := hok.compact
  obtain ⟨p, hp, hpo⟩ := psiItems_build hok (by rw [W64_eq]; exact hn)
  have e : (constructBWT T sa).map b.alphabet.char2comp = bwtSeq T' sa := hc.bwt
  refine ⟨b, p, hb, hp, by rw [e]; exact hc.dense, by rw [e]; exact hc.C_eq, ?_, ?_⟩
  · intro c v h1 h2
    rw [e]; exact hpo.core.rank h1 (by rw [bwtSeq_length, hc.len]; exact h2)
  · intro c k h1 h2
    rw [e] at h2 ⊢
    obtain ⟨v, e1, e2, e3⟩ := positions_inv h2
    have := hpo.core.select h1 e2
    rw [e3] at this
    exact ⟨v, e1, this⟩

/-- C24. The run queries of PsiCoreRLE, for every sequence and range: `rankRun` counts the runs that start before a position,
    `rankCharRun` and `countRuns` the runs of the smaller symbols and of a symbol, `traverse` lists the runs of a symbol, `exist` tells
    whether a position holds a symbol, `splitInSortedRuns` splits a range of positions in the runs that meet it (from left to right, each
    piece with its symbol, its run number and whether it begins at the start of its run), and `computeForwardRuns` does so for a range of
    ranks `[f,l)` of one symbol. -/
theorem c24_runQueries (xs : List Nat) (s h : Nat) (hd : Dense xs s) (hs : 0 < s) (hh : 0 < h) (hn : xs.length < 2^64) :
    ∃ psi P, constructPsi xs (cumOf xs s) = some psi ∧ PsiCoreRLE.build (2*h) (cumOf xs s) psi = some P ∧
      (∀ v, v ≤ xs.length → P.rankRun v = some (runsBefore xs v)) ∧
      (∀ c, c ≤ s → P.rankCharRun c = some (((List.range c).map (fun d => symbolRunsBefore xs d xs.length)).sum)) ∧
      (∀ c, c < s → P.countRuns c = some (symbolRunsBefore xs c xs.length)) ∧
      (∀ c, c < s → ∃ l, P.traverse c = some l ∧ (∀ a b, (a, b) ∈ l ↔ IsRun xs a b c) ∧ l.Pairwise (fun x y => x.1 < y.1)) ∧
      (∀ c v, c < s → v < xs.length → P.exist c v = some (decide (xs[v]? = some c))) ∧
      (∀ lo hi, lo < hi → hi ≤ xs.length → ∃ l, P.splitInSortedRuns lo hi = some l ∧ SortedSplit xs lo hi l) ∧
      (∀ c f l, c < s → 1 ≤ f → f < l → l ≤ xs.count c + 1 →
        ∃ u v r, (positions xs c)[f-1]? = some u ∧ (positions xs c)[l-2]? = some v ∧ P.computeForwardRuns c f l = some r ∧
          SplitOf xs u (v+1) c r) := by
  have hn' : xs.length < W64 := by rw [W64_eq]; exact hn
  obtain ⟨psi, h1, h2, h3⟩ := constructPsi_spec hd.1
  obtain ⟨P, h4, hp⟩ := rle_build hd ⟨h2, h3⟩ hs hh hn'
  refine ⟨psi, P, h1, h4, fun v hv => hp.rankRun hd hv, ?_, ?_, ?_, fun c v hc hv => hp.exist hc hv,
    fun lo hi h1 h2 => hp.splitInSortedRuns hd.1 h1 h2, fun c f l hc e1 e2 e3 => hp.forwardRuns hc e1 e2 e3⟩
  · intro c hc
    rw [hp.rankCharRun hc]
    simp only [symRuns_total]
  · intro c hc; rw [hp.countRuns hc, symRuns_total]
  · intro c hc
    refine ⟨_, hp.traverse hc, ?_, ?_⟩
    · intro a b
      constructor
      · intro hm
        obtain ⟨j, hj, he⟩ := List.getElem_of_mem hm
        have := (symRuns_isRun xs c hj xs.length).1
        simp only [rS, rE, List.getD_eq_getElem?_getD, List.getElem?_eq_getElem hj, Option.getD_some, he] at this
        exact this
      · intro hr
        obtain ⟨e1, e2⟩ := isRun_symRuns hr
        obtain ⟨e3, e4⟩ := e2 xs.length
        simp only [rS, rE, List.getD_eq_getElem?_getD, List.getElem?_eq_getElem e1, Option.getD_some] at e3 e4
        have := List.getElem_mem e1
        rwa [show (symRuns (rle xs) c)[symbolRunsBefore xs c a] = (a, b) from Prod.ext e3 e4] at this
    · have hg := symRuns_good' xs c
      rw [List.pairwise_iff_getElem]
      intro i j hi hj hij
      have e := hg.E_le_S_of_lt hij
      have e2 := (symRuns_isRun xs c hi xs.length).1.1
      simp only [rS, rE, List.getD_eq_getElem?_getD, List.getElem?_eq_getElem hi, List.getElem?_eq_getElem hj, Option.getD_some] at e e2
      omega

example : ((constructPsi exBwt (cumOf exBwt 4)).bind (PsiCoreRLE.build 2 (cumOf exBwt 4))).bind (·.splitInSortedRuns 1 7) =
    some [⟨1, 2, 3, 0, false⟩, ⟨2, 3, 2, 0, true⟩, ⟨3, 4, 3, 1, true⟩, ⟨4, 5, 0, 0, true⟩, ⟨5, 7, 1, 0, true⟩] ∧
    ((constructPsi exBwt (cumOf exBwt 4)).bind (PsiCoreRLE.build 2 (cumOf exBwt 4))).bind (·.computeForwardRuns 2 1 4) =
    some [⟨2, 3, 2, 0, true⟩, ⟨9, 11, 2, 1, true⟩] ∧
    ((constructPsi exBwt (cumOf exBwt 4)).bind (PsiCoreRLE.build 2 (cumOf exBwt 4))).bind (·.rankRun 4) = some 3 := by decide +kernel

/-- C25. PsiCoreBV built from psi: `rank`, `select`, `exist`, and the first symbol of the sequence. -/
theorem c25_psiCoreBV (xs : List Nat) (s : Nat) (hd : Dense xs s) (hs : 0 < s) :
    ∃ psi P, constructPsi xs (cumOf xs s) = some psi ∧ PsiCoreBV.build (cumOf xs s) psi = some P ∧
      (∀ c v, c < s → v ≤ xs.length → P.rank c v = some ((xs.take v).count c)) ∧
      (∀ c k, c < s → k < xs.count c → ∃ v, (positions xs c)[k]? = some v ∧ P.select c (k+1) = some v) ∧
      (∀ c v, c < s → v < xs.length → P.exist c v = some (decide (xs[v]? = some c))) ∧
      xs[0]? = some P.first := by
  obtain ⟨psi, h1, h2, h3⟩ := constructPsi_spec hd.1
  obtain ⟨P, h4, hp⟩ := bv_build hd ⟨h2, h3⟩ hs
  refine ⟨psi, P, h1, h4, fun c v hc hv => hp.rank hc hv, ?_, fun c v hc hv => hp.exist hc hv, hp.first⟩
  intro c k hc hk
  obtain ⟨v, e1, e2, e3⟩ := positions_inv hk
  have := hp.select hc e2
  rw [e3] at this
  exact ⟨v, e1, this⟩

example : ((constructPsi exBwt (cumOf exBwt 4)).bind (PsiCoreBV.build (cumOf exBwt 4))).map (·.first) = some 3 ∧
    ((constructPsi exBwt (cumOf exBwt 4)).bind (PsiCoreBV.build (cumOf exBwt 4))).bind (·.select 3 3) = some 3 := by decide +kernel

/-- C25, the same first symbol is reported by PsiCoreRLE. -/
theorem c25_first_symbol_rle (xs : List Nat) (s h : Nat) (hd : Dense xs s) (hs : 0 < s) (hh : 0 < h) (hn : xs.length < 2^64) :
    ∃ psi P, constructPsi xs (cumOf xs s) = some psi ∧ PsiCoreRLE.build (2*h) (cumOf xs s) psi = some P ∧ xs[0]? = some P.first := by
  have hn' : xs.length < W64 := by rw [W64_eq]; exact hn
  obtain ⟨psi, h1, h2, h3⟩ := constructPsi_spec hd.1
  obtain ⟨P, h4, hp⟩ := rle_build hd ⟨h2, h3⟩ hs hh hn'
  exact ⟨psi, P, h1, h4, hp.first⟩

/-- C26. For every text: the psi built from its BWT is a permutation of the suffix-array positions, steps from a suffix to the one
    starting right after it (circularly), increases within each block of suffixes with the same first character, and LF (as computed
    from the run-length BWT) is its inverse. The psi functor over either representation computes the same function. -/
theorem c26_psi (T sa : List Nat) (hT : IsText T) (hsa : IsSA T sa) (hn : T.length < 2^64) :
    ∃ b p q, constructBase T sa = some b ∧ constructPsiItems b = some p ∧ PsiCoreBV.build b.alphabet.C p.psi = some q ∧
      p.psi.Perm (List.range T.length) ∧
      (∀ i j : Nat, p.psi[i]? = some j → ∃ x y, sa[i]? = some x ∧ sa[j]? = some y ∧ y = (x + 1) % T.length) ∧
      (∀ i, i < T.length → ∃ j, p.psi[i]? = some j ∧ basicLF b.bwtRle b.alphabet.C j = some i) ∧
      (∀ j, j < T.length → ∃ i, basicLF b.bwtRle b.alphabet.C j = some i ∧ p.psi[i]? = some j) ∧
      (∀ i j x y u v : Nat, i < j → sa[i]? = some x → sa[j]? = some y → T[x]? = T[y]? → p.psi[i]? = some u → p.psi[j]? = some v → u < v) ∧
      (∀ i, i < T.length → psiApply p.core.select b.alphabet.C i = p.psi[i]? ∧ psiApply q.select b.alphabet.C i = p.psi[i]?) := by
  obtain ⟨b, T', hb, hok⟩ := base_build hT hsa
  have hc := hok.compact
  have hsa' := hc.isSA
  obtain ⟨p, hp, hpo⟩ := psiItems_build hok (by rw [W64_eq]; exact hn)
  have hget : ∀ i, i < T'.length → p.psi[i]? = some (psiAt T' sa i) := by
    intro i hi; rw [hpo.psi, List.getElem?_map, List.getElem?_range hi]; rfl
  have hlen : p.psi.length = T'.length := by rw [hpo.psi]; simp
  have hisp : IsPsi p.psi (bwtSeq T' sa) := by
    refine ⟨by rw [hlen, bwtSeq_length], ?_⟩
    intro j hj
    rw [bwtSeq_length] at hj
    rw [lfPos_eq hc.text hsa' hj, hget _ (lfAt_lt hsa' hj), psi_lf hsa' hj]
  obtain ⟨q, hq, hqo⟩ := bv_build hc.dense hisp hc.sigma_pos
  have hlt : ∀ {i j}, p.psi[i]? = some j → i < T'.length := by
    intro i j h; rw [← hlen]; exact (List.getElem?_eq_some_iff.1 h).1
  have hsaget : ∀ i, i < T'.length → sa[i]? = some (saAt sa i) := by
    intro i hi
    rw [saAt_eq hsa' hi, List.getElem?_eq_getElem]
  refine ⟨b, p, q, hb, hp, by rw [hc.C_eq]; exact hq, ?_, ?_, ?_, ?_, ?_, ?_⟩
  · rw [hpo.psi, ← hc.len]
    refine (List.perm_ext_iff_of_nodup ?_ List.nodup_range).2 ?_
    · refine List.Nodup.map_on ?_ List.nodup_range
      intro x hx y hy hxy
      rw [← lf_psi hsa' (List.mem_range.1 hx), hxy, lf_psi hsa' (List.mem_range.1 hy)]
    · intro i
      rw [List.mem_map, List.mem_range]
      constructor
      · rintro ⟨j, hj, rfl⟩; exact psiAt_lt hsa' (List.mem_range.1 hj)
      · intro hi; exact ⟨_, List.mem_range.2 (lfAt_lt hsa' hi), psi_lf hsa' hi⟩
  · intro i j hij
    have hi := hlt hij
    rw [hget i hi] at hij
    obtain rfl := Option.some_inj.1 hij
    exact ⟨_, _, hsaget i hi, hsaget _ (psiAt_lt hsa' hi), by rw [saAt_psiAt hsa' hi, hc.len]⟩
  · intro i hi
    rw [← hc.len] at hi
    exact ⟨_, hget i hi, by rw [basicLF_eq hok (psiAt_lt hsa' hi), lf_psi hsa' hi]⟩
  · intro j hj
    rw [← hc.len] at hj
    exact ⟨_, basicLF_eq hok hj, by rw [hget _ (lfAt_lt hsa' hj), psi_lf hsa' hj]⟩
  · intro i j x y u v hij hx hy hxy hu hv
    have hi := hlt hu
    have hj := hlt hv
    rw [hget i hi] at hu
    rw [hget j hj] at hv
    obtain rfl := Option.some_inj.1 hu
    obtain rfl := Option.some_inj.1 hv
    rw [hsaget i hi] at hx
    rw [hsaget j hj] at hy
    obtain rfl := Option.some_inj.1 hx
    obtain rfl := Option.some_inj.1 hy
    have e : tx T' (saAt sa i) = tx T' (saAt sa j) := by
      simp only [tx, List.getD_eq_getElem?_getD, hc.eq, List.getElem?_map, hxy]
    rw [← lf_lt_iff hc.text hsa' (psiAt_lt hsa' hi) (psiAt_lt hsa' hj), lf_psi hsa' hi, lf_psi hsa' hj]
    · exact hij
    · rw [bwtAt_eq hsa' (psiAt_lt hsa' hi), bwtAt_eq hsa' (psiAt_lt hsa' hj), lf_psi hsa' hi, lf_psi hsa' hj, e]
  · intro i hi
    rw [← hc.len] at hi
    rw [hget i hi]
    exact ⟨psiApply_eq hc (fun c v h1 h2 => hpo.core.select h1 h2) hi, psiApply_eq hc (fun c v h1 h2 => hqo.select h1 h2) hi⟩

example : ((constructBase [1,2,3,1,2,3,1,2,1,2,3,0] [11,6,8,3,0,7,9,4,1,10,5,2]).bind constructPsiItems).map (·.psi) =
    some [4,5,6,7,8,2,9,10,11,0,1,3] := by decide +kernel

end Sri
