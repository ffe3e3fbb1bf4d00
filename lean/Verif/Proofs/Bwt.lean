import Verif.Model.Bwt
import Verif.Model.Construct
import Verif.Proofs.RIndex
import Verif.Proofs.RunSpec
import Verif.Proofs.PsiText
/-! # computeBWT, constructBWTRuns and computeLF -/
namespace Sri
set_option autoImplicit false

/-- a run head or tail at position `j` of `xs` -/
def reportAt (xs : List Nat) (tp : Nat → Nat) (j : Nat) : RunReport :=
  { run := runsBefore xs (j+1) - 1, pos := j, sym := xs.getD j 0, textPos := tp j }

section
variable {xs : List Nat} {tp : Nat → Nat}

theorem runsBefore_succ' (xs : List Nat) (i : Nat) : runsBefore xs (i+1) = runsBefore xs i + if runStartsAt xs i then 1 else 0 := by
  rw [runsBefore, runsBefore, List.range_succ, List.filter_append, List.length_append]
  cases h : runStartsAt xs i <;> simp [h]

theorem runStartsAt_succ {i : Nat} (hi : i + 1 < xs.length) : runStartsAt xs (i+1) = decide (xs.getD (i+1) 0 ≠ xs.getD i 0) := by
  have h1 : i < xs.length := by omega
  simp only [runStartsAt, List.getD_eq_getElem?_getD, Nat.add_sub_cancel, List.getElem?_eq_getElem hi, List.getElem?_eq_getElem h1, Option.getD_some]
  by_cases h : xs[i+1] = xs[i] <;> simp [h]

theorem runEndsAt_lt {i : Nat} (hi : i + 1 < xs.length) : runEndsAt xs i = runStartsAt xs (i+1) := by simp [runEndsAt, runStartsAt]

theorem runEndsAt_last (hx : 0 < xs.length) : runEndsAt xs (xs.length - 1) = true := by
  have h1 : xs.length - 1 < xs.length := by omega
  simp only [runEndsAt, List.getElem?_eq_getElem h1]
  rw [List.getElem?_eq_none (by omega)]; rfl

theorem runsBefore_pos {i : Nat} : 0 < runsBefore xs (i+1) := by
  have : ((List.range (i+1)).filter (runStartsAt xs)) ≠ [] := by
    apply List.ne_nil_of_mem (a := 0)
    simp [runStartsAt]
  exact List.length_pos_iff.2 this

theorem computeBWTLoop_eq {T sa : List Nat} (hstep : ∀ j, j < xs.length → bwtStep xs.length sa T j = some (xs.getD j 0, tp j)) (m : Nat) :
    ∀ i, i + m = xs.length → 1 ≤ i →
      computeBWTLoop xs.length sa T m i (runsBefore xs i - 1) (xs.getD (i-1) 0) (tp (i-1)) =
        some { bwt := (List.range' i m).map (fun j => (j, xs.getD j 0)),
               first := ((List.range' i m).filter (runStartsAt xs)).map (reportAt xs tp),
               last := ((List.range' (i-1) (m+1)).filter (runEndsAt xs)).map (reportAt xs tp),
               runs := runsBefore xs xs.length } := by
  induction m with
  | zero =>
    intro i hi h1
    have hl : xs.length - 1 = i - 1 := by omega
    have he : runEndsAt xs (i-1) = true := by rw [← hl]; exact runEndsAt_last (by omega)
    have hpos : 0 < runsBefore xs i := by
      have := runsBefore_pos (xs := xs) (i := i-1); rwa [show i - 1 + 1 = i by omega] at this
    have hf : (List.range' (i-1) (0+1)).filter (runEndsAt xs) = [i-1] := by
      rw [Nat.zero_add, List.range'_one, List.filter_cons, if_pos he, List.filter_nil]
    have hxi : xs.length = i := by omega
    have hru : runsBefore xs i - 1 + 1 = runsBefore xs xs.length := by rw [hxi]; omega
    rw [hf]
    simp only [computeBWTLoop, List.range'_zero, List.map_nil, List.filter_nil, List.map_cons, reportAt, hl, show i - 1 + 1 = i by omega, hru]
  | succ m ih =>
    intro i hi h1
    have hpos : 0 < runsBefore xs i := by
      have := runsBefore_pos (xs := xs) (i := i-1); rwa [show i - 1 + 1 = i by omega] at this
    have hs := runStartsAt_succ (xs := xs) (i := i-1) (by omega)
    have he := runEndsAt_lt (xs := xs) (i := i-1) (by omega)
    rw [show i - 1 + 1 = i by omega] at hs he
    have hr := runsBefore_succ' xs i
    have hrec := ih (i+1) (by omega) (by omega)
    rw [show i + 1 - 1 = i by omega] at hrec
    rw [computeBWTLoop]
    simp only [hstep i (by omega), Option.bind_eq_bind, Option.bind_some, Option.pure_def]
    rw [List.range'_succ (n := m), List.range'_succ (s := i-1) (n := m+1), show i - 1 + 1 = i by omega, List.filter_cons, List.filter_cons (x := i-1)]
    by_cases hc : xs.getD i 0 = xs.getD (i-1) 0
    · rw [if_neg (by simpa using hc)]
      have hs0 : runStartsAt xs i = false := by rw [hs]; simpa using hc
      rw [hs0] at hr he
      simp only [Bool.false_eq_true, if_false, Nat.add_zero] at hr
      rw [hr] at hrec
      rw [hrec, hs0, he]
      simp
    · rw [if_pos (by simpa using hc)]
      have hs0 : runStartsAt xs i = true := by rw [hs]; simpa using hc
      rw [hs0] at hr he
      simp only [if_true] at hr
      rw [show runsBefore xs (i+1) - 1 = runsBefore xs i - 1 + 1 by omega] at hrec
      rw [hrec, hs0, he]
      simp only [if_true, List.map_cons, Option.bind_some]
      congr 2
      · congr 1; simp only [reportAt]; congr 1; omega
      · congr 1; simp only [reportAt, show i - 1 + 1 = i by omega]

theorem computeBWT_eq {T sa : List Nat} (hx : 0 < xs.length) (hstep : ∀ j, j < xs.length → bwtStep xs.length sa T j = some (xs.getD j 0, tp j)) :
    computeBWT xs.length sa T =
        some { bwt := (List.range xs.length).map (fun j => (j, xs.getD j 0)),
               first := ((List.range xs.length).filter (runStartsAt xs)).map (reportAt xs tp),
               last := ((List.range xs.length).filter (runEndsAt xs)).map (reportAt xs tp),
               runs := runsBefore xs xs.length } := by
  have h := computeBWTLoop_eq hstep (xs.length - 1) 1 (by omega) (by omega)
  have h1 : runsBefore xs 1 = 1 := by simp [runsBefore, runStartsAt]
  rw [h1, show 1 - 1 = 0 from rfl, show xs.length - 1 + 1 = xs.length by omega] at h
  unfold computeBWT
  have hr : List.range xs.length = 0 :: List.range' 1 (xs.length - 1) := by
    rw [List.range_eq_range', show xs.length = (xs.length - 1) + 1 by omega, List.range'_succ, Nat.add_sub_cancel]
  have ha : (assertC (decide (0 < xs.length))) = some () := by simp [assertC, hx]
  simp only [ha, hstep 0 hx, h, Option.bind_eq_bind, Option.bind_some, Option.pure_def]
  congr 1
  rw [← List.range_eq_range' (n := xs.length), hr]
  have h0 : runStartsAt xs 0 = true := by simp [runStartsAt]
  simp [List.filter_cons, h0, reportAt, h1]

theorem starts_filter (xs : List Nat) : starts 0 (rle xs) = (List.range xs.length).filter (runStartsAt xs) := by
  have hp := rle_pos xs
  have ha := rle_alternating xs
  have hx := expand_rle xs
  have hmem : ∀ i, i ∈ starts 0 (rle xs) ↔ ∃ k, k < (rle xs).length ∧ i = rstart (rle xs) k := by
    intro i
    constructor
    · intro h
      obtain ⟨k, hk, rfl⟩ := List.getElem_of_mem h
      have hk' : k < (rle xs).length := by rwa [starts_length] at hk
      have := starts_getElem 0 (rle xs) hk'
      rw [List.getElem?_eq_getElem hk] at this
      exact ⟨k, hk', by rw [Option.some_inj.1 this]; omega⟩
    · rintro ⟨k, hk, rfl⟩
      have := starts_getElem 0 (rle xs) hk
      rw [Nat.zero_add] at this
      exact List.mem_of_getElem? this
  have hsort : (starts 0 (rle xs)).Pairwise (· < ·) := by
    rw [List.pairwise_iff_getElem]
    intro i j hi hj hij
    rw [starts_length] at hi hj
    have e1 := starts_getElem 0 (rle xs) hi
    have e2 := starts_getElem 0 (rle xs) hj
    have := rstart_strict hp hij (Nat.le_of_lt hj)
    rw [List.getElem?_eq_getElem (by rwa [starts_length])] at e1 e2
    have e1 := Option.some_inj.1 e1
    have e2 := Option.some_inj.1 e2
    omega
  refine List.Perm.eq_of_pairwise (le := (· < ·)) (fun a b _ _ h1 h2 => by omega) hsort (List.pairwise_lt_range.filter _) ?_
  refine (List.perm_ext_iff_of_nodup (hsort.imp (fun h => by omega)) (List.nodup_range.filter _)).2 ?_
  intro i
  rw [hmem, List.mem_filter, List.mem_range]
  constructor
  · rintro ⟨k, hk, rfl⟩
    have hlt := rstart_strict hp (show k < k + 1 by omega) (by omega)
    have := runStartsAt_iff hp ha hk (Nat.le_refl _) hlt
    rw [hx] at this
    refine ⟨?_, this.2 rfl⟩
    have h2 := rstart_total_lt hk hlt
    rwa [hx] at h2
  · rintro ⟨hi, hs⟩
    obtain ⟨k, hk, h1, h2⟩ := rstart_find (rle xs) (i := i) (by rw [← length_expand, hx]; exact hi)
    have := runStartsAt_iff hp ha hk h1 h2
    rw [hx] at this
    exact ⟨k, hk, this.1 hs⟩

theorem ends_filter (xs : List Nat) : ends 0 (rle xs) = (List.range xs.length).filter (runEndsAt xs) := by
  have hp := rle_pos xs
  have ha := rle_alternating xs
  have hx := expand_rle xs
  have hlen : xs.length = rstart (rle xs) (rle xs).length := by rw [← length_expand, hx]
  have hmem : ∀ i, i ∈ ends 0 (rle xs) ↔ ∃ k, k < (rle xs).length ∧ i = rstart (rle xs) (k+1) - 1 := by
    intro i
    constructor
    · intro h
      obtain ⟨k, hk, rfl⟩ := List.getElem_of_mem h
      have hk' : k < (rle xs).length := by rwa [ends_length] at hk
      have := ends_getElem 0 (rle xs) hk'
      rw [List.getElem?_eq_getElem hk] at this
      exact ⟨k, hk', by rw [Option.some_inj.1 this]; omega⟩
    · rintro ⟨k, hk, rfl⟩
      have := ends_getElem 0 (rle xs) hk
      rw [Nat.zero_add] at this
      exact List.mem_of_getElem? this
  have hsort : (ends 0 (rle xs)).Pairwise (· < ·) := by
    rw [List.pairwise_iff_getElem]
    intro i j hi hj hij
    rw [ends_length] at hi hj
    have e1 := ends_getElem 0 (rle xs) hi
    have e2 := ends_getElem 0 (rle xs) hj
    have h3 := rstart_strict hp (show i + 1 < j + 1 by omega) (by omega)
    have h4 := rstart_strict hp (show i < i + 1 by omega) (by omega)
    rw [List.getElem?_eq_getElem (by rwa [ends_length])] at e1 e2
    have e1 := Option.some_inj.1 e1
    have e2 := Option.some_inj.1 e2
    omega
  refine List.Perm.eq_of_pairwise (le := (· < ·)) (fun a b _ _ h1 h2 => by omega) hsort (List.pairwise_lt_range.filter _) ?_
  refine (List.perm_ext_iff_of_nodup (hsort.imp (fun h => by omega)) (List.nodup_range.filter _)).2 ?_
  intro i
  rw [hmem, List.mem_filter, List.mem_range]
  constructor
  · rintro ⟨k, hk, rfl⟩
    have hlt := rstart_strict hp (show k < k + 1 by omega) (by omega)
    have hle := rstart_mono (rle xs) (show k + 1 ≤ (rle xs).length by omega)
    refine ⟨by omega, ?_⟩
    rcases Nat.lt_or_ge (k+1) (rle xs).length with hk1 | hk1
    · have hlt1 := rstart_strict hp (show k + 1 < k + 2 by omega) (by omega)
      have hle1 := rstart_mono (rle xs) (show k + 2 ≤ (rle xs).length by omega)
      rw [runEndsAt_lt (by omega), show rstart (rle xs) (k+1) - 1 + 1 = rstart (rle xs) (k+1) by omega]
      have := runStartsAt_iff hp ha hk1 (Nat.le_refl _) hlt1
      rw [hx] at this
      exact this.2 rfl
    · have : k + 1 = (rle xs).length := by omega
      rw [this, ← hlen]; exact runEndsAt_last (by omega)
  · rintro ⟨hi, hs⟩
    by_cases h1 : i + 1 < xs.length
    · rw [runEndsAt_lt h1] at hs
      obtain ⟨k, hk, h3, h4⟩ := rstart_find (rle xs) (i := i + 1) (by rw [← length_expand, hx]; exact h1)
      have := runStartsAt_iff hp ha hk h3 h4
      rw [hx] at this
      have h5 := this.1 hs
      cases k with
      | zero => simp at h5
      | succ k => exact ⟨k, by omega, by omega⟩
    · have hr : 0 < (rle xs).length := by
        by_contra h0
        have : (rle xs).length = 0 := by omega
        rw [this] at hlen; simp at hlen; rw [hlen] at hi; simp at hi
      exact ⟨(rle xs).length - 1, by omega, by rw [show (rle xs).length - 1 + 1 = (rle xs).length by omega, ← hlen]; omega⟩

end

section
variable {T sa : List Nat}

theorem bwtOf_eq (T sa : List Nat) : bwtOf T sa = constructBWT T sa := rfl

theorem bwtOf_seq (hsa : IsSA T sa) : bwtOf T sa = (List.range T.length).map (bwtAt T sa) := constructBWT_eq hsa

theorem bwtTextPos_prev {p : Nat} (hn : 0 < T.length) (hp : p < T.length) : bwtTextPos T.length p = prevPos T p := by
  rw [bwtTextPos, prevPos]
  by_cases h : 0 < p
  · rw [if_pos h, show p + T.length - 1 = (p - 1) + T.length by omega, Nat.add_mod_right, Nat.mod_eq_of_lt (by omega)]
  · rw [if_neg h, show p + T.length - 1 = T.length - 1 by omega, Nat.mod_eq_of_lt (by omega)]

theorem bwtStep_eq (hsa : IsSA T sa) (hn : 0 < T.length) {j : Nat} (hj : j < T.length) :
    bwtStep T.length sa T j = some ((bwtOf T sa).getD j 0, prevPos T (sa.getD j 0)) := by
  have hl := hsa.length
  have hlt : sa[j]'(by omega) < T.length := List.mem_range.1 (hsa.1.mem_iff.1 (List.getElem_mem (by omega)))
  have e := bwtTextPos_prev hn hlt
  have hlt' : prevPos T (sa[j]'(by omega)) < T.length := Nat.mod_lt _ hn
  rw [bwtTextPos] at e
  simp [bwtStep, bwtOf, List.getElem?_eq_getElem (show j < sa.length by omega), e, List.getElem?_eq_getElem hlt', List.getD_eq_getElem?_getD, List.getElem?_map]

theorem range_iff_interval (hsa : IsSA T sa) {P : List Nat} {a b : Nat} : IsInterval P T sa a b ↔ IsRange P T sa a b := by
  have hl := hsa.length
  have hs : ∀ i (hi : i < sa.length), saAt sa i = sa[i] := fun i hi => by simp [saAt, List.getD_eq_getElem?_getD, List.getElem?_eq_getElem hi]
  constructor
  · rintro ⟨h1, h2, h3⟩
    refine ⟨h1, by omega, fun i => ?_⟩
    rw [MatchAt]
    constructor
    · rintro ⟨h4, h5⟩
      rw [hs i (by omega)] at h5
      exact (h3 i (by omega)).1 h5
    · intro h4
      have : i < sa.length := by omega
      exact ⟨by omega, by rw [hs i this]; exact (h3 i this).2 h4⟩
  · rintro ⟨h1, h2, h3⟩
    refine ⟨h1, by omega, fun i hi => ?_⟩
    rw [← h3 i, MatchAt, hs i hi]
    exact ⟨fun h => ⟨by omega, h⟩, fun h => h.2⟩

theorem count_bwtOf (hsa : IsSA T sa) (c i : Nat) (hi : i ≤ T.length) : ((bwtOf T sa).take i).count c = cnt T sa c i := by
  rw [bwtOf_seq hsa]; exact bwtSeq_take c i hi

/-- the inclusive range `(a, b-1)`, or `(1,0)` for an empty one -/
def inclusive (a b : Nat) : Nat × Nat := if a < b then (a, b - 1) else (1, 0)

theorem computeLF_eq (hT : IsText T) (hsa : IsSA T sa) {rank : Nat → Nat → Option Nat} {f : Nat → Option Nat} {maxC : Nat}
    (hr : ∀ i c, i ≤ T.length → c ≤ maxC → rank i c = some (((bwtOf T sa).take i).count c))
    (hf : ∀ c, c ≤ maxC → f c = some (below T c)) (hf1 : maxC ∈ T → f (maxC+1) = some (below T (maxC+1)))
    (hm : ∀ x ∈ T, x ≤ maxC) {c a b : Nat} (hc : c ≤ maxC) (hab : a ≤ b) (hb : b ≤ T.length) (h1 : 1 ≤ b) :
    computeLF rank f (a, b - 1) c T.length maxC = some (inclusive (cumC T c + cnt T sa c a) (cumC T c + cnt T sa c b)) := by
  have hmono : ∀ i j, i ≤ j → cnt T sa c i ≤ cnt T sa c j := fun i j h => Nat.count_monotone _ h
  have htot := bwt_count_total hT hsa c
  have h2 := hmono a b hab
  have h3 := hmono b T.length hb
  have hle := cumC_le (T := T) (c+1)
  have hb1 : b - 1 + 1 = b := by omega
  change cumC T c + cnt T sa c T.length = _ at htot
  have hfc0 : f c = some (cumC T c) := hf c hc
  rw [computeLF, hfc0]
  simp only [Option.bind_eq_bind, Option.bind_some, Option.pure_def]
  have hemp : cumC T c + cnt T sa c T.length = cumC T c → inclusive (cumC T c + cnt T sa c a) (cumC T c + cnt T sa c b) = (1, 0) := by
    intro h; rw [inclusive, if_neg (by omega)]
  by_cases hq : c = maxC ∧ cumC T c = T.length
  · rw [if_pos hq, hemp (by omega)]
  · rw [if_neg hq]
    have hfc : f (c+1) = some (cumC T (c+1)) := by
      rcases Nat.lt_or_ge c maxC with h | h
      · exact hf (c+1) (by omega)
      · have hcm : c = maxC := by omega
        subst hcm
        apply hf1
        by_contra hni
        apply hq
        refine ⟨rfl, ?_⟩
        rw [cumC, List.countP_eq_length]
        intro x hx
        have := hm x hx
        have : x ≠ c := fun e => hni (e ▸ hx)
        simp; omega
    rw [hfc]
    simp only [Option.bind_some]
    by_cases hz : cumC T (c+1) ≤ cumC T c
    · rw [if_pos hz, hemp (by omega)]
    · rw [if_neg hz, hr a c (by omega) hc, hb1, hr b c hb hc, count_bwtOf hsa c a (by omega), count_bwtOf hsa c b hb]
      simp only [Option.bind_some, csub, if_pos h2, inclusive]
      by_cases he : cnt T sa c b - cnt T sa c a = 0
      · rw [if_pos he, if_neg (by omega)]
      · rw [if_neg he, if_pos (by omega)]; congr 2; omega

end
end Sri
