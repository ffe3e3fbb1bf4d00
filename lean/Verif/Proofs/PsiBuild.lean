import Verif.Proofs.PsiRuns
import Verif.Proofs.RunSpec
import Mathlib.Data.List.Basic
/-! # Building the psi cores (helper lemmas) -/
namespace Sri
set_option autoImplicit false

/-- the values covered by runs -/
def runVals (rs : List (Nat × Nat)) : List Nat := rs.flatMap (fun q => List.range' q.1 (q.2 - q.1))

theorem runVals_length (rs : List (Nat × Nat)) : (runVals rs).length = rk rs rs.length := by
  simp [runVals, rk, List.length_flatMap]

namespace PsiCoreRLE

theorem runLoop_run (dens : Nat) (acc ranks : List Nat) (j s e m : Nat) (rest : List Nat) :
    runLoop dens acc ranks j s e (List.range' e m ++ rest) = runLoop dens acc ranks (j+m) s (e+m) rest := by
  induction m generalizing j e with
  | zero => simp
  | succ m ih =>
    rw [List.range'_succ, List.cons_append, runLoop, if_pos rfl, ih]
    congr 1 <;> omega

theorem flat_append (a b : List (Nat × Nat)) : flat (a ++ b) = flat a ++ flat b := by simp [flat]

/-- the ranks stored after `k` closed runs -/
def RanksAt (rs : List (Nat × Nat)) (h k : Nat) (ranks : List Nat) : Prop :=
  ranks.length = k / h ∧ ∀ b, 1 ≤ b → b ≤ k / h → ranks[b-1]? = some (rk rs (b * h))

theorem RanksAt.push {rs : List (Nat × Nat)} {h k : Nat} {ranks : List Nat} (hh : 0 < h) (hr : RanksAt rs h k ranks) :
    RanksAt rs h (k+1) (if 2 * (k+1) % (2 * h) = 0 then ranks ++ [rk rs (k+1)] else ranks) := by
  obtain ⟨h1, h2⟩ := hr
  have hmod : 2 * (k+1) % (2 * h) = 0 ↔ (k+1) % h = 0 := by rw [Nat.mul_mod_mul_left]; omega
  have hk := Nat.div_add_mod k h
  have hk1 := Nat.div_add_mod (k+1) h
  have hl := Nat.mod_lt k hh
  split
  · rename_i h0
    rw [hmod] at h0
    have hd : (k+1) / h = k / h + 1 := by
      have := Nat.succ_div (a := k) (b := h)
      rw [if_pos (Nat.dvd_of_mod_eq_zero h0)] at this
      exact this
    refine ⟨by simp [h1, hd], fun b hb1 hb2 => ?_⟩
    rw [hd] at hb2
    rcases Nat.lt_or_eq_of_le hb2 with hlt | heq
    · rw [List.getElem?_append_left (by omega)]; exact h2 b hb1 (by omega)
    · rw [List.getElem?_append_right (by omega), show b - 1 - ranks.length = 0 by omega]
      have hbh : b * h = k + 1 := by
        rw [heq, ← hd]; rw [h0, Nat.add_zero, Nat.mul_comm] at hk1; exact hk1
      rw [hbh]; rfl
  · rename_i h0
    rw [hmod] at h0
    have hd : (k+1) / h = k / h := by
      have := Nat.succ_div (a := k) (b := h)
      rw [if_neg (fun hc => h0 (Nat.mod_eq_zero_of_dvd hc))] at this
      exact this
    exact ⟨by rw [h1, hd], fun b hb1 hb2 => h2 b hb1 (by omega)⟩

theorem runLoop_spec {rs : List (Nat × Nat)} {n h : Nat} (hg : GoodRuns rs n) (hh : 0 < h) (m : Nat) :
    ∀ (k : Nat) (ranks : List Nat), k < rs.length → rs.length - (k+1) = m → RanksAt rs h k ranks →
      ∃ ranks', runLoop (2*h) (flat (rs.take k)) ranks (rk rs (k+1)) (rS rs n k) (rE rs n k) (runVals (rs.drop (k+1))) = (flat rs, ranks') ∧
        RanksAt rs h (rs.length - 1) ranks' := by
  induction m with
  | zero =>
    intro k ranks hk hm hr
    refine ⟨ranks, ?_, by rw [show rs.length - 1 = k by omega]; exact hr⟩
    rw [List.drop_eq_nil_of_le (by omega)]
    simp only [runVals, List.flatMap_nil, runLoop]
    congr 1
    conv_rhs => rw [← List.take_length (l := rs), show rs.length = k + 1 by omega, List.take_succ_eq_append_getElem hk, flat_append]
    simp [flat, rS, rE, hk]
  | succ m ih =>
    intro k ranks hk hm hr
    have hk1 : k + 1 < rs.length := by omega
    have hlt := hg.lt (k+1) hk1
    have hgap := hg.gap k hk1
    obtain ⟨ranks', h1, h2⟩ := ih (k+1) _ hk1 (by omega) (hr.push hh)
    refine ⟨ranks', ?_, h2⟩
    rw [← h1, List.drop_eq_getElem_cons hk1]
    have hq1 : (rs[k+1]).1 = rS rs n (k+1) := by simp [rS, hk1]
    have hq2 : (rs[k+1]).2 = rE rs n (k+1) := by simp [rE, hk1]
    have hflat : flat (rs.take (k+1)) = flat (rs.take k) ++ [rS rs n k, rE rs n k] := by
      rw [List.take_succ_eq_append_getElem hk, flat_append]; simp [flat, rS, rE, hk]
    have hlen : (flat (rs.take k) ++ [rS rs n k, rE rs n k]).length = 2 * (k+1) := by
      rw [← hflat, flat_length, List.length_take]; omega
    rw [runVals, List.flatMap_cons, hq1, hq2, ← runVals]
    conv_lhs => rw [show rE rs n (k+1) - rS rs n (k+1) = (rE rs n (k+1) - rS rs n (k+1) - 1) + 1 by omega, List.range'_succ,
      List.cons_append, runLoop, if_neg (by omega)]
    simp only []
    rw [hlen, runLoop_run, hflat]
    rw [rk_succ rs n hk1]
    congr 1 <;> omega

theorem buildPart_ok {rs : List (Nat × Nat)} {n h : Nat} (hg : GoodRuns rs n) (hh : 0 < h) (hne : 0 < rs.length) (hn : n < W64) :
    PartOK (buildPart (2*h) (runVals rs)).1 (buildPart (2*h) (runVals rs)).2 rs n h := by
  have hlt := hg.lt 0 hne
  have hq1 : (rs[0]).1 = rS rs n 0 := by simp [rS, hne]
  have hq2 : (rs[0]).2 = rE rs n 0 := by simp [rE, hne]
  obtain ⟨ranks, h1, h2⟩ := runLoop_spec hg hh (rs.length - 1) 0 [] hne (by omega) ⟨by simp, by simp; omega⟩
  have hbp : buildPart (2*h) (runVals rs) = (EncVector.build (2*h) (flat rs), ranks) := by
    have hv : runVals rs = rS rs n 0 :: (List.range' (rS rs n 0 + 1) (rE rs n 0 - rS rs n 0 - 1) ++ runVals (rs.drop 1)) := by
      conv_lhs => rw [← List.drop_zero (l := rs), List.drop_eq_getElem_cons hne, runVals, List.flatMap_cons, hq1, hq2,
        show rE rs n 0 - rS rs n 0 = (rE rs n 0 - rS rs n 0 - 1) + 1 by omega, List.range'_succ, List.cons_append]
      rfl
    have hl : runLoop (2*h) [] [] 1 (rS rs n 0) (rS rs n 0 + 1)
        (List.range' (rS rs n 0 + 1) (rE rs n 0 - rS rs n 0 - 1) ++ runVals (rs.drop 1)) = (flat rs, ranks) := by
      rw [runLoop_run, ← h1, rk_succ rs n hne, rk_zero]
      congr 1 <;> omega
    rw [hv]
    simp only [buildPart, hl]
  rw [hbp]
  refine ⟨EncVector.build_rep (by omega) _, by dsimp only [EncVector.build]; split <;> rfl, hg, hne, hn, ?_, ?_⟩
  · have hm := Nat.div_add_mod (rs.length - 1) h
    have hl := Nat.mod_lt (rs.length - 1) hh
    rw [h2.1, Nat.succ_mul, Nat.mul_comm]; omega
  · intro b hb1 hb2
    exact h2.2 b hb1 ((Nat.le_div_iff_mul_le hh).2 (by omega))

end PsiCoreRLE

/-! ## the runs of one symbol -/

/-- the runs of symbol `c` as half-open intervals, in increasing order -/
def symRuns (R : List (Nat × Nat)) (c : Nat) : List (Nat × Nat) :=
  ((List.range R.length).filter (fun k => (R.getD k (0,0)).1 == c)).map (fun k => (rstart R k, rstart R (k+1)))

section
variable {R : List (Nat × Nat)} {c : Nat}

theorem symRuns_get {j : Nat} (hj : j < (symRuns R c).length) :
    ∃ k, ∃ hk : k < R.length, ((List.range R.length).filter (fun k => (R.getD k (0,0)).1 == c))[j]? = some k ∧ (R[k]).1 = c ∧
      ∀ n, rS (symRuns R c) n j = rstart R k ∧ rE (symRuns R c) n j = rstart R (k+1) := by
  have hj' : j < ((List.range R.length).filter (fun k => (R.getD k (0,0)).1 == c)).length := by simpa [symRuns] using hj
  obtain ⟨hm, hs⟩ := List.mem_filter.1 (List.getElem_mem hj')
  refine ⟨_, by simpa using hm, List.getElem?_eq_getElem hj', ?_, fun n => ?_⟩
  · have := List.mem_range.1 hm
    rw [List.getD_eq_getElem?_getD, List.getElem?_eq_getElem this] at hs
    simpa using hs
  · have : (symRuns R c)[j]? = some (rstart R (((List.range R.length).filter (fun k => (R.getD k (0,0)).1 == c))[j]),
        rstart R (((List.range R.length).filter (fun k => (R.getD k (0,0)).1 == c))[j] + 1)) := by
      rw [symRuns, List.getElem?_map, List.getElem?_eq_getElem hj']; rfl
    simp only [rS, rE, List.getD_eq_getElem?_getD, this, Option.getD_some]
    trivial

theorem symRuns_good (hp : ∀ q ∈ R, 0 < q.2) (ha : Alternating R) : GoodRuns (symRuns R c) (expand R).length := by
  constructor
  · intro j hj
    obtain ⟨k, hk, _, _, h⟩ := symRuns_get hj
    rw [(h _).1, (h _).2, length_expand]
    exact ⟨rstart_strict hp (by omega) (by omega), rstart_mono R (by omega)⟩
  · intro j hj
    obtain ⟨k, hk, g1, s1, h1⟩ := symRuns_get (R := R) (c := c) (j := j) (by omega)
    obtain ⟨m, hm, g2, s2, h2⟩ := symRuns_get hj
    rw [(h1 _).2, (h2 _).1]
    have hpw : ((List.range R.length).filter (fun k => (R.getD k (0,0)).1 == c)).Pairwise (· < ·) :=
      List.Pairwise.filter _ List.pairwise_lt_range
    obtain ⟨l1, e1⟩ := List.getElem?_eq_some_iff.1 g1
    obtain ⟨l2, e2⟩ := List.getElem?_eq_some_iff.1 g2
    have hkm : k < m := by
      have := (List.pairwise_iff_getElem.1 hpw) j (j+1) l1 l2 (by omega)
      rw [e1, e2] at this; exact this
    have hne : k + 1 ≠ m := by
      intro h'
      subst h'
      exact ha.getElem hm (by rw [s1, s2])
    exact rstart_strict hp (by omega) (by omega)

theorem symRuns_vals_aux (p : Nat → Bool) (hpp : ∀ k (hk : k < R.length) i, rstart R k ≤ i → i < rstart R (k+1) → (p i = true ↔ (R[k]).1 = c))
    (m : Nat) (hm : m ≤ R.length) :
    (((List.range m).filter (fun k => (R.getD k (0,0)).1 == c)).map (fun k => (rstart R k, rstart R (k+1)))).flatMap
      (fun q => List.range' q.1 (q.2 - q.1)) = (List.range (rstart R m)).filter p := by
  induction m with
  | zero => simp
  | succ m ih =>
    have hmr : m < R.length := by omega
    have hle := rstart_mono R (show m ≤ m + 1 by omega)
    have hsplit : List.range (rstart R (m+1)) = List.range (rstart R m) ++ List.range' (rstart R m) (rstart R (m+1) - rstart R m) := by
      rw [List.range_eq_range', List.range_eq_range']
      conv_lhs => rw [show rstart R (m+1) = rstart R m + (rstart R (m+1) - rstart R m) by omega]
      rw [← List.range'_append_1]; simp
    rw [List.range_succ, List.filter_append, List.map_append, List.flatMap_append, ih (by omega), hsplit, List.filter_append]
    congr 1
    have hg : (R.getD m (0,0)).1 = (R[m]).1 := by simp [hmr]
    by_cases hs : (R[m]).1 = c
    · rw [(List.filter_eq_self (l := List.range' _ _)).2]
      · rw [List.filter_singleton, hg]; simp [hs]
      · intro i hi
        rw [List.mem_range'_1] at hi
        exact (hpp m hmr i hi.1 (by omega)).2 hs
    · rw [(List.filter_eq_nil_iff (l := List.range' _ _)).2]
      · rw [List.filter_singleton, hg, beq_eq_false_iff_ne.2 hs]; rfl
      · intro i hi
        rw [List.mem_range'_1] at hi
        exact fun hc => hs ((hpp m hmr i hi.1 (by omega)).1 hc)

theorem symRuns_vals (c : Nat) :
    runVals (symRuns R c) = (List.range (expand R).length).filter (fun i => decide ((expand R)[i]? = some c)) := by
  rw [length_expand]
  apply symRuns_vals_aux _ _ _ (Nat.le_refl _)
  intro k hk i h1 h2
  rw [getElem_expand hk h1 h2]
  simp

theorem mem_runVals {rs : List (Nat × Nat)} {n j : Nat} :
    j ∈ runVals rs ↔ ∃ k, k < rs.length ∧ rS rs n k ≤ j ∧ j < rE rs n k := by
  rw [runVals, List.mem_flatMap]
  constructor
  · rintro ⟨q, hq, hj⟩
    obtain ⟨k, hk, rfl⟩ := List.getElem_of_mem hq
    rw [List.mem_range'_1] at hj
    refine ⟨k, hk, ?_⟩
    simp only [rS, rE, List.getD_eq_getElem?_getD, List.getElem?_eq_getElem hk, Option.getD_some]
    omega
  · rintro ⟨k, hk, h1, h2⟩
    refine ⟨rs[k], List.getElem_mem hk, ?_⟩
    simp only [rS, rE, List.getD_eq_getElem?_getD, List.getElem?_eq_getElem hk, Option.getD_some] at h1 h2
    rw [List.mem_range'_1]; omega

theorem symRuns_covers (c : Nat) : Covers (fun j => (expand R)[j]? = some c) (symRuns R c) (expand R).length := by
  intro j hj
  rw [← mem_runVals, symRuns_vals]
  simp [hj]

end

/-! ## psi as an array -/

theorem below_succ (xs : List Nat) (c : Nat) : below xs (c+1) = below xs c + xs.count c := by
  induction xs with
  | nil => rfl
  | cons x xs ih =>
    rw [below, List.countP_cons, ← below, ih, List.count_cons, below, below, List.countP_cons]
    by_cases h1 : x = c
    · subst h1; simp; omega
    · by_cases h2 : x < c
      · simp [h1, h2, Nat.lt_succ_of_lt h2]; omega
      · have : ¬ x < c + 1 := by omega
        simp [h1, h2, this]

theorem below_mono (xs : List Nat) {a b : Nat} (h : a ≤ b) : below xs a ≤ below xs b := by
  induction b with
  | zero => rw [show a = 0 by omega]
  | succ b ih =>
    rcases Nat.lt_or_eq_of_le h with hlt | rfl
    · have := below_succ xs b; have := ih (by omega); omega
    · exact Nat.le_refl _

theorem below_all {xs : List Nat} {s : Nat} (h : ∀ x ∈ xs, x < s) : below xs s = xs.length := by
  rw [below, List.countP_eq_length]; intro x hx; simpa using h x hx

theorem cumOf_get {xs : List Nat} {s c : Nat} (h : c ≤ s) : (cumOf xs s)[c]? = some (below xs c) := by
  simp [cumOf, Nat.lt_succ_of_le h]

theorem cumOf_length (xs : List Nat) (s : Nat) : (cumOf xs s).length = s + 1 := by simp [cumOf]

/-- where position `j` goes: LF -/
def lfPos (xs : List Nat) (j : Nat) : Nat := below xs (xs.getD j 0) + (xs.take j).count (xs.getD j 0)

theorem lfPos_lt {xs : List Nat} {j : Nat} (hj : j < xs.length) : lfPos xs j < below xs (xs.getD j 0 + 1) := by
  rw [lfPos, below_succ]
  have hg : xs.getD j 0 = xs[j] := by simp [hj]
  have : xs.count xs[j] = (xs.take j).count xs[j] + (xs.drop j).count xs[j] := by rw [← List.count_append, List.take_append_drop]
  have h2 : 0 < (xs.drop j).count xs[j] := by
    rw [List.count_pos_iff, List.drop_eq_getElem_cons hj]; exact List.mem_cons_self
  rw [hg]; omega

theorem lfPos_lt_length {xs : List Nat} {j : Nat} (hj : j < xs.length) : lfPos xs j < xs.length :=
  Nat.lt_of_lt_of_le (lfPos_lt hj) List.countP_le_length

theorem count_take_lt {xs : List Nat} {i j : Nat} (hij : i < j) (hj : j ≤ xs.length) (c : Nat) (hc : xs.getD i 0 = c) :
    (xs.take i).count c < (xs.take j).count c := by
  have hi : i < xs.length := by omega
  have h1 : (xs.take (i+1)).count c = (xs.take i).count c + 1 := by
    rw [List.take_succ_eq_append_getElem hi, List.count_append]
    have : xs[i] = c := by rw [← hc]; simp [hi]
    rw [this]; simp
  have h2 : (xs.take (i+1)).count c ≤ (xs.take j).count c := by
    have : (xs.take (i+1)) = (xs.take j).take (i+1) := by rw [List.take_take]; congr 1; omega
    rw [this]
    exact List.Sublist.count_le _ (List.take_sublist _ _)
  omega

theorem lfPos_inj {xs : List Nat} {i j : Nat} (hi : i < xs.length) (hj : j < xs.length) (h : lfPos xs i = lfPos xs j) : i = j := by
  have hs : xs.getD i 0 = xs.getD j 0 := by
    rcases Nat.lt_trichotomy (xs.getD i 0) (xs.getD j 0) with h' | h' | h'
    · have h1 := lfPos_lt hi
      have h2 := below_mono xs (show xs.getD i 0 + 1 ≤ xs.getD j 0 by omega)
      have : below xs (xs.getD j 0) ≤ lfPos xs j := Nat.le_add_right _ _
      omega
    · exact h'
    · have h1 := lfPos_lt hj
      have h2 := below_mono xs (show xs.getD j 0 + 1 ≤ xs.getD i 0 by omega)
      have : below xs (xs.getD i 0) ≤ lfPos xs i := Nat.le_add_right _ _
      omega
  rw [lfPos, lfPos, hs] at h
  rcases Nat.lt_trichotomy i j with h' | h' | h'
  · have := count_take_lt h' (by omega) _ hs; omega
  · exact h'
  · have := count_take_lt h' (by omega) (xs.getD j 0) rfl; omega

theorem psiLoop_spec (xs : List Nat) (s : Nat) (hs : ∀ x ∈ xs, x < s) (m : Nat) :
    ∀ (i : Nat) (saPos psi : List Nat), i + m = xs.length → psi.length = xs.length → saPos.length = s + 1 →
      (∀ c, c ≤ s → saPos[c]? = some (below xs c + (xs.take i).count c)) →
      (∀ j, j < i → psi[lfPos xs j]? = some j) →
      ∃ psi', psiLoop (xs.drop i) i saPos psi = some psi' ∧ psi'.length = xs.length ∧ ∀ j, j < xs.length → psi'[lfPos xs j]? = some j := by
  induction m with
  | zero =>
    intro i saPos psi hi hl _ _ hpsi
    rw [List.drop_eq_nil_of_le (by omega)]
    exact ⟨psi, rfl, hl, fun j hj => hpsi j (by omega)⟩
  | succ m ih =>
    intro i saPos psi hi hl hsl hsp hpsi
    have hix : i < xs.length := by omega
    have hxs : xs[i] < s := hs _ (List.getElem_mem hix)
    have hg : xs.getD i 0 = xs[i] := by simp [hix]
    have hp := hsp xs[i] (by omega)
    have hlf : below xs xs[i] + (xs.take i).count xs[i] = lfPos xs i := by rw [lfPos, hg]
    rw [hlf] at hp
    rw [List.drop_eq_getElem_cons hix, psiLoop]
    have hlt : lfPos xs i < psi.length := by rw [hl]; exact lfPos_lt_length hix
    simp only [hp, Option.bind_eq_bind, Option.bind_some, assertC, hlt, decide_true, if_true]
    apply ih (i+1) _ _ (by omega) (by simpa using hl) (by simpa using hsl)
    · intro c hc
      rw [List.take_succ_eq_append_getElem hix, List.count_append]
      by_cases hcx : c = xs[i]
      · subst hcx
        rw [List.getElem?_set_self (by omega), ← hlf]
        simp; omega
      · rw [List.getElem?_set_ne (fun h' => hcx h'.symm), hsp c hc]
        simp [show ¬ xs[i] = c from fun h' => hcx h'.symm]
    · intro j hj
      rcases Nat.lt_or_eq_of_le (Nat.le_of_lt_succ hj) with hlt' | heq
      · rw [List.getElem?_set_ne (fun h' => by have := lfPos_inj hix (by omega) h'; omega)]
        exact hpsi j hlt'
      · rw [heq, List.getElem?_set_self hlt]

/-- constructPsi writes every position at its place -/
theorem constructPsi_spec {xs : List Nat} {s : Nat} (hs : ∀ x ∈ xs, x < s) :
    ∃ psi, constructPsi xs (cumOf xs s) = some psi ∧ psi.length = xs.length ∧ ∀ j, j < xs.length → psi[lfPos xs j]? = some j := by
  obtain ⟨psi, h1, h2, h3⟩ := psiLoop_spec xs s hs xs.length 0 (cumOf xs s) (List.replicate xs.length 0) (by omega) (by simp)
    (cumOf_length _ _) (by intro c hc; rw [cumOf_get hc]; simp) (by intro j hj; omega)
  refine ⟨psi, ?_, h2, h3⟩
  rw [List.drop_zero] at h1
  simp only [constructPsi, cumOf_length, csub, Nat.le_add_left, if_true, Nat.add_sub_cancel, Option.bind_eq_bind, Option.bind_some,
    cumOf_get (Nat.le_refl s), below_all hs, assertC, decide_true, h1]

/-! ## blocks of psi -/

theorem count_take_eq (xs : List Nat) (c j : Nat) (hj : j ≤ xs.length) :
    (xs.take j).count c = Nat.count (fun i => xs[i]? = some c) j := by
  induction j with
  | zero => simp
  | succ j ih =>
    have hjx : j < xs.length := by omega
    rw [List.take_succ_eq_append_getElem hjx, List.count_append, Nat.count_succ, ih (by omega)]
    simp [hjx, List.count_singleton]

theorem positions_length (xs : List Nat) (c : Nat) : (positions xs c).length = xs.count c := by
  rw [positions, filter_range_length]
  have := count_take_eq xs c xs.length (Nat.le_refl _)
  rw [List.take_length] at this
  rw [this]
  apply count_congr
  intro k _
  simp

theorem positions_get {xs : List Nat} {c j : Nat} (hj : j < xs.length) (hc : xs[j]? = some c) :
    (positions xs c)[(xs.take j).count c]? = some j := by
  have h := filter_getElem (List.range xs.length) (fun i => decide (xs[i]? = some c)) (q := j) (by simpa using hj) (by simpa using hc)
  rw [List.getElem_range] at h
  rw [positions, ← h]
  congr 1
  rw [List.take_range, Nat.min_eq_left (by omega), List.countP_eq_length_filter, filter_range_length, count_take_eq xs c j (by omega)]
  apply count_congr
  intro k _
  simp

theorem psi_block {xs psi : List Nat} (hl : psi.length = xs.length) (hpsi : ∀ j, j < xs.length → psi[lfPos xs j]? = some j) (c : Nat) :
    (psi.drop (below xs c)).take (below xs (c+1) - below xs c) = positions xs c := by
  have hle : below xs (c+1) ≤ psi.length := by rw [hl]; exact List.countP_le_length
  apply List.ext_getElem?
  intro r
  have hcnt := below_succ xs c
  by_cases hr : r < xs.count c
  · have hr' : r < (positions xs c).length := by rw [positions_length]; exact hr
    have hm := List.getElem_mem hr'
    set j := (positions xs c)[r] with hj
    unfold positions at hm
    rw [List.mem_filter, List.mem_range] at hm
    have hjx : j < xs.length := hm.1
    have hjc : xs[j]? = some c := by simpa using hm.2
    have hg := positions_get hjx hjc
    have hnd : (positions xs c).Nodup := List.Nodup.filter _ List.nodup_range
    have hrc : (xs.take j).count c = r := by
      obtain ⟨l1, e1⟩ := List.getElem?_eq_some_iff.1 hg
      exact (List.Nodup.getElem_inj_iff hnd).1 (by rw [e1])
    have hgd : xs.getD j 0 = c := by simp [hjc]
    have := hpsi j hjx
    rw [lfPos, hgd, hrc] at this
    rw [List.getElem?_take_of_lt (by omega), List.getElem?_drop, this, List.getElem?_eq_getElem hr']
  · rw [List.getElem?_eq_none, List.getElem?_eq_none]
    · rw [positions_length]; omega
    · rw [List.length_take, List.length_drop]; omega

end Sri
