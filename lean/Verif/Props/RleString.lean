import Verif.Proofs.RleBreak
/-! # C41: rle_string (rle_string.hpp:42-650) -/
namespace Sri
set_option autoImplicit false
open Rep

/-- C41, construction. The constructor completes on exactly the non-empty strings without zero byte (for every positive block size). -/
theorem c41_build (xs : List Nat) (B : Nat) (hB : 1 ≤ B) (hb : ∀ c ∈ xs, c < 256) :
    RleString.build xs B ≠ none ↔ xs ≠ [] ∧ 0 ∉ xs := by
  constructor
  · intro h
    constructor
    · rintro rfl; exact h (by simp [RleString.build, RleString.loop, RleString.countRuns, assertC])
    · intro h0
      apply h
      have : xs.all (fun c => c != 0) = false := by
        rw [List.all_eq_false]; exact ⟨0, h0, by simp⟩
      simp [RleString.build, this, assertC]
  · rintro ⟨h1, h2⟩
    obtain ⟨S, hS, -⟩ := buildB_rep h1 hB h2 hb
    rw [hS]; simp

example : RleString.build [1,0,1] 2 = none ∧ RleString.build [] 2 = none ∧ (RleString.build [1,1,2] 2).isSome := by decide +kernel

/-- the object a completed construction gives (helper of the theorems below) -/
theorem built {xs : List Nat} {B : Nat} {S : RleString} (hB : 1 ≤ B) (hb : ∀ c ∈ xs, c < 256) (h : RleString.build xs B = some S) :
    RepB S (rle xs) ∧ xs ≠ [] := by
  obtain ⟨h1, h2⟩ := (c41_build xs B hB hb).1 (by rw [h]; simp)
  obtain ⟨S', hS, -, hr⟩ := buildB_rep h1 hB h2 hb
  rw [h, Option.some_inj] at hS
  subst hS; exact ⟨hr, h1⟩

/-- C41. Built from any string of bytes, with any positive block size, rle_string has the string's size and number of runs, gives the string
    back, and answers `operator[]`, `rank(i,c)` for every `i ≤ size` and every byte `c`, and `select(k,c)` (from 0) as the plain string does. -/
theorem c41_sequence (xs : List Nat) (B : Nat) (S : RleString) (hB : 1 ≤ B) (hb : ∀ c ∈ xs, c < 256) (h : RleString.build xs B = some S) :
    S.size = xs.length ∧ S.numberOfRuns = runsBefore xs xs.length ∧ S.toString = some xs ∧
      (∀ i (h : i < xs.length), S.access i = some xs[i]) ∧ (∀ i, xs.length ≤ i → S.access i = none) ∧
      (∀ i c, i ≤ xs.length → c < 256 → S.rank i c = some ((xs.take i).count c)) ∧
      (∀ k c, k < xs.count c → ∃ p, S.select k c = some p ∧ xs[p]? = some c ∧ (xs.take p).count c = k) := by
  obtain ⟨hr, hx⟩ := built hB hb h
  have he := expand_rle xs
  have hn : S.n = xs.length := by rw [hr.n_eq, he]
  have hacc : ∀ i (h : i < xs.length), S.access i = some xs[i] := by
    intro i h
    rw [hr.access_eq (i := i) (by rw [he]; exact h)]; simp [he]
  refine ⟨hn, ?_, ?_, hacc, ?_, ?_, ?_⟩
  · have := runsBefore_rstart (rle_pos xs) (rle_alternating xs) (Nat.le_refl (rle xs).length)
    rw [← length_expand, he] at this
    rw [this]; exact hr.R_eq
  · rw [RleString.toString, RleString.size, hn, mapM_some S.access (fun i => xs.getD i 0)]
    · congr 1
      apply List.ext_getElem (by simp)
      intro i h1 h2
      simp at h1
      simp [h1]
    · intro i hi
      have hi := List.mem_range.1 hi
      rw [hacc i hi]; simp [hi]
  · intro i hi
    simp [RleString.access, hn, assertC, hi]
  · intro i c hi hc
    have := hr.rank (i := i) (c := c) (by rw [he]; exact hi) hc
    rwa [he] at this
  · intro k c hk
    have hm : c ∈ xs := List.count_pos_iff.1 (by omega)
    have := hr.select (c := c) (k := k) (hb c hm) (by rw [he]; exact hk)
    rwa [he] at this

example : ((RleString.build [2,2,5,1,1,1,2] 2).bind (·.rank 5 1)) = some 2 ∧ ((RleString.build [2,2,5,1,1,1,2] 2).bind (·.select 2 2)) = some 6 ∧
    ((RleString.build [2,2,5,1,1,1,2] 2).map (·.numberOfRuns)) = some 4 := by decide +kernel

/-- C41, runs. For every position the run functions describe the maximal run `[a,e)` holding it: its number is the number of runs before `a`,
    get_run_of ends at its last position, run_at is its length, run_range its first and last positions. -/
theorem c41_runs (xs : List Nat) (B : Nat) (S : RleString) (hB : 1 ≤ B) (hb : ∀ c ∈ xs, c < 256) (h : RleString.build xs B = some S)
    (i : Nat) (hi : i < xs.length) :
    ∃ a e c, a ≤ i ∧ i < e ∧ IsRun xs a e c ∧ S.runOfPosition i = some (runsBefore xs a) ∧ S.runOf i = some (runsBefore xs a, e - 1) ∧
      S.runAt (runsBefore xs a) = some (e - a) ∧ S.runRange (runsBefore xs a) = some (a, e - 1) := by
  obtain ⟨hr, hx⟩ := built hB hb h
  have he := expand_rle xs
  have hl := length_expand (rle xs)
  rw [he] at hl
  obtain ⟨m, hm, h1, h2⟩ := rstart_find (rle xs) (i := i) (by omega)
  have hrun := (isRun_iff xs _ _ _).2 ⟨m, hm, rfl, rfl, rfl⟩
  have hbef := runsBefore_rstart (rle_pos xs) (rle_alternating xs) (Nat.le_of_lt hm)
  rw [he] at hbef
  refine ⟨_, _, _, h1, h2, hrun, ?_⟩
  rw [hbef]
  refine ⟨?_, hr.runOf hm h1 h2, ?_, hr.runRange hm⟩
  · have : i < S.n := by rw [hr.n_eq, he]; exact hi
    simp [RleString.runOfPosition, this, assertC, hr.locateRun hm h1 h2]
  · rw [hr.runAt hm, rstart_succ hm]; congr 1; omega

example : ((RleString.build [2,2,5,1,1,1,2] 2).bind (·.runOf 4)) = some (2, 5) ∧
    ((RleString.build [2,2,5,1,1,1,2] 2).bind (·.runRange 2)) = some (3, 5) := by decide +kernel

/-- C41, break_range. For every range that begins and ends with `c`, the result lists from left to right exactly the maximal sub-ranges of `c`:
    the parts inside the range of the runs of `c` that meet it. -/
theorem c41_break_range (xs : List Nat) (B : Nat) (S : RleString) (hB : 1 ≤ B) (hb : ∀ c ∈ xs, c < 256) (h : RleString.build xs B = some S)
    (l r c : Nat) (hlr : l ≤ r) (hl : xs[l]? = some c) (hrc : xs[r]? = some c) :
    ∃ L, S.breakRange l r c = some L ∧ SubRanges xs l r c L := by
  obtain ⟨hr, hx⟩ := built hB hb h
  have he := expand_rle xs
  have hlen := length_expand (rle xs)
  rw [he] at hlen
  obtain ⟨hl', -⟩ := List.getElem?_eq_some_iff.1 hl
  obtain ⟨hr', -⟩ := List.getElem?_eq_some_iff.1 hrc
  obtain ⟨ml, hml, l1, l2⟩ := rstart_find (rle xs) (i := l) (by omega)
  obtain ⟨mr, hmr, r1, r2⟩ := rstart_find (rle xs) (i := r) (by omega)
  have hcl : ((rle xs)[ml]).1 = c := by
    have := getElem_expand hml l1 l2
    rw [he, hl] at this; exact (Option.some.inj this).symm
  have hcr : ((rle xs)[mr]).1 = c := by
    have := getElem_expand hmr r1 r2
    rw [he, hrc] at this; exact (Option.some.inj this).symm
  obtain ⟨ms, e1, e2, e3⟩ := hr.breakRange hml hmr l1 l2 r1 r2 hlr hcl hcr
  refine ⟨_, e1, ?_, ?_⟩
  · intro x
    rw [List.mem_map]
    constructor
    · rintro ⟨m, hm, rfl⟩
      obtain ⟨m1, m2, hml', hmc⟩ := (e2 m).1 hm
      have s1 := rstart_mono (rle xs) m2
      have s2 := rstart_mono (rle xs) (show ml + 1 ≤ m + 1 by omega)
      exact ⟨_, _, (isRun_iff xs _ _ _).2 ⟨m, hml', rfl, rfl, hmc.symm⟩, by omega, by omega, rfl⟩
    · rintro ⟨a, b, hrun, h1, h2, rfl⟩
      obtain ⟨m, hm, rfl, rfl, hc⟩ := (isRun_iff xs _ _ _).1 hrun
      refine ⟨m, (e2 m).2 ⟨?_, ?_, hm, hc.symm⟩, rfl⟩
      · by_contra hcon
        have := rstart_mono (rle xs) (show m + 1 ≤ ml by omega); omega
      · by_contra hcon
        have := rstart_mono (rle xs) (show mr + 1 ≤ m by omega); omega
  · rw [List.pairwise_map]
    refine List.Pairwise.imp_of_mem ?_ e3
    intro m m' hm hm' hlt
    obtain ⟨-, -, hm1, -⟩ := (e2 m).1 hm
    obtain ⟨-, -, hm2, -⟩ := (e2 m').1 hm'
    have s0 := rstart_strict (rle_pos xs) (show m < m + 1 by omega) (by omega)
    have s1 := rstart_mono (rle xs) (show m + 1 ≤ m' by omega)
    dsimp only; omega

example : ((RleString.build [2,2,5,1,2,1,2,2] 2).bind (·.breakRange 1 6 2)) = some [(1,1),(4,4),(6,6)] := by decide +kernel

/-- C41, break_in_runs. For every range the result lists from left to right exactly the runs that meet it, with their number, symbol, and part
    inside the range. -/
theorem c41_break_in_runs (xs : List Nat) (B : Nat) (S : RleString) (hB : 1 ≤ B) (hb : ∀ c ∈ xs, c < 256) (h : RleString.build xs B = some S)
    (first last : Nat) (hfl : first ≤ last) (hl : last < xs.length) :
    ∃ L, S.breakInRuns first last = some L ∧ RunsInside xs first last L := by
  obtain ⟨hr, hx⟩ := built hB hb h
  have he := expand_rle xs
  have hlen := length_expand (rle xs)
  rw [he] at hlen
  obtain ⟨m, hm, m1, m2⟩ := rstart_find (rle xs) (i := first) (by omega)
  obtain ⟨e, hem, e1, e2⟩ := rstart_find (rle xs) (i := last) (by omega)
  have hbef : ∀ k, k < (rle xs).length → runsBefore xs (rstart (rle xs) k) = k := by
    intro k hk
    have := runsBefore_rstart (rle_pos xs) (rle_alternating xs) (Nat.le_of_lt hk)
    rwa [he] at this
  have hget : ∀ k (hk : k < (rle xs).length), ((rle xs).map (·.1)).getD k 0 = ((rle xs)[k]).1 := by
    intro k hk; simp [hk]
  refine ⟨_, hr.breakInRuns hfl hm m1 m2 hem e1 e2, ?_, ?_⟩
  · intro x
    rw [List.mem_map]
    constructor
    · rintro ⟨k, hk, rfl⟩
      rw [List.mem_range'_1] at hk
      have hk' : k < (rle xs).length := by omega
      have s1 := rstart_mono (rle xs) (show k ≤ e by omega)
      have s2 := rstart_mono (rle xs) (show m + 1 ≤ k + 1 by omega)
      refine ⟨_, _, _, (isRun_iff xs _ _ _).2 ⟨k, hk', rfl, rfl, rfl⟩, by omega, by omega, ?_⟩
      rw [RepB.report, hbef k hk', hget k hk']
    · rintro ⟨a, b, c, hrun, h1, h2, rfl⟩
      obtain ⟨k, hk, rfl, rfl, hc⟩ := (isRun_iff xs _ _ _).1 hrun
      refine ⟨k, ?_, by rw [RepB.report, hbef k hk, hget k hk, hc]⟩
      rw [List.mem_range'_1]
      have k1 : m ≤ k := by
        by_contra hcon
        have := rstart_mono (rle xs) (show k + 1 ≤ m by omega); omega
      have k2 : k ≤ e := by
        by_contra hcon
        have := rstart_mono (rle xs) (show e + 1 ≤ k by omega); omega
      omega
  · rw [List.pairwise_map]
    have hp : (List.range' m (e + 1 - m)).Pairwise (· < ·) := List.pairwise_lt_range'
    refine List.Pairwise.imp_of_mem ?_ hp
    intro k k' hk hk' hlt
    rw [List.mem_range'_1] at hk hk'
    have s0 := rstart_strict (rle_pos xs) (show k < k + 1 by omega) (by omega)
    have s1 := rstart_mono (rle xs) (show k + 1 ≤ k' by omega)
    simp only [RepB.report]; omega

example : ((RleString.build [2,2,5,1,2,1,2,2] 2).bind (·.breakInRuns 1 3)) =
    some [⟨0,2,1,1⟩, ⟨1,5,2,2⟩, ⟨2,1,3,3⟩] := by decide +kernel

/-- C41, closest_run_break. For every range that holds `c` and some other symbol, the result is the position closest to the range's start that
    holds `c` and is beside a position of the range that does not. -/
theorem c41_closest_run_break (xs : List Nat) (B : Nat) (S : RleString) (hB : 1 ≤ B) (hb : ∀ c ∈ xs, c < 256)
    (h : RleString.build xs B = some S) (first last c : Nat) (hl : last < xs.length)
    (hin : ∃ i, first ≤ i ∧ i ≤ last ∧ xs[i]? = some c) (hout : ∃ i, first ≤ i ∧ i ≤ last ∧ xs[i]? ≠ some c) :
    ∃ j, S.closestRunBreak first last c = some j ∧ BreakAt xs first last c j ∧ ∀ k, BreakAt xs first last c k → j ≤ k := by
  obtain ⟨hr, hx⟩ := built hB hb h
  obtain ⟨i, i1, i2, i3⟩ := hin
  obtain ⟨o, o1, o2, o3⟩ := hout
  have hcx : c < 256 := hb c (List.mem_of_getElem? i3)
  obtain ⟨hsize, -, -, hacc, -, hrank, hsel⟩ := c41_sequence xs B S hB hb h
  have hacc' : ∀ i, i < xs.length → ∀ d, xs[i]? = some d → S.access i = some d := by
    intro i hi d hd
    obtain ⟨_, e⟩ := List.getElem?_eq_some_iff.1 hd
    rw [hacc i hi, e]
  obtain ⟨d, hd⟩ : ∃ d, xs[first]? = some d := ⟨xs[first]'(by omega), List.getElem?_eq_getElem (by omega)⟩
  by_cases hdc : d = c
  · subst hdc
    obtain ⟨a, e, c', a1, a2, hrun, q1, q2, q3, q4⟩ := c41_runs xs B S hB hb h first (by omega)
    have hc' : c' = d := by
      have := hrun.2.2.1 first a1 a2
      rw [hd] at this; exact (Option.some.inj this).symm
    subst hc'
    have hel : e ≤ last := by
      by_contra hcon
      exact o3 (hrun.2.2.1 o (by omega) (by omega))
    refine ⟨e - 1, ?_, ⟨by omega, by omega, hrun.2.2.1 _ (by omega) (by omega), e, by omega, by omega, hel, hrun.2.2.2.2⟩, ?_⟩
    · have hlt : e - 1 < last := by omega
      simp [RleString.closestRunBreak, hacc' first (by omega) c' hd, q1, q4, assertC, hlt]
    · rintro k ⟨k1, k2, k3, k', k4, k5, k6, k7⟩
      by_contra hcon
      rcases k4 with rfl | rfl
      · exact k7 (hrun.2.2.1 _ (by omega) (by omega))
      · exact k7 (hrun.2.2.1 _ (by omega) (by omega))
  · -- the first position of `c` in the range
    have hex : ∃ p, (first ≤ p ∧ xs[p]? = some c) := ⟨i, i1, i3⟩
    obtain ⟨p, ⟨p1, p2⟩, pmin⟩ : ∃ p, (first ≤ p ∧ xs[p]? = some c) ∧ ∀ q, q < p → ¬ (first ≤ q ∧ xs[q]? = some c) :=
      ⟨Nat.find hex, Nat.find_spec hex, fun q hq => Nat.find_min hex hq⟩
    have hpi : p ≤ i := by
      by_contra hcon
      exact pmin i (by omega) ⟨i1, i3⟩
    have hpf : first < p := by
      rcases Nat.lt_or_eq_of_le p1 with hlt | heq
      · exact hlt
      · exfalso; rw [← heq, hd] at p2; exact hdc (Option.some.inj p2)
    have hcount : (xs.take p).count c = (xs.take first).count c := by
      have : ∀ q, first ≤ q → q ≤ p → (xs.take q).count c = (xs.take first).count c := by
        intro q
        induction q with
        | zero => intro h1 _; rw [show first = 0 by omega]
        | succ q ih =>
          intro h1 h2
          rcases Nat.lt_or_eq_of_le h1 with hlt | heq
          · have hq : q < xs.length := by omega
            rw [← List.take_append_getElem hq, List.count_append, ih (by omega) (by omega), List.count_singleton]
            have : xs[q] ≠ c := fun e => pmin q (by omega) ⟨by omega, by rw [List.getElem?_eq_getElem hq, e]⟩
            simp [this]
          · rw [heq]
      exact this p p1 (Nat.le_refl _)
    obtain ⟨hpl, hpe⟩ := List.getElem?_eq_some_iff.1 p2
    have hlt : (xs.take first).count c < xs.count c := by
      have h1 : (xs.take (p+1)).count c ≤ xs.count c := (List.take_sublist _ _).count_le _
      rw [← List.take_append_getElem hpl, List.count_append, hpe, List.count_singleton_self] at h1
      omega
    obtain ⟨p', s1, s2, s3⟩ := hsel _ c hlt
    have hpp : p' = p := by
      obtain ⟨hpl', hpe'⟩ := List.getElem?_eq_some_iff.1 s2
      have step : ∀ u v, u < v → xs[u]? = some c → (xs.take u).count c < (xs.take v).count c := by
        intro u v huv hu
        obtain ⟨hul, hue⟩ := List.getElem?_eq_some_iff.1 hu
        have h1 : (xs.take (u+1)).count c ≤ (xs.take v).count c := (List.take_sublist_take_left (by omega)).count_le _
        rw [← List.take_append_getElem hul, List.count_append, hue, List.count_singleton_self] at h1
        omega
      rcases Nat.lt_trichotomy p' p with hc1 | hc1 | hc1
      · have := step _ _ hc1 s2; omega
      · exact hc1
      · have := step _ _ hc1 p2; omega
    subst hpp
    refine ⟨p', ?_, ⟨p1, by omega, p2, p' - 1, Or.inr (by omega), by omega, by omega, fun e => pmin (p'-1) (by omega) ⟨by omega, e⟩⟩, ?_⟩
    · have hr1 := hrank first c (by omega) hcx
      have hr2 := hrank xs.length c (Nat.le_refl _) hcx
      rw [List.take_length] at hr2
      have hpl2 : p' ≤ last := by omega
      simp only [RleString.closestRunBreak, hacc' first (by omega) d hd, Option.bind_eq_bind, Option.bind_some, if_neg hdc, hr1, hsize, hr2,
        assertC, hlt, decide_true, if_true, s1, hacc' p' hpl c p2, hpl2, Option.pure_def]
    · rintro k ⟨k1, -, k3, -⟩
      by_contra hcon
      exact pmin k (by omega) ⟨k1, k3⟩

example : ((RleString.build [2,2,5,1,2,1,2,2] 2).bind (·.closestRunBreak 0 5 2)) = some 1 ∧
    ((RleString.build [2,2,5,1,2,1,2,2] 2).bind (·.closestRunBreak 0 5 1)) = some 3 := by decide +kernel

end Sri
