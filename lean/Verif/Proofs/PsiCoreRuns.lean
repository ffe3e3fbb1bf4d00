import Verif.Proofs.PsiCore
import Verif.SpecRuns
import Verif.Proofs.RleBwt
/-! # Run queries of PsiCoreRLE on the whole sequence (helper lemmas) -/
namespace Sri
set_option autoImplicit false

section
variable {xs : List Nat} {s h : Nat} {P : PsiCoreRLE}

theorem sum_map_add' (l : List Nat) (f g : Nat → Nat) : (l.map (fun c => f c + g c)).sum = (l.map f).sum + (l.map g).sum := by
  induction l with
  | nil => rfl
  | cons x l ih => simp only [List.map_cons, List.sum_cons, ih]; omega

theorem sum_crank (R : List (Nat × Nat)) (K s : Nat) (hs : ∀ q ∈ R, q.1 < s) (hK : K ≤ R.length) :
    ((List.range s).map (fun c => Rep.crank R c K)).sum = K := by
  have key : ∀ (L : List (Nat × Nat)), (∀ q ∈ L, q.1 < s) → ((List.range s).map (fun c => L.countP (fun q => q.1 == c))).sum = L.length := by
    intro L
    induction L with
    | nil => intro _; simp
    | cons q L ih =>
      intro hL
      have h1 := ih (fun q hq => hL q (by simp [hq]))
      have h2 := hL q (by simp)
      have h3 : ((List.range s).map (fun c => (q :: L).countP (fun q => q.1 == c))).sum
          = ((List.range s).map (fun c => L.countP (fun q => q.1 == c))).sum + ((List.range s).map (fun c => if q.1 = c then 1 else 0)).sum := by
        rw [← sum_map_add']
        congr 1
        apply List.map_congr_left
        intro c _
        rw [List.countP_cons]
        simp
      have h4 : ∀ m, ((List.range m).map (fun c => if q.1 = c then 1 else 0)).sum = if q.1 < m then 1 else 0 := by
        intro m
        induction m with
        | zero => simp
        | succ m ih =>
          rw [List.range_succ, List.map_append, List.sum_append, ih, List.map_singleton, List.sum_singleton]
          by_cases g1 : q.1 < m
          · simp [g1, Nat.lt_succ_of_lt g1, Nat.ne_of_lt g1]
          · by_cases g2 : q.1 = m
            · simp [g2]
            · simp [g1, g2, show ¬ q.1 < m + 1 by omega]
      rw [h3, h1, h4, if_pos h2, List.length_cons]
  have := key (R.take K) (fun q hq => hs q (List.mem_of_mem_take hq))
  rw [List.length_take, Nat.min_eq_left hK] at this
  exact this

theorem rle_sym_lt (hd : ∀ x ∈ xs, x < s) : ∀ q ∈ rle xs, q.1 < s := by
  intro q hq
  apply hd
  have hp := rle_pos xs q hq
  rw [← expand_rle xs, expand, List.mem_flatMap]
  exact ⟨q, hq, by rw [List.mem_replicate]; exact ⟨by omega, rfl⟩⟩

/-- number of runs that start at or before `v` -/
theorem runs_upto (v : Nat) : ∃ K, K ≤ (rle xs).length ∧ ∀ k, k < (rle xs).length → (rstart (rle xs) k ≤ v ↔ k < K) :=
  ⟨Nat.count (fun k => rstart (rle xs) k ≤ v) (rle xs).length, Nat.count_le _, fun _ hk =>
    down_closed_iff _ (fun _ _ hij _ h' => Nat.le_trans (rstart_mono _ hij) h') hk⟩

theorem softRuns_eq {v K m c : Nat} (hK : K ≤ (rle xs).length) (hKi : ∀ k, k < (rle xs).length → (rstart (rle xs) k ≤ v ↔ k < K)) {n : Nat}
    (hm : m ≤ (symRuns (rle xs) c).length) (hmi : ∀ j, j < (symRuns (rle xs) c).length → (rS (symRuns (rle xs) c) n j ≤ v ↔ j < m)) :
    m = Rep.crank (rle xs) c K := by
  have hle : Rep.crank (rle xs) c K ≤ (symRuns (rle xs) c).length := by rw [symRuns_length]; exact RleBwt.crank_mono _ _ hK
  have key : ∀ j, j < (symRuns (rle xs) c).length → (j < m ↔ j < Rep.crank (rle xs) c K) := by
    intro j hj
    obtain ⟨k, hk, hs, hc, hS⟩ := symRuns_run hj
    rw [← hmi j hj, (hS n).1, hKi k hk, ← hc]
    constructor
    · intro hkK
      have h1 := Rep.crank_succ (R := rle xs) c hk
      have h2 := RleBwt.crank_mono (rle xs) c (show k + 1 ≤ K by omega)
      rw [if_pos hs] at h1
      omega
    · intro hcr
      by_contra hcon
      have := RleBwt.crank_mono (rle xs) c (show K ≤ k by omega)
      omega
  rcases Nat.lt_trichotomy m (Rep.crank (rle xs) c K) with h1 | h1 | h1
  · have := (key m (by omega)).2 h1; omega
  · exact h1
  · have := (key (Rep.crank (rle xs) c K) (by omega)).1 h1; omega

namespace PsiOK

/-- rankSoftRun of one symbol -/
theorem rankSoftRunC (hp : PsiOK P xs s h) {c v K : Nat} (hc : c < s) (hK : K ≤ (rle xs).length)
    (hKi : ∀ k, k < (rle xs).length → (rstart (rle xs) k ≤ v ↔ k < K)) :
    ∃ st, P.rankSoftRunC c v = some (Rep.crank (rle xs) c K, st) ∧
      (∀ k (hk : k < (rle xs).length), rstart (rle xs) k ≤ v → v < rstart (rle xs) (k+1) →
        st = if ((rle xs)[k]).1 = c then rstart (rle xs) k else xs.length) ∧ (xs.length ≤ v → st = xs.length) := by
  obtain ⟨E, ranks, p1, p2⟩ := hp.part c hc
  obtain ⟨m, m1, m2, m3⟩ := p2.rankSoftRunC_spec p1 hp.n v
  have hm := softRuns_eq hK hKi m1 m2
  refine ⟨_, by rw [m3, hm], ?_, ?_⟩
  · intro k hk k1 k2
    have hcov := symRuns_covers' xs c
    have hlen := length_expand (rle xs)
    rw [expand_rle] at hlen
    have hvn : v < xs.length := by have := rstart_mono (rle xs) (show k + 1 ≤ (rle xs).length by omega); omega
    have hxv : xs[v]? = some ((rle xs)[k]).1 := by
      have := getElem_expand hk k1 k2
      rwa [expand_rle] at this
    rw [← hm]
    by_cases hs : ((rle xs)[k]).1 = c
    · rw [if_pos hs]
      obtain ⟨i1, i2⟩ := symRuns_index hk
      rw [hs] at i1 i2
      obtain ⟨i3, i4⟩ := i2 xs.length
      have e1 := (m2 _ i1).1 (by rw [i3]; exact k1)
      have e2 : m = Rep.crank (rle xs) c k + 1 := by
        by_contra hne
        have e3 := (m2 (Rep.crank (rle xs) c k + 1) (by omega)).2 (by omega)
        have e4 := p2.good.E_le_S (Rep.crank (rle xs) c k)
        omega
      rw [e2, Nat.add_sub_cancel, i3, i4, if_pos ⟨by omega, k2⟩]
    · rw [if_neg hs, if_neg]
      rintro ⟨e1, e2⟩
      have := (hcov v hvn).2 ⟨m-1, by omega, (m2 (m-1) (by omega)).2 (by omega), e2⟩
      exact hs (Option.some.inj (hxv.symm.trans this))
  · intro hv
    rw [if_neg]
    rintro ⟨_, e2⟩
    have := p2.good.E_le (Rep.crank (rle xs) c K - 1)
    omega

theorem exist (hp : PsiOK P xs s h) {c v : Nat} (hc : c < s) (hv : v < xs.length) : P.exist c v = some (decide (xs[v]? = some c)) := by
  obtain ⟨K, hK, hKi⟩ := runs_upto (xs := xs) v
  obtain ⟨st, h1, h2, _⟩ := hp.rankSoftRunC hc hK hKi
  have hlen := length_expand (rle xs)
  rw [expand_rle] at hlen
  obtain ⟨k, hk, k1, k2⟩ := rstart_find (rle xs) (i := v) (by omega)
  have hxv : xs[v]? = some ((rle xs)[k]).1 := by
    have := getElem_expand hk k1 k2
    rwa [expand_rle] at this
  have := h2 k hk k1 k2
  simp only [PsiCoreRLE.exist, h1, Option.bind_eq_bind, Option.bind_some, Option.pure_def, hp.n, hxv, this, Option.some.injEq, ne_eq]
  congr 1
  by_cases hs : ((rle xs)[k]).1 = c
  · simp [hs]; omega
  · simp [hs]

theorem softRunLoop_spec (hp : PsiOK P xs s h) {v K : Nat} (hK : K ≤ (rle xs).length)
    (hKi : ∀ k, k < (rle xs).length → (rstart (rle xs) k ≤ v ↔ k < K)) {st : Nat}
    (hst : (∃ k, ∃ _ : k < (rle xs).length, rstart (rle xs) k ≤ v ∧ v < rstart (rle xs) (k+1) ∧ st = rstart (rle xs) k) ∨ (xs.length ≤ v ∧ st = xs.length))
    (is : List Nat) (his : ∀ c ∈ is, c < s) (runs start : Nat) :
    ∃ st', P.softRunLoop v is runs start = some (runs + (is.map (fun c => Rep.crank (rle xs) c K)).sum, st') ∧
      (st' = start ∨ st' = st) ∧ (start = st → st' = st) ∧
      (∀ k (hk : k < (rle xs).length), rstart (rle xs) k ≤ v → v < rstart (rle xs) (k+1) → ((rle xs)[k]).1 ∈ is → st' = st) := by
  have hlen := length_expand (rle xs)
  rw [expand_rle] at hlen
  induction is generalizing runs start with
  | nil => exact ⟨start, by simp [PsiCoreRLE.softRunLoop], Or.inl rfl, id, by simp⟩
  | cons c is ih =>
    obtain ⟨x, x1, x2, x3⟩ := hp.rankSoftRunC (his c (by simp)) hK hKi
    have hx : x = xs.length ∨ x = st := by
      rcases hst with ⟨k, hk, k1, k2, k3⟩ | ⟨k1, k2⟩
      · rw [k3, x2 k hk k1 k2]; split
        · exact Or.inr rfl
        · exact Or.inl rfl
      · exact Or.inl (x3 k1)
    obtain ⟨st', i1, i2, i3, i4⟩ := ih (fun d hd => his d (by simp [hd])) (runs + Rep.crank (rle xs) c K)
      (if x ≠ xs.length then x else start)
    refine ⟨st', ?_, ?_, ?_, ?_⟩
    · simp only [PsiCoreRLE.softRunLoop, x1, Option.bind_eq_bind, Option.bind_some, hp.n, i1, List.map_cons, List.sum_cons, Nat.add_assoc]
    · rcases i2 with i2 | i2
      · rw [i2]
        by_cases hxx : x = xs.length
        · left; simp [hxx]
        · right; rw [if_pos hxx]; rcases hx with hx | hx
          · exact absurd hx hxx
          · exact hx
      · exact Or.inr i2
    · intro hs
      apply i3
      split
      · rename_i hxx; rcases hx with hx | hx
        · exact absurd hx hxx
        · exact hx
      · exact hs
    · intro k hk k1 k2 hm
      rcases List.mem_cons.1 hm with hm | hm
      · apply i3
        have e1 := x2 k hk k1 k2
        rw [if_pos hm] at e1
        have e2 : rstart (rle xs) (k+1) ≤ xs.length := by rw [hlen]; exact rstart_mono _ (by omega)
        rw [if_pos (by omega)]
        rcases hx with hx | hx
        · omega
        · exact hx
      · exact i4 k hk k1 k2 hm

theorem rankSoftRun (hp : PsiOK P xs s h) (hd : Dense xs s) {v K : Nat} (hK : K ≤ (rle xs).length)
    (hKi : ∀ k, k < (rle xs).length → (rstart (rle xs) k ≤ v ↔ k < K)) :
    ∃ st, P.rankSoftRun v = some (K, st) ∧
      (∀ k (_ : k < (rle xs).length), rstart (rle xs) k ≤ v → v < rstart (rle xs) (k+1) → st = rstart (rle xs) k) ∧
      (xs.length ≤ v → st = xs.length) := by
  have hlen := length_expand (rle xs)
  rw [expand_rle] at hlen
  have hsum := sum_crank (rle xs) K s (rle_sym_lt hd.1) hK
  rw [PsiCoreRLE.rankSoftRun, hp.len, hp.n]
  rcases Nat.lt_or_ge v xs.length with hv | hv
  · obtain ⟨k, hk, k1, k2⟩ := rstart_find (rle xs) (i := v) (by omega)
    obtain ⟨st', h1, _, _, h4⟩ := hp.softRunLoop_spec hK hKi (Or.inl ⟨k, hk, k1, k2, rfl⟩) (List.range s) (by simp) 0 xs.length
    have h5 := h4 k hk k1 k2 (List.mem_range.2 (rle_sym_lt hd.1 _ (List.getElem_mem hk)))
    refine ⟨st', by rw [h1, hsum, Nat.zero_add], ?_, by omega⟩
    intro m hm m1 m2
    have := rstart_unique k1 k2 m1 m2
    subst this
    exact h5
  · obtain ⟨st', h1, _, h3, _⟩ := hp.softRunLoop_spec hK hKi (Or.inr ⟨hv, rfl⟩) (List.range s) (by simp) 0 xs.length
    refine ⟨st', by rw [h1, hsum, Nat.zero_add], ?_, fun _ => h3 rfl⟩
    intro k hk k1 k2
    have := rstart_mono (rle xs) (show k + 1 ≤ (rle xs).length by omega)
    omega

/-- rankRun counts the runs that start before `v` -/
theorem rankRun (hp : PsiOK P xs s h) (hd : Dense xs s) {v : Nat} (hv : v ≤ xs.length) : P.rankRun v = some (runsBefore xs v) := by
  have hlen := length_expand (rle xs)
  rw [expand_rle] at hlen
  obtain ⟨K, hK, hKi⟩ := runs_upto (xs := xs) v
  obtain ⟨st, h1, h2, h3⟩ := hp.rankSoftRun hd hK hKi
  simp only [PsiCoreRLE.rankRun, h1, Option.bind_eq_bind, Option.bind_some, hp.n, Option.pure_def]
  rcases Nat.lt_or_eq_of_le hv with hlt | heq
  · obtain ⟨k, hk, k1, k2⟩ := rstart_find (rle xs) (i := v) (by omega)
    have hKk : K = k + 1 := by
      have e1 := (hKi k hk).1 k1
      by_contra hne
      have := (hKi (k+1) (by omega)).2 (by omega)
      omega
    rw [h2 k hk k1 k2, hKk]
    by_cases hs : rstart (rle xs) k = v
    · have := runsBefore_rstart (rle_pos xs) (rle_alternating xs) (show k ≤ (rle xs).length by omega)
      rw [expand_rle, hs] at this
      rw [if_pos ⟨by omega, hs⟩, this]
      rfl
    · have := runsBefore_succ (rle_pos xs) (rle_alternating xs) hk (i := v - 1) (by omega) (by omega)
      rw [expand_rle, show v - 1 + 1 = v by omega] at this
      rw [if_neg (fun h' => hs h'.2), this]
  · rw [if_neg (fun h' => h'.1 heq)]
    have := runsBefore_rstart (rle_pos xs) (rle_alternating xs) (Nat.le_refl (rle xs).length)
    rw [expand_rle, ← hlen] at this
    rw [heq, this]
    congr 1
    by_contra hne
    have e1 : K < (rle xs).length := by omega
    have := (hKi K e1).1 (by rw [heq, hlen]; exact rstart_mono _ (by omega))
    omega

/-- rankCharRun counts the runs of smaller symbols -/
theorem rankCharRun (hp : PsiOK P xs s h) {c : Nat} (hc : c ≤ s) :
    P.rankCharRun c = some (((List.range c).map (fun d => (symRuns (rle xs) d).length)).sum) := by
  have hm : (List.range c).mapM (fun i => (P.parts[i]?).map (fun q => q.1.size / 2))
      = some ((List.range c).map (fun d => (symRuns (rle xs) d).length)) := by
    apply PartOK.mapM_some
    intro d hd
    have hd := List.mem_range.1 hd
    obtain ⟨E, ranks, p1, p2⟩ := hp.part d (by omega)
    rw [p1]
    simp [p2.size]
  simp only [PsiCoreRLE.rankCharRun, hm, Option.bind_eq_bind, Option.bind_some, Option.pure_def]

/-- splitInRuns of one symbol -/
theorem splitInRunsC (hp : PsiOK P xs s h) {c lo hi : Nat} (hc : c < s) (hlh : lo < hi) (hhi : hi ≤ xs.length) :
    ∃ k1 k2, k1 ≤ (symRuns (rle xs) c).length ∧ k2 ≤ (symRuns (rle xs) c).length ∧
      (∀ k, k < (symRuns (rle xs) c).length → (lo < rE (symRuns (rle xs) c) xs.length k ↔ k1 ≤ k)) ∧
      (∀ k, k < (symRuns (rle xs) c).length → (rS (symRuns (rle xs) c) xs.length k < hi ↔ k < k2)) ∧
      P.splitInRunsC c lo hi = some ((List.range' k1 (k2 - k1)).map (pieceOf (symRuns (rle xs) c) xs.length c lo hi)) := by
  obtain ⟨E, ranks, p1, p2⟩ := hp.part c hc
  obtain ⟨k1, a1, a2, a3⟩ := p2.good.find (v := lo) (by omega)
  obtain ⟨k2, b1, b2⟩ := PartOK.findStart p2.good hi
  refine ⟨k1, k2, a1, b1, ?_, b2, p2.splitInRunsC_spec p1 hp.n hlh hhi a1 a2 a3 b1 b2⟩
  intro k hk
  constructor
  · intro hlo
    by_contra hcon
    have := a3 k (by omega)
    omega
  · intro hkk
    rcases Nat.lt_or_eq_of_le hkk with h1 | h1
    · have e1 := p2.good.E_le_S_of_lt h1
      have e2 := p2.good.S_le_E k
      omega
    · rw [← h1]; exact a2

end PsiOK

theorem pieceOf_run {c lo hi k : Nat} (hk : k < (symRuns (rle xs) c).length) :
    pieceOf (symRuns (rle xs) c) xs.length c lo hi k
      = runPiece xs lo hi (rS (symRuns (rle xs) c) xs.length k) (rE (symRuns (rle xs) c) xs.length k) c := by
  rw [pieceOf, runPiece, (symRuns_isRun xs c hk xs.length).2]
  congr 1
  simp

theorem splitOf_range {c lo hi k1 k2 : Nat} (hk2 : k2 ≤ (symRuns (rle xs) c).length)
    (h1 : ∀ k, k < (symRuns (rle xs) c).length → (lo < rE (symRuns (rle xs) c) xs.length k ↔ k1 ≤ k))
    (h2 : ∀ k, k < (symRuns (rle xs) c).length → (rS (symRuns (rle xs) c) xs.length k < hi ↔ k < k2)) :
    SplitOf xs lo hi c ((List.range' k1 (k2 - k1)).map (pieceOf (symRuns (rle xs) c) xs.length c lo hi)) := by
  have hg := symRuns_good' xs c
  constructor
  · intro x
    rw [List.mem_map]
    constructor
    · rintro ⟨k, hk, rfl⟩
      rw [List.mem_range'_1] at hk
      have hkl : k < (symRuns (rle xs) c).length := by omega
      exact ⟨_, _, (symRuns_isRun xs c hkl xs.length).1, (h2 k hkl).2 (by omega), (h1 k hkl).2 (by omega), pieceOf_run hkl⟩
    · rintro ⟨a, b, hr, ha, hb, rfl⟩
      obtain ⟨r1, r2⟩ := isRun_symRuns hr
      obtain ⟨r3, r4⟩ := r2 xs.length
      have e1 := (h1 _ r1).1 (by rw [r4]; exact hb)
      have e2 := (h2 _ r1).1 (by rw [r3]; exact ha)
      refine ⟨symbolRunsBefore xs c a, by rw [List.mem_range'_1]; omega, ?_⟩
      rw [pieceOf_run r1, r3, r4]
  · rw [List.pairwise_map]
    have hpw : (List.range' k1 (k2 - k1)).Pairwise (· < ·) := List.pairwise_lt_range'
    refine List.Pairwise.imp_of_mem ?_ hpw
    intro i j hi' hj' hij
    rw [List.mem_range'_1] at hi' hj'
    have hgap := hg.gap i (by omega)
    have hm := hg.S_mono (show i + 1 ≤ j by omega)
    simp only [pieceOf]
    omega

namespace PsiOK

theorem splitC (hp : PsiOK P xs s h) {c lo hi : Nat} (hc : c < s) (hlh : lo < hi) (hhi : hi ≤ xs.length) :
    ∃ l, P.splitInRunsC c lo hi = some l ∧ SplitOf xs lo hi c l := by
  obtain ⟨k1, k2, _, a2, a3, a4, a5⟩ := hp.splitInRunsC hc hlh hhi
  exact ⟨_, a5, splitOf_range a2 a3 a4⟩

theorem splitInRuns (hp : PsiOK P xs s h) {lo hi : Nat} (hlh : lo < hi) (hhi : hi ≤ xs.length) :
    ∃ f : Nat → List PsiCoreRLE.Piece, P.splitInRuns lo hi = some ((List.range s).flatMap f) ∧ ∀ c, c < s → SplitOf xs lo hi c (f c) := by
  have hex : ∀ c, ∃ l, c < s → P.splitInRunsC c lo hi = some l ∧ SplitOf xs lo hi c l := by
    intro c
    by_cases hc : c < s
    · obtain ⟨l, h1, h2⟩ := hp.splitC hc hlh hhi
      exact ⟨l, fun _ => ⟨h1, h2⟩⟩
    · exact ⟨[], fun h' => absurd h' hc⟩
  choose f hf using hex
  refine ⟨f, ?_, fun c hc => (hf c hc).2⟩
  have hm : (List.range s).mapM (fun c => P.splitInRunsC c lo hi) = some ((List.range s).map f) := by
    apply PartOK.mapM_some
    intro c hc
    exact (hf c (List.mem_range.1 hc)).1
  simp only [PsiCoreRLE.splitInRuns, hp.len, hm, Option.bind_eq_bind, Option.bind_some, Option.pure_def, List.flatMap_def]

/-- computeForwardRuns: the runs between two occurrences of a symbol -/
theorem computeForwardRuns (hp : PsiOK P xs s h) {c u v : Nat} (hc : c < s) (hu : xs[u]? = some c) (hv : xs[v]? = some c) (huv : u ≤ v) :
    ∃ k1 k2, k1 ≤ (symRuns (rle xs) c).length ∧ k2 ≤ (symRuns (rle xs) c).length ∧
      (∀ k, k < (symRuns (rle xs) c).length → (u < rE (symRuns (rle xs) c) xs.length k ↔ k1 ≤ k)) ∧
      (∀ k, k < (symRuns (rle xs) c).length → (rS (symRuns (rle xs) c) xs.length k < v + 1 ↔ k < k2)) ∧
      P.computeForwardRuns c ((xs.take u).count c + 1) ((xs.take v).count c + 2)
        = some ((List.range' k1 (k2 - k1)).map (pieceOf (symRuns (rle xs) c) xs.length c u (v+1))) := by
  obtain ⟨E, ranks, p1, p2⟩ := hp.part c hc
  have hcov := symRuns_covers' xs c
  have hg := p2.good
  have hul := (List.getElem?_eq_some_iff.1 hu).1
  have hvl := (List.getElem?_eq_some_iff.1 hv).1
  obtain ⟨k1, a1, a2, a3⟩ := (hcov u hul).1 hu
  obtain ⟨k2, b1, b2, b3⟩ := (hcov v hvl).1 hv
  have c1 := hcov.count_in hg a1 a2 (by omega)
  have c2 := hcov.count_in hg b1 b2 (by omega)
  have r1 := rk_succ (symRuns (rle xs) c) xs.length a1
  have r2 := rk_succ (symRuns (rle xs) c) xs.length b1
  have hmono := count_le_of_le (fun j => xs[j]? = some c) huv
  rw [count_take_eq xs c u (by omega), count_take_eq xs c v (by omega)]
  have hfr := p2.computeForwardRuns_spec p1 hp.n (t1 := Nat.count (fun j => xs[j]? = some c) u) (t2 := Nat.count (fun j => xs[j]? = some c) v)
    hmono a1 (by omega) (by omega) b1 (by omega) (by omega)
  refine ⟨k1, k2 + 1, by omega, by omega, ?_, ?_, ?_⟩
  · intro k hk
    constructor
    · intro hlo
      by_contra hcon
      have := hg.E_le_S_of_lt (show k < k1 by omega)
      omega
    · intro hkk
      rcases Nat.lt_or_eq_of_le hkk with h1 | h1
      · have e1 := hg.E_le_S_of_lt h1
        have e2 := hg.lt k hk
        omega
      · rw [← h1]; exact a3
  · intro k hk
    constructor
    · intro hlo
      by_contra hcon
      have := hg.E_le_S_of_lt (show k2 < k by omega)
      omega
    · intro hkk
      have := hg.S_mono (show k ≤ k2 by omega)
      omega
  · rw [hfr]
    congr 3
    · omega
    · omega

theorem traverse (hp : PsiOK P xs s h) {c : Nat} (hc : c < s) : P.traverse c = some (symRuns (rle xs) c) := by
  obtain ⟨E, ranks, p1, p2⟩ := hp.part c hc
  exact p2.traverse_spec p1 hp.n

theorem countRuns (hp : PsiOK P xs s h) {c : Nat} (hc : c < s) : P.countRuns c = some (symRuns (rle xs) c).length := by
  obtain ⟨E, ranks, p1, p2⟩ := hp.part c hc
  exact p2.countRuns_spec p1

end PsiOK
end
end Sri
