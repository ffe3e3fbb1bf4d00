import Verif.Proofs.RleString
/-! # C42: sparse bit vectors and huff_string -/
namespace Sri
set_option autoImplicit false

/-- what a vector must answer to stand for the bits `b` -/
structure AnswersAs (s : SparseBV) (b : List Bool) : Prop where
  size : s.size = b.length
  ones : s.numberOf1 = some (b.count true)
  /-- `operator[]` -/
  access : ∀ i (h : i < b.length), s.access i = some b[i]
  /-- `rank`: ones before `i` -/
  rank : ∀ i, i ≤ b.length → s.rank i = some ((b.take i).count true)
  /-- `select`: the `k`-th one, from 0 -/
  select : ∀ k, k < b.count true → ∃ p, s.select k = some p ∧ b[p]? = some true ∧ (b.take p).count true = k
  /-- `predecessor` and `predecessor_rank`: the last one before `i`, and its rank -/
  predecessor : ∀ i, i ≤ b.length → (∃ j, j < i ∧ b[j]? = some true) →
    ∃ p, s.predecessor i = some p ∧ p < i ∧ b[p]? = some true ∧ (∀ j, p < j → j < i → b[j]? = some false) ∧
      s.predecessorRank i = some ((b.take p).count true) ∧ s.predecessorRankCircular i = some ((b.take p).count true)
  /-- `predecessor_rank_circular` where no one is before `i`: the rank of the last one -/
  circular : ∀ i, i ≤ b.length → (∀ j, j < i → b[j]? = some false) → true ∈ b →
    s.predecessorRankCircular i = some (b.count true - 1)
  /-- `gapAt`: the distance between consecutive ones, the first counted from before the start -/
  gapFirst : ∀ p, b[p]? = some true → (∀ j, j < p → b[j]? = some false) → s.gapAt 0 = some (p + 1)
  gap : ∀ p q, p < q → b[p]? = some true → b[q]? = some true → (∀ j, p < j → j < q → b[j]? = some false) →
    s.gapAt ((b.take q).count true) = some (q - p)

theorem ones_take_succ {b : List Bool} {j : Nat} (h : j < b.length) :
    (b.take (j+1)).count true = (b.take j).count true + if b[j] = true then 1 else 0 := by
  rw [← List.take_append_getElem h, List.count_append, List.count_singleton]; cases b[j] <;> rfl

theorem ones_take_const {b : List Bool} {p i : Nat} (hpi : p ≤ i) (hi : i ≤ b.length) (h : ∀ j, p ≤ j → j < i → b[j]? = some false) :
    (b.take i).count true = (b.take p).count true := by
  induction i with
  | zero => rw [show p = 0 by omega]
  | succ i ih =>
    rcases Nat.lt_or_eq_of_le hpi with hlt | rfl
    · have := h i (by omega) (by omega)
      rw [List.getElem?_eq_getElem (by omega), Option.some_inj] at this
      rw [ones_take_succ (by omega), this, ih (by omega) (by omega) (fun j h1 h2 => h j h1 (by omega))]; simp
    · rfl

theorem bvSelect_of {b : List Bool} {p : Nat} (hp : b[p]? = some true) : bvSelect b ((b.take p).count true + 1) = some p := by
  rw [bvSelect, if_neg (by omega), Nat.add_sub_cancel, selectFrom_eq_some]
  obtain ⟨h, e⟩ := List.getElem?_eq_some_iff.1 hp
  refine ⟨h, e, ?_⟩
  rw [List.count_eq_countP]; congr 1; funext x; cases x <;> rfl

theorem ones_take_lt {b : List Bool} {p i : Nat} (hp : b[p]? = some true) (hpi : p < i) : (b.take p).count true < (b.take i).count true := by
  obtain ⟨h, e⟩ := List.getElem?_eq_some_iff.1 hp
  have h1 := ones_take_succ h
  rw [e, if_pos rfl] at h1
  have h2 : (b.take (p+1)).count true ≤ (b.take i).count true := (List.take_sublist_take_left (by omega)).count_le _
  omega

theorem Represents.answers {s : SparseBV} {b : List Bool} (h : Represents s b) : AnswersAs s b := by
  have hlast : ∀ i, i ≤ b.length → (∃ j, j < i ∧ b[j]? = some true) →
      ∃ p, p < i ∧ b[p]? = some true ∧ ∀ j, p < j → j < i → b[j]? = some false := by
    intro i
    induction i with
    | zero => rintro _ ⟨j, hj, -⟩; omega
    | succ i ih =>
      rintro hi ⟨j, hj, hb⟩
      by_cases hbi : b[i]? = some true
      · exact ⟨i, by omega, hbi, fun j h1 h2 => by omega⟩
      · have hf : b[i]? = some false := by
          rw [List.getElem?_eq_getElem (by omega)] at hbi ⊢
          cases hv : b[i] <;> simp_all
        have : j ≠ i := by rintro rfl; exact hbi hb
        obtain ⟨p, p1, p2, p3⟩ := ih (by omega) ⟨j, by omega, hb⟩
        refine ⟨p, by omega, p2, fun k k1 k2 => ?_⟩
        by_cases hk : k = i
        · rw [hk]; exact hf
        · exact p3 k k1 (by omega)
  have hpred : ∀ i p, i ≤ b.length → p < i → b[p]? = some true → (∀ j, p < j → j < i → b[j]? = some false) →
      (b.take i).count true = (b.take p).count true + 1 := by
    intro i p hi hp hb hz
    obtain ⟨hl, e⟩ := List.getElem?_eq_some_iff.1 hb
    rw [ones_take_const (p := p + 1) (by omega) hi (fun j h1 h2 => hz j (by omega) h2), ones_take_succ hl, e, if_pos rfl]
  have hcsub : ∀ k, csub (k + 1) 1 = some k := fun k => by simp [csub]
  refine ⟨h.u, h.numberOf1, ?_, fun i hi => h.rank hi, ?_, ?_, ?_, ?_, ?_⟩
  · intro i hi
    simp [SparseBV.access, SparseBV.size, h.u, hi, assertC, h.bits]
  · intro k hk
    have : k < b.countP id := by
      rw [List.count_eq_countP] at hk
      refine Nat.lt_of_lt_of_le hk (Nat.le_of_eq ?_); congr 1; funext x; cases x <;> rfl
    obtain ⟨p, hp⟩ := selectFrom_isSome this
    refine ⟨p, by rw [h.select, bvSelect, if_neg (by omega), Nat.add_sub_cancel]; exact hp, ?_⟩
    obtain ⟨h1, h2, h3⟩ := selectFrom_eq_some.1 hp
    refine ⟨by rw [List.getElem?_eq_getElem h1]; simpa using h2, ?_⟩
    rw [← h3, List.count_eq_countP]; congr 1; funext x; cases x <;> rfl
  · intro i hi hex
    obtain ⟨p, p1, p2, p3⟩ := hlast i hi hex
    have hc := hpred i p hi p1 p2 p3
    refine ⟨p, ?_, p1, p2, p3, ?_, ?_⟩
    · simp only [SparseBV.predecessor, h.rank hi, hc, Option.bind_eq_bind, Option.bind_some, hcsub, h.select, bvSelect_of p2]
      simp [assertC]
    · simp only [SparseBV.predecessorRank, h.rank hi, hc, Option.bind_eq_bind, Option.bind_some, hcsub]
      simp [assertC]
    · simp only [SparseBV.predecessorRankCircular, h.rank hi, hc, Option.bind_eq_bind, Option.bind_some, hcsub]
      rw [if_neg (by omega)]
  · intro i hi hz hm
    have hc : (b.take i).count true = 0 := by
      rw [ones_take_const (p := 0) (by omega) hi (fun j _ h2 => hz j h2)]; simp
    have := List.count_pos_iff.2 hm
    simp only [SparseBV.predecessorRankCircular, h.rank hi, hc, Option.bind_eq_bind, Option.bind_some, h.numberOf1, if_true, csub]
    rw [if_pos (by omega)]
  · intro p hp hz
    obtain ⟨hl, -⟩ := List.getElem?_eq_some_iff.1 hp
    have hc : (b.take p).count true = 0 := by
      rw [ones_take_const (p := 0) (by omega) (by omega) (fun j _ h2 => hz j h2)]; simp
    have hs := bvSelect_of hp
    rw [hc] at hs
    have := h.gapAt (i := 0) (a := 0) (e := p + 1) rfl (by rw [RLEString.afterSelect, if_neg (by omega), hs]; rfl) (by omega)
    simpa using this
  · intro p q hpq hp hq hz
    obtain ⟨hl, -⟩ := List.getElem?_eq_some_iff.1 hq
    have hc := hpred q p (by omega) hpq hp hz
    have h1 := bvSelect_of hp
    have h2 := bvSelect_of hq
    rw [h.gapAt (i := (b.take q).count true) (a := p + 1) (e := q + 1) (by rw [hc, RLEString.afterSelect, if_neg (by omega), h1]; rfl)
      (by rw [RLEString.afterSelect, if_neg (by omega), h2]; rfl) (by omega)]
    congr 1; omega

/-- C42, sparse vectors. A vector made from a non-empty `vector<bool>`, and any vector after being assigned (from a temporary made from any
    `vector<bool>` or any `bit_vector`, as rle_string does), answers every query as the plain bits do, for all bits and positions.
    Excluded: an object made from a `bit_vector` and not assigned, see `c42_bit_vector_violation`, and an empty one, see `c42_empty`. -/
theorem c42_sparse_partial (b : List Bool) :
    (b ≠ [] → AnswersAs (SparseBV.ofBools b) b) ∧ AnswersAs (SparseBV.ofBools b).assign b ∧ AnswersAs (SparseBV.ofBitVector b).assign b := by
  refine ⟨fun h => (represents_ofBools h).answers, ?_, (represents_assign (SparseBV.ofBitVector b)).answers⟩
  have := (represents_assign (SparseBV.ofBools b)).answers
  rwa [ofBools_bits] at this

example : ((SparseBV.ofBools [false,true,false,false,true,true]).predecessor 4) = some 1 ∧
    ((SparseBV.ofBools [false,true,false,false,true,true]).predecessorRankCircular 1) = some 2 ∧
    ((SparseBV.ofBools [false,true,false,false,true,true]).gapAt 1) = some 3 := by decide

/-- C42, violated by the constructor from `sdsl::bit_vector`: for every non-empty vector the object says its size is 0, faults at every position
    and at every rank but the first, and has no ones to select. -/
theorem c42_bit_vector_violation (b : List Bool) (h : b ≠ []) :
    ¬ AnswersAs (SparseBV.ofBitVector b) b ∧ (SparseBV.ofBitVector b).size = 0 ∧ (∀ i, (SparseBV.ofBitVector b).access i = none) ∧
      (∀ i, 0 < i → (SparseBV.ofBitVector b).rank i = none) ∧ (∀ k, (SparseBV.ofBitVector b).select k = none) := by
  refine ⟨fun ha => ?_, rfl, fun i => rfl, fun i hi => ?_, fun k => ?_⟩
  · have := ha.size
    have : b.length = 0 := this.symm
    exact h (List.length_eq_zero_iff.1 this)
  · have : (SparseBV.ofBitVector b).size = 0 := rfl
    simp [SparseBV.rank, this, assertC, Nat.ne_of_gt hi]
  · have e : (SparseBV.ofBitVector b).numberOf1 = some 0 := by
      simp [SparseBV.numberOf1, SparseBV.rank1, SparseBV.ofBitVector, SparseBV.size, bvRank]
    simp only [SparseBV.select, e, Option.bind_eq_bind, Option.bind_some]; rfl

example : ([true,false] : List Bool) ≠ [] := by decide

/-- C42, the empty vector: built from an empty `vector<bool>` the supports point to no vector, so even `rank(0)` and `number_of_1()` are faults;
    after assignment both are 0. -/
theorem c42_empty :
    (SparseBV.ofBools []).size = 0 ∧ (SparseBV.ofBools []).rank 0 = none ∧ (SparseBV.ofBools []).numberOf1 = none ∧
      (SparseBV.ofBools []).assign.rank 0 = some 0 ∧ (SparseBV.ofBools []).assign.numberOf1 = some 0 := by decide

/-- C42, huff_string. A string can be stored exactly when it has no zero byte; it is then answered from as the plain string: `operator[]`,
    `rank` for all `i` up to the size, `inverse_select`, and `select` from 0. -/
theorem c42_huff (s : List Nat) :
    (HuffString.build s ≠ none ↔ 0 ∉ s) ∧ (∀ w, HuffString.build s = some w →
      (∀ i (h : i < s.length), HuffString.access w i = some s[i] ∧ HuffString.inverseSelect w i = some ((s.take i).count s[i], s[i])) ∧
      (∀ i c, i ≤ s.length → HuffString.rank w i c = some ((s.take i).count c)) ∧
      (∀ i, s.length ≤ i → HuffString.access w i = none) ∧
      (∀ k c, k < s.count c → ∃ p, HuffString.select w k c = some p ∧ s[p]? = some c ∧ (s.take p).count c = k)) := by
  have hfail : 0 ∈ s → HuffString.build s = none := by
    intro h0
    have hlen : (cString (s ++ [0])).length < s.length := by
      clear * - h0
      induction s with
      | nil => simp at h0
      | cons a s ih =>
        rw [cString, List.cons_append, List.takeWhile_cons]
        by_cases ha : a = 0
        · simp [ha]
        · rw [if_pos (by simpa using ha)]
          have := ih (by rcases List.mem_cons.1 h0 with h | h; exact absurd h.symm ha; exact h)
          rw [cString] at this
          simp only [List.length_cons]; omega
    have hne : (cString (s ++ [0])).length ≠ s.length := by omega
    simp [HuffString.build, assertC, hne]
  refine ⟨⟨fun h h0 => h (hfail h0), fun h => by rw [huff_build h]; simp⟩, fun w hw => ?_⟩
  have h0 : 0 ∉ s := fun h => by rw [hfail h] at hw; cases hw
  rw [huff_build h0, Option.some_inj] at hw
  subst hw
  refine ⟨fun i h => ⟨by simp [HuffString.access, assertC, h], by simp [HuffString.inverseSelect, wtInverseSelect, h]⟩, ?_, ?_, ?_⟩
  · intro i c hi; simp [HuffString.rank, assertC, hi, wtRank]
  · intro i hi; simp [HuffString.access, assertC, hi]
  · intro k c hk
    obtain ⟨p, hp⟩ := selectFrom_isSome (p := (· == c)) (l := s) (k := k) (by rwa [List.count_eq_countP] at hk)
    have hs : wtSelect s (k + 1) c = some p := by rw [wtSelect, if_neg (by omega), Nat.add_sub_cancel]; exact hp
    exact ⟨p, hs, wtSelect_eq_some.1 hs⟩

example : HuffString.build [3,1,1,2] = some [3,1,1,2] ∧ HuffString.build [3,0,1] = none ∧ HuffString.select [3,1,1,2] 1 1 = some 2 := by decide

end Sri
