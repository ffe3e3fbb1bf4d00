import Verif.Model.IntCounters
import Verif.Props.Text
import Verif.Props.Bwt
/-! # C40: texts of 2^31 characters and more -/
namespace Sri
set_option autoImplicit false

theorem intInc_some {i : Nat} (h : i < intMax) : intInc i = some (i + 1) := by rw [intInc, if_pos h]
theorem intInc_none {i : Nat} (h : intMax ≤ i) : intInc i = none := by rw [intInc, if_neg (by omega)]

theorem bwtRunsLoopInt_some (n : Nat) (rest : List (Nat × Nat)) (i sym pos : Nat) (h : i + rest.length ≤ intMax) :
    bwtRunsLoopInt n i sym pos rest = some (bwtRunsLoop n i sym pos rest) := by
  induction rest generalizing i sym pos with
  | nil => rfl
  | cons q rest ih =>
    obtain ⟨s, p⟩ := q
    simp only [List.length_cons] at h
    rw [bwtRunsLoopInt, bwtRunsLoop, intInc_some (by omega)]
    simp only [Option.bind_eq_bind, Option.bind_some, Option.pure_def]
    split
    · rw [ih _ _ _ (by omega), Option.bind_some]
    · rw [ih _ _ _ (by omega)]

theorem bwtRunsLoopInt_none (n : Nat) (rest : List (Nat × Nat)) (i sym pos : Nat) (hi : i ≤ intMax) (h : intMax < i + rest.length) :
    bwtRunsLoopInt n i sym pos rest = none := by
  induction rest generalizing i sym pos with
  | nil => simp at h; omega
  | cons q rest ih =>
    obtain ⟨s, p⟩ := q
    simp only [List.length_cons] at h
    rw [bwtRunsLoopInt]
    by_cases hlt : i < intMax
    · rw [intInc_some hlt]
      simp only [Option.bind_eq_bind, Option.bind_some, Option.pure_def]
      split
      · rw [ih _ _ _ (by omega) (by omega), Option.bind_none]
      · rw [ih _ _ _ (by omega) (by omega)]
    · rw [intInc_none (by omega)]; rfl

theorem constructBWTRunsInt_some {bwt sa : List Nat} (hl : sa.length = bwt.length) (h : bwt.length ≤ intMax) :
    constructBWTRunsInt bwt sa = constructBWTRuns bwt sa := by
  have hz : (bwt.zip (sa.map (bwtTextPos bwt.length))).length = bwt.length := by simp [hl]
  rw [constructBWTRunsInt, constructBWTRuns]
  split
  · next e => rw [e]
  · next sym pos rest e =>
    rw [e] at hz ⊢
    simp only [List.length_cons] at hz
    rw [bwtRunsLoopInt_some _ _ _ _ _ (by omega)]
    rfl

theorem constructBWTRunsInt_none {bwt sa : List Nat} (hl : sa.length = bwt.length) (h : intMax < bwt.length) :
    constructBWTRunsInt bwt sa = none := by
  have hz : (bwt.zip (sa.map (bwtTextPos bwt.length))).length = bwt.length := by simp [hl]
  rw [constructBWTRunsInt]
  split
  · rfl
  · next sym pos rest e =>
    rw [e] at hz
    simp only [List.length_cons] at hz
    rw [bwtRunsLoopInt_none _ _ _ _ _ (by decide) (by omega)]
    rfl

/-- **C40** fails: on every text of 2^31 or more characters the construction overflows its `int` counter, which is undefined behaviour.
    No index can be built on such a text this way. -/
theorem c40_construct_violation (T sa : List Nat) (hsa : IsSA T sa) (hn : 2^31 ≤ T.length) : constructBaseInt T sa = none := by
  have hl : (constructBWT T sa).length = T.length := by rw [constructBWT, List.length_map, hsa.length]
  rw [constructBaseInt, constructBWTRunsInt_none (by rw [hsa.length, hl]) (by rw [hl, intMax]; omega)]
  rfl

/-- there are such texts -/
example : ∃ T sa, IsText T ∧ IsSA T sa ∧ 2^31 ≤ T.length := by
  refine ⟨List.replicate (2^31) 1 ++ [0], suffixArray (List.replicate (2^31) 1 ++ [0]), ⟨List.replicate (2^31) 1, rfl, ?_⟩, suffixArray_isSA _, ?_⟩
  · intro c hc; rw [List.mem_replicate] at hc; omega
  · rw [List.length_append, List.length_replicate]; omega

/-- **C40**, what holds: below 2^31 characters the construction is well defined and gives the items of the model with unbounded counters,
    from which every index answers exactly (`buildIndex_exact`). Missing: larger texts, where it is false (`c40_construct_violation`). -/
theorem c40_construct_partial (T sa : List Nat) (hT : IsText T) (hsa : IsSA T sa) (hn : T.length < 2^31) :
    constructBaseInt T sa = constructBase T sa ∧ ∃ b, constructBaseInt T sa = some b := by
  have hl : (constructBWT T sa).length = T.length := by rw [constructBWT, List.length_map, hsa.length]
  have e : constructBaseInt T sa = constructBase T sa := by
    rw [constructBaseInt, constructBase, constructBWTRunsInt_some (by rw [hsa.length, hl]) (by rw [hl, intMax]; omega)]
  refine ⟨e, ?_⟩
  obtain ⟨b, -, hb, -⟩ := base_build hT hsa
  exact ⟨b, e.trans hb⟩

example : IsText exText ∧ IsSA exText exSA ∧ exText.length < 2^31 := ⟨exText_isText, exSA_isSA, by decide⟩
example : constructBaseInt exText exSA = constructBase exText exSA := by decide

theorem computeBWTLoopInt_some (n : Nat) (sa T : List Nat) (m i r sym pos : Nat) (h : i + m ≤ intMax) :
    computeBWTLoopInt n sa T m i r sym pos = computeBWTLoop n sa T m i r sym pos := by
  induction m generalizing i r sym pos with
  | zero => rfl
  | succ m ih =>
    rw [computeBWTLoopInt, computeBWTLoop, intInc_some (by omega)]
    simp only [Option.bind_eq_bind, Option.bind_some, ih _ _ _ _ (show i + 1 + m ≤ intMax by omega)]

theorem computeBWTLoopInt_none (n : Nat) (sa T : List Nat) (m i r sym pos : Nat) (hi : i ≤ intMax) (h : intMax < i + m) :
    computeBWTLoopInt n sa T m i r sym pos = none := by
  induction m generalizing i r sym pos with
  | zero => omega
  | succ m ih =>
    rw [computeBWTLoopInt]
    cases hb : bwtStep n sa T i with
    | none => rfl
    | some q =>
      simp only [Option.bind_eq_bind, Option.bind_some]
      by_cases hlt : i < intMax
      · rw [intInc_some hlt, Option.bind_some, ih _ _ _ _ (by omega) (by omega), ih _ _ _ _ (by omega) (by omega)]
        simp
      · rw [intInc_none (by omega)]; rfl

/-- **C40**, computeBWT: undefined on every text of 2^31 or more characters (in fact on every call with that length). -/
theorem c40_computeBWT_violation (n : Nat) (sa T : List Nat) (hn : 2^31 ≤ n) : computeBWTInt n sa T = none := by
  rw [computeBWTInt]
  cases assertC (decide (0 < n)) with
  | none => rfl
  | some u =>
    cases bwtStep n sa T 0 with
    | none => rfl
    | some q =>
      simp only [Option.bind_eq_bind, Option.bind_some]
      rw [computeBWTLoopInt_none _ _ _ _ _ _ _ _ (by decide) (by rw [intMax]; omega)]
      rfl

/-- **C40**, computeBWT, what holds: below 2^31 characters it is the function that `c27_computeBWT` proves correct. Missing: larger texts. -/
theorem c40_computeBWT_partial (n : Nat) (sa T : List Nat) (hn : n < 2^31) : computeBWTInt n sa T = computeBWT n sa T := by
  rw [computeBWTInt, computeBWT]
  simp only [computeBWTLoopInt_some _ _ _ _ _ _ _ _ (show 1 + (n - 1) ≤ intMax by rw [intMax]; omega)]

example : computeBWTInt exText.length exSA exText = computeBWT exText.length exSA exText := by decide
example : (computeBWT exText.length exSA exText).isSome = true := by decide

theorem fillLoopInt_eq (f : Nat → Option Nat) (vs : List Nat) (i : Nat) (h : i + vs.length ≤ intMax) : fillLoopInt f i vs = vs.mapM f := by
  induction vs generalizing i with
  | nil => rfl
  | cons v vs ih =>
    simp only [List.length_cons] at h
    rw [fillLoopInt, List.mapM_cons, intInc_some (by omega)]
    simp only [Option.bind_eq_bind, Option.bind_some, ih _ (show i + 1 + vs.length ≤ intMax by omega)]

theorem fillLoopInt_none (f : Nat → Option Nat) (vs : List Nat) (i : Nat) (hi : i ≤ intMax) (h : intMax < i + vs.length) : fillLoopInt f i vs = none := by
  induction vs generalizing i with
  | nil => simp at h; omega
  | cons v vs ih =>
    simp only [List.length_cons] at h
    rw [fillLoopInt]
    cases f v with
    | none => rfl
    | some w =>
      simp only [Option.bind_eq_bind, Option.bind_some]
      by_cases hlt : i < intMax
      · rw [intInc_some hlt, Option.bind_some, ih _ (by omega) (by omega)]; rfl
      · rw [intInc_none (by omega)]; rfl

/-- **C40**, the loops over the kept samples (they do not depend on how the BWT was built, so Big-BWT does not avoid them): defined exactly
    when there are fewer than 2^31 samples. Missing: more samples, where it is false. -/
theorem c40_links_partial (r : Nat) (idx : List Nat) (hr : 0 < r) :
    (idx.length < 2^31 → sampleToMarkLinksBackwardInt r idx = some (idx.map (fun i => (i + 1) % r))) ∧
    (2^31 ≤ idx.length → sampleToMarkLinksBackwardInt r idx = none) := by
  constructor
  · intro h
    rw [sampleToMarkLinksBackwardInt, fillLoopInt_eq _ _ _ (by rw [intMax]; omega)]
    induction idx with
    | nil => rfl
    | cons v vs ih =>
      simp only [List.length_cons] at h
      rw [List.mapM_cons, ih (by omega)]
      simp [cmod, show r ≠ 0 by omega]
  · intro h
    exact fillLoopInt_none _ _ _ (by decide) (by rw [intMax]; omega)

example : sampleToMarkLinksBackwardInt 6 [0, 2, 5] = some [1, 3, 0] := by decide

theorem cutLoopInt_eq (I : SrCSA) (last k i start : Nat) (h : i + k ≤ intMax) : cutLoopInt I last k i start = I.cutLoop last k i start := by
  induction k generalizing i start with
  | zero => rfl
  | succ k ih =>
    rw [cutLoopInt, SrCSA.cutLoop]
    simp only [intInc_some (show i < intMax by omega), Option.bind_eq_bind, Option.bind_some, ih _ _ (show i + 1 + k ≤ intMax by omega)]

/-- **C40**, queries: the split of a range at the sampled positions (SrCSA) counts samples in an `int`; it is the function of the model
    for every index of fewer than 2^31 - 1 positions. Missing: larger indexes. -/
theorem c40_split_partial (I : SrCSA) (first last : Nat) (hn : I.samplesIdx.length < 2^31 - 1) :
    cutRangeInt I first last = I.cutRange first last := by
  rw [cutRangeInt, SrCSA.cutRange]
  cases ha : bvRank I.samplesIdx (first + 1) with
  | none => rfl
  | some a =>
    cases hb : bvRank I.samplesIdx last with
    | none => rfl
    | some b =>
      have h1 : ∀ i c, bvRank I.samplesIdx i = some c → c ≤ I.samplesIdx.length := by
        intro i c h
        rw [bvRank] at h
        split at h
        · cases h; exact (List.count_le_length).trans (by simp)
        · cases h
      have ha' := h1 _ _ ha
      have hb' := h1 _ _ hb
      simp only [Option.bind_eq_bind, Option.bind_some]
      rw [toInt, if_pos (by rw [intMax]; omega), Option.bind_some, cutLoopInt_eq]
      rw [intMax]; omega

example : ((SrCSA.build exText exSA 4).bind (fun I => cutRangeInt I 1 9)) = ((SrCSA.build exText exSA 4).bind (fun I => I.cutRange 1 9)) := by decide +kernel

end Sri
