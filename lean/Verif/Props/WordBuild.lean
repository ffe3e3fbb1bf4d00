import Verif.Proofs.WordBuildAll
import Verif.Props.Words
/-! # C72: construction and queries in machine arithmetic -/
namespace Sri
set_option autoImplicit false

/-- **C72**: for every text of fewer than 2^31 symbols, every rate and every class, the construction that computes with 64-bit words that wrap
    around and with `int` counters stores exactly the items that the construction over the natural numbers stores. -/
theorem c72_same_items (T sa : List Nat) (hT : IsText T) (hsa : IsSA T sa) (hn : T.length < 2 ^ 31) (s : Nat) :
    constructBaseM T sa = constructBase T sa ∧ RIndex.buildM T sa = RIndex.build T sa ∧ SrIndex.buildM T sa s = SrIndex.build T sa s ∧
      SrIndexValid.buildM T sa s = SrIndexValid.build T sa s ∧ RCSABwt.buildM T sa = RCSABwt.build T sa ∧
      RCSAPsi.buildM T sa = RCSAPsi.build T sa ∧ SrCSA.buildM T sa s = SrCSA.build T sa s ∧ SrCSA.buildSlimM T sa s = SrCSA.buildSlim T sa s ∧
      SrCSA.buildPsiM T sa s = SrCSA.buildPsi T sa s ∧ SrCSAValid.buildM T sa s = SrCSAValid.build T sa s ∧
      SrCSAValid.buildSlimM T sa s = SrCSAValid.buildSlim T sa s ∧ SrCSAValid.buildPsiM T sa s = SrCSAValid.buildPsi T sa s :=
  ⟨constructBaseM_eq hT hsa hn, RIndex.buildM_eq hT hsa hn, SrIndex.buildM_eq hT hsa hn s, SrIndexValid.buildM_eq hT hsa hn s,
    RCSABwt.buildM_eq hT hsa hn, RCSAPsi.buildM_eq hT hsa hn, SrCSA.buildM_eq hT hsa hn s, SrCSA.buildSlimM_eq hT hsa hn s,
    SrCSA.buildPsiM_eq hT hsa hn s, SrCSAValid.buildM_eq hT hsa hn s, SrCSAValid.buildSlimM_eq hT hsa hn s, SrCSAValid.buildPsiM_eq hT hsa hn s⟩

/-- **C72**: built and queried in machine arithmetic, every class answers exactly: Count with the suffix-array interval of the pattern, Locate
    with the occurrences, each once, as many as Count says. The text has fewer than 2^31 symbols (2^31 - 1 for the three classes that cut ranges
    at sampled positions) and the rate is below 2^63. -/
theorem c72_exact (t : IndexType) (T sa : List Nat) (hT : IsText T) (hsa : IsSA T sa) (hn : T.length < 2 ^ 31)
    (hint : t.cutsRanges = true → T.length < 2 ^ 31 - 1) (s : Nat) (hs : s < 2 ^ 63) :
    ∃ m, buildIndexM t T sa s = some m ∧ CountExact m.count T ∧ CountInterval m.count T sa ∧ LocateExact m.locate T ∧
      LocateLength m.count m.locate T := by
  rw [buildIndexM_eq hT hsa hn]
  exact c71_exact t T sa hT hsa (by omega) hint s hs

-- the hypotheses hold of a text with repetitions
example : IsText exText ∧ IsSA exText exSA ∧ exText.length < 2 ^ 31 - 1 := ⟨exText_isText, exSA_isSA, by decide⟩
example : (buildIndexM .srIndexValidArea exText exSA 3).bind (·.locate [1,2]) = some [0, 3, 8, 6] := by decide +kernel
example : (buildIndexM .srCSASlimValidMark exText exSA 3).bind (·.locate [1,2]) = some [6, 8, 3, 0] := by decide +kernel
example : (buildIndexM .psiValidArea exText exSA 6).bind (·.count [1,2]) = some (1, 5) := by decide +kernel

theorem bwtRunsLoopM_none (n : Nat) (rest : List (Nat × Nat)) (i sym pos : Nat) (hi : i ≤ intMax) (h : intMax < i + rest.length) :
    bwtRunsLoopM n i sym pos rest = none := by
  induction rest generalizing i sym pos with
  | nil => simp at h; omega
  | cons q rest ih =>
    obtain ⟨s, p⟩ := q
    simp only [List.length_cons] at h
    rw [bwtRunsLoopM]
    by_cases hlt : i < intMax
    · rw [intInc_some hlt]
      simp only [Option.bind_eq_bind, Option.bind_some, Option.pure_def]
      split
      · rw [ih _ _ _ (by omega) (by omega), Option.bind_none]
      · rw [ih _ _ _ (by omega) (by omega)]
    · rw [intInc_none (by omega)]; rfl

theorem constructBaseM_none {T sa : List Nat} (hsa : IsSA T sa) (hn : 2 ^ 31 ≤ T.length) : constructBaseM T sa = none := by
  have hl : (constructBWT T sa).length = T.length := by rw [constructBWT, List.length_map, hsa.length]
  have hz : ((constructBWT T sa).zip (sa.map (bwtTextPosM (constructBWT T sa).length))).length = T.length := by simp [hl, hsa.length]
  have hr : constructBWTRunsM (constructBWT T sa) sa = none := by
    rw [constructBWTRunsM]
    split
    · rfl
    · next sym pos rest e =>
      rw [e] at hz
      simp only [List.length_cons] at hz
      rw [bwtRunsLoopM_none _ _ _ _ _ (by decide) (by unfold intMax; omega)]
      rfl
  rw [constructBaseM]
  simp only [hr]
  rfl

/-- **C72**, the bound on the text is sharp: with 2^31 symbols or more no class can be built, because the construction overflows an `int` -/
theorem c72_bound_sharp (t : IndexType) (T sa : List Nat) (hsa : IsSA T sa) (hn : 2 ^ 31 ≤ T.length) (s : Nat) : buildIndexM t T sa s = none := by
  have h := constructBaseM_none hsa hn
  have h1 : RIndex.buildM T sa = none := by rw [RIndex.buildM, h]; rfl
  have h2 : SrIndex.buildM T sa s = none := by rw [SrIndex.buildM, h]; rfl
  have h3 : SrIndexValid.buildM T sa s = none := by rw [SrIndexValid.buildM, h2]; rfl
  have h4 : RCSABwt.buildM T sa = none := by rw [RCSABwt.buildM, h]; rfl
  have h5 : RCSAPsi.buildM T sa = none := by rw [RCSAPsi.buildM, h]; rfl
  have h6 : SrCSA.commonsM T sa s = none := by rw [SrCSA.commonsM, h]; rfl
  have h7 : SrCSA.commonsPsiM T sa s = none := by rw [SrCSA.commonsPsiM, h]; rfl
  have h8 : SrCSA.buildM T sa s = none := by rw [SrCSA.buildM, h6]; rfl
  have h9 : SrCSA.buildSlimM T sa s = none := by rw [SrCSA.buildSlimM, h6]; rfl
  have h10 : SrCSA.buildPsiM T sa s = none := by rw [SrCSA.buildPsiM, h7]; rfl
  have h11 : SrCSAValid.buildM T sa s = none := by rw [SrCSAValid.buildM, h8]; rfl
  have h12 : SrCSAValid.buildSlimM T sa s = none := by rw [SrCSAValid.buildSlimM, h9]; rfl
  have h13 : SrCSAValid.buildPsiM T sa s = none := by rw [SrCSAValid.buildPsiM, h7]; rfl
  cases t <;> simp only [buildIndexM, h1, h2, h3, h4, h5, h8, h9, h10, h11, h12, h13, Option.map_none]

/-- there are such texts -/
example : ∃ T sa, IsText T ∧ IsSA T sa ∧ 2 ^ 31 ≤ T.length := by
  refine ⟨List.replicate (2^31) 1 ++ [0], suffixArray (List.replicate (2^31) 1 ++ [0]), ⟨List.replicate (2^31) 1, rfl, ?_⟩, suffixArray_isSA _, ?_⟩
  · intro c hc; rw [List.mem_replicate] at hc; omega
  · rw [List.length_append, List.length_replicate]; omega

end Sri
