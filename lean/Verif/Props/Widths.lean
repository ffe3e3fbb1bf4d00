import Verif.Props.AllIndexes
import Verif.Proofs.Widths
/-! # C52: no value is cut by the width of the vector that stores it -/
namespace Sri
set_option autoImplicit false

/-- **C52**: with every integer the constructions store cut to the width of the vector it is stored in, every index type is the index
    built with unbounded integers. -/
theorem c52_same (t : IndexType) (T sa : List Nat) (hT : IsText T) (hsa : IsSA T sa) (hn : T.length < 2^64) (s : Nat) :
    buildIndexW t T sa s = buildIndex t T sa s := by
  cases t
  case rIndex => simp only [buildIndex, buildIndexW, RIndex.buildW_eq hT hsa]
  case srIndex =>
    obtain ⟨I, hb, -⟩ := srindex_exact hT hsa s
    simp only [buildIndex, buildIndexW, hb, SrIndex.buildW_of hT hsa hb]
  case srIndexValidMark =>
    obtain ⟨I, hb, -⟩ := validmark_exact hT hsa s
    simp only [buildIndex, buildIndexW, hb, SrIndexValid.buildW_of hT hsa hb]
  case srIndexValidArea =>
    obtain ⟨I, hb, -⟩ := validmark_exact hT hsa s
    simp only [buildIndex, buildIndexW, hb, SrIndexValid.buildW_of hT hsa hb]
  case rcsaWithBWTRun => simp only [buildIndex, buildIndexW, RCSABwt.buildW_eq hT hsa hn]
  case rcsaWithPsiRun =>
    obtain ⟨I, hb, -⟩ := rcsapsi_exact hT hsa hn
    simp only [buildIndex, buildIndexW, hb, RCSAPsi.buildW_of hT hsa hb]
  case srCSA =>
    obtain ⟨I, hb, -⟩ := srcsa_answers hT hsa hn s
    simp only [buildIndex, buildIndexW, hb, SrCSA.buildW_of hT hsa hn hb]
  case srCSASlim =>
    obtain ⟨I, hb, -⟩ := srcsaslim_answers hT hsa hn s
    simp only [buildIndex, buildIndexW, hb, SrCSA.buildSlimW_of hT hsa hn hb]
  case srCSAValidMark =>
    obtain ⟨I, hb, -⟩ := srcsamark_answers hT hsa hn s
    simp only [buildIndex, buildIndexW, hb, SrCSAValid.buildW_of hT hsa hn hb]
  case srCSAValidArea =>
    obtain ⟨I, hb, -⟩ := srcsaarea_answers hT hsa hn s
    simp only [buildIndex, buildIndexW, hb, SrCSAValid.buildW_of hT hsa hn hb]
  case srCSASlimValidMark =>
    obtain ⟨I, hb, -⟩ := srcsaslimmark_answers hT hsa hn s
    simp only [buildIndex, buildIndexW, hb, SrCSAValid.buildSlimW_of hT hsa hn hb]
  case srCSASlimValidArea =>
    obtain ⟨I, hb, -⟩ := srcsaslimarea_answers hT hsa hn s
    simp only [buildIndex, buildIndexW, hb, SrCSAValid.buildSlimW_of hT hsa hn hb]
  case srCSAWithPsiRun =>
    obtain ⟨I, hb, -⟩ := srcsapsi_answers hT hsa hn s
    simp only [buildIndex, buildIndexW, hb, SrCSA.buildPsiW_of hT hsa hn hb]
  case psiValidMark =>
    obtain ⟨I, hb, -⟩ := srcsapsimark_answers hT hsa hn s
    simp only [buildIndex, buildIndexW, hb, SrCSAValid.buildPsiW_of hT hsa hn hb]
  case psiValidArea =>
    obtain ⟨I, hb, -⟩ := srcsapsiarea_answers hT hsa hn s
    simp only [buildIndex, buildIndexW, hb, SrCSAValid.buildPsiW_of hT hsa hn hb]

/-- **C52**: every index type, built from vectors of those widths, counts and locates exactly. -/
theorem c52_answers (t : IndexType) (T sa : List Nat) (hT : IsText T) (hsa : IsSA T sa) (hn : T.length < 2^64) (s : Nat) :
    ∃ q, buildIndexW t T sa s = some q ∧ CountInterval q.count T sa ∧ LocateExact q.locate T := by
  obtain ⟨q, hb, h⟩ := buildIndex_exact t hT hsa hn s
  exact ⟨q, by rw [c52_same t T sa hT hsa hn s, hb], h.countInterval, h.locateExact (order_perm _)⟩

/-- **C52**: the widths are widths sdsl has: the highest bit of a number of 64 bits, plus one, is at most 64. -/
theorem c52_width (x : Nat) (h : x < 2^64) : 1 ≤ hiBit x + 1 ∧ hiBit x + 1 ≤ 64 := by
  refine ⟨Nat.succ_le_succ (Nat.zero_le _), ?_⟩
  by_cases h0 : x = 0
  · subst h0; decide
  · have := (Nat.log2_lt h0 (k := 64)).2 h
    exact this

example : (SrCSA.buildSlimW exText exSA 2).bind (·.locateSlim [2,3]) = some [9, 4, 1] := by decide +kernel
example : (SrIndexValid.buildW exText exSA 2).bind (·.locateArea [1,2]) = some [0, 3, 8, 6] := by decide +kernel
example : (SrCSAValid.buildPsiW exText exSA 3).bind (·.locateAreaSlim [2]) = some [7, 9, 4, 1] := by decide +kernel
/-- a width that is one too small does change a vector: the text positions of the runs would lose their highest bit -/
example : (IntVec.store (hiBit 12) [11, 3]).vals = [3, 3] ∧ (IntVec.store (hiBit 12 + 1) [11, 3]).vals = [11, 3] := by decide +kernel

end Sri
