import Verif.Proofs.BackIndex
import Verif.Proofs.SrValid
import Verif.Props.RIndex
/-! # Properties of SrIndex, SrIndexValidMark and SrIndexValidArea, for every rate `s`

The theorems hold for every `s`, including 0. -/
namespace Sri
set_option autoImplicit false

theorem exists_pos_of_value {T sa : List Nat} (hT : IsText T) (hsa : IsSA T sa) {v : Nat} (hv : v < T.length - 1) :
    ∃ i, 1 ≤ i ∧ i < T.length ∧ saAt sa i = v := by
  have hv' : v < T.length := by omega
  refine ⟨isaOf sa v, ?_, isaOf_lt hsa hv', saAt_isaOf hsa hv'⟩
  have hs := saAt_isaOf hsa hv'
  generalize isaOf sa v = i at hs
  rcases Nat.eq_zero_or_pos i with rfl | h
  · rw [sa_zero hT hsa] at hs; omega
  · exact h

theorem SrIndex.OK.exactWith {I : SrIndex} {T sa T' K : List Nat} (ok : I.OK T' sa K) (hc : Compact T sa I.base.alphabet T')
    {g : Range → Nat → Option (List Nat)}
    (hg : ∀ a b, 1 ≤ a → a ≤ b → b < T'.length → g ⟨a, b⟩ (saAt sa b) = some (down sa a (b - a))) :
    Exact (I.functorsWith g).count (I.functorsWith g).locate T sa List.reverse :=
  exactDown hc (F := I.functorsWith g) rfl ((ok.nav.backSearchOf (SrIndex.navigates I g)).mono (fun _ h => h.1))
    (ok.nav.toeholdOf SrIndex.creates (SrIndex.navigates I g) rfl (fun _ => rfl))
    (fun _ _ _ h1 h2 h3 h4 h5 => ok.computeAll_eq hg h1 h2 h3 h4 h5)

theorem SrIndex.OK.absentWith {I : SrIndex} {T sa T' K : List Nat} (ok : I.OK T' sa K) (hc : Compact T sa I.base.alphabet T')
    {g : Range → Nat → Option (List Nat)} (hg : ∀ k, g ⟨0, 0⟩ k = some []) :
    AbsentAnswered (I.functorsWith g).count (I.functorsWith g).locate T := by
  refine ok.nav.absentAnswered hc (SrIndex.navigates I g) rfl SrIndex.creates rfl (fun _ => rfl) ?_
  intro r d h1 h2 hth
  have hst : d.step < T'.length := by obtain ⟨q, -, -, -, h4, -⟩ := hth; have := hc.text.pos; rw [List.length_singleton] at h4; omega
  have ht := ok.toehold_eq hth hst
  rw [h2, Nat.sub_self, sa_zero hc.text hc.isSA] at ht
  simp only [SrIndex.functorsWith, computeAllValues, ht, Option.bind_eq_bind, Option.bind_some, RIndex.shrink, h1, h2, csub,
    Nat.le_refl, if_true, Nat.sub_self, Option.pure_def, hg]

theorem SrIndex.OK.countEmptyWith {I : SrIndex} {T sa T' K : List Nat} (ok : I.OK T' sa K) (hc : Compact T sa I.base.alphabet T')
    (g : Range → Nat → Option (List Nat)) : (I.functorsWith g).count [] = some (0, T.length) := by
  simp [Functors.count, Functors.countLoop, SrIndex.functorsWith, ok.nav.n, hc.len]

theorem SrIndex.OK.locateEmptyWith {I : SrIndex} {T sa K : List Nat} (ok : I.OK T sa K)
    (g : Range → Nat → Option (List Nat)) : (I.functorsWith g).locate [] = none := by
  have hn := ok.nav.text.pos
  have hsel : I.base.bwtRle.selectOnRuns 0 0 = none := by
    unfold RLEString.selectOnRuns
    cases I.base.bwtRle.perSym[0]? with
    | none => rfl
    | some bv => simp [assertC]
  have h0 : ¬ T.length = 0 := by omega
  simp [Functors.locate, Functors.locateLoop, SrIndex.functorsWith, ok.nav.n, computeAllValues, SrIndex.toehold,
    computeToehold, SrIndex.saValueOfRun, hsel, h0]

/-! ## SrIndex -/

theorem srindex_exact {T sa : List Nat} (hT : IsText T) (hsa : IsSA T sa) (s : Nat) :
    ∃ I, SrIndex.build T sa s = some I ∧ Exact I.count I.locate T sa List.reverse := by
  obtain ⟨I, T', K, hb, ok, -, hc, -⟩ := SrIndex.build_ok hT hsa s
  exact ⟨I, hb, ok.exactWith hc ok.phiForRange_eq⟩

/-- **C01** (SrIndex): the width of the range is the number of occurrences. -/
theorem c01_srindex_count (T sa : List Nat) (hT : IsText T) (hsa : IsSA T sa) (s : Nat) :
    ∃ I, SrIndex.build T sa s = some I ∧ CountExact I.count T := by
  obtain ⟨I, hb, h⟩ := srindex_exact hT hsa s
  exact ⟨I, hb, h.countExact⟩

/-- **C02** (SrIndex): the range is the suffix-array interval of the pattern. -/
theorem c02_srindex_interval (T sa : List Nat) (hT : IsText T) (hsa : IsSA T sa) (s : Nat) :
    ∃ I, SrIndex.build T sa s = some I ∧ CountInterval I.count T sa := by
  obtain ⟨I, hb, h⟩ := srindex_exact hT hsa s
  exact ⟨I, hb, h.countInterval⟩

/-- **C06**: SrIndex::Locate returns every starting position exactly once and nothing else, whatever the rate. -/
theorem c06_srindex_locate (T sa : List Nat) (hT : IsText T) (hsa : IsSA T sa) (s : Nat) :
    ∃ I, SrIndex.build T sa s = some I ∧ LocateExact I.locate T := by
  obtain ⟨I, hb, h⟩ := srindex_exact hT hsa s
  exact ⟨I, hb, h.locateExact List.reverse_perm⟩

example : (SrIndex.build exText exSA 1).bind (·.locate [1,2]) = some [0, 3, 8, 6] := by decide +kernel
example : (SrIndex.build exText exSA 3).bind (·.locate [2]) = some [1, 4, 9, 7] := by decide +kernel
example : (SrIndex.build exText exSA 6).bind (·.locate [2,3]) = some [1, 4, 9] := by decide +kernel
example : (SrIndex.build exText exSA 100).bind (·.locate [1]) = some [0, 3, 8, 6] := by decide +kernel
example : (SrIndex.build exText exSA 6).bind (·.count [2,3]) = some (6, 9) := by decide +kernel

/-- **C14** violated (SrIndex): an absent character is looked up as the terminator. -/
theorem c14_srindex_absent_violation (T sa : List Nat) (hT : IsText T) (hsa : IsSA T sa) (s : Nat) :
    ∃ I, SrIndex.build T sa s = some I ∧ AbsentAnswered I.count I.locate T := by
  obtain ⟨I, T', K, hb, ok, -, hc, -⟩ := SrIndex.build_ok hT hsa s
  exact ⟨I, hb, ok.absentWith hc (g := I.phiForRange) (fun _ => rfl)⟩

example : (SrIndex.build exText exSA 6).bind (·.locate [9]) = some [11] := by decide +kernel

/-- **C14** (SrIndex), the part that holds; see `c14_rindex_absent_partial` for what is missing. -/
theorem c14_srindex_absent_partial (T sa : List Nat) (hT : IsText T) (hsa : IsSA T sa) (s : Nat) :
    ∃ I, SrIndex.build T sa s = some I ∧ AbsentEmpty I.count T := by
  obtain ⟨I, T', K, hb, ok, -, hc, -⟩ := SrIndex.build_ok hT hsa s
  exact ⟨I, hb, absentEmpty hc (F := I.functorsWith I.phiForRange) rfl (ok.nav.backSearchOf (SrIndex.navigates _ _))⟩

/-- **C15** (SrIndex, Count): the empty pattern covers every suffix-array position. -/
theorem c15_srindex_count_empty (T sa : List Nat) (hT : IsText T) (hsa : IsSA T sa) (s : Nat) :
    ∃ I, SrIndex.build T sa s = some I ∧ I.count [] = some (0, T.length) := by
  obtain ⟨I, T', K, hb, ok, -, hc, -⟩ := SrIndex.build_ok hT hsa s
  exact ⟨I, hb, ok.countEmptyWith hc _⟩

/-- **C15** violated (SrIndex, Locate): Locate of the empty pattern faults, for every text. -/
theorem c15_srindex_locate_empty_violation (T sa : List Nat) (hT : IsText T) (hsa : IsSA T sa) (s : Nat) :
    ∃ I, SrIndex.build T sa s = some I ∧ I.locate [] = none := by
  obtain ⟨I, T', K, hb, ok, -, hc, -⟩ := SrIndex.build_ok hT hsa s
  exact ⟨I, hb, ok.locateEmptyWith _⟩

/-- **C37** (SrIndex): Locate returns exactly as many values as Count's range is wide; both terminate without fault. -/
theorem c37_srindex_length (T sa : List Nat) (hT : IsText T) (hsa : IsSA T sa) (s : Nat) :
    ∃ I, SrIndex.build T sa s = some I ∧ LocateLength I.count I.locate T := by
  obtain ⟨I, hb, h⟩ := srindex_exact hT hsa s
  exact ⟨I, hb, h.locateLength List.reverse_perm⟩

/-- **C39** (SrIndex): positions are reported from the last suffix-array position of the range to the first. -/
theorem c39_srindex_order (T sa : List Nat) (hT : IsText T) (hsa : IsSA T sa) (s : Nat) :
    ∃ I, SrIndex.build T sa s = some I ∧ LocateDown I.count I.locate T sa := by
  obtain ⟨I, hb, h⟩ := srindex_exact hT hsa s
  exact ⟨I, hb, h.down⟩

/-! ## SrIndexValidMark -/

theorem validmark_exact {T sa : List Nat} (hT : IsText T) (hsa : IsSA T sa) (s : Nat) :
    ∃ I, SrIndexValid.build T sa s = some I ∧ Exact I.countMark I.locateMark T sa List.reverse := by
  obtain ⟨I, T', K, V, hb, ok, -, hc⟩ := SrIndexValid.build_ok hT hsa s
  exact ⟨I, hb, ok.sr.exactWith hc (ok.phiForRange_eq ok.phiOK_mark ok.phiValid_mark)⟩

/-- **C01** (SrIndexValidMark): the width of the range is the number of occurrences. -/
theorem c01_validmark_count (T sa : List Nat) (hT : IsText T) (hsa : IsSA T sa) (s : Nat) :
    ∃ I, SrIndexValid.build T sa s = some I ∧ CountExact I.countMark T := by
  obtain ⟨I, hb, h⟩ := validmark_exact hT hsa s
  exact ⟨I, hb, h.countExact⟩

/-- **C02** (SrIndexValidMark): the range is the suffix-array interval of the pattern. -/
theorem c02_validmark_interval (T sa : List Nat) (hT : IsText T) (hsa : IsSA T sa) (s : Nat) :
    ∃ I, SrIndexValid.build T sa s = some I ∧ CountInterval I.countMark T sa := by
  obtain ⟨I, hb, h⟩ := validmark_exact hT hsa s
  exact ⟨I, hb, h.countInterval⟩

/-- **C07**: SrIndexValidMark::Locate returns every starting position exactly once and nothing else, whatever the rate. -/
theorem c07_validmark_locate (T sa : List Nat) (hT : IsText T) (hsa : IsSA T sa) (s : Nat) :
    ∃ I, SrIndexValid.build T sa s = some I ∧ LocateExact I.locateMark T := by
  obtain ⟨I, hb, h⟩ := validmark_exact hT hsa s
  exact ⟨I, hb, h.locateExact List.reverse_perm⟩

example : (SrIndexValid.build exText exSA 1).bind (·.locateMark [1,2]) = some [0, 3, 8, 6] := by decide +kernel
example : (SrIndexValid.build exText exSA 3).bind (·.locateMark [2]) = some [1, 4, 9, 7] := by decide +kernel
example : (SrIndexValid.build exText exSA 6).bind (·.locateMark [2,3]) = some [1, 4, 9] := by decide +kernel
example : (SrIndexValid.build exText exSA 100).bind (·.locateMark [1]) = some [0, 3, 8, 6] := by decide +kernel
example : (SrIndexValid.build exText exSA 6).bind (·.countMark [2,3]) = some (6, 9) := by decide +kernel

/-- **C14** violated (SrIndexValidMark): an absent character is looked up as the terminator. -/
theorem c14_validmark_absent_violation (T sa : List Nat) (hT : IsText T) (hsa : IsSA T sa) (s : Nat) :
    ∃ I, SrIndexValid.build T sa s = some I ∧ AbsentAnswered I.countMark I.locateMark T := by
  obtain ⟨I, T', K, V, hb, ok, -, hc⟩ := SrIndexValid.build_ok hT hsa s
  exact ⟨I, hb, ok.sr.absentWith hc (g := (I.phiForRange I.phiMark)) (fun _ => rfl)⟩

example : (SrIndexValid.build exText exSA 6).bind (·.locateMark [9]) = some [11] := by decide +kernel

/-- **C14** (SrIndexValidMark), the part that holds; see `c14_rindex_absent_partial` for what is missing. -/
theorem c14_validmark_absent_partial (T sa : List Nat) (hT : IsText T) (hsa : IsSA T sa) (s : Nat) :
    ∃ I, SrIndexValid.build T sa s = some I ∧ AbsentEmpty I.countMark T := by
  obtain ⟨I, T', K, V, hb, ok, -, hc⟩ := SrIndexValid.build_ok hT hsa s
  exact ⟨I, hb, absentEmpty hc (F := I.sr.functorsWith (I.phiForRange I.phiMark)) rfl (ok.sr.nav.backSearchOf (SrIndex.navigates _ _))⟩

/-- **C15** (SrIndexValidMark, Count): the empty pattern covers every suffix-array position. -/
theorem c15_validmark_count_empty (T sa : List Nat) (hT : IsText T) (hsa : IsSA T sa) (s : Nat) :
    ∃ I, SrIndexValid.build T sa s = some I ∧ I.countMark [] = some (0, T.length) := by
  obtain ⟨I, T', K, V, hb, ok, -, hc⟩ := SrIndexValid.build_ok hT hsa s
  exact ⟨I, hb, ok.sr.countEmptyWith hc _⟩

/-- **C15** violated (SrIndexValidMark, Locate): Locate of the empty pattern faults, for every text. -/
theorem c15_validmark_locate_empty_violation (T sa : List Nat) (hT : IsText T) (hsa : IsSA T sa) (s : Nat) :
    ∃ I, SrIndexValid.build T sa s = some I ∧ I.locateMark [] = none := by
  obtain ⟨I, T', K, V, hb, ok, -, hc⟩ := SrIndexValid.build_ok hT hsa s
  exact ⟨I, hb, ok.sr.locateEmptyWith _⟩

/-- **C37** (SrIndexValidMark): Locate returns exactly as many values as Count's range is wide; both terminate without fault. -/
theorem c37_validmark_length (T sa : List Nat) (hT : IsText T) (hsa : IsSA T sa) (s : Nat) :
    ∃ I, SrIndexValid.build T sa s = some I ∧ LocateLength I.countMark I.locateMark T := by
  obtain ⟨I, hb, h⟩ := validmark_exact hT hsa s
  exact ⟨I, hb, h.locateLength List.reverse_perm⟩

/-- **C39** (SrIndexValidMark): positions are reported from the last suffix-array position of the range to the first. -/
theorem c39_validmark_order (T sa : List Nat) (hT : IsText T) (hsa : IsSA T sa) (s : Nat) :
    ∃ I, SrIndexValid.build T sa s = some I ∧ LocateDown I.countMark I.locateMark T sa := by
  obtain ⟨I, hb, h⟩ := validmark_exact hT hsa s
  exact ⟨I, hb, h.down⟩

/-! ## SrIndexValidArea -/

theorem validarea_exact {T sa : List Nat} (hT : IsText T) (hsa : IsSA T sa) (s : Nat) :
    ∃ I, SrIndexValid.build T sa s = some I ∧ Exact I.countArea I.locateArea T sa List.reverse := by
  obtain ⟨I, T', K, V, hb, ok, -, hc⟩ := SrIndexValid.build_ok hT hsa s
  exact ⟨I, hb, ok.sr.exactWith hc (ok.phiForRange_eq ok.phiOK_area ok.phiValid_area)⟩

/-- **C01** (SrIndexValidArea): the width of the range is the number of occurrences. -/
theorem c01_validarea_count (T sa : List Nat) (hT : IsText T) (hsa : IsSA T sa) (s : Nat) :
    ∃ I, SrIndexValid.build T sa s = some I ∧ CountExact I.countArea T := by
  obtain ⟨I, hb, h⟩ := validarea_exact hT hsa s
  exact ⟨I, hb, h.countExact⟩

/-- **C02** (SrIndexValidArea): the range is the suffix-array interval of the pattern. -/
theorem c02_validarea_interval (T sa : List Nat) (hT : IsText T) (hsa : IsSA T sa) (s : Nat) :
    ∃ I, SrIndexValid.build T sa s = some I ∧ CountInterval I.countArea T sa := by
  obtain ⟨I, hb, h⟩ := validarea_exact hT hsa s
  exact ⟨I, hb, h.countInterval⟩

/-- **C08**: SrIndexValidArea::Locate returns every starting position exactly once and nothing else, whatever the rate. -/
theorem c08_validarea_locate (T sa : List Nat) (hT : IsText T) (hsa : IsSA T sa) (s : Nat) :
    ∃ I, SrIndexValid.build T sa s = some I ∧ LocateExact I.locateArea T := by
  obtain ⟨I, hb, h⟩ := validarea_exact hT hsa s
  exact ⟨I, hb, h.locateExact List.reverse_perm⟩

example : (SrIndexValid.build exText exSA 1).bind (·.locateArea [1,2]) = some [0, 3, 8, 6] := by decide +kernel
example : (SrIndexValid.build exText exSA 3).bind (·.locateArea [2]) = some [1, 4, 9, 7] := by decide +kernel
example : (SrIndexValid.build exText exSA 6).bind (·.locateArea [2,3]) = some [1, 4, 9] := by decide +kernel
example : (SrIndexValid.build exText exSA 100).bind (·.locateArea [1]) = some [0, 3, 8, 6] := by decide +kernel
example : (SrIndexValid.build exText exSA 6).bind (·.countArea [2,3]) = some (6, 9) := by decide +kernel

/-- **C14** violated (SrIndexValidArea): an absent character is looked up as the terminator. -/
theorem c14_validarea_absent_violation (T sa : List Nat) (hT : IsText T) (hsa : IsSA T sa) (s : Nat) :
    ∃ I, SrIndexValid.build T sa s = some I ∧ AbsentAnswered I.countArea I.locateArea T := by
  obtain ⟨I, T', K, V, hb, ok, -, hc⟩ := SrIndexValid.build_ok hT hsa s
  exact ⟨I, hb, ok.sr.absentWith hc (g := (I.phiForRange I.phiArea)) (fun _ => rfl)⟩

example : (SrIndexValid.build exText exSA 6).bind (·.locateArea [9]) = some [11] := by decide +kernel

/-- **C14** (SrIndexValidArea), the part that holds; see `c14_rindex_absent_partial` for what is missing. -/
theorem c14_validarea_absent_partial (T sa : List Nat) (hT : IsText T) (hsa : IsSA T sa) (s : Nat) :
    ∃ I, SrIndexValid.build T sa s = some I ∧ AbsentEmpty I.countArea T := by
  obtain ⟨I, T', K, V, hb, ok, -, hc⟩ := SrIndexValid.build_ok hT hsa s
  exact ⟨I, hb, absentEmpty hc (F := I.sr.functorsWith (I.phiForRange I.phiArea)) rfl (ok.sr.nav.backSearchOf (SrIndex.navigates _ _))⟩

/-- **C15** (SrIndexValidArea, Count): the empty pattern covers every suffix-array position. -/
theorem c15_validarea_count_empty (T sa : List Nat) (hT : IsText T) (hsa : IsSA T sa) (s : Nat) :
    ∃ I, SrIndexValid.build T sa s = some I ∧ I.countArea [] = some (0, T.length) := by
  obtain ⟨I, T', K, V, hb, ok, -, hc⟩ := SrIndexValid.build_ok hT hsa s
  exact ⟨I, hb, ok.sr.countEmptyWith hc _⟩

/-- **C15** violated (SrIndexValidArea, Locate): Locate of the empty pattern faults, for every text. -/
theorem c15_validarea_locate_empty_violation (T sa : List Nat) (hT : IsText T) (hsa : IsSA T sa) (s : Nat) :
    ∃ I, SrIndexValid.build T sa s = some I ∧ I.locateArea [] = none := by
  obtain ⟨I, T', K, V, hb, ok, -, hc⟩ := SrIndexValid.build_ok hT hsa s
  exact ⟨I, hb, ok.sr.locateEmptyWith _⟩

/-- **C37** (SrIndexValidArea): Locate returns exactly as many values as Count's range is wide; both terminate without fault. -/
theorem c37_validarea_length (T sa : List Nat) (hT : IsText T) (hsa : IsSA T sa) (s : Nat) :
    ∃ I, SrIndexValid.build T sa s = some I ∧ LocateLength I.countArea I.locateArea T := by
  obtain ⟨I, hb, h⟩ := validarea_exact hT hsa s
  exact ⟨I, hb, h.locateLength List.reverse_perm⟩

/-- **C39** (SrIndexValidArea): positions are reported from the last suffix-array position of the range to the first. -/
theorem c39_validarea_order (T sa : List Nat) (hT : IsText T) (hsa : IsSA T sa) (s : Nat) :
    ∃ I, SrIndexValid.build T sa s = some I ∧ LocateDown I.countArea I.locateArea T sa := by
  obtain ⟨I, hb, h⟩ := validarea_exact hT hsa s
  exact ⟨I, hb, h.down⟩

/-- **C18** (SrIndex family): whenever the search over a pattern ends in a non-empty range, the toehold computed from the recorded step,
    by walking to the nearest kept sample, is the suffix-array entry of the last position of the range. -/
theorem c18_srindex_toehold (T sa : List Nat) (hT : IsText T) (hsa : IsSA T sa) (s : Nat) :
    ∃ I, SrIndex.build T sa s = some I ∧ ∀ P, IsPattern P T →
      ∃ r d, I.functors.locateLoop P.reverse { start := 0, stop := T.length }
          { step := 0, run := { c := 0, lastRunRnk := 0, isRunEnd := false, nextPos := 0 } } = some (r, d) ∧
        IsInterval P T sa r.start r.stop ∧ (r.start < r.stop → I.toehold d = sa[r.stop - 1]?) := by
  obtain ⟨I, T', K, hb, ok, -, hc, -⟩ := SrIndex.build_ok hT hsa s
  refine ⟨I, hb, fun P hP => ?_⟩
  have := ok.nav.toehold_search hc (SrIndex.navigates I I.phiForRange) rfl SrIndex.creates rfl (fun _ => rfl)
    (toehold := I.toehold) (fun _ _ _ h1 h2 => ok.toehold_eq h1 h2) hP 0
  have hn : I.base.n = T.length := by rw [ok.nav.n, hc.len]
  simp only [SrIndex.functorsWith, hn] at this
  simp only [SrIndex.functors, SrIndex.functorsWith, hn]
  exact this

/-- **C18** (SrIndexValidMark): the same over the search of this class. -/
theorem c18_validmark_toehold (T sa : List Nat) (hT : IsText T) (hsa : IsSA T sa) (s : Nat) :
    ∃ I, SrIndexValid.build T sa s = some I ∧ ∀ P, IsPattern P T →
      ∃ r d, I.functorsMark.locateLoop P.reverse { start := 0, stop := T.length }
          { step := 0, run := { c := 0, lastRunRnk := 0, isRunEnd := false, nextPos := 0 } } = some (r, d) ∧
        IsInterval P T sa r.start r.stop ∧ (r.start < r.stop → I.sr.toehold d = sa[r.stop - 1]?) := by
  obtain ⟨I, T', K, V, hb, ok, -, hc⟩ := SrIndexValid.build_ok hT hsa s
  refine ⟨I, hb, fun P hP => ?_⟩
  have := ok.sr.nav.toehold_search hc (SrIndex.navigates I.sr (I.phiForRange I.phiMark)) rfl SrIndex.creates rfl (fun _ => rfl)
    (toehold := I.sr.toehold) (fun _ _ _ h1 h2 => ok.sr.toehold_eq h1 h2) hP 0
  have hn : I.sr.base.n = T.length := by rw [ok.sr.nav.n, hc.len]
  simp only [SrIndex.functorsWith, hn] at this
  simp only [SrIndexValid.functorsMark, SrIndex.functorsWith, hn]
  exact this

/-- **C18** (SrIndexValidArea): the same over the search of this class. -/
theorem c18_validarea_toehold (T sa : List Nat) (hT : IsText T) (hsa : IsSA T sa) (s : Nat) :
    ∃ I, SrIndexValid.build T sa s = some I ∧ ∀ P, IsPattern P T →
      ∃ r d, I.functorsArea.locateLoop P.reverse { start := 0, stop := T.length }
          { step := 0, run := { c := 0, lastRunRnk := 0, isRunEnd := false, nextPos := 0 } } = some (r, d) ∧
        IsInterval P T sa r.start r.stop ∧ (r.start < r.stop → I.sr.toehold d = sa[r.stop - 1]?) := by
  obtain ⟨I, T', K, V, hb, ok, -, hc⟩ := SrIndexValid.build_ok hT hsa s
  refine ⟨I, hb, fun P hP => ?_⟩
  have := ok.sr.nav.toehold_search hc (SrIndex.navigates I.sr (I.phiForRange I.phiArea)) rfl SrIndex.creates rfl (fun _ => rfl)
    (toehold := I.sr.toehold) (fun _ _ _ h1 h2 => ok.sr.toehold_eq h1 h2) hP 0
  have hn : I.sr.base.n = T.length := by rw [ok.sr.nav.n, hc.len]
  simp only [SrIndex.functorsWith, hn] at this
  simp only [SrIndexValid.functorsArea, SrIndex.functorsWith, hn]
  exact this

/-- **C20**: for every text position `v` with a predecessor, if the sub-sampled phi of SrIndexValidMark answers that its value can be
    trusted, the value is the one the full r-index gives. -/
theorem c20_validmark_phi (T sa : List Nat) (hT : IsText T) (hsa : IsSA T sa) (s : Nat) :
    ∃ I R, SrIndexValid.build T sa s = some I ∧ RIndex.build T sa = some R ∧ ∀ v, v < T.length - 1 →
      ∃ w ok, I.phiMark v = some (w, ok) ∧ (ok = true → R.phi v = some (w, true)) := by
  obtain ⟨I, T', K, V, hb, ok, -, hc⟩ := SrIndexValid.build_ok hT hsa s
  obtain ⟨R, T'', hR, okR, hcR⟩ := RIndex.build_ok hT hsa
  refine ⟨I, R, hb, hR, fun v hv => ?_⟩
  obtain ⟨i, h1, hi, rfl⟩ := exists_pos_of_value hT hsa hv
  obtain ⟨w, okm, oka, e1, -, e3, -, -, -⟩ := ok.phi_spec h1 (by rw [hc.len]; exact hi)
  refine ⟨w, okm, e1, fun h => ?_⟩
  rw [e3 h]
  exact okR.phi_eq h1 (by rw [hcR.len]; exact hi)

/-- **C20**: the same for SrIndexValidArea, which trusts an untrusted mark up to the distance stored for it. -/
theorem c20_validarea_phi (T sa : List Nat) (hT : IsText T) (hsa : IsSA T sa) (s : Nat) :
    ∃ I R, SrIndexValid.build T sa s = some I ∧ RIndex.build T sa = some R ∧ ∀ v, v < T.length - 1 →
      ∃ w ok, I.phiArea v = some (w, ok) ∧ (ok = true → R.phi v = some (w, true)) := by
  obtain ⟨I, T', K, V, hb, ok, -, hc⟩ := SrIndexValid.build_ok hT hsa s
  obtain ⟨R, T'', hR, okR, hcR⟩ := RIndex.build_ok hT hsa
  refine ⟨I, R, hb, hR, fun v hv => ?_⟩
  obtain ⟨i, h1, hi, rfl⟩ := exists_pos_of_value hT hsa hv
  obtain ⟨w, okm, oka, -, e2, -, e4, -, -⟩ := ok.phi_spec h1 (by rw [hc.len]; exact hi)
  refine ⟨w, oka, e2, fun h => ?_⟩
  rw [e4 h]
  exact okR.phi_eq h1 (by rw [hcR.len]; exact hi)

/-- **C20**: the area version trusts at least what the mark version trusts, with the same value. -/
theorem c20_area_extends_mark (T sa : List Nat) (hT : IsText T) (hsa : IsSA T sa) (s : Nat) :
    ∃ I, SrIndexValid.build T sa s = some I ∧ ∀ v, v < T.length - 1 → ∀ w, I.phiMark v = some (w, true) → I.phiArea v = some (w, true) := by
  obtain ⟨I, T', K, V, hb, ok, -, hc⟩ := SrIndexValid.build_ok hT hsa s
  refine ⟨I, hb, fun v hv w hw => ?_⟩
  obtain ⟨i, h1, hi, rfl⟩ := exists_pos_of_value hT hsa hv
  obtain ⟨w', okm, oka, e1, e2, -, -, -, e6⟩ := ok.phi_spec h1 (by rw [hc.len]; exact hi)
  rw [hw, Option.some_inj, Prod.mk.injEq] at e1
  obtain ⟨rfl, rfl⟩ := e1
  rw [e2, e6 rfl]

-- one position whose value is trusted and one whose value is not, and is wrong
example : (SrIndexValid.build exText exSA 6).bind (·.phiMark 4) = some (9, true) := by decide +kernel
example : (SrIndexValid.build exText exSA 6).bind (·.phiMark 8) = some (1, false) := by decide +kernel
example : (RIndex.build exText exSA).bind (·.phi 8) = some (6, true) := by decide +kernel

end Sri
