import Verif.Proofs.Legacy
import Verif.Props.SrIndex
/-! # Properties of the functors over inclusive ranges

`ByteText T`: a text of bytes that uses neither 1 (rle_string holds the terminator as 1) nor 255 (the F array has 256 entries). -/
namespace Sri
set_option autoImplicit false

/-- a text of bytes, ended by the terminator, without the bytes 1 and 255 -/
def ByteText (T : List Nat) : Prop := IsText T ∧ 1 ∉ T ∧ ∀ c ∈ T, c < 255

/-- a non-empty pattern of bytes other than the terminator; its characters need not be in the text -/
def BytePattern (P : List Nat) : Prop := P ≠ [] ∧ ∀ c ∈ P, c ≠ 0 ∧ c < 256

/-- Count answers with the first and last suffix-array position of the pattern, and with `(1, 0)` if it does not occur. -/
def CountInclusive (count : List Nat → Option (Nat × Nat)) (T sa : List Nat) : Prop :=
  ∀ P, BytePattern P → ∃ a b, IsInterval P T sa a b ∧ count P = some (if a < b then (a, b - 1) else (1, 0))

/-- Locate lists the suffix-array entries of the pattern's interval, from the last to the first, and they are its occurrences. -/
def LocateInclusive (locate : List Nat → Option (List Nat)) (T sa : List Nat) : Prop :=
  ∀ P, BytePattern P → ∃ a b, IsInterval P T sa a b ∧ locate P = some (saSlice sa a b).reverse ∧ ((saSlice sa a b).reverse).Perm (occurrences P T)

theorem LegacyIndex.OK.inclusive {I : LegacyIndex} {T sa K : List Nat} (h : I.OK T sa K) {g : Nat × Nat → Nat → Option (List Nat)}
    (hg : ∀ a b, 1 ≤ a → a ≤ b → b < T.length → g (a, b - 1) (saAt sa b) = some (down sa a (b - a))) :
    CountInclusive (I.functors g).count T sa ∧ LocateInclusive (I.functors g).locate T sa := by
  constructor
  · intro P hP
    obtain ⟨a, b, e1, e2, -⟩ := h.search hg hP.1 hP.2
    exact ⟨a, b, (range_iff_interval h.seq.isSA).2 e1, e2⟩
  · intro P hP
    obtain ⟨a, b, e1, -, e3⟩ := h.search hg hP.1 hP.2
    have hb := e1.2.1
    refine ⟨a, b, (range_iff_interval h.seq.isSA).2 e1, by rw [e3, valuesDown_eq h.seq.isSA hb], ?_⟩
    rw [saSlice_eq h.seq.isSA hb]
    exact (List.reverse_perm _).trans (values_perm h.seq.isSA hP.1 e1)

/-- **C49**: an index put together from the functors over inclusive ranges, rle_string of any block size, the F array and the items of a
    sub-sampled index of any rate: the three ways of reporting a range (links without validity, trusted marks, trusted areas) all build, and
    answer Count and Locate exactly for every byte pattern, also with characters the text does not have. -/
theorem c49_legacy_exact (T sa : List Nat) (hT : ByteText T) (hsa : IsSA T sa) (s B : Nat) (hB : 1 ≤ B) :
    ∃ I, LegacyIndex.build T sa s B = some I ∧
      (CountInclusive I.sampled.count T sa ∧ LocateInclusive I.sampled.locate T sa) ∧
      (CountInclusive I.trustedMarks.count T sa ∧ LocateInclusive I.trustedMarks.locate T sa) ∧
      (CountInclusive I.trustedAreas.count T sa ∧ LocateInclusive I.trustedAreas.locate T sa) := by
  obtain ⟨I, K, hb, ok, -⟩ := LegacyIndex.build_ok hT.1 hsa hT.2.1 hT.2.2 s hB
  exact ⟨I, hb, ok.inclusive ok.simple_all, ok.inclusive (ok.report_all ok.phiMark ok.validMark),
    ok.inclusive (ok.report_all ok.phiArea ok.validArea)⟩

/-- exText without the byte 1 -/
def exByteText : List Nat := [2,3,4,2,3,4,2,3,2,3,4,0]

example : ByteText exByteText := ⟨⟨[2,3,4,2,3,4,2,3,2,3,4], by decide, by decide⟩, by decide, by decide⟩
example : (LegacyIndex.build exByteText exSA 3 2).bind (·.sampled.locate [2,3]) = some [0, 3, 8, 6] := by decide +kernel
example : (LegacyIndex.build exByteText exSA 6 1).bind (·.trustedMarks.locate [3]) = some [1, 4, 9, 7] := by decide +kernel
example : (LegacyIndex.build exByteText exSA 6 3).bind (·.trustedAreas.locate [3,4]) = some [1, 4, 9] := by decide +kernel
example : (LegacyIndex.build exByteText exSA 6 3).bind (·.trustedAreas.count [3,4]) = some (6, 8) := by decide +kernel
example : (LegacyIndex.build exByteText exSA 6 3).bind (·.trustedMarks.count [3,7]) = some (1, 0) := by decide +kernel
example : (LegacyIndex.build exByteText exSA 6 3).bind (·.trustedMarks.locate [1]) = some [] := by decide +kernel

/-- **C49** (the range reporters on their own, as test/phi_tests.cpp calls them): for every range of suffix-array positions `[a, b]` below the
    last one, not only ranges of patterns, and the entry after it, each reporter lists the entries of the range from the last to the first. -/
theorem c49_range_report (T sa : List Nat) (hT : ByteText T) (hsa : IsSA T sa) (s B : Nat) (hB : 1 ≤ B) :
    ∃ I, LegacyIndex.build T sa s B = some I ∧ ∀ a b v, 1 ≤ a → a ≤ b → sa[b+1]? = some v →
      (I.closed I.items.sr.base.phi).reportSimple (a, b) v = some (saSlice sa a (b+1)).reverse ∧
      (I.closed I.items.phiMark).report (a, b) v = some (saSlice sa a (b+1)).reverse ∧
      (I.closed I.items.phiArea).report (a, b) v = some (saSlice sa a (b+1)).reverse := by
  obtain ⟨I, K, hb, ok, -⟩ := LegacyIndex.build_ok hT.1 hsa hT.2.1 hT.2.2 s hB
  refine ⟨I, hb, ?_⟩
  intro a b v h1 hab hv
  have hlt : b + 1 < T.length := by rw [← hsa.length]; exact (List.getElem?_eq_some_iff.1 hv).1
  have hv' : v = saAt sa (b+1) := by rw [saAt, List.getD_eq_getElem?_getD, hv]; rfl
  subst hv'
  have e : some (saSlice sa a (b+1)).reverse = some (down sa a (b + 1 - a)) := by
    rw [← valuesDown_eq hsa (by omega)]; rfl
  rw [e]
  have g1 := ok.simple_all a (b+1) h1 (by omega) hlt
  have g2 := ok.report_all ok.phiMark ok.validMark a (b+1) h1 (by omega) hlt
  have g3 := ok.report_all ok.phiArea ok.validArea a (b+1) h1 (by omega) hlt
  rw [Nat.add_sub_cancel] at g1 g2 g3
  exact ⟨g1, g2, g3⟩

example : (LegacyIndex.build exByteText exSA 3 2).bind (fun I => (I.closed I.items.phiMark).report (2, 9) 5) = some (saSlice exSA 2 10).reverse := by
  decide +kernel
example : (LegacyIndex.build exByteText exSA 5 2).bind (fun I => (I.closed I.items.sr.base.phi).reportSimple (1, 10) 2) =
    some [5, 10, 1, 4, 9, 7, 0, 3, 8, 6] := by decide +kernel

/-- **C49** (single values): the value functor over the sampled runs answers every suffix-array position. -/
theorem c49_value_exact (T sa : List Nat) (hT : ByteText T) (hsa : IsSA T sa) (s B : Nat) (hB : 1 ≤ B) :
    ∃ I, LegacyIndex.build T sa s B = some I ∧ ∀ i, i < T.length → I.saValue i = sa[i]? := by
  obtain ⟨I, K, hb, ok, -⟩ := LegacyIndex.build_ok hT.1 hsa hT.2.1 hT.2.2 s hB
  refine ⟨I, hb, fun i hi => ?_⟩
  have hl : i < sa.length := by rw [hsa.length]; exact hi
  rw [ok.saValue_eq hi, List.getElem?_eq_getElem hl, saAt, List.getD_eq_getElem?_getD, List.getElem?_eq_getElem hl]; rfl

example : (LegacyIndex.build exByteText exSA 5 2).bind (fun I => (List.range 12).mapM I.saValue) = some exSA := by decide +kernel

/-! ## one sample per run: GetLastValue -/

/-- **C50** (partial): GetLastValue followed along the search, its result handed to the next call, gives the suffix-array entry at the end of
    the range; so with that composition Count and Locate are exact for every byte pattern. Missing: RIndexBase does not compose them so. -/
theorem c50_last_value_partial (T sa : List Nat) (hT : ByteText T) (hsa : IsSA T sa) (B : Nat) (hB : 1 ≤ B) :
    ∃ I, LegacyRIndex.build T sa B = some I ∧ CountInclusive I.keeping.count T sa ∧ LocateInclusive I.keeping.locate T sa := by
  obtain ⟨I, hb, ok⟩ := LegacyRIndex.build_ok hT.1 hsa hT.2.1 hT.2.2 hB
  refine ⟨I, hb, ?_, ?_⟩
  · intro P hP
    obtain ⟨a, b, e1, e2, -⟩ := ok.keeping_search hP.1 hP.2
    exact ⟨a, b, (range_iff_interval hsa).2 e1, e2⟩
  · intro P hP
    obtain ⟨a, b, e1, -, e3⟩ := ok.keeping_search hP.1 hP.2
    have hb := e1.2.1
    refine ⟨a, b, (range_iff_interval hsa).2 e1, by rw [e3, valuesDown_eq hsa hb], ?_⟩
    rw [saSlice_eq hsa hb]
    exact (List.reverse_perm _).trans (values_perm hsa hP.1 e1)

example : (LegacyRIndex.build exByteText exSA 2).bind (·.keeping.locate [2,3]) = some [0, 3, 8, 6] := by decide +kernel

/-- **C50** violated: RIndexBase drops the result of GetLastValue. The value stays that of the last suffix, so Locate lists the last entries of
    the suffix array, as many as the pattern has occurrences, whatever the pattern is; Count is not affected. -/
theorem c50_dropped_value_violation (T sa : List Nat) (hT : ByteText T) (hsa : IsSA T sa) (hz : sa[T.length - 1]? ≠ some 0) (B : Nat) (hB : 1 ≤ B) :
    ∃ I, LegacyRIndex.build T sa B = some I ∧ CountInclusive I.functors.count T sa ∧
      ∀ P, BytePattern P → ∃ a b, IsInterval P T sa a b ∧ I.functors.locate P = some (saSlice sa (T.length - (b - a)) T.length).reverse := by
  obtain ⟨I, hb, ok⟩ := LegacyRIndex.build_ok hT.1 hsa hT.2.1 hT.2.2 hB
  have hn := hT.1.pos
  have hz' : 0 < saAt sa (T.length - 1) := by
    have hl : T.length - 1 < sa.length := by rw [hsa.length]; omega
    rw [List.getElem?_eq_getElem hl] at hz
    rw [saAt, List.getD_eq_getElem?_getD, List.getElem?_eq_getElem hl]
    simp only [ne_eq, Option.some_inj] at hz
    simp only [Option.getD_some]
    omega
  refine ⟨I, hb, ?_, ?_⟩
  · intro P hP
    obtain ⟨a, b, e1, e2, -⟩ := ok.dropped_search hP.1 hP.2 hz'
    exact ⟨a, b, (range_iff_interval hsa).2 e1, e2⟩
  · intro P hP
    obtain ⟨a, b, e1, -, e3⟩ := ok.dropped_search hP.1 hP.2 hz'
    exact ⟨a, b, (range_iff_interval hsa).2 e1, by rw [e3, valuesDown_eq hsa (Nat.le_refl _)]⟩

example : exSA[exByteText.length - 1]? ≠ some 0 := by decide
example : (LegacyRIndex.build exByteText exSA 2).bind (·.functors.locate [2,3]) = some [2, 5, 10, 1] := by decide +kernel
example : occurrences [2,3] exByteText = [0, 3, 6, 8] := by decide +kernel

/-- **C50** violated, the consequence: the answer is wrong for every pattern whose interval is not the last one of the suffix array. -/
theorem c50_dropped_value_wrong (T sa : List Nat) (hT : ByteText T) (hsa : IsSA T sa) (hz : sa[T.length - 1]? ≠ some 0) (B : Nat) (hB : 1 ≤ B) :
    ∃ I, LegacyRIndex.build T sa B = some I ∧ ∀ P a b, BytePattern P → IsInterval P T sa a b → a < b → b < T.length →
      ∀ l, I.functors.locate P = some l → ¬ l.Perm (occurrences P T) := by
  obtain ⟨I, hb, -, hloc⟩ := c50_dropped_value_violation T sa hT hsa hz B hB
  refine ⟨I, hb, ?_⟩
  intro P a b hP hi hab hbn l hl hperm
  obtain ⟨a', b', hi', e⟩ := hloc P hP
  have hr := (range_iff_interval hsa).1 hi
  have hr' := (range_iff_interval hsa).1 hi'
  have hb' := hr'.2.1
  have hn := hT.1.pos
  -- the two intervals are the same
  have ea := (hr'.2.2 a).1 ((hr.2.2 a).2 ⟨Nat.le_refl _, hab⟩)
  have ea' := (hr.2.2 a').1 ((hr'.2.2 a').2 ⟨Nat.le_refl _, by omega⟩)
  -- the last suffix is listed but does not start with the pattern
  have hmem : saAt sa (T.length - 1) ∈ l := by
    rw [e] at hl
    obtain rfl := Option.some_inj.1 hl
    rw [List.mem_reverse, saSlice_eq hsa (Nat.le_refl _), valuesUp, List.mem_map]
    exact ⟨T.length - 1, by rw [List.mem_range'_1]; omega, rfl⟩
  have hocc := hperm.mem_iff.1 hmem
  have hmatch : MatchAt P T sa (T.length - 1) := by
    rw [occurrences, List.mem_filter] at hocc
    exact ⟨by omega, by simpa using hocc.2⟩
  have := (hr.2.2 _).1 hmatch
  omega

example : IsInterval [2,3] exByteText exSA 1 5 := by
  refine ⟨by decide, by decide, by decide +kernel⟩

/-- **C50** violated (out-of-range read): asked for a step on the range of all suffixes without a value, GetLastValue looks at the symbol after the
    last one, when the last symbol of the BWT is the character of the step. -/
theorem c50_read_past_end_violation (T sa : List Nat) (hT : ByteText T) (hsa : IsSA T sa) (B : Nat) (hB : 1 ≤ B) :
    ∃ I, LegacyRIndex.build T sa B = some I ∧ ∀ a x y c, x ≤ y → (bwtOf T sa)[T.length - 1]? = some c → c ≠ 0 →
      I.lastValue (a, T.length - 1) (x, y) c none = none := by
  obtain ⟨I, hb, ok⟩ := LegacyRIndex.build_ok hT.1 hsa hT.2.1 hT.2.2 hB
  refine ⟨I, hb, ?_⟩
  intro a x y c hxy hc h0
  have hn := hT.1.pos
  have hc' : bwtAt T sa (T.length - 1) = c := by
    rw [bwtOf_seq hsa, List.getElem?_map, List.getElem?_range (by omega)] at hc
    simpa using hc
  have hout : I.rle.access (T.length - 1 + 1) = none := by
    rw [show T.length - 1 + 1 = T.length by omega]
    rw [RleString.access]
    have : ¬ T.length < I.rle.n := by
      have := ok.seq.size; rw [RleString.size] at this; omega
    simp [assertC, this]
  rw [LegacyRIndex.lastValue.eq_def, if_neg (by dsimp only; omega), ok.seq.access (by dsimp only; omega)]
  simp only [Option.bind_eq_bind, Option.bind_some, LegacyIndex.symAt_eq h0 hc', if_true, hout, Option.bind_none]

example : (bwtOf exByteText exSA)[exByteText.length - 1]? = some 3 := by decide
example : (LegacyRIndex.build exByteText exSA 2).bind (fun I => I.lf (0, 11) 3) = some (5, 8) := by decide +kernel

end Sri
