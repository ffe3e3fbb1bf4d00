import Verif.Proofs.SrCSAValid
import Verif.Proofs.EmptyForw
import Verif.Props.RCSA
/-! # Properties of SrCSA, SrCSASlim, SrCSAWithPsiRun and their versions with validity marks and areas, for every rate `s`

The theorems hold for every `s`, including 0. `T.length < 2^64`: see Props/RCSA. -/
namespace Sri
set_option autoImplicit false

theorem exText_isText : IsText exText := ⟨[1,2,3,1,2,3,1,2,1,2,3], rfl, by decide⟩
theorem exSA_isSA : IsSA exText exSA := ⟨by decide, by decide⟩

/-- what is proved of every variant at once; the theorems below state the parts one by one -/
structure Answers (count : List Nat → Option (Nat × Nat)) (locate : List Nat → Option (List Nat)) (T sa : List Nat) : Prop where
  exact : Exact count locate T sa id
  absent : AbsentAnswered count locate T
  absentEmpty : AbsentEmpty count T
  countEmpty : count [] = some (0, T.length)

theorem SrCSA.OK.answers {I : SrCSA} {T sa T' K : List Nat} (h : I.OK T' sa K) {O : ForwOps} {Good : FRun → Prop} {den : FData → Nat → Prop}
    {Strong : FData → Prop} (ho : OpsOK O T' sa K Good den Strong) (hc : Compact T sa I.alphabet T') :
    Answers (I.functorsWith O (I.phiForRange O)).count (I.functorsWith O (I.phiForRange O)).locate T sa where
  exact := h.exact ho hc (fun _ _ h1 h2 h3 => h.rest ho h1 h2 h3)
  absent := h.absent ho hc (fun _ _ h1 h2 h3 => h.rest ho h1 h2 h3)
  absentEmpty := h.absentEmpty hc
  countEmpty := h.countEmpty hc

theorem SrCSAValid.OK.answers {I : SrCSAValid} {T sa T' K : List Nat} {V : List (Nat × Nat)} (h : I.OK T' sa K V) {O : ForwOps}
    {Good : FRun → Prop} {den : FData → Nat → Prop} {Strong : FData → Prop} (ho : SrCSA.OpsOK O T' sa K Good den Strong)
    (hc : Compact T sa I.csa.alphabet T') {phi : Nat → Option (Nat × Bool)} (hphi : PhiOKF T' sa I.csa.s (keptHd T' sa K) phi)
    (hv : PhiValidF T' sa phi) : Answers (I.functorsWith O phi).count (I.functorsWith O phi).locate T sa where
  exact := h.csa.exact ho hc (fun _ _ h1 h2 h3 => h.csa.restV ho hphi hv rfl h1 h2 h3)
  absent := h.csa.absent ho hc (fun _ _ h1 h2 h3 => h.csa.restV ho hphi hv rfl h1 h2 h3)
  absentEmpty := h.csa.absentEmpty hc
  countEmpty := h.csa.countEmpty hc

/-- **C18** for any variant -/
theorem SrCSA.OK.toehold_sound {I : SrCSA} {T sa T' K : List Nat} (h : I.OK T' sa K) {O : ForwOps} {Good : FRun → Prop}
    {den : FData → Nat → Prop} {Strong : FData → Prop} (ho : OpsOK O T' sa K Good den Strong) (hc : Compact T sa I.alphabet T')
    (g : Range → Nat → Option (List Nat)) {P : List Nat} (hP : IsPattern P T) :
    ∃ r d, (I.functorsWith O g).locateLoop P.reverse { start := 0, stop := I.n }
        { step := 0, run := { pos := 0, c := 0, rank := 0, isRunStart := false } } = some (r, d) ∧
      IsInterval P T sa r.start r.stop ∧ (r.start < r.stop → computeToehold (I.saValueOfRun O) I.n d = sa[r.start]?) :=
  h.nav.toehold_search hc (SrCSA.navigates I O g) rfl ho.creates rfl (fun _ => rfl) (fun _ _ _ h1 h2 => h.toehold_eq ho h1 h2) hP 0

/-! ## SrCSA -/

theorem srcsa_answers {T sa : List Nat} (hT : IsText T) (hsa : IsSA T sa) (hn : T.length < 2^64) (s : Nat) :
    ∃ I, SrCSA.build T sa s = some I ∧ Answers I.count I.locate T sa := by
  obtain ⟨I, T', K, hb, ok, st, -, hc⟩ := SrCSA.build_ok hT hsa (lt_W64 hn) s
  exact ⟨I, hb, ok.answers (ok.posOps st) hc⟩

/-- **C01** (SrCSA): the width of the range is the number of occurrences. -/
theorem c01_srcsa_count (T sa : List Nat) (hT : IsText T) (hsa : IsSA T sa) (hn : T.length < 2^64) (s : Nat) :
    ∃ I, SrCSA.build T sa s = some I ∧ CountExact I.count T := by
  obtain ⟨I, hb, h⟩ := srcsa_answers hT hsa hn s
  exact ⟨I, hb, h.exact.countExact⟩

/-- **C02** (SrCSA): the range is the suffix-array interval of the pattern. -/
theorem c02_srcsa_interval (T sa : List Nat) (hT : IsText T) (hsa : IsSA T sa) (hn : T.length < 2^64) (s : Nat) :
    ∃ I, SrCSA.build T sa s = some I ∧ CountInterval I.count T sa := by
  obtain ⟨I, hb, h⟩ := srcsa_answers hT hsa hn s
  exact ⟨I, hb, h.exact.countInterval⟩

/-- **C09**: SrCSA::Locate returns every starting position exactly once and nothing else, whatever the rate. -/
theorem c09_srcsa_locate (T sa : List Nat) (hT : IsText T) (hsa : IsSA T sa) (hn : T.length < 2^64) (s : Nat) :
    ∃ I, SrCSA.build T sa s = some I ∧ LocateExact I.locate T := by
  obtain ⟨I, hb, h⟩ := srcsa_answers hT hsa hn s
  exact ⟨I, hb, h.exact.locateExact List.Perm.refl⟩

example : (SrCSA.build exText exSA 1).bind (·.locate [1,2]) = some [6, 8, 3, 0] := by decide +kernel
example : (SrCSA.build exText exSA 3).bind (·.locate [2]) = some [7, 9, 4, 1] := by decide +kernel
example : (SrCSA.build exText exSA 6).bind (·.locate [2,3]) = some [9, 4, 1] := by decide +kernel
example : (SrCSA.build exText exSA 100).bind (·.locate [1]) = some [6, 8, 3, 0] := by decide +kernel
example : (SrCSA.build exText exSA 6).bind (·.count [2,3]) = some (6, 9) := by decide +kernel

/-- **C14** violated (SrCSA): an absent character is looked up as the terminator. -/
theorem c14_srcsa_absent_violation (T sa : List Nat) (hT : IsText T) (hsa : IsSA T sa) (hn : T.length < 2^64) (s : Nat) :
    ∃ I, SrCSA.build T sa s = some I ∧ AbsentAnswered I.count I.locate T := by
  obtain ⟨I, hb, h⟩ := srcsa_answers hT hsa hn s
  exact ⟨I, hb, h.absent⟩

example : (SrCSA.build exText exSA 6).bind (·.locate [9]) = some [11] := by decide +kernel

/-- **C14** (SrCSA), the part that holds; see `c14_rindex_absent_partial` for what is missing. -/
theorem c14_srcsa_absent_partial (T sa : List Nat) (hT : IsText T) (hsa : IsSA T sa) (hn : T.length < 2^64) (s : Nat) :
    ∃ I, SrCSA.build T sa s = some I ∧ AbsentEmpty I.count T := by
  obtain ⟨I, hb, h⟩ := srcsa_answers hT hsa hn s
  exact ⟨I, hb, h.absentEmpty⟩

/-- **C15** (SrCSA, Count): the empty pattern covers every suffix-array position. -/
theorem c15_srcsa_count_empty (T sa : List Nat) (hT : IsText T) (hsa : IsSA T sa) (hn : T.length < 2^64) (s : Nat) :
    ∃ I, SrCSA.build T sa s = some I ∧ I.count [] = some (0, T.length) := by
  obtain ⟨I, hb, h⟩ := srcsa_answers hT hsa hn s
  exact ⟨I, hb, h.countEmpty⟩

/-- **C15** violated (SrCSA, Locate), for every text of at least one character and every rate: Locate of the empty pattern reports as many
    values as there are positions, but one of them twice (the first value is the position before the terminator's, where the
    terminator's should be), hence not every position exactly once. -/
theorem c15_srcsa_locate_empty_violation (T sa : List Nat) (hT : IsText T) (hsa : IsSA T sa) (h2 : 2 ≤ T.length) (hn : T.length < 2^64)
    (s : Nat) (hs : 1 ≤ s) :
    ∃ I l, SrCSA.build T sa s = some I ∧ I.locate [] = some l ∧ l.length = T.length ∧ l.head? = some (T.length - 2) ∧ ¬ l.Nodup ∧
      ¬ l.Perm (List.range T.length) := by
  obtain ⟨I, T', K, hb, ok, st, he, hc⟩ := SrCSA.build_ok hT hsa (lt_W64 hn) s
  have hl := hc.len
  obtain ⟨l, e1, e2, e3, e4⟩ := ok.locate_empty (ok.posOps st) (by omega) (by omega)
    ((Classical.em (keptHd T' sa K 0)).elim (fun h => Or.inr ((st.getSamplePos ok.lt (show 0 < T'.length by omega)).1 h))
      (fun h => Or.inl ((st.getSamplePos ok.lt (show 0 < T'.length by omega)).2 h)))
  rw [hl] at e2 e3
  exact ⟨I, l, hb, e1, e2, e3, e4, fun hp => e4 (hp.nodup_iff.2 List.nodup_range)⟩

example : ∃ I l, SrCSA.build exText exSA 4 = some I ∧ I.locate [] = some l ∧ ¬ l.Perm (List.range exText.length) := by
  obtain ⟨I, l, h1, h2, -, -, -, h3⟩ := c15_srcsa_locate_empty_violation exText exSA exText_isText exSA_isSA (by decide) (by decide) 4 (by omega)
  exact ⟨I, l, h1, h2, h3⟩

/-- **C18** (SrCSA): whenever the search over a pattern ends in a non-empty range, the toehold computed from the recorded step, by
    walking to the nearest kept sample, is the suffix-array entry of the first position of the range. -/
theorem c18_srcsa_toehold (T sa : List Nat) (hT : IsText T) (hsa : IsSA T sa) (hn : T.length < 2^64) (s : Nat) :
    ∃ I, SrCSA.build T sa s = some I ∧ ∀ P, IsPattern P T →
      ∃ r d, (I.functorsWith I.posOps (I.phiForRange I.posOps)).locateLoop P.reverse { start := 0, stop := I.n }
          { step := 0, run := { pos := 0, c := 0, rank := 0, isRunStart := false } } = some (r, d) ∧
        IsInterval P T sa r.start r.stop ∧ (r.start < r.stop → computeToehold (I.saValueOfRun I.posOps) I.n d = sa[r.start]?) := by
  obtain ⟨I, T', K, hb, ok, st, -, hc⟩ := SrCSA.build_ok hT hsa (lt_W64 hn) s
  exact ⟨I, hb, fun P hP => ok.toehold_sound (ok.posOps st) hc _ hP⟩

/-- **C37** (SrCSA): Locate returns exactly as many values as Count's range is wide; both terminate without fault. -/
theorem c37_srcsa_length (T sa : List Nat) (hT : IsText T) (hsa : IsSA T sa) (hn : T.length < 2^64) (s : Nat) :
    ∃ I, SrCSA.build T sa s = some I ∧ LocateLength I.count I.locate T := by
  obtain ⟨I, hb, h⟩ := srcsa_answers hT hsa hn s
  exact ⟨I, hb, h.exact.locateLength List.Perm.refl⟩

/-- **C39** (SrCSA): positions are reported in the order of the suffix array. -/
theorem c39_srcsa_order (T sa : List Nat) (hT : IsText T) (hsa : IsSA T sa) (hn : T.length < 2^64) (s : Nat) :
    ∃ I, SrCSA.build T sa s = some I ∧ LocateUp I.count I.locate T sa := by
  obtain ⟨I, hb, h⟩ := srcsa_answers hT hsa hn s
  exact ⟨I, hb, h.exact.up⟩

/-! ## SrCSASlim -/

theorem srcsaslim_answers {T sa : List Nat} (hT : IsText T) (hsa : IsSA T sa) (hn : T.length < 2^64) (s : Nat) :
    ∃ I, SrCSA.buildSlim T sa s = some I ∧ Answers I.countSlim I.locateSlim T sa := by
  obtain ⟨I, T', K, hb, ok, st, -, hc⟩ := SrCSA.buildSlim_ok hT hsa (lt_W64 hn) s
  exact ⟨I, hb, ok.answers (ok.slimOps st) hc⟩

/-- **C01** (SrCSASlim): the width of the range is the number of occurrences. -/
theorem c01_srcsaslim_count (T sa : List Nat) (hT : IsText T) (hsa : IsSA T sa) (hn : T.length < 2^64) (s : Nat) :
    ∃ I, SrCSA.buildSlim T sa s = some I ∧ CountExact I.countSlim T := by
  obtain ⟨I, hb, h⟩ := srcsaslim_answers hT hsa hn s
  exact ⟨I, hb, h.exact.countExact⟩

/-- **C02** (SrCSASlim): the range is the suffix-array interval of the pattern. -/
theorem c02_srcsaslim_interval (T sa : List Nat) (hT : IsText T) (hsa : IsSA T sa) (hn : T.length < 2^64) (s : Nat) :
    ∃ I, SrCSA.buildSlim T sa s = some I ∧ CountInterval I.countSlim T sa := by
  obtain ⟨I, hb, h⟩ := srcsaslim_answers hT hsa hn s
  exact ⟨I, hb, h.exact.countInterval⟩

/-- **C09**: SrCSASlim::Locate returns every starting position exactly once and nothing else, whatever the rate. -/
theorem c09_srcsaslim_locate (T sa : List Nat) (hT : IsText T) (hsa : IsSA T sa) (hn : T.length < 2^64) (s : Nat) :
    ∃ I, SrCSA.buildSlim T sa s = some I ∧ LocateExact I.locateSlim T := by
  obtain ⟨I, hb, h⟩ := srcsaslim_answers hT hsa hn s
  exact ⟨I, hb, h.exact.locateExact List.Perm.refl⟩

example : (SrCSA.buildSlim exText exSA 1).bind (·.locateSlim [1,2]) = some [6, 8, 3, 0] := by decide +kernel
example : (SrCSA.buildSlim exText exSA 3).bind (·.locateSlim [2]) = some [7, 9, 4, 1] := by decide +kernel
example : (SrCSA.buildSlim exText exSA 6).bind (·.locateSlim [2,3]) = some [9, 4, 1] := by decide +kernel
example : (SrCSA.buildSlim exText exSA 100).bind (·.locateSlim [1]) = some [6, 8, 3, 0] := by decide +kernel
example : (SrCSA.buildSlim exText exSA 6).bind (·.countSlim [2,3]) = some (6, 9) := by decide +kernel

/-- **C14** violated (SrCSASlim): an absent character is looked up as the terminator. -/
theorem c14_srcsaslim_absent_violation (T sa : List Nat) (hT : IsText T) (hsa : IsSA T sa) (hn : T.length < 2^64) (s : Nat) :
    ∃ I, SrCSA.buildSlim T sa s = some I ∧ AbsentAnswered I.countSlim I.locateSlim T := by
  obtain ⟨I, hb, h⟩ := srcsaslim_answers hT hsa hn s
  exact ⟨I, hb, h.absent⟩

example : (SrCSA.buildSlim exText exSA 6).bind (·.locateSlim [9]) = some [11] := by decide +kernel

/-- **C14** (SrCSASlim), the part that holds; see `c14_rindex_absent_partial` for what is missing. -/
theorem c14_srcsaslim_absent_partial (T sa : List Nat) (hT : IsText T) (hsa : IsSA T sa) (hn : T.length < 2^64) (s : Nat) :
    ∃ I, SrCSA.buildSlim T sa s = some I ∧ AbsentEmpty I.countSlim T := by
  obtain ⟨I, hb, h⟩ := srcsaslim_answers hT hsa hn s
  exact ⟨I, hb, h.absentEmpty⟩

/-- **C15** (SrCSASlim, Count): the empty pattern covers every suffix-array position. -/
theorem c15_srcsaslim_count_empty (T sa : List Nat) (hT : IsText T) (hsa : IsSA T sa) (hn : T.length < 2^64) (s : Nat) :
    ∃ I, SrCSA.buildSlim T sa s = some I ∧ I.countSlim [] = some (0, T.length) := by
  obtain ⟨I, hb, h⟩ := srcsaslim_answers hT hsa hn s
  exact ⟨I, hb, h.countEmpty⟩

/-- **C15** violated (SrCSASlim, Locate), for every text of at least one character and every rate: Locate of the empty pattern reports as many
    values as there are positions, but one of them twice (the first value is the position before the terminator's, where the
    terminator's should be), hence not every position exactly once. -/
theorem c15_srcsaslim_locate_empty_violation (T sa : List Nat) (hT : IsText T) (hsa : IsSA T sa) (h2 : 2 ≤ T.length) (hn : T.length < 2^64)
    (s : Nat) (hs : 1 ≤ s) :
    ∃ I l, SrCSA.buildSlim T sa s = some I ∧ I.locateSlim [] = some l ∧ l.length = T.length ∧ l.head? = some (T.length - 2) ∧ ¬ l.Nodup ∧
      ¬ l.Perm (List.range T.length) := by
  obtain ⟨I, T', K, hb, ok, st, he, hc⟩ := SrCSA.buildSlim_ok hT hsa (lt_W64 hn) s
  have hl := hc.len
  obtain ⟨l, e1, e2, e3, e4⟩ := ok.locate_empty (ok.slimOps st) (by omega) (by omega)
    (Or.inl rfl)
  rw [hl] at e2 e3
  exact ⟨I, l, hb, e1, e2, e3, e4, fun hp => e4 (hp.nodup_iff.2 List.nodup_range)⟩

example : ∃ I l, SrCSA.buildSlim exText exSA 4 = some I ∧ I.locateSlim [] = some l ∧ ¬ l.Perm (List.range exText.length) := by
  obtain ⟨I, l, h1, h2, -, -, -, h3⟩ := c15_srcsaslim_locate_empty_violation exText exSA exText_isText exSA_isSA (by decide) (by decide) 4 (by omega)
  exact ⟨I, l, h1, h2, h3⟩

/-- **C18** (SrCSASlim): whenever the search over a pattern ends in a non-empty range, the toehold computed from the recorded step, by
    walking to the nearest kept sample, is the suffix-array entry of the first position of the range. -/
theorem c18_srcsaslim_toehold (T sa : List Nat) (hT : IsText T) (hsa : IsSA T sa) (hn : T.length < 2^64) (s : Nat) :
    ∃ I, SrCSA.buildSlim T sa s = some I ∧ ∀ P, IsPattern P T →
      ∃ r d, (I.functorsWith I.slimOps (I.phiForRange I.slimOps)).locateLoop P.reverse { start := 0, stop := I.n }
          { step := 0, run := { pos := 0, c := 0, rank := 0, isRunStart := false } } = some (r, d) ∧
        IsInterval P T sa r.start r.stop ∧ (r.start < r.stop → computeToehold (I.saValueOfRun I.slimOps) I.n d = sa[r.start]?) := by
  obtain ⟨I, T', K, hb, ok, st, -, hc⟩ := SrCSA.buildSlim_ok hT hsa (lt_W64 hn) s
  exact ⟨I, hb, fun P hP => ok.toehold_sound (ok.slimOps st) hc _ hP⟩

/-- **C37** (SrCSASlim): Locate returns exactly as many values as Count's range is wide; both terminate without fault. -/
theorem c37_srcsaslim_length (T sa : List Nat) (hT : IsText T) (hsa : IsSA T sa) (hn : T.length < 2^64) (s : Nat) :
    ∃ I, SrCSA.buildSlim T sa s = some I ∧ LocateLength I.countSlim I.locateSlim T := by
  obtain ⟨I, hb, h⟩ := srcsaslim_answers hT hsa hn s
  exact ⟨I, hb, h.exact.locateLength List.Perm.refl⟩

/-- **C39** (SrCSASlim): positions are reported in the order of the suffix array. -/
theorem c39_srcsaslim_order (T sa : List Nat) (hT : IsText T) (hsa : IsSA T sa) (hn : T.length < 2^64) (s : Nat) :
    ∃ I, SrCSA.buildSlim T sa s = some I ∧ LocateUp I.countSlim I.locateSlim T sa := by
  obtain ⟨I, hb, h⟩ := srcsaslim_answers hT hsa hn s
  exact ⟨I, hb, h.exact.up⟩

/-! ## SrCSAValidMark<SrCSA> -/

theorem srcsamark_answers {T sa : List Nat} (hT : IsText T) (hsa : IsSA T sa) (hn : T.length < 2^64) (s : Nat) :
    ∃ I, SrCSAValid.build T sa s = some I ∧ Answers I.countMark I.locateMark T sa := by
  obtain ⟨I, T', K, V, hb, ok, st, -, hc⟩ := SrCSAValid.build_ok hT hsa (lt_W64 hn) s
  exact ⟨I, hb, ok.answers (ok.csa.posOps st) hc ok.phiOK_mark ok.phiValid_mark⟩

/-- **C01** (SrCSAValidMark<SrCSA>): the width of the range is the number of occurrences. -/
theorem c01_srcsamark_count (T sa : List Nat) (hT : IsText T) (hsa : IsSA T sa) (hn : T.length < 2^64) (s : Nat) :
    ∃ I, SrCSAValid.build T sa s = some I ∧ CountExact I.countMark T := by
  obtain ⟨I, hb, h⟩ := srcsamark_answers hT hsa hn s
  exact ⟨I, hb, h.exact.countExact⟩

/-- **C02** (SrCSAValidMark<SrCSA>): the range is the suffix-array interval of the pattern. -/
theorem c02_srcsamark_interval (T sa : List Nat) (hT : IsText T) (hsa : IsSA T sa) (hn : T.length < 2^64) (s : Nat) :
    ∃ I, SrCSAValid.build T sa s = some I ∧ CountInterval I.countMark T sa := by
  obtain ⟨I, hb, h⟩ := srcsamark_answers hT hsa hn s
  exact ⟨I, hb, h.exact.countInterval⟩

/-- **C10**: SrCSAValidMark<SrCSA>::Locate returns every starting position exactly once and nothing else, whatever the rate. -/
theorem c10_srcsamark_locate (T sa : List Nat) (hT : IsText T) (hsa : IsSA T sa) (hn : T.length < 2^64) (s : Nat) :
    ∃ I, SrCSAValid.build T sa s = some I ∧ LocateExact I.locateMark T := by
  obtain ⟨I, hb, h⟩ := srcsamark_answers hT hsa hn s
  exact ⟨I, hb, h.exact.locateExact List.Perm.refl⟩

example : (SrCSAValid.build exText exSA 1).bind (·.locateMark [1,2]) = some [6, 8, 3, 0] := by decide +kernel
example : (SrCSAValid.build exText exSA 3).bind (·.locateMark [2]) = some [7, 9, 4, 1] := by decide +kernel
example : (SrCSAValid.build exText exSA 6).bind (·.locateMark [2,3]) = some [9, 4, 1] := by decide +kernel
example : (SrCSAValid.build exText exSA 100).bind (·.locateMark [1]) = some [6, 8, 3, 0] := by decide +kernel
example : (SrCSAValid.build exText exSA 6).bind (·.countMark [2,3]) = some (6, 9) := by decide +kernel

/-- **C14** violated (SrCSAValidMark<SrCSA>): an absent character is looked up as the terminator. -/
theorem c14_srcsamark_absent_violation (T sa : List Nat) (hT : IsText T) (hsa : IsSA T sa) (hn : T.length < 2^64) (s : Nat) :
    ∃ I, SrCSAValid.build T sa s = some I ∧ AbsentAnswered I.countMark I.locateMark T := by
  obtain ⟨I, hb, h⟩ := srcsamark_answers hT hsa hn s
  exact ⟨I, hb, h.absent⟩

example : (SrCSAValid.build exText exSA 6).bind (·.locateMark [9]) = some [11] := by decide +kernel

/-- **C14** (SrCSAValidMark<SrCSA>), the part that holds; see `c14_rindex_absent_partial` for what is missing. -/
theorem c14_srcsamark_absent_partial (T sa : List Nat) (hT : IsText T) (hsa : IsSA T sa) (hn : T.length < 2^64) (s : Nat) :
    ∃ I, SrCSAValid.build T sa s = some I ∧ AbsentEmpty I.countMark T := by
  obtain ⟨I, hb, h⟩ := srcsamark_answers hT hsa hn s
  exact ⟨I, hb, h.absentEmpty⟩

/-- **C15** (SrCSAValidMark<SrCSA>, Count): the empty pattern covers every suffix-array position. -/
theorem c15_srcsamark_count_empty (T sa : List Nat) (hT : IsText T) (hsa : IsSA T sa) (hn : T.length < 2^64) (s : Nat) :
    ∃ I, SrCSAValid.build T sa s = some I ∧ I.countMark [] = some (0, T.length) := by
  obtain ⟨I, hb, h⟩ := srcsamark_answers hT hsa hn s
  exact ⟨I, hb, h.countEmpty⟩

/-- **C15** violated (SrCSAValidMark<SrCSA>, Locate): Locate of the empty pattern does not return every position exactly once. -/
theorem c15_srcsamark_locate_empty_violation : ¬ ∀ (T sa : List Nat) (s : Nat), IsText T → IsSA T sa → 1 ≤ s →
    ∃ I l, SrCSAValid.build T sa s = some I ∧ I.locateMark [] = some l ∧ l.Perm (List.range T.length) := by
  intro h
  obtain ⟨I, l, h1, h2, h3⟩ := h exText exSA 4 exText_isText exSA_isSA (by omega)
  have h4 : (SrCSAValid.build exText exSA 4).bind (·.locateMark []) = some [10, 6, 8, 3, 0, 7, 9, 4, 1, 10, 5, 2] := by decide +kernel
  rw [h1, Option.bind_some, h2, Option.some_inj] at h4
  rw [h4] at h3
  exact absurd (h3.nodup_iff.2 List.nodup_range) (by decide)

/-- **C18** (SrCSAValidMark<SrCSA>): whenever the search over a pattern ends in a non-empty range, the toehold computed from the recorded step, by
    walking to the nearest kept sample, is the suffix-array entry of the first position of the range. -/
theorem c18_srcsamark_toehold (T sa : List Nat) (hT : IsText T) (hsa : IsSA T sa) (hn : T.length < 2^64) (s : Nat) :
    ∃ I, SrCSAValid.build T sa s = some I ∧ ∀ P, IsPattern P T →
      ∃ r d, (I.functorsWith I.csa.posOps I.phiMark).locateLoop P.reverse { start := 0, stop := I.csa.n }
          { step := 0, run := { pos := 0, c := 0, rank := 0, isRunStart := false } } = some (r, d) ∧
        IsInterval P T sa r.start r.stop ∧ (r.start < r.stop → computeToehold (I.csa.saValueOfRun I.csa.posOps) I.csa.n d = sa[r.start]?) := by
  obtain ⟨I, T', K, V, hb, ok, st, -, hc⟩ := SrCSAValid.build_ok hT hsa (lt_W64 hn) s
  exact ⟨I, hb, fun P hP => ok.csa.toehold_sound (ok.csa.posOps st) hc _ hP⟩

/-- **C37** (SrCSAValidMark<SrCSA>): Locate returns exactly as many values as Count's range is wide; both terminate without fault. -/
theorem c37_srcsamark_length (T sa : List Nat) (hT : IsText T) (hsa : IsSA T sa) (hn : T.length < 2^64) (s : Nat) :
    ∃ I, SrCSAValid.build T sa s = some I ∧ LocateLength I.countMark I.locateMark T := by
  obtain ⟨I, hb, h⟩ := srcsamark_answers hT hsa hn s
  exact ⟨I, hb, h.exact.locateLength List.Perm.refl⟩

/-- **C39** (SrCSAValidMark<SrCSA>): positions are reported in the order of the suffix array. -/
theorem c39_srcsamark_order (T sa : List Nat) (hT : IsText T) (hsa : IsSA T sa) (hn : T.length < 2^64) (s : Nat) :
    ∃ I, SrCSAValid.build T sa s = some I ∧ LocateUp I.countMark I.locateMark T sa := by
  obtain ⟨I, hb, h⟩ := srcsamark_answers hT hsa hn s
  exact ⟨I, hb, h.exact.up⟩

/-! ## SrCSAValidArea<SrCSA> -/

theorem srcsaarea_answers {T sa : List Nat} (hT : IsText T) (hsa : IsSA T sa) (hn : T.length < 2^64) (s : Nat) :
    ∃ I, SrCSAValid.build T sa s = some I ∧ Answers I.countArea I.locateArea T sa := by
  obtain ⟨I, T', K, V, hb, ok, st, -, hc⟩ := SrCSAValid.build_ok hT hsa (lt_W64 hn) s
  exact ⟨I, hb, ok.answers (ok.csa.posOps st) hc ok.phiOK_area ok.phiValid_area⟩

/-- **C01** (SrCSAValidArea<SrCSA>): the width of the range is the number of occurrences. -/
theorem c01_srcsaarea_count (T sa : List Nat) (hT : IsText T) (hsa : IsSA T sa) (hn : T.length < 2^64) (s : Nat) :
    ∃ I, SrCSAValid.build T sa s = some I ∧ CountExact I.countArea T := by
  obtain ⟨I, hb, h⟩ := srcsaarea_answers hT hsa hn s
  exact ⟨I, hb, h.exact.countExact⟩

/-- **C02** (SrCSAValidArea<SrCSA>): the range is the suffix-array interval of the pattern. -/
theorem c02_srcsaarea_interval (T sa : List Nat) (hT : IsText T) (hsa : IsSA T sa) (hn : T.length < 2^64) (s : Nat) :
    ∃ I, SrCSAValid.build T sa s = some I ∧ CountInterval I.countArea T sa := by
  obtain ⟨I, hb, h⟩ := srcsaarea_answers hT hsa hn s
  exact ⟨I, hb, h.exact.countInterval⟩

/-- **C10**: SrCSAValidArea<SrCSA>::Locate returns every starting position exactly once and nothing else, whatever the rate. -/
theorem c10_srcsaarea_locate (T sa : List Nat) (hT : IsText T) (hsa : IsSA T sa) (hn : T.length < 2^64) (s : Nat) :
    ∃ I, SrCSAValid.build T sa s = some I ∧ LocateExact I.locateArea T := by
  obtain ⟨I, hb, h⟩ := srcsaarea_answers hT hsa hn s
  exact ⟨I, hb, h.exact.locateExact List.Perm.refl⟩

example : (SrCSAValid.build exText exSA 1).bind (·.locateArea [1,2]) = some [6, 8, 3, 0] := by decide +kernel
example : (SrCSAValid.build exText exSA 3).bind (·.locateArea [2]) = some [7, 9, 4, 1] := by decide +kernel
example : (SrCSAValid.build exText exSA 6).bind (·.locateArea [2,3]) = some [9, 4, 1] := by decide +kernel
example : (SrCSAValid.build exText exSA 100).bind (·.locateArea [1]) = some [6, 8, 3, 0] := by decide +kernel
example : (SrCSAValid.build exText exSA 6).bind (·.countArea [2,3]) = some (6, 9) := by decide +kernel

/-- **C14** violated (SrCSAValidArea<SrCSA>): an absent character is looked up as the terminator. -/
theorem c14_srcsaarea_absent_violation (T sa : List Nat) (hT : IsText T) (hsa : IsSA T sa) (hn : T.length < 2^64) (s : Nat) :
    ∃ I, SrCSAValid.build T sa s = some I ∧ AbsentAnswered I.countArea I.locateArea T := by
  obtain ⟨I, hb, h⟩ := srcsaarea_answers hT hsa hn s
  exact ⟨I, hb, h.absent⟩

example : (SrCSAValid.build exText exSA 6).bind (·.locateArea [9]) = some [11] := by decide +kernel

/-- **C14** (SrCSAValidArea<SrCSA>), the part that holds; see `c14_rindex_absent_partial` for what is missing. -/
theorem c14_srcsaarea_absent_partial (T sa : List Nat) (hT : IsText T) (hsa : IsSA T sa) (hn : T.length < 2^64) (s : Nat) :
    ∃ I, SrCSAValid.build T sa s = some I ∧ AbsentEmpty I.countArea T := by
  obtain ⟨I, hb, h⟩ := srcsaarea_answers hT hsa hn s
  exact ⟨I, hb, h.absentEmpty⟩

/-- **C15** (SrCSAValidArea<SrCSA>, Count): the empty pattern covers every suffix-array position. -/
theorem c15_srcsaarea_count_empty (T sa : List Nat) (hT : IsText T) (hsa : IsSA T sa) (hn : T.length < 2^64) (s : Nat) :
    ∃ I, SrCSAValid.build T sa s = some I ∧ I.countArea [] = some (0, T.length) := by
  obtain ⟨I, hb, h⟩ := srcsaarea_answers hT hsa hn s
  exact ⟨I, hb, h.countEmpty⟩

/-- **C15** violated (SrCSAValidArea<SrCSA>, Locate): Locate of the empty pattern does not return every position exactly once. -/
theorem c15_srcsaarea_locate_empty_violation : ¬ ∀ (T sa : List Nat) (s : Nat), IsText T → IsSA T sa → 1 ≤ s →
    ∃ I l, SrCSAValid.build T sa s = some I ∧ I.locateArea [] = some l ∧ l.Perm (List.range T.length) := by
  intro h
  obtain ⟨I, l, h1, h2, h3⟩ := h exText exSA 4 exText_isText exSA_isSA (by omega)
  have h4 : (SrCSAValid.build exText exSA 4).bind (·.locateArea []) = some [10, 5, 2, 11, 6, 7, 9, 4, 1, 10, 5, 2] := by decide +kernel
  rw [h1, Option.bind_some, h2, Option.some_inj] at h4
  rw [h4] at h3
  exact absurd (h3.nodup_iff.2 List.nodup_range) (by decide)

/-- **C18** (SrCSAValidArea<SrCSA>): whenever the search over a pattern ends in a non-empty range, the toehold computed from the recorded step, by
    walking to the nearest kept sample, is the suffix-array entry of the first position of the range. -/
theorem c18_srcsaarea_toehold (T sa : List Nat) (hT : IsText T) (hsa : IsSA T sa) (hn : T.length < 2^64) (s : Nat) :
    ∃ I, SrCSAValid.build T sa s = some I ∧ ∀ P, IsPattern P T →
      ∃ r d, (I.functorsWith I.csa.posOps I.phiArea).locateLoop P.reverse { start := 0, stop := I.csa.n }
          { step := 0, run := { pos := 0, c := 0, rank := 0, isRunStart := false } } = some (r, d) ∧
        IsInterval P T sa r.start r.stop ∧ (r.start < r.stop → computeToehold (I.csa.saValueOfRun I.csa.posOps) I.csa.n d = sa[r.start]?) := by
  obtain ⟨I, T', K, V, hb, ok, st, -, hc⟩ := SrCSAValid.build_ok hT hsa (lt_W64 hn) s
  exact ⟨I, hb, fun P hP => ok.csa.toehold_sound (ok.csa.posOps st) hc _ hP⟩

/-- **C37** (SrCSAValidArea<SrCSA>): Locate returns exactly as many values as Count's range is wide; both terminate without fault. -/
theorem c37_srcsaarea_length (T sa : List Nat) (hT : IsText T) (hsa : IsSA T sa) (hn : T.length < 2^64) (s : Nat) :
    ∃ I, SrCSAValid.build T sa s = some I ∧ LocateLength I.countArea I.locateArea T := by
  obtain ⟨I, hb, h⟩ := srcsaarea_answers hT hsa hn s
  exact ⟨I, hb, h.exact.locateLength List.Perm.refl⟩

/-- **C39** (SrCSAValidArea<SrCSA>): positions are reported in the order of the suffix array. -/
theorem c39_srcsaarea_order (T sa : List Nat) (hT : IsText T) (hsa : IsSA T sa) (hn : T.length < 2^64) (s : Nat) :
    ∃ I, SrCSAValid.build T sa s = some I ∧ LocateUp I.countArea I.locateArea T sa := by
  obtain ⟨I, hb, h⟩ := srcsaarea_answers hT hsa hn s
  exact ⟨I, hb, h.exact.up⟩

/-! ## SrCSAValidMark<SrCSASlim> -/

theorem srcsaslimmark_answers {T sa : List Nat} (hT : IsText T) (hsa : IsSA T sa) (hn : T.length < 2^64) (s : Nat) :
    ∃ I, SrCSAValid.buildSlim T sa s = some I ∧ Answers I.countMarkSlim I.locateMarkSlim T sa := by
  obtain ⟨I, T', K, V, hb, ok, st, -, hc⟩ := SrCSAValid.buildSlim_ok hT hsa (lt_W64 hn) s
  exact ⟨I, hb, ok.answers (ok.csa.slimOps st) hc ok.phiOK_mark ok.phiValid_mark⟩

/-- **C01** (SrCSAValidMark<SrCSASlim>): the width of the range is the number of occurrences. -/
theorem c01_srcsaslimmark_count (T sa : List Nat) (hT : IsText T) (hsa : IsSA T sa) (hn : T.length < 2^64) (s : Nat) :
    ∃ I, SrCSAValid.buildSlim T sa s = some I ∧ CountExact I.countMarkSlim T := by
  obtain ⟨I, hb, h⟩ := srcsaslimmark_answers hT hsa hn s
  exact ⟨I, hb, h.exact.countExact⟩

/-- **C02** (SrCSAValidMark<SrCSASlim>): the range is the suffix-array interval of the pattern. -/
theorem c02_srcsaslimmark_interval (T sa : List Nat) (hT : IsText T) (hsa : IsSA T sa) (hn : T.length < 2^64) (s : Nat) :
    ∃ I, SrCSAValid.buildSlim T sa s = some I ∧ CountInterval I.countMarkSlim T sa := by
  obtain ⟨I, hb, h⟩ := srcsaslimmark_answers hT hsa hn s
  exact ⟨I, hb, h.exact.countInterval⟩

/-- **C10**: SrCSAValidMark<SrCSASlim>::Locate returns every starting position exactly once and nothing else, whatever the rate. -/
theorem c10_srcsaslimmark_locate (T sa : List Nat) (hT : IsText T) (hsa : IsSA T sa) (hn : T.length < 2^64) (s : Nat) :
    ∃ I, SrCSAValid.buildSlim T sa s = some I ∧ LocateExact I.locateMarkSlim T := by
  obtain ⟨I, hb, h⟩ := srcsaslimmark_answers hT hsa hn s
  exact ⟨I, hb, h.exact.locateExact List.Perm.refl⟩

example : (SrCSAValid.buildSlim exText exSA 1).bind (·.locateMarkSlim [1,2]) = some [6, 8, 3, 0] := by decide +kernel
example : (SrCSAValid.buildSlim exText exSA 3).bind (·.locateMarkSlim [2]) = some [7, 9, 4, 1] := by decide +kernel
example : (SrCSAValid.buildSlim exText exSA 6).bind (·.locateMarkSlim [2,3]) = some [9, 4, 1] := by decide +kernel
example : (SrCSAValid.buildSlim exText exSA 100).bind (·.locateMarkSlim [1]) = some [6, 8, 3, 0] := by decide +kernel
example : (SrCSAValid.buildSlim exText exSA 6).bind (·.countMarkSlim [2,3]) = some (6, 9) := by decide +kernel

/-- **C14** violated (SrCSAValidMark<SrCSASlim>): an absent character is looked up as the terminator. -/
theorem c14_srcsaslimmark_absent_violation (T sa : List Nat) (hT : IsText T) (hsa : IsSA T sa) (hn : T.length < 2^64) (s : Nat) :
    ∃ I, SrCSAValid.buildSlim T sa s = some I ∧ AbsentAnswered I.countMarkSlim I.locateMarkSlim T := by
  obtain ⟨I, hb, h⟩ := srcsaslimmark_answers hT hsa hn s
  exact ⟨I, hb, h.absent⟩

example : (SrCSAValid.buildSlim exText exSA 6).bind (·.locateMarkSlim [9]) = some [11] := by decide +kernel

/-- **C14** (SrCSAValidMark<SrCSASlim>), the part that holds; see `c14_rindex_absent_partial` for what is missing. -/
theorem c14_srcsaslimmark_absent_partial (T sa : List Nat) (hT : IsText T) (hsa : IsSA T sa) (hn : T.length < 2^64) (s : Nat) :
    ∃ I, SrCSAValid.buildSlim T sa s = some I ∧ AbsentEmpty I.countMarkSlim T := by
  obtain ⟨I, hb, h⟩ := srcsaslimmark_answers hT hsa hn s
  exact ⟨I, hb, h.absentEmpty⟩

/-- **C15** (SrCSAValidMark<SrCSASlim>, Count): the empty pattern covers every suffix-array position. -/
theorem c15_srcsaslimmark_count_empty (T sa : List Nat) (hT : IsText T) (hsa : IsSA T sa) (hn : T.length < 2^64) (s : Nat) :
    ∃ I, SrCSAValid.buildSlim T sa s = some I ∧ I.countMarkSlim [] = some (0, T.length) := by
  obtain ⟨I, hb, h⟩ := srcsaslimmark_answers hT hsa hn s
  exact ⟨I, hb, h.countEmpty⟩

/-- **C15** violated (SrCSAValidMark<SrCSASlim>, Locate): Locate of the empty pattern does not return every position exactly once. -/
theorem c15_srcsaslimmark_locate_empty_violation : ¬ ∀ (T sa : List Nat) (s : Nat), IsText T → IsSA T sa → 1 ≤ s →
    ∃ I l, SrCSAValid.buildSlim T sa s = some I ∧ I.locateMarkSlim [] = some l ∧ l.Perm (List.range T.length) := by
  intro h
  obtain ⟨I, l, h1, h2, h3⟩ := h exText exSA 4 exText_isText exSA_isSA (by omega)
  have h4 : (SrCSAValid.buildSlim exText exSA 4).bind (·.locateMarkSlim []) = some [10, 6, 8, 3, 0, 7, 9, 4, 1, 10, 5, 2] := by decide +kernel
  rw [h1, Option.bind_some, h2, Option.some_inj] at h4
  rw [h4] at h3
  exact absurd (h3.nodup_iff.2 List.nodup_range) (by decide)

/-- **C18** (SrCSAValidMark<SrCSASlim>): whenever the search over a pattern ends in a non-empty range, the toehold computed from the recorded step, by
    walking to the nearest kept sample, is the suffix-array entry of the first position of the range. -/
theorem c18_srcsaslimmark_toehold (T sa : List Nat) (hT : IsText T) (hsa : IsSA T sa) (hn : T.length < 2^64) (s : Nat) :
    ∃ I, SrCSAValid.buildSlim T sa s = some I ∧ ∀ P, IsPattern P T →
      ∃ r d, (I.functorsWith I.csa.slimOps I.phiMark).locateLoop P.reverse { start := 0, stop := I.csa.n }
          { step := 0, run := { pos := 0, c := 0, rank := 0, isRunStart := false } } = some (r, d) ∧
        IsInterval P T sa r.start r.stop ∧ (r.start < r.stop → computeToehold (I.csa.saValueOfRun I.csa.slimOps) I.csa.n d = sa[r.start]?) := by
  obtain ⟨I, T', K, V, hb, ok, st, -, hc⟩ := SrCSAValid.buildSlim_ok hT hsa (lt_W64 hn) s
  exact ⟨I, hb, fun P hP => ok.csa.toehold_sound (ok.csa.slimOps st) hc _ hP⟩

/-- **C37** (SrCSAValidMark<SrCSASlim>): Locate returns exactly as many values as Count's range is wide; both terminate without fault. -/
theorem c37_srcsaslimmark_length (T sa : List Nat) (hT : IsText T) (hsa : IsSA T sa) (hn : T.length < 2^64) (s : Nat) :
    ∃ I, SrCSAValid.buildSlim T sa s = some I ∧ LocateLength I.countMarkSlim I.locateMarkSlim T := by
  obtain ⟨I, hb, h⟩ := srcsaslimmark_answers hT hsa hn s
  exact ⟨I, hb, h.exact.locateLength List.Perm.refl⟩

/-- **C39** (SrCSAValidMark<SrCSASlim>): positions are reported in the order of the suffix array. -/
theorem c39_srcsaslimmark_order (T sa : List Nat) (hT : IsText T) (hsa : IsSA T sa) (hn : T.length < 2^64) (s : Nat) :
    ∃ I, SrCSAValid.buildSlim T sa s = some I ∧ LocateUp I.countMarkSlim I.locateMarkSlim T sa := by
  obtain ⟨I, hb, h⟩ := srcsaslimmark_answers hT hsa hn s
  exact ⟨I, hb, h.exact.up⟩

/-! ## SrCSAValidArea<SrCSASlim> -/

theorem srcsaslimarea_answers {T sa : List Nat} (hT : IsText T) (hsa : IsSA T sa) (hn : T.length < 2^64) (s : Nat) :
    ∃ I, SrCSAValid.buildSlim T sa s = some I ∧ Answers I.countAreaSlim I.locateAreaSlim T sa := by
  obtain ⟨I, T', K, V, hb, ok, st, -, hc⟩ := SrCSAValid.buildSlim_ok hT hsa (lt_W64 hn) s
  exact ⟨I, hb, ok.answers (ok.csa.slimOps st) hc ok.phiOK_area ok.phiValid_area⟩

/-- **C01** (SrCSAValidArea<SrCSASlim>): the width of the range is the number of occurrences. -/
theorem c01_srcsaslimarea_count (T sa : List Nat) (hT : IsText T) (hsa : IsSA T sa) (hn : T.length < 2^64) (s : Nat) :
    ∃ I, SrCSAValid.buildSlim T sa s = some I ∧ CountExact I.countAreaSlim T := by
  obtain ⟨I, hb, h⟩ := srcsaslimarea_answers hT hsa hn s
  exact ⟨I, hb, h.exact.countExact⟩

/-- **C02** (SrCSAValidArea<SrCSASlim>): the range is the suffix-array interval of the pattern. -/
theorem c02_srcsaslimarea_interval (T sa : List Nat) (hT : IsText T) (hsa : IsSA T sa) (hn : T.length < 2^64) (s : Nat) :
    ∃ I, SrCSAValid.buildSlim T sa s = some I ∧ CountInterval I.countAreaSlim T sa := by
  obtain ⟨I, hb, h⟩ := srcsaslimarea_answers hT hsa hn s
  exact ⟨I, hb, h.exact.countInterval⟩

/-- **C10**: SrCSAValidArea<SrCSASlim>::Locate returns every starting position exactly once and nothing else, whatever the rate. -/
theorem c10_srcsaslimarea_locate (T sa : List Nat) (hT : IsText T) (hsa : IsSA T sa) (hn : T.length < 2^64) (s : Nat) :
    ∃ I, SrCSAValid.buildSlim T sa s = some I ∧ LocateExact I.locateAreaSlim T := by
  obtain ⟨I, hb, h⟩ := srcsaslimarea_answers hT hsa hn s
  exact ⟨I, hb, h.exact.locateExact List.Perm.refl⟩

example : (SrCSAValid.buildSlim exText exSA 1).bind (·.locateAreaSlim [1,2]) = some [6, 8, 3, 0] := by decide +kernel
example : (SrCSAValid.buildSlim exText exSA 3).bind (·.locateAreaSlim [2]) = some [7, 9, 4, 1] := by decide +kernel
example : (SrCSAValid.buildSlim exText exSA 6).bind (·.locateAreaSlim [2,3]) = some [9, 4, 1] := by decide +kernel
example : (SrCSAValid.buildSlim exText exSA 100).bind (·.locateAreaSlim [1]) = some [6, 8, 3, 0] := by decide +kernel
example : (SrCSAValid.buildSlim exText exSA 6).bind (·.countAreaSlim [2,3]) = some (6, 9) := by decide +kernel

/-- **C14** violated (SrCSAValidArea<SrCSASlim>): an absent character is looked up as the terminator. -/
theorem c14_srcsaslimarea_absent_violation (T sa : List Nat) (hT : IsText T) (hsa : IsSA T sa) (hn : T.length < 2^64) (s : Nat) :
    ∃ I, SrCSAValid.buildSlim T sa s = some I ∧ AbsentAnswered I.countAreaSlim I.locateAreaSlim T := by
  obtain ⟨I, hb, h⟩ := srcsaslimarea_answers hT hsa hn s
  exact ⟨I, hb, h.absent⟩

example : (SrCSAValid.buildSlim exText exSA 6).bind (·.locateAreaSlim [9]) = some [11] := by decide +kernel

/-- **C14** (SrCSAValidArea<SrCSASlim>), the part that holds; see `c14_rindex_absent_partial` for what is missing. -/
theorem c14_srcsaslimarea_absent_partial (T sa : List Nat) (hT : IsText T) (hsa : IsSA T sa) (hn : T.length < 2^64) (s : Nat) :
    ∃ I, SrCSAValid.buildSlim T sa s = some I ∧ AbsentEmpty I.countAreaSlim T := by
  obtain ⟨I, hb, h⟩ := srcsaslimarea_answers hT hsa hn s
  exact ⟨I, hb, h.absentEmpty⟩

/-- **C15** (SrCSAValidArea<SrCSASlim>, Count): the empty pattern covers every suffix-array position. -/
theorem c15_srcsaslimarea_count_empty (T sa : List Nat) (hT : IsText T) (hsa : IsSA T sa) (hn : T.length < 2^64) (s : Nat) :
    ∃ I, SrCSAValid.buildSlim T sa s = some I ∧ I.countAreaSlim [] = some (0, T.length) := by
  obtain ⟨I, hb, h⟩ := srcsaslimarea_answers hT hsa hn s
  exact ⟨I, hb, h.countEmpty⟩

/-- **C15** violated (SrCSAValidArea<SrCSASlim>, Locate): Locate of the empty pattern does not return every position exactly once. -/
theorem c15_srcsaslimarea_locate_empty_violation : ¬ ∀ (T sa : List Nat) (s : Nat), IsText T → IsSA T sa → 1 ≤ s →
    ∃ I l, SrCSAValid.buildSlim T sa s = some I ∧ I.locateAreaSlim [] = some l ∧ l.Perm (List.range T.length) := by
  intro h
  obtain ⟨I, l, h1, h2, h3⟩ := h exText exSA 4 exText_isText exSA_isSA (by omega)
  have h4 : (SrCSAValid.buildSlim exText exSA 4).bind (·.locateAreaSlim []) = some [10, 5, 2, 11, 6, 7, 9, 4, 1, 10, 5, 2] := by decide +kernel
  rw [h1, Option.bind_some, h2, Option.some_inj] at h4
  rw [h4] at h3
  exact absurd (h3.nodup_iff.2 List.nodup_range) (by decide)

/-- **C18** (SrCSAValidArea<SrCSASlim>): whenever the search over a pattern ends in a non-empty range, the toehold computed from the recorded step, by
    walking to the nearest kept sample, is the suffix-array entry of the first position of the range. -/
theorem c18_srcsaslimarea_toehold (T sa : List Nat) (hT : IsText T) (hsa : IsSA T sa) (hn : T.length < 2^64) (s : Nat) :
    ∃ I, SrCSAValid.buildSlim T sa s = some I ∧ ∀ P, IsPattern P T →
      ∃ r d, (I.functorsWith I.csa.slimOps I.phiArea).locateLoop P.reverse { start := 0, stop := I.csa.n }
          { step := 0, run := { pos := 0, c := 0, rank := 0, isRunStart := false } } = some (r, d) ∧
        IsInterval P T sa r.start r.stop ∧ (r.start < r.stop → computeToehold (I.csa.saValueOfRun I.csa.slimOps) I.csa.n d = sa[r.start]?) := by
  obtain ⟨I, T', K, V, hb, ok, st, -, hc⟩ := SrCSAValid.buildSlim_ok hT hsa (lt_W64 hn) s
  exact ⟨I, hb, fun P hP => ok.csa.toehold_sound (ok.csa.slimOps st) hc _ hP⟩

/-- **C37** (SrCSAValidArea<SrCSASlim>): Locate returns exactly as many values as Count's range is wide; both terminate without fault. -/
theorem c37_srcsaslimarea_length (T sa : List Nat) (hT : IsText T) (hsa : IsSA T sa) (hn : T.length < 2^64) (s : Nat) :
    ∃ I, SrCSAValid.buildSlim T sa s = some I ∧ LocateLength I.countAreaSlim I.locateAreaSlim T := by
  obtain ⟨I, hb, h⟩ := srcsaslimarea_answers hT hsa hn s
  exact ⟨I, hb, h.exact.locateLength List.Perm.refl⟩

/-- **C39** (SrCSAValidArea<SrCSASlim>): positions are reported in the order of the suffix array. -/
theorem c39_srcsaslimarea_order (T sa : List Nat) (hT : IsText T) (hsa : IsSA T sa) (hn : T.length < 2^64) (s : Nat) :
    ∃ I, SrCSAValid.buildSlim T sa s = some I ∧ LocateUp I.countAreaSlim I.locateAreaSlim T sa := by
  obtain ⟨I, hb, h⟩ := srcsaslimarea_answers hT hsa hn s
  exact ⟨I, hb, h.exact.up⟩

/-! ## SrCSAWithPsiRun -/

theorem srcsapsi_answers {T sa : List Nat} (hT : IsText T) (hsa : IsSA T sa) (hn : T.length < 2^64) (s : Nat) :
    ∃ I, SrCSA.buildPsi T sa s = some I ∧ Answers I.countSlim I.locateSlim T sa := by
  obtain ⟨I, T', K, hb, ok, st, -, hc⟩ := SrCSA.buildPsi_ok hT hsa (lt_W64 hn) s
  exact ⟨I, hb, ok.answers (ok.slimOps st) hc⟩

/-- **C01** (SrCSAWithPsiRun): the width of the range is the number of occurrences. -/
theorem c01_srcsapsi_count (T sa : List Nat) (hT : IsText T) (hsa : IsSA T sa) (hn : T.length < 2^64) (s : Nat) :
    ∃ I, SrCSA.buildPsi T sa s = some I ∧ CountExact I.countSlim T := by
  obtain ⟨I, hb, h⟩ := srcsapsi_answers hT hsa hn s
  exact ⟨I, hb, h.exact.countExact⟩

/-- **C02** (SrCSAWithPsiRun): the range is the suffix-array interval of the pattern. -/
theorem c02_srcsapsi_interval (T sa : List Nat) (hT : IsText T) (hsa : IsSA T sa) (hn : T.length < 2^64) (s : Nat) :
    ∃ I, SrCSA.buildPsi T sa s = some I ∧ CountInterval I.countSlim T sa := by
  obtain ⟨I, hb, h⟩ := srcsapsi_answers hT hsa hn s
  exact ⟨I, hb, h.exact.countInterval⟩

/-- **C11**: SrCSAWithPsiRun::Locate returns every starting position exactly once and nothing else, whatever the rate. -/
theorem c11_srcsapsi_locate (T sa : List Nat) (hT : IsText T) (hsa : IsSA T sa) (hn : T.length < 2^64) (s : Nat) :
    ∃ I, SrCSA.buildPsi T sa s = some I ∧ LocateExact I.locateSlim T := by
  obtain ⟨I, hb, h⟩ := srcsapsi_answers hT hsa hn s
  exact ⟨I, hb, h.exact.locateExact List.Perm.refl⟩

example : (SrCSA.buildPsi exText exSA 1).bind (·.locateSlim [1,2]) = some [6, 8, 3, 0] := by decide +kernel
example : (SrCSA.buildPsi exText exSA 3).bind (·.locateSlim [2]) = some [7, 9, 4, 1] := by decide +kernel
example : (SrCSA.buildPsi exText exSA 6).bind (·.locateSlim [2,3]) = some [9, 4, 1] := by decide +kernel
example : (SrCSA.buildPsi exText exSA 100).bind (·.locateSlim [1]) = some [6, 8, 3, 0] := by decide +kernel
example : (SrCSA.buildPsi exText exSA 6).bind (·.countSlim [2,3]) = some (6, 9) := by decide +kernel

/-- **C14** violated (SrCSAWithPsiRun): an absent character is looked up as the terminator. -/
theorem c14_srcsapsi_absent_violation (T sa : List Nat) (hT : IsText T) (hsa : IsSA T sa) (hn : T.length < 2^64) (s : Nat) :
    ∃ I, SrCSA.buildPsi T sa s = some I ∧ AbsentAnswered I.countSlim I.locateSlim T := by
  obtain ⟨I, hb, h⟩ := srcsapsi_answers hT hsa hn s
  exact ⟨I, hb, h.absent⟩

example : (SrCSA.buildPsi exText exSA 6).bind (·.locateSlim [9]) = some [11] := by decide +kernel

/-- **C14** (SrCSAWithPsiRun), the part that holds; see `c14_rindex_absent_partial` for what is missing. -/
theorem c14_srcsapsi_absent_partial (T sa : List Nat) (hT : IsText T) (hsa : IsSA T sa) (hn : T.length < 2^64) (s : Nat) :
    ∃ I, SrCSA.buildPsi T sa s = some I ∧ AbsentEmpty I.countSlim T := by
  obtain ⟨I, hb, h⟩ := srcsapsi_answers hT hsa hn s
  exact ⟨I, hb, h.absentEmpty⟩

/-- **C15** (SrCSAWithPsiRun, Count): the empty pattern covers every suffix-array position. -/
theorem c15_srcsapsi_count_empty (T sa : List Nat) (hT : IsText T) (hsa : IsSA T sa) (hn : T.length < 2^64) (s : Nat) :
    ∃ I, SrCSA.buildPsi T sa s = some I ∧ I.countSlim [] = some (0, T.length) := by
  obtain ⟨I, hb, h⟩ := srcsapsi_answers hT hsa hn s
  exact ⟨I, hb, h.countEmpty⟩

/-- **C15** violated (SrCSAWithPsiRun, Locate), for every text of at least one character and every rate: Locate of the empty pattern reports as many
    values as there are positions, but one of them twice (the first value is the position before the terminator's, where the
    terminator's should be), hence not every position exactly once. -/
theorem c15_srcsapsi_locate_empty_violation (T sa : List Nat) (hT : IsText T) (hsa : IsSA T sa) (h2 : 2 ≤ T.length) (hn : T.length < 2^64)
    (s : Nat) (hs : 1 ≤ s) :
    ∃ I l, SrCSA.buildPsi T sa s = some I ∧ I.locateSlim [] = some l ∧ l.length = T.length ∧ l.head? = some (T.length - 2) ∧ ¬ l.Nodup ∧
      ¬ l.Perm (List.range T.length) := by
  obtain ⟨I, T', K, hb, ok, st, he, hc⟩ := SrCSA.buildPsi_ok hT hsa (lt_W64 hn) s
  have hl := hc.len
  obtain ⟨l, e1, e2, e3, e4⟩ := ok.locate_empty (ok.slimOps st) (by omega) (by omega)
    (Or.inl rfl)
  rw [hl] at e2 e3
  exact ⟨I, l, hb, e1, e2, e3, e4, fun hp => e4 (hp.nodup_iff.2 List.nodup_range)⟩

example : ∃ I l, SrCSA.buildPsi exText exSA 4 = some I ∧ I.locateSlim [] = some l ∧ ¬ l.Perm (List.range exText.length) := by
  obtain ⟨I, l, h1, h2, -, -, -, h3⟩ := c15_srcsapsi_locate_empty_violation exText exSA exText_isText exSA_isSA (by decide) (by decide) 4 (by omega)
  exact ⟨I, l, h1, h2, h3⟩

/-- **C18** (SrCSAWithPsiRun): whenever the search over a pattern ends in a non-empty range, the toehold computed from the recorded step, by
    walking to the nearest kept sample, is the suffix-array entry of the first position of the range. -/
theorem c18_srcsapsi_toehold (T sa : List Nat) (hT : IsText T) (hsa : IsSA T sa) (hn : T.length < 2^64) (s : Nat) :
    ∃ I, SrCSA.buildPsi T sa s = some I ∧ ∀ P, IsPattern P T →
      ∃ r d, (I.functorsWith I.slimOps (I.phiForRange I.slimOps)).locateLoop P.reverse { start := 0, stop := I.n }
          { step := 0, run := { pos := 0, c := 0, rank := 0, isRunStart := false } } = some (r, d) ∧
        IsInterval P T sa r.start r.stop ∧ (r.start < r.stop → computeToehold (I.saValueOfRun I.slimOps) I.n d = sa[r.start]?) := by
  obtain ⟨I, T', K, hb, ok, st, -, hc⟩ := SrCSA.buildPsi_ok hT hsa (lt_W64 hn) s
  exact ⟨I, hb, fun P hP => ok.toehold_sound (ok.slimOps st) hc _ hP⟩

/-- **C37** (SrCSAWithPsiRun): Locate returns exactly as many values as Count's range is wide; both terminate without fault. -/
theorem c37_srcsapsi_length (T sa : List Nat) (hT : IsText T) (hsa : IsSA T sa) (hn : T.length < 2^64) (s : Nat) :
    ∃ I, SrCSA.buildPsi T sa s = some I ∧ LocateLength I.countSlim I.locateSlim T := by
  obtain ⟨I, hb, h⟩ := srcsapsi_answers hT hsa hn s
  exact ⟨I, hb, h.exact.locateLength List.Perm.refl⟩

/-- **C39** (SrCSAWithPsiRun): positions are reported in the order of the suffix array. -/
theorem c39_srcsapsi_order (T sa : List Nat) (hT : IsText T) (hsa : IsSA T sa) (hn : T.length < 2^64) (s : Nat) :
    ∃ I, SrCSA.buildPsi T sa s = some I ∧ LocateUp I.countSlim I.locateSlim T sa := by
  obtain ⟨I, hb, h⟩ := srcsapsi_answers hT hsa hn s
  exact ⟨I, hb, h.exact.up⟩

/-! ## SRCSAValidMark -/

theorem srcsapsimark_answers {T sa : List Nat} (hT : IsText T) (hsa : IsSA T sa) (hn : T.length < 2^64) (s : Nat) :
    ∃ I, SrCSAValid.buildPsi T sa s = some I ∧ Answers I.countMarkSlim I.locateMarkSlim T sa := by
  obtain ⟨I, T', K, V, hb, ok, st, -, hc⟩ := SrCSAValid.buildPsi_ok hT hsa (lt_W64 hn) s
  exact ⟨I, hb, ok.answers (ok.csa.slimOps st) hc ok.phiOK_mark ok.phiValid_mark⟩

/-- **C01** (SRCSAValidMark): the width of the range is the number of occurrences. -/
theorem c01_srcsapsimark_count (T sa : List Nat) (hT : IsText T) (hsa : IsSA T sa) (hn : T.length < 2^64) (s : Nat) :
    ∃ I, SrCSAValid.buildPsi T sa s = some I ∧ CountExact I.countMarkSlim T := by
  obtain ⟨I, hb, h⟩ := srcsapsimark_answers hT hsa hn s
  exact ⟨I, hb, h.exact.countExact⟩

/-- **C02** (SRCSAValidMark): the range is the suffix-array interval of the pattern. -/
theorem c02_srcsapsimark_interval (T sa : List Nat) (hT : IsText T) (hsa : IsSA T sa) (hn : T.length < 2^64) (s : Nat) :
    ∃ I, SrCSAValid.buildPsi T sa s = some I ∧ CountInterval I.countMarkSlim T sa := by
  obtain ⟨I, hb, h⟩ := srcsapsimark_answers hT hsa hn s
  exact ⟨I, hb, h.exact.countInterval⟩

/-- **C12**: SRCSAValidMark::Locate returns every starting position exactly once and nothing else, whatever the rate. -/
theorem c12_srcsapsimark_locate (T sa : List Nat) (hT : IsText T) (hsa : IsSA T sa) (hn : T.length < 2^64) (s : Nat) :
    ∃ I, SrCSAValid.buildPsi T sa s = some I ∧ LocateExact I.locateMarkSlim T := by
  obtain ⟨I, hb, h⟩ := srcsapsimark_answers hT hsa hn s
  exact ⟨I, hb, h.exact.locateExact List.Perm.refl⟩

example : (SrCSAValid.buildPsi exText exSA 1).bind (·.locateMarkSlim [1,2]) = some [6, 8, 3, 0] := by decide +kernel
example : (SrCSAValid.buildPsi exText exSA 3).bind (·.locateMarkSlim [2]) = some [7, 9, 4, 1] := by decide +kernel
example : (SrCSAValid.buildPsi exText exSA 6).bind (·.locateMarkSlim [2,3]) = some [9, 4, 1] := by decide +kernel
example : (SrCSAValid.buildPsi exText exSA 100).bind (·.locateMarkSlim [1]) = some [6, 8, 3, 0] := by decide +kernel
example : (SrCSAValid.buildPsi exText exSA 6).bind (·.countMarkSlim [2,3]) = some (6, 9) := by decide +kernel

/-- **C14** violated (SRCSAValidMark): an absent character is looked up as the terminator. -/
theorem c14_srcsapsimark_absent_violation (T sa : List Nat) (hT : IsText T) (hsa : IsSA T sa) (hn : T.length < 2^64) (s : Nat) :
    ∃ I, SrCSAValid.buildPsi T sa s = some I ∧ AbsentAnswered I.countMarkSlim I.locateMarkSlim T := by
  obtain ⟨I, hb, h⟩ := srcsapsimark_answers hT hsa hn s
  exact ⟨I, hb, h.absent⟩

example : (SrCSAValid.buildPsi exText exSA 6).bind (·.locateMarkSlim [9]) = some [11] := by decide +kernel

/-- **C14** (SRCSAValidMark), the part that holds; see `c14_rindex_absent_partial` for what is missing. -/
theorem c14_srcsapsimark_absent_partial (T sa : List Nat) (hT : IsText T) (hsa : IsSA T sa) (hn : T.length < 2^64) (s : Nat) :
    ∃ I, SrCSAValid.buildPsi T sa s = some I ∧ AbsentEmpty I.countMarkSlim T := by
  obtain ⟨I, hb, h⟩ := srcsapsimark_answers hT hsa hn s
  exact ⟨I, hb, h.absentEmpty⟩

/-- **C15** (SRCSAValidMark, Count): the empty pattern covers every suffix-array position. -/
theorem c15_srcsapsimark_count_empty (T sa : List Nat) (hT : IsText T) (hsa : IsSA T sa) (hn : T.length < 2^64) (s : Nat) :
    ∃ I, SrCSAValid.buildPsi T sa s = some I ∧ I.countMarkSlim [] = some (0, T.length) := by
  obtain ⟨I, hb, h⟩ := srcsapsimark_answers hT hsa hn s
  exact ⟨I, hb, h.countEmpty⟩

/-- **C15** violated (SRCSAValidMark, Locate): Locate of the empty pattern does not return every position exactly once. -/
theorem c15_srcsapsimark_locate_empty_violation : ¬ ∀ (T sa : List Nat) (s : Nat), IsText T → IsSA T sa → 1 ≤ s →
    ∃ I l, SrCSAValid.buildPsi T sa s = some I ∧ I.locateMarkSlim [] = some l ∧ l.Perm (List.range T.length) := by
  intro h
  obtain ⟨I, l, h1, h2, h3⟩ := h exText exSA 4 exText_isText exSA_isSA (by omega)
  have h4 : (SrCSAValid.buildPsi exText exSA 4).bind (·.locateMarkSlim []) = some [10, 6, 8, 3, 0, 7, 9, 4, 1, 10, 5, 2] := by decide +kernel
  rw [h1, Option.bind_some, h2, Option.some_inj] at h4
  rw [h4] at h3
  exact absurd (h3.nodup_iff.2 List.nodup_range) (by decide)

/-- **C18** (SRCSAValidMark): whenever the search over a pattern ends in a non-empty range, the toehold computed from the recorded step, by
    walking to the nearest kept sample, is the suffix-array entry of the first position of the range. -/
theorem c18_srcsapsimark_toehold (T sa : List Nat) (hT : IsText T) (hsa : IsSA T sa) (hn : T.length < 2^64) (s : Nat) :
    ∃ I, SrCSAValid.buildPsi T sa s = some I ∧ ∀ P, IsPattern P T →
      ∃ r d, (I.functorsWith I.csa.slimOps I.phiMark).locateLoop P.reverse { start := 0, stop := I.csa.n }
          { step := 0, run := { pos := 0, c := 0, rank := 0, isRunStart := false } } = some (r, d) ∧
        IsInterval P T sa r.start r.stop ∧ (r.start < r.stop → computeToehold (I.csa.saValueOfRun I.csa.slimOps) I.csa.n d = sa[r.start]?) := by
  obtain ⟨I, T', K, V, hb, ok, st, -, hc⟩ := SrCSAValid.buildPsi_ok hT hsa (lt_W64 hn) s
  exact ⟨I, hb, fun P hP => ok.csa.toehold_sound (ok.csa.slimOps st) hc _ hP⟩

/-- **C37** (SRCSAValidMark): Locate returns exactly as many values as Count's range is wide; both terminate without fault. -/
theorem c37_srcsapsimark_length (T sa : List Nat) (hT : IsText T) (hsa : IsSA T sa) (hn : T.length < 2^64) (s : Nat) :
    ∃ I, SrCSAValid.buildPsi T sa s = some I ∧ LocateLength I.countMarkSlim I.locateMarkSlim T := by
  obtain ⟨I, hb, h⟩ := srcsapsimark_answers hT hsa hn s
  exact ⟨I, hb, h.exact.locateLength List.Perm.refl⟩

/-- **C39** (SRCSAValidMark): positions are reported in the order of the suffix array. -/
theorem c39_srcsapsimark_order (T sa : List Nat) (hT : IsText T) (hsa : IsSA T sa) (hn : T.length < 2^64) (s : Nat) :
    ∃ I, SrCSAValid.buildPsi T sa s = some I ∧ LocateUp I.countMarkSlim I.locateMarkSlim T sa := by
  obtain ⟨I, hb, h⟩ := srcsapsimark_answers hT hsa hn s
  exact ⟨I, hb, h.exact.up⟩

/-! ## SRCSAValidArea -/

theorem srcsapsiarea_answers {T sa : List Nat} (hT : IsText T) (hsa : IsSA T sa) (hn : T.length < 2^64) (s : Nat) :
    ∃ I, SrCSAValid.buildPsi T sa s = some I ∧ Answers I.countAreaSlim I.locateAreaSlim T sa := by
  obtain ⟨I, T', K, V, hb, ok, st, -, hc⟩ := SrCSAValid.buildPsi_ok hT hsa (lt_W64 hn) s
  exact ⟨I, hb, ok.answers (ok.csa.slimOps st) hc ok.phiOK_area ok.phiValid_area⟩

/-- **C01** (SRCSAValidArea): the width of the range is the number of occurrences. -/
theorem c01_srcsapsiarea_count (T sa : List Nat) (hT : IsText T) (hsa : IsSA T sa) (hn : T.length < 2^64) (s : Nat) :
    ∃ I, SrCSAValid.buildPsi T sa s = some I ∧ CountExact I.countAreaSlim T := by
  obtain ⟨I, hb, h⟩ := srcsapsiarea_answers hT hsa hn s
  exact ⟨I, hb, h.exact.countExact⟩

/-- **C02** (SRCSAValidArea): the range is the suffix-array interval of the pattern. -/
theorem c02_srcsapsiarea_interval (T sa : List Nat) (hT : IsText T) (hsa : IsSA T sa) (hn : T.length < 2^64) (s : Nat) :
    ∃ I, SrCSAValid.buildPsi T sa s = some I ∧ CountInterval I.countAreaSlim T sa := by
  obtain ⟨I, hb, h⟩ := srcsapsiarea_answers hT hsa hn s
  exact ⟨I, hb, h.exact.countInterval⟩

/-- **C12**: SRCSAValidArea::Locate returns every starting position exactly once and nothing else, whatever the rate. -/
theorem c12_srcsapsiarea_locate (T sa : List Nat) (hT : IsText T) (hsa : IsSA T sa) (hn : T.length < 2^64) (s : Nat) :
    ∃ I, SrCSAValid.buildPsi T sa s = some I ∧ LocateExact I.locateAreaSlim T := by
  obtain ⟨I, hb, h⟩ := srcsapsiarea_answers hT hsa hn s
  exact ⟨I, hb, h.exact.locateExact List.Perm.refl⟩

example : (SrCSAValid.buildPsi exText exSA 1).bind (·.locateAreaSlim [1,2]) = some [6, 8, 3, 0] := by decide +kernel
example : (SrCSAValid.buildPsi exText exSA 3).bind (·.locateAreaSlim [2]) = some [7, 9, 4, 1] := by decide +kernel
example : (SrCSAValid.buildPsi exText exSA 6).bind (·.locateAreaSlim [2,3]) = some [9, 4, 1] := by decide +kernel
example : (SrCSAValid.buildPsi exText exSA 100).bind (·.locateAreaSlim [1]) = some [6, 8, 3, 0] := by decide +kernel
example : (SrCSAValid.buildPsi exText exSA 6).bind (·.countAreaSlim [2,3]) = some (6, 9) := by decide +kernel

/-- **C14** violated (SRCSAValidArea): an absent character is looked up as the terminator. -/
theorem c14_srcsapsiarea_absent_violation (T sa : List Nat) (hT : IsText T) (hsa : IsSA T sa) (hn : T.length < 2^64) (s : Nat) :
    ∃ I, SrCSAValid.buildPsi T sa s = some I ∧ AbsentAnswered I.countAreaSlim I.locateAreaSlim T := by
  obtain ⟨I, hb, h⟩ := srcsapsiarea_answers hT hsa hn s
  exact ⟨I, hb, h.absent⟩

example : (SrCSAValid.buildPsi exText exSA 6).bind (·.locateAreaSlim [9]) = some [11] := by decide +kernel

/-- **C14** (SRCSAValidArea), the part that holds; see `c14_rindex_absent_partial` for what is missing. -/
theorem c14_srcsapsiarea_absent_partial (T sa : List Nat) (hT : IsText T) (hsa : IsSA T sa) (hn : T.length < 2^64) (s : Nat) :
    ∃ I, SrCSAValid.buildPsi T sa s = some I ∧ AbsentEmpty I.countAreaSlim T := by
  obtain ⟨I, hb, h⟩ := srcsapsiarea_answers hT hsa hn s
  exact ⟨I, hb, h.absentEmpty⟩

/-- **C15** (SRCSAValidArea, Count): the empty pattern covers every suffix-array position. -/
theorem c15_srcsapsiarea_count_empty (T sa : List Nat) (hT : IsText T) (hsa : IsSA T sa) (hn : T.length < 2^64) (s : Nat) :
    ∃ I, SrCSAValid.buildPsi T sa s = some I ∧ I.countAreaSlim [] = some (0, T.length) := by
  obtain ⟨I, hb, h⟩ := srcsapsiarea_answers hT hsa hn s
  exact ⟨I, hb, h.countEmpty⟩

/-- **C15** violated (SRCSAValidArea, Locate): Locate of the empty pattern does not return every position exactly once. -/
theorem c15_srcsapsiarea_locate_empty_violation : ¬ ∀ (T sa : List Nat) (s : Nat), IsText T → IsSA T sa → 1 ≤ s →
    ∃ I l, SrCSAValid.buildPsi T sa s = some I ∧ I.locateAreaSlim [] = some l ∧ l.Perm (List.range T.length) := by
  intro h
  obtain ⟨I, l, h1, h2, h3⟩ := h exText exSA 4 exText_isText exSA_isSA (by omega)
  have h4 : (SrCSAValid.buildPsi exText exSA 4).bind (·.locateAreaSlim []) = some [10, 5, 2, 11, 6, 7, 9, 4, 1, 10, 5, 2] := by decide +kernel
  rw [h1, Option.bind_some, h2, Option.some_inj] at h4
  rw [h4] at h3
  exact absurd (h3.nodup_iff.2 List.nodup_range) (by decide)

/-- **C18** (SRCSAValidArea): whenever the search over a pattern ends in a non-empty range, the toehold computed from the recorded step, by
    walking to the nearest kept sample, is the suffix-array entry of the first position of the range. -/
theorem c18_srcsapsiarea_toehold (T sa : List Nat) (hT : IsText T) (hsa : IsSA T sa) (hn : T.length < 2^64) (s : Nat) :
    ∃ I, SrCSAValid.buildPsi T sa s = some I ∧ ∀ P, IsPattern P T →
      ∃ r d, (I.functorsWith I.csa.slimOps I.phiArea).locateLoop P.reverse { start := 0, stop := I.csa.n }
          { step := 0, run := { pos := 0, c := 0, rank := 0, isRunStart := false } } = some (r, d) ∧
        IsInterval P T sa r.start r.stop ∧ (r.start < r.stop → computeToehold (I.csa.saValueOfRun I.csa.slimOps) I.csa.n d = sa[r.start]?) := by
  obtain ⟨I, T', K, V, hb, ok, st, -, hc⟩ := SrCSAValid.buildPsi_ok hT hsa (lt_W64 hn) s
  exact ⟨I, hb, fun P hP => ok.csa.toehold_sound (ok.csa.slimOps st) hc _ hP⟩

/-- **C37** (SRCSAValidArea): Locate returns exactly as many values as Count's range is wide; both terminate without fault. -/
theorem c37_srcsapsiarea_length (T sa : List Nat) (hT : IsText T) (hsa : IsSA T sa) (hn : T.length < 2^64) (s : Nat) :
    ∃ I, SrCSAValid.buildPsi T sa s = some I ∧ LocateLength I.countAreaSlim I.locateAreaSlim T := by
  obtain ⟨I, hb, h⟩ := srcsapsiarea_answers hT hsa hn s
  exact ⟨I, hb, h.exact.locateLength List.Perm.refl⟩

/-- **C39** (SRCSAValidArea): positions are reported in the order of the suffix array. -/
theorem c39_srcsapsiarea_order (T sa : List Nat) (hT : IsText T) (hsa : IsSA T sa) (hn : T.length < 2^64) (s : Nat) :
    ∃ I, SrCSAValid.buildPsi T sa s = some I ∧ LocateUp I.countAreaSlim I.locateAreaSlim T sa := by
  obtain ⟨I, hb, h⟩ := srcsapsiarea_answers hT hsa hn s
  exact ⟨I, hb, h.exact.up⟩

/-! ## trusted values -/

/-- **C20** (over SrCSA): if the sub-sampled phi with validity marks answers that its value can be trusted, the value is the one the phi of
    the full r-CSA gives. -/
theorem c20_srcsa_mark_phi (T sa : List Nat) (hT : IsText T) (hsa : IsSA T sa) (hn : T.length < 2^64) (s : Nat) :
    ∃ I R, SrCSAValid.build T sa s = some I ∧ RCSABwt.build T sa = some R ∧ ∀ i (h : i + 1 < sa.length),
      ∃ w ok, I.phiMark sa[i] = some (w, ok) ∧ (ok = true → R.phi sa[i] = some (w, true)) := by
  obtain ⟨I, T', K, V, hb, ok, st, -, hc⟩ := SrCSAValid.build_ok hT hsa (lt_W64 hn) s
  obtain ⟨R, hR, hphi⟩ := c17_rcsabwt_phi T sa hT hsa hn
  refine ⟨I, R, hb, hR, fun i h => ?_⟩
  have hl : sa.length = T'.length := hc.isSA.length
  obtain ⟨w, okm, oka, e1, -, e3, -, -, -⟩ := ok.phi_spec (i := i) (by omega)
  rw [saAt_getElem (by omega)] at e1
  refine ⟨w, okm, e1, fun hok => ?_⟩
  rw [hphi i h, e3 (by omega) hok, saAt_getElem h]

/-- **C20** (over SrCSA): the same for validity areas. -/
theorem c20_srcsa_area_phi (T sa : List Nat) (hT : IsText T) (hsa : IsSA T sa) (hn : T.length < 2^64) (s : Nat) :
    ∃ I R, SrCSAValid.build T sa s = some I ∧ RCSABwt.build T sa = some R ∧ ∀ i (h : i + 1 < sa.length),
      ∃ w ok, I.phiArea sa[i] = some (w, ok) ∧ (ok = true → R.phi sa[i] = some (w, true)) := by
  obtain ⟨I, T', K, V, hb, ok, st, -, hc⟩ := SrCSAValid.build_ok hT hsa (lt_W64 hn) s
  obtain ⟨R, hR, hphi⟩ := c17_rcsabwt_phi T sa hT hsa hn
  refine ⟨I, R, hb, hR, fun i h => ?_⟩
  have hl : sa.length = T'.length := hc.isSA.length
  obtain ⟨w, okm, oka, -, e2, -, e4, -, -⟩ := ok.phi_spec (i := i) (by omega)
  rw [saAt_getElem (by omega)] at e2
  refine ⟨w, oka, e2, fun hok => ?_⟩
  rw [hphi i h, e4 (by omega) hok, saAt_getElem h]

/-- **C20** (over SrCSA): the areas trust at least what the marks trust, with the same value. -/
theorem c20_srcsa_area_extends_mark (T sa : List Nat) (hT : IsText T) (hsa : IsSA T sa) (hn : T.length < 2^64) (s : Nat) :
    ∃ I, SrCSAValid.build T sa s = some I ∧ ∀ i (h : i < sa.length), ∀ w, I.phiMark sa[i] = some (w, true) → I.phiArea sa[i] = some (w, true) := by
  obtain ⟨I, T', K, V, hb, ok, st, -, hc⟩ := SrCSAValid.build_ok hT hsa (lt_W64 hn) s
  refine ⟨I, hb, fun i h w hw => ?_⟩
  have hl : sa.length = T'.length := hc.isSA.length
  obtain ⟨w', okm, oka, e1, e2, -, -, -, e6⟩ := ok.phi_spec (i := i) (by omega)
  rw [saAt_getElem h] at e1 e2
  rw [hw, Option.some_inj, Prod.mk.injEq] at e1
  obtain ⟨rfl, rfl⟩ := e1
  rw [e2, e6 rfl]

/-- **C20** (over SrCSASlim): if the sub-sampled phi with validity marks answers that its value can be trusted, the value is the one the phi of
    the full r-CSA gives. -/
theorem c20_srcsaslim_mark_phi (T sa : List Nat) (hT : IsText T) (hsa : IsSA T sa) (hn : T.length < 2^64) (s : Nat) :
    ∃ I R, SrCSAValid.buildSlim T sa s = some I ∧ RCSABwt.build T sa = some R ∧ ∀ i (h : i + 1 < sa.length),
      ∃ w ok, I.phiMark sa[i] = some (w, ok) ∧ (ok = true → R.phi sa[i] = some (w, true)) := by
  obtain ⟨I, T', K, V, hb, ok, st, -, hc⟩ := SrCSAValid.buildSlim_ok hT hsa (lt_W64 hn) s
  obtain ⟨R, hR, hphi⟩ := c17_rcsabwt_phi T sa hT hsa hn
  refine ⟨I, R, hb, hR, fun i h => ?_⟩
  have hl : sa.length = T'.length := hc.isSA.length
  obtain ⟨w, okm, oka, e1, -, e3, -, -, -⟩ := ok.phi_spec (i := i) (by omega)
  rw [saAt_getElem (by omega)] at e1
  refine ⟨w, okm, e1, fun hok => ?_⟩
  rw [hphi i h, e3 (by omega) hok, saAt_getElem h]

/-- **C20** (over SrCSASlim): the same for validity areas. -/
theorem c20_srcsaslim_area_phi (T sa : List Nat) (hT : IsText T) (hsa : IsSA T sa) (hn : T.length < 2^64) (s : Nat) :
    ∃ I R, SrCSAValid.buildSlim T sa s = some I ∧ RCSABwt.build T sa = some R ∧ ∀ i (h : i + 1 < sa.length),
      ∃ w ok, I.phiArea sa[i] = some (w, ok) ∧ (ok = true → R.phi sa[i] = some (w, true)) := by
  obtain ⟨I, T', K, V, hb, ok, st, -, hc⟩ := SrCSAValid.buildSlim_ok hT hsa (lt_W64 hn) s
  obtain ⟨R, hR, hphi⟩ := c17_rcsabwt_phi T sa hT hsa hn
  refine ⟨I, R, hb, hR, fun i h => ?_⟩
  have hl : sa.length = T'.length := hc.isSA.length
  obtain ⟨w, okm, oka, -, e2, -, e4, -, -⟩ := ok.phi_spec (i := i) (by omega)
  rw [saAt_getElem (by omega)] at e2
  refine ⟨w, oka, e2, fun hok => ?_⟩
  rw [hphi i h, e4 (by omega) hok, saAt_getElem h]

/-- **C20** (over SrCSASlim): the areas trust at least what the marks trust, with the same value. -/
theorem c20_srcsaslim_area_extends_mark (T sa : List Nat) (hT : IsText T) (hsa : IsSA T sa) (hn : T.length < 2^64) (s : Nat) :
    ∃ I, SrCSAValid.buildSlim T sa s = some I ∧ ∀ i (h : i < sa.length), ∀ w, I.phiMark sa[i] = some (w, true) → I.phiArea sa[i] = some (w, true) := by
  obtain ⟨I, T', K, V, hb, ok, st, -, hc⟩ := SrCSAValid.buildSlim_ok hT hsa (lt_W64 hn) s
  refine ⟨I, hb, fun i h w hw => ?_⟩
  have hl : sa.length = T'.length := hc.isSA.length
  obtain ⟨w', okm, oka, e1, e2, -, -, -, e6⟩ := ok.phi_spec (i := i) (by omega)
  rw [saAt_getElem h] at e1 e2
  rw [hw, Option.some_inj, Prod.mk.injEq] at e1
  obtain ⟨rfl, rfl⟩ := e1
  rw [e2, e6 rfl]

/-- **C20** (over SrCSAWithPsiRun): if the sub-sampled phi with validity marks answers that its value can be trusted, the value is the one the phi of
    the full r-CSA gives. -/
theorem c20_srcsapsi_mark_phi (T sa : List Nat) (hT : IsText T) (hsa : IsSA T sa) (hn : T.length < 2^64) (s : Nat) :
    ∃ I R, SrCSAValid.buildPsi T sa s = some I ∧ RCSABwt.build T sa = some R ∧ ∀ i (h : i + 1 < sa.length),
      ∃ w ok, I.phiMark sa[i] = some (w, ok) ∧ (ok = true → R.phi sa[i] = some (w, true)) := by
  obtain ⟨I, T', K, V, hb, ok, st, -, hc⟩ := SrCSAValid.buildPsi_ok hT hsa (lt_W64 hn) s
  obtain ⟨R, hR, hphi⟩ := c17_rcsabwt_phi T sa hT hsa hn
  refine ⟨I, R, hb, hR, fun i h => ?_⟩
  have hl : sa.length = T'.length := hc.isSA.length
  obtain ⟨w, okm, oka, e1, -, e3, -, -, -⟩ := ok.phi_spec (i := i) (by omega)
  rw [saAt_getElem (by omega)] at e1
  refine ⟨w, okm, e1, fun hok => ?_⟩
  rw [hphi i h, e3 (by omega) hok, saAt_getElem h]

/-- **C20** (over SrCSAWithPsiRun): the same for validity areas. -/
theorem c20_srcsapsi_area_phi (T sa : List Nat) (hT : IsText T) (hsa : IsSA T sa) (hn : T.length < 2^64) (s : Nat) :
    ∃ I R, SrCSAValid.buildPsi T sa s = some I ∧ RCSABwt.build T sa = some R ∧ ∀ i (h : i + 1 < sa.length),
      ∃ w ok, I.phiArea sa[i] = some (w, ok) ∧ (ok = true → R.phi sa[i] = some (w, true)) := by
  obtain ⟨I, T', K, V, hb, ok, st, -, hc⟩ := SrCSAValid.buildPsi_ok hT hsa (lt_W64 hn) s
  obtain ⟨R, hR, hphi⟩ := c17_rcsabwt_phi T sa hT hsa hn
  refine ⟨I, R, hb, hR, fun i h => ?_⟩
  have hl : sa.length = T'.length := hc.isSA.length
  obtain ⟨w, okm, oka, -, e2, -, e4, -, -⟩ := ok.phi_spec (i := i) (by omega)
  rw [saAt_getElem (by omega)] at e2
  refine ⟨w, oka, e2, fun hok => ?_⟩
  rw [hphi i h, e4 (by omega) hok, saAt_getElem h]

/-- **C20** (over SrCSAWithPsiRun): the areas trust at least what the marks trust, with the same value. -/
theorem c20_srcsapsi_area_extends_mark (T sa : List Nat) (hT : IsText T) (hsa : IsSA T sa) (hn : T.length < 2^64) (s : Nat) :
    ∃ I, SrCSAValid.buildPsi T sa s = some I ∧ ∀ i (h : i < sa.length), ∀ w, I.phiMark sa[i] = some (w, true) → I.phiArea sa[i] = some (w, true) := by
  obtain ⟨I, T', K, V, hb, ok, st, -, hc⟩ := SrCSAValid.buildPsi_ok hT hsa (lt_W64 hn) s
  refine ⟨I, hb, fun i h w hw => ?_⟩
  have hl : sa.length = T'.length := hc.isSA.length
  obtain ⟨w', okm, oka, e1, e2, -, -, -, e6⟩ := ok.phi_spec (i := i) (by omega)
  rw [saAt_getElem h] at e1 e2
  rw [hw, Option.some_inj, Prod.mk.injEq] at e1
  obtain ⟨rfl, rfl⟩ := e1
  rw [e2, e6 rfl]

-- a trusted value, a value trusted by the area only, and an untrusted one that is wrong
example : (SrCSAValid.build exText exSA 6).bind (·.phiMark 5) = some (2, true) := by decide +kernel
example : (SrCSAValid.build exText exSA 6).bind (·.phiMark 8) = some (3, false) := by decide +kernel
example : (SrCSAValid.build exText exSA 6).bind (·.phiArea 8) = some (3, true) := by decide +kernel
example : (SrCSAValid.build exText exSA 6).bind (·.phiArea 6) = some (1, false) := by decide +kernel
example : (RCSABwt.build exText exSA).bind (·.phi 6) = some (8, true) := by decide +kernel

end Sri
