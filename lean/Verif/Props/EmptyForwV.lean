import Verif.Props.SrCSA
import Verif.Proofs.EmptyForwV
/-! # Locate of the empty pattern with validity information, for every text and rate -/
namespace Sri
set_option autoImplicit false

/-- as many text positions as there are, but in an order that starts with the position before the terminator's, where Count's interval starts
    with the terminator's (C39) -/
def EmptyFromBefore (T sa l : List Nat) : Prop :=
  l.length = T.length ∧ (∀ v ∈ l, v < T.length) ∧ l.head? = some (T.length - 2) ∧ sa.head? = some (T.length - 1)

theorem SrCSAValid.OK.emptyFrom {I : SrCSAValid} {T T' sa K : List Nat} {V : List (Nat × Nat)} {O : ForwOps} {Good : FRun → Prop}
    {den : FData → Nat → Prop} {Strong : FData → Prop} (h : I.OK T' sa K V) (ho : SrCSA.OpsOK O T' sa K Good den Strong)
    (hT : IsText T) (hsa : IsSA T sa) (h2 : 2 ≤ T.length) (hl : T'.length = T.length)
    (hi : O.getSampleData SrCSA.data0 = some none ∨ O.getSampleData SrCSA.data0 = some (some (pv T' sa 0)))
    {phi : Nat → Option (Nat × Bool)} (hphi : PhiOKF T' sa I.csa.s (keptHd T' sa K) phi) (hlt : PhiLt T'.length phi) :
    ∃ l, (I.functorsWith O phi).locate [] = some l ∧ EmptyFromBefore T sa l := by
  obtain ⟨l, e1, ⟨e2, e3⟩, e4⟩ := h.locate_empty ho (by omega) hi hphi hlt
  rw [hl] at e2 e3 e4
  exact ⟨l, e1, e2, e3, e4, by 
    have h0 := sa_zero hT hsa
    have hlen : sa.length = T.length := by rw [hsa.1.length_eq, List.length_range]
    cases sa with
    | nil => simp only [List.length_nil] at hlen; omega
    | cons a as => rw [← h0]; rfl⟩

/-- **C15** (SrCSAValidMark<SrCSA>, Locate), what Locate of the empty pattern answers instead, for every text of at least one character and every rate: it
    ends, reports as many text positions as there are, and starts with the wrong one. Missing: every position once, which fails
    (`c15_srcsamark_locate_empty_violation`). -/
theorem c15_srcsamark_locate_empty_partial (T sa : List Nat) (hT : IsText T) (hsa : IsSA T sa) (h2 : 2 ≤ T.length) (hn : T.length < 2^64) (s : Nat) :
    ∃ I l, SrCSAValid.build T sa s = some I ∧ I.locateMark [] = some l ∧ EmptyFromBefore T sa l := by
  obtain ⟨I, T', K, V, hb, ok, st, -, hc⟩ := SrCSAValid.build_ok hT hsa (lt_W64 hn) s
  have hl := hc.len
  obtain ⟨l, e1, e2⟩ := ok.emptyFrom (ok.csa.posOps st) hT hsa h2 (by omega)
    ((Classical.em (keptHd T' sa K 0)).elim (fun h => Or.inr ((st.getSamplePos ok.csa.lt (show 0 < T'.length by omega)).1 h))
      (fun h => Or.inl ((st.getSamplePos ok.csa.lt (show 0 < T'.length by omega)).2 h))) ok.phiOK_mark ok.phiLt_mark
  exact ⟨I, l, hb, e1, e2⟩

example : ∃ I l, SrCSAValid.build exText exSA 4 = some I ∧ I.locateMark [] = some l ∧ l.head? = some 10 := by
  obtain ⟨I, l, h1, h2, -, -, h3, -⟩ := c15_srcsamark_locate_empty_partial exText exSA exText_isText exSA_isSA (by decide) (by decide) 4
  exact ⟨I, l, h1, h2, h3⟩

/-- **C15** (SrCSAValidArea<SrCSA>, Locate), what Locate of the empty pattern answers instead, for every text of at least one character and every rate: it
    ends, reports as many text positions as there are, and starts with the wrong one. Missing: every position once, which fails
    (`c15_srcsaarea_locate_empty_violation`). -/
theorem c15_srcsaarea_locate_empty_partial (T sa : List Nat) (hT : IsText T) (hsa : IsSA T sa) (h2 : 2 ≤ T.length) (hn : T.length < 2^64) (s : Nat) :
    ∃ I l, SrCSAValid.build T sa s = some I ∧ I.locateArea [] = some l ∧ EmptyFromBefore T sa l := by
  obtain ⟨I, T', K, V, hb, ok, st, -, hc⟩ := SrCSAValid.build_ok hT hsa (lt_W64 hn) s
  have hl := hc.len
  obtain ⟨l, e1, e2⟩ := ok.emptyFrom (ok.csa.posOps st) hT hsa h2 (by omega)
    ((Classical.em (keptHd T' sa K 0)).elim (fun h => Or.inr ((st.getSamplePos ok.csa.lt (show 0 < T'.length by omega)).1 h))
      (fun h => Or.inl ((st.getSamplePos ok.csa.lt (show 0 < T'.length by omega)).2 h))) ok.phiOK_area ok.phiLt_area
  exact ⟨I, l, hb, e1, e2⟩

example : ∃ I l, SrCSAValid.build exText exSA 4 = some I ∧ I.locateArea [] = some l ∧ l.head? = some 10 := by
  obtain ⟨I, l, h1, h2, -, -, h3, -⟩ := c15_srcsaarea_locate_empty_partial exText exSA exText_isText exSA_isSA (by decide) (by decide) 4
  exact ⟨I, l, h1, h2, h3⟩

/-- **C15** (SrCSAValidMark<SrCSASlim>, Locate), what Locate of the empty pattern answers instead, for every text of at least one character and every rate: it
    ends, reports as many text positions as there are, and starts with the wrong one. Missing: every position once, which fails
    (`c15_srcsaslimmark_locate_empty_violation`). -/
theorem c15_srcsaslimmark_locate_empty_partial (T sa : List Nat) (hT : IsText T) (hsa : IsSA T sa) (h2 : 2 ≤ T.length) (hn : T.length < 2^64) (s : Nat) :
    ∃ I l, SrCSAValid.buildSlim T sa s = some I ∧ I.locateMarkSlim [] = some l ∧ EmptyFromBefore T sa l := by
  obtain ⟨I, T', K, V, hb, ok, st, -, hc⟩ := SrCSAValid.buildSlim_ok hT hsa (lt_W64 hn) s
  have hl := hc.len
  obtain ⟨l, e1, e2⟩ := ok.emptyFrom (ok.csa.slimOps st) hT hsa h2 (by omega)
    (Or.inl rfl) ok.phiOK_mark ok.phiLt_mark
  exact ⟨I, l, hb, e1, e2⟩

example : ∃ I l, SrCSAValid.buildSlim exText exSA 4 = some I ∧ I.locateMarkSlim [] = some l ∧ l.head? = some 10 := by
  obtain ⟨I, l, h1, h2, -, -, h3, -⟩ := c15_srcsaslimmark_locate_empty_partial exText exSA exText_isText exSA_isSA (by decide) (by decide) 4
  exact ⟨I, l, h1, h2, h3⟩

/-- **C15** (SrCSAValidArea<SrCSASlim>, Locate), what Locate of the empty pattern answers instead, for every text of at least one character and every rate: it
    ends, reports as many text positions as there are, and starts with the wrong one. Missing: every position once, which fails
    (`c15_srcsaslimarea_locate_empty_violation`). -/
theorem c15_srcsaslimarea_locate_empty_partial (T sa : List Nat) (hT : IsText T) (hsa : IsSA T sa) (h2 : 2 ≤ T.length) (hn : T.length < 2^64) (s : Nat) :
    ∃ I l, SrCSAValid.buildSlim T sa s = some I ∧ I.locateAreaSlim [] = some l ∧ EmptyFromBefore T sa l := by
  obtain ⟨I, T', K, V, hb, ok, st, -, hc⟩ := SrCSAValid.buildSlim_ok hT hsa (lt_W64 hn) s
  have hl := hc.len
  obtain ⟨l, e1, e2⟩ := ok.emptyFrom (ok.csa.slimOps st) hT hsa h2 (by omega)
    (Or.inl rfl) ok.phiOK_area ok.phiLt_area
  exact ⟨I, l, hb, e1, e2⟩

example : ∃ I l, SrCSAValid.buildSlim exText exSA 4 = some I ∧ I.locateAreaSlim [] = some l ∧ l.head? = some 10 := by
  obtain ⟨I, l, h1, h2, -, -, h3, -⟩ := c15_srcsaslimarea_locate_empty_partial exText exSA exText_isText exSA_isSA (by decide) (by decide) 4
  exact ⟨I, l, h1, h2, h3⟩

/-- **C15** (SRCSAValidMark, Locate), what Locate of the empty pattern answers instead, for every text of at least one character and every rate: it
    ends, reports as many text positions as there are, and starts with the wrong one. Missing: every position once, which fails
    (`c15_srcsapsimark_locate_empty_violation`). -/
theorem c15_srcsapsimark_locate_empty_partial (T sa : List Nat) (hT : IsText T) (hsa : IsSA T sa) (h2 : 2 ≤ T.length) (hn : T.length < 2^64) (s : Nat) :
    ∃ I l, SrCSAValid.buildPsi T sa s = some I ∧ I.locateMarkSlim [] = some l ∧ EmptyFromBefore T sa l := by
  obtain ⟨I, T', K, V, hb, ok, st, -, hc⟩ := SrCSAValid.buildPsi_ok hT hsa (lt_W64 hn) s
  have hl := hc.len
  obtain ⟨l, e1, e2⟩ := ok.emptyFrom (ok.csa.slimOps st) hT hsa h2 (by omega)
    (Or.inl rfl) ok.phiOK_mark ok.phiLt_mark
  exact ⟨I, l, hb, e1, e2⟩

example : ∃ I l, SrCSAValid.buildPsi exText exSA 4 = some I ∧ I.locateMarkSlim [] = some l ∧ l.head? = some 10 := by
  obtain ⟨I, l, h1, h2, -, -, h3, -⟩ := c15_srcsapsimark_locate_empty_partial exText exSA exText_isText exSA_isSA (by decide) (by decide) 4
  exact ⟨I, l, h1, h2, h3⟩

/-- **C15** (SRCSAValidArea, Locate), what Locate of the empty pattern answers instead, for every text of at least one character and every rate: it
    ends, reports as many text positions as there are, and starts with the wrong one. Missing: every position once, which fails
    (`c15_srcsapsiarea_locate_empty_violation`). -/
theorem c15_srcsapsiarea_locate_empty_partial (T sa : List Nat) (hT : IsText T) (hsa : IsSA T sa) (h2 : 2 ≤ T.length) (hn : T.length < 2^64) (s : Nat) :
    ∃ I l, SrCSAValid.buildPsi T sa s = some I ∧ I.locateAreaSlim [] = some l ∧ EmptyFromBefore T sa l := by
  obtain ⟨I, T', K, V, hb, ok, st, -, hc⟩ := SrCSAValid.buildPsi_ok hT hsa (lt_W64 hn) s
  have hl := hc.len
  obtain ⟨l, e1, e2⟩ := ok.emptyFrom (ok.csa.slimOps st) hT hsa h2 (by omega)
    (Or.inl rfl) ok.phiOK_area ok.phiLt_area
  exact ⟨I, l, hb, e1, e2⟩

example : ∃ I l, SrCSAValid.buildPsi exText exSA 4 = some I ∧ I.locateAreaSlim [] = some l ∧ l.head? = some 10 := by
  obtain ⟨I, l, h1, h2, -, -, h3, -⟩ := c15_srcsapsiarea_locate_empty_partial exText exSA exText_isText exSA_isSA (by decide) (by decide) 4
  exact ⟨I, l, h1, h2, h3⟩

end Sri
