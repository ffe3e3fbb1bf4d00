import Verif.Proofs.RCSA
import Verif.Props.RIndex
/-! # Properties of RCSAWithBWTRun and RCSAWithPsiRun

`T.length < 2^64`: the lengths of the texts are `std::size_t` values in the code; the encoding of the psi function needs it. -/
namespace Sri
set_option autoImplicit false

theorem lt_W64 {n : Nat} (h : n < 2^64) : n < W64 := by rw [W64_eq]; exact h

theorem RCSA.OK.phi_sa {I : RCSA} {T sa ord : List Nat} {lnk : Nat → Nat} (ok : I.OK T sa ord lnk) {i : Nat} (h : i < sa.length) :
    I.phi sa[i] = some (sa.getD ((i + 1) % sa.length) 0, true) := by
  have hl := ok.nav.isSA.length
  have := ok.phi_eq (i := i) (by omega)
  rw [saAt_getElem h, ← hl] at this
  exact this

/-! ## RCSAWithBWTRun -/

theorem rcsabwt_ok {T sa : List Nat} (hT : IsText T) (hsa : IsSA T sa) (hn : T.length < 2^64) :
    ∃ I T' ord lnk, RCSABwt.build T sa = some I ∧ I.OK T' sa ord lnk ∧ Compact T sa I.alphabet T' ∧
      RCSA.Variant T' sa (RCSABwt.den T' sa) RCSABwt.createData { step := 0, run := 0 } (RCSABwt.saValueOfRun I) := by
  obtain ⟨I, T', hb, ok, hc⟩ := RCSABwt.build_ok hT hsa (lt_W64 hn)
  exact ⟨I, T', _, _, hb, ok, hc, RCSABwt.variant ok⟩

theorem rcsabwt_exact {T sa : List Nat} (hT : IsText T) (hsa : IsSA T sa) (hn : T.length < 2^64) :
    ∃ I, RCSABwt.build T sa = some I ∧ Exact (RCSABwt.count I) (RCSABwt.locate I) T sa id := by
  obtain ⟨I, T', ord, lnk, hb, ok, hc, hv⟩ := rcsabwt_ok hT hsa hn
  exact ⟨I, hb, ok.exact hc hv⟩

/-- **C01** (RCSAWithBWTRun): the width of the range is the number of occurrences. -/
theorem c01_rcsabwt_count (T sa : List Nat) (hT : IsText T) (hsa : IsSA T sa) (hn : T.length < 2^64) :
    ∃ I, RCSABwt.build T sa = some I ∧ CountExact (RCSABwt.count I) T := by
  obtain ⟨I, hb, h⟩ := rcsabwt_exact hT hsa hn
  exact ⟨I, hb, h.countExact⟩

/-- **C02** (RCSAWithBWTRun): the range is the suffix-array interval of the pattern. -/
theorem c02_rcsabwt_interval (T sa : List Nat) (hT : IsText T) (hsa : IsSA T sa) (hn : T.length < 2^64) :
    ∃ I, RCSABwt.build T sa = some I ∧ CountInterval (RCSABwt.count I) T sa := by
  obtain ⟨I, hb, h⟩ := rcsabwt_exact hT hsa hn
  exact ⟨I, hb, h.countInterval⟩

example : (RCSABwt.build exText exSA).bind (RCSABwt.count · [2,3]) = some (6, 9) := by decide +kernel

/-- **C04**: RCSAWithBWTRun::Locate returns every starting position exactly once and nothing else. -/
theorem c04_rcsabwt_locate (T sa : List Nat) (hT : IsText T) (hsa : IsSA T sa) (hn : T.length < 2^64) :
    ∃ I, RCSABwt.build T sa = some I ∧ LocateExact (RCSABwt.locate I) T := by
  obtain ⟨I, hb, h⟩ := rcsabwt_exact hT hsa hn
  exact ⟨I, hb, h.locateExact List.Perm.refl⟩

example : (RCSABwt.build exText exSA).bind (RCSABwt.locate · [1,2]) = some [6, 8, 3, 0] := by decide +kernel
example : (RCSABwt.build exText exSA).bind (RCSABwt.locate · [2,3]) = some [9, 4, 1] := by decide +kernel
example : (RCSABwt.build [0] [0]).bind (RCSABwt.locate · [0]) = some [0] := by decide +kernel

/-- **C14** violated (RCSAWithBWTRun): an absent character is looked up as the terminator. -/
theorem c14_rcsabwt_absent_violation (T sa : List Nat) (hT : IsText T) (hsa : IsSA T sa) (hn : T.length < 2^64) :
    ∃ I, RCSABwt.build T sa = some I ∧ AbsentAnswered (RCSABwt.count I) (RCSABwt.locate I) T := by
  obtain ⟨I, T', ord, lnk, hb, ok, hc, hv⟩ := rcsabwt_ok hT hsa hn
  exact ⟨I, hb, ok.absent hc hv⟩

example : (RCSABwt.build exText exSA).bind (RCSABwt.locate · [9]) = some [11] := by decide +kernel

/-- **C14** (RCSAWithBWTRun), the part that holds; see `c14_rindex_absent_partial` for what is missing. -/
theorem c14_rcsabwt_absent_partial (T sa : List Nat) (hT : IsText T) (hsa : IsSA T sa) (hn : T.length < 2^64) :
    ∃ I, RCSABwt.build T sa = some I ∧ AbsentEmpty (RCSABwt.count I) T := by
  obtain ⟨I, T', ord, lnk, hb, ok, hc, hv⟩ := rcsabwt_ok hT hsa hn
  exact ⟨I, hb, ok.absentEmpty hc⟩

/-- **C15** (RCSAWithBWTRun, Count): the empty pattern covers every suffix-array position. -/
theorem c15_rcsabwt_count_empty (T sa : List Nat) (hT : IsText T) (hsa : IsSA T sa) (hn : T.length < 2^64) :
    ∃ I, RCSABwt.build T sa = some I ∧ (RCSABwt.count I) [] = some (0, T.length) := by
  obtain ⟨I, T', ord, lnk, hb, ok, hc, hv⟩ := rcsabwt_ok hT hsa hn
  exact ⟨I, hb, ok.countEmpty hc⟩

/-- **C15** (RCSAWithBWTRun, Locate): Locate of the empty pattern returns every text position exactly once, as a rotation of the suffix
    array (the initial data name the first run, so the report starts at LF(0)). -/
theorem c15_rcsabwt_locate_empty (T sa : List Nat) (hT : IsText T) (hsa : IsSA T sa) (hn : T.length < 2^64) :
    ∃ I l, RCSABwt.build T sa = some I ∧ RCSABwt.locate I [] = some l ∧ l.Perm (List.range T.length) ∧ ∃ k, l = sa.rotate k := by
  obtain ⟨I, T', ord, lnk, hb, ok, hc, hv⟩ := rcsabwt_ok hT hsa hn
  refine ⟨I, _, hb, ok.locateEmpty hc hv (nrun_pos hc.text.pos) (show (0 : Nat) = hd T' sa 0 from hd_zero.symm), ?_, _, rfl⟩
  exact (List.rotate_perm sa _).trans hsa.1

example : (RCSABwt.build exText exSA).bind (RCSABwt.locate · []) = some [10, 5, 2, 11, 6, 8, 3, 0, 7, 9, 4, 1] := by decide +kernel

/-- **C17** (RCSAWithBWTRun): the phi of the full r-CSA maps `SA[i]` to `SA[i+1]`. -/
theorem c17_rcsabwt_phi (T sa : List Nat) (hT : IsText T) (hsa : IsSA T sa) (hn : T.length < 2^64) :
    ∃ I, RCSABwt.build T sa = some I ∧ ∀ i (h : i + 1 < sa.length), I.phi sa[i] = some (sa[i+1], true) := by
  obtain ⟨I, T', ord, lnk, hb, ok, hc, hv⟩ := rcsabwt_ok hT hsa hn
  refine ⟨I, hb, fun i h => ?_⟩
  rw [ok.phi_sa (by omega), Nat.mod_eq_of_lt h]
  simp [List.getD_eq_getElem?_getD, List.getElem?_eq_getElem h]

/-- **C17** (RCSAWithBWTRun), the last position: phi wraps around to `SA[0]`. -/
theorem c17_rcsabwt_phi_last (T sa : List Nat) (hT : IsText T) (hsa : IsSA T sa) (hn : T.length < 2^64) :
    ∃ I, RCSABwt.build T sa = some I ∧ I.phi (sa.getD (T.length - 1) 0) = some (sa.getD 0 0, true) := by
  obtain ⟨I, T', ord, lnk, hb, ok, hc, hv⟩ := rcsabwt_ok hT hsa hn
  have hp := hT.pos
  have hl := hsa.length
  refine ⟨I, hb, ?_⟩
  have := ok.phi_sa (i := T.length - 1) (by omega)
  rw [show T.length - 1 + 1 = sa.length by omega, Nat.mod_self] at this
  rw [← this]
  simp [List.getD_eq_getElem?_getD, List.getElem?_eq_getElem (show T.length - 1 < sa.length by omega)]

example : (RCSABwt.build exText exSA).bind (·.phi 8) = some (3, true) := by decide +kernel
example : (RCSABwt.build exText exSA).bind (·.phi 2) = some (11, true) := by decide +kernel

/-- **C18** (forward indexes, RCSAWithBWTRun): whenever the search over a pattern ends in a non-empty range, the toehold computed from the
    recorded step is the suffix-array entry of the first position of the range. -/
theorem c18_rcsabwt_toehold (T sa : List Nat) (hT : IsText T) (hsa : IsSA T sa) (hn : T.length < 2^64) :
    ∃ I, RCSABwt.build T sa = some I ∧ ∀ P, IsPattern P T →
      ∃ r d, (RCSABwt.functors I).locateLoop P.reverse { start := 0, stop := I.n } { step := 0, run := 0 } = some (r, d) ∧
        IsInterval P T sa r.start r.stop ∧ (r.start < r.stop → computeToehold (RCSABwt.saValueOfRun I) I.psi.n d = sa[r.start]?) := by
  obtain ⟨I, T', ord, lnk, hb, ok, hc, hv⟩ := rcsabwt_ok hT hsa hn
  exact ⟨I, hb, fun P hP => ok.nav.toehold_search hc (RCSA.navigates I _ _ _) rfl hv.creates rfl (fun _ => rfl)
    (fun Q r d h1 h2 => ok.toehold_eq hv h1 h2) hP 0⟩

/-- **C37** (RCSAWithBWTRun): Locate returns exactly as many values as Count's range is wide; both terminate without fault. -/
theorem c37_rcsabwt_length (T sa : List Nat) (hT : IsText T) (hsa : IsSA T sa) (hn : T.length < 2^64) :
    ∃ I, RCSABwt.build T sa = some I ∧ LocateLength (RCSABwt.count I) (RCSABwt.locate I) T := by
  obtain ⟨I, hb, h⟩ := rcsabwt_exact hT hsa hn
  exact ⟨I, hb, h.locateLength List.Perm.refl⟩

/-- **C39** (RCSAWithBWTRun): positions are reported in the order of the suffix array. -/
theorem c39_rcsabwt_order (T sa : List Nat) (hT : IsText T) (hsa : IsSA T sa) (hn : T.length < 2^64) :
    ∃ I, RCSABwt.build T sa = some I ∧ LocateUp (RCSABwt.count I) (RCSABwt.locate I) T sa := by
  obtain ⟨I, hb, h⟩ := rcsabwt_exact hT hsa hn
  exact ⟨I, hb, h.up⟩

/-! ## RCSAWithPsiRun -/

theorem rcsapsi_ok {T sa : List Nat} (hT : IsText T) (hsa : IsSA T sa) (hn : T.length < 2^64) :
    ∃ I T' ord lnk, RCSAPsi.build T sa = some I ∧ I.OK T' sa ord lnk ∧ Compact T sa I.alphabet T' ∧
      RCSA.Variant T' sa (RCSAPsi.den T' sa) RCSAPsi.createData { step := 0, run := { c := 0, partialRank := 0 } } (RCSAPsi.saValueOfRun I) := by
  obtain ⟨I, T', hb, hc, ok⟩ := RCSAPsi.build_ok hT hsa (lt_W64 hn)
  exact ⟨I, T', _, _, hb, ok, hc, RCSAPsi.variant ok⟩

theorem rcsapsi_exact {T sa : List Nat} (hT : IsText T) (hsa : IsSA T sa) (hn : T.length < 2^64) :
    ∃ I, RCSAPsi.build T sa = some I ∧ Exact (RCSAPsi.count I) (RCSAPsi.locate I) T sa id := by
  obtain ⟨I, T', ord, lnk, hb, ok, hc, hv⟩ := rcsapsi_ok hT hsa hn
  exact ⟨I, hb, ok.exact hc hv⟩

/-- **C01** (RCSAWithPsiRun): the width of the range is the number of occurrences. -/
theorem c01_rcsapsi_count (T sa : List Nat) (hT : IsText T) (hsa : IsSA T sa) (hn : T.length < 2^64) :
    ∃ I, RCSAPsi.build T sa = some I ∧ CountExact (RCSAPsi.count I) T := by
  obtain ⟨I, hb, h⟩ := rcsapsi_exact hT hsa hn
  exact ⟨I, hb, h.countExact⟩

/-- **C02** (RCSAWithPsiRun): the range is the suffix-array interval of the pattern. -/
theorem c02_rcsapsi_interval (T sa : List Nat) (hT : IsText T) (hsa : IsSA T sa) (hn : T.length < 2^64) :
    ∃ I, RCSAPsi.build T sa = some I ∧ CountInterval (RCSAPsi.count I) T sa := by
  obtain ⟨I, hb, h⟩ := rcsapsi_exact hT hsa hn
  exact ⟨I, hb, h.countInterval⟩

example : (RCSAPsi.build exText exSA).bind (RCSAPsi.count · [2,3]) = some (6, 9) := by decide +kernel

/-- **C05**: RCSAWithPsiRun::Locate returns every starting position exactly once and nothing else. -/
theorem c05_rcsapsi_locate (T sa : List Nat) (hT : IsText T) (hsa : IsSA T sa) (hn : T.length < 2^64) :
    ∃ I, RCSAPsi.build T sa = some I ∧ LocateExact (RCSAPsi.locate I) T := by
  obtain ⟨I, hb, h⟩ := rcsapsi_exact hT hsa hn
  exact ⟨I, hb, h.locateExact List.Perm.refl⟩

example : (RCSAPsi.build exText exSA).bind (RCSAPsi.locate · [1,2]) = some [6, 8, 3, 0] := by decide +kernel
example : (RCSAPsi.build exText exSA).bind (RCSAPsi.locate · [2,3]) = some [9, 4, 1] := by decide +kernel
example : (RCSAPsi.build [0] [0]).bind (RCSAPsi.locate · [0]) = some [0] := by decide +kernel

/-- **C14** violated (RCSAWithPsiRun): an absent character is looked up as the terminator. -/
theorem c14_rcsapsi_absent_violation (T sa : List Nat) (hT : IsText T) (hsa : IsSA T sa) (hn : T.length < 2^64) :
    ∃ I, RCSAPsi.build T sa = some I ∧ AbsentAnswered (RCSAPsi.count I) (RCSAPsi.locate I) T := by
  obtain ⟨I, T', ord, lnk, hb, ok, hc, hv⟩ := rcsapsi_ok hT hsa hn
  exact ⟨I, hb, ok.absent hc hv⟩

example : (RCSAPsi.build exText exSA).bind (RCSAPsi.locate · [9]) = some [11] := by decide +kernel

/-- **C14** (RCSAWithPsiRun), the part that holds; see `c14_rindex_absent_partial` for what is missing. -/
theorem c14_rcsapsi_absent_partial (T sa : List Nat) (hT : IsText T) (hsa : IsSA T sa) (hn : T.length < 2^64) :
    ∃ I, RCSAPsi.build T sa = some I ∧ AbsentEmpty (RCSAPsi.count I) T := by
  obtain ⟨I, T', ord, lnk, hb, ok, hc, hv⟩ := rcsapsi_ok hT hsa hn
  exact ⟨I, hb, ok.absentEmpty hc⟩

/-- **C15** (RCSAWithPsiRun, Count): the empty pattern covers every suffix-array position. -/
theorem c15_rcsapsi_count_empty (T sa : List Nat) (hT : IsText T) (hsa : IsSA T sa) (hn : T.length < 2^64) :
    ∃ I, RCSAPsi.build T sa = some I ∧ (RCSAPsi.count I) [] = some (0, T.length) := by
  obtain ⟨I, T', ord, lnk, hb, ok, hc, hv⟩ := rcsapsi_ok hT hsa hn
  exact ⟨I, hb, ok.countEmpty hc⟩

/-- **C15** (RCSAWithPsiRun, Locate): Locate of the empty pattern returns the suffix array. -/
theorem c15_rcsapsi_locate_empty (T sa : List Nat) (hT : IsText T) (hsa : IsSA T sa) (hn : T.length < 2^64) :
    ∃ I, RCSAPsi.build T sa = some I ∧ RCSAPsi.locate I [] = some sa := by
  obtain ⟨I, T', ord, lnk, hb, ok, hc, hv⟩ := rcsapsi_ok hT hsa hn
  obtain ⟨q, hq, hd, h0⟩ := RCSAPsi.den_init hc.text hc.isSA
  refine ⟨I, hb, (ok.locateEmpty hc hv hq hd).trans ?_⟩
  rw [h0, List.rotate_zero]

example : (RCSAPsi.build exText exSA).bind (RCSAPsi.locate · []) = some exSA := by decide +kernel

/-- **C17** (RCSAWithPsiRun): the phi of the full r-CSA maps `SA[i]` to `SA[i+1]`. -/
theorem c17_rcsapsi_phi (T sa : List Nat) (hT : IsText T) (hsa : IsSA T sa) (hn : T.length < 2^64) :
    ∃ I, RCSAPsi.build T sa = some I ∧ ∀ i (h : i + 1 < sa.length), I.phi sa[i] = some (sa[i+1], true) := by
  obtain ⟨I, T', ord, lnk, hb, ok, hc, hv⟩ := rcsapsi_ok hT hsa hn
  refine ⟨I, hb, fun i h => ?_⟩
  rw [ok.phi_sa (by omega), Nat.mod_eq_of_lt h]
  simp [List.getD_eq_getElem?_getD, List.getElem?_eq_getElem h]

/-- **C17** (RCSAWithPsiRun), the last position: phi wraps around to `SA[0]`. -/
theorem c17_rcsapsi_phi_last (T sa : List Nat) (hT : IsText T) (hsa : IsSA T sa) (hn : T.length < 2^64) :
    ∃ I, RCSAPsi.build T sa = some I ∧ I.phi (sa.getD (T.length - 1) 0) = some (sa.getD 0 0, true) := by
  obtain ⟨I, T', ord, lnk, hb, ok, hc, hv⟩ := rcsapsi_ok hT hsa hn
  have hp := hT.pos
  have hl := hsa.length
  refine ⟨I, hb, ?_⟩
  have := ok.phi_sa (i := T.length - 1) (by omega)
  rw [show T.length - 1 + 1 = sa.length by omega, Nat.mod_self] at this
  rw [← this]
  simp [List.getD_eq_getElem?_getD, List.getElem?_eq_getElem (show T.length - 1 < sa.length by omega)]

example : (RCSAPsi.build exText exSA).bind (·.phi 8) = some (3, true) := by decide +kernel
example : (RCSAPsi.build exText exSA).bind (·.phi 2) = some (11, true) := by decide +kernel

/-- **C18** (forward indexes, RCSAWithPsiRun): whenever the search over a pattern ends in a non-empty range, the toehold computed from the
    recorded step is the suffix-array entry of the first position of the range. -/
theorem c18_rcsapsi_toehold (T sa : List Nat) (hT : IsText T) (hsa : IsSA T sa) (hn : T.length < 2^64) :
    ∃ I, RCSAPsi.build T sa = some I ∧ ∀ P, IsPattern P T →
      ∃ r d, (RCSAPsi.functors I).locateLoop P.reverse { start := 0, stop := I.n } { step := 0, run := { c := 0, partialRank := 0 } } = some (r, d) ∧
        IsInterval P T sa r.start r.stop ∧ (r.start < r.stop → computeToehold (RCSAPsi.saValueOfRun I) I.psi.n d = sa[r.start]?) := by
  obtain ⟨I, T', ord, lnk, hb, ok, hc, hv⟩ := rcsapsi_ok hT hsa hn
  exact ⟨I, hb, fun P hP => ok.nav.toehold_search hc (RCSA.navigates I _ _ _) rfl hv.creates rfl (fun _ => rfl)
    (fun Q r d h1 h2 => ok.toehold_eq hv h1 h2) hP 0⟩

/-- **C37** (RCSAWithPsiRun): Locate returns exactly as many values as Count's range is wide; both terminate without fault. -/
theorem c37_rcsapsi_length (T sa : List Nat) (hT : IsText T) (hsa : IsSA T sa) (hn : T.length < 2^64) :
    ∃ I, RCSAPsi.build T sa = some I ∧ LocateLength (RCSAPsi.count I) (RCSAPsi.locate I) T := by
  obtain ⟨I, hb, h⟩ := rcsapsi_exact hT hsa hn
  exact ⟨I, hb, h.locateLength List.Perm.refl⟩

/-- **C39** (RCSAWithPsiRun): positions are reported in the order of the suffix array. -/
theorem c39_rcsapsi_order (T sa : List Nat) (hT : IsText T) (hsa : IsSA T sa) (hn : T.length < 2^64) :
    ∃ I, RCSAPsi.build T sa = some I ∧ LocateUp (RCSAPsi.count I) (RCSAPsi.locate I) T sa := by
  obtain ⟨I, hb, h⟩ := rcsapsi_exact hT hsa hn
  exact ⟨I, hb, h.up⟩

end Sri
