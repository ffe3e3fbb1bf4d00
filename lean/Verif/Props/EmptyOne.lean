import Verif.Props.EmptyForwV
import Verif.Proofs.EmptyOne
/-! # Locate of the empty pattern with validity information, at a rate of at most one -/
namespace Sri
set_option autoImplicit false

/-- **C15** (SrCSAValidMark<SrCSA>, Locate) at a rate of at most one, where nothing is removed: Locate of the empty pattern reports every position exactly
    once. It still starts in the wrong place: its order is that of the suffix array, rotated. Missing: the other rates, for which it fails
    (`c15_srcsamark_locate_empty_violation`). -/
theorem c15_srcsamark_locate_empty_one_partial (T sa : List Nat) (hT : IsText T) (hsa : IsSA T sa) (h2 : 2 ≤ T.length) (hn : T.length < 2^64) (s : Nat)
    (hs : s ≤ 1) : ∃ I l, SrCSAValid.build T sa s = some I ∧ I.locateMark [] = some l ∧ l.Perm (List.range T.length) ∧ l ~r sa := by
  obtain ⟨I, T', K, V, hb, ok, st, hIs, hc⟩ := SrCSAValid.build_ok hT hsa (lt_W64 hn) s
  obtain ⟨J, R, hJ, hR, hm⟩ := SrCSA.build_one hT hsa (lt_W64 hn) hs
  obtain ⟨R', T'', hR', okR, hcR⟩ := RCSABwt.build_ok hT hsa (lt_W64 hn)
  rw [SrCSAValid.build_csa hb, Option.some_inj] at hJ
  rw [hR, Option.some_inj] at hR'
  subst hJ; subst hR'
  have hl := hc.len
  obtain ⟨g1, g2, g3⟩ := ok.round (by omega) hc okR hcR hm
  have e := ok.locate_empty_round (ok.csa.posOps st) (by omega)
    ((Classical.em (keptHd T' sa K 0)).elim (fun h => Or.inr ((st.getSamplePos ok.csa.lt (show 0 < T'.length by omega)).1 h))
      (fun h => Or.inl ((st.getSamplePos ok.csa.lt (show 0 < T'.length by omega)).2 h))) ok.phiOK_mark (by rw [g1]; exact g3)
  exact ⟨I, _, hb, e, (List.rotate_perm sa _).trans hsa.1, (List.IsRotated.forall sa _)⟩

/-- **C15** (SrCSAValidArea<SrCSA>, Locate) at a rate of at most one, where nothing is removed: Locate of the empty pattern reports every position exactly
    once. It still starts in the wrong place: its order is that of the suffix array, rotated. Missing: the other rates, for which it fails
    (`c15_srcsaarea_locate_empty_violation`). -/
theorem c15_srcsaarea_locate_empty_one_partial (T sa : List Nat) (hT : IsText T) (hsa : IsSA T sa) (h2 : 2 ≤ T.length) (hn : T.length < 2^64) (s : Nat)
    (hs : s ≤ 1) : ∃ I l, SrCSAValid.build T sa s = some I ∧ I.locateArea [] = some l ∧ l.Perm (List.range T.length) ∧ l ~r sa := by
  obtain ⟨I, T', K, V, hb, ok, st, hIs, hc⟩ := SrCSAValid.build_ok hT hsa (lt_W64 hn) s
  obtain ⟨J, R, hJ, hR, hm⟩ := SrCSA.build_one hT hsa (lt_W64 hn) hs
  obtain ⟨R', T'', hR', okR, hcR⟩ := RCSABwt.build_ok hT hsa (lt_W64 hn)
  rw [SrCSAValid.build_csa hb, Option.some_inj] at hJ
  rw [hR, Option.some_inj] at hR'
  subst hJ; subst hR'
  have hl := hc.len
  obtain ⟨g1, g2, g3⟩ := ok.round (by omega) hc okR hcR hm
  have e := ok.locate_empty_round (ok.csa.posOps st) (by omega)
    ((Classical.em (keptHd T' sa K 0)).elim (fun h => Or.inr ((st.getSamplePos ok.csa.lt (show 0 < T'.length by omega)).1 h))
      (fun h => Or.inl ((st.getSamplePos ok.csa.lt (show 0 < T'.length by omega)).2 h))) ok.phiOK_area (by rw [g2]; exact g3)
  exact ⟨I, _, hb, e, (List.rotate_perm sa _).trans hsa.1, (List.IsRotated.forall sa _)⟩

/-- **C15** (SrCSAValidMark<SrCSASlim>, Locate) at a rate of at most one, where nothing is removed: Locate of the empty pattern reports every position exactly
    once. It still starts in the wrong place: its order is that of the suffix array, rotated. Missing: the other rates, for which it fails
    (`c15_srcsaslimmark_locate_empty_violation`). -/
theorem c15_srcsaslimmark_locate_empty_one_partial (T sa : List Nat) (hT : IsText T) (hsa : IsSA T sa) (h2 : 2 ≤ T.length) (hn : T.length < 2^64) (s : Nat)
    (hs : s ≤ 1) : ∃ I l, SrCSAValid.buildSlim T sa s = some I ∧ I.locateMarkSlim [] = some l ∧ l.Perm (List.range T.length) ∧ l ~r sa := by
  obtain ⟨I, T', K, V, hb, ok, st, hIs, hc⟩ := SrCSAValid.buildSlim_ok hT hsa (lt_W64 hn) s
  obtain ⟨J, R, hJ, hR, hm, -⟩ := SrCSA.buildSlim_one hT hsa (lt_W64 hn) hs
  obtain ⟨R', T'', hR', hcR, okR⟩ := RCSAPsi.build_ok hT hsa (lt_W64 hn)
  rw [SrCSAValid.buildSlim_csa hb, Option.some_inj] at hJ
  rw [hR, Option.some_inj] at hR'
  subst hJ; subst hR'
  have hl := hc.len
  obtain ⟨g1, g2, g3⟩ := ok.round (by omega) hc okR hcR hm
  have e := ok.locate_empty_round (ok.csa.slimOps st) (by omega)
    (Or.inl rfl) ok.phiOK_mark (by rw [g1]; exact g3)
  exact ⟨I, _, hb, e, (List.rotate_perm sa _).trans hsa.1, (List.IsRotated.forall sa _)⟩

/-- **C15** (SrCSAValidArea<SrCSASlim>, Locate) at a rate of at most one, where nothing is removed: Locate of the empty pattern reports every position exactly
    once. It still starts in the wrong place: its order is that of the suffix array, rotated. Missing: the other rates, for which it fails
    (`c15_srcsaslimarea_locate_empty_violation`). -/
theorem c15_srcsaslimarea_locate_empty_one_partial (T sa : List Nat) (hT : IsText T) (hsa : IsSA T sa) (h2 : 2 ≤ T.length) (hn : T.length < 2^64) (s : Nat)
    (hs : s ≤ 1) : ∃ I l, SrCSAValid.buildSlim T sa s = some I ∧ I.locateAreaSlim [] = some l ∧ l.Perm (List.range T.length) ∧ l ~r sa := by
  obtain ⟨I, T', K, V, hb, ok, st, hIs, hc⟩ := SrCSAValid.buildSlim_ok hT hsa (lt_W64 hn) s
  obtain ⟨J, R, hJ, hR, hm, -⟩ := SrCSA.buildSlim_one hT hsa (lt_W64 hn) hs
  obtain ⟨R', T'', hR', hcR, okR⟩ := RCSAPsi.build_ok hT hsa (lt_W64 hn)
  rw [SrCSAValid.buildSlim_csa hb, Option.some_inj] at hJ
  rw [hR, Option.some_inj] at hR'
  subst hJ; subst hR'
  have hl := hc.len
  obtain ⟨g1, g2, g3⟩ := ok.round (by omega) hc okR hcR hm
  have e := ok.locate_empty_round (ok.csa.slimOps st) (by omega)
    (Or.inl rfl) ok.phiOK_area (by rw [g2]; exact g3)
  exact ⟨I, _, hb, e, (List.rotate_perm sa _).trans hsa.1, (List.IsRotated.forall sa _)⟩

/-- **C15** (SRCSAValidMark, Locate) at a rate of at most one, where nothing is removed: Locate of the empty pattern reports every position exactly
    once. It still starts in the wrong place: its order is that of the suffix array, rotated. Missing: the other rates, for which it fails
    (`c15_srcsapsimark_locate_empty_violation`). -/
theorem c15_srcsapsimark_locate_empty_one_partial (T sa : List Nat) (hT : IsText T) (hsa : IsSA T sa) (h2 : 2 ≤ T.length) (hn : T.length < 2^64) (s : Nat)
    (hs : s ≤ 1) : ∃ I l, SrCSAValid.buildPsi T sa s = some I ∧ I.locateMarkSlim [] = some l ∧ l.Perm (List.range T.length) ∧ l ~r sa := by
  obtain ⟨I, T', K, V, hb, ok, st, hIs, hc⟩ := SrCSAValid.buildPsi_ok hT hsa (lt_W64 hn) s
  obtain ⟨J, R, hJ, hR, hm, -⟩ := SrCSA.buildPsi_one hT hsa (lt_W64 hn) hs
  obtain ⟨R', T'', hR', hcR, okR⟩ := RCSAPsi.build_ok hT hsa (lt_W64 hn)
  rw [SrCSAValid.buildPsi_csa hb, Option.some_inj] at hJ
  rw [hR, Option.some_inj] at hR'
  subst hJ; subst hR'
  have hl := hc.len
  obtain ⟨g1, g2, g3⟩ := ok.round (by omega) hc okR hcR hm
  have e := ok.locate_empty_round (ok.csa.slimOps st) (by omega)
    (Or.inl rfl) ok.phiOK_mark (by rw [g1]; exact g3)
  exact ⟨I, _, hb, e, (List.rotate_perm sa _).trans hsa.1, (List.IsRotated.forall sa _)⟩

/-- **C15** (SRCSAValidArea, Locate) at a rate of at most one, where nothing is removed: Locate of the empty pattern reports every position exactly
    once. It still starts in the wrong place: its order is that of the suffix array, rotated. Missing: the other rates, for which it fails
    (`c15_srcsapsiarea_locate_empty_violation`). -/
theorem c15_srcsapsiarea_locate_empty_one_partial (T sa : List Nat) (hT : IsText T) (hsa : IsSA T sa) (h2 : 2 ≤ T.length) (hn : T.length < 2^64) (s : Nat)
    (hs : s ≤ 1) : ∃ I l, SrCSAValid.buildPsi T sa s = some I ∧ I.locateAreaSlim [] = some l ∧ l.Perm (List.range T.length) ∧ l ~r sa := by
  obtain ⟨I, T', K, V, hb, ok, st, hIs, hc⟩ := SrCSAValid.buildPsi_ok hT hsa (lt_W64 hn) s
  obtain ⟨J, R, hJ, hR, hm, -⟩ := SrCSA.buildPsi_one hT hsa (lt_W64 hn) hs
  obtain ⟨R', T'', hR', hcR, okR⟩ := RCSAPsi.build_ok hT hsa (lt_W64 hn)
  rw [SrCSAValid.buildPsi_csa hb, Option.some_inj] at hJ
  rw [hR, Option.some_inj] at hR'
  subst hJ; subst hR'
  have hl := hc.len
  obtain ⟨g1, g2, g3⟩ := ok.round (by omega) hc okR hcR hm
  have e := ok.locate_empty_round (ok.csa.slimOps st) (by omega)
    (Or.inl rfl) ok.phiOK_area (by rw [g2]; exact g3)
  exact ⟨I, _, hb, e, (List.rotate_perm sa _).trans hsa.1, (List.IsRotated.forall sa _)⟩

-- at rate 1 the answer is the suffix array from its tenth entry on
example : exSA = [11, 6, 8, 3, 0, 7, 9, 4, 1, 10, 5, 2] ∧
    (SrCSAValid.build exText exSA 1).bind (·.locateMark []) = some [10, 5, 2, 11, 6, 8, 3, 0, 7, 9, 4, 1] ∧
    (SrCSAValid.buildPsi exText exSA 1).bind (·.locateAreaSlim []) = some [10, 5, 2, 11, 6, 8, 3, 0, 7, 9, 4, 1] :=
  ⟨rfl, by decide +kernel, by decide +kernel⟩
end Sri
