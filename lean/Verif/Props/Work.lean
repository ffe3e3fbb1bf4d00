import Verif.Proofs.WorkIndex
import Verif.Model.Sizes
import Verif.Props.AllIndexes
/-! # C56: the rate bounds the work of a Locate query -/
namespace Sri
set_option autoImplicit false

/-- the calls of the query on every pattern stay within the bounds for the index type -/
theorem locateWork_within (t : IndexType) {T sa : List Nat} (hT : IsText T) (hsa : IsSA T sa) (hn : T.length < 2^64) (s : Nat) :
    ∃ w, locateWork t T sa s = some w ∧
      (∀ q, buildIndex t T sa s = some q → ∀ P, (w P).val = q.locate P) ∧
      (t.subsampled = true → WorkWithin w T (2 * s + 3) (4 * s + 7)) ∧ (t.subsampled = false → WorkWithin w T 2 1) := by
  have up : ∀ {w : List Nat → Cost (List Nat)}, WorkWithin w T (2 * s + 2) (4 * s + 7) → WorkWithin w T (2 * s + 3) (4 * s + 7) := by
    intro w h P hP
    refine (h P hP).mono (fun _ c hc => ?_)
    by_cases h0 : (occurrences P T).length = 0
    · rw [if_pos h0] at hc ⊢; exact hc
    · rw [if_neg h0] at hc ⊢; omega
  cases t
  case rIndex =>
    obtain ⟨I, T', hb, ok, hc⟩ := RIndex.build_ok hT hsa
    exact ⟨I.locateW, by simp [locateWork, hb], by
      intro q hq P; simp only [buildIndex, hb, Option.map_some, Option.some_inj] at hq; subst hq; exact I.locateW_val P,
      by simp [IndexType.subsampled], fun _ => ok.work hc⟩
  case rcsaWithBWTRun =>
    obtain ⟨I, T', ord, lnk, hb, ok, hc, hv⟩ := rcsabwt_ok hT hsa hn
    exact ⟨_, by simp [locateWork, hb]; rfl, by
      intro q hq P; simp only [buildIndex, hb, Option.map_some, Option.some_inj] at hq; subst hq; exact RCSABwt.locateW_val I P,
      by simp [IndexType.subsampled], fun _ => ok.work hc hv (RCSABwt.saValueOfRunW_le I)⟩
  case rcsaWithPsiRun =>
    obtain ⟨I, T', ord, lnk, hb, ok, hc, hv⟩ := rcsapsi_ok hT hsa hn
    exact ⟨_, by simp [locateWork, hb]; rfl, by
      intro q hq P; simp only [buildIndex, hb, Option.map_some, Option.some_inj] at hq; subst hq; exact RCSAPsi.locateW_val I P,
      by simp [IndexType.subsampled], fun _ => ok.work hc hv (RCSAPsi.saValueOfRunW_le I)⟩
  case srIndex =>
    obtain ⟨I, T', K, hb, ok, rfl, hc, -⟩ := SrIndex.build_ok hT hsa s
    exact ⟨_, by simp [locateWork, hb]; rfl, by
      intro q hq P; simp only [buildIndex, hb, Option.map_some, Option.some_inj] at hq; subst hq; exact I.locateW_val I.phiForRangeW_val P,
      fun _ => up (ok.work hc ok.phiForRangeW_le), by simp [IndexType.subsampled]⟩
  case srIndexValidMark =>
    obtain ⟨I, T', K, V, hb, ok, rfl, hc⟩ := SrIndexValid.build_ok hT hsa s
    exact ⟨_, by simp [locateWork, hb]; rfl, by
      intro q hq P; simp only [buildIndex, hb, Option.map_some, Option.some_inj] at hq; subst hq; exact I.locateW_val I.phiMark P,
      fun _ => up (ok.sr.work hc (ok.phiForRangeW_le ok.phiOK_mark)), by simp [IndexType.subsampled]⟩
  case srIndexValidArea =>
    obtain ⟨I, T', K, V, hb, ok, rfl, hc⟩ := SrIndexValid.build_ok hT hsa s
    exact ⟨_, by simp [locateWork, hb]; rfl, by
      intro q hq P; simp only [buildIndex, hb, Option.map_some, Option.some_inj] at hq; subst hq; exact I.locateW_val I.phiArea P,
      fun _ => up (ok.sr.work hc (ok.phiForRangeW_le ok.phiOK_area)), by simp [IndexType.subsampled]⟩
  case srCSA =>
    obtain ⟨I, T', K, hb, ok, st, rfl, hc⟩ := SrCSA.build_ok hT hsa (lt_W64 hn) s
    exact ⟨_, by simp [locateWork, hb]; rfl, by
      intro q hq P; simp only [buildIndex, hb, Option.map_some, Option.some_inj] at hq; subst hq
      exact I.locateW_val I.posOps (I.phiForRangeW_val I.posOps) P,
      fun _ => ok.work (ok.posOps st) hc (ok.phiForRangeW_le (ok.posOps st)), by simp [IndexType.subsampled]⟩
  case srCSASlim =>
    obtain ⟨I, T', K, hb, ok, st, rfl, hc⟩ := SrCSA.buildSlim_ok hT hsa (lt_W64 hn) s
    exact ⟨_, by simp [locateWork, hb]; rfl, by
      intro q hq P; simp only [buildIndex, hb, Option.map_some, Option.some_inj] at hq; subst hq
      exact I.locateW_val I.slimOps (I.phiForRangeW_val I.slimOps) P,
      fun _ => ok.work (ok.slimOps st) hc (ok.phiForRangeW_le (ok.slimOps st)), by simp [IndexType.subsampled]⟩
  case srCSAWithPsiRun =>
    obtain ⟨I, T', K, hb, ok, st, rfl, hc⟩ := SrCSA.buildPsi_ok hT hsa (lt_W64 hn) s
    exact ⟨_, by simp [locateWork, hb]; rfl, by
      intro q hq P; simp only [buildIndex, hb, Option.map_some, Option.some_inj] at hq; subst hq
      exact I.locateW_val I.slimOps (I.phiForRangeW_val I.slimOps) P,
      fun _ => ok.work (ok.slimOps st) hc (ok.phiForRangeW_le (ok.slimOps st)), by simp [IndexType.subsampled]⟩
  case srCSAValidMark =>
    obtain ⟨I, T', K, V, hb, ok, st, rfl, hc⟩ := SrCSAValid.build_ok hT hsa (lt_W64 hn) s
    exact ⟨_, by simp [locateWork, hb]; rfl, by
      intro q hq P; simp only [buildIndex, hb, Option.map_some, Option.some_inj] at hq; subst hq
      exact I.locateW_val I.csa.posOps I.phiMark P,
      fun _ => ok.csa.work (ok.csa.posOps st) hc (ok.phiForRangeW_le (ok.csa.posOps st) ok.phiOK_mark), by simp [IndexType.subsampled]⟩
  case srCSAValidArea =>
    obtain ⟨I, T', K, V, hb, ok, st, rfl, hc⟩ := SrCSAValid.build_ok hT hsa (lt_W64 hn) s
    exact ⟨_, by simp [locateWork, hb]; rfl, by
      intro q hq P; simp only [buildIndex, hb, Option.map_some, Option.some_inj] at hq; subst hq
      exact I.locateW_val I.csa.posOps I.phiArea P,
      fun _ => ok.csa.work (ok.csa.posOps st) hc (ok.phiForRangeW_le (ok.csa.posOps st) ok.phiOK_area), by simp [IndexType.subsampled]⟩
  case srCSASlimValidMark =>
    obtain ⟨I, T', K, V, hb, ok, st, rfl, hc⟩ := SrCSAValid.buildSlim_ok hT hsa (lt_W64 hn) s
    exact ⟨_, by simp [locateWork, hb]; rfl, by
      intro q hq P; simp only [buildIndex, hb, Option.map_some, Option.some_inj] at hq; subst hq
      exact I.locateW_val I.csa.slimOps I.phiMark P,
      fun _ => ok.csa.work (ok.csa.slimOps st) hc (ok.phiForRangeW_le (ok.csa.slimOps st) ok.phiOK_mark), by simp [IndexType.subsampled]⟩
  case srCSASlimValidArea =>
    obtain ⟨I, T', K, V, hb, ok, st, rfl, hc⟩ := SrCSAValid.buildSlim_ok hT hsa (lt_W64 hn) s
    exact ⟨_, by simp [locateWork, hb]; rfl, by
      intro q hq P; simp only [buildIndex, hb, Option.map_some, Option.some_inj] at hq; subst hq
      exact I.locateW_val I.csa.slimOps I.phiArea P,
      fun _ => ok.csa.work (ok.csa.slimOps st) hc (ok.phiForRangeW_le (ok.csa.slimOps st) ok.phiOK_area), by simp [IndexType.subsampled]⟩
  case psiValidMark =>
    obtain ⟨I, T', K, V, hb, ok, st, rfl, hc⟩ := SrCSAValid.buildPsi_ok hT hsa (lt_W64 hn) s
    exact ⟨_, by simp [locateWork, hb]; rfl, by
      intro q hq P; simp only [buildIndex, hb, Option.map_some, Option.some_inj] at hq; subst hq
      exact I.locateW_val I.csa.slimOps I.phiMark P,
      fun _ => ok.csa.work (ok.csa.slimOps st) hc (ok.phiForRangeW_le (ok.csa.slimOps st) ok.phiOK_mark), by simp [IndexType.subsampled]⟩
  case psiValidArea =>
    obtain ⟨I, T', K, V, hb, ok, st, rfl, hc⟩ := SrCSAValid.buildPsi_ok hT hsa (lt_W64 hn) s
    exact ⟨_, by simp [locateWork, hb]; rfl, by
      intro q hq P; simp only [buildIndex, hb, Option.map_some, Option.some_inj] at hq; subst hq
      exact I.locateW_val I.csa.slimOps I.phiArea P,
      fun _ => ok.csa.work (ok.csa.slimOps st) hc (ok.phiForRangeW_le (ok.csa.slimOps st) ok.phiOK_area), by simp [IndexType.subsampled]⟩

/-- **C56**: for every index type, text, rate `s` and pattern, the answer of Locate comes with a number of calls of the index's functors that
    depends on the text only through the number of occurrences: at most one per character if there is none, `|P| + occ + 1` in the indexes
    that are not sub-sampled and `|P| + (4 s + 7) occ` in those that are. -/
theorem c56_work (t : IndexType) (T sa : List Nat) (hT : IsText T) (hsa : IsSA T sa) (hn : T.length < 2^64) (s : Nat) :
    ∃ q w, buildIndex t T sa s = some q ∧ locateWork t T sa s = some w ∧ (∀ P, (w P).val = q.locate P) ∧
      ∀ P, IsPattern P T → ∃ l calls, w P = some (l, calls) ∧ l.Perm (occurrences P T) ∧
        (occurrences P T = [] → calls ≤ P.length) ∧
        (t.subsampled = false → calls ≤ P.length + (occurrences P T).length + 1) ∧
        (t.subsampled = true → calls ≤ P.length + (4 * s + 7) * (occurrences P T).length) := by
  obtain ⟨q, hb, h⟩ := buildIndex_exact t hT hsa hn s
  obtain ⟨w, hw, hv, h1, h2⟩ := locateWork_within t hT hsa hn s
  refine ⟨q, w, hb, hw, hv q hb, fun P hP => ?_⟩
  obtain ⟨l, e, hperm⟩ := h.locateExact (order_perm _) P hP
  have hval := (hv q hb P).trans e
  obtain ⟨l', calls, hc⟩ : ∃ l' calls, w P = some (l', calls) := by
    cases hwp : w P with
    | none => rw [hwp] at hval; cases hval
    | some x => exact ⟨x.1, x.2, rfl⟩
  have hl : l' = l := by rw [hc] at hval; exact Option.some.inj hval
  subst hl
  have g1 := fun ht => h1 ht P hP l' calls hc
  have g2 := fun ht => h2 ht P hP l' calls hc
  refine ⟨l', calls, hc, hperm, ?_, ?_, ?_⟩
  · intro h0
    rw [h0] at g1 g2
    cases ht : t.subsampled with
    | false => simpa using g2 ht
    | true => simpa using g1 ht
  · intro ht
    have := g2 ht
    split at this <;> omega
  · intro ht
    have := g1 ht
    split at this
    · omega
    · rename_i h0
      obtain ⟨m, hm⟩ : ∃ m, (occurrences P T).length = m + 1 := ⟨(occurrences P T).length - 1, by omega⟩
      rw [hm, Nat.mul_succ]
      rw [hm, Nat.add_sub_cancel] at this
      omega

-- [2] occurs 4 times in the text of 12 symbols: RIndex makes 6 calls, SrIndex 16 at the rate 4 and 28 at the rate 8
example : IsText exText ∧ IsSA exText exSA ∧ IsPattern [2] exText ∧ (occurrences [2] exText).length = 4 :=
  ⟨exText_isText, exSA_isSA, by decide, by decide⟩
example : ((locateWork .rIndex exText exSA 4).bind fun w => w [2] : Option (List Nat × Nat)) = some ([1, 4, 9, 7], 6) := by decide +kernel
example : ((locateWork .srIndex exText exSA 4).bind fun w => w [2] : Option (List Nat × Nat)) = some ([1, 4, 9, 7], 16) := by decide +kernel
example : ((locateWork .srIndex exText exSA 8).bind fun w => w [2] : Option (List Nat × Nat)) = some ([1, 4, 9, 7], 28) := by decide +kernel
example : ((locateWork .srIndexValidArea exText exSA 4).bind fun w => w [2] : Option (List Nat × Nat)) = some ([1, 4, 9, 7], 11) := by decide +kernel
example : ((locateWork .psiValidMark exText exSA 8).bind fun w => w [2] : Option (List Nat × Nat)) = some ([7, 9, 4, 1], 21) := by decide +kernel
example : ((locateWork .srCSASlim exText exSA 8).bind fun w => w [2, 2] : Option (List Nat × Nat)) = some ([], 2) := by decide +kernel

end Sri
