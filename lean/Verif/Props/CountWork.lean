import Verif.Proofs.CountWork
import Verif.Props.AllIndexes
/-! # C76: the work of a Count query -/
namespace Sri
set_option autoImplicit false

/-- the operations of the query on every pattern stay within the bounds for the index type -/
theorem countWork_within (t : IndexType) {T sa : List Nat} (hT : IsText T) (hsa : IsSA T sa) (hn : T.length < 2^64) (s : Nat) :
    ∃ w, countWork t T sa s = some w ∧ (∀ q, buildIndex t T sa s = some q → ∀ P, (w P).val = q.count P) ∧
      ∀ P, (w P).Le (fun _ k => (t.withRleString = true → k ≤ 20 * P.length) ∧
        (t.withRleString = false → k ≤ (2 * Nat.log2 (runsBefore (bwtOf T sa) T.length) + 138) * P.length)) := by
  have rle : ∀ {δ : Type} {F : Functors Range RangeLF δ} {I : RIndex} {R : List (Nat × Nat)} (_ : Rep I.bwtRle R) (_ : I.bwtRle.b = 2) (P : List Nat),
      (F.countW I.lfW P).Le (fun _ k => k ≤ 20 * P.length) := by
    intro δ F I R hr hb P
    refine (Functors.countW_le (RIndex.lfW_le hr) P).mono fun _ k hk => ?_
    rw [hb, Nat.mul_comm] at hk
    exact hk
  have psi : ∀ {δ : Type} {F : Functors Range RangeRunLF δ} {N : PsiNav} {a : Alphabet} {T' : List Nat} (_ : Compact T sa a T') (_ : N.OK T' sa)
      (P : List Nat), (F.countW N.lfW P).Le (fun _ k => k ≤ (2 * Nat.log2 (runsBefore (bwtOf T sa) T.length) + 138) * P.length) := by
    intro δ F N a T' hc ok P
    refine (Functors.countW_le ok.lfW_le P).mono fun _ k hk => ?_
    rw [runsBefore_bwtOf hsa, ← hc.nrun_eq hT hsa]
    rw [Nat.mul_comm, Nat.mul_add] at hk
    exact hk
  cases t
  case rIndex =>
    obtain ⟨I, T', hb, ok, hc⟩ := RIndex.build_ok hT hsa
    exact ⟨_, by simp [countWork, hb]; rfl, by
      intro q hq P; simp only [buildIndex, hb, Option.map_some, Option.some_inj] at hq; subst hq
      exact Functors.countW_val (RIndex.lfW_val _) P, fun P => (rle ok.rle.rep (RIndex.build_b hb) P).mono fun _ k hk => ⟨fun _ => hk, by simp [IndexType.withRleString]⟩⟩
  case srIndex =>
    obtain ⟨I, T', K, hb, ok, rfl, hc, -⟩ := SrIndex.build_ok hT hsa s
    exact ⟨_, by simp [countWork, hb]; rfl, by
      intro q hq P; simp only [buildIndex, hb, Option.map_some, Option.some_inj] at hq; subst hq
      exact Functors.countW_val (RIndex.lfW_val _) P, fun P => (rle ok.nav.rle.rep (SrIndex.build_b hb) P).mono fun _ k hk => ⟨fun _ => hk, by simp [IndexType.withRleString]⟩⟩
  case srIndexValidMark =>
    obtain ⟨I, T', K, V, hb, ok, rfl, hc⟩ := SrIndexValid.build_ok hT hsa s
    exact ⟨_, by simp [countWork, hb]; rfl, by
      intro q hq P; simp only [buildIndex, hb, Option.map_some, Option.some_inj] at hq; subst hq
      exact Functors.countW_val (RIndex.lfW_val _) P, fun P => (rle ok.sr.nav.rle.rep (SrIndexValid.build_b hb) P).mono fun _ k hk => ⟨fun _ => hk, by simp [IndexType.withRleString]⟩⟩
  case srIndexValidArea =>
    obtain ⟨I, T', K, V, hb, ok, rfl, hc⟩ := SrIndexValid.build_ok hT hsa s
    exact ⟨_, by simp [countWork, hb]; rfl, by
      intro q hq P; simp only [buildIndex, hb, Option.map_some, Option.some_inj] at hq; subst hq
      exact Functors.countW_val (RIndex.lfW_val _) P, fun P => (rle ok.sr.nav.rle.rep (SrIndexValid.build_b hb) P).mono fun _ k hk => ⟨fun _ => hk, by simp [IndexType.withRleString]⟩⟩
  case rcsaWithBWTRun =>
    obtain ⟨I, T', ord, lnk, hb, ok, hc, hv⟩ := rcsabwt_ok hT hsa hn
    exact ⟨_, by simp [countWork, hb]; rfl, by
      intro q hq P; simp only [buildIndex, hb, Option.map_some, Option.some_inj] at hq; subst hq
      exact Functors.countW_val (ok.nav.lfW_val) P, fun P => (psi hc ok.nav P).mono fun _ k hk => ⟨by simp [IndexType.withRleString], fun _ => hk⟩⟩
  case rcsaWithPsiRun =>
    obtain ⟨I, T', ord, lnk, hb, ok, hc, hv⟩ := rcsapsi_ok hT hsa hn
    exact ⟨_, by simp [countWork, hb]; rfl, by
      intro q hq P; simp only [buildIndex, hb, Option.map_some, Option.some_inj] at hq; subst hq
      exact Functors.countW_val (ok.nav.lfW_val) P, fun P => (psi hc ok.nav P).mono fun _ k hk => ⟨by simp [IndexType.withRleString], fun _ => hk⟩⟩
  case srCSA =>
    obtain ⟨I, T', K, hb, ok, st, rfl, hc⟩ := SrCSA.build_ok hT hsa (lt_W64 hn) s
    exact ⟨_, by simp [countWork, hb]; rfl, by
      intro q hq P; simp only [buildIndex, hb, Option.map_some, Option.some_inj] at hq; subst hq
      exact Functors.countW_val (ok.nav.lfW_val) P, fun P => (psi hc ok.nav P).mono fun _ k hk => ⟨by simp [IndexType.withRleString], fun _ => hk⟩⟩
  case srCSASlim =>
    obtain ⟨I, T', K, hb, ok, st, rfl, hc⟩ := SrCSA.buildSlim_ok hT hsa (lt_W64 hn) s
    exact ⟨_, by simp [countWork, hb]; rfl, by
      intro q hq P; simp only [buildIndex, hb, Option.map_some, Option.some_inj] at hq; subst hq
      exact Functors.countW_val (ok.nav.lfW_val) P, fun P => (psi hc ok.nav P).mono fun _ k hk => ⟨by simp [IndexType.withRleString], fun _ => hk⟩⟩
  case srCSAWithPsiRun =>
    obtain ⟨I, T', K, hb, ok, st, rfl, hc⟩ := SrCSA.buildPsi_ok hT hsa (lt_W64 hn) s
    exact ⟨_, by simp [countWork, hb]; rfl, by
      intro q hq P; simp only [buildIndex, hb, Option.map_some, Option.some_inj] at hq; subst hq
      exact Functors.countW_val (ok.nav.lfW_val) P, fun P => (psi hc ok.nav P).mono fun _ k hk => ⟨by simp [IndexType.withRleString], fun _ => hk⟩⟩
  case srCSAValidMark =>
    obtain ⟨I, T', K, V, hb, ok, st, rfl, hc⟩ := SrCSAValid.build_ok hT hsa (lt_W64 hn) s
    exact ⟨_, by simp [countWork, hb]; rfl, by
      intro q hq P; simp only [buildIndex, hb, Option.map_some, Option.some_inj] at hq; subst hq
      exact Functors.countW_val (ok.csa.nav.lfW_val) P, fun P => (psi hc ok.csa.nav P).mono fun _ k hk => ⟨by simp [IndexType.withRleString], fun _ => hk⟩⟩
  case srCSAValidArea =>
    obtain ⟨I, T', K, V, hb, ok, st, rfl, hc⟩ := SrCSAValid.build_ok hT hsa (lt_W64 hn) s
    exact ⟨_, by simp [countWork, hb]; rfl, by
      intro q hq P; simp only [buildIndex, hb, Option.map_some, Option.some_inj] at hq; subst hq
      exact Functors.countW_val (ok.csa.nav.lfW_val) P, fun P => (psi hc ok.csa.nav P).mono fun _ k hk => ⟨by simp [IndexType.withRleString], fun _ => hk⟩⟩
  case srCSASlimValidMark =>
    obtain ⟨I, T', K, V, hb, ok, st, rfl, hc⟩ := SrCSAValid.buildSlim_ok hT hsa (lt_W64 hn) s
    exact ⟨_, by simp [countWork, hb]; rfl, by
      intro q hq P; simp only [buildIndex, hb, Option.map_some, Option.some_inj] at hq; subst hq
      exact Functors.countW_val (ok.csa.nav.lfW_val) P, fun P => (psi hc ok.csa.nav P).mono fun _ k hk => ⟨by simp [IndexType.withRleString], fun _ => hk⟩⟩
  case srCSASlimValidArea =>
    obtain ⟨I, T', K, V, hb, ok, st, rfl, hc⟩ := SrCSAValid.buildSlim_ok hT hsa (lt_W64 hn) s
    exact ⟨_, by simp [countWork, hb]; rfl, by
      intro q hq P; simp only [buildIndex, hb, Option.map_some, Option.some_inj] at hq; subst hq
      exact Functors.countW_val (ok.csa.nav.lfW_val) P, fun P => (psi hc ok.csa.nav P).mono fun _ k hk => ⟨by simp [IndexType.withRleString], fun _ => hk⟩⟩
  case psiValidMark =>
    obtain ⟨I, T', K, V, hb, ok, st, rfl, hc⟩ := SrCSAValid.buildPsi_ok hT hsa (lt_W64 hn) s
    exact ⟨_, by simp [countWork, hb]; rfl, by
      intro q hq P; simp only [buildIndex, hb, Option.map_some, Option.some_inj] at hq; subst hq
      exact Functors.countW_val (ok.csa.nav.lfW_val) P, fun P => (psi hc ok.csa.nav P).mono fun _ k hk => ⟨by simp [IndexType.withRleString], fun _ => hk⟩⟩
  case psiValidArea =>
    obtain ⟨I, T', K, V, hb, ok, st, rfl, hc⟩ := SrCSAValid.buildPsi_ok hT hsa (lt_W64 hn) s
    exact ⟨_, by simp [countWork, hb]; rfl, by
      intro q hq P; simp only [buildIndex, hb, Option.map_some, Option.some_inj] at hq; subst hq
      exact Functors.countW_val (ok.csa.nav.lfW_val) P, fun P => (psi hc ok.csa.nav P).mono fun _ k hk => ⟨by simp [IndexType.withRleString], fun _ => hk⟩⟩

/-- **C76**: for every index type, text, rate and pattern, the answer of Count comes with a number of operations on the succinct structures
    (rank, select, decoded codes, samples read) that does not depend on the length of the text, on the rate or on the number of occurrences:
    at most 20 per character of the pattern in the indexes that search with the run-length string, and `2 log2 r + 138` per character, `r`
    the number of runs of the BWT, in those that search with the runs of psi. The bound holds of every pattern that is answered at all. -/
theorem c76_work (t : IndexType) (T sa : List Nat) (hT : IsText T) (hsa : IsSA T sa) (hn : T.length < 2^64) (s : Nat) :
    ∃ q w, buildIndex t T sa s = some q ∧ countWork t T sa s = some w ∧ (∀ P, (w P).val = q.count P) ∧
      (∀ P, IsPattern P T → ∃ a b ops, w P = some ((a, b), ops) ∧ a ≤ b ∧ b - a = (occurrences P T).length) ∧
      ∀ P range ops, w P = some (range, ops) →
        (t.withRleString = true → ops ≤ 20 * P.length) ∧
        (t.withRleString = false → ops ≤ (2 * Nat.log2 (runsBefore (bwtOf T sa) T.length) + 138) * P.length) := by
  obtain ⟨q, hb, h⟩ := buildIndex_exact t hT hsa hn s
  obtain ⟨w, hw, hv, hle⟩ := countWork_within t hT hsa hn s
  refine ⟨q, w, hb, hw, hv q hb, fun P hP => ?_, fun P range ops e => hle P range ops e⟩
  obtain ⟨a, b, e, h1, h2⟩ := h.countExact P hP
  have hval := (hv q hb P).trans e
  cases hwp : w P with
  | none => rw [hwp] at hval; cases hval
  | some x =>
    obtain ⟨y, ops⟩ := x
    rw [hwp] at hval
    obtain rfl : y = (a, b) := Option.some.inj hval
    exact ⟨a, b, ops, rfl, h1, h2⟩

-- the text of 12 symbols has a BWT of 6 runs; [1, 2] occurs 4 times: 19 operations with the run-length string, 22 with the runs of psi
example : IsText exText ∧ IsSA exText exSA ∧ IsPattern [1, 2] exText ∧ (occurrences [1, 2] exText).length = 4 ∧
    runsBefore (bwtOf exText exSA) exText.length = 6 := ⟨exText_isText, exSA_isSA, by decide, by decide, by decide⟩
example : ((countWork .rIndex exText exSA 4).bind fun w => w [1, 2] : Option ((Nat × Nat) × Nat)) = some ((1, 5), 19) := by decide +kernel
example : ((countWork .srIndexValidArea exText exSA 4).bind fun w => w [1, 2, 1] : Option ((Nat × Nat) × Nat)) = some ((1, 2), 34) := by decide +kernel
example : ((countWork .srCSA exText exSA 4).bind fun w => w [1, 2] : Option ((Nat × Nat) × Nat)) = some ((1, 5), 22) := by decide +kernel
example : ((countWork .psiValidMark exText exSA 4).bind fun w => w [2, 2] : Option ((Nat × Nat) × Nat)) = some ((6, 6), 26) := by decide +kernel

end Sri
