import Verif.Proofs.LocateWorkCsa
import Verif.Props.Work
/-! # C77: the operations of a Locate query -/
namespace Sri
set_option autoImplicit false

open Cost

/-- the symbols of the compact alphabet are those of the text -/
theorem Compact.sigma_eq {T sa T' : List Nat} {a : Alphabet} (hc : Compact T sa a T') : a.sigma = T.dedup.length := by
  have hp : (List.range a.sigma).Perm (T.dedup.map a.char2comp) := by
    refine (List.perm_ext_iff_of_nodup List.nodup_range ?_).2 fun c => ?_
    · refine (List.nodup_dedup T).map_on fun x hx y hy e => hc.inj (List.mem_dedup.1 hx) (List.mem_dedup.1 hy) e
    · rw [List.mem_range, List.mem_map]
      constructor
      · intro h
        have := hc.full c h
        rw [hc.eq, List.mem_map] at this
        obtain ⟨x, hx, e⟩ := this
        exact ⟨x, List.mem_dedup.2 hx, e⟩
      · rintro ⟨x, hx, rfl⟩
        exact hc.lt _ (hc.mem x (List.mem_dedup.1 hx))
  have := hp.length_eq
  rwa [List.length_range, List.length_map] at this

/-- the operations allowed per call of a functor: 20 with the run-length string; with the runs of psi, `log2 r + 69` for each of the `sigma`
    symbols of the text and once more, `r` the runs of the BWT -/
def opsPerCall (t : IndexType) (T sa : List Nat) : Nat :=
  if t.withRleString then 20 else (T.dedup.length + 1) * (Nat.log2 (runsBefore (bwtOf T sa) T.length) + 69)

theorem Compact.room {T sa T' : List Nat} {a : Alphabet} (hc : Compact T sa a T') (hT : IsText T) (hsa : IsSA T sa) {N : PsiNav} (ha : N.alphabet = a)
    {W : Nat} (hW : W = (T.dedup.length + 1) * (Nat.log2 (runsBefore (bwtOf T sa) T.length) + 69)) : N.Room T' sa W := by
  subst ha
  have h1 := hc.sigma_eq
  have h2 := hc.sigma_pos
  rw [runsBefore_bwtOf hsa, ← hc.nrun_eq hT hsa, ← h1] at hW
  subst hW
  refine ⟨Nat.mul_le_mul_right _ (by omega), Nat.mul_le_mul_right _ (by omega), ?_, hc.Clen⟩
  have h3 : Nat.log2 (N.alphabet.sigma + 1) ≤ N.alphabet.sigma := Nat.lt_succ_iff.1 ((Nat.log2_lt (by omega)).2 Nat.lt_two_pow_self)
  have h4 : N.alphabet.sigma * 1 ≤ N.alphabet.sigma * (Nat.log2 (nrun T' sa) + 69) := Nat.mul_le_mul_left _ (by omega)
  rw [Nat.succ_mul]
  omega

/-- every query makes at most `opsPerCall` operations per call of its functors -/
theorem locateOps_scaled (t : IndexType) {T sa : List Nat} (hT : IsText T) (hsa : IsSA T sa) (hn : T.length < 2^64) (s : Nat) :
    ∃ w, locateOps t T sa s = some w ∧ ∀ w', locateWork t T sa s = some w' → ∀ P, Scaled (opsPerCall t T sa) (w P) (w' P) := by
  have up : ∀ {α : Type} {W k : Nat} {x : Cost α} {o : Option α}, x.val = o → x.Bnd k → k ≤ W → Scaled W x (call o) :=
    fun hv hb hk => sc_call hv (hb.up hk)
  cases t
  case rIndex =>
    obtain ⟨I, T', hb, ok, hc⟩ := RIndex.build_ok hT hsa
    refine ⟨_, by simp [locateOps, hb]; rfl, ?_⟩
    intro w' hw' P
    simp only [locateWork, hb, Option.map_some, Option.some_inj] at hw'
    subst hw'
    exact RIndex.locateC_scaled ok.rle.rep (RIndex.build_b hb) P
  case srIndex =>
    obtain ⟨I, T', K, hb, ok, rfl, hc, -⟩ := SrIndex.build_ok hT hsa s
    refine ⟨_, by simp [locateOps, hb]; rfl, ?_⟩
    intro w' hw' P
    simp only [locateWork, hb, Option.map_some, Option.some_inj] at hw'
    subst hw'
    exact SrIndex.locateC_scaled ok.nav.rle.rep (SrIndex.build_b hb) _ (SrIndex.phiForRangeC_scaled ok.nav.rle.rep (SrIndex.build_b hb)) P
  case srIndexValidMark =>
    obtain ⟨I, T', K, V, hb, ok, rfl, hc⟩ := SrIndexValid.build_ok hT hsa s
    refine ⟨_, by simp [locateOps, hb]; rfl, ?_⟩
    intro w' hw' P
    simp only [locateWork, hb, Option.map_some, Option.some_inj] at hw'
    subst hw'
    exact SrIndexValid.locateC_scaled ok.sr.nav.rle.rep (SrIndexValid.build_b hb) (fun v => up (I.phiMarkW_val v) (I.phiMarkW_bnd v) (by omega)) P
  case srIndexValidArea =>
    obtain ⟨I, T', K, V, hb, ok, rfl, hc⟩ := SrIndexValid.build_ok hT hsa s
    refine ⟨_, by simp [locateOps, hb]; rfl, ?_⟩
    intro w' hw' P
    simp only [locateWork, hb, Option.map_some, Option.some_inj] at hw'
    subst hw'
    exact SrIndexValid.locateC_scaled ok.sr.nav.rle.rep (SrIndexValid.build_b hb) (fun v => up (I.phiAreaW_val v) (I.phiAreaW_bnd v) (by omega)) P
  case rcsaWithBWTRun =>
    obtain ⟨I, T', ord, lnk, hb, ok, hc, hv⟩ := rcsabwt_ok hT hsa hn
    refine ⟨_, by simp [locateOps, hb]; rfl, ?_⟩
    intro w' hw' P
    simp only [locateWork, hb, Option.map_some, Option.some_inj] at hw'
    subst hw'
    have hW := hc.room hT hsa (N := I.toPsiNav) rfl rfl
    exact RCSA.locateC_scaled ok.nav hW rfl (RCSABwt.saValueOfRunC_scaled ok.nav hW) P
  case rcsaWithPsiRun =>
    obtain ⟨I, T', ord, lnk, hb, ok, hc, hv⟩ := rcsapsi_ok hT hsa hn
    refine ⟨_, by simp [locateOps, hb]; rfl, ?_⟩
    intro w' hw' P
    simp only [locateWork, hb, Option.map_some, Option.some_inj] at hw'
    subst hw'
    have hW := hc.room hT hsa (N := I.toPsiNav) rfl rfl
    exact RCSA.locateC_scaled ok.nav hW rfl (RCSAPsi.saValueOfRunC_scaled ok.nav hW) P
  case srCSA =>
    obtain ⟨I, T', K, hb, ok, st, rfl, hc⟩ := SrCSA.build_ok hT hsa (lt_W64 hn) s
    refine ⟨_, by simp [locateOps, hb]; rfl, ?_⟩
    intro w' hw' P
    simp only [locateWork, hb, Option.map_some, Option.some_inj] at hw'
    subst hw'
    have hW := hc.room hT hsa (N := I.toPsiNav) rfl rfl
    have hO := SrCSA.posOpsC_scaled ok.nav hW
    exact SrCSA.locateC_scaled ok.nav hW hO _ (SrCSA.phiForRangeC_scaled ok.nav hW hO) P
  case srCSASlim =>
    obtain ⟨I, T', K, hb, ok, st, rfl, hc⟩ := SrCSA.buildSlim_ok hT hsa (lt_W64 hn) s
    refine ⟨_, by simp [locateOps, hb]; rfl, ?_⟩
    intro w' hw' P
    simp only [locateWork, hb, Option.map_some, Option.some_inj] at hw'
    subst hw'
    have hW := hc.room hT hsa (N := I.toPsiNav) rfl rfl
    have hO := SrCSA.slimOpsC_scaled ok.nav hW
    exact SrCSA.locateC_scaled ok.nav hW hO _ (SrCSA.phiForRangeC_scaled ok.nav hW hO) P
  case srCSAWithPsiRun =>
    obtain ⟨I, T', K, hb, ok, st, rfl, hc⟩ := SrCSA.buildPsi_ok hT hsa (lt_W64 hn) s
    refine ⟨_, by simp [locateOps, hb]; rfl, ?_⟩
    intro w' hw' P
    simp only [locateWork, hb, Option.map_some, Option.some_inj] at hw'
    subst hw'
    have hW := hc.room hT hsa (N := I.toPsiNav) rfl rfl
    have hO := SrCSA.slimOpsC_scaled ok.nav hW
    exact SrCSA.locateC_scaled ok.nav hW hO _ (SrCSA.phiForRangeC_scaled ok.nav hW hO) P
  case srCSAValidMark =>
    obtain ⟨I, T', K, V, hb, ok, st, rfl, hc⟩ := SrCSAValid.build_ok hT hsa (lt_W64 hn) s
    refine ⟨_, by simp [locateOps, hb]; rfl, ?_⟩
    intro w' hw' P
    simp only [locateWork, hb, Option.map_some, Option.some_inj] at hw'
    subst hw'
    have hW := hc.room hT hsa (N := I.csa.toPsiNav) rfl rfl
    have hO := SrCSA.posOpsC_scaled ok.csa.nav hW
    exact SrCSAValid.locateC_scaled ok.csa.nav hW hO (fun v => up (I.phiMarkW_val v) (I.phiMarkW_bnd v) (by have := hW.two; omega)) P
  case srCSAValidArea =>
    obtain ⟨I, T', K, V, hb, ok, st, rfl, hc⟩ := SrCSAValid.build_ok hT hsa (lt_W64 hn) s
    refine ⟨_, by simp [locateOps, hb]; rfl, ?_⟩
    intro w' hw' P
    simp only [locateWork, hb, Option.map_some, Option.some_inj] at hw'
    subst hw'
    have hW := hc.room hT hsa (N := I.csa.toPsiNav) rfl rfl
    have hO := SrCSA.posOpsC_scaled ok.csa.nav hW
    exact SrCSAValid.locateC_scaled ok.csa.nav hW hO (fun v => up (I.phiAreaW_val v) (I.phiAreaW_bnd v) (by have := hW.two; omega)) P
  case srCSASlimValidMark =>
    obtain ⟨I, T', K, V, hb, ok, st, rfl, hc⟩ := SrCSAValid.buildSlim_ok hT hsa (lt_W64 hn) s
    refine ⟨_, by simp [locateOps, hb]; rfl, ?_⟩
    intro w' hw' P
    simp only [locateWork, hb, Option.map_some, Option.some_inj] at hw'
    subst hw'
    have hW := hc.room hT hsa (N := I.csa.toPsiNav) rfl rfl
    have hO := SrCSA.slimOpsC_scaled ok.csa.nav hW
    exact SrCSAValid.locateC_scaled ok.csa.nav hW hO (fun v => up (I.phiMarkW_val v) (I.phiMarkW_bnd v) (by have := hW.two; omega)) P
  case srCSASlimValidArea =>
    obtain ⟨I, T', K, V, hb, ok, st, rfl, hc⟩ := SrCSAValid.buildSlim_ok hT hsa (lt_W64 hn) s
    refine ⟨_, by simp [locateOps, hb]; rfl, ?_⟩
    intro w' hw' P
    simp only [locateWork, hb, Option.map_some, Option.some_inj] at hw'
    subst hw'
    have hW := hc.room hT hsa (N := I.csa.toPsiNav) rfl rfl
    have hO := SrCSA.slimOpsC_scaled ok.csa.nav hW
    exact SrCSAValid.locateC_scaled ok.csa.nav hW hO (fun v => up (I.phiAreaW_val v) (I.phiAreaW_bnd v) (by have := hW.two; omega)) P
  case psiValidMark =>
    obtain ⟨I, T', K, V, hb, ok, st, rfl, hc⟩ := SrCSAValid.buildPsi_ok hT hsa (lt_W64 hn) s
    refine ⟨_, by simp [locateOps, hb]; rfl, ?_⟩
    intro w' hw' P
    simp only [locateWork, hb, Option.map_some, Option.some_inj] at hw'
    subst hw'
    have hW := hc.room hT hsa (N := I.csa.toPsiNav) rfl rfl
    have hO := SrCSA.slimOpsC_scaled ok.csa.nav hW
    exact SrCSAValid.locateC_scaled ok.csa.nav hW hO (fun v => up (I.phiMarkW_val v) (I.phiMarkW_bnd v) (by have := hW.two; omega)) P
  case psiValidArea =>
    obtain ⟨I, T', K, V, hb, ok, st, rfl, hc⟩ := SrCSAValid.buildPsi_ok hT hsa (lt_W64 hn) s
    refine ⟨_, by simp [locateOps, hb]; rfl, ?_⟩
    intro w' hw' P
    simp only [locateWork, hb, Option.map_some, Option.some_inj] at hw'
    subst hw'
    have hW := hc.room hT hsa (N := I.csa.toPsiNav) rfl rfl
    have hO := SrCSA.slimOpsC_scaled ok.csa.nav hW
    exact SrCSAValid.locateC_scaled ok.csa.nav hW hO (fun v => up (I.phiAreaW_val v) (I.phiAreaW_bnd v) (by have := hW.two; omega)) P

/-- **C77**: for every index type, text, rate `s` and pattern, the answer of Locate comes with a number of operations on the succinct structures
    (rank, select, access, decoded codes, samples read) that depends on the length of the text only through the logarithm of the runs of its
    BWT. With `B` = 20 in the indexes that search with the run-length string and `B = (sigma + 1) (log2 r + 69)` in those that search with the
    runs of psi (`r` runs of the BWT, `sigma` distinct symbols), the operations are at most `B |P|` if there is no occurrence,
    `B (|P| + occ + 1)` in the indexes that are not sub-sampled and `B (|P| + (4 s + 7) occ)` in those that are. -/
theorem c77_operations (t : IndexType) (T sa : List Nat) (hT : IsText T) (hsa : IsSA T sa) (hn : T.length < 2^64) (s : Nat) :
    ∃ q w, buildIndex t T sa s = some q ∧ locateOps t T sa s = some w ∧ (∀ P, (w P).val = q.locate P) ∧
      ∀ P, IsPattern P T → ∃ l ops, w P = some (l, ops) ∧ l.Perm (occurrences P T) ∧
        ∀ B, (t.withRleString = true → B = 20) →
          (t.withRleString = false → B = (T.dedup.length + 1) * (Nat.log2 (runsBefore (bwtOf T sa) T.length) + 69)) →
          (occurrences P T = [] → ops ≤ B * P.length) ∧
          (t.subsampled = false → ops ≤ B * (P.length + (occurrences P T).length + 1)) ∧
          (t.subsampled = true → ops ≤ B * (P.length + (4 * s + 7) * (occurrences P T).length)) := by
  obtain ⟨q, w', hb, hw', hv, h⟩ := c56_work t T sa hT hsa hn s
  obtain ⟨w, hw, hs⟩ := locateOps_scaled t hT hsa hn s
  refine ⟨q, w, hb, hw, fun P => ((hs w' hw' P).1).trans (hv P), fun P hP => ?_⟩
  obtain ⟨l, calls, e, hp, h1, h2, h3⟩ := h P hP
  obtain ⟨g1, g2⟩ := hs w' hw' P
  obtain ⟨l', ops, e'⟩ : ∃ l' ops, w P = some (l', ops) := by
    rw [e] at g1
    cases hwp : w P with
    | none => rw [hwp] at g1; cases g1
    | some x => exact ⟨x.1, x.2, rfl⟩
  have hl : l' = l := by rw [e, e'] at g1; exact Option.some.inj g1
  subst hl
  refine ⟨l', ops, e', hp, fun B hB1 hB2 => ?_⟩
  have hB : B = opsPerCall t T sa := by
    rw [opsPerCall]
    cases ht : t.withRleString with
    | true => rw [if_pos rfl]; exact hB1 ht
    | false => rw [if_neg (by decide)]; exact hB2 ht
  have := g2 l' ops calls e' e
  rw [← hB] at this
  exact ⟨fun h0 => Nat.le_trans this (Nat.mul_le_mul_left _ (h1 h0)), fun ht => Nat.le_trans this (Nat.mul_le_mul_left _ (h2 ht)),
    fun ht => Nat.le_trans this (Nat.mul_le_mul_left _ (h3 ht))⟩

-- [2] occurs 4 times in the text of 12 symbols, whose BWT has 6 runs and which has 4 symbols: RIndex makes 26 operations (20 (1 + 4 + 1) are allowed),
-- SrIndex 52 at the rate 4 and 108 at the rate 8
example : IsText exText ∧ IsSA exText exSA ∧ IsPattern [2] exText ∧ (occurrences [2] exText).length = 4 ∧ exText.dedup.length = 4 ∧
    runsBefore (bwtOf exText exSA) exText.length = 6 := ⟨exText_isText, exSA_isSA, by decide, by decide, by decide, by decide⟩
example : ((locateOps .rIndex exText exSA 4).bind fun w => w [2] : Option (List Nat × Nat)) = some ([1, 4, 9, 7], 26) := by decide +kernel
example : ((locateOps .srIndex exText exSA 4).bind fun w => w [2] : Option (List Nat × Nat)) = some ([1, 4, 9, 7], 52) := by decide +kernel
example : ((locateOps .srIndex exText exSA 8).bind fun w => w [2] : Option (List Nat × Nat)) = some ([1, 4, 9, 7], 108) := by decide +kernel
example : ((locateOps .srIndexValidArea exText exSA 4).bind fun w => w [2] : Option (List Nat × Nat)) = some ([1, 4, 9, 7], 45) := by decide +kernel
example : ((locateOps .rcsaWithBWTRun exText exSA 4).bind fun w => w [2] : Option (List Nat × Nat)) = some ([7, 9, 4, 1], 33) := by decide +kernel
example : ((locateOps .srCSA exText exSA 8).bind fun w => w [2] : Option (List Nat × Nat)) = some ([7, 9, 4, 1], 54) := by decide +kernel
example : ((locateOps .psiValidMark exText exSA 8).bind fun w => w [2] : Option (List Nat × Nat)) = some ([7, 9, 4, 1], 88) := by decide +kernel
example : ((locateOps .srCSASlim exText exSA 8).bind fun w => w [2, 2] : Option (List Nat × Nat)) = some ([], 26) := by decide +kernel

end Sri
