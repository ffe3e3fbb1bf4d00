import Verif.Proofs.EmptyForwV
import Verif.Proofs.RateOne
/-! # Locate of the empty pattern with validity information when nothing was removed

Every value is trusted and phi goes round the suffix array, so that a wrong start only rotates the answer. -/
namespace Sri
set_option autoImplicit false

section
variable {T sa : List Nat} {kept : Nat → Prop} {s : Nat} {Good : FRun → Prop} {F : RangePhi FRun}

/-- phi goes round the suffix array and every value is trusted -/
def PhiRound (T sa : List Nat) (phi : Nat → Option (Nat × Bool)) : Prop :=
  ∀ i, i < T.length → phi (saAt sa i) = some (saAt sa ((i + 1) % T.length), true)

/-- the values of `len` rows from row `i` on, going round -/
def roundFrom (T sa : List Nat) (i len : Nat) : List Nat := (List.range' i len).map (fun j => saAt sa (j % T.length))

theorem roundFrom_zero (i : Nat) : roundFrom T sa i 0 = [] := rfl

theorem roundFrom_mod (i len : Nat) : roundFrom T sa (i % T.length) len = roundFrom T sa i len := by
  apply List.ext_getElem?
  intro j
  unfold roundFrom
  rw [List.getElem?_map, List.getElem?_map]
  by_cases hj : j < len
  · rw [List.getElem?_range' hj, List.getElem?_range' hj]
    simp only [Option.map_some, Nat.one_mul, Nat.mod_add_mod]
  · rw [List.getElem?_eq_none (by simp; omega), List.getElem?_eq_none (by simp; omega)]

theorem roundFrom_succ {i : Nat} (hi : i < T.length) (len : Nat) :
    roundFrom T sa i (len + 1) = saAt sa i :: roundFrom T sa ((i + 1) % T.length) len := by
  rw [roundFrom_mod, roundFrom, List.range'_succ, List.map_cons, Nat.mod_eq_of_lt hi]
  rfl

theorem roundFrom_append (i a b : Nat) : roundFrom T sa i a ++ roundFrom T sa ((i + a) % T.length) b = roundFrom T sa i (a + b) := by
  rw [roundFrom_mod, roundFrom, roundFrom, roundFrom, ← List.map_append, ← List.range'_append_1]

variable (h : ForwOK F T sa s kept Good) (hp : PhiRound T sa F.phi)
include h hp

theorem reportValid_round (len : Nat) : ∀ (fuel : Nat) (r : FRun) (i : Nat), len ≤ fuel → r.start + len = r.stop → i < T.length →
    ∃ r', F.reportValid fuel r (saAt sa i) true = some (roundFrom T sa i len, r', saAt sa ((i + len) % T.length), true) ∧ F.isRunEmpty r' = true := by
  induction len with
  | zero =>
    intro fuel r i _ hl hi
    refine ⟨r, ?_, by simp [h.empty, show ¬ r.start < r.stop by omega]⟩
    rw [Nat.add_zero, Nat.mod_eq_of_lt hi, roundFrom_zero]
    cases fuel <;> simp [RangePhi.reportValid, h.empty, show ¬ r.start < r.stop by omega]
  | succ len ih =>
    intro fuel r i hf hl hi
    obtain ⟨fuel, rfl⟩ : ∃ g, fuel = g + 1 := ⟨fuel - 1, by omega⟩
    obtain ⟨r', e1, e2⟩ := ih fuel { r with start := r.start + 1, isRunStart := false } ((i + 1) % T.length) (by omega) (by dsimp only; omega)
      (Nat.mod_lt _ (by omega))
    refine ⟨r', ?_, e2⟩
    rw [RangePhi.reportValid, if_neg (by simp [h.empty]; omega)]
    simp only [h.update, SrCSA.updateRun, Option.bind_eq_bind, Option.bind_some, hp i hi, e1, roundFrom_succ hi]
    rw [Nat.mod_add_mod, show i + 1 + len = i + (len + 1) by omega]
    rfl

theorem phiWhileV_round (len : Nat) : ∀ (fuel : Nat) (r : FRun) (i : Nat), len < fuel → r.stop - r.start = len + 1 → i < T.length →
    F.phiWhileV fuel r (saAt sa i) = some (roundFrom T sa i (len + 1), saAt sa ((i + (len + 1)) % T.length), true) := by
  induction len with
  | zero =>
    intro fuel r i hf hl hi
    obtain ⟨fuel, rfl⟩ : ∃ g, fuel = g + 1 := ⟨fuel - 1, by omega⟩
    rw [RangePhi.phiWhileV]
    simp only [h.update, SrCSA.updateRun, Option.bind_eq_bind, Option.bind_some, hp i hi, h.empty,
      show ¬ r.start + 1 < r.stop by omega, decide_false, Bool.not_false, if_true, roundFrom_succ hi, roundFrom_zero]
    rfl
  | succ len ih =>
    intro fuel r i hf hl hi
    obtain ⟨fuel, rfl⟩ : ∃ g, fuel = g + 1 := ⟨fuel - 1, by omega⟩
    have := ih fuel { r with start := r.start + 1, isRunStart := false } ((i + 1) % T.length) (by omega) (by dsimp only; omega)
      (Nat.mod_lt _ (by omega))
    rw [RangePhi.phiWhileV]
    simp only [h.update, SrCSA.updateRun, Option.bind_eq_bind, Option.bind_some, hp i hi, h.empty,
      show r.start + 1 < r.stop by omega, decide_true, Bool.not_true, Bool.false_eq_true, if_false, this]
    rw [roundFrom_succ hi (len + 1), Nat.mod_add_mod, show i + 1 + (len + 1) = i + (len + 1 + 1) by omega]
    rfl

theorem forwComputeV_round {r : FRun} {i : Nat} (depth level : Nat) (hne : r.start < r.stop) (hst : r.stop ≤ T.length) (hi : i < T.length) :
    F.forwComputeV (depth + 1) level r (saAt sa i) true =
      some (roundFrom T sa i (r.stop - r.start), saAt sa ((i + (r.stop - r.start)) % T.length), true) := by
  rw [RangePhi.forwComputeV]
  by_cases hs : F.samplingSize < level
  · rw [if_pos hs]
    have := phiWhileV_round h hp (r.stop - r.start - 1) F.seqSize r i (by rw [h.seq]; omega) (by omega) hi
    rwa [show r.stop - r.start - 1 + 1 = r.stop - r.start by omega] at this
  · rw [if_neg hs]
    obtain ⟨r', e1, e2⟩ := reportValid_round h hp (r.stop - r.start) F.seqSize r i (by rw [h.seq]; omega) (by omega) hi
    rw [RangePhi.runValid, e1]
    simp only [Option.bind_eq_bind, Option.bind_some, Option.pure_def, e2, if_true]

omit h hp in
theorem forwFoldV_round (f : FRun → Nat → Bool → Option (List Nat × Nat × Bool))
    (hf : ∀ r i, r.start < r.stop → r.stop ≤ T.length → i < T.length →
      f r (saAt sa i) true = some (roundFrom T sa i (r.stop - r.start), saAt sa ((i + (r.stop - r.start)) % T.length), true)) :
    ∀ (l : List FRun) (x y i : Nat) (acc : List Nat), Chain (AtF T sa kept Good 0) x y l → i < T.length →
      x ≤ y ∧ l.foldlM (fun (acc : List Nat × Nat × Bool) r => do
          let (l, e) ← f r acc.2.1 acc.2.2
          return (acc.1 ++ l, e)) (acc, saAt sa i, true) = some (acc ++ roundFrom T sa i (y - x), saAt sa ((i + (y - x)) % T.length), true) := by
  intro l
  induction l with
  | nil =>
    intro x y i acc hc hi
    have : x = y := hc
    subst this
    refine ⟨Nat.le_refl _, ?_⟩
    simp [roundFrom_zero, Nat.mod_eq_of_lt hi]
  | cons r rs ih =>
    rintro x y i acc ⟨hr, hle, hc⟩ hi
    have h2 := hr.2.1
    have h3 := hr.2.2.1
    obtain ⟨g1, g2⟩ := ih (x + (r.stop - r.start)) y ((i + (r.stop - r.start)) % T.length) (acc ++ roundFrom T sa i (r.stop - r.start)) hc
      (Nat.mod_lt _ (by omega))
    refine ⟨by omega, ?_⟩
    simp only [List.foldlM_cons, hf r i h2 h3 hi, Option.bind_eq_bind, Option.bind_some, Option.pure_def]
    simp only [Option.bind_eq_bind, Option.pure_def] at g2
    rw [g2, List.append_assoc, roundFrom_append, Nat.mod_add_mod,
      show r.stop - r.start + (y - (x + (r.stop - r.start))) = y - x by omega,
      show i + (r.stop - r.start) + (y - (x + (r.stop - r.start))) = i + (y - x) by omega]

theorem forwRangeV_round {l : List FRun} {a b i : Nat} (hi : i < T.length) (hl : Images T.length id Good a b l) :
    F.forwRangeV (some l) (saAt sa i) = some (roundFrom T sa ((i + 1) % T.length) (b - a)) := by
  unfold RangePhi.forwRangeV
  obtain ⟨-, e⟩ := forwFoldV_round (kept := kept) (Good := Good) (F.forwComputeV (F.samplingSize + 1) 1)
    (fun r i h1 h2 h3 => forwComputeV_round h hp _ _ h1 h2 h3) l a b ((i + 1) % T.length) [] (chain_of_id rfl l a b hl) (Nat.mod_lt _ (by omega))
  simp only [Option.bind_eq_bind, Option.pure_def, List.nil_append] at e
  simp only [hp i hi, Option.bind_eq_bind, Option.pure_def, Option.bind_some, e]

end

namespace SrCSAValid
variable {I : SrCSAValid} {T sa K : List Nat} {V : List (Nat × Nat)} {O : ForwOps} {Good : FRun → Prop} {den : FData → Nat → Prop}
  {Strong : FData → Prop}

/-- **Locate of the empty pattern** when phi goes round: the suffix array, rotated to the row of the wrong start -/
theorem OK.locate_empty_round (h : I.OK T sa K V) (ho : SrCSA.OpsOK O T sa K Good den Strong) (hn : 2 ≤ T.length)
    (hi : O.getSampleData SrCSA.data0 = some none ∨ O.getSampleData SrCSA.data0 = some (some (pv T sa 0)))
    {phi : Nat → Option (Nat × Bool)} (hphi : PhiOKF T sa I.csa.s (keptHd T sa K) phi) (hr : PhiRound T sa phi) :
    (I.functorsWith O phi).locate [] = some (sa.rotate (isaOf sa (T.length - 2))) := by
  have ok := h.csa.forwOK ho hphi
  have hsa := h.csa.nav.isSA
  have hv : T.length - 2 < T.length := by omega
  have hrow := isaOf_lt hsa hv
  obtain ⟨r, e1, e2⟩ := ho.range 1 T.length (by omega) (Nat.le_refl _)
  have f1 := forwRangeV_round ok hr hrow e2
  rw [saAt_isaOf hsa hv] at f1
  have ht := h.csa.toehold_zero ho hn hi
  have hr : I.phiForRange O phi ⟨1, I.csa.n⟩ (T.length - 2) = some (roundFrom T sa ((isaOf sa (T.length - 2) + 1) % T.length) (T.length - 1)) := by
    unfold phiForRange
    simp only [h.csa.nav.n, show 1 < T.length by omega, if_true, e1, f1]
  have hne : ¬ I.csa.n = 0 := by rw [h.csa.nav.n]; omega
  unfold Functors.locate
  simp only [List.reverse_nil, Functors.locateLoop, Option.bind_eq_bind, Option.bind_some]
  unfold functorsWith SrCSA.functorsWith computeAllValues
  dsimp only
  unfold SrCSA.data0 at ht
  simp only [show 0 < I.csa.n by omega, decide_true, Bool.not_true, Bool.false_eq_true, if_false, ht, RCSA.shrink, Nat.zero_add,
    Option.bind_eq_bind, Option.bind_some, hr]
  have := roundFrom_succ (sa := sa) hrow (T.length - 1)
  rw [saAt_isaOf hsa hv, Nat.sub_add_cancel (by omega)] at this
  show some (_ :: _) = _
  rw [← this, ← RCSA.rotate_eq hsa]
  rfl

/-- with the items of an r-CSA and all marks valid, phi is that of the r-CSA -/
theorem phi_same {R : RCSA} (hm : SameItems I.csa R) (hl : I.csa.markToSample.length ≤ I.validMarks.length) (ha : ∀ b ∈ I.validMarks, b = true) :
    I.phiMark = R.phi ∧ I.phiArea = R.phi := by
  obtain ⟨-, -, h1, h2, h3, h4⟩ := hm
  have hget : (fun (i : Nat) => (do
        let k ← I.csa.markToSample[i]?
        let b ← I.validMarks[i]?
        return (k, b) : Option (Nat × Bool))) = fun i => (R.markToSample[i]?).map (fun k => (k, true)) := by
    funext i
    rw [← h4]
    by_cases hi : i < I.csa.markToSample.length
    · rw [List.getElem?_eq_getElem hi, List.getElem?_eq_getElem (show i < I.validMarks.length by omega), ha _ (List.getElem_mem _)]
      rfl
    · rw [List.getElem?_eq_none (by omega)]
      rfl
  have hsc : I.csa.successor = R.successor := by
    funext v
    show circularSoftSuccessor (bvRank I.csa.marks) (bvSelect I.csa.marks) I.csa.n v = circularSoftSuccessor (bvRank R.marks) (bvSelect R.marks) R.n v
    rw [h1, h3]
  refine ⟨?_, ?_⟩
  · funext v
    unfold phiMark RCSA.phi
    rw [hget, hsc, h1, h2]
  · funext v
    unfold phiArea RCSA.phi
    rw [hget, hsc, h1, h2]
    congr 1
    funext pos delta
    unfold getSampleForPhi validatorDefault validatorArea
    dsimp only
    cases R.markToSample[pos]? with
    | none => rfl
    | some k => rfl

theorem OK.round {R : RCSA} {T0 T'' ord : List Nat} {lnk : Nat → Nat} (h : I.OK T sa K V) (hs : I.csa.s ≤ 1) (hc : Compact T0 sa I.csa.alphabet T)
    (hR : R.OK T'' sa ord lnk) (hcR : Compact T0 sa R.alphabet T'') (hm : SameItems I.csa R) :
    I.phiMark = R.phi ∧ I.phiArea = R.phi ∧ PhiRound T sa R.phi := by
  obtain rfl : T = T'' := by rw [hc.eq, hcR.eq, hm.1]
  have hk : K.length = nrun T sa := nodup_length_eq h.csa.nodup h.csa.lt (fun k hk => (h.csa.all hs k).2 hk)
  obtain ⟨g1, g2⟩ := phi_same hm (by
    rw [hm.2.2.2.2.2, hR.links, List.length_map, sortIndices_length, List.length_map, hR.perm.length_eq, List.length_range, h.marks,
      List.length_map, List.length_range, hk]) (h.one hs).2
  exact ⟨g1, g2, fun i hi => hR.phi_eq hi⟩

end SrCSAValid

/-- with all marks valid, phi of the sr-index is phi of the index it is made from -/
theorem SrIndexValid.phi_same {I : SrIndexValid} (hl : I.sr.base.markToSample.length ≤ I.validMarks.length) (ha : ∀ b ∈ I.validMarks, b = true) :
    I.phiMark = I.sr.base.phi ∧ I.phiArea = I.sr.base.phi := by
  have hget : (fun (i : Nat) => (do
        let k ← I.sr.base.markToSample[i]?
        let b ← I.validMarks[i]?
        return (k, b) : Option (Nat × Bool))) = fun i => (I.sr.base.markToSample[i]?).map (fun k => (k, true)) := by
    funext i
    by_cases hi : i < I.sr.base.markToSample.length
    · rw [List.getElem?_eq_getElem hi, List.getElem?_eq_getElem (show i < I.validMarks.length by omega), ha _ (List.getElem_mem _)]
      rfl
    · rw [List.getElem?_eq_none (by omega)]
      rfl
  refine ⟨?_, ?_⟩
  · funext v
    unfold phiMark RIndex.phi
    rw [hget]
  · funext v
    unfold phiArea RIndex.phi
    rw [hget]
    congr 1
    funext pos delta
    unfold getSampleForPhi validatorDefault validatorArea
    dsimp only
    cases I.sr.base.markToSample[pos]? with
    | none => rfl
    | some k => rfl

end Sri
