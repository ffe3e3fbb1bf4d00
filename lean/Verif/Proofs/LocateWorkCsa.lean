import Verif.Proofs.LocateWorkPsi
/-! # The operations of a Locate query, part 4: the r-CSAs -/
namespace Sri
set_option autoImplicit false

open Cost

theorem RCSA.phiW_val (I : RCSA) (b : Bool) (v : Nat) : (I.phiW b v).val = phiForward I.successor
    (getSampleForPhi (fun i => (I.markToSample[i]?).map (fun k => (k, b))) (fun k => I.samples[k]?) validatorDefault) I.n v :=
  phiForwardW_val (circularSoftSuccessorW_val _ _) (getSampleForPhiW_val (linkW_val _ _) (readW_val _) validatorDefaultW_val) _ _

theorem RCSA.phiW_bnd (I : RCSA) (b : Bool) (v : Nat) : (I.phiW b v).Bnd 4 :=
  phiForwardW_bnd (circularSoftSuccessorW_bnd _ _) (getSampleForPhiW_bnd (linkW_bnd _ _) (readW_bnd _) validatorDefaultW_bnd) _ _

theorem SrCSAValid.phiMarkW_val (I : SrCSAValid) (v : Nat) : (I.phiMarkW v).val = I.phiMark v :=
  phiForwardW_val (circularSoftSuccessorW_val _ _) (getSampleForPhiW_val (linkValidW_val _ _) (readW_val _) validatorDefaultW_val) _ _

theorem SrCSAValid.phiMarkW_bnd (I : SrCSAValid) (v : Nat) : (I.phiMarkW v).Bnd 5 :=
  phiForwardW_bnd (circularSoftSuccessorW_bnd _ _) (getSampleForPhiW_bnd (linkValidW_bnd _ _) (readW_bnd _) validatorDefaultW_bnd) _ _

theorem SrCSAValid.phiAreaW_val (I : SrCSAValid) (v : Nat) : (I.phiAreaW v).val = I.phiArea v :=
  phiForwardW_val (circularSoftSuccessorW_val _ _) (getSampleForPhiW_val (linkValidW_val _ _) (readW_val _) (validatorAreaW_val _ _)) _ _

theorem SrCSAValid.phiAreaW_bnd (I : SrCSAValid) (v : Nat) : (I.phiAreaW v).Bnd 7 :=
  phiForwardW_bnd (circularSoftSuccessorW_bnd _ _) (getSampleForPhiW_bnd (linkValidW_bnd _ _) (readW_bnd _) (validatorAreaW_bnd _ _)) _ _

/-- the operations allowed per call: enough for two ranks of psi, and for a query on the runs of every symbol -/
structure PsiNav.Room (N : PsiNav) (T sa : List Nat) (W : Nat) : Prop where
  two : 2 * (Nat.log2 (nrun T sa) + 69) ≤ W
  all : N.alphabet.sigma * (Nat.log2 (nrun T sa) + 69) ≤ W
  search : Nat.log2 (nrun T sa) + 69 + Nat.log2 (N.alphabet.sigma + 1) ≤ W
  Clen : N.alphabet.C.length = N.alphabet.sigma + 1

theorem cumC_monotone (T : List Nat) {a b : Nat} (h : a ≤ b) : cumC T a ≤ cumC T b := by
  obtain ⟨d, rfl⟩ := Nat.exists_eq_add_of_le h
  induction d with
  | zero => exact Nat.le_refl _
  | succ d ih => rw [← Nat.add_assoc, cumC_succ]; exact Nat.le_trans (ih (by omega)) (Nat.le_add_right _ _)

theorem PsiNav.OK.computeCW_val {N : PsiNav} {T sa : List Nat} (h : N.OK T sa) (hl : N.alphabet.C.length = N.alphabet.sigma + 1) (i : Nat) :
    (computeCForSAIndexW N.alphabet.C i).val = computeCForSAIndex N.alphabet.C i := by
  rw [computeCForSAIndexW, computeCForSAIndex, val_bind]
  obtain ⟨k, e, k1, k2, k3⟩ := binarySearchW_val (get := fun j => N.alphabet.C[j]?) (L := cumC T) (m := N.alphabet.C.length) (v := i)
    (fun j hj => h.C j (by omega)) (fun a b hab _ => cumC_monotone T hab) N.alphabet.C.length 0 N.alphabet.C.length
    (Nat.le_refl _) (by omega) (by intro j hj; omega) (by intro j h1 h2; omega)
  rw [e]
  simp only [Option.bind_eq_bind, Option.bind_some, val_free]
  congr 1
  obtain ⟨u1, u2, u3⟩ := PartOK.upperBound_spec N.alphabet.C i
  rcases Nat.lt_trichotomy k (upperBound N.alphabet.C i) with hlt | heq | hgt
  · obtain ⟨y, y1, y2⟩ := u2 k hlt
    rw [h.C k (by omega)] at y1
    have := k3 k (Nat.le_refl _) (by omega)
    have := Option.some.inj y1
    omega
  · exact heq
  · have hy := h.C (upperBound N.alphabet.C i) (by omega)
    have := k2 _ hgt
    have := u3 _ hy
    omega

theorem PsiNav.Room.computeCW_bnd {N : PsiNav} {T sa : List Nat} {W : Nat} (hW : N.Room T sa W) (i : Nat) :
    (computeCForSAIndexW N.alphabet.C i).Bnd (Nat.log2 (N.alphabet.sigma + 1) + 1) := by
  rw [computeCForSAIndexW, hW.Clen]
  refine bnd_bind (m := 0) ((binarySearchW_le _ _ _ _ _).mono fun _ c hc => ?_) fun _ => bnd_free _
  rwa [if_neg (by omega)] at hc

theorem PsiNav.OK.lfW_scaled {N : PsiNav} {T sa : List Nat} {W : Nat} (h : N.OK T sa) (hW : N.Room T sa W) (r : Range) (c : Nat) :
    Scaled W (N.lfW r c) (call (N.lf r c)) :=
  sc_call (h.lfW_val r c) ((h.lfW_le r c).mono fun _ k hk => Nat.le_trans hk hW.two)

/-! ## the r-CSAs that are not sub-sampled -/

theorem RCSABwt.saValueOfRunC_scaled {I : RCSA} {T sa : List Nat} {W : Nat} (h : I.toPsiNav.OK T sa) (hW : I.toPsiNav.Room T sa W) (pos : Nat) :
    Scaled W (RCSABwt.saValueOfRunC I pos) (RCSABwt.saValueOfRunW I pos) := by
  rw [saValueOfRunC, saValueOfRunW]
  refine sc_bind (sc_call (h.rankRunW_val _) ((h.rankRunW_bnd _).up (Nat.le_trans (Nat.mul_le_mul_left _ (by omega)) hW.all))) fun _ =>
    sc_bind (sc_call (readW_val _ _) ((readW_bnd _ _).up (by have := hW.two; omega))) fun _ => sc_pure _

theorem RCSAPsi.saValueOfRunC_scaled {I : RCSA} {T sa : List Nat} {W : Nat} (h : I.toPsiNav.OK T sa) (hW : I.toPsiNav.Room T sa W) (d : PsiRunData) :
    Scaled W (RCSAPsi.saValueOfRunC I d) (RCSAPsi.saValueOfRunW I d) := by
  rw [saValueOfRunC, saValueOfRunW]
  refine sc_bind (sc_call (h.rankCharRunW_val _) ((h.rankCharRunW_bnd _).up (Nat.le_trans (Nat.le_mul_of_pos_right _ (by omega)) hW.all))) fun _ =>
    sc_bind (sc_call (readW_val _ _) ((readW_bnd _ _).up (by have := hW.two; omega))) fun _ => sc_pure _

theorem RCSA.locateC_scaled {β : Type} {I : RCSA} {T sa : List Nat} {W : Nat} (h : I.toPsiNav.OK T sa) (hW : I.toPsiNav.Room T sa W)
    {F : Functors Range RangeRunLF (StepData β)} (hF : F.lf = I.lf) {v v' : β → Cost Nat} (hv : ∀ d, Scaled W (v d) (v' d)) (P : List Nat) :
    Scaled W (I.locateC F v P) (I.locateW F v' P) :=
  F.locateC_scaled (fun r c => by rw [hF]; exact h.lfW_scaled hW r c) (computeAllValuesW_scaled
    (fun _ _ => phiLoopC_scaled (fun v => sc_call (I.phiW_val true v) ((I.phiW_bnd true v).up (by have := hW.two; omega))) _ _)
    (computeToeholdW_scaled hv _) _) P

/-! ## the sub-sampled r-CSAs -/

/-- the functors of a variant compute what the plain ones compute, within the room -/
structure ForwOpsC.Scaled (W : Nat) (O : ForwOps) (OC : ForwOpsC) : Prop where
  run : ∀ r, Cost.Scaled W (OC.getSampleRun r) (call (O.getSampleRun r))
  data : ∀ d, Cost.Scaled W (OC.getSampleData d) (call (O.getSampleData d))
  range : ∀ a b, Cost.Scaled W (OC.splitRange a b) (split (O.splitRange a b))
  psi : ∀ d, Cost.Scaled W (OC.psiData d) (call (O.psiData d))

namespace SrCSA
variable {I : SrCSA} {T sa : List Nat} {W : Nat}

theorem splitRunLoopW_val (h : I.toPsiNav.OK T sa) (last f c x : Nat) : (I.splitRunLoopW last f c x).val = I.splitRunLoop last f c x := by
  induction f generalizing c x with
  | zero => rfl
  | succ f ih =>
    rw [splitRunLoopW, splitRunLoop]
    exact val_ite (val_bind_eq (val_free _) fun _ => val_bind_eq (val_free _) fun _ => val_bind_eq (h.computeForwardRunsW_val _ _ _) fun _ =>
      val_bind_eq (ih _ _) fun _ => rfl) rfl

theorem splitRunLoopW_le (h : I.toPsiNav.OK T sa) (last f c x : Nat) :
    (I.splitRunLoopW last f c x).Le (fun l k => k ≤ (Nat.log2 (nrun T sa) + 67) * l.length) := by
  induction f generalizing c x with
  | zero => exact le_none
  | succ f ih =>
    rw [splitRunLoopW]
    refine le_ite (fun _ => ?_) (fun _ => le_ret (Nat.zero_le _))
    refine le_bind (bnd_free _) fun _ c1 h1 => le_bind (bnd_free _) fun _ c2 h2 => le_bind (h.computeForwardRunsW_le _ _ _) fun l c3 h3 =>
      le_bind (ih _ _) fun l' c4 h4 => le_pure ?_
    rw [List.length_append, List.length_map, Nat.mul_add]
    omega

theorem splitRunW_scaled (h : I.toPsiNav.OK T sa) (hW : I.toPsiNav.Room T sa W) (r : FRun) : Scaled W (I.splitRunW r) (split (I.splitRun r)) := by
  refine sc_split ?_ ?_
  · rw [splitRunW, splitRun]
    exact val_bind_eq (h.computeCW_val hW.Clen _) fun _ => val_bind_eq (val_free _) fun _ => val_bind_eq (val_free _) fun _ => val_bind_eq (val_free _) fun _ =>
      val_bind_eq (val_free _) fun _ => val_bind_eq (h.computeForwardRunsW_val _ _ _) fun _ => val_bind_eq (splitRunLoopW_val h _ _ _ _) fun _ => rfl
  · rw [splitRunW]
    refine le_bind (hW.computeCW_bnd _) fun _ c1 h1 => le_bind (bnd_free _) fun _ c2 h2 => le_bind (bnd_free _) fun _ c3 h3 =>
      le_bind (bnd_free _) fun _ c4 h4 => le_bind (bnd_free _) fun _ c5 h5 => le_bind (h.computeForwardRunsW_le _ _ _) fun l c6 h6 =>
      le_bind (splitRunLoopW_le h _ _ _ _) fun l' c7 h7 => le_pure ?_
    have hle : (Nat.log2 (nrun T sa) + 67) * (l.map createRun ++ l').length ≤ W * (l.map createRun ++ l').length :=
      Nat.mul_le_mul_right _ (by have := hW.two; omega)
    have := hW.search
    rw [Nat.mul_add, Nat.mul_one]
    rw [List.length_append, List.length_map, Nat.mul_add _ l.length] at hle
    rw [List.length_append, List.length_map]
    omega

theorem getSampleIdxW_scaled (I : SrCSA) (hW : 3 ≤ W) (c rank : Nat) (b : Bool) : Scaled W (I.getSampleIdxW c rank b) (call (I.getSampleIdx c rank b)) := by
  refine sc_call ?_ ?_
  · rw [getSampleIdxW, getSampleIdx]
    exact val_ite rfl (val_bind_eq (val_free _) fun _ => val_bind_eq (readW_val _ _) fun _ => val_ite rfl
      (val_bind_eq (val_call _) fun _ => val_bind_eq (readW_val _ _) fun _ => rfl))
  · rw [getSampleIdxW]
    exact Bnd.up (bnd_ite ((bnd_ret _).up (by omega)) ((bnd_bind (m := 3) (bnd_free _) fun _ => bnd_bind (m := 2) (readW_bnd _ _) fun _ =>
      bnd_ite ((bnd_pure _).up (by omega)) (bnd_bind (m := 1) (bnd_call _) fun _ => bnd_bind (m := 0) (readW_bnd _ _) fun _ => bnd_pure _)).up
        (Nat.le_of_eq (Nat.zero_add 3)))) hW

theorem getSamplePosW_scaled (I : SrCSA) (hW : 3 ≤ W) (pos : Nat) : Scaled W (I.getSamplePosW pos) (call (I.getSamplePos pos)) := by
  refine sc_call ?_ ?_
  · rw [getSamplePosW, getSamplePos]
    exact val_bind_eq (readW_val _ _) fun _ => val_ite (val_bind_eq (val_call _) fun _ => val_bind_eq (readW_val _ _) fun _ => rfl) rfl
  · rw [getSamplePosW]
    exact Bnd.up (bnd_bind (m := 2) (readW_bnd _ _) fun _ =>
      bnd_ite (bnd_bind (m := 1) (bnd_call _) fun _ => bnd_bind (m := 0) (readW_bnd _ _) fun _ => bnd_pure _) ((bnd_pure _).up (by omega))) hW

theorem psiDataW_scaled (h : I.toPsiNav.OK T sa) (hW : I.toPsiNav.Room T sa W) (d : FData) : Scaled W (I.psiDataW d) (call (I.psiData d)) := by
  refine sc_call ?_ ?_
  · rw [psiDataW, psiData]
    refine val_bind_eq (h.computeCW_val hW.Clen _) fun _ => val_bind_eq (val_free _) fun _ => val_bind_eq (val_free _) fun _ => val_bind_eq (h.selectReportW_val _ _) ?_
    rintro ⟨pos, s, e, k⟩; rfl
  · rw [psiDataW]
    refine le_bind (hW.computeCW_bnd _) fun _ c1 h1 => le_bind (bnd_free _) fun _ c2 h2 => le_bind (bnd_free _) fun _ c3 h3 =>
      le_bind (h.selectReportW_bnd _ _) ?_
    rintro ⟨pos, s, e, k⟩ c4 h4
    exact le_pure (by have := hW.search; omega)

theorem psiPosW_scaled (h : I.toPsiNav.OK T sa) (hW : I.toPsiNav.Room T sa W) (d : FData) : Scaled W (I.psiPosW d) (call (I.psiPos d)) := by
  refine sc_call ?_ ?_
  · rw [psiPosW, psiPos, psiApply]
    simp only [bind_assoc]
    exact val_bind_eq (h.computeCW_val hW.Clen _) fun _ => val_bind_eq (val_free _) fun _ => val_bind_eq (val_free _) fun _ => val_bind_eq (h.selectW_val _ _) fun _ => rfl
  · rw [psiPosW]
    refine le_bind (hW.computeCW_bnd _) fun _ c1 h1 => le_bind (bnd_free _) fun _ c2 h2 => le_bind (bnd_free _) fun _ c3 h3 =>
      le_bind (h.selectW_bnd _ _) fun _ c4 h4 => le_pure (by have := hW.search; omega)

theorem cutLoopW_val (I : SrCSA) (last k i a : Nat) : (I.cutLoopW last k i a).val = I.cutLoop last k i a := by
  induction k generalizing i a with
  | zero => rfl
  | succ k ih =>
    rw [cutLoopW, cutLoop]
    exact val_bind_eq (val_call _) fun _ => val_bind_eq (ih _ _) fun _ => rfl

theorem cutLoopW_le (I : SrCSA) (last k i a : Nat) : (I.cutLoopW last k i a).Le (fun l c => c + 1 ≤ l.length) := by
  induction k generalizing i a with
  | zero => exact le_ret (Nat.le_refl _)
  | succ k ih =>
    rw [cutLoopW]
    refine le_bind (bnd_call _) fun _ c1 h1 => le_bind (ih _ _) fun l c2 h2 => le_pure ?_
    rw [List.length_cons]; omega

theorem cutRangeW_scaled (I : SrCSA) (hW : 2 ≤ W) (a b : Nat) : Scaled W (I.cutRangeW a b) (split (I.cutRange a b)) := by
  refine sc_split ?_ ?_
  · rw [cutRangeW, cutRange]
    exact val_bind_eq (val_call _) fun _ => val_bind_eq (val_call _) fun _ => I.cutLoopW_val _ _ _ _
  · rw [cutRangeW]
    refine le_bind (bnd_call _) fun _ c1 h1 => le_bind (bnd_call _) fun _ c2 h2 => (I.cutLoopW_le _ _ _ _).mono fun l c hc => ?_
    have : 2 * (1 + l.length) ≤ W * (1 + l.length) := Nat.mul_le_mul_right _ hW
    omega

theorem slimOpsC_scaled (h : I.toPsiNav.OK T sa) (hW : I.toPsiNav.Room T sa W) : ForwOpsC.Scaled W I.slimOps I.slimOpsC where
  run := fun _ => I.getSampleIdxW_scaled (by have := hW.two; omega) _ _ _
  data := fun _ => I.getSampleIdxW_scaled (by have := hW.two; omega) _ _ _
  range := by
    intro a b
    refine sc_split ?_ ?_
    · exact val_bind_eq (h.splitInSortedRunsW_val a b) fun _ => rfl
    · refine le_bind (h.splitInSortedRunsW_le a b) fun l c hc => le_pure ?_
      have h1 := hW.all
      have h2 : 2 * l.length ≤ W * l.length := Nat.mul_le_mul_right _ (by have := hW.two; omega)
      rw [List.length_map, Nat.mul_add, Nat.mul_one]
      omega
  psi := psiDataW_scaled h hW

theorem posOpsC_scaled (h : I.toPsiNav.OK T sa) (hW : I.toPsiNav.Room T sa W) : ForwOpsC.Scaled W I.posOps I.posOpsC where
  run := fun _ => I.getSamplePosW_scaled (by have := hW.two; omega) _
  data := fun _ => I.getSamplePosW_scaled (by have := hW.two; omega) _
  range := I.cutRangeW_scaled (by have := hW.two; omega)
  psi := psiPosW_scaled h hW

theorem rangePhiC_scaled (h : I.toPsiNav.OK T sa) (hW : I.toPsiNav.Room T sa W) {O : ForwOps} {OC : ForwOpsC} (hO : ForwOpsC.Scaled W O OC)
    {phi : Nat → Option (Nat × Bool)} {phiW : Nat → Cost (Nat × Bool)} (hp : ∀ v, Scaled W (phiW v) (call (phi v))) :
    RangePhiC.Scaled W (I.rangePhiC O OC phi phiW) :=
  { phi := hp, getSample := hO.run, splitRun := splitRunW_scaled h hW, navigate := fun _ => sc_free none }

theorem phiForRangeC_scaled (h : I.toPsiNav.OK T sa) (hW : I.toPsiNav.Room T sa W) {O : ForwOps} {OC : ForwOpsC} (hO : ForwOpsC.Scaled W O OC)
    (r : Range) (k : Nat) : Scaled W (I.phiForRangeC O OC r k) (I.phiForRangeW O r k) := by
  rw [phiForRangeC, phiForRangeW]
  exact sc_ite (sc_bind (hO.range _ _) fun _ =>
    (rangePhiC_scaled h hW hO (fun v => sc_call (I.toRCSA.phiW_val false v) ((I.toRCSA.phiW_bnd false v).up (by have := hW.two; omega)))).forwRange _ _) (sc_ret _)

theorem locateC_scaled (h : I.toPsiNav.OK T sa) (hW : I.toPsiNav.Room T sa W) {O : ForwOps} {OC : ForwOpsC} (hO : ForwOpsC.Scaled W O OC)
    (g : Range → Nat → Option (List Nat)) {w w' : Range → Nat → Cost (List Nat)} (hw : ∀ r k, Scaled W (w r k) (w' r k)) (P : List Nat) :
    Scaled W (I.locateC O OC g w P) (I.locateW O g w' P) :=
  (I.functorsWith O g).locateC_scaled (h.lfW_scaled hW) (computeAllValuesW_scaled hw (computeToeholdW_scaled
    (saValueForwardC_scaled hO.data hO.psi _ _) _) _) P

end SrCSA

theorem SrCSAValid.locateC_scaled {I : SrCSAValid} {T sa : List Nat} {W : Nat} (h : I.csa.toPsiNav.OK T sa) (hW : I.csa.toPsiNav.Room T sa W)
    {O : ForwOps} {OC : ForwOpsC} (hO : ForwOpsC.Scaled W O OC) {phi : Nat → Option (Nat × Bool)} {phiW : Nat → Cost (Nat × Bool)}
    (hp : ∀ v, Scaled W (phiW v) (call (phi v))) (P : List Nat) : Scaled W (I.locateC O OC phi phiW P) (I.locateW O phi P) := by
  refine SrCSA.locateC_scaled h hW hO _ (fun r k => ?_) P
  rw [phiForRangeC, phiForRangeW]
  exact sc_ite ((SrCSA.rangePhiC_scaled h hW hO hp).forwRangeV (hO.range _ _) _) (sc_ret _)

end Sri
