import Verif.Model.Work
/-! # What the counting versions of the functions compute: what the functions compute -/
namespace Sri
set_option autoImplicit false

namespace Cost
variable {α β : Type}

theorem val_ret (a : α) : (ret a).val = some a := rfl
theorem val_pure (a : α) : (pure a : Cost α).val = pure a := rfl
theorem val_free (o : Option α) : (free o).val = o := by cases o <;> rfl
theorem val_call (o : Option α) : (call o).val = o := by cases o <;> rfl
theorem val_split (o : Option (List α)) : (split o).val = o := by cases o <;> rfl

theorem val_bind (x : Cost α) (f : α → Cost β) : (x >>= f).val = x.val >>= fun a => (f a).val := by
  change (andThen x f).val = _
  cases x with
  | none => rfl
  | some p =>
    obtain ⟨a, c⟩ := p
    change _ = (f a).val
    rw [andThen]
    cases f a with
    | none => rfl
    | some q => rfl

theorem val_bind_eq {x : Cost α} {f : α → Cost β} {o : Option α} {g : α → Option β} (h : x.val = o) (hf : ∀ a, (f a).val = g a) :
    (x >>= f).val = o >>= g := by
  rw [val_bind, h]
  exact congrArg _ (funext hf)

theorem val_ite {c : Prop} [Decidable c] {x y : Cost α} {o p : Option α} (h : x.val = o) (h' : y.val = p) :
    (if c then x else y).val = if c then o else p := by
  split
  · exact h
  · exact h'

theorem val_foldlM {f : β → α → Cost β} {g : β → α → Option β} (h : ∀ b a, (f b a).val = g b a) (l : List α) (b : β) :
    (l.foldlM f b).val = l.foldlM g b := by
  induction l generalizing b with
  | nil => rfl
  | cons a l ih =>
    rw [List.foldlM_cons, List.foldlM_cons]
    exact val_bind_eq (h b a) ih

end Cost

open Cost

namespace RangePhi
variable {R : Type} (F : RangePhi R)

theorem phiWhileW_val (fuel : Nat) (run : R) (prev : Nat) : (F.phiWhileW fuel run prev).val = F.phiWhile fuel run prev := by
  induction fuel generalizing run prev with
  | zero => rfl
  | succ fuel ih =>
    rw [phiWhileW, phiWhile]
    refine val_bind_eq (val_call _) ?_
    rintro ⟨v, ok⟩
    refine val_bind_eq (val_free _) fun run => val_ite rfl (val_bind_eq (ih _ _) ?_)
    rintro ⟨l, e⟩; rfl

theorem backRunsW_val (level : Nat) {next : R → Nat → Cost (List Nat × Nat)} {next' : R → Nat → Option (List Nat × Nat)}
    (hn : ∀ r p, (next r p).val = next' r p) (runs : List R) (prev : Nat) :
    (F.backRunsW level next runs prev).val = F.backRuns level next' runs prev := by
  induction runs generalizing prev with
  | nil => rfl
  | cons r rest ih =>
    rw [backRunsW, backRuns]
    refine val_bind_eq (val_call _) fun sample => val_bind_eq ?_ ?_
    · cases sample with
      | none => rfl
      | some x => exact val_bind_eq (val_free _) fun v => val_bind_eq (val_free _) fun _ => rfl
    · rintro ⟨rep, prev, run⟩
      refine val_bind_eq (val_ite rfl (val_bind_eq (val_call _) fun _ => hn _ _)) ?_
      rintro ⟨rep2, prev⟩
      refine val_bind_eq (ih _) ?_
      rintro ⟨rep3, prev⟩; rfl

theorem backComputeW_val (depth level : Nat) (run : R) (prev : Nat) :
    (F.backComputeW depth level run prev).val = F.backCompute depth level run prev := by
  induction depth generalizing level run prev with
  | zero => rfl
  | succ depth ih =>
    rw [backComputeW, backCompute]
    exact val_ite (F.phiWhileW_val _ _ _) (val_bind_eq (val_split _) fun runs => F.backRunsW_val _ (fun r p => ih _ r p) _ _)

theorem backRangeW_val (runs : List R) (prev : Nat) : (F.backRangeW runs prev).val = F.backRange runs prev := by
  rw [backRangeW, backRange]
  refine val_bind_eq (F.backRunsW_val _ (fun r p => F.backComputeW_val _ _ r p) _ _) ?_
  rintro ⟨l, e⟩; rfl

theorem reportValidW_val (fuel : Nat) (run : R) (value : Nat) (valid : Bool) :
    (F.reportValidW fuel run value valid).val = F.reportValid fuel run value valid := by
  induction fuel generalizing run value valid with
  | zero => rw [reportValidW, reportValid]; exact val_ite rfl rfl
  | succ fuel ih =>
    rw [reportValidW, reportValid]
    refine val_ite rfl (val_bind_eq (val_free _) fun run => val_bind_eq (val_call _) ?_)
    rintro ⟨v, ok⟩
    refine val_bind_eq (ih _ _ _) ?_
    rintro ⟨l, e⟩; rfl

theorem runValidW_val (toValue : Nat → Option Nat) (fuel : Nat) (run : R) (value : Nat) (valid : Bool) :
    (F.runValidW toValue fuel run value valid).val = F.runValid toValue fuel run value valid := by
  induction fuel generalizing run value valid with
  | zero => rfl
  | succ fuel ih =>
    rw [runValidW, runValid]
    refine val_bind_eq (F.reportValidW_val _ _ _ _) ?_
    rintro ⟨l, run, value, valid⟩
    refine val_ite rfl (val_bind_eq (val_call _) fun sample => ?_)
    cases sample with
    | some x =>
      refine val_bind_eq (val_free _) fun v => val_bind_eq (ih _ _ _) ?_
      rintro ⟨l2, e⟩; rfl
    | none =>
      refine val_ite (val_bind_eq (ih _ _ _) ?_) rfl
      rintro ⟨l2, e⟩; rfl

theorem phiWhileVW_val (fuel : Nat) (run : R) (value : Nat) : (F.phiWhileVW fuel run value).val = F.phiWhileV fuel run value := by
  induction fuel generalizing run value with
  | zero => rfl
  | succ fuel ih =>
    rw [phiWhileVW, phiWhileV]
    refine val_bind_eq (val_free _) fun run => val_bind_eq (val_call _) ?_
    rintro ⟨v, ok⟩
    refine val_ite rfl (val_bind_eq (ih _ _) ?_)
    rintro ⟨l, e⟩; rfl

theorem backRunsVW_val (level : Nat) {next : R → Nat → Bool → Cost (List Nat × Nat × Bool)} {next' : R → Nat → Bool → Option (List Nat × Nat × Bool)}
    (hn : ∀ r p b, (next r p b).val = next' r p b) (runs : List R) (value : Nat) (valid : Bool) :
    (F.backRunsVW level next runs value valid).val = F.backRunsV level next' runs value valid := by
  induction runs generalizing value valid with
  | nil => rfl
  | cons r rest ih =>
    rw [backRunsVW, backRunsV]
    refine val_bind_eq (F.runValidW_val _ _ _ _ _) ?_
    rintro ⟨rep, run, value, valid⟩
    refine val_bind_eq (val_ite rfl (val_bind_eq (val_call _) fun _ => hn _ _ _)) ?_
    rintro ⟨rep2, value, valid⟩
    refine val_bind_eq (ih _ _) ?_
    rintro ⟨rep3, e⟩; rfl

theorem backComputeVW_val (depth level : Nat) (run : R) (value : Nat) (valid : Bool) :
    (F.backComputeVW depth level run value valid).val = F.backComputeV depth level run value valid := by
  induction depth generalizing level run value valid with
  | zero => rfl
  | succ depth ih =>
    rw [backComputeVW, backComputeV]
    exact val_ite (F.phiWhileVW_val _ _ _) (val_bind_eq (val_split _) fun runs => F.backRunsVW_val _ (fun r p b => ih _ r p b) _ _ _)

theorem backRangeVW_val (runs : Option (List R)) (prev : Nat) : (F.backRangeVW runs prev).val = F.backRangeV runs prev := by
  rw [backRangeVW, backRangeV]
  refine val_bind_eq (val_call _) ?_
  rintro ⟨value, valid⟩
  refine val_bind_eq (val_split _) fun runs => val_bind_eq (F.backRunsVW_val _ (fun r p b => F.backComputeVW_val _ _ r p b) _ _ _) ?_
  rintro ⟨l, e⟩; rfl

theorem foldW_val {f : R → Nat → Cost (List Nat × Nat)} {g : R → Nat → Option (List Nat × Nat)} (h : ∀ r p, (f r p).val = g r p)
    (l : List R) (acc : List Nat × Nat) :
    (l.foldlM (fun (acc : List Nat × Nat) r => do
      let (l, p) ← f r acc.2
      return (acc.1 ++ l, p)) acc : Cost (List Nat × Nat)).val
    = l.foldlM (fun (acc : List Nat × Nat) r => do
      let (l, p) ← g r acc.2
      return (acc.1 ++ l, p)) acc := by
  refine val_foldlM (fun acc r => val_bind_eq (h _ _) ?_) l acc
  rintro ⟨l, p⟩; rfl

theorem foldVW_val {f : R → Nat → Bool → Cost (List Nat × Nat × Bool)} {g : R → Nat → Bool → Option (List Nat × Nat × Bool)}
    (h : ∀ r p b, (f r p b).val = g r p b) (l : List R) (acc : List Nat × Nat × Bool) :
    (l.foldlM (fun (acc : List Nat × Nat × Bool) r => do
      let (l, e) ← f r acc.2.1 acc.2.2
      return (acc.1 ++ l, e)) acc : Cost (List Nat × Nat × Bool)).val
    = l.foldlM (fun (acc : List Nat × Nat × Bool) r => do
      let (l, e) ← g r acc.2.1 acc.2.2
      return (acc.1 ++ l, e)) acc := by
  refine val_foldlM (fun acc r => val_bind_eq (h _ _ _) ?_) l acc
  rintro ⟨l, p⟩; rfl

theorem forwComputeW_val (depth level : Nat) (run : R) (prev : Nat) :
    (F.forwComputeW depth level run prev).val = F.forwCompute depth level run prev := by
  induction depth generalizing level run prev with
  | zero => rfl
  | succ depth ih =>
    rw [forwComputeW, forwCompute]
    refine val_ite (F.phiWhileW_val _ _ _) (val_bind_eq (val_call _) fun sample => val_bind_eq ?_ ?_)
    · cases sample with
      | none => rfl
      | some x => exact val_bind_eq (val_free _) fun y => val_bind_eq (val_free _) fun v => val_bind_eq (val_free _) fun _ => rfl
    · rintro ⟨rep, prev, run⟩
      refine val_ite rfl (val_bind_eq (val_split _) fun runs => val_bind_eq (foldW_val (fun r p => ih _ r p) _ _) ?_)
      rintro ⟨rep2, prev⟩; rfl

theorem forwRangeW_val (runs : List R) (prev : Nat) : (F.forwRangeW runs prev).val = F.forwRange runs prev := by
  rw [forwRangeW, forwRange]
  refine val_bind_eq (foldW_val (fun r p => F.forwComputeW_val _ _ r p) _ _) ?_
  rintro ⟨l, e⟩; rfl

theorem forwComputeVW_val (depth level : Nat) (run : R) (value : Nat) (valid : Bool) :
    (F.forwComputeVW depth level run value valid).val = F.forwComputeV depth level run value valid := by
  induction depth generalizing level run value valid with
  | zero => rfl
  | succ depth ih =>
    rw [forwComputeVW, forwComputeV]
    refine val_ite (F.phiWhileVW_val _ _ _) (val_bind_eq (F.runValidW_val _ _ _ _ _) ?_)
    rintro ⟨rep, run, value, valid⟩
    refine val_ite rfl (val_bind_eq (val_split _) fun runs => val_bind_eq (foldVW_val (fun r p b => ih _ r p b) _ _) ?_)
    rintro ⟨rep2, value, valid⟩; rfl

theorem forwRangeVW_val (runs : Option (List R)) (prev : Nat) : (F.forwRangeVW runs prev).val = F.forwRangeV runs prev := by
  rw [forwRangeVW, forwRangeV]
  refine val_bind_eq (val_call _) ?_
  rintro ⟨value, valid⟩
  refine val_bind_eq (val_split _) fun runs => val_bind_eq (foldVW_val (fun r p b => F.forwComputeVW_val _ _ r p b) _ _) ?_
  rintro ⟨l, e⟩; rfl

end RangePhi

theorem phiLoopW_val (phi : Nat → Option (Nat × Bool)) (len k : Nat) : (phiLoopW phi len k).val = phiLoop phi len k := by
  induction len generalizing k with
  | zero => rfl
  | succ len ih =>
    rw [phiLoopW, phiLoop]
    refine val_bind_eq (val_call _) ?_
    rintro ⟨k, b⟩
    exact val_bind_eq (ih _) fun _ => rfl

theorem findSampleW_val {β : Type} (g : β → Option (Option Nat)) (nv : β → Option β) (fuel : Nat) (d : β) :
    (findSampleW g nv fuel d).val = findSample g nv fuel d := by
  induction fuel generalizing d with
  | zero => rfl
  | succ fuel ih =>
    rw [findSampleW, findSample]
    refine val_bind_eq (val_call _) fun s => ?_
    cases s with
    | some x => rfl
    | none =>
      refine val_bind_eq (val_call _) fun d => val_bind_eq (ih _) ?_
      rintro ⟨x, j⟩; rfl

theorem saValueBackwardW_val {β : Type} (g : β → Option (Option Nat)) (nv : β → Option β) (fuel n : Nat) (d : β) :
    (saValueBackwardW g nv fuel n d).val = saValueBackward g nv fuel n d := by
  rw [saValueBackwardW, saValueBackward]
  refine val_bind_eq (findSampleW_val _ _ _ _) ?_
  rintro ⟨x, j⟩; exact val_free _

theorem saValueForwardW_val {β : Type} (g : β → Option (Option Nat)) (nv : β → Option β) (fuel n : Nat) (d : β) :
    (saValueForwardW g nv fuel n d).val = saValueForward g nv fuel n d := by
  rw [saValueForwardW, saValueForward]
  refine val_bind_eq (findSampleW_val _ _ _ _) ?_
  rintro ⟨x, j⟩; exact val_bind_eq (val_free _) fun _ => val_free _

theorem computeToeholdW_val {β : Type} {v : β → Cost Nat} {v' : β → Option Nat} (h : ∀ d, (v d).val = v' d) (n : Nat) (d : StepData β) :
    (computeToeholdW v n d).val = computeToehold v' n d := by
  rw [computeToeholdW, computeToehold]
  exact val_bind_eq (h _) fun _ => val_bind_eq (val_free _) fun _ => val_bind_eq (val_free _) fun _ => val_free _

theorem computeAllValuesW_val {ρ δ : Type} {w : ρ → Nat → Cost (List Nat)} {g : ρ → Nat → Option (List Nat)} (hw : ∀ r k, (w r k).val = g r k)
    {t : δ → Cost Nat} {t' : δ → Option Nat} (ht : ∀ d, (t d).val = t' d) (u : ρ → Option ρ) (r : ρ) (d : δ) :
    (computeAllValuesW w t u r d).val = computeAllValues g t' u r d := by
  rw [computeAllValuesW, computeAllValues]
  exact val_bind_eq (ht _) fun _ => val_bind_eq (val_free _) fun _ => val_bind_eq (hw _ _) fun _ => rfl

namespace Functors
variable {ρ ν δ : Type} (F : Functors ρ ν δ)

theorem locateLoopW_val (L : List Nat) (r : ρ) (d : δ) : (F.locateLoopW L r d).val = F.locateLoop L r d := by
  induction L generalizing r d with
  | nil => rfl
  | cons c L ih =>
    rw [locateLoopW, locateLoop]
    exact val_ite rfl (val_bind_eq (val_call _) fun _ => val_bind_eq (val_free _) fun _ => ih _ _)

theorem locateW_val {w : ρ → δ → Cost (List Nat)} (h : ∀ r d, (w r d).val = F.computeAll r d) (P : List Nat) :
    (F.locateW w P).val = F.locate P := by
  rw [locateW, locate]
  refine val_bind_eq (F.locateLoopW_val _ _ _) ?_
  rintro ⟨r, d⟩
  exact val_ite rfl (h _ _)

end Functors

theorem RIndex.saValueOfRunW_val (I : RIndex) (d : RunData) : (I.saValueOfRunW d).val = I.saValueOfRun d := by
  rw [saValueOfRunW, saValueOfRun]
  exact val_bind_eq (val_call _) fun _ => val_bind_eq (val_call _) fun _ => rfl

theorem RIndex.locateW_val (I : RIndex) (P : List Nat) : (I.locateW P).val = I.locate P :=
  I.functors.locateW_val (computeAllValuesW_val (fun _ _ => phiLoopW_val _ _ _) (computeToeholdW_val I.saValueOfRunW_val _) _) P

theorem SrIndex.saValueOfRunW_val (I : SrIndex) (d : RunDataExt) : (I.saValueOfRunW d).val = I.saValueOfRun d := by
  rw [saValueOfRunW, saValueOfRun]
  exact val_bind_eq (val_call _) fun _ => saValueBackwardW_val _ _ _ _ _

theorem SrIndex.phiForRangeW_val (I : SrIndex) (r : Range) (k : Nat) : (I.phiForRangeW r k).val = I.phiForRange r k := by
  rw [phiForRangeW, phiForRange]
  exact val_ite (val_bind_eq (val_split _) fun _ => RangePhi.backRangeW_val _ _ _) rfl

theorem SrIndex.locateW_val (I : SrIndex) {w : Range → Nat → Cost (List Nat)} {g : Range → Nat → Option (List Nat)}
    (h : ∀ r k, (w r k).val = g r k) (P : List Nat) : (I.locateW g w P).val = (I.functorsWith g).locate P :=
  (I.functorsWith g).locateW_val (computeAllValuesW_val h (computeToeholdW_val I.saValueOfRunW_val _) _) P

theorem SrIndexValid.phiForRangeW_val (I : SrIndexValid) (phi : Nat → Option (Nat × Bool)) (r : Range) (k : Nat) :
    (I.phiForRangeW phi r k).val = I.phiForRange phi r k := by
  rw [phiForRangeW, phiForRange]
  exact val_ite (RangePhi.backRangeVW_val _ _ _) rfl

theorem SrIndexValid.locateW_val (I : SrIndexValid) (phi : Nat → Option (Nat × Bool)) (P : List Nat) :
    (I.locateW phi P).val = (I.sr.functorsWith (I.phiForRange phi)).locate P :=
  I.sr.locateW_val (I.phiForRangeW_val phi) P

theorem RCSABwt.saValueOfRunW_val (I : RCSA) (d : Nat) : (saValueOfRunW I d).val = saValueOfRun I d := by
  rw [saValueOfRunW, saValueOfRun]
  exact val_bind_eq (val_call _) fun _ => val_bind_eq (val_call _) fun _ => rfl

theorem RCSAPsi.saValueOfRunW_val (I : RCSA) (d : PsiRunData) : (saValueOfRunW I d).val = saValueOfRun I d := by
  rw [saValueOfRunW, saValueOfRun]
  exact val_bind_eq (val_call _) fun _ => val_bind_eq (val_call _) fun _ => rfl

theorem RCSABwt.locateW_val (I : RCSA) (P : List Nat) : (I.locateW (functors I) (saValueOfRunW I) P).val = locate I P :=
  (functors I).locateW_val (computeAllValuesW_val (fun _ _ => phiLoopW_val _ _ _) (computeToeholdW_val (saValueOfRunW_val I) _) _) P

theorem RCSAPsi.locateW_val (I : RCSA) (P : List Nat) : (I.locateW (functors I) (saValueOfRunW I) P).val = locate I P :=
  (functors I).locateW_val (computeAllValuesW_val (fun _ _ => phiLoopW_val _ _ _) (computeToeholdW_val (saValueOfRunW_val I) _) _) P

theorem SrCSA.phiForRangeW_val (I : SrCSA) (O : ForwOps) (r : Range) (k : Nat) : (I.phiForRangeW O r k).val = I.phiForRange O r k := by
  rw [phiForRangeW, phiForRange]
  exact val_ite (val_bind_eq (val_split _) fun _ => RangePhi.forwRangeW_val _ _ _) rfl

theorem SrCSAValid.phiForRangeW_val (I : SrCSAValid) (O : ForwOps) (phi : Nat → Option (Nat × Bool)) (r : Range) (k : Nat) :
    (I.phiForRangeW O phi r k).val = I.phiForRange O phi r k := by
  rw [phiForRangeW, phiForRange]
  exact val_ite (RangePhi.forwRangeVW_val _ _ _) rfl

theorem SrCSA.locateW_val (I : SrCSA) (O : ForwOps) {w : Range → Nat → Cost (List Nat)} {g : Range → Nat → Option (List Nat)}
    (h : ∀ r k, (w r k).val = g r k) (P : List Nat) : (I.locateW O g w P).val = (I.functorsWith O g).locate P :=
  (I.functorsWith O g).locateW_val (computeAllValuesW_val h (computeToeholdW_val (fun _ => saValueForwardW_val _ _ _ _ _) _) _) P

theorem SrCSAValid.locateW_val (I : SrCSAValid) (O : ForwOps) (phi : Nat → Option (Nat × Bool)) (P : List Nat) :
    (I.locateW O phi P).val = (I.functorsWith O phi).locate P :=
  I.csa.locateW_val O (I.phiForRangeW_val O phi) P

end Sri
