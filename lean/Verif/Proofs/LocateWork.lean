import Verif.Model.LocateWork
import Verif.Proofs.CountWork
/-! # The operations of a Locate query, part 1: if every functor makes at most `W` operations per call, Locate makes at most `W` per call counted -/
namespace Sri
set_option autoImplicit false

open Cost

namespace Cost
variable {α β γ : Type}

/-- `x` computes what `y` computes, and counts at most `W` for each 1 that `y` counts -/
def Scaled (W : Nat) (x y : Cost α) : Prop := x.val = y.val ∧ ∀ a c d, x = some (a, c) → y = some (a, d) → c ≤ W * d

variable {W : Nat}

theorem sc_zero {x y : Cost α} (hv : x.val = y.val) (h : x.Le (fun _ c => c = 0)) : Scaled W x y :=
  ⟨hv, fun a c _ e _ => by rw [h a c e]; exact Nat.zero_le _⟩

theorem sc_free (o : Option α) : Scaled W (free o) (free o) := sc_zero rfl (le_free fun _ _ => rfl)

theorem sc_ret (a : α) : Scaled W (ret a) (ret a) := sc_zero rfl (le_ret rfl)

theorem sc_pure (a : α) : Scaled W (pure a) (pure a) := sc_ret a

/-- one call of a functor of at most `W` operations -/
theorem sc_call {x : Cost α} {o : Option α} (hv : x.val = o) (h : x.Le (fun _ c => c ≤ W)) : Scaled W x (call o) := by
  refine ⟨by rw [hv, val_call], fun a c d e e' => ?_⟩
  cases o with
  | none => cases e'
  | some b => obtain ⟨rfl, rfl⟩ := eq_of_some e'; rw [Nat.mul_one]; exact h _ c e

/-- one split, of at most `W` operations and at most `W` per reported run -/
theorem sc_split {x : Cost (List α)} {o : Option (List α)} (hv : x.val = o) (h : x.Le (fun l c => c ≤ W * (1 + l.length))) :
    Scaled W x (split o) := by
  refine ⟨by rw [hv, val_split], fun a c d e e' => ?_⟩
  cases o with
  | none => cases e'
  | some b => obtain ⟨rfl, rfl⟩ := eq_of_some e'; exact h _ c e

theorem sc_bind {x y : Cost α} {f g : α → Cost β} (h : Scaled W x y) (hf : ∀ a, Scaled W (f a) (g a)) : Scaled W (x >>= f) (y >>= g) := by
  refine ⟨by rw [val_bind, val_bind, h.1]; exact congrArg _ (funext fun a => (hf a).1), fun b c d e e' => ?_⟩
  change andThen x f = _ at e
  change andThen y g = _ at e'
  cases x with
  | none => cases e
  | some p =>
    cases y with
    | none => cases e'
    | some q =>
      obtain ⟨a, c1⟩ := p
      obtain ⟨a', d1⟩ := q
      have ha : a = a' := Option.some.inj h.1
      subst ha
      simp only [andThen] at e e'
      cases hfa : f a with
      | none => rw [hfa] at e; cases e
      | some r =>
        cases hga : g a with
        | none => rw [hga] at e'; cases e'
        | some r' =>
          obtain ⟨b1, c2⟩ := r
          obtain ⟨b2, d2⟩ := r'
          rw [hfa] at e; rw [hga] at e'
          obtain ⟨rfl, rfl⟩ := eq_of_some e
          obtain ⟨rfl, rfl⟩ := eq_of_some e'
          have h1 := h.2 a c1 d1 rfl rfl
          have h2 := (hf a).2 _ c2 d2 hfa hga
          rw [Nat.mul_add]; omega

theorem sc_ite {p : Prop} [Decidable p] {x y x' y' : Cost α} (h : Scaled W x y) (h' : Scaled W x' y') :
    Scaled W (if p then x else x') (if p then y else y') := by
  split
  · exact h
  · exact h'

theorem sc_foldlM {f g : β → α → Cost β} (h : ∀ b a, Scaled W (f b a) (g b a)) (l : List α) (b : β) :
    Scaled W (l.foldlM f b) (l.foldlM g b) := by
  induction l generalizing b with
  | nil => exact sc_pure b
  | cons a l ih =>
    rw [List.foldlM_cons, List.foldlM_cons]
    exact sc_bind (h b a) ih

end Cost

/-- every functor computes what the plain one computes, with at most `W` operations per call counted by Model/Work -/
structure RangePhiC.Scaled {R : Type} (W : Nat) (F : RangePhiC R) : Prop where
  phi : ∀ v, Cost.Scaled W (F.phi v) (call (F.plain.phi v))
  getSample : ∀ r, Cost.Scaled W (F.getSample r) (call (F.plain.getSample r))
  splitRun : ∀ r, Cost.Scaled W (F.splitRun r) (split (F.plain.splitRun r))
  navigate : ∀ r, Cost.Scaled W (F.navigate r) (call (F.plain.navigate r))

namespace RangePhiC.Scaled
variable {R : Type} {W : Nat} {F : RangePhiC R} (h : RangePhiC.Scaled W F)
include h

theorem phiWhile (fuel : Nat) (run : R) (prev : Nat) : Cost.Scaled W (F.phiWhile fuel run prev) (F.plain.phiWhileW fuel run prev) := by
  induction fuel generalizing run prev with
  | zero => exact sc_free _
  | succ fuel ih =>
    rw [RangePhiC.phiWhile, RangePhi.phiWhileW]
    refine sc_bind (h.phi _) ?_
    rintro ⟨v, ok⟩
    refine sc_bind (sc_free _) fun run => sc_ite (sc_pure _) (sc_bind (ih _ _) ?_)
    rintro ⟨l, e⟩; exact sc_pure _

theorem backRuns (level : Nat) {next next' : R → Nat → Cost (List Nat × Nat)}
    (hn : ∀ r p, Cost.Scaled W (next r p) (next' r p)) (runs : List R) (prev : Nat) :
    Cost.Scaled W (F.backRuns level next runs prev) (F.plain.backRunsW level next' runs prev) := by
  induction runs generalizing prev with
  | nil => exact sc_ret _
  | cons r rest ih =>
    rw [RangePhiC.backRuns, RangePhi.backRunsW]
    refine sc_bind (h.getSample _) fun sample => sc_bind ?_ ?_
    · cases sample with
      | none => exact sc_pure _
      | some x => exact sc_bind (sc_free _) fun v => sc_bind (sc_free _) fun _ => sc_pure _
    · rintro ⟨rep, prev, run⟩
      refine sc_bind (sc_ite (sc_pure _) (sc_bind (h.navigate _) fun _ => hn _ _)) ?_
      rintro ⟨rep2, prev⟩
      refine sc_bind (ih _) ?_
      rintro ⟨rep3, prev⟩; exact sc_pure _

theorem backCompute (depth level : Nat) (run : R) (prev : Nat) :
    Cost.Scaled W (F.backCompute depth level run prev) (F.plain.backComputeW depth level run prev) := by
  induction depth generalizing level run prev with
  | zero => exact sc_free _
  | succ depth ih =>
    rw [RangePhiC.backCompute, RangePhi.backComputeW]
    exact sc_ite (h.phiWhile _ _ _) (sc_bind (h.splitRun _) fun runs => h.backRuns _ (fun r p => ih _ r p) _ _)

theorem backRange (runs : List R) (prev : Nat) : Cost.Scaled W (F.backRange runs prev) (F.plain.backRangeW runs prev) := by
  rw [RangePhiC.backRange, RangePhi.backRangeW]
  refine sc_bind (h.backRuns _ (fun r p => h.backCompute _ _ r p) _ _) ?_
  rintro ⟨l, e⟩; exact sc_pure _

theorem reportValid (fuel : Nat) (run : R) (value : Nat) (valid : Bool) :
    Cost.Scaled W (F.reportValid fuel run value valid) (F.plain.reportValidW fuel run value valid) := by
  induction fuel generalizing run value valid with
  | zero => rw [RangePhiC.reportValid, RangePhi.reportValidW]; exact sc_ite (sc_ret _) (sc_free _)
  | succ fuel ih =>
    rw [RangePhiC.reportValid, RangePhi.reportValidW]
    refine sc_ite (sc_ret _) (sc_bind (sc_free _) fun run => sc_bind (h.phi _) ?_)
    rintro ⟨v, ok⟩
    refine sc_bind (ih _ _ _) ?_
    rintro ⟨l, e⟩; exact sc_pure _

theorem runValid (toValue : Nat → Option Nat) (fuel : Nat) (run : R) (value : Nat) (valid : Bool) :
    Cost.Scaled W (F.runValid toValue fuel run value valid) (F.plain.runValidW toValue fuel run value valid) := by
  induction fuel generalizing run value valid with
  | zero => exact sc_free _
  | succ fuel ih =>
    rw [RangePhiC.runValid, RangePhi.runValidW]
    refine sc_bind (h.reportValid _ _ _ _) ?_
    rintro ⟨l, run, value, valid⟩
    refine sc_ite (sc_pure _) (sc_bind (h.getSample _) fun sample => ?_)
    cases sample with
    | some x =>
      refine sc_bind (sc_free _) fun v => sc_bind (ih _ _ _) ?_
      rintro ⟨l2, e⟩; exact sc_pure _
    | none =>
      refine sc_ite (sc_bind (ih _ _ _) ?_) (sc_pure _)
      rintro ⟨l2, e⟩; exact sc_pure _

theorem phiWhileV (fuel : Nat) (run : R) (value : Nat) : Cost.Scaled W (F.phiWhileV fuel run value) (F.plain.phiWhileVW fuel run value) := by
  induction fuel generalizing run value with
  | zero => exact sc_free _
  | succ fuel ih =>
    rw [RangePhiC.phiWhileV, RangePhi.phiWhileVW]
    refine sc_bind (sc_free _) fun run => sc_bind (h.phi _) ?_
    rintro ⟨v, ok⟩
    refine sc_ite (sc_pure _) (sc_bind (ih _ _) ?_)
    rintro ⟨l, e⟩; exact sc_pure _

theorem backRunsV (level : Nat) {next next' : R → Nat → Bool → Cost (List Nat × Nat × Bool)}
    (hn : ∀ r p b, Cost.Scaled W (next r p b) (next' r p b)) (runs : List R) (value : Nat) (valid : Bool) :
    Cost.Scaled W (F.backRunsV level next runs value valid) (F.plain.backRunsVW level next' runs value valid) := by
  induction runs generalizing value valid with
  | nil => exact sc_ret _
  | cons r rest ih =>
    rw [RangePhiC.backRunsV, RangePhi.backRunsVW]
    refine sc_bind (h.runValid _ _ _ _ _) ?_
    rintro ⟨rep, run, value, valid⟩
    refine sc_bind (sc_ite (sc_pure _) (sc_bind (h.navigate _) fun _ => hn _ _ _)) ?_
    rintro ⟨rep2, value, valid⟩
    refine sc_bind (ih _ _) ?_
    rintro ⟨rep3, e⟩; exact sc_pure _

theorem backComputeV (depth level : Nat) (run : R) (value : Nat) (valid : Bool) :
    Cost.Scaled W (F.backComputeV depth level run value valid) (F.plain.backComputeVW depth level run value valid) := by
  induction depth generalizing level run value valid with
  | zero => exact sc_free _
  | succ depth ih =>
    rw [RangePhiC.backComputeV, RangePhi.backComputeVW]
    exact sc_ite (h.phiWhileV _ _ _) (sc_bind (h.splitRun _) fun runs => h.backRunsV _ (fun r p b => ih _ r p b) _ _ _)

theorem backRangeV {runs : Cost (List R)} {runs' : Option (List R)} (hr : Cost.Scaled W runs (split runs')) (prev : Nat) :
    Cost.Scaled W (F.backRangeV runs prev) (F.plain.backRangeVW runs' prev) := by
  rw [RangePhiC.backRangeV, RangePhi.backRangeVW]
  refine sc_bind (h.phi _) ?_
  rintro ⟨value, valid⟩
  refine sc_bind hr fun runs => sc_bind (h.backRunsV _ (fun r p b => h.backComputeV _ _ r p b) _ _ _) ?_
  rintro ⟨l, e⟩; exact sc_pure _

theorem forwCompute (depth level : Nat) (run : R) (prev : Nat) :
    Cost.Scaled W (F.forwCompute depth level run prev) (F.plain.forwComputeW depth level run prev) := by
  induction depth generalizing level run prev with
  | zero => exact sc_free _
  | succ depth ih =>
    rw [RangePhiC.forwCompute, RangePhi.forwComputeW]
    refine sc_ite (h.phiWhile _ _ _) (sc_bind (h.getSample _) fun sample => sc_bind ?_ ?_)
    · cases sample with
      | none => exact sc_pure _
      | some x => exact sc_bind (sc_free _) fun y => sc_bind (sc_free _) fun v => sc_bind (sc_free _) fun _ => sc_pure _
    · rintro ⟨rep, prev, run⟩
      refine sc_ite (sc_pure _) (sc_bind (h.splitRun _) fun runs => sc_bind (sc_foldlM (fun acc r => sc_bind (ih _ r _) ?_) _ _) ?_)
      · rintro ⟨l, p⟩; exact sc_pure _
      · rintro ⟨rep2, prev⟩; exact sc_pure _

theorem forwRange (runs : List R) (prev : Nat) : Cost.Scaled W (F.forwRange runs prev) (F.plain.forwRangeW runs prev) := by
  rw [RangePhiC.forwRange, RangePhi.forwRangeW]
  refine sc_bind (sc_foldlM (fun acc r => sc_bind (h.forwCompute _ _ r _) ?_) _ _) ?_
  · rintro ⟨l, p⟩; exact sc_pure _
  · rintro ⟨l, e⟩; exact sc_pure _

theorem forwComputeV (depth level : Nat) (run : R) (value : Nat) (valid : Bool) :
    Cost.Scaled W (F.forwComputeV depth level run value valid) (F.plain.forwComputeVW depth level run value valid) := by
  induction depth generalizing level run value valid with
  | zero => exact sc_free _
  | succ depth ih =>
    rw [RangePhiC.forwComputeV, RangePhi.forwComputeVW]
    refine sc_ite (h.phiWhileV _ _ _) (sc_bind (h.runValid _ _ _ _ _) ?_)
    rintro ⟨rep, run, value, valid⟩
    refine sc_ite (sc_pure _) (sc_bind (h.splitRun _) fun runs => sc_bind (sc_foldlM (fun acc r => sc_bind (ih _ r _ _) ?_) _ _) ?_)
    · rintro ⟨l, p⟩; exact sc_pure _
    · rintro ⟨rep2, value, valid⟩; exact sc_pure _

theorem forwRangeV {runs : Cost (List R)} {runs' : Option (List R)} (hr : Cost.Scaled W runs (split runs')) (prev : Nat) :
    Cost.Scaled W (F.forwRangeV runs prev) (F.plain.forwRangeVW runs' prev) := by
  rw [RangePhiC.forwRangeV, RangePhi.forwRangeVW]
  refine sc_bind (h.phi _) ?_
  rintro ⟨value, valid⟩
  refine sc_bind hr fun runs => sc_bind (sc_foldlM (fun acc r => sc_bind (h.forwComputeV _ _ r _ _) ?_) _ _) ?_
  · rintro ⟨l, p⟩; exact sc_pure _
  · rintro ⟨l, e⟩; exact sc_pure _

end RangePhiC.Scaled

section
variable {W : Nat}

theorem phiLoopC_scaled {phi : Nat → Cost (Nat × Bool)} {phi' : Nat → Option (Nat × Bool)} (h : ∀ v, Scaled W (phi v) (call (phi' v)))
    (len k : Nat) : Scaled W (phiLoopC phi len k) (phiLoopW phi' len k) := by
  induction len generalizing k with
  | zero => exact sc_ret _
  | succ len ih =>
    rw [phiLoopC, phiLoopW]
    refine sc_bind (h _) ?_
    rintro ⟨k, b⟩
    exact sc_bind (ih _) fun _ => sc_pure _

theorem findSampleC_scaled {β : Type} {g : β → Cost (Option Nat)} {g' : β → Option (Option Nat)} (hg : ∀ d, Scaled W (g d) (call (g' d)))
    {nv : β → Cost β} {nv' : β → Option β} (hn : ∀ d, Scaled W (nv d) (call (nv' d))) (fuel : Nat) (d : β) :
    Scaled W (findSampleC g nv fuel d) (findSampleW g' nv' fuel d) := by
  induction fuel generalizing d with
  | zero => exact sc_free _
  | succ fuel ih =>
    rw [findSampleC, findSampleW]
    refine sc_bind (hg _) fun s => ?_
    cases s with
    | some x => exact sc_pure _
    | none =>
      refine sc_bind (hn _) fun d => sc_bind (ih _) ?_
      rintro ⟨x, j⟩; exact sc_pure _

theorem saValueBackwardC_scaled {β : Type} {g : β → Cost (Option Nat)} {g' : β → Option (Option Nat)} (hg : ∀ d, Scaled W (g d) (call (g' d)))
    {nv : β → Cost β} {nv' : β → Option β} (hn : ∀ d, Scaled W (nv d) (call (nv' d))) (fuel n : Nat) (d : β) :
    Scaled W (saValueBackwardC g nv fuel n d) (saValueBackwardW g' nv' fuel n d) := by
  rw [saValueBackwardC, saValueBackwardW]
  refine sc_bind (findSampleC_scaled hg hn _ _) ?_
  rintro ⟨x, j⟩; exact sc_free _

theorem saValueForwardC_scaled {β : Type} {g : β → Cost (Option Nat)} {g' : β → Option (Option Nat)} (hg : ∀ d, Scaled W (g d) (call (g' d)))
    {nv : β → Cost β} {nv' : β → Option β} (hn : ∀ d, Scaled W (nv d) (call (nv' d))) (fuel n : Nat) (d : β) :
    Scaled W (saValueForwardC g nv fuel n d) (saValueForwardW g' nv' fuel n d) := by
  rw [saValueForwardC, saValueForwardW]
  refine sc_bind (findSampleC_scaled hg hn _ _) ?_
  rintro ⟨x, j⟩; exact sc_bind (sc_free _) fun _ => sc_free _

theorem computeToeholdW_scaled {β : Type} {v v' : β → Cost Nat} (h : ∀ d, Scaled W (v d) (v' d)) (n : Nat) (d : StepData β) :
    Scaled W (computeToeholdW v n d) (computeToeholdW v' n d) := by
  rw [computeToeholdW, computeToeholdW]
  exact sc_bind (h _) fun _ => sc_bind (sc_free _) fun _ => sc_bind (sc_free _) fun _ => sc_free _

theorem computeAllValuesW_scaled {ρ δ : Type} {w w' : ρ → Nat → Cost (List Nat)} (hw : ∀ r k, Scaled W (w r k) (w' r k))
    {t t' : δ → Cost Nat} (ht : ∀ d, Scaled W (t d) (t' d)) (u : ρ → Option ρ) (r : ρ) (d : δ) :
    Scaled W (computeAllValuesW w t u r d) (computeAllValuesW w' t' u r d) := by
  rw [computeAllValuesW, computeAllValuesW]
  exact sc_bind (ht _) fun _ => sc_bind (sc_free _) fun _ => sc_bind (hw _ _) fun _ => sc_pure _

namespace Functors
variable {ρ ν δ : Type} (F : Functors ρ ν δ)

theorem locateC_scaled {lf : ρ → Nat → Cost ν} (hl : ∀ r c, Scaled W (lf r c) (call (F.lf r c))) {w w' : ρ → δ → Cost (List Nat)}
    (h : ∀ r d, Scaled W (w r d) (w' r d)) (P : List Nat) : Scaled W (F.locateC lf w P) (F.locateW w' P) := by
  have loop : ∀ (L : List Nat) (r : ρ) (d : δ), Scaled W (F.locateLoopC lf L r d) (F.locateLoopW L r d) := by
    intro L
    induction L with
    | nil => intro r d; exact sc_ret _
    | cons c L ih =>
      intro r d
      rw [locateLoopC, locateLoopW]
      exact sc_ite (sc_ret _) (sc_bind (hl _ _) fun _ => sc_bind (sc_free _) fun _ => ih _ _)
  rw [locateC, locateW]
  refine sc_bind (loop _ _ _) ?_
  rintro ⟨r, d⟩
  exact sc_ite (sc_pure _) (h _ _)

end Functors
end

end Sri
