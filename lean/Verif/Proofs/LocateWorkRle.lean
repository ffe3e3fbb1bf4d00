import Verif.Proofs.LocateWork
/-! # The operations of a Locate query, part 2: the functors over the run-length string make at most 20 operations each -/
namespace Sri
set_option autoImplicit false

open Cost

namespace Cost
variable {α β : Type}

/-- at most `k` operations, whatever the result -/
def Bnd (x : Cost α) (k : Nat) : Prop := x.Le (fun _ c => c ≤ k)

theorem Bnd.up {x : Cost α} {k m : Nat} (h : x.Bnd k) (hk : k ≤ m) : x.Bnd m := h.mono fun _ _ hc => Nat.le_trans hc hk

theorem bnd_free (o : Option α) : (free o).Bnd 0 := le_free fun _ _ => Nat.le_refl _
theorem bnd_call (o : Option α) : (call o).Bnd 1 := le_call fun _ _ => Nat.le_refl _
theorem bnd_ret (a : α) : (ret a).Bnd 0 := le_ret (Nat.le_refl _)
theorem bnd_pure (a : α) : (pure a : Cost α).Bnd 0 := le_ret (Nat.le_refl _)
theorem bnd_none {k : Nat} : (free none : Cost α).Bnd k := le_none

theorem bnd_bind {x : Cost α} {f : α → Cost β} {k m : Nat} (hx : x.Bnd k) (hf : ∀ a, (f a).Bnd m) : (x >>= f).Bnd (k + m) :=
  le_bind hx fun a c hc => (hf a).mono fun _ d hd => by omega

theorem bnd_ite {p : Prop} [Decidable p] {x y : Cost α} {k : Nat} (h : x.Bnd k) (h' : y.Bnd k) : (if p then x else y).Bnd k := by
  split
  · exact h
  · exact h'

end Cost

theorem readW_val {α : Type} (l : List α) (i : Nat) : (readW l i).val = l[i]? := val_call _
theorem readW_bnd {α : Type} (l : List α) (i : Nat) : (readW l i).Bnd 1 := bnd_call _

/-! ## phi -/

theorem circularPredecessorW_val (bv : List Bool) (n i : Nat) :
    (circularPredecessorW bv n i).val = circularPredecessor (bvRank bv) (bvSelect bv) n i := by
  rw [circularPredecessorW, circularPredecessor]
  exact val_bind_eq (val_free _) fun _ => val_bind_eq (val_call _) fun _ => val_bind_eq (val_free _) fun _ => val_bind_eq (val_free _) fun _ =>
    val_bind_eq (val_call _) fun _ => rfl

theorem circularPredecessorW_bnd (bv : List Bool) (n i : Nat) : (circularPredecessorW bv n i).Bnd 2 := by
  rw [circularPredecessorW]
  exact (bnd_bind (bnd_free _) fun _ => bnd_bind (bnd_call _) fun _ => bnd_bind (bnd_free _) fun _ => bnd_bind (bnd_free _) fun _ =>
    bnd_bind (bnd_call _) fun _ => bnd_pure _).up (by omega)

theorem circularSoftSuccessorW_val (bv : List Bool) (n i : Nat) :
    (circularSoftSuccessorW bv n i).val = circularSoftSuccessor (bvRank bv) (bvSelect bv) n i := by
  rw [circularSoftSuccessorW, circularSoftSuccessor]
  exact val_bind_eq (val_free _) fun _ => val_bind_eq (val_call _) fun _ => val_bind_eq (val_free _) fun _ =>
    val_bind_eq (val_call _) fun _ => rfl

theorem circularSoftSuccessorW_bnd (bv : List Bool) (n i : Nat) : (circularSoftSuccessorW bv n i).Bnd 2 := by
  rw [circularSoftSuccessorW]
  exact (bnd_bind (bnd_free _) fun _ => bnd_bind (bnd_call _) fun _ => bnd_bind (bnd_free _) fun _ =>
    bnd_bind (bnd_call _) fun _ => bnd_pure _).up (by omega)

theorem getSampleForPhiW_val {g : Nat → Cost (Nat × Bool)} {g' : Nat → Option (Nat × Bool)} (hg : ∀ i, (g i).val = g' i) {s : Nat → Cost Nat}
    {s' : Nat → Option Nat} (hs : ∀ i, (s i).val = s' i) {v : Nat → Nat → Bool → Cost Bool} {v' : Nat → Nat → Bool → Option Bool}
    (hv : ∀ p d b, (v p d b).val = v' p d b) (p d : Nat) : (getSampleForPhiW g s v p d).val = getSampleForPhi g' s' v' p d := by
  rw [getSampleForPhiW, getSampleForPhi]
  refine val_bind_eq (hg _) ?_
  rintro ⟨idx, b⟩
  exact val_bind_eq (hs _) fun _ => val_bind_eq (hv _ _ _) fun _ => rfl

theorem getSampleForPhiW_bnd {g : Nat → Cost (Nat × Bool)} {s : Nat → Cost Nat} {v : Nat → Nat → Bool → Cost Bool} {a b c : Nat}
    (hg : ∀ i, (g i).Bnd a) (hs : ∀ i, (s i).Bnd b) (hv : ∀ p d t, (v p d t).Bnd c) (p d : Nat) : (getSampleForPhiW g s v p d).Bnd (a + b + c) := by
  rw [getSampleForPhiW]
  refine (bnd_bind (m := b + c) (hg _) ?_).up (by omega)
  rintro ⟨idx, t⟩
  exact (bnd_bind (hs _) fun _ => bnd_bind (hv _ _ _) fun _ => bnd_pure _).up (by omega)

theorem linkW_val (m : List Nat) (b : Bool) (i : Nat) : (linkW m b i).val = (m[i]?).map (fun k => (k, b)) := by
  rw [linkW, val_bind, readW_val]
  cases m[i]? <;> rfl

theorem linkW_bnd (m : List Nat) (b : Bool) (i : Nat) : (linkW m b i).Bnd 1 := bnd_bind (readW_bnd _ _) fun _ => bnd_pure _

theorem linkValidW_val (m : List Nat) (vm : List Bool) (i : Nat) : (linkValidW m vm i).val = (do
    let k ← m[i]?
    let b ← vm[i]?
    return (k, b) : Option (Nat × Bool)) :=
  val_bind_eq (readW_val _ _) fun _ => val_bind_eq (readW_val _ _) fun _ => rfl

theorem linkValidW_bnd (m : List Nat) (vm : List Bool) (i : Nat) : (linkValidW m vm i).Bnd 2 :=
  bnd_bind (readW_bnd _ _) fun _ => bnd_bind (readW_bnd _ _) fun _ => bnd_pure _

theorem validatorDefaultW_val (p d : Nat) (b : Bool) : (validatorDefaultW p d b).val = validatorDefault p d b := rfl
theorem validatorDefaultW_bnd (p d : Nat) (b : Bool) : (validatorDefaultW p d b).Bnd 0 := bnd_ret _

theorem validatorAreaW_val (vm : List Bool) (va : List Nat) (p d : Nat) (b : Bool) :
    (validatorAreaW vm va p d b).val = validatorArea (SrIndexValid.rank0 vm) (fun k => va[k]?) p d b := by
  rw [validatorAreaW, validatorArea]
  exact val_ite rfl (val_bind_eq (val_call _) fun _ => val_bind_eq (readW_val _ _) fun _ => rfl)

theorem validatorAreaW_bnd (vm : List Bool) (va : List Nat) (p d : Nat) (b : Bool) : (validatorAreaW vm va p d b).Bnd 2 := by
  rw [validatorAreaW]
  exact bnd_ite ((bnd_ret _).up (by omega)) (bnd_bind (bnd_call _) fun _ => bnd_bind (readW_bnd _ _) fun _ => bnd_pure _)

theorem phiBackwardW_val {p : Nat → Cost (Nat × Nat)} {p' : Nat → Option (Nat × Nat)} (hp : ∀ i, (p i).val = p' i)
    {g : Nat → Nat → Cost (Nat × Bool)} {g' : Nat → Nat → Option (Nat × Bool)} (hg : ∀ a b, (g a b).val = g' a b) (n v : Nat) :
    (phiBackwardW p g n v).val = phiBackward p' g' n v := by
  rw [phiBackwardW, phiBackward]
  refine val_bind_eq (val_free _) fun _ => val_bind_eq (val_free _) fun _ => val_bind_eq (hp _) ?_
  rintro ⟨pos, rel⟩
  refine val_bind_eq (hg _ _) ?_
  rintro ⟨s, ok⟩
  exact val_bind_eq (val_free _) fun _ => rfl

theorem phiBackwardW_bnd {p : Nat → Cost (Nat × Nat)} {g : Nat → Nat → Cost (Nat × Bool)} {a b : Nat} (hp : ∀ i, (p i).Bnd a)
    (hg : ∀ i j, (g i j).Bnd b) (n v : Nat) : (phiBackwardW p g n v).Bnd (a + b) := by
  rw [phiBackwardW]
  refine (bnd_bind (m := a + b) (bnd_free _) fun _ => (bnd_bind (m := a + b) (bnd_free _) fun _ => bnd_bind (m := b) (hp _) ?_).up (by omega)).up (by omega)
  rintro ⟨pos, rel⟩
  refine bnd_bind (m := 0) (hg _ _) ?_
  rintro ⟨s, ok⟩
  exact bnd_bind (bnd_free _) fun _ => bnd_pure _

theorem phiForwardW_val {p : Nat → Cost (Nat × Nat)} {p' : Nat → Option (Nat × Nat)} (hp : ∀ i, (p i).val = p' i)
    {g : Nat → Nat → Cost (Nat × Bool)} {g' : Nat → Nat → Option (Nat × Bool)} (hg : ∀ a b, (g a b).val = g' a b) (n v : Nat) :
    (phiForwardW p g n v).val = phiForward p' g' n v := by
  rw [phiForwardW, phiForward]
  refine val_bind_eq (hp _) ?_
  rintro ⟨pos, rel⟩
  refine val_bind_eq (val_free _) fun _ => val_bind_eq (hg _ _) ?_
  rintro ⟨s, ok⟩
  exact val_bind_eq (val_free _) fun _ => val_bind_eq (val_free _) fun _ => rfl

theorem phiForwardW_bnd {p : Nat → Cost (Nat × Nat)} {g : Nat → Nat → Cost (Nat × Bool)} {a b : Nat} (hp : ∀ i, (p i).Bnd a)
    (hg : ∀ i j, (g i j).Bnd b) (n v : Nat) : (phiForwardW p g n v).Bnd (a + b) := by
  rw [phiForwardW]
  refine bnd_bind (m := b) (hp _) ?_
  rintro ⟨pos, rel⟩
  refine (bnd_bind (m := b) (bnd_free _) fun _ => bnd_bind (m := 0) (hg _ _) ?_).up (by omega)
  rintro ⟨s, ok⟩
  exact bnd_bind (m := 0) (bnd_free _) fun _ => bnd_bind (bnd_free _) fun _ => bnd_pure _

theorem RIndex.phiW_val (I : RIndex) (v : Nat) : (I.phiW v).val = I.phi v :=
  phiBackwardW_val (circularPredecessorW_val _ _) (getSampleForPhiW_val (linkW_val _ _) (readW_val _) validatorDefaultW_val) _ _

theorem RIndex.phiW_bnd (I : RIndex) (v : Nat) : (I.phiW v).Bnd 4 :=
  phiBackwardW_bnd (circularPredecessorW_bnd _ _) (getSampleForPhiW_bnd (linkW_bnd _ _) (readW_bnd _) validatorDefaultW_bnd) _ _

theorem SrIndexValid.phiMarkW_val (I : SrIndexValid) (v : Nat) : (I.phiMarkW v).val = I.phiMark v :=
  phiBackwardW_val (circularPredecessorW_val _ _) (getSampleForPhiW_val (linkValidW_val _ _) (readW_val _) validatorDefaultW_val) _ _

theorem SrIndexValid.phiMarkW_bnd (I : SrIndexValid) (v : Nat) : (I.phiMarkW v).Bnd 5 :=
  phiBackwardW_bnd (circularPredecessorW_bnd _ _) (getSampleForPhiW_bnd (linkValidW_bnd _ _) (readW_bnd _) validatorDefaultW_bnd) _ _

theorem SrIndexValid.phiAreaW_val (I : SrIndexValid) (v : Nat) : (I.phiAreaW v).val = I.phiArea v :=
  phiBackwardW_val (circularPredecessorW_val _ _) (getSampleForPhiW_val (linkValidW_val _ _) (readW_val _) (validatorAreaW_val _ _)) _ _

theorem SrIndexValid.phiAreaW_bnd (I : SrIndexValid) (v : Nat) : (I.phiAreaW v).Bnd 7 :=
  phiBackwardW_bnd (circularPredecessorW_bnd _ _) (getSampleForPhiW_bnd (linkValidW_bnd _ _) (readW_bnd _) (validatorAreaW_bnd _ _)) _ _

/-! ## the run-length string -/

namespace RLEString
variable (S : RLEString)

theorem rankW_val (i c : Nat) : (S.rankW i c).val = S.rank i c := by
  rw [rankW, rank]
  refine val_bind_eq (val_free _) fun _ => val_bind_eq (val_free _) fun bv => val_ite rfl (val_ite rfl ?_)
  rw [rankSoftRun, bind_assoc]
  refine val_bind_eq (S.rankSoftBothRunW_val i) ?_
  rintro ⟨run, sym⟩
  exact val_bind_eq (val_call _) fun _ => val_bind_eq (afterSelectW_val _ _) fun _ => val_bind_eq (val_free _) fun _ => rfl

theorem rankAtW_val (i : Nat) : (S.rankAtW i).val = S.rankAt i := by
  rw [rankAtW, rankAt]
  refine val_bind_eq (val_free _) fun _ => val_bind_eq (S.rankSoftBothRunW_val i) ?_
  rintro ⟨run, sym⟩
  exact val_bind_eq (val_free _) fun _ => rfl

theorem selectOnRunsW_val (k c : Nat) : (S.selectOnRunsW k c).val = S.selectOnRuns k c := by
  rw [selectOnRunsW, selectOnRuns]
  exact val_bind_eq (val_free _) fun _ => val_bind_eq (val_call _) fun _ => val_bind_eq (val_free _) fun _ => val_call _

theorem selectOnRunsW_bnd (k c : Nat) : (S.selectOnRunsW k c).Bnd 2 := by
  rw [selectOnRunsW]
  exact (bnd_bind (bnd_free _) fun _ => bnd_bind (bnd_call _) fun _ => bnd_bind (bnd_free _) fun _ => bnd_call _).up (by omega)

theorem splitLoopW_val (last fuel : Nat) (run : RunData) : (S.splitLoopW last fuel run).val = S.splitLoop last fuel run := by
  induction fuel generalizing run with
  | zero => rfl
  | succ fuel ih =>
    rw [splitLoopW, splitLoop]
    refine val_ite ?_ rfl
    rw [computeRunData, bind_assoc]
    refine val_bind_eq (S.computeBothRunDataW_val _ _) ?_
    rintro ⟨next, sym⟩
    exact val_bind_eq (ih _) fun _ => rfl

theorem splitInRunsW_val (a b : Nat) : (S.splitInRunsW a b).val = S.splitInRuns a b := by
  rw [splitInRunsW, splitInRuns]
  refine val_bind_eq (val_free _) fun _ => ?_
  rw [rankSoftRun, bind_assoc]
  refine val_bind_eq (S.rankSoftBothRunW_val _) ?_
  rintro ⟨run, sym⟩
  exact S.splitLoopW_val _ _ _

/-- three operations per run reported after the first -/
theorem splitLoopW_le (last fuel : Nat) (run : RunData) : (S.splitLoopW last fuel run).Le (fun l c => c + 3 ≤ 3 * l.length) := by
  induction fuel generalizing run with
  | zero => exact le_none
  | succ fuel ih =>
    rw [splitLoopW]
    refine le_ite (fun _ => ?_) (fun _ => le_ret (Nat.le_refl _))
    refine le_bind (S.computeBothRunDataW_le _ _) ?_
    rintro ⟨next, sym⟩ c1 h1
    refine le_bind (ih _) fun rest c2 h2 => le_pure ?_
    rw [List.length_cons]; omega

end RLEString

namespace Rep
variable {S : RLEString} {R : List (Nat × Nat)}

theorem advance_end (h : Rep S R) {i : Nat} (hi : S.size ≤ i) :
    ∀ (fuel k : Nat) (hk : k < R.length), S.advance i fuel (grun R k hk, srun R k hk) = none := by
  intro fuel
  induction fuel with
  | zero => intro k hk; rfl
  | succ fuel ih =>
    intro k hk
    have hle : rstart R (k+1) ≤ i := by
      rw [h.size_eq, length_expand] at hi
      exact Nat.le_trans (rstart_mono R (by omega)) hi
    rw [RLEString.advance, if_pos (show (grun R k hk).stop ≤ i from hle)]
    by_cases hk1 : k + 1 < R.length
    · have e : S.computeBothRunData ((grun R k hk).rnk + 1) (grun R k hk).stop = _ := h.bothRunData hk1
      simp only [e, Option.bind_eq_bind, Option.bind_some]
      exact ih _ hk1
    · have e : S.computeSymbolRunData ((grun R k hk).rnk + 1) = none := by
        rw [RLEString.computeSymbolRunData, assertC, if_neg]
        · rfl
        · simp only [grun, h.r, decide_eq_true_eq]; omega
      rw [RLEString.computeBothRunData, e]; rfl

/-- past the end of the string there is no run -/
theorem rankSoftBothRun_end (h : Rep S R) {i : Nat} (hi : S.size ≤ i) : S.rankSoftBothRun i = none := by
  rw [RLEString.rankSoftBothRun]
  cases hb : bvRank S.runs i with
  | none => rfl
  | some block =>
    simp only [Option.bind_eq_bind, Option.bind_some]
    by_cases hm : block * S.b < R.length
    · have e := h.blockStart hm
      rw [Nat.mul_div_cancel _ h.b] at e
      rw [e, Option.bind_some, h.bothRunData hm, Option.bind_some, h.advance_end hi]; rfl
    · have e : ∀ a, S.computeBothRunData (block * S.b) a = none := by
        intro a
        rw [RLEString.computeBothRunData, RLEString.computeSymbolRunData, assertC, if_neg]
        · rfl
        · simp only [h.r, decide_eq_true_eq]; exact hm
      cases RLEString.afterSelect S.runs block with
      | none => rfl
      | some a => rw [Option.bind_some, e]; rfl

theorem rankSoftBothRunW_bnd (h : Rep S R) (i : Nat) : (S.rankSoftBothRunW i).Bnd (3 * S.b + 2) := by
  rcases Nat.lt_or_ge i S.size with hi | hi
  · exact h.rankSoftBothRunW_le hi
  · have e := (S.rankSoftBothRunW_val i).trans (h.rankSoftBothRun_end hi)
    intro a c e'
    rw [e'] at e; cases e

theorem rankAtW_bnd (h : Rep S R) (i : Nat) : (S.rankAtW i).Bnd (3 * S.b + 2) := by
  rw [RLEString.rankAtW]
  refine (bnd_bind (m := 3 * S.b + 2) (bnd_free _) fun _ => bnd_bind (m := 0) (h.rankSoftBothRunW_bnd i) ?_).up (by omega)
  rintro ⟨run, sym⟩
  exact bnd_bind (bnd_free _) fun _ => bnd_pure _

theorem rankW_bnd (h : Rep S R) (i c : Nat) : (S.rankW i c).Bnd (3 * S.b + 4) := by
  rw [RLEString.rankW]
  refine (bnd_bind (m := 3 * S.b + 4) (bnd_free _) fun _ => (bnd_bind (m := 3 * S.b + 4) (bnd_free _) fun bv =>
    bnd_ite ((bnd_pure _).up (by omega)) (bnd_ite ((bnd_pure _).up (by omega)) (bnd_bind (m := 2) (h.rankSoftBothRunW_bnd i) ?_))).up (by omega)).up (by omega)
  rintro ⟨run, sym⟩
  exact bnd_bind (bnd_call _) fun _ => bnd_bind (m := 0) (RLEString.afterSelectW_le _ _) fun _ => bnd_bind (bnd_free _) fun _ => bnd_pure _

theorem splitInRunsW_le (h : Rep S R) (a b : Nat) : (S.splitInRunsW a b).Le (fun l c => c + 3 ≤ 3 * S.b + 2 + 3 * l.length) := by
  rw [RLEString.splitInRunsW]
  refine le_bind (P := fun _ c => c = 0) (le_free fun _ _ => rfl) ?_
  rintro _ _ rfl
  refine le_bind (h.rankSoftBothRunW_bnd a) ?_
  rintro ⟨run, sym⟩ c1 h1
  exact (S.splitLoopW_le _ _ _).mono fun l c hc => by omega

end Rep

/-! ## RIndex, SrIndex and its validity classes -/

theorem RIndex.lfW_scaled {I : RIndex} {R : List (Nat × Nat)} (h : Rep I.bwtRle R) (hb : I.bwtRle.b = 2) (r : Range) (c : Nat) :
    Scaled 20 (I.lfW r c) (call (I.lf r c)) :=
  sc_call (I.lfW_val r c) ((I.lfW_le h r c).mono fun _ k hk => by rw [hb] at hk; exact hk)

theorem RIndex.saValueOfRunC_scaled (I : RIndex) (d : RunData) : Scaled 20 (I.saValueOfRunC d) (I.saValueOfRunW d) := by
  rw [saValueOfRunC, saValueOfRunW]
  exact sc_bind (sc_call (RLEString.selectOnRunsW_val _ _ _) ((RLEString.selectOnRunsW_bnd _ _ _).up (by omega))) fun _ =>
    sc_bind (sc_call (readW_val _ _) ((readW_bnd _ _).up (by omega))) fun _ => sc_pure _

theorem RIndex.locateC_scaled {I : RIndex} {R : List (Nat × Nat)} (h : Rep I.bwtRle R) (hb : I.bwtRle.b = 2) (P : List Nat) :
    Scaled 20 (I.locateC P) (I.locateW P) :=
  I.functors.locateC_scaled (lfW_scaled h hb) (computeAllValuesW_scaled
    (fun _ _ => phiLoopC_scaled (fun v => sc_call (I.phiW_val v) ((I.phiW_bnd v).up (by omega))) _ _)
    (computeToeholdW_scaled I.saValueOfRunC_scaled _) _) P

namespace SrIndex
variable (I : SrIndex)

theorem getSampleW_val (k : Nat) : (I.getSampleW k).val = I.getSample k := by
  rw [getSampleW, getSample]
  exact val_bind_eq (readW_val _ _) fun _ => val_ite (val_bind_eq (val_call _) fun _ => val_bind_eq (readW_val _ _) fun _ => rfl) rfl

theorem getSampleW_bnd (k : Nat) : (I.getSampleW k).Bnd 3 := by
  rw [getSampleW]
  exact bnd_bind (m := 2) (readW_bnd _ _) fun _ => bnd_ite (bnd_bind (m := 1) (bnd_call _) fun _ => bnd_bind (m := 0) (readW_bnd _ _) fun _ => bnd_pure _)
    ((bnd_pure _).up (by omega))

theorem getSampleDataW_scaled (d : RunDataExt) : Scaled 20 (I.getSampleDataW d) (call (I.getSampleData d)) := by
  refine sc_call ?_ ?_
  · rw [getSampleDataW, getSampleData]; exact val_ite (I.getSampleW_val _) rfl
  · rw [getSampleDataW]; exact bnd_ite ((I.getSampleW_bnd _).up (by omega)) ((bnd_ret _).up (by omega))

theorem getSampleRunW_scaled (d : PhiRun) : Scaled 20 (I.getSampleRunW d) (call (I.getSampleRun d)) := by
  refine sc_call ?_ ?_
  · rw [getSampleRunW, getSampleRun]; exact val_ite (I.getSampleW_val _) rfl
  · rw [getSampleRunW]; exact bnd_ite ((I.getSampleW_bnd _).up (by omega)) ((bnd_ret _).up (by omega))

theorem setBackStop_length (last : Nat) (l : List PhiRun) : (setBackStop last l).length = l.length := by
  induction l with
  | nil => rfl
  | cons r l ih =>
    cases l with
    | nil => rfl
    | cons r' rest => rw [setBackStop, List.length_cons, ih]; rfl

variable {I} {R : List (Nat × Nat)}

theorem lfDataW_scaled (h : Rep I.base.bwtRle R) (hb : I.base.bwtRle.b = 2) (d : RunDataExt) : Scaled 20 (I.lfDataW d) (call (I.lfData d)) := by
  refine sc_call ?_ ?_
  · rw [lfDataW, lfData]
    refine val_bind_eq (RLEString.rankAtW_val _ _) ?_
    rintro ⟨rnk, c, runRnk, st, stop, sr⟩
    exact val_bind_eq (val_free _) fun _ => val_bind_eq (val_free _) fun _ => rfl
  · rw [lfDataW]
    have e := h.rankAtW_bnd d.nextPos
    rw [hb] at e
    refine (bnd_bind (m := 0) e ?_).up (by omega)
    rintro ⟨rnk, c, runRnk, st, stop, sr⟩
    exact bnd_bind (m := 0) (bnd_free _) fun _ => bnd_bind (bnd_free _) fun _ => bnd_pure _

theorem lfForPhiW_scaled (h : Rep I.base.bwtRle R) (hb : I.base.bwtRle.b = 2) (r : PhiRun) : Scaled 20 (I.lfForPhiW r) (call (I.lfForPhi r)) := by
  refine sc_call ?_ ?_
  · rw [lfForPhiW, lfForPhi]
    exact val_bind_eq (RLEString.rankW_val _ _ _) fun _ => val_bind_eq (RLEString.rankW_val _ _ _) fun _ => val_bind_eq (val_free _) fun _ => rfl
  · rw [lfForPhiW]
    have e := h.rankW_bnd r.start r.c
    have e' := h.rankW_bnd r.stop r.c
    rw [hb] at e e'
    exact bnd_bind (m := 10) e fun _ => bnd_bind (m := 0) e' fun _ => bnd_bind (bnd_free _) fun _ => bnd_pure _

theorem splitW_scaled (h : Rep I.base.bwtRle R) (hb : I.base.bwtRle.b = 2) (a b : Nat) : Scaled 20 (I.splitW a b) (Cost.split (I.split a b)) := by
  refine sc_split ?_ ?_
  · rw [splitW, split]
    refine val_bind_eq (RLEString.splitInRunsW_val _ _ _) fun l => ?_
    cases l <;> rfl
  · rw [splitW]
    refine le_bind (h.splitInRunsW_le a b) fun l c hc => ?_
    rw [hb] at hc
    cases l with
    | nil => exact le_none
    | cons x l =>
      refine le_pure ?_
      rw [setBackStop_length, List.length_cons, List.length_map]
      rw [List.length_cons] at hc
      omega

theorem saValueOfRunC_scaled (h : Rep I.base.bwtRle R) (hb : I.base.bwtRle.b = 2) (d : RunDataExt) :
    Scaled 20 (I.saValueOfRunC d) (I.saValueOfRunW d) := by
  rw [saValueOfRunC, saValueOfRunW]
  exact sc_bind (sc_call (RLEString.selectOnRunsW_val _ _ _) ((RLEString.selectOnRunsW_bnd _ _ _).up (by omega))) fun _ =>
    saValueBackwardC_scaled I.getSampleDataW_scaled (lfDataW_scaled h hb) _ _ _

theorem rangePhiC_scaled (h : Rep I.base.bwtRle R) (hb : I.base.bwtRle.b = 2) {phi : Nat → Option (Nat × Bool)} {phiW : Nat → Cost (Nat × Bool)}
    (hp : ∀ v, Scaled 20 (phiW v) (call (phi v))) : RangePhiC.Scaled 20 (I.rangePhiC phi phiW) :=
  { phi := hp, getSample := I.getSampleRunW_scaled, splitRun := fun r => splitW_scaled h hb r.start r.stop, navigate := lfForPhiW_scaled h hb }

theorem phiForRangeC_scaled (h : Rep I.base.bwtRle R) (hb : I.base.bwtRle.b = 2) (r : Range) (k : Nat) :
    Scaled 20 (I.phiForRangeC r k) (I.phiForRangeW r k) := by
  rw [phiForRangeC, phiForRangeW]
  exact sc_ite (sc_bind (splitW_scaled h hb _ _) fun _ =>
    (rangePhiC_scaled h hb (fun v => sc_call (I.base.phiW_val v) ((I.base.phiW_bnd v).up (by omega)))).backRange _ _) (sc_ret _)

theorem locateC_scaled (h : Rep I.base.bwtRle R) (hb : I.base.bwtRle.b = 2) (g : Range → Nat → Option (List Nat)) {w w' : Range → Nat → Cost (List Nat)}
    (hw : ∀ r k, Scaled 20 (w r k) (w' r k)) (P : List Nat) : Scaled 20 (I.locateC g w P) (I.locateW g w' P) :=
  (I.functorsWith g).locateC_scaled (RIndex.lfW_scaled h hb) (computeAllValuesW_scaled hw (computeToeholdW_scaled (saValueOfRunC_scaled h hb) _) _) P

end SrIndex

theorem SrIndexValid.locateC_scaled {I : SrIndexValid} {R : List (Nat × Nat)} (h : Rep I.sr.base.bwtRle R) (hb : I.sr.base.bwtRle.b = 2)
    {phi : Nat → Option (Nat × Bool)} {phiW : Nat → Cost (Nat × Bool)} (hp : ∀ v, Scaled 20 (phiW v) (call (phi v))) (P : List Nat) :
    Scaled 20 (I.locateC phi phiW P) (I.locateW phi P) := by
  refine SrIndex.locateC_scaled h hb _ (fun r k => ?_) P
  rw [phiForRangeC, phiForRangeW]
  exact sc_ite ((SrIndex.rangePhiC_scaled h hb hp).backRangeV (SrIndex.splitW_scaled h hb _ _) _) (sc_ret _)

end Sri
