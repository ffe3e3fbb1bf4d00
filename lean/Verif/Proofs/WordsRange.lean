import Verif.Proofs.Words
/-! # Reporting a range in machine arithmetic -/
namespace Sri
set_option autoImplicit false

/-- the functors `G` in machine arithmetic follow the functors `F` over the natural numbers: on values below `n`, on whole runs (`V`) and on
    pieces of runs (`P`) -/
structure RangePhi.Sim {R : Type} (F G : RangePhi R) (n : Nat) (V P : R → Prop) : Prop where
  phi : ∀ v, v < n → Agrees (F.phi v) (G.phi v) (fun r => r.1 < n)
  getSample : ∀ r, P r → Agrees (F.getSample r) (G.getSample r) (fun x => ∀ v, x = some v → v < n)
  splitRun : ∀ r, V r → Agrees (F.splitRun r) (G.splitRun r) (fun l => ∀ q ∈ l, P q)
  navigate : ∀ r, P r → Agrees (F.navigate r) (G.navigate r) V
  samplingSize : G.samplingSize = F.samplingSize
  small : F.samplingSize < 2 ^ 63
  seqSize : F.seqSize = n
  seqSize' : G.seqSize = n
  updateV : ∀ r, V r → Agrees (F.updateRun r) (G.updateRun r) (fun q => F.isRunEmpty q = false → V q)
  updateP : ∀ r, P r → Agrees (F.updateRun r) (G.updateRun r) (fun q => F.isRunEmpty q = false → P q)
  isRunEmpty : G.isRunEmpty = F.isRunEmpty

namespace RangePhi
variable {R : Type} {F G : RangePhi R} {n : Nat} {V P : R → Prop}

theorem Sim.phiWhile (h : Sim F G n V P) : ∀ (fuel : Nat) (run : R) (prev : Nat), V run → prev < n →
    Agrees (F.phiWhile fuel run prev) (G.phiWhile fuel run prev) (fun r => r.2 < n) := by
  intro fuel
  induction fuel with
  | zero => intro run prev _ _; exact Agrees.none
  | succ fuel ih =>
    intro run prev hr hp
    simp only [RangePhi.phiWhile, Option.bind_eq_bind, Option.pure_def]
    refine Agrees.bind (h.phi prev hp) fun v hv _ => ?_
    refine Agrees.bind (h.updateV run hr) fun q hq _ => ?_
    rw [h.isRunEmpty]
    refine Agrees.ite (fun _ => Agrees.pure hv) fun he => ?_
    refine Agrees.bind (ih q v.1 (hq (by simpa using he)) hv) fun e he _ => Agrees.pure he

theorem Sim.phiWhileV (h : Sim F G n V P) : ∀ (fuel : Nat) (run : R) (value : Nat), V run → value < n →
    Agrees (F.phiWhileV fuel run value) (G.phiWhileV fuel run value) (fun r => r.2.1 < n) := by
  intro fuel
  induction fuel with
  | zero => intro run prev _ _; exact Agrees.none
  | succ fuel ih =>
    intro run prev hr hp
    simp only [RangePhi.phiWhileV, Option.bind_eq_bind, Option.pure_def]
    refine Agrees.bind (h.updateV run hr) fun q hq _ => ?_
    refine Agrees.bind (h.phi prev hp) fun v hv _ => ?_
    rw [h.isRunEmpty]
    refine Agrees.ite (fun _ => Agrees.pure hv) fun he => ?_
    refine Agrees.bind (ih q v.1 (hq (by simpa using he)) hv) fun e he _ => Agrees.pure he

theorem Sim.backValue (h : Sim F G n V P) (hn : Fits n) {level x : Nat} (hx : x < n) (hl : level ≤ 2 ^ 63) :
    Agrees (cmod (x + 1 + level) F.seqSize) (G.backValue64 level x) (fun v => v < n) := by
  have h4 := hn.four
  have hW := W64_eq
  unfold backValue64
  rw [add64_eq (a := x) (by omega), add64_eq (by omega), h.seqSize, h.seqSize']
  exact Agrees.cmod

theorem Sim.forwValue (h : Sim F G n V P) (hn : Fits n) {level x : Nat} (hx : x < n) (_hl : level ≤ 2 ^ 63) :
    Agrees ((csub (x + 1 + F.seqSize) level).bind (fun y => cmod (y + 1) F.seqSize)) (G.forwValue64 level x) (fun v => v < n) := by
  have h4 := hn.four
  have hW := W64_eq
  refine Agrees.csub fun hle => ?_
  rw [h.seqSize] at hle ⊢
  unfold forwValue64
  rw [h.seqSize', add64_eq (a := x) (by omega), add64_eq (a := x + 1) (by omega), wsub_eq hle (by omega), add64_eq (by omega)]
  exact Agrees.cmod

theorem Sim.backRuns (h : Sim F G n V P) (hn : Fits n) {level : Nat} (hl : level ≤ 2 ^ 63) {next next' : R → Nat → Option (List Nat × Nat)}
    (hnext : ∀ r v, V r → v < n → Agrees (next r v) (next' r v) (fun e => e.2 < n)) :
    ∀ (runs : List R) (prev : Nat), (∀ r ∈ runs, P r) → prev < n →
      Agrees (F.backRuns level next runs prev) (G.backRuns64 level next' runs prev) (fun e => e.2 < n) := by
  intro runs
  induction runs with
  | nil => intro prev _ hp; exact Agrees.pure hp
  | cons run runs ih =>
    intro prev hr hp
    simp only [RangePhi.backRuns, RangePhi.backRuns64, Option.bind_eq_bind, Option.pure_def]
    have hrun := hr run (List.mem_cons_self ..)
    refine Agrees.bind (h.getSample run hrun) fun sample hs _ => ?_
    refine Agrees.bind (P := fun (q : List Nat × Nat × R) => q.2.1 < n ∧ (F.isRunEmpty q.2.2 = false → P q.2.2)) ?_ ?_
    · cases sample with
      | some x =>
        dsimp only
        refine Agrees.bind (h.backValue hn (hs x rfl) hl) fun v hv _ => ?_
        exact Agrees.bind (h.updateP run hrun) fun q hq _ => Agrees.pure ⟨hv, hq⟩
      | none => exact Agrees.pure ⟨hp, fun _ => hrun⟩
    · rintro ⟨rep, prev, run⟩ ⟨hp, hrun⟩ _
      dsimp only at hp hrun ⊢
      rw [h.isRunEmpty]
      refine Agrees.bind (P := fun (q : List Nat × Nat) => q.2 < n) ?_ ?_
      · refine Agrees.ite (fun _ => Agrees.pure hp) fun he => ?_
        exact Agrees.bind (h.navigate run (hrun (by simpa using he))) fun nr hnr _ => hnext nr prev hnr hp
      · rintro ⟨rep2, prev⟩ hp _
        exact Agrees.bind (ih prev (fun r hr' => hr r (List.mem_cons_of_mem _ hr')) hp) fun e he _ => Agrees.pure he

theorem Sim.backCompute (h : Sim F G n V P) (hn : Fits n) : ∀ (depth level : Nat) (run : R) (prev : Nat), level ≤ F.samplingSize + 1 → V run →
    prev < n → Agrees (F.backCompute depth level run prev) (G.backCompute64 depth level run prev) (fun e => e.2 < n) := by
  have hsm := h.small
  have hW := W64_eq
  intro depth
  induction depth with
  | zero => intro level run prev _ _ _; exact Agrees.none
  | succ depth ih =>
    intro level run prev hl hr hp
    simp only [RangePhi.backCompute, RangePhi.backCompute64, Option.bind_eq_bind]
    rw [h.samplingSize, h.seqSize, h.seqSize']
    refine Agrees.ite (fun _ => h.phiWhile n run prev hr hp) fun hlt => ?_
    refine Agrees.bind (h.splitRun run hr) fun runs hruns _ => ?_
    rw [add64_eq (by omega)]
    exact h.backRuns hn (by omega) (fun r v hr hv => ih (level + 1) r v (by omega) hr hv) runs.reverse prev
      (fun r hr => hruns r (List.mem_reverse.1 hr)) hp

theorem Sim.backRange (h : Sim F G n V P) (hn : Fits n) {runs : List R} {prev : Nat} (hr : ∀ r ∈ runs, P r) (hp : prev < n) :
    Agrees (F.backRange runs prev) (G.backRange64 runs prev) (fun _ => True) := by
  unfold RangePhi.backRange RangePhi.backRange64
  simp only [Option.bind_eq_bind, Option.pure_def]
  rw [h.samplingSize, add64_eq (by rw [W64_eq]; omega), Nat.zero_add]
  exact Agrees.bind (h.backRuns hn (by omega) (fun r v hr hv => h.backCompute hn _ 1 r v (by omega) hr hv) runs.reverse prev
    (fun r hr' => hr r (List.mem_reverse.1 hr')) hp) fun _ _ _ => Agrees.pure trivial

/-! ## With validity information -/

theorem Sim.reportValid (h : Sim F G n V P) : ∀ (fuel : Nat) (run : R) (value : Nat) (valid : Bool),
    (F.isRunEmpty run = false → P run) → value < n →
    Agrees (F.reportValid fuel run value valid) (G.reportValid fuel run value valid)
      (fun q => (F.isRunEmpty q.2.1 = false → P q.2.1) ∧ q.2.2.1 < n) := by
  intro fuel
  induction fuel with
  | zero =>
    intro run value valid hr hv
    unfold RangePhi.reportValid
    rw [h.isRunEmpty]
    exact Agrees.ite (fun _ => Agrees.pure ⟨hr, hv⟩) fun _ => Agrees.none
  | succ fuel ih =>
    intro run value valid hr hv
    unfold RangePhi.reportValid
    rw [h.isRunEmpty]
    refine Agrees.ite (fun _ => Agrees.pure ⟨hr, hv⟩) fun he => ?_
    simp only [Option.bind_eq_bind, Option.pure_def]
    have hrun := hr (by simp only [Bool.or_eq_true, not_or] at he; simpa using he.1)
    refine Agrees.bind (h.updateP run hrun) fun q hq _ => ?_
    refine Agrees.bind (h.phi value hv) fun r hr' _ => ?_
    exact Agrees.bind (ih q r.1 r.2 hq hr') fun e he _ => Agrees.pure he

theorem Sim.runValid (h : Sim F G n V P) {tv tv' : Nat → Option Nat} (ht : ∀ x, x < n → Agrees (tv x) (tv' x) (fun v => v < n)) :
    ∀ (fuel : Nat) (run : R) (value : Nat) (valid : Bool), (F.isRunEmpty run = false → P run) → value < n →
    Agrees (F.runValid tv fuel run value valid) (G.runValid tv' fuel run value valid)
      (fun q => (F.isRunEmpty q.2.1 = false → P q.2.1) ∧ q.2.2.1 < n) := by
  intro fuel
  induction fuel with
  | zero => intro run value valid _ _; exact Agrees.none
  | succ fuel ih =>
    intro run value valid hr hv
    simp only [RangePhi.runValid, Option.bind_eq_bind, Option.pure_def]
    rw [h.seqSize, h.seqSize']
    refine Agrees.bind (h.reportValid n run value valid hr hv) ?_
    rintro ⟨l, run, value, valid⟩ ⟨hr, hv⟩ _
    dsimp only at hr hv ⊢
    rw [h.isRunEmpty]
    refine Agrees.ite (fun _ => Agrees.pure ⟨hr, hv⟩) fun he => ?_
    have hrun := hr (by simpa using he)
    refine Agrees.bind (h.getSample run hrun) fun sample hs _ => ?_
    cases sample with
    | some x =>
      dsimp only
      refine Agrees.bind (ht x (hs x rfl)) fun v hv _ => ?_
      exact Agrees.bind (ih run v true hr hv) fun e he _ => Agrees.pure he
    | none =>
      dsimp only
      refine Agrees.ite (fun _ => ?_) fun _ => Agrees.pure ⟨hr, hv⟩
      exact Agrees.bind (ih run value valid hr hv) fun e he _ => Agrees.pure he

theorem Sim.backRunsV (h : Sim F G n V P) (hn : Fits n) {level : Nat} (hl : level ≤ 2 ^ 63)
    {next next' : R → Nat → Bool → Option (List Nat × Nat × Bool)}
    (hnext : ∀ r v b, V r → v < n → Agrees (next r v b) (next' r v b) (fun e => e.2.1 < n)) :
    ∀ (runs : List R) (value : Nat) (valid : Bool), (∀ r ∈ runs, P r) → value < n →
      Agrees (F.backRunsV level next runs value valid) (G.backRunsV64 level next' runs value valid) (fun e => e.2.1 < n) := by
  intro runs
  induction runs with
  | nil => intro value valid _ hv; exact Agrees.pure hv
  | cons run runs ih =>
    intro value valid hr hv
    simp only [RangePhi.backRunsV, RangePhi.backRunsV64, Option.bind_eq_bind, Option.pure_def]
    have hrun := hr run (List.mem_cons_self ..)
    rw [show G.seqSize + 2 = F.seqSize + 2 by rw [h.seqSize, h.seqSize']]
    refine Agrees.bind (h.runValid (fun x hx => h.backValue hn hx hl) _ run value valid (fun _ => hrun) hv) ?_
    rintro ⟨rep, run, value, valid⟩ ⟨hrun, hv⟩ _
    dsimp only at hv hrun ⊢
    rw [h.isRunEmpty]
    refine Agrees.bind (P := fun (q : List Nat × Nat × Bool) => q.2.1 < n) ?_ ?_
    · refine Agrees.ite (fun _ => Agrees.pure hv) fun he => ?_
      exact Agrees.bind (h.navigate run (hrun (by simpa using he))) fun nr hnr _ => hnext nr value valid hnr hv
    · rintro ⟨rep2, value, valid⟩ hv _
      exact Agrees.bind (ih value valid (fun r hr' => hr r (List.mem_cons_of_mem _ hr')) hv) fun e he _ => Agrees.pure he

theorem Sim.backComputeV (h : Sim F G n V P) (hn : Fits n) : ∀ (depth level : Nat) (run : R) (value : Nat) (valid : Bool),
    level ≤ F.samplingSize + 1 → V run → value < n →
    Agrees (F.backComputeV depth level run value valid) (G.backComputeV64 depth level run value valid) (fun e => e.2.1 < n) := by
  have hsm := h.small
  have hW := W64_eq
  intro depth
  induction depth with
  | zero => intro level run value valid _ _ _; exact Agrees.none
  | succ depth ih =>
    intro level run value valid hl hr hv
    simp only [RangePhi.backComputeV, RangePhi.backComputeV64, Option.bind_eq_bind]
    rw [h.samplingSize, h.seqSize, h.seqSize']
    refine Agrees.ite (fun _ => h.phiWhileV n run value hr hv) fun hlt => ?_
    refine Agrees.bind (h.splitRun run hr) fun runs hruns _ => ?_
    rw [add64_eq (by omega)]
    exact h.backRunsV hn (by omega) (fun r v b hr hv => ih (level + 1) r v b (by omega) hr hv) runs.reverse value valid
      (fun r hr => hruns r (List.mem_reverse.1 hr)) hv

theorem Sim.backRangeV (h : Sim F G n V P) (hn : Fits n) {runs runs' : Option (List R)} {prev : Nat}
    (hr : Agrees runs runs' (fun l => ∀ r ∈ l, P r)) (hp : prev < n) :
    Agrees (F.backRangeV runs prev) (G.backRangeV64 runs' prev) (fun _ => True) := by
  unfold RangePhi.backRangeV RangePhi.backRangeV64
  simp only [Option.bind_eq_bind, Option.pure_def]
  rw [h.samplingSize, add64_eq (by rw [W64_eq]; omega), Nat.zero_add]
  refine Agrees.bind (h.phi prev hp) fun v hv _ => ?_
  refine Agrees.bind hr fun l hl _ => ?_
  exact Agrees.bind (h.backRunsV hn (by omega) (fun r v b hr hv => h.backComputeV hn _ 1 r v b (by omega) hr hv) l.reverse v.1 v.2
    (fun r hr' => hl r (List.mem_reverse.1 hr')) hv) fun _ _ _ => Agrees.pure trivial

/-! ## Forwards -/

theorem foldlM_agrees {σ τ : Type} {f g : σ → τ → Option σ} {I : σ → Prop} {J : τ → Prop}
    (h : ∀ a t, I a → J t → Agrees (f a t) (g a t) I) : ∀ (l : List τ) (a : σ), (∀ t ∈ l, J t) → I a →
      Agrees (l.foldlM f a) (l.foldlM g a) I := by
  intro l
  induction l with
  | nil => intro a _ ha; exact Agrees.pure ha
  | cons t l ih =>
    intro a hl ha
    rw [List.foldlM_cons, List.foldlM_cons]
    exact Agrees.bind (h a t ha (hl t (List.mem_cons_self ..))) fun b hb _ => ih b (fun t ht => hl t (List.mem_cons_of_mem _ ht)) hb

theorem Sim.forwCompute (h : Sim F G n P P) (hn : Fits n) : ∀ (depth level : Nat) (run : R) (prev : Nat), level ≤ F.samplingSize + 1 → P run →
    prev < n → Agrees (F.forwCompute depth level run prev) (G.forwCompute64 depth level run prev) (fun e => e.2 < n) := by
  have hsm := h.small
  have hW := W64_eq
  intro depth
  induction depth with
  | zero => intro level run prev _ _ _; exact Agrees.none
  | succ depth ih =>
    intro level run prev hl hr hp
    simp only [RangePhi.forwCompute, RangePhi.forwCompute64, Option.bind_eq_bind, Option.pure_def]
    rw [h.samplingSize, show G.phiWhile G.seqSize run prev = G.phiWhile F.seqSize run prev by rw [h.seqSize, h.seqSize']]
    refine Agrees.ite (fun _ => h.phiWhile _ run prev hr hp) fun hlt => ?_
    refine Agrees.bind (h.getSample run hr) fun sample hs _ => ?_
    refine Agrees.bind (P := fun (q : List Nat × Nat × R) => q.2.1 < n ∧ (F.isRunEmpty q.2.2 = false → P q.2.2)) ?_ ?_
    · cases sample with
      | some x =>
        dsimp only
        rw [← Option.bind_assoc]
        refine Agrees.bind (h.forwValue hn (hs x rfl) (by omega)) fun v hv _ => ?_
        exact Agrees.bind (h.updateP run hr) fun q hq _ => Agrees.pure ⟨hv, hq⟩
      | none => exact Agrees.pure ⟨hp, fun _ => hr⟩
    · rintro ⟨rep, prev, run⟩ ⟨hp, hrun⟩ _
      dsimp only at hp hrun ⊢
      rw [h.isRunEmpty]
      refine Agrees.ite (fun _ => Agrees.pure hp) fun he => ?_
      refine Agrees.bind (h.splitRun run (hrun (by simpa using he))) fun runs hruns _ => ?_
      rw [add64_eq (by omega)]
      refine Agrees.bind (foldlM_agrees (I := fun (a : List Nat × Nat) => a.2 < n) (J := P) ?_ runs ([], prev) hruns hp) fun e he _ => Agrees.pure he
      intro a t ha ht
      exact Agrees.bind (ih (level + 1) t a.2 (by omega) ht ha) fun e he _ => Agrees.pure he

theorem Sim.forwRange (h : Sim F G n P P) (hn : Fits n) {runs : List R} {prev : Nat} (hr : ∀ r ∈ runs, P r) (hp : prev < n) :
    Agrees (F.forwRange runs prev) (G.forwRange64 runs prev) (fun _ => True) := by
  unfold RangePhi.forwRange RangePhi.forwRange64
  simp only [Option.bind_eq_bind, Option.pure_def]
  rw [h.samplingSize]
  refine Agrees.bind (foldlM_agrees (I := fun (a : List Nat × Nat) => a.2 < n) (J := P) ?_ runs ([], prev) hr hp) fun e he _ => Agrees.pure trivial
  intro a t ha ht
  exact Agrees.bind (h.forwCompute hn _ 1 t a.2 (by omega) ht ha) fun e he _ => Agrees.pure he

theorem Sim.forwComputeV (h : Sim F G n P P) (hn : Fits n) : ∀ (depth level : Nat) (run : R) (value : Nat) (valid : Bool),
    level ≤ F.samplingSize + 1 → P run → value < n →
    Agrees (F.forwComputeV depth level run value valid) (G.forwComputeV64 depth level run value valid) (fun e => e.2.1 < n) := by
  have hsm := h.small
  have hW := W64_eq
  intro depth
  induction depth with
  | zero => intro level run value valid _ _ _; exact Agrees.none
  | succ depth ih =>
    intro level run value valid hl hr hv
    simp only [RangePhi.forwComputeV, RangePhi.forwComputeV64, Option.bind_eq_bind, Option.pure_def]
    rw [h.samplingSize, show G.phiWhileV G.seqSize run value = G.phiWhileV F.seqSize run value by rw [h.seqSize, h.seqSize'],
      show G.seqSize + 2 = F.seqSize + 2 by rw [h.seqSize, h.seqSize']]
    refine Agrees.ite (fun _ => h.phiWhileV _ run value hr hv) fun hlt => ?_
    refine Agrees.bind (h.runValid (fun x hx => h.forwValue hn hx (by omega)) _ run value valid (fun _ => hr) hv) ?_
    rintro ⟨rep, run, value, valid⟩ ⟨hrun, hv⟩ _
    dsimp only at hv hrun ⊢
    rw [h.isRunEmpty]
    refine Agrees.ite (fun _ => Agrees.pure hv) fun he => ?_
    refine Agrees.bind (h.splitRun run (hrun (by simpa using he))) fun runs hruns _ => ?_
    rw [add64_eq (by omega)]
    refine Agrees.bind (foldlM_agrees (I := fun (a : List Nat × Nat × Bool) => a.2.1 < n) (J := P) ?_ runs ([], value, valid) hruns hv) fun e he _ => Agrees.pure he
    intro a t ha ht
    exact Agrees.bind (ih (level + 1) t a.2.1 a.2.2 (by omega) ht ha) fun e he _ => Agrees.pure he

theorem Sim.forwRangeV (h : Sim F G n P P) (hn : Fits n) {runs runs' : Option (List R)} {prev : Nat}
    (hr : Agrees runs runs' (fun l => ∀ r ∈ l, P r)) (hp : prev < n) :
    Agrees (F.forwRangeV runs prev) (G.forwRangeV64 runs' prev) (fun _ => True) := by
  unfold RangePhi.forwRangeV RangePhi.forwRangeV64
  simp only [Option.bind_eq_bind, Option.pure_def]
  rw [h.samplingSize]
  refine Agrees.bind (h.phi prev hp) fun v hv _ => ?_
  refine Agrees.bind hr fun l hl _ => ?_
  refine Agrees.bind (foldlM_agrees (I := fun (a : List Nat × Nat × Bool) => a.2.1 < n) (J := P) ?_ l ([], v.1, v.2) hl hv) fun e he _ => Agrees.pure trivial
  intro a t ha ht
  exact Agrees.bind (h.forwComputeV hn _ 1 t a.2.1 a.2.2 (by omega) ht ha) fun e he _ => Agrees.pure he

end RangePhi

/-! ## The backward search -/

section
variable {ρ ν δ : Type} {F G : Functors ρ ν δ}

/-- the functors `G` in machine arithmetic follow the functors `F` over the natural numbers, on the ranges in `Inv`; the toehold data may
    differ once the range is empty -/
structure FunctorsSim (F G : Functors ρ ν δ) (Inv : ρ → Prop) : Prop where
  getSymbol : G.getSymbol = F.getSymbol
  isEmpty : G.isEmpty = F.isEmpty
  bounds : G.bounds = F.bounds
  toRange : G.toRange = F.toRange
  full : G.fullRange G.bwtSize = F.fullRange F.bwtSize
  initial : G.initial = F.initial
  start : Inv (F.fullRange F.bwtSize)
  lf : ∀ r ch, Inv r → F.isEmpty r = false → Agrees (F.lf r (F.getSymbol ch)) (G.lf r (F.getSymbol ch)) (fun nr => Inv (F.toRange nr))
  update : ∀ r nr c i d d', Inv (F.toRange nr) → F.update r nr c i d = some d' → ∃ d'', G.update r nr c i d = some d'' ∧ (F.isEmpty (F.toRange nr) = false → d'' = d')
  computeAll : ∀ r d, Inv r → F.isEmpty r = false → Agrees (F.computeAll r d) (G.computeAll r d) (fun _ => True)

theorem FunctorsSim.countLoop {Inv : ρ → Prop} (h : FunctorsSim F G Inv) : ∀ (P : List Nat) (r : ρ), Inv r →
    Agrees (F.countLoop P r) (G.countLoop P r) (fun _ => True) := by
  intro P
  induction P with
  | nil => intro r _; exact Agrees.pure trivial
  | cons ch P ih =>
    intro r hr
    simp only [Functors.countLoop, Option.bind_eq_bind]
    rw [h.isEmpty, h.getSymbol, h.toRange]
    refine Agrees.ite (fun _ => Agrees.pure trivial) fun he => ?_
    exact Agrees.bind (h.lf r ch hr (by simpa using he)) fun nr hnr _ => ih _ hnr

theorem FunctorsSim.count {Inv : ρ → Prop} (h : FunctorsSim F G Inv) (P : List Nat) : Agrees (F.count P) (G.count P) (fun _ => True) := by
  unfold Functors.count
  simp only [Option.bind_eq_bind, Option.pure_def]
  rw [h.full, h.bounds]
  exact Agrees.bind (h.countLoop P.reverse _ h.start) fun _ _ _ => Agrees.pure trivial

theorem FunctorsSim.locateLoop {Inv : ρ → Prop} (h : FunctorsSim F G Inv) : ∀ (P : List Nat) (r : ρ) (d d' : δ), Inv r →
    (F.isEmpty r = false → d' = d) → ∀ r1 d1, F.locateLoop P r d = some (r1, d1) →
      ∃ d2, G.locateLoop P r d' = some (r1, d2) ∧ Inv r1 ∧ (F.isEmpty r1 = false → d2 = d1) := by
  intro P
  induction P with
  | nil =>
    intro r d d' hr hd r1 d1 e
    simp only [Functors.locateLoop, Option.some.injEq, Prod.mk.injEq] at e
    obtain ⟨rfl, rfl⟩ := e
    exact ⟨d', rfl, hr, hd⟩
  | cons ch P ih =>
    intro r d d' hr hd r1 d1 e
    simp only [Functors.locateLoop, Option.bind_eq_bind] at e ⊢
    rw [h.isEmpty, h.getSymbol, h.toRange]
    by_cases he : F.isEmpty r = true
    · rw [if_pos he, Option.some.injEq, Prod.mk.injEq] at e
      obtain ⟨rfl, rfl⟩ := e
      exact ⟨d', by rw [if_pos he], hr, hd⟩
    · rw [if_neg he] at e ⊢
      have he' : F.isEmpty r = false := by simpa using he
      rw [hd he']
      simp only [Option.bind_eq_some_iff] at e
      obtain ⟨nr, h1, d3, h2, e⟩ := e
      obtain ⟨g1, g2⟩ := h.lf r ch hr he' nr h1
      obtain ⟨d4, g3, g4⟩ := h.update r nr _ _ d d3 g2 h2
      obtain ⟨d2, e1, e2, e3⟩ := ih (F.toRange nr) d3 d4 g2 g4 r1 d1 e
      refine ⟨d2, ?_, e2, e3⟩
      rw [g1, Option.bind_some, g3, Option.bind_some]
      exact e1

theorem FunctorsSim.locate {Inv : ρ → Prop} (h : FunctorsSim F G Inv) (P : List Nat) : Agrees (F.locate P) (G.locate P) (fun _ => True) := by
  intro l hl
  unfold Functors.locate at hl ⊢
  simp only [Option.bind_eq_bind, Option.bind_eq_some_iff, Option.pure_def] at hl ⊢
  obtain ⟨⟨r, d⟩, h1, h2⟩ := hl
  obtain ⟨d2, e1, e2, e3⟩ := h.locateLoop P.reverse _ _ (F.initial (P.length - 1)) h.start (fun _ => rfl) _ _ h1
  refine ⟨⟨(r, d2), by rw [h.full, h.initial]; exact e1, ?_⟩, trivial⟩
  dsimp only at h2 ⊢
  rw [h.isEmpty]
  by_cases he : F.isEmpty r = true
  · rw [if_pos he] at h2 ⊢; exact h2
  · rw [if_neg he] at h2 ⊢
    have he' : F.isEmpty r = false := by simpa using he
    rw [e3 he']
    exact (h.computeAll r d e2 he' l h2).1

end
end Sri
